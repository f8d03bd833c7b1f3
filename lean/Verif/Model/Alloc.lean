import Verif.Model.Base
/-
  The typed allocation functions of /repo/libcfa/src/stdlib.hfa and stdlib.cfa.

  A block is the list of its bytes; a byte nobody has initialised is `none`.  Writing outside the block, or
  reading outside a source array, is undefined.  The allocator itself (heap.cfa) is represented by what these
  functions rely on: `memalign` and `resize` give a block of the size asked for, `realloc` one that starts with
  the bytes of the old block (as many as fit), and `malloc_size` the size the old block was asked for.
  Memory exhaustion and alignment are left out.
-/
namespace Verif.Alloc

abbrev Byte := UInt8

abbrev Block := List (Option Byte)

/-- Store bytes at an offset of a block. -/
def write (b : Block) (i : Nat) (src : List Byte) : Outcome Block :=
  if i + src.length ≤ b.length then .ret (b.take i ++ src.map some ++ b.drop (i + src.length)) else .undef

/-- C `memset`. -/
def memset (b : Block) (i : Nat) (c : Byte) (n : Nat) : Outcome Block := write b i (List.replicate n c)

/-- C `memcpy`. -/
def memcpy (b : Block) (i : Nat) (src : List Byte) (n : Nat) : Outcome Block :=
  if n ≤ src.length then write b i (src.take n) else .undef

/-- `T_fill`: stdlib.hfa:174-185.  The tag, with the field the tag selects. -/
inductive Fill
  | no
  | char (c : Byte)
  | value (t : List Byte)
  | some_ (a : List Byte) (nelem : Nat)
  | all (a : List Byte)
deriving DecidableEq, Repr

/-- Which of `T_resize`, `T_realloc` is given: stdlib.hfa:172-173, 244-249. -/
inductive From
  | fresh
  | resize (old : Block)
  | realloc (old : Block)
deriving DecidableEq, Repr

/-- ?`` `fill``( T t ): stdlib.hfa:197-205. -/
def fillValue (t : List Byte) : Outcome Fill := if 64 < t.length then .abort else .ret (.value t)

/-- ?`` `fill``( T a[], size_t nelem ): stdlib.hfa:207; the field counts bytes. -/
def fillSome (tsize : Nat) (a : List Byte) (nelem : Nat) : Fill := .some_ a (nelem * tsize)

/-- The loop of the `'T'` fill: stdlib.hfa:227-230.  The first argument bounds the number of turns. -/
def fillLoop : Nat → Block → Nat → List Byte → Outcome Block
  | 0, b, _, _ => .ret b
  | n + 1, b, i, t => if i < b.length then (write b i t).bind (fun b' => fillLoop n b' (i + t.length) t) else .ret b

/-- The block before it is filled: stdlib.hfa:216-223. -/
def startBlock (total : Nat) : From → Block
  | .realloc old => old.take total ++ List.replicate (total - old.length) none
  | .resize _ => List.replicate total none
  | .fresh => List.replicate total none

/-- `copy_end`: stdlib.hfa:214, 219. -/
def copyEnd (total : Nat) (src : From) (fill : Fill) : Nat :=
  match src with
  | .realloc old => if fill ≠ .no then min old.length total else 0
  | .resize _ => 0
  | .fresh => 0

/-- `alloc_internal$`: stdlib.hfa:211-238.  `Dim * tsize` is computed in `size_t`. -/
def alloc (tsize dim : Nat) (src : From) (fill : Fill) : Outcome Block :=
  let total := dim * tsize % 2 ^ 64
  let block := startBlock total src
  let copy_end := copyEnd total src fill
  match fill with
  | .no => .ret block
  | .char c => memset block copy_end c (total - copy_end)
  | .value t => fillLoop total block copy_end t
  | .some_ a n => memcpy block copy_end a (min (total - copy_end) n)
  | .all a => memcpy block copy_end a total

/-! ### Arrays of objects -/

/-- `anew`: stdlib.cfa:33-44: the elements it constructs, in order. -/
def anew (dim : Nat) : List Nat := List.range dim

/-- `(int)x` for a `size_t`. -/
def toInt32 (x : Nat) : Int :=
  if x % 4294967296 < 2147483648 then ((x % 4294967296 : Nat) : Int) else ((x % 4294967296 : Nat) : Int) - 4294967296

/-- `i`, then `i - 1`, and so on to `0`. -/
def downFrom : Nat → List Nat
  | 0 => [0]
  | n + 1 => (n + 1) :: downFrom n

/-- The destructors `adelete` runs, in order: stdlib.cfa:46-54.  The index of `for ( i; 0 -~= dim - 1 )` has the
type of `0`, which is `int`: /repo/src/Parser/parser.yy:262-272, 1534.  The dimension is what was
remembered when elements have no size, and otherwise the size of the block divided by the size of an element. -/
def adelete (tsize dim : Nat) : List Nat :=
  let d := if tsize = 0 then dim else dim * tsize / tsize
  let start := toInt32 ((d + 2 ^ 64 - 1) % 2 ^ 64)
  if 0 ≤ start then downFrom start.toNat else []

/-! ### Typed versions of the C functions -/

/-- What is asked of the untyped allocator: an alignment (0 when the usual one is enough) and a size. -/
structure Request where
  align : Nat
  size : Nat
deriving DecidableEq, Repr

/-- A type, for the allocator. -/
structure Elem where
  size : Nat
  align : Nat

/-- `libAlign()`. -/
def libAlign : Nat := 16

/-- `malloc`: stdlib.hfa:52-55. -/
def mallocT (t : Elem) : Request := if t.align ≤ libAlign then ⟨0, t.size⟩ else ⟨t.align, t.size⟩

/-- `aalloc`, `calloc`: stdlib.hfa:57-65. -/
def aallocT (t : Elem) (dim : Nat) : Request :=
  if t.align ≤ libAlign then ⟨0, dim * t.size⟩ else ⟨t.align, dim * t.size⟩

/-- `resize`, `realloc` with a size in bytes: stdlib.hfa:67-83. -/
def reallocT (t : Elem) (size : Nat) : Request := if t.align ≤ libAlign then ⟨0, size⟩ else ⟨t.align, size⟩

/-- The untyped `reallocarray` with three arguments: /repo/libcfa/src/heap.cfa:1423-1425. -/
def reallocarrayC (dim elemSize : Nat) : Request := ⟨0, dim * elemSize⟩

/-- `reallocarray`: stdlib.hfa:85-88. -/
def reallocarrayT (t : Elem) (dim : Nat) : Request :=
  if t.align ≤ libAlign then reallocarrayC dim t.size else reallocarrayC t.align dim

/-- `reallocarray` with an alignment: stdlib.hfa:90-92. -/
def reallocarrayAlignT (_t : Elem) (alignment dim : Nat) : Request := reallocarrayC alignment dim

/-- `memalign`, `aligned_alloc`: stdlib.hfa:94-96, 106-108. -/
def memalignT (t : Elem) (align : Nat) : Request := ⟨align, t.size⟩

/-- `amemalign`, `cmemalign`: stdlib.hfa:98-104. -/
def amemalignT (t : Elem) (align dim : Nat) : Request := ⟨align, dim * t.size⟩

end Verif.Alloc
