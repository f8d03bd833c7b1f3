/-!
What a client of the memory allocator may expect: the routines, and what each of them promises about the block it
returns.  Nothing here refers to the way the allocator works.
-/
namespace Verif.HeapAlloc

/-- What a client knows of a block it got: the size it asked for, the alignment it may rely on, whether the block was
promised to be filled with 0, also when it is enlarged, and the bytes whose value it knows. -/
structure Rec where
  size : Nat
  align : Nat
  zero : Bool
  val : Nat → Option Nat

/-- The routines a client calls: libcfa/src/heap.cfa:1285-1513, 1673-1771. -/
inductive Req
  | malloc (n : Nat)
  | aalloc (dim es : Nat)
  | calloc (dim es : Nat)
  | memalign (al n : Nat)
  | amemalign (al dim es : Nat)
  | cmemalign (al dim es : Nat)
  | resize (p n : Nat)
  | realloc (p n : Nat)
  | reallocarray (p dim es : Nat)
  | resizeAl (p al n : Nat)
  | reallocAl (p al n : Nat)
  | reallocarrayAl (p al dim es : Nat)
  | free (p : Nat)
deriving DecidableEq

/-- The numbers a client passes, all of type size_t. -/
def Req.args : Req → List Nat
  | .malloc n => [n]
  | .aalloc d e => [d, e]
  | .calloc d e => [d, e]
  | .memalign al n => [al, n]
  | .amemalign al d e => [al, d, e]
  | .cmemalign al d e => [al, d, e]
  | .resize _ n => [n]
  | .realloc _ n => [n]
  | .reallocarray _ d e => [d, e]
  | .resizeAl _ al n => [al, n]
  | .reallocAl _ al n => [al, n]
  | .reallocarrayAl _ al d e => [al, d, e]
  | .free _ => []

/-- The block the call gives back; 0 is the null pointer. -/
def Req.old : Req → Nat
  | .resize p _ => p
  | .realloc p _ => p
  | .reallocarray p _ _ => p
  | .resizeAl p _ _ => p
  | .reallocAl p _ _ => p
  | .reallocarrayAl p _ _ _ => p
  | .free p => p
  | _ => 0

/-- The number of bytes the client asks for. -/
def Req.bytes : Req → Nat
  | .malloc n => n
  | .aalloc d e => d * e
  | .calloc d e => d * e
  | .memalign _ n => n
  | .amemalign _ d e => d * e
  | .cmemalign _ d e => d * e
  | .resize _ n => n
  | .realloc _ n => n
  | .reallocarray _ d e => d * e
  | .resizeAl _ _ n => n
  | .reallocAl _ _ n => n
  | .reallocarrayAl _ _ d e => d * e
  | .free _ => 0

/-- The alignment a client passes. -/
def Req.alignArg : Req → Nat
  | .memalign al _ => al
  | .amemalign al _ _ => al
  | .cmemalign al _ _ => al
  | .resizeAl _ al _ => al
  | .reallocAl _ al _ => al
  | .reallocarrayAl _ al _ _ => al
  | _ => 0

/-- What the client of a call may expect of the block it gets: this is the specification, from the comments in front of
the routines (heap.cfa:1285-1550).  `old` is the record of the block given back.  A block without bytes is not promised
an alignment. -/
def promise (r : Req) (old : Option Rec) : Rec :=
  let n := r.bytes
  let al (a : Nat) : Nat := if n = 0 then 16 else a
  let fresh : Rec := ⟨n, 16, false, fun _ => none⟩
  let keep (a : Nat) (o : Rec) : Rec :=
    ⟨n, al a, o.zero, fun i => if i < o.size then o.val i else if o.zero then some 0 else none⟩
  match r with
  | .calloc .. => ⟨n, 16, true, fun _ => some 0⟩
  | .memalign a _ => { fresh with align := al a }
  | .amemalign a _ _ => { fresh with align := al a }
  | .cmemalign a _ _ => ⟨n, al a, true, fun _ => some 0⟩
  | .resizeAl _ a _ => { fresh with align := al a }
  | .realloc .. => match old with | some o => keep o.align o | none => fresh
  | .reallocarray .. => match old with | some o => keep o.align o | none => fresh
  | .reallocAl _ a _ => match old with | some o => keep a o | none => { fresh with align := al a }
  | .reallocarrayAl _ a _ _ => match old with | some o => keep a o | none => { fresh with align := al a }
  | _ => fresh

end Verif.HeapAlloc
