import Verif.Model.Heap
/-!
Model of the string storage of /repo/libcfa/src/collections/string_res.cfa: the byte area, the handle list, compaction, and the
operations on `string_res` in a shared context (the default). Private contexts (`NO_SHARING`), input and output, and conversions
from numbers are not modelled.

Memory is a function from addresses to bytes; addresses are natural numbers, 0 is null. Strings are numbered; number 0 is the
temporary `pasting` of `assign_`. The handle list is a list of string numbers (the circular list without its header). The share-edit
rings are the link functions. `malloc` of a new area places it `gap` bytes after the old area. Accesses outside the area are not
detected. Sizes are unbounded integers instead of `int`.
-/
namespace Verif.StrHeap
open Verif

/-- string_res.cfa:49-61 `VbyteHeap`, and string_res.hfa:27-51 `HandleNode`, `string_res` (one function for each field). -/
structure Heap where
  mem : Nat → Nat
  start : Nat
  ee : Nat
  ext : Nat
  cur : Nat
  init : Nat
  gap : Nat
  order : List Nat
  s : Nat → Nat
  ln : Nat → Nat
  snext : Nat → Nat
  sprev : Nat → Nat

/-- string_res.cfa:83-100, constructor of the heap, with the address of the area. -/
def make (addr size gap : Nat) : Heap :=
  ⟨fun _ => 0, addr, addr, addr + size, size, size, gap, [], fun _ => 0, fun _ => 0, fun i => i, fun i => i⟩

/-- `memmove(dst, src, n)`. -/
def move (mem : Nat → Nat) (dst src n : Nat) : Nat → Nat :=
  fun a => if dst ≤ a ∧ a < dst + n then mem (src + (a - dst)) else mem a

/-- Copying external bytes into memory. -/
def put (mem : Nat → Nat) (dst : Nat) (bs : List Nat) : Nat → Nat :=
  fun a => if dst ≤ a ∧ a < dst + bs.length then bs.getD (a - dst) 0 else mem a

/-- The bytes `[a, a + n)`. -/
def bytes (mem : Nat → Nat) (a n : Nat) : List Nat := (List.range n).map fun k => mem (a + k)

/-- The characters of a string. -/
def text (h : Heap) (i : Nat) : List Nat := bytes h.mem (h.s i) (h.ln i)

/-- string_res.cfa:1162, `nbase + (s - obase)` in 64-bit unsigned arithmetic. -/
def moved (s obase nbase : Nat) : Nat :=
  if obase ≤ nbase + s then nbase + s - obase else 2 ^ 64 + nbase + s - obase

/-- string_res.cfa:1160-1163, the inner loop of `compaction`. -/
def inner (obase nbase limit : Nat) : List Nat → (Nat → Nat) → List Nat × (Nat → Nat)
  | [], s => ([], s)
  | i :: r, s => if s i ≥ limit then (i :: r, s) else inner obase nbase limit r (upd s i (moved (s i) obase nbase))

/-- string_res.cfa:1151-1164, the outer loop of `compaction`, over the rest of the handle list. -/
def compactLoop (ln : Nat → Nat) : Nat → List Nat → (Nat → Nat) → (Nat → Nat) → Nat → (Nat → Nat) × (Nat → Nat) × Nat
  | 0, _, mem, s, ee => (mem, s, ee)
  | _ + 1, [], mem, s, ee => (mem, s, ee)
  | k + 1, i :: r, mem, s, ee =>
    let mem := move mem ee (s i) (ln i)
    let obase := s i
    let s := upd s i ee
    let (r, s) := inner obase ee (obase + ln i) r s
    compactLoop ln k r mem s (ee + ln i)

/-- string_res.cfa:1142-1169 `compaction`. -/
def compaction (h : Heap) : Heap :=
  let (mem, s, ee) := compactLoop h.ln h.order.length h.order h.mem h.s h.start
  { h with mem := mem, s := s, ee := ee }

/-- string_res.cfa:1219-1236 `extend`. -/
def extend (h : Heap) (size : Nat) : Heap :=
  let cur := h.cur + (if size > h.init then size else h.init)
  let addr := h.ext + h.gap
  compaction { h with cur := cur, start := addr, ee := addr, ext := addr + cur }

/-- string_res.cfa:1183-1213 `garbage`; `low` is the comparison of the free amount with the threshold (1196). -/
def garbage (low : Int → Nat → Bool) (h : Heap) (minreq : Nat) : Heap :=
  let used := (h.order.map h.ln).sum
  let free : Int := (h.ext : Int) - h.start - used
  if low free h.cur ∨ free < minreq then extend h (max h.cur minreq) else compaction h

/-- string_res.cfa:1014-1032 `VbyteAlloc`. -/
def vbyteAlloc (low : Int → Nat → Bool) (h : Heap) (size : Nat) : Heap × Nat :=
  let h := if h.ee + size > h.ext then garbage low h size else h
  ({ h with ee := h.ee + size }, h.ee)

/-- Insertion into the handle list after a node, string_res.cfa:977-992 `AddThisAfter`. -/
def addAfter (i n : Nat) : List Nat → List Nat
  | [] => []
  | a :: r => if a = n then a :: i :: r else a :: addAfter i n r

/-- string_res.cfa:1073-1077, the search of `MoveThisAfter` in the list after the given node: the node is put before the first
    one whose string does not start below its own, and stays where it is if the search meets the node itself. -/
def putSorted (s : Nat → Nat) (i : Nat) : List Nat → List Nat
  | [] => [i]
  | a :: r => if a = i then a :: r else if s i > s a then a :: putSorted s i r else i :: (a :: r).filter (· ≠ i)

/-- string_res.cfa:1064-1082 `MoveThisAfter`: node `i` is put in its place after node `n`. -/
def moveAfter (s : Nat → Nat) (i n : Nat) (order : List Nat) : List Nat :=
  (order.takeWhile (· ≠ n)).filter (· ≠ i) ++
    (if i = n then putSorted s i (order.dropWhile (· ≠ n)).tail
     else n :: putSorted s i (order.dropWhile (· ≠ n)).tail)

/-- string_res.cfa:132-143 (handle linked at the end), 335-348 (empty constructor). -/
def newEmpty (h : Heap) (i : Nat) : Heap :=
  { h with order := h.order ++ [i], s := upd h.s i 0, ln := upd h.ln i 0, snext := upd h.snext i i, sprev := upd h.sprev i i }

/-- A source of characters: bytes outside the heap, or an address and a length. -/
inductive Buf where
  | bytes (bs : List Nat)
  | heap (a n : Nat)

def Buf.size : Buf → Nat
  | .bytes bs => bs.length
  | .heap _ n => n

/-- `memcpy` from a source. -/
def Buf.copy (b : Buf) (mem : Nat → Nat) (dst : Nat) : Nat → Nat :=
  match b with
  | .bytes bs => put mem dst bs
  | .heap a n => move mem dst a n

/-- string_res.cfa:747, the test that the source already follows the string. -/
def Buf.isAt (b : Buf) (x : Nat) : Bool :=
  match b with
  | .bytes _ => false
  | .heap a _ => x == a

/-- string_res.cfa:350-368, 408-420: construction from a buffer. -/
def newBuf (low : Int → Nat → Bool) (h : Heap) (i : Nat) (b : Buf) : Heap :=
  let h := newEmpty h i
  let (h, r) := vbyteAlloc low h b.size
  { h with s := upd h.s i r, ln := upd h.ln i b.size, mem := b.copy h.mem r }

/-- string_res.cfa:424-467, copy constructor, mode `COPY_VALUE`, same heap. -/
def copy (h : Heap) (i src start len : Nat) : Heap :=
  { h with
    s := upd h.s i (h.s src + start), ln := upd h.ln i len, order := addAfter i src h.order
    snext := upd h.snext i i, sprev := upd h.sprev i i }

/-- string_res.cfa:424-467, copy constructor, mode `SHARE_EDITS`. -/
def share (h : Heap) (i src start len : Nat) : Heap :=
  let snext := upd h.snext i (h.snext src)
  let sprev := upd h.sprev i src
  let sprev := upd sprev (snext i) i
  let snext := upd snext (sprev i) i
  { h with
    s := upd h.s i (h.s src + start), ln := upd h.ln i len, order := addAfter i src h.order
    snext := snext, sprev := sprev }

/-- string_res.cfa:704-716, destructor (with that of the handle, 149-161). -/
def destroy (h : Heap) (i : Nat) : Heap :=
  let snext := upd h.snext (h.sprev i) (h.snext i)
  let sprev := upd h.sprev (snext i) (h.sprev i)
  { h with order := h.order.filter (· ≠ i), snext := snext, sprev := sprev }

/-- string_res.cfa:739-764 `append`. -/
def append (low : Int → Nat → Bool) (h : Heap) (i : Nat) (b : Buf) : Heap :=
  let clnth := h.ln i + b.size
  if b.isAt (h.s i + h.ln i) then
    { h with ln := upd h.ln i clnth }
  else
    let h := (if h.s i + h.ln i = h.ee then (vbyteAlloc low h b.size).1
      else
        let (h, nb) := vbyteAlloc low h clnth
        { h with mem := move h.mem nb (h.s i) (h.ln i), s := upd h.s i nb })
    { h with mem := b.copy h.mem (h.s i + h.ln i), ln := upd h.ln i clnth }

/-- string_res.cfa:489-539, new start and length of a peer `p` with start `ps` and length `pl`: the old text is
    `[bb, ab + al)`, the edited part `[bb + bl, ab)`, of old length `ol`; the new text starts at `rs` with length `rl`, the edited string
    now at `es` with length `el`. -/
def peer (bb bl ab al ol rs rl es el ps pl : Nat) : Nat × Nat :=
  if ps ≥ ab then (rs + rl - (ab + al - ps), pl)
  else if ps ≤ bb + bl then
    let pl' := if ps + pl ≤ bb + bl then pl
      else if ps + pl < ab then bl - (ps - bb)
      else pl + el - ol
    (rs + (ps - bb), pl')
  else if ps + pl < ab then (es, 0)
  else (es + el, pl - (ab - ps))

/-- string_res.cfa:489-539, the loop of `assignEditSet` over the peers. -/
def peerLoop (bb bl ab al ol rs rl es el : Nat) (pad : Nat) : List Nat → Heap → Heap
  | [], h => h
  | p :: r, h =>
    let q := peer bb bl ab al ol rs rl es el (h.s p) (h.ln p)
    let s := upd h.s p q.1
    peerLoop bb bl ab al ol rs rl es el pad r { h with s := s, ln := upd h.ln p q.2, order := moveAfter s p pad h.order }

/-- The share-edit peers of a string, from `shareSet_next`; the walk is bounded by the number
    of strings. -/
def walk (snext : Nat → Nat) (i : Nat) : Nat → Nat → List Nat
  | 0, _ => []
  | k + 1, p => if p = i then [] else p :: walk snext i k (snext p)

def peers (h : Heap) (i : Nat) : List Nat := walk h.snext i h.order.length (h.snext i)

/-- string_res.cfa:469-540 `assignEditSet`. -/
def assignEditSet (h : Heap) (i sp ep : Nat) (rs rl pad bsize : Nat) (ps : List Nat) : Heap :=
  let bb := h.s sp
  let bl := h.s i - bb
  let ab := h.s i + h.ln i
  let al := h.s ep + h.ln ep - ab
  let ol := h.ln i
  let s := upd h.s i (rs + bl)
  let h := { h with s := s, ln := upd h.ln i bsize, order := moveAfter s i pad h.order }
  peerLoop bb bl ab al ol rs rl (rs + bl) bsize pad ps h

/-- string_res.cfa:543-554 `locateInShareSet`. -/
def locate (h : Heap) : List Nat → Nat × Nat → Nat × Nat
  | [], r => r
  | p :: ps, (sp, ep) =>
    let sp := if h.s p < h.s sp then p else sp
    let ep := if h.s ep + h.ln ep < h.s p + h.ln p then p else ep
    locate h ps (sp, ep)

/-- string_res.cfa:556-647 `assign_`, shared context; `src` is the managed source string, if any. -/
def assign (low : Int → Nat → Bool) (h : Heap) (i : Nat) (b : Buf) (src : Option Nat) : Heap :=
  let ps := peers h i
  let (sp, ep) := locate h ps (i, i)
  let orig := h.s ep + h.ln ep - h.s sp
  match src with
  | some j =>
    if h.ln i = orig then assignEditSet h i sp ep (h.s j) (h.ln j) j b.size ps
    else paste h sp ep ps
  | none => paste h sp ep ps
where
  /-- string_res.cfa:611-639. -/
  paste (h : Heap) (sp ep : Nat) (ps : List Nat) : Heap :=
    let h1 := newBuf low h 0 (.heap (h.s sp) (h.s i - h.s sp))
    let h2 := append low h1 0 b
    let h3 := append low h2 0 (.heap (h2.s i + h2.ln i) (h2.s ep + h2.ln ep - (h2.s i + h2.ln i)))
    let h4 := assignEditSet h3 i sp ep (h3.s 0) (h3.ln 0) 0 b.size ps
    destroy h4 0

/-- string_res.cfa:782-786 `strcmp$`, on the characters: `memcmp` of the common length, then the difference of the lengths. Only the
    sign of the result is meaningful. -/
def strcmp : List Nat → List Nat → Int
  | a :: as, b :: bs => if a = b then strcmp as bs else if a < b then -1 else 1
  | as, bs => (as.length : Int) - bs.length

/-- The operations on strings: construction (335-348, 350-420), value and shared copies of a part (424-467), destruction (704-716),
    `append` and `+=` (739-768), assignment of characters (653-655), of a string (694-696), of a part of a string (649-651), and
    reading the characters (722-725). -/
inductive Op where
  | newEmpty (i : Nat)
  | newBytes (i : Nat) (bs : List Nat)
  | copy (i j st n : Nat)
  | share (i j st n : Nat)
  | destroy (i : Nat)
  | appendBytes (i : Nat) (bs : List Nat)
  | appendStr (i j n : Nat)
  | assignBytes (i : Nat) (bs : List Nat)
  | assignStr (i j : Nat)
  | assignPart (i j n : Nat)
  | read (i : Nat)

/-- The heap and, for `read`, the characters. -/
def step (low : Int → Nat → Bool) (h : Heap) : Op → Heap × List Nat
  | .newEmpty i => (newEmpty h i, [])
  | .newBytes i bs => (newBuf low h i (.bytes bs), [])
  | .copy i j st n => (copy h i j st n, [])
  | .share i j st n => (share h i j st n, [])
  | .destroy i => (destroy h i, [])
  | .appendBytes i bs => (append low h i (.bytes bs), [])
  | .appendStr i j n => (append low h i (.heap (h.s j) (min (h.ln j) n)), [])
  | .assignBytes i bs => (assign low h i (.bytes bs) none, [])
  | .assignStr i j => (assign low h i (.heap (h.s j) (h.ln j)) (some j), [])
  | .assignPart i j n => (assign low h i (.heap (h.s j) (min (h.ln j) n)) none, [])
  | .read i => (h, text h i)

def run (low : Int → Nat → Bool) : Heap → List Op → Heap × List (List Nat)
  | h, [] => (h, [])
  | h, o :: os =>
    let (h, r) := step low h o
    let (h, rs) := run low h os
    (h, r :: rs)

end Verif.StrHeap
