import Verif.Model.StrHeap
/-!
Specification of strings: every string is a range of a document. Strings that share edits are ranges of the same document; a value
copy has a document of its own.
-/
namespace Verif.StrHeap
open Verif

/-- Every live string denotes a range of a document; strings that share edits denote ranges of the same document. `room` is the
    number of bytes that may still be requested. -/
structure Docs where
  live : Nat → Prop
  grp : Nat → Nat
  lo : Nat → Nat
  len : Nat → Nat
  T : Nat → List Nat
  room : Nat

/-- The characters of a string. -/
def Docs.value (A : Docs) (i : Nat) : List Nat := ((A.T (A.grp i)).drop (A.lo i)).take (A.len i)

/-- No string denotes a range of this document. -/
def Docs.fresh (A : Docs) (g : Nat) : Prop := ∀ j, A.live j → A.grp j ≠ g

/-- The string shares edits with no other string. -/
def Docs.solo (A : Docs) (i : Nat) : Prop := ∀ j, A.live j → A.grp j = A.grp i → j = i

/-- A string over a range of a document. -/
def Docs.place (A : Docs) (i g lo len : Nat) : Docs :=
  { A with live := upd A.live i True, grp := upd A.grp i g, lo := upd A.lo i lo, len := upd A.len i len }

/-- A string over a new document. -/
def Docs.new (A : Docs) (i g : Nat) (t : List Nat) : Docs := { A.place i g 0 t.length with T := upd A.T g t }

/-- Where `[lo, lo + len)` starts after `[x, y)` is replaced by `n` characters. -/
def editLo (x y n lo len : Nat) : Nat :=
  if y ≤ lo then lo - y + x + n else if lo ≤ x then lo else if lo + len < y then x else x + n

/-- What is left of the length of `[lo, lo + len)` after `[x, y)` is replaced by `n` characters. -/
def editLen (x y n lo len : Nat) : Nat :=
  if y ≤ lo then len
  else if lo ≤ x then (if lo + len ≤ x then len else if lo + len < y then x - lo else len - (y - x) + n)
  else if lo + len < y then 0 else lo + len - y

/-- The characters of string `i` are replaced in its document. -/
def Docs.edit (A : Docs) (i : Nat) (t : List Nat) : Docs :=
  let x := A.lo i
  let y := A.lo i + A.len i
  let g := A.grp i
  { A with
    T := upd A.T g ((A.T g).take x ++ t ++ (A.T g).drop y)
    lo := fun p => if p = i then x else if A.grp p = g then editLo x y t.length (A.lo p) (A.len p) else A.lo p
    len := fun p => if p = i then t.length else if A.grp p = g then editLen x y t.length (A.lo p) (A.len p) else A.len p }

/-- The string becomes a document of its own, its characters followed by others. -/
def Docs.append (A : Docs) (i : Nat) (t : List Nat) : Docs :=
  { A with
    T := upd A.T (A.grp i) (A.value i ++ t), lo := upd A.lo i 0, len := upd A.len i (A.len i + t.length)
    room := A.room - (A.len i + t.length) }

/-- The characters of the string are replaced in its document, which may be copied. -/
def Docs.assign (A : Docs) (i : Nat) (t : List Nat) : Docs :=
  { A.edit i t with room := A.room - ((A.T (A.grp i)).length + t.length) }

/-- One operation, its effect on the documents, and the characters read. The strings named exist, the new ones do not, a range lies in
    its string, an appended-to string shares edits with no other string, and the bytes that the operation may request are
    available. -/
inductive Spec (A : Docs) : Op → Docs → List Nat → Prop where
  | newEmpty (i g : Nat) (hi : ¬ A.live i) (h0 : i ≠ 0) (hg : A.fresh g) : Spec A (.newEmpty i) (A.new i g []) []
  | newBytes (i g : Nat) (bs : List Nat) (hi : ¬ A.live i) (h0 : i ≠ 0) (hg : A.fresh g) (hr : bs.length ≤ A.room) :
      Spec A (.newBytes i bs) { A.new i g bs with room := A.room - bs.length } []
  | copy (i g j st n : Nat) (hi : ¬ A.live i) (h0 : i ≠ 0) (hg : A.fresh g) (hj : A.live j) (hn : st + n ≤ (A.value j).length) :
      Spec A (.copy i j st n) (A.new i g (((A.value j).drop st).take n)) []
  | share (i j st n : Nat) (hi : ¬ A.live i) (h0 : i ≠ 0) (hj : A.live j) (hn : st + n ≤ A.len j) :
      Spec A (.share i j st n) (A.place i (A.grp j) (A.lo j + st) n) []
  | destroy (i : Nat) (hi : A.live i) : Spec A (.destroy i) { A with live := upd A.live i False } []
  | appendBytes (i : Nat) (bs : List Nat) (hi : A.live i) (hs : A.solo i) (hr : A.len i + bs.length ≤ A.room) :
      Spec A (.appendBytes i bs) (A.append i bs) []
  | appendStr (i j n : Nat) (hi : A.live i) (hj : A.live j) (hs : A.solo i) (hr : A.len i + A.len j ≤ A.room) :
      Spec A (.appendStr i j n) (A.append i ((A.value j).take n)) []
  | assignBytes (i : Nat) (bs : List Nat) (hi : A.live i) (hr : (A.T (A.grp i)).length + bs.length ≤ A.room) :
      Spec A (.assignBytes i bs) (A.assign i bs) []
  | assignStr (i j : Nat) (hi : A.live i) (hj : A.live j) (hr : (A.T (A.grp i)).length + A.len j ≤ A.room) :
      Spec A (.assignStr i j) (A.assign i (A.value j)) []
  | assignPart (i j n : Nat) (hi : A.live i) (hj : A.live j) (hr : (A.T (A.grp i)).length + A.len j ≤ A.room) :
      Spec A (.assignPart i j n) (A.assign i ((A.value j).take n)) []
  | read (i : Nat) (hi : A.live i) : Spec A (.read i) A (A.value i)

/-- A history of operations. -/
inductive SpecRun : Docs → List Op → Docs → List (List Nat) → Prop where
  | nil (A : Docs) : SpecRun A [] A []
  | cons (A B C : Docs) (o : Op) (os : List Op) (r : List Nat) (rs : List (List Nat)) (h : Spec A o B r) (hs : SpecRun B os C rs) :
      SpecRun A (o :: os) C (r :: rs)

/-- No string, and an area of the given size. -/
def Docs.empty (size : Nat) : Docs := ⟨fun _ => False, fun _ => 0, fun _ => 0, fun _ => 0, fun _ => [], size⟩

end Verif.StrHeap
