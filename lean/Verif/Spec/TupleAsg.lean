import Verif.Model.TupleAsg
/-
What a tuple assignment means, without temporaries and unique expressions.
-/
namespace Verif.Spec.TupleAsg
open Verif.Model.TupleAsg

/-- The type of what is written. -/
def Simple.ty : Simple → Ty
  | .obj _ t => t
  | .call _ _ t => t
  | .idx s i => fieldTy (Simple.ty s) i

/-- One evaluation of what is written. -/
def Simple.ev : Simple → World → World × Res
  | .obj a _, w => (w, fun p => .at (a w.mem p))
  | .call n f _, w => ({ mem := (f w.mem).1, log := w.log ++ [n] }, (f w.mem).2)
  | .idx s i, w => ((Simple.ev s w).1, fun p => (Simple.ev s w).2 (i :: p))

mutual
/-- The scalars of a type, each with the members on the way to it and its declared type, from left
to right.  `full` is the type with its references. -/
def scalarsOf (full : Ty) : Ty → List (List Nat × Ty)
  | .base => [([], full)]
  | .ref t => scalarsOf full t
  | .tup ts => scalarsFrom 0 ts
def scalarsFrom (i : Nat) : List Ty → List (List Nat × Ty)
  | [] => []
  | t :: ts => ((scalarsOf t t).map fun p => (i :: p.1, p.2)) ++ scalarsFrom (i + 1) ts
end

def scalars (t : Ty) : List (List Nat × Ty) := scalarsOf t t

/-- The scalars of members `fs`. -/
def picked (t : Ty) (fs : List Nat) : List (List Nat × Ty) :=
  fs.flatMap fun i => (scalars (fieldTy t i)).map fun p => (i :: p.1, p.2)

mutual
/-- The declared types of the components of `e`, from left to right. -/
def types : Src → List Ty
  | .simple s => (scalars (Simple.ty s)).map (·.2)
  | .pick s fs => (picked (Simple.ty s) fs).map (·.2)
  | .tup es => typesAll es
def typesAll : List Src → List Ty
  | [] => []
  | e :: es => types e ++ typesAll es
end

mutual
/-- `e` evaluated once, from left to right, every part of it once: the places its components are
in. -/
def places : Src → World → World × List Cell
  | .simple s, w =>
    ((Simple.ev s w).1, (scalars (Simple.ty s)).map fun p => (Simple.ev s w).2 p.1)
  | .pick s fs, w =>
    ((Simple.ev s w).1, (picked (Simple.ty s) fs).map fun p => (Simple.ev s w).2 p.1)
  | .tup es, w => placesAll es w
def placesAll : List Src → World → World × List Cell
  | [], w => (w, [])
  | e :: es, w =>
    ((placesAll es (places e w).1).1, (places e w).2 ++ (placesAll es (places e w).1).2)
end

mutual
/-- `e` evaluated once, from left to right, every part of it once: the values of its components,
each at the moment it is evaluated. -/
def values : Src → World → World × List Int
  | .simple s, w =>
    ((Simple.ev s w).1,
      (scalars (Simple.ty s)).map fun p => readCell (Simple.ev s w).1.mem ((Simple.ev s w).2 p.1))
  | .pick s fs, w =>
    ((Simple.ev s w).1,
      (picked (Simple.ty s) fs).map fun p =>
        readCell (Simple.ev s w).1.mem ((Simple.ev s w).2 p.1))
  | .tup es, w => valuesAll es w
def valuesAll : List Src → World → World × List Int
  | [], w => (w, [])
  | e :: es, w =>
    ((valuesAll es (values e w).1).1, (values e w).2 ++ (valuesAll es (values e w).1).2)
end

mutual
/-- Every part of `e` has at least one component. -/
def HasParts : Src → Prop
  | .simple s => scalars (Simple.ty s) ≠ []
  | .pick s fs => picked (Simple.ty s) fs ≠ []
  | .tup es => HasPartsAll es
def HasPartsAll : List Src → Prop
  | [] => True
  | e :: es => HasParts e ∧ HasPartsAll es
end

/-- No place occurs twice. -/
def Distinct (ds : List Cell) : Prop :=
  ∀ (i j : Nat) (l : Loc), ds[i]? = some (.at l) → ds[j]? = some (.at l) → i = j

/-- `m'` is `m` with every place `ds[i]` combined with `vs[i]`, all at once: each from the value it
had in `m`, and nothing else changed. -/
def Simultaneous (op : Int → Int → Int) (ds : List Cell) (vs : List Int) (m m' : Mem) : Prop :=
  (∀ (i : Nat) (l : Loc) (v : Int), ds[i]? = some (.at l) → vs[i]? = some v →
    m' l = op (m l) v) ∧
  ∀ l, Cell.at l ∉ ds → m' l = m l

/-- Some order of the `n` assignments. -/
def Order (n : Nat) (order : List Nat) : Prop := order.Perm (List.range n)

/-- Not of reference type. -/
def Plain (t : Ty) : Prop := isRef t = false

end Verif.Spec.TupleAsg
