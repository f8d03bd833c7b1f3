import Verif.Model.CpuList

/-!
Lists of processors: numbers and ranges of numbers with commas between them.
-/
namespace Verif.CpuList

inductive Item where
  | one (a : List Char)
  | range (a b : List Char)

/-- The value of some decimal digits, each by its place. -/
def value : List Char → Nat
  | [] => 0
  | c :: ds => (c.toNat - '0'.toNat) * 10 ^ ds.length + value ds

/-- A number below the largest `int`. -/
def Num (ds : List Char) : Prop := ds ≠ [] ∧ (∀ c ∈ ds, '0' ≤ c ∧ c ≤ '9') ∧ value ds < 2 ^ 31 - 1

def Item.Ok : Item → Prop
  | .one a => Num a
  | .range a b => Num a ∧ Num b ∧ value a ≤ value b

def Item.text : Item → List Char
  | .one a => a
  | .range a b => a ++ '-' :: b

/-- The processors of an item: `3-5` is 3, 4, 5. -/
def Item.cpus : Item → List Nat
  | .one a => [value a]
  | .range a b => (List.range (value b + 1 - value a)).map (value a + ·)

/-- The text of a list of items. -/
def text : List Item → List Char
  | [] => []
  | [i] => i.text
  | i :: is => i.text ++ ',' :: text is

def cpus (is : List Item) : List Nat := is.flatMap Item.cpus

end Verif.CpuList
