import Verif.Model.Base
/-!
Model of multi-dimensional arrays and slices, /repo/libcfa/src/collections/array.hfa.

The type `arpk(N, S, Timmed, Tbase)` of an array or slice is the list, outermost first, of its dimensions: the number of
elements N and the stride sizeof(S) in bytes. Subscripting yields an address and the type of the designated part.
Addresses are integers.
-/
namespace Verif.Arr
open Verif

/-- One level of `arpk`: number of elements, stride in bytes. array.hfa:49-55. -/
abbrev Dim := Nat × Nat

/-- array.hfa:183-187 `mkar_`: the type `array(T, n1, …, nk)` for an element size; the stride of a dimension is the size of the
    array of the inner dimensions. -/
def dense (e : Nat) : List Nat → List Dim
  | [] => []
  | n :: r => (n, match dense e r with
      | [] => e
      | (m, s) :: _ => m * s) :: dense e r

/-- A subscript: an index or `all`. -/
inductive Sub where
  | ix (i : Int)
  | all
  deriving DecidableEq

/-- array.hfa:314-326 `enq_`: the type with a dimension added innermost. -/
def enq (q : Dim) : List Dim → List Dim
  | [] => [q]
  | d :: r => d :: enq q r

/-- array.hfa:9-21 (`subcheck`), 88-136 (`?[?]` with an index), 330-333 (`?[?]` with `all`). Without debug checks an index out of
    range is undefined behaviour. -/
def subscript (dbg : Bool) (a : Int) (dims : List Dim) : Sub → Outcome (Int × List Dim)
  | .ix i => match dims with
    | [] => .undef
    | (n, s) :: r => if i < 0 ∨ i ≥ n then (if dbg then .abort else .undef) else .ret (a + i * s, r)
  | .all => match dims with
    | [] => .undef
    | d :: r => .ret (a, enq d r)

/-- array.hfa:229-242, 284-297: `a[i, j, …]` subscripts from left to right, as does `a[i][j]…`. -/
def subscripts (dbg : Bool) (a : Int) (dims : List Dim) : List Sub → Outcome (Int × List Dim)
  | [] => .ret (a, dims)
  | u :: us => do
    let (a, dims) ← subscript dbg a dims u
    subscripts dbg a dims us

/-- array.hfa:160-166: addresses whose constructor is called, in order. -/
def ctorOrder (a : Nat) : List Dim → List Nat
  | [] => [a]
  | (n, s) :: r => (List.range n).flatMap fun i => ctorOrder (a + i * s) r

/-- array.hfa:168-176: addresses whose destructor is called, in order. -/
def dtorOrder (a : Nat) : List Dim → List Nat
  | [] => [a]
  | (n, s) :: r => (List.range n).flatMap fun i => dtorOrder (a + (n - i - 1) * s) r

end Verif.Arr
