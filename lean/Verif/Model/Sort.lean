import Verif.Model.Base
/-!
Model of `libcfa/src/bits/algorithm.hfa` (small sort of addresses) and of the binary searches written in
`libcfa/src/stdlib.cfa`. `bsearch` and `qsort` call the C library, which is not modelled.
Arrays are lists; reading or writing outside is undefined.
-/
namespace Verif.Sort

/-- algorithm.hfa:127-129 `SWAP(x,y)`: with `gt b a` for `b > a`, position `x` gets the smaller, `y` the larger. -/
def swapAt {α : Type} (gt : α → α → Bool) (x y : Nat) (arr : List α) : Outcome (List α) :=
  match arr[x]?, arr[y]? with
  | some a, some b => .ret ((arr.set x (if gt b a then a else b)).set y (if gt b a then b else a))
  | _, _ => .undef

/-- A sequence of `SWAP` statements (algorithm.hfa:131-174). -/
def runNet {α : Type} (gt : α → α → Bool) : List (Nat × Nat) → List α → Outcome (List α)
  | [], arr => .ret arr
  | (x, y) :: net, arr => do
    let arr ← swapAt gt x y arr
    runNet gt net arr

/-- algorithm.hfa:131-133 `__libcfa_small_sort2`. -/
def net2 : List (Nat × Nat) := [(0, 1)]
/-- algorithm.hfa:135-139 `__libcfa_small_sort3`. -/
def net3 : List (Nat × Nat) := [(1, 2), (0, 2), (0, 1)]
/-- algorithm.hfa:141-147 `__libcfa_small_sort4`. -/
def net4 : List (Nat × Nat) := [(0, 1), (2, 3), (0, 2), (1, 3), (1, 2)]
/-- algorithm.hfa:149-159 `__libcfa_small_sort5`. -/
def net5 : List (Nat × Nat) := [(0, 1), (3, 4), (2, 4), (2, 3), (0, 3), (0, 2), (1, 4), (1, 3), (1, 2)]
/-- algorithm.hfa:161-174 `__libcfa_small_sort6`. -/
def net6 : List (Nat × Nat) :=
  [(1, 2), (4, 5), (0, 2), (3, 5), (0, 1), (3, 4), (1, 4), (0, 3), (2, 5), (1, 3), (2, 4), (2, 3)]

/-- algorithm.hfa:180-183: `for (j = i; j >= 1 && tmp < arr[j-1]; j--) arr[j] = arr[j-1]; arr[j] = tmp;`
    (`__libcfa_small_sortN`; `j` is an `int`, the model does not bound it). -/
def shiftDown (tmp : Nat) : Nat → List Nat → Outcome (List Nat)
  | 0, arr => if 0 < arr.length then .ret (arr.set 0 tmp) else .undef
  | j + 1, arr =>
    match arr[j]? with
    | none => .undef
    | some p =>
      if tmp < p then
        (if j + 1 < arr.length then shiftDown tmp j (arr.set (j + 1) p) else .undef)
      else (if j + 1 < arr.length then .ret (arr.set (j + 1) tmp) else .undef)

/-- algorithm.hfa:177-184: the outer loop of `__libcfa_small_sortN`, `n` iterations from `i`. -/
def insertFrom : (n i : Nat) → List Nat → Outcome (List Nat)
  | 0, _, arr => .ret arr
  | n + 1, i, arr =>
    match arr[i]? with
    | none => .undef
    | some tmp => do
      let arr ← shiftDown tmp i arr
      insertFrom n (i + 1) arr

/-- algorithm.hfa:176-185 `__libcfa_small_sortN`: `for ( i; 1 ~ dim )`. -/
def sortN (arr : List Nat) : Outcome (List Nat) := insertFrom (arr.length - 1) 1 arr

/-- `b > a` on addresses. -/
def gtNat (b a : Nat) : Bool := decide (b > a)

/-- algorithm.hfa:115-125 `__libcfa_small_sort`; addresses are natural numbers and `dim` is the array's length. -/
def smallSort (arr : List Nat) : Outcome (List Nat) :=
  match arr.length with
  | 1 => .ret arr
  | 2 => runNet gtNat net2 arr
  | 3 => runNet gtNat net3 arr
  | 4 => runNet gtNat net4 arr
  | 5 => runNet gtNat net5 arr
  | 6 => runNet gtNat net6 arr
  | _ => sortN arr

/-- stdlib.cfa:173-184, 232-243 `bsearchl`, the loop from `l`, `h`; `below v` is `vals[m] < key` (directly or through
    `getKey`). Indices do not wrap: an array of more than 2^63 elements does not exist. -/
def searchLoop {E : Type} (below : E → Bool) (vals : List E) (l h : Nat) : Outcome Nat :=
  if hlt : l < h then
    match vals[(l + h) / 2]? with
    | none => .undef
    | some v =>
      if below v then searchLoop below vals ((l + h) / 2 + 1) h
      else searchLoop below vals l ((l + h) / 2)
  else .ret l
termination_by h - l

/-- stdlib.cfa:173-184 `bsearchl`. -/
def bsearchl {E : Type} (lt : E → E → Bool) (key : E) (vals : List E) : Outcome Nat :=
  searchLoop (fun v => lt v key) vals 0 vals.length

/-- stdlib.cfa:191-202 `bsearchu`. -/
def bsearchu {E : Type} (lt : E → E → Bool) (key : E) (vals : List E) : Outcome Nat :=
  searchLoop (fun v => !lt key v) vals 0 vals.length

/-- stdlib.cfa:232-243 `bsearchl` by key. -/
def bsearchlKey {K E : Type} (lt : K → K → Bool) (getKey : E → K) (key : K) (vals : List E) : Outcome Nat :=
  searchLoop (fun v => lt (getKey v) key) vals 0 vals.length

/-- stdlib.cfa:250-261 `bsearchu` by key. -/
def bsearchuKey {K E : Type} (lt : K → K → Bool) (getKey : E → K) (key : K) (vals : List E) : Outcome Nat :=
  searchLoop (fun v => !lt key (getKey v)) vals 0 vals.length

end Verif.Sort
