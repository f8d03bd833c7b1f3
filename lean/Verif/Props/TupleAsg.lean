import Verif.Proof.TupleAsg
/-
C102: a tuple assignment evaluates each side once, left before right, and assigns all components at
once.
-/
namespace Verif.Props.TupleAsg
open Verif.Model.TupleAsg Verif.Spec.TupleAsg Verif.Proof.TupleAsg

/-- Multiple assignment whose left-hand components are not of reference type.  Whatever the two
sides are (nested tuples, tuple variables, member tuples, calls with effects), and in whatever
order the generated code makes the assignments: the left side is evaluated once from left to right,
then the right side once from left to right, each right-hand component is read when it is
evaluated, and then every place changes at once.  The value is the tuple of new values.
Missing: left-hand components of reference type, and the same place twice on the left (both are
false, see below). -/
theorem C102_multiple_partial (op : Int → Int → Int) (l r : Src) (hl : HasParts l)
    (hr : HasParts r) (hlen : (types l).length = (types r).length)
    (hplain : ∀ t ∈ types l, Plain t) (w : World)
    (hd : Distinct (places l w).2) (order : List Nat) (ho : Order (types l).length order) :
    ∃ a, multiple l r = some a ∧
      (run op a order w).1.log = (values r (places l w).1).1.log ∧
      Simultaneous op (places l w).2 (values r (places l w).1).2 (values r (places l w).1).1.mem
        (run op a order w).1.mem ∧
      (run op a order w).2 =
        List.zipWith (fun d v => op (readCell (values r (places l w).1).1.mem d) v)
          (places l w).2 (values r (places l w).1).2 := by
  refine run_multiple op l r hl hlen w _ _ ?_ (values_length _ _) hd order ho
  intro s hs hc hn
  have h := explode_ok r (expandMember l 0).2
    (explode (expandMember l 0).1 (expandMember r (expandMember l 0).2).2).2
  have hx := (explode_ok l 0 (expandMember r (expandMember l 0).2).2).2.1
  obtain ⟨s', h1, h2, _⟩ := h.2.2 true s hr hx hc hn
  refine ⟨s', ?_, ?_⟩
  · rw [initTemps_rhs _ _ (by rw [types_length, types_length, hlen])
      (by rw [explode_types]; exact hplain), h1, hs]
    simp [look]
  · rw [h2, hs]
    simp [look]

/-- Multiple assignment whose right-hand components are all values and not places (constants,
results of calls): the same, whatever the types on the left. -/
theorem C102_values (op : Int → Int → Int) (l r : Src) (hl : HasParts l)
    (hr : HasParts r) (hlen : (types l).length = (types r).length) (w : World)
    (vs : List Int) (hvs : (places r (places l w).1).2 = vs.map Cell.num)
    (hd : Distinct (places l w).2) (order : List Nat) (ho : Order (types l).length order) :
    ∃ a, multiple l r = some a ∧
      (run op a order w).1.log = (places r (places l w).1).1.log ∧
      Simultaneous op (places l w).2 vs (places r (places l w).1).1.mem
        (run op a order w).1.mem ∧
      (run op a order w).2 =
        List.zipWith (fun d v => op (readCell (places r (places l w).1).1.mem d) v)
          (places l w).2 vs := by
  have hvl : vs.length = (types r).length := by
    rw [← places_length r (places l w).1, hvs, List.length_map]
  refine run_multiple op l r hl hlen w _ _ ?_ hvl hd order ho
  intro s hs hc hn
  have h := explode_ok r (expandMember l 0).2
    (explode (expandMember l 0).1 (expandMember r (expandMember l 0).2).2).2
  have hx := (explode_ok l 0 (expandMember r (expandMember l 0).2).2).2.1
  obtain ⟨s', h1, h2, _⟩ := h.2.2 false s hr hx hc hn
  have h1' : evalList false (explode (expandMember r (expandMember l 0).2).1
      (explode (expandMember l 0).1 (expandMember r (expandMember l 0).2).2).2).1 s =
      (s', vs.map Cell.num) := by
    rw [h1, hs, ← hvs]; simp [look]
  refine ⟨s', ?_, ?_⟩
  · rw [initTemps_rhs_num _ _ (by rw [List.length_map, types_length, types_length, hlen]), h1']
    intro c hcm
    rw [h1'] at hcm
    obtain ⟨n, _, rfl⟩ := List.mem_map.mp hcm
    exact ⟨n, rfl⟩
  · rw [h2, hs]
    simp [look]

/-- There is a multiple assignment exactly when both sides have the same number of components,
however they are nested. -/
theorem C102_sizes (l r : Src) : multiple l r = none ↔ (types l).length ≠ (types r).length :=
  multiple_none l r

/-- Mass assignment of something that is not of reference type: the left side is evaluated once,
then the right side once, and every place is combined with that one value, all at once and in
whatever order.  Missing: a right-hand side of reference type (false in general, see below; true
for `=`, C102_mass_assign) and the same place twice on the left. -/
theorem C102_mass_partial (op : Int → Int → Int) (l : Src) (r : Simple) (hl : HasParts l)
    (w : World) (hr : Plain (Simple.ty r))
    (hd : Distinct (places l w).2) (order : List Nat) (ho : Order (types l).length order) :
    let w2 := (Simple.ev r (places l w).1).1
    let v := readCell w2.mem ((Simple.ev r (places l w).1).2 [])
    (run op (mass l r) order w).1.log = w2.log ∧
      Simultaneous op (places l w).2 (List.replicate (types l).length v) w2.mem
        (run op (mass l r) order w).1.mem ∧
      (run op (mass l r) order w).2 = (places l w).2.map fun d => op (readCell w2.mem d) v :=
  run_mass op l r hl w hr hd order ho

/-- Mass assignment with `=`: every place on the left gets the value the right side had, whatever
the right side is (it may be a reference to one of those places) and however often a place
occurs. -/
theorem C102_mass_assign (l : Src) (r : Simple) (hl : HasParts l) (w : World)
    (order : List Nat) (ho : Order (types l).length order) :
    let w2 := (Simple.ev r (places l w).1).1
    let v := readCell w2.mem ((Simple.ev r (places l w).1).2 [])
    let x := run (fun _ b => b) (mass l r) order w
    x.1.log = w2.log ∧
      (∀ p, Cell.at p ∈ (places l w).2 → x.1.mem p = v) ∧
      (∀ p, Cell.at p ∉ (places l w).2 → x.1.mem p = w2.mem p) ∧
      x.2 = List.replicate (types l).length v :=
  run_mass_plain l r hl w order ho

/-- A variable. -/
def var (x : Nat) (t : Ty) : Simple := .obj (fun _ p => (x, p)) t

/-- Two objects swap. -/
theorem C102_swap (x y : Nat) (hxy : x ≠ y) (w : World) (order : List Nat) (ho : Order 2 order) :
    ∃ a, multiple (.tup [.simple (var x .base), .simple (var y .base)])
        (.tup [.simple (var y .base), .simple (var x .base)]) = some a ∧
      (run (fun _ b => b) a order w).1.mem (x, []) = w.mem (y, []) ∧
      (run (fun _ b => b) a order w).1.mem (y, []) = w.mem (x, []) ∧
      ∀ l, l ≠ (x, []) → l ≠ (y, []) → (run (fun _ b => b) a order w).1.mem l = w.mem l := by
  have h := C102_multiple_partial (fun _ b => b)
    (.tup [.simple (var x .base), .simple (var y .base)])
    (.tup [.simple (var y .base), .simple (var x .base)])
    (by simp [HasParts, HasPartsAll, var, Simple.ty, scalars, scalarsOf])
    (by simp [HasParts, HasPartsAll, var, Simple.ty, scalars, scalarsOf])
    (by simp [types, typesAll, var, Simple.ty, scalars, scalarsOf])
    (by simp [types, typesAll, var, Simple.ty, scalars, scalarsOf, Plain, isRef]) w
    (by
      intro i j l hi hj
      simp only [places, placesAll, var, Simple.ty, Simple.ev, scalars, scalarsOf, List.map_cons,
        List.map_nil, List.nil_append, List.cons_append] at hi hj
      match i, j with
      | 0, 0 => rfl
      | 1, 1 => rfl
      | 0, 1 => simp at hi hj; rw [← hi] at hj; simp at hj; exact absurd hj.symm hxy
      | 1, 0 => simp at hi hj; rw [← hi] at hj; simp at hj; exact absurd hj hxy
      | 0, j + 2 => simp at hj
      | 1, j + 2 => simp at hj
      | i + 2, j => simp at hi)
    order (by simpa [types, typesAll, var, Simple.ty, scalars, scalarsOf] using ho)
  obtain ⟨a, ha, _, ⟨h1, h2⟩, _⟩ := h
  refine ⟨a, ha, ?_, ?_, ?_⟩
  · have := h1 0 (x, []) (w.mem (y, []))
    simp [places, placesAll, values, valuesAll, var, Simple.ty, Simple.ev, scalars, scalarsOf,
      readCell] at this
    exact this
  · have := h1 1 (y, []) (w.mem (x, []))
    simp [places, placesAll, values, valuesAll, var, Simple.ty, Simple.ev, scalars, scalarsOf,
      readCell] at this
    exact this
  · intro l hx hy
    have := h2 l
    simp [places, placesAll, values, valuesAll, var, Simple.ty, Simple.ev, scalars, scalarsOf]
      at this
    exact this hx hy

/-! ### Where it is otherwise -/

def mem0 : Mem := fun l => if l = (0, []) then 10 else if l = (1, []) then 20 else if l = (2, []) then 30 else 0

def w0 : World := ⟨mem0, []⟩

/-- The memory left by a multiple assignment, at the first three variables. -/
def after (op : Int → Int → Int) (l r : Src) (order : List Nat) : Option (Int × Int × Int) :=
  (multiple l r).map fun a =>
    let m := (run op a order w0).1.mem
    (m (0, []), m (1, []), m (2, []))

/-- C102 fails: when the left-hand components are references, the right side is not copied.  With
`int & x`, `int & y` (parameters, say), `[x, y] = [y, x]` does not swap: both end up with the value
of `y`.  A left-hand component of type `int &` is cast to `int &&`, "LHS type minus one reference"
is then `int &`, and the temporary for the right side is a reference to the very object that is
being assigned. -/
theorem C102_swap_references_violated :
    after (fun _ b => b)
      (.tup [.simple (var 0 (.ref .base)), .simple (var 1 (.ref .base))])
      (.tup [.simple (var 1 (.ref .base)), .simple (var 0 (.ref .base))]) [0, 1] =
        some (20, 20, 30) ∧
    after (fun _ b => b)
      (.tup [.simple (var 0 .base), .simple (var 1 .base)])
      (.tup [.simple (var 1 .base), .simple (var 0 .base)]) [0, 1] = some (20, 10, 30) := by
  decide +kernel

/-- C102 fails: for the same reason a right-hand component is not read when it is evaluated.  With
`int & x`, `[x, y] = [z, f()]` where `f` changes `z` gives `x` the changed `z`; with `int x` it
gives the old one. -/
theorem C102_sequence_violated :
    let f : Mem → Mem × Res := fun m => (fun l => if l = (2, []) then 99 else m l, fun _ => .num 7)
    after (fun _ b => b)
      (.tup [.simple (var 0 (.ref .base)), .simple (var 1 .base)])
      (.tup [.simple (var 2 .base), .simple (.call 5 f .base)]) [0, 1] = some (99, 7, 99) ∧
    after (fun _ b => b)
      (.tup [.simple (var 0 .base), .simple (var 1 .base)])
      (.tup [.simple (var 2 .base), .simple (.call 5 f .base)]) [0, 1] = some (30, 7, 99) := by
  decide +kernel

/-- C102 fails: mass assignment does not copy a right-hand side of reference type.  With `int & r`
referring to `b`, `[b, c] += r` doubles `b` and then adds the doubled `b` to `c`; with `r` an object
of the same value it adds the value to both.  And the other order gives another result. -/
theorem C102_mass_violated :
    let go := fun (t : Ty) (order : List Nat) =>
      let m := (run (· + ·) (mass (.tup [.simple (var 1 .base), .simple (var 2 .base)]) (var 1 t))
        order w0).1.mem
      (m (1, []), m (2, []))
    go (.ref .base) [0, 1] = (40, 70) ∧ go (.ref .base) [1, 0] = (40, 50) ∧
      go .base [0, 1] = (40, 50) ∧ go .base [1, 0] = (40, 50) := by
  decide +kernel

/-- C102 fails: the same place twice on the left gets the value of whichever assignment C happens
to make last: they are the initializers of a compound literal. -/
theorem C102_order_violated :
    let f := fun (n : Int) => Src.simple (.call 0 (fun m => (m, fun _ => .num n)) .base)
    after (fun _ b => b) (.tup [.simple (var 0 .base), .simple (var 0 .base)])
      (.tup [f 1, f 2]) [0, 1] = some (2, 20, 30) ∧
    after (fun _ b => b) (.tup [.simple (var 0 .base), .simple (var 0 .base)])
      (.tup [f 1, f 2]) [1, 0] = some (1, 20, 30) := by
  decide +kernel

/-! ### Cases that meet the hypotheses -/

/-- `s.[1, 0]` of a structure, a tuple variable, and a call that returns a tuple. -/
def exL : Src := .tup [.pick (.call 1 (fun m => (m, fun p => .at (3, p))) (.ref (.tup [.base, .base]))) [1, 0],
  .simple (var 4 (.tup [.base, .tup [.base]]))]

def exR : Src := .tup [.simple (.call 2 (fun m => (fun l => if l = (4, [0]) then 50 else m l,
    fun p => .num (if p = [0] then 1 else 2))) (.tup [.base, .base])),
  .pick (var 4 (.tup [.base, .tup [.base]])) [0, 1]]

example : HasParts exL ∧ HasParts exR := by
  simp [exL, exR, HasParts, HasPartsAll, picked, scalars, scalarsOf, scalarsFrom, fieldTy,
    Simple.ty, var]

example : (types exL).length = 4 ∧ (types exR).length = 4 ∧ (∀ t ∈ types exL, Plain t) := by
  simp [exL, exR, types, typesAll, picked, scalars, scalarsOf, scalarsFrom, fieldTy,
    Simple.ty, var, Plain, isRef]

example : (places exL w0).2 = [.at (3, [1]), .at (3, [0]), .at (4, [0]), .at (4, [1, 0])] := by
  decide +kernel

example : (values exR (places exL w0).1).1.log = [1, 2] ∧
    (values exR (places exL w0).1).2 = [1, 2, 50, 0] := by
  decide +kernel

example : ((multiple exL exR).map fun a =>
    let x := run (fun _ b => b) a [2, 0, 3, 1] w0
    (x.1.log, x.1.mem (3, [1]), x.1.mem (3, [0]), x.1.mem (4, [0]), x.2)) =
      some ([1, 2], 1, 2, 50, [1, 2, 50, 0]) := by
  decide +kernel

example : Order 4 [2, 0, 3, 1] := by unfold Order; decide

/-- A mass assignment whose left side has an effect. -/
example :
    let a := mass exL (.call 3 (fun m => (m, fun _ => .num 5)) .base)
    let x := run (· + ·) a [3, 1, 0, 2] w0
    (x.1.log, x.1.mem (3, [1]), x.1.mem (4, [1, 0]), x.2) = ([1, 3], 5, 5, [5, 5, 5, 5]) := by
  decide +kernel

end Verif.Props.TupleAsg
