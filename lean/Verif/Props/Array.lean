import Verif.Model.Array
import Mathlib.Data.List.Basic
import Mathlib.Algebra.BigOperators.Group.List.Basic
import Mathlib.Tactic.Ring
/-!
C28 (array subscripting).

Specification: the cells of `array(T, n1, …, nk)` are numbered in row-major order, `cell`; subscripting with `all` postpones a
dimension: `assign` follows which dimension each index applies to.
-/
namespace Verif.Arr
open Verif

/-- Row-major number of the cell with index vector `is`. -/
def cell : List Nat → List Nat → Nat
  | _ :: ns, i :: is => i * ns.prod + cell ns is
  | _, _ => 0

/-- Index vectors in range. -/
def InRange (ns is : List Nat) : Prop := List.Forall₂ (fun n i => i < n) ns is

/-- Which dimension each index applies to, when the dimensions `ds` are still to be subscripted: an index applies to the first
    one, `all` postpones the first one after the others. The second component lists the dimensions left. -/
def assign : List Sub → List Nat → List (Nat × Int) × List Nat
  | [], ds => ([], ds)
  | .ix i :: us, d :: ds => let r := assign us ds; ((d, i) :: r.1, r.2)
  | .all :: us, d :: ds => assign us (ds ++ [d])
  | _ :: _, [] => ([], [])

theorem enq_eq (q : Dim) (l : List Dim) : enq q l = l ++ [q] := by
  induction l with
  | nil => rfl
  | cons d r ih => simp [enq, ih]

theorem dense_cons (e n : Nat) (r : List Nat) : dense e (n :: r) = (n, e * r.prod) :: dense e r := by
  induction r generalizing n with
  | nil => simp [dense]
  | cons m r ih =>
    rw [dense, ih m]
    simp [Nat.mul_left_comm]

/-- Stride of dimension `d`. -/
def stride (e : Nat) (ns : List Nat) (d : Nat) : Nat := e * (ns.drop (d + 1)).prod

theorem dense_eq (e : Nat) (ns : List Nat) : dense e ns = (List.range ns.length).map fun d => (ns.getD d 0, stride e ns d) := by
  induction ns with
  | nil => rfl
  | cons n r ih =>
    rw [dense_cons, ih, List.length_cons, List.range_succ_eq_map]
    simp [stride, Function.comp_def]

/-- Subscripting adds, for each index, the index times the stride of its dimension. -/
theorem subscripts_assign (dbg : Bool) (f : Nat → Dim) : ∀ (us : List Sub) (a : Int) (ds : List Nat) (b : Int) (dims' : List Dim),
    subscripts dbg a (ds.map f) us = .ret (b, dims') →
    b = a + (((assign us ds).1.map fun p => p.2 * ((f p.1).2 : Int))).sum ∧ dims' = (assign us ds).2.map f ∧
      (∀ p ∈ (assign us ds).1, 0 ≤ p.2 ∧ p.2 < (f p.1).1) ∧ (((assign us ds).1.map Prod.fst) ++ (assign us ds).2).Perm ds := by
  intro us
  induction us with
  | nil => intro a ds b dims' h; simp [subscripts] at h; simp [assign, h.1.symm, h.2.symm]
  | cons u us ih =>
    intro a ds b dims' h
    rw [subscripts] at h
    cases ds with
    | nil => cases u <;> simp [subscript] at h
    | cons d ds =>
      cases u with
      | ix i =>
        simp only [List.map_cons, subscript] at h
        obtain ⟨n, s⟩ : Dim := f d
        split at h
        · split at h <;> simp at h
        · next hr =>
          simp only [Outcome.bind_ret] at h
          obtain ⟨h1, h2, h3, h4⟩ := ih _ _ _ _ h
          refine ⟨?_, by simpa [assign] using h2, ?_, ?_⟩
          · simp only [assign, List.map_cons, List.sum_cons]; rw [h1]; ring
          · intro p hp
            simp only [assign, List.mem_cons] at hp
            rcases hp with rfl | hp
            · exact ⟨by omega, by simp only; omega⟩
            · exact h3 p hp
          · simpa [assign] using h4
      | all =>
        simp only [List.map_cons, subscript, Outcome.bind_ret, enq_eq] at h
        have e : ds.map f ++ [f d] = (ds ++ [d]).map f := by simp
        rw [e] at h
        obtain ⟨h1, h2, h3, h4⟩ := ih _ _ _ _ h
        refine ⟨by simpa [assign] using h1, by simpa [assign] using h2, by simpa [assign] using h3, ?_⟩
        simp only [assign]
        exact h4.trans (List.perm_append_comm (l₁ := ds) (l₂ := [d]))

theorem cell_sum (e : Nat) : ∀ (ns is : List Nat), is.length = ns.length →
    ((List.range ns.length).map fun d => (is.getD d 0 : Int) * (stride e ns d : Int)).sum = (e * cell ns is : Nat) := by
  intro ns
  induction ns with
  | nil => intro is _; simp [cell]
  | cons n ns ih =>
    intro is hl
    cases is with
    | nil => simp at hl
    | cons i is =>
      rw [List.length_cons, List.range_succ_eq_map, List.map_cons, List.sum_cons, List.map_map]
      have := ih is (by simpa using hl)
      have e1 : (fun d => ((i :: is).getD d 0 : Int) * (stride e (n :: ns) d : Int)) ∘ Nat.succ = fun d => (is.getD d 0 : Int) * (stride e ns d : Int) := by
        funext d; simp [stride]
      rw [e1, this]
      simp [cell, stride]
      ring

/-- However the subscripts are spelled — in dimension order, or postponing dimensions with `all` any number of times — full
    subscripting of an array designates the cell of the index vector in which each index stands at the dimension it applies
    to; every index was in range. -/
theorem C28_subscripts_designate_cell (dbg : Bool) (e : Nat) (ns is : List Nat) (a b : Int) (us : List Sub)
    (h : subscripts dbg a (dense e ns) us = .ret (b, []))
    (his : is.length = ns.length) (hd : ∀ d i, (d, i) ∈ (assign us (List.range ns.length)).1 → (is.getD d 0 : Int) = i) :
    b = a + (e * cell ns is : Nat) ∧ InRange ns is := by
  rw [dense_eq] at h
  obtain ⟨h1, h2, h3, h4⟩ := subscripts_assign dbg _ us a _ b [] h
  have hnil : (assign us (List.range ns.length)).2 = [] := by simpa using h2.symm
  rw [hnil, List.append_nil] at h4
  refine ⟨?_, ?_⟩
  · rw [h1, ← cell_sum e ns is his]
    congr 1
    rw [← (h4.map fun d => (is.getD d 0 : Int) * (stride e ns d : Int)).sum_eq, List.map_map]
    congr 1
    apply List.map_congr_left
    intro p hp
    simp only [Function.comp]
    rw [hd p.1 p.2 hp]
  · have hb : ∀ d, d < ns.length → is.getD d 0 < ns.getD d 0 := by
      intro d hdl
      have : d ∈ (assign us (List.range ns.length)).1.map Prod.fst := h4.mem_iff.2 (by simpa using hdl)
      obtain ⟨p, hp, rfl⟩ := List.mem_map.1 this
      have h5 := h3 p hp
      have h6 := hd p.1 p.2 hp
      simp only at h5
      omega
    unfold InRange
    rw [List.forall₂_iff_get]
    refine ⟨his.symm, fun d h1 h2 => ?_⟩
    have := hb d h1
    simpa [List.getD_eq_getElem?_getD, h1, h2] using this

/-- Plain subscripting `a[i1]…[ik]`, or `a[i1, …, ik]`, with indices in range designates that cell. -/
theorem C28_plain_subscripts (dbg : Bool) (e : Nat) (ns is : List Nat) (a : Int) (h : InRange ns is) :
    subscripts dbg a (dense e ns) (is.map fun i : Nat => Sub.ix i) = .ret (a + (e * cell ns is : Nat), []) := by
  induction h generalizing a with
  | nil => simp [subscripts, dense, cell]
  | @cons n i ns is hi _ ih =>
    rw [dense_cons, List.map_cons, subscripts, subscript, if_neg (by omega), Outcome.bind_ret]
    dsimp only
    rw [ih]
    congr 2
    simp [cell]; ring

theorem cell_lt {ns is : List Nat} (h : InRange ns is) : cell ns is < ns.prod := by
  induction h with
  | nil => simp [cell]
  | @cons n i ns is hi _ ih =>
    rw [cell, List.prod_cons]
    calc i * ns.prod + cell ns is < i * ns.prod + ns.prod := by omega
      _ = (i + 1) * ns.prod := by ring
      _ ≤ n * ns.prod := Nat.mul_le_mul_right _ hi

/-- Cells of index vectors in range lie inside the storage, and different index vectors designate disjoint cells. -/
theorem C28_cells_disjoint (e : Nat) (ns is js : List Nat) (hi : InRange ns is) (hj : InRange ns js) :
    e * cell ns is + e ≤ e * ns.prod ∧
      (is ≠ js → e * cell ns is + e ≤ e * cell ns js ∨ e * cell ns js + e ≤ e * cell ns is) := by
  have inj : ∀ {ns is js : List Nat}, InRange ns is → InRange ns js → cell ns is = cell ns js → is = js := by
    intro ns is js hi
    induction hi generalizing js with
    | nil => intro hj _; cases hj; rfl
    | @cons n i ns is hin hr ih =>
      intro hj hc
      cases hj with
      | @cons _ j _ js hjn hjr =>
        rw [cell, cell] at hc
        have h1 := cell_lt hr
        have h2 := cell_lt hjr
        have hp : 0 < ns.prod := by omega
        have d1 : (i * ns.prod + cell ns is) / ns.prod = i := by
          rw [Nat.mul_comm, Nat.mul_add_div hp, Nat.div_eq_of_lt h1]; rfl
        have d2 : (j * ns.prod + cell ns js) / ns.prod = j := by
          rw [Nat.mul_comm, Nat.mul_add_div hp, Nat.div_eq_of_lt h2]; rfl
        have : i = j := by rw [← d1, ← d2, hc]
        subst this
        rw [ih hjr (by omega)]
  have h1 := cell_lt hi
  refine ⟨?_, fun hne => ?_⟩
  · calc e * cell ns is + e = e * (cell ns is + 1) := by ring
      _ ≤ e * ns.prod := Nat.mul_le_mul_left _ h1
  · have hc : cell ns is ≠ cell ns js := fun h => hne (inj hi hj h)
    rcases Nat.lt_or_gt_of_ne hc with h | h
    · left
      calc e * cell ns is + e = e * (cell ns is + 1) := by ring
        _ ≤ _ := Nat.mul_le_mul_left _ h
    · right
      calc e * cell ns js + e = e * (cell ns js + 1) := by ring
        _ ≤ _ := Nat.mul_le_mul_left _ h

/-- Every cell of the storage is reached by an index vector in range. -/
theorem C28_every_cell_reached (ns : List Nat) (k : Nat) (hk : k < ns.prod) : ∃ is, InRange ns is ∧ cell ns is = k := by
  induction ns generalizing k with
  | nil => exact ⟨[], .nil, by simp at hk; simp [cell, hk]⟩
  | cons n ns ih =>
    rw [List.prod_cons] at hk
    have hp : 0 < ns.prod := by
      rcases Nat.eq_zero_or_pos ns.prod with h | h
      · rw [h] at hk; simp at hk
      · exact h
    obtain ⟨is, h1, h2⟩ := ih (k % ns.prod) (Nat.mod_lt _ hp)
    refine ⟨k / ns.prod :: is, .cons (Nat.div_lt_of_lt_mul (by rwa [Nat.mul_comm])) h1, ?_⟩
    rw [cell, h2, Nat.mul_comm]
    exact Nat.div_add_mod k ns.prod

/-- With debug checks a subscript out of range is reported, on arrays and on slices. -/
theorem C28_out_of_range_reported (a : Int) (n s : Nat) (r : List Dim) (i : Int) (us : List Sub) (h : ¬ (0 ≤ i ∧ i < n)) :
    subscripts true a ((n, s) :: r) (.ix i :: us) = .abort := by
  rw [subscripts, subscript, if_pos (by omega)]; rfl

theorem range_mul (n p : Nat) : (List.range n).flatMap (fun i => (List.range p).map fun k => i * p + k) = List.range (n * p) := by
  induction n with
  | zero => simp
  | succ n ih =>
    rw [List.range_succ, List.flatMap_append, ih, Nat.succ_mul, List.range_add]
    simp

/-- The constructor of an array constructs every cell exactly once, in storage order. -/
theorem C28_constructs_each_cell (e a : Nat) (ns : List Nat) :
    ctorOrder a (dense e ns) = (List.range ns.prod).map fun k => a + e * k := by
  induction ns generalizing a with
  | nil => simp [ctorOrder, dense]
  | cons n ns ih =>
    rw [dense_cons, ctorOrder, List.prod_cons, ← range_mul, List.map_flatMap]
    congr 1
    funext i
    rw [ih, List.map_map]
    apply List.map_congr_left
    intro k _
    simp only [Function.comp]; ring

/-- The destructor destroys every cell exactly once, in the reverse order. -/
theorem C28_destroys_each_cell (e a : Nat) (ns : List Nat) :
    dtorOrder a (dense e ns) = ((List.range ns.prod).map fun k => a + e * k).reverse := by
  have key : ∀ (ds : List Dim) (a : Nat), dtorOrder a ds = (ctorOrder a ds).reverse := by
    intro ds
    induction ds with
    | nil => intro a; rfl
    | cons d ds ih =>
      intro a
      obtain ⟨n, s⟩ := d
      rw [dtorOrder, ctorOrder, List.reverse_flatMap]
      have e1 : (List.range n).reverse = (List.range n).map fun i => n - 1 - i := by
        apply List.ext_getElem <;> simp
      rw [e1, List.flatMap_map]
      apply List.flatMap_congr
      intro i hi
      rw [ih]
      congr 3
      simp at hi
      congr 1; omega
  rw [key, C28_constructs_each_cell]

example : InRange [3, 4, 5] [2, 0, 4] := .cons (by decide) (.cons (by decide) (.cons (by decide) .nil))

/-- `a[all, 0, all][2][4]` of an `array(T, 3, 4, 5)` is `a[2, 0, 4]`. -/
example : subscripts true 1000 (dense 8 [3, 4, 5]) [.all, .ix 0, .all, .ix 2, .ix 4] = .ret (1000 + (8 * cell [3, 4, 5] [2, 0, 4] : Nat), []) ∧
    ∀ d i, (d, i) ∈ (assign [.all, .ix 0, .all, .ix 2, .ix 4] (List.range 3)).1 → (([2, 0, 4] : List Nat).getD d 0 : Int) = i := by
  refine ⟨by decide +kernel, ?_⟩
  intro d i h
  have : (assign [.all, .ix 0, .all, .ix 2, .ix 4] (List.range 3)).1 = [(1, 0), (0, 2), (2, 4)] := by decide +kernel
  rw [this] at h
  simp at h
  rcases h with ⟨rfl, rfl⟩ | ⟨rfl, rfl⟩ | ⟨rfl, rfl⟩ <;> rfl

end Verif.Arr
