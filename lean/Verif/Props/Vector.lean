import Verif.Proof.Vector
/-!
C25 (vector is a growable array) and C26 (vector copy and clear).

Specification of C25: the vector is a list, together with the values destroyed so far.
-/
namespace Verif.Vector
open Verif
variable {α : Type}

/-- Calls and results, from elements `l` and destroyed values `g`. Indices are in range; the last element exists for
    `popBack`, `front`, `back`; a vector never has 2^64 elements. -/
inductive Spec : List α → List α → Op α → List α → List α → Res α → Prop
  | pushBack (l g x) : l.length + 1 < 2 ^ 64 → Spec l g (.pushBack x) (l ++ [x]) g .unit
  | popBack (l x g) : Spec (l ++ [x]) g .popBack l (g ++ [x]) .unit
  | at_ (l g i) (h : i < l.length) : Spec l g (.at_ i) l g (.val l[i])
  | front (x l g) : Spec (x :: l) g .front (x :: l) g (.val x)
  | back (l x g) : Spec (l ++ [x]) g .back (l ++ [x]) g (.val x)
  | size (l g) : Spec l g .size l g (.num l.length)
  | isEmpty (l g) : Spec l g .isEmpty l g (.bool l.isEmpty)
  | reserve (l g n) : Spec l g (.reserve n) l g .unit

inductive SpecRun : List α → List α → List (Op α) → List α → List α → List (Res α) → Prop
  | nil (l g) : SpecRun l g [] l g []
  | cons (l g o l' g' r os l'' g'' rs) : Spec l g o l' g' r → SpecRun l' g' os l'' g'' rs →
      SpecRun l g (o :: os) l'' g'' (r :: rs)

theorem step_spec {l g l' g' : List α} {o : Op α} {r : Res α} (hs : Spec l g o l' g' r) (triv : Bool) {v : Vec α}
    (h : Inv v l g) : ∃ v', step triv v o = .ret (v', r) ∧ Inv v' l' g' := by
  have hk := h.cells
  have hsz := h.size
  cases hs with
  | pushBack _ _ x hf => obtain ⟨v', h1, h2⟩ := pushBack_spec h x hf; exact ⟨v', by simp [step, h1], h2⟩
  | popBack l x _ => obtain ⟨v', h1, h2⟩ := popBack_spec h triv; exact ⟨v', by simp [step, h1], h2⟩
  | at_ _ _ i hi =>
    obtain ⟨k, hk⟩ := hk
    exact ⟨v, by simp [step, Vector.at_, hk, rd_eq _ _ _ hi], h⟩
  | front x l _ =>
    obtain ⟨k, hk⟩ := hk
    exact ⟨v, by simp only [step, Vector.front, hk, rd_eq (x :: l) k 0 (by simp)]; rfl, h⟩
  | back l x _ =>
    obtain ⟨k, hk⟩ := hk
    have hf := h.fits
    simp at hf hsz
    have e : (v.size + (2 ^ 64 - 1)) % 2 ^ 64 = l.length := by rw [hsz]; omega
    refine ⟨v, ?_, h⟩
    simp only [step, Vector.back, hk, e, rd_eq (l ++ [x]) k l.length (by simp)]
    simp
  | size => exact ⟨v, by rw [step, hsz], h⟩
  | isEmpty =>
    refine ⟨v, ?_, h⟩
    rw [step, Vector.isEmpty, hsz]
    cases l <;> simp
  | reserve _ _ n =>
    obtain ⟨k, hk⟩ := hk
    obtain ⟨k', h1, _⟩ := reallocStorage_eq l k n
    exact ⟨_, rfl, ⟨k', by simp only [Vector.reserve]; rw [hk, h1]⟩, hsz, h.fits, h.gone⟩

theorem run_spec {l g l' g' : List α} {os : List (Op α)} {rs : List (Res α)} (h : SpecRun l g os l' g' rs) (triv : Bool) :
    ∀ v, Inv v l g → ∃ v', run triv v os = .ret (v', rs) ∧ Inv v' l' g' := by
  induction h with
  | nil l g => exact fun v hv => ⟨v, rfl, hv⟩
  | cons l g o l' g' r os l'' g'' rs h1 _ ih =>
    intro v hv
    obtain ⟨v', h2, h3⟩ := step_spec h1 triv hv
    obtain ⟨v'', h4, h5⟩ := ih v' h3
    exact ⟨v'', by simp [run, h2, h4], h5⟩

theorem empty_inv : Inv (empty : Vec α) [] [] := ⟨⟨0, rfl⟩, rfl, by simp, rfl⟩

/-- Every history of calls, from an empty vector and whatever the growth steps, returns what it returns on lists; each
    element removed is destroyed once, and no other. -/
theorem C25_vector_is_list (triv : Bool) (os : List (Op α)) (l g : List α) (rs : List (Res α)) (h : SpecRun [] [] os l g rs) :
    ∃ v, run triv empty os = .ret (v, rs) ∧ v.gone = g := by
  obtain ⟨v, h1, h2⟩ := run_spec h triv _ empty_inv
  exact ⟨v, h1, h2.gone⟩

/-- Past the end, nothing is returned: access at an index out of range is undefined in every reachable state, as are
    `back` and `pop_back` on an empty vector of non-trivial elements. -/
theorem C25_out_of_range_undefined (os : List (Op α)) (l g : List α) (rs : List (Res α)) (h : SpecRun [] [] os l g rs) :
    ∃ v, run false empty os = .ret (v, rs) ∧ (∀ i, l.length ≤ i → at_ v i = .undef) ∧ (l = [] → popBack false v = .undef) := by
  obtain ⟨v, h1, h2⟩ := run_spec h false _ empty_inv
  obtain ⟨k, hk⟩ := h2.cells
  have hnone : ∀ i, l.length ≤ i → ∀ x, v.cells[i]? ≠ some (some x) := by
    intro i hi x e
    rw [hk, List.getElem?_append_right (by simpa using hi), List.getElem?_replicate] at e
    split at e <;> simp at e
  refine ⟨v, h1, fun i hi => ?_, fun hl => ?_⟩
  · unfold at_ rd
    split
    · next x e => exact absurd e (hnone i hi x)
    · rfl
  · subst hl
    simp only [popBack, destroy]
    split
    · next x e => exact absurd e (hnone _ (by simp) x)
    · rfl

example : ∃ l g, SpecRun (α := Nat) [] [] [.isEmpty, .pushBack 5, .pushBack 6, .pushBack 7, .reserve 100, .at_ 1, .popBack, .back, .size, .front] l g
    [.bool true, .unit, .unit, .unit, .unit, .val 6, .unit, .val 6, .num 2, .val 5] :=
  ⟨_, _, .cons _ _ _ _ _ _ _ _ _ _ (.isEmpty _ _) <|
    .cons _ _ _ _ _ _ _ _ _ _ (.pushBack _ _ 5 (by simp)) <|
    .cons _ _ _ _ _ _ _ _ _ _ (.pushBack _ _ 6 (by simp)) <|
    .cons _ _ _ _ _ _ _ _ _ _ (.pushBack _ _ 7 (by simp)) <|
    .cons _ _ _ _ _ _ _ _ _ _ (.reserve _ _ 100) <|
    .cons _ _ _ _ _ _ _ _ _ _ (.at_ _ _ 1 (by simp)) <|
    .cons _ _ _ _ _ _ _ _ _ _ (.popBack [5, 6] 7 _) <|
    .cons _ _ _ _ _ _ _ _ _ _ (.back [5] 6 _) <|
    .cons _ _ _ _ _ _ _ _ _ _ (.size _ _) <|
    .cons _ _ _ _ _ _ _ _ _ _ (.front 5 [6] _) <| .nil _ _⟩

/-! ## C26 -/

/-- For element types whose destruction is a no-op, `clear` empties every reachable vector. Missing: everything else in the
    property, which fails (next theorems). -/
theorem C26_clear_partial (os : List (Op α)) (l g : List α) (rs : List (Res α)) (h : SpecRun [] [] os l g rs) :
    ∃ v v', run true empty os = .ret (v, rs) ∧ clear true v = .ret v' ∧ step true v' .size = .ret (v', .num 0) ∧
      v'.cells.length = v.cells.length := by
  obtain ⟨v, h1, h2⟩ := run_spec h true _ empty_inv
  obtain ⟨k, hk⟩ := h2.cells
  have hn : ∀ i, l.length ≤ i → ∀ x, v.cells[i]? ≠ some (some x) := by
    intro i hi x e
    rw [hk, List.getElem?_append_right (by simpa using hi), List.getElem?_replicate] at e
    split at e <;> simp at e
  have hd : destroy true v v.size = .ret v := by
    unfold destroy
    split
    · next x e => exact absurd e (hn _ (Nat.le_of_eq h2.size.symm) x)
    · rfl
  have hloop : ∀ k, clearLoop true k v = .ret v := by
    intro k
    induction k with
    | zero => rfl
    | succ k ih => simp [clearLoop, hd, ih]
  exact ⟨v, { v with size := 0 }, h1, by simp [clear, hloop], rfl, rfl⟩

/-- `clear` on any reachable non-empty vector whose elements have a destructor is undefined behaviour: it destroys the cell
    after the last element, again and again, and never an element. -/
theorem C26_clear_violated (os : List (Op α)) (l g : List α) (rs : List (Res α)) (h : SpecRun [] [] os l g rs) (hl : l ≠ []) :
    ∃ v, run false empty os = .ret (v, rs) ∧ clear false v = .undef := by
  obtain ⟨v, h1, h2⟩ := run_spec h false _ empty_inv
  refine ⟨v, h1, ?_⟩
  obtain ⟨k, hk⟩ := h2.cells
  have hd : destroy false v v.size = .undef := by
    unfold destroy
    split
    · next x e =>
      rw [hk, h2.size, List.getElem?_append_right (by simp), List.getElem?_replicate] at e
      split at e <;> simp at e
    · rfl
  obtain ⟨m, hm⟩ : ∃ m, v.size = m + 1 := ⟨v.size - 1, by
    have := h2.size; have : 0 < l.length := List.length_pos_of_ne_nil hl; omega⟩
  have : clearLoop false v.size v = .undef := by rw [hm, clearLoop, hd]; rfl
  simp [clear, this]

/-- Copy construction never yields the elements: unless the memory of the new vector happens to hold a null storage
    pointer it is undefined behaviour, and then the copy of a non-empty vector has no value at index 0. -/
theorem C26_copy_violated (triv : Bool) (os : List (Op α)) (l g : List α) (rs : List (Res α)) (h : SpecRun [] [] os l g rs)
    (hl : l ≠ []) :
    ∃ v, run triv empty os = .ret (v, rs) ∧ copy triv .other v = .undef ∧
      ∀ w, copy triv .null v = .ret w → at_ w 0 = .undef := by
  obtain ⟨v, h1, h2⟩ := run_spec h triv _ empty_inv
  refine ⟨v, h1, rfl, fun w hw => ?_⟩
  obtain ⟨k, hk⟩ := h2.cells
  have hsz := h2.size
  have hpos : 0 < l.length := List.length_pos_of_ne_nil hl
  have hsrc : ∀ x, v.cells[v.size]? ≠ some (some x) := by
    intro x e
    rw [hk, hsz, List.getElem?_append_right (by simp), List.getElem?_replicate] at e
    split at e <;> simp at e
  have hloop : ∀ m c c', copyLoop triv v v.size m c = .ret c' → c[0]? = some none → c'[0]? = some none := by
    intro m
    induction m with
    | zero => intro c c' e h0; simp [copyLoop] at e; rw [← e]; exact h0
    | succ m ih =>
      intro c c' e h0
      rw [copyLoop] at e
      split at e
      · next x _ e1 _ => exact absurd e1 (hsrc x)
      · split at e
        · refine ih _ _ e ?_
          rw [List.getElem?_set_ne (by omega)]; exact h0
        · simp at e
      · simp at e
  have hcap : 0 < v.cells.length := by rw [hk]; simp; omega
  unfold copy at hw
  simp only [copyAlloc, Outcome.bind_ret] at hw
  cases hc : copyLoop triv v v.size v.size (realloc [] v.cells.length) with
  | ret c' =>
    rw [hc] at hw
    simp at hw
    have := hloop _ _ _ hc (by simp [realloc, List.getElem?_replicate, hcap])
    rw [← hw]
    unfold at_ rd
    simp only [this]
  | abort => rw [hc] at hw; simp at hw
  | undef => rw [hc] at hw; simp at hw

example : ∃ l g, SpecRun (α := Nat) [] [] [.pushBack 5] l g [.unit] ∧ l ≠ [] :=
  ⟨_, _, .cons _ _ _ _ _ _ _ _ _ _ (.pushBack _ _ 5 (by simp)) (.nil _ _), by simp⟩

end Verif.Vector
