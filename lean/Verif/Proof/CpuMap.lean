import Verif.Spec.CpuMap
import Verif.Proof.CpuList
import Mathlib.Data.List.Count
import Mathlib.Data.List.Perm.Basic
import Mathlib.Data.List.Nodup

/-!
The map from processors to caches: invariants of the two loops over the sorted pairings.
-/
namespace Verif.CpuMap
open Verif.CpuList

/-! ### Numbers -/

theorem countP_split (L : List Nat) (x y : Nat) (h : x < y) :
    L.countP (fun z => decide (z < x)) + L.count x ≤ L.countP (fun z => decide (z < y)) := by
  induction L with
  | nil => simp
  | cons a L ih =>
    simp only [List.countP_cons, List.count_cons, decide_eq_true_eq, beq_iff_eq]
    split <;> split <;> split <;> omega

/-- In a sorted list, what is before an element. -/
theorem before (P Q : List Nat) (x : Nat) (hs : (P ++ x :: Q).Pairwise (· ≤ ·)) :
    P.length = (P ++ x :: Q).countP (fun z => decide (z < x)) + P.count x := by
  obtain ⟨h1, h2, h3⟩ := List.pairwise_append.1 hs
  have hq : (x :: Q).countP (fun z => decide (z < x)) = 0 := by
    rw [List.countP_eq_zero]
    intro z hz
    rcases List.mem_cons.1 hz with rfl | hz
    · simp
    · have := (List.pairwise_cons.1 h2).1 z hz; simpa using this
  rw [List.countP_append, hq, Nat.add_zero]
  have hp : ∀ z ∈ P, z ≤ x := fun z hz => h3 z hz x (by simp)
  clear hs h1 h2 h3 hq
  induction P with
  | nil => simp
  | cons a P ih =>
    have ha := hp a (by simp)
    have := ih (fun z hz => hp z (by simp [hz]))
    simp only [List.countP_cons, List.count_cons, List.length_cons, decide_eq_true_eq, beq_iff_eq]
    split <;> split <;> omega

theorem countP_mem_step (L P : List Nat) (x : Nat) (hx : x ∉ P) :
    L.countP (fun z => decide (z ∈ P ++ [x])) = L.countP (fun z => decide (z ∈ P)) + L.count x := by
  induction L with
  | nil => simp
  | cons a L ih =>
    rw [List.countP_cons, List.countP_cons, List.count_cons, ih]
    by_cases e : a = x
    · subst e
      rw [if_pos (by simp), if_neg (by simpa using hx), if_pos (by simp)]
      omega
    · have : decide (a ∈ P ++ [x]) = decide (a ∈ P) := by simp [e]
      rw [this, if_neg (c := (a == x) = true) (by simpa using e)]
      omega

/-! ### The starts -/

theorem starts_spec (w : Nat → Nat) (all : List Pairing)
    (hs : all.Pairwise (fun p q => p.id ≤ q.id)) (hw : ∀ p ∈ all, w p.id = (all.map (·.id)).count p.id) :
    ∀ (Q P : List Pairing), all = P ++ Q → ∀ s : Nat × (Nat → Option Nat),
      s.1 = (all.map (·.id)).countP (fun z => decide (z ∈ P.map (·.id))) →
      (∀ j, s.2 j = if j ∈ P.map (·.id) then some ((all.map (·.id)).countP (fun z => decide (z < j))) else none) →
      ∀ j, (Q.foldl (startStep w) s).2 j =
        if j ∈ all.map (·.id) then some ((all.map (·.id)).countP (fun z => decide (z < j))) else none := by
  intro Q
  induction Q with
  | nil =>
    intro P e s _ h2 j
    rw [List.append_nil] at e
    rw [List.foldl_nil, h2 j, e]
  | cons p Q ih =>
    intro P e s h1 h2
    rw [List.foldl_cons]
    refine ih (P ++ [p]) (by rw [e]; simp) _ ?_ ?_
    · unfold startStep
      by_cases hp : p.id ∈ P.map (·.id)
      · rw [if_neg (by rw [h2, if_pos hp]; simp), h1]
        apply List.countP_congr
        intro z _
        simp only [List.map_append, List.map_cons, List.map_nil, List.mem_append, List.mem_singleton, decide_eq_true_eq]
        exact ⟨Or.inl, fun h => h.elim id (fun h => h ▸ hp)⟩
      · rw [if_pos (by rw [h2, if_neg hp])]
        simp only [List.map_append, List.map_cons, List.map_nil]
        rw [countP_mem_step _ _ _ hp, h1, hw p (by rw [e]; simp)]
    · intro j
      unfold startStep
      by_cases hp : p.id ∈ P.map (·.id)
      · rw [if_neg (by rw [h2, if_pos hp]; simp), h2 j]
        have : j ∈ (P ++ [p]).map (·.id) ↔ j ∈ P.map (·.id) := by
          simp only [List.map_append, List.map_cons, List.map_nil, List.mem_append, List.mem_singleton]
          exact ⟨fun h => h.elim id (fun h => h ▸ hp), Or.inl⟩
        simp only [this]
      · rw [if_pos (by rw [h2, if_neg hp])]
        simp only
        by_cases ej : j = p.id
        · subst ej
          rw [if_pos rfl, if_pos (by simp), h1]
          congr 1
          apply List.countP_congr
          intro z hz
          simp only [decide_eq_true_eq]
          have hs' : (all.map (·.id)).Pairwise (· ≤ ·) := List.pairwise_map.2 hs
          rw [e, List.map_append, List.map_cons] at hs' hz
          obtain ⟨_, a2, a3⟩ := List.pairwise_append.1 hs'
          constructor
          · intro hzp
            have := a3 z hzp p.id (by simp)
            have : z ≠ p.id := fun h => hp (h ▸ hzp)
            omega
          · intro hlt
            rcases List.mem_append.1 hz with h | h
            · exact h
            · rcases List.mem_cons.1 h with h | h
              · omega
              · have := (List.pairwise_cons.1 a2).1 z h; omega
        · rw [if_neg ej, h2 j]
          have : j ∈ (P ++ [p]).map (·.id) ↔ j ∈ P.map (·.id) := by
            simp only [List.map_append, List.map_cons, List.map_nil, List.mem_append, List.mem_singleton]
            exact ⟨fun h => h.elim id (fun h => absurd h ej), Or.inl⟩
          simp only [this]

theorem starts_eq (w : Nat → Nat) (all : List Pairing)
    (hs : all.Pairwise (fun p q => p.id ≤ q.id)) (hw : ∀ p ∈ all, w p.id = (all.map (·.id)).count p.id)
    (p : Pairing) (hp : p ∈ all) :
    starts w all p.id = some ((all.map (·.id)).countP (fun z => decide (z < p.id))) := by
  unfold starts
  rw [starts_spec w all hs hw all [] rfl (0, fun _ => none) (by simp) (by simp) p.id,
    if_pos (List.mem_map.2 ⟨p, hp, rfl⟩)]

/-! ### The entries -/

theorem fill_mem (w : Nat → Nat) (st : Nat → Option Nat) (all : List Pairing) :
    ∀ (Q P : List Pairing), all = P ++ Q → ∀ cnt : Nat → Nat, (∀ j, cnt j = (P.map (·.id)).count j) →
      ∀ e ∈ fill w st Q cnt, ∃ A p B, all = A ++ p :: B ∧
        e = ⟨p.cpu, (st p.id).getD (2 ^ 32 - 1) + (A.map (·.id)).count p.id, (st p.id).getD (2 ^ 32 - 1), w p.id, p.id⟩ := by
  intro Q
  induction Q with
  | nil => intro P _ cnt _ e he; cases he
  | cons p Q ih =>
    intro P ea cnt hc e he
    simp only [fill, List.mem_cons] at he
    rcases he with rfl | he
    · exact ⟨P, p, Q, ea, by rw [hc]⟩
    · refine ih (P ++ [p]) (by rw [ea]; simp) _ ?_ e he
      intro j
      simp only [List.map_append, List.map_cons, List.map_nil, List.count_append, List.count_singleton, hc, beq_iff_eq]
      by_cases e : j = p.id
      · simp [e]
      · simp [e, Ne.symm e]

theorem fill_self (w : Nat → Nat) (st : Nat → Option Nat) (all : List Pairing)
    (hs : all.Pairwise (fun p q => p.id ≤ q.id))
    (hst : ∀ p ∈ all, st p.id = some ((all.map (·.id)).countP (fun z => decide (z < p.id)))) :
    ∀ (Q P : List Pairing), all = P ++ Q → ∀ cnt : Nat → Nat, (∀ j, cnt j = (P.map (·.id)).count j) →
      (fill w st Q cnt).map (·.self) = List.range' P.length Q.length := by
  intro Q
  induction Q with
  | nil => intro P _ cnt _; rfl
  | cons p Q ih =>
    intro P ea cnt hc
    simp only [fill, List.map_cons, List.length_cons, List.range'_succ]
    have hs' : (all.map (·.id)).Pairwise (· ≤ ·) := List.pairwise_map.2 hs
    have hb := before (P.map (·.id)) (Q.map (·.id)) p.id (by rw [ea] at hs'; simpa using hs')
    rw [List.length_map] at hb
    congr 1
    · rw [hst p (by rw [ea]; simp), hc, Option.getD_some, hb, ea]
      simp
    · have := ih (P ++ [p]) (by rw [ea]; simp) (fun j => if j = p.id then cnt j + 1 else cnt j) (by
        intro j
        simp only [List.map_append, List.map_cons, List.map_nil, List.count_append, List.count_singleton, hc, beq_iff_eq]
        by_cases e : j = p.id
        · simp [e]
        · simp [e, Ne.symm e])
      rw [this]
      simp

theorem fill_cpu (w : Nat → Nat) (st : Nat → Option Nat) :
    ∀ (Q : List Pairing) (cnt : Nat → Nat), (fill w st Q cnt).map (·.cpu) = Q.map (·.cpu) := by
  intro Q
  induction Q with
  | nil => intro _; rfl
  | cons p Q ih => intro cnt; simp [fill, ih]

/-! ### The caches -/

theorem distinct_mem (shared : Nat → List Char) (n : Nat) (t : List Char) :
    t ∈ distinct shared n ↔ ∃ i < n, shared i = t := by
  have gen : ∀ (l : List Nat) (acc : List (List Char)),
      t ∈ l.foldl (fun acc i => if shared i ∈ acc then acc else acc ++ [shared i]) acc ↔
        t ∈ acc ∨ ∃ i ∈ l, shared i = t := by
    intro l
    induction l with
    | nil => intro acc; simp
    | cons a l ih =>
      intro acc
      rw [List.foldl_cons, ih]
      by_cases h : shared a ∈ acc
      · rw [if_pos h]
        constructor
        · rintro (h' | ⟨i, hi, e⟩)
          · exact Or.inl h'
          · exact Or.inr ⟨i, by simp [hi], e⟩
        · rintro (h' | ⟨i, hi, e⟩)
          · exact Or.inl h'
          · rcases List.mem_cons.1 hi with rfl | hi
            · exact Or.inl (e ▸ h)
            · exact Or.inr ⟨i, hi, e⟩
      · rw [if_neg h]
        simp only [List.mem_append, List.mem_singleton, List.mem_cons, exists_eq_or_imp, or_assoc, List.not_mem_nil, false_or]
        rw [eq_comm (a := t)]
  unfold distinct
  rw [gen]
  simp

theorem distinct_nodup (shared : Nat → List Char) (n : Nat) : (distinct shared n).Nodup := by
  have gen : ∀ (l : List Nat) (acc : List (List Char)), acc.Nodup →
      (l.foldl (fun acc i => if shared i ∈ acc then acc else acc ++ [shared i]) acc).Nodup := by
    intro l
    induction l with
    | nil => intro acc h; exact h
    | cons a l ih =>
      intro acc h
      rw [List.foldl_cons]
      apply ih
      by_cases ha : shared a ∈ acc
      · rw [if_pos ha]; exact h
      · rw [if_neg ha]
        refine List.nodup_append.2 ⟨h, by simp, ?_⟩
        intro x hx y hy e
        rw [List.mem_singleton] at hy
        exact ha (by rw [← hy, ← e]; exact hx)
  exact gen _ [] List.nodup_nil

theorem idx_inj (l : List (List Char)) (a b : List Char) (ha : a ∈ l) :
    l.idxOf a = l.idxOf b ↔ a = b := by
  constructor
  · intro h
    have h1 : l.idxOf a < l.length := List.idxOf_lt_length_iff.2 ha
    have h2 : l.idxOf b < l.length := h ▸ h1
    have e1 := List.getElem_idxOf h1
    have e2 := List.getElem_idxOf h2
    rw [← e1, ← e2]
    congr 1
  · rintro rfl; rfl

theorem pairing_mem (shared : Nat → List Char) (n : Nat) (p : Pairing) (h : p ∈ pairings shared n) :
    p.cpu < n ∧ p.id = (distinct shared n).idxOf (shared p.cpu) ∧ shared p.cpu ∈ distinct shared n := by
  obtain ⟨i, hi, rfl⟩ := List.mem_map.1 h
  have := List.mem_range.1 hi
  exact ⟨this, rfl, (distinct_mem shared n _).2 ⟨i, this, rfl⟩⟩

/-- The width of a cache is the number of processors with it. -/
theorem width_count (shared : Nat → List Char) (n : Nat) (hsys : System shared n) (ps : List Pairing)
    (hp : ps.Perm (pairings shared n)) (p : Pairing) (h : p ∈ ps) :
    cacheWidth shared n p.id = (ps.map (·.id)).count p.id := by
  obtain ⟨h1, h2, h3⟩ := pairing_mem shared n p (hp.mem_iff.1 h)
  obtain ⟨is, i1, i2, i3, i4, i5⟩ := hsys.2 p.cpu h1
  have hl : (distinct shared n).idxOf (shared p.cpu) < (distinct shared n).length := List.idxOf_lt_length_iff.2 h3
  have ht : (distinct shared n).getD p.id [] = text is := by
    rw [h2, List.getD_eq_getElem?_getD, List.getElem?_eq_getElem hl, Option.getD_some, List.getElem_idxOf, i3]
  have hperm : (cpus is).Perm ((List.range n).filter (fun k => decide (shared k = shared p.cpu))) := by
    rw [List.perm_ext_iff_of_nodup i4 (List.nodup_range.filter _)]
    intro k
    rw [i5 k, List.mem_filter, List.mem_range, decide_eq_true_eq]
  have hlen : (cpus is).length < 2 ^ 32 := by
    rw [hperm.length_eq]
    refine lt_of_le_of_lt (List.length_filter_le _ _) ?_
    rw [List.length_range]
    exact hsys.1
  unfold cacheWidth
  simp only [ht]
  rw [width_text is i1 i2 _ (Nat.lt_succ_self _), Nat.mod_eq_of_lt hlen, hperm.length_eq,
    (hp.map (·.id)).count_eq, List.count_eq_countP, pairings, List.map_map, List.countP_map, List.countP_eq_length_filter]
  congr 1
  apply List.filter_congr
  intro k hk
  have hk' := List.mem_range.1 hk
  simp only [Function.comp, h2]
  rw [Bool.eq_iff_iff, decide_eq_true_eq, beq_iff_eq,
    idx_inj _ _ _ ((distinct_mem shared n _).2 ⟨k, hk', rfl⟩)]

end Verif.CpuMap
