import Verif.Model.Sort
import Mathlib.Data.List.Induction
/-! Helper lemmas for C15, C16. -/
namespace Verif.Sort
open Verif

/-! ### sorting networks: permutation and the zero-one principle -/

theorem swapAt_perm (x y : Nat) (hxy : x ≠ y) (arr arr' : List Nat) (h : swapAt gtNat x y arr = .ret arr') :
    arr'.Perm arr := by
  unfold swapAt at h
  split at h
  · next a b ha hb =>
    injection h with h
    obtain ⟨hx, rfl⟩ := List.getElem?_eq_some_iff.1 ha
    obtain ⟨hy, rfl⟩ := List.getElem?_eq_some_iff.1 hb
    subst h
    by_cases hg : gtNat arr[y] arr[x] = true
    · simp [hg]
    · simp only [hg, Bool.false_eq_true, if_false]
      exact List.set_set_perm hx hy
  · exact absurd h (by simp)

theorem runNet_perm (net : List (Nat × Nat)) (hnet : ∀ p ∈ net, p.1 ≠ p.2) (arr arr' : List Nat)
    (h : runNet gtNat net arr = .ret arr') : arr'.Perm arr := by
  induction net generalizing arr with
  | nil => simp only [runNet] at h; injection h with h; subst h; exact List.Perm.refl _
  | cons p net ih =>
    obtain ⟨x, y⟩ := p
    simp only [runNet] at h
    cases hs : swapAt gtNat x y arr with
    | ret a =>
      rw [hs, Outcome.bind_ret] at h
      exact (ih (fun q hq => hnet q (List.mem_cons_of_mem _ hq)) a h).trans
        (swapAt_perm x y (hnet (x, y) List.mem_cons_self) arr a hs)
    | abort => rw [hs] at h; exact absurd h (by simp)
    | undef => rw [hs] at h; exact absurd h (by simp)

/-- `b > a` on booleans. -/
def gtBool (b a : Bool) : Bool := b && !a

/-- Relabel the outcome of a sort. -/
def mapOut (f : Nat → Bool) : Outcome (List Nat) → Outcome (List Bool)
  | .ret l => .ret (l.map f)
  | .abort => .abort
  | .undef => .undef

theorem swapAt_map (t : Nat) (x y : Nat) (arr : List Nat) :
    swapAt gtBool x y (arr.map (fun v => decide (t ≤ v))) = mapOut (fun v => decide (t ≤ v)) (swapAt gtNat x y arr) := by
  unfold swapAt
  rw [List.getElem?_map, List.getElem?_map]
  cases hx : arr[x]? <;> cases hy : arr[y]? <;> simp only [Option.map_none, Option.map_some, mapOut]
  rename_i a b
  simp only [List.map_set]
  congr 1
  unfold gtBool gtNat
  by_cases h1 : t ≤ a <;> by_cases h2 : t ≤ b <;> by_cases h3 : b > a <;> simp [h1, h2, h3]
  · omega
  · omega

theorem runNet_map (t : Nat) (net : List (Nat × Nat)) (arr : List Nat) :
    runNet gtBool net (arr.map (fun v => decide (t ≤ v))) = mapOut (fun v => decide (t ≤ v)) (runNet gtNat net arr) := by
  induction net generalizing arr with
  | nil => rfl
  | cons p net ih =>
    obtain ⟨x, y⟩ := p
    simp only [runNet, swapAt_map]
    cases swapAt gtNat x y arr with
    | ret a => simp only [mapOut, Outcome.bind_ret]; exact ih a
    | abort => rfl
    | undef => rfl

/-- Booleans in non-decreasing order. -/
def sortedBool : List Bool → Bool
  | [] => true
  | [_] => true
  | a :: b :: l => (!a || b) && sortedBool (b :: l)

/-- The network sorts the boolean list. -/
def sortsBool (net : List (Nat × Nat)) (l : List Bool) : Bool :=
  match runNet gtBool net l with
  | .ret l' => sortedBool l'
  | _ => false

theorem sortedBool_all (l : List Nat) (h : ∀ t, sortedBool (l.map (fun v => decide (t ≤ v))) = true) :
    l.Pairwise (· ≤ ·) := by
  induction l with
  | nil => exact List.Pairwise.nil
  | cons a l ih =>
    cases l with
    | nil => simp
    | cons b l =>
      have hb : a ≤ b := by
        have := h a
        simp only [List.map_cons, sortedBool, Bool.and_eq_true] at this
        simpa using this.1
      have ht := ih (fun t => by
        have := h t
        simp only [List.map_cons, sortedBool, Bool.and_eq_true] at this
        exact this.2)
      rw [List.pairwise_cons]
      refine ⟨fun x hx => ?_, ht⟩
      rcases List.mem_cons.1 hx with rfl | hx
      · exact hb
      · exact Nat.le_trans hb ((List.pairwise_cons.1 ht).1 x hx)

theorem net_sorts (net : List (Nat × Nat)) (hnet : ∀ p ∈ net, p.1 ≠ p.2) (arr : List Nat)
    (hb : ∀ l : List Bool, l.length = arr.length → sortsBool net l = true) :
    ∃ r, runNet gtNat net arr = .ret r ∧ r.Perm arr ∧ r.Pairwise (· ≤ ·) := by
  have h0 := hb (arr.map (fun v => decide (0 ≤ v))) (by simp)
  unfold sortsBool at h0
  rw [runNet_map] at h0
  cases hr : runNet gtNat net arr with
  | ret r =>
    refine ⟨r, rfl, runNet_perm net hnet arr r hr, sortedBool_all r fun t => ?_⟩
    have ht := hb (arr.map (fun v => decide (t ≤ v))) (by simp)
    unfold sortsBool at ht
    rw [runNet_map, hr] at ht
    exact ht
  | abort => rw [hr] at h0; exact absurd h0 (by simp [mapOut])
  | undef => rw [hr] at h0; exact absurd h0 (by simp [mapOut])

theorem len2 {α : Type} (l : List α) (h : l.length = 2) : ∃ a b, l = [a, b] := by
  match l, h with
  | [a, b], _ => exact ⟨a, b, rfl⟩
theorem len3 {α : Type} (l : List α) (h : l.length = 3) : ∃ a b c, l = [a, b, c] := by
  match l, h with
  | [a, b, c], _ => exact ⟨a, b, c, rfl⟩
theorem len4 {α : Type} (l : List α) (h : l.length = 4) : ∃ a b c d, l = [a, b, c, d] := by
  match l, h with
  | [a, b, c, d], _ => exact ⟨a, b, c, d, rfl⟩
theorem len5 {α : Type} (l : List α) (h : l.length = 5) : ∃ a b c d e, l = [a, b, c, d, e] := by
  match l, h with
  | [a, b, c, d, e], _ => exact ⟨a, b, c, d, e, rfl⟩
theorem len6 {α : Type} (l : List α) (h : l.length = 6) : ∃ a b c d e f, l = [a, b, c, d, e, f] := by
  match l, h with
  | [a, b, c, d, e, f], _ => exact ⟨a, b, c, d, e, f, rfl⟩

theorem net2_bool (l : List Bool) (h : l.length = 2) : sortsBool net2 l = true := by
  obtain ⟨a, b, rfl⟩ := len2 l h
  revert a b; decide
theorem net3_bool (l : List Bool) (h : l.length = 3) : sortsBool net3 l = true := by
  obtain ⟨a, b, c, rfl⟩ := len3 l h
  revert a b c; decide
theorem net4_bool (l : List Bool) (h : l.length = 4) : sortsBool net4 l = true := by
  obtain ⟨a, b, c, d, rfl⟩ := len4 l h
  revert a b c d; decide
theorem net5_bool (l : List Bool) (h : l.length = 5) : sortsBool net5 l = true := by
  obtain ⟨a, b, c, d, e, rfl⟩ := len5 l h
  revert a b c d e; decide +kernel
theorem net6_bool (l : List Bool) (h : l.length = 6) : sortsBool net6 l = true := by
  obtain ⟨a, b, c, d, e, f, rfl⟩ := len6 l h
  revert a b c d e f; decide +kernel

/-! ### insertion sort -/

theorem shiftDown_spec (tmp : Nat) (pre : List Nat) (x : Nat) (suf : List Nat) (hs : pre.Pairwise (· ≤ ·)) :
    ∃ q, shiftDown tmp pre.length (pre ++ x :: suf) = .ret (q ++ suf) ∧ q.Perm (tmp :: pre) ∧ q.Pairwise (· ≤ ·) := by
  induction pre using List.reverseRecOn generalizing x suf with
  | nil => exact ⟨[tmp], by simp [shiftDown], List.Perm.refl _, by simp⟩
  | append_singleton pre p ih =>
    have hs' := List.pairwise_append.1 hs
    rw [List.length_append, List.length_singleton]
    unfold shiftDown
    have hget : (pre ++ [p] ++ x :: suf)[pre.length]? = some p := by simp
    rw [hget]
    have hlen : pre.length + 1 < (pre ++ [p] ++ x :: suf).length := by simp
    simp only [hlen, if_true]
    by_cases hlt : tmp < p
    · simp only [hlt, if_true]
      have hset : (pre ++ [p] ++ x :: suf).set (pre.length + 1) p = pre ++ p :: (p :: suf) := by
        rw [List.set_append_right _ _ (by simp)]; simp
      rw [hset]
      obtain ⟨q, h1, h2, h3⟩ := ih p (p :: suf) hs'.1
      refine ⟨q ++ [p], by rw [h1]; simp, ?_, ?_⟩
      · have := h2.append_right [p]
        simpa using this
      · rw [List.pairwise_append]
        refine ⟨h3, by simp, ?_⟩
        intro a ha b hb
        rw [List.mem_singleton] at hb; subst hb
        rcases List.mem_cons.1 (h2.mem_iff.1 ha) with rfl | ha
        · omega
        · exact hs'.2.2 a ha b (by simp)
    · simp only [hlt, if_false]
      have hset : (pre ++ [p] ++ x :: suf).set (pre.length + 1) tmp = (pre ++ [p] ++ [tmp]) ++ suf := by
        rw [List.set_append_right _ _ (by simp)]; simp
      refine ⟨pre ++ [p] ++ [tmp], by rw [hset], List.perm_append_singleton _ _, ?_⟩
      rw [List.pairwise_append]
      refine ⟨hs, by simp, ?_⟩
      intro a ha b hb
      rw [List.mem_singleton] at hb; subst hb
      rcases List.mem_append.1 ha with ha | ha
      · have := hs'.2.2 a ha p (by simp); omega
      · rw [List.mem_singleton] at ha; omega

theorem insertFrom_spec (suf pre : List Nat) (hs : pre.Pairwise (· ≤ ·)) :
    ∃ r, insertFrom suf.length pre.length (pre ++ suf) = .ret r ∧ r.Perm (pre ++ suf) ∧ r.Pairwise (· ≤ ·) := by
  induction suf generalizing pre with
  | nil => exact ⟨pre, by simp [insertFrom], by simp, hs⟩
  | cons x suf ih =>
    rw [List.length_cons]
    unfold insertFrom
    have hget : (pre ++ x :: suf)[pre.length]? = some x := by simp
    rw [hget]
    simp only
    obtain ⟨q, h1, h2, h3⟩ := shiftDown_spec x pre x suf hs
    rw [h1, Outcome.bind_ret]
    have hl : pre.length + 1 = q.length := by rw [h2.length_eq]; simp
    rw [hl]
    obtain ⟨r, h4, h5, h6⟩ := ih q h3
    refine ⟨r, h4, h5.trans ?_, h6⟩
    have : (q ++ suf).Perm (x :: pre ++ suf) := h2.append_right suf
    exact this.trans (by simpa using List.perm_middle.symm)

theorem sortN_spec (arr : List Nat) : ∃ r, sortN arr = .ret r ∧ r.Perm arr ∧ r.Pairwise (· ≤ ·) := by
  cases arr with
  | nil => exact ⟨[], rfl, List.Perm.refl _, List.Pairwise.nil⟩
  | cons a l =>
    have := insertFrom_spec l [a] (by simp)
    simpa [sortN] using this

/-! ### binary search -/

/-- `below` holds exactly on a prefix of the array. -/
def Partitioned {E : Type} (below : E → Bool) (vals : List E) : Prop :=
  ∀ i j : Nat, ∀ a b : E, i ≤ j → vals[i]? = some a → vals[j]? = some b → below b = true → below a = true

theorem searchLoop_spec {E : Type} (below : E → Bool) (vals : List E) (hp : Partitioned below vals) (l h : Nat)
    (hlh : l ≤ h) (hh : h ≤ vals.length)
    (hlow : ∀ i a, i < l → vals[i]? = some a → below a = true)
    (hhigh : ∀ i a, h ≤ i → vals[i]? = some a → below a = false) :
    ∃ p, searchLoop below vals l h = .ret p ∧ p ≤ vals.length ∧
      (∀ i a, i < p → vals[i]? = some a → below a = true) ∧
      (∀ i a, p ≤ i → vals[i]? = some a → below a = false) := by
  induction hn : h - l using Nat.strongRecOn generalizing l h with
  | ind n ih =>
    unfold searchLoop
    by_cases hlt : l < h
    · simp only [hlt, dite_true]
      have hm : (l + h) / 2 < vals.length := by omega
      rw [List.getElem?_eq_getElem hm]
      simp only
      by_cases hb : below vals[(l + h) / 2] = true
      · simp only [hb, if_true]
        refine ih (h - ((l + h) / 2 + 1)) (by omega) _ _ (by omega) hh ?_ hhigh rfl
        intro i a hi ha
        exact hp i ((l + h) / 2) a _ (by omega) ha (List.getElem?_eq_getElem hm) hb
      · simp only [hb, Bool.false_eq_true, if_false]
        refine ih ((l + h) / 2 - l) (by omega) _ _ (by omega) (by omega) hlow ?_ rfl
        intro i a hi ha
        by_contra hc
        exact hb (hp ((l + h) / 2) i _ a hi (List.getElem?_eq_getElem hm) ha (by simpa using hc))
    · simp only [hlt, dite_false]
      have : l = h := by omega
      subst this
      exact ⟨l, rfl, hh, hlow, hhigh⟩

end Verif.Sort
