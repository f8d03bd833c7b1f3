import Verif.Model.Stack
import Verif.Proof.Heap
/-! Refinement of the pointer stack by lists (C18). -/
namespace Verif.Stack
open Verif

/-- The pointer structure `s` represents the stacks `A` (top first). -/
structure Inv (s : St) (A : Nat → List Nat) : Prop where
  root : ∀ q, s.root q = (A q).headD 0
  links : ∀ q, Links s.next (A q) ((A q).getLastD 0)
  nodup : ∀ q, (A q).Nodup
  disj : ∀ q q' n, q ≠ q' → n ∈ A q → n ∉ A q'
  listed : ∀ n, s.next n ≠ 0 ↔ ∃ q, n ∈ A q
  nz : ∀ q, 0 ∉ A q

theorem Inv.ne0 {s : St} {A : Nat → List Nat} (h : Inv s A) {q n : Nat} (hn : n ∈ A q) : n ≠ 0 :=
  fun e => h.nz q (e ▸ hn)

theorem Inv.headNe {s : St} {A : Nat → List Nat} (h : Inv s A) (q : Nat) : s.root q = 0 ↔ A q = [] := by
  rw [h.root]
  constructor
  · intro e
    by_contra hne
    exact h.ne0 (headD_mem hne 0) e
  · intro e; rw [e]; rfl

theorem Inv.unlisted {s : St} {A : Nat → List Nat} (h : Inv s A) {n : Nat} (hu : ∀ q, n ∉ A q) : s.next n = 0 := by
  by_contra hc
  obtain ⟨q, hq⟩ := (h.listed n).1 hc
  exact hu q hq

theorem push_spec (dbg : Bool) {s : St} {A : Nat → List Nat} (h : Inv s A) {q n : Nat} (hn : n ≠ 0)
    (hu : ∀ q', n ∉ A q') : ∃ s', push dbg s q n = .ret s' ∧ Inv s' (upd A q (n :: A q)) := by
  have hc : check dbg s n = .ret () := by
    cases dbg <;> simp [check, Stack.listed, rd, hn, h.unlisted hu]
  have hv : (if top s q ≠ 0 then top s q else n) = (A q).headD n := by
    simp only [top, h.root]
    cases hA : A q with
    | nil => simp
    | cons a l =>
      have : a ≠ 0 := h.ne0 (q := q) (by rw [hA]; simp)
      simp [this]
  refine ⟨⟨upd s.next n ((A q).headD n), upd s.root q n⟩, ?_, ?_⟩
  · simp only [push, hc, Outcome.bind_ret, hv, wr, hn, if_false, Outcome.pure_eq]
  constructor
  · intro q'
    simp only [upd_apply]; split
    · simp
    · exact h.root q'
  · intro q'
    simp only
    rw [upd_apply A]
    split
    · rw [links_cons]
      refine ⟨?_, ?_⟩
      · rw [upd_same, List.getLastD_cons]
        cases A q <;> simp
      · rw [links_upd _ _ _ _ _ (hu q), List.getLastD_cons]
        have := h.links q
        cases hA : A q with
        | nil => simp
        | cons a l => rw [hA] at this; rw [List.getLastD_cons] at this ⊢; exact this
    · rw [links_upd _ _ _ _ _ (hu q')]; exact h.links q'
  · intro q'
    rw [upd_apply]; split
    · exact List.nodup_cons.2 ⟨hu q, h.nodup q⟩
    · exact h.nodup q'
  · intro q1 q2 m hne h1 h2
    rw [upd_apply] at h1 h2
    split at h1 <;> split at h2
    · omega
    · next e1 e2 =>
      rcases List.mem_cons.1 h1 with rfl | h1
      · exact hu q2 h2
      · exact h.disj q q2 m (Ne.symm e2) h1 h2
    · next e1 e2 =>
      rcases List.mem_cons.1 h2 with rfl | h2
      · exact hu q1 h1
      · exact h.disj q q1 m (Ne.symm e1) h2 h1
    · exact h.disj q1 q2 m hne h1 h2
  · intro m
    simp only [upd_apply]
    split
    · next e =>
      subst e
      constructor
      · intro _; exact ⟨q, by simp⟩
      · intro _
        cases hA : A q with
        | nil => simpa using hn
        | cons a l => simpa using h.ne0 (q := q) (n := a) (by rw [hA]; simp)
    · next e =>
      rw [h.listed m]
      constructor
      · rintro ⟨q', hq'⟩
        refine ⟨q', ?_⟩
        split
        · next e' => subst e'; exact List.mem_cons_of_mem _ hq'
        · exact hq'
      · rintro ⟨q', hq'⟩
        split at hq'
        · rcases List.mem_cons.1 hq' with e'' | hq'
          · exact absurd e'' e
          · exact ⟨q, hq'⟩
        · exact ⟨q', hq'⟩
  · intro q'
    rw [upd_apply]; split
    · rw [List.mem_cons]; rintro (e | e)
      · exact hn e.symm
      · exact h.nz q e
    · exact h.nz q'

theorem pop_spec {s : St} {A : Nat → List Nat} (h : Inv s A) (q : Nat) :
    ∃ s', pop s q = .ret (s', (A q).headD 0) ∧ Inv s' (upd A q (A q).tail) := by
  unfold pop top
  cases hA : A q with
  | nil =>
    have hr := (h.headNe q).2 hA
    simp only [hr, ne_eq, not_true_eq_false, if_false]
    refine ⟨s, rfl, ?_⟩
    have : upd A q ([] : List Nat).tail = A := by
      funext x; rw [upd_apply]; split
      · next e => rw [e, hA]; rfl
      · rfl
    rw [this]; exact h
  | cons a l =>
    have hr : s.root q = a := by rw [h.root, hA]; rfl
    have ha : a ∈ A q := by rw [hA]; simp
    have ha0 := h.ne0 ha
    have hlk := h.links q
    have hnd := h.nodup q
    rw [hA] at hlk hnd
    rw [links_cons] at hlk
    rw [List.nodup_cons] at hnd
    have key : Inv ⟨upd s.next a 0, upd s.root q (l.headD 0)⟩ (upd A q l) := by
      constructor
      · intro q'; simp only [upd_apply]; split
        · rfl
        · exact h.root q'
      · intro q'
        simp only
        rw [upd_apply A]; split
        · rw [links_upd _ _ _ _ _ hnd.1]
          cases l with
          | nil => trivial
          | cons b l => simpa using hlk.2
        · next e => rw [links_upd _ _ _ _ _ (h.disj q q' a (Ne.symm e) ha)]; exact h.links q'
      · intro q'; rw [upd_apply]; split
        · exact hnd.2
        · exact h.nodup q'
      · have hm : ∀ q1 m, m ∈ upd A q l q1 → m ∈ A q1 := by
          intro q1 m h1
          rw [upd_apply] at h1; split at h1
          · next e => rw [e, hA]; simp [h1]
          · exact h1
        intro q1 q2 m hne h1 h2
        exact h.disj q1 q2 m hne (hm _ _ h1) (hm _ _ h2)
      · intro m
        simp only
        rw [upd_apply s.next]
        split
        · next e =>
          subst e
          constructor
          · intro hc; exact absurd rfl hc
          · rintro ⟨q', hq'⟩
            rw [upd_apply] at hq'; split at hq'
            · exact absurd hq' hnd.1
            · next e => exact absurd hq' (h.disj q q' m (Ne.symm e) ha)
        · next e =>
          rw [h.listed m]
          constructor
          · rintro ⟨q', hq'⟩
            refine ⟨q', ?_⟩
            rw [upd_apply]; split
            · next e' =>
              subst e'; rw [hA] at hq'
              rcases List.mem_cons.1 hq' with e'' | hq'
              · exact absurd e'' e
              · exact hq'
            · exact hq'
          · rintro ⟨q', hq'⟩
            rw [upd_apply] at hq'; split at hq'
            · exact ⟨q, by rw [hA]; simp [hq']⟩
            · exact ⟨q', hq'⟩
      · intro q'; rw [upd_apply]; split
        · intro h0; exact h.nz q (by rw [hA]; simp [h0])
        · exact h.nz q'
    simp only [hr, ne_eq, ha0, not_false_eq_true, if_true, rd, if_false, Outcome.bind_ret, upd_same, List.headD_cons]
    cases l with
    | nil =>
      have hnext : s.next a = a := by simpa using hlk.1
      simp only [hnext, if_true, wr, ha0, if_false, Outcome.bind_ret, Outcome.pure_eq, List.tail_cons]
      refine ⟨_, rfl, ?_⟩
      have e : upd (upd s.root q a) q 0 = upd s.root q 0 := by funext x; simp only [upd_apply]; split <;> rfl
      rw [e]; exact key
    | cons b l =>
      have hnext : s.next a = b := by simpa using hlk.1
      have hba : b ≠ a := fun e => hnd.1 (by simp [e])
      simp only [hnext, hba, if_false, wr, ha0, Outcome.bind_ret, Outcome.pure_eq, List.tail_cons]
      exact ⟨_, rfl, key⟩

theorem iterate_spec {s : St} {A : Nat → List Nat} (h : Inv s A) {q : Nat} (l1 l2 : List Nat) (hA : A q = l1 ++ l2)
    (fuel : Nat) (hf : l2.length < fuel) : iterate s fuel (l2.headD 0) = .ret l2 := by
  induction l2 generalizing l1 fuel with
  | nil =>
    obtain ⟨fuel, rfl⟩ : ∃ f, fuel = f + 1 := ⟨fuel - 1, by simp at hf; omega⟩
    simp [iterate, iterNext]
  | cons a l2 ih =>
    obtain ⟨fuel, rfl⟩ : ∃ f, fuel = f + 1 := ⟨fuel - 1, by simp at hf; omega⟩
    have ha0 : a ≠ 0 := h.ne0 (q := q) (by rw [hA]; simp)
    have hlk := h.links q
    have hnd := h.nodup q
    rw [hA, links_append, links_cons] at hlk
    rw [hA] at hnd
    have hc : (if s.next a = a then 0 else s.next a) = l2.headD 0 := by
      cases l2 with
      | nil =>
        have := hlk.2.1
        rw [getLastD_append_singleton] at this
        simp at this
        simp [this]
      | cons b l2 =>
        have hb : s.next a = b := by simpa using hlk.2.1
        have hbn : b ≠ a := by
          intro e; subst e
          have := (List.nodup_cons.1 (List.nodup_append.1 hnd).2.1).1
          simp at this
        simp [hb, hbn]
    have := ih (l1 ++ [a]) (by rw [hA]; simp) fuel (by simp at hf; omega)
    show iterate s (fuel + 1) a = _
    simp only [iterate, iterNext, ne_eq, ha0, not_false_eq_true, if_true, rd, if_false, Outcome.bind_ret,
      Outcome.pure_eq]
    rw [hc, this, Outcome.bind_ret]

end Verif.Stack
