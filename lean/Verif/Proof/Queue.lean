import Verif.Model.Queue
import Verif.Proof.Heap
/-! Refinement of the pointer queue by lists (C17). -/
namespace Verif.Queue
open Verif

/-- The pointer structure `s` represents the queues `A`. -/
structure Inv (s : St) (A : Nat → List Nat) : Prop where
  root : ∀ q, s.root q = (A q).headD 0
  last : ∀ q, s.last q = (A q).getLastD 0
  links : ∀ q, Links s.next (A q) ((A q).getLastD 0)
  nodup : ∀ q, (A q).Nodup
  disj : ∀ q q' n, q ≠ q' → n ∈ A q → n ∉ A q'
  listed : ∀ n, s.next n ≠ 0 ↔ ∃ q, n ∈ A q
  nz : ∀ q, 0 ∉ A q

theorem Inv.ne0 {s : St} {A : Nat → List Nat} (h : Inv s A) {q n : Nat} (hn : n ∈ A q) : n ≠ 0 :=
  fun e => h.nz q (e ▸ hn)

theorem Inv.headNe {s : St} {A : Nat → List Nat} (h : Inv s A) (q : Nat) : s.root q = 0 ↔ A q = [] := by
  rw [h.root]
  constructor
  · intro e
    by_contra hne
    exact h.ne0 (headD_mem hne 0) e
  · intro e; rw [e]; rfl

theorem Inv.lastNe {s : St} {A : Nat → List Nat} (h : Inv s A) (q : Nat) : s.last q = 0 ↔ A q = [] := by
  rw [h.last]
  constructor
  · intro e
    by_contra hne
    exact h.ne0 (getLastD_mem hne 0) e
  · intro e; rw [e]; rfl

theorem check_unlisted {dbg : Bool} {s : St} {A : Nat → List Nat} (h : Inv s A) {n : Nat} (hn : n ≠ 0)
    (hu : ∀ q, n ∉ A q) : check dbg s n false = .ret () := by
  have : s.next n = 0 := by
    by_contra hc
    obtain ⟨q, hq⟩ := (h.listed n).1 hc
    exact hu q hq
  cases dbg <;> simp [check, Queue.listed, rd, hn, this]

theorem check_listed {dbg : Bool} {s : St} {A : Nat → List Nat} (h : Inv s A) {q n : Nat} (hq : n ∈ A q) :
    check dbg s n true = .ret () := by
  have : s.next n ≠ 0 := (h.listed n).2 ⟨q, hq⟩
  cases dbg <;> simp [check, Queue.listed, rd, h.ne0 hq, this]

/-- All pairs `(q, q')` of queue numbers of an updated family. -/
theorem disj_upd {A : Nat → List Nat} {q : Nat} {l : List Nat} (hd : ∀ q q' n, q ≠ q' → n ∈ A q → n ∉ A q')
    (hl : ∀ q' n, q' ≠ q → n ∈ l → n ∉ A q') : ∀ q1 q2 n, q1 ≠ q2 → n ∈ upd A q l q1 → n ∉ upd A q l q2 := by
  intro q1 q2 n hne h1 h2
  rw [upd_apply] at h1 h2
  split at h1 <;> split at h2
  · omega
  · next e1 e2 => exact hl q2 n e2 h1 h2
  · next e1 e2 => exact hl q1 n e1 h2 h1
  · exact hd q1 q2 n hne h1 h2

theorem addHead_spec (dbg : Bool) {s : St} {A : Nat → List Nat} (h : Inv s A) {q n : Nat} (hn : n ≠ 0)
    (hu : ∀ q', n ∉ A q') : ∃ s', addHead dbg s q n = .ret s' ∧ Inv s' (upd A q (n :: A q)) := by
  unfold addHead
  rw [check_unlisted h hn hu, Outcome.bind_ret]
  have key : ∀ t, (A q).getLastD n = t → Inv ⟨upd s.next n ((A q).headD n), upd s.root q n, upd s.last q t⟩ (upd A q (n :: A q)) := by
    intro t ht
    constructor
    · intro q'
      simp only [upd_apply]; split
      · simp
      · exact h.root q'
    · intro q'
      simp only [upd_apply]; split
      · rw [List.getLastD_cons, ht]
      · exact h.last q'
    · intro q'
      simp only
      rw [upd_apply A]
      split
      · rw [links_cons]
        refine ⟨?_, ?_⟩
        · rw [upd_same, List.getLastD_cons]
          cases A q <;> simp
        · rw [links_upd _ _ _ _ _ (hu q), List.getLastD_cons]
          have := h.links q
          cases hA : A q with
          | nil => simp
          | cons a l => rw [hA] at this; rw [List.getLastD_cons] at this ⊢; exact this
      · rw [links_upd _ _ _ _ _ (hu q')]; exact h.links q'
    · intro q'
      rw [upd_apply]; split
      · exact List.nodup_cons.2 ⟨hu q, h.nodup q⟩
      · exact h.nodup q'
    · apply disj_upd h.disj
      intro q' m hq' hm
      rcases List.mem_cons.1 hm with rfl | hm
      · exact hu q'
      · exact fun hm' => h.disj q' q m hq' hm' hm
    · intro m
      simp only [upd_apply]
      split
      · next e =>
        subst e
        constructor
        · intro _; exact ⟨q, by simp⟩
        · intro _
          cases hA : A q with
          | nil => simpa using hn
          | cons a l => simpa using h.ne0 (q := q) (n := a) (by rw [hA]; simp)
      · next e =>
        rw [h.listed m]
        constructor
        · rintro ⟨q', hq'⟩
          refine ⟨q', ?_⟩
          split
          · next e' => subst e'; exact List.mem_cons_of_mem _ hq'
          · exact hq'
        · rintro ⟨q', hq'⟩
          split at hq'
          · next e' =>
            rcases List.mem_cons.1 hq' with e'' | hq'
            · exact absurd e'' e
            · exact ⟨q, hq'⟩
          · exact ⟨q', hq'⟩
    · intro q'
      rw [upd_apply]; split
      · rw [List.mem_cons]; rintro (e | e)
        · exact hn e.symm
        · exact h.nz q e
      · exact h.nz q'
  by_cases hl : s.last q = 0
  · have hA := (h.lastNe q).1 hl
    simp only [hl, ne_eq, not_true_eq_false, if_false, wr, hn]
    refine ⟨_, rfl, ?_⟩
    have := key n (by rw [hA]; rfl)
    rw [hA] at this ⊢
    exact this
  · simp only [hl, ne_eq, not_false_eq_true, if_true, wr, hn, if_false, Outcome.bind_ret, Outcome.pure_eq]
    refine ⟨_, rfl, ?_⟩
    have hA : A q ≠ [] := fun e => hl ((h.lastNe q).2 e)
    have := key (s.last q) (by
      rw [h.last]
      cases hA' : A q with
      | nil => exact absurd hA' hA
      | cons a l => rw [List.getLastD_cons, List.getLastD_cons])
    have e1 : upd s.last q (s.last q) = s.last := by
      funext x; rw [upd_apply]; split
      · next e => rw [e]
      · rfl
    have e2 : (A q).headD n = s.root q := by
      rw [h.root]; cases hA' : A q with
      | nil => exact absurd hA' hA
      | cons a l => rfl
    rw [e1, e2] at this
    exact this

theorem addTail_spec (dbg : Bool) {s : St} {A : Nat → List Nat} (h : Inv s A) {q n : Nat} (hn : n ≠ 0)
    (hu : ∀ q', n ∉ A q') : ∃ s', addTail dbg s q n = .ret s' ∧ Inv s' (upd A q (A q ++ [n])) := by
  unfold addTail
  rw [check_unlisted h hn hu, Outcome.bind_ret]
  have key : ∀ nx rt, (∀ m, m ∉ A q → nx m = s.next m) → Links nx (A q) n → (∀ m ∈ A q, nx m ≠ 0) → rt = (A q).headD n →
      Inv ⟨upd nx n n, upd s.root q rt, upd s.last q n⟩ (upd A q (A q ++ [n])) := by
    intro nx rt hnx hlk hnz hrt
    constructor
    · intro q'
      simp only [upd_apply]; split
      · rw [hrt, headD_append]; rfl
      · exact h.root q'
    · intro q'
      simp only [upd_apply]; split
      · rw [getLastD_append_singleton]
      · exact h.last q'
    · intro q'
      simp only
      rw [upd_apply A]
      split
      · rw [getLastD_append_singleton, links_append]
        refine ⟨?_, by simp⟩
        rw [links_upd _ _ _ _ _ (hu q)]
        exact hlk
      · next e =>
        rw [links_upd _ _ _ _ _ (hu q')]
        rw [links_congr nx s.next]
        · exact h.links q'
        · intro a ha; exact hnx a (fun ha' => h.disj q' q a e ha ha')
    · intro q'
      rw [upd_apply]; split
      · rw [List.nodup_append]
        exact ⟨h.nodup q, by simp, fun a ha b hb e => by
          rw [List.mem_singleton] at hb; subst hb; subst e; exact hu q ha⟩
      · exact h.nodup q'
    · apply disj_upd h.disj
      intro q' m hq' hm
      rcases List.mem_append.1 hm with hm | hm
      · exact fun hm' => h.disj q' q m hq' hm' hm
      · rw [List.mem_singleton] at hm; subst hm; exact hu q'
    · intro m
      simp only [upd_apply]
      split
      · next e =>
        subst e
        exact ⟨fun _ => ⟨q, by simp⟩, fun _ => hn⟩
      · next e =>
        constructor
        · intro hm
          by_cases hmq : m ∈ A q
          · exact ⟨q, by simp [hmq]⟩
          · rw [hnx m hmq] at hm
            obtain ⟨q', hq'⟩ := (h.listed m).1 hm
            refine ⟨q', ?_⟩
            split
            · next e' => subst e'; exact absurd hq' hmq
            · exact hq'
        · rintro ⟨q', hq'⟩
          split at hq'
          · rcases List.mem_append.1 hq' with hq' | hq'
            · exact hnz m hq'
            · rw [List.mem_singleton] at hq'; exact absurd hq' e
          · next e' =>
            rw [hnx m (fun hm => h.disj q' q m e' hq' hm)]
            exact (h.listed m).2 ⟨q', hq'⟩
    · intro q'
      rw [upd_apply]; split
      · rw [List.mem_append]; rintro (e | e)
        · exact h.nz q e
        · rw [List.mem_singleton] at e; exact hn e.symm
      · exact h.nz q'
  have eupd : ∀ (f : Nat → Nat) v, f q = v → upd f q v = f := by
    intro f v hv; funext x; rw [upd_apply]; split
    · next e => rw [e, hv]
    · rfl
  by_cases hl : s.last q = 0
  · have hA := (h.lastNe q).1 hl
    simp only [hl, ne_eq, not_true_eq_false, if_false, wr, hn, Outcome.bind_ret]
    refine ⟨_, rfl, ?_⟩
    refine key s.next n (fun _ _ => rfl) (by rw [hA]; trivial) (by rw [hA]; simp) (by rw [hA]; rfl)
  · have hA : A q ≠ [] := fun e => hl ((h.lastNe q).2 e)
    obtain ⟨i, a, hia⟩ := exists_concat hA
    have hla : s.last q = a := by rw [h.last, hia, getLastD_append_singleton]
    have ha0 : a ≠ 0 := h.ne0 (q := q) (by rw [hia]; simp)
    simp only [hla, ne_eq, ha0, not_false_eq_true, if_true, wr, hn, if_false, Outcome.bind_ret]
    refine ⟨_, rfl, ?_⟩
    have := key (upd s.next a n) (s.root q) (fun m hm => upd_ne _ _ (fun e => hm (by rw [hia, e]; simp)))
      (by
        rw [hia]
        apply links_retarget (t := (A q).getLastD 0)
        · rw [← hia]; exact h.links q
        · rw [← hia]; exact h.nodup q)
      (by
        intro m hm
        rw [upd_apply]; split
        · exact hn
        · exact (h.listed m).2 ⟨q, hm⟩)
      (by
        rw [h.root]
        cases hA' : A q with
        | nil => exact absurd hA' hA
        | cons a l => rfl)
    rw [eupd s.root _ rfl] at this
    exact this

theorem upd_self (f : Nat → Nat) (q : Nat) : upd f q (f q) = f := by
  funext x; rw [upd_apply]; split
  · next e => rw [e]
  · rfl

theorem upd_upd {α : Type} (f : Nat → α) (q : Nat) (v w : α) : upd (upd f q v) q w = upd f q w := by
  funext x; simp only [upd_apply]; split <;> rfl

/-- Taking one node out of queue `q`: what the new structure must satisfy. -/
theorem take_inv {s : St} {A : Nat → List Nat} (h : Inv s A) {q n : Nat} {l : List Nat} (hl : ∀ m, m ∈ A q ↔ m = n ∨ m ∈ l)
    (hnl : n ∉ l) (hnd : l.Nodup) (nx : Nat → Nat) (hn0 : nx n = 0) (hnx : ∀ m, m ∉ A q → nx m = s.next m)
    (hnz : ∀ m ∈ l, nx m ≠ 0) (hlk : Links nx l (l.getLastD 0)) :
    Inv ⟨nx, upd s.root q (l.headD 0), upd s.last q (l.getLastD 0)⟩ (upd A q l) := by
  constructor
  · intro q'; simp only [upd_apply]; split
    · rfl
    · exact h.root q'
  · intro q'; simp only [upd_apply]; split
    · rfl
    · exact h.last q'
  · intro q'
    simp only
    rw [upd_apply]; split
    · exact hlk
    · next e =>
      rw [links_congr nx s.next]
      · exact h.links q'
      · intro a ha; exact hnx a (fun ha' => h.disj q' q a e ha ha')
  · intro q'; rw [upd_apply]; split
    · exact hnd
    · exact h.nodup q'
  · apply disj_upd h.disj
    intro q' m hq' hm hm'
    exact h.disj q' q m hq' hm' ((hl m).2 (Or.inr hm))
  · intro m
    simp only
    constructor
    · intro hm
      by_cases hmq : m ∈ A q
      · rcases (hl m).1 hmq with e | hm'
        · subst e; exact absurd hn0 hm
        · exact ⟨q, by simpa using hm'⟩
      · rw [hnx m hmq] at hm
        obtain ⟨q', hq'⟩ := (h.listed m).1 hm
        refine ⟨q', ?_⟩
        rw [upd_apply]; split
        · next e => subst e; exact absurd hq' hmq
        · exact hq'
    · rintro ⟨q', hq'⟩
      rw [upd_apply] at hq'
      split at hq'
      · exact hnz m hq'
      · next e =>
        rw [hnx m (fun hm => h.disj q' q m e hq' hm)]
        exact (h.listed m).2 ⟨q', hq'⟩
  · intro q'; rw [upd_apply]; split
    · intro h0; exact h.nz q ((hl 0).2 (Or.inr h0))
    · exact h.nz q'

theorem dropHead_spec {s : St} {A : Nat → List Nat} (h : Inv s A) (q : Nat) :
    ∃ s', dropHead s q = .ret (s', (A q).headD 0) ∧ Inv s' (upd A q (A q).tail) := by
  unfold dropHead
  cases hA : A q with
  | nil =>
    have hr := (h.headNe q).2 hA
    simp only [hr, ne_eq, not_true_eq_false, if_false]
    refine ⟨s, rfl, ?_⟩
    have : upd A q ([] : List Nat).tail = A := by
      funext x; rw [upd_apply]; split
      · next e => rw [e, hA]; rfl
      · rfl
    rw [this]; exact h
  | cons a l =>
    have hr : s.root q = a := by rw [h.root, hA]; rfl
    have ha : a ∈ A q := by rw [hA]; simp
    have ha0 := h.ne0 ha
    have hlk := h.links q
    have hnd := h.nodup q
    rw [hA] at hlk hnd
    rw [links_cons] at hlk
    rw [List.nodup_cons] at hnd
    have hmem : ∀ m, m ∈ A q ↔ m = a ∨ m ∈ l := by intro m; rw [hA]; simp
    have hnx : ∀ m, m ∉ A q → upd s.next a 0 m = s.next m := fun m hm => upd_ne _ _ (fun e => hm (e ▸ ha))
    have hnz : ∀ m ∈ l, upd s.next a 0 m ≠ 0 := by
      intro m hm
      rw [upd_ne _ _ (fun e : m = a => hnd.1 (e ▸ hm))]
      exact (h.listed m).2 ⟨q, (hmem m).2 (Or.inr hm)⟩
    simp only [hr, ne_eq, ha0, not_false_eq_true, if_true, rd, if_false, Outcome.bind_ret, upd_same, List.headD_cons]
    cases l with
    | nil =>
      have hnext : s.next a = a := by simpa using hlk.1
      simp only [hnext, if_true, wr, ha0, if_false, Outcome.bind_ret, Outcome.pure_eq, List.tail_cons]
      refine ⟨_, rfl, ?_⟩
      have := take_inv h hmem hnd.1 hnd.2 (upd s.next a 0) (upd_same _ _ _) hnx hnz (by simp)
      rw [upd_upd]
      exact this
    | cons b l =>
      have hnext : s.next a = b := by simpa using hlk.1
      have hba : b ≠ a := fun e => hnd.1 (by simp [e])
      simp only [hnext, hba, if_false, wr, ha0, Outcome.bind_ret, Outcome.pure_eq, List.tail_cons]
      refine ⟨_, rfl, ?_⟩
      have := take_inv h hmem hnd.1 hnd.2 (upd s.next a 0) (upd_same _ _ _) hnx hnz (by
        rw [links_upd _ _ _ _ _ hnd.1]
        simpa using hlk.2)
      have e : (b :: l).getLastD 0 = s.last q := by rw [h.last, hA]; simp
      rw [e, upd_self] at this
      exact this

theorem unlink_spec {s : St} {A : Nat → List Nat} (h : Inv s A) {q n : Nat} {l1 l2 : List Nat} (hA : A q = l1 ++ n :: l2) :
    ∃ s', unlink s q n (l1.getLastD 0) = .ret s' ∧ Inv s' (upd A q (l1 ++ l2)) := by
  have hn : n ∈ A q := by rw [hA]; simp
  have hn0 := h.ne0 hn
  have hnd := h.nodup q
  rw [hA] at hnd
  rw [List.nodup_middle, List.nodup_cons] at hnd
  have hmem : ∀ m, m ∈ A q ↔ m = n ∨ m ∈ l1 ++ l2 := by
    intro m; rw [hA]; simp only [List.mem_append, List.mem_cons]
    constructor
    · rintro (h | h | h) <;> simp [h]
    · rintro (h | h | h) <;> simp [h]
  unfold unlink
  cases l1 with
  | nil =>
    have hr : s.root q = n := by rw [h.root, hA]; rfl
    obtain ⟨s', h1, h2⟩ := dropHead_spec h q
    simp only [hr, if_true, h1, Outcome.bind_ret, Outcome.pure_eq, wr, hn0, if_false]
    refine ⟨_, rfl, ?_⟩
    rw [hA] at h2
    simp only [List.nil_append, List.tail_cons] at h2 ⊢
    have hz : s'.next n = 0 := by
      by_contra hc
      obtain ⟨q', hq'⟩ := (h2.listed n).1 hc
      rw [upd_apply] at hq'
      split at hq'
      · exact hnd.1 (by simpa using hq')
      · next e => exact h.disj q' q n e hq' hn
    have : upd s'.next n 0 = s'.next := by rw [← hz]; exact upd_self _ _
    rw [this]; exact h2
  | cons a l1 =>
    have hr : s.root q = a := by rw [h.root, hA]; rfl
    have han : a ≠ n := fun e => hnd.1 (by simp [e])
    obtain ⟨i, p, hip⟩ := exists_concat (List.cons_ne_nil a l1)
    have hp : p ∈ A q := by rw [hA, hip]; simp
    have hp0 := h.ne0 hp
    have hpn : p ≠ n := fun e => hnd.1 (by rw [hip, ← e]; simp)
    have hprev : (a :: l1).getLastD 0 = p := by rw [hip, getLastD_append_singleton]
    have hlk := h.links q
    rw [hA, links_append, links_cons] at hlk
    have hnx : ∀ v m, m ∉ A q → upd (upd s.next p v) n 0 m = s.next m := by
      intro v m hm
      rw [upd_ne _ _ (fun e : m = n => hm (e ▸ hn)), upd_ne _ _ (fun e : m = p => hm (e ▸ hp))]
    have hnz : ∀ v, v ≠ 0 → ∀ m ∈ a :: l1 ++ l2, upd (upd s.next p v) n 0 m ≠ 0 := by
      intro v hv m hm
      rw [upd_ne _ _ (fun e : m = n => hnd.1 (e ▸ hm)), upd_apply]
      split
      · exact hv
      · exact (h.listed m).2 ⟨q, (hmem m).2 (Or.inr hm)⟩
    have hlink1 : ∀ v, Links (upd (upd s.next p v) n 0) (a :: l1) v := by
      intro v
      rw [links_upd _ _ _ _ _ (fun hm => hnd.1 (List.mem_append_left _ hm))]
      rw [hip]
      apply links_retarget (t := (n :: l2).headD ((a :: l1 ++ n :: l2).getLastD 0))
      · rw [← hip]; exact hlk.1
      · rw [← hip]; exact (List.nodup_append.1 hnd.2).1
    rw [hprev]
    simp only [hr, han, if_false]
    cases l2 with
    | nil =>
      have hl : s.last q = n := by rw [h.last, hA, getLastD_append_singleton]
      simp only [hl, if_true, wr, hp0, if_false, Outcome.bind_ret, hn0]
      refine ⟨_, rfl, ?_⟩
      have e0 : (a :: l1 ++ ([] : List Nat)).getLastD 0 = p := by rw [List.append_nil, hprev]
      have := take_inv h hmem hnd.1 hnd.2 (upd (upd s.next p p) n 0) (upd_same _ _ _) (hnx p) (hnz p hp0) (by
        rw [e0, List.append_nil]; exact hlink1 p)
      rw [e0] at this
      have e : (a :: l1 ++ ([] : List Nat)).headD 0 = s.root q := by rw [hr]; rfl
      rw [e, upd_self] at this
      exact this
    | cons b l2 =>
      have hl : s.last q ≠ n := by
        rw [h.last, hA, getLastD_append_cons, List.getLastD_cons]
        intro e
        apply hnd.1
        have hm : (b :: l2).getLastD n ∈ b :: l2 := getLastD_mem (List.cons_ne_nil _ _) _
        rw [e] at hm
        exact List.mem_append_right _ hm
      have hnext : s.next n = b := by simpa using hlk.2.1
      have hb0 : b ≠ 0 := h.ne0 (q := q) (by rw [hA]; simp)
      simp only [hl, if_false, rd, hn0, Outcome.bind_ret, hnext, wr, hp0]
      refine ⟨_, rfl, ?_⟩
      have e0 : (a :: l1 ++ b :: l2).getLastD 0 = s.last q := by
        rw [h.last, hA, getLastD_append_cons, getLastD_append_cons]; simp
      have := take_inv h hmem hnd.1 hnd.2 (upd (upd s.next p b) n 0) (upd_same _ _ _) (hnx b) (hnz b hb0) (by
        rw [links_append]
        refine ⟨by simpa using hlink1 b, ?_⟩
        rw [links_upd _ _ _ _ _ (fun hm => hnd.1 (List.mem_append_right _ hm)), links_upd]
        · have := hlk.2.2
          rw [getLastD_append_cons] at this ⊢
          simpa using this
        · intro hm
          have := (List.nodup_append.1 hnd.2).2.2 p (by rw [hip]; simp) p hm
          exact this rfl)
      rw [e0, upd_self] at this
      have e : (a :: l1 ++ b :: l2).headD 0 = s.root q := by rw [hr]; rfl
      rw [e, upd_self] at this
      exact this

theorem removeLoop_spec (dbg : Bool) {s : St} {A : Nat → List Nat} (h : Inv s A) {q n : Nat} (l1' l1 l2 : List Nat)
    (hA : A q = l1' ++ (l1 ++ n :: l2)) (fuel : Nat) (hf : l1.length < fuel) :
    ∃ s', removeLoop dbg s q n fuel (l1'.getLastD 0) ((l1 ++ [n]).headD 0) = .ret s' ∧
      Inv s' (upd A q (l1' ++ l1 ++ l2)) := by
  induction l1 generalizing l1' fuel with
  | nil =>
    obtain ⟨fuel, rfl⟩ : ∃ f, fuel = f + 1 := ⟨fuel - 1, by simp at hf; omega⟩
    simp only [removeLoop, List.nil_append, List.headD_cons, if_true, List.append_nil]
    exact unlink_spec h hA
  | cons a l1 ih =>
    obtain ⟨fuel, rfl⟩ : ∃ f, fuel = f + 1 := ⟨fuel - 1, by simp at hf; omega⟩
    have hnd := h.nodup q
    have ha : a ∈ A q := by rw [hA]; simp
    have hna : n ≠ a := by
      intro e; subst e; rw [hA] at hnd
      have := (List.nodup_append.1 hnd).2.1
      rw [List.cons_append, List.nodup_cons] at this
      exact this.1 (by simp)
    have hlast : a ≠ s.last q := by
      rw [h.last, hA, ← List.append_assoc, getLastD_append_cons]
      intro e
      have hm : (n :: l2).getLastD 0 ∈ n :: l2 := getLastD_mem (List.cons_ne_nil _ _) _
      rw [← e] at hm
      rw [hA] at hnd
      have := (List.nodup_append.1 hnd).2.1
      rw [List.cons_append, List.nodup_cons] at this
      exact this.1 (List.mem_append_right _ hm)
    have hlk := h.links q
    rw [hA, links_append, List.cons_append, links_cons] at hlk
    have hnext : s.next a = (l1 ++ [n]).headD 0 := by
      rw [hlk.2.1]; cases l1 <;> rfl
    simp only [removeLoop, List.cons_append, List.headD_cons, hna, if_false, hlast, and_false, rd, h.ne0 ha,
      Outcome.bind_ret, hnext]
    have := ih (l1' ++ [a]) (by rw [hA]; simp) fuel (by simp at hf; omega)
    rw [getLastD_append_singleton] at this
    simpa using this

theorem remove_spec (dbg : Bool) {s : St} {A : Nat → List Nat} (h : Inv s A) {q n : Nat} (hn : n ∈ A q) (fuel : Nat)
    (hf : (A q).length ≤ fuel) : ∃ s', remove dbg fuel s q n = .ret s' ∧ Inv s' (upd A q ((A q).erase n)) := by
  obtain ⟨l1, l2, hA⟩ := List.append_of_mem hn
  unfold remove
  rw [check_listed h hn, Outcome.bind_ret]
  have hr : s.root q = (l1 ++ [n]).headD 0 := by rw [h.root, hA]; cases l1 <;> rfl
  obtain ⟨s', h1, h2⟩ := removeLoop_spec dbg h [] l1 l2 hA fuel (by rw [hA] at hf; simp at hf; omega)
  refine ⟨s', by rw [hr]; exact h1, ?_⟩
  have : (A q).erase n = [] ++ l1 ++ l2 := by
    have hnd := h.nodup q
    rw [hA, List.nodup_middle, List.nodup_cons] at hnd
    rw [hA, List.erase_append_right _ (fun hm => hnd.1 (List.mem_append_left _ hm))]
    simp
  rw [this]; exact h2

theorem dropTail_spec (dbg : Bool) {s : St} {A : Nat → List Nat} (h : Inv s A) (q : Nat) (fuel : Nat)
    (hf : (A q).length ≤ fuel) :
    ∃ s', dropTail dbg fuel s q = .ret (s', (A q).getLastD 0) ∧ Inv s' (upd A q (A q).dropLast) := by
  unfold dropTail tail
  by_cases hA : A q = []
  · have hl := (h.lastNe q).2 hA
    simp only [hl, ne_eq, not_true_eq_false, if_false, hA]
    refine ⟨s, rfl, ?_⟩
    have : upd A q ([] : List Nat).dropLast = A := by
      funext x; rw [upd_apply]; split
      · next e => rw [e, hA]; rfl
      · rfl
    rw [this]; exact h
  · have hl : s.last q ≠ 0 := fun e => hA ((h.lastNe q).1 e)
    simp only [hl, ne_eq, not_false_eq_true, if_true]
    obtain ⟨i, a, hia⟩ := exists_concat hA
    have hla : s.last q = a := by rw [h.last, hia, getLastD_append_singleton]
    obtain ⟨s', h1, h2⟩ := remove_spec dbg h (q := q) (n := a) (by rw [hia]; simp) fuel hf
    rw [hla, h1, Outcome.bind_ret]
    refine ⟨s', by rw [hia, getLastD_append_singleton]; rfl, ?_⟩
    have : (A q).erase a = (A q).dropLast := by
      have hnd := h.nodup q
      rw [hia, List.nodup_append] at hnd
      rw [hia, List.erase_append_right _ (fun hm => hnd.2.2 a hm a (by simp) rfl)]
      simp
    rw [← this]; exact h2

theorem transfer_spec {s : St} {A : Nat → List Nat} (h : Inv s A) {q f : Nat} (hqf : q ≠ f) :
    ∃ s', transfer s q f = .ret s' ∧ Inv s' (upd (upd A q (A q ++ A f)) f []) := by
  unfold transfer empty
  by_cases hf : A f = []
  · have hr := (h.headNe f).2 hf
    simp only [hr, decide_true, if_true]
    refine ⟨s, rfl, ?_⟩
    have : upd (upd A q (A q ++ A f)) f [] = A := by
      funext x; simp only [upd_apply]; split
      · next e => rw [e, hf]
      · split
        · next e => rw [e, hf, List.append_nil]
        · rfl
    rw [this]; exact h
  have hrf : s.root f ≠ 0 := fun e => hf ((h.headNe f).1 e)
  have hrf' : s.root f = (A f).headD 0 := h.root f
  simp only [hrf, decide_false, Bool.false_eq_true, if_false]
  have key : ∀ nx, (∀ m, m ∉ A q → nx m = s.next m) → Links nx (A q) ((A f).headD 0) → (∀ m ∈ A q, nx m ≠ 0) →
      Inv ⟨nx, upd (upd s.root q ((A q ++ A f).headD 0)) f 0, upd (upd s.last q (s.last f)) f 0⟩
        (upd (upd A q (A q ++ A f)) f []) := by
    intro nx hnx hlk hnz
    have hmemf : ∀ m, m ∈ A f → m ∉ A q := fun m hm => h.disj f q m (Ne.symm hqf) hm
    constructor
    · intro q'; simp only [upd_apply]; split
      · rfl
      · split
        · rfl
        · exact h.root q'
    · intro q'; simp only [upd_apply]; split
      · rfl
      · split
        · rw [h.last]
          cases hA : A f with
          | nil => exact absurd hA hf
          | cons b l => rw [getLastD_append_cons]
        · exact h.last q'
    · intro q'
      simp only
      simp only [upd_apply]; split
      · trivial
      · split
        · have hlast : (A q ++ A f).getLastD 0 = (A f).getLastD 0 := by
            cases hA : A f with
            | nil => exact absurd hA hf
            | cons b l => rw [getLastD_append_cons]
          rw [hlast, links_append]
          refine ⟨?_, ?_⟩
          · have : (A f).headD ((A f).getLastD 0) = (A f).headD 0 := by
              cases hA : A f with
              | nil => exact absurd hA hf
              | cons b l => rfl
            rw [this]; exact hlk
          · rw [links_congr nx s.next]
            · exact h.links f
            · intro a ha; exact hnx a (hmemf a ha)
        · next e1 e2 =>
          rw [links_congr nx s.next]
          · exact h.links q'
          · intro a ha; exact hnx a (fun ha' => h.disj q' q a e2 ha ha')
    · intro q'; simp only [upd_apply]; split
      · exact List.nodup_nil
      · split
        · rw [List.nodup_append]
          exact ⟨h.nodup q, h.nodup f, fun a ha b hb e => hmemf b hb (e ▸ ha)⟩
        · exact h.nodup q'
    · have e : ∀ q' m, m ∈ upd (upd A q (A q ++ A f)) f [] q' → ∃ q'', m ∈ A q'' ∧ (q' = if q'' = f then q else q'') := by
        intro q' m hm
        simp only [upd_apply] at hm
        split at hm
        · exact absurd hm (by simp)
        · split at hm
          · next e2 =>
            rcases List.mem_append.1 hm with hm | hm
            · exact ⟨q, hm, by rw [if_neg hqf, e2]⟩
            · exact ⟨f, hm, by rw [if_pos rfl, e2]⟩
          · next e1 e2 => exact ⟨q', hm, by rw [if_neg e1]⟩
      intro q1 q2 m hne h1 h2
      obtain ⟨q1', h1', e1⟩ := e q1 m h1
      obtain ⟨q2', h2', e2⟩ := e q2 m h2
      by_cases h12 : q1' = q2'
      · subst h12; exact hne (e1.trans e2.symm)
      · exact h.disj q1' q2' m h12 h1' h2'
    · intro m
      simp only
      constructor
      · intro hm
        by_cases hmq : m ∈ A q
        · exact ⟨q, by simp only [upd_apply, if_neg hqf, if_true]; exact List.mem_append_left _ hmq⟩
        · rw [hnx m hmq] at hm
          obtain ⟨q', hq'⟩ := (h.listed m).1 hm
          by_cases hq'f : q' = f
          · subst hq'f
            exact ⟨q, by simp only [upd_apply, if_neg hqf, if_true]; exact List.mem_append_right _ hq'⟩
          · refine ⟨q', ?_⟩
            have hq'q : q' ≠ q := fun e => hmq (e ▸ hq')
            simp only [upd_apply, if_neg hq'f, if_neg hq'q]; exact hq'
      · rintro ⟨q', hq'⟩
        simp only [upd_apply] at hq'
        split at hq'
        · exact absurd hq' (by simp)
        · split at hq'
          · rcases List.mem_append.1 hq' with hq' | hq'
            · exact hnz m hq'
            · rw [hnx m (hmemf m hq')]; exact (h.listed m).2 ⟨f, hq'⟩
          · next e1 e2 =>
            rw [hnx m (fun hm => h.disj q' q m e2 hq' hm)]; exact (h.listed m).2 ⟨q', hq'⟩
    · intro q'; simp only [upd_apply]; split
      · simp
      · split
        · rw [List.mem_append]; rintro (e | e)
          · exact h.nz q e
          · exact h.nz f e
        · exact h.nz q'
  by_cases hq : A q = []
  · have hrq := (h.headNe q).2 hq
    simp only [hrq, decide_true, if_true, Outcome.bind_ret, Outcome.pure_eq]
    refine ⟨_, rfl, ?_⟩
    have := key s.next (fun _ _ => rfl) (by rw [hq]; trivial) (by rw [hq]; simp)
    have e : (A q ++ A f).headD 0 = s.root f := by rw [hq, h.root]; rfl
    rw [e] at this
    exact this
  · have hrq : s.root q ≠ 0 := fun e => hq ((h.headNe q).1 e)
    obtain ⟨i, a, hia⟩ := exists_concat hq
    have hla : s.last q = a := by rw [h.last, hia, getLastD_append_singleton]
    have ha0 : a ≠ 0 := h.ne0 (q := q) (by rw [hia]; simp)
    simp only [hrq, decide_false, Bool.false_eq_true, if_false, wr, hla, ha0, Outcome.bind_ret, Outcome.pure_eq, head, hrf']
    refine ⟨_, rfl, ?_⟩
    have := key (upd s.next a ((A f).headD 0)) (fun m hm => upd_ne _ _ (fun e => hm (by rw [hia, e]; simp)))
      (by
        rw [hia]
        apply links_retarget (t := (A q).getLastD 0)
        · rw [← hia]; exact h.links q
        · rw [← hia]; exact h.nodup q)
      (by
        intro m hm
        rw [upd_apply]; split
        · rw [← hrf']; exact hrf
        · exact (h.listed m).2 ⟨q, hm⟩)
    have e : (A q ++ A f).headD 0 = s.root q := by
      rw [h.root]
      cases hA' : A q with
      | nil => exact absurd hA' hq
      | cons a l => rfl
    rw [e, upd_self] at this
    exact this

theorem split_spec (dbg : Bool) {s : St} {A : Nat → List Nat} (h : Inv s A) {q f n : Nat} {l1 l2 : List Nat}
    (hA : A f = l1 ++ n :: l2) (hqf : q ≠ f) (hq0 : q ≠ 0) (hf0 : f ≠ 0) (h0 : A 0 = []) :
    ∃ s', split dbg s q f n 0 = .ret s' ∧ Inv s' (upd (upd A f l2) q (A q ++ (l1 ++ [n]))) := by
  unfold split
  have hn : n ∈ A f := by rw [hA]; simp
  have hn0 := h.ne0 hn
  have hnd := h.nodup f
  have hlk := h.links f
  rw [hA, links_append, links_cons] at hlk
  rw [check_listed h hn, Outcome.bind_ret]
  have hnd' := hnd
  rw [hA] at hnd'
  have hnl2 : n ∉ l2 := by
    have := (List.nodup_append.1 hnd').2.1
    rw [List.nodup_cons] at this; exact this.1
  -- the intermediate structure
  have mid : ∀ nx, (∀ m, m ≠ n → nx m = s.next m) → nx n = n →
      Inv ⟨nx, upd (upd s.root 0 ((l1 ++ [n]).headD 0)) f (l2.headD 0), upd (upd s.last 0 n) f (l2.getLastD 0)⟩
        (upd (upd A 0 (l1 ++ [n])) f l2) := by
    intro nx hnx hnn
    have hcongr : ∀ l t, n ∉ l → (Links nx l t ↔ Links s.next l t) := fun l t hl =>
      links_congr _ _ _ _ (fun a ha => hnx a (fun e => hl (e ▸ ha)))
    have hmem1 : ∀ m, m ∈ l1 ++ [n] → m ∈ A f := by
      intro m hm; rw [hA]; rcases List.mem_append.1 hm with hm | hm
      · simp [hm]
      · rw [List.mem_singleton] at hm; simp [hm]
    have hmem2 : ∀ m, m ∈ l2 → m ∈ A f := by intro m hm; rw [hA]; simp [hm]
    have hdisj12 : ∀ m, m ∈ l1 ++ [n] → m ∉ l2 := by
      intro m hm hm2
      have e : l1 ++ n :: l2 = (l1 ++ [n]) ++ l2 := by simp
      rw [e] at hnd'
      exact (List.nodup_append.1 hnd').2.2 m hm m hm2 rfl
    constructor
    · intro q'; simp only [upd_apply]; split
      · rfl
      · split
        · rfl
        · exact h.root q'
    · intro q'; simp only [upd_apply]; split
      · rfl
      · split
        · rw [getLastD_append_singleton]
        · exact h.last q'
    · intro q'
      simp only [upd_apply]; split
      · rw [hcongr _ _ hnl2]
        have := hlk.2.2
        rw [getLastD_append_cons] at this
        cases l2 with
        | nil => trivial
        | cons b l2 => simpa using this
      · split
        · rw [getLastD_append_singleton, links_append]
          refine ⟨?_, by simp [hnn]⟩
          rw [hcongr]
          · exact hlk.1
          · intro hm
            exact (List.nodup_append.1 hnd').2.2 n hm n (by simp) rfl
        · next e1 e2 =>
          rw [hcongr]
          · exact h.links q'
          · exact fun hm => h.disj q' f n e1 hm hn
    · intro q'; simp only [upd_apply]; split
      · exact (List.nodup_cons.1 (List.nodup_append.1 hnd').2.1).2
      · split
        · have e : l1 ++ n :: l2 = (l1 ++ [n]) ++ l2 := by simp
          rw [e] at hnd'
          exact (List.nodup_append.1 hnd').1
        · exact h.nodup q'
    · have e : ∀ q' m, m ∈ upd (upd A 0 (l1 ++ [n])) f l2 q' →
          (m ∈ A f ∧ ((q' = f ∧ m ∈ l2) ∨ (q' = 0 ∧ m ∈ l1 ++ [n]))) ∨ (m ∉ A f ∧ m ∈ A q') := by
        intro q' m hm
        simp only [upd_apply] at hm
        split at hm
        · next e => exact Or.inl ⟨hmem2 m hm, Or.inl ⟨e, hm⟩⟩
        · split at hm
          · next e => exact Or.inl ⟨hmem1 m hm, Or.inr ⟨e, hm⟩⟩
          · next e1 e2 => exact Or.inr ⟨fun hm' => h.disj q' f m e1 hm hm', hm⟩
      intro q1 q2 m hne h1 h2
      rcases e q1 m h1 with ⟨a1, h1⟩ | ⟨a1, h1⟩ <;> rcases e q2 m h2 with ⟨a2, h2⟩ | ⟨a2, h2⟩
      · rcases h1 with ⟨b1, h1⟩ | ⟨b1, h1⟩ <;> rcases h2 with ⟨b2, h2⟩ | ⟨b2, h2⟩
        · exact hne (b1.trans b2.symm)
        · exact hdisj12 m h2 h1
        · exact hdisj12 m h1 h2
        · exact hne (b1.trans b2.symm)
      · exact a2 a1
      · exact a1 a2
      · exact h.disj q1 q2 m hne h1 h2
    · intro m
      simp only
      have hmain : nx m ≠ 0 ↔ ∃ q', m ∈ A q' := by
        by_cases hmn : m = n
        · subst hmn; rw [hnn]; exact ⟨fun _ => ⟨f, hn⟩, fun _ => hn0⟩
        · rw [hnx m hmn]; exact h.listed m
      rw [hmain]
      constructor
      · rintro ⟨q', hq'⟩
        by_cases hq'f : q' = f
        · subst hq'f
          rw [hA] at hq'
          have e : l1 ++ n :: l2 = (l1 ++ [n]) ++ l2 := by simp
          rw [e] at hq'
          rcases List.mem_append.1 hq' with hm | hm
          · exact ⟨0, by simp only [upd_apply, if_neg (Ne.symm hf0), if_true]; exact hm⟩
          · exact ⟨q', by simp only [upd_apply, if_true]; exact hm⟩
        · refine ⟨q', ?_⟩
          have : q' ≠ 0 := by intro e; subst e; rw [h0] at hq'; exact absurd hq' (by simp)
          simp only [upd_apply, if_neg hq'f, if_neg this]; exact hq'
      · rintro ⟨q', hq'⟩
        simp only [upd_apply] at hq'
        split at hq'
        · exact ⟨f, hmem2 m hq'⟩
        · split at hq'
          · exact ⟨f, hmem1 m hq'⟩
          · exact ⟨q', hq'⟩
    · intro q'; simp only [upd_apply]; split
      · exact fun hm => h.nz f (hmem2 0 hm)
      · split
        · exact fun hm => h.nz f (hmem1 0 hm)
        · exact h.nz q'
  have hroot : s.root f = (l1 ++ [n]).headD 0 := by rw [h.root, hA]; cases l1 <;> rfl
  have fin : ∀ s1, Inv s1 (upd (upd A 0 (l1 ++ [n])) f l2) →
      ∃ s', transfer s1 q 0 = .ret s' ∧ Inv s' (upd (upd A f l2) q (A q ++ (l1 ++ [n]))) := by
    intro s1 h1
    obtain ⟨s', h2, h3⟩ := transfer_spec h1 hq0
    refine ⟨s', h2, ?_⟩
    have e : upd (upd (upd (upd A 0 (l1 ++ [n])) f l2) q
        (upd (upd A 0 (l1 ++ [n])) f l2 q ++ upd (upd A 0 (l1 ++ [n])) f l2 0)) 0 [] =
        upd (upd A f l2) q (A q ++ (l1 ++ [n])) := by
      funext x
      simp only [upd_apply, if_neg hqf, if_neg hq0, if_neg (Ne.symm hf0), if_true]
      by_cases hx0 : x = 0
      · subst hx0; simp [Ne.symm hf0, Ne.symm hq0, h0]
      · simp [hx0]
    rw [e] at h3; exact h3
  cases l2 with
  | nil =>
    have hnext : s.next n = n := by
      have := hlk.2.1; rw [getLastD_append_singleton] at this; simpa using this
    simp only [rd, hn0, if_false, Outcome.bind_ret, hnext, if_true, wr, upd_same]
    apply fin
    have := mid s.next (fun m hm => rfl) hnext
    rw [upd_upd, hroot]
    exact this
  | cons b l2 =>
    have hnext : s.next n = b := by simpa using hlk.2.1
    have hbn : ¬ n = b := fun e => hnl2 (by simp [e])
    simp only [rd, hn0, if_false, Outcome.bind_ret, hnext, hbn, wr, upd_same]
    apply fin
    have := mid (upd s.next n n) (fun m hm => upd_ne _ _ hm) (upd_same _ _ _)
    have e : (b :: l2).getLastD 0 = upd s.last 0 n f := by
      rw [upd_ne _ _ hf0, h.last, hA, getLastD_append_cons, List.getLastD_cons, List.getLastD_cons, List.getLastD_cons]
    rw [hroot]
    rw [e, upd_self] at this
    exact this

theorem succ_spec (dbg : Bool) {s : St} {A : Nat → List Nat} (h : Inv s A) {q n : Nat} {l1 l2 : List Nat}
    (hA : A q = l1 ++ n :: l2) : succ dbg s n = .ret (l2.headD 0) := by
  have hn : n ∈ A q := by rw [hA]; simp
  have hn0 := h.ne0 hn
  have hlk := h.links q
  have hnd := h.nodup q
  rw [hA, links_append, links_cons] at hlk
  rw [hA] at hnd
  unfold succ
  rw [check_listed h hn]
  simp only [Outcome.bind_ret, rd, hn0, if_false]
  cases l2 with
  | nil =>
    have := hlk.2.1
    rw [getLastD_append_singleton] at this
    simp at this
    simp [this]
  | cons b l2 =>
    have hb : s.next n = b := by simpa using hlk.2.1
    have hbn : b ≠ n := by
      intro e; subst e
      have := (List.nodup_cons.1 (List.nodup_append.1 hnd).2.1).1
      simp at this
    simp [hb, hbn]

theorem iterate_spec {s : St} {A : Nat → List Nat} (h : Inv s A) {q : Nat} (l1 l2 : List Nat) (hA : A q = l1 ++ l2)
    (fuel : Nat) (hf : l2.length < fuel) : iterate s fuel (l2.headD 0) = .ret l2 := by
  induction l2 generalizing l1 fuel with
  | nil =>
    obtain ⟨fuel, rfl⟩ : ∃ f, fuel = f + 1 := ⟨fuel - 1, by simp at hf; omega⟩
    simp [iterate, iterNext]
  | cons a l2 ih =>
    obtain ⟨fuel, rfl⟩ : ∃ f, fuel = f + 1 := ⟨fuel - 1, by simp at hf; omega⟩
    have ha0 : a ≠ 0 := h.ne0 (q := q) (by rw [hA]; simp)
    have hlk := h.links q
    have hnd := h.nodup q
    rw [hA, links_append, links_cons] at hlk
    rw [hA] at hnd
    have hc : (if s.next a = a then 0 else s.next a) = l2.headD 0 := by
      cases l2 with
      | nil =>
        have := hlk.2.1
        rw [getLastD_append_singleton] at this
        simp at this
        simp [this]
      | cons b l2 =>
        have hb : s.next a = b := by simpa using hlk.2.1
        have hbn : b ≠ a := by
          intro e; subst e
          have := (List.nodup_cons.1 (List.nodup_append.1 hnd).2.1).1
          simp at this
        simp [hb, hbn]
    have := ih (l1 ++ [a]) (by rw [hA]; simp) fuel (by simp at hf; omega)
    show iterate s (fuel + 1) a = _
    simp only [iterate, iterNext, ne_eq, ha0, not_false_eq_true, if_true, rd, if_false, Outcome.bind_ret,
      Outcome.pure_eq]
    rw [hc, this, Outcome.bind_ret]

end Verif.Queue
