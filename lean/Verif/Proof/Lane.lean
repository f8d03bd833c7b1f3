import Verif.Model.Lane
import Verif.Proof.Heap
/-! Invariant and step lemmas for lanes of the ready queue. -/
namespace Verif.Lane
open Verif

/-- From `a`: the links lead through the threads; each link carries the time of the push that made it. -/
def Chain (nx ts : Nat → Nat) : Nat → List (Nat × Nat) → Prop
  | a, [] => nx a = 0 ∧ ts a = MAX
  | a, (n, t) :: l => nx a = n ∧ ts a = t ∧ Chain nx ts n l

/-- Last thread, or the mock head. -/
def lastOf : Nat → List (Nat × Nat) → Nat
  | a, [] => a
  | _, (n, _) :: l => lastOf n l

def threads (l : List (Nat × Nat)) : List Nat := l.map Prod.fst

theorem lastOf_mem (a : Nat) (l : List (Nat × Nat)) : lastOf a l = a ∨ lastOf a l ∈ threads l := by
  induction l generalizing a with
  | nil => exact Or.inl rfl
  | cons p l ih =>
    right
    rcases ih p.1 with e | e
    · simp [lastOf, threads, e]
    · simp only [threads] at e; simp [lastOf, threads, e]

theorem lastOf_append (a n t : Nat) (l : List (Nat × Nat)) : lastOf a (l ++ [(n, t)]) = n := by
  induction l generalizing a with
  | nil => rfl
  | cons p l ih => exact ih p.1

theorem chain_congr {nx ts nx' ts' : Nat → Nat} {a : Nat} {l : List (Nat × Nat)} (h : Chain nx ts a l)
    (hc : ∀ c, c = a ∨ c ∈ threads l → nx' c = nx c ∧ ts' c = ts c) : Chain nx' ts' a l := by
  induction l generalizing a with
  | nil => rw [Chain, (hc a (Or.inl rfl)).1, (hc a (Or.inl rfl)).2]; exact h
  | cons p l ih =>
    obtain ⟨n, t⟩ := p
    refine ⟨by rw [(hc a (Or.inl rfl)).1]; exact h.1, by rw [(hc a (Or.inl rfl)).2]; exact h.2.1, ih h.2.2 ?_⟩
    rintro c (e | e)
    · exact hc c (Or.inr (by simp [threads, e]))
    · exact hc c (Or.inr (by simp only [threads] at e; simp [threads, e]))

theorem chain_last {nx ts : Nat → Nat} {a : Nat} {l : List (Nat × Nat)} (h : Chain nx ts a l) :
    nx (lastOf a l) = 0 ∧ ts (lastOf a l) = MAX := by
  induction l generalizing a with
  | nil => exact h
  | cons p l ih => exact ih h.2.2

theorem chain_push {nx ts : Nat → Nat} {a n t : Nat} {l : List (Nat × Nat)} (h : Chain nx ts a l)
    (hnd : (a :: threads l).Nodup) (hn : n ∉ a :: threads l) (hx : nx n = 0) (ht : ts n = MAX) :
    Chain (upd nx (lastOf a l) n) (upd ts (lastOf a l) t) a (l ++ [(n, t)]) := by
  induction l generalizing a with
  | nil =>
    have : n ≠ a := fun e => hn (by simp [e])
    exact ⟨upd_same _ _ _, upd_same _ _ _, by rw [lastOf, upd_ne _ _ this]; exact hx, by rw [lastOf, upd_ne _ _ this]; exact ht⟩
  | cons p l ih =>
    obtain ⟨m, u⟩ := p
    have ha : a ≠ lastOf m l := by
      intro e
      have hm : a ∉ threads ((m, u) :: l) := (List.nodup_cons.1 hnd).1
      rcases lastOf_mem m l with e' | e'
      · exact hm (by simp [threads, e, e'])
      · exact hm (by rw [e]; simp only [threads] at e' ⊢; simp [e'])
    refine ⟨?_, ?_, ih h.2.2 (List.nodup_cons.1 hnd).2 (fun e => hn (by simp only [threads] at e ⊢; simp only [List.map_cons]; exact List.mem_cons_of_mem _ e))⟩
    · show upd nx (lastOf m l) n a = m
      rw [upd_ne _ _ ha]; exact h.1
    · show upd ts (lastOf m l) t a = u
      rw [upd_ne _ _ ha]; exact h.2.1

/-- `H` says which addresses are mock heads. -/
structure Inv (H : Nat → Bool) (s : St) (A : Nat → List (Nat × Nat)) : Prop where
  chain : ∀ q, H q = true → Chain s.next s.ts q (A q)
  prev : ∀ q, H q = true → s.prev q = lastOf q (A q)
  nodup : ∀ q, (threads (A q)).Nodup
  disj : ∀ q q' n, q ≠ q' → n ∈ threads (A q) → n ∉ threads (A q')
  thr : ∀ q n, n ∈ threads (A q) → n ≠ 0 ∧ H n = false
  stamps : ∀ q p, p ∈ A q → p.2 ≠ 0 ∧ p.2 ≠ MAX
  off : ∀ n, H n = false → (∀ q, n ∉ threads (A q)) → s.next n = 0 ∧ s.ts n = MAX
  live : ∀ q, H q = false → A q = []

variable {H : Nat → Bool} {s : St} {A : Nat → List (Nat × Nat)}

/-- One lane changes. -/
theorem Inv.set {s' : St} (h : Inv H s A) {q : Nat} (hq : H q = true) {l : List (Nat × Nat)}
    (hchain : Chain s'.next s'.ts q l) (hprev : s'.prev q = lastOf q l) (hprev' : ∀ q', q' ≠ q → s'.prev q' = s.prev q')
    (hl : ∀ m ∈ threads l, m ∈ threads (A q) ∨ (∀ q', m ∉ threads (A q')) ∧ m ≠ 0 ∧ H m = false)
    (hnd : (threads l).Nodup) (hst : ∀ p ∈ l, p.2 ≠ 0 ∧ p.2 ≠ MAX)
    (hn : ∀ m, m ≠ q → m ∉ threads (A q) → m ∉ threads l → s'.next m = s.next m ∧ s'.ts m = s.ts m)
    (hoff : ∀ m ∈ threads (A q), m ∉ threads l → s'.next m = 0 ∧ s'.ts m = MAX) : Inv H s' (upd A q l) := by
  have hother : ∀ q' m, q' ≠ q → m ∈ threads (A q') → m ∉ threads (A q) ∧ m ∉ threads l := by
    intro q' m hq' hm
    refine ⟨h.disj q' q m hq' hm, fun hm' => ?_⟩
    rcases hl m hm' with e | e
    · exact h.disj q' q m hq' hm e
    · exact e.1 q' hm
  have hH : ∀ m, m ∈ threads l → m ≠ 0 ∧ H m = false := by
    intro m hm
    rcases hl m hm with e | e
    · exact h.thr q m e
    · exact e.2
  constructor
  · intro q' hq'
    rw [upd_apply]; split
    · next e => rw [e]; exact hchain
    · next e =>
      refine chain_congr (h.chain q' hq') ?_
      rintro c (hc | hc)
      · have hnh : ∀ l' : List Nat, (∀ m ∈ l', H m = false) → c ∉ l' := by
          intro l' hl' hm; have := hl' c hm; rw [hc, hq'] at this; exact absurd this (by simp)
        exact hn c (by rw [hc]; exact e) (hnh _ (fun m hm => (h.thr q m hm).2)) (hnh _ (fun m hm => (hH m hm).2))
      · have hcq : c ≠ q := by
          intro e'; have := (h.thr q' c hc).2; rw [e', hq] at this; exact absurd this (by simp)
        exact hn c hcq (hother q' c e hc).1 (hother q' c e hc).2
  · intro q' hq'
    rw [upd_apply]; split
    · next e => rw [e]; exact hprev
    · next e => rw [hprev' q' e]; exact h.prev q' hq'
  · intro q'; rw [upd_apply]; split
    · exact hnd
    · exact h.nodup q'
  · intro q1 q2 m hne h1 h2
    rw [upd_apply] at h1 h2
    split at h1 <;> split at h2
    · omega
    · next e1 e2 => exact (hother q2 m e2 h2).2 h1
    · next e1 e2 => exact (hother q1 m e1 h1).2 h2
    · exact h.disj q1 q2 m hne h1 h2
  · intro q' m hm
    rw [upd_apply] at hm; split at hm
    · exact hH m hm
    · exact h.thr q' m hm
  · intro q' p hp
    rw [upd_apply] at hp; split at hp
    · exact hst p hp
    · exact h.stamps q' p hp
  · intro m hmH hm
    have hml : m ∉ threads l := by have := hm q; rwa [upd_same] at this
    by_cases hmA : m ∈ threads (A q)
    · exact hoff m hmA hml
    · have hmq : m ≠ q := by intro e; rw [e, hq] at hmH; exact absurd hmH (by simp)
      rw [(hn m hmq hmA hml).1, (hn m hmq hmA hml).2]
      apply h.off m hmH
      intro q' hq'
      have := hm q'
      rw [upd_apply] at this; split at this
      · next e => exact hmA (e ▸ hq')
      · exact this hq'
  · intro q' hq'
    rw [upd_apply]; split
    · next e => rw [e, hq] at hq'; exact absurd hq' (by simp)
    · exact h.live q' hq'

theorem chain_head {q : Nat} (h : Inv H s A) (hq : H q = true) :
    s.next q = ((A q).head?.map Prod.fst).getD 0 ∧ s.ts q = ((A q).head?.map Prod.snd).getD MAX := by
  have := h.chain q hq
  cases hA : A q with
  | nil => rw [hA] at this; exact this
  | cons p l => rw [hA] at this; exact ⟨this.1, this.2.1⟩

theorem head_ne {q : Nat} (h : Inv H s A) {p : Nat × Nat} {l : List (Nat × Nat)} (hA : A q = p :: l) :
    p.1 ≠ 0 ∧ p.2 ≠ 0 ∧ p.2 ≠ MAX ∧ H p.1 = false :=
  ⟨(h.thr q p.1 (by rw [hA]; simp [threads])).1, (h.stamps q p (by rw [hA]; simp)).1, (h.stamps q p (by rw [hA]; simp)).2,
    (h.thr q p.1 (by rw [hA]; simp [threads])).2⟩

theorem MAX_ne : MAX ≠ 0 := by unfold MAX; omega

theorem push_spec (h : Inv H s A) {q n now : Nat} (hq : H q = true) (hn0 : n ≠ 0) (hnH : H n = false)
    (hu : ∀ q', n ∉ threads (A q')) (h0 : now ≠ 0) (hm : now ≠ MAX) (dbg : Bool) :
    ∃ s', push dbg now s q n = .ret s' ∧ Inv H s' (upd A q (A q ++ [(n, now)])) := by
  obtain ⟨hx, ht⟩ := h.off n hnH hu
  have hp := h.prev q hq
  have hc := h.chain q hq
  obtain ⟨l1, l2⟩ := chain_last hc
  obtain ⟨e1, e2⟩ := chain_head h hq
  have hM := MAX_ne
  have hqn : ∀ a, a ∈ threads (A q) → a ≠ q := by
    intro a ha e; have := (h.thr q a ha).2; rw [e, hq] at this; exact absurd this (by simp)
  have hnq : n ≠ q := by intro e; rw [e, hq] at hnH; exact absurd hnH (by simp)
  refine ⟨⟨upd s.next (lastOf q (A q)) n, upd s.ts (lastOf q (A q)) now, upd s.prev q n⟩, ?_, ?_⟩
  · cases hA : A q with
    | nil =>
      rw [hA] at hp l1 l2 e1 e2
      simp only [lastOf] at hp l1 l2
      simp [push, verify, hx, ht, hp, l1, l2, lastOf, hM]
    | cons p l =>
      obtain ⟨a1, a2, a3, _⟩ := head_ne h hA
      have hlast : lastOf q (A q) ≠ q := by
        rw [hA]
        rcases lastOf_mem p.1 l with e | e
        · have := hqn p.1 (by rw [hA]; simp [threads]); simp only [lastOf]; rw [e]; exact this
        · exact hqn _ (by rw [hA]; simp only [threads, lastOf] at e ⊢; simp [e])
      rw [hA] at hp l1 l2 e1 e2 hlast
      simp at e1 e2
      simp [push, verify, hx, ht, hp, l1, l2, e1, e2, a1, a2, a3, hlast]
  · have hlm := lastOf_mem q (A q)
    have hnd : (q :: threads (A q)).Nodup := List.nodup_cons.2 ⟨fun e => hqn q e rfl, h.nodup q⟩
    refine Inv.set h hq ?_ ?_ ?_ ?_ ?_ ?_ ?_ ?_
    · exact chain_push hc hnd (by simp only [List.mem_cons, not_or]; exact ⟨hnq, hu q⟩) hx ht
    · simp only [upd_same]; rw [lastOf_append]
    · intro q' hq'; exact upd_ne _ _ hq'
    · intro m hm
      simp only [threads, List.map_append, List.map_cons, List.map_nil, List.mem_append, List.mem_singleton] at hm
      rcases hm with e | e
      · exact Or.inl e
      · subst e; exact Or.inr ⟨hu, hn0, hnH⟩
    · simp only [threads, List.map_append, List.map_cons, List.map_nil]
      rw [List.nodup_append]
      refine ⟨h.nodup q, by simp, ?_⟩
      intro a ha b hb e
      simp at hb
      subst hb; subst e
      exact hu q ha
    · intro p hp
      rcases List.mem_append.1 hp with e | e
      · exact h.stamps q p e
      · simp at e; subst e; exact ⟨h0, hm⟩
    · intro m hmq hmA _
      have : m ≠ lastOf q (A q) := by
        rintro rfl
        rcases hlm with e | e
        · exact hmq e
        · exact hmA e
      exact ⟨upd_ne _ _ this, upd_ne _ _ this⟩
    · intro m hm hml
      exact absurd (by simp only [threads] at hm ⊢; rw [List.map_append]; exact List.mem_append.2 (Or.inl hm)) hml

theorem pop_spec (h : Inv H s A) {q n t : Nat} {l : List (Nat × Nat)} (hq : H q = true) (hA : A q = (n, t) :: l) (dbg : Bool) :
    ∃ s', pop dbg s q = .ret (s', n, (l.head?.map Prod.snd).getD MAX) ∧ Inv H s' (upd A q l) := by
  obtain ⟨a1, a2, a3, a4⟩ := head_ne h hA
  have hc := h.chain q hq
  rw [hA] at hc
  obtain ⟨c1, c2, c3⟩ := hc
  have hnq : n ≠ q := by intro e; simp only at a4; rw [e, hq] at a4; exact absurd a4 (by simp)
  have hnd := h.nodup q
  rw [hA] at hnd
  simp only [threads, List.map_cons, List.nodup_cons] at hnd
  have hM := MAX_ne
  have hx : s.next n = (l.head?.map Prod.fst).getD 0 ∧ s.ts n = (l.head?.map Prod.snd).getD MAX := by
    cases l with
    | nil => exact c3
    | cons p l => exact ⟨c3.1, c3.2.1⟩
  have hl : l = [] ∨ ∃ p l', l = p :: l' ∧ p.1 ≠ 0 ∧ p.2 ≠ 0 ∧ p.2 ≠ MAX := by
    cases l with
    | nil => exact Or.inl rfl
    | cons p l' =>
      refine Or.inr ⟨p, l', rfl, (h.thr q p.1 (by rw [hA]; simp [threads])).1, h.stamps q p (by rw [hA]; simp)⟩
  simp only at a1 a2 a3
  have hrun : pop dbg s q = .ret (⟨upd (upd s.next q (s.next n)) n 0, upd (upd s.ts q (s.ts n)) n MAX,
      if s.next n = 0 then upd s.prev q q else s.prev⟩, n, s.ts n) := by
    rcases hl with e | ⟨p, l', e, b1, b2, b3⟩
    · subst e
      simp at hx
      simp [pop, verify, c1, c2, a1, a2, a3, hnq.symm, upd_apply, hx, hM]
    · subst e
      simp at hx
      simp [pop, verify, c1, c2, a1, a2, a3, hnq.symm, upd_apply, hx, hM, b1, b2, b3]
  refine ⟨⟨upd (upd s.next q (s.next n)) n 0, upd (upd s.ts q (s.ts n)) n MAX,
      if s.next n = 0 then upd s.prev q q else s.prev⟩, by rw [hrun, hx.2], ?_⟩
  have hmem : ∀ m, m ∈ threads (A q) ↔ m = n ∨ m ∈ threads l := by intro m; rw [hA]; simp [threads]
  have hqt : q ∉ threads (A q) := by
    intro e; have := (h.thr q q e).2; rw [hq] at this; exact absurd this (by simp)
  have hnext : ∀ m, m ≠ q → m ≠ n → upd (upd s.next q (s.next n)) n 0 m = s.next m := by
    intro m h1 h2; rw [upd_ne _ _ h2, upd_ne _ _ h1]
  have hts : ∀ m, m ≠ q → m ≠ n → upd (upd s.ts q (s.ts n)) n MAX m = s.ts m := by
    intro m h1 h2; rw [upd_ne _ _ h2, upd_ne _ _ h1]
  refine Inv.set h hq ?_ ?_ ?_ ?_ hnd.2 ?_ ?_ ?_
  · have hq1 : upd (upd s.next q (s.next n)) n 0 q = s.next n := by rw [upd_ne _ _ hnq.symm, upd_same]
    have hq2 : upd (upd s.ts q (s.ts n)) n MAX q = s.ts n := by rw [upd_ne _ _ hnq.symm, upd_same]
    cases l with
    | nil => simp at hx; exact ⟨by simp only; rw [hq1]; exact hx.1, by simp only; rw [hq2]; exact hx.2⟩
    | cons p l' =>
      simp at hx
      refine ⟨by simp only; rw [hq1]; exact hx.1, by simp only; rw [hq2]; exact hx.2, chain_congr c3.2.2 ?_⟩
      have hsub : ∀ c, c = p.1 ∨ c ∈ threads l' → c ∈ threads (p :: l') := by
        rintro c (e | e)
        · simp [threads, e]
        · simp only [threads] at e; simp [threads, e]
      intro c hc
      have hc' := hsub c hc
      have h1 : c ≠ q := fun e => hqt ((hmem q).2 (Or.inr (e ▸ hc')))
      have h2 : c ≠ n := fun e => hnd.1 (e ▸ hc')
      exact ⟨hnext c h1 h2, hts c h1 h2⟩
  · simp only
    cases l with
    | nil => simp at hx; simp [hx, lastOf]
    | cons p l' =>
      have hp0 := (h.thr q p.1 (by rw [hA]; simp [threads])).1
      simp at hx
      rw [if_neg (by rw [hx.1]; exact hp0), h.prev q hq, hA]; rfl
  · intro q' hq'
    simp only
    split
    · exact upd_ne _ _ hq'
    · rfl
  · intro m hm; exact Or.inl ((hmem m).2 (Or.inr hm))
  · intro p hp; exact h.stamps q p (by rw [hA]; simp [hp])
  · intro m h1 h2 _
    have : m ≠ n := fun e => h2 ((hmem m).2 (Or.inl e))
    exact ⟨hnext m h1 this, hts m h1 this⟩
  · intro m hm hml
    rcases (hmem m).1 hm with e | e
    · subst e; exact ⟨upd_same _ _ _, upd_same _ _ _⟩
    · exact absurd e hml

end Verif.Lane
