import Verif.Model.Sequence
import Verif.Proof.Ring
/-! Refinement of the pointer sequence by lists (C19). -/
namespace Verif.Sequence
open Verif

abbrev Inv (s : St) (A : Nat → List Nat) : Prop := Rings s.next s.back s.root A

theorem check_unlisted {dbg : Bool} {s : St} {A : Nat → List Nat} (h : Inv s A) {n : Nat} (hn : n ≠ 0)
    (hu : ∀ q, n ∉ A q) : check dbg s n false = .ret () := by
  cases dbg <;> simp [check, Sequence.listed, rdN, hn, h.off n hu]

theorem check_listed {dbg : Bool} {s : St} {A : Nat → List Nat} (h : Inv s A) {q n : Nat} (hq : n ∈ A q) :
    check dbg s n true = .ret () := by
  have : s.next n ≠ 0 := h.next_ne0 hq
  cases dbg <;> simp [check, Sequence.listed, rdN, h.ne0 hq, this]

theorem upd_same_fun {α : Type} (f : Nat → α) (q : Nat) (v : α) (h : f q = v) : upd f q v = f := by
  funext x; rw [upd_apply]; split
  · next e => rw [e, h]
  · rfl

/-- The four assignments link `n` between the predecessor of `b` and `b`. -/
theorem linkBefore_spec {s : St} {b n : Nat} {l : List Nat} (hr : Ring s.next s.back (b :: l)) (hnd : (b :: l).Nodup)
    (hnl : n ∉ b :: l) (hn0 : n ≠ 0) (h0 : 0 ∉ b :: l) :
    ∃ nx bk, linkBefore s n b = .ret ⟨nx, bk, s.root⟩ ∧ Ring nx bk (b :: l ++ [n]) ∧
      (∀ c, c ≠ n → c ∉ b :: l → nx c = s.next c) ∧ (∀ c, c ≠ n → c ∉ b :: l → bk c = s.back c) := by
  have hb0 : b ≠ 0 := fun e => h0 (by simp [e])
  have hbk : s.back b = l.getLastD b := (seg_last hr).2
  have hm : l.getLastD b ∈ b :: l := List.mem_cons.2 (getLastD_mem_cons b l)
  have hp0 : l.getLastD b ≠ 0 := fun e => h0 (e ▸ hm)
  have hpn : l.getLastD b ≠ n := fun e => hnl (e ▸ hm)
  have hbn : b ≠ n := fun e => hnl (by simp [e])
  generalize hp : l.getLastD b = p at *
  refine ⟨upd (upd s.next n b) p n, upd (upd s.back n p) b n, ?_, ?_, ?_, ?_⟩
  · simp [linkBefore, wrN, wrB, rdB, hn0, hb0, hbk, upd_apply, hbn.symm, hp0]
  · apply ring_insert hr hnd hnl
    · rw [upd_ne _ _ (Ne.symm hpn), upd_same]
    · rw [upd_ne _ _ hbn.symm, upd_same, hp]
    · rw [upd_same]
    · rw [hp, upd_same]
    · intro c h1 h2; rw [hp] at h2; rw [upd_ne _ _ h2, upd_ne _ _ h1]
    · intro c h1 h2; rw [upd_ne _ _ h2, upd_ne _ _ h1]
  · intro c h1 h2; rw [upd_ne _ _ (fun e : c = p => h2 (e ▸ hm)), upd_ne _ _ h1]
  · intro c h1 h2; rw [upd_ne _ _ (fun e => h2 (by simp [e])), upd_ne _ _ h1]

/-- Adding one node to sequence `q`. -/
theorem add_inv {s : St} {A : Nat → List Nat} (h : Inv s A) {q n : Nat} (hn : n ≠ 0) (hu : ∀ q', n ∉ A q') {l : List Nat}
    (hl : l.Perm (n :: A q)) {nx bk : Nat → Nat} (hr : Ring nx bk l) (h1 : ∀ c, c ≠ n → c ∉ A q → nx c = s.next c)
    (h2 : ∀ c, c ≠ n → c ∉ A q → bk c = s.back c) : Inv ⟨nx, bk, upd s.root q (l.headD 0)⟩ (upd A q l) := by
  have hmem : ∀ m, m ∈ l ↔ m = n ∨ m ∈ A q := by intro m; rw [hl.mem_iff, List.mem_cons]
  refine Rings.set h ?_ ?_ ?_ hr ?_ ?_ ?_
  · intro m hm
    rcases (hmem m).1 hm with rfl | hm
    · exact Or.inr hu
    · exact Or.inl hm
  · rw [hl.nodup_iff, List.nodup_cons]; exact ⟨hu q, h.nodup q⟩
  · intro h0
    rcases (hmem 0).1 h0 with e | e
    · exact hn e.symm
    · exact h.nz q e
  · intro m hm hml; exact h1 m (fun e => hml ((hmem m).2 (Or.inl e))) hm
  · intro m hm hml; exact h2 m (fun e => hml ((hmem m).2 (Or.inl e))) hm
  · intro m hm hml; exact absurd ((hmem m).2 (Or.inr hm)) hml

theorem newHead_spec {s : St} {A : Nat → List Nat} (h : Inv s A) {q n : Nat} (hn : n ≠ 0) (hu : ∀ q', n ∉ A q') :
    ∃ s', (do
      let s ← (if s.root q ≠ 0 then linkBefore s n (head s q)
        else do
          let s ← wrN s n n
          wrB s n n)
      pure { s with root := upd s.root q n } : Outcome St) = .ret s' ∧ Inv s' (upd A q (n :: A q)) := by
  cases hA : A q with
  | nil =>
    have hr := (h.root_eq0 q).2 hA
    simp only [hr, ne_eq, not_true_eq_false, if_false, wrN, hn, Outcome.bind_ret, wrB, Outcome.pure_eq]
    refine ⟨_, rfl, ?_⟩
    have := add_inv h (q := q) hn hu (l := [n]) (by rw [hA]) (nx := upd s.next n n) (bk := upd s.back n n)
      ⟨upd_same _ _ _, upd_same _ _ _⟩ (fun c hc _ => upd_ne _ _ hc) (fun c hc _ => upd_ne _ _ hc)
    exact this
  | cons b l =>
    have hb : s.root q = b := by rw [h.root, hA]; rfl
    have hb0 : b ≠ 0 := h.ne0 (q := q) (by rw [hA]; simp)
    have hring := h.ring q
    have hnd := h.nodup q
    have hnl := hu q
    have h0 := h.nz q
    rw [hA] at hring hnd hnl h0
    obtain ⟨nx, bk, e1, e2, e3, e4⟩ := linkBefore_spec hring hnd hnl hn h0
    simp only [hb, ne_eq, hb0, not_false_eq_true, if_true, head, e1, Outcome.bind_ret, Outcome.pure_eq]
    refine ⟨_, rfl, ?_⟩
    have e5 : Ring nx bk (n :: b :: l) := by
      have := (ring_rotate (l1 := b :: l) (l2 := [n])).1 e2
      exact this
    have := add_inv h (q := q) hn hu (l := n :: b :: l) (by rw [hA]) e5 (fun c h1 h2 => e3 c h1 (hA ▸ h2))
      (fun c h1 h2 => e4 c h1 (hA ▸ h2))
    exact this

theorem insertAft0_spec (dbg : Bool) {s : St} {A : Nat → List Nat} (h : Inv s A) {q n : Nat} (hn : n ≠ 0)
    (hu : ∀ q', n ∉ A q') : ∃ s', insertAft dbg s q 0 n = .ret s' ∧ Inv s' (upd A q (n :: A q)) := by
  unfold insertAft
  rw [check_unlisted h hn hu, Outcome.bind_ret]
  simp only [if_true]
  exact newHead_spec h hn hu

theorem insertBef_spec (dbg : Bool) {s : St} {A : Nat → List Nat} (h : Inv s A) {q n bef : Nat} (hn : n ≠ 0)
    (hu : ∀ q', n ∉ A q') {l1 l2 : List Nat} (hA : A q = l1 ++ bef :: l2) :
    ∃ s', insertBef dbg s q n bef = .ret s' ∧ Inv s' (upd A q (l1 ++ n :: bef :: l2)) := by
  unfold insertBef
  rw [check_unlisted h hn hu, Outcome.bind_ret]
  cases l1 with
  | nil =>
    have hb : bef = head s q := by rw [head, h.root, hA]; rfl
    rw [if_pos hb]
    obtain ⟨s', h1, h2⟩ := newHead_spec h (q := q) hn hu
    refine ⟨s', h1, ?_⟩
    rw [hA] at h2; exact h2
  | cons a l1 =>
    have hbm : bef ∈ A q := by rw [hA]; simp
    have hb0 := h.ne0 hbm
    have hnd := h.nodup q
    have hne : bef ≠ head s q := by
      rw [head, h.root, hA]
      intro e
      simp only [List.cons_append, List.headD_cons] at e
      subst e
      rw [hA] at hnd
      exact (List.nodup_cons.1 hnd).1 (by simp)
    rw [if_neg hne, if_neg hb0]
    have hperm : (A q).Perm (bef :: l2 ++ a :: l1) := by rw [hA]; exact List.perm_append_comm
    have hring := h.ring q
    rw [hA, ring_rotate] at hring
    obtain ⟨nx, bk, e1, e2, e3, e4⟩ := linkBefore_spec (b := bef) (l := l2 ++ a :: l1) hring (hperm.nodup_iff.1 hnd)
      (fun hm => hu q (hperm.mem_iff.2 hm)) hn (fun hm => h.nz q (hperm.mem_iff.2 hm))
    refine ⟨_, e1, ?_⟩
    have e5 : Ring nx bk (a :: l1 ++ n :: bef :: l2) := by
      have e : bef :: (l2 ++ a :: l1) ++ [n] = (bef :: l2) ++ (a :: l1 ++ [n]) := by simp
      rw [e, ring_rotate] at e2
      simpa using e2
    have := add_inv h (q := q) hn hu (l := a :: l1 ++ n :: bef :: l2) (by rw [hA]; exact List.perm_middle) e5
      (fun c h1 h2 => e3 c h1 (fun hm => h2 (hperm.mem_iff.2 hm))) (fun c h1 h2 => e4 c h1 (fun hm => h2 (hperm.mem_iff.2 hm)))
    have er : upd s.root q ((a :: l1 ++ n :: bef :: l2).headD 0) = s.root :=
      upd_same_fun _ _ _ (by rw [h.root, hA]; rfl)
    rw [er] at this
    exact this

theorem insertBef0_spec (dbg : Bool) {s : St} {A : Nat → List Nat} (h : Inv s A) {q n : Nat} (hn : n ≠ 0)
    (hu : ∀ q', n ∉ A q') : ∃ s', insertBef dbg s q n 0 = .ret s' ∧ Inv s' (upd A q (A q ++ [n])) := by
  cases hA : A q with
  | nil =>
    unfold insertBef
    rw [check_unlisted h hn hu, Outcome.bind_ret]
    have hb : 0 = head s q := ((h.root_eq0 q).2 hA).symm
    rw [if_pos hb]
    obtain ⟨s', h1, h2⟩ := newHead_spec h (q := q) hn hu
    refine ⟨s', h1, ?_⟩
    rw [hA] at h2; exact h2
  | cons b l =>
    unfold insertBef
    rw [check_unlisted h hn hu, Outcome.bind_ret]
    have hb : head s q = b := by rw [head, h.root, hA]; rfl
    have hb0 : b ≠ 0 := h.ne0 (q := q) (by rw [hA]; simp)
    rw [hb, if_neg hb0.symm, if_pos rfl]
    have hring := h.ring q
    have hnd := h.nodup q
    have hnl := hu q
    have h0 := h.nz q
    rw [hA] at hring hnd hnl h0
    obtain ⟨nx, bk, e1, e2, e3, e4⟩ := linkBefore_spec hring hnd hnl hn h0
    refine ⟨_, e1, ?_⟩
    have := add_inv h (q := q) hn hu (l := b :: l ++ [n]) (by rw [hA]; exact List.perm_append_comm) e2
      (fun c h1 h2 => e3 c h1 (hA ▸ h2)) (fun c h1 h2 => e4 c h1 (hA ▸ h2))
    have er : upd s.root q ((b :: l ++ [n]).headD 0) = s.root := upd_same_fun _ _ _ (by rw [h.root, hA]; rfl)
    rw [er] at this
    exact this

theorem insertAft_spec (dbg : Bool) {s : St} {A : Nat → List Nat} (h : Inv s A) {q n aft : Nat} (hn : n ≠ 0)
    (hu : ∀ q', n ∉ A q') {l1 l2 : List Nat} (hA : A q = l1 ++ aft :: l2) :
    ∃ s', insertAft dbg s q aft n = .ret s' ∧ Inv s' (upd A q (l1 ++ aft :: n :: l2)) := by
  unfold insertAft
  rw [check_unlisted h hn hu, Outcome.bind_ret]
  have ham : aft ∈ A q := by rw [hA]; simp
  have ha0 := h.ne0 ham
  rw [if_neg ha0]
  -- rotate so that the ring starts just after `aft`
  obtain ⟨b, l, hbl⟩ : ∃ b l, l2 ++ (l1 ++ [aft]) = b :: l := by
    cases h' : l2 ++ (l1 ++ [aft]) with
    | nil => simp at h'
    | cons b l => exact ⟨b, l, rfl⟩
  have hAe : A q = (l1 ++ [aft]) ++ l2 := by rw [hA]; simp
  have hperm : (A q).Perm (b :: l) := by rw [hAe, ← hbl]; exact List.perm_append_comm
  have hring := h.ring q
  rw [hAe, ring_rotate, hbl] at hring
  have hnd := hperm.nodup_iff.1 (h.nodup q)
  have hnl : n ∉ b :: l := fun hm => hu q (hperm.mem_iff.2 hm)
  have hlast : l.getLastD b = aft := by
    have : (b :: l).getLastD 0 = aft := by rw [← hbl, ← List.append_assoc, getLastD_append_singleton]
    rwa [List.getLastD_cons] at this
  have hnx : s.next aft = b := by rw [← hlast]; exact (seg_last hring).1
  have hbm : b ∈ A q := hperm.mem_iff.2 (by simp)
  have hb0 := h.ne0 hbm
  have han : aft ≠ n := fun e => hu q (e ▸ ham)
  have hbn : b ≠ n := fun e => hu q (e ▸ hbm)
  simp only [rdN, ha0, if_false, Outcome.bind_ret, wrN, hn, wrB, upd_same, hnx, hb0]
  refine ⟨_, rfl, ?_⟩
  have e2 : Ring (upd (upd s.next n b) aft n) (upd (upd s.back n aft) b n) (b :: l ++ [n]) := by
    apply ring_insert hring hnd hnl
    · rw [upd_ne _ _ han.symm, upd_same]
    · rw [upd_ne _ _ hbn.symm, upd_same, hlast]
    · rw [upd_same]
    · rw [hlast, upd_same]
    · intro c h1 h2; rw [hlast] at h2; rw [upd_ne _ _ h2, upd_ne _ _ h1]
    · intro c h1 h2; rw [upd_ne _ _ h2, upd_ne _ _ h1]
  have e5 : Ring (upd (upd s.next n b) aft n) (upd (upd s.back n aft) b n) (l1 ++ aft :: n :: l2) := by
    rw [← hbl, List.append_assoc, ring_rotate] at e2
    simpa using e2
  have hp2 : (l1 ++ aft :: n :: l2).Perm (n :: A q) := by
    rw [hA]
    have e : l1 ++ aft :: n :: l2 = (l1 ++ [aft]) ++ n :: l2 := by simp
    have e' : l1 ++ aft :: l2 = (l1 ++ [aft]) ++ l2 := by simp
    rw [e, e']; exact List.perm_middle
  have := add_inv h (q := q) hn hu hp2 e5
    (fun c h1 h2 => by rw [upd_ne _ _ (fun e : c = aft => h2 (e ▸ ham)), upd_ne _ _ h1])
    (fun c h1 h2 => by rw [upd_ne _ _ (fun e : c = b => h2 (e ▸ hbm)), upd_ne _ _ h1])
  have er : upd s.root q ((l1 ++ aft :: n :: l2).headD 0) = s.root :=
    upd_same_fun _ _ _ (by rw [h.root, hA]; cases l1 <;> rfl)
  rw [er] at this
  exact this

theorem remove_spec (dbg : Bool) {s : St} {A : Nat → List Nat} (h : Inv s A) {q n : Nat} {l1 l2 : List Nat}
    (hA : A q = l1 ++ n :: l2) : ∃ s', remove dbg s q n = .ret s' ∧ Inv s' (upd A q (l1 ++ l2)) := by
  unfold remove
  have hnm : n ∈ A q := by rw [hA]; simp
  have hn0 := h.ne0 hnm
  rw [check_listed h hnm, Outcome.bind_ret]
  have hnd := h.nodup q
  have hnd' := hnd
  rw [hA, List.nodup_middle, List.nodup_cons] at hnd'
  have hring := h.ring q
  rw [hA, ring_rotate, List.cons_append] at hring
  have hmem : ∀ m, m ∈ A q ↔ m = n ∨ m ∈ l1 ++ l2 := by
    intro m; rw [hA]; simp only [List.mem_append, List.mem_cons]
    constructor
    · rintro (h | h | h) <;> simp [h]
    · rintro (h | h | h) <;> simp [h]
  -- the root
  have hroot : removeRoot s q n = .ret ⟨s.next, s.back, upd s.root q ((l1 ++ l2).headD 0)⟩ := by
    unfold removeRoot head
    cases l1 with
    | nil =>
      have hr : s.root q = n := by rw [h.root, hA]; rfl
      simp only [hr, if_true, rdN, hn0, if_false, Outcome.bind_ret]
      have hf := seg_first hring
      cases l2 with
      | nil =>
        simp at hf
        simp [hf]
      | cons b l2 =>
        simp at hf
        have hbn : b ≠ n := fun e => hnd'.1 (by simp [e])
        simp [hf, hbn]
    | cons a l1 =>
      have hr : s.root q = a := by rw [h.root, hA]; rfl
      have han : ¬ n = a := fun e => hnd'.1 (by simp [e])
      rw [hr, if_neg han, upd_same_fun _ _ _ (by rw [hr]; rfl)]
  rw [hroot, Outcome.bind_ret]
  have key : ∀ nx bk, Ring nx bk (l1 ++ l2) → nx n = 0 → (∀ m, m ∉ A q → nx m = s.next m) →
      (∀ m, m ∉ A q → bk m = s.back m) → Inv ⟨nx, bk, upd s.root q ((l1 ++ l2).headD 0)⟩ (upd A q (l1 ++ l2)) := by
    intro nx bk hr h0 h1 h2
    refine Rings.set h (fun m hm => Or.inl ((hmem m).2 (Or.inr hm))) hnd'.2 (fun hm => h.nz q ((hmem 0).2 (Or.inr hm))) hr
      (fun m hm _ => h1 m hm) (fun m hm _ => h2 m hm) ?_
    intro m hm hml
    rcases (hmem m).1 hm with e | e
    · rw [e]; exact h0
    · exact absurd e hml
  simp only [rdN, hn0, if_false, Outcome.bind_ret, rdB]
  cases hl : l2 ++ l1 with
  | nil =>
    rw [hl] at hring
    have hx : s.next n = n := hring.1
    have hy : s.back n = n := hring.2
    simp only [hx, hy, wrB, hn0, if_false, Outcome.bind_ret, upd_same, wrN]
    refine ⟨_, rfl, ?_⟩
    have h1 : l1 = [] := by cases l1 with
      | nil => rfl
      | cons a l => simp at hl
    have h2 : l2 = [] := by cases l2 with
      | nil => rfl
      | cons a l => simp at hl
    subst h1 h2
    apply key
    · trivial
    · rw [upd_same]
    · intro m hm
      have : m ≠ n := fun e => hm (e ▸ hnm)
      rw [upd_ne _ _ this, upd_ne _ _ this]
    · intro m hm
      have : m ≠ n := fun e => hm (e ▸ hnm)
      rw [upd_ne _ _ this, upd_ne _ _ this]
  | cons m l =>
    rw [hl] at hring
    have hp : (m :: l).Perm (l1 ++ l2) := by rw [← hl]; exact List.perm_append_comm
    have hnd2 : (n :: m :: l).Nodup := List.nodup_cons.2 ⟨fun hm => hnd'.1 (hp.mem_iff.1 hm), hp.nodup_iff.2 hnd'.2⟩
    have hmm : m ∈ A q := (hmem m).2 (Or.inr (hp.mem_iff.1 (by simp)))
    have hpm : l.getLastD m ∈ m :: l := List.mem_cons.2 (getLastD_mem_cons m l)
    have hpA : l.getLastD m ∈ A q := (hmem _).2 (Or.inr (hp.mem_iff.1 hpm))
    have hx : s.next n = m := hring.1
    have hy : s.back n = l.getLastD m := by
      have := (seg_last hring).2
      rwa [List.getLastD_cons] at this
    have hmn : m ≠ n := fun e => (List.nodup_cons.1 hnd2).1 (by simp [e])
    have hpn : l.getLastD m ≠ n := fun e => (List.nodup_cons.1 hnd2).1 (e ▸ hpm)
    have hm0 := h.ne0 hmm
    have hp0 := h.ne0 hpA
    generalize hpe : l.getLastD m = p at *
    simp only [hx, hy, wrB, hm0, if_false, Outcome.bind_ret, upd_ne s.back _ hmn.symm, wrN, hp0, hn0]
    refine ⟨_, rfl, ?_⟩
    apply key
    · have : Ring (upd (upd s.next p m) n 0) (upd (upd s.back m p) n 0) (m :: l) := by
        apply ring_remove hring hnd2
        · rw [upd_ne _ _ hmn, upd_same, hpe]
        · rw [hpe, upd_ne _ _ hpn, upd_same]
        · intro c h1 h2; rw [hpe] at h2; rw [upd_ne _ _ h1, upd_ne _ _ h2]
        · intro c h1 h2; rw [upd_ne _ _ h1, upd_ne _ _ h2]
      rw [← hl, ring_rotate] at this
      exact this
    · rw [upd_same]
    · intro c hc
      rw [upd_ne _ _ (fun e : c = n => hc (e ▸ hnm)), upd_ne _ _ (fun e : c = p => hc (e ▸ hpA))]
    · intro c hc
      rw [upd_ne _ _ (fun e : c = n => hc (e ▸ hnm)), upd_ne _ _ (fun e : c = m => hc (e ▸ hmm))]

theorem tail_spec {s : St} {A : Nat → List Nat} (h : Inv s A) (q : Nat) : tail s q = .ret ((A q).getLastD 0) := by
  unfold tail head
  cases hA : A q with
  | nil => simp [(h.root_eq0 q).2 hA]
  | cons b l =>
    have hb : s.root q = b := by rw [h.root, hA]; rfl
    have hb0 : b ≠ 0 := h.ne0 (q := q) (by rw [hA]; simp)
    have hring := h.ring q
    rw [hA] at hring
    rw [hb, if_pos hb0, rdB, if_neg hb0, (seg_last hring).2, List.getLastD_cons]

theorem dropHead_spec (dbg : Bool) {s : St} {A : Nat → List Nat} (h : Inv s A) (q : Nat) :
    ∃ s', dropHead dbg s q = .ret (s', (A q).headD 0) ∧ Inv s' (upd A q (A q).tail) := by
  unfold dropHead head
  rw [h.root]
  cases hA : A q with
  | nil => exact ⟨s, by simp, by rw [upd_same_fun A q _ (by rw [hA]; rfl)]; exact h⟩
  | cons b l =>
    have hb0 : b ≠ 0 := h.ne0 (q := q) (by rw [hA]; simp)
    obtain ⟨s', h1, h2⟩ := remove_spec dbg h (l1 := []) hA
    exact ⟨s', by simp [hb0, h1], h2⟩

theorem dropTail_spec (dbg : Bool) {s : St} {A : Nat → List Nat} (h : Inv s A) (q : Nat) :
    ∃ s', dropTail dbg s q = .ret (s', (A q).getLastD 0) ∧ Inv s' (upd A q (A q).dropLast) := by
  unfold dropTail
  rw [tail_spec h, Outcome.bind_ret]
  by_cases hA : A q = []
  · rw [hA]
    exact ⟨s, by simp, by rw [upd_same_fun A q _ (by rw [hA]; rfl)]; exact h⟩
  · obtain ⟨i, b, hib⟩ := exists_concat hA
    have hb0 : b ≠ 0 := h.ne0 (q := q) (by rw [hib]; simp)
    obtain ⟨s', h1, h2⟩ := remove_spec dbg h (l2 := []) hib
    refine ⟨s', ?_, ?_⟩
    · rw [hib, getLastD_append_singleton, if_pos hb0, h1]; rfl
    · rw [hib, List.dropLast_concat]; simpa using h2

theorem transfer_spec {s : St} {A : Nat → List Nat} (h : Inv s A) {q f : Nat} (hqf : q ≠ f) :
    ∃ s', transfer s q f = .ret s' ∧ Inv s' (upd (upd A q (A q ++ A f)) f []) := by
  unfold transfer empty
  cases hf : A f with
  | nil =>
    have hr := (h.root_eq0 f).2 hf
    simp only [hr, decide_true, if_true]
    refine ⟨s, rfl, ?_⟩
    rw [List.append_nil, upd_same_fun A q _ rfl, upd_same_fun A f _ hf]; exact h
  | cons b m =>
    have hrf : s.root f = b := by rw [h.root, hf]; rfl
    have hb0 : b ≠ 0 := h.ne0 (q := f) (by rw [hf]; simp)
    simp only [hrf, hb0, decide_false, Bool.false_eq_true, if_false]
    have hringf := h.ring f
    rw [hf] at hringf
    cases hq : A q with
    | nil =>
      have hr := (h.root_eq0 q).2 hq
      simp only [hr, decide_true, if_true, Outcome.bind_ret, Outcome.pure_eq]
      refine ⟨_, rfl, ?_⟩
      have := Rings.set2 h hqf (l := b :: m) (m := []) (nx' := s.next) (bk' := s.back) (by intro c; rw [hq, hf]; simp)
        (by rw [List.append_nil, ← hf]; exact h.nodup f) hringf trivial (fun _ _ _ => rfl) (fun _ _ _ => rfl)
      exact this
    | cons a l =>
      have hrq : s.root q = a := by rw [h.root, hq]; rfl
      have ham : a ∈ A q := by rw [hq]; simp
      have hbm : b ∈ A f := by rw [hf]; simp
      have ha0 : a ≠ 0 := h.ne0 ham
      have hringq := h.ring q
      rw [hq] at hringq
      have ml : l.getLastD a ∈ A q := by rw [hq]; exact List.mem_cons.2 (getLastD_mem_cons a l)
      have mm : m.getLastD b ∈ A f := by rw [hf]; exact List.mem_cons.2 (getLastD_mem_cons b m)
      have hl0 := h.ne0 ml
      have hm0 := h.ne0 mm
      have hdis : ∀ x y, x ∈ A q → y ∈ A f → x ≠ y := fun x y hx hy e => h.disj q f x hqf hx (e ▸ hy)
      have hal := (seg_last hringq).2
      have hbl := (seg_last hringf).2
      have hnd : (a :: l ++ b :: m).Nodup := by
        rw [List.nodup_append, ← hq, ← hf]
        exact ⟨h.nodup q, h.nodup f, fun x hx y hy => hdis x y hx hy⟩
      generalize hle : l.getLastD a = p at *
      generalize hme : m.getLastD b = r at *
      have hab := hdis a b ham hbm
      have hpr := hdis p r ml mm
      simp only [hrq, ha0, decide_false, Bool.false_eq_true, if_false, head, rdB, hrf, hb0, Outcome.bind_ret, wrB, wrN,
        hal, hbl, hl0, hm0, Outcome.pure_eq]
      refine ⟨_, rfl, ?_⟩
      have := Rings.set2 h hqf (l := a :: l ++ b :: m) (m := []) (nx' := upd (upd s.next r a) p b)
        (bk' := upd (upd s.back a r) b p) (by intro c; rw [hq, hf]; simp [or_assoc])
        (by rw [List.append_nil]; exact hnd)
        (by
          apply ring_join hringq hringf hnd
          · rw [hle, upd_same]
          · rw [upd_same, hle]
          · rw [hme, upd_ne _ _ hpr.symm, upd_same]
          · rw [upd_ne _ _ hab, upd_same, hme]
          · intro c h1 h2; rw [hle] at h1; rw [hme] at h2; rw [upd_ne _ _ h1, upd_ne _ _ h2]
          · intro c h1 h2; rw [upd_ne _ _ h2, upd_ne _ _ h1])
        trivial
        (fun c h1 h2 => by rw [upd_ne _ _ (fun e : c = p => h1 (e ▸ ml)), upd_ne _ _ (fun e : c = r => h2 (e ▸ mm))])
        (fun c h1 h2 => by rw [upd_ne _ _ (fun e : c = b => h2 (e ▸ hbm)), upd_ne _ _ (fun e : c = a => h1 (e ▸ ham))])
      have er : upd s.root q ((a :: l ++ b :: m).headD 0) = s.root := upd_same_fun _ _ _ (by rw [hrq]; rfl)
      rw [er] at this
      exact this

theorem split_spec (dbg : Bool) {s : St} {A : Nat → List Nat} (h : Inv s A) {q f n : Nat} {l1 l2 : List Nat}
    (hA : A f = l1 ++ n :: l2) (hqf : q ≠ f) (hq0 : q ≠ 0) (hf0 : f ≠ 0) (h0 : A 0 = []) :
    ∃ s', split dbg s q f n 0 = .ret s' ∧ Inv s' (upd (upd A f l2) q (A q ++ (l1 ++ [n]))) := by
  unfold split
  have hn : n ∈ A f := by rw [hA]; simp
  have hn0 := h.ne0 hn
  rw [check_listed h hn, Outcome.bind_ret]
  have hAe : A f = (l1 ++ [n]) ++ l2 := by rw [hA]; simp
  have hring := h.ring f
  have hnd := h.nodup f
  rw [hAe] at hring hnd
  have fin : ∀ s1, Inv s1 (upd (upd A 0 (l1 ++ [n])) f l2) →
      ∃ s', transfer s1 q 0 = .ret s' ∧ Inv s' (upd (upd A f l2) q (A q ++ (l1 ++ [n]))) := by
    intro s1 h1
    obtain ⟨s', h2, h3⟩ := transfer_spec h1 hq0
    refine ⟨s', h2, ?_⟩
    have e : upd (upd (upd (upd A 0 (l1 ++ [n])) f l2) q
        (upd (upd A 0 (l1 ++ [n])) f l2 q ++ upd (upd A 0 (l1 ++ [n])) f l2 0)) 0 [] =
        upd (upd A f l2) q (A q ++ (l1 ++ [n])) := by
      funext x
      simp only [upd_apply, if_neg hqf, if_neg hq0, if_neg (Ne.symm hf0), if_true]
      by_cases hx0 : x = 0
      · subst hx0; simp [Ne.symm hf0, Ne.symm hq0, h0]
      · simp [hx0]
    rw [e] at h3; exact h3
  obtain ⟨a, l, hal⟩ : ∃ a l, l1 ++ [n] = a :: l := by
    cases h' : l1 ++ [n] with
    | nil => simp at h'
    | cons b l => exact ⟨b, l, rfl⟩
  have hroot : s.root f = a := by rw [h.root, hAe, hal]; rfl
  have ham : a ∈ A f := by rw [hAe, hal]; simp
  have ha0 := h.ne0 ham
  have hlast : l.getLastD a = n := by
    have : (a :: l).getLastD 0 = n := by rw [← hal, getLastD_append_singleton]
    rwa [List.getLastD_cons] at this
  rw [hal] at hring hnd fin
  have hmem : ∀ c, (c ∈ a :: l ∨ c ∈ l2) ↔ (c ∈ A 0 ∨ c ∈ A f) := by
    intro c; rw [hAe, hal, h0, ← List.mem_append]; simp
  rw [hal]
  cases l2 with
  | nil =>
    rw [List.append_nil] at hring
    have hnx : s.next n = a := by rw [← hlast]; exact (seg_last hring).1
    simp only [rdN, hn0, if_false, Outcome.bind_ret, hnx, hroot, upd_apply, Ne.symm hf0, if_true]
    apply fin
    have := Rings.set2 h (Ne.symm hf0) (l := a :: l) (m := []) hmem hnd hring trivial (fun _ _ _ => rfl) (fun _ _ _ => rfl)
    have er : upd (upd (upd s.root 0 a) f a) f 0 = upd (upd s.root 0 a) f 0 := by
      funext x; simp only [upd_apply]; split <;> rfl
    rw [er]
    exact this
  | cons b m =>
    have hbm : b ∈ A f := by rw [hAe, hal]; simp
    have hb0 := h.ne0 hbm
    have hnx : s.next n = b := by
      have := (seg_append.1 (show Seg s.next s.back a (l ++ b :: m) a from hring)).1
      rw [← hlast]; exact (seg_last this).1
    have hbk : s.back a = m.getLastD b := by
      have := (seg_append.1 (show Seg s.next s.back a (l ++ b :: m) a from hring)).2
      exact (seg_last this).2
    obtain ⟨n1, n2, n3⟩ := List.nodup_append.1 hnd
    have mm : m.getLastD b ∈ b :: m := List.mem_cons.2 (getLastD_mem_cons b m)
    have mA : m.getLastD b ∈ A f := by rw [hAe, hal]; exact List.mem_append_right _ mm
    have hm0 := h.ne0 mA
    have hab : a ≠ b := n3 a (by simp) b (by simp)
    have hnm : n ∈ a :: l := by rw [← hal]; simp
    have hnr : n ≠ m.getLastD b := n3 n hnm _ mm
    generalize hme : m.getLastD b = r at *
    simp only [rdN, hn0, if_false, Outcome.bind_ret, hnx, hroot, upd_apply, Ne.symm hf0, if_true, hab, head, rdB, ha0, hbk,
      wrB, hb0, wrN, hm0]
    apply fin
    have hcut : Ring (upd (upd s.next r b) n a) (upd (upd s.back b r) a n) (a :: l) ∧
        Ring (upd (upd s.next r b) n a) (upd (upd s.back b r) a n) (b :: m) := by
      apply ring_cut hring hnd
      · rw [hlast, upd_same]
      · rw [hlast, upd_same]
      · rw [hme, upd_ne _ _ hnr.symm, upd_same]
      · rw [hme, upd_ne _ _ hab.symm, upd_same]
      · intro c h1 h2; rw [hlast] at h1; rw [hme] at h2; rw [upd_ne _ _ h1, upd_ne _ _ h2]
      · intro c h1 h2; rw [upd_ne _ _ h1, upd_ne _ _ h2]
    have := Rings.set2 h (Ne.symm hf0) (l := a :: l) (m := b :: m) hmem hnd hcut.1 hcut.2
      (fun c _ h2 => by rw [upd_ne _ _ (fun e : c = n => h2 (e ▸ hn)), upd_ne _ _ (fun e : c = r => h2 (e ▸ mA))])
      (fun c _ h2 => by rw [upd_ne _ _ (fun e : c = a => h2 (e ▸ ham)), upd_ne _ _ (fun e : c = b => h2 (e ▸ hbm))])
    exact this

theorem succ_spec (dbg : Bool) {s : St} {A : Nat → List Nat} (h : Inv s A) {q n : Nat} {l1 l2 : List Nat}
    (hA : A q = l1 ++ n :: l2) : succ dbg s q n = .ret (l2.headD 0) := by
  have hn : n ∈ A q := by rw [hA]; simp
  have hn0 := h.ne0 hn
  have hring := h.ring q
  have hnd := h.nodup q
  rw [hA, ring_rotate] at hring
  have hf : s.next n = (l2 ++ l1).headD n := seg_first hring
  unfold succ
  rw [check_listed h hn]
  simp only [Outcome.bind_ret, rdN, hn0, if_false, Outcome.pure_eq, head, h.root]
  congr 1
  rw [hf]
  cases l2 with
  | nil =>
    have : (([] : List Nat) ++ l1).headD n = (A q).headD 0 := by rw [hA]; cases l1 <;> rfl
    rw [if_pos this]; rfl
  | cons b l2 =>
    have hne : ((b :: l2) ++ l1).headD n ≠ (A q).headD 0 := by
      show b ≠ _
      rw [hA]
      rw [hA] at hnd
      intro e
      cases l1 with
      | nil =>
        have e : b = n := e
        simp [e] at hnd
      | cons a l1 =>
        have e : b = a := e
        simp [e] at hnd
    rw [if_neg hne]; rfl

theorem pred_spec (dbg : Bool) {s : St} {A : Nat → List Nat} (h : Inv s A) {q n : Nat} {l1 l2 : List Nat}
    (hA : A q = l1 ++ n :: l2) : pred dbg s q n = .ret (l1.getLastD 0) := by
  have hn : n ∈ A q := by rw [hA]; simp
  have hn0 := h.ne0 hn
  have hring := h.ring q
  have hnd := h.nodup q
  rw [hA] at hnd
  unfold pred
  rw [check_listed h hn]
  simp only [Outcome.bind_ret, head, h.root]
  cases l1 with
  | nil =>
    have : n = (A q).headD 0 := by rw [hA]; rfl
    rw [if_pos this]; rfl
  | cons a l1 =>
    have hne : n ≠ (A q).headD 0 := by
      rw [hA]; intro e
      have e : n = a := e
      simp [e] at hnd
    rw [if_neg hne, rdB, if_neg hn0]
    rw [hA] at hring
    have := (seg_append.1 (show Seg s.next s.back a (l1 ++ n :: l2) a from hring)).1
    rw [(seg_last this).2, List.getLastD_cons]

theorem iterate_spec (dbg : Bool) {s : St} {A : Nat → List Nat} (h : Inv s A) {q : Nat} (l1 l2 : List Nat)
    (hA : A q = l1 ++ l2) (fuel : Nat) (hf : l2.length < fuel) : iterate dbg s q fuel (l2.headD 0) = .ret l2 := by
  induction l2 generalizing l1 fuel with
  | nil =>
    obtain ⟨fuel, rfl⟩ : ∃ f, fuel = f + 1 := ⟨fuel - 1, by simp at hf; omega⟩
    simp [iterate, iterNext]
  | cons a l2 ih =>
    obtain ⟨fuel, rfl⟩ : ∃ f, fuel = f + 1 := ⟨fuel - 1, by simp at hf; omega⟩
    have ha0 : a ≠ 0 := h.ne0 (q := q) (by rw [hA]; simp)
    have := ih (l1 ++ [a]) (by rw [hA]; simp) fuel (by simp at hf; omega)
    have hc : (if l2.headD 0 = head s q then 0 else l2.headD 0) = l2.headD 0 := by
      cases l2 with
      | nil => split <;> simp_all
      | cons b l2 =>
        rw [if_neg]
        have hnd := h.nodup q
        rw [head, h.root, hA]
        rw [hA] at hnd
        intro e
        cases l1 with
        | nil =>
          have e : b = a := e
          simp [e] at hnd
        | cons c l1 =>
          have e : b = c := e
          simp [e] at hnd
    show iterate dbg s q (fuel + 1) a = _
    simp only [iterate, iterNext, ne_eq, ha0, not_false_eq_true, if_true, succ_spec dbg h hA, Outcome.bind_ret,
      Outcome.pure_eq]
    rw [hc, this, Outcome.bind_ret]

theorem iterateRev_spec (dbg : Bool) {s : St} {A : Nat → List Nat} (h : Inv s A) {q : Nat} (l1 l2 : List Nat)
    (hA : A q = l1.reverse ++ l2) (fuel : Nat) (hf : l1.length < fuel) :
    iterateRev dbg s q fuel (l1.headD 0) = .ret l1 := by
  induction l1 generalizing l2 fuel with
  | nil =>
    obtain ⟨fuel, rfl⟩ : ∃ f, fuel = f + 1 := ⟨fuel - 1, by simp at hf; omega⟩
    simp [iterateRev, iterPrev]
  | cons a l1 ih =>
    obtain ⟨fuel, rfl⟩ : ∃ f, fuel = f + 1 := ⟨fuel - 1, by simp at hf; omega⟩
    have hA' : A q = l1.reverse ++ a :: l2 := by rw [hA]; simp
    have ha0 : a ≠ 0 := h.ne0 (q := q) (by rw [hA']; simp)
    have := ih (a :: l2) hA' fuel (by simp at hf; omega)
    have hlast : l1.reverse.getLastD 0 = l1.headD 0 := by
      cases l1 with
      | nil => rfl
      | cons b l1 => rw [List.reverse_cons, getLastD_append_singleton]; rfl
    have hc : (if l1.headD 0 = (A q).getLastD 0 then 0 else l1.headD 0) = l1.headD 0 := by
      cases l1 with
      | nil => split <;> rfl
      | cons b l1 =>
        rw [if_neg]
        have hnd := h.nodup q
        rw [hA', getLastD_append_cons]
        rw [hA'] at hnd
        intro e
        have hm : (a :: l2).getLastD 0 ∈ a :: l2 := getLastD_mem (List.cons_ne_nil _ _) _
        rw [← e] at hm
        exact (List.nodup_append.1 hnd).2.2 b (by simp) b hm rfl
    show iterateRev dbg s q (fuel + 1) a = _
    simp only [iterateRev, iterPrev, ne_eq, ha0, not_false_eq_true, if_true, pred_spec dbg h hA', tail_spec h, Outcome.bind_ret,
      Outcome.pure_eq, hlast]
    rw [hc, this, Outcome.bind_ret]

end Verif.Sequence
