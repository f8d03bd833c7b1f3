import Verif.Model.Dlist
import Verif.Proof.Ring
import Mathlib.Data.List.Perm.Basic
/-! Invariant and step lemmas for `dlist`. -/
namespace Verif.Dlist
open Verif

/-- Pointer stored for address `a`: tagged exactly for headers. -/
def raw (H : Nat → Bool) (a : Nat) : Nat := if H a then a + 1 else a

/-- The ring of list `q`: the header, then the elements. -/
def full (H : Nat → Bool) (A : Nat → List Nat) (q : Nat) : List Nat := if H q then q :: A q else []

def HOk (H : Nat → Bool) : Prop := ∀ q, H q = true → q % 2 = 0 ∧ q ≠ 0

structure Inv (H : Nat → Bool) (s : St) (A : Nat → List Nat) (nx bk : Nat → Nat) : Prop where
  sn : ∀ a, s.next a = raw H (nx a)
  sp : ∀ a, s.prev a = raw H (bk a)
  rings : Rings nx bk (fun q => (full H A q).headD 0) (full H A)
  offp : ∀ a, (∀ q, a ∉ full H A q) → bk a = 0
  mem : ∀ q n, n ∈ A q → H q = true ∧ H n = false ∧ n % 2 = 0

variable {H : Nat → Bool} {s : St} {A : Nat → List Nat} {nx bk : Nat → Nat}

theorem HOk.zero (h : HOk H) : H 0 = false := by
  cases e : H 0 with
  | false => rfl
  | true => exact absurd rfl (h 0 e).2

theorem raw_zero (h : HOk H) : raw H 0 = 0 := by simp [raw, h.zero]

theorem clear_raw {a : Nat} (h : a % 2 = 0) : tagClear (raw H a) = a := by
  unfold tagClear raw; split <;> omega

theorem clear_even {a : Nat} (h : a % 2 = 0) : tagClear a = a := by unfold tagClear; omega

theorem clear_iter {a : Nat} (h : a % 2 = 0) : tagClear (iter a) = a := by unfold tagClear iter tagSet; omega

theorem query_raw {a : Nat} (h : a % 2 = 0) : tagQuery (raw H a) = H a := by
  unfold tagQuery raw
  cases e : H a
  · simp [h]
  · have : (a + 1) % 2 = 1 := by omega
    simp [this]

theorem raw_node {a : Nat} (h : H a = false) : raw H a = a := by simp [raw, h]

theorem iter_eq (hk : HOk H) {q : Nat} (hq : H q = true) : iter q = raw H q := by
  have := (hk q hq).1
  unfold iter tagSet raw
  rw [if_pos hq]; omega

theorem full_eq {q : Nat} (hq : H q = true) : full H A q = q :: A q := by simp [full, hq]

theorem full_mem (hk : HOk H) (h : Inv H s A nx bk) {q n : Nat} (hn : n ∈ full H A q) : n % 2 = 0 ∧ n ≠ 0 := by
  refine ⟨?_, h.rings.ne0 hn⟩
  unfold full at hn
  split at hn
  · next hq =>
    rcases List.mem_cons.1 hn with e | e
    · rw [e]; exact (hk q hq).1
    · exact (h.mem q n e).2.2
  · simp at hn

theorem nil_of_not (h : Inv H s A nx bk) {q : Nat} (hq : H q = false) : A q = [] := by
  cases e : A q with
  | nil => rfl
  | cons a l =>
    have := (h.mem q a (by rw [e]; simp)).1
    rw [hq] at this; exact absurd this (by simp)

theorem full_upd {q : Nat} (hq : H q = true) (l : List Nat) : full H (upd A q l) = upd (full H A) q (q :: l) := by
  funext x
  simp only [full, upd_apply]
  split
  · split <;> simp_all
  · split <;> simp_all

theorem root_upd {q : Nat} (l : List Nat) :
    (fun x => (upd (full H A) q (q :: l) x).headD 0) = upd (fun x => (full H A x).headD 0) q ((q :: l).headD 0) := by
  funext x
  simp only [upd_apply]
  split <;> rfl

theorem raw_upd (f : Nat → Nat) (a v : Nat) (g : Nat → Nat) (h : ∀ x, g x = raw H (f x)) :
    ∀ x, upd g a (raw H v) x = raw H (upd f a v x) := by
  intro x; simp only [upd_apply]; split
  · rfl
  · exact h x

/-- Common form of all insertions. -/
theorem core_insert (hk : HOk H) (h : Inv H s A nx bk) {q n b : Nat} {l l' : List Nat} (hq : H q = true)
    (hn0 : n ≠ 0) (hne : n % 2 = 0) (hnH : H n = false) (hu : ∀ q', n ∉ A q')
    (hring : Ring nx bk (b :: l)) (hp : (b :: l).Perm (q :: A q)) (hp' : (n :: A q).Perm l')
    (hnew : ∀ nx bk : Nat → Nat, Ring nx bk (b :: l ++ [n]) → Ring nx bk (q :: l')) :
    Inv H ⟨upd (upd s.next n (raw H b)) (l.getLastD b) n, upd (upd s.prev n (raw H (l.getLastD b))) b n⟩ (upd A q l')
      (upd (upd nx n b) (l.getLastD b) n) (upd (upd bk n (l.getLastD b)) b n) := by
  have hnf : ∀ q', n ∉ full H A q' := by
    intro q' hm
    unfold full at hm; split at hm
    · next hq' =>
      rcases List.mem_cons.1 hm with e | e
      · rw [e, hq'] at hnH; exact absurd hnH (by simp)
      · exact hu q' e
    · simp at hm
  have hfq := full_eq (A := A) hq
  have hnd := h.rings.nodup q
  rw [hfq] at hnd
  have hnd2 := hp.nodup_iff.2 hnd
  have hnl : n ∉ b :: l := fun hm => hnf q (by rw [hfq]; exact hp.mem_iff.1 hm)
  have hlm : l.getLastD b ∈ full H A q := by rw [hfq]; exact hp.mem_iff.1 (List.mem_cons.2 (getLastD_mem_cons b l))
  have hbm : b ∈ full H A q := by rw [hfq]; exact hp.mem_iff.1 (by simp)
  have hpn : l.getLastD b ≠ n := fun e => hnf q (e ▸ hlm)
  have hbn : b ≠ n := fun e => hnf q (e ▸ hbm)
  have hperm : (q :: l').Perm (n :: q :: A q) :=
    ((hp'.symm.cons q)).trans (List.Perm.swap n q (A q))
  have hmem : ∀ m, m ∈ q :: l' ↔ m = n ∨ m ∈ full H A q := by
    intro m; rw [hperm.mem_iff, hfq, List.mem_cons]
  generalize hpe : l.getLastD b = p at *
  have hr : Ring (upd (upd nx n b) p n) (upd (upd bk n p) b n) (b :: l ++ [n]) := by
    apply ring_insert hring hnd2 hnl
    · rw [upd_ne _ _ (Ne.symm hpn), upd_same]
    · rw [upd_ne _ _ hbn.symm, upd_same, hpe]
    · rw [upd_same]
    · rw [hpe, upd_same]
    · intro c h1 h2; rw [hpe] at h2; rw [upd_ne _ _ h2, upd_ne _ _ h1]
    · intro c h1 h2; rw [upd_ne _ _ h2, upd_ne _ _ h1]
  have hn' : ∀ c, c ≠ n → c ∉ full H A q → upd (upd nx n b) p n c = nx c := by
    intro c h1 h2; rw [upd_ne _ _ (fun e : c = p => h2 (e ▸ hlm)), upd_ne _ _ h1]
  have hb' : ∀ c, c ≠ n → c ∉ full H A q → upd (upd bk n p) b n c = bk c := by
    intro c h1 h2; rw [upd_ne _ _ (fun e : c = b => h2 (e ▸ hbm)), upd_ne _ _ h1]
  refine ⟨?_, ?_, ?_, ?_, ?_⟩
  · have := raw_upd _ p n _ (raw_upd _ n b _ h.sn)
    rwa [raw_node hnH] at this
  · have := raw_upd _ b n _ (raw_upd _ n p _ h.sp)
    rwa [raw_node hnH] at this
  · rw [full_upd hq]
    rw [root_upd]
    refine Rings.set h.rings ?_ ?_ ?_ (hnew _ _ hr) ?_ ?_ ?_
    · intro m hm
      rcases (hmem m).1 hm with e | e
      · subst e; exact Or.inr hnf
      · exact Or.inl e
    · rw [hperm.nodup_iff]; exact List.nodup_cons.2 ⟨fun e => hnf q (by rw [hfq]; exact e), hnd⟩
    · intro e
      rcases (hmem 0).1 e with e | e
      · exact hn0 e.symm
      · exact h.rings.nz q e
    · intro m hm hml; exact hn' m (fun e => hml ((hmem m).2 (Or.inl e))) hm
    · intro m hm hml; exact hb' m (fun e => hml ((hmem m).2 (Or.inl e))) hm
    · intro m hm hml; exact absurd ((hmem m).2 (Or.inr hm)) hml
  · intro a ha
    rw [full_upd hq] at ha
    have haq : a ∉ q :: l' := by have := ha q; rwa [upd_same] at this
    have h1 : a ≠ n := fun e => haq ((hmem a).2 (Or.inl e))
    have h2 : a ∉ full H A q := fun e => haq ((hmem a).2 (Or.inr e))
    rw [hb' a h1 h2]
    apply h.offp
    intro q' hq'
    by_cases e : q' = q
    · exact h2 (e ▸ hq')
    · have := ha q'; rw [upd_ne _ _ e] at this; exact this hq'
  · intro q' m hm
    rw [upd_apply] at hm
    split at hm
    · next e =>
      subst e
      rcases List.mem_cons.1 (hp'.mem_iff.2 hm) with e | e
      · subst e; exact ⟨hq, hnH, hne⟩
      · exact h.mem _ m e
    · exact h.mem q' m hm

theorem core_remove (hk : HOk H) (h : Inv H s A nx bk) {q n m : Nat} {l l1 l2 : List Nat}
    (hA : A q = l1 ++ n :: l2) (hm : m :: l = l2 ++ q :: l1) :
    Inv H ⟨upd (upd s.next (l.getLastD m) (raw H m)) n 0, upd (upd s.prev m (raw H (l.getLastD m))) n 0⟩
      (upd A q (l1 ++ l2)) (upd (upd nx (l.getLastD m) m) n 0) (upd (upd bk m (l.getLastD m)) n 0) := by
  have hq : H q = true := (h.mem q n (by rw [hA]; simp)).1
  have hfq := full_eq (A := A) hq
  have hring := h.rings.ring q
  have hnd := h.rings.nodup q
  rw [hfq, hA] at hnd hring
  have hring2 : Ring nx bk (n :: m :: l) := by
    rw [← List.cons_append, ring_rotate, List.cons_append] at hring
    rw [hm]; exact hring
  have hperm : (n :: m :: l).Perm (q :: (l1 ++ n :: l2)) := by
    rw [hm, ← List.cons_append (bs := n :: l2)]
    exact (List.perm_append_comm (l₁ := q :: l1) (l₂ := n :: l2)).symm
  have hnd2 := hperm.nodup_iff.2 hnd
  have hmem : ∀ c, c ∈ full H A q ↔ c = n ∨ c ∈ q :: (l1 ++ l2) := by
    intro c; rw [hfq, hA]; simp only [List.mem_append, List.mem_cons]
    constructor
    · rintro (h | h | h | h) <;> simp [h]
    · rintro (h | h | h | h) <;> simp [h]
  have hsub : ∀ c, c ∈ m :: l → c ∈ full H A q := by
    intro c hc; rw [hfq, hA]; exact hperm.mem_iff.1 (by simp [List.mem_cons.1 hc])
  have hnm : n ∈ full H A q := (hmem n).2 (Or.inl rfl)
  have hpm : l.getLastD m ∈ m :: l := List.mem_cons.2 (getLastD_mem_cons m l)
  have hmn : m ≠ n := fun e => (List.nodup_cons.1 hnd2).1 (by simp [e])
  have hpn : l.getLastD m ≠ n := fun e => (List.nodup_cons.1 hnd2).1 (e ▸ hpm)
  have hpf := hsub _ hpm
  have hmf := hsub m (by simp)
  have hnd3 : (q :: (l1 ++ l2)).Nodup ∧ n ∉ q :: (l1 ++ l2) := by
    have : (n :: (q :: l1 ++ l2)).Nodup := by
      rw [← List.nodup_middle]; simpa using hnd
    rw [List.nodup_cons] at this
    exact ⟨this.2, this.1⟩
  generalize hpe : l.getLastD m = p at *
  have hr : Ring (upd (upd nx p m) n 0) (upd (upd bk m p) n 0) (m :: l) := by
    apply ring_remove hring2 hnd2
    · rw [upd_ne _ _ hmn, upd_same, hpe]
    · rw [hpe, upd_ne _ _ hpn, upd_same]
    · intro c h1 h2; rw [hpe] at h2; rw [upd_ne _ _ h1, upd_ne _ _ h2]
    · intro c h1 h2; rw [upd_ne _ _ h1, upd_ne _ _ h2]
  rw [hm, ring_rotate, List.cons_append] at hr
  have hn' : ∀ c, c ∉ full H A q → upd (upd nx p m) n 0 c = nx c := by
    intro c h2; rw [upd_ne _ _ (fun e : c = n => h2 (e ▸ hnm)), upd_ne _ _ (fun e : c = p => h2 (e ▸ hpf))]
  have hb' : ∀ c, c ∉ full H A q → upd (upd bk m p) n 0 c = bk c := by
    intro c h2; rw [upd_ne _ _ (fun e : c = n => h2 (e ▸ hnm)), upd_ne _ _ (fun e : c = m => h2 (e ▸ hmf))]
  refine ⟨?_, ?_, ?_, ?_, ?_⟩
  · have := raw_upd _ n 0 _ (raw_upd _ p m _ h.sn)
    rwa [raw_zero hk] at this
  · have := raw_upd _ n 0 _ (raw_upd _ m p _ h.sp)
    rwa [raw_zero hk] at this
  · rw [full_upd hq, root_upd]
    refine Rings.set h.rings ?_ hnd3.1 ?_ hr ?_ ?_ ?_
    · intro c hc; exact Or.inl ((hmem c).2 (Or.inr hc))
    · intro e; exact h.rings.nz q ((hmem 0).2 (Or.inr e))
    · intro c hc _; exact hn' c hc
    · intro c hc _; exact hb' c hc
    · intro c hc hcl
      rcases (hmem c).1 hc with e | e
      · rw [e, upd_same]
      · exact absurd e hcl
  · intro a ha
    rw [full_upd hq] at ha
    have haq : a ∉ q :: (l1 ++ l2) := by have := ha q; rwa [upd_same] at this
    by_cases e : a = n
    · rw [e, upd_same]
    have h2 : a ∉ full H A q := fun e' => by
      rcases (hmem a).1 e' with e' | e'
      · exact e e'
      · exact haq e'
    rw [hb' a h2]
    apply h.offp
    intro q' hq'
    by_cases e : q' = q
    · exact h2 (e ▸ hq')
    · have := ha q'; rw [upd_ne _ _ e] at this; exact this hq'
  · intro q' c hc
    rw [upd_apply] at hc
    split at hc
    · next e =>
      subst e
      refine h.mem _ c ?_
      rw [hA]
      rcases List.mem_append.1 hc with e | e <;> simp [e]
    · exact h.mem q' c hc

/-- `n` is a constructed node on no list. -/
structure Free (H : Nat → Bool) (A : Nat → List Nat) (n : Nat) : Prop where
  ne0 : n ≠ 0
  even : n % 2 = 0
  notH : H n = false
  un : ∀ q, n ∉ A q

theorem Free.off (h : Inv H s A nx bk) {n : Nat} (hf : Free H A n) : ∀ q, n ∉ full H A q := by
  intro q' hm
  unfold full at hm; split at hm
  · next hq' =>
    rcases List.mem_cons.1 hm with e | e
    · have := hf.notH; rw [e, hq'] at this; exact absurd this (by simp)
    · exact hf.un q' e
  · simp at hm

theorem Free.next (hk : HOk H) (h : Inv H s A nx bk) {n : Nat} (hf : Free H A n) : s.next n = 0 := by
  rw [h.sn, h.rings.off n (hf.off h), raw_zero hk]

theorem Free.prev (hk : HOk H) (h : Inv H s A nx bk) {n : Nat} (hf : Free H A n) : s.prev n = 0 := by
  rw [h.sp, h.offp n (hf.off h), raw_zero hk]

theorem insertBefore_core (hk : HOk H) (h : Inv H s A nx bk) {q n b : Nat} {l l' : List Nat} (hq : H q = true)
    (hf : Free H A n) (hring : Ring nx bk (b :: l)) (hp : (b :: l).Perm (q :: A q)) (hp' : (n :: A q).Perm l')
    (hnew : ∀ nx bk : Nat → Nat, Ring nx bk (b :: l ++ [n]) → Ring nx bk (q :: l')) (dbg : Bool) :
    ∃ s' nx' bk', insertBefore dbg s (raw H b) n = .ret s' ∧ Inv H s' (upd A q l') nx' bk' := by
  have hc := core_insert hk h hq hf.ne0 hf.even hf.notH hf.un hring hp hp' hnew
  have hfq := full_eq (A := A) hq
  have hlm : l.getLastD b ∈ full H A q := by rw [hfq]; exact hp.mem_iff.1 (List.mem_cons.2 (getLastD_mem_cons b l))
  have hbm : b ∈ full H A q := by rw [hfq]; exact hp.mem_iff.1 (by simp)
  obtain ⟨hbe, hb0⟩ := full_mem hk h hbm
  obtain ⟨hle, hl0⟩ := full_mem hk h hlm
  have hraw0 : raw H b ≠ 0 := by unfold raw; split <;> omega
  have hprev : s.prev b = raw H (l.getLastD b) := by rw [h.sp, (seg_last hring).2]
  refine ⟨_, _, _, ?_, hc⟩
  simp [insertBefore, verify, rdNext, rdPrev, wrNext, wrPrev, hf.ne0, hf.next hk h, hf.prev hk h, clear_raw hbe, hb0, hprev,
    clear_raw hle, hl0, hraw0, -List.getLastD_eq_getLast?]

theorem insertAfter_core (hk : HOk H) (h : Inv H s A nx bk) {q n b : Nat} {l l' : List Nat} (hq : H q = true)
    (hf : Free H A n) (hring : Ring nx bk (b :: l)) (hp : (b :: l).Perm (q :: A q)) (hp' : (n :: A q).Perm l')
    (hnew : ∀ nx bk : Nat → Nat, Ring nx bk (b :: l ++ [n]) → Ring nx bk (q :: l')) (dbg : Bool) :
    ∃ s' nx' bk', insertAfter dbg s (raw H (l.getLastD b)) n = .ret s' ∧ Inv H s' (upd A q l') nx' bk' := by
  have hc := core_insert hk h hq hf.ne0 hf.even hf.notH hf.un hring hp hp' hnew
  have hfq := full_eq (A := A) hq
  have hlm : l.getLastD b ∈ full H A q := by rw [hfq]; exact hp.mem_iff.1 (List.mem_cons.2 (getLastD_mem_cons b l))
  have hbm : b ∈ full H A q := by rw [hfq]; exact hp.mem_iff.1 (by simp)
  obtain ⟨hbe, hb0⟩ := full_mem hk h hbm
  obtain ⟨hle, hl0⟩ := full_mem hk h hlm
  have hraw0 : raw H (l.getLastD b) ≠ 0 := by unfold raw; split <;> omega
  have hnext : s.next (l.getLastD b) = raw H b := by rw [h.sn, (seg_last hring).1]
  refine ⟨_, _, _, ?_, hc⟩
  simp [insertAfter, verify, rdNext, rdPrev, wrNext, wrPrev, hf.ne0, hf.next hk h, hf.prev hk h, clear_raw hbe, hb0, hnext,
    clear_raw hle, hl0, hraw0, -List.getLastD_eq_getLast?]

theorem insertLast_spec (hk : HOk H) (h : Inv H s A nx bk) {q n : Nat} (hq : H q = true) (hf : Free H A n) (dbg : Bool) :
    ∃ s' nx' bk', insertLast dbg s q n = .ret s' ∧ Inv H s' (upd A q (A q ++ [n])) nx' bk' := by
  unfold insertLast
  rw [iter_eq hk hq]
  refine insertBefore_core hk h hq hf (l := A q) ?_ (List.Perm.refl _) (by simpa using List.perm_append_comm (l₁ := [n]) (l₂ := A q)) ?_ dbg
  · have := h.rings.ring q; rwa [full_eq hq] at this
  · intro nx bk hr; exact hr

theorem insertBefore_spec (hk : HOk H) (h : Inv H s A nx bk) {q n b : Nat} {l1 l2 : List Nat} (hf : Free H A n)
    (hA : A q = l1 ++ b :: l2) (dbg : Bool) :
    ∃ s' nx' bk', insertBefore dbg s b n = .ret s' ∧ Inv H s' (upd A q (l1 ++ n :: b :: l2)) nx' bk' := by
  obtain ⟨hq, hbH, _⟩ := h.mem q b (by rw [hA]; simp)
  have hr := h.rings.ring q
  rw [full_eq hq, hA] at hr
  have := insertBefore_core hk h (b := b) (l := l2 ++ q :: l1) (l' := l1 ++ n :: b :: l2) hq hf ?_ ?_ ?_ ?_ dbg
  · rwa [raw_node hbH] at this
  · rw [← List.cons_append, ring_rotate, List.cons_append] at hr; exact hr
  · rw [hA]; exact (List.perm_append_comm (l₁ := b :: l2) (l₂ := q :: l1))
  · rw [hA]; exact List.perm_middle.symm
  · intro nx bk hr
    have e : b :: (l2 ++ q :: l1) ++ [n] = (b :: l2) ++ (q :: l1 ++ [n]) := by simp
    rw [e, ring_rotate] at hr
    simpa using hr

theorem insertFirst_spec (hk : HOk H) (h : Inv H s A nx bk) {q n : Nat} (hq : H q = true) (hf : Free H A n) (dbg : Bool) :
    ∃ s' nx' bk', insertFirst dbg s q n = .ret s' ∧ Inv H s' (upd A q (n :: A q)) nx' bk' := by
  unfold insertFirst
  rw [iter_eq hk hq]
  have hr := h.rings.ring q
  rw [full_eq hq] at hr
  cases hA : A q with
  | nil =>
    rw [hA] at hr
    have := insertAfter_core hk h (b := q) (l := []) (l' := [n]) hq hf hr (by rw [hA]) (by rw [hA]) (fun _ _ hr => hr) dbg
    exact this
  | cons b l =>
    have := insertAfter_core hk h (b := b) (l := l ++ [q]) (l' := n :: b :: l) hq hf ?_ ?_ (by rw [hA]) ?_ dbg
    · rwa [getLastD_append_singleton] at this
    · rw [hA] at hr
      rw [← List.singleton_append, ring_rotate] at hr
      exact hr
    · rw [hA]; exact List.perm_append_comm (l₁ := b :: l) (l₂ := [q])
    · intro nx bk hr
      have e : b :: (l ++ [q]) ++ [n] = (b :: l) ++ [q, n] := by simp
      rw [e, ring_rotate] at hr
      exact hr

theorem insertAfter_spec (hk : HOk H) (h : Inv H s A nx bk) {q n a : Nat} {l1 l2 : List Nat} (hf : Free H A n)
    (hA : A q = l1 ++ a :: l2) (dbg : Bool) :
    ∃ s' nx' bk', insertAfter dbg s a n = .ret s' ∧ Inv H s' (upd A q (l1 ++ a :: n :: l2)) nx' bk' := by
  obtain ⟨hq, haH, _⟩ := h.mem q a (by rw [hA]; simp)
  have hr := h.rings.ring q
  rw [full_eq hq, hA] at hr
  have hperm : (n :: A q).Perm (l1 ++ a :: n :: l2) := by
    rw [hA]
    have := (List.perm_middle (a := n) (l₁ := l1 ++ [a]) (l₂ := l2)).symm
    simpa using this
  obtain ⟨b, l, hbl⟩ : ∃ b l, b :: l = l2 ++ (q :: l1 ++ [a]) := by
    cases l2 with
    | nil => exact ⟨q, l1 ++ [a], rfl⟩
    | cons b l => exact ⟨b, _, rfl⟩
  have hlast : l.getLastD b = a := by
    rw [← List.getLastD_cons (a := 0), hbl, ← List.append_assoc, getLastD_append_singleton]
  have e : q :: (l1 ++ a :: l2) = (q :: l1 ++ [a]) ++ l2 := by simp
  have := insertAfter_core hk h (b := b) (l := l) (l' := l1 ++ a :: n :: l2) hq hf ?_ ?_ hperm ?_ dbg
  · rwa [hlast, raw_node haH] at this
  · rw [hbl, ← ring_rotate, ← e]; exact hr
  · rw [hbl, hA, e]; exact List.perm_append_comm
  · intro nx bk hr
    rw [hbl, List.append_assoc, ring_rotate] at hr
    simpa using hr

theorem remove_spec (hk : HOk H) (h : Inv H s A nx bk) {q n : Nat} {l1 l2 : List Nat} (hA : A q = l1 ++ n :: l2) (dbg : Bool) :
    ∃ s' nx' bk', remove dbg s n = .ret s' ∧ Inv H s' (upd A q (l1 ++ l2)) nx' bk' := by
  obtain ⟨hq, hnH, hne⟩ := h.mem q n (by rw [hA]; simp)
  obtain ⟨m, l, hml⟩ : ∃ m l, m :: l = l2 ++ q :: l1 := by
    cases l2 with
    | nil => exact ⟨q, l1, rfl⟩
    | cons b l => exact ⟨b, _, rfl⟩
  have hc := core_remove hk h hA hml
  have hr := h.rings.ring q
  rw [full_eq hq, hA, ← List.cons_append, ring_rotate, List.cons_append, ← hml] at hr
  have hsub : ∀ c, c ∈ m :: l → c ∈ full H A q := by
    intro c hc
    rw [hml] at hc
    rw [full_eq hq, hA]
    simp only [List.mem_append, List.mem_cons] at hc ⊢
    rcases hc with h | h | h <;> simp [h]
  obtain ⟨hme, hm0⟩ := full_mem hk h (hsub m (by simp))
  obtain ⟨hpe, hp0⟩ := full_mem hk h (hsub _ (List.mem_cons.2 (getLastD_mem_cons m l)))
  have hn0 : n ≠ 0 := (full_mem hk h (q := q) (by rw [full_eq hq, hA]; simp)).2
  have hx : s.next n = raw H m := by rw [h.sn, hr.1]
  have hy : s.prev n = raw H (l.getLastD m) := by
    have := (seg_last hr).2
    rw [List.getLastD_cons] at this
    rw [h.sp, this]
  have htq : tagQuery n = false := by simp [tagQuery, hne]
  refine ⟨_, _, _, ?_, hc⟩
  simp [remove, verify, rdNext, rdPrev, wrNext, wrPrev, hn0, htq, hx, hy, clear_raw hme, clear_raw hpe, hm0, hp0,
    -List.getLastD_eq_getLast?]

/-- Links around an element. -/
theorem next_of (h : Inv H s A nx bk) {q n : Nat} {l1 l2 : List Nat} (hA : A q = l1 ++ n :: l2) :
    nx n = l2.headD q ∧ bk n = l1.getLastD q := by
  obtain ⟨hq, _, _⟩ := h.mem q n (by rw [hA]; simp)
  have hr := h.rings.ring q
  rw [full_eq hq, hA] at hr
  have : Seg nx bk q l1 n ∧ Seg nx bk n l2 q := seg_append.1 hr
  exact ⟨seg_first this.2, (seg_last this.1).2⟩

theorem ends_of (h : Inv H s A nx bk) {q : Nat} (hq : H q = true) : nx q = (A q).headD q ∧ bk q = (A q).getLastD q := by
  have hr := h.rings.ring q
  rw [full_eq hq] at hr
  exact ⟨seg_first hr, (seg_last hr).2⟩

theorem untag (hk : HOk H) (h : Inv H s A nx bk) {q x : Nat} (hq : H q = true) (hx : x ∈ A q) :
    raw H x = x ∧ tagQuery x = false ∧ x ≠ 0 ∧ tagClear x = x := by
  obtain ⟨_, h1, h2⟩ := h.mem q x hx
  refine ⟨raw_node h1, by simp [tagQuery, h2], ?_, clear_even h2⟩
  exact (full_mem hk h (q := q) (by rw [full_eq hq]; simp [hx])).2

theorem first_spec (hk : HOk H) (h : Inv H s A nx bk) {q : Nat} (hq : H q = true) : first s q = .ret ((A q).headD 0) := by
  have hq0 := (hk q hq).2
  simp only [first, rdNext, hq0, if_false, Outcome.bind_ret, Outcome.pure_eq]
  rw [h.sn, (ends_of h hq).1]
  cases hA : A q with
  | nil => simp [query_raw (hk q hq).1, hq]
  | cons a l =>
    obtain ⟨e1, e2, _⟩ := untag hk h hq (x := a) (by rw [hA]; simp)
    simp [e1, e2]

theorem last_spec (hk : HOk H) (h : Inv H s A nx bk) {q : Nat} (hq : H q = true) : last s q = .ret ((A q).getLastD 0) := by
  have hq0 := (hk q hq).2
  simp only [last, rdPrev, hq0, if_false, Outcome.bind_ret, Outcome.pure_eq]
  rw [h.sp, (ends_of h hq).2]
  cases hA : A q with
  | nil => rw [List.getLastD_nil, List.getLastD_nil, query_raw (hk q hq).1, if_pos hq]
  | cons a l =>
    obtain ⟨e1, e2, _⟩ := untag hk h hq (x := (a :: l).getLastD q) (by rw [hA]; exact getLastD_mem (by simp) _)
    rw [e1, e2, List.getLastD_cons, List.getLastD_cons]
    rfl

theorem empty_spec (hk : HOk H) (h : Inv H s A nx bk) {q : Nat} (hq : H q = true) : empty s q = .ret (A q).isEmpty := by
  have hq0 := (hk q hq).2
  simp only [empty, rdNext, hq0, if_false, Outcome.bind_ret, Outcome.pure_eq]
  rw [h.sn, (ends_of h hq).1]
  cases hA : A q with
  | nil => simp [query_raw (hk q hq).1, hq]
  | cons a l =>
    obtain ⟨e1, e2, e3, _⟩ := untag hk h hq (x := a) (by rw [hA]; simp)
    simp [e1, e2, e3]

/-- What a move reports: the element reached, or the origin. -/
def arrive (H : Nat → Bool) (q : Nat) : List Nat → Nat × Bool
  | [] => (raw H q, false)
  | x :: _ => (x, true)

/-- Moving forward from an element or from the header. -/
theorem advance_spec (hk : HOk H) (h : Inv H s A nx bk) {q a p : Nat} {l : List Nat} (hq : H q = true) (hp : tagClear p = a)
    (ha : a ≠ 0) (hn : nx a = l.headD q) (hl : ∀ x ∈ l, x ∈ A q) :
    advance s p = .ret (arrive H q l) := by
  simp only [advance, rdNext, hp, ha, if_false, Outcome.bind_ret, Outcome.pure_eq]
  rw [h.sn, hn]
  cases l with
  | nil => simp [query_raw (hk q hq).1, hq, arrive]
  | cons x l =>
    obtain ⟨e1, e2, e3, _⟩ := untag hk h hq (x := x) (hl x (by simp))
    simp [e1, e2, e3, arrive]

theorem recede_spec (hk : HOk H) (h : Inv H s A nx bk) {q a p : Nat} {l : List Nat} (hq : H q = true) (hp : tagClear p = a)
    (ha : a ≠ 0) (hn : bk a = l.headD q) (hl : ∀ x ∈ l, x ∈ A q) :
    recede s p = .ret (arrive H q l) := by
  simp only [recede, rdPrev, hp, ha, if_false, Outcome.bind_ret, Outcome.pure_eq]
  rw [h.sp, hn]
  cases l with
  | nil => simp [query_raw (hk q hq).1, hq, arrive]
  | cons x l =>
    obtain ⟨e1, e2, e3, _⟩ := untag hk h hq (x := x) (hl x (by simp))
    simp [e1, e2, e3, arrive]

theorem foreach_spec (hk : HOk H) (h : Inv H s A nx bk) {q : Nat} (hq : H q = true) :
    ∀ (l : List Nat) (a p fuel : Nat), tagClear p = a → a ≠ 0 → Seg nx bk a l q → (∀ x ∈ l, x ∈ A q) → l.length < fuel →
      foreach s fuel p = .ret (l, raw H q) := by
  intro l
  induction l with
  | nil =>
    intro a p fuel hp ha hs hl hf
    obtain ⟨f, rfl⟩ : ∃ f, fuel = f + 1 := ⟨fuel - 1, by simp at hf; omega⟩
    simp [foreach, arrive, advance_spec hk h (l := []) hq hp ha hs.1 hl]
  | cons x l ih =>
    intro a p fuel hp ha hs hl hf
    obtain ⟨f, rfl⟩ : ∃ f, fuel = f + 1 := ⟨fuel - 1, by simp at hf; omega⟩
    obtain ⟨_, _, e3, e4⟩ := untag hk h hq (x := x) (hl x (by simp))
    have := ih x x f e4 e3 hs.2.2 (fun y hy => hl y (by simp [hy])) (by simp at hf; omega)
    simp [foreach, arrive, advance_spec hk h (l := x :: l) hq hp ha hs.1 hl, this]

/-- The reversed ring. -/
theorem seg_reverse {nx bk : Nat → Nat} {l : List Nat} {a b : Nat} (h : Seg nx bk a l b) : Seg bk nx b l.reverse a := by
  induction l generalizing a with
  | nil => exact ⟨h.2, h.1⟩
  | cons x l ih =>
    rw [List.reverse_cons, seg_append]
    exact ⟨ih h.2.2, h.2.1, h.1⟩

theorem foreachRev_spec (hk : HOk H) (h : Inv H s A nx bk) {q : Nat} (hq : H q = true) :
    ∀ (l : List Nat) (a p fuel : Nat), tagClear p = a → a ≠ 0 → Seg bk nx a l q → (∀ x ∈ l, x ∈ A q) → l.length < fuel →
      foreachRev s fuel p = .ret (l, raw H q) := by
  intro l
  induction l with
  | nil =>
    intro a p fuel hp ha hs hl hf
    obtain ⟨f, rfl⟩ : ∃ f, fuel = f + 1 := ⟨fuel - 1, by simp at hf; omega⟩
    simp [foreachRev, arrive, recede_spec hk h (l := []) hq hp ha hs.1 hl]
  | cons x l ih =>
    intro a p fuel hp ha hs hl hf
    obtain ⟨f, rfl⟩ : ∃ f, fuel = f + 1 := ⟨fuel - 1, by simp at hf; omega⟩
    obtain ⟨_, _, e3, e4⟩ := untag hk h hq (x := x) (hl x (by simp))
    have := ih x x f e4 e3 hs.2.2 (fun y hy => hl y (by simp [hy])) (by simp at hf; omega)
    simp [foreachRev, arrive, recede_spec hk h (l := x :: l) hq hp ha hs.1 hl, this]

theorem fwdLoop_spec (hk : HOk H) (h : Inv H s A nx bk) {q : Nat} (hq : H q = true) :
    ∀ (l : List Nat) (a p fuel lag : Nat), tagClear p = a → a ≠ 0 → Seg nx bk a l q → (∀ x ∈ l, x ∈ A q) →
      l.length < fuel → (lag ≠ 0 ∨ l = A q) → fwdLoop s q fuel p lag = .ret (some (l.getLastD lag)) := by
  intro l
  induction l with
  | nil =>
    intro a p fuel lag hp ha hs hl hf _
    obtain ⟨f, rfl⟩ : ∃ f, fuel = f + 1 := ⟨fuel - 1, by simp at hf; omega⟩
    simp [fwdLoop, arrive, advance_spec hk h (l := []) hq hp ha hs.1 hl]
  | cons x l ih =>
    intro a p fuel lag hp ha hs hl hf hlag
    obtain ⟨f, rfl⟩ : ∃ f, fuel = f + 1 := ⟨fuel - 1, by simp at hf; omega⟩
    obtain ⟨_, _, e3, e4⟩ := untag hk h hq (x := x) (hl x (by simp))
    have := ih x x f x e4 e3 hs.2.2 (fun y hy => hl y (by simp [hy])) (by simp at hf; omega) (Or.inl e3)
    have hno : ¬ (lag = 0 ∧ x ≠ (A q).headD 0) := by
      rintro ⟨h1, h2⟩
      rcases hlag with e | e
      · exact e h1
      · rw [← e] at h2; exact h2 rfl
    rw [fwdLoop, advance_spec hk h (l := x :: l) hq hp ha hs.1 hl]
    simp only [arrive, Outcome.bind_ret, if_true, first_spec hk h hq, if_neg hno, this]
    rw [List.getLastD_cons]

theorem revLoop_spec (hk : HOk H) (h : Inv H s A nx bk) {q : Nat} (hq : H q = true) :
    ∀ (l : List Nat) (a p fuel lag : Nat), tagClear p = a → a ≠ 0 → Seg bk nx a l q → (∀ x ∈ l, x ∈ A q) →
      l.length < fuel → (lag ≠ 0 ∨ l.headD 0 = (A q).getLastD 0) → revLoop s q fuel p lag = .ret (some (l.getLastD lag)) := by
  intro l
  induction l with
  | nil =>
    intro a p fuel lag hp ha hs hl hf _
    obtain ⟨f, rfl⟩ : ∃ f, fuel = f + 1 := ⟨fuel - 1, by simp at hf; omega⟩
    simp [revLoop, arrive, recede_spec hk h (l := []) hq hp ha hs.1 hl]
  | cons x l ih =>
    intro a p fuel lag hp ha hs hl hf hlag
    obtain ⟨f, rfl⟩ : ∃ f, fuel = f + 1 := ⟨fuel - 1, by simp at hf; omega⟩
    obtain ⟨_, _, e3, e4⟩ := untag hk h hq (x := x) (hl x (by simp))
    have := ih x x f x e4 e3 hs.2.2 (fun y hy => hl y (by simp [hy])) (by simp at hf; omega) (Or.inl e3)
    have hno : ¬ (lag = 0 ∧ x ≠ (A q).getLastD 0) := by
      rintro ⟨h1, h2⟩
      rcases hlag with e | e
      · exact e h1
      · rw [← e] at h2; exact h2 rfl
    rw [revLoop, recede_spec hk h (l := x :: l) hq hp ha hs.1 hl]
    simp only [arrive, Outcome.bind_ret, if_true, last_spec hk h hq, if_neg hno, this]
    rw [List.getLastD_cons]

theorem headD_reverse (l : List Nat) (d : Nat) : l.reverse.headD d = l.getLastD d := by
  simp

theorem getLastD_reverse (l : List Nat) (d : Nat) : l.reverse.getLastD d = l.headD d := by
  simp

theorem seg_of (h : Inv H s A nx bk) {q : Nat} (hq : H q = true) : Seg nx bk q (A q) q := by
  have hr := h.rings.ring q
  rw [full_eq hq] at hr
  exact hr

theorem validate_spec (hk : HOk H) (h : Inv H s A nx bk) {q fuel : Nat} (hq : H q = true) (hf : (A q).length < fuel) :
    validate s q fuel = .ret true := by
  obtain ⟨hqe, hq0⟩ := hk q hq
  have h1 := fwdLoop_spec hk h hq (A q) q (iter q) fuel 0 (clear_iter hqe) hq0 (seg_of h hq) (fun _ hx => hx) hf (Or.inr rfl)
  have h2 := revLoop_spec hk h hq (A q).reverse q (iter q) fuel 0 (clear_iter hqe) hq0 (seg_reverse (seg_of h hq))
    (fun _ hx => List.mem_reverse.1 hx) (by rw [List.length_reverse]; exact hf) (Or.inr (headD_reverse _ _))
  rw [getLastD_reverse] at h2
  have v1 : validateFwd s q fuel = .ret true := by
    simp only [validateFwd, first_spec hk h hq, last_spec hk h hq, Outcome.bind_ret, h1, Outcome.pure_eq]
    split
    · next e =>
      cases hA : A q with
      | nil => rfl
      | cons a l =>
        rw [hA] at e
        exact absurd e (untag hk h hq (x := a) (by rw [hA]; simp)).2.2.1
    · simp
  have v2 : validateRev s q fuel = .ret true := by
    simp only [validateRev, first_spec hk h hq, last_spec hk h hq, Outcome.bind_ret, h2, Outcome.pure_eq]
    split
    · next e =>
      cases hA : A q with
      | nil => rfl
      | cons a l =>
        exact absurd e (untag hk h hq (getLastD_mem (by rw [hA]; simp) 0)).2.2.1
    · simp
  simp [validate, v1, v2]

theorem init_inv (hk : HOk H) : ∃ nx bk, Inv H (init H) (fun _ => []) nx bk := by
  refine ⟨fun a => if H a then a else 0, fun a => if H a then a else 0, ?_, ?_, ?_, ?_, ?_⟩
  · intro a; simp only [init]
    split
    · next e => simp only [raw, e, tagSet]; have := (hk a e).1; simp; omega
    · rw [raw_zero hk]
  · intro a; simp only [init]
    split
    · next e => simp only [raw, e, tagSet]; have := (hk a e).1; simp; omega
    · rw [raw_zero hk]
  · constructor
    · intro q; rfl
    · intro q
      unfold full; split
      · next e => exact ⟨by simp [e], by simp [e]⟩
      · trivial
    · intro q; unfold full; split <;> simp
    · intro q q' n hne h1 h2
      unfold full at h1 h2
      split at h1 <;> split at h2 <;> simp at h1 h2
      exact hne (h1.symm.trans h2)
    · intro n hn
      have := hn n
      unfold full at this
      cases e : H n <;> simp_all
    · intro q
      unfold full; split
      · next e => have := (hk q e).2; simp; omega
      · simp
  · intro a ha
    have := ha a
    unfold full at this
    cases e : H a <;> simp_all
  · intro q n hn; simp at hn

end Verif.Dlist
