import Verif.Proof.StrHeap
import Verif.Spec.StrDocs
import Mathlib.Tactic.SplitIfs
/-! Strings as ranges of documents: the refinement. -/
namespace Verif.StrHeap
open Verif

/-- The heap holds the documents. -/
structure Core (A : Docs) (h : Heap) : Prop where
  bound : ∀ i, A.live i → h.s i + h.ln i ≤ h.ee
  ln : ∀ i, A.live i → h.ln i = A.len i
  rng : ∀ i, A.live i → A.lo i + A.len i ≤ (A.T (A.grp i)).length
  off : ∀ i j, A.live i → A.live j → A.grp i = A.grp j → h.s i + A.lo j = h.s j + A.lo i
  mem : ∀ i j, A.live i → A.live j → A.grp i = A.grp j → ∀ k, A.lo i ≤ k → k < A.lo j + A.len j →
    h.mem (h.s i + (k - A.lo i)) = (A.T (A.grp i)).getD k 0

def RingInv (A : Docs) (nx bk : Nat → Nat) : Prop :=
  ∀ g, ∃ R, Ring nx bk R ∧ R.Nodup ∧ ∀ j, j ∈ R ↔ A.live j ∧ A.grp j = g

structure Inv (A : Docs) (h : Heap) : Prop where
  room : h.ee + A.room ≤ h.ext
  zero : ¬ A.live 0
  core : Core A h
  ring : RingInv A h.snext h.sprev
  nodup : h.order.Nodup
  order : ∀ j, j ∈ h.order ↔ A.live j

theorem Core.text {A : Docs} {h : Heap} (c : Core A h) {i : Nat} (hi : A.live i) : text h i = A.value i := by
  unfold StrHeap.text Docs.value
  have := c.rng i hi
  rw [bytes_eq_iff (by rw [c.ln i hi]; simp; omega)]
  intro k hk
  rw [c.ln i hi] at hk
  have := c.mem i i hi hi rfl (A.lo i + k) (by omega) (by omega)
  rw [show A.lo i + k - A.lo i = k by omega] at this
  rw [this, List.getD_eq_getElem _ _ (by omega), List.getD_eq_getElem _ _ (by simp; omega)]
  simp

theorem value_length {A : Docs} {h : Heap} (c : Core A h) {i : Nat} (hi : A.live i) : (A.value i).length = A.len i := by
  have := c.rng i hi
  unfold Docs.value; simp; omega

theorem Core.frame {A : Docs} {h h' : Heap} (c : Core A h) (hm : ∀ a < h.ee, h'.mem a = h.mem a)
    (hs : ∀ i, A.live i → h'.s i = h.s i) (hl : ∀ i, A.live i → h'.ln i = h.ln i) (he : h.ee ≤ h'.ee) : Core A h' where
  bound := fun i hi => by rw [hs i hi, hl i hi]; exact Nat.le_trans (c.bound i hi) he
  ln := fun i hi => by rw [hl i hi]; exact c.ln i hi
  rng := c.rng
  off := fun i j hi hj hg => by rw [hs i hi, hs j hj]; exact c.off i j hi hj hg
  mem := fun i j hi hj hg k h1 h2 => by
    rw [hs i hi, hm, c.mem i j hi hj hg k h1 h2]
    have := c.off i j hi hj hg
    have := c.bound j hj
    rw [c.ln j hj] at this
    omega

/-- A new string over a new document. -/
theorem Core.new {A : Docs} {h h' : Heap} (c : Core A h) {i g : Nat} {t : List Nat} (hi : ¬ A.live i) (hg : A.fresh g)
    (hm : ∀ a < h.ee, h'.mem a = h.mem a)
    (hs : ∀ j, A.live j → h'.s j = h.s j) (hl : ∀ j, A.live j → h'.ln j = h.ln j) (he : h.ee ≤ h'.ee)
    (hb : h'.s i + h'.ln i ≤ h'.ee) (ht : StrHeap.text h' i = t) : Core (A.new i g t) h' := by
  have c' := c.frame hm hs hl he
  have hln : h'.ln i = t.length := by rw [← ht]; simp [StrHeap.text]
  have hne : ∀ j, A.live j → j ≠ i := fun j hj e => hi (e ▸ hj)
  have key : ∀ j, (A.new i g t).live j → j = i ∨ (j ≠ i ∧ A.live j) := by
    intro j hj
    simp only [Docs.new, Docs.place, upd] at hj
    split at hj
    · exact Or.inl ‹_›
    · exact Or.inr ⟨‹_›, hj⟩
  have eg : ∀ j, j ≠ i → (A.new i g t).grp j = A.grp j := fun j hj => upd_ne _ _ hj
  have el : ∀ j, j ≠ i → (A.new i g t).lo j = A.lo j := fun j hj => upd_ne _ _ hj
  have en : ∀ j, j ≠ i → (A.new i g t).len j = A.len j := fun j hj => upd_ne _ _ hj
  have gi : (A.new i g t).grp i = g := upd_same _ _ _
  have li : (A.new i g t).lo i = 0 := upd_same _ _ _
  have ni : (A.new i g t).len i = t.length := upd_same _ _ _
  have Tg : (A.new i g t).T g = t := upd_same _ _ _
  have Tn : ∀ j, A.live j → (A.new i g t).T (A.grp j) = A.T (A.grp j) := fun j hj => upd_ne _ _ (hg j hj)
  constructor
  · intro j hj
    rcases key j hj with rfl | ⟨_, hj⟩
    · exact hb
    · exact c'.bound j hj
  · intro j hj
    rcases key j hj with rfl | ⟨n, hj⟩
    · rw [ni]; exact hln
    · rw [en j n]; exact c'.ln j hj
  · intro j hj
    rcases key j hj with rfl | ⟨n, hj⟩
    · rw [li, ni, gi, Tg]; omega
    · rw [el j n, en j n, eg j n, Tn j hj]; exact c'.rng j hj
  · intro j k hj hk e
    rcases key j hj with rfl | ⟨n, hj'⟩ <;> rcases key k hk with rfl | ⟨m, hk'⟩
    · rfl
    · rw [gi, eg k m] at e; exact absurd e.symm (hg k hk')
    · rw [gi, eg j n] at e; exact absurd e (hg j hj')
    · rw [eg j n, eg k m] at e; rw [el j n, el k m]; exact c'.off j k hj' hk' e
  · intro j k hj hk e x h1 h2
    rcases key j hj with rfl | ⟨n, hj'⟩ <;> rcases key k hk with rfl | ⟨m, hk'⟩
    · rw [li, ni] at h2
      rw [li, gi, Tg, ← ht, List.getD_eq_getElem _ _ (by rw [ht]; omega)]
      simp only [StrHeap.text, bytes_get, Nat.sub_zero]
    · rw [gi, eg k m] at e; exact absurd e.symm (hg k hk')
    · rw [gi, eg j n] at e; exact absurd e (hg j hj')
    · rw [eg j n, eg k m] at e; rw [el j n] at h1; rw [el k m, en k m] at h2
      rw [el j n, eg j n, Tn j hj']; exact c'.mem j k hj' hk' e x h1 h2

theorem RingInv.congr {A : Docs} {nx bk nx' bk' : Nat → Nat} (r : RingInv A nx bk) (hn : ∀ j, A.live j → nx' j = nx j)
    (hb : ∀ j, A.live j → bk' j = bk j) : RingInv A nx' bk' := by
  intro g
  obtain ⟨R, h1, h2, h3⟩ := r g
  exact ⟨R, ring_congr h1 (fun c hc => hn c ((h3 c).1 hc).1) (fun c hc => hb c ((h3 c).1 hc).1), h2, h3⟩

theorem RingInv.new {A : Docs} {nx bk : Nat → Nat} (r : RingInv A nx bk) {i g : Nat} {t : List Nat} (hi : ¬ A.live i) (hg : A.fresh g) :
    RingInv (A.new i g t) (upd nx i i) (upd bk i i) := by
  have hne : ∀ j, A.live j → j ≠ i := fun j hj e => hi (e ▸ hj)
  intro g'
  by_cases e : g' = g
  · subst e
    refine ⟨[i], ⟨upd_same _ _ _, upd_same _ _ _⟩, by simp, fun j => ?_⟩
    simp only [List.mem_singleton, Docs.new, Docs.place, upd]
    by_cases hj : j = i
    · simp [hj]
    · simp only [hj, if_false, false_iff, not_and]
      exact fun a b => hg j a b
  · obtain ⟨R, h1, h2, h3⟩ := r g'
    refine ⟨R, ring_congr h1 (fun c hc => upd_ne _ _ (hne c ((h3 c).1 hc).1)) (fun c hc => upd_ne _ _ (hne c ((h3 c).1 hc).1)), h2, fun j => ?_⟩
    rw [h3 j]
    simp only [Docs.new, Docs.place, upd]
    by_cases hj : j = i
    · simp only [hj, if_true, true_and]
      exact ⟨fun a => absurd a.1 hi, fun a => absurd a.symm e⟩
    · simp [hj]

theorem Inv.new {A : Docs} {h h' : Heap} (v : Inv A h) {i g : Nat} {t : List Nat} {room : Nat} (hi : ¬ A.live i) (hg : A.fresh g) (h0 : i ≠ 0)
    (hm : ∀ a < h.ee, h'.mem a = h.mem a)
    (hs : ∀ j, A.live j → h'.s j = h.s j) (hl : ∀ j, A.live j → h'.ln j = h.ln j) (he : h.ee ≤ h'.ee)
    (hb : h'.s i + h'.ln i ≤ h'.ee) (ht : text h' i = t)
    (hn : h'.snext = upd h.snext i i) (hp : h'.sprev = upd h.sprev i i) (hr : h'.ee + room ≤ h'.ext)
    (ho : h'.order.Nodup) (hom : ∀ j, j ∈ h'.order ↔ j = i ∨ j ∈ h.order) : Inv { A.new i g t with room := room } h' where
  room := hr
  zero := by
    simp only [Docs.new, Docs.place, upd]
    rw [if_neg (fun e => h0 e.symm)]; exact v.zero
  core := by
    have := v.core.new hi hg hm hs hl he hb ht
    exact ⟨this.bound, this.ln, this.rng, this.off, this.mem⟩
  ring := by rw [hn, hp]; exact v.ring.new (t := t) hi hg
  nodup := ho
  order := fun j => by
    rw [hom j, v.order j]
    simp only [Docs.new, Docs.place, upd]
    by_cases hj : j = i <;> simp [hj]

/-- A new string that shares edits. -/
theorem Inv.share {A : Docs} {h : Heap} (v : Inv A h) {i j st n : Nat} (hi : ¬ A.live i) (h0 : i ≠ 0) (hj : A.live j) (hn : st + n ≤ A.len j) :
    Inv (A.place i (A.grp j) (A.lo j + st) n) (share h i j st n) := by
  have hne : ∀ k, A.live k → k ≠ i := fun k hk e => hi (e ▸ hk)
  have c := v.core
  have key : ∀ k, (A.place i (A.grp j) (A.lo j + st) n).live k → k = i ∨ (k ≠ i ∧ A.live k) := by
    intro k hk
    simp only [Docs.place, upd] at hk
    split at hk
    · exact Or.inl ‹_›
    · exact Or.inr ⟨‹_›, hk⟩
  have eg : ∀ k, k ≠ i → (A.place i (A.grp j) (A.lo j + st) n).grp k = A.grp k := fun k hk => upd_ne _ _ hk
  have el : ∀ k, k ≠ i → (A.place i (A.grp j) (A.lo j + st) n).lo k = A.lo k := fun k hk => upd_ne _ _ hk
  have en : ∀ k, k ≠ i → (A.place i (A.grp j) (A.lo j + st) n).len k = A.len k := fun k hk => upd_ne _ _ hk
  have gi : (A.place i (A.grp j) (A.lo j + st) n).grp i = A.grp j := upd_same _ _ _
  have li : (A.place i (A.grp j) (A.lo j + st) n).lo i = A.lo j + st := upd_same _ _ _
  have ni : (A.place i (A.grp j) (A.lo j + st) n).len i = n := upd_same _ _ _
  have hTT : (A.place i (A.grp j) (A.lo j + st) n).T = A.T := rfl
  have hlive : ∀ k, (A.place i (A.grp j) (A.lo j + st) n).live k ↔ k = i ∨ A.live k := by
    intro k
    simp only [Docs.place, upd]
    by_cases hk : k = i <;> simp [hk]
  have si : (StrHeap.share h i j st n).s i = h.s j + st := upd_same _ _ _
  have sn : ∀ k, k ≠ i → (StrHeap.share h i j st n).s k = h.s k := fun k hk => upd_ne _ _ hk
  have lni : (StrHeap.share h i j st n).ln i = n := upd_same _ _ _
  have lnn : ∀ k, k ≠ i → (StrHeap.share h i j st n).ln k = h.ln k := fun k hk => upd_ne _ _ hk
  have bj := c.bound j hj
  have lj := c.ln j hj
  have rj := c.rng j hj
  refine ⟨v.room, ?_, ⟨?_, ?_, ?_, ?_, ?_⟩, ?_, ?_, ?_⟩
  · rw [hlive]; exact fun e => e.elim (fun e => h0 e.symm) v.zero
  · intro k hk
    show _ ≤ h.ee
    rcases key k hk with rfl | ⟨m, hk⟩
    · rw [si, lni]; omega
    · rw [sn k m, lnn k m]; exact c.bound k hk
  · intro k hk
    rcases key k hk with rfl | ⟨m, hk⟩
    · rw [lni, ni]
    · rw [lnn k m, en k m]; exact c.ln k hk
  · intro k hk
    rw [hTT]
    rcases key k hk with rfl | ⟨m, hk⟩
    · rw [li, ni, gi]; omega
    · rw [el k m, en k m, eg k m]; exact c.rng k hk
  · intro k l hk hl e
    rcases key k hk with rfl | ⟨m, hk'⟩ <;> rcases key l hl with rfl | ⟨m', hl'⟩
    · rfl
    · rw [gi, eg l m'] at e
      have := c.off j l hj hl' e
      rw [si, sn l m', li, el l m']; omega
    · rw [gi, eg k m] at e
      have := c.off k j hk' hj e
      rw [si, sn k m, li, el k m]; omega
    · rw [eg k m, eg l m'] at e
      rw [sn k m, sn l m', el k m, el l m']; exact c.off k l hk' hl' e
  · intro k l hk hl e x h1 h2
    rw [hTT]
    show h.mem _ = _
    rcases key k hk with rfl | ⟨m, hk'⟩ <;> rcases key l hl with rfl | ⟨m', hl'⟩
    · rw [li] at h1 h2; rw [ni] at h2
      have := c.mem j j hj hj rfl x (by omega) (by omega)
      rw [si, li, gi, ← this]; congr 1; omega
    · rw [gi, eg l m'] at e; rw [li] at h1; rw [el l m', en l m'] at h2
      have := c.mem j l hj hl' e x (by omega) h2
      rw [si, li, gi, ← this]; congr 1; omega
    · rw [gi, eg k m] at e; rw [el k m] at h1; rw [li, ni] at h2
      have := c.mem k j hk' hj e x h1 (by omega)
      rw [sn k m, el k m, eg k m]; exact this
    · rw [eg k m, eg l m'] at e; rw [el k m] at h1; rw [el l m', en l m'] at h2
      rw [sn k m, el k m, eg k m]; exact c.mem k l hk' hl' e x h1 h2
  · -- rings
    intro g
    obtain ⟨R, r1, r2, r3⟩ := v.ring g
    have hiR : i ∉ R := fun e => hi ((r3 i).1 e).1
    obtain ⟨Rj, q1, q2, q3⟩ := v.ring (A.grp j)
    have hjj : j ∈ Rj := (q3 j).2 ⟨hj, rfl⟩
    have hnx : h.snext j ∈ Rj := ring_next_mem q1 hjj
    have hnxl := (q3 _).1 hnx
    have hnxi : h.snext j ≠ i := hne _ hnxl.1
    have hji : j ≠ i := hne j hj
    have e1 : (StrHeap.share h i j st n).snext = upd (upd h.snext i (h.snext j)) j i := by
      simp only [StrHeap.share, upd_same, upd_ne _ _ (fun e => hnxi e.symm : i ≠ h.snext j)]
    have e2 : (StrHeap.share h i j st n).sprev = upd (upd h.sprev i j) (h.snext j) i := by
      simp only [StrHeap.share, upd_same]
    rw [e2, e1]
    by_cases hg : g = A.grp j
    · subst hg
      have hjR : j ∈ R := (r3 j).2 ⟨hj, rfl⟩
      obtain ⟨l1, l2, rfl⟩ := List.append_of_mem hjR
      have rr := ring_rotate.1 r1
      rw [List.cons_append] at rr
      have nd : (j :: (l2 ++ l1)).Nodup := (List.perm_append_comm.nodup_iff).1 r2
      have mm : ∀ k, k ∈ j :: (l2 ++ l1) ↔ k ∈ l1 ++ j :: l2 := fun k => by
        simp only [List.mem_append, List.mem_cons]; tauto
      refine ⟨j :: i :: (l2 ++ l1), ring_insert_after rr nd (by rw [mm]; exact hiR) ?_ ?_ ?_ ?_ ?_ ?_, ?_, ?_⟩
      · rw [upd_ne _ _ (fun e => hji e.symm), upd_same]
      · rw [upd_ne _ _ (fun e => hnxi e.symm), upd_same]
      · rw [upd_same]
      · rw [upd_same]
      · intro k k1 k2; rw [upd_ne _ _ k2, upd_ne _ _ k1]
      · intro k k1 k2; rw [upd_ne _ _ k2, upd_ne _ _ k1]
      · have hin : i ∉ j :: (l2 ++ l1) := by rw [mm]; exact hiR
        simp only [List.mem_cons, not_or] at hin
        rw [List.nodup_cons] at nd
        rw [List.nodup_cons, List.nodup_cons]
        exact ⟨by simp only [List.mem_cons, not_or]; exact ⟨hji, nd.1⟩, hin.2, nd.2⟩
      · intro k
        have := mm k
        rw [r3 k] at this
        simp only [List.mem_cons] at this ⊢
        rw [hlive]
        by_cases hk : k = i
        · subst hk; simp [gi]
        · rw [eg k hk]; simp only [hk, false_or]; exact this
    · refine ⟨R, ring_congr r1 ?_ ?_, r2, ?_⟩
      · intro k hk
        have hkl := (r3 k).1 hk
        rw [upd_ne _ _ (fun e => hg (by rw [← hkl.2, e])), upd_ne _ _ (hne k hkl.1)]
      · intro k hk
        have hkl := (r3 k).1 hk
        rw [upd_ne _ _ (fun e => hg (by rw [← hkl.2, e, hnxl.2])), upd_ne _ _ (hne k hkl.1)]
      · intro k
        rw [r3 k, hlive]
        by_cases hk : k = i
        · subst hk; simp only [gi, true_or, true_and]
          exact ⟨fun a => absurd a.1 hi, fun a => absurd a.symm hg⟩
        · rw [eg k hk]; simp [hk]
  · exact nodup_addAfter ((v.order j).2 hj) (fun e => hi ((v.order i).1 e)) v.nodup
  · intro k
    show k ∈ addAfter i j h.order ↔ _
    rw [mem_addAfter ((v.order j).2 hj), hlive, v.order]

/-- Unlinking a string from its ring. -/
theorem RingInv.remove {A : Docs} {nx bk : Nat → Nat} (r : RingInv A nx bk) {i : Nat} (hi : A.live i) :
    RingInv { A with live := upd A.live i False } (upd nx (bk i) (nx i)) (upd bk (upd nx (bk i) (nx i) i) (bk i)) := by
  intro g
  have hlive : ∀ k, ({ A with live := upd A.live i False } : Docs).live k ↔ k ≠ i ∧ A.live k := by
    intro k
    simp only [upd]
    by_cases hk : k = i <;> simp [hk]
  obtain ⟨R, r1, r2, r3⟩ := r g
  obtain ⟨Q, q1, q2, q3⟩ := r (A.grp i)
  have hQ : i ∈ Q := (q3 i).2 ⟨hi, rfl⟩
  obtain ⟨l1, l2, rfl⟩ := List.append_of_mem hQ
  have rr := ring_rotate.1 q1
  have nd : (i :: (l2 ++ l1)).Nodup := (List.perm_append_comm.nodup_iff).1 q2
  have mm : ∀ k, k ∈ i :: (l2 ++ l1) ↔ A.live k ∧ A.grp k = A.grp i := fun k => ((List.perm_append_comm.mem_iff).symm).trans (q3 k)
  rw [List.cons_append] at rr
  generalize l2 ++ l1 = c at *
  cases c with
  | nil =>
    have a1 : nx i = i := rr.1
    have a2 : bk i = i := rr.2
    have e1 : upd nx (bk i) (nx i) = nx := by funext k; simp only [upd, a1, a2]; split; rw [‹k = i›, a1]; rfl
    have e2 : upd bk (upd nx (bk i) (nx i) i) (bk i) = bk := by
      rw [e1, a1]; funext k; simp only [upd]; split; rw [‹k = i›]; rfl
    rw [e2, e1]
    by_cases hg : g = A.grp i
    · subst hg
      refine ⟨[], trivial, by simp, fun k => ?_⟩
      have := mm k
      rw [hlive]
      simp only [List.mem_singleton, List.not_mem_nil, false_iff] at this ⊢
      intro e; exact e.1.1 (this.2 ⟨e.1.2, e.2⟩)
    · refine ⟨R, r1, r2, fun k => ?_⟩
      rw [r3 k, hlive]
      refine ⟨fun a => ⟨⟨fun e => hg (by rw [← a.2, e]), a.1⟩, a.2⟩, fun a => ⟨a.1.2, a.2⟩⟩
  | cons m l =>
    have a1 : nx i = m := rr.1
    have a2 : bk i = l.getLastD m := by
      have := (seg_last rr).2; rwa [List.getLastD_cons] at this
    have hmi : i ≠ l.getLastD m := by
      intro e
      have : l.getLastD m ∈ m :: l := List.mem_cons.2 (getLastD_mem_cons m l)
      rw [← e] at this
      exact (List.nodup_cons.1 nd).1 this
    have e1 : upd nx (bk i) (nx i) i = m := by rw [a2, upd_ne _ _ hmi, a1]
    rw [e1, a2, a1]
    by_cases hg : g = A.grp i
    · subst hg
      refine ⟨m :: l, ring_remove rr nd (upd_same _ _ _) (upd_same _ _ _) (fun c _ h2 => upd_ne _ _ h2) (fun c _ h2 => upd_ne _ _ h2),
        (List.nodup_cons.1 nd).2, fun k => ?_⟩
      have := mm k
      rw [hlive]
      simp only [List.mem_cons] at this ⊢
      have hni := (List.nodup_cons.1 nd).1
      simp only [List.mem_cons, not_or] at hni
      constructor
      · intro e
        have e' := this.1 (Or.inr e)
        exact ⟨⟨fun q => by subst q; exact e.elim hni.1 hni.2, e'.1⟩, e'.2⟩
      · intro e; exact (this.2 ⟨e.1.2, e.2⟩).resolve_left e.1.1
    · have hx : ∀ k ∈ R, k ∉ m :: l := by
        intro k hk e
        exact hg (((r3 k).1 hk).2.symm.trans ((mm k).1 (List.mem_cons_of_mem _ e)).2)
      have hlast : l.getLastD m ∈ m :: l := List.mem_cons.2 (getLastD_mem_cons m l)
      refine ⟨R, ring_congr r1 (fun k hk => upd_ne _ _ (fun e => hx k hk (e ▸ hlast)))
        (fun k hk => upd_ne _ _ (fun e => hx k hk (by simp [e]))), r2, fun k => ?_⟩
      rw [r3 k, hlive]
      refine ⟨fun a => ⟨⟨fun e => hg (by rw [← a.2, e]), a.1⟩, a.2⟩, fun a => ⟨a.1.2, a.2⟩⟩

theorem Inv.destroy {A : Docs} {h : Heap} (v : Inv A h) {i : Nat} (hi : A.live i) :
    Inv { A with live := upd A.live i False } (destroy h i) := by
  have hlive : ∀ k, ({ A with live := upd A.live i False } : Docs).live k ↔ k ≠ i ∧ A.live k := by
    intro k
    simp only [upd]
    by_cases hk : k = i <;> simp [hk]
  have c := v.core
  refine ⟨v.room, fun e => v.zero ((hlive 0).1 e).2, ⟨?_, ?_, ?_, ?_, ?_⟩, v.ring.remove hi, v.nodup.filter _, ?_⟩
  · exact fun k hk => c.bound k ((hlive k).1 hk).2
  · exact fun k hk => c.ln k ((hlive k).1 hk).2
  · exact fun k hk => c.rng k ((hlive k).1 hk).2
  · exact fun k l hk hl => c.off k l ((hlive k).1 hk).2 ((hlive l).1 hl).2
  · exact fun k l hk hl => c.mem k l ((hlive k).1 hk).2 ((hlive l).1 hl).2
  · intro k
    rw [hlive]
    simp only [StrHeap.destroy, List.mem_filter, v.order, decide_not, Bool.not_eq_true', decide_eq_false_iff_not]
    exact And.comm

/-- Appending to a string that shares edits with no other string. -/
theorem Inv.append {A : Docs} {h : Heap} (v : Inv A h) {low : Int → Nat → Bool} {i : Nat} {b : Buf} (hi : A.live i) (hs : A.solo i)
    (hb : b.below h.ee) (hr : A.len i + b.size ≤ A.room) :
    Inv { A with
      T := upd A.T (A.grp i) (A.value i ++ b.read h.mem), lo := upd A.lo i 0, len := upd A.len i (A.len i + b.size)
      room := A.room - (A.len i + b.size) } (append low h i b) := by
  have c := v.core
  have hl := c.ln i hi
  have hbd := c.bound i hi
  have hv := v.room
  obtain ⟨r1, r2, r3, r4, r5, r6, r7, r8, r9, r10, r11, -⟩ :=
    append_room (low := low) (h := h) (i := i) (b := b) hbd (by omega) (fun _ => by omega) hb
  generalize StrHeap.append low h i b = h' at *
  have hvl := value_length c hi
  have tx := c.text hi
  rw [tx] at r7
  have hln : h'.ln i = A.len i + b.size := by rw [r5, upd_same, hl]
  have hother : ∀ j, A.live j → j ≠ i → A.grp j ≠ A.grp i := fun j hj hn e => hn (hs j hj e)
  refine ⟨?_, v.zero, ⟨?_, ?_, ?_, ?_, ?_⟩, ?_, ?_, ?_⟩
  · show h'.ee + (A.room - (A.len i + b.size)) ≤ _
    rw [r11]; omega
  · intro j hj
    by_cases e : j = i
    · subst e; exact r6
    · rw [r4 j e, r5, upd_ne _ _ e]; exact Nat.le_trans (c.bound j hj) r2
  · intro j hj
    show h'.ln j = upd A.len i (A.len i + b.size) j
    by_cases e : j = i
    · subst e; rw [hln, upd_same]
    · rw [r5, upd_ne _ _ e, upd_ne _ _ e]; exact c.ln j hj
  · intro j hj
    show upd A.lo i 0 j + upd A.len i (A.len i + b.size) j ≤ (upd A.T (A.grp i) (A.value i ++ b.read h.mem) (A.grp j)).length
    by_cases e : j = i
    · subst e; simp only [upd_same, List.length_append, Buf.read_length]; omega
    · rw [upd_ne _ _ e, upd_ne _ _ e, upd_ne _ _ (hother j hj e)]; exact c.rng j hj
  · intro j k hj hk e
    show h'.s j + upd A.lo i 0 k = h'.s k + upd A.lo i 0 j
    by_cases ej : j = i <;> by_cases ek : k = i
    · subst ej; subst ek; rfl
    · subst ej; exact absurd e.symm (hother k hk ek)
    · subst ek; exact absurd e (hother j hj ej)
    · rw [r4 j ej, r4 k ek, upd_ne _ _ ej, upd_ne _ _ ek]; exact c.off j k hj hk e
  · intro j k hj hk e x h1 h2
    change upd A.lo i 0 j ≤ x at h1
    change x < upd A.lo i 0 k + upd A.len i (A.len i + b.size) k at h2
    show h'.mem (h'.s j + (x - upd A.lo i 0 j)) = (upd A.T (A.grp i) (A.value i ++ b.read h.mem) (A.grp j)).getD x 0
    by_cases ej : j = i <;> by_cases ek : k = i
    · subst ej; subst ek
      rw [upd_same, upd_same] at h2
      rw [upd_same, upd_same, Nat.sub_zero, ← r7]
      rw [List.getD_eq_getElem _ _ (by simp only [StrHeap.text, bytes_length, hln]; omega)]
      simp only [StrHeap.text, bytes_get]
    · subst ej; exact absurd e.symm (hother k hk ek)
    · subst ek; exact absurd e (hother j hj ej)
    · rw [upd_ne _ _ ej] at h1
      rw [upd_ne _ _ ek, upd_ne _ _ ek] at h2
      rw [r4 j ej, upd_ne _ _ ej, upd_ne _ _ (hother j hj ej), r1, c.mem j k hj hk e x h1 h2]
      have := c.off j k hj hk e
      have := c.bound k hk
      rw [c.ln k hk] at this
      omega
  · rw [r9, r10]; exact v.ring
  · rw [r8]; exact v.nodup
  · intro j; rw [r8]; exact v.order j

/-! Editing. -/

theorem editLo_ge {x y n lo len m : Nat} (h1 : m ≤ lo) (h2 : m ≤ x) (h3 : x ≤ y) : m ≤ editLo x y n lo len := by
  unfold editLo; split_ifs <;> omega

theorem edit_le {x y n lo len M : Nat} (h1 : lo + len ≤ M) (h2 : y ≤ M) (h3 : x ≤ y) :
    editLo x y n lo len + editLen x y n lo len ≤ x + n + (M - y) := by
  unfold editLo editLen; split_ifs <;> omega

theorem peer_edit {x y n lo len m M bb rs : Nat} (h1 : m ≤ lo) (h2 : lo + len ≤ M) (h3 : m ≤ x) (h4 : x ≤ y) (h5 : y ≤ M) :
    peer bb (x - m) (bb + (y - m)) (M - y) (y - x) rs (x - m + n + (M - y)) (rs + (x - m)) n (bb + (lo - m)) len =
      (rs + (editLo x y n lo len - m), editLen x y n lo len) := by
  unfold peer editLo editLen
  split_ifs <;> first | (exfalso; omega) | (refine Prod.ext ?_ ?_ <;> dsimp only <;> omega)

theorem edit_text_get {T t : List Nat} {x y k : Nat} (hx : x ≤ T.length) :
    (T.take x ++ t ++ T.drop y).getD k 0 =
      if k < x then T.getD k 0 else if k < x + t.length then t.getD (k - x) 0 else T.getD (y + (k - x - t.length)) 0 := by
  have hl : (T.take x).length = x := by simp; omega
  by_cases h1 : k < x
  · rw [if_pos h1, List.append_assoc, List.getD_append _ _ _ _ (by omega)]
    simp only [List.getD_eq_getElem?_getD, List.getElem?_take, if_pos h1]
  · rw [if_neg h1, List.append_assoc, List.getD_append_right _ _ _ _ (by omega), hl]
    by_cases h2 : k < x + t.length
    · rw [if_pos h2, List.getD_append _ _ _ _ (by omega)]
    · rw [if_neg h2, List.getD_append_right _ _ _ _ (by omega)]
      simp only [List.getD_eq_getElem?_getD, List.getElem?_drop]

/-- What an assignment has to achieve in memory. -/
theorem Core.edit {A : Docs} {h h' : Heap} (c : Core A h) {i sp ep : Nat} {t : List Nat} {rs : Nat} (hi : A.live i)
    (hsp : A.live sp) (hep : A.live ep) (gsp : A.grp sp = A.grp i) (gep : A.grp ep = A.grp i)
    (hmin : ∀ p, A.live p → A.grp p = A.grp i → A.lo sp ≤ A.lo p)
    (hmax : ∀ p, A.live p → A.grp p = A.grp i → A.lo p + A.len p ≤ A.lo ep + A.len ep)
    (hm : ∀ a < h.ee, h'.mem a = h.mem a) (he : h.ee ≤ h'.ee)
    (hs : ∀ p, A.live p → A.grp p ≠ A.grp i → h'.s p = h.s p ∧ h'.ln p = h.ln p)
    (hg : ∀ p, A.live p → A.grp p = A.grp i → h'.s p = rs + ((A.edit i t).lo p - A.lo sp) ∧ h'.ln p = (A.edit i t).len p)
    (hrs : rs + (A.lo i - A.lo sp + t.length + (A.lo ep + A.len ep - (A.lo i + A.len i))) ≤ h'.ee)
    (hmem : ∀ k < A.lo i - A.lo sp + t.length + (A.lo ep + A.len ep - (A.lo i + A.len i)),
      h'.mem (rs + k) = ((A.edit i t).T (A.grp i)).getD (A.lo sp + k) 0) : Core (A.edit i t) h' := by
  have hxi := hmin i hi rfl
  have hyi := hmax i hi rfl
  have gl : ∀ p, A.live p → A.grp p = A.grp i → A.lo sp ≤ (A.edit i t).lo p := by
    intro p hp e
    simp only [Docs.edit]
    split
    · exact hxi
    · exact editLo_ge (hmin p hp e) hxi (by omega)
  have gh : ∀ p, A.live p → A.grp p = A.grp i → (A.edit i t).lo p + (A.edit i t).len p ≤
      A.lo i + t.length + (A.lo ep + A.len ep - (A.lo i + A.len i)) := by
    intro p hp e
    simp only [Docs.edit]
    by_cases hpi : p = i
    · subst hpi; simp only [if_pos]; omega
    · simp only [if_neg hpi, if_pos e]; exact edit_le (hmax p hp e) hyi (by omega)
  have ol : ∀ p, A.grp p ≠ A.grp i → (A.edit i t).lo p = A.lo p := by
    intro p e
    simp only [Docs.edit]
    rw [if_neg (fun q => e (by rw [q])), if_neg e]
  have on : ∀ p, A.grp p ≠ A.grp i → (A.edit i t).len p = A.len p := by
    intro p e
    simp only [Docs.edit]
    rw [if_neg (fun q => e (by rw [q])), if_neg e]
  have oT : ∀ p, A.grp p ≠ A.grp i → (A.edit i t).T (A.grp p) = A.T (A.grp p) := fun p e => upd_ne _ _ e
  have iT : (A.edit i t).T (A.grp i) = (A.T (A.grp i)).take (A.lo i) ++ t ++ (A.T (A.grp i)).drop (A.lo i + A.len i) := upd_same _ _ _
  have re := c.rng ep hep
  rw [gep] at re
  constructor
  · intro p hp
    by_cases e : A.grp p = A.grp i
    · rw [(hg p hp e).1, (hg p hp e).2]
      have := gl p hp e; have := gh p hp e
      omega
    · rw [(hs p hp e).1, (hs p hp e).2]; exact Nat.le_trans (c.bound p hp) he
  · intro p hp
    by_cases e : A.grp p = A.grp i
    · exact (hg p hp e).2
    · rw [(hs p hp e).2, on p e]; exact c.ln p hp
  · intro p hp
    show _ ≤ ((A.edit i t).T (A.grp p)).length
    by_cases e : A.grp p = A.grp i
    · rw [e, iT]
      have := gh p hp e
      simp only [List.length_append, List.length_take, List.length_drop]
      omega
    · rw [ol p e, on p e, oT p e]; exact c.rng p hp
  · intro p q hp hq epq
    change A.grp p = A.grp q at epq
    by_cases e : A.grp p = A.grp i
    · have eq : A.grp q = A.grp i := epq ▸ e
      rw [(hg p hp e).1, (hg q hq eq).1]
      have := gl p hp e; have := gl q hq eq
      omega
    · have eq : A.grp q ≠ A.grp i := epq ▸ e
      rw [(hs p hp e).1, (hs q hq eq).1, ol p e, ol q eq]; exact c.off p q hp hq epq
  · intro p q hp hq epq k h1 h2
    change A.grp p = A.grp q at epq
    show _ = ((A.edit i t).T (A.grp p)).getD k 0
    by_cases e : A.grp p = A.grp i
    · have eq : A.grp q = A.grp i := epq ▸ e
      have g1 := gl p hp e
      have g2 := gh q hq eq
      rw [(hg p hp e).1, e]
      have := hmem (k - A.lo sp) (by omega)
      rw [show A.lo sp + (k - A.lo sp) = k by omega] at this
      rw [← this]
      congr 1
      omega
    · have eq : A.grp q ≠ A.grp i := epq ▸ e
      rw [ol p e] at h1 ⊢
      rw [ol q eq, on q eq] at h2
      rw [(hs p hp e).1, oT p e, hm, c.mem p q hp hq epq k h1 h2]
      have := c.off p q hp hq epq
      have := c.bound q hq
      rw [c.ln q hq] at this
      omega

/-- The strings that share edits with a live string, as the ring gives them. -/
theorem Inv.peers {A : Docs} {h : Heap} (v : Inv A h) {i : Nat} (hi : A.live i) :
    i ∉ peers h i ∧ (peers h i).Nodup ∧ ∀ p, p ∈ peers h i ↔ p ≠ i ∧ A.live p ∧ A.grp p = A.grp i := by
  obtain ⟨Q, q1, q2, q3⟩ := v.ring (A.grp i)
  have hQ : i ∈ Q := (q3 i).2 ⟨hi, rfl⟩
  obtain ⟨l1, l2, rfl⟩ := List.append_of_mem hQ
  have rr := ring_rotate.1 q1
  have nd : (i :: (l2 ++ l1)).Nodup := (List.perm_append_comm.nodup_iff).1 q2
  have mm : ∀ k, k ∈ i :: (l2 ++ l1) ↔ A.live k ∧ A.grp k = A.grp i := fun k => by
    rw [← q3]; simp only [List.mem_append, List.mem_cons]; tauto
  rw [List.cons_append] at rr
  generalize l2 ++ l1 = c at *
  have hlen : (i :: c).length ≤ h.order.length := by
    exact nd.length_le_of_subset fun k hk => (v.order k).2 ((mm k).1 hk).1
  have hc : i ∉ c := (List.nodup_cons.1 nd).1
  have e : StrHeap.peers h i = c := walk_ring rr hc (by simp only [List.length_cons] at hlen; omega)
  rw [e]
  refine ⟨hc, (List.nodup_cons.1 nd).2, fun p => ?_⟩
  have := mm p
  simp only [List.mem_cons] at this
  constructor
  · intro hp; exact ⟨fun e => hc (e ▸ hp), this.1 (Or.inr hp)⟩
  · intro hp; exact (this.2 hp.2).resolve_left hp.1

theorem Inv.assign {A : Docs} {h : Heap} (v : Inv A h) {low : Int → Nat → Bool} {i : Nat} {b : Buf} {src : Option Nat} (hi : A.live i)
    (hb : b.below h.ee) (hsrc : ∀ j, src = some j → A.live j ∧ b = .heap (h.s j) (h.ln j))
    (hr : (A.T (A.grp i)).length + b.size ≤ A.room) :
    Inv { A.edit i (b.read h.mem) with room := A.room - ((A.T (A.grp i)).length + b.size) } (assign low h i b src) := by
  have c := v.core
  have hvr := v.room
  obtain ⟨p1, p2, p3⟩ := v.peers hi
  have loc := locate_spec h (StrHeap.peers h i) i i
  unfold StrHeap.assign
  dsimp only at loc ⊢
  generalize StrHeap.peers h i = ps at *
  generalize locate h ps (i, i) = r at *
  obtain ⟨sp, ep⟩ := r
  dsimp only at loc ⊢
  obtain ⟨l1, l2, l3, l4, l5, l6⟩ := loc
  have memb : ∀ k, k = i ∨ k ∈ ps → A.live k ∧ A.grp k = A.grp i := by
    rintro k (rfl | hk)
    · exact ⟨hi, rfl⟩
    · exact ((p3 k).1 hk).2
  have hsp := memb sp l1
  have hep := memb ep l2
  have smin : ∀ p, A.live p → A.grp p = A.grp i → h.s sp ≤ h.s p := by
    intro p hp e
    by_cases hpi : p = i
    · rw [hpi]; exact l3
    · exact l4 p ((p3 p).2 ⟨hpi, hp, e⟩)
  have smax : ∀ p, A.live p → A.grp p = A.grp i → h.s p + h.ln p ≤ h.s ep + h.ln ep := by
    intro p hp e
    by_cases hpi : p = i
    · rw [hpi]; exact l5
    · exact l6 p ((p3 p).2 ⟨hpi, hp, e⟩)
  have off : ∀ p, A.live p → A.grp p = A.grp i → h.s p + A.lo sp = h.s sp + A.lo p :=
    fun p hp e => c.off p sp hp hsp.1 (e.trans hsp.2.symm)
  have hmin : ∀ p, A.live p → A.grp p = A.grp i → A.lo sp ≤ A.lo p := fun p hp e => by
    have := off p hp e; have := smin p hp e; omega
  have hmax : ∀ p, A.live p → A.grp p = A.grp i → A.lo p + A.len p ≤ A.lo ep + A.len ep := fun p hp e => by
    have := off p hp e; have := off ep hep.1 hep.2; have := smax p hp e
    rw [c.ln p hp, c.ln ep hep.1] at this; omega
  have oi := off i hi rfl
  have oe := off ep hep.1 hep.2
  have mi := hmin i hi rfl
  have xi := hmax i hi rfl
  have lni := c.ln i hi
  have lne := c.ln ep hep.1
  have re := c.rng ep hep.1
  rw [hep.2] at re
  have ord : ∀ p ∈ ps, p ∈ h.order := fun p hp => (v.order p).2 ((p3 p).1 hp).2.1
  have hio : i ∈ h.order := (v.order i).2 hi
  -- the final step, from any heap that still holds the old strings
  have fin : ∀ (hh : Heap) (rs pad : Nat), (∀ a < h.ee, hh.mem a = h.mem a) → h.ee ≤ hh.ee →
      (∀ p, A.live p → hh.s p = h.s p) → (∀ p, A.live p → hh.ln p = h.ln p) → hh.order.Nodup → (∀ p, A.live p → p ∈ hh.order) → pad ∈ hh.order →
      rs + (A.lo i - A.lo sp + b.size + (A.lo ep + A.len ep - (A.lo i + A.len i))) ≤ hh.ee →
      (∀ k < A.lo i - A.lo sp + b.size + (A.lo ep + A.len ep - (A.lo i + A.len i)),
        hh.mem (rs + k) = ((A.edit i (b.read h.mem)).T (A.grp i)).getD (A.lo sp + k) 0) →
      ∃ o s' ln', assignEditSet hh i sp ep rs (A.lo i - A.lo sp + b.size + (A.lo ep + A.len ep - (A.lo i + A.len i))) pad b.size ps =
        { hh with s := s', ln := ln', order := o } ∧ o.Nodup ∧ (∀ x, x ∈ o ↔ x ∈ hh.order) ∧
        Core (A.edit i (b.read h.mem)) { hh with s := s', ln := ln', order := o } := by
    intro hh rs pad f1 f2 f3 f4 f5 f6 f7 f8 f9
    obtain ⟨o, e, o1, o2⟩ := assignEditSet_spec hh i sp ep rs (A.lo i - A.lo sp + b.size + (A.lo ep + A.len ep - (A.lo i + A.len i))) pad b.size ps
      p2 p1 (f6 i hi) f7 (fun p hp => f6 p ((p3 p).1 hp).2.1) f5
    refine ⟨o, _, _, e, o1, o2, ?_⟩
    have q1 : hh.s i - hh.s sp = A.lo i - A.lo sp := by rw [f3 i hi, f3 sp hsp.1]; omega
    have q2 : hh.s i + hh.ln i = hh.s sp + (A.lo i + A.len i - A.lo sp) := by rw [f3 i hi, f3 sp hsp.1, f4 i hi]; omega
    have q3 : hh.s ep + hh.ln ep - (hh.s sp + (A.lo i + A.len i - A.lo sp)) = A.lo ep + A.len ep - (A.lo i + A.len i) := by
      rw [f3 ep hep.1, f3 sp hsp.1, f4 ep hep.1]; omega
    have q4 : hh.ln i = A.lo i + A.len i - A.lo i := by rw [f4 i hi]; omega
    refine c.edit (h' := { hh with s := _, ln := _, order := o }) (rs := rs) hi hsp.1 hep.1 hsp.2 hep.2 hmin hmax f1 f2 ?_ ?_ ?_ ?_
    · intro p hp e
      have n1 : p ∉ ps := fun q => e ((p3 p).1 q).2.2
      have n2 : p ≠ i := fun q => e (by rw [q])
      dsimp only
      rw [if_neg n1, if_neg n1, upd_ne _ _ n2, upd_ne _ _ n2]
      exact ⟨f3 p hp, f4 p hp⟩
    · intro p hp e
      dsimp only
      by_cases hpi : p = i
      · subst hpi
        rw [if_neg p1, if_neg p1, upd_same, upd_same, q1]
        simp only [Docs.edit, if_true, Buf.read_length, and_self]
      · have hps : p ∈ ps := (p3 p).2 ⟨hpi, hp, e⟩
        rw [if_pos hps, if_pos hps, q1, q2, q3, q4]
        have hsps : hh.s p = hh.s sp + (A.lo p - A.lo sp) := by
          have := off p hp e; have := hmin p hp e
          rw [f3 p hp, f3 sp hsp.1]; omega
        rw [hsps, f4 p hp, c.ln p hp, peer_edit (hmin p hp e) (hmax p hp e) mi (by omega) xi]
        simp only [Docs.edit, if_neg hpi, if_pos e, Buf.read_length, and_self]
    · rw [Buf.read_length]; exact f8
    · rw [Buf.read_length]; exact f9
  have iT : (A.edit i (b.read h.mem)).T (A.grp i) =
    (A.T (A.grp i)).take (A.lo i) ++ b.read h.mem ++ (A.T (A.grp i)).drop (A.lo i + A.len i) := upd_same _ _ _
  have wrap : ∀ (h' : Heap), Core (A.edit i (b.read h.mem)) h' → h'.ee ≤ h.ee + ((A.T (A.grp i)).length + b.size) → h'.ext = h.ext →
      (∀ j, A.live j → h'.snext j = h.snext j) → (∀ j, A.live j → h'.sprev j = h.sprev j) → h'.order.Nodup → (∀ j, j ∈ h'.order ↔ A.live j) →
      Inv { A.edit i (b.read h.mem) with room := A.room - ((A.T (A.grp i)).length + b.size) } h' := by
    intro h' w1 w2 w3 w4 w5 w6 w7
    refine ⟨?_, v.zero, ⟨w1.bound, w1.ln, w1.rng, w1.off, w1.mem⟩, v.ring.congr w4 w5, w6, w7⟩
    show h'.ee + (A.room - ((A.T (A.grp i)).length + b.size)) ≤ h'.ext
    rw [w3]; omega
  have hpaste : Inv { A.edit i (b.read h.mem) with room := A.room - ((A.T (A.grp i)).length + b.size) } (assign.paste low i b h sp ep ps) := by
    unfold assign.paste
    have hn1 : h.s i - h.s sp = A.lo i - A.lo sp := by omega
    have hri := c.rng i hi
    have e0 : newBuf low h 0 (.heap (h.s sp) (h.s i - h.s sp)) = { h with
        mem := move h.mem h.ee (h.s sp) (A.lo i - A.lo sp), ee := h.ee + (A.lo i - A.lo sp)
        order := h.order ++ [0], s := upd h.s 0 h.ee, ln := upd h.ln 0 (A.lo i - A.lo sp), snext := upd h.snext 0 0
        sprev := upd h.sprev 0 0 } := by
      rw [newBuf_room (by simp only [Buf.size]; omega), hn1]; rfl
    dsimp only
    rw [e0]
    generalize e1 : ({ h with
        mem := move h.mem h.ee (h.s sp) (A.lo i - A.lo sp), ee := h.ee + (A.lo i - A.lo sp)
        order := h.order ++ [0], s := upd h.s 0 h.ee, ln := upd h.ln 0 (A.lo i - A.lo sp), snext := upd h.snext 0 0
        sprev := upd h.sprev 0 0 } : Heap) = h1
    have m1 : ∀ a < h.ee, h1.mem a = h.mem a := fun a ha => by
      rw [← e1]; simp only [move]; rw [if_neg (by omega)]
    have z1 : h1.s 0 = h.ee := by rw [← e1]; simp only [upd_same]
    have y1 : h1.ln 0 = A.lo i - A.lo sp := by rw [← e1]; simp only [upd_same]
    have k1 : h1.ee = h.ee + (A.lo i - A.lo sp) := by rw [← e1]
    have x1 : h1.ext = h.ext := by rw [← e1]
    have t1 : text h1 0 = bytes h.mem (h.s sp) (A.lo i - A.lo sp) := by
      unfold StrHeap.text
      rw [z1, y1]
      apply bytes_congr
      intro k hk
      rw [← e1]
      simp only [move]; rw [if_pos (by omega)]; congr 1; omega
    have ne0 : ∀ p, A.live p → p ≠ 0 := fun p hp e => v.zero (e ▸ hp)
    have s1 : ∀ p, A.live p → h1.s p = h.s p := fun p hp => by rw [← e1]; exact upd_ne _ _ (ne0 p hp)
    have n1 : ∀ p, A.live p → h1.ln p = h.ln p := fun p hp => by rw [← e1]; exact upd_ne _ _ (ne0 p hp)
    have b1 : b.below h1.ee := by
      cases b with
      | bytes _ => trivial
      | heap a n => simp only [Buf.below] at hb ⊢; omega
    obtain ⟨r1, r2, r3, r4, r5, r6, r7, r8, r9, r10, r11, r12⟩ :=
      append_room (low := low) (h := h1) (i := 0) (b := b) (by omega) (by omega) (fun _ => by omega) b1
    obtain ⟨r12, r13⟩ := r12 (by omega)
    generalize StrHeap.append low h1 0 b = h2 at *
    have s2 : ∀ p, A.live p → h2.s p = h.s p := fun p hp => by rw [r4 p (ne0 p hp)]; exact s1 p hp
    have n2 : ∀ p, A.live p → h2.ln p = h.ln p := fun p hp => by rw [r5, upd_ne _ _ (ne0 p hp)]; exact n1 p hp
    have m2 : ∀ a < h.ee, h2.mem a = h.mem a := fun a ha => by rw [r1 a (by omega), m1 a ha]
    have y2 : h2.ln 0 = A.lo i - A.lo sp + b.size := by rw [r5, upd_same, y1]
    have hn3 : h2.s ep + h2.ln ep - (h2.s i + h2.ln i) = A.lo ep + A.len ep - (A.lo i + A.len i) := by
      rw [s2 ep hep.1, s2 i hi, n2 ep hep.1, n2 i hi]; omega
    have ha3 : h2.s i + h2.ln i = h.s i + h.ln i := by rw [s2 i hi, n2 i hi]
    have hbe := c.bound ep hep.1
    rw [hn3, ha3]
    have b3 : (Buf.heap (h.s i + h.ln i) (A.lo ep + A.len ep - (A.lo i + A.len i))).below h2.ee := by
      simp only [Buf.below]; omega
    obtain ⟨u1, u2, u3, u4, u5, u6, u7, u8, u9, u10, u11, u12⟩ :=
      append_room (low := low) (h := h2) (i := 0) (b := .heap (h.s i + h.ln i) (A.lo ep + A.len ep - (A.lo i + A.len i))) (by omega)
        (by simp only [Buf.size]; omega) (fun _ => by omega) b3
    obtain ⟨u12, u13⟩ := u12 (by omega)
    generalize StrHeap.append low h2 0 _ = h3 at *
    simp only [Buf.size] at u13
    have z3 : h3.s 0 = h.ee := by omega
    have y3 : h3.ln 0 = A.lo i - A.lo sp + b.size + (A.lo ep + A.len ep - (A.lo i + A.len i)) := by
      rw [u5, upd_same, y2]; rfl
    have m3 : ∀ a < h.ee, h3.mem a = h.mem a := fun a ha => by rw [u1 a (by omega), m2 a ha]
    have t3 : text h3 0 = bytes h.mem (h.s sp) (A.lo i - A.lo sp) ++ b.read h.mem ++
        bytes h.mem (h.s i + h.ln i) (A.lo ep + A.len ep - (A.lo i + A.len i)) := by
      rw [u7, r7, t1]
      congr 1
      · congr 1
        exact Buf.read_congr hb m1
      · exact bytes_congr fun k hk => m2 _ (by omega)
    have ord3 : h3.order = h.order ++ [0] := by rw [u8, r8, ← e1]
    have z0 : 0 ∉ h.order := fun e => v.zero ((v.order 0).1 e)
    rw [y3]
    obtain ⟨o, s', ln', e, o1, o2, co⟩ := fin h3 (h3.s 0) 0 m3 (by omega)
      (fun p hp => by rw [u4 p (ne0 p hp)]; exact s2 p hp)
      (fun p hp => by rw [u5, upd_ne _ _ (ne0 p hp)]; exact n2 p hp)
      (by rw [ord3]; exact List.nodup_append.2 ⟨v.nodup, by simp, fun a ha b hb e => z0 (by simp only [List.mem_singleton] at hb; rw [← hb, ← e]; exact ha)⟩)
      (fun p hp => by rw [ord3]; exact List.mem_append_left _ ((v.order p).2 hp))
      (by rw [ord3]; simp) (by omega)
      (by
        intro k hk
        have g : h3.mem (h3.s 0 + k) = (text h3 0).getD k 0 := by
          rw [List.getD_eq_getElem _ _ (by simp only [StrHeap.text, bytes_length]; omega)]
          simp only [StrHeap.text, bytes_get]
        rw [g, t3, iT, edit_text_get (by omega), Buf.read_length]
        by_cases k1 : k < A.lo i - A.lo sp
        · rw [List.append_assoc, List.getD_append _ _ _ _ (by simpa using k1), if_pos (by omega),
            List.getD_eq_getElem _ _ (by simpa using k1), bytes_get]
          have := c.mem sp i hsp.1 hi hsp.2 (A.lo sp + k) (by omega) (by omega)
          rw [hsp.2, show A.lo sp + k - A.lo sp = k by omega] at this
          exact this
        · rw [List.append_assoc, List.getD_append_right _ _ _ _ (by simp; omega), if_neg (by omega), bytes_length]
          by_cases k2 : k < A.lo i - A.lo sp + b.size
          · rw [List.getD_append _ _ _ _ (by simp; omega), if_pos (by omega)]
            congr 1; omega
          · rw [List.getD_append_right _ _ _ _ (by simp; omega), if_neg (by omega), Buf.read_length,
              List.getD_eq_getElem _ _ (by simp; omega), bytes_get]
            have := c.mem sp ep hsp.1 hep.1 (hsp.2.trans hep.2.symm) (A.lo i + A.len i + (A.lo sp + k - A.lo i - b.size)) (by omega) (by omega)
            rw [hsp.2] at this
            rw [← this]
            congr 1; omega)
    rw [e]
    have sp0 : h3.sprev 0 = 0 := by rw [u10, r10, ← e1]; simp only [upd_same]
    have sn0 : h3.snext 0 = 0 := by rw [u9, r9, ← e1]; simp only [upd_same]
    apply wrap
    · exact ⟨co.bound, co.ln, co.rng, co.off, co.mem⟩
    · simp only [StrHeap.destroy]; omega
    · simp only [StrHeap.destroy]; rw [u11, r11, x1]
    · intro j hj
      simp only [StrHeap.destroy]
      rw [sp0, upd_ne _ _ (ne0 j hj), u9, r9, ← e1]
      exact upd_ne _ _ (ne0 j hj)
    · intro j hj
      simp only [StrHeap.destroy]
      rw [sp0, sn0, upd_same, upd_ne _ _ (ne0 j hj), u10, r10, ← e1]
      exact upd_ne _ _ (ne0 j hj)
    · exact o1.filter _
    · intro j
      simp only [StrHeap.destroy, List.mem_filter, o2, ord3, List.mem_append, List.mem_singleton, decide_not, Bool.not_eq_true',
        decide_eq_false_iff_not, v.order]
      constructor
      · rintro ⟨q | q, w⟩
        · exact q
        · exact absurd q w
      · intro q; exact ⟨Or.inl q, ne0 j q⟩
  cases src with
  | none => exact hpaste
  | some j =>
    dsimp only
    split
    · rename_i horig
      obtain ⟨hj, hbj⟩ := hsrc j rfl
      have bsz : b.size = h.ln j := by rw [hbj]; rfl
      have hA : A.lo i = A.lo sp ∧ A.lo ep + A.len ep = A.lo i + A.len i := by omega
      have hlnj : h.ln j = A.lo i - A.lo sp + b.size + (A.lo ep + A.len ep - (A.lo i + A.len i)) := by omega
      have bj := c.bound j hj
      obtain ⟨o, s', ln', e, o1, o2, co⟩ := fin h (h.s j) j (fun _ _ => rfl) (Nat.le_refl _) (fun _ _ => rfl) (fun _ _ => rfl) v.nodup
        (fun p hp => (v.order p).2 hp) ((v.order j).2 hj) (by omega)
        (by
          intro k hk
          rw [iT, edit_text_get (by have := c.rng i hi; omega), Buf.read_length, if_neg (by omega), if_pos (by omega),
            List.getD_eq_getElem _ _ (by rw [Buf.read_length]; omega)]
          simp only [hbj, Buf.read, bytes_get]
          congr 1; omega)
      rw [← hlnj] at e
      rw [e]
      refine wrap _ co ?_ rfl (fun _ _ => rfl) (fun _ _ => rfl) o1 (fun x => (o2 x).trans (v.order x))
      dsimp only; omega
    · exact hpaste

end Verif.StrHeap
