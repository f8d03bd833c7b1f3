import Verif.Proof.StrHeap
/-! Compaction of an ordered handle list. -/
namespace Verif.StrHeap
open Verif

/-- Two strings in the order of the handle list: the same range, or the first ends before the second starts. -/
def Rel (s ln : Nat → Nat) (i j : Nat) : Prop := (s i = s j ∧ ln i = ln j) ∨ s i + ln i ≤ s j

theorem inner_spec (ln : Nat → Nat) (s0 L ee : Nat) (tl : List Nat) (htl : tl.length ≤ 1) (r : List Nat) (s : Nat → Nat)
    (hr : ∀ x ∈ r, (s x = s0 ∧ ln x = L) ∨ s0 + L ≤ s x) (hp : r.Pairwise (Rel s ln)) (hnd : r.Nodup) (hd : ∀ x ∈ tl, x ∉ r) :
    ∃ r1 r2 tl' s', inner s0 ee (s0 + L) (r ++ tl) s = (r2 ++ tl', s') ∧ r = r1 ++ r2 ∧ (∀ x ∈ r1, s x = s0 ∧ ln x = L) ∧
      (∀ x ∈ r2, s0 + L ≤ s x) ∧ (∀ x ∈ r1, s' x = ee) ∧ (∀ x, x ∉ r1 → x ∉ tl → s' x = s x) ∧ (tl' = tl ∨ tl' = []) := by
  induction r generalizing s with
  | nil =>
    match tl, htl with
    | [], _ => exact ⟨[], [], [], s, rfl, rfl, by simp, by simp, by simp, by simp, Or.inl rfl⟩
    | [g], _ =>
      simp only [List.nil_append, inner]
      split
      · exact ⟨[], [], [g], s, rfl, rfl, by simp, by simp, by simp, by simp, Or.inl rfl⟩
      · refine ⟨[], [], [], _, rfl, rfl, by simp, by simp, by simp, ?_, Or.inr rfl⟩
        intro x _ hx
        exact upd_ne _ _ (by simpa using hx)
  | cons a r ih =>
    rw [List.pairwise_cons] at hp
    rw [List.nodup_cons] at hnd
    simp only [List.cons_append, inner]
    by_cases ha : s a ≥ s0 + L
    · rw [if_pos ha]
      refine ⟨[], a :: r, tl, s, rfl, rfl, by simp, ?_, by simp, by simp, Or.inl rfl⟩
      intro x hx
      rcases List.mem_cons.1 hx with rfl | hx
      · exact ha
      · rcases hp.1 x hx with h | h <;> omega
    · rw [if_neg ha]
      have hsa := (hr a (by simp)).resolve_right ha
      have hmv : moved (s a) s0 ee = ee := by unfold moved; rw [if_pos (by omega)]; omega
      rw [hmv]
      have hne : ∀ x ∈ r, x ≠ a := fun x hx e => hnd.1 (e ▸ hx)
      have hsx : ∀ x ∈ r, upd s a ee x = s x := fun x hx => upd_ne _ _ (hne x hx)
      obtain ⟨r1, r2, tl', s', e, e1, h1, h2, h3, h4, h5⟩ := ih (upd s a ee)
        (fun x hx => by rw [hsx x hx]; exact hr x (by simp [hx]))
        (hp.2.imp_of_mem fun {x y} hx hy h => by unfold Rel; rw [hsx x hx, hsx y hy]; exact h) hnd.2
        (fun x hx e => hd x hx (by simp [e]))
      have m1 : ∀ x ∈ r1, x ∈ r := fun x hx => by rw [e1]; simp [hx]
      have m2 : ∀ x ∈ r2, x ∈ r := fun x hx => by rw [e1]; simp [hx]
      refine ⟨a :: r1, r2, tl', s', e, by rw [e1]; rfl, ?_, ?_, ?_, ?_, h5⟩
      · intro x hx
        rcases List.mem_cons.1 hx with rfl | hx
        · exact hsa
        · have := h1 x hx; rwa [hsx x (m1 x hx)] at this
      · intro x hx
        have := h2 x hx; rwa [hsx x (m2 x hx)] at this
      · intro x hx
        rcases List.mem_cons.1 hx with rfl | hx
        · rw [h4 x (fun e => hnd.1 (m1 x e)) (fun e => hd x e (by simp)), upd_same]
        · exact h3 x hx
      · intro x hx hx'
        simp only [List.mem_cons, not_or] at hx
        rw [h4 x hx.2 hx', upd_ne _ _ hx.1]

theorem move_bytes (mem : Nat → Nat) (d a n : Nat) : bytes (move mem d a n) d n = bytes mem a n := by
  apply bytes_congr
  intro k hk
  simp only [move]; rw [if_pos (by omega)]; congr 1; omega

/-- Compaction of an ordered list, possibly followed by one handle without characters. -/
theorem compactLoop_spec (ln : Nat → Nat) (k : Nat) : ∀ (l tl : List Nat) (mem s : Nat → Nat) (ee : Nat),
    (l ++ tl).length ≤ k → tl.length ≤ 1 → (∀ g ∈ tl, ln g = 0 ∧ g ∉ l) → l.Nodup → l.Pairwise (Rel s ln) →
    ((∀ x ∈ l, s x + ln x ≤ ee) ∨ ∀ x ∈ l, ee ≤ s x) →
    ∃ mem' s' ee', compactLoop ln k (l ++ tl) mem s ee = (mem', s', ee') ∧
      (∀ x ∈ l, bytes mem' (s' x) (ln x) = bytes mem (s x) (ln x) ∧ ee ≤ s' x ∧ s' x + ln x ≤ ee') ∧
      l.Pairwise (Rel s' ln) ∧ (∀ a < ee, mem' a = mem a) ∧ (∀ y, y ∉ l → y ∉ tl → s' y = s y) ∧ ee ≤ ee' ∧
      ee' ≤ ee + (l.map ln).sum ∧
      (∀ lo hi, lo ≤ hi → (∀ x ∈ l, lo ≤ s x ∧ s x + ln x ≤ hi) → ee' + lo ≤ ee + hi) ∧
      (∀ l0 z, l = l0 ++ [z] → s' z + ln z = ee') := by
  induction k with
  | zero =>
    intro l tl mem s ee hk _ _ _ _ _
    simp only [List.length_append] at hk
    have e1 := List.eq_nil_of_length_eq_zero (show l.length = 0 by omega)
    subst e1
    refine ⟨mem, s, ee, rfl, by simp, by simp, fun _ _ => rfl, fun _ _ _ => rfl, Nat.le_refl _, by simp, fun lo hi h _ => by omega, ?_⟩
    intro l0 z e; simp at e
  | succ k ih =>
    intro l tl mem s ee hk htl hg hnd hp hsafe
    cases l with
    | nil =>
      match tl, htl with
      | [], _ =>
        refine ⟨mem, s, ee, rfl, by simp, by simp, fun _ _ => rfl, fun _ _ _ => rfl, Nat.le_refl _, by simp, fun lo hi h _ => by omega, ?_⟩
        intro l0 z e; simp at e
      | [g], _ =>
        have g0 := (hg g (by simp)).1
        have e0 : move mem ee (s g) 0 = mem := by funext a; simp only [move]; rw [if_neg (by omega)]
        refine ⟨mem, upd s g ee, ee, ?_, by simp, by simp, fun _ _ => rfl, ?_, Nat.le_refl _, by simp, fun lo hi h _ => by omega, ?_⟩
        · simp only [List.nil_append, compactLoop, inner, g0, e0, Nat.add_zero]
          cases k <;> rfl
        · intro y _ hy; exact upd_ne _ _ (by simpa using hy)
        · intro l0 z e; simp at e
    | cons i r =>
      rw [List.pairwise_cons] at hp
      rw [List.nodup_cons] at hnd
      have hne : ∀ x ∈ r, x ≠ i := fun x hx e => hnd.1 (e ▸ hx)
      have hsx : ∀ x ∈ r, upd s i ee x = s x := fun x hx => upd_ne _ _ (hne x hx)
      obtain ⟨r1, r2, tl', s2, e, e1, h1, h2, h3, h4, h5⟩ := inner_spec ln (s i) (ln i) ee tl htl r (upd s i ee)
        (fun x hx => by
          rw [hsx x hx]
          rcases hp.1 x hx with h | h
          · exact Or.inl ⟨h.1.symm, h.2.symm⟩
          · exact Or.inr h)
        (hp.2.imp_of_mem fun {x y} hx hy h => by unfold Rel; rw [hsx x hx, hsx y hy]; exact h) hnd.2
        (fun x hx e => (hg x hx).2 (by simp [e]))
      have m1 : ∀ x ∈ r1, x ∈ r := fun x hx => by rw [e1]; simp [hx]
      have m2 : ∀ x ∈ r2, x ∈ r := fun x hx => by rw [e1]; simp [hx]
      have htl' : tl'.length ≤ 1 := by rcases h5 with h | h <;> simp [h, htl]
      have hsub : ∀ g ∈ tl', g ∈ tl := by
        intro g hg'
        rcases h5 with h | h
        · rw [← h]; exact hg'
        · rw [h] at hg'; simp at hg'
      have hd1 : ∀ x ∈ r1, x ∉ r2 := by
        intro x hx hx'
        have := hnd.2; rw [e1, List.nodup_append] at this
        exact this.2.2 x hx x hx' rfl
      have nt : ∀ x ∈ r, x ∉ tl := fun x hx hx' => (hg x hx').2 (by simp [hx])
      have s2r : ∀ x ∈ r2, s2 x = s x := fun x hx => by
        rw [h4 x (fun e => hd1 x e hx) (nt x (m2 x hx)), hsx x (m2 x hx)]
      have s2i : s2 i = ee := by
        rw [h4 i (fun e => hnd.1 (m1 i e)) (fun e => (hg i e).2 (by simp)), upd_same]
      have h2' : ∀ x ∈ r2, s i + ln i ≤ s x := fun x hx => by have := h2 x hx; rwa [hsx x (m2 x hx)] at this
      have h1' : ∀ x ∈ r1, s x = s i ∧ ln x = ln i := fun x hx => by have := h1 x hx; rwa [hsx x (m1 x hx)] at this
      have hlen : (r2 ++ tl').length ≤ k := by
        simp only [List.length_append, List.length_cons] at hk ⊢
        have : r.length = r1.length + r2.length := by rw [e1]; simp
        have : tl'.length ≤ tl.length := by rcases h5 with h | h <;> simp [h]
        omega
      have hp2 : r2.Pairwise (Rel s ln) := by have := hp.2; rw [e1, List.pairwise_append] at this; exact this.2.1
      have hnd2 : r2.Nodup := by have := hnd.2; rw [e1, List.nodup_append] at this; exact this.2.1
      obtain ⟨mem', s', ee', f, f1, f2, f3, f4, f5, f6, f7, f8⟩ := ih r2 tl' (move mem ee (s i) (ln i)) s2 (ee + ln i) hlen htl'
        (fun g hg' => ⟨(hg g (hsub g hg')).1, fun e => (hg g (hsub g hg')).2 (by simp [m2 g e])⟩) hnd2
        (hp2.imp_of_mem fun {x y} hx hy h => by unfold Rel; rw [s2r x hx, s2r y hy]; exact h)
        (by
          rcases hsafe with h | h
          · exact Or.inl fun x hx => by rw [s2r x hx]; have := h x (by simp [m2 x hx]); omega
          · exact Or.inr fun x hx => by rw [s2r x hx]; have := h i (by simp); have := h2' x hx; omega)
      have s'i : s' i = ee := by
        rw [f4 i (fun e => hnd.1 (m2 i e)) (fun e => (hg i (hsub i e)).2 (by simp)), s2i]
      have s'1 : ∀ x ∈ r1, s' x = ee := fun x hx => by
        rw [f4 x (hd1 x hx) (fun e => nt x (m1 x hx) (hsub x e)), h3 x hx]
      have ti : bytes mem' ee (ln i) = bytes mem (s i) (ln i) := by
        rw [← move_bytes mem ee (s i) (ln i)]
        exact bytes_congr fun k hk => f3 _ (by omega)
      have sum1 : ((i :: r).map ln).sum = ln i + (r1.map ln).sum + (r2.map ln).sum := by
        rw [e1]; simp [List.sum_append]; omega
      refine ⟨mem', s', ee', ?_, ?_, ?_, ?_, ?_, by omega, ?_, ?_, ?_⟩
      · simp only [List.cons_append, compactLoop, e]
        exact f
      · intro x hx
        rcases List.mem_cons.1 hx with rfl | hx
        · rw [s'i]; exact ⟨ti, Nat.le_refl _, f5⟩
        · rw [e1, List.mem_append] at hx
          rcases hx with hx | hx
          · rw [s'1 x hx, (h1' x hx).1, (h1' x hx).2]; exact ⟨ti, Nat.le_refl _, f5⟩
          · obtain ⟨a1, a2, a3⟩ := f1 x hx
            refine ⟨?_, by omega, a3⟩
            rw [a1, s2r x hx]
            apply bytes_congr
            intro q hq
            simp only [move]; rw [if_neg]
            rcases hsafe with h | h
            · have := h x (by simp [m2 x hx]); omega
            · have := h i (by simp); have := h2' x hx; omega
      · have pr : (r1 ++ r2).Pairwise (Rel s' ln) := by
          rw [List.pairwise_append]
          refine ⟨?_, f2, ?_⟩
          · rw [List.pairwise_iff_forall_sublist]
            intro a b hab
            have ha : a ∈ r1 := hab.subset (by simp)
            have hb : b ∈ r1 := hab.subset (by simp)
            exact Or.inl ⟨by rw [s'1 a ha, s'1 b hb], by rw [(h1' a ha).2, (h1' b hb).2]⟩
          · intro a ha b hb
            exact Or.inr (by rw [s'1 a ha, (h1' a ha).2]; exact (f1 b hb).2.1)
        rw [List.pairwise_cons, e1]
        refine ⟨?_, pr⟩
        intro x hx
        rcases List.mem_append.1 hx with hx | hx
        · exact Or.inl ⟨by rw [s'i, s'1 x hx], (h1' x hx).2.symm⟩
        · exact Or.inr (by rw [s'i]; exact (f1 x hx).2.1)
      · intro a ha
        rw [f3 a (by omega)]
        simp only [move]; rw [if_neg (by omega)]
      · intro y hy hy'
        simp only [List.mem_cons, not_or] at hy
        rw [f4 y (fun e => hy.2 (m2 y e)) (fun e => hy' (hsub y e)), h4 y (fun e => hy.2 (m1 y e)) hy', upd_ne _ _ hy.1]
      · rw [sum1]; omega
      · intro lo hi hle hb
        have b1 := hb i (by simp)
        have := f7 (s i + ln i) hi b1.2 (fun x hx => by
          rw [s2r x hx]; exact ⟨h2' x hx, (hb x (by simp [m2 x hx])).2⟩)
        omega
      · intro l0 z hz
        by_cases hr2 : r2 = []
        · subst hr2
          have hee : ee' = ee + ln i := by
            have := f7 0 0 (Nat.le_refl _) (by simp); omega
          have hz' : z ∈ i :: r := by rw [hz]; simp
          rcases List.mem_cons.1 hz' with rfl | hz'
          · rw [s'i, hee]
          · rw [e1, List.append_nil] at hz'
            rw [s'1 z hz', (h1' z hz').2, hee]
        · have e3 : r2 = r2.dropLast ++ [r2.getLast hr2] := (List.dropLast_concat_getLast hr2).symm
          have : z = r2.getLast hr2 := by
            have e4 : l0 ++ [z] = (i :: r1 ++ r2.dropLast) ++ [r2.getLast hr2] := by
              rw [List.append_assoc, ← e3, ← hz, e1]; rfl
            have := (List.append_inj' e4 rfl).2
            simpa using this
          rw [this]
          exact f8 _ _ e3

/-- The bounds of the area. -/
structure Area (h : Heap) (l : List Nat) : Prop where
  pair : l.Pairwise (Rel h.s h.ln)
  lo : ∀ x ∈ l, h.start ≤ h.s x
  hi : ∀ x ∈ l, h.s x + h.ln x ≤ h.ee
  ee : h.start ≤ h.ee
  ext : h.ee ≤ h.ext
  cur : h.ext = h.start + h.cur

theorem compaction_spec (h : Heap) (l tl : List Nat) (ho : h.order = l ++ tl) (htl : tl.length ≤ 1)
    (hg : ∀ g ∈ tl, h.ln g = 0 ∧ g ∉ l) (hnd : l.Nodup) (hp : l.Pairwise (Rel h.s h.ln))
    (hsafe : (∀ x ∈ l, h.s x + h.ln x ≤ h.start) ∨ ∀ x ∈ l, h.start ≤ h.s x) :
    ∃ mem' s' ee', compaction h = { h with mem := mem', s := s', ee := ee' } ∧
      (∀ x ∈ l, bytes mem' (s' x) (h.ln x) = text h x ∧ h.start ≤ s' x ∧ s' x + h.ln x ≤ ee') ∧ l.Pairwise (Rel s' h.ln) ∧
      h.start ≤ ee' ∧ ee' ≤ h.start + (l.map h.ln).sum ∧
      (∀ lo hi, lo ≤ hi → (∀ x ∈ l, lo ≤ h.s x ∧ h.s x + h.ln x ≤ hi) → ee' + lo ≤ h.start + hi) ∧
      (∀ l0 z, l = l0 ++ [z] → s' z + h.ln z = ee') := by
  obtain ⟨mem', s', ee', e, h1, h2, h3, h4, h5, h6, h7, h8⟩ := compactLoop_spec h.ln h.order.length l tl h.mem h.s h.start
    (by rw [ho]; exact Nat.le_refl _) htl hg hnd hp hsafe
  refine ⟨mem', s', ee', ?_, h1, h2, h5, h6, h7, h8⟩
  unfold compaction
  rw [← ho] at e
  rw [e]

theorem garbage_spec (low : Int → Nat → Bool) (h : Heap) (minreq : Nat) (l tl : List Nat) (ho : h.order = l ++ tl) (htl : tl.length ≤ 1)
    (hg : ∀ g ∈ tl, h.ln g = 0 ∧ g ∉ l) (hnd : l.Nodup) (ha : Area h l) :
    ∃ mem' s' ee' start' ext' cur', garbage low h minreq = { h with
        mem := mem', s := s', ee := ee', start := start', ext := ext', cur := cur' } ∧
      (∀ x ∈ l, bytes mem' (s' x) (h.ln x) = text h x) ∧ Area (garbage low h minreq) l ∧ ee' + minreq ≤ ext' ∧
      (∀ l0 z, l = l0 ++ [z] → s' z + h.ln z = ee') := by
  have hused : (h.order.map h.ln).sum = (l.map h.ln).sum := by
    rw [ho, List.map_append, List.sum_append]
    have : (tl.map h.ln).sum = 0 := by
      match tl, htl, hg with
      | [], _, _ => rfl
      | [g], _, hg => simp [(hg g (by simp)).1]
    omega
  unfold garbage
  dsimp only
  rw [hused]
  split
  · unfold extend
    dsimp only
    generalize hc : h.cur + (if max h.cur minreq > h.init then max h.cur minreq else h.init) = cur'
    have hc' : h.cur + minreq ≤ cur' := by rw [← hc]; split <;> omega
    have hcurr := ha.cur
    obtain ⟨mem', s', ee', e, h1, h2, h3, h4, h5, h6⟩ := compaction_spec
      { h with cur := cur', start := h.ext + h.gap, ee := h.ext + h.gap, ext := h.ext + h.gap + cur' } l tl ho htl hg hnd ha.pair
      (Or.inl fun x hx => by have := ha.hi x hx; have := ha.ext; dsimp only; omega)
    dsimp only at h1 h2 h3 h4 h5 h6
    have h7 := h5 h.start h.ee ha.ee (fun x hx => ⟨ha.lo x hx, ha.hi x hx⟩)
    have := ha.ee; have := ha.ext
    rw [e]
    refine ⟨mem', s', ee', _, _, _, rfl, fun x hx => (h1 x hx).1, ⟨h2, fun x hx => (h1 x hx).2.1, fun x hx => (h1 x hx).2.2, h3, ?_, rfl⟩, ?_, h6⟩
    · dsimp only; omega
    · dsimp only; omega
  · rename_i hfree
    simp only [not_or, Int.not_lt] at hfree
    obtain ⟨mem', s', ee', e, h1, h2, h3, h4, h5, h6⟩ := compaction_spec h l tl ho htl hg hnd ha.pair (Or.inr ha.lo)
    have h7 := h5 h.start h.ee ha.ee (fun x hx => ⟨ha.lo x hx, ha.hi x hx⟩)
    have := ha.ee; have := ha.ext; have := hfree.2
    rw [e]
    refine ⟨mem', s', ee', _, _, _, rfl, fun x hx => (h1 x hx).1, ⟨h2, fun x hx => (h1 x hx).2.1, fun x hx => (h1 x hx).2.2, h3, ?_, ha.cur⟩, ?_, h6⟩
    · dsimp only; omega
    · omega

theorem vbyteAlloc_spec (low : Int → Nat → Bool) (h : Heap) (size : Nat) (l tl : List Nat) (ho : h.order = l ++ tl) (htl : tl.length ≤ 1)
    (hg : ∀ g ∈ tl, h.ln g = 0 ∧ g ∉ l) (hnd : l.Nodup) (ha : Area h l) :
    ∃ mem' s' r start' ext' cur', vbyteAlloc low h size = ({ h with
        mem := mem', s := s', ee := r + size, start := start', ext := ext', cur := cur' }, r) ∧
      (∀ x ∈ l, bytes mem' (s' x) (h.ln x) = text h x) ∧
      Area { h with mem := mem', s := s', ee := r, start := start', ext := ext', cur := cur' } l ∧ r + size ≤ ext' ∧
      (∀ l0 z, l = l0 ++ [z] → h.s z + h.ln z = h.ee → s' z + h.ln z = r) := by
  unfold vbyteAlloc
  by_cases hr : h.ee + size > h.ext
  · rw [if_pos hr]
    obtain ⟨mem', s', ee', start', ext', cur', e, h1, h2, h3, h4⟩ := garbage_spec low h size l tl ho htl hg hnd ha
    rw [e] at h2 ⊢
    exact ⟨mem', s', ee', start', ext', cur', rfl, h1, h2, h3, fun l0 z q _ => h4 l0 z q⟩
  · rw [if_neg hr]
    exact ⟨h.mem, h.s, h.ee, h.start, h.ext, h.cur, rfl, fun _ _ => rfl, ha, by omega, fun _ _ _ q => q⟩

end Verif.StrHeap
