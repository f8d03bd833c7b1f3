import Verif.Proof.StrGc
/-!
C32: garbage collection of the string heap. It is correct for an ordered handle list, and histories of whole-string operations keep the
list ordered; histories with appends, parts of strings or default-constructed strings do not, and lose characters.
-/
namespace Verif.StrHeap
open Verif

/-- C32 (ordered handle lists): when every two strings of the handle list have the same range or the first ends before the second
    starts, a collection with any expansion policy keeps the characters of every string, keeps the list ordered, and makes the
    requested space available. Missing: lists in another order, which the operations do produce (see below). -/
theorem C32_collection_preserves_partial (low : Int → Nat → Bool) (h : Heap) (minreq : Nat) (hnd : h.order.Nodup)
    (hp : h.order.Pairwise fun i j => (h.s i = h.s j ∧ h.ln i = h.ln j) ∨ h.s i + h.ln i ≤ h.s j)
    (hlo : ∀ x ∈ h.order, h.start ≤ h.s x ∧ h.s x + h.ln x ≤ h.ee) (he : h.start ≤ h.ee ∧ h.ee ≤ h.ext) (hc : h.ext = h.start + h.cur) :
    let h' := garbage low h minreq
    (∀ x ∈ h.order, text h' x = text h x) ∧
    (h'.order.Pairwise fun i j => (h'.s i = h'.s j ∧ h'.ln i = h'.ln j) ∨ h'.s i + h'.ln i ≤ h'.s j) ∧
    (∀ x ∈ h.order, h'.start ≤ h'.s x ∧ h'.s x + h'.ln x ≤ h'.ee) ∧ h'.ee + minreq ≤ h'.ext := by
  obtain ⟨mem', s', ee', start', ext', cur', e, h1, h2, h3, -⟩ := garbage_spec low h minreq h.order [] (by simp) (by simp) (by simp) hnd
    ⟨hp, fun x hx => (hlo x hx).1, fun x hx => (hlo x hx).2, he.1, he.2, hc⟩
  intro h'
  have e' : h' = { h with mem := mem', s := s', ee := ee', start := start', ext := ext', cur := cur' } := e
  have a : Area h' h.order := h2
  have o : h'.order = h.order := by rw [e']
  refine ⟨?_, ?_, fun x hx => ⟨a.lo x hx, a.hi x hx⟩, ?_⟩
  · intro x hx; rw [e']; exact h1 x hx
  · rw [o]; exact a.pair
  · rw [e']; exact h3

/-- Operations on whole strings: `v` gives the characters of the strings that exist. -/
inductive WSpec (v : Nat → Option (List Nat)) : Op → (Nat → Option (List Nat)) → List Nat → Prop where
  | newBytes (i : Nat) (bs : List Nat) (hi : v i = none) (h0 : i ≠ 0) : WSpec v (.newBytes i bs) (upd v i (some bs)) []
  | copy (i j : Nat) (t : List Nat) (hi : v i = none) (h0 : i ≠ 0) (hj : v j = some t) :
      WSpec v (.copy i j 0 t.length) (upd v i (some t)) []
  | destroy (i : Nat) (t : List Nat) (hi : v i = some t) : WSpec v (.destroy i) (upd v i none) []
  | assignBytes (i : Nat) (bs t : List Nat) (hi : v i = some t) : WSpec v (.assignBytes i bs) (upd v i (some bs)) []
  | assignStr (i j : Nat) (t u : List Nat) (hi : v i = some t) (hj : v j = some u) : WSpec v (.assignStr i j) (upd v i (some u)) []
  | read (i : Nat) (t : List Nat) (hi : v i = some t) : WSpec v (.read i) v t

inductive WRun : (Nat → Option (List Nat)) → List Op → (Nat → Option (List Nat)) → List (List Nat) → Prop where
  | nil (v) : WRun v [] v []
  | cons (v w x) (o : Op) (os : List Op) (r : List Nat) (rs : List (List Nat)) (h : WSpec v o w r) (hs : WRun w os x rs) :
      WRun v (o :: os) x (r :: rs)

structure WInv (v : Nat → Option (List Nat)) (h : Heap) : Prop where
  nodup : h.order.Nodup
  order : ∀ j, j ∈ h.order ↔ v j ≠ none
  zero : v 0 = none
  area : Area h h.order
  txt : ∀ j t, v j = some t → text h j = t
  next : ∀ j ∈ h.order, h.snext j = j
  prev : ∀ j ∈ h.order, h.sprev j = j

theorem rel_congr {s ln s' ln' : Nat → Nat} {l : List Nat} (h : l.Pairwise (Rel s ln)) (hs : ∀ x ∈ l, s' x = s x)
    (hl : ∀ x ∈ l, ln' x = ln x) : l.Pairwise (Rel s' ln') :=
  h.imp_of_mem fun {x y} hx hy r => by unfold Rel; rw [hs x hx, hs y hy, hl x hx, hl y hy]; exact r

theorem ln_eq {v : Nat → Option (List Nat)} {h : Heap} (w : WInv v h) {j : Nat} {t : List Nat} (hj : v j = some t) : h.ln j = t.length := by
  have := w.txt j t hj
  rw [← this]; simp [text]

/-- Inserting a string with the same range after another. -/
theorem rel_insert {s ln : Nat → Nat} {p q : List Nat} {i j : Nat} (h : (p ++ j :: q).Pairwise (Rel s ln))
    (hs : s i = s j) (hl : ln i = ln j) : (p ++ j :: i :: q).Pairwise (Rel s ln) := by
  rw [List.pairwise_append, List.pairwise_cons] at h ⊢
  obtain ⟨h1, ⟨h2, h3⟩, h4⟩ := h
  refine ⟨h1, ⟨?_, ?_⟩, ?_⟩
  · intro x hx
    rcases List.mem_cons.1 hx with rfl | hx
    · exact Or.inl ⟨hs.symm, hl.symm⟩
    · exact h2 x hx
  · rw [List.pairwise_cons]
    refine ⟨fun x hx => ?_, h3⟩
    have := h2 x hx
    unfold Rel at this ⊢; rw [hs, hl]; exact this
  · intro a ha b hb
    simp only [List.mem_cons] at hb
    rcases hb with rfl | rfl | hb
    · exact h4 a ha b (by simp)
    · have := h4 a ha j (by simp)
      unfold Rel at this ⊢; rw [hs, hl]; exact this
    · exact h4 a ha b (by simp [hb])

theorem addAfter_split {i j : Nat} {p q : List Nat} (h : j ∉ p) : addAfter i j (p ++ j :: q) = p ++ j :: i :: q := by
  induction p with
  | nil => simp [addAfter]
  | cons a p ih =>
    simp only [List.mem_cons, not_or] at h
    simp only [List.cons_append, addAfter]
    rw [if_neg (fun e => h.1 e.symm), ih h.2]

theorem split_first {j : Nat} {l : List Nat} (h : j ∈ l) (hnd : l.Nodup) : ∃ p q, l = p ++ j :: q ∧ j ∉ p ∧ j ∉ q := by
  obtain ⟨p, q, rfl⟩ := List.append_of_mem h
  rw [List.nodup_append] at hnd
  refine ⟨p, q, rfl, fun e => hnd.2.2 j e j (by simp) rfl, ?_⟩
  have := hnd.2.1
  rw [List.nodup_cons] at this
  exact this.1

theorem takeWhile_split {j : Nat} {p q : List Nat} (h : j ∉ p) :
    (p ++ j :: q).takeWhile (· ≠ j) = p ∧ (p ++ j :: q).dropWhile (· ≠ j) = j :: q := by
  induction p with
  | nil => simp
  | cons a p ih =>
    simp only [List.mem_cons, not_or] at h
    have ha : (decide (a ≠ j)) = true := by simpa using fun e => h.1 e.symm
    obtain ⟨e1, e2⟩ := ih h.2
    rw [List.cons_append, List.takeWhile_cons, List.dropWhile_cons, if_pos ha, if_pos ha, e1, e2]
    exact ⟨rfl, rfl⟩

theorem filter_id {i : Nat} {l : List Nat} (h : i ∉ l) : l.filter (· ≠ i) = l := by
  rw [List.filter_eq_self]
  intro a ha
  have : a ≠ i := fun e => h (e ▸ ha)
  simpa using this

/-- Where `MoveThisAfter` puts a string that now starts where string `j` starts. -/
theorem moveAfter_same {s : Nat → Nat} {i j : Nat} {p q : List Nat} (hj : j ∉ p) (hij : i ≠ j) (hq : ∀ x ∈ q, x ≠ i → s i ≤ s x)
    (hnd : (p ++ j :: q).Nodup) :
    moveAfter s i j (p ++ j :: q) = p.filter (· ≠ i) ++ j :: i :: q.filter (· ≠ i) := by
  unfold moveAfter
  obtain ⟨e1, e2⟩ := takeWhile_split (q := q) hj
  rw [e1, e2, if_neg hij, List.tail_cons]
  congr 2
  cases q with
  | nil => simp [putSorted]
  | cons a r =>
    simp only [putSorted]
    by_cases ha : a = i
    · subst ha
      rw [if_pos rfl]
      have : a ∉ r := by
        rw [List.nodup_append] at hnd
        have := hnd.2.1
        simp only [List.nodup_cons] at this
        exact this.2.1
      have hf := filter_id this
      simp only [List.filter_cons, ne_eq, not_true_eq_false, decide_false, Bool.false_eq_true, if_false]
      simp only [ne_eq] at hf
      rw [hf]
    · rw [if_neg ha, if_neg (by have := hq a (by simp) ha; omega)]

theorem wstep_spec {low : Int → Nat → Bool} {v w : Nat → Option (List Nat)} {h : Heap} {o : Op} {r : List Nat} (iv : WInv v h)
    (sp : WSpec v o w r) : WInv w (step low h o).1 ∧ (step low h o).2 = r := by
  have ia := iv.area
  have solo : ∀ i ∈ h.order, peers h i = [] := by
    intro i hi
    unfold peers
    rw [iv.next i hi]
    obtain ⟨n, hn⟩ : ∃ n, h.order.length = n + 1 := ⟨h.order.length - 1, by have := List.length_pos_of_mem hi; omega⟩
    rw [hn]; simp [walk]
  cases sp with
  | newBytes i bs hi h0 =>
    refine ⟨?_, rfl⟩
    have hio : i ∉ h.order := fun e => (iv.order i).1 e hi
    have hne : ∀ x ∈ h.order, x ≠ i := fun x hx e => hio (e ▸ hx)
    simp only [step, newBuf]
    have ha : Area (newEmpty h i) h.order :=
      ⟨rel_congr ia.pair (fun x hx => upd_ne _ _ (hne x hx)) (fun x hx => upd_ne _ _ (hne x hx)),
        fun x hx => by simp only [newEmpty]; rw [upd_ne _ _ (hne x hx)]; exact ia.lo x hx,
        fun x hx => by simp only [newEmpty]; rw [upd_ne _ _ (hne x hx), upd_ne _ _ (hne x hx)]; exact ia.hi x hx, ia.ee, ia.ext, ia.cur⟩
    obtain ⟨mem', s', r, start', ext', cur', e, h1, h2, h3, -⟩ := vbyteAlloc_spec low (newEmpty h i) (Buf.bytes bs).size h.order [i] rfl
      (by simp) (by simp [newEmpty, hio]) iv.nodup ha
    rw [e]
    simp only [newEmpty, Buf.size] at h1 h2 h3 ⊢
    have lnx : ∀ x ∈ h.order, upd h.ln i 0 x = h.ln x := fun x hx => upd_ne _ _ (hne x hx)
    have u0 : ∀ x, upd (upd h.ln i 0) i bs.length x = upd h.ln i bs.length x := fun x => by simp only [upd]; split <;> rfl
    have hlx : ∀ x ∈ h.order, upd (upd h.ln i 0) i bs.length x = upd h.ln i 0 x := fun x hx => upd_ne _ _ (hne x hx)
    refine ⟨?_, ?_, ?_, ⟨?_, ?_, ?_, ?_, ?_, ?_⟩, ?_, ?_, ?_⟩
    · exact List.nodup_append.2 ⟨iv.nodup, by simp, fun a ha b hb e => hio (by simp only [List.mem_singleton] at hb; rw [← hb, ← e]; exact ha)⟩
    · intro j
      simp only [List.mem_append, List.mem_singleton, iv.order, upd]
      by_cases hj : j = i <;> simp [hj]
    · rw [upd_ne _ _ (fun e => h0 e.symm)]; exact iv.zero
    · rw [List.pairwise_append]
      refine ⟨rel_congr h2.pair (fun x hx => upd_ne _ _ (hne x hx)) hlx, by simp, ?_⟩
      intro a hao b hb
      simp only [List.mem_singleton] at hb
      subst hb
      refine Or.inr ?_
      dsimp only
      rw [upd_ne _ _ (hne a hao), hlx a hao, upd_same]
      exact h2.hi a hao
    · intro x hx
      dsimp only
      rcases List.mem_append.1 hx with hx | hx
      · rw [upd_ne _ _ (hne x hx)]; exact h2.lo x hx
      · simp only [List.mem_singleton] at hx; subst hx; rw [upd_same]; exact h2.ee
    · intro x hx
      dsimp only
      rcases List.mem_append.1 hx with hx | hx
      · rw [upd_ne _ _ (hne x hx), hlx x hx]; exact Nat.le_trans (h2.hi x hx) (Nat.le_add_right _ _)
      · simp only [List.mem_singleton] at hx; subst hx; rw [upd_same, upd_same]; exact Nat.le_refl _
    · exact Nat.le_trans h2.ee (Nat.le_add_right _ _)
    · exact h3
    · exact h2.cur
    · intro j t hj
      simp only [text]
      by_cases e : j = i
      · subst e
        rw [upd_same] at hj
        rw [upd_same, upd_same]
        cases hj
        exact Buf.copy_bytes (.bytes bs) _ _
      · rw [upd_ne _ _ e] at hj
        have hjo : j ∈ h.order := (iv.order j).2 (by rw [hj]; simp)
        rw [upd_ne _ _ e, upd_ne _ _ e, ← iv.txt j t hj]
        have t1 := h1 j hjo
        simp only [text, lnx j hjo, upd_ne _ _ e] at t1
        rw [upd_ne _ _ e]
        simp only [text]
        rw [← t1]
        apply bytes_congr
        intro k hk
        have := h2.hi j hjo
        dsimp only at this
        rw [lnx j hjo] at this
        exact Buf.copy_out _ _ _ _ (Or.inl (by omega))
    · intro j hj
      dsimp only at hj ⊢
      rcases List.mem_append.1 hj with hj | hj
      · rw [upd_ne _ _ (hne j hj)]; exact iv.next j hj
      · simp only [List.mem_singleton] at hj; subst hj; rw [upd_same]
    · intro j hj
      dsimp only at hj ⊢
      rcases List.mem_append.1 hj with hj | hj
      · rw [upd_ne _ _ (hne j hj)]; exact iv.prev j hj
      · simp only [List.mem_singleton] at hj; subst hj; rw [upd_same]
  | copy i j t hi h0 hj =>
    refine ⟨?_, rfl⟩
    have hio : i ∉ h.order := fun e => (iv.order i).1 e hi
    have hne : ∀ x ∈ h.order, x ≠ i := fun x hx e => hio (e ▸ hx)
    have hjo : j ∈ h.order := (iv.order j).2 (by rw [hj]; simp)
    have hlj := ln_eq iv hj
    obtain ⟨p, q, e, e1, e2⟩ := split_first hjo iv.nodup
    have eo : addAfter i j h.order = p ++ j :: i :: q := by rw [e, addAfter_split e1]
    have sx : ∀ x ∈ h.order, upd h.s i (h.s j) x = h.s x := fun x hx => upd_ne _ _ (hne x hx)
    have lx : ∀ x ∈ h.order, upd h.ln i t.length x = h.ln x := fun x hx => upd_ne _ _ (hne x hx)
    have mm : ∀ x, x ∈ addAfter i j h.order ↔ x = i ∨ x ∈ h.order := fun x => mem_addAfter hjo
    simp only [step, copy, Nat.add_zero]
    refine ⟨nodup_addAfter hjo hio iv.nodup, ?_, ?_, ⟨?_, ?_, ?_, ia.ee, ia.ext, ia.cur⟩, ?_, ?_, ?_⟩
    · intro k
      dsimp only
      rw [mm, iv.order]
      simp only [upd]
      by_cases hk : k = i <;> simp [hk]
    · rw [upd_ne _ _ (fun e => h0 e.symm)]; exact iv.zero
    · dsimp only
      rw [eo]
      have := rel_congr ia.pair sx lx
      rw [e] at this
      exact rel_insert this (by rw [upd_same, upd_ne _ _ (hne j hjo)]) (by rw [upd_same, upd_ne _ _ (hne j hjo), hlj])
    · intro x hx
      dsimp only at hx ⊢
      rcases (mm x).1 hx with rfl | hx
      · rw [upd_same]; exact ia.lo j hjo
      · rw [sx x hx]; exact ia.lo x hx
    · intro x hx
      dsimp only at hx ⊢
      rcases (mm x).1 hx with rfl | hx
      · rw [upd_same, upd_same, ← hlj]; exact ia.hi j hjo
      · rw [sx x hx, lx x hx]; exact ia.hi x hx
    · intro k u hk
      simp only [text]
      by_cases e : k = i
      · subst e
        rw [upd_same] at hk; cases hk
        rw [upd_same, upd_same, ← hlj]
        exact iv.txt j t hj
      · rw [upd_ne _ _ e] at hk
        rw [upd_ne _ _ e, upd_ne _ _ e]; exact iv.txt k u hk
    · intro k hk
      dsimp only at hk ⊢
      rcases (mm k).1 hk with rfl | hk
      · rw [upd_same]
      · rw [upd_ne _ _ (hne k hk)]; exact iv.next k hk
    · intro k hk
      dsimp only at hk ⊢
      rcases (mm k).1 hk with rfl | hk
      · rw [upd_same]
      · rw [upd_ne _ _ (hne k hk)]; exact iv.prev k hk
  | destroy i t hi =>
    refine ⟨?_, rfl⟩
    have hio : i ∈ h.order := (iv.order i).2 (by rw [hi]; simp)
    have f : ∀ x, x ∈ h.order.filter (· ≠ i) ↔ x ∈ h.order ∧ x ≠ i := fun x => by simp
    have e1 : upd h.snext i i = h.snext := by funext x; simp only [upd]; split; rw [‹x = i›, iv.next i hio]; rfl
    have e2 : upd h.sprev i i = h.sprev := by funext x; simp only [upd]; split; rw [‹x = i›, iv.prev i hio]; rfl
    simp only [step, destroy, iv.prev i hio, iv.next i hio, e1, e2]
    refine ⟨iv.nodup.filter _, ?_, ?_, ⟨ia.pair.sublist List.filter_sublist, ?_, ?_, ia.ee, ia.ext, ia.cur⟩, ?_, ?_, ?_⟩
    · intro j
      dsimp only
      rw [f, iv.order]
      simp only [upd]
      by_cases hj : j = i <;> simp [hj]
    · simp only [upd]; split
      · rfl
      · exact iv.zero
    · exact fun x hx => ia.lo x ((f x).1 hx).1
    · exact fun x hx => ia.hi x ((f x).1 hx).1
    · intro j u hj
      simp only [upd] at hj
      split at hj
      · simp at hj
      · exact iv.txt j u hj
    · exact fun x hx => iv.next x ((f x).1 hx).1
    · exact fun x hx => iv.prev x ((f x).1 hx).1
  | assignBytes i bs t hi =>
    refine ⟨?_, rfl⟩
    have hio : i ∈ h.order := (iv.order i).2 (by rw [hi]; simp)
    have h0o : 0 ∉ h.order := fun e => (iv.order 0).1 e iv.zero
    have hi0 : i ≠ 0 := fun e => h0o (e ▸ hio)
    have hne : ∀ x ∈ h.order, x ≠ 0 := fun x hx e => h0o (e ▸ hx)
    have iext := ia.ext
    simp only [step, assign, solo i hio, locate]
    unfold assign.paste
    have e0 : newBuf low h 0 (.heap (h.s i) (h.s i - h.s i)) = { h with
        order := h.order ++ [0], s := upd h.s 0 h.ee, ln := upd h.ln 0 0, snext := upd h.snext 0 0, sprev := upd h.sprev 0 0 } := by
      rw [newBuf_room (by simp only [Buf.size]; omega)]
      simp only [Nat.sub_self, Buf.size, Buf.copy, Nat.add_zero]
      congr 1
      funext a; simp only [move]; rw [if_neg (by omega)]
    dsimp only
    rw [e0]
    generalize e1 : ({ h with
        order := h.order ++ [0], s := upd h.s 0 h.ee, ln := upd h.ln 0 0, snext := upd h.snext 0 0, sprev := upd h.sprev 0 0 } : Heap) = h1
    have s1 : ∀ x ∈ h.order, h1.s x = h.s x := fun x hx => by rw [← e1]; exact upd_ne _ _ (hne x hx)
    have l1 : ∀ x ∈ h.order, h1.ln x = h.ln x := fun x hx => by rw [← e1]; exact upd_ne _ _ (hne x hx)
    have s10 : h1.s 0 = h.ee := by rw [← e1]; simp only [upd_same]
    have l10 : h1.ln 0 = 0 := by rw [← e1]; simp only [upd_same]
    have o1 : h1.order = h.order ++ [0] := by rw [← e1]
    have ee1 : h1.ee = h.ee := by rw [← e1]
    have st1 : h1.start = h.start := by rw [← e1]
    have ex1 : h1.ext = h.ext := by rw [← e1]
    have m1 : h1.mem = h.mem := by rw [← e1]
    have sn1 : ∀ x ∈ h1.order, h1.snext x = x := by
      intro x hx; rw [o1] at hx; rw [← e1]
      rcases List.mem_append.1 hx with hx | hx
      · simp only [upd_ne _ _ (hne x hx)]; exact iv.next x hx
      · simp only [List.mem_singleton] at hx; subst hx; simp only [upd_same]
    have sp1 : ∀ x ∈ h1.order, h1.sprev x = x := by
      intro x hx; rw [o1] at hx; rw [← e1]
      rcases List.mem_append.1 hx with hx | hx
      · simp only [upd_ne _ _ (hne x hx)]; exact iv.prev x hx
      · simp only [List.mem_singleton] at hx; subst hx; simp only [upd_same]
    have nd1 : h1.order.Nodup := by
      rw [o1]
      exact List.nodup_append.2 ⟨iv.nodup, by simp, fun a ha b hb e => h0o (by simp only [List.mem_singleton] at hb; rw [← hb, ← e]; exact ha)⟩
    have a1 : Area h1 h1.order := by
      refine ⟨?_, ?_, ?_, ?_, ?_, ?_⟩
      · rw [o1, List.pairwise_append]
        refine ⟨rel_congr ia.pair s1 l1, by simp, ?_⟩
        intro a ha b hb
        simp only [List.mem_singleton] at hb
        subst hb
        refine Or.inr ?_
        rw [s1 a ha, l1 a ha, s10]; exact ia.hi a ha
      · intro x hx; rw [o1] at hx; rw [st1]
        rcases List.mem_append.1 hx with hx | hx
        · rw [s1 x hx]; exact ia.lo x hx
        · simp only [List.mem_singleton] at hx; subst hx; rw [s10]; exact ia.ee
      · intro x hx; rw [o1] at hx; rw [ee1]
        rcases List.mem_append.1 hx with hx | hx
        · rw [s1 x hx, l1 x hx]; exact ia.hi x hx
        · simp only [List.mem_singleton] at hx; subst hx; rw [s10, l10]; exact Nat.le_refl _
      · rw [st1, ee1]; exact ia.ee
      · rw [ee1, ex1]; exact ia.ext
      · rw [ex1, st1, ← e1]; exact ia.cur
    obtain ⟨mem', s', r, start', ext', cur', e, h1', h2', h3', h4'⟩ := vbyteAlloc_spec low h1 bs.length h1.order [] (by simp) (by simp) (by simp) nd1 a1
    have s'0 : s' 0 = r := by
      have := h4' h.order 0 o1 (by rw [s10, l10, ee1]; rfl)
      rw [l10] at this; exact this
    have e2 : append low h1 0 (.bytes bs) = { h1 with
        mem := put mem' r bs, s := s', ee := r + bs.length, start := start', ext := ext', cur := cur', ln := upd h1.ln 0 bs.length } := by
      unfold append
      rw [if_neg (by simp [Buf.isAt]), if_pos (by rw [s10, l10, ee1]; rfl)]
      simp only [Buf.size, e, Buf.copy, l10, s'0, Nat.add_zero, Nat.zero_add]
    rw [e2]
    generalize e3 : ({ h1 with
        mem := put mem' r bs, s := s', ee := r + bs.length, start := start', ext := ext', cur := cur', ln := upd h1.ln 0 bs.length } : Heap) = h2
    have s2 : h2.s = s' := by rw [← e3]
    have l2 : h2.ln = upd h1.ln 0 bs.length := by rw [← e3]
    have ee2 : h2.ee = r + bs.length := by rw [← e3]
    have ex2 : h2.ext = ext' := by rw [← e3]
    have o2 : h2.order = h.order ++ [0] := by rw [← e3]; exact o1
    rw [Nat.sub_self]
    have ar := append_room (low := low) (h := h2) (i := 0) (b := .heap (h2.s i + h2.ln i) 0) (by rw [s2, l2, ee2, upd_same, s'0]; exact Nat.le_refl _)
      (by rw [ee2, ex2]; exact h3') (fun q => absurd (by rw [s2, l2, ee2, upd_same, s'0]) q)
      (by
        simp only [Buf.below, Nat.add_zero]
        have := h2'.hi i (by rw [o1]; simp [hio])
        rw [s2, l2, ee2, upd_ne _ _ hi0]
        dsimp only at this; omega)
    have cu3 : (append low h2 0 (.heap (h2.s i + h2.ln i) 0)).cur = h2.cur ∧ (append low h2 0 (.heap (h2.s i + h2.ln i) 0)).start = h2.start := by
      unfold append
      split
      · exact ⟨rfl, rfl⟩
      · dsimp only
        rw [if_pos (by rw [s2, l2, ee2, upd_same, s'0]), vbyteAlloc_room (by rw [ee2, ex2]; exact h3')]
        exact ⟨rfl, rfl⟩
    obtain ⟨r1, r2, r3, r4, r5, r6, r7, r8, r9, r10, r11, r12⟩ := ar
    obtain ⟨r12, r13⟩ := r12 (by rw [s2, l2, ee2, upd_same, s'0])
    generalize append low h2 0 _ = h3 at *
    simp only [Buf.size, Nat.add_zero] at r5 r13
    have l3 : h3.ln = h2.ln := by
      rw [r5]; funext x; simp only [upd]; split
      · rw [‹x = 0›]
      · rfl
    have s3 : h3.s = h2.s := by
      funext x
      by_cases hx : x = 0
      · rw [hx]; exact r12
      · exact r4 x hx
    have hmv : moveAfter (upd h3.s i (h3.s 0 + (h3.s i - h3.s i))) i 0 h3.order = h.order.filter (· ≠ i) ++ [0, i] := by
      rw [r8, o2, moveAfter_same h0o hi0 (by simp) (by rw [← o1]; exact nd1)]
      simp
    have hfil : (h.order.filter (· ≠ i) ++ [0, i]).filter (· ≠ 0) = h.order.filter (· ≠ i) ++ [i] := by
      rw [List.filter_append, filter_id (fun e => h0o (List.mem_filter.1 e).1)]
      simp [hi0]
    simp only [assignEditSet, peerLoop, destroy, Buf.size]
    rw [hmv, hfil, Nat.sub_self, Nat.add_zero]
    have sn3 : ∀ x ∈ h1.order, h3.snext x = x := fun x hx => by rw [r9, ← e3]; exact sn1 x hx
    have sp3 : ∀ x ∈ h1.order, h3.sprev x = x := fun x hx => by rw [r10, ← e3]; exact sp1 x hx
    have z1 : (0 : Nat) ∈ h1.order := by rw [o1]; simp
    have eu : upd h3.snext (h3.sprev 0) (h3.snext 0) = h3.snext := by
      rw [sp3 0 z1, sn3 0 z1]; funext x; simp only [upd]; split
      · rw [‹x = 0›, sn3 0 z1]
      · rfl
    have ev : upd h3.sprev (upd h3.snext (h3.sprev 0) (h3.snext 0) 0) (h3.sprev 0) = h3.sprev := by
      rw [eu, sp3 0 z1, sn3 0 z1]; funext x; simp only [upd]; split
      · rw [‹x = 0›, sp3 0 z1]
      · rfl
    rw [ev, eu]
    have f : ∀ x, x ∈ h.order.filter (· ≠ i) ↔ x ∈ h.order ∧ x ≠ i := fun x => by simp
    have mem1 : ∀ x ∈ h.order, x ∈ h1.order := fun x hx => by rw [o1]; simp [hx]
    have sF : ∀ x ∈ h.order.filter (· ≠ i), upd h3.s i (h3.s 0) x = s' x := fun x hx => by
      rw [upd_ne _ _ ((f x).1 hx).2, s3, s2]
    have lF : ∀ x ∈ h.order.filter (· ≠ i), upd h3.ln i bs.length x = h1.ln x := fun x hx => by
      rw [upd_ne _ _ ((f x).1 hx).2, l3, l2, upd_ne _ _ (hne x ((f x).1 hx).1)]
    have zr : h3.s 0 = r := by rw [s3, s2, s'0]
    have ee3 : h3.ee = r + bs.length := by rw [r13, ee2]
    have st3 : h3.start = start' := by rw [cu3.2, ← e3]
    refine ⟨?_, ?_, ?_, ⟨?_, ?_, ?_, ?_, ?_, ?_⟩, ?_, ?_, ?_⟩
    · exact List.nodup_append.2 ⟨iv.nodup.filter _, by simp, fun a ha b hb e => ((f a).1 ha).2 (by simp only [List.mem_singleton] at hb; rw [e, hb])⟩
    · intro j
      dsimp only
      rw [List.mem_append, f, iv.order, List.mem_singleton]
      simp only [upd]
      by_cases hj : j = i <;> simp [hj]
    · rw [upd_ne _ _ (fun e => hi0 e.symm)]; exact iv.zero
    · dsimp only
      rw [List.pairwise_append]
      refine ⟨?_, by simp, ?_⟩
      · have hsub : (h.order.filter (· ≠ i)).Sublist h1.order := by
          rw [o1]; exact List.filter_sublist.trans (List.sublist_append_left _ _)
        exact rel_congr (h2'.pair.sublist hsub) sF lF
      · intro a ha b hb
        simp only [List.mem_singleton] at hb
        subst hb
        refine Or.inr ?_
        rw [sF a ha, lF a ha, upd_same, zr]
        exact h2'.hi a (mem1 a ((f a).1 ha).1)
    · intro x hx
      dsimp only at hx ⊢
      rw [st3]
      rcases List.mem_append.1 hx with hx | hx
      · rw [sF x hx]; exact h2'.lo x (mem1 x ((f x).1 hx).1)
      · simp only [List.mem_singleton] at hx; subst hx; rw [upd_same, zr]; exact h2'.ee
    · intro x hx
      dsimp only at hx ⊢
      rw [ee3]
      rcases List.mem_append.1 hx with hx | hx
      · rw [sF x hx, lF x hx]; exact Nat.le_trans (h2'.hi x (mem1 x ((f x).1 hx).1)) (Nat.le_add_right _ _)
      · simp only [List.mem_singleton] at hx; subst hx; rw [upd_same, upd_same, zr]; exact Nat.le_refl _
    · dsimp only; rw [st3, ee3]; exact Nat.le_trans h2'.ee (Nat.le_add_right _ _)
    · dsimp only; rw [ee3, r11, ex2]; exact h3'
    · dsimp only; rw [r11, ex2, st3, cu3.1, ← e3]; exact h2'.cur
    · intro j u hj
      simp only [text]
      have m3 : ∀ a < r + bs.length, h3.mem a = put mem' r bs a := fun a ha => by rw [r1 a (by rw [ee2]; exact ha), ← e3]
      by_cases e : j = i
      · subst e
        rw [upd_same] at hj; cases hj
        rw [upd_same, upd_same, zr]
        refine Eq.trans ?_ (Buf.copy_bytes (.bytes bs) mem' r)
        exact bytes_congr fun k hk => m3 _ (by omega)
      · rw [upd_ne _ _ e] at hj
        have hjo : j ∈ h.order := (iv.order j).2 (by rw [hj]; simp)
        have hjf := (f j).2 ⟨hjo, e⟩
        rw [sF j hjf, lF j hjf, ← iv.txt j u hj]
        have t1 := h1' j (mem1 j hjo)
        simp only [text, m1, s1 j hjo] at t1
        simp only [text]
        rw [← l1 j hjo, ← t1]
        apply bytes_congr
        intro k hk
        have := h2'.hi j (mem1 j hjo)
        dsimp only at this
        rw [m3 _ (by omega)]
        exact Buf.copy_out (.bytes bs) _ _ _ (Or.inl (by omega))
    · intro j hj
      dsimp only at hj ⊢
      apply sn3
      rcases List.mem_append.1 hj with hj | hj
      · exact mem1 j ((f j).1 hj).1
      · simp only [List.mem_singleton] at hj; subst hj; exact mem1 j hio
    · intro j hj
      dsimp only at hj ⊢
      apply sp3
      rcases List.mem_append.1 hj with hj | hj
      · exact mem1 j ((f j).1 hj).1
      · simp only [List.mem_singleton] at hj; subst hj; exact mem1 j hio
  | assignStr i j t u hi hj =>
    refine ⟨?_, rfl⟩
    have hio : i ∈ h.order := (iv.order i).2 (by rw [hi]; simp)
    have hjo : j ∈ h.order := (iv.order j).2 (by rw [hj]; simp)
    have hlj := ln_eq iv hj
    have hi0 : i ≠ 0 := fun e => (iv.order 0).1 (e ▸ hio) iv.zero
    obtain ⟨p, q, e, e1, e2⟩ := split_first hjo iv.nodup
    have hpair := ia.pair
    have hnd := iv.nodup
    simp only [step, assign, solo i hio, locate]
    rw [if_pos (by omega)]
    simp only [assignEditSet, peerLoop, Nat.sub_self, Nat.add_zero, Buf.size]
    have hq : ∀ x ∈ q, h.s j ≤ h.s x := by
      intro x hx
      rw [e, List.pairwise_append, List.pairwise_cons] at hpair
      rcases hpair.2.1.1 x hx with h | h <;> omega
    have hord : ∃ o, moveAfter (upd h.s i (h.s j)) i j h.order = o ∧ o.Nodup ∧ (∀ x, x ∈ o ↔ x ∈ h.order) ∧
        o.Pairwise (Rel (upd h.s i (h.s j)) (upd h.ln i (h.ln j))) := by
      refine ⟨_, rfl, nodup_moveAfter hjo hnd, fun x => mem_moveAfter hjo hio, ?_⟩
      by_cases hij : i = j
      · subst hij
        have es : upd h.s i (h.s i) = h.s := by funext x; simp only [upd]; split; rw [‹x = i›]; rfl
        have el : upd h.ln i (h.ln i) = h.ln := by funext x; simp only [upd]; split; rw [‹x = i›]; rfl
        rw [es, el]
        have : moveAfter h.s i i h.order = h.order := by
          unfold moveAfter
          obtain ⟨k1, k2⟩ := takeWhile_split (q := q) e1
          rw [e, k1, k2, if_pos rfl, List.tail_cons, filter_id e1]
          congr 1
          cases q with
          | nil => rfl
          | cons a r =>
            simp only [putSorted]
            have : a ≠ i := fun k => e2 (by simp [k])
            rw [if_neg this, if_neg (by have := hq a (by simp); omega), filter_id e2]
        rw [this]; exact hpair
      · have hji : j ≠ i := fun k => hij k.symm
        rw [e, moveAfter_same e1 hij (fun x hx hxi => by rw [upd_same, upd_ne _ _ hxi]; exact hq x hx) (by rw [← e]; exact hnd)]
        apply rel_insert
        · have hf : (p.filter (· ≠ i) ++ j :: q.filter (· ≠ i)).Sublist h.order := by
            rw [e]
            exact List.filter_sublist.append (List.filter_sublist.cons_cons _)
          have nf : ∀ x ∈ p.filter (· ≠ i) ++ j :: q.filter (· ≠ i), x ≠ i := by
            intro x hx
            simp only [List.mem_append, List.mem_cons, List.mem_filter, decide_not, Bool.not_eq_true', decide_eq_false_iff_not] at hx
            rcases hx with hx | hx | hx
            · exact hx.2
            · rw [hx]; exact hji
            · exact hx.2
          exact rel_congr (hpair.sublist hf) (fun x hx => upd_ne _ _ (nf x hx)) (fun x hx => upd_ne _ _ (nf x hx))
        · rw [upd_same, upd_ne _ _ hji]
        · rw [upd_same, upd_ne _ _ hji]
    obtain ⟨o, eo, o1, o2, o3⟩ := hord
    rw [eo]
    refine ⟨o1, ?_, ?_, ⟨o3, ?_, ?_, ia.ee, ia.ext, ia.cur⟩, ?_, ?_, ?_⟩
    · intro k
      dsimp only
      rw [o2, iv.order]
      simp only [upd]
      by_cases hk : k = i
      · simp [hk, hi]
      · simp [hk]
    · rw [upd_ne _ _ (fun e => hi0 e.symm)]; exact iv.zero
    · intro x hx
      dsimp only at hx ⊢
      simp only [upd]
      split
      · exact ia.lo j hjo
      · exact ia.lo x ((o2 x).1 hx)
    · intro x hx
      dsimp only at hx ⊢
      simp only [upd]
      split
      · exact ia.hi j hjo
      · exact ia.hi x ((o2 x).1 hx)
    · intro k w hk
      simp only [text]
      by_cases e : k = i
      · subst e
        rw [upd_same] at hk; cases hk
        rw [upd_same, upd_same]
        exact iv.txt j u hj
      · rw [upd_ne _ _ e] at hk
        rw [upd_ne _ _ e, upd_ne _ _ e]; exact iv.txt k w hk
    · exact fun k hk => iv.next k ((o2 k).1 hk)
    · exact fun k hk => iv.prev k ((o2 k).1 hk)
  | read i t hi => exact ⟨iv, iv.txt i r hi⟩

theorem wrun_spec {low : Int → Nat → Bool} {v w : Nat → Option (List Nat)} {os : List Op} {rs : List (List Nat)} (s : WRun v os w rs) :
    ∀ {h : Heap}, WInv v h → WInv w (run low h os).1 ∧ (run low h os).2 = rs := by
  induction s with
  | nil v => exact fun i => ⟨i, rfl⟩
  | cons v w x o os r rs h1 _ ih =>
    intro h iv
    obtain ⟨v', e⟩ := wstep_spec (low := low) iv h1
    obtain ⟨v'', e'⟩ := ih v'
    exact ⟨v'', by simp only [run]; rw [e, e']⟩

theorem winv_make (addr size gap : Nat) : WInv (fun _ => none) (make addr size gap) where
  nodup := by simp [make]
  order := fun j => by simp [make]
  zero := rfl
  area := ⟨by simp [make], by simp [make], by simp [make], by simp [make], by simp [make], by simp [make]⟩
  txt := fun j t h => by simp at h
  next := by simp [make]
  prev := by simp [make]

/-- C32 and C30 (whole strings, any number of collections): strings that are constructed from characters, copied whole, assigned and
    destroyed keep their characters through every history, whatever the sizes, the expansion policy and the number of collections.
    Missing: appending, copies of parts, and default-constructed strings. -/
theorem C32_whole_strings_survive_partial (low : Int → Nat → Bool) (addr size gap : Nat) (os : List Op) (v : Nat → Option (List Nat))
    (rs : List (List Nat)) (s : WRun (fun _ => none) os v rs) :
    (run low (make addr size gap) os).2 = rs ∧ ∀ j t, v j = some t → text (run low (make addr size gap) os).1 j = t :=
  ⟨(wrun_spec s (winv_make addr size gap)).2, (wrun_spec s (winv_make addr size gap)).1.txt⟩

/-- A history with several collections in an area of 4 bytes. -/
example : ∃ v, WRun (fun _ => none)
    [.newBytes 1 [97, 98, 99], .newBytes 2 [100, 101], .copy 3 1 0 3, .assignStr 2 3, .assignBytes 1 [120, 121, 122, 123, 124], .destroy 3,
      .newBytes 4 [1, 2, 3, 4, 5, 6, 7], .read 1, .read 2, .read 4] v
    [[], [], [], [], [], [], [], [120, 121, 122, 123, 124], [97, 98, 99], [1, 2, 3, 4, 5, 6, 7]] :=
  ⟨_, .cons _ _ _ _ _ _ _ (.newBytes 1 _ rfl (by decide)) <| .cons _ _ _ _ _ _ _ (.newBytes 2 _ rfl (by decide)) <|
    .cons _ _ _ _ _ _ _ (.copy 3 1 [97, 98, 99] rfl (by decide) rfl) <| .cons _ _ _ _ _ _ _ (.assignStr 2 3 _ _ rfl rfl) <|
    .cons _ _ _ _ _ _ _ (.assignBytes 1 _ _ rfl) <| .cons _ _ _ _ _ _ _ (.destroy 3 _ rfl) <|
    .cons _ _ _ _ _ _ _ (.newBytes 4 _ rfl (by decide)) <| .cons _ _ _ _ _ _ _ (.read 1 _ rfl) <|
    .cons _ _ _ _ _ _ _ (.read 2 _ rfl) <| .cons _ _ _ _ _ _ _ (.read 4 _ rfl) <| .nil _⟩

/-! Histories that lose characters. The policy is the default one (10% free space), the area has the default 1000 bytes, and string 9
is garbage that provokes the collections. -/

/-- string_res.cfa:1172, 1196: the default policy. -/
def tenPercent : Int → Nat → Bool := fun free cur => decide (10 * free < cur)

def junk (n : Nat) : List Nat := List.replicate n 42

/-- C32 fails after an append that has to move a string: `a = "abc"; b = "de"; a += "f"`, then one collection, and `b` is no longer
    `"de"`. The handle of `a` keeps its place in the list although its characters now follow those of `b`. -/
theorem C32_append_violated :
    let h := (run tenPercent (make 4096 1000 0) [.newBytes 1 [97, 98, 99], .newBytes 2 [100, 101], .appendBytes 1 [102],
      .newBytes 9 (junk 600), .destroy 9, .newBytes 9 (junk 600)]).1
    text h 1 = [97, 98, 99, 102] ∧ text h 2 ≠ [100, 101] := by decide +kernel

/-- C32 fails for `a = "abc"; b = a; b += "def"` (this is how `a + "def"` is computed): after one collection `b` is not `"abcdef"`.
    Both handles start at the same address and the shorter one comes first. -/
theorem C32_concatenation_violated :
    let h := (run tenPercent (make 4096 1000 0) [.newBytes 1 [97, 98, 99], .copy 2 1 0 3, .appendBytes 2 [100, 101, 102],
      .newBytes 9 (junk 600), .destroy 9, .newBytes 9 (junk 600)]).1
    text h 1 = [97, 98, 99] ∧ text h 2 ≠ [97, 98, 99, 100, 101, 102] := by decide +kernel

/-- C32 fails for two parts of a string that is then destroyed: `a = "abcd"; b = a(0, 2); c = a(2, 2)`, `a` is destroyed, one
    collection, and `b` is not `"ab"`. -/
theorem C32_parts_violated :
    let h := (run tenPercent (make 4096 1000 0) [.newBytes 1 [97, 98, 99, 100], .copy 2 1 0 2, .copy 3 1 2 2, .destroy 1,
      .newBytes 9 (junk 600), .destroy 9, .newBytes 9 (junk 600)]).1
    text h 2 ≠ [97, 98] := by decide +kernel

/-- C32 fails when a default-constructed string lives between two others through two collections: `c = "ef"`, created after the empty
    string, loses its characters. The first collection gives the empty string a wrapped-around address, the second takes it for a
    string that contains all later ones. -/
theorem C32_empty_string_violated :
    let h := (run tenPercent (make 4096 1000 0) [.newBytes 9 (junk 500), .newBytes 1 [97, 98, 99, 100], .destroy 9, .newEmpty 2,
      .newBytes 3 [101, 102], .newBytes 9 (junk 600), .destroy 9, .newBytes 9 (junk 600)]).1
    text h 3 ≠ [101, 102] := by decide +kernel

/-- C30 fails when assigning a string to a part of another provokes a collection: `a(1, 1) = b` (a share-edit part of `a`) reads the
    characters of `b` at the address they had before the collection. -/
theorem C30_assignment_stale_violated :
    let h := (run tenPercent (make 4096 1000 0) [.newBytes 9 (junk 300), .newBytes 1 (List.replicate 100 97), .newBytes 2 (List.replicate 300 98),
      .destroy 9, .share 3 1 1 1, .assignStr 3 2]).1
    text h 3 = 97 :: List.replicate 299 98 := by decide +kernel

end Verif.StrHeap
