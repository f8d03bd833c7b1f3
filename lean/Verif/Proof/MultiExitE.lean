import Verif.Proof.MultiExitD
/-! Each step of a program is followed by its translation. -/

namespace Verif.MultiExit

/-- The body of a loop with labels at its end. -/
abbrev wrapN (N : List Label) (body : Stmt) : Stmt := .block [] (.cons body (nulls N .nil))

/-- The rest of the program and the rest of its translation, where the label, if any, comes first. -/
inductive RelK : List Ent → Option Label → Kont → Kont → Prop
  | stop : RelK [] none .stop .stop
  | seq {Γ P ss ss' k k'} : SimL Γ P ss ss' → RelK Γ none k k' → RelK Γ P (.seq ss k) (.seq ss' k')
  | blk {Γ k k'} : RelK Γ none k k' → RelK Γ none (.blk [] k) (.blk [] k')
  | blkL {Γ ls l k k'} : RelK Γ (some l) k k' → RelK (⟨.block, ls, some l, none⟩ :: Γ) none (.blk ls k) (.blk ls k')
  | ifK {Γ k k'} : RelK Γ none k k' → RelK Γ none (.ifK [] k) (.ifK [] k')
  | ifL {Γ ls l k k'} : RelK Γ (some l) k k' → RelK (⟨.ite, ls, some l, none⟩ :: Γ) none (.ifK ls k) (.ifK ls k')
  | loopB {Γ ls l1 post c inc body body' els els' k k'} : body.isBlock → Sim (⟨.loop, ls, l1, none⟩ :: Γ) body body' none → SimO Γ els els' → RelK Γ l1 k k' →
      RelK (⟨.loop, ls, l1, none⟩ :: Γ) none (.loopB ls post c inc body els k) (.loopB ls post c inc body' els' k')
  | loopW {Γ ls l1 l2 N post c inc body body' els els' k k'} : body.isBlock → Sim (⟨.loop, ls, l1, some l2⟩ :: Γ) body body' none → l2 ∈ N → Gens N →
      SimO Γ els els' → RelK Γ l1 k k' →
      RelK (⟨.loop, ls, l1, some l2⟩ :: Γ) none (.loopB ls post c inc body els k) (.seq (nulls N .nil) (.blk [] (.loopB ls post c inc (wrapN N body') els' k')))
  | loopE {Γ P k k'} : RelK Γ P k k' → RelK Γ none (.loopE k) (.loopE k')
  | caseB {E Γ N lf cs cs' K K'} : (∀ l, lf = some l → l ∈ N) → SimC E Γ cs cs' → RelK (E :: Γ) none K K' →
      RelK (⟨.case, [], lf, none⟩ :: E :: Γ) none (.blk [] (.seq .nil (.caseK cs K))) (.blk [] (.seq (nulls N .nil) (.caseK cs' K')))
  | swK {Γ ls l1 l2 cs cs' k k'} : (l1 ≠ none → cs ≠ .nil) → (l2 ≠ none → hasDefault cs) → SimC ⟨.switch, ls, l1, l2⟩ Γ cs cs' → RelK Γ none k k' →
      RelK (⟨.switch, ls, l1, l2⟩ :: Γ) none (.swK ls cs k) (.swK ls cs' k')

/-- Corresponding points. -/
inductive Mt : Conf → Conf → Prop
  | run {Γ P s s' k k'} : Sim Γ s s' P → RelK Γ P k k' → Mt (.run s k) (.run s' k')
  | list {Γ P ss ss' k k'} : SimL Γ P ss ss' → RelK Γ none k k' → Mt (.list ss k) (.list ss' k')
  | next {Γ P k k'} : RelK Γ P k k' → Mt (.next k) (.next k')
  | nextW {Γ ls l1 l2 N0 N post c inc body body' els els' k k'} : body.isBlock → Sim (⟨.loop, ls, l1, some l2⟩ :: Γ) body body' none → l2 ∈ N → Gens N →
      SimO Γ els els' → RelK Γ l1 k k' →
      Mt (.next (.loopB ls post c inc body els k)) (.next (.seq (nulls N0 .nil) (.blk [] (.loopB ls post c inc (wrapN N body') els' k'))))
  | test {Γ P ls post c inc body body' els els' k k'} : Sim Γ (.loop ls post c inc body els) (.loop ls post c inc body' els') P → RelK Γ P k k' →
      Mt (.test ls post c inc body els k) (.test ls post c inc body' els' k')
  | cases {E Γ ds ds' K K'} : SimC E Γ ds ds' → RelK (E :: Γ) none K K' → Mt (.cases ds K) (.cases ds' K')
  | case0 {E Γ N cs cs' K K'} : SimC E Γ cs cs' → RelK (E :: Γ) none K K' → Mt (.list .nil (.caseK cs K)) (.list (nulls N .nil) (.caseK cs' K'))
  | case1 {E Γ N1 N2 lf kids kids' cs cs' K K'} : (∀ l, lf = some l → l ∈ N2) → SimL (⟨.case, [], lf, none⟩ :: E :: Γ) none kids kids' → SimC E Γ cs cs' →
      RelK (E :: Γ) none K K' →
      Mt (.list (.cons (.block [] kids) .nil) (.caseK cs K)) (.list (nulls N1 (.cons (.block [] kids') (nulls N2 .nil))) (.caseK cs' K'))
  | caseRun {E Γ N2 lf kids kids' cs cs' K K'} : (∀ l, lf = some l → l ∈ N2) → SimL (⟨.case, [], lf, none⟩ :: E :: Γ) none kids kids' → SimC E Γ cs cs' →
      RelK (E :: Γ) none K K' →
      Mt (.run (.block [] kids) (.seq .nil (.caseK cs K))) (.run (.block [] kids') (.seq (nulls N2 .nil) (.caseK cs' K')))
  | caseNext {E Γ N cs cs' K K'} : SimC E Γ cs cs' → RelK (E :: Γ) none K K' → Mt (.next (.seq .nil (.caseK cs K))) (.next (.seq (nulls N .nil) (.caseK cs' K')))
  | nextCase {E Γ cs cs' K K'} : SimC E Γ cs cs' → RelK (E :: Γ) none K K' → Mt (.next (.caseK cs K)) (.next (.caseK cs' K'))
  | dflt0 {E Γ N v cs cs' K K'} : SimC E Γ cs cs' → RelK (E :: Γ) none K K' → Mt (.cases (.cons v .nil cs) K) (.next (.seq (nulls N .nil) (.caseK cs' K')))
  | dflt1 {E Γ N1 N2 lf v kids kids' cs cs' K K'} : (∀ l, lf = some l → l ∈ N2) → SimL (⟨.case, [], lf, none⟩ :: E :: Γ) none kids kids' → SimC E Γ cs cs' →
      RelK (E :: Γ) none K K' →
      Mt (.cases (.cons v (.cons (.block [] kids) .nil) cs) K) (.next (.seq (nulls N1 (.cons (.block [] kids') (nulls N2 .nil))) (.caseK cs' K')))
  | halt {r} : Mt (.halt r) (.halt r)

section
variable {σ : Type} (I : Interp σ) (F : Label → Option (Stmt × Kont))

/-- Steps that leave the store alone. -/
inductive Sil : Conf × σ → Conf × σ → Prop
  | refl {x} : Sil x x
  | cons {x y z} : step I F x = some y → y.2 = x.2 → Sil y z → Sil x z

/-- One or more steps, of which one may change the store. -/
inductive Go : Conf × σ → Conf × σ → Prop
  | one {x y} : step I F x = some y → Go x y
  | pre {x y z} : step I F x = some y → y.2 = x.2 → Go y z → Go x z
  | post {x y z} : Go x y → step I F y = some z → z.2 = y.2 → Go x z
end

section
variable {σ : Type} {I : Interp σ} {F : Label → Option (Stmt × Kont)}

theorem Sil.trans {x y z : Conf × σ} (h1 : Sil I F x y) (h2 : Sil I F y z) : Sil I F x z := by
  induction h1 with
  | refl => exact h2
  | cons h e _ ih => exact .cons h e (ih h2)
theorem Go.after {x y z : Conf × σ} (h1 : Sil I F x y) (h2 : Go I F y z) : Go I F x z := by
  induction h1 with
  | refl => exact h2
  | cons h e _ ih => exact .pre h e (ih h2)
theorem Go.then {x y z : Conf × σ} (h1 : Go I F x y) (h2 : Sil I F y z) : Go I F x z := by
  induction h2 with
  | refl => exact h1
  | cons h e _ ih => exact ih (.post h1 h e)

theorem sil_nulls {k : Kont} {m : σ} {ss : Stmts} : ∀ (N : List Label), Sil I F (.list (nulls N ss) k, m) (.list ss k, m)
  | [] => .refl
  | _ :: N => .cons (y := (.run (.null _) (.seq (nulls N ss) k), m)) rfl rfl (.cons (y := (.next (.seq (nulls N ss) k), m)) rfl rfl
      (.cons (y := (.list (nulls N ss) k, m)) rfl rfl (sil_nulls N)))
theorem sil_seq {k : Kont} {m : σ} {N : List Label} : Sil I F (.next (.seq (nulls N .nil) k), m) (.next k, m) :=
  .cons (y := (.list (nulls N .nil) k, m)) rfl rfl ((sil_nulls N).trans (.cons rfl rfl .refl))
end

/-! Inversion -/

theorem SimL.nil_inv {Γ : List Ent} {P : Option Label} : ∀ {ss' : Stmts}, SimL Γ P .nil ss' → ∃ N, ss' = nulls N .nil
  | _, .nil => ⟨[], rfl⟩
  | _, .skip (l := l) _ h => by obtain ⟨N, rfl⟩ := h.nil_inv; exact ⟨l :: N, rfl⟩
  | _, .emit (l := l) _ h => by obtain ⟨N, rfl⟩ := h.nil_inv; exact ⟨l :: N, rfl⟩

theorem SimL.cons_inv {Γ : List Ent} {P : Option Label} {s : Stmt} {ss : Stmts} : ∀ {ss' : Stmts}, SimL Γ P (.cons s ss) ss' →
    ∃ N s' P' ss'', ss' = nulls N (.cons s' ss'') ∧ Gens N ∧ Sim Γ s s' P' ∧ SimL Γ P' ss ss''
  | _, .cons h1 h2 => ⟨[], _, _, _, rfl, .nil, h1, h2⟩
  | _, .skip (l := l) g h => by obtain ⟨N, s', P', ss'', rfl, hg, h1, h2⟩ := h.cons_inv; exact ⟨l :: N, s', P', ss'', rfl, .cons g hg, h1, h2⟩
  | _, .emit (l := l) g h => by obtain ⟨N, s', P', ss'', rfl, hg, h1, h2⟩ := h.cons_inv; exact ⟨l :: N, s', P', ss'', rfl, .cons g hg, h1, h2⟩

theorem SimL.emit_inv {Γ : List Ent} {l : Label} {ss : Stmts} : ∀ {ss' : Stmts}, SimL Γ (some l) ss ss' → ∃ N ss'', ss' = nulls N (.cons (.null [l]) ss'') ∧ SimL Γ none ss ss''
  | _, .skip (l := l) _ h => by obtain ⟨N, ss'', rfl, h2⟩ := h.emit_inv; exact ⟨l :: N, ss'', rfl, h2⟩
  | _, .emit (l := l) _ h => ⟨[], _, rfl, h⟩

section
variable {F : Label → Option (Stmt × Kont)} {D : Label → Prop}

theorem AtL.nulls_tail {ss : Stmts} {k : Kont} : ∀ {N : List Label}, AtL F D (nulls N ss) k → AtL F D ss k
  | [], h => h
  | _ :: _, h => nulls_tail h.tail

theorem AtL.find {N : List Label} {l : Label} {ss : Stmts} {k : Kont} (h : AtL F D (nulls N (.cons (.null [l]) ss)) k) : F l = some (.null [l], .seq ss k) := by
  have h1 := h.nulls_tail.here l (by simp [Stmts.labels, Stmt.labels])
  simpa [findL, findS] using h1

theorem nulls_mem {l : Label} {ss : Stmts} : ∀ {N : List Label}, l ∈ N → ∃ N1 N2, nulls N ss = nulls N1 (.cons (.null [l]) (nulls N2 ss))
  | x :: N, h => by
    rcases List.mem_cons.1 h with rfl | h
    · exact ⟨[], N, rfl⟩
    · obtain ⟨N1, N2, h⟩ := nulls_mem (ss := ss) h
      exact ⟨x :: N1, N2, by rw [nulls, nulls, h]⟩

theorem AtL.find_mem {N : List Label} {l : Label} {ss : Stmts} {k : Kont} (h : AtL F D (nulls N ss) k) (hl : l ∈ N) : ∃ N', F l = some (.null [l], .seq (nulls N' ss) k) := by
  obtain ⟨N1, N2, e⟩ := nulls_mem (ss := ss) hl
  rw [e] at h
  exact ⟨N2, h.find⟩

/-- A label that has to be placed leads to the rest of the program. -/
theorem RelK.pending {Γ : List Ent} {l : Label} {k k' : Kont} (h : RelK Γ (some l) k k') (ha : AtK F D k') : ∃ kx, F l = some (.null [l], kx) ∧ RelK Γ none k kx := by
  cases h with
  | seq h1 h2 =>
    obtain ⟨N, ss'', rfl, h3⟩ := h1.emit_inv
    exact ⟨_, ha.1.find, .seq h3 h2⟩
end

theorem named_none {ls : List Label} : ¬ named none ls := fun ⟨_, h, _⟩ => nomatch h
theorem named_some {l : Label} {ls : List Label} : named (some l) ls ↔ l ∈ ls := ⟨fun ⟨_, h, h'⟩ => Option.some.inj h ▸ h', fun h => ⟨l, rfl, h⟩⟩

/-! Clauses -/

/-- Two optional lists of clauses. -/
def RelO (E : Ent) (Γ : List Ent) (a b : Option Cases) : Prop := (a = none ∧ b = none) ∨ ∃ ds ds', a = some ds ∧ b = some ds' ∧ SimC E Γ ds ds'

theorem SimC.value {E : Ent} {Γ : List Ent} {n : Nat} : ∀ {cs cs' : Cases}, SimC E Γ cs cs' → RelO E Γ (fromValue n cs) (fromValue n cs')
  | _, _, .nil => .inl ⟨rfl, rfl⟩
  | _, _, .cons0 hg h1 h2 h3 => by
    simp only [fromValue]; split
    · exact .inr ⟨_, _, rfl, rfl, .cons0 hg h1 h2 h3⟩
    · exact h3.value
  | _, _, .cons1 g1 g2 h1 h2 h3 h4 h5 => by
    simp only [fromValue]; split
    · exact .inr ⟨_, _, rfl, rfl, .cons1 g1 g2 h1 h2 h3 h4 h5⟩
    · exact h5.value
theorem SimC.dflt {E : Ent} {Γ : List Ent} : ∀ {cs cs' : Cases}, SimC E Γ cs cs' → RelO E Γ (fromDefault cs) (fromDefault cs')
  | _, _, .nil => .inl ⟨rfl, rfl⟩
  | _, _, .cons0 hg h1 h2 h3 => by
    simp only [fromDefault]; split
    · exact .inr ⟨_, _, rfl, rfl, .cons0 hg h1 h2 h3⟩
    · exact h3.dflt
  | _, _, .cons1 g1 g2 h1 h2 h3 h4 h5 => by
    simp only [fromDefault]; split
    · exact .inr ⟨_, _, rfl, rfl, .cons1 g1 g2 h1 h2 h3 h4 h5⟩
    · exact h5.dflt
theorem SimC.select {E : Ent} {Γ : List Ent} {n : Nat} {cs cs' : Cases} (h : SimC E Γ cs cs') : RelO E Γ (MultiExit.select n cs) (MultiExit.select n cs') := by
  unfold MultiExit.select
  rcases h.value (n := n) with ⟨h1, h2⟩ | ⟨ds, ds', h1, h2, h3⟩
  · rw [h1, h2]; simpa using h.dflt
  · rw [h1, h2]; exact .inr ⟨ds, ds', rfl, rfl, h3⟩

section
variable {F : Label → Option (Stmt × Kont)} {D : Label → Prop}

/-- The label for `break` is at the end of the last clause. -/
theorem SimC.findBreak {E : Ent} {Γ : List Ent} {l : Label} {K : Kont} (hl : E.l1 = some l) : ∀ {cs cs' : Cases}, SimC E Γ cs cs' → cs ≠ .nil → AtC F D cs' K →
    ∃ N, F l = some (.null [l], .seq (nulls N .nil) (.caseK .nil K))
  | _, _, .nil, h, _ => absurd rfl h
  | _, _, .cons0 (cs := cs) hg h1 h2 h3, _, ha => by
    by_cases hc : cs = .nil
    · subst hc; cases h3
      exact ha.head.find_mem (h2 rfl l hl)
    · exact h3.findBreak hl hc ha.tail
  | _, _, .cons1 (cs := cs) g1 g2 h1 h2 h3 h4 h5, _, ha => by
    by_cases hc : cs = .nil
    · subst hc; cases h5
      exact ha.head.nulls_tail.tail.find_mem (h3 rfl l hl)
    · exact h5.findBreak hl hc ha.tail

/-- The label for `fallthrough default` is at the beginning of the `default` clause. -/
theorem SimC.findDefault {E : Ent} {Γ : List Ent} {l : Label} {K0 K K' : Kont} (hl : E.l2 = some l) : ∀ {cs cs' : Cases}, SimC E Γ cs cs' → hasDefault cs → AtC F D cs' K' →
    RelK (E :: Γ) none K K' → ∃ ds kx, fromDefault cs = some ds ∧ F l = some (.null [l], kx) ∧ Mt (.cases ds K) (.next kx)
  | _, _, .nil, h, _, _ => by simp [hasDefault] at h
  | _, _, .cons0 (v := v) hg h1 h2 h3, hd, ha, hk => by
    cases v with
    | none =>
      obtain ⟨N', h⟩ := ha.head.find_mem (h1 rfl l hl)
      exact ⟨_, _, rfl, h, .dflt0 h3 hk⟩
    | some n =>
      simp only [hasDefault, Option.isNone_some, Bool.false_or] at hd
      simp only [fromDefault, reduceCtorEq, if_false]
      exact h3.findDefault (K0 := K0) hl hd ha.tail hk
  | _, _, .cons1 (v := v) g1 g2 h1 h2 h3 h4 h5, hd, ha, hk => by
    cases v with
    | none =>
      obtain ⟨N', h⟩ := ha.head.find_mem (h1 rfl l hl)
      exact ⟨_, _, rfl, h, .dflt1 h2 h4 h5 hk⟩
    | some n =>
      simp only [hasDefault, Option.isNone_some, Bool.false_or] at hd
      simp only [fromDefault, reduceCtorEq, if_false]
      exact h5.findDefault (K0 := K0) hl hd ha.tail hk

variable {σ : Type} {I : Interp σ}

/-- `break` -/
theorem RelK.break {t : Option Label} {l : Label} {m : σ} : ∀ {Γ : List Ent} {P : Option Label} {k k' : Kont}, RelK Γ P k k' → AtK F D k' → exitLab .brk t Γ = some l →
    ∃ k1 kx c', afterBreak t k = some k1 ∧ F l = some (.null [l], kx) ∧ Sil I F (.next kx, m) (c', m) ∧ Mt (.next k1) c'
  | _, _, _, _, .stop, _, h => by simp [exitLab] at h
  | _, _, _, _, .seq h1 h2, ha, h => h2.break ha.2 h
  | _, _, _, _, .loopE h2, ha, h => h2.break (k' := _) ha h
  | _, _, _, _, .blk h2, ha, h => by
    obtain ⟨k1, kx, c', q1, q⟩ := h2.break (m := m) ha h
    refine ⟨k1, kx, c', ?_, q⟩
    rw [afterBreak, if_neg, q1]
    rintro ⟨_, _, h⟩; cases h
  | _, _, _, _, .ifK h2, ha, h => by
    obtain ⟨k1, kx, c', q1, q⟩ := h2.break (m := m) ha h
    refine ⟨k1, kx, c', ?_, q⟩
    rw [afterBreak, if_neg, q1]
    rintro ⟨_, _, h⟩; cases h
  | _, _, _, _, .blkL (ls := ls) h2, ha, h => by
    cases t with
    | none =>
      simp only [exitLab, isSought, reduceCtorEq, decide_false, Bool.or_self, Bool.false_eq_true, if_false] at h
      simp only [afterBreak, named_none, if_false]
      exact h2.break ha h
    | some t =>
      simp only [exitLab, isSought, decide_eq_true_eq] at h
      simp only [afterBreak, named_some]
      split at h
      · rename_i ht
        simp only [Kind.isTarget, ne_eq, reduceCtorEq, not_false_eq_true, decide_true, if_true, Ent.use, Option.some.injEq] at h
        subst h
        obtain ⟨kx, q1, q2⟩ := h2.pending ha
        exact ⟨_, kx, _, if_pos ht, q1, .refl, .next q2⟩
      · rename_i ht
        rw [if_neg ht]
        exact h2.break ha h
  | _, _, _, _, .ifL (ls := ls) h2, ha, h => by
    cases t with
    | none =>
      simp only [exitLab, isSought, reduceCtorEq, decide_false, Bool.or_self, Bool.false_eq_true, if_false] at h
      simp only [afterBreak, named_none, if_false]
      exact h2.break ha h
    | some t =>
      simp only [exitLab, isSought, decide_eq_true_eq] at h
      simp only [afterBreak, named_some]
      split at h
      · rename_i ht
        simp only [Kind.isTarget, ne_eq, reduceCtorEq, not_false_eq_true, decide_true, if_true, Ent.use, Option.some.injEq] at h
        subst h
        obtain ⟨kx, q1, q2⟩ := h2.pending ha
        exact ⟨_, kx, _, if_pos ht, q1, .refl, .next q2⟩
      · rename_i ht
        rw [if_neg ht]
        exact h2.break ha h
  | _, _, _, _, .loopB (l1 := l1) hb h1 ho h2, ha, h => by
    cases t with
    | none =>
      simp only [exitLab, isSought, decide_true, Bool.true_or, if_true, Kind.isTarget, ne_eq, reduceCtorEq, not_false_eq_true, Ent.use] at h
      subst h
      obtain ⟨kx, q1, q2⟩ := h2.pending ha.2
      exact ⟨_, kx, _, by simp [afterBreak], q1, .refl, .next q2⟩
    | some t =>
      simp only [exitLab, isSought, decide_eq_true_eq] at h
      simp only [afterBreak, named_some, reduceCtorEq, false_or]
      split at h
      · rename_i ht
        simp only [Kind.isTarget, ne_eq, reduceCtorEq, not_false_eq_true, decide_true, if_true, Ent.use] at h
        subst h
        obtain ⟨kx, q1, q2⟩ := h2.pending ha.2
        exact ⟨_, kx, _, if_pos ht, q1, .refl, .next q2⟩
      · rename_i ht
        rw [if_neg ht]
        exact h2.break ha.2 h
  | _, _, _, _, .loopW (l1 := l1) hb h1 hm hg ho h2, ha, h => by
    have ha := ha.2.2
    cases t with
    | none =>
      simp only [exitLab, isSought, decide_true, Bool.true_or, if_true, Kind.isTarget, ne_eq, reduceCtorEq, not_false_eq_true, Ent.use] at h
      subst h
      obtain ⟨kx, q1, q2⟩ := h2.pending ha
      exact ⟨_, kx, _, by simp [afterBreak], q1, .refl, .next q2⟩
    | some t =>
      simp only [exitLab, isSought, decide_eq_true_eq] at h
      simp only [afterBreak, named_some, reduceCtorEq, false_or]
      split at h
      · rename_i ht
        simp only [Kind.isTarget, ne_eq, reduceCtorEq, not_false_eq_true, decide_true, if_true, Ent.use] at h
        subst h
        obtain ⟨kx, q1, q2⟩ := h2.pending ha
        exact ⟨_, kx, _, if_pos ht, q1, .refl, .next q2⟩
      · rename_i ht
        rw [if_neg ht]
        exact h2.break ha h
  | _, _, _, _, .caseB hf hc h2, ha, h => by
    have : isSought .case [] .brk t = false := by cases t <;> simp [isSought]
    rw [exitLab, this, if_neg (by simp)] at h
    obtain ⟨k1, kx, c', q1, q⟩ := h2.break (m := m) ha.2.2 h
    refine ⟨k1, kx, c', ?_, q⟩
    simp only [afterBreak]
    rw [if_neg, q1]
    rintro ⟨_, _, h⟩; cases h
  | _, _, _, _, .swK (ls := ls) (cs' := cs') (k' := k') c1 c2 hc h2, ha, h => by
    have use : ∀ {l}, _ → ∃ kx c', F l = some (.null [l], kx) ∧ Sil I F (.next kx, m) (c', m) ∧ Mt (.next _) c' := fun {l} (h : _ = some l) => by
      obtain ⟨N, q⟩ := hc.findBreak h (c1 (by simp only at h; rw [h]; simp)) ha.1
      refine ⟨_, _, q, ?_, .next h2⟩
      exact sil_seq.trans (.cons (y := (.cases .nil (.swK ls cs' k'), m)) rfl rfl (.cons (y := (.next (.swK ls cs' k'), m)) rfl rfl (.cons rfl rfl .refl)))
    cases t with
    | none =>
      simp only [exitLab, isSought, decide_true, Bool.or_true, if_true, Kind.isTarget, ne_eq, reduceCtorEq, not_false_eq_true, Ent.use] at h
      obtain ⟨kx, c', q⟩ := use h
      exact ⟨_, kx, c', by simp [afterBreak], q⟩
    | some t =>
      simp only [exitLab, isSought, decide_eq_true_eq] at h
      simp only [afterBreak, named_some, reduceCtorEq, false_or]
      split at h
      · rename_i ht
        simp only [Kind.isTarget, ne_eq, reduceCtorEq, not_false_eq_true, decide_true, if_true, Ent.use] at h
        obtain ⟨kx, c', q⟩ := use h
        exact ⟨_, kx, c', if_pos ht, q⟩
      · rename_i ht
        rw [if_neg ht]
        exact h2.break ha.2 h

/-- `continue` -/
theorem RelK.continue {t : Option Label} {l : Label} : ∀ {Γ : List Ent} {P : Option Label} {k k' : Kont}, RelK Γ P k k' → AtK F D k' → exitLab .cont t Γ = some l →
    ∃ k1 kx, afterContinue t k = some k1 ∧ F l = some (.null [l], kx) ∧ Mt (.next k1) (.next kx)
  | _, _, _, _, .stop, _, h => by simp [exitLab] at h
  | _, _, _, _, .seq h1 h2, ha, h => h2.continue ha.2 h
  | _, _, _, _, .loopE h2, ha, h => h2.continue (k' := _) ha h
  | _, _, _, _, .blk h2, ha, h => by
    obtain ⟨k1, kx, q1, q⟩ := h2.continue ha h
    refine ⟨k1, kx, ?_, q⟩
    rw [afterContinue, if_neg, q1]
    rintro ⟨_, _, h⟩; cases h
  | _, _, _, _, .ifK h2, ha, h => by
    obtain ⟨k1, kx, q1, q⟩ := h2.continue ha h
    refine ⟨k1, kx, ?_, q⟩
    rw [afterContinue, if_neg, q1]
    rintro ⟨_, _, h⟩; cases h
  | _, _, _, _, .blkL (ls := ls) h2, ha, h | _, _, _, _, .ifL (ls := ls) h2, ha, h => by
    cases t with
    | none =>
      simp only [exitLab, isSought, reduceCtorEq, decide_false, Bool.false_eq_true, if_false] at h
      simp only [afterContinue, named_none, if_false]
      exact h2.continue ha h
    | some t =>
      simp only [exitLab, isSought, decide_eq_true_eq, Kind.isTarget, reduceCtorEq, decide_false, Bool.false_eq_true, if_false] at h
      simp only [afterContinue, named_some]
      split at h
      · cases h
      · rename_i ht
        rw [if_neg ht]
        exact h2.continue ha h
  | _, _, _, _, .loopB (l1 := l1) hb h1 ho h2, ha, h => by
    cases t with
    | none => simp [exitLab, isSought, Kind.isTarget, Ent.use] at h
    | some t =>
      simp only [exitLab, isSought, decide_eq_true_eq, Kind.isTarget, if_true, Ent.use] at h
      simp only [afterContinue, named_some, reduceCtorEq, false_or]
      split at h
      · cases h
      · rename_i ht
        rw [if_neg ht]
        exact h2.continue ha.2 h
  | _, _, _, _, .loopW (l1 := l1) hb h1 hm hg ho h2, ha, h => by
    have ha0 := ha.1
    have ha := ha.2.2
    cases t with
    | none =>
      simp only [exitLab, isSought, decide_true, if_true, Kind.isTarget, Ent.use, Option.some.injEq] at h
      subst h
      obtain ⟨N', q⟩ := ha0.find_mem hm
      exact ⟨_, _, by simp [afterContinue], q, .nextW hb h1 hm hg ho h2⟩
    | some t =>
      simp only [exitLab, isSought, decide_eq_true_eq, Kind.isTarget, if_true, Ent.use] at h
      simp only [afterContinue, named_some, reduceCtorEq, false_or]
      split at h
      · rename_i ht
        cases h
        obtain ⟨N', q⟩ := ha0.find_mem hm
        exact ⟨_, _, if_pos ht, q, .nextW hb h1 hm hg ho h2⟩
      · rename_i ht
        rw [if_neg ht]
        exact h2.continue ha h
  | _, _, _, _, .caseB hf hc h2, ha, h => by
    have : isSought .case [] .cont t = false := by cases t <;> simp [isSought]
    rw [exitLab, this, if_neg (by simp)] at h
    obtain ⟨k1, kx, q1, q⟩ := h2.continue ha.2.2 h
    refine ⟨k1, kx, ?_, q⟩
    simp only [afterContinue]
    rw [if_neg, q1]
    rintro ⟨_, _, h⟩; cases h
  | _, _, _, _, .swK (ls := ls) (cs' := cs') (k' := k') c1 c2 hc h2, ha, h => by
    cases t with
    | none =>
      simp only [exitLab, isSought, reduceCtorEq, decide_false, Bool.false_eq_true, if_false] at h
      simp only [afterContinue, named_none, if_false]
      exact h2.continue ha.2 h
    | some t =>
      simp only [exitLab, isSought, decide_eq_true_eq, Kind.isTarget, reduceCtorEq, decide_false, Bool.false_eq_true, if_false] at h
      simp only [afterContinue, named_some]
      split at h
      · cases h
      · rename_i ht
        rw [if_neg ht]
        exact h2.continue ha.2 h

/-- `fallthrough` -/
theorem RelK.fall {t : Option Label} {l : Label} {m : σ} : ∀ {Γ : List Ent} {P : Option Label} {k k' : Kont}, RelK Γ P k k' → AtK F D k' → exitLab .fall t Γ = some l →
    ∃ k1 kx c', afterFall k = some k1 ∧ F l = some (.null [l], kx) ∧ Sil I F (.next kx, m) (c', m) ∧ Mt (.next k1) c'
  | _, _, _, _, .stop, _, h => by simp [exitLab] at h
  | _, _, _, _, .seq h1 h2, ha, h => h2.fall ha.2 h
  | _, _, _, _, .loopE h2, ha, h => h2.fall (k' := _) ha h
  | _, _, _, _, .blk h2, ha, h => h2.fall (k' := _) ha h
  | _, _, _, _, .ifK h2, ha, h => h2.fall (k' := _) ha h
  | _, _, _, _, .blkL h2, ha, h | _, _, _, _, .ifL h2, ha, h => by
    simp only [exitLab, isSought, reduceCtorEq, decide_false, Bool.false_eq_true, if_false] at h
    exact h2.fall ha h
  | _, _, _, _, .loopB hb h1 ho h2, ha, h => by
    simp only [exitLab, isSought, reduceCtorEq, decide_false, Bool.false_eq_true, if_false] at h
    exact h2.fall ha.2 h
  | _, _, _, _, .loopW hb h1 hm hg ho h2, ha, h => by
    simp only [exitLab, isSought, reduceCtorEq, decide_false, Bool.false_eq_true, if_false] at h
    exact h2.fall ha.2.2 h
  | _, _, _, _, .swK c1 c2 hc h2, ha, h => by
    simp only [exitLab, isSought, reduceCtorEq, decide_false, Bool.false_eq_true, if_false] at h
    exact h2.fall ha.2 h
  | _, _, _, _, .caseB hf hc h2, ha, h => by
    simp only [exitLab, isSought, decide_true, if_true, Kind.isTarget, Ent.use] at h
    obtain ⟨N', q⟩ := ha.1.find_mem (hf l h)
    exact ⟨_, _, _, rfl, q, sil_seq, .nextCase hc h2⟩

/-- `fallthrough default` -/
theorem RelK.fallDefault {t : Option Label} {l : Label} : ∀ {Γ : List Ent} {P : Option Label} {k k' : Kont}, RelK Γ P k k' → AtK F D k' → exitLab .fallDefault t Γ = some l →
    ∃ ds k1 kx, afterFallDefault k = some (ds, k1) ∧ F l = some (.null [l], kx) ∧ Mt (.cases ds k1) (.next kx)
  | _, _, _, _, .stop, _, h => by simp [exitLab] at h
  | _, _, _, _, .seq h1 h2, ha, h => h2.fallDefault ha.2 h
  | _, _, _, _, .loopE h2, ha, h => h2.fallDefault (k' := _) ha h
  | _, _, _, _, .blk h2, ha, h => h2.fallDefault (k' := _) ha h
  | _, _, _, _, .ifK h2, ha, h => h2.fallDefault (k' := _) ha h
  | _, _, _, _, .blkL h2, ha, h | _, _, _, _, .ifL h2, ha, h => by
    simp only [exitLab, isSought, reduceCtorEq, decide_false, Bool.false_eq_true, if_false] at h
    exact h2.fallDefault ha h
  | _, _, _, _, .loopB hb h1 ho h2, ha, h => by
    simp only [exitLab, isSought, reduceCtorEq, decide_false, Bool.false_eq_true, if_false] at h
    exact h2.fallDefault ha.2 h
  | _, _, _, _, .loopW hb h1 hm hg ho h2, ha, h => by
    simp only [exitLab, isSought, reduceCtorEq, decide_false, Bool.false_eq_true, if_false] at h
    exact h2.fallDefault ha.2.2 h
  | _, _, _, _, .swK (cs := cs) c1 c2 hc h2, ha, h => by
    simp only [exitLab, isSought, decide_true, if_true, Kind.isTarget, Ent.use] at h
    obtain ⟨ds, kx, q1, q2, q3⟩ := hc.findDefault (K0 := .stop) h (c2 (by rw [h]; simp)) ha.1 (.swK c1 c2 hc h2)
    exact ⟨ds, _, kx, by simp only [afterFallDefault, q1, Option.map_some], q2, q3⟩
  | _, _, _, _, .caseB hf hc h2, ha, h => by
    simp only [exitLab, isSought, reduceCtorEq, decide_false, Bool.false_eq_true, if_false] at h
    exact h2.fallDefault ha.2.2 (by simpa [exitLab, isSought] using h)
end

theorem exitLab_goto {t : Option Label} : ∀ Γ, exitLab .goto t Γ = none
  | [] => rfl
  | _ :: Γ => by simp only [exitLab, isSought, Bool.false_eq_true, if_false]; exact exitLab_goto Γ

end Verif.MultiExit
