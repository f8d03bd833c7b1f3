import Verif.Proof.MultiExitA
/-! The output of the pass corresponds to its input. -/

namespace Verif.MultiExit

/-- A control structure, with the labels that are used of it. -/
structure Ent where
  kind : Kind
  ls : List Label
  l1 : Option Label
  l2 : Option Label

/-- The label of a control structure for a branch. -/
def Ent.use (e : Ent) : Br → Option Label
  | .brk | .fall => e.l1
  | .cont | .fallDefault => e.l2
  | .goto => none

/-- The label a branch goes to. -/
def exitLab (b : Br) (t : Option Label) : List Ent → Option Label
  | [] => none
  | e :: es => if isSought e.kind e.ls b t then (if e.kind.isTarget b then e.use b else none) else exitLab b t es

/-- Labelled null statements. -/
def nulls : List Label → Stmts → Stmts
  | [], ss => ss
  | l :: N, ss => .cons (.null [l]) (nulls N ss)

/-- Labels made by the pass. -/
def Gens (N : List Label) : Prop := ∀ l ∈ N, l.isUser = false

mutual
/-- The second statement is a translation of the first; the label, if any, has to be placed after it. -/
inductive Sim : List Ent → Stmt → Stmt → Option Label → Prop
  | null {Γ ls} : Sim Γ (.null ls) (.null ls) none
  | act {Γ ls a} : Sim Γ (.act ls a) (.act ls a) none
  | ret {Γ ls r} : Sim Γ (.ret ls r) (.ret ls r) none
  | goto {Γ ls l} : Sim Γ (.branch ls .goto (some l)) (.branch ls .goto (some l)) none
  | fallL {Γ l} : Sim Γ (.branch [] .fall (some l)) (.branch [] .goto (some l)) none
  | exit {Γ b t l} : exitLab b t Γ = some l → (b = .fall → t = none) → Sim Γ (.branch [] b t) (.branch [] .goto (some l)) none
  | block {Γ ss ss'} : SimL Γ none ss ss' → Sim Γ (.block [] ss) (.block [] ss') none
  | blockL {Γ ls l ss ss'} : ls ≠ [] → SimL (⟨.block, ls, some l, none⟩ :: Γ) none ss ss' → Sim Γ (.block ls ss) (.block ls ss') (some l)
  | ite {Γ c t t' e e'} : t.isBlock → Sim Γ t t' none → SimO Γ e e' → Sim Γ (.ite [] c t e) (.ite [] c t' e') none
  | iteL {Γ ls l c t t' e e'} : ls ≠ [] → t.isBlock → Sim (⟨.ite, ls, some l, none⟩ :: Γ) t t' none → SimO (⟨.ite, ls, some l, none⟩ :: Γ) e e' →
      Sim Γ (.ite ls c t e) (.ite ls c t' e') (some l)
  | loop {Γ ls l1 post c inc body body' els els'} : body.isBlock → Sim (⟨.loop, ls, l1, none⟩ :: Γ) body body' none → SimO Γ els els' →
      Sim Γ (.loop ls post c inc body els) (.loop ls post c inc body' els') l1
  | loopW {Γ ls l1 l2 N post c inc body body' els els'} : body.isBlock → Sim (⟨.loop, ls, l1, some l2⟩ :: Γ) body body' none → l2 ∈ N → Gens N → SimO Γ els els' →
      Sim Γ (.loop ls post c inc body els) (.loop ls post c inc (.block [] (.cons body' (nulls N .nil))) els') l1
  | switch {Γ ls l1 l2 e cs cs'} : (l1 ≠ none → cs ≠ .nil) → (l2 ≠ none → hasDefault cs) → SimC ⟨.switch, ls, l1, l2⟩ Γ cs cs' →
      Sim Γ (.switch ls e cs) (.switch ls e cs') none
inductive SimO : List Ent → Opt → Opt → Prop
  | none {Γ} : SimO Γ .none .none
  | some {Γ s s'} : s.isBlock → Sim Γ s s' none → SimO Γ (.some s) (.some s')
/-- Lists: the label, if any, has to be placed first. -/
inductive SimL : List Ent → Option Label → Stmts → Stmts → Prop
  | nil {Γ} : SimL Γ none .nil .nil
  | cons {Γ P s s' ss ss'} : Sim Γ s s' P → SimL Γ P ss ss' → SimL Γ none (.cons s ss) (.cons s' ss')
  | skip {Γ P l ss ss'} : l.isUser = false → SimL Γ P ss ss' → SimL Γ P ss (.cons (.null [l]) ss')
  | emit {Γ l ss ss'} : l.isUser = false → SimL Γ none ss ss' → SimL Γ (some l) ss (.cons (.null [l]) ss')
/-- Clauses of the `switch` given by the entry. -/
inductive SimC : Ent → List Ent → Cases → Cases → Prop
  | nil {E Γ} : SimC E Γ .nil .nil
  | cons0 {E Γ v N cs cs'} : Gens N → (v = none → ∀ l, E.l2 = some l → l ∈ N) → (cs = .nil → ∀ l, E.l1 = some l → l ∈ N) → SimC E Γ cs cs' →
      SimC E Γ (.cons v .nil cs) (.cons v (nulls N .nil) cs')
  | cons1 {E Γ v N1 N2 lf kids kids' cs cs'} : Gens N1 → Gens N2 → (v = none → ∀ l, E.l2 = some l → l ∈ N1) → (∀ l, lf = some l → l ∈ N2) →
      (cs = .nil → ∀ l, E.l1 = some l → l ∈ N2) → SimL (⟨.case, [], lf, none⟩ :: E :: Γ) none kids kids' → SimC E Γ cs cs' →
      SimC E Γ (.cons v (.cons (.block [] kids) .nil) cs) (.cons v (nulls N1 (.cons (.block [] kids') (nulls N2 .nil))) cs')
end

mutual
/-- The second statement is the first with more labels. -/
inductive Deco : Stmt → Stmt → Prop
  | refl {s} : Deco s s
  | block {ls ss ss'} : DecoL ss ss' → Deco (.block ls ss) (.block ls ss')
  | ite {ls c t t' e e'} : Deco t t' → DecoO e e' → Deco (.ite ls c t e) (.ite ls c t' e')
  | loop {ls post c inc body body' els els'} : Deco body body' → DecoO els els' → Deco (.loop ls post c inc body els) (.loop ls post c inc body' els')
  | switch {ls e cs cs'} : DecoC cs cs' → Deco (.switch ls e cs) (.switch ls e cs')
inductive DecoO : Opt → Opt → Prop
  | none : DecoO .none .none
  | some {s s'} : Deco s s' → DecoO (.some s) (.some s')
inductive DecoL : Stmts → Stmts → Prop
  | nil : DecoL .nil .nil
  | cons {s s' N ss ss'} : Deco s s' → Gens N → DecoL ss ss' → DecoL (.cons s ss) (.cons s' (nulls N ss'))
inductive DecoC : Cases → Cases → Prop
  | nil : DecoC .nil .nil
  | cons0 {v cs cs'} : DecoC cs cs' → DecoC (.cons v .nil cs) (.cons v .nil cs')
  | cons1 {v ls kids kids' rest cs cs'} : DecoL kids kids' → DecoC cs cs' → DecoC (.cons v (.cons (.block ls kids) rest) cs) (.cons v (.cons (.block ls kids') rest) cs')
end

theorem DecoL.refl : ∀ ss, DecoL ss ss
  | .nil => .nil
  | .cons _ ss => .cons (N := []) .refl (fun _ h => nomatch h) (DecoL.refl ss)
theorem DecoO.refl : ∀ o, DecoO o o
  | .none => .none
  | .some _ => .some .refl

theorem Deco.null {ls : List Label} {s' : Stmt} (h : Deco (.null ls) s') : s' = .null ls := by cases h; rfl

theorem nulls_append : ∀ (a b : List Label) (ss : Stmts), nulls (a ++ b) ss = nulls a (nulls b ss)
  | [], _, _ => rfl
  | l :: a, b, ss => by simp [nulls, nulls_append a b ss]
theorem Gens.append {a b : List Label} (ha : Gens a) (hb : Gens b) : Gens (a ++ b) := fun l h => (List.mem_append.1 h).elim (ha l) (hb l)
theorem Gens.cons {l : Label} {b : List Label} (ha : l.isUser = false) (hb : Gens b) : Gens (l :: b) := fun l h => (List.mem_cons.1 h).elim (· ▸ ha) (hb l)
theorem Gens.tail {l : Label} {b : List Label} (h : Gens (l :: b)) : Gens b := fun l h' => h l (List.mem_cons_of_mem _ h')
theorem Gens.nil : Gens [] := fun _ h => nomatch h

/-- Null statements with more labels. -/
theorem DecoL.nulls : ∀ {N : List Label} {ss' : Stmts}, DecoL (nulls N .nil) ss' → Gens N → ∃ N', ss' = MultiExit.nulls N' .nil ∧ Gens N' ∧ ∀ l ∈ N, l ∈ N'
  | [], ss', h, hN => by cases h; exact ⟨[], rfl, hN, fun _ h => h⟩
  | l :: N, ss', h, hN => by
    rw [MultiExit.nulls] at h
    cases h with
    | cons h1 hM h2 =>
      obtain rfl := h1.null
      obtain ⟨N', rfl, hg, hm⟩ := DecoL.nulls h2 hN.tail
      refine ⟨l :: (_ ++ N'), by rw [MultiExit.nulls, nulls_append], .cons (hN _ (List.mem_cons_self ..)) (hM.append hg), fun l' h => ?_⟩
      rcases List.mem_cons.1 h with rfl | h
      · exact List.mem_cons_self ..
      · exact List.mem_cons_of_mem _ (List.mem_append_right _ (hm _ h))

theorem SimL.skips {Γ : List Ent} {P : Option Label} {ss ss' : Stmts} (h : SimL Γ P ss ss') : ∀ {N : List Label}, Gens N → SimL Γ P ss (MultiExit.nulls N ss')
  | [], _ => h
  | _ :: _, hN => .skip (hN _ (List.mem_cons_self ..)) (h.skips hN.tail)

mutual
theorem Sim.deco {Γ : List Ent} {s s' s'' : Stmt} {P : Option Label} : Sim Γ s s' P → Deco s' s'' → Sim Γ s s'' P
  | .null, h => by cases h; exact .null
  | .act, h => by cases h; exact .act
  | .ret, h => by cases h; exact .ret
  | .goto, h => by cases h; exact .goto
  | .fallL, h => by cases h; exact .fallL
  | .exit h1 h2, h => by cases h; exact .exit h1 h2
  | .block h1, h => by
    cases h with
    | refl => exact .block h1
    | block h => exact .block (h1.deco h)
  | .blockL hl h1, h => by
    cases h with
    | refl => exact .blockL hl h1
    | block h => exact .blockL hl (h1.deco h)
  | .ite hb h1 h2, h => by
    cases h with
    | refl => exact .ite hb h1 h2
    | ite d1 d2 => exact .ite hb (h1.deco d1) (h2.deco d2)
  | .iteL hl hb h1 h2, h => by
    cases h with
    | refl => exact .iteL hl hb h1 h2
    | ite d1 d2 => exact .iteL hl hb (h1.deco d1) (h2.deco d2)
  | .loop hb h1 h2, h => by
    cases h with
    | refl => exact .loop hb h1 h2
    | loop d1 d2 => exact .loop hb (h1.deco d1) (h2.deco d2)
  | .loopW (N := N) (body' := body') hb h1 hm hg h2, h => by
    cases h with
    | refl => exact .loopW hb h1 hm hg h2
    | loop d1 d2 =>
      cases d1 with
      | refl => exact .loopW hb h1 hm hg (h2.deco d2)
      | block d =>
        cases d with
        | cons d3 hM d4 =>
          obtain ⟨N', rfl, hg', hm'⟩ := d4.nulls hg
          rw [← nulls_append]
          exact .loopW hb (h1.deco d3) (List.mem_append_right _ (hm' _ hm)) (hM.append hg') (h2.deco d2)
  | .switch h1 h2 h3, h => by
    cases h with
    | refl => exact .switch h1 h2 h3
    | switch d => exact .switch h1 h2 (h3.deco d)
theorem SimO.deco {Γ : List Ent} {s s' s'' : Opt} : SimO Γ s s' → DecoO s' s'' → SimO Γ s s''
  | .none, h => by cases h; exact .none
  | .some hb h1, h => by
    cases h with
    | some d => exact .some hb (h1.deco d)
theorem SimL.deco {Γ : List Ent} {s s' s'' : Stmts} {P : Option Label} : SimL Γ P s s' → DecoL s' s'' → SimL Γ P s s''
  | .nil, h => by cases h; exact .nil
  | .cons h1 h2, h => by
    cases h with
    | cons d1 hN d2 => exact .cons (h1.deco d1) ((h2.deco d2).skips hN)
  | .skip hl h1, h => by
    cases h with
    | cons d1 hN d2 =>
      obtain rfl := d1.null
      exact .skip hl ((h1.deco d2).skips hN)
  | .emit hl h1, h => by
    cases h with
    | cons d1 hN d2 =>
      obtain rfl := d1.null
      exact .emit hl ((h1.deco d2).skips hN)
theorem SimC.deco {E : Ent} {Γ : List Ent} {s s' s'' : Cases} : SimC E Γ s s' → DecoC s' s'' → SimC E Γ s s''
  | .nil, h => by cases h; exact .nil
  | .cons0 (N := N) hg h1 h2 h3, h => by
    cases N with
    | nil => cases h with | cons0 d => exact .cons0 hg h1 (by
        intro hc l hl; exact h2 hc l hl) (h3.deco d)
    | cons l N => cases h
  | .cons1 (N1 := N1) hg1 hg2 h1 h2 h3 h4 h5, h => by
    cases N1 with
    | nil => cases h with | cons1 d1 d2 => exact .cons1 (N1 := []) hg1 hg2 h1 h2 h3 (h4.deco d1) (h5.deco d2)
    | cons l N => cases h
end

mutual
/-- The statements that the pass visits a second time. -/
def Stmt.out : Stmt → Bool
  | .null _ | .act _ _ | .ret _ _ => true
  | .branch _ b _ => b = .goto
  | .block _ kids => kids.out
  | .ite _ _ t e => t.isBlock && t.out && e.out
  | .loop _ _ _ _ body els => body.isBlock && body.out && els.out
  | .switch _ _ cs => cs.out
def Opt.out : Opt → Bool
  | .none => true
  | .some s => s.isBlock && s.out
def Stmts.out : Stmts → Bool
  | .nil => true
  | .cons s ss => s.out && ss.out
def Cases.out : Cases → Bool
  | .nil => true
  | .cons _ (.cons (.block _ kids) _) cs => kids.out && cs.out
  | .cons _ _ cs => cs.out
end

theorem nulls_out : ∀ (N : List Label) (ss : Stmts), (nulls N ss).out = ss.out
  | [], _ => rfl
  | _ :: N, ss => by simp [nulls, Stmts.out, Stmt.out, nulls_out N ss]

theorem Sim.isBlock {Γ : List Ent} {s s' : Stmt} {P : Option Label} (h : Sim Γ s s' P) (hb : s.isBlock) : s'.isBlock := by
  cases h <;> simp_all [Stmt.isBlock]

mutual
theorem Sim.out {Γ : List Ent} {s s' : Stmt} {P : Option Label} : Sim Γ s s' P → s'.out
  | .null | .act | .ret | .goto | .fallL | .exit _ _ => by simp [Stmt.out]
  | .block h | .blockL _ h => by simp [Stmt.out, h.out]
  | .ite hb h1 h2 => by simp [Stmt.out, h1.out, h2.out, h1.isBlock hb]
  | .iteL _ hb h1 h2 => by simp [Stmt.out, h1.out, h2.out, h1.isBlock hb]
  | .loop hb h1 h2 => by simp [Stmt.out, h1.out, h2.out, h1.isBlock hb]
  | .loopW hb h1 _ _ h2 => by simp [Stmt.out, Stmts.out, nulls_out, h1.out, h2.out, Stmt.isBlock]
  | .switch _ _ h => by simp [Stmt.out, h.out]
theorem SimO.out {Γ : List Ent} {s s' : Opt} : SimO Γ s s' → s'.out
  | .none => by simp [Opt.out]
  | .some hb h => by simp [Opt.out, h.out, h.isBlock hb]
theorem SimL.out {Γ : List Ent} {s s' : Stmts} {P : Option Label} : SimL Γ P s s' → s'.out
  | .nil => by simp [Stmts.out]
  | .cons h1 h2 => by simp [Stmts.out, h1.out, h2.out]
  | .skip _ h | .emit _ h => by simp [Stmts.out, Stmt.out, h.out]
theorem SimC.out {E : Ent} {Γ : List Ent} {s s' : Cases} : SimC E Γ s s' → s'.out
  | .nil => by simp [Cases.out]
  | .cons0 (N := N) _ _ _ h => by cases N <;> simp [nulls, Cases.out, h.out]
  | .cons1 (N1 := N1) _ _ _ _ _ h1 h2 => by cases N1 <;> simp [nulls, Cases.out, h1.out, h2.out]
end

/-- The pending label is one of the pass. -/
def BG (st : St) : Prop := ∀ l, st.brk = some l → l.isUser = false

/-- A loop? -/
def Stmt.isLoop : Stmt → Bool
  | .loop _ _ _ _ _ _ => true
  | _ => false

theorem Deco.isBlock {s s' : Stmt} (h : Deco s s') : s'.isBlock = s.isBlock := by cases h <;> rfl

mutual
theorem Deco.out {s s' : Stmt} : Deco s s' → s.out → s'.out
  | .refl, h => h
  | .block d, h => by simp only [Stmt.out] at h ⊢; exact d.out h
  | .ite d1 d2, h => by simp only [Stmt.out, Bool.and_eq_true] at h ⊢; exact ⟨⟨by rw [d1.isBlock]; exact h.1.1, d1.out h.1.2⟩, d2.out h.2⟩
  | .loop d1 d2, h => by simp only [Stmt.out, Bool.and_eq_true] at h ⊢; exact ⟨⟨by rw [d1.isBlock]; exact h.1.1, d1.out h.1.2⟩, d2.out h.2⟩
  | .switch d, h => by simp only [Stmt.out] at h ⊢; exact d.out h
theorem DecoO.out {s s' : Opt} : DecoO s s' → s.out → s'.out
  | .none, h => h
  | .some d, h => by simp only [Opt.out, Bool.and_eq_true] at h ⊢; exact ⟨by rw [d.isBlock]; exact h.1, d.out h.2⟩
theorem DecoL.out {s s' : Stmts} : DecoL s s' → s.out → s'.out
  | .nil, h => h
  | .cons d1 _ d2, h => by simp only [Stmts.out, Bool.and_eq_true, nulls_out] at h ⊢; exact ⟨d1.out h.1, d2.out h.2⟩
theorem DecoC.out {s s' : Cases} : DecoC s s' → s.out → s'.out
  | .nil, h => h
  | .cons0 d, h => by simp only [Cases.out] at h ⊢; exact d.out h
  | .cons1 d1 d2, h => by simp only [Cases.out, Bool.and_eq_true] at h ⊢; exact ⟨d1.out h.1, d2.out h.2⟩
end

theorem DecoL.nulls_inv {ss : Stmts} : ∀ {N : List Label} {x : Stmts}, DecoL (MultiExit.nulls N ss) x → Gens N → ∃ N' ss', x = MultiExit.nulls N' ss' ∧ Gens N' ∧ DecoL ss ss'
  | [], x, h, _ => ⟨[], x, rfl, .nil, h⟩
  | l :: N, x, h, hN => by
    rw [MultiExit.nulls] at h
    cases h with
    | cons h1 hM h2 =>
      obtain rfl := h1.null
      obtain ⟨N', ss', rfl, hg, d⟩ := DecoL.nulls_inv h2 hN.tail
      exact ⟨l :: (_ ++ N'), ss', by rw [MultiExit.nulls, nulls_append], .cons (hN _ (List.mem_cons_self ..)) (hM.append hg), d⟩

mutual
theorem Deco.trans {a b c : Stmt} : Deco a b → Deco b c → Deco a c
  | .refl, h => h
  | .block d, h => by
    cases h with
    | refl => exact .block d
    | block d' => exact .block (d.trans d')
  | .ite d1 d2, h => by
    cases h with
    | refl => exact .ite d1 d2
    | ite d3 d4 => exact .ite (d1.trans d3) (d2.trans d4)
  | .loop d1 d2, h => by
    cases h with
    | refl => exact .loop d1 d2
    | loop d3 d4 => exact .loop (d1.trans d3) (d2.trans d4)
  | .switch d, h => by
    cases h with
    | refl => exact .switch d
    | switch d' => exact .switch (d.trans d')
theorem DecoO.trans {a b c : Opt} : DecoO a b → DecoO b c → DecoO a c
  | .none, h => h
  | .some d, h => by cases h with | some d' => exact .some (d.trans d')
theorem DecoL.trans {a b c : Stmts} : DecoL a b → DecoL b c → DecoL a c
  | .nil, h => h
  | .cons d1 hN d2, h => by
    cases h with
    | cons d3 hM d4 =>
      obtain ⟨N', ss', rfl, hg, d⟩ := d4.nulls_inv hN
      rw [← nulls_append]
      exact .cons (d1.trans d3) (hM.append hg) (d2.trans d)
theorem DecoC.trans {a b c : Cases} : DecoC a b → DecoC b c → DecoC a c
  | .nil, h => h
  | .cons0 d, h => by cases h with | cons0 d' => exact .cons0 (d.trans d')
  | .cons1 d1 d2, h => by cases h with | cons1 d3 d4 => exact .cons1 (d1.trans d3) (d2.trans d4)
end

/-- The second visit only adds labels. -/
def Again (v : Stmt → M Stmt) : Prop := ∀ s st s' st', v s st = some (s', st') → s.out → BG st →
  Deco s s' ∧ st'.encl = st.encl ∧ BG st' ∧ (st.brk = none → s.isBlock || s.isLoop → st'.brk = none)

theorem place_nulls (o : Option Label) (ss : Stmts) : place o ss = nulls o.toList ss := by cases o <;> rfl

theorem seen_encl {ic : Bool} {kid : Stmt} {st : St} : (seen ic kid st).encl = st.encl := by unfold seen; split <;> rfl
theorem seen_brk {ic : Bool} {kid : Stmt} {st : St} : (seen ic kid st).brk = st.brk := by unfold seen; split <;> rfl

theorem visitKid_again {v : Stmt → M Stmt} (hv : Again v) {kid : Stmt} {st : St} {r : Stmt × Option Label} {st' : St}
    (h : visitKid v kid st = some (r, st')) (ok : kid.out) (hg : BG st) :
    Deco kid r.1 ∧ Gens r.2.toList ∧ st'.encl = st.encl ∧ st'.brk = none := by
  unfold visitKid at h
  split at h
  · simp only [Option.map_eq_some_iff, Prod.mk.injEq] at h
    obtain ⟨⟨s', st1⟩, h1, rfl, rfl⟩ := h
    obtain ⟨d, e, g, -⟩ := hv _ _ _ _ h1 ok hg
    exact ⟨d, fun l h => g l (by simpa [Option.mem_toList] using h), e, rfl⟩
  · rename_i s0 e hs
    obtain ⟨ls, post, c, inc, body, rfl, rfl⟩ := splitElse_some hs
    simp only [Option.bind_eq_some_iff, Option.map_eq_some_iff, Prod.mk.injEq] at h
    obtain ⟨⟨s1, st1⟩, h1, ⟨s2, st2⟩, h2, ⟨s3, st3⟩, h3, rfl, rfl⟩ := h
    simp only [Stmt.out, Opt.out, Bool.and_eq_true] at ok
    obtain ⟨d1, e1, g1, -⟩ := hv _ _ _ _ h1 (by simp [Stmt.out, Opt.out, ok.1]) hg
    obtain ⟨d2, e2, g2, b2⟩ := hv _ _ _ _ h2 ok.2.2 (fun l h => nomatch h)
    have b2 := b2 rfl (by simp [ok.2.1])
    have d12 : Deco (.loop ls post c inc body (.some e)) (setElse s1 s2) ∧ (setElse s1 s2).isLoop := by
      cases d1 with
      | refl => exact ⟨.loop .refl (.some d2), rfl⟩
      | loop d3 d4 => exact ⟨.loop d3 (.some d2), rfl⟩
    obtain ⟨d12, l12⟩ := d12
    have o12 := d12.out (by simp [Stmt.out, Opt.out, ok])
    obtain ⟨d3, e3, g3, b3⟩ := hv _ _ _ _ h3 o12 g2
    refine ⟨d12.trans d3, fun l h => g1 l (by simpa [Option.mem_toList] using h), ?_, b3 b2 ?_⟩
    · rw [e3, e2, ← e1]
    · simp [l12]

theorem fixBlock_again {v : Stmt → M Stmt} (hv : Again v) {ic : Bool} : ∀ {ss : Stmts} {st : St} {ss' : Stmts} {st' : St},
    fixBlock v ic ss st = some (ss', st') → ss.out → BG st → DecoL ss ss' ∧ st'.encl = st.encl ∧ BG st' ∧ (st.brk = none → st'.brk = none)
  | .nil, st, ss', st', h, _, hg => by
    simp only [fixBlock, Option.some.injEq, Prod.mk.injEq] at h
    obtain ⟨rfl, rfl⟩ := h
    exact ⟨.nil, rfl, hg, id⟩
  | .cons kid kids, st, ss', st', h, ok, hg => by
    simp only [fixBlock, Option.bind_eq_some_iff, Option.map_eq_some_iff, Prod.mk.injEq] at h
    obtain ⟨⟨⟨k', P⟩, st1⟩, h1, ⟨ks', st2⟩, h2, rfl, rfl⟩ := h
    simp only [Stmts.out, Bool.and_eq_true] at ok
    obtain ⟨d1, g1, e1, b1⟩ := visitKid_again hv h1 ok.1 (by unfold BG; rw [seen_brk]; exact hg)
    obtain ⟨d2, e2, g2, b2⟩ := fixBlock_again hv h2 ok.2 (by intro l h; rw [b1] at h; nomatch h)
    refine ⟨?_, by rw [e2, e1, seen_encl], g2, fun _ => b2 b1⟩
    rw [place_nulls]
    exact .cons d1 g1 d2

theorem visitOpt_again {v : Stmt → M Stmt} (hv : Again v) : ∀ {o : Opt} {st : St} {o' : Opt} {st' : St},
    visitOpt v o st = some (o', st') → o.out → BG st → DecoO o o' ∧ st'.encl = st.encl ∧ BG st' ∧ (st.brk = none → st'.brk = none)
  | .none, st, o', st', h, _, hg => by
    simp only [visitOpt, Option.some.injEq, Prod.mk.injEq] at h
    obtain ⟨rfl, rfl⟩ := h
    exact ⟨.none, rfl, hg, id⟩
  | .some s, st, o', st', h, ok, hg => by
    simp only [visitOpt, Option.map_eq_some_iff, Prod.mk.injEq] at h
    obtain ⟨⟨s', st1⟩, h1, rfl, rfl⟩ := h
    simp only [Opt.out, Bool.and_eq_true] at ok
    obtain ⟨d, e, g, b⟩ := hv _ _ _ _ h1 ok.2 hg
    exact ⟨.some d, e, g, fun h => b h (by simp [ok.1])⟩

theorem caseBlock_again {v : Stmt → M Stmt} (hv : Again v) {c : Option Nat} {cs : Cases} : ∀ {ss : Stmts} {st : St} {ss' : Stmts} {st' : St},
    caseBlock v ss st = some (ss', st') → (Cases.cons c ss cs).out → BG st →
    (∀ cs', DecoC cs cs' → DecoC (.cons c ss cs) (.cons c ss' cs')) ∧ st'.encl = st.encl ∧ BG st'
  | .nil, st, ss', st', h, _, hg => by
    simp only [caseBlock, Option.some.injEq, Prod.mk.injEq] at h
    obtain ⟨rfl, rfl⟩ := h
    exact ⟨fun _ d => .cons0 d, rfl, hg⟩
  | .cons (.block ls kids) rest, st, ss', st', h, ok, hg => by
    simp only [caseBlock, Option.bind_eq_some_iff] at h
    obtain ⟨⟨ks, st2⟩, h1, h2⟩ := h
    simp only [Cases.out, Bool.and_eq_true] at ok
    obtain ⟨d, e, g, -⟩ := fixBlock_again hv h1 ok.1 hg
    simp only at e
    simp only [e, Option.some.injEq, Prod.mk.injEq] at h2
    obtain ⟨rfl, rfl⟩ := h2
    exact ⟨fun _ d' => .cons1 d d', rfl, g⟩
  | .cons (.null _) _, _, _, _, h, _, _ | .cons (.act _ _) _, _, _, _, h, _, _ | .cons (.ret _ _) _, _, _, _, h, _, _ | .cons (.branch _ _ _) _, _, _, _, h, _, _
  | .cons (.ite _ _ _ _) _, _, _, _, h, _, _ | .cons (.loop _ _ _ _ _ _) _, _, _, _, h, _, _ | .cons (.switch _ _ _) _, _, _, _, h, _, _ => by simp [caseBlock] at h

theorem visitCases_again {v : Stmt → M Stmt} (hv : Again v) : ∀ {cs : Cases} {st : St} {e : Entry} {es : List Entry} (_ : st.encl = e :: es)
    (_ : e.firstUsed = false) (_ : e.secondUsed = false) {cs' : Cases} {st' : St} (_ : visitCases v cs st = some (cs', st')) (_ : cs.out) (_ : BG st),
    DecoC cs cs' ∧ BG st' ∧ ∃ e' : Entry, st'.encl = e' :: es ∧ e'.firstUsed = false
  | .nil, st, e, es, hes, hf, hs, cs', st', h, _, hg => by
    simp only [visitCases, Option.some.injEq, Prod.mk.injEq] at h
    obtain ⟨rfl, rfl⟩ := h
    exact ⟨.nil, hg, e, hes, hf⟩
  | .cons w ss cs, st, e, es, hes, hf, hs, cs', st', h, ok, hg => by
    simp only [visitCases, Option.bind_eq_some_iff, Option.map_eq_some_iff, Prod.mk.injEq] at h
    obtain ⟨⟨ss1, st1⟩, h1, ⟨cs1, st2⟩, h2, rfl, rfl⟩ := h
    simp only [caseClause, Option.bind_eq_some_iff] at h1
    obtain ⟨⟨ss2, st3⟩, h3, h1⟩ := h1
    have hd : ∃ e0 : Entry, (seenDefault w.isNone st).encl = e0 :: es ∧ e0.firstUsed = false ∧ e0.secondUsed = false ∧ (seenDefault w.isNone st).brk = st.brk := by
      unfold seenDefault
      split
      · exact ⟨{ e with fallDefaultValid := false }, by simp only [hes], hf, hs, rfl⟩
      · exact ⟨e, hes, hf, hs, rfl⟩
    obtain ⟨e0, he0, hf0, hs0, hb0⟩ := hd
    obtain ⟨d, e1, g1⟩ := caseBlock_again hv h3 ok (by unfold BG; rw [hb0]; exact hg)
    simp only [e1, he0, hs0, Option.some.injEq, Prod.mk.injEq, Bool.false_eq_true, and_false, if_false] at h1
    obtain ⟨rfl, rfl⟩ := h1
    have ok2 : cs.out := by
      unfold Cases.out at ok
      split at ok
      · rename_i h; cases h
      · rename_i h; cases h; simp only [Bool.and_eq_true] at ok; exact ok.2
      · rename_i h; cases h; exact ok
    obtain ⟨d2, g2, e2⟩ := visitCases_again hv (e1.trans he0) hf0 hs0 h2 ok2 g1
    exact ⟨d _ d2, g2, e2⟩

theorem visit_again : ∀ n, Again (visit n)
  | 0 => by intro s st s' st' h; simp [visit] at h
  | n + 1 => by
    intro s st s' st' h ok hg
    have hv := visit_again n
    simp only [visit] at h
    cases s <;> simp only [visitStmt] at h
    case null | act | ret => simp only [Option.some.injEq, Prod.mk.injEq] at h; obtain ⟨rfl, rfl⟩ := h; exact ⟨.refl, rfl, hg, fun h _ => h⟩
    case branch ls b t =>
      simp only [Stmt.out, decide_eq_true_eq] at ok
      subst ok
      simp only [branch, Option.some.injEq, Prod.mk.injEq] at h
      obtain ⟨rfl, rfl⟩ := h; exact ⟨.refl, rfl, hg, fun h _ => h⟩
    case block ls ss =>
      simp only [Stmt.out] at ok
      unfold compound at h
      split at h
      · simp only [Option.map_eq_some_iff, Prod.mk.injEq] at h
        obtain ⟨⟨ss', st1⟩, h1, rfl, rfl⟩ := h
        obtain ⟨d, e, g, b⟩ := fixBlock_again hv h1 ok hg
        exact ⟨.block d, e, g, fun h _ => b h⟩
      · rename_i hls
        simp only [Option.map_eq_some_iff, Prod.mk.injEq] at h
        obtain ⟨⟨ss', st1⟩, h1, rfl, rfl⟩ := h
        obtain ⟨d, e, g, -⟩ := fixBlock_again hv h1 ok hg
        refine ⟨.block d, by simp only [e, List.tail_cons], ?_, ?_⟩
        · intro l h; simp only [Option.some.injEq] at h; subst h; rfl
        · simp [Stmt.isBlock, Stmt.isLoop, hls]
    case ite ls c t e =>
      simp only [Stmt.out, Bool.and_eq_true] at ok
      simp only [visitIf, Option.bind_eq_some_iff, Option.map_eq_some_iff, Prod.mk.injEq] at h
      obtain ⟨⟨t', st1⟩, h1, ⟨e', st2⟩, h2, rfl, rfl⟩ := h
      obtain ⟨d1, e1, g1, -⟩ := hv _ _ _ _ h1 ok.1.2 (by split <;> exact hg)
      obtain ⟨d2, e2, g2, -⟩ := visitOpt_again hv h2 ok.2 g1
      refine ⟨.ite d1 d2, ?_, ?_, by simp [Stmt.isBlock, Stmt.isLoop]⟩
      · split
        · rename_i hls; simp only [hls, if_true] at e1; exact e2.trans e1
        · rename_i hls; simp only [hls, if_false] at e1; simp only [e2, e1, List.tail_cons]
      · split
        · exact g2
        · intro l h; simp only [Option.some.injEq] at h; subst h; rfl
    case loop ls post c inc body els =>
      simp only [Stmt.out, Bool.and_eq_true] at ok
      simp only [visitLoop, Option.bind_eq_some_iff] at h
      obtain ⟨⟨b', st1⟩, h1, ⟨e', st2⟩, h2, h⟩ := h
      obtain ⟨d1, e1, g1, b1⟩ := hv _ _ _ _ h1 ok.1.2 hg
      obtain ⟨d2, e2, g2, b2⟩ := visitOpt_again hv h2 ok.2 g1
      simp only at e1
      simp only [e2, e1, Option.some.injEq, Prod.mk.injEq] at h
      obtain ⟨rfl, rfl⟩ := h
      exact ⟨.loop d1 d2, rfl, g2, fun hb _ => b2 (b1 hb (by simp [ok.1.1]))⟩
    case switch ls e cs =>
      simp only [Stmt.out] at ok
      simp only [visitSwitch, Option.bind_eq_some_iff] at h
      obtain ⟨fl, -, ⟨cs1, st1⟩, h1, h⟩ := h
      obtain ⟨d, g, e', he, hf⟩ := visitCases_again hv rfl rfl rfl h1 ok hg
      simp only [he, hf, Option.some.injEq, Prod.mk.injEq] at h
      obtain ⟨rfl, rfl⟩ := h
      exact ⟨.switch d, rfl, g, by simp [Stmt.isBlock, Stmt.isLoop]⟩

end Verif.MultiExit
