import Verif.Proof.MultiExitB
/-! The pass makes a translation. -/

namespace Verif.MultiExit

/-- The labels that are used are known. -/
structure Fits (E : Ent) (e : Entry) : Prop where
  kind : E.kind = e.kind
  ls : E.ls = e.ls
  f : e.firstUsed → E.l1 = some e.first
  s : e.kind = .loop ∨ e.kind = .switch → e.secondUsed → E.l2 = some e.second

inductive Compat : List Ent → List Entry → Prop
  | nil : Compat [] []
  | cons {E e Γ es} : Fits E e → Compat Γ es → Compat (E :: Γ) (e :: es)

theorem Fits.mono {E : Ent} {a b : Entry} (h : a.Le b) (f : Fits E b) : Fits E a where
  kind := f.kind.trans h.kind
  ls := f.ls.trans h.ls
  f hu := by rw [f.f (h.f hu), h.first]
  s hk hu := by rw [f.s (by rw [h.kind]; exact hk) (h.s hu), h.second]

theorem Compat.mono : ∀ {Γ : List Ent} {a b : List Entry}, Grow a b → Compat Γ b → Compat Γ a
  | _, _, _, .nil, h => h
  | _, _, _, .cons h g, .cons f c => .cons (f.mono h) (c.mono g)

theorem Compat.ex : ∀ es : List Entry, ∃ Γ, Compat Γ es
  | [] => ⟨[], .nil⟩
  | e :: es => (Compat.ex es).elim fun Γ h => ⟨⟨e.kind, e.ls, some e.first, some e.second⟩ :: Γ, .cons ⟨rfl, rfl, fun _ => rfl, fun _ _ => rfl⟩ h⟩

theorem useEntry_exit {b : Br} {t : Option Label} : ∀ {es : List Entry} {l : Label} {es' : List Entry} {Γ : List Ent},
    useEntry b t es = some (l, es') → Compat Γ es' → exitLab b t Γ = some l
  | [], _, _, _, h, _ => by simp [useEntry] at h
  | e :: es, l, es', Γ, h, hc => by
    simp only [useEntry] at h
    split at h
    · rename_i hs
      split at h
      · rename_i ht
        simp only [Option.map_eq_some_iff, Prod.mk.injEq] at h
        obtain ⟨⟨l', e'⟩, h1, rfl, rfl⟩ := h
        cases hc with
        | @cons E _ Γ _ f c =>
          have hk : e'.kind = e.kind ∧ e'.ls = e.ls := by
            cases b <;> simp only [Entry.use, Option.some.injEq, Prod.mk.injEq, reduceCtorEq] at h1
            · obtain ⟨-, rfl⟩ := h1; exact ⟨rfl, rfl⟩
            · obtain ⟨-, rfl⟩ := h1; exact ⟨rfl, rfl⟩
            · obtain ⟨-, rfl⟩ := h1; exact ⟨rfl, rfl⟩
            · split at h1
              · simp only [Option.some.injEq, Prod.mk.injEq] at h1; obtain ⟨-, rfl⟩ := h1; exact ⟨rfl, rfl⟩
              · simp at h1
          have k1 : E.kind = e.kind := f.kind.trans hk.1
          have k2 : E.ls = e.ls := f.ls.trans hk.2
          simp only [exitLab, k1, k2, hs, ht, if_true]
          cases b <;> simp only [Entry.use, Option.some.injEq, Prod.mk.injEq, reduceCtorEq] at h1
          · obtain ⟨rfl, rfl⟩ := h1; exact f.f rfl
          · obtain ⟨rfl, rfl⟩ := h1; exact f.s (.inl (by simpa [Kind.isTarget] using ht)) rfl
          · obtain ⟨rfl, rfl⟩ := h1; exact f.f rfl
          · split at h1
            · simp only [Option.some.injEq, Prod.mk.injEq] at h1; obtain ⟨rfl, rfl⟩ := h1; exact f.s (.inr (by simpa [Kind.isTarget] using ht)) rfl
            · simp at h1
      · simp at h
    · rename_i hs
      simp only [Option.map_eq_some_iff, Prod.mk.injEq] at h
      obtain ⟨⟨l', es''⟩, h1, rfl, rfl⟩ := h
      cases hc with
      | @cons E _ Γ _ f c =>
        simp only [exitLab, f.kind, f.ls, hs]
        exact useEntry_exit h1 c

mutual
theorem Stmt.plain_ok : ∀ {s : Stmt}, s.plain → s.ok
  | .null _, _ | .act _ _, _ | .ret _ _, _ | .branch _ _ _, _ => rfl
  | .block _ kids, h => by simp only [Stmt.plain, Bool.and_eq_true] at h; exact Stmts.plain_ok h.2
  | .ite _ _ t e, h => by simp only [Stmt.plain, Bool.and_eq_true] at h; simp [Stmt.ok, Stmt.plain_ok h.1.2, Opt.plain_ok h.2]
  | .loop _ _ _ _ body els, h => by simp only [Stmt.plain, Bool.and_eq_true] at h; simp [Stmt.ok, Stmt.plain_ok h.1.2, Opt.plain_ok h.2]
  | .switch _ _ cs, h => by simp only [Stmt.plain, Bool.and_eq_true] at h; simp [Stmt.ok, h.1.2, Cases.plain_ok h.2]
theorem Opt.plain_ok : ∀ {s : Opt}, s.plain → s.ok
  | .none, _ => rfl
  | .some s, h => by simp only [Opt.plain, Bool.and_eq_true] at h; exact Stmt.plain_ok h.2
theorem Stmts.plain_ok : ∀ {s : Stmts}, s.plain → s.ok
  | .nil, _ => rfl
  | .cons s ss, h => by simp only [Stmts.plain, Bool.and_eq_true] at h; simp [Stmts.ok, Stmt.plain_ok h.1, Stmts.plain_ok h.2]
theorem Cases.plain_ok : ∀ {s : Cases}, s.plain → s.ok
  | .nil, _ => rfl
  | .cons _ .nil cs, h => by simp only [Cases.plain] at h; simp [Cases.ok, Stmts.ok, Cases.plain_ok h]
  | .cons _ (.cons (.block ls kids) .nil) cs, h => by
    simp only [Cases.plain, Bool.and_eq_true] at h; simp [Cases.ok, Stmts.ok, Stmt.ok, Stmts.plain_ok h.1.2, Cases.plain_ok h.2]
  | .cons _ (.cons (.block _ _) (.cons _ _)) _, h | .cons _ (.cons (.null _) _) _, h | .cons _ (.cons (.act _ _) _) _, h | .cons _ (.cons (.ret _ _) _) _, h
  | .cons _ (.cons (.branch _ _ _) _) _, h | .cons _ (.cons (.ite _ _ _ _) _) _, h | .cons _ (.cons (.loop _ _ _ _ _ _) _) _, h
  | .cons _ (.cons (.switch _ _ _) _) _, h => by simp [Cases.plain] at h
end

/-- The first visit makes a translation. -/
def Makes (v : Stmt → M Stmt) : Prop := ∀ s st s' st', v s st = some (s', st') → s.plain → st.brk = none → splitElse s = none →
  (∀ Γ, Compat Γ st'.encl → Sim Γ s s' st'.brk) ∧ BG st' ∧ (s.isBlock → st'.brk = none)

theorem splitElse_block {s : Stmt} (h : s.isBlock) : splitElse s = none := by cases s <;> simp_all [splitElse, Stmt.isBlock]

theorem visitKid_makes {v : Stmt → M Stmt} (hv : Makes v) (ha : Again v) (hgd : Good v) {kid : Stmt} {st : St} {r : Stmt × Option Label} {st' : St}
    (h : visitKid v kid st = some (r, st')) (ok : kid.plain) (hb : st.brk = none) :
    (∀ Γ, Compat Γ st'.encl → Sim Γ kid r.1 r.2) ∧ Gens r.2.toList ∧ st'.brk = none := by
  unfold visitKid at h
  split at h
  · rename_i hs
    simp only [Option.map_eq_some_iff, Prod.mk.injEq] at h
    obtain ⟨⟨s', st1⟩, h1, rfl, rfl⟩ := h
    obtain ⟨m, g, -⟩ := hv _ _ _ _ h1 ok hb hs
    exact ⟨m, fun l h => g l (by simpa [Option.mem_toList] using h), rfl⟩
  · rename_i s0 e hs
    obtain ⟨ls, post, c, inc, body, rfl, rfl⟩ := splitElse_some hs
    simp only [Option.bind_eq_some_iff, Option.map_eq_some_iff, Prod.mk.injEq] at h
    obtain ⟨⟨s1, st1⟩, h1, ⟨s2, st2⟩, h2, ⟨s3, st3⟩, h3, rfl, rfl⟩ := h
    simp only [Stmt.plain, Opt.plain, Bool.and_eq_true] at ok
    obtain ⟨m1, g1, -⟩ := hv _ _ _ _ h1 (by simp [Stmt.plain, Opt.plain, ok.1]) hb rfl
    obtain ⟨m2, -, b2⟩ := hv _ _ _ _ h2 ok.2.2 rfl (splitElse_block ok.2.1)
    have b2 := b2 ok.2.1
    have w := (hgd _ _ _ _ h2 (Stmt.plain_ok ok.2.2)).2.grow
    have m12 : ∀ Γ, Compat Γ st2.encl → Sim Γ (.loop ls post c inc body (.some e)) (setElse s1 s2) st1.brk := by
      intro Γ hc
      have i1 := m1 Γ (hc.mono w)
      have i2 := m2 Γ hc
      rw [b2] at i2
      have bo : e.isBlock := ok.2.1
      cases hx : st1.brk <;> rw [hx] at i1 <;> cases i1 with
      | loop hb h1 h2 => exact .loop hb h1 (.some bo i2)
      | loopW hb h1 q3 q4 h2 => exact .loopW hb h1 q3 q4 (.some bo i2)
    obtain ⟨Γ0, hc0⟩ := Compat.ex st2.encl
    have l12 : (setElse s1 s2).isLoop := by
      have := m12 Γ0 hc0
      generalize setElse s1 s2 = x at this
      generalize st1.brk = y at this
      cases this <;> rfl
    obtain ⟨d, e3, g3, b3⟩ := ha _ _ _ _ h3 (m12 Γ0 hc0).out (by intro l h; rw [b2] at h; nomatch h)
    refine ⟨fun Γ hc => (m12 Γ (by rw [← e3]; exact hc)).deco d, fun l h => g1 l (by simpa [Option.mem_toList] using h), b3 b2 (by simp [l12])⟩

theorem fixBlock_makes {v : Stmt → M Stmt} (hv : Makes v) (ha : Again v) (hgd : Good v) (hl : Loops v) {ic : Bool} : ∀ {ss : Stmts} {st : St} {ss' : Stmts} {st' : St},
    fixBlock v ic ss st = some (ss', st') → ss.plain → st.brk = none → (∀ Γ, Compat Γ st'.encl → SimL Γ none ss ss') ∧ st'.brk = none
  | .nil, st, ss', st', h, _, hb => by
    simp only [fixBlock, Option.some.injEq, Prod.mk.injEq] at h
    obtain ⟨rfl, rfl⟩ := h
    exact ⟨fun _ _ => .nil, hb⟩
  | .cons kid kids, st, ss', st', h, ok, hb => by
    simp only [fixBlock, Option.bind_eq_some_iff, Option.map_eq_some_iff, Prod.mk.injEq] at h
    obtain ⟨⟨⟨k', P⟩, st1⟩, h1, ⟨ks', st2⟩, h2, rfl, rfl⟩ := h
    simp only [Stmts.plain, Bool.and_eq_true] at ok
    obtain ⟨m1, g1, b1⟩ := visitKid_makes hv ha hgd h1 ok.1 (by rw [seen_brk]; exact hb)
    obtain ⟨m2, b2⟩ := fixBlock_makes hv ha hgd hl h2 ok.2 b1
    have w := (fixBlock_good hgd hl h2 (Stmts.plain_ok ok.2)).2.grow
    refine ⟨fun Γ hc => ?_, b2⟩
    have i1 := m1 Γ (hc.mono w)
    have i2 := m2 Γ hc
    cases P with
    | none => exact .cons i1 i2
    | some l => exact .cons i1 (.emit (g1 l (by simp)) i2)

/-- The label at the end of a list, if any. -/
def atEnd : Option Label → Stmts → Stmts
  | none, ss => ss
  | some l, ss => ss.snoc (.null [l])
/-- The label at the end of the last clause, if any. -/
def fin (o : Option Label) : Cases → Cases
  | .nil => .nil
  | .cons v ss .nil => .cons v (atEnd o ss) .nil
  | .cons v ss (.cons v' ss' cs) => .cons v ss (fin o (.cons v' ss' cs))

theorem fin_none : ∀ cs, fin none cs = cs
  | .nil => rfl
  | .cons v ss .nil => rfl
  | .cons v ss (.cons v' ss' cs) => by rw [fin, fin_none]
theorem fin_some {l : Label} : ∀ {cs : Cases}, cs ≠ .nil → fin (some l) cs = placeBreak l cs
  | .nil, h => absurd rfl h
  | .cons v ss .nil, _ => rfl
  | .cons v ss (.cons v' ss' cs), _ => by rw [fin, fin_some (by simp), placeBreak]

theorem nulls_snoc {l : Label} : ∀ (N : List Label) (ss : Stmts), (nulls N ss).snoc (.null [l]) = nulls N (ss.snoc (.null [l]))
  | [], _ => rfl
  | _ :: N, ss => by simp only [nulls, Stmts.snoc, nulls_snoc N ss]

theorem atEnd_nulls (o : Option Label) (N : List Label) : atEnd o (nulls N .nil) = nulls (N ++ o.toList) .nil := by
  cases o with
  | none => simp [atEnd]
  | some l => rw [atEnd, nulls_snoc, nulls_append]; rfl
theorem atEnd_block (o : Option Label) (N1 N2 : List Label) (s : Stmt) :
    atEnd o (nulls N1 (.cons s (nulls N2 .nil))) = nulls N1 (.cons s (nulls (N2 ++ o.toList) .nil)) := by
  cases o with
  | none => simp [atEnd]
  | some l => rw [atEnd, nulls_snoc, Stmts.snoc, nulls_snoc, nulls_append]; rfl

theorem nulls_of_if (p : Prop) [Decidable p] (l : Label) (ss : Stmts) : (if p then .cons (.null [l]) ss else ss) = nulls (if p then [l] else []) ss := by
  split <;> rfl

theorem visitCases_makes {v : Stmt → M Stmt} (hv : Makes v) (ha : Again v) (hgd : Good v) (hl : Loops v) :
    ∀ {cs : Cases} {st : St} {e : Entry} {es : List Entry} (_ : st.encl = e :: es) (_ : e.kind = .switch) (_ : e.second.isUser = false)
      {cs' : Cases} {st' : St} (_ : visitCases v cs st = some (cs', st')) (_ : cs.plain) (_ : st.brk = none),
    (∀ (E : Ent) (Γ : List Ent), Compat (E :: Γ) st'.encl → (∀ e' es', st'.encl = e' :: es' → ∀ l, E.l2 = some l → l = e.second ∧ e'.secondUsed) →
      (∀ l, E.l1 = some l → l.isUser = false) → SimC E Γ cs (fin E.l1 cs')) ∧ st'.brk = none
  | .nil, st, e, es, hes, hk, hu, cs', st', h, _, hb => by
    simp only [visitCases, Option.some.injEq, Prod.mk.injEq] at h
    obtain ⟨rfl, rfl⟩ := h
    exact ⟨fun _ _ _ _ _ => .nil, hb⟩
  | .cons w ss cs, st, e, es, hes, hk, hu, cs', st', h, ok, hb => by
    simp only [visitCases, Option.bind_eq_some_iff, Option.map_eq_some_iff, Prod.mk.injEq] at h
    obtain ⟨⟨ss1, st1⟩, h1, ⟨cs1, st2⟩, h2, rfl, rfl⟩ := h
    simp only [caseClause, Option.bind_eq_some_iff] at h1
    obtain ⟨⟨ss2, st3⟩, h3, h1⟩ := h1
    simp only at h2 h1
    obtain ⟨e0, he0, hle0, hv0, -, hb0⟩ := seenDefault_spec (d := w.isNone) hes
    have okc : cs.plain ∧ (ss = .nil ∨ ∃ kids, ss = .cons (.block [] kids) .nil ∧ kids.plain) := by
      unfold Cases.plain at ok
      split at ok
      · rename_i h; cases h
      · rename_i h; cases h; exact ⟨ok, .inl rfl⟩
      · rename_i h; cases h; simp only [Bool.and_eq_true, decide_eq_true_eq] at ok
        obtain ⟨⟨rfl, ok1⟩, ok2⟩ := ok
        exact ⟨ok2, .inr ⟨_, rfl, ok1⟩⟩
      · cases ok
    obtain ⟨okcs, okss⟩ := okc
    -- the block
    have key : ∃ e1 es1, st3.encl = e1 :: es1 ∧ e0.Le e1 ∧ st3.brk = none ∧
        ((ss = .nil ∧ ss2 = .nil) ∨ ∃ kids kids' lf, ss = .cons (.block [] kids) .nil ∧ ss2 = .cons (.block [] kids') (nulls lf.toList .nil) ∧ Gens lf.toList ∧
          ∀ Γ, Compat Γ (e1 :: es1) → SimL (⟨.case, [], lf, none⟩ :: Γ) none kids kids') := by
      rcases okss with rfl | ⟨kids, rfl, okk⟩
      · simp only [caseBlock, Option.some.injEq, Prod.mk.injEq] at h3
        obtain ⟨rfl, rfl⟩ := h3
        exact ⟨e0, es, he0, .refl _, hb0.trans hb, .inl ⟨rfl, rfl⟩⟩
      · simp only [caseBlock, Option.bind_eq_some_iff] at h3
        obtain ⟨⟨ks, st4⟩, h4, h5⟩ := h3
        obtain ⟨m, b⟩ := fixBlock_makes hv ha hgd hl h4 okk (hb0.trans hb)
        have w4 := (fixBlock_good hgd hl h4 (Stmts.plain_ok okk)).2.grow
        simp only [he0] at w4
        obtain ⟨ec, es4, he4, hlec, w5⟩ := w4.inv
        obtain ⟨e1, es1, rfl, hle1, w6⟩ := w5.inv
        simp only [he4, Option.some.injEq, Prod.mk.injEq] at h5
        obtain ⟨rfl, rfl⟩ := h5
        refine ⟨e1, es1, rfl, hle1, b, .inr ⟨kids, ks, if ec.firstUsed then some (.gen (seenDefault w.isNone st).fresh) else none, rfl, ?_, ?_, fun Γ hc => ?_⟩⟩
        · split <;> rfl
        · intro l hl; split at hl <;> simp_all [Label.isUser]
        · refine m _ ?_
          rw [he4]
          refine .cons ⟨hlec.kind.symm, hlec.ls.symm, fun hf => ?_, fun hk => ?_⟩ hc
          · simp only [hf, if_true, hlec.first]
          · rw [hlec.kind] at hk; simp at hk
    obtain ⟨e1, es1, he1, hle1, hb1, hss⟩ := key
    simp only [he1, Option.some.injEq, Prod.mk.injEq] at h1
    obtain ⟨rfl, rfl⟩ := h1
    have hle := hle0.trans hle1
    obtain ⟨m2, b2⟩ := visitCases_makes hv ha hgd hl he1 (hle.kind.trans hk) (by rw [hle.second]; exact hu) h2 okcs hb1
    obtain ⟨-, hvals, -, w2, -⟩ := visitCases_good hgd hl he1 h2 (Cases.plain_ok okcs)
    refine ⟨fun E Γ hc h2' h1' => ?_, b2⟩
    have i2 := m2 E Γ hc (by rw [hle.second]; exact h2') h1'
    rw [he1] at w2
    obtain ⟨e2, es2, he2, hle2, -⟩ := w2.inv
    have hc1 : Compat (E :: Γ) (e1 :: es1) := hc.mono (by rw [he2] at w2 ⊢; exact w2)
    have h2'' := h2' _ _ he2
    -- the label of `default`
    have hdef : w = none → ∀ l, E.l2 = some l → l ∈ (if w.isNone = true ∧ e1.secondUsed = true then [e1.second] else []) := by
      rintro rfl l hl
      have ⟨q1, q2⟩ := h2'' l hl
      have q3 := hle1.valid (hle0.kind.trans hk) (hv0 rfl)
      have q4 := hle2.valid (hle.kind.trans hk) q3.1
      have q5 : e1.secondUsed = true := q4.2 ▸ q2
      simp [q5, q1, hle.second]
    have hdg : Gens (if w.isNone = true ∧ e1.secondUsed = true then [e1.second] else []) := by
      intro l hl; split at hl
      · simp only [List.mem_singleton] at hl; rw [hl, hle.second]; exact hu
      · cases hl
    rw [nulls_of_if]
    generalize (if w.isNone = true ∧ e1.secondUsed = true then [e1.second] else []) = N1 at hdef hdg ⊢
    have g1 : Gens E.l1.toList := fun l hl => h1' l (by simpa [Option.mem_toList] using hl)
    have in1 : ∀ l, E.l1 = some l → l ∈ E.l1.toList := by intro l hl; simp [hl]
    rcases hss with ⟨rfl, rfl⟩ | ⟨kids, kids', lf, rfl, rfl, hgf, hs⟩
    · cases cs1 with
      | nil =>
        obtain rfl : cs = .nil := by cases cs <;> simp_all [vals]
        rw [fin, atEnd_nulls]
        exact .cons0 (hdg.append g1) (fun hw l hl => List.mem_append_left _ (hdef hw l hl)) (fun _ l hl => List.mem_append_right _ (in1 l hl)) .nil
      | cons w' ss' cs' =>
        have : cs ≠ .nil := by rintro rfl; simp [vals] at hvals
        rw [fin]
        exact .cons0 hdg hdef (fun h => absurd h this) i2
    · have hs := hs _ hc1
      cases cs1 with
      | nil =>
        obtain rfl : cs = .nil := by cases cs <;> simp_all [vals]
        rw [fin, atEnd_block]
        exact .cons1 hdg (hgf.append g1) hdef (fun l hl => List.mem_append_left _ (by simp [hl])) (fun _ l hl => List.mem_append_right _ (in1 l hl)) hs .nil
      | cons w' ss' cs' =>
        have : cs ≠ .nil := by rintro rfl; simp [vals] at hvals
        rw [fin]
        exact .cons1 hdg hgf hdef (fun l hl => by simp [hl]) (fun h => absurd h this) hs i2

theorem visit_makes : ∀ n, Makes (visit n)
  | 0 => by intro s st s' st' h; simp [visit] at h
  | n + 1 => by
    intro s st s' st' h ok hb hs
    have hv := visit_makes n
    have ha := visit_again n
    have hgd := visit_good n
    have hl := visit_loops n
    have bg0 : BG st := by intro l h; rw [hb] at h; nomatch h
    simp only [visit] at h
    cases s <;> simp only [visitStmt] at h
    case null | act | ret =>
      simp only [Option.some.injEq, Prod.mk.injEq] at h; obtain ⟨rfl, rfl⟩ := h
      exact ⟨fun _ _ => by rw [hb]; constructor, bg0, fun _ => hb⟩
    case branch ls b t =>
      simp only [Stmt.plain, Bool.and_eq_true, Bool.or_eq_true, decide_eq_true_eq, ne_eq, decide_not, Bool.not_eq_eq_eq_not, Bool.not_true, decide_eq_false_iff_not] at ok
      obtain ⟨⟨-, hls⟩, ht⟩ := ok
      have rest : b ≠ .goto → (b = .fall → t = none) → (useEntry b t st.encl).map (fun r => (Stmt.branch [] .goto (some r.1), { st with encl := r.2 })) = some (s', st') →
          (∀ Γ, Compat Γ st'.encl → Sim Γ (.branch ls b t) s' st'.brk) ∧ BG st' ∧ ((Stmt.branch ls b t).isBlock → st'.brk = none) := by
        intro hng hf h
        simp only [Option.map_eq_some_iff, Prod.mk.injEq] at h
        obtain ⟨⟨l, es⟩, h1, rfl, rfl⟩ := h
        obtain rfl : ls = [] := hls.elim (fun h => absurd h hng) id
        refine ⟨fun Γ hc => ?_, bg0, fun _ => hb⟩
        show Sim _ _ _ st.brk
        rw [hb]; exact .exit (useEntry_exit h1 hc) hf
      unfold branch at h
      split at h
      · simp only [Option.some.injEq, Prod.mk.injEq] at h; obtain ⟨rfl, rfl⟩ := h
        refine ⟨fun Γ _ => ?_, bg0, fun _ => hb⟩
        rw [hb]
        cases t with
        | none => simp at ht
        | some l => exact .goto
      · split at h
        · simp only [Option.some.injEq, Prod.mk.injEq] at h; obtain ⟨rfl, rfl⟩ := h
          obtain rfl : ls = [] := by simpa using hls
          refine ⟨fun Γ _ => ?_, bg0, fun _ => hb⟩
          rw [hb]; exact .fallL
        · simp at h
      · rename_i h1 h2
        refine rest (fun e => h1 e) (fun e => ?_) h
        cases t with
        | none => rfl
        | some l => exact (h2 l e rfl).elim
    case block ls ss =>
      simp only [Stmt.plain, Bool.and_eq_true] at ok
      unfold compound at h
      split at h
      · rename_i hls
        subst hls
        simp only [Option.map_eq_some_iff, Prod.mk.injEq] at h
        obtain ⟨⟨ss', st1⟩, h1, rfl, rfl⟩ := h
        obtain ⟨m, b⟩ := fixBlock_makes hv ha hgd hl h1 ok.2 hb
        exact ⟨fun Γ hc => by simp only [b]; exact .block (m Γ hc), fun l h => by simp [b] at h, fun _ => b⟩
      · rename_i hls
        simp only [Option.map_eq_some_iff, Prod.mk.injEq] at h
        obtain ⟨⟨ss', st1⟩, h1, rfl, rfl⟩ := h
        obtain ⟨m, b⟩ := fixBlock_makes hv ha hgd hl h1 ok.2 hb
        obtain ⟨e1, es1, he1, hle, -⟩ := (fixBlock_good hgd hl h1 (Stmts.plain_ok ok.2)).2.grow.inv
        refine ⟨fun Γ hc => ?_, fun l h => ?_, by simp [Stmt.isBlock, hls]⟩
        · simp only [he1, List.tail_cons] at hc
          refine .blockL hls (m _ ?_)
          simp only [he1]
          refine .cons ⟨hle.kind.symm, hle.ls.symm, fun _ => by rw [hle.first], fun hk => ?_⟩ hc
          rw [hle.kind] at hk; simp at hk
        · simp only [Option.some.injEq] at h; subst h; rfl
    case ite ls c t e =>
      simp only [Stmt.plain, Bool.and_eq_true] at ok
      simp only [visitIf, Option.bind_eq_some_iff, Option.map_eq_some_iff, Prod.mk.injEq] at h
      obtain ⟨⟨t', st1⟩, h1, ⟨e', st2⟩, h2, rfl, rfl⟩ := h
      obtain ⟨m1, -, b1⟩ := hv _ _ _ _ h1 ok.1.2 (by split <;> exact hb) (splitElse_block ok.1.1.2)
      have b1 := b1 ok.1.1.2
      simp only at h2 b1
      have w1 := (hgd _ _ _ _ h1 (Stmt.plain_ok ok.1.2)).2.grow
      have w2 := (visitOpt_good hgd h2 (Opt.plain_ok ok.2)).2.grow
      have m2 : (∀ Γ, Compat Γ st2.encl → SimO Γ e e') ∧ st2.brk = none := by
        cases e with
        | none =>
          simp only [visitOpt, Option.some.injEq, Prod.mk.injEq] at h2
          obtain ⟨rfl, rfl⟩ := h2
          exact ⟨fun _ _ => .none, b1⟩
        | some s =>
          simp only [visitOpt, Option.map_eq_some_iff, Prod.mk.injEq] at h2
          obtain ⟨⟨s', st3⟩, h3, rfl, rfl⟩ := h2
          have ok2 := ok.2
          simp only [Opt.plain, Bool.and_eq_true] at ok2
          obtain ⟨m, -, b⟩ := hv _ _ _ _ h3 ok2.2 b1 (splitElse_block ok2.1)
          exact ⟨fun Γ hc => .some ok2.1 (by have := m Γ hc; rw [b ok2.1] at this; exact this), b ok2.1⟩
      obtain ⟨m2, b2⟩ := m2
      simp only [b1] at m1
      by_cases hls : ls = []
      · subst hls
        simp only [if_true]
        refine ⟨fun Γ hc => ?_, fun l h => by simp [b2] at h, by simp [Stmt.isBlock]⟩
        rw [b2]
        exact .ite ok.1.1.2 (m1 Γ (hc.mono w2)) (m2 Γ hc)
      · simp only [hls, if_false] at w1 ⊢
        obtain ⟨e1, es1, he1, hle, -⟩ := (w1.trans w2).inv
        refine ⟨fun Γ hc => ?_, fun l h => ?_, by simp [Stmt.isBlock]⟩
        · simp only [he1, List.tail_cons] at hc
          have hc2 : Compat (⟨.ite, ls, some (.gen st.fresh), none⟩ :: Γ) st2.encl := by
            simp only [he1]
            refine .cons ⟨hle.kind.symm, hle.ls.symm, fun _ => by rw [hle.first], fun hk => ?_⟩ hc
            rw [hle.kind] at hk; simp at hk
          exact .iteL hls ok.1.1.2 (m1 _ (hc2.mono w2)) (m2 _ hc2)
        · simp only [Option.some.injEq] at h; subst h; rfl
    case loop ls post c inc body els =>
      cases els with
      | some e => simp [splitElse] at hs
      | none =>
      simp only [Stmt.plain, Bool.and_eq_true] at ok
      simp only [visitLoop, visitOpt, Option.bind_eq_some_iff] at h
      obtain ⟨⟨b', st1⟩, h1, ⟨e', st2⟩, h2, h⟩ := h
      simp only [Option.some.injEq, Prod.mk.injEq] at h2
      obtain ⟨rfl, rfl⟩ := h2
      obtain ⟨m1, -, b1⟩ := hv _ _ _ _ h1 ok.1.2 hb (splitElse_block ok.1.1.2)
      have b1 := b1 ok.1.1.2
      obtain ⟨en, es, he, hle, -⟩ := (hgd _ _ _ _ h1 (Stmt.plain_ok ok.1.2)).2.grow.inv
      simp only [he, b1, Option.some.injEq, Prod.mk.injEq] at h
      obtain ⟨rfl, rfl⟩ := h
      refine ⟨fun Γ hc => ?_, fun l h => ?_, by simp [Stmt.isBlock]⟩
      · simp only [b1] at m1
        simp only at hc ⊢
        have f : ∀ l2, (en.secondUsed → l2 = some (.gen (st.fresh + 1))) →
            Compat (⟨.loop, ls, if en.firstUsed = true then some (.gen st.fresh) else none, l2⟩ :: Γ) st1.encl := by
          intro l2 h2
          rw [he]
          refine .cons ⟨hle.kind.symm, hle.ls.symm, fun hf => ?_, fun _ hs => ?_⟩ hc
          · simp only [hf, if_true, hle.first]
          · simp only [h2 hs, hle.second]
        by_cases hu : en.secondUsed
        · simp only [hu, wrap, if_true]
          exact .loopW (N := [_]) ok.1.1.2 (m1 _ (f _ fun _ => rfl)) (List.mem_singleton.2 rfl) (by intro l h; simp only [List.mem_singleton] at h; subst h; rfl) .none
        · simp only [hu, wrap]
          exact .loop ok.1.1.2 (m1 _ (f _ fun h => absurd h hu)) .none
      · simp only at h
        split at h
        · simp only [Option.some.injEq] at h; subst h; rfl
        · cases h
    case switch ls e cs =>
      simp only [Stmt.plain, Bool.and_eq_true] at ok
      simp only [visitSwitch, Option.bind_eq_some_iff] at h
      obtain ⟨fl, -, ⟨cs1, st1⟩, h1, h⟩ := h
      obtain ⟨m, b⟩ := visitCases_makes hv ha hgd hl rfl rfl rfl h1 ok.2 hb
      obtain ⟨-, hvals, -, w, -⟩ := visitCases_good hgd hl rfl h1 (Cases.plain_ok ok.2)
      obtain ⟨en, es, he, hle, -⟩ := w.inv
      simp only [he, Option.some.injEq, Prod.mk.injEq] at h
      obtain ⟨rfl, rfl⟩ := h
      refine ⟨fun Γ hc => ?_, fun l h => by simp [b] at h, by simp [Stmt.isBlock]⟩
      simp only at hc b ⊢
      rw [b]
      have hne : en.firstUsed → cs ≠ .nil := by
        rintro hf rfl
        simp only [visitCases, Option.some.injEq, Prod.mk.injEq] at h1
        obtain ⟨rfl, rfl⟩ := h1
        simp only [List.cons.injEq] at he
        rw [← he.1] at hf; simp at hf
      have i := m ⟨.switch, ls, if en.firstUsed then some (.gen st.fresh) else none, if en.secondUsed then some (.gen (st.fresh + 1)) else none⟩ Γ
        (by
          simp only [he]
          refine .cons ⟨hle.kind.symm, hle.ls.symm, fun hf => ?_, fun _ hs => ?_⟩ hc
          · simp only [hf, if_true, hle.first]
          · simp only [hs, if_true, hle.second])
        (by
          intro e' es' he' l hl
          simp only [he, List.cons.injEq] at he'
          obtain ⟨rfl, rfl⟩ := he'
          simp only at hl
          split at hl
          · rename_i hs; simp only [Option.some.injEq] at hl; exact ⟨hl.symm, hs⟩
          · cases hl)
        (by
          intro l hl
          simp only at hl
          split at hl
          · simp only [Option.some.injEq] at hl; subst hl; rfl
          · cases hl)
      have ecs : (if en.firstUsed = true then placeBreak (.gen st.fresh) cs1 else cs1) = fin (if en.firstUsed then some (.gen st.fresh) else none) cs1 := by
        split
        · rename_i hf
          rw [fin_some]
          have := hne hf
          rintro rfl
          cases cs <;> simp_all [vals]
        · rw [fin_none]
      rw [ecs]
      refine .switch ?_ ?_ i
      · intro h
        split at h
        · rename_i hf; exact hne hf
        · exact absurd rfl h
      · intro h
        split at h
        · rename_i hs
          rcases hle.d rfl hs with h | h
          · cases h
          · exact h
        · exact absurd rfl h

end Verif.MultiExit
