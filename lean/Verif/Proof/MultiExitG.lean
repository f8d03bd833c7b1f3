import Verif.Proof.MultiExitF
/-! Labels of the translation. -/

namespace Verif.MultiExit

mutual
theorem Stmt.plain_labels : ∀ {s : Stmt}, s.plain → (∀ l ∈ s.labels, l.isUser) ∧ ∀ l ∈ s.targets, l.isUser
  | .null _, h | .act _ _, h | .ret _ _, h => by simp only [Stmt.plain, List.all_eq_true] at h; exact ⟨h, by simp [Stmt.targets]⟩
  | .branch _ _ t, h => by
    simp only [Stmt.plain, List.all_eq_true, Bool.and_eq_true] at h
    refine ⟨h.1.1.1, fun l hl => ?_⟩
    simp only [Stmt.targets, Option.mem_toList, Option.mem_def] at hl
    have := h.1.1.2; subst hl; simpa using this
  | .block _ kids, h => by
    simp only [Stmt.plain, List.all_eq_true, Bool.and_eq_true] at h
    have i := Stmts.plain_labels h.2
    exact ⟨fun l hl => (List.mem_append.1 hl).elim (h.1 l) (i.1 l), i.2⟩
  | .ite _ _ t e, h => by
    simp only [Stmt.plain, List.all_eq_true, Bool.and_eq_true] at h
    have i := Stmt.plain_labels h.1.2
    have j := Opt.plain_labels h.2
    exact ⟨fun l hl => (List.mem_append.1 hl).elim (fun hl => (List.mem_append.1 hl).elim (h.1.1.1 l) (i.1 l)) (j.1 l), fun l hl => (List.mem_append.1 hl).elim (i.2 l) (j.2 l)⟩
  | .loop _ _ _ _ body els, h => by
    simp only [Stmt.plain, List.all_eq_true, Bool.and_eq_true] at h
    have i := Stmt.plain_labels h.1.2
    have j := Opt.plain_labels h.2
    exact ⟨fun l hl => (List.mem_append.1 hl).elim (fun hl => (List.mem_append.1 hl).elim (h.1.1.1 l) (i.1 l)) (j.1 l), fun l hl => (List.mem_append.1 hl).elim (i.2 l) (j.2 l)⟩
  | .switch _ _ cs, h => by
    simp only [Stmt.plain, List.all_eq_true, Bool.and_eq_true] at h
    have i := Cases.plain_labels h.2
    exact ⟨fun l hl => (List.mem_append.1 hl).elim (h.1.1 l) (i.1 l), i.2⟩
theorem Opt.plain_labels : ∀ {s : Opt}, s.plain → (∀ l ∈ s.labels, l.isUser) ∧ ∀ l ∈ s.targets, l.isUser
  | .none, _ => ⟨by simp [Opt.labels], by simp [Opt.targets]⟩
  | .some s, h => by simp only [Opt.plain, Bool.and_eq_true] at h; exact Stmt.plain_labels h.2
theorem Stmts.plain_labels : ∀ {s : Stmts}, s.plain → (∀ l ∈ s.labels, l.isUser) ∧ ∀ l ∈ s.targets, l.isUser
  | .nil, _ => ⟨by simp [Stmts.labels], by simp [Stmts.targets]⟩
  | .cons s ss, h => by
    simp only [Stmts.plain, Bool.and_eq_true] at h
    have i := Stmt.plain_labels h.1
    have j := Stmts.plain_labels h.2
    exact ⟨fun l hl => (List.mem_append.1 hl).elim (i.1 l) (j.1 l), fun l hl => (List.mem_append.1 hl).elim (i.2 l) (j.2 l)⟩
theorem Cases.plain_labels : ∀ {s : Cases}, s.plain → (∀ l ∈ s.labels, l.isUser) ∧ ∀ l ∈ s.targets, l.isUser
  | .nil, _ => ⟨by simp [Cases.labels], by simp [Cases.targets]⟩
  | .cons _ .nil cs, h => by
    simp only [Cases.plain] at h
    simpa [Cases.labels, Cases.targets, Stmts.labels, Stmts.targets] using Cases.plain_labels h
  | .cons _ (.cons (.block ls kids) .nil) cs, h => by
    simp only [Cases.plain, Bool.and_eq_true, decide_eq_true_eq] at h
    obtain ⟨⟨rfl, h1⟩, h2⟩ := h
    have i := Stmts.plain_labels h1
    have j := Cases.plain_labels h2
    simp only [Cases.labels, Cases.targets, Stmts.labels, Stmts.targets, Stmt.labels, Stmt.targets, List.nil_append, List.append_nil]
    exact ⟨fun l hl => (List.mem_append.1 hl).elim (i.1 l) (j.1 l), fun l hl => (List.mem_append.1 hl).elim (i.2 l) (j.2 l)⟩
  | .cons _ (.cons (.block _ _) (.cons _ _)) _, h | .cons _ (.cons (.null _) _) _, h | .cons _ (.cons (.act _ _) _) _, h | .cons _ (.cons (.ret _ _) _) _, h
  | .cons _ (.cons (.branch _ _ _) _) _, h | .cons _ (.cons (.ite _ _ _ _) _) _, h | .cons _ (.cons (.loop _ _ _ _ _ _) _) _, h
  | .cons _ (.cons (.switch _ _ _) _) _, h => by simp [Cases.plain] at h
end

theorem nulls_isC : ∀ (N : List Label) (ss : Stmts), (nulls N ss).isC = ss.isC
  | [], _ => rfl
  | _ :: N, ss => by simp [nulls, Stmts.isC, Stmt.isC, nulls_isC N ss]

mutual
theorem Sim.isC {Γ : List Ent} {s s' : Stmt} {P : Option Label} : Sim Γ s s' P → s'.isC
  | .null | .act | .ret | .goto | .fallL | .exit _ _ => by simp [Stmt.isC]
  | .block h | .blockL _ h => by simp [Stmt.isC, h.isC]
  | .ite _ h1 h2 | .iteL _ _ h1 h2 => by simp [Stmt.isC, h1.isC, h2.isC]
  | .loop _ h1 h2 => by simp [Stmt.isC, h1.isC, h2.isC]
  | .loopW _ h1 _ _ h2 => by simp [Stmt.isC, Stmts.isC, nulls_isC, h1.isC, h2.isC]
  | .switch _ _ h => by simp [Stmt.isC, h.isC]
theorem SimO.isC {Γ : List Ent} {s s' : Opt} : SimO Γ s s' → s'.isC
  | .none => by simp [Opt.isC]
  | .some _ h => by simp [Opt.isC, h.isC]
theorem SimL.isC {Γ : List Ent} {s s' : Stmts} {P : Option Label} : SimL Γ P s s' → s'.isC
  | .nil => by simp [Stmts.isC]
  | .cons h1 h2 => by simp [Stmts.isC, h1.isC, h2.isC]
  | .skip _ h | .emit _ h => by simp [Stmts.isC, Stmt.isC, h.isC]
theorem SimC.isC {E : Ent} {Γ : List Ent} {s s' : Cases} : SimC E Γ s s' → s'.isC
  | .nil => by simp [Cases.isC]
  | .cons0 _ _ _ h => by simp [Cases.isC, nulls_isC, Stmts.isC, h.isC]
  | .cons1 _ _ _ _ _ h1 h2 => by simp [Cases.isC, nulls_isC, Stmts.isC, Stmt.isC, h1.isC, h2.isC]
end

theorem nulls_labels : ∀ (N : List Label) (ss : Stmts), (nulls N ss).labels = N ++ ss.labels
  | [], _ => rfl
  | _ :: N, ss => by simp [nulls, Stmts.labels, Stmt.labels, nulls_labels N ss]
theorem nulls_targets : ∀ (N : List Label) (ss : Stmts), (nulls N ss).targets = ss.targets
  | [], _ => rfl
  | _ :: N, ss => by simp [nulls, Stmts.targets, Stmt.targets, nulls_targets N ss]

mutual
theorem Sim.keeps {l : Label} {Γ : List Ent} {s s' : Stmt} {P : Option Label} : Sim Γ s s' P → l ∈ s.labels → l ∈ s'.labels
  | .null, h | .act, h | .ret, h | .goto, h => h
  | .fallL, h | .exit _ _, h => by simp [Stmt.labels] at h
  | .block h1, h => h1.keeps h
  | .blockL _ h1, h => by simp only [Stmt.labels, List.mem_append] at h ⊢; exact h.imp_right h1.keeps
  | .ite _ h1 h2, h => by simp only [Stmt.labels, List.nil_append, List.mem_append] at h ⊢; exact h.imp h1.keeps h2.keeps
  | .iteL _ _ h1 h2, h => by simp only [Stmt.labels, List.mem_append] at h ⊢; exact h.imp (·.imp_right h1.keeps) h2.keeps
  | .loop _ h1 h2, h => by simp only [Stmt.labels, List.mem_append] at h ⊢; exact h.imp (·.imp_right h1.keeps) h2.keeps
  | .loopW _ h1 _ _ h2, h => by
    simp only [Stmt.labels, Stmts.labels, nulls_labels, List.nil_append, List.mem_append] at h ⊢; exact h.imp (·.imp_right fun h => .inl (h1.keeps h)) h2.keeps
  | .switch _ _ h1, h => by simp only [Stmt.labels, List.mem_append] at h ⊢; exact h.imp_right h1.keeps
theorem SimO.keeps {l : Label} {Γ : List Ent} {s s' : Opt} : SimO Γ s s' → l ∈ s.labels → l ∈ s'.labels
  | .none, h => h
  | .some _ h1, h => h1.keeps h
theorem SimL.keeps {l : Label} {Γ : List Ent} {s s' : Stmts} {P : Option Label} : SimL Γ P s s' → l ∈ s.labels → l ∈ s'.labels
  | .nil, h => h
  | .cons h1 h2, h => by simp only [Stmts.labels, List.mem_append] at h ⊢; exact h.imp h1.keeps h2.keeps
  | .skip _ h1, h | .emit _ h1, h => by simp only [Stmts.labels, List.mem_append]; exact .inr (h1.keeps h)
theorem SimC.keeps {l : Label} {E : Ent} {Γ : List Ent} {s s' : Cases} : SimC E Γ s s' → l ∈ s.labels → l ∈ s'.labels
  | .nil, h => h
  | .cons0 _ _ _ h1, h => by simp only [Cases.labels, Stmts.labels, List.nil_append, List.mem_append] at h ⊢; exact .inr (h1.keeps h)
  | .cons1 _ _ _ _ _ h1 h2, h => by
    simp only [Cases.labels, Stmts.labels, Stmt.labels, nulls_labels, List.nil_append, List.append_nil, List.mem_append] at h ⊢
    exact h.imp (fun h => .inr (.inl (h1.keeps h))) h2.keeps
end

/-- A label of an enclosing control structure. -/
def TG (Γ : List Ent) (l : Label) : Prop := ∃ E ∈ Γ, E.l1 = some l ∨ E.l2 = some l

theorem exitLab_tg {b : Br} {t : Option Label} {l : Label} : ∀ {Γ : List Ent}, exitLab b t Γ = some l → TG Γ l
  | [], h => by simp [exitLab] at h
  | E :: Γ, h => by
    simp only [exitLab] at h
    split at h
    · split at h
      · refine ⟨E, List.mem_cons_self .., ?_⟩
        cases b <;> simp only [Ent.use, reduceCtorEq] at h <;> simp [h]
      · cases h
    · obtain ⟨E', h1, h2⟩ := exitLab_tg h
      exact ⟨E', List.mem_cons_of_mem _ h1, h2⟩

theorem TG.cons {E : Ent} {Γ : List Ent} {l : Label} (h : TG (E :: Γ) l) : E.l1 = some l ∨ E.l2 = some l ∨ TG Γ l := by
  obtain ⟨E', h1, h2⟩ := h
  rcases List.mem_cons.1 h1 with rfl | h1
  · exact h2.elim .inl (.inr ∘ .inl)
  · exact .inr (.inr ⟨E', h1, h2⟩)

theorem SimL.placed {Γ : List Ent} {l : Label} {s s' : Stmts} : SimL Γ (some l) s s' → l ∈ s'.labels
  | .skip _ h => by simp only [Stmts.labels, List.mem_append]; exact .inr h.placed
  | .emit _ h => by simp [Stmts.labels, Stmt.labels]

theorem SimC.placed1 {E : Ent} {Γ : List Ent} {l : Label} (hl : E.l1 = some l) {s s' : Cases} : SimC E Γ s s' → s ≠ .nil → l ∈ s'.labels
  | .nil, h => absurd rfl h
  | .cons0 (cs := cs) _ _ h2 h3, _ => by
    simp only [Cases.labels, nulls_labels, List.mem_append]
    by_cases hc : cs = .nil
    · exact .inl (.inl (h2 hc l hl))
    · exact .inr (h3.placed1 hl hc)
  | .cons1 (cs := cs) _ _ _ _ h2 _ h3, _ => by
    simp only [Cases.labels, Stmts.labels, nulls_labels, List.mem_append]
    by_cases hc : cs = .nil
    · exact .inl (.inr (.inr (.inl (h2 hc l hl))))
    · exact .inr (h3.placed1 hl hc)
theorem SimC.placed2 {E : Ent} {Γ : List Ent} {l : Label} (hl : E.l2 = some l) {s s' : Cases} : SimC E Γ s s' → hasDefault s → l ∈ s'.labels
  | .nil, h => by simp [hasDefault] at h
  | .cons0 (v := v) _ h1 _ h3, h => by
    simp only [Cases.labels, nulls_labels, List.mem_append]
    cases v with
    | none => exact .inl (.inl (h1 rfl l hl))
    | some n => exact .inr (h3.placed2 hl (by simpa [hasDefault] using h))
  | .cons1 (v := v) _ _ h1 _ _ _ h3, h => by
    simp only [Cases.labels, Stmts.labels, nulls_labels, List.mem_append]
    cases v with
    | none => exact .inl (.inl (h1 rfl l hl))
    | some n => exact .inr (h3.placed2 hl (by simpa [hasDefault] using h))

mutual
theorem Sim.tgts {l : Label} {Γ : List Ent} {s s' : Stmt} {P : Option Label} : Sim Γ s s' P → l ∈ s'.targets → l ∈ s.targets ∨ l ∈ s'.labels ∨ P = some l ∨ TG Γ l
  | .null, h | .act, h | .ret, h | .goto, h | .fallL, h => .inl h
  | .exit h1 _, h => by
    simp only [Stmt.targets, Option.toList_some, List.mem_singleton] at h
    subst h; exact .inr (.inr (.inr (exitLab_tg h1)))
  | .block h1, h => (h1.tgts h).imp_right (·.imp_right .inr)
  | .blockL _ h1, h => by
    rcases h1.tgts h with h | h | h
    · exact .inl h
    · exact .inr (.inl (by simp [Stmt.labels, h]))
    · rcases h.cons with h | h | h
      · exact .inr (.inr (.inl h))
      · cases h
      · exact .inr (.inr (.inr h))
  | .ite _ h1 h2, h => by
    simp only [Stmt.targets, Stmt.labels, List.nil_append, List.mem_append] at h ⊢
    rcases h with h | h
    · rcases h1.tgts h with h | h | h | h
      · exact .inl (.inl h)
      · exact .inr (.inl (.inl h))
      · cases h
      · exact .inr (.inr (.inr h))
    · rcases h2.tgts h with h | h | h
      · exact .inl (.inr h)
      · exact .inr (.inl (.inr h))
      · exact .inr (.inr (.inr h))
  | .iteL _ _ h1 h2, h => by
    simp only [Stmt.targets, Stmt.labels, List.mem_append] at h ⊢
    have fin : ∀ {E ls l0 Γ}, TG (⟨E, ls, some l0, none⟩ :: Γ) l → some l0 = some l ∨ TG Γ l := fun h => h.cons.imp_right (·.resolve_left nofun)
    rcases h with h | h
    · rcases h1.tgts h with h | h | h | h
      · exact .inl (.inl h)
      · exact .inr (.inl (.inl (.inr h)))
      · cases h
      · exact .inr (.inr (fin h))
    · rcases h2.tgts h with h | h | h
      · exact .inl (.inr h)
      · exact .inr (.inl (.inr h))
      · exact .inr (.inr (fin h))
  | .loop _ h1 h2, h => by
    simp only [Stmt.targets, Stmt.labels, List.mem_append] at h ⊢
    rcases h with h | h
    · rcases h1.tgts h with h | h | h | h
      · exact .inl (.inl h)
      · exact .inr (.inl (.inl (.inr h)))
      · cases h
      · rcases h.cons with h | h | h
        · exact .inr (.inr (.inl h))
        · cases h
        · exact .inr (.inr (.inr h))
    · rcases h2.tgts h with h | h | h
      · exact .inl (.inr h)
      · exact .inr (.inl (.inr h))
      · exact .inr (.inr (.inr h))
  | .loopW _ h1 hm _ h2, h => by
    simp only [Stmt.targets, Stmts.targets, nulls_targets, Stmt.labels, Stmts.labels, nulls_labels, List.nil_append, List.append_nil, List.mem_append] at h ⊢
    rcases h with h | h
    · rcases h1.tgts h with h | h | h | h
      · exact .inl (.inl h)
      · exact .inr (.inl (.inl (.inr (.inl h))))
      · cases h
      · rcases h.cons with h | h | h
        · exact .inr (.inr (.inl h))
        · cases h; exact .inr (.inl (.inl (.inr (.inr hm))))
        · exact .inr (.inr (.inr h))
    · rcases h2.tgts h with h | h | h
      · exact .inl (.inr h)
      · exact .inr (.inl (.inr h))
      · exact .inr (.inr (.inr h))
  | .switch c1 c2 h1, h => by
    simp only [Stmt.targets, Stmt.labels, List.mem_append] at h ⊢
    rcases h1.tgts h with h | h | h
    · exact .inl h
    · exact .inr (.inl (.inr h))
    · rcases h.cons with h | h | h
      · exact .inr (.inl (.inr (h1.placed1 h (c1 (by simp only at h; rw [h]; simp)))))
      · exact .inr (.inl (.inr (h1.placed2 h (c2 (by simp only at h; rw [h]; simp)))))
      · exact .inr (.inr (.inr h))
theorem SimO.tgts {l : Label} {Γ : List Ent} {s s' : Opt} : SimO Γ s s' → l ∈ s'.targets → l ∈ s.targets ∨ l ∈ s'.labels ∨ TG Γ l
  | .none, h => .inl h
  | .some _ h1, h => (h1.tgts h).imp_right (·.imp_right (·.resolve_left nofun))
theorem SimL.tgts {l : Label} {Γ : List Ent} {s s' : Stmts} {P : Option Label} : SimL Γ P s s' → l ∈ s'.targets → l ∈ s.targets ∨ l ∈ s'.labels ∨ TG Γ l
  | .nil, h => .inl h
  | .cons h1 h2, h => by
    simp only [Stmts.targets, Stmts.labels, List.mem_append] at h ⊢
    rcases h with h | h
    · rcases h1.tgts h with h | h | h | h
      · exact .inl (.inl h)
      · exact .inr (.inl (.inl h))
      · subst h; exact .inr (.inl (.inr h2.placed))
      · exact .inr (.inr h)
    · rcases h2.tgts h with h | h | h
      · exact .inl (.inr h)
      · exact .inr (.inl (.inr h))
      · exact .inr (.inr h)
  | .skip _ h1, h | .emit _ h1, h => by
    simp only [Stmts.targets, Stmt.targets, Stmts.labels, List.nil_append, List.mem_append] at h ⊢
    exact (h1.tgts h).imp_right (·.imp_left .inr)
theorem SimC.tgts {l : Label} {E : Ent} {Γ : List Ent} {s s' : Cases} : SimC E Γ s s' → l ∈ s'.targets → l ∈ s.targets ∨ l ∈ s'.labels ∨ TG (E :: Γ) l
  | .nil, h => .inl h
  | .cons0 _ _ _ h1, h => by
    simp only [Cases.targets, Cases.labels, nulls_targets, Stmts.targets, List.nil_append, List.mem_append] at h ⊢
    exact (h1.tgts h).imp_right (·.imp_left .inr)
  | .cons1 _ _ _ h2 _ h4 h5, h => by
    simp only [Cases.targets, Cases.labels, nulls_targets, nulls_labels, Stmts.targets, Stmts.labels, Stmt.targets, Stmt.labels, List.nil_append, List.append_nil, List.mem_append] at h ⊢
    rcases h with h | h
    · rcases h4.tgts h with h | h | h
      · exact .inl (.inl h)
      · exact .inr (.inl (.inl (.inr (.inl h))))
      · rcases h.cons with h | h | h
        · exact .inr (.inl (.inl (.inr (.inr (h2 l h)))))
        · cases h
        · exact .inr (.inr h)
    · rcases h5.tgts h with h | h | h
      · exact .inl (.inr h)
      · exact .inr (.inl (.inr h))
      · exact .inr (.inr h)
end

/-- What the pass makes of the body of a function. -/
theorem fixLabels_sim {n : Nat} {body body' : Stmt} (h : fixLabels n body = some body') (hp : body.plain) (hb : body.isBlock) :
    Sim [] body body' none ∧ body.labels.Nodup ∧ (∀ l ∈ body.targets, l ∈ body.labels) ∧ body'.labels.Nodup := by
  unfold fixLabels at h
  split at h
  · rename_i hd
    simp only [Option.map_eq_some_iff] at h
    obtain ⟨⟨s', st'⟩, h1, rfl⟩ := h
    obtain ⟨m, -, b⟩ := visit_makes n _ _ _ _ h1 hp rfl (splitElse_block hb)
    have g := (visit_good n _ _ _ _ h1 (Stmt.plain_ok hp)).2
    have e : st'.encl = [] := by have := g.grow; cases this' : st'.encl with
      | nil => rfl
      | cons a b => rw [this'] at this; cases this
    refine ⟨by rw [← b hb]; exact m [] (by rw [e]; exact .nil), hd.1, hd.2, List.nodup_iff_count.2 fun l => ?_⟩
    have c := g.cnt l
    simp only [pend_none] at c
    have c0 : List.count l body.labels ≤ 1 := List.nodup_iff_count.1 hd.1 l
    unfold cnt at c
    cases l with
    | user k => simp only [new] at c; simp only; omega
    | gen k =>
      have : List.count (.gen k) body.labels = 0 := List.count_eq_zero.2 fun hm => by have := (Stmt.plain_labels hp).1 _ hm; cases this
      have : new (.gen k) 0 st'.fresh ≤ 1 := by simp only [new]; split <;> omega
      simp only at c ⊢; omega
  · cases h

/-- A function returns in one way only. -/
theorem Returns.unique {σ : Type} {I : Interp σ} {body : Stmt} {m : σ} {r r' : Option Nat} {m1 m2 : σ} (h1 : Returns I body m r m1) (h2 : Returns I body m r' m2) : r = r' ∧ m1 = m2 := by
  simp only [Returns, steps_iter] at h1 h2
  obtain ⟨a, h1⟩ := h1
  obtain ⟨b, h2⟩ := h2
  have key : ∀ {a b : Nat} {x : Conf × σ} {r r'} {m1 m2 : σ}, a ≤ b → iter I (fun l => findS l body .stop) a x = some (.halt r, m1) →
      iter I (fun l => findS l body .stop) b x = some (.halt r', m2) → r = r' ∧ m1 = m2 := by
    intro a b x r r' m1 m2 hab h1 h2
    obtain ⟨d, rfl⟩ : ∃ d, b = a + d := ⟨b - a, by omega⟩
    rw [iter_add, h1] at h2
    cases d with
    | zero => simp only [Option.bind_some, iter, Option.some.injEq, Prod.mk.injEq, Conf.halt.injEq] at h2; exact h2
    | succ d => simp [iter, step] at h2
  rcases Nat.le_total a b with h | h
  · exact key h h1 h2
  · have := key h h2 h1; exact ⟨this.1.symm, this.2.symm⟩

end Verif.MultiExit
