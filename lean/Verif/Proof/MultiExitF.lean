import Verif.Proof.MultiExitE
/-! A program and its translation do the same. -/

namespace Verif.MultiExit

/-- Where a label is found in a program and in its translation. -/
def RelF (a b : Option (Stmt × Kont)) : Prop :=
  (a = none ∧ b = none) ∨ ∃ s k s' k', a = some (s, k) ∧ b = some (s', k') ∧ Mt (.run s k) (.run s' k')

theorem RelF.or {a b c d : Option (Stmt × Kont)} (h1 : RelF a b) (h2 : RelF c d) : RelF (a.or c) (b.or d) := by
  rcases h1 with ⟨rfl, rfl⟩ | ⟨s, k, s', k', rfl, rfl, h⟩
  · simpa using h2
  · exact .inr ⟨s, k, s', k', rfl, rfl, h⟩
theorem RelF.hit {s s' : Stmt} {k k' : Kont} {p : Prop} [Decidable p] {a b : Option (Stmt × Kont)} (h : Mt (.run s k) (.run s' k')) (h2 : RelF a b) :
    RelF (if p then some (s, k) else a) (if p then some (s', k') else b) := by
  split
  · exact .inr ⟨s, k, s', k', rfl, rfl, h⟩
  · exact h2
theorem RelF.miss : RelF none none := .inl ⟨rfl, rfl⟩

theorem findL_nulls {l : Label} {ss : Stmts} {k : Kont} (hl : l.isUser = true) : ∀ {N : List Label}, Gens N → findL l (nulls N ss) k = findL l ss k
  | [], _ => rfl
  | x :: N, hg => by
    have : l ≠ x := by rintro rfl; rw [hg l (List.mem_cons_self ..)] at hl; cases hl
    simp only [nulls, findL, findS, List.mem_singleton, this, if_false, Option.none_or]
    exact findL_nulls hl hg.tail

mutual
theorem Sim.find {l : Label} (hl : l.isUser = true) {Γ : List Ent} {s s' : Stmt} {P : Option Label} {k k' : Kont} :
    Sim Γ s s' P → RelK Γ P k k' → RelF (findS l s k) (findS l s' k')
  | .null, hk => .hit (.run .null hk) .miss
  | .act, hk => .hit (.run .act hk) .miss
  | .ret, hk => .hit (.run .ret hk) .miss
  | .goto, hk => .hit (.run .goto hk) .miss
  | .fallL, hk => by simp only [findS, List.not_mem_nil, if_false]; exact .miss
  | .exit h1 h2, hk => by simp only [findS, List.not_mem_nil, if_false]; exact .miss
  | .block h, hk => .hit (.run (.block h) hk) (h.find hl (.blk hk))
  | .blockL hn h, hk => .hit (.run (.blockL hn h) hk) (h.find hl (.blkL hk))
  | .ite hb h1 h2, hk => .hit (.run (.ite hb h1 h2) hk) ((h1.find hl (.ifK hk)).or (h2.find hl (.ifK hk)))
  | .iteL hn hb h1 h2, hk => .hit (.run (.iteL hn hb h1 h2) hk) ((h1.find hl (.ifL hk)).or (h2.find hl (.ifL hk)))
  | .loop hb h1 h2, hk => .hit (.run (.loop hb h1 h2) hk) ((h1.find hl (.loopB hb h1 h2 hk)).or (h2.find hl (.loopE hk)))
  | .loopW hb h1 hm hg h2, hk => by
    refine .hit (.run (.loopW hb h1 hm hg h2) hk) (RelF.or ?_ (h2.find hl (.loopE hk)))
    rw [findS, if_neg (by simp), findL, findL_nulls hl hg, findL, Option.or_none]
    exact h1.find hl (.loopW hb h1 hm hg h2 hk)
  | .switch c1 c2 h, hk => .hit (.run (.switch c1 c2 h) hk) (h.find hl (.swK c1 c2 h hk))
theorem SimO.find {l : Label} (hl : l.isUser = true) {Γ : List Ent} {s s' : Opt} {k k' : Kont} : SimO Γ s s' → RelK Γ none k k' → RelF (findO l s k) (findO l s' k')
  | .none, _ => .miss
  | .some _ h, hk => h.find hl hk
theorem SimL.find {l : Label} (hl : l.isUser = true) {Γ : List Ent} {s s' : Stmts} {P : Option Label} {k k' : Kont} :
    SimL Γ P s s' → RelK Γ none k k' → RelF (findL l s k) (findL l s' k')
  | .nil, _ => .miss
  | .cons h1 h2, hk => (h1.find hl (.seq h2 hk)).or (h2.find hl hk)
  | .skip (l := x) hx h, hk | .emit (l := x) hx h, hk => by
    have : l ≠ x := by rintro rfl; rw [hx] at hl; cases hl
    simp only [findL, findS, List.mem_singleton, this, if_false, Option.none_or]
    exact h.find hl hk
theorem SimC.find {l : Label} (hl : l.isUser = true) {E : Ent} {Γ : List Ent} {s s' : Cases} {K K' : Kont} :
    SimC E Γ s s' → RelK (E :: Γ) none K K' → RelF (findC l s K) (findC l s' K')
  | .nil, _ => .miss
  | .cons0 hg h1 h2 h3, hk => by
    simp only [findC, findL, findL_nulls hl hg, Option.none_or]
    exact h3.find hl hk
  | .cons1 g1 g2 h1 h2 h3 h4 h5, hk => by
    simp only [findC, findL, findL_nulls hl g1, findL_nulls hl g2, findS, List.not_mem_nil, if_false, Option.or_none]
    exact (h4.find hl (.caseB h2 h5 hk)).or (h5.find hl hk)
end

section
variable {σ : Type} {I : Interp σ} {F F' : Label → Option (Stmt × Kont)} {D D' : Label → Prop}

/-- The body of a loop is entered. -/
theorem enter_body {Γ : List Ent} {P : Option Label} {ls : List Label} {post : Bool} {c : Nat} {inc : Option Nat} {body body' : Stmt} {els els' : Opt} {k k' : Kont} {m : σ}
    (h : Sim Γ (.loop ls post c inc body els) (.loop ls post c inc body' els') P) (hk : RelK Γ P k k') :
    ∃ c', Sil I F (.run body' (.loopB ls post c inc body' els' k'), m) (c', m) ∧ Mt (.run body (.loopB ls post c inc body els k)) c' := by
  cases h with
  | loop hb h1 h2 => exact ⟨_, .refl, .run h1 (.loopB hb h1 h2 hk)⟩
  | loopW hb h1 hm hg h2 => exact ⟨_, .cons rfl rfl (.cons rfl rfl .refl), .run h1 (.loopW hb h1 hm hg h2 hk)⟩

theorem sim_else {Γ : List Ent} {P : Option Label} {ls : List Label} {post : Bool} {c : Nat} {inc : Option Nat} {body body' : Stmt} {els els' : Opt}
    (h : Sim Γ (.loop ls post c inc body els) (.loop ls post c inc body' els') P) : SimO Γ els els' := by
  cases h with
  | loop _ _ h => exact h
  | loopW _ _ _ _ h => exact h

/-- A goto to a null statement. -/
theorem go_null {ls : List Label} {l : Label} {k kx : Kont} {c : Conf} {m : σ} (h : F l = some (.null [l], kx)) (hs : Sil I F (.next kx, m) (c, m)) :
    Go I F (.run (.branch ls .goto (some l)) k, m) (c, m) :=
  Go.then (.one (y := (.run (.null [l]) kx, m)) (by simp only [step, jump, h, Option.map_some])) (.cons rfl rfl hs)

theorem sim_step (hF : ∀ l, D l → l.isUser ∧ (F l).isSome) (hFF : ∀ l, l.isUser → RelF (F l) (F' l)) {c c' : Conf} {m : σ} (h : Mt c c')
    (ha : AtConf F D c) (ha' : AtConf F' D' c') :
    (∃ r, c = .halt r ∧ c' = .halt r) ∨ ∃ c1 m1 c1', step I F (c, m) = some (c1, m1) ∧ Go I F' (c', m) (c1', m1) ∧ Mt c1 c1' := by
  cases h with
  | halt => exact .inl ⟨_, rfl, rfl⟩
  | run hs hk =>
    refine .inr ?_
    cases hs with
    | null => exact ⟨_, _, _, rfl, .one rfl, .next hk⟩
    | act => exact ⟨_, _, _, rfl, .one rfl, .next hk⟩
    | ret => exact ⟨_, _, _, rfl, .one rfl, .halt⟩
    | goto =>
      rename_i ls l
      have hd := hF l (ha.1.def' l (by simp [Stmt.targets]))
      rcases hFF l hd.1 with ⟨h1, -⟩ | ⟨s, k, s', k', h1, h2, h3⟩
      · rw [h1] at hd; cases hd.2
      · exact ⟨_, m, _, by simp only [step, jump, h1, Option.map_some], .one (by simp only [step, jump, h2, Option.map_some]), h3⟩
    | fallL =>
      rename_i l
      have hd := hF l (ha.1.def' l (by simp [Stmt.targets]))
      rcases hFF l hd.1 with ⟨h1, -⟩ | ⟨s, k, s', k', h1, h2, h3⟩
      · rw [h1] at hd; cases hd.2
      · exact ⟨_, m, _, by simp only [step, jump, h1, Option.map_some], .one (by simp only [step, jump, h2, Option.map_some]), h3⟩
    | exit he ht =>
      rename_i b t l
      cases b with
      | goto => rw [exitLab_goto] at he; cases he
      | brk =>
        obtain ⟨k1, kx, c1, q1, q2, q3, q4⟩ := hk.break (I := I) (m := m) ha'.2 he
        exact ⟨_, m, _, by simp only [step, jump, q1, Option.map_some], go_null q2 q3, q4⟩
      | cont =>
        obtain ⟨k1, kx, q1, q2, q4⟩ := hk.continue ha'.2 he
        exact ⟨_, m, _, by simp only [step, jump, q1, Option.map_some], go_null q2 .refl, q4⟩
      | fall =>
        obtain rfl := ht rfl
        obtain ⟨k1, kx, c1, q1, q2, q3, q4⟩ := hk.fall (I := I) (m := m) ha'.2 he
        exact ⟨_, m, _, by simp only [step, jump, q1, Option.map_some], go_null q2 q3, q4⟩
      | fallDefault =>
        obtain ⟨ds, k1, kx, q1, q2, q4⟩ := hk.fallDefault ha'.2 he
        exact ⟨_, m, _, by simp only [step, jump, q1, Option.map_some], go_null q2 .refl, q4⟩
    | block h => exact ⟨_, _, _, rfl, .one rfl, .list h (.blk hk)⟩
    | blockL hn h => exact ⟨_, _, _, rfl, .one rfl, .list h (.blkL hk)⟩
    | ite hb h1 h2 =>
      rename_i c t t' e e'
      rcases hc : I.cond c m with ⟨b, m1⟩
      cases b with
      | true => exact ⟨_, m1, _, by simp only [step, hc], .one (by simp only [step, hc]), .run h1 (.ifK hk)⟩
      | false =>
        cases h2 with
        | none => exact ⟨_, m1, _, by simp only [step, hc], .one (by simp only [step, hc]), .next hk⟩
        | some _ h2 => exact ⟨_, m1, _, by simp only [step, hc], .one (by simp only [step, hc]), .run h2 (.ifK hk)⟩
    | iteL hn hb h1 h2 =>
      rename_i c t t' e e'
      rcases hc : I.cond c m with ⟨b, m1⟩
      cases b with
      | true => exact ⟨_, m1, _, by simp only [step, hc], .one (by simp only [step, hc]), .run h1 (.ifL hk)⟩
      | false =>
        cases h2 with
        | none => exact ⟨_, m1, _, by simp only [step, hc], .one (by simp only [step, hc]), .next hk⟩
        | some _ h2 => exact ⟨_, m1, _, by simp only [step, hc], .one (by simp only [step, hc]), .run h2 (.ifL hk)⟩
    | loop hb h1 h2 =>
      rename_i post c inc body body' els els'
      have hl := Sim.loop (post := post) (c := c) (inc := inc) hb h1 h2
      cases post with
      | true =>
        obtain ⟨c', q1, q2⟩ := enter_body (I := I) (F := F') (m := m) hl hk
        exact ⟨_, _, c', rfl, Go.then (.one rfl) q1, q2⟩
      | false => exact ⟨_, _, _, rfl, .one rfl, .test hl hk⟩
    | loopW hb h1 hm hg h2 =>
      rename_i N post c inc body body' els els'
      have hl := Sim.loopW (post := post) (c := c) (inc := inc) hb h1 hm hg h2
      cases post with
      | true =>
        obtain ⟨c', q1, q2⟩ := enter_body (I := I) (F := F') (m := m) hl hk
        exact ⟨_, _, c', rfl, Go.then (.one rfl) q1, q2⟩
      | false => exact ⟨_, _, _, rfl, .one rfl, .test hl hk⟩
    | switch c1 c2 h =>
      rename_i e cs cs'
      rcases hn : I.sel e m with ⟨n, m1⟩
      rcases h.select (n := n) with ⟨q1, q2⟩ | ⟨ds, ds', q1, q2, q3⟩
      · exact ⟨_, m1, _, by simp only [step, hn, q1], .one (by simp only [step, hn, q2]), .next hk⟩
      · exact ⟨_, m1, _, by simp only [step, hn, q1], .one (by simp only [step, hn, q2]), .cases q3 (.swK c1 c2 h hk)⟩
  | list hs hk =>
    refine .inr ?_
    rename_i ss ss' k k'
    cases ss with
    | nil =>
      obtain ⟨N, rfl⟩ := hs.nil_inv
      exact ⟨_, _, _, rfl, .after (sil_nulls N) (.one rfl), .next hk⟩
    | cons s ss =>
      obtain ⟨N, s', P', ss'', rfl, -, h1, h2⟩ := hs.cons_inv
      exact ⟨_, _, _, rfl, .after (sil_nulls N) (.one rfl), .run h1 (.seq h2 hk)⟩
  | next hk =>
    refine .inr ?_
    cases hk with
    | stop => exact ⟨_, _, _, rfl, .one rfl, .halt⟩
    | seq h1 h2 => exact ⟨_, _, _, rfl, .one rfl, .list h1 h2⟩
    | blk h => exact ⟨_, _, _, rfl, .one rfl, .next h⟩
    | blkL h => exact ⟨_, _, _, rfl, .one rfl, .next h⟩
    | ifK h => exact ⟨_, _, _, rfl, .one rfl, .next h⟩
    | ifL h => exact ⟨_, _, _, rfl, .one rfl, .next h⟩
    | loopE h => exact ⟨_, _, _, rfl, .one rfl, .next h⟩
    | loopB hb h1 h2 h => exact ⟨_, _, _, rfl, .one rfl, .test (.loop hb h1 h2) h⟩
    | loopW hb h1 hm hg h2 h => exact ⟨_, _, _, rfl, .after sil_seq (.pre rfl rfl (.one rfl)), .test (.loopW hb h1 hm hg h2) h⟩
    | caseB hf hc h => exact ⟨_, _, _, rfl, .one rfl, .caseNext hc h⟩
    | swK c1 c2 hc h => exact ⟨_, _, _, rfl, .one rfl, .next h⟩
  | nextW hb h1 hm hg h2 h => exact .inr ⟨_, _, _, rfl, .after sil_seq (.pre rfl rfl (.one rfl)), .test (.loopW hb h1 hm hg h2) h⟩
  | test hs hk =>
    refine .inr ?_
    rename_i ls post c inc body body' els els' k k'
    rcases hc : I.cond c m with ⟨b, m1⟩
    cases b with
    | true =>
      obtain ⟨c', q1, q2⟩ := enter_body (I := I) (F := F') (m := m1) hs hk
      exact ⟨_, m1, c', by simp only [step, hc], .then (.one (by simp only [step, hc])) q1, q2⟩
    | false =>
      cases sim_else hs with
      | none => exact ⟨_, m1, _, by simp only [step, hc], .one (by simp only [step, hc]), .next hk⟩
      | some _ h2 => exact ⟨_, m1, _, by simp only [step, hc], .one (by simp only [step, hc]), .run h2 (.loopE hk)⟩
  | cases hc hk =>
    refine .inr ?_
    cases hc with
    | nil => exact ⟨_, _, _, rfl, .one rfl, .next hk⟩
    | cons0 hg h1 h2 h3 => exact ⟨_, _, _, rfl, .one rfl, .case0 h3 hk⟩
    | cons1 g1 g2 h1 h2 h3 h4 h5 => exact ⟨_, _, _, rfl, .one rfl, .case1 h2 h4 h5 hk⟩
  | case0 hc hk => exact .inr ⟨_, _, _, rfl, .after (sil_nulls _) (.one rfl), .nextCase hc hk⟩
  | case1 hf h1 hc hk => exact .inr ⟨_, _, _, rfl, .after (sil_nulls _) (.one rfl), .caseRun hf h1 hc hk⟩
  | caseRun hf h1 hc hk => exact .inr ⟨_, _, _, rfl, .one rfl, .list h1 (.caseB hf hc hk)⟩
  | caseNext hc hk => exact .inr ⟨_, _, _, rfl, .one rfl, .case0 hc hk⟩
  | nextCase hc hk => exact .inr ⟨_, _, _, rfl, .one rfl, .cases hc hk⟩
  | dflt0 hc hk => exact .inr ⟨_, _, _, rfl, .one rfl, .case0 hc hk⟩
  | dflt1 hf h1 hc hk => exact .inr ⟨_, _, _, rfl, .one rfl, .case1 hf h1 hc hk⟩

/-! Runs -/

/-- `n` steps. -/
def iter (I : Interp σ) (F : Label → Option (Stmt × Kont)) : Nat → Conf × σ → Option (Conf × σ)
  | 0, c => some c
  | n + 1, c => (step I F c).bind (iter I F n)

theorem iter_add {a b : Nat} : ∀ {x : Conf × σ}, iter I F (a + b) x = (iter I F a x).bind (iter I F b) := by
  induction a with
  | zero => intro x; simp [iter]
  | succ a ih =>
    intro x
    rw [Nat.succ_add, iter, iter]
    cases step I F x with
    | none => rfl
    | some y => simp only [Option.bind_some]; exact ih

theorem Go.run {x y : Conf × σ} (h : Go I F x y) : ∃ n, iter I F (n + 1) x = some y ∧ ∀ i, i ≤ n → ∃ z, iter I F i x = some z ∧ (z.2 = x.2 ∨ z.2 = y.2) := by
  induction h with
  | one h => exact ⟨0, by simp [iter, h], fun i hi => ⟨_, by rw [Nat.le_zero.1 hi]; rfl, .inl rfl⟩⟩
  | pre h e _ ih =>
    obtain ⟨n, h1, h2⟩ := ih
    refine ⟨n + 1, by rw [iter, h]; exact h1, fun i hi => ?_⟩
    cases i with
    | zero => exact ⟨_, rfl, .inl rfl⟩
    | succ i =>
      obtain ⟨z, q1, q2⟩ := h2 i (Nat.le_of_succ_le_succ hi)
      exact ⟨z, by rw [iter, h]; exact q1, by rw [e] at q2; exact q2⟩
  | post _ h e ih =>
    obtain ⟨n, h1, h2⟩ := ih
    refine ⟨n + 1, by rw [iter_add, h1]; simp [iter, h], fun i hi => ?_⟩
    rcases Nat.lt_or_ge n i with hl | hl
    · obtain rfl : i = n + 1 := by omega
      exact ⟨_, h1, .inr e.symm⟩
    · obtain ⟨z, q1, q2⟩ := h2 i hl
      exact ⟨z, q1, by rw [e]; exact q2⟩

/-- Related points have the same future. -/
structure Rel (I : Interp σ) (F F' : Label → Option (Stmt × Kont)) (R : Conf → Conf → Prop) : Prop where
  go : ∀ {c c' : Conf} (m : σ), R c c' → (∃ r, c = .halt r ∧ c' = .halt r) ∨
    ∃ c1 m1 c1', MultiExit.step I F (c, m) = some (c1, m1) ∧ Go I F' (c', m) (c1', m1) ∧ R c1 c1'

variable {R : Conf → Conf → Prop}

theorem Rel.fwd (hR : Rel I F F' R) : ∀ {n : Nat} {c c' : Conf} {m : σ} {x : Conf × σ}, R c c' → iter I F n (c, m) = some x →
    ∃ n' c1, iter I F' n' (c', m) = some (c1, x.2) ∧ R x.1 c1
  | 0, c, c', m, x, h, hx => by simp only [iter, Option.some.injEq] at hx; subst hx; exact ⟨0, c', rfl, h⟩
  | n + 1, c, c', m, x, h, hx => by
    simp only [iter, Option.bind_eq_some_iff] at hx
    obtain ⟨y, h1, h2⟩ := hx
    rcases hR.go m h with ⟨r, rfl, rfl⟩ | ⟨c1, m1, c1', q1, q2, q3⟩
    · simp [MultiExit.step] at h1
    · rw [q1] at h1; cases h1
      obtain ⟨a, w1, -⟩ := q2.run
      obtain ⟨n', c2, w2, w3⟩ := hR.fwd q3 h2
      exact ⟨a + 1 + n', c2, by rw [iter_add, w1]; exact w2, w3⟩

theorem halt_step {r : Option Nat} {m : σ} : step I F (.halt r, m) = none := rfl

theorem Rel.bwd (hR : Rel I F F' R) : ∀ (n : Nat) {c c' : Conf} {m : σ} {x : Conf × σ}, R c c' → iter I F' n (c', m) = some x →
    (∃ j c1, iter I F j (c, m) = some (c1, x.2)) ∧ (∀ r, x.1 = .halt r → ∃ j, iter I F j (c, m) = some (.halt r, x.2)) ∧ ((∀ r, x.1 ≠ .halt r) → (step I F' x).isSome) := by
  intro n
  induction n using Nat.strongRecOn with
  | ind n ih =>
    intro c c' m x h hx
    rcases hR.go m h with ⟨r, rfl, rfl⟩ | ⟨c1, m1, c1', q1, q2, q3⟩
    · cases n with
      | zero =>
        simp only [iter, Option.some.injEq] at hx
        subst hx
        exact ⟨⟨0, _, rfl⟩, fun r' h => ⟨0, by cases h; rfl⟩, fun h => absurd rfl (h r)⟩
      | succ n => simp [iter, step] at hx
    · obtain ⟨a, w1, w2⟩ := q2.run
      rcases Nat.lt_or_ge a n with hl | hl
      · obtain ⟨b, rfl⟩ : ∃ b, n = a + 1 + b := ⟨n - (a + 1), by omega⟩
        rw [iter_add, w1] at hx
        obtain ⟨⟨j, c2, p1⟩, p2, p3⟩ := ih b (by omega) q3 hx
        refine ⟨⟨j + 1, c2, by rw [iter, q1]; exact p1⟩, fun r hr => ?_, p3⟩
        obtain ⟨j, p⟩ := p2 r hr
        exact ⟨j + 1, by rw [iter, q1]; exact p⟩
      · obtain ⟨z, e1, e2⟩ := w2 n hl
        rw [hx] at e1; cases e1
        have next : (step I F' x).isSome := by
          have : iter I F' (n + (a + 1 - n)) (c', m) = some (c1', m1) := by rw [show n + (a + 1 - n) = a + 1 by omega]; exact w1
          rw [iter_add, hx, show a + 1 - n = (a - n) + 1 by omega] at this
          simp only [Option.bind_some, iter, Option.bind_eq_some_iff] at this
          obtain ⟨y, e, -⟩ := this
          rw [e]; rfl
        refine ⟨?_, fun r hr => ?_, fun _ => next⟩
        · rcases e2 with e2 | e2
          · exact ⟨0, c, by rw [e2]; rfl⟩
          · exact ⟨1, c1, by rw [e2]; simp [iter, q1]⟩
        · rw [show x = (.halt r, x.2) from Prod.ext hr rfl] at next
          cases next

theorem Rel.prog (hR : Rel I F F' R) {n : Nat} {c c' : Conf} {m : σ} {x : Conf × σ} (h : R c c') (hx : iter I F n (c, m) = some x) (hh : ∀ r, x.1 ≠ .halt r) :
    (step I F x).isSome := by
  obtain ⟨n', c1, -, h2⟩ := hR.fwd h hx
  rcases hR.go x.2 h2 with ⟨r, h3, -⟩ | ⟨c1, m1, c1', q1, -⟩
  · exact absurd h3 (hh r)
  · rw [show x = (x.1, x.2) from rfl, q1]; rfl
end

theorem steps_iter {σ : Type} {I : Interp σ} {body : Stmt} : ∀ n x, steps I body n x = iter I (fun l => findS l body .stop) n x
  | 0, _ => rfl
  | n + 1, x => by
    simp only [steps, iter]
    congr 1
    funext y
    exact steps_iter n y

/-- A program and a translation of it do the same. -/
theorem Sim.same {body body' : Stmt} (h : Sim [] body body' none) (nd : body.labels.Nodup) (hd : ∀ l ∈ body.targets, l ∈ body.labels ∧ l.isUser) (nd' : body'.labels.Nodup) :
    Same body body' := by
  intro σ I m
  have a0 : At (fun l => findS l body .stop) (fun l => l.isUser ∧ (findS l body .stop).isSome) body .stop :=
    ⟨nd, fun l _ => rfl, fun l hl => ⟨(hd l hl).2, findS_some (hd l hl).1⟩⟩
  have a1 : At (fun l => findS l body' .stop) (fun _ => True) body' .stop := ⟨nd', fun l _ => rfl, fun l _ => trivial⟩
  have hR : Rel I (fun l => findS l body .stop) (fun l => findS l body' .stop)
      (fun c c' => Mt c c' ∧ AtConf (fun l => findS l body .stop) (fun l => l.isUser ∧ (findS l body .stop).isSome) c ∧ AtConf (fun l => findS l body' .stop) (fun _ => True) c') := by
    refine ⟨fun {c c'} m ⟨hM, hA, hA'⟩ => ?_⟩
    rcases sim_step (I := I) (m := m) (fun l hl => hl) (fun l hl => h.find (l := l) hl .stop) hM hA hA' with h | ⟨c1, m1, c1', q1, q2, q3⟩
    · exact .inl h
    · refine .inr ⟨c1, m1, c1', q1, q2, q3, step_at I rfl a0 q1 hA, ?_⟩
      have : ∀ {x y : Conf × σ}, Go I (fun l => findS l body' .stop) x y → AtConf (fun l => findS l body' .stop) (fun _ => True) x.1 →
          AtConf (fun l => findS l body' .stop) (fun _ => True) y.1 := by
        intro x y hg
        induction hg with
        | one h => exact step_at I rfl a1 h
        | pre h _ _ ih => exact fun ha => ih (step_at I rfl a1 h ha)
        | post _ h _ ih => exact fun ha => step_at I rfl a1 h (ih ha)
      exact this q2 hA'
  have r0 : Mt (.run body .stop) (.run body' .stop) ∧ AtConf (fun l => findS l body .stop) (fun l => l.isUser ∧ (findS l body .stop).isSome) (.run body .stop) ∧
      AtConf (fun l => findS l body' .stop) (fun _ => True) (.run body' .stop) := ⟨.run h .stop, ⟨a0, trivial⟩, ⟨a1, trivial⟩⟩
  simp only [Visits, Returns, Stuck, begin, steps_iter]
  refine ⟨fun m' => ⟨?_, ?_⟩, fun r m' => ⟨?_, ?_⟩, ?_, ?_⟩
  · rintro ⟨n, c, h⟩
    obtain ⟨n', c1, h1, -⟩ := hR.fwd r0 h
    exact ⟨n', c1, h1⟩
  · rintro ⟨n, c, h⟩
    exact (hR.bwd n r0 h).1
  · rintro ⟨n, h⟩
    obtain ⟨n', c1, h1, h2, -⟩ := hR.fwd r0 h
    cases h2
    exact ⟨n', h1⟩
  · rintro ⟨n, h⟩
    exact (hR.bwd n r0 h).2.1 r rfl
  · rintro ⟨n, c, m', h1, h2, h3⟩
    have := hR.prog r0 h1 h2
    rw [h3] at this; cases this
  · rintro ⟨n, c, m', h1, h2, h3⟩
    have := (hR.bwd n r0 h1).2.2 h2
    rw [h3] at this; cases this

end Verif.MultiExit
