import Verif.Proof.ArithTables
/-! Expressions over variables with one type have one candidate. -/
namespace Verif.Arith
open Verif Verif.Cost

/-- A cost made of `u` narrowing conversions and widening of weight `m` (256 for each safe step, 1 for each change of sign). -/
structure Sh (u m : Nat) (c : Cost) : Prop where
  all : c.all = u * 2 ^ 56 + m * 2 ^ 24 + 0xff00
  hu : u < 256
  hm : m < 2 ^ 32

theorem Sh.lt64 {u m c} (h : Sh u m c) : c.all < 2 ^ 64 := by have := h.all; have := h.hu; have := h.hm; omega
theorem Sh.fin {u m c} (h : Sh u m c) : c.all ≠ infinity.all := by
  have := h.all; have := h.hu; have := h.hm
  show c.all ≠ 0xffffffffffff00ff
  omega
theorem Sh.fin' {u m c} (h : Sh u m c) : c ≠ infinity := fun e => h.fin (congrArg _ e)

theorem sh_zero : Sh 0 0 zero := ⟨rfl, by decide, by decide⟩
theorem sh_safe : Sh 0 256 safe := ⟨rfl, by decide, by decide⟩

theorem Sh.addAssign {u m u' m' c c'} (h : Sh u m c) (h' : Sh u' m' c') (hu : u + u' < 256) (hm : m + m' < 2 ^ 32) : Sh (u + u') (m + m') (addAssign c c') := by
  refine ⟨?_, hu, hm⟩
  have e1 := h.all; have e2 := h'.all
  unfold Cost.addAssign
  rw [if_neg h.fin, if_neg h'.fin]
  simp only [u64, correctw]
  have : ((c'.all : Int) - 65280) % 2 ^ 64 = (c'.all : Int) - 65280 := by
    apply Int.emod_eq_of_lt <;> have := h'.lt64 <;> omega
  rw [show ((65280 : Nat) : Int) = 65280 from rfl, this]
  have : ((c.all : Int) + (((c'.all : Int) - 65280).toNat : Int)) % 2 ^ 64 = (c.all : Int) + ((c'.all : Int) - 65280) := by
    rw [Int.toNat_of_nonneg (by omega)]
    apply Int.emod_eq_of_lt <;> omega
  rw [this]
  omega

theorem Sh.add {u m u' m' c c'} (h : Sh u m c) (h' : Sh u' m' c') (hu : u + u' < 256) (hm : m + m' < 2 ^ 32) : Sh (u + u') (m + m') (Cost.add c c') := by
  refine ⟨?_, hu, hm⟩
  have e1 := h.all; have e2 := h'.all
  unfold Cost.add
  rw [if_neg (by rintro (e | e); exact h.fin e; exact h'.fin e)]
  simp only [u64, correctw]
  have : ((c.all : Int) + (c'.all : Int) - ((65280 : Nat) : Int)) % 2 ^ 64 = (c.all : Int) + (c'.all : Int) - 65280 := by
    apply Int.emod_eq_of_lt <;> omega
  rw [this]
  omega

theorem Sh.lt_iff {u m u' m' c c'} (h : Sh u m c) (h' : Sh u' m' c') : lt c c' = true ↔ c.all < c'.all := by
  unfold lt; rw [if_neg h.fin, if_neg h'.fin]; simp

theorem Sh.lt_inf {u m c} (h : Sh u m c) : lt c infinity = true := by unfold lt; rw [if_neg h.fin, if_pos rfl]

/-- The shape of the cost of a conversion. -/
theorem sh_conv (a b : Kind) : ∃ u m, Sh u m (conversionCost a (some b)) ∧ u ≤ 1 ∧ m ≤ 2 ^ 13 ∧ (SafeTo a b → u = 0) := by
  have h := convOk_all a b
  simp only [convOk, Bool.and_eq_true] at h
  have h1 := h.1
  by_cases hc : costAt a b < 0
  · rw [if_pos hc] at h1
    refine ⟨1, 0, ⟨by simpa using h1, by decide, by decide⟩, by decide, by decide, fun hs => ?_⟩
    exact absurd hs (by unfold SafeTo; omega)
  · rw [if_neg hc] at h1
    simp only [Bool.and_eq_true, beq_iff_eq, decide_eq_true_eq] at h1
    exact ⟨0, (conversionCost a (some b)).all / 2 ^ 24, ⟨by omega, by decide, by omega⟩, by decide, h1.2, fun _ => rfl⟩

theorem convertArg_eq (k : Kind) (a : TExpr) : convertArg k a = coerce k a := by
  have h := convOk_all a.kind k
  simp only [convOk, Bool.and_eq_true, beq_iff_eq] at h
  have h2 := h.2
  unfold convertArg coerce ne
  by_cases e : a.kind = k
  · rw [if_pos e, if_neg]
    simp only [e, BEq.rfl, beq_iff_eq] at h2
    simp [e, h2, zero]
  · rw [if_neg e, if_pos]
    have : (a.kind == k) = false := by simpa using e
    rw [this] at h2
    have h2 : (conversionCost a.kind (some k)).all ≠ 0xff00 := by simpa using h2
    simp [zero, h2]

/-! ### One candidate -/

theorem finish_one (c : Cand) : finish [c] = some [c] := by simp [finish, prune, sortCost, insertCost, record]
theorem choose_one (c : Cand) : choose [c] = some c.expr := rfl

theorem castCands_one {t : Option Kind} {c : Cand} {u m u' m' : Nat} (h : Sh u m c.cost) (h' : Sh u' m' (conversionCost c.expr.kind t)) (hu : u + u' < 256) (hm : m + m' < 2 ^ 32) :
    castCands t [c] = [⟨.cast t c.expr, addAssign c.cost (conversionCost c.expr.kind t), zero⟩] := by
  have hs := h.addAssign h' hu hm
  simp only [castCands, List.foldl_cons, List.foldl_nil, castStep]
  rw [if_neg h'.fin']
  simp [hs.lt_inf, Cost.eq]

/-- The loop keeps the one version that is cheaper than all others. -/
theorem keep_one {l : List Kind} {f : Kind → Cand} {k0 : Kind} (hn : l.Nodup) (h0 : k0 ∈ l) (hf : ∀ k, ∃ u m, Sh u m (f k).cost) (hc : ∀ k, (f k).cvtCost ≠ infinity)
    (hlt : ∀ k ∈ l, k ≠ k0 → (f k0).cost.all < (f k).cost.all) : keepIntrinsic (l.map f) = [f k0] := by
  obtain ⟨l1, l2, rfl⟩ := List.append_of_mem h0
  have hn1 : k0 ∉ l1 := by
    intro h; exact (List.nodup_append.1 hn).2.2 k0 h k0 (List.mem_cons_self ..) rfl
  have hn2 : k0 ∉ l2 := (List.nodup_cons.1 (List.nodup_append.1 hn).2.1).1
  -- before `k0`
  have pre : ∀ (l : List Kind) (st : Cost × List Cand), (∀ k ∈ l, (f k0).cost.all < (f k).cost.all) → lt (f k0).cost st.1 = true →
      lt (f k0).cost ((l.map f).foldl keepStep st).1 = true := by
    intro l
    induction l with
    | nil => intro st _ h; exact h
    | cons k l ih =>
      intro st hl h
      simp only [List.map_cons, List.foldl_cons]
      refine ih _ (fun k hk => hl k (List.mem_cons_of_mem _ hk)) ?_
      obtain ⟨u, m, hk⟩ := hf k
      obtain ⟨u0, m0, hk0⟩ := hf k0
      have hkk : lt (f k0).cost (f k).cost = true := (hk0.lt_iff hk).2 (hl k (List.mem_cons_self ..))
      simp only [keepStep]
      rw [if_neg (hc k)]
      by_cases h1 : lt (f k).cost st.1 = true
      · simp [h1, Cost.eq, hkk]
      · simp only [h1, Bool.false_eq_true, if_false]
        by_cases h3 : Cost.eq (f k).cost st.1 = true
        · rw [if_pos h3]; exact h
        · rw [if_neg h3]; exact h
  -- after `k0`
  have post : ∀ (l : List Kind), (∀ k ∈ l, (f k0).cost.all < (f k).cost.all) → (l.map f).foldl keepStep ((f k0).cost, [f k0]) = ((f k0).cost, [f k0]) := by
    intro l
    induction l with
    | nil => intro _; rfl
    | cons k l ih =>
      intro hl
      simp only [List.map_cons, List.foldl_cons]
      have hk1 := hl k (List.mem_cons_self ..)
      obtain ⟨u, m, hk⟩ := hf k
      obtain ⟨u0, m0, hk0⟩ := hf k0
      have n1 : lt (f k).cost (f k0).cost = false := by
        rw [Bool.eq_false_iff]; intro e; have := (hk.lt_iff hk0).1 e; omega
      have n2 : Cost.eq (f k).cost (f k0).cost = false := by simp [Cost.eq]; omega
      have : keepStep ((f k0).cost, [f k0]) (f k) = ((f k0).cost, [f k0]) := by
        simp only [keepStep]; rw [if_neg (hc k)]; simp [n1, n2]
      rw [this]
      exact ih fun k hk => hl k (List.mem_cons_of_mem _ hk)
  have L1 : ∀ k ∈ l1, (f k0).cost.all < (f k).cost.all := fun k hk => hlt k (by simp [hk]) (fun e => hn1 (e ▸ hk))
  have L2 : ∀ k ∈ l2, (f k0).cost.all < (f k).cost.all := fun k hk => hlt k (by simp [hk]) (fun e => hn2 (e ▸ hk))
  obtain ⟨u0, m0, hk0⟩ := hf k0
  have p := pre l1 (infinity, []) L1 hk0.lt_inf
  unfold keepIntrinsic
  rw [List.map_append, List.foldl_append, List.map_cons, List.foldl_cons]
  have : keepStep ((l1.map f).foldl keepStep (infinity, [])) (f k0) = ((f k0).cost, [f k0]) := by
    simp only [keepStep]; rw [if_neg (hc k0)]; simp [p, Cost.eq]
  rw [this, post l2 L2]

/-! ### Operators -/

theorem conv_self (k : Kind) : conversionCost k (some k) = zero := if_pos rfl

theorem flatMap_one {β : Type} (f : Kind → β) (o : List Kind) : (o.flatMap fun k => [f k]) = o.map f := by
  induction o with
  | nil => rfl
  | cons k o ih => simp [List.flatMap_cons, ih]

theorem mem_perm {o : List Kind} {l : List Kind} (h : o.Perm l) {k : Kind} : k ∈ o ↔ k ∈ l := h.mem_iff

theorem wt_sh {a k : Kind} {u m : Nat} (h : Sh u m (conversionCost a (some k))) : wt a k = u * 2 ^ 56 + m * 2 ^ 24 := by
  unfold wt; rw [h.all]; omega

theorem bin_one {op : Op2} {o : List Kind} (ho : o.Perm (overloads2 op)) {a b : Cand} {ua ma ub mb : Nat} (ha : Sh ua ma a.cost) (hb : Sh ub mb b.cost) (hu : ua + ub < 254)
    (hm : ma + mb + 2 ^ 14 < 2 ^ 32) (hf : Fits2 op a.expr.kind b.expr.kind) :
    ∃ (m : Nat) (c : Cost × Cost), keepIntrinsic (o.flatMap fun k => [a].flatMap fun x => [b].map fun y => apply2 op k x y) =
      [⟨.bin op (common a.expr.kind b.expr.kind) (coerce (common a.expr.kind b.expr.kind) a.expr) (coerce (common a.expr.kind b.expr.kind) b.expr), c.1, c.2⟩] ∧
      m ≤ 2 ^ 14 ∧ Sh (ua + ub) (ma + mb + m) c.1 := by
  have hchk : chk (overloads2 op) a.expr.kind b.expr.kind = true := by
    apply chk_all (class2 op)
    simpa [fitsB, Fits2, and_assoc] using hf
  have shape : ∀ k, ∃ u m, Sh u m (addAssign (addAssign zero (conversionCost a.expr.kind (some k))) (conversionCost b.expr.kind (some k))) ∧ u ≤ 2 ∧ m ≤ 2 ^ 14 ∧
      u * 2 ^ 56 + m * 2 ^ 24 = wt a.expr.kind k + wt b.expr.kind k ∧ (SafeTo a.expr.kind k → SafeTo b.expr.kind k → u = 0) := by
    intro k
    obtain ⟨u1, m1, s1, l1, l1', z1⟩ := sh_conv a.expr.kind k
    obtain ⟨u2, m2, s2, l2, l2', z2⟩ := sh_conv b.expr.kind k
    have := (sh_zero.addAssign s1 (by omega) (by omega)).addAssign s2 (by omega) (by omega)
    rw [Nat.zero_add, Nat.zero_add] at this
    refine ⟨_, _, this, by omega, by omega, ?_, fun x y => by rw [z1 x, z2 y]⟩
    rw [wt_sh s1, wt_sh s2]; omega
  have total : ∀ k u m, Sh u m (apply2 op k a b).cvtCost → u ≤ 2 → m ≤ 2 ^ 14 → Sh (ua + ub + u) (ma + mb + m) (apply2 op k a b).cost := by
    intro k u m s l l'
    have := ((sh_zero.addAssign hb (by omega) (by omega)).addAssign ha (by omega) (by omega)).addAssign s (by omega) (by omega)
    rw [show 0 + ub + ua + u = ua + ub + u by omega, show 0 + mb + ma + m = ma + mb + m by omega] at this
    exact this
  have e : (o.flatMap fun k => [a].flatMap fun x => [b].map fun y => apply2 op k x y) = o.map fun k => apply2 op k a b := by
    simp only [List.flatMap_cons, List.flatMap_nil, List.map_cons, List.map_nil, List.append_nil]
    exact flatMap_one _ o
  rw [e]
  obtain ⟨u0, m0, s0, lu, lm, w0, z0⟩ := shape (common a.expr.kind b.expr.kind)
  have near := nearest_of_chk hchk
  have := z0 near.left near.right; subst this
  have t0 := total _ _ _ s0 lu lm
  refine ⟨m0, ((apply2 op (common a.expr.kind b.expr.kind) a b).cost, (apply2 op (common a.expr.kind b.expr.kind) a b).cvtCost), ?_, lm, by simpa using t0⟩
  rw [keep_one (k0 := common a.expr.kind b.expr.kind) (f := fun k => apply2 op k a b)]
  · simp only [apply2, convertArg_eq]
  · exact ho.nodup_iff.2 (nodup_classes (class2 op))
  · exact ho.mem_iff.2 near.offered
  · intro k
    obtain ⟨u, m, s, l, l', -, -⟩ := shape k
    exact ⟨_, _, total k u m s l l'⟩
  · intro k
    obtain ⟨u, m, s, -⟩ := shape k
    exact s.fin'
  · intro k hk hne
    obtain ⟨u, m, s, l, l', w, -⟩ := shape k
    have c := cheapest_of_chk hchk (ho.mem_iff.1 hk) hne
    have t := total k u m s l l'
    rw [t.all, t0.all]
    omega

theorem un_one {op : Op1} {o : List Kind} (ho : o.Perm (overloads1 op)) {a : Cand} {ua ma : Nat} (ha : Sh ua ma a.cost) (hu : ua < 254)
    (hm : ma + 2 ^ 14 < 2 ^ 32) (hf : Fits1 op a.expr.kind) :
    ∃ c : Cost × Cost, keepIntrinsic (o.flatMap fun k => [a].map fun x => apply1 op k x) = [⟨.un op a.expr.kind a.expr, c.1, c.2⟩] ∧ Sh ua ma c.1 := by
  have hchk : chk (overloads1 op) a.expr.kind a.expr.kind = true := by
    apply chk_all (class1 op)
    have : a.expr.kind ∈ overloads1 op := hf
    simp [fitsB, this]
  have ec : common a.expr.kind a.expr.kind = a.expr.kind := if_pos rfl
  have shape : ∀ k, ∃ u m, Sh u m (addAssign zero (conversionCost a.expr.kind (some k))) ∧ u ≤ 1 ∧ m ≤ 2 ^ 13 ∧
      u * 2 ^ 56 + m * 2 ^ 24 = wt a.expr.kind k := by
    intro k
    obtain ⟨u1, m1, s1, l1, l1', z1⟩ := sh_conv a.expr.kind k
    have := sh_zero.addAssign s1 (by omega) (by omega)
    rw [Nat.zero_add, Nat.zero_add] at this
    exact ⟨_, _, this, by omega, by omega, (wt_sh s1).symm⟩
  have total : ∀ k u m, Sh u m (apply1 op k a).cvtCost → u ≤ 1 → m ≤ 2 ^ 13 → Sh (ua + u) (ma + m) (apply1 op k a).cost := by
    intro k u m s l l'
    have := (sh_zero.addAssign ha (by omega) (by omega)).addAssign s (by omega) (by omega)
    rw [show 0 + ua + u = ua + u by omega, show 0 + ma + m = ma + m by omega] at this
    exact this
  have e : (o.flatMap fun k => [a].map fun x => apply1 op k x) = o.map fun k => apply1 op k a := by
    simp only [List.map_cons, List.map_nil]
    exact flatMap_one _ o
  rw [e]
  obtain ⟨u0, m0, s0, lu, lm, w0⟩ := shape a.expr.kind
  have wz : wt a.expr.kind a.expr.kind = 0 := by unfold wt; rw [conv_self]; exact Nat.sub_self 65280
  have : u0 = 0 := by omega
  subst this
  have : m0 = 0 := by omega
  subst this
  have t0 := total _ _ _ s0 lu lm
  refine ⟨((apply1 op a.expr.kind a).cost, (apply1 op a.expr.kind a).cvtCost), ?_, t0⟩
  rw [keep_one (k0 := a.expr.kind) (f := fun k => apply1 op k a)]
  · simp [apply1, convertArg_eq, coerce]
  · exact ho.nodup_iff.2 (nodup_classes (class1 op))
  · exact ho.mem_iff.2 hf
  · intro k
    obtain ⟨u, m, s, l, l', -⟩ := shape k
    exact ⟨_, _, total k u m s l l'⟩
  · intro k
    obtain ⟨u, m, s, -⟩ := shape k
    exact s.fin'
  · intro k hk hne
    obtain ⟨u, m, s, l, l', w⟩ := shape k
    have c := cheapest_of_chk hchk (ho.mem_iff.1 hk) (by rw [ec]; exact hne)
    rw [ec] at c
    have t := total k u m s l l'
    rw [t.all, t0.all]
    omega

theorem nearest_self {op : Op1} {k : Kind} (h : Fits1 op k) : Nearest (overloads1 op) k k k := by
  have hchk : chk (overloads1 op) k k = true := by
    apply chk_all (class1 op)
    have : k ∈ overloads1 op := h
    simp [fitsB, this]
  have := nearest_of_chk hchk
  rwa [show common k k = k from if_pos rfl] at this

theorem nearest_fits {op : Op2} {a b : Kind} (h : Fits2 op a b) : Nearest (overloads2 op) a b (common a b) := by
  apply nearest_of_chk
  apply chk_all (class2 op)
  simpa [fitsB, Fits2, and_assoc] using h

/-- The candidates of an expression: one. -/
theorem find_one {o1 : Op1 → List Kind} {o2 : Op2 → List Kind} (h1 : ∀ op, (o1 op).Perm (overloads1 op)) (h2 : ∀ op, (o2 op).Perm (overloads2 op)) {e : Expr} {k : Kind}
    (hf : Fit e k) (hc : e.casts < 254) (hs : e.size < 2 ^ 16) :
    ∃ (t : TExpr) (c : Cost × Cost) (u m : Nat), find o1 o2 e = some [⟨t, c.1, c.2⟩] ∧ Elab e t ∧ t.kind = k ∧ Sh u m c.1 ∧ u ≤ e.casts ∧ m ≤ e.size * 2 ^ 14 := by
  induction hf with
  | name h =>
    rename_i k
    exact ⟨.var k, (zero, zero), 0, 0, by simp [find], .name k, rfl, sh_zero, Nat.zero_le _, Nat.zero_le _⟩
  | un ha hfit ih =>
    rename_i op a k
    simp only [Expr.casts, Expr.size] at hc hs ⊢
    obtain ⟨t, c, u, m, e, el, tk, s, lu, lm⟩ := ih hc (by omega)
    subst tk
    obtain ⟨c', e', s'⟩ := un_one (h1 op) (a := ⟨t, c.1, c.2⟩) s (by omega) (by omega) hfit
    refine ⟨.un op t.kind t, c', u, m, ?_, ?_, rfl, s', lu, Nat.le_trans lm (Nat.mul_le_mul_right _ (Nat.le_succ _))⟩
    · show (find o1 o2 a).bind _ = _
      rw [e]
      show finish _ = _
      rw [e']
      exact finish_one _
    · have := Elab.un el (nearest_self hfit)
      rwa [show coerce t.kind t = t from if_pos rfl] at this
  | bin ha hb hfit hn iha ihb =>
    rename_i op a b ka kb k
    simp only [Expr.casts, Expr.size] at hc hs ⊢
    obtain ⟨t, c, u, m, e, el, tk, s, lu, lm⟩ := iha (by omega) (by omega)
    obtain ⟨t', c', u', m', e', el', tk', s', lu', lm'⟩ := ihb (by omega) (by omega)
    subst tk tk'
    obtain ⟨m'', c'', e'', lm'', s''⟩ := bin_one (h2 op) (a := ⟨t, c.1, c.2⟩) (b := ⟨t', c'.1, c'.2⟩) s s' (by omega) (by omega) hfit
    have hk := nearest_unique hn (nearest_fits hfit)
    subst hk
    refine ⟨_, c'', _, _, ?_, Elab.bin el el' hn, rfl, s'', by omega, by omega⟩
    show (find o1 o2 a).bind _ = _
    rw [e]
    show (find o1 o2 b).bind _ = _
    rw [e']
    show finish _ = _
    rw [e'']
    exact finish_one _
  | cast ha ht ih =>
    rename_i t' a k
    simp only [Expr.casts, Expr.size] at hc hs ⊢
    obtain ⟨t, c, u, m, e, el, tk, s, lu, lm⟩ := ih (by omega) (by omega)
    obtain ⟨u', m', s', l, l', -⟩ := sh_conv t.kind t'
    refine ⟨.cast (some t') t, (addAssign c.1 (conversionCost t.kind (some t')), zero), u + u', m + m', ?_, .cast el, rfl, s.addAssign s' (by omega) (by omega), by omega, by omega⟩
    · show (find o1 o2 a).bind _ = _
      rw [e]
      show finish _ = _
      rw [castCands_one (c := ⟨t, c.1, c.2⟩) s s' (by omega) (by omega)]
      exact finish_one _
  | cond ha hb hn iha ihb =>
    rename_i a b ka kb k
    simp only [Expr.casts, Expr.size] at hc hs ⊢
    obtain ⟨t, c, u, m, e, el, tk, s, lu, lm⟩ := iha (by omega) (by omega)
    obtain ⟨t', c', u', m', e', el', tk', s', lu', lm'⟩ := ihb (by omega) (by omega)
    subst tk tk'
    have hk := nearest_unique hn (nearest_kinds _ _)
    subst hk
    obtain ⟨v, n, sv, lv, ln, zv⟩ := sh_conv t.kind (common t.kind t'.kind)
    obtain ⟨v', n', sv', lv', ln', zv'⟩ := sh_conv t'.kind (common t.kind t'.kind)
    have := zv hn.left; subst this
    have := zv' hn.right; subst this
    have S := ((s.add s' (by omega) (by omega)).addAssign sv (by omega) (by omega)).addAssign sv' (by omega) (by omega)
    refine ⟨_, (_, zero), _, _, ?_, Elab.cond el el' hn, rfl, S, by omega, by omega⟩
    show (find o1 o2 a).bind _ = _
    rw [e]
    show (find o1 o2 b).bind _ = _
    rw [e']
    show finish _ = _
    simp only [List.flatMap_cons, List.flatMap_nil, List.map_cons, List.map_nil, List.append_nil]
    rw [finish_one]
    simp only [condCand, convertArg_eq]
    rfl

theorem elab_unique {e : Expr} {t t' : TExpr} (h : Elab e t) (h' : Elab e t') : t = t' := by
  induction h generalizing t' with
  | name k => cases h'; rfl
  | un _ hn ih => cases h' with | un h1 hn' => have := ih h1; subst this; rw [nearest_unique hn hn']
  | bin _ _ hn iha ihb => cases h' with | bin h1 h2 hn' => have := iha h1; subst this; have := ihb h2; subst this; rw [nearest_unique hn hn']
  | cast _ ih => cases h' with | cast h1 => rw [ih h1]
  | cond _ _ hn iha ihb => cases h' with | cond h1 h2 hn' => have := iha h1; subst this; have := ihb h2; subst this; rw [nearest_unique hn hn']

/-! ### C -/

theorem c_unary {op : Op1} {k r : Kind} (hw : Wide k = true) (h : cUnary op k = some r) : Fits1 op k ∧ promote k = k ∧ resultOf (row1 op) k = r ∧ Wide r = true := by
  have : (kinds.all fun k => [Op1.plus, .minus, .compl, .lnot].all fun op => match cUnary op k with
      | some r => ! Wide k || (decide (Fits1 op k) && promote k == k && resultOf (row1 op) k == r && Wide r)
      | none => true) = true := by decide +kernel
  have := List.all_eq_true.1 (forall1 this k) op (by cases op <;> decide)
  rw [h] at this
  simpa [hw, and_assoc] using this

def ops2 : List Op2 := [.mul, .div, .mod, .add, .sub, .shl, .shr, .lt, .le, .gt, .ge, .eq, .ne, .band, .bxor, .bor]

def cBinOk (op : Op2) (a b : Kind) : Bool :=
  match cBinary op a b with
  | some r => ! Wide a || ! Wide b || Mixed a b || ((op == .shl || op == .shr) && a != b) ||
      (decide (Fits2 op a b) && r.1 == r.2.1 && common a b == r.1 && resultOf (row2 op) r.1 == r.2.2 && Wide r.2.2)
  | none => true

theorem c_binary_all : (kinds.all fun a => kinds.all fun b => ops2.all fun op => cBinOk op a b) = true := by decide +kernel

theorem c_binary {op : Op2} {a b : Kind} {r : Kind × Kind × Kind} (ha : Wide a = true) (hb : Wide b = true) (hm : Mixed a b = false) (hs : (op = .shl ∨ op = .shr) → a = b)
    (h : cBinary op a b = some r) : Fits2 op a b ∧ r.1 = r.2.1 ∧ common a b = r.1 ∧ resultOf (row2 op) r.1 = r.2.2 ∧ Wide r.2.2 = true := by
  have := List.all_eq_true.1 (forall2 c_binary_all a b) op (by cases op <;> decide)
  simp only [cBinOk, h] at this
  have hs' : ((op == .shl || op == .shr) && a != b) = false := by
    by_cases e : op = .shl ∨ op = .shr
    · simp [hs e]
    · simp [not_or.1 e]
  rw [ha, hb, hm, hs'] at this
  simpa [and_assoc] using this

theorem c_usual {a b : Kind} (ha : Wide a = true) (hb : Wide b = true) (hm : Mixed a b = false) : common a b = usual a b ∧ Wide (usual a b) = true := by
  have := forall2 (p := fun a b => ! Wide a || ! Wide b || Mixed a b || (common a b == usual a b && Wide (usual a b))) (by decide +kernel) a b
  simpa [ha, hb, hm] using this

theorem wide_ops {k : Kind} (h : Wide k = true) : HasOps k ∧ Standard k = true := by
  have := forall1 (p := fun k => ! Wide k || (decide (HasOps k) && Standard k)) (by decide +kernel) k
  simpa [h] using this

theorem c_elab {e : Expr} {k : Kind} (hl : CLike e) (hk : cType e = some k) : ∃ t, cElab e = some t ∧ t.kind = k ∧ Wide k = true ∧ Elab e t ∧ Fit e k := by
  induction e generalizing k with
  | name ks =>
    obtain ⟨k', rfl, hw⟩ := hl
    simp only [cType, (wide_ops hw).2, if_true, Option.some.injEq] at hk
    subst hk
    exact ⟨.var k', by simp [cElab, (wide_ops hw).2], rfl, hw, .name k', .name (wide_ops hw).1⟩
  | un op a ih =>
    simp only [cType] at hk
    cases ha : cType a with
    | none => rw [ha] at hk; cases hk
    | some ka =>
      rw [ha] at hk
      have hk : cUnary op ka = some k := hk
      obtain ⟨t, e1, e2, hw, el, hf⟩ := ih hl ha
      subst e2
      obtain ⟨f1, p1, r1, w1⟩ := c_unary hw hk
      subst r1
      refine ⟨.un op t.kind t, ?_, rfl, w1, ?_, .un hf f1⟩
      · simp [cElab, e1, hk, p1, coerce]
      · have := Elab.un el (nearest_self f1)
        rwa [show coerce t.kind t = t from if_pos rfl] at this
  | bin op a b iha ihb =>
    obtain ⟨la, lb, hm⟩ := hl
    simp only [cType] at hk
    cases ha : cType a with
    | none => rw [ha] at hk; cases hk
    | some ka =>
      cases hb : cType b with
      | none => rw [ha, hb] at hk; cases hk
      | some kb =>
        rw [ha, hb] at hk
        have hk : (cBinary op ka kb).map (·.2.2) = some k := hk
        obtain ⟨hm1, hs⟩ := hm ka kb ha hb
        obtain ⟨t, e1, e2, hw, el, hf⟩ := iha la ha
        obtain ⟨t', e1', e2', hw', el', hf'⟩ := ihb lb hb
        subst e2 e2'
        cases hr : cBinary op t.kind t'.kind with
        | none => rw [hr] at hk; cases hk
        | some r =>
          rw [hr] at hk
          simp only [Option.map_some, Option.some.injEq] at hk
          obtain ⟨f1, q1, q2, q3, q4⟩ := c_binary hw hw' hm1 hs hr
          have hn := nearest_fits f1
          rw [q2] at hn
          refine ⟨.bin op r.1 (coerce r.1 t) (coerce r.1 t'), ?_, q3.trans hk, hk ▸ q4, .bin el el' hn, ?_⟩
          · simp [cElab, e1, e1', hr, q1]
          · have := Fit.bin hf hf' f1 hn
            rwa [q3, hk] at this
  | cast t' a ih =>
    obtain ⟨la, hw'⟩ := hl
    simp only [cType] at hk
    cases ha : cType a with
    | none => rw [ha] at hk; cases hk
    | some ka =>
      rw [ha] at hk
      simp only [Option.bind_some, (wide_ops hw').2, if_true, Option.some.injEq] at hk
      subst hk
      obtain ⟨t, e1, e2, hw, el, hf⟩ := ih la ha
      exact ⟨.cast (some t') t, by simp [cElab, e1, (wide_ops hw').2], rfl, hw', .cast el, .cast hf (wide_ops hw').1⟩
  | cond a b iha ihb =>
    obtain ⟨la, lb, hm⟩ := hl
    simp only [cType] at hk
    cases ha : cType a with
    | none => rw [ha] at hk; cases hk
    | some ka =>
      cases hb : cType b with
      | none => rw [ha, hb] at hk; cases hk
      | some kb =>
        rw [ha, hb] at hk
        simp only [Option.bind_some, Option.some.injEq] at hk
        obtain ⟨t, e1, e2, hw, el, hf⟩ := iha la ha
        obtain ⟨t', e1', e2', hw', el', hf'⟩ := ihb lb hb
        subst e2 e2' hk
        obtain ⟨q, q'⟩ := c_usual hw hw' (hm _ _ ha hb)
        have hn := nearest_kinds t.kind t'.kind
        rw [q] at hn
        exact ⟨_, by simp [cElab, e1, e1'], rfl, q', .cond el el' hn, .cond hf hf' hn⟩

end Verif.Arith
