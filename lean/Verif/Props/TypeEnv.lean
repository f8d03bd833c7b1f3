import Verif.Proof.TypeEnvCombine
/-
  C68.  In every reachable type environment each type variable belongs to at most one equivalence class,
  lookups agree with the bindings made, and combining two environments either fails or satisfies the
  constraints of both.

  The part about `combine` is false: `C68_combine_violated`, `C68_combine_diverges_violated`,
  `C68_combine_cyclic_violated`.  It holds when no class of the other environment ties together two variables
  this one already knows, and no bound class of it is new to this one (`C68_combine_partial`).
-/
namespace Verif.TypeEnv

/-- Each class of `o` has at most one variable that `e` knows, and exactly one if it is bound; the classes
of `o` have no variables in common. -/
structure Compatible (e o : Env) : Prop where
  apart : o.classes.Pairwise (fun c d => ∀ v ∈ c.vars, v ∉ d.vars)
  one : ∀ c ∈ o.classes, ∀ u ∈ c.vars, ∀ v ∈ c.vars, Known e u → Known e v → u = v
  bound : ∀ c ∈ o.classes, c.bound ≠ none → ∃ v ∈ c.vars, Known e v

/-- The environments a client can make: variables are added once, bound and unified in any order, and compatible
environments are combined.  The calls that fail leave an environment the resolver throws away. -/
inductive Reachable : Env → Prop
  | empty : Reachable Env.empty
  | addVars {e : Env} {vs : List Nat} : Reachable e → vs.Nodup → (∀ v ∈ vs, ¬ Known e v) → Reachable (addVars e vs)
  | bindVar {n : Nat} {e e' : Env} {v : Nat} {t : Ty} : Reachable e → bindVar n e v t = .yes e' → Reachable e'
  | bindVarToVar {n : Nat} {e e' : Env} {v₁ v₂ : Nat} : Reachable e → bindVarToVar n e v₁ v₂ = .yes e' → Reachable e'
  | unify {n : Nat} {e e' : Env} {t₁ t₂ : Ty} : Reachable e → unify n e t₁ t₂ = .yes e' → Reachable e'
  | combine {n : Nat} {e o e' : Env} : Reachable e → Reachable o → Compatible e o → combine n e o = .yes e' →
      Reachable e'

theorem addVars_ok : ∀ (vs : List Nat) (e : Env), Disjoint e → Acyclic e → vs.Nodup → (∀ v ∈ vs, ¬ Known e v) →
    Top e (addVars e vs) (fun v => v ∈ vs) (fun _ => True) := by
  intro vs
  induction vs with
  | nil => intro e hd ha _ _; exact ⟨hd, ha, by simp [addVars], fun σ h => ⟨h, trivial⟩⟩
  | cons v vs ih =>
    intro e hd ha hn hk
    have t1 := top_push hd ha (vs := [v]) (b := none) (by intro w hw; simp at hw; subst hw; exact hk _ (by simp))
      _ (Closed.empty e) (by simp) (by simp)
    rw [List.nodup_cons] at hn
    have t2 := ih _ t1.dis t1.ac hn.2 (by
      intro w hw hkw
      rcases (t1.known w).1 hkw with h | h
      · exact hk w (by simp [hw]) h
      · simp at h; subst h; exact hn.1 hw)
    refine ⟨t2.dis, t2.ac, ?_, fun σ h => ⟨(t1.sat σ (t2.sat σ h).1).1, trivial⟩⟩
    intro w
    show Known (addVars (push e [v] none) vs) w ↔ _
    rw [t2.known, t1.known]
    simp [or_assoc]

theorem simpleCombine_ok : ∀ (cs : List Cls) (e : Env), Disjoint e → Acyclic e →
    cs.Pairwise (fun c d => ∀ v ∈ c.vars, v ∉ d.vars) → (∀ c ∈ cs, ∀ v ∈ c.vars, ¬ Known e v) →
    (∀ c ∈ cs, c.bound = none) →
    Top e (simpleCombine e cs) (fun v => ∃ c ∈ cs, v ∈ c.vars) (fun σ => ∀ c ∈ cs, SatCls σ c) := by
  intro cs
  induction cs with
  | nil => intro e hd ha _ _ _; exact ⟨hd, ha, by simp [simpleCombine], fun σ h => ⟨h, by simp⟩⟩
  | cons c cs ih =>
    intro e hd ha hp hk hb
    have t1 := top_push hd ha (vs := c.vars) (b := c.bound) (hk c (by simp))
      _ (Closed.empty e) (by simp [hb c (by simp)]) (by simp)
    rw [List.pairwise_cons] at hp
    have t2 := ih _ t1.dis t1.ac hp.2 (by
      intro d hd' w hw hkw
      rcases (t1.known w).1 hkw with h | h
      · exact hk d (by simp [hd']) w hw h
      · exact hp.1 d hd' w h hw) (fun d hd' => hb d (by simp [hd']))
    refine ⟨t2.dis, t2.ac, ?_, ?_⟩
    · intro w
      show Known (simpleCombine (push e c.vars c.bound) cs) w ↔ _
      rw [t2.known, t1.known]
      simp [or_assoc]
    · intro σ h
      obtain ⟨s1, s2⟩ := t2.sat σ h
      obtain ⟨s3, s4⟩ := t1.sat σ s1
      refine ⟨s3, ?_⟩
      intro d hd'
      rcases List.mem_cons.1 hd' with rfl | hd'
      · exact s4
      · exact s2 d hd'

theorem combine_ok {n : Nat} {e o e' : Env} (hd : Disjoint e) (ha : Acyclic e) (hc : Compatible e o)
    (h : combine n e o = .yes e') :
    Top e e' (fun v => Known o v) (fun σ => Sat σ o) := by
  unfold combine at h
  split at h
  · rename_i ho
    cases h
    exact ⟨hd, ha, fun v => by simp [Known, ho], fun σ hσ => ⟨hσ, by simp [Sat, ho]⟩⟩
  · split at h
    · rename_i he
      cases h
      have hk : ∀ v, ¬ Known e v := by rintro v ⟨c, hc', _⟩; rw [he] at hc'; simp at hc'
      exact simpleCombine_ok o.classes e hd ha hc.apart (fun _ _ v _ => hk v) (by
        intro c hc'
        cases hb : c.bound with
        | none => rfl
        | some b =>
          obtain ⟨v, _, hv⟩ := hc.bound c hc' (by simp [hb])
          exact absurd hv (hk v))
    · exact combineAll_spec o.classes e e' hd ha hc.apart hc.one hc.bound h

theorem reachable_ok {e : Env} (h : Reachable e) : Disjoint e ∧ Acyclic e := by
  induction h with
  | empty =>
    refine ⟨⟨?_, ?_, ?_⟩, ?_⟩
    all_goals intro c hc; simp [Env.empty] at hc
  | addVars _ hn hk ih =>
    have := addVars_ok _ _ ih.1 ih.2 hn hk
    exact ⟨this.dis, this.ac⟩
  | bindVar _ h ih => have := bindVar_top ih.1 ih.2 h; exact ⟨this.dis, this.ac⟩
  | bindVarToVar _ h ih => have := bindVarToVar_top ih.1 ih.2 h; exact ⟨this.dis, this.ac⟩
  | unify _ h ih => have := unify_top ih.1 ih.2 h; exact ⟨this.dis, this.ac⟩
  | combine _ _ hc h ih _ => have := combine_ok ih.1 ih.2 hc h; exact ⟨this.dis, this.ac⟩

/-! ### The theorems -/

/-- In a reachable environment, a variable belongs to at most one class. -/
theorem C68_one_class {e : Env} (h : Reachable e) :
    ∀ c ∈ e.classes, ∀ d ∈ e.classes, ∀ v, v ∈ c.vars → v ∈ d.vars → c = d :=
  (reachable_ok h).1.vars

/-- `lookup` finds the class of a variable, the only one. -/
theorem C68_lookup {e : Env} (h : Reachable e) (v : Nat) (c : Cls) :
    lookup e v = some c ↔ c ∈ e.classes ∧ v ∈ c.vars :=
  ⟨lookup_some, fun ⟨h1, h2⟩ => lookup_of (reachable_ok h).1 h1 h2⟩

/-- The constraints of a reachable environment can be met: some assignment of types to variables agrees with
every class and every binding.  In particular no variable is bound to a type that contains it. -/
theorem C68_solvable {e : Env} (h : Reachable e) : ∃ σ, Sat σ e :=
  solvable (reachable_ok h).1 (reachable_ok h).2

theorem bindVar_bound {n : Nat} {e e' : Env} {v : Nat} {t : Ty} (hd : Disjoint e) (ha : Acyclic e)
    (h : bindVar n e v t = .yes e') : ∃ c ∈ e'.classes, v ∈ c.vars ∧ c.bound ≠ none := by
  cases n with
  | zero => simp [bindVar] at h
  | succ n =>
    simp only [bindVar] at h
    split at h
    · cases h
    · cases h
    · split at h
      · rename_i c hl
        obtain ⟨hcm, hvc⟩ := lookup_some hl
        split at h
        · rename_i b hb
          split at h
          · rename_i e1 hu
            split at h
            · rename_i d hg
              simp only [Res.yes.injEq] at h
              have hp := ((unify_all n).1 (fun _ => True) e b t hd ha (Closed.univ e) (fun _ _ => trivial)
                (fun _ _ => trivial)).2 e1 hu
              obtain ⟨g1, g2⟩ := get_some hg
              obtain ⟨kv, kb⟩ := hp.keep c hcm d g1 g2
              subst h
              exact ⟨_, (Split.of hp.dis g1).set (c' := { d with bound := some b }) rfl (Split.of hp.dis g1).vars |>.here,
                kv v hvc, by simp⟩
            · cases h
          · rename_i x hx
            exact (hx _ h).elim
        · simp only [Res.yes.injEq] at h
          subst h
          exact ⟨_, (Split.of hd hcm).set (c' := { c with bound := some t }) rfl (Split.of hd hcm).vars |>.here,
            hvc, by simp⟩
      · simp only [Res.yes.injEq] at h
        subst h
        exact ⟨⟨e.next, [v], some t⟩, by simp [push], by simp, by simp⟩

/-- A successful `bindVar(v, t)` keeps what was already required, and makes `v` equal to `t`: the lookup of `v`
gives a bound class, whose bound is `t` for every assignment that satisfies the environment. -/
theorem C68_bindVar {n : Nat} {e e' : Env} {v : Nat} {t : Ty} (h : Reachable e) (hr : bindVar n e v t = .yes e') :
    (∃ c b, lookup e' v = some c ∧ c.bound = some b ∧ ∀ σ, Sat σ e' → subst σ b = subst σ t) ∧
    ∀ σ, Sat σ e' → Sat σ e ∧ σ v = subst σ t := by
  obtain ⟨hd, ha⟩ := reachable_ok h
  have ht := bindVar_top hd ha hr
  obtain ⟨c, hc, hv, hb⟩ := bindVar_bound hd ha hr
  refine ⟨?_, ht.sat⟩
  obtain ⟨b, hb⟩ := Option.ne_none_iff_exists'.1 hb
  refine ⟨c, b, lookup_of ht.dis hc hv, hb, ?_⟩
  intro σ hσ
  rw [← (hσ c hc).2 b hb v hv]
  exact (ht.sat σ hσ).2

theorem bindVarToVar_class {n : Nat} {e e' : Env} {v₁ v₂ : Nat} (hd : Disjoint e) (ha : Acyclic e)
    (h : bindVarToVar n e v₁ v₂ = .yes e') : ∃ c ∈ e'.classes, v₁ ∈ c.vars ∧ v₂ ∈ c.vars := by
  have ext : ∀ (c : Cls) (v w : Nat), c ∈ e.classes → v ∈ c.vars →
      ∃ d ∈ (set e { c with vars := c.vars ++ [w] }).classes, v ∈ d.vars ∧ w ∈ d.vars := by
    intro c v w hc hv
    exact ⟨{ c with vars := c.vars ++ [w] }, (mem_set (c' := { c with vars := c.vars ++ [w] }) hd hc rfl _).2 (Or.inr rfl),
      by simp [hv], by simp⟩
  have mrg : ∀ (e : Env) (c d : Cls) (b : Option Ty) (v w : Nat), Disjoint e → c ∈ e.classes → c.id ≠ d.id →
      v ∈ c.vars → w ∈ d.vars →
      ∃ x ∈ (erase (set e { c with vars := c.vars ++ d.vars, bound := b }) d.id).classes, v ∈ x.vars ∧ w ∈ x.vars := by
    intro e c d b v w hd hc hne hv hw
    refine ⟨{ c with vars := c.vars ++ d.vars, bound := b }, (mem_erase _).2
      ⟨(mem_set (c' := { c with vars := c.vars ++ d.vars, bound := b }) hd hc rfl _).2 (Or.inr rfl), hne⟩,
      by simp [hv], by simp [hw]⟩
  cases n with
  | zero => simp [bindVarToVar] at h
  | succ n =>
    simp only [bindVarToVar] at h
    split at h
    · rename_i c₁ c₂ hl1 hl2
      obtain ⟨hc1, hv1⟩ := lookup_some hl1
      obtain ⟨hc2, hv2⟩ := lookup_some hl2
      split at h
      · rename_i hi
        cases h
        have := hd.ids c₁ hc1 c₂ hc2 hi
        subst this
        exact ⟨c₁, hc1, hv1, hv2⟩
      · rename_i hne
        split at h
        · rename_i b₁ b₂ hb1 hb2
          split at h
          · split at h
            · rename_i e1 hu
              split at h
              · rename_i d₁ d₂ g1 g2
                have hp := ((unify_all n).1 (fun _ => True) e b₁ b₂ hd ha (Closed.univ e) (fun _ _ => trivial)
                  (fun _ _ => trivial)).2 e1 hu
                obtain ⟨m1, i1⟩ := get_some g1
                obtain ⟨m2, i2⟩ := get_some g2
                simp only [Res.yes.injEq] at h
                subst h
                exact mrg e1 d₁ d₂ (some b₁) v₁ v₂ hp.dis m1 (by rw [i1, i2]; exact hne)
                  ((hp.keep c₁ hc1 d₁ m1 i1).1 v₁ hv1) ((hp.keep c₂ hc2 d₂ m2 i2).1 v₂ hv2)
              · cases h
            · rename_i x hx
              exact (hx _ h).elim
          all_goals cases h
        · split at h
          · cases h
            exact mrg e c₁ c₂ _ v₁ v₂ hd hc1 hne hv1 hv2
          all_goals cases h
        · split at h
          · cases h
            obtain ⟨x, hx, h1, h2⟩ := mrg e c₂ c₁ _ v₂ v₁ hd hc2 (Ne.symm hne) hv2 hv1
            exact ⟨x, hx, h2, h1⟩
          all_goals cases h
        · cases h
          obtain ⟨x, hx, h1, h2⟩ := mrg e c₂ c₁ _ v₂ v₁ hd hc2 (Ne.symm hne) hv2 hv1
          exact ⟨x, hx, h2, h1⟩
    · rename_i c₁ hl1 _
      obtain ⟨hc1, hv1⟩ := lookup_some hl1
      split at h
      · split at h
        · cases h; exact ext c₁ v₁ v₂ hc1 hv1
        all_goals cases h
      · cases h; exact ext c₁ v₁ v₂ hc1 hv1
    · rename_i c₂ _ hl2
      obtain ⟨hc2, hv2⟩ := lookup_some hl2
      have := ext c₂ v₂ v₁ hc2 hv2
      obtain ⟨d, hd', h1, h2⟩ := this
      split at h
      · split at h
        · cases h; exact ⟨d, hd', h2, h1⟩
        all_goals cases h
      · cases h; exact ⟨d, hd', h2, h1⟩
    · cases h
      exact ⟨⟨e.next, [v₁, v₂], none⟩, by simp [push], by simp, by simp⟩

/-- A successful `bindVarToVar(v₁, v₂)` keeps what was already required, and puts the two variables in the same
class. -/
theorem C68_bindVarToVar {n : Nat} {e e' : Env} {v₁ v₂ : Nat} (h : Reachable e)
    (hr : bindVarToVar n e v₁ v₂ = .yes e') :
    (∃ c, lookup e' v₁ = some c ∧ lookup e' v₂ = some c) ∧
    ∀ σ, Sat σ e' → Sat σ e ∧ σ v₁ = σ v₂ := by
  obtain ⟨hd, ha⟩ := reachable_ok h
  have ht := bindVarToVar_top hd ha hr
  obtain ⟨c, hc, h1, h2⟩ := bindVarToVar_class hd ha hr
  exact ⟨⟨c, lookup_of ht.dis hc h1, lookup_of ht.dis hc h2⟩, ht.sat⟩

/-- Unifying two types keeps what was already required, and makes them equal. -/
theorem C68_unify {n : Nat} {e e' : Env} {t₁ t₂ : Ty} (h : Reachable e) (hr : unify n e t₁ t₂ = .yes e') :
    ∀ σ, Sat σ e' → Sat σ e ∧ subst σ t₁ = subst σ t₂ :=
  (unify_top (reachable_ok h).1 (reachable_ok h).2 hr).sat

/-- Variables are never forgotten, and none is known that was not mentioned. -/
theorem C68_known {n : Nat} {e e' : Env} {v : Nat} {t : Ty} (h : Reachable e) (hr : bindVar n e v t = .yes e')
    (w : Nat) : (lookup e' w).isSome ↔ (lookup e w).isSome ∨ w = v := by
  obtain ⟨hd, ha⟩ := reachable_ok h
  have hk := (bindVar_top hd ha hr).known w
  have conv : ∀ e : Env, (lookup e w).isSome ↔ Known e w := by
    intro e
    constructor
    · intro h
      obtain ⟨c, hc⟩ := Option.isSome_iff_exists.1 h
      exact ⟨c, lookup_some hc⟩
    · intro h
      obtain ⟨c, hc⟩ := lookup_known h
      simp [hc]
  rw [conv, conv]
  exact hk

/-- `bindVar`, `bindVarToVar` and `unify` never use an iterator to a class that has been erased, when they are
given variables the environment knows. -/
theorem C68_no_dangling (n : Nat) {e : Env} (h : Reachable e) :
    (∀ t₁ t₂, unify n e t₁ t₂ ≠ .undef) ∧
    (∀ v t, Known e v → bindVar n e v t ≠ .undef) ∧
    (∀ v₁ v₂, Known e v₁ → Known e v₂ → bindVarToVar n e v₁ v₂ ≠ .undef) := by
  obtain ⟨hd, ha⟩ := reachable_ok h
  refine ⟨fun t₁ t₂ => ?_, fun v t hv => ?_, fun v₁ v₂ h1 h2 => ?_⟩
  · exact ((unify_all n).1 (fun _ => True) e t₁ t₂ hd ha (Closed.univ e) (fun _ _ => trivial) (fun _ _ => trivial)).1
  · exact ((unify_all n).2.1 (fun _ => True) e v t hd ha (Closed.univ e) hv trivial (fun _ _ => trivial)).1
  · exact ((unify_all n).2.2 (fun _ => True) e v₁ v₂ hd ha (Closed.univ e) h1 h2 trivial trivial).1

/-- Adding a class drops the classes it overlaps; each variable is still in at most one class, and lookups of the
variables of the new class give it. -/
theorem C68_add {e : Env} (h : Reachable e) (vs : List Nat) (b : Option Ty) :
    Disjoint (addClass e vs b) ∧
    (∀ v ∈ vs, ∃ c, lookup (addClass e vs b) v = some c ∧ c.vars = vs ∧ c.bound = b) := by
  obtain ⟨hd, _⟩ := reachable_ok h
  have hd0 : Disjoint ({ e with classes := e.classes.filter (fun c => !(vs.any (fun v => decide (v ∈ c.vars)))) } : Env) := by
    refine ⟨?_, ?_, ?_⟩
    · intro c hc d hd'; exact hd.ids c (List.mem_filter.1 hc).1 d (List.mem_filter.1 hd').1
    · intro c hc; exact hd.fresh c (List.mem_filter.1 hc).1
    · intro c hc d hd'; exact hd.vars c (List.mem_filter.1 hc).1 d (List.mem_filter.1 hd').1
  have hs := Split.push (vs := vs) hd0 (by
    rintro v hv ⟨c, hc, hvc⟩
    have := (List.mem_filter.1 hc).2
    simp only [Bool.not_eq_true', List.any_eq_false, decide_eq_true_eq] at this
    exact this v hv hvc) b
  refine ⟨hs.disjoint, ?_⟩
  intro v hv
  exact ⟨_, lookup_of hs.disjoint hs.here hv, rfl, rfl⟩

/-- Combining compatible environments fails, or gives an environment that satisfies the constraints of both and in
which each variable has one class.  Missing: the same for arbitrary environments, which is false (below). -/
theorem C68_combine_partial {n : Nat} {e o e' : Env} (he : Reachable e) (hc : Compatible e o)
    (h : combine n e o = .yes e') :
    (∀ c ∈ e'.classes, ∀ d ∈ e'.classes, ∀ v, v ∈ c.vars → v ∈ d.vars → c = d) ∧
    (∀ σ, Sat σ e' → Sat σ e ∧ Sat σ o) ∧ (∃ σ, Sat σ e') := by
  obtain ⟨hd, ha⟩ := reachable_ok he
  have := combine_ok hd ha hc h
  exact ⟨this.dis.vars, this.sat, solvable this.dis this.ac⟩

/-! ### Where `combine` goes wrong -/

abbrev T : Nat := 0
abbrev U : Nat := 1
abbrev X : Nat := 2
abbrev int : Ty := .con 10
abbrev char : Ty := .con 11
abbrev ptr (t : Ty) : Ty := .app (.con 12) t

/-- `{T → int} {U → char}` combined with `{T, U}` succeeds, although `T` and `U` cannot be equal: `U` is added
to the class of `T` and stays in its own (TypeEnvironment.cpp:205-208). -/
theorem C68_combine_violated : ∃ e o e', Reachable e ∧ Reachable o ∧ combine 5 e o = .yes e' ∧
    (∃ c ∈ e'.classes, ∃ d ∈ e'.classes, U ∈ c.vars ∧ U ∈ d.vars ∧ c ≠ d) ∧ ¬ ∃ σ, Sat σ e' := by
  refine ⟨⟨[⟨0, [T], some int⟩, ⟨1, [U], some char⟩], 2⟩, ⟨[⟨0, [T, U], none⟩], 1⟩,
    ⟨[⟨0, [T, T, U], some int⟩, ⟨1, [U], some char⟩], 2⟩, ?_, ?_, by decide +kernel, ?_, ?_⟩
  · exact .bindVar (n := 5) (e := ⟨[⟨0, [T], some int⟩], 1⟩) (v := U) (t := char)
      (.bindVar (n := 5) (e := Env.empty) (v := T) (t := int) .empty (by decide +kernel)) (by decide +kernel)
  · exact .bindVarToVar (n := 5) (e := Env.empty) (v₁ := T) (v₂ := U) .empty (by decide +kernel)
  · exact ⟨⟨0, [T, T, U], some int⟩, by simp, ⟨1, [U], some char⟩, by simp, by decide, by decide, by decide⟩
  · rintro ⟨σ, h⟩
    have h1 := (h ⟨0, [T, T, U], some int⟩ (by simp)).2 int rfl U (by decide)
    have h2 := (h ⟨1, [U], some char⟩ (by simp)).2 char rfl U (by decide)
    rw [h1] at h2
    simp [subst] at h2

/-- The environment of the next theorem after `mergeBound`. -/
def loopEnv : Env := ⟨[⟨0, [T], some (ptr (.var T))⟩, ⟨1, [U], some (ptr (.var T))⟩], 2⟩

theorem loop_occurs (vs : List Nat) (h : T ∉ vs) : ∀ n, occursIn loopEnv vs n (.var T) = none ∧
    occursIn loopEnv vs n (ptr (.var T)) = none := by
  intro n
  induction n with
  | zero => exact ⟨rfl, rfl⟩
  | succ n ih =>
    have hl : lookup loopEnv T = some ⟨0, [T], some (ptr (.var T))⟩ := by decide
    constructor
    · simp only [occursIn, if_neg h, hl]
      exact ih.2
    · simp only [occursIn, ih.1]
      cases occursIn loopEnv vs n (.con 12) <;> rfl

/-- `{T} {U → T*}` combined with `{T, U}` does not return: `mergeBound` binds `T` to `T*`, and the occurs check
that follows walks around the cycle for ever (TypeEnvironment.cpp:437-448). -/
theorem C68_combine_diverges_violated : ∃ e o, Reachable e ∧ Reachable o ∧ ∀ n, combine n e o = .more := by
  refine ⟨⟨[⟨0, [T], none⟩, ⟨1, [U], some (ptr (.var T))⟩], 2⟩, ⟨[⟨0, [T, U], none⟩], 1⟩, ?_, ?_, ?_⟩
  · exact .bindVar (n := 5) (e := ⟨[⟨0, [T], none⟩, ⟨1, [U], none⟩], 2⟩) (v := U) (t := ptr (.var T))
      (.addVars (e := Env.empty) (vs := [T, U]) .empty (by decide) (by simp [Known, Env.empty])) (by decide +kernel)
  · exact .bindVarToVar (n := 5) (e := Env.empty) (v₁ := T) (v₂ := U) .empty (by decide +kernel)
  · intro n
    have h1 : occurs n loopEnv (ptr (.var T)) U = none := (loop_occurs _ (by decide) n).2
    have h2 : mergeClasses n ⟨[⟨0, [T], none⟩, ⟨1, [U], some (ptr (.var T))⟩], 2⟩ 0 1 = .more := by
      show (match checkAll n loopEnv (ptr (.var T)) [U] with
        | some false => Res.yes (erase (set loopEnv _) 1) | some true => .no | none => .more) = .more
      simp only [checkAll, h1]
    show (match (match mergeClasses n ⟨[⟨0, [T], none⟩, ⟨1, [U], some (ptr (.var T))⟩], 2⟩ 0 1 with
      | .yes e' => addRest n e' 0 [] | x => x) with | .yes e' => combineAll n e' [] | x => x) = .more
    rw [h2]

/-- `{U → X*} {X}` combined with `{X → T*} {T → U*}` succeeds with an environment nothing satisfies: `U` is a
pointer to a pointer to a pointer to `U` (the class of `T` is appended without an occurs check,
TypeEnvironment.cpp:224-226). -/
theorem C68_combine_cyclic_violated : ∃ e o e', Reachable e ∧ Reachable o ∧ combine 9 e o = .yes e' ∧
    ¬ ∃ σ, Sat σ e' := by
  refine ⟨⟨[⟨0, [U], some (ptr (.var X))⟩, ⟨1, [X], none⟩], 2⟩,
    ⟨[⟨0, [X], some (ptr (.var T))⟩, ⟨1, [T], some (ptr (.var U))⟩], 2⟩,
    ⟨[⟨0, [U], some (ptr (.var X))⟩, ⟨1, [X, X], some (ptr (.var T))⟩, ⟨2, [T], some (ptr (.var U))⟩], 3⟩,
    ?_, ?_, by decide +kernel, ?_⟩
  · exact .bindVar (n := 5) (e := ⟨[⟨0, [U], none⟩, ⟨1, [X], none⟩], 2⟩) (v := U) (t := ptr (.var X))
      (.addVars (e := Env.empty) (vs := [U, X]) .empty (by decide) (by simp [Known, Env.empty])) (by decide +kernel)
  · exact .bindVar (n := 5) (e := ⟨[⟨0, [X], some (ptr (.var T))⟩], 1⟩) (v := T) (t := ptr (.var U))
      (.bindVar (n := 5) (e := Env.empty) (v := X) (t := ptr (.var T)) .empty (by decide +kernel)) (by decide +kernel)
  · rintro ⟨σ, h⟩
    have h1 := (h ⟨0, [U], some (ptr (.var X))⟩ (by simp)).2 _ rfl U (by decide)
    have h2 := (h ⟨1, [X, X], some (ptr (.var T))⟩ (by simp)).2 _ rfl X (by decide)
    have h3 := (h ⟨2, [T], some (ptr (.var U))⟩ (by simp)).2 _ rfl T (by decide)
    simp only [subst] at h1 h2 h3
    rw [h2, h3] at h1
    have hs := congrArg sizeOf h1
    simp at hs
    omega

/-! ### Concrete cases -/

/-- The class of a variable. -/
def resultVars (r : Res) (v : Nat) : Option (List Nat × Option Ty) :=
  match r with
  | .yes e => (lookup e v).map (fun c => (c.vars, c.bound))
  | _ => none

def base : Env := addVars Env.empty [T, U, X]

example : Reachable base := .addVars .empty (by decide) (by simp [Known, Env.empty])

/-- `T` is bound to a pointer to `U`; then unifying `T*` with `X` and `U` with `int`. -/
example : (match bindVar 9 base T (ptr (.var U)) with
    | .yes e => (match unify 9 e (ptr (.var T)) (.var X) with
      | .yes e => resultVars (unify 9 e (.var U) int) U
      | _ => none)
    | _ => none) = some ([U], some int) := by decide +kernel

/-- A variable cannot be bound to a pointer to itself, even through another one. -/
example : (match bindVar 9 base T (ptr (.var U)) with
    | .yes e => decide (bindVar 9 e U (ptr (.var T)) = .no)
    | _ => false) = true := by decide +kernel

/-- Two bound variables whose bounds unify become one class. -/
example : (match bindVar 9 base T (ptr (.var X)) with
    | .yes e => (match bindVar 9 e U (ptr int) with
      | .yes e => resultVars (bindVarToVar 9 e T U) X
      | _ => none)
    | _ => none) = some ([X], some int) := by decide +kernel

/-- Two compatible environments: the class of `T` and `X` joins the class of `T`, and brings its binding. -/
example : Compatible ⟨[⟨0, [T], none⟩, ⟨1, [U], some char⟩], 2⟩ ⟨[⟨0, [X, T], some int⟩], 1⟩ ∧
    resultVars (combine 9 ⟨[⟨0, [T], none⟩, ⟨1, [U], some char⟩], 2⟩ ⟨[⟨0, [X, T], some int⟩], 1⟩) X
      = some ([T, X, T], some int) := by
  refine ⟨⟨by simp, ?_, ?_⟩, by decide +kernel⟩
  · intro c hc u hu v hv hku hkv
    simp at hc; subst hc
    simp at hu hv
    rcases hu with rfl | rfl <;> rcases hv with rfl | rfl <;> simp [Known] at *
  · intro c hc _
    simp at hc; subst hc
    exact ⟨T, by simp, ⟨0, [T], none⟩, by simp, by simp⟩

end Verif.TypeEnv
