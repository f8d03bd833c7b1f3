import Verif.Proof.TypeEnv
/-
  Calls from outside (where variables may be unknown), `combine`, and solvability.
-/
namespace Verif.TypeEnv

theorem known_iff {e : Env} {v : Nat} : ¬ Known e v ↔ lookup e v = none := by
  constructor
  · intro h
    cases hl : lookup e v with
    | none => rfl
    | some c => exact absurd ⟨c, lookup_some hl⟩ h
  · rintro h ⟨c, hc, hv⟩
    exact lookup_none h c hc hv

theorem occVars_unknown {e : Env} {v : Nat} (h : lookup e v = none) : occVars e v = [v] := by
  simp [occVars, h]

/-- One class beside the others. -/
structure Split (e e0 : Env) (c : Cls) : Prop where
  mem : ∀ d, d ∈ e.classes ↔ d ∈ e0.classes ∨ d = c
  ids : ∀ d ∈ e0.classes, d.id ≠ c.id
  vars : ∀ d ∈ e0.classes, ∀ v ∈ d.vars, v ∉ c.vars
  dis0 : Disjoint e0
  lt : c.id < e0.next
  next : e.next = e0.next

theorem Split.disjoint {e e0 : Env} {c : Cls} (h : Split e e0 c) : Disjoint e := by
  refine ⟨?_, ?_, ?_⟩
  · intro x hx y hy hi
    rcases (h.mem x).1 hx with hx | rfl <;> rcases (h.mem y).1 hy with hy | rfl
    · exact h.dis0.ids x hx y hy hi
    · exact absurd hi (h.ids x hx)
    · exact absurd hi.symm (h.ids y hy)
    · rfl
  · intro x hx
    rw [h.next]
    rcases (h.mem x).1 hx with hx | rfl
    · exact h.dis0.fresh x hx
    · exact h.lt
  · intro x hx y hy v hv hv'
    rcases (h.mem x).1 hx with hx | rfl <;> rcases (h.mem y).1 hy with hy | rfl
    · exact h.dis0.vars x hx y hy v hv hv'
    · exact absurd hv' (h.vars x hx v hv)
    · exact absurd hv (h.vars y hy v hv')
    · rfl

theorem Split.here {e e0 : Env} {c : Cls} (h : Split e e0 c) : c ∈ e.classes := (h.mem c).2 (Or.inr rfl)

theorem Split.of {e : Env} (hd : Disjoint e) {c : Cls} (hc : c ∈ e.classes) : Split e (erase e c.id) c := by
  refine ⟨?_, ?_, ?_, ⟨?_, ?_, ?_⟩, hd.fresh c hc, rfl⟩
  · intro d
    rw [mem_erase]
    constructor
    · intro h
      by_cases hi : d.id = c.id
      · exact Or.inr (hd.ids d h c hc hi)
      · exact Or.inl ⟨h, hi⟩
    · rintro (h | rfl)
      · exact h.1
      · exact hc
  · intro d hm; exact ((mem_erase d).1 hm).2
  · intro d hm v hv hv'
    have := (mem_erase d).1 hm
    exact this.2 (by rw [hd.vars d this.1 c hc v hv hv'])
  · intro x hx y hy; exact hd.ids x ((mem_erase x).1 hx).1 y ((mem_erase y).1 hy).1
  · intro x hx; exact hd.fresh x ((mem_erase x).1 hx).1
  · intro x hx y hy; exact hd.vars x ((mem_erase x).1 hx).1 y ((mem_erase y).1 hy).1

theorem Split.set {e e0 : Env} {c c' : Cls} (h : Split e e0 c) (hi : c'.id = c.id)
    (hv : ∀ d ∈ e0.classes, ∀ v ∈ d.vars, v ∉ c'.vars) : Split (set e c') e0 c' := by
  refine ⟨?_, ?_, hv, h.dis0, by rw [hi]; exact h.lt, h.next⟩
  · intro d
    rw [mem_set h.disjoint h.here hi, h.mem]
    constructor
    · rintro (⟨h1 | h1, h2⟩ | h1)
      · exact Or.inl h1
      · exact absurd h1 h2
      · exact Or.inr h1
    · rintro (h1 | h1)
      · refine Or.inl ⟨Or.inl h1, ?_⟩
        rintro rfl; exact h.ids d h1 rfl
      · exact Or.inr h1
  · intro d hd; rw [hi]; exact h.ids d hd

theorem Split.sub {e e0 : Env} {c : Cls} (h : Split e e0 c) : ∀ d ∈ e0.classes, d ∈ e.classes :=
  fun d hd => (h.mem d).2 (Or.inl hd)

theorem Split.acyclic0 {e e0 : Env} {c : Cls} (h : Split e e0 c) (ha : Acyclic e) : Acyclic e0 := by
  intro d hd b hb
  obtain ⟨A, a1, a2, a3⟩ := ha d (h.sub d hd) b hb
  exact ⟨A, a1.sub h.sub, a2, a3⟩

theorem Split.acyclic {e e0 : Env} {c : Cls} (h : Split e e0 c) (ha : Acyclic e0) (B : Nat → Prop)
    (hB : Closed e0 B) (hb : ∀ b, c.bound = some b → ∀ u ∈ tvars b, B u) (hx : ∀ v ∈ c.vars, ¬ B v) : Acyclic e :=
  acyclic_link ha (fun d hd => (h.mem d).1 hd) h.vars B hB hb hx

theorem Split.known {e e0 : Env} {c : Cls} (h : Split e e0 c) (v : Nat) : Known e v ↔ Known e0 v ∨ v ∈ c.vars := by
  constructor
  · rintro ⟨d, hd, hv⟩
    rcases (h.mem d).1 hd with hd | rfl
    · exact Or.inl ⟨d, hd, hv⟩
    · exact Or.inr hv
  · rintro (⟨d, hd, hv⟩ | hv)
    · exact ⟨d, h.sub d hd, hv⟩
    · exact ⟨c, h.here, hv⟩

theorem Split.get {e e0 : Env} {c : Cls} (h : Split e e0 c) : get e c.id = some c := get_of h.disjoint h.here

theorem Split.sat {e e0 : Env} {c : Cls} (h : Split e e0 c) (σ : Nat → Ty) : Sat σ e ↔ Sat σ e0 ∧ SatCls σ c := by
  constructor
  · intro hs
    exact ⟨fun d hd => hs d (h.sub d hd), hs c h.here⟩
  · rintro ⟨h1, h2⟩ d hd
    rcases (h.mem d).1 hd with hd | rfl
    · exact h1 d hd
    · exact h2

theorem Split.push {e : Env} (hd : Disjoint e) {vs : List Nat} (hv : ∀ v ∈ vs, ¬ Known e v) (b : Option Ty) :
    Split (push e vs b) ⟨e.classes, e.next + 1⟩ ⟨e.next, vs, b⟩ := by
  refine ⟨fun d => mem_push d, ?_, ?_, ⟨hd.ids, ?_, hd.vars⟩, Nat.lt_succ_self _, rfl⟩
  · intro d h; exact Nat.ne_of_lt (hd.fresh d h)
  · intro d h v hv' hin; exact hv v hin ⟨d, h, hv'⟩
  · intro d h; exact Nat.lt_succ_of_lt (hd.fresh d h)

theorem satOn_univ {σ : Nat → Ty} {e : Env} : Sat σ e → SatOn (fun _ => True) σ e := fun h c hc _ => h c hc

theorem sat_of_satOn {σ : Nat → Ty} {e : Env} (h : SatOn (fun _ => True) σ e) : Sat σ e := by
  intro c hc
  by_cases hv : ∃ v, v ∈ c.vars
  · obtain ⟨v, hv⟩ := hv
    exact h c hc ⟨v, hv, trivial⟩
  · exact ⟨fun u hu => absurd ⟨u, hu⟩ hv, fun _ _ v hv' => absurd ⟨v, hv'⟩ hv⟩

/-- The effect of a call from outside. -/
structure Top (e e' : Env) (new : Nat → Prop) (Q : (Nat → Ty) → Prop) : Prop where
  dis : Disjoint e'
  ac : Acyclic e'
  known : ∀ v, Known e' v ↔ Known e v ∨ new v
  sat : ∀ σ, Sat σ e' → Sat σ e ∧ Q σ

theorem Post.top {e e' : Env} {Q : (Nat → Ty) → Prop} (h : Post (fun _ => True) e e' Q) :
    Top e e' (fun _ => False) Q :=
  ⟨h.dis, h.ac, fun v => by simpa using h.known v, fun σ hσ => by
    obtain ⟨h1, h2⟩ := h.sat σ (satOn_univ hσ)
    exact ⟨sat_of_satOn h1, h2⟩⟩

theorem top_push {e : Env} (hd : Disjoint e) (ha : Acyclic e) {vs : List Nat} {b : Option Ty}
    (hv : ∀ v ∈ vs, ¬ Known e v) (B : Nat → Prop) (hB : Closed e B)
    (hb : ∀ t, b = some t → ∀ u ∈ tvars t, B u) (hx : ∀ v ∈ vs, ¬ B v) :
    Top e (push e vs b) (fun v => v ∈ vs) (fun σ => SatCls σ ⟨0, vs, b⟩) := by
  have hs := Split.push hd hv b
  refine ⟨hs.disjoint, ?_, ?_, ?_⟩
  · exact hs.acyclic (e0 := ⟨e.classes, e.next + 1⟩) (fun c hc t ht => ha c hc t ht) B hB hb hx
  · intro v; exact hs.known v
  · intro σ hσ
    obtain ⟨h1, h2⟩ := (hs.sat σ).1 hσ
    exact ⟨h1, h2⟩

theorem top_extend {e : Env} (hd : Disjoint e) (ha : Acyclic e) {c : Cls} (hc : c ∈ e.classes) {v : Nat}
    (hv : ¬ Known e v)
    (hocc : ∀ t, c.bound = some t → ∃ B, Closed e B ∧ (∀ u ∈ tvars t, B u) ∧ ¬ B v) :
    Top e (set e { c with vars := c.vars ++ [v] }) (fun w => w = v) (fun σ => ∀ u ∈ c.vars, σ u = σ v) := by
  have hs := Split.of hd hc
  have hs' := hs.set (c' := { c with vars := c.vars ++ [v] }) rfl (by
    intro d hdm w hw hin
    simp only [List.mem_append, List.mem_singleton] at hin
    rcases hin with h | rfl
    · exact hs.vars d hdm w hw h
    · exact hv ⟨d, hs.sub d hdm, hw⟩)
  refine ⟨hs'.disjoint, ?_, ?_, ?_⟩
  · rcases Option.eq_none_or_eq_some c.bound with hb | ⟨t, hb⟩
    · exact hs'.acyclic (hs.acyclic0 ha) _ (Closed.empty _) (by simp [hb]) (by simp)
    · obtain ⟨B, b1, b2, b3⟩ := hocc t hb
      obtain ⟨D, d1, d2, d3⟩ := ha c hc t hb
      apply hs'.acyclic (hs.acyclic0 ha) _ ((b1.inter d1).sub hs.sub)
      · intro t' ht' u hu
        simp only at ht'
        rw [hb] at ht'; cases ht'
        exact ⟨b2 u hu, d2 u hu⟩
      · intro w hw h
        simp only [List.mem_append, List.mem_singleton] at hw
        rcases hw with h' | rfl
        · exact d3 w h' h.2
        · exact b3 h.1
  · intro w
    rw [hs'.known, hs.known]
    simp [or_assoc]
  · intro σ hσ
    obtain ⟨h1, h2⟩ := (hs'.sat σ).1 hσ
    refine ⟨(hs.sat σ).2 ⟨h1, h2.of_merge (by simp +contextual) (fun t ht => ⟨t, ht, rfl⟩)⟩, ?_⟩
    intro u hu
    exact h2.1 u (by simp [hu]) v (by simp)

theorem bindVar_top {n : Nat} {e e' : Env} {v : Nat} {t : Ty} (hd : Disjoint e) (ha : Acyclic e)
    (h : bindVar n e v t = .yes e') : Top e e' (fun w => w = v) (fun σ => σ v = subst σ t) := by
  by_cases hk : Known e v
  · have := ((unify_all n).2.1 (fun _ => True) e v t hd ha (Closed.univ e) hk trivial (fun _ _ => trivial)).2 e' h
    have ht := this.top
    refine ⟨ht.dis, ht.ac, fun w => ?_, ht.sat⟩
    rw [ht.known]
    constructor
    · rintro (h | h)
      · exact Or.inl h
      · exact h.elim
    · rintro (h | rfl)
      · exact Or.inl h
      · exact Or.inl hk
  · cases n with
    | zero => simp [bindVar] at h
    | succ n =>
      have hl := known_iff.1 hk
      simp only [bindVar, hl] at h
      split at h
      · cases h
      · cases h
      · rename_i ho
        simp only [Res.yes.injEq] at h
        subst h
        obtain ⟨B, b1, b2, b3⟩ := occurs_false hd ho
        rw [occVars_unknown hl] at b3
        have := top_push hd ha (vs := [v]) (b := some t) (by simpa using hk) B b1
          (by intro t' ht'; cases ht'; exact b2) b3
        refine ⟨this.dis, this.ac, fun w => by simpa using this.known w, fun σ hσ => ?_⟩
        obtain ⟨h1, h2⟩ := this.sat σ hσ
        exact ⟨h1, h2.2 t rfl v (by simp)⟩

theorem bindVarToVar_top {n : Nat} {e e' : Env} {v₁ v₂ : Nat} (hd : Disjoint e) (ha : Acyclic e)
    (h : bindVarToVar n e v₁ v₂ = .yes e') :
    Top e e' (fun w => w = v₁ ∨ w = v₂) (fun σ => σ v₁ = σ v₂) := by
  by_cases hk1 : Known e v₁
  · by_cases hk2 : Known e v₂
    · have := ((unify_all n).2.2 (fun _ => True) e v₁ v₂ hd ha (Closed.univ e) hk1 hk2 trivial trivial).2 e' h
      have ht := this.top
      refine ⟨ht.dis, ht.ac, fun w => ?_, ht.sat⟩
      rw [ht.known]
      constructor
      · rintro (h | h)
        · exact Or.inl h
        · exact h.elim
      · rintro (h | rfl | rfl)
        · exact Or.inl h
        · exact Or.inl hk1
        · exact Or.inl hk2
    · obtain ⟨c, hl⟩ := lookup_known hk1
      obtain ⟨hcm, hvc⟩ := lookup_some hl
      have hl2 := known_iff.1 hk2
      have fin : (∀ t, c.bound = some t → ∃ B, Closed e B ∧ (∀ u ∈ tvars t, B u) ∧ ¬ B v₂) →
          e' = set e { c with vars := c.vars ++ [v₂] } →
          Top e e' (fun w => w = v₁ ∨ w = v₂) (fun σ => σ v₁ = σ v₂) := by
        rintro hocc rfl
        have ht := top_extend hd ha hcm hk2 hocc
        refine { ht with known := fun w => ?_, sat := fun σ hσ => ⟨(ht.sat σ hσ).1, (ht.sat σ hσ).2 v₁ hvc⟩ }
        rw [ht.known]
        constructor
        · rintro (h | rfl)
          · exact Or.inl h
          · exact Or.inr (Or.inr rfl)
        · rintro (h | rfl | rfl)
          · exact Or.inl h
          · exact Or.inl hk1
          · exact Or.inr rfl
      cases n with
      | zero => simp [bindVarToVar] at h
      | succ n =>
        simp only [bindVarToVar, hl, hl2] at h
        split at h
        · rename_i b hb
          split at h
          · rename_i ho
            obtain ⟨B, b1, b2, b3⟩ := occurs_false hd ho
            rw [occVars_unknown hl2] at b3
            simp only [Res.yes.injEq] at h
            exact fin (fun t ht => by rw [hb] at ht; cases ht; exact ⟨B, b1, b2, b3 _ (by simp)⟩) h.symm
          · cases h
          · cases h
        · rename_i hb
          simp only [Res.yes.injEq] at h
          exact fin (fun t ht => by rw [hb] at ht; cases ht) h.symm
  · have hl1 := known_iff.1 hk1
    by_cases hk2 : Known e v₂
    · obtain ⟨c, hl⟩ := lookup_known hk2
      obtain ⟨hcm, hvc⟩ := lookup_some hl
      have fin : (∀ t, c.bound = some t → ∃ B, Closed e B ∧ (∀ u ∈ tvars t, B u) ∧ ¬ B v₁) →
          e' = set e { c with vars := c.vars ++ [v₁] } →
          Top e e' (fun w => w = v₁ ∨ w = v₂) (fun σ => σ v₁ = σ v₂) := by
        rintro hocc rfl
        have ht := top_extend hd ha hcm hk1 hocc
        refine { ht with known := fun w => ?_, sat := fun σ hσ => ⟨(ht.sat σ hσ).1, ((ht.sat σ hσ).2 v₂ hvc).symm⟩ }
        rw [ht.known]
        constructor
        · rintro (h | rfl)
          · exact Or.inl h
          · exact Or.inr (Or.inl rfl)
        · rintro (h | rfl | rfl)
          · exact Or.inl h
          · exact Or.inr rfl
          · exact Or.inl hk2
      cases n with
      | zero => simp [bindVarToVar] at h
      | succ n =>
        simp only [bindVarToVar, hl, hl1] at h
        split at h
        · rename_i b hb
          split at h
          · rename_i ho
            obtain ⟨B, b1, b2, b3⟩ := occurs_false hd ho
            rw [occVars_unknown hl1] at b3
            simp only [Res.yes.injEq] at h
            exact fin (fun t ht => by rw [hb] at ht; cases ht; exact ⟨B, b1, b2, b3 _ (by simp)⟩) h.symm
          · cases h
          · cases h
        · rename_i hb
          simp only [Res.yes.injEq] at h
          exact fin (fun t ht => by rw [hb] at ht; cases ht) h.symm
    · have hl2 := known_iff.1 hk2
      cases n with
      | zero => simp [bindVarToVar] at h
      | succ n =>
        simp only [bindVarToVar, hl1, hl2, Res.yes.injEq] at h
        subst h
        have := top_push hd ha (vs := [v₁, v₂]) (b := none)
          (by intro v hv; simp at hv; rcases hv with rfl | rfl <;> assumption) _ (Closed.empty e) (by simp) (by simp)
        refine ⟨this.dis, this.ac, fun w => by simpa using this.known w, fun σ hσ => ?_⟩
        obtain ⟨h1, h2⟩ := this.sat σ hσ
        exact ⟨h1, h2.1 v₁ (by simp) v₂ (by simp)⟩

theorem unify_top {n : Nat} {e e' : Env} {t₁ t₂ : Ty} (hd : Disjoint e) (ha : Acyclic e)
    (h : unify n e t₁ t₂ = .yes e') : Top e e' (fun _ => False) (fun σ => subst σ t₁ = subst σ t₂) :=
  (((unify_all n).1 (fun _ => True) e t₁ t₂ hd ha (Closed.univ e) (fun _ _ => trivial) (fun _ _ => trivial)).2 e' h).top

/-! ### combine -/

theorem firstKnown_none {e : Env} : ∀ {vs : List Nat}, firstKnown e vs = none → ∀ v ∈ vs, ¬ Known e v := by
  intro vs
  induction vs with
  | nil => intro _ v hv; simp at hv
  | cons u us ih =>
    intro h v hv
    simp only [firstKnown] at h
    split at h
    · cases h
    · rename_i hl
      split at h
      · cases h
      · rename_i hf
        rcases List.mem_cons.1 hv with rfl | hv
        · exact known_iff.2 hl
        · exact ih hf v hv

theorem firstKnown_some {e : Env} : ∀ {vs pre post : List Nat} {r : Cls}, firstKnown e vs = some (pre, r, post) →
    ∃ vt, vs = pre ++ vt :: post ∧ lookup e vt = some r ∧ ∀ v ∈ pre, ¬ Known e v := by
  intro vs
  induction vs with
  | nil => intro pre post r h; simp [firstKnown] at h
  | cons u us ih =>
    intro pre post r h
    simp only [firstKnown] at h
    split at h
    · rename_i r' hl
      simp only [Option.some.injEq, Prod.mk.injEq] at h
      obtain ⟨rfl, rfl, rfl⟩ := h
      exact ⟨u, rfl, hl, by simp⟩
    · rename_i hl
      split at h
      · rename_i pre' r' post' hf
        simp only [Option.some.injEq, Prod.mk.injEq] at h
        obtain ⟨rfl, rfl, rfl⟩ := h
        obtain ⟨vt, h1, h2, h3⟩ := ih hf
        refine ⟨vt, by rw [h1]; rfl, h2, ?_⟩
        intro v hv
        rcases List.mem_cons.1 hv with rfl | hv
        · exact known_iff.2 hl
        · exact h3 v hv
      · cases h

theorem addChecked_spec {n : Nat} {e0 : Env} {i : Nat} {b : Ty} : ∀ (us : List Nat) (e e' : Env) (c : Cls),
    Split e e0 c → c.id = i → c.bound = some b → (∀ u ∈ us, u ∈ c.vars ∨ ¬ Known e u) →
    addChecked n e i b us = .yes e' →
    ∃ c', Split e' e0 c' ∧ c'.id = i ∧ c'.bound = some b ∧ (∀ v, v ∈ c'.vars ↔ v ∈ c.vars ∨ v ∈ us) ∧
      ∃ B, Closed e0 B ∧ (∀ u ∈ tvars b, B u) ∧ (∀ u ∈ us, ¬ B u) ∧
        (∀ u ∈ us, u ∈ c.vars → ∀ w ∈ c.vars, ¬ B w) := by
  intro us
  induction us with
  | nil =>
    intro e e' c hs hi hb hu h
    simp only [addChecked, Res.yes.injEq] at h
    subst h
    exact ⟨c, hs, hi, hb, by simp, _, Closed.univ e0, fun _ _ => trivial, by simp, by simp⟩
  | cons u us ih =>
    intro e e' c hs hi hb hu h
    simp only [addChecked] at h
    split at h
    · rename_i ho
      subst hi
      rw [hs.get] at h
      simp only at h
      obtain ⟨B, b1, b2, b3⟩ := occurs_false hs.disjoint ho
      have hu0 : ∀ d ∈ e0.classes, u ∉ d.vars := by
        intro d hd hin
        rcases hu u (by simp) with h' | h'
        · exact hs.vars d hd u hin h'
        · exact h' ⟨d, hs.sub d hd, hin⟩
      have hs' := hs.set (c' := { c with vars := c.vars ++ [u] }) rfl (by
        intro d hd w hw hin
        simp only [List.mem_append, List.mem_singleton] at hin
        rcases hin with h' | rfl
        · exact hs.vars d hd w hw h'
        · exact hu0 d hd hw)
      obtain ⟨c', k1, k2, k3, k4, D, d1, d2, d3, d4⟩ := ih _ e' _ hs' rfl hb (by
        intro w hw
        rw [hs'.known]
        rcases hu w (List.mem_cons_of_mem _ hw) with h' | h'
        · exact Or.inl (by simp [h'])
        · by_cases hwu : w = u
          · exact Or.inl (by simp [hwu])
          · refine Or.inr ?_
            rintro (h'' | h'')
            · exact h' ((hs.known w).2 (Or.inl h''))
            · simp only [List.mem_append, List.mem_singleton] at h''
              rcases h'' with h'' | h''
              · exact h' ((hs.known w).2 (Or.inr h''))
              · exact hwu h'') h
      have hub : ¬ B u := by
        apply b3
        rcases hu u (by simp) with h' | h'
        · rw [occVars_known (lookup_of hs.disjoint hs.here h')]; exact h'
        · rw [occVars_unknown (known_iff.1 h')]; simp
      refine ⟨c', k1, k2, k3, ?_, fun v => B v ∧ D v, (b1.sub hs.sub).inter d1,
        fun w hw => ⟨b2 w hw, d2 w hw⟩, ?_, ?_⟩
      · intro v
        rw [k4]
        simp [or_assoc]
      · intro w hw h'
        rcases List.mem_cons.1 hw with rfl | hw
        · exact hub h'.1
        · exact d3 w hw h'.2
      · intro w hw hwc x hx h'
        rcases List.mem_cons.1 hw with rfl | hw
        · have := b3 x (by rw [occVars_known (lookup_of hs.disjoint hs.here hwc)]; exact hx)
          exact this h'.1
        · exact d4 w hw (by simp [hwc]) x (by simp [hx]) h'.2
    · cases h
    · cases h

theorem addRest_spec {n : Nat} {e0 : Env} {i : Nat} : ∀ (us : List Nat) (e e' : Env) (c : Cls),
    Split e e0 c → c.id = i → (∀ u ∈ us, u ∈ c.vars ∨ (c.bound = none ∧ ¬ Known e u)) →
    addRest n e i us = .yes e' →
    ∃ c', Split e' e0 c' ∧ c'.bound = c.bound ∧ (∀ v, v ∈ c'.vars ↔ v ∈ c.vars ∨ v ∈ us) := by
  intro us
  induction us with
  | nil =>
    intro e e' c hs hi hu h
    simp only [addRest, Res.yes.injEq] at h
    subst h
    exact ⟨c, hs, rfl, by simp⟩
  | cons u us ih =>
    intro e e' c hs hi hu h
    subst hi
    simp only [addRest, hs.get] at h
    rcases hu u (by simp) with hin | ⟨hb, hk⟩
    · rw [lookup_of hs.disjoint hs.here hin] at h
      simp only [if_true] at h
      obtain ⟨c', k1, k2, k3⟩ := ih e e' c hs rfl (fun w hw => hu w (List.mem_cons_of_mem _ hw)) h
      refine ⟨c', k1, k2, ?_⟩
      intro v
      rw [k3, List.mem_cons]
      constructor
      · rintro (h | h)
        · exact Or.inl h
        · exact Or.inr (Or.inr h)
      · rintro (h | rfl | h)
        · exact Or.inl h
        · exact Or.inl hin
        · exact Or.inr h
    · rw [known_iff.1 hk, hb] at h
      simp only at h
      have hs' := hs.set (c' := { c with vars := c.vars ++ [u] }) rfl (by
        intro d hd w hw hin
        simp only [List.mem_append, List.mem_singleton] at hin
        rcases hin with h' | rfl
        · exact hs.vars d hd w hw h'
        · exact hk ⟨d, hs.sub d hd, hw⟩)
      have hbe : ({ id := c.id, vars := c.vars ++ [u], bound := none } : Cls) = { c with vars := c.vars ++ [u] } := by
        rw [← hb]
      rw [hbe] at h
      obtain ⟨c', k1, k2, k3⟩ := ih _ e' _ hs' rfl (by
        intro w hw
        rcases hu w (List.mem_cons_of_mem _ hw) with h' | ⟨h1, h2⟩
        · exact Or.inl (by simp [h'])
        · by_cases hwu : w = u
          · exact Or.inl (by simp [hwu])
          · refine Or.inr ⟨hb, ?_⟩
            rw [hs'.known]
            rintro (h'' | h'')
            · exact h2 ((hs.known w).2 (Or.inl h''))
            · simp only [List.mem_append, List.mem_singleton] at h''
              rcases h'' with h'' | h''
              · exact h2 ((hs.known w).2 (Or.inr h''))
              · exact hwu h'') h
      refine ⟨c', k1, k2, ?_⟩
      intro v
      rw [k3]
      simp [or_assoc]

/-- What `mergeBound` leaves. -/
theorem mergeBound_spec {n : Nat} {e e1 : Env} {r : Cls} {from_ : Option Ty} (hd : Disjoint e) (ha : Acyclic e)
    (hr : r ∈ e.classes) (h : mergeBound n e r.id from_ = .yes e1) :
    ∀ r1, get e1 r.id = some r1 →
      ∃ e0, Split e1 e0 r1 ∧ Acyclic e0 ∧ (∀ v ∈ r.vars, v ∈ r1.vars) ∧ (∀ v, Known e1 v ↔ Known e v) ∧
        (from_ ≠ none → r1.bound ≠ none) ∧
        (∀ σ, Sat σ e0 → SatCls σ r1 →
          Sat σ e ∧ ∀ fb, from_ = some fb → ∃ b, r1.bound = some b ∧ subst σ b = subst σ fb) := by
  intro r1 hg
  cases from_ with
  | none =>
    simp only [mergeBound, Res.yes.injEq] at h
    subst h
    rw [get_of hd hr] at hg
    cases hg
    have hs := Split.of hd hr
    exact ⟨_, hs, hs.acyclic0 ha, fun _ h => h, fun _ => Iff.rfl, fun h => absurd rfl h,
      fun σ h1 h2 => ⟨(hs.sat σ).2 ⟨h1, h2⟩, by simp⟩⟩
  | some fb =>
    simp only [mergeBound, get_of hd hr] at h
    split at h
    · rename_i tb hb
      split at h
      · rename_i e2 hu
        split at h
        · rename_i r' hg'
          simp only [Res.yes.injEq] at h
          have hp := ((unify_all n).1 (fun _ => True) e tb fb hd ha (Closed.univ e) (fun _ _ => trivial)
            (fun _ _ => trivial)).2 e2 hu
          obtain ⟨g1, g2⟩ := get_some hg'
          obtain ⟨kv, kb⟩ := hp.keep r hr r' g1 g2
          have hb' := kb tb hb
          have hsame : ({ r' with bound := some tb } : Cls) = r' := by rw [← hb']
          rw [hsame, set_same hp.dis g1] at h
          subst h
          rw [hg'] at hg
          cases hg
          have hs := Split.of hp.dis g1
          refine ⟨_, hs, hs.acyclic0 hp.ac, kv, hp.known, fun _ => by simp [hb'], ?_⟩
          intro σ h1 h2
          obtain ⟨s1, s2⟩ := hp.top.sat σ ((hs.sat σ).2 ⟨h1, h2⟩)
          exact ⟨s1, fun fb' hfb' => ⟨tb, hb', by cases hfb'; exact s2⟩⟩
        · cases h
      · rename_i x hx
        exact (hx _ h).elim
    · rename_i hb
      simp only [Res.yes.injEq] at h
      subst h
      have hs := Split.of hd hr
      have hs' := hs.set (c' := { r with bound := some fb }) rfl hs.vars
      have hg2 := hs'.get
      simp only at hg2
      rw [hg2] at hg
      cases hg
      refine ⟨_, hs', hs.acyclic0 ha, fun _ h => h, ?_, by simp, ?_⟩
      · intro v; rw [hs'.known, hs.known]
      · intro σ h1 h2
        refine ⟨(hs.sat σ).2 ⟨h1, h2.of_merge (fun _ h => h) (fun t ht => by rw [hb] at ht; cases ht)⟩, ?_⟩
        intro fb' hfb'
        cases hfb'
        exact ⟨fb, rfl, rfl⟩

theorem combineClass_spec {n : Nat} {e e' : Env} {c : Cls} (hd : Disjoint e) (ha : Acyclic e)
    (h1 : ∀ u ∈ c.vars, ∀ v ∈ c.vars, Known e u → Known e v → u = v)
    (h2 : c.bound ≠ none → ∃ v ∈ c.vars, Known e v)
    (h : combineClass n e c = .yes e') :
    Top e e' (fun v => v ∈ c.vars) (fun σ => SatCls σ c) := by
  unfold combineClass at h
  split at h
  · rename_i hf
    have hun := firstKnown_none hf
    simp only [Res.yes.injEq] at h
    subst h
    have hb : c.bound = none := by
      cases hb : c.bound with
      | none => rfl
      | some b =>
        obtain ⟨v, hv, hk⟩ := h2 (by simp [hb])
        exact absurd hk (hun v hv)
    exact top_push hd ha hun _ (Closed.empty e) (by simp [hb]) (by simp)
  · rename_i pre r post hf
    obtain ⟨vt, hvs, hl, hpre⟩ := firstKnown_some hf
    obtain ⟨hrm, hvr⟩ := lookup_some hl
    have hkt : Known e vt := ⟨r, hrm, hvr⟩
    have hvt : vt ∈ c.vars := by rw [hvs]; simp
    have honly : ∀ u ∈ c.vars, u = vt ∨ ¬ Known e u := by
      intro u hu
      by_cases hk : Known e u
      · exact Or.inl (h1 u hu vt hvt hk hkt)
      · exact Or.inr hk
    split at h
    · rename_i e1 hmb
      split at h
      · cases h
      · rename_i r1 hg
        obtain ⟨e0, hs, ha0, hsub, hk1, hbn, hsat⟩ := mergeBound_spec hd ha hrm hmb r1 hg
        have hid : r1.id = r.id := (get_some hg).2
        have hvt1 : vt ∈ r1.vars := hsub vt hvr
        split at h
        · rename_i e2 hmid
          split at hmid
          · rename_i b hb
            obtain ⟨c2, k1, k2, k3, k4, B, b1, b2, b3, b4⟩ := addChecked_spec c.vars e1 e2 r1 hs hid hb (by
              intro u hu
              rcases honly u hu with rfl | hk
              · exact Or.inl hvt1
              · exact Or.inr (fun hk' => hk ((hk1 u).1 hk'))) hmid
            obtain ⟨c3, m1, m2, m3⟩ := addRest_spec post e2 e' c2 k1 k2 (by
              intro u hu
              exact Or.inl ((k4 u).2 (Or.inr (by rw [hvs]; simp [hu])))) h
            have hv3 : ∀ v, v ∈ c3.vars ↔ v ∈ r1.vars ∨ v ∈ c.vars := by
              intro v
              rw [m3, k4]
              constructor
              · rintro (h | h)
                · exact h
                · exact Or.inr (by rw [hvs]; simp [h])
              · exact Or.inl
            have hb3 : c3.bound = some b := m2.trans k3
            refine ⟨m1.disjoint, ?_, ?_, ?_⟩
            · apply m1.acyclic ha0 B b1
              · intro t ht; rw [hb3] at ht; cases ht; exact b2
              · intro v hv
                rcases (hv3 v).1 hv with h' | h'
                · exact b4 vt hvt hvt1 v h'
                · exact b3 v h'
            · intro v
              rw [m1.known, hv3, ← hk1, hs.known]
              simp [or_assoc]
            · intro σ hσ
              obtain ⟨s0, s3⟩ := (m1.sat σ).1 hσ
              have sr : SatCls σ r1 := s3.of_merge (fun v hv => (hv3 v).2 (Or.inl hv))
                (fun t ht => ⟨t, by rw [hb3, ← hb]; exact ht, rfl⟩)
              obtain ⟨se, sf⟩ := hsat σ s0 sr
              refine ⟨se, s3.of_merge (fun v hv => (hv3 v).2 (Or.inr hv)) ?_⟩
              intro fb hfb
              obtain ⟨b', hb', heq⟩ := sf fb hfb
              exact ⟨b', by rw [hb3, ← hb]; exact hb', heq⟩
          · rename_i hb
            have hcb : c.bound = none := by
              cases hcb : c.bound with
              | none => rfl
              | some fb => exact absurd hb (hbn (by simp [hcb]))
            simp only [Res.yes.injEq] at hmid
            subst hmid
            have hs' := hs.set (c' := { r1 with vars := r1.vars ++ pre }) rfl (by
              intro d hdm w hw hin
              simp only [List.mem_append] at hin
              rcases hin with h' | h'
              · exact hs.vars d hdm w hw h'
              · exact hpre w h' ((hk1 w).1 ⟨d, hs.sub d hdm, hw⟩))
            rw [hb] at hs'
            obtain ⟨c3, m1, m2, m3⟩ := addRest_spec post _ e' _ hs' hid (by
              intro u hu
              have huc : u ∈ c.vars := by rw [hvs]; simp [hu]
              rcases honly u huc with rfl | hk
              · exact Or.inl (by simp [hvt1])
              · by_cases hup : u ∈ pre
                · exact Or.inl (by simp [hup])
                · refine Or.inr ⟨rfl, ?_⟩
                  rw [hs'.known]
                  rintro (h' | h')
                  · exact hk ((hk1 u).1 ((hs.known u).2 (Or.inl h')))
                  · simp only [List.mem_append] at h'
                    rcases h' with h' | h'
                    · exact hk ((hk1 u).1 ((hs.known u).2 (Or.inr h')))
                    · exact hup h') (by simpa [hb] using h)
            have hv3 : ∀ v, v ∈ c3.vars ↔ v ∈ r1.vars ∨ v ∈ c.vars := by
              intro v
              rw [m3, hvs]
              simp only [List.mem_append, List.mem_cons]
              constructor
              · rintro ((h | h) | h)
                · exact Or.inl h
                · exact Or.inr (Or.inl h)
                · exact Or.inr (Or.inr (Or.inr h))
              · rintro (h | h | rfl | h)
                · exact Or.inl (Or.inl h)
                · exact Or.inl (Or.inr h)
                · exact Or.inl (Or.inl hvt1)
                · exact Or.inr h
            have hb3 : c3.bound = none := m2
            refine ⟨m1.disjoint, ?_, ?_, ?_⟩
            · exact m1.acyclic ha0 _ (Closed.empty e0) (by simp [hb3]) (by simp)
            · intro v
              rw [m1.known, hv3, ← hk1, hs.known]
              simp [or_assoc]
            · intro σ hσ
              obtain ⟨s0, s3⟩ := (m1.sat σ).1 hσ
              have sr : SatCls σ r1 := s3.of_merge (fun v hv => (hv3 v).2 (Or.inl hv))
                (fun t ht => by rw [hb] at ht; cases ht)
              obtain ⟨se, _⟩ := hsat σ s0 sr
              exact ⟨se, s3.of_merge (fun v hv => (hv3 v).2 (Or.inr hv)) (fun t ht => by rw [hcb] at ht; cases ht)⟩
        · rename_i x hx
          exact (hx _ h).elim
    · rename_i x hx
      exact (hx _ h).elim

theorem combineAll_spec {n : Nat} : ∀ (cs : List Cls) (e e' : Env), Disjoint e → Acyclic e →
    cs.Pairwise (fun c d => ∀ v ∈ c.vars, v ∉ d.vars) →
    (∀ c ∈ cs, ∀ u ∈ c.vars, ∀ v ∈ c.vars, Known e u → Known e v → u = v) →
    (∀ c ∈ cs, c.bound ≠ none → ∃ v ∈ c.vars, Known e v) →
    combineAll n e cs = .yes e' →
    Top e e' (fun v => ∃ c ∈ cs, v ∈ c.vars) (fun σ => ∀ c ∈ cs, SatCls σ c) := by
  intro cs
  induction cs with
  | nil =>
    intro e e' hd ha _ _ _ h
    simp only [combineAll, Res.yes.injEq] at h
    subst h
    exact ⟨hd, ha, by simp, fun σ hσ => ⟨hσ, by simp⟩⟩
  | cons c cs ih =>
    intro e e' hd ha hp h1 h2 h
    simp only [combineAll] at h
    rw [List.pairwise_cons] at hp
    split at h
    · rename_i e1 hc
      have t1 := combineClass_spec hd ha (h1 c (by simp)) (h2 c (by simp)) hc
      have hk : ∀ d ∈ cs, ∀ v ∈ d.vars, (Known e1 v ↔ Known e v) := by
        intro d hdm v hv
        rw [t1.known]
        constructor
        · rintro (h | h)
          · exact h
          · exact absurd hv (hp.1 d hdm v h)
        · exact Or.inl
      have t2 := ih e1 e' t1.dis t1.ac hp.2
        (fun d hdm u hu v hv ku kv => h1 d (by simp [hdm]) u hu v hv ((hk d hdm u hu).1 ku) ((hk d hdm v hv).1 kv))
        (fun d hdm hb => by
          obtain ⟨v, hv, hkv⟩ := h2 d (by simp [hdm]) hb
          exact ⟨v, hv, (hk d hdm v hv).2 hkv⟩) h
      refine ⟨t2.dis, t2.ac, ?_, ?_⟩
      · intro v
        rw [t2.known, t1.known]
        simp [or_assoc]
      · intro σ hσ
        obtain ⟨s1, s2⟩ := t2.sat σ hσ
        obtain ⟨s3, s4⟩ := t1.sat σ s1
        refine ⟨s3, ?_⟩
        intro d hdm
        rcases List.mem_cons.1 hdm with rfl | hdm
        · exact s4
        · exact s2 d hdm
    · rename_i x hx
      exact (hx _ h).elim

/-! ### Solvability -/

/-- Resolve a variable through at most `n` bindings. -/
noncomputable def resolve (e : Env) : Nat → Nat → Ty
  | 0, v => .var v
  | n + 1, v =>
    match lookup e v with
    | none => .var v
    | some c =>
      match c.bound with
      | some b => subst (resolve e n) b
      | none => .var (c.vars.headD 0)

open Classical in
noncomputable def cntL (A : Nat → Prop) (l : List Cls) : Nat :=
  (l.filter (fun c => decide (∃ v ∈ c.vars, A v))).length

noncomputable def cnt (e : Env) (A : Nat → Prop) : Nat := cntL A e.classes

theorem cntL_append (A : Nat → Prop) (l m : List Cls) : cntL A (l ++ m) = cntL A l + cntL A m := by
  simp [cntL]

theorem cntL_pos {A : Nat → Prop} {c : Cls} (h : ∃ v ∈ c.vars, A v) (l : List Cls) :
    cntL A (c :: l) = cntL A l + 1 := by
  unfold cntL
  rw [List.filter_cons, if_pos (by simpa using h)]
  rfl

theorem cntL_neg {A : Nat → Prop} {c : Cls} (h : ¬ ∃ v ∈ c.vars, A v) (l : List Cls) :
    cntL A (c :: l) = cntL A l := by
  unfold cntL
  rw [List.filter_cons, if_neg (by simpa using h)]

theorem subst_congr {σ τ : Nat → Ty} : ∀ {t : Ty}, (∀ v ∈ tvars t, σ v = τ v) → subst σ t = subst τ t := by
  intro t
  induction t with
  | var v => intro h; exact h v (by simp [tvars])
  | con c => intro _; rfl
  | app a b iha ihb =>
    intro h
    simp only [subst]
    rw [iha (fun v hv => h v (by simp [tvars, hv])), ihb (fun v hv => h v (by simp [tvars, hv]))]

theorem cntL_mono {A D : Nat → Prop} : ∀ l : List Cls, cntL (fun v => A v ∧ D v) l ≤ cntL A l := by
  intro l
  induction l with
  | nil => simp [cntL]
  | cons x xs ih =>
    by_cases h1 : ∃ v ∈ x.vars, A v ∧ D v
    · have h2 : ∃ v ∈ x.vars, A v := by obtain ⟨v, hv, h⟩ := h1; exact ⟨v, hv, h.1⟩
      rw [cntL_pos h1, cntL_pos h2]; omega
    · rw [cntL_neg h1]
      by_cases h2 : ∃ v ∈ x.vars, A v
      · rw [cntL_pos h2]; omega
      · rw [cntL_neg h2]; exact ih

theorem cnt_lt {e : Env} {A D : Nat → Prop} {c : Cls} (hc : c ∈ e.classes) (hA : ∃ v ∈ c.vars, A v)
    (hD : ∀ v ∈ c.vars, ¬ D v) : cnt e (fun v => A v ∧ D v) < cnt e A := by
  unfold cnt
  obtain ⟨l1, l2, hl⟩ := List.append_of_mem hc
  rw [hl, cntL_append, cntL_append, cntL_pos hA,
    cntL_neg (A := fun v => A v ∧ D v) (by rintro ⟨v, hv, _, h⟩; exact hD v hv h)]
  have := cntL_mono (A := A) (D := D) l1
  have := cntL_mono (A := A) (D := D) l2
  omega

theorem resolve_stable {e : Env} (ha : Acyclic e) : ∀ (k : Nat) (A : Nat → Prop),
    Closed e A → cnt e A ≤ k → ∀ v, A v → ∀ n, k + 1 ≤ n → resolve e (n + 1) v = resolve e n v := by
  intro k
  induction k with
  | zero =>
    intro A hA hk v hv n hn
    obtain ⟨n, rfl⟩ : ∃ m, n = m + 1 := ⟨n - 1, by omega⟩
    cases hl : lookup e v with
    | none => simp [resolve, hl]
    | some c =>
      obtain ⟨hcm, hvc⟩ := lookup_some hl
      exfalso
      have := cnt_lt (D := fun _ => False) hcm ⟨v, hvc, hv⟩ (by simp)
      omega
  | succ k ih =>
    intro A hA hk v hv n hn
    obtain ⟨n, rfl⟩ : ∃ m, n = m + 1 := ⟨n - 1, by omega⟩
    cases hl : lookup e v with
    | none => simp [resolve, hl]
    | some c =>
      obtain ⟨hcm, hvc⟩ := lookup_some hl
      cases hb : c.bound with
      | none => simp [resolve, hl, hb]
      | some b =>
        obtain ⟨D, d1, d2, d3⟩ := ha c hcm b hb
        obtain ⟨_, hAb⟩ := hA c hcm v hvc hv
        have hlt := cnt_lt (D := D) hcm ⟨v, hvc, hv⟩ d3
        have key := ih _ (hA.inter d1) (by omega)
        rw [show resolve e (n + 1 + 1) v = subst (resolve e (n + 1)) b by simp [resolve, hl, hb],
          show resolve e (n + 1) v = subst (resolve e n) b by simp [resolve, hl, hb]]
        apply subst_congr
        intro u hu
        exact key u ⟨hAb b hb u hu, d2 u hu⟩ n (by omega)

theorem solvable {e : Env} (hd : Disjoint e) (ha : Acyclic e) : ∃ σ, Sat σ e := by
  let N := cnt e (fun _ => True) + 1
  have hst := resolve_stable ha (cnt e (fun _ => True)) _ (Closed.univ e) (Nat.le_refl _)
  refine ⟨resolve e N, ?_⟩
  intro c hc
  constructor
  · intro u hu v hv
    simp only [N, resolve, lookup_of hd hc hu, lookup_of hd hc hv]
  · intro b hb v hv
    rw [← hst v trivial N (Nat.le_refl _)]
    conv => lhs; unfold resolve
    simp only [lookup_of hd hc hv, hb]

end Verif.TypeEnv
