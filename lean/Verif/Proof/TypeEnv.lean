import Verif.Spec.TypeEnv
/-
  Soundness of unification in type environments.
-/
namespace Verif.TypeEnv

/-! ### Basic operations -/

theorem lookup_some {e : Env} {v : Nat} {c : Cls} (h : lookup e v = some c) : c ∈ e.classes ∧ v ∈ c.vars := by
  unfold lookup at h
  exact ⟨List.mem_of_find?_eq_some h, by simpa using List.find?_some h⟩

theorem lookup_none {e : Env} {v : Nat} (h : lookup e v = none) : ∀ c ∈ e.classes, v ∉ c.vars := by
  unfold lookup at h
  intro c hc
  have := List.find?_eq_none.1 h c hc
  simpa using this

theorem lookup_of {e : Env} (hd : Disjoint e) {c : Cls} (hc : c ∈ e.classes) {v : Nat} (hv : v ∈ c.vars) :
    lookup e v = some c := by
  cases h : lookup e v with
  | none => exact absurd hv (lookup_none h c hc)
  | some d =>
    obtain ⟨h1, h2⟩ := lookup_some h
    rw [hd.vars d h1 c hc v h2 hv]

theorem get_some {e : Env} {i : Nat} {c : Cls} (h : get e i = some c) : c ∈ e.classes ∧ c.id = i := by
  unfold get at h
  exact ⟨List.mem_of_find?_eq_some h, by simpa using List.find?_some h⟩

theorem get_of {e : Env} (hd : Disjoint e) {c : Cls} (hc : c ∈ e.classes) : get e c.id = some c := by
  cases h : get e c.id with
  | none =>
    unfold get at h
    have := List.find?_eq_none.1 h c hc
    simp at this
  | some d =>
    obtain ⟨h1, h2⟩ := get_some h
    rw [hd.ids d h1 c hc h2]

/-- Replacing class `c` by `c'` with the same identity. -/
theorem mem_set {e : Env} (hd : Disjoint e) {c c' : Cls} (hc : c ∈ e.classes) (hi : c'.id = c.id) (d : Cls) :
    d ∈ (set e c').classes ↔ (d ∈ e.classes ∧ d ≠ c) ∨ d = c' := by
  simp only [set, List.mem_map]
  constructor
  · rintro ⟨x, hx, rfl⟩
    by_cases h : x.id = c'.id
    · simp [h]
    · simp only [h, if_false]
      refine Or.inl ⟨hx, ?_⟩
      rintro rfl
      exact h hi.symm
  · rintro (⟨h1, h2⟩ | rfl)
    · refine ⟨d, h1, ?_⟩
      have : d.id ≠ c'.id := fun e1 => h2 (hd.ids d h1 c hc (e1.trans hi))
      simp [this]
    · exact ⟨c, hc, by simp [hi]⟩

theorem mem_erase {e : Env} {i : Nat} (d : Cls) : d ∈ (erase e i).classes ↔ d ∈ e.classes ∧ d.id ≠ i := by
  simp [erase, List.mem_filter]

theorem set_same {e : Env} (hd : Disjoint e) {c : Cls} (hc : c ∈ e.classes) : set e c = e := by
  unfold set
  have : e.classes.map (fun d => if d.id = c.id then c else d) = e.classes := by
    conv => rhs; rw [← List.map_id e.classes]
    apply List.map_congr_left
    intro d hdm
    by_cases h : d.id = c.id
    · simp [h, hd.ids d hdm c hc h]
    · simp [h]
  rw [this]

theorem mem_push {e : Env} {vs : List Nat} {b : Option Ty} (d : Cls) :
    d ∈ (push e vs b).classes ↔ d ∈ e.classes ∨ d = ⟨e.next, vs, b⟩ := by
  simp [push]

/-! ### Closed sets -/

theorem Closed.inter {e : Env} {A B : Nat → Prop} (h1 : Closed e A) (h2 : Closed e B) :
    Closed e (fun v => A v ∧ B v) := by
  intro c hc v hv hab
  obtain ⟨a1, a2⟩ := h1 c hc v hv hab.1
  obtain ⟨b1, b2⟩ := h2 c hc v hv hab.2
  exact ⟨fun u hu => ⟨a1 u hu, b1 u hu⟩, fun b hb u hu => ⟨a2 b hb u hu, b2 b hb u hu⟩⟩

theorem Closed.union {e : Env} {A B : Nat → Prop} (h1 : Closed e A) (h2 : Closed e B) :
    Closed e (fun v => A v ∨ B v) := by
  intro c hc v hv hab
  rcases hab with h | h
  · obtain ⟨a1, a2⟩ := h1 c hc v hv h
    exact ⟨fun u hu => Or.inl (a1 u hu), fun b hb u hu => Or.inl (a2 b hb u hu)⟩
  · obtain ⟨a1, a2⟩ := h2 c hc v hv h
    exact ⟨fun u hu => Or.inr (a1 u hu), fun b hb u hu => Or.inr (a2 b hb u hu)⟩

theorem Closed.empty (e : Env) : Closed e (fun _ => False) := fun _ _ _ _ h => h.elim
theorem Closed.univ (e : Env) : Closed e (fun _ => True) := fun _ _ _ _ _ => ⟨fun _ _ => trivial, fun _ _ _ _ => trivial⟩

theorem Closed.sub {e e' : Env} (hs : ∀ c ∈ e'.classes, c ∈ e.classes) {A : Nat → Prop} (h : Closed e A) :
    Closed e' A := fun c hc => h c (hs c hc)

/-- The occurs check finds a closed set around the type that avoids what it looked for. -/
theorem occursIn_false {e : Env} (hd : Disjoint e) (vs : List Nat)
    (hvs : ∀ c ∈ e.classes, ∀ u ∈ c.vars, u ∈ vs → ∀ w ∈ c.vars, w ∈ vs) :
    ∀ (n : Nat) (t : Ty), occursIn e vs n t = some false →
      ∃ B, Closed e B ∧ (∀ u ∈ tvars t, B u) ∧ (∀ v ∈ vs, ¬ B v) := by
  intro n
  induction n with
  | zero => intro t h; simp [occursIn] at h
  | succ n ih =>
    intro t h
    cases t with
    | con c => exact ⟨_, Closed.empty e, by simp [tvars], by simp⟩
    | app a b =>
      simp only [occursIn] at h
      split at h
      · rename_i x y hx hy
        simp at h
        obtain ⟨rfl, rfl⟩ := h
        obtain ⟨A, a1, a2, a3⟩ := ih a hx
        obtain ⟨B, b1, b2, b3⟩ := ih b hy
        refine ⟨_, a1.union b1, ?_, ?_⟩
        · intro u hu
          simp only [tvars, List.mem_append] at hu
          exact hu.imp (a2 u) (b2 u)
        · intro v hv h
          exact h.elim (a3 v hv) (b3 v hv)
      · cases h
    | var w =>
      simp only [occursIn] at h
      split at h
      · cases h
      · rename_i hw
        split at h
        · rename_i c hc
          obtain ⟨hc1, hc2⟩ := lookup_some hc
          have havoid : ∀ u ∈ c.vars, u ∉ vs := fun u hu hin => hw (hvs c hc1 u hu hin w hc2)
          split at h
          · rename_i b hb
            obtain ⟨B, b1, b2, b3⟩ := ih b h
            refine ⟨fun v => v ∈ c.vars ∨ B v, ?_, ?_, ?_⟩
            · intro d hdm v hv hab
              rcases hab with h' | h'
              · have := hd.vars d hdm c hc1 v hv h'
                subst this
                refine ⟨fun u hu => Or.inl hu, fun b' hb' u hu => Or.inr ?_⟩
                rw [hb] at hb'; cases hb'
                exact b2 u hu
              · obtain ⟨x, y⟩ := b1 d hdm v hv h'
                exact ⟨fun u hu => Or.inr (x u hu), fun b' hb' u hu => Or.inr (y b' hb' u hu)⟩
            · simp [tvars, hc2]
            · intro v hv h'
              exact h'.elim (fun hin => havoid v hin hv) (b3 v hv)
          · rename_i hb
            refine ⟨fun v => v ∈ c.vars, ?_, by simp [tvars, hc2], fun v hv hin => havoid v hin hv⟩
            intro d hdm v hv h'
            have := hd.vars d hdm c hc1 v hv h'
            subst this
            exact ⟨fun u hu => hu, fun b' hb' => by rw [hb] at hb'; cases hb'⟩
        · rename_i hl
          refine ⟨fun v => v = w, ?_, by simp [tvars], fun v hv e1 => hw (e1 ▸ hv)⟩
          intro d hdm v hv h'
          subst h'
          exact absurd hv (lookup_none hl d hdm)

theorem occurs_false {e : Env} (hd : Disjoint e) {n : Nat} {t : Ty} {v : Nat} (h : occurs n e t v = some false) :
    ∃ B, Closed e B ∧ (∀ u ∈ tvars t, B u) ∧ (∀ u ∈ occVars e v, ¬ B u) := by
  apply occursIn_false hd (occVars e v) ?_ n t h
  intro c hc u hu hin w hw
  unfold occVars at *
  split at hin
  · rename_i d hd'
    obtain ⟨h1, _⟩ := lookup_some hd'
    have := hd.vars c hc d h1 u hu hin
    subst this
    simpa [hd'] using hw
  · rename_i hl
    simp at hin
    subst hin
    exact absurd hu (lookup_none hl c hc)

/-- Putting one new class beside classes that it shares no variable with. -/
theorem acyclic_link {e0 e : Env} {x : Cls} (hac : Acyclic e0)
    (hm : ∀ c, c ∈ e.classes → c ∈ e0.classes ∨ c = x)
    (hdis : ∀ c ∈ e0.classes, ∀ v ∈ c.vars, v ∉ x.vars)
    (B : Nat → Prop) (hB : Closed e0 B) (hb : ∀ b, x.bound = some b → ∀ u ∈ tvars b, B u)
    (hx : ∀ v ∈ x.vars, ¬ B v) : Acyclic e := by
  -- closed sets that avoid the new class stay closed
  have keep : ∀ A : Nat → Prop, Closed e0 A → (∀ v ∈ x.vars, ¬ A v) → Closed e A := by
    intro A hA hav c hc v hv hAv
    rcases hm c hc with h | rfl
    · exact hA c h v hv hAv
    · exact absurd hAv (hav v hv)
  intro c hc b hbc
  rcases hm c hc with h | rfl
  · obtain ⟨A, a1, a2, a3⟩ := hac c h b hbc
    by_cases hmeet : ∃ v ∈ c.vars, B v
    · obtain ⟨v, hv, hBv⟩ := hmeet
      obtain ⟨_, hBb⟩ := hB c h v hv hBv
      refine ⟨fun v => A v ∧ B v, keep _ (a1.inter hB) (fun v hv h' => hx v hv h'.2), ?_, ?_⟩
      · exact fun u hu => ⟨a2 u hu, hBb b hbc u hu⟩
      · exact fun v hv h' => a3 v hv h'.1
    · refine ⟨fun v => (A v ∨ B v) ∨ v ∈ x.vars, ?_, fun u hu => Or.inl (Or.inl (a2 u hu)), ?_⟩
      · intro d hdm v hv hin
        rcases hm d hdm with h' | rfl
        · rcases hin with hin | hin
          · obtain ⟨p, q⟩ := (a1.union hB) d h' v hv hin
            exact ⟨fun u hu => Or.inl (p u hu), fun b' hb' u hu => Or.inl (q b' hb' u hu)⟩
          · exact absurd hin (hdis d h' v hv)
        · exact ⟨fun u hu => Or.inr hu, fun b' hb' u hu => Or.inl (Or.inr (hb b' hb' u hu))⟩
      · intro v hv hin
        rcases hin with (hin | hin) | hin
        · exact a3 v hv hin
        · exact hmeet ⟨v, hv, hin⟩
        · exact hdis c h v hv hin
  · exact ⟨B, keep B hB hx, hb b hbc, hx⟩

/-! ### What a successful step leaves -/

/-- `σ` satisfies the classes that meet `A`. -/
def SatOn (A : Nat → Prop) (σ : Nat → Ty) (e : Env) : Prop :=
  ∀ c ∈ e.classes, (∃ v ∈ c.vars, A v) → SatCls σ c

/-- The effect of a successful unification inside `A`. -/
structure Post (A : Nat → Prop) (e e' : Env) (Q : (Nat → Ty) → Prop) : Prop where
  dis : Disjoint e'
  ac : Acyclic e'
  frame : ∀ c, (∀ v ∈ c.vars, ¬ A v) → (c ∈ e'.classes ↔ c ∈ e.classes)
  closed : Closed e' A
  known : ∀ v, Known e' v ↔ Known e v
  ids : ∀ c' ∈ e'.classes, ∃ c ∈ e.classes, c.id = c'.id
  next : e'.next = e.next
  keep : ∀ c ∈ e.classes, ∀ c' ∈ e'.classes, c'.id = c.id →
    (∀ v ∈ c.vars, v ∈ c'.vars) ∧ (∀ b, c.bound = some b → c'.bound = some b)
  sat : ∀ σ, SatOn A σ e' → SatOn A σ e ∧ Q σ

theorem Post.refl {A : Nat → Prop} {e : Env} {Q : (Nat → Ty) → Prop} (hd : Disjoint e) (ha : Acyclic e)
    (hc : Closed e A) (hQ : ∀ σ, SatOn A σ e → Q σ) : Post A e e Q :=
  ⟨hd, ha, fun _ _ => Iff.rfl, hc, fun _ => Iff.rfl, fun c h => ⟨c, h, rfl⟩, rfl,
    fun c h1 c' h2 hi => by rw [hd.ids c' h2 c h1 hi]; exact ⟨fun _ h => h, fun _ h => h⟩,
    fun σ h => ⟨h, hQ σ h⟩⟩

theorem Post.weaken {A A' : Nat → Prop} {e e' : Env} {Q : (Nat → Ty) → Prop} (h : Post A' e e' Q)
    (hs : ∀ v, A' v → A v) (hc : Closed e A) : Post A e e' Q := by
  refine ⟨h.dis, h.ac, fun c hv => h.frame c (fun v hvc ha => hv v hvc (hs v ha)), ?_, h.known, h.ids, h.next, h.keep, ?_⟩
  · intro c hcm v hv hA
    by_cases hm : ∃ v ∈ c.vars, A' v
    · obtain ⟨w, hw, hA'⟩ := hm
      obtain ⟨p, q⟩ := h.closed c hcm w hw hA'
      exact ⟨fun u hu => hs u (p u hu), fun b hb u hu => hs u (q b hb u hu)⟩
    · have : c ∈ e.classes := (h.frame c (fun v hv ha => hm ⟨v, hv, ha⟩)).1 hcm
      exact hc c this v hv hA
  · intro σ hσ
    obtain ⟨h1, h2⟩ := h.sat σ (fun c hcm ⟨v, hv, hA'⟩ => hσ c hcm ⟨v, hv, hs v hA'⟩)
    refine ⟨?_, h2⟩
    intro c hcm ⟨v, hv, hA⟩
    by_cases hm : ∃ v ∈ c.vars, A' v
    · exact h1 c hcm hm
    · exact hσ c ((h.frame c (fun v hv ha => hm ⟨v, hv, ha⟩)).2 hcm) ⟨v, hv, hA⟩

theorem Post.trans {A : Nat → Prop} {e e1 e2 : Env} {P Q : (Nat → Ty) → Prop}
    (h1 : Post A e e1 P) (h2 : Post A e1 e2 Q) :
    Post A e e2 (fun σ => P σ ∧ Q σ) := by
  refine ⟨h2.dis, h2.ac, fun c hv => (h2.frame c hv).trans (h1.frame c hv), h2.closed,
    fun v => (h2.known v).trans (h1.known v), ?_, h2.next.trans h1.next, ?_, ?_⟩
  · intro c' hc'
    obtain ⟨d, hd, hdi⟩ := h2.ids c' hc'
    obtain ⟨c, hc, hci⟩ := h1.ids d hd
    exact ⟨c, hc, hci.trans hdi⟩
  · intro c hc c' hc' hi
    obtain ⟨d, hd, hdi'⟩ := h2.ids c' hc'
    have hdi : d.id = c.id := hdi'.trans hi
    obtain ⟨p, q⟩ := h1.keep c hc d hd hdi
    obtain ⟨r, s⟩ := h2.keep d hd c' hc' (hi.trans hdi.symm)
    exact ⟨fun v hv => r v (p v hv), fun b hb => s b (q b hb)⟩
  · intro σ hσ
    obtain ⟨a, b⟩ := h2.sat σ hσ
    obtain ⟨c, d⟩ := h1.sat σ a
    exact ⟨c, d, b⟩

/-- Replacing two classes (or one) by one class with all their variables. -/
theorem Post.step {A : Nat → Prop} {e e' : Env} {Q : (Nat → Ty) → Prop} (hd : Disjoint e) (ha : Acyclic e)
    (hc : Closed e A) {c₁ c₂ x : Cls} (h₁ : c₁ ∈ e.classes) (h₂ : c₂ ∈ e.classes)
    (hA₁ : ∃ v ∈ c₁.vars, A v) (hA₂ : ∃ v ∈ c₂.vars, A v)
    (hm : ∀ c, c ∈ e'.classes ↔ (c ∈ e.classes ∧ c ≠ c₁ ∧ c ≠ c₂) ∨ c = x)
    (hxi : x.id = c₁.id) (hn : e'.next = e.next)
    (hxv : ∀ v, v ∈ x.vars ↔ v ∈ c₁.vars ∨ v ∈ c₂.vars)
    (hxb : ∀ b, c₁.bound = some b → x.bound = some b)
    (B : Nat → Prop) (hB : Closed e B) (hxB : ∀ b, x.bound = some b → ∀ u ∈ tvars b, B u)
    (hxa : ∀ v ∈ x.vars, ¬ B v) (hbA : ∀ b, x.bound = some b → ∀ u ∈ tvars b, A u)
    (hsat : ∀ σ, SatOn A σ e' → SatCls σ c₁ ∧ SatCls σ c₂ ∧ Q σ) : Post A e e' Q := by
  have hall : ∀ v ∈ x.vars, A v := by
    intro v hv
    rcases (hxv v).1 hv with h | h
    · obtain ⟨w, hw, hAw⟩ := hA₁
      exact (hc c₁ h₁ w hw hAw).1 v h
    · obtain ⟨w, hw, hAw⟩ := hA₂
      exact (hc c₂ h₂ w hw hAw).1 v h
  have hdis : ∀ c ∈ e.classes, c ≠ c₁ → c ≠ c₂ → ∀ v ∈ c.vars, v ∉ x.vars := by
    intro c hcm n1 n2 v hv hx
    rcases (hxv v).1 hx with h | h
    · exact n1 (hd.vars c hcm c₁ h₁ v hv h)
    · exact n2 (hd.vars c hcm c₂ h₂ v hv h)
  refine ⟨⟨?_, ?_, ?_⟩, ?_, ?_, ?_, ?_, ?_, hn, ?_, ?_⟩
  · intro c hcm d hdm hi
    rcases (hm c).1 hcm with ⟨c1, c2, c3⟩ | rfl <;> rcases (hm d).1 hdm with ⟨d1, d2, d3⟩ | rfl
    · exact hd.ids c c1 d d1 hi
    · exact absurd (hd.ids c c1 c₁ h₁ (hi.trans hxi)) c2
    · exact absurd (hd.ids d d1 c₁ h₁ (hi.symm.trans hxi)) d2
    · rfl
  · intro c hcm
    rw [hn]
    rcases (hm c).1 hcm with ⟨c1, c2, c3⟩ | rfl
    · exact hd.fresh c c1
    · rw [hxi]; exact hd.fresh c₁ h₁
  · intro c hcm d hdm v hv hv'
    rcases (hm c).1 hcm with ⟨c1, c2, c3⟩ | rfl <;> rcases (hm d).1 hdm with ⟨d1, d2, d3⟩ | rfl
    · exact hd.vars c c1 d d1 v hv hv'
    · exact absurd hv' (hdis c c1 c2 c3 v hv)
    · exact absurd hv (hdis d d1 d2 d3 v hv')
    · rfl
  · let e0 : Env := ⟨e.classes.filter (fun c => decide (c ≠ c₁ ∧ c ≠ c₂)), e.next⟩
    have h0 : ∀ c, c ∈ e0.classes ↔ c ∈ e.classes ∧ c ≠ c₁ ∧ c ≠ c₂ := by
      intro c; simp [e0, List.mem_filter]
    have hsub : ∀ c ∈ e0.classes, c ∈ e.classes := fun c h => ((h0 c).1 h).1
    apply acyclic_link (e0 := e0) (x := x) (B := B)
    · intro c hcm b hb
      obtain ⟨D, d1, d2, d3⟩ := ha c (hsub c hcm) b hb
      exact ⟨D, d1.sub hsub, d2, d3⟩
    · intro c hcm
      exact ((hm c).1 hcm).imp (fun h => (h0 c).2 h) id
    · intro c hcm
      obtain ⟨p, q, r⟩ := (h0 c).1 hcm
      exact hdis c p q r
    · exact hB.sub hsub
    · exact hxB
    · exact hxa
  · intro c hv
    have hne : ∀ d : Cls, d ∈ e.classes → (∃ v ∈ d.vars, A v) → c ≠ d := by
      rintro d _ ⟨v, h, h'⟩ rfl
      exact hv v h h'
    rw [hm]
    constructor
    · rintro (⟨h, _⟩ | rfl)
      · exact h
      · obtain ⟨v, h, h'⟩ := hA₁
        exact absurd h' (hv v ((hxv v).2 (Or.inl h)))
    · intro h
      exact Or.inl ⟨h, hne c₁ h₁ hA₁, hne c₂ h₂ hA₂⟩
  · intro c hcm v hv hAv
    rcases (hm c).1 hcm with ⟨c1, c2, c3⟩ | rfl
    · exact hc c c1 v hv hAv
    · exact ⟨hall, hbA⟩
  · intro v
    constructor
    · rintro ⟨c, hcm, hv⟩
      rcases (hm c).1 hcm with ⟨c1, _, _⟩ | rfl
      · exact ⟨c, c1, hv⟩
      · rcases (hxv v).1 hv with h | h
        · exact ⟨c₁, h₁, h⟩
        · exact ⟨c₂, h₂, h⟩
    · rintro ⟨c, hcm, hv⟩
      by_cases e1 : c = c₁
      · subst e1; exact ⟨x, (hm x).2 (Or.inr rfl), (hxv v).2 (Or.inl hv)⟩
      · by_cases e2 : c = c₂
        · subst e2; exact ⟨x, (hm x).2 (Or.inr rfl), (hxv v).2 (Or.inr hv)⟩
        · exact ⟨c, (hm c).2 (Or.inl ⟨hcm, e1, e2⟩), hv⟩
  · intro c' hc'
    rcases (hm c').1 hc' with ⟨c1, _, _⟩ | rfl
    · exact ⟨c', c1, rfl⟩
    · exact ⟨c₁, h₁, hxi.symm⟩
  · intro c hcm c' hc' hi
    rcases (hm c').1 hc' with ⟨c1, n1, n2⟩ | rfl
    · have := hd.ids c' c1 c hcm hi
      subst this
      exact ⟨fun _ h => h, fun _ h => h⟩
    · have := hd.ids c hcm c₁ h₁ (hi.symm.trans hxi)
      subst this
      exact ⟨fun v hv => (hxv v).2 (Or.inl hv), hxb⟩
  · intro σ hσ
    obtain ⟨s1, s2, s3⟩ := hsat σ hσ
    refine ⟨?_, s3⟩
    intro c hcm hA
    by_cases e1 : c = c₁
    · subst e1; exact s1
    · by_cases e2 : c = c₂
      · subst e2; exact s2
      · exact hσ c ((hm c).2 (Or.inl ⟨hcm, e1, e2⟩)) hA

theorem mem_merge {e : Env} (hd : Disjoint e) {c₁ c₂ x : Cls} (h₁ : c₁ ∈ e.classes) (h₂ : c₂ ∈ e.classes)
    (hne : c₁.id ≠ c₂.id) (hx : x.id = c₁.id) (c : Cls) :
    c ∈ (erase (set e x) c₂.id).classes ↔ (c ∈ e.classes ∧ c ≠ c₁ ∧ c ≠ c₂) ∨ c = x := by
  rw [mem_erase, mem_set hd h₁ hx]
  constructor
  · rintro ⟨⟨h, hn⟩ | rfl, hi⟩
    · refine Or.inl ⟨h, hn, ?_⟩
      rintro rfl; exact hi rfl
    · exact Or.inr rfl
  · rintro (⟨h, n1, n2⟩ | rfl)
    · exact ⟨Or.inl ⟨h, n1⟩, fun hi => n2 (hd.ids c h c₂ h₂ hi)⟩
    · exact ⟨Or.inr rfl, by rw [hx]; exact hne⟩

theorem SatCls.of_merge {σ : Nat → Ty} {x c : Cls} (h : SatCls σ x) (hv : ∀ v ∈ c.vars, v ∈ x.vars)
    (hb : ∀ b, c.bound = some b → ∃ b', x.bound = some b' ∧ subst σ b' = subst σ b) : SatCls σ c := by
  refine ⟨fun u hu v hv' => h.1 u (hv u hu) v (hv v hv'), ?_⟩
  intro b hb' v hv'
  obtain ⟨b', h1, h2⟩ := hb b hb'
  rw [h.2 b' h1 v (hv v hv'), h2]

theorem openVar_some {e : Env} {t : Ty} {v : Nat} (h : openVar e t = some v) : t = .var v ∧ Known e v := by
  cases t with
  | var w =>
    simp only [openVar] at h
    split at h
    · cases h
      rename_i hs
      obtain ⟨c, hc⟩ := Option.isSome_iff_exists.1 hs
      exact ⟨rfl, c, lookup_some hc⟩
    · cases h
  | _ => simp [openVar] at h

theorem lookup_known {e : Env} {v : Nat} (h : Known e v) : ∃ c, lookup e v = some c := by
  obtain ⟨c, hc, hv⟩ := h
  cases hl : lookup e v with
  | none => exact absurd hv (lookup_none hl c hc)
  | some d => exact ⟨d, rfl⟩

theorem occVars_known {e : Env} {v : Nat} {c : Cls} (h : lookup e v = some c) : occVars e v = c.vars := by
  simp [occVars, h]

def Good (A : Nat → Prop) (e : Env) (r : Res) (Q : (Nat → Ty) → Prop) : Prop :=
  r ≠ .undef ∧ ∀ e', r = .yes e' → Post A e e' Q

theorem unify_all (n : Nat) :
    (∀ A e t₁ t₂, Disjoint e → Acyclic e → Closed e A → (∀ v ∈ tvars t₁, A v) → (∀ v ∈ tvars t₂, A v) →
      Good A e (unify n e t₁ t₂) (fun σ => subst σ t₁ = subst σ t₂)) ∧
    (∀ A e v t, Disjoint e → Acyclic e → Closed e A → Known e v → A v → (∀ u ∈ tvars t, A u) →
      Good A e (bindVar n e v t) (fun σ => σ v = subst σ t)) ∧
    (∀ A e v₁ v₂, Disjoint e → Acyclic e → Closed e A → Known e v₁ → Known e v₂ → A v₁ → A v₂ →
      Good A e (bindVarToVar n e v₁ v₂) (fun σ => σ v₁ = σ v₂)) := by
  induction n with
  | zero =>
    refine ⟨?_, ?_, ?_⟩ <;> intros <;> exact ⟨by simp [unify, bindVar, bindVarToVar], by
      intro e' h; simp [unify, bindVar, bindVarToVar] at h⟩
  | succ n ih =>
    obtain ⟨ihU, ihB, ihV⟩ := ih
    refine ⟨?_, ?_, ?_⟩
    · intro A e t₁ t₂ hd ha hc h1 h2
      simp only [unify]
      split
      · rename_i v₁ v₂ e1 e2
        obtain ⟨rfl, k1⟩ := openVar_some e1
        obtain ⟨rfl, k2⟩ := openVar_some e2
        exact ihV A e v₁ v₂ hd ha hc k1 k2 (h1 _ (by simp [tvars])) (h2 _ (by simp [tvars]))
      · rename_i v₁ e1 e2
        obtain ⟨rfl, k1⟩ := openVar_some e1
        exact ihB A e v₁ t₂ hd ha hc k1 (h1 _ (by simp [tvars])) h2
      · rename_i v₂ e1 e2
        obtain ⟨rfl, k2⟩ := openVar_some e2
        obtain ⟨g1, g2⟩ := ihB A e v₂ t₁ hd ha hc k2 (h2 _ (by simp [tvars])) h1
        refine ⟨g1, fun e' he => ?_⟩
        have := g2 e' he
        exact { this with sat := fun σ hσ => ⟨(this.sat σ hσ).1, (this.sat σ hσ).2.symm⟩ }
      · rename_i ho1 ho2
        clear ho1 ho2
        split
        · rename_i a b
          by_cases hab : a = b
          · subst hab
            refine ⟨by simp, fun e' he => ?_⟩
            simp at he; subst he
            exact Post.refl hd ha hc (fun _ _ => rfl)
          · exact ⟨by simp [hab], fun e' he => by simp [hab] at he⟩
        · rename_i a b
          by_cases hab : a = b
          · subst hab
            refine ⟨by simp, fun e' he => ?_⟩
            simp at he; subst he
            exact Post.refl hd ha hc (fun _ _ => rfl)
          · exact ⟨by simp [hab], fun e' he => by simp [hab] at he⟩
        · rename_i a b c d
          obtain ⟨g1, g2⟩ := ihU A e a c hd ha hc (fun v hv => h1 v (by simp [tvars, hv]))
            (fun v hv => h2 v (by simp [tvars, hv]))
          cases hu : unify n e a c with
          | yes e1 =>
            have p1 := g2 e1 hu
            obtain ⟨g3, g4⟩ := ihU A e1 b d p1.dis p1.ac p1.closed (fun v hv => h1 v (by simp [tvars, hv]))
              (fun v hv => h2 v (by simp [tvars, hv]))
            refine ⟨g3, fun e' he => ?_⟩
            have p2 := p1.trans (g4 e' he)
            exact { p2 with sat := fun σ hσ => ⟨(p2.sat σ hσ).1, by
              simp only [subst]; rw [(p2.sat σ hσ).2.1, (p2.sat σ hσ).2.2]⟩ }
          | undef => exact absurd hu g1
          | no => exact ⟨by simp, fun e' he => by simp at he⟩
          | more => exact ⟨by simp, fun e' he => by simp at he⟩
        · exact ⟨by simp, fun e' he => by simp at he⟩
    · intro A e v t hd ha hc hk hv ht
      obtain ⟨c, hl⟩ := lookup_known hk
      obtain ⟨hcm, hvc⟩ := lookup_some hl
      obtain ⟨hcA, hcb⟩ := hc c hcm v hvc hv
      simp only [bindVar]
      split
      · exact ⟨by simp, fun e' he => by simp at he⟩
      · exact ⟨by simp, fun e' he => by simp at he⟩
      · rename_i hocc
        obtain ⟨B, b1, b2, b3⟩ := occurs_false hd hocc
        rw [occVars_known hl] at b3
        simp only [hl]
        split
        · rename_i b hb
          obtain ⟨D, d1, d2, d3⟩ := ha c hcm b hb
          have hcl : Closed e (fun v => A v ∧ (B v ∨ D v)) := hc.inter (b1.union d1)
          obtain ⟨g1, g2⟩ := ihU _ e b t hd ha hcl (fun u hu => ⟨hcb b hb u hu, Or.inr (d2 u hu)⟩)
            (fun u hu => ⟨ht u hu, Or.inl (b2 u hu)⟩)
          have hout : ∀ u ∈ c.vars, ¬ (A u ∧ (B u ∨ D u)) :=
            fun u hu h => h.2.elim (b3 u hu) (d3 u hu)
          cases hu : unify n e b t with
          | yes e1 =>
            have p1 := g2 e1 hu
            have hc1 : c ∈ e1.classes := (p1.frame c hout).2 hcm
            simp only [get_of p1.dis hc1]
            refine ⟨by simp, fun e' he => ?_⟩
            have hcb' : ({ c with bound := some b } : Cls) = c := by rw [← hb]
            rw [hcb', set_same p1.dis hc1] at he
            simp at he; subst he
            have p2 := p1.weaken (A := A) (fun v h => h.1) hc
            refine { p2 with sat := fun σ hσ => ⟨(p2.sat σ hσ).1, ?_⟩ }
            rw [← (p2.sat σ hσ).2]
            exact ((p2.sat σ hσ).1 c hcm ⟨v, hvc, hv⟩).2 b hb v hvc
          | undef => exact absurd hu g1
          | no => exact ⟨by simp, fun e' he => by simp at he⟩
          | more => exact ⟨by simp, fun e' he => by simp at he⟩
        · rename_i hb
          refine ⟨by simp, fun e' he => ?_⟩
          simp at he; subst he
          have hmem := mem_set hd hcm (c' := { c with bound := some t }) rfl
          apply Post.step hd ha hc hcm hcm ⟨v, hvc, hv⟩ ⟨v, hvc, hv⟩ (x := { c with bound := some t })
            (B := B) (hB := b1)
          · intro d; rw [hmem]; simp
          · rfl
          · rfl
          · intro w; simp
          · intro b' hb'; rw [hb] at hb'; cases hb'
          · intro b' hb'; simp at hb'; subst hb'; exact b2
          · exact b3
          · intro b' hb'; simp at hb'; subst hb'; exact ht
          · intro σ hσ
            have hx := hσ { c with bound := some t } ((hmem _).2 (Or.inr rfl)) ⟨v, hvc, hv⟩
            have : SatCls σ c := hx.of_merge (fun _ h => h) (fun b' hb' => by rw [hb] at hb'; cases hb')
            exact ⟨this, this, hx.2 t rfl v hvc⟩
    · intro A e v₁ v₂ hd ha hc k1 k2 hv1 hv2
      obtain ⟨c₁, hl1⟩ := lookup_known k1
      obtain ⟨hm1, hvc1⟩ := lookup_some hl1
      obtain ⟨hcA1, hcb1⟩ := hc c₁ hm1 v₁ hvc1 hv1
      obtain ⟨c₂, hl2⟩ := lookup_known k2
      obtain ⟨hm2, hvc2⟩ := lookup_some hl2
      obtain ⟨hcA2, hcb2⟩ := hc c₂ hm2 v₂ hvc2 hv2
      simp only [bindVarToVar, hl1, hl2]
      by_cases hid : c₁.id = c₂.id
      · have := hd.ids c₁ hm1 c₂ hm2 hid
        subst this
        simp only [if_true]
        refine ⟨by simp, fun e' he => ?_⟩
        simp at he; subst he
        exact Post.refl hd ha hc (fun σ hσ => (hσ c₁ hm1 ⟨v₁, hvc1, hv1⟩).1 v₁ hvc1 v₂ hvc2)
      · simp only [hid, if_false]
        -- the merge of two classes of which the second has no type of its own
        have simple : ∀ (a b : Cls) (va vb : Nat), a ∈ e.classes → b ∈ e.classes → a.id ≠ b.id →
            va ∈ a.vars → vb ∈ b.vars → A va → A vb → b.bound = none →
            (∀ t, a.bound = some t → ∃ B, Closed e B ∧ (∀ u ∈ tvars t, B u) ∧ (∀ u ∈ b.vars, ¬ B u)) →
            Post A e (erase (set e { a with vars := a.vars ++ b.vars }) b.id) (fun σ => σ va = σ vb) := by
          intro a b va vb ham hbm hne hva hvb hAa hAb hbn hocc
          have hmem := mem_merge hd ham hbm hne (x := { a with vars := a.vars ++ b.vars }) rfl
          have key : ∃ B, Closed e B ∧ (∀ t, a.bound = some t → ∀ u ∈ tvars t, B u) ∧
              (∀ v ∈ a.vars ++ b.vars, ¬ B v) := by
            cases hab : a.bound with
            | none => exact ⟨_, Closed.empty e, by simp, by simp⟩
            | some t =>
              obtain ⟨B, b1, b2, b3⟩ := hocc t hab
              obtain ⟨D, d1, d2, d3⟩ := ha a ham t hab
              refine ⟨_, b1.inter d1, ?_, ?_⟩
              · intro t' ht' u hu; cases ht'; exact ⟨b2 u hu, d2 u hu⟩
              · intro v hv h
                rcases List.mem_append.1 hv with h' | h'
                · exact d3 v h' h.2
                · exact b3 v h' h.1
          obtain ⟨B, hB1, hB2, hB3⟩ := key
          apply Post.step hd ha hc ham hbm ⟨va, hva, hAa⟩ ⟨vb, hvb, hAb⟩
            (x := { a with vars := a.vars ++ b.vars }) (B := B) (hB := hB1)
          · exact hmem
          · rfl
          · rfl
          · intro w; simp
          · intro t ht; exact ht
          · exact hB2
          · exact hB3
          · intro t ht; exact (hc a ham va hva hAa).2 t ht
          · intro σ hσ
            have hx := hσ _ ((hmem _).2 (Or.inr rfl)) ⟨va, by simp [hva], hAa⟩
            refine ⟨hx.of_merge (by simp +contextual) (fun t ht => ⟨t, ht, rfl⟩),
              hx.of_merge (by simp +contextual) (fun t ht => by rw [hbn] at ht; cases ht), ?_⟩
            exact hx.1 va (by simp [hva]) vb (by simp [hvb])
        split
        · rename_i b₁ b₂ hb1 hb2
          split
          · rename_i ho1 ho2
            obtain ⟨B1, x1, x2, x3⟩ := occurs_false hd ho1
            rw [occVars_known hl2] at x3
            obtain ⟨B2, y1, y2, y3⟩ := occurs_false hd ho2
            rw [occVars_known hl1] at y3
            obtain ⟨D1, p1, p2, p3⟩ := ha c₁ hm1 b₁ hb1
            obtain ⟨D2, q1, q2, q3⟩ := ha c₂ hm2 b₂ hb2
            have hcl : Closed e (fun v => A v ∧ ((B1 v ∧ D1 v) ∨ (B2 v ∧ D2 v))) :=
              hc.inter ((x1.inter p1).union (y1.inter q1))
            obtain ⟨g1, g2⟩ := ihU _ e b₁ b₂ hd ha hcl
              (fun u hu => ⟨hcb1 b₁ hb1 u hu, Or.inl ⟨x2 u hu, p2 u hu⟩⟩)
              (fun u hu => ⟨hcb2 b₂ hb2 u hu, Or.inr ⟨y2 u hu, q2 u hu⟩⟩)
            have out1 : ∀ u ∈ c₁.vars, ¬ (A u ∧ ((B1 u ∧ D1 u) ∨ (B2 u ∧ D2 u))) := by
              intro u hu h
              rcases h.2 with h | h
              · exact p3 u hu h.2
              · exact y3 u hu h.1
            have out2 : ∀ u ∈ c₂.vars, ¬ (A u ∧ ((B1 u ∧ D1 u) ∨ (B2 u ∧ D2 u))) := by
              intro u hu h
              rcases h.2 with h | h
              · exact x3 u hu h.1
              · exact q3 u hu h.2
            cases hu : unify n e b₁ b₂ with
            | undef => exact absurd hu g1
            | no => exact ⟨by simp, fun e' he => by simp at he⟩
            | more => exact ⟨by simp, fun e' he => by simp at he⟩
            | yes e1 =>
              have r1 := g2 e1 hu
              have m1 : c₁ ∈ e1.classes := (r1.frame c₁ out1).2 hm1
              have m2 : c₂ ∈ e1.classes := (r1.frame c₂ out2).2 hm2
              simp only [get_of r1.dis m1, get_of r1.dis m2]
              refine ⟨by simp, fun e' he => ?_⟩
              simp only [Res.yes.injEq] at he
              subst he
              have hmem := mem_merge r1.dis m1 m2 hid
                (x := { c₁ with vars := c₁.vars ++ c₂.vars, bound := some b₁ }) rfl
              have r1A := r1.weaken (A := A) (fun v h => h.1) hc
              have step : Post A e1 (erase (set e1 { c₁ with vars := c₁.vars ++ c₂.vars, bound := some b₁ }) c₂.id)
                  (fun σ => σ v₁ = σ v₂) := by
                apply Post.step r1.dis r1.ac r1A.closed m1 m2 ⟨v₁, hvc1, hv1⟩ ⟨v₂, hvc2, hv2⟩
                  (x := { c₁ with vars := c₁.vars ++ c₂.vars, bound := some b₁ })
                  (B := fun v => A v ∧ ((B1 v ∧ D1 v) ∨ (B2 v ∧ D2 v))) (hB := r1.closed)
                · exact hmem
                · rfl
                · rfl
                · intro w; simp
                · intro t ht; rw [hb1] at ht; exact ht
                · intro t ht; simp at ht; subst ht
                  exact fun u hu => ⟨hcb1 b₁ hb1 u hu, Or.inl ⟨x2 u hu, p2 u hu⟩⟩
                · intro v hv
                  simp only [List.mem_append] at hv
                  rcases hv with h | h
                  · exact out1 v h
                  · exact out2 v h
                · intro t ht; simp at ht; subst ht; exact hcb1 b₁ hb1
                · intro σ hσ
                  have hx := hσ _ ((hmem _).2 (Or.inr rfl)) ⟨v₁, by simp [hvc1], hv1⟩
                  -- the classes that the unification used are still there
                  have hin : SatOn (fun v => A v ∧ ((B1 v ∧ D1 v) ∨ (B2 v ∧ D2 v))) σ e1 := by
                    rintro c hcm ⟨v, hv, hA⟩
                    apply hσ c ((hmem c).2 (Or.inl ⟨hcm, ?_, ?_⟩)) ⟨v, hv, hA.1⟩
                    · rintro rfl; exact out1 v hv hA
                    · rintro rfl; exact out2 v hv hA
                  have heq := (r1.sat σ hin).2
                  refine ⟨hx.of_merge (by simp +contextual) (fun t ht => ⟨b₁, rfl, by rw [hb1] at ht; cases ht; rfl⟩),
                    hx.of_merge (by simp +contextual) (fun t ht => ⟨b₁, rfl, by rw [hb2] at ht; cases ht; exact heq⟩), ?_⟩
                  exact hx.1 v₁ (by simp [hvc1]) v₂ (by simp [hvc2])
              have fin := r1A.trans step
              exact { fin with sat := fun σ hσ => ⟨(fin.sat σ hσ).1, (fin.sat σ hσ).2.2⟩ }
          · exact ⟨by simp, fun e' he => by simp at he⟩
          · exact ⟨by simp, fun e' he => by simp at he⟩
          · exact ⟨by simp, fun e' he => by simp at he⟩
        · rename_i b₁ hb1 hb2
          split
          · rename_i ho
            refine ⟨by simp, fun e' he => ?_⟩
            simp only [Res.yes.injEq] at he
            subst he
            refine simple c₁ c₂ v₁ v₂ hm1 hm2 hid hvc1 hvc2 hv1 hv2 hb2 ?_
            intro t ht
            rw [hb1] at ht; cases ht
            have := occurs_false hd ho
            rwa [occVars_known hl2] at this
          · exact ⟨by simp, fun e' he => by simp at he⟩
          · exact ⟨by simp, fun e' he => by simp at he⟩
        · rename_i b₂ hb1 hb2
          split
          · rename_i ho
            refine ⟨by simp, fun e' he => ?_⟩
            simp only [Res.yes.injEq] at he
            subst he
            have := simple c₂ c₁ v₂ v₁ hm2 hm1 (Ne.symm hid) hvc2 hvc1 hv2 hv1 hb1 (by
              intro t ht
              rw [hb2] at ht; cases ht
              have := occurs_false hd ho
              rwa [occVars_known hl1] at this)
            exact { this with sat := fun σ hσ => ⟨(this.sat σ hσ).1, (this.sat σ hσ).2.symm⟩ }
          · exact ⟨by simp, fun e' he => by simp at he⟩
          · exact ⟨by simp, fun e' he => by simp at he⟩
        · rename_i hb1 hb2
          refine ⟨by simp, fun e' he => ?_⟩
          simp only [Res.yes.injEq] at he
          subst he
          have := simple c₂ c₁ v₂ v₁ hm2 hm1 (Ne.symm hid) hvc2 hvc1 hv2 hv1 hb1 (by
            intro t ht; rw [hb2] at ht; cases ht)
          exact { this with sat := fun σ hσ => ⟨(this.sat σ hσ).1, (this.sat σ hσ).2.symm⟩ }

end Verif.TypeEnv
