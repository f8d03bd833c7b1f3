import Verif.Proof.Mangler
/-
  C67: which declarations share a symbol.
-/
namespace Verif.Mangler

/-- Two declarations with proper names share a symbol exactly when they have the same name, the same
origin (ordinary, built by the translator, or prelude) and types that erase to the same thing: equal up to
reference-ness, qualifiers on outermost parameter and return types, array dimensions, function
pointers for functions, and the choice of type variables.

Partial: the last item erases more than a renaming (see `C67_type_variables_violated`), and no type
name may be generic in one declaration and plain in the other (see `C67_generic_violated`). -/
theorem C67_symbols_partial (generic : Tag → Name → Bool) (d₁ d₂ : Decl)
    (hn₁ : DeclName d₁.name) (hn₂ : DeclName d₂.name)
    (ht₁ : Ok generic d₁.ty) (ht₂ : Ok generic d₂.ty) :
    mangle d₁ = mangle d₂ ↔
      d₁.name = d₂.name ∧ d₁.link = d₂.link ∧ (erase false [] d₁.ty).1 = (erase false [] d₂.ty).1 := by
  rw [mangle_eq, mangle_eq]
  constructor
  · intro h
    simp only [List.cons.injEq, true_and] at h
    obtain ⟨h1, h2⟩ := name_inj (outName_ident hn₁) (outName_ident hn₂) h
    have e1 := outName_inj hn₁ hn₂ h1
    have := enc_inj generic _ _ d₁.link.code d₂.link.code (erase_ok generic false d₁.ty [] ht₁)
      (erase_ok generic false d₂.ty [] ht₂)
      (by simpa using link_ND d₁.link [] (Or.inl rfl)) (by simpa using link_ND d₂.link [] (Or.inl rfl)) h2
    obtain ⟨e2, e3⟩ := this
    have e4 := link_inj (a := d₁.link) (b := d₂.link) (r := []) (s := []) (Or.inl rfl) (Or.inl rfl)
      (by simpa using e3)
    exact ⟨e1, e4.1, e2⟩
  · rintro ⟨h1, h2, h3⟩
    rw [h1, h2, h3]

/-! ### What erasing keeps, for types without type variables

`Plain` types have no references, no forall clause, no type variable, no function pointer, and no
outermost qualifiers in parameters; on them erasing forgets only array dimensions, so two different
plain types always get different symbols. -/

mutual
def Plain (outermost : Bool) : Ty → Prop
  | .void q => outermost = true → q.const = false ∧ q.volatile = false ∧ q.atomic = false
  | .basic q _ => outermost = true → q.const = false ∧ q.volatile = false ∧ q.atomic = false
  | .ptr q b => (outermost = true → q.const = false ∧ q.volatile = false ∧ q.atomic = false) ∧
      isFn b = false ∧ Plain false b
  | .array q d b => (outermost = true → q.const = false ∧ q.volatile = false ∧ q.atomic = false) ∧
      d = 0 ∧ Plain false b
  | .ref _ _ => False
  | .fn q fa as rets params =>
      (outermost = true → q.const = false ∧ q.volatile = false ∧ q.atomic = false) ∧
      fa = [] ∧ as = .nil ∧ rets.len ≠ 0 ∧ PlainTys true rets ∧ PlainTys true params
  | .agg q tag _ ps => (outermost = true → q.const = false ∧ q.volatile = false ∧ q.atomic = false) ∧
      tag ≠ .type ∧ PlainTys false ps
  | .inst _ _ _ => False
  | .tuple q ts => (outermost = true → q.const = false ∧ q.volatile = false ∧ q.atomic = false) ∧
      PlainTys false ts
  | .varargs q => outermost = true → q.const = false ∧ q.volatile = false ∧ q.atomic = false
  | .zero q => q = {}
  | .one q => q = {}
def PlainTys (outermost : Bool) : Tys → Prop
  | .nil => True
  | .cons t r => Plain outermost t ∧ PlainTys outermost r
end

theorem withQuals_inj (b : Bool) (q q' : Quals) (e e' : Erased)
    (hq : b = true → q.const = false ∧ q.volatile = false ∧ q.atomic = false)
    (hq' : b = true → q'.const = false ∧ q'.volatile = false ∧ q'.atomic = false)
    (he : ∀ k t, e ≠ .qual k t) (he' : ∀ k t, e' ≠ .qual k t)
    (h : withQuals b q e = withQuals b q' e') : q = q' ∧ e = e' := by
  obtain ⟨c, v, a, m⟩ := q
  obtain ⟨c', v', a', m'⟩ := q'
  cases b
  · cases c <;> cases v <;> cases a <;> cases m <;> cases c' <;> cases v' <;> cases a' <;> cases m' <;>
      simp [withQuals] at h ⊢ <;>
      first
        | exact h
        | exact absurd h (he _ _)
        | exact absurd h.symm (he' _ _)
  · simp at hq hq'
    obtain ⟨rfl, rfl, rfl⟩ := hq
    obtain ⟨rfl, rfl, rfl⟩ := hq'
    cases m <;> cases m' <;> simp [withQuals] at h ⊢ <;>
      first
        | exact h
        | exact absurd h (he _ _)
        | exact absurd h.symm (he' _ _)

/-- The core of a plain type and its qualifiers. -/
def core (b : Bool) : Ty → Quals × Erased
  | .void q => (q, .void)
  | .basic q k => (q, .basic k)
  | .ptr q t => (q, .ptr (erase false [] t).1)
  | .array q _ t => (q, .arr (erase false [] t).1)
  | .ref q _ => (q, .void)
  | .fn q _ _ rets params => (q, .fn (eraseTys true [] rets).1 (eraseTys true [] params).1)
  | .agg q tag n ps => (q, .agg tag n (eraseTys false [] ps).1)
  | .inst q _ _ => (q, .void)
  | .tuple q ts => (q, .tuple (eraseTys false [] ts).1)
  | .varargs q => (q, .agg .type vaList .nil)
  | .zero q => (q, .zero)
  | .one q => (q, .one)

mutual
theorem erase_novars (b : Bool) (t : Ty) : ∀ vars, Plain b t → (erase b vars t).2 = vars := by
  intro vars h
  cases t with
  | ptr q t => simp only [erase, erase_novars false t vars h.2.2]
  | array q d t => simp only [erase, erase_novars false t vars h.2.2]
  | fn q fa as rets params =>
    obtain ⟨_, rfl, rfl, _, h1, h2⟩ := h
    simp only [erase, List.reverse_nil, List.nil_append, eraseTys_novars true rets vars h1,
      eraseTys_novars true params vars h2]
  | agg q tag n ps => simp only [erase, eraseTys_novars false ps vars h.2.2]
  | tuple q ts => simp only [erase, eraseTys_novars false ts vars h.2]
  | ref q t => exact h.elim
  | inst q n ps => exact h.elim
  | _ => rfl
theorem eraseTys_novars (b : Bool) (ts : Tys) : ∀ vars, PlainTys b ts → (eraseTys b vars ts).2 = vars := by
  intro vars h
  cases ts with
  | nil => rfl
  | cons t r => simp only [eraseTys, erase_novars b t vars h.1, eraseTys_novars b r vars h.2]
end

theorem erase_core (b : Bool) (t : Ty) (h : Plain b t) :
    (erase b [] t).1 = withQuals b (core b t).1 (core b t).2 ∧
    (∀ k e, (core b t).2 ≠ .qual k e) ∧
    (b = true → (core b t).1.const = false ∧ (core b t).1.volatile = false ∧ (core b t).1.atomic = false) := by
  cases t with
  | void q => exact ⟨rfl, by simp [core], h⟩
  | basic q k => exact ⟨rfl, by simp [core], h⟩
  | ptr q t => exact ⟨by simp [erase, core, h.2.1], by simp [core], h.1⟩
  | array q d t => exact ⟨rfl, by simp [core], h.1⟩
  | ref q t => exact h.elim
  | fn q fa as rets params =>
    obtain ⟨h0, rfl, rfl, hl, h1, h2⟩ := h
    refine ⟨?_, by simp [core], h0⟩
    simp [erase, core, Asserts.len, eraseTys_len, hl, eraseTys_novars true rets [] h1]
  | agg q tag n ps => exact ⟨rfl, by simp [core], h.1⟩
  | inst q n ps => exact h.elim
  | tuple q ts => exact ⟨rfl, by simp [core], h.1⟩
  | varargs q => exact ⟨rfl, by simp [core], h⟩
  | zero q => cases h; exact ⟨by simp [erase, core, withQuals], by simp [core], by simp [core]⟩
  | one q => cases h; exact ⟨by simp [erase, core, withQuals], by simp [core], by simp [core]⟩

mutual
theorem erase_inj (b : Bool) (t : Ty) : ∀ t' : Ty, Plain b t → Plain b t' →
    (erase b [] t).1 = (erase b [] t').1 → t = t' := by
  intro t' h h' he
  obtain ⟨c1, c2, c3⟩ := erase_core b t h
  obtain ⟨d1, d2, d3⟩ := erase_core b t' h'
  rw [c1, d1] at he
  obtain ⟨hq, hc⟩ := withQuals_inj b _ _ _ _ c3 d3 c2 d2 he
  cases t with
  | void q =>
    cases t' <;> simp_all [core, Plain]
  | basic q k =>
    cases t' <;> simp_all [core, Plain]
  | ptr q t =>
    cases t' with
    | ptr q' t' =>
      simp only [core, Erased.ptr.injEq] at hq hc
      rw [hq, erase_inj false t t' h.2.2 h'.2.2 hc]
    | ref q' t' => exact h'.elim
    | inst q' n' ps' => exact h'.elim
    | _ => simp [core] at hc
  | array q d t =>
    cases t' with
    | array q' d' t' =>
      simp only [core, Erased.arr.injEq] at hq hc
      rw [hq, erase_inj false t t' h.2.2 h'.2.2 hc, h.2.1, h'.2.1]
    | ref q' t' => exact h'.elim
    | inst q' n' ps' => exact h'.elim
    | _ => simp [core] at hc
  | ref q t => exact h.elim
  | fn q fa as rets params =>
    cases t' with
    | fn q' fa' as' rets' params' =>
      obtain ⟨_, rfl, rfl, _, h1, h2⟩ := h
      obtain ⟨_, rfl, rfl, _, h1', h2'⟩ := h'
      simp only [core, Erased.fn.injEq] at hq hc
      rw [hq, eraseTys_inj true rets rets' h1 h1' hc.1, eraseTys_inj true params params' h2 h2' hc.2]
    | ref q' t' => exact h'.elim
    | inst q' n' ps' => exact h'.elim
    | _ => simp [core] at hc
  | agg q tag n ps =>
    cases t' with
    | agg q' tag' n' ps' =>
      simp only [core, Erased.agg.injEq] at hq hc
      rw [hq, hc.1, hc.2.1, eraseTys_inj false ps ps' h.2.2 h'.2.2 hc.2.2]
    | varargs q' => simp only [core, Erased.agg.injEq] at hc; exact absurd hc.1 h.2.1
    | ref q' t' => exact h'.elim
    | inst q' n' ps' => exact h'.elim
    | _ => simp [core] at hc
  | inst q n ps => exact h.elim
  | tuple q ts =>
    cases t' with
    | tuple q' ts' =>
      simp only [core, Erased.tuple.injEq] at hq hc
      rw [hq, eraseTys_inj false ts ts' h.2 h'.2 hc]
    | ref q' t' => exact h'.elim
    | inst q' n' ps' => exact h'.elim
    | _ => simp [core] at hc
  | varargs q =>
    cases t' with
    | varargs q' => simp only [core] at hq; rw [hq]
    | agg q' tag' n' ps' =>
      simp only [core, Erased.agg.injEq] at hc; exact absurd hc.1.symm h'.2.1
    | ref q' t' => exact h'.elim
    | inst q' n' ps' => exact h'.elim
    | _ => simp [core] at hc
  | zero q => cases t' <;> simp_all [core, Plain]
  | one q => cases t' <;> simp_all [core, Plain]
theorem eraseTys_inj (b : Bool) (ts : Tys) : ∀ ts' : Tys, PlainTys b ts → PlainTys b ts' →
    (eraseTys b [] ts).1 = (eraseTys b [] ts').1 → ts = ts' := by
  intro ts' h h' he
  cases ts with
  | nil =>
    cases ts' with
    | nil => rfl
    | cons t r => simp [eraseTys] at he
  | cons t r =>
    cases ts' with
    | nil => simp [eraseTys] at he
    | cons t' r' =>
      simp only [eraseTys, erase_novars b t [] h.1, erase_novars b t' [] h'.1, ErasedTys.cons.injEq] at he
      rw [erase_inj b t t' h.1 h'.1 he.1, eraseTys_inj b r r' h.2 h'.2 he.2]
end

/-- Different declarations of plain types always have different symbols. -/
theorem C67_plain_types_distinct (generic : Tag → Name → Bool) (d₁ d₂ : Decl)
    (hn₁ : DeclName d₁.name) (hn₂ : DeclName d₂.name)
    (ht₁ : Ok generic d₁.ty) (ht₂ : Ok generic d₂.ty)
    (hp₁ : Plain false d₁.ty) (hp₂ : Plain false d₂.ty)
    (h : mangle d₁ = mangle d₂) : d₁ = d₂ := by
  obtain ⟨h1, h2, h3⟩ := (C67_symbols_partial generic d₁ d₂ hn₁ hn₂ ht₁ ht₂).1 h
  have := erase_inj false _ _ hp₁ hp₂ h3
  cases d₁; cases d₂; simp_all

/-! ### Renaming type parameters does not change the symbol -/

mutual
/-- Rename the type-variable names in a type that has no forall clause of its own. -/
def ren (ρ : Name → Name) : Ty → Ty
  | .ptr q b => .ptr q (ren ρ b)
  | .array q d b => .array q d (ren ρ b)
  | .ref q b => .ref q (ren ρ b)
  | .fn q fa as rets params => .fn q fa as (renTys ρ rets) (renTys ρ params)
  | .agg q tag n ps => .agg q tag n (renTys ρ ps)
  | .inst q n ps => .inst q (ρ n) (renTys ρ ps)
  | .tuple q ts => .tuple q (renTys ρ ts)
  | t => t
def renTys (ρ : Name → Name) : Tys → Tys
  | .nil => .nil
  | .cons t r => .cons (ren ρ t) (renTys ρ r)
end

def renAsserts (ρ : Name → Name) : Asserts → Asserts
  | .nil => .nil
  | .cons n l t r => .cons n l (ren ρ t) (renAsserts ρ r)

mutual
/-- No nested forall clause, and every name that is not one of the variables is left alone by `ρ`. -/
def Fixes (ρ : Name → Name) (vars : List Name) : Ty → Prop
  | .ptr _ b => Fixes ρ vars b
  | .array _ _ b => Fixes ρ vars b
  | .ref _ b => Fixes ρ vars b
  | .fn _ fa as rets params => fa = [] ∧ as = .nil ∧ FixesTys ρ vars rets ∧ FixesTys ρ vars params
  | .agg _ _ _ ps => FixesTys ρ vars ps
  | .inst _ n ps => (n ∉ vars → ρ n = n) ∧ FixesTys ρ vars ps
  | .tuple _ ts => FixesTys ρ vars ts
  | _ => True
def FixesTys (ρ : Name → Name) (vars : List Name) : Tys → Prop
  | .nil => True
  | .cons t r => Fixes ρ vars t ∧ FixesTys ρ vars r
end

def FixesAsserts (ρ : Name → Name) (vars : List Name) : Asserts → Prop
  | .nil => True
  | .cons _ _ t r => Fixes ρ vars t ∧ FixesAsserts ρ vars r

def renVars (ρ : Name → Name) (l : List (Name × Kind)) : List (Name × Kind) := l.map (fun p => (ρ p.1, p.2))

theorem renVars_lookup (ρ : Name → Name) (hρ : ∀ a b, ρ a = ρ b → a = b) (l : List (Name × Kind)) (n : Name) :
    (renVars ρ l).lookup (ρ n) = l.lookup n := by
  induction l with
  | nil => rfl
  | cons p r ih =>
    obtain ⟨m, k⟩ := p
    simp only [renVars, List.map_cons, List.lookup_cons] at *
    by_cases h : n = m
    · subst h; simp
    · have : ¬ ρ n = ρ m := fun e => h (hρ _ _ e)
      rw [beq_false_of_ne h, beq_false_of_ne this]
      exact ih

theorem lookup_none_of {l : List (Name × Kind)} {n : Name} (h : l.lookup n = none) : n ∉ l.map Prod.fst := by
  intro hm
  induction l with
  | nil => simp at hm
  | cons p r ih =>
    obtain ⟨m, k⟩ := p
    simp only [List.lookup_cons] at h
    by_cases e : n = m
    · subst e; simp at h
    · rw [beq_false_of_ne e] at h
      simp [e] at hm
      exact ih h (by simpa using hm)

theorem isFn_ren (ρ : Name → Name) (t : Ty) : isFn (ren ρ t) = isFn t := by cases t <;> simp [ren, isFn]

theorem renTys_len (ρ : Name → Name) : ∀ ts : Tys, (renTys ρ ts).len = ts.len
  | .nil => rfl
  | .cons t r => by simp [renTys, Tys.len, renTys_len ρ r]

mutual
theorem erase_ren (ρ : Name → Name) (hρ : ∀ a b, ρ a = ρ b → a = b) (t : Ty) : ∀ (b : Bool) vars,
    Fixes ρ (vars.map Prod.fst) t →
    (erase b (renVars ρ vars) (ren ρ t)) = ((erase b vars t).1, renVars ρ vars) ∧ (erase b vars t).2 = vars := by
  intro b vars h
  cases t with
  | ptr q t =>
    obtain ⟨h1, h2⟩ := erase_ren ρ hρ t false vars h
    simp [ren, erase, h1, h2, isFn_ren]
  | array q d t =>
    obtain ⟨h1, h2⟩ := erase_ren ρ hρ t false vars h
    simp [ren, erase, h1, h2]
  | ref q t =>
    obtain ⟨h1, h2⟩ := erase_ren ρ hρ t false vars h
    simp [ren, erase, h1, h2]
  | fn q fa as rets params =>
    obtain ⟨rfl, rfl, h1, h2⟩ := h
    obtain ⟨h3, h4⟩ := eraseTys_ren ρ hρ rets true vars h1
    obtain ⟨h5, h6⟩ := eraseTys_ren ρ hρ params true vars h2
    simp [ren, erase, h3, h4, h5, h6, Asserts.len]
    rfl
  | agg q tag n ps =>
    obtain ⟨h1, h2⟩ := eraseTys_ren ρ hρ ps false vars h
    simp [ren, erase, h1, h2]
  | inst q n ps =>
    obtain ⟨h0, h⟩ := h
    obtain ⟨h1, h2⟩ := eraseTys_ren ρ hρ ps false vars h
    simp only [ren, erase, renVars_lookup ρ hρ]
    cases hl : vars.lookup n with
    | none => simp [h1, h2, h0 (lookup_none_of hl)]
    | some k => simp
  | tuple q ts =>
    obtain ⟨h1, h2⟩ := eraseTys_ren ρ hρ ts false vars h
    simp [ren, erase, h1, h2]
  | _ => simp [ren, erase]
theorem eraseTys_ren (ρ : Name → Name) (hρ : ∀ a b, ρ a = ρ b → a = b) (ts : Tys) : ∀ (b : Bool) vars,
    FixesTys ρ (vars.map Prod.fst) ts →
    (eraseTys b (renVars ρ vars) (renTys ρ ts)) = ((eraseTys b vars ts).1, renVars ρ vars) ∧
      (eraseTys b vars ts).2 = vars := by
  intro b vars h
  cases ts with
  | nil => simp [renTys, eraseTys]
  | cons t r =>
    obtain ⟨h1, h2⟩ := erase_ren ρ hρ t b vars h.1
    obtain ⟨h3, h4⟩ := eraseTys_ren ρ hρ r b vars h.2
    simp [renTys, eraseTys, h1, h2, h3, h4]
end

theorem eraseAsserts_ren (ρ : Name → Name) (hρ : ∀ a b, ρ a = ρ b → a = b) : ∀ (as : Asserts) vars,
    FixesAsserts ρ (vars.map Prod.fst) as →
    eraseAsserts (renVars ρ vars) (renAsserts ρ as) = eraseAsserts vars as
  | .nil, vars, _ => by simp [renAsserts, eraseAsserts]
  | .cons n l t r, vars, h => by
    simp [renAsserts, eraseAsserts, (erase_ren ρ hρ t false vars h.1).1, eraseAsserts_ren ρ hρ r vars h.2]

theorem renAsserts_len (ρ : Name → Name) : ∀ as : Asserts, (renAsserts ρ as).len = as.len
  | .nil => rfl
  | .cons n l t r => by simp [renAsserts, Asserts.len, renAsserts_len ρ r]

mutual
theorem fixes_congr (ρ : Name → Name) (v w : List Name) (h : ∀ n, n ∈ v ↔ n ∈ w) (t : Ty) :
    Fixes ρ v t ↔ Fixes ρ w t := by
  cases t with
  | ptr q t => simpa only [Fixes] using fixes_congr ρ v w h t
  | array q d t => simpa only [Fixes] using fixes_congr ρ v w h t
  | ref q t => simpa only [Fixes] using fixes_congr ρ v w h t
  | fn q fa as rets params =>
    simp only [Fixes, fixesTys_congr ρ v w h rets, fixesTys_congr ρ v w h params]
  | agg q tag n ps => simpa only [Fixes] using fixesTys_congr ρ v w h ps
  | inst q n ps => simp only [Fixes, h, fixesTys_congr ρ v w h ps]
  | tuple q ts => simpa only [Fixes] using fixesTys_congr ρ v w h ts
  | _ => simp [Fixes]
theorem fixesTys_congr (ρ : Name → Name) (v w : List Name) (h : ∀ n, n ∈ v ↔ n ∈ w) (ts : Tys) :
    FixesTys ρ v ts ↔ FixesTys ρ w ts := by
  cases ts with
  | nil => simp [FixesTys]
  | cons t r => simp only [FixesTys, fixes_congr ρ v w h t, fixesTys_congr ρ v w h r]
end

theorem fixesAsserts_congr (ρ : Name → Name) (v w : List Name) (h : ∀ n, n ∈ v ↔ n ∈ w) : ∀ as : Asserts,
    FixesAsserts ρ v as ↔ FixesAsserts ρ w as
  | .nil => by simp [FixesAsserts]
  | .cons n l t r => by simp only [FixesAsserts, fixes_congr ρ v w h t, fixesAsserts_congr ρ v w h r]

/-- Renaming the type parameters of a polymorphic function consistently does not change its symbol. -/
theorem C67_renaming (ρ : Name → Name) (hρ : ∀ a b, ρ a = ρ b → a = b)
    (name : Name) (link : Linkage) (q : Quals) (fa : List (Name × Kind)) (as : Asserts) (rets params : Tys)
    (ha : FixesAsserts ρ (fa.map Prod.fst) as)
    (hr : FixesTys ρ (fa.map Prod.fst) rets) (hp : FixesTys ρ (fa.map Prod.fst) params) :
    mangle ⟨name, .fn q (renVars ρ fa) (renAsserts ρ as) (renTys ρ rets) (renTys ρ params), link⟩ =
      mangle ⟨name, .fn q fa as rets params, link⟩ := by
  have e1 : (renVars ρ fa).reverse = renVars ρ fa.reverse := by simp [renVars]
  have hc : ∀ k, countKind k (renVars ρ fa) = countKind k fa := by
    intro k
    simp only [countKind, renVars]
    rw [List.filter_map]
    simp [Function.comp_def]
  have hn : renVars ρ fa = [] ↔ fa = [] := by simp [renVars]
  have congrTys : ∀ ts, FixesTys ρ (fa.map Prod.fst) ts → FixesTys ρ (fa.reverse.map Prod.fst) ts := by
    intro ts h
    exact (fixesTys_congr ρ _ _ (fun n => by simp) ts).1 h
  have congrAs : FixesAsserts ρ (fa.reverse.map Prod.fst) as := by
    exact (fixesAsserts_congr ρ _ _ (fun n => by simp) as).1 ha
  obtain ⟨h3, h4⟩ := eraseTys_ren ρ hρ rets true fa.reverse (congrTys _ hr)
  obtain ⟨h5, h6⟩ := eraseTys_ren ρ hρ params true fa.reverse (congrTys _ hp)
  have h7 := eraseAsserts_ren ρ hρ as fa.reverse congrAs
  rw [mangle_eq, mangle_eq]
  simp only [erase, e1, List.append_nil, h3, h4, h5, h6, h7, hc, hn, renAsserts_len]

/-! ### Where distinct declarations share a symbol -/

def T : Ty := .inst {} ['T'] .nil
def U : Ty := .inst {} ['U'] .nil
def forallTU (params : Tys) : Decl :=
  ⟨['f'], .fn {} [(['T'], .dtype), (['U'], .dtype)] .nil (.cons (.void {}) .nil) params, .plain⟩

/-- `forall(T &, U &) void f(T, U)` and `forall(T &, U &) void f(T, T)` have the same symbol,
although no renaming of the type parameters turns one into the other: the second cannot be obtained
by any function on names, since it identifies the two parameters, and the renaming would have to be
injective. -/
theorem C67_type_variables_violated :
    ∃ d₁ d₂ : Decl, mangle d₁ = mangle d₂ ∧
      d₁ = forallTU (.cons T (.cons U .nil)) ∧ d₂ = forallTU (.cons T (.cons T .nil)) ∧
      ∀ ρ : Name → Name, (∀ a b, ρ a = ρ b → a = b) →
        renTys ρ (.cons T (.cons U .nil)) ≠ .cons T (.cons T .nil) := by
  refine ⟨_, _, ?_, rfl, rfl, ?_⟩
  · rw [mangle_eq, mangle_eq]
    congr 1
  · intro ρ hρ h
    simp only [renTys, T, U, ren, Tys.cons.injEq, Ty.inst.injEq, true_and, and_true] at h
    have := hρ _ _ (h.1.trans h.2.symm)
    simp at this

/-- Swapping the types of two parameters is not seen either: `f(T, U)` and `f(U, T)` (this one is
a renaming), and with a pointer `f(T *, U)` against `f(U *, U)`. -/
theorem C67_type_variables_pointer_violated :
    mangle (forallTU (.cons (.ptr {} T) (.cons U .nil))) = mangle (forallTU (.cons (.ptr {} U) (.cons U .nil))) := by
  rw [mangle_eq, mangle_eq]
  congr 1

def int : Ty := .basic {} 6
/-- `[S(a)] f(S(b(int)))`, and `[a(b), int] f()`. -/
def g₁ : Decl := ⟨['f'], .fn {} [] .nil (.cons (.agg {} .struct ['a'] .nil) .nil)
  (.cons (.agg {} .struct ['b'] (.cons int .nil)) .nil), .plain⟩
def g₂ : Decl := ⟨['f'], .fn {} [] .nil
  (.cons (.agg {} .struct ['a'] (.cons (.agg {} .struct ['b'] .nil) .nil)) (.cons int .nil)) .nil, .plain⟩

/-- The brackets around generic arguments are the separators of function types, so two functions
with different return and parameter types can share a symbol when a struct name is generic for one
and plain for the other (for example in two translation units that are linked together):
`a f(b(int))` and `[a(b), int] f()` are both `_X1fFS1a_S1b_i__`. -/
theorem C67_generic_violated :
    mangle g₁ = mangle g₂ ∧ mangle g₁ = "_X1fFS1a_S1b_i__".toList ∧
      (erase false [] g₁.ty).1 ≠ (erase false [] g₂.ty).1 := by
  refine ⟨by decide +kernel, by decide +kernel, ?_⟩
  simp [g₁, g₂, erase, eraseTys, withQuals, Asserts.len, ErasedTys.len]

/-- A function that the user calls `_operator_add` has the symbol of the operator `?+?` of the same type. -/
theorem C67_operator_name_violated (t : Ty) :
    mangle ⟨"_operator_add".toList, t, .plain⟩ = mangle ⟨"?+?".toList, t, .plain⟩ := by
  rw [mangle_eq, mangle_eq]
  have h1 : outName "_operator_add".toList = "_operator_add".toList := by decide +kernel
  have h2 : outName "?+?".toList = "_operator_add".toList := by decide +kernel
  simp only [h1, h2]

/-! ### Concrete cases -/

/-- `const char * f(struct s & mutex, int [5], void (*)(double))`. -/
def sample : Decl := ⟨['f'], .fn {} [] .nil (.cons (.ptr {} (.basic { const := true } 1)) .nil)
  (.cons (.ref { mutex := true } (.agg {} .struct ['s'] .nil))
    (.cons (.array {} 5 int) (.cons (.ptr {} (.fn {} [] .nil .nil (.cons (.basic {} 24) .nil))) .nil))), .plain⟩

example : mangle sample = "_X1fFPKc_XS1sA0iFv_d__".toList := by decide +kernel
example : Ok (fun _ _ => false) sample.ty := by
  simp [sample, Ok, OkTys, OkAsserts, int, Tys.len, Ident]
example : DeclName sample.name := by
  refine Or.inr ⟨⟨'f', [], rfl, by decide⟩, by decide, by decide +kernel⟩
example : DeclName "?+?".toList := Or.inl (by decide +kernel)

/-- Two plain declarations that differ only below a pointer. -/
example : Plain false (.fn {} [] .nil (.cons (.void {}) .nil) (.cons (.ptr {} (.basic { const := true } 1)) .nil)) ∧
    mangle ⟨['f'], .fn {} [] .nil (.cons (.void {}) .nil) (.cons (.ptr {} (.basic { const := true } 1)) .nil), .plain⟩ ≠
    mangle ⟨['f'], .fn {} [] .nil (.cons (.void {}) .nil) (.cons (.ptr {} (.basic {} 1)) .nil), .plain⟩ := by
  refine ⟨by simp [Plain, PlainTys, isFn, Tys.len], by decide +kernel⟩

/-- A polymorphic function with an assertion, renamed: `forall(T & | { void g(T); }) void f(T)`. -/
example : FixesTys (fun n => if n = ['T'] then ['U'] else if n = ['U'] then ['T'] else n) [['T']]
    (.cons T .nil) := by simp [FixesTys, Fixes, T]

end Verif.Mangler
