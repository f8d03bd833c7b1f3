import Verif.Proof.Symbols
/-!
C99: names denote the declarations that are in scope; where they do not.

A program is a list of operations: scopes are opened and closed, and types, tags (structures, unions, enumerations, traits), identifiers and the members of `with` clauses are declared.
-/
namespace Verif.Symbols

/-- C99: after any program, a type, a tag or an identifier with a given type denotes what the innermost open scope with a declaration of it says. An identifier has one meaning for each of its
types: look-up gives all of them, once each, with the object it is a member of, and tells which may not be used. -/
theorem C99_lookup (E : Env) (ops : List Op) (T : SymTab) (fs : List Frame) (hr : run E .empty ops = some T) (hf : frames [[]] ops = some fs) :
    (∀ n, T.lookupType n = innermost (typeIn n) fs) ∧ (∀ k n, T.lookupTag k n = innermost (tagIn k n) fs) ∧
    ∀ n, specialKind n = none → n ≠ "" → (∀ s : Seen, (∃ e ∈ T.lookupId n, e.id = s.decl ∧ e.base = s.base ∧ e.deleter.isSome = s.deleted) ↔ ∃ m, innermost (idIn n m) fs = some s) ∧
      ((T.lookupId n).map (·.id.mangled)).Nodup := by
  have hi := run_inv ops inv_empty hf hr
  have hlen := hi.agree.length
  rw [expand_length hi.good] at hlen
  obtain ⟨f, rest, rfl⟩ : ∃ f rest, fs = f :: rest := by
    cases fs with
    | nil => simp at hlen
    | cons f rest => exact ⟨f, rest, rfl⟩
  have hc := hi.cur
  refine ⟨fun n => by rw [SymTab.lookupType, hc.types, located_innermost], fun k n => by rw [SymTab.lookupTag, hc.tags, located_innermost], fun n hs hne => ⟨fun s => ?_, ?_⟩⟩
  · constructor
    · rintro ⟨e, he, h1, h2, h3⟩
      obtain ⟨⟨m, e'⟩, hp, rfl⟩ := List.mem_map.1 he
      have hfind := ((hc.keys n).mem m e').1 hp
      have hl := hc.ids n m hs hne
      refine ⟨m, ?_⟩
      rw [← located_innermost, ← hl, hfind]
      simp only [Option.map_some, view]
      rw [h1, h2, h3]
    · rintro ⟨m, hm⟩
      have hl := hc.ids n m hs hne
      rw [← located_innermost, ← hl] at hm
      cases hfind : (T.cur.t.of n).find m with
      | none => rw [hfind] at hm; cases hm
      | some e =>
        rw [hfind] at hm
        cases hm
        exact ⟨e, List.mem_map.2 ⟨(m, e), ((hc.keys n).mem m e).2 hfind, rfl⟩, rfl, rfl, rfl⟩
  · have hk := hc.keys n
    have : (T.lookupId n).map (·.id.mangled) = List.map Prod.fst (T.cur.t.of n) := by
      rw [SymTab.lookupId, List.map_map]
      apply List.map_congr_left
      rintro ⟨m, e⟩ hp
      have hfind := (hk.mem m e).1 hp
      have hl := hc.ids n m hs hne
      rw [hfind, Option.map_some] at hl
      have hin : innermost (idIn n m) (f :: rest) = some (view e).decl := by rw [← located_innermost, ← hl]; rfl
      have : ∀ (fs : List Frame) (s : Seen), innermost (idIn n m) fs = some s → s.decl.mangled = m := by
        intro fs
        induction fs with
        | nil => intro s h; cases h
        | cons g gs ih =>
          intro s h
          rw [innermost] at h
          cases hg : idIn n m g with
          | none => rw [hg] at h; exact ih s (by simpa using h)
          | some s' => rw [hg] at h; cases h; exact (mem_ids.1 (idIn_mem hg)).2.2
      exact this _ _ hin
    rw [this]; exact hk

/-- An identifier, for the examples. -/
def ident (name mangled : String) (linkage : Linkage) (defn : Bool) (id : Nat) : IdD := ⟨name, mangled, false, linkage, defn, false, id, "", "", false, id⟩

/-- `int x; double x; { int x; … }`: inside, the inner `int x` and the outer `double x`. -/
example : ∃ T fs, run ⟨fun _ _ => true, true⟩ .empty [.id (ident "x" "xi" .cforall true 1), .id (ident "x" "xd" .cforall true 2), .enter, .id (ident "x" "xi" .cforall true 3)] = some T ∧
    frames [[]] [.id (ident "x" "xi" .cforall true 1), .id (ident "x" "xd" .cforall true 2), .enter, .id (ident "x" "xi" .cforall true 3)] = some fs ∧
    (innermost (idIn "x" "xi") fs).map (·.decl.id) = some 3 ∧ (innermost (idIn "x" "xd") fs).map (·.decl.id) = some 2 ∧ (T.lookupId "x").map (·.id.id) = [3, 2] :=
  ⟨_, _, rfl, rfl, by decide +kernel, by decide +kernel, by decide +kernel⟩

/-- C99: looking for a type or a tag in the global scope, from any depth, gives what it denotes there. -/
theorem C99_global (E : Env) (ops : List Op) (T : SymTab) (fs : List Frame) (g : Frame) (hr : run E .empty ops = some T) (hf : frames [[]] ops = some fs) (hg : fs.getLast? = some g) :
    (∀ n, T.globalLookupType n = some (typeIn n g)) ∧ ∀ k n, T.globalLookupTag k n = some (tagIn k n g) := by
  have hi := run_inv ops inv_empty hf hr
  have hlast : ∀ (ts : List Tables) (fs : List Frame) (t : Tables) (g : Frame), AgreeAll ts fs → ts.getLast? = some t → fs.getLast? = some g → Agree t [g] := by
    intro ts
    induction ts with
    | nil => intro fs t g _ h; cases h
    | cons a ts ih =>
      intro fs t g h h1 h2
      cases fs with
      | nil => exact h.elim
      | cons f fs =>
        cases ts with
        | nil =>
          cases fs with
          | nil => cases h1; cases h2; exact h.1
          | cons f' fs' => exact h.2.elim
        | cons b ts =>
          cases fs with
          | nil => exact h.2.elim
          | cons f' fs' => exact ih (f' :: fs') t g h.2 (by simpa [List.getLast?_cons] using h1) (by simpa [List.getLast?_cons] using h2)
  obtain ⟨s, hs, hlast'⟩ := atScope_zero hi.good
  have ha := hlast _ _ _ _ hi.agree hlast' hg
  constructor
  · intro n
    rw [SymTab.globalLookupType, hs, Option.map_some, ha.types, located_innermost, innermost, innermost, Option.or_none]
  · intro k n
    rw [SymTab.globalLookupTag, hs, Option.map_some, ha.tags, located_innermost, innermost, innermost, Option.or_none]

/-- `struct S { … }; { { struct S { … }; … } }` -/
example : ∃ T, run ⟨fun _ _ => true, true⟩ .empty [.tag .struct ⟨"S", true, 1⟩, .enter, .enter, .tag .struct ⟨"S", true, 2⟩] = some T ∧
    (T.lookupTag .struct "S").map (·.id) = some 2 ∧ (T.globalLookupTag .struct "S").map (·.map (·.id)) = some (some 1) := ⟨_, rfl, by decide +kernel, by decide +kernel⟩

/-- C99: when a scope is closed, every name means what it meant when the scope was opened, constructors, destructors and assignments included. -/
theorem C99_restored (E : Env) (ops body : List Op) (T T' : SymTab) (fs : List Frame) (hr : run E .empty ops = some T) (hf : frames [[]] ops = some fs) (hb : balanced 0 body = true)
    (hr' : run E T (.enter :: body) = some T') :
    ∃ T'', step E T' .leave = some T'' ∧ T''.lookupType = T.lookupType ∧ T''.lookupTag = T.lookupTag ∧ T''.lookupId = T.lookupId ∧ T''.specialLookupId = T.specialLookupId := by
  have hi := run_inv ops inv_empty hf hr
  obtain ⟨T'', e, ht, -, -⟩ := restored hi.good hb hr'
  refine ⟨T'', e, ?_, ?_, ?_, ?_⟩ <;> funext <;> simp only [SymTab.lookupType, SymTab.lookupTag, SymTab.lookupId, SymTab.specialLookupId, ht]

example : balanced 0 [.id (ident "x" "xi" .cforall true 3), .enter, .type ⟨"T", some 1, 4⟩, .leave, .withs 1 [.field (ident "y" "yi" .cforall true 5) .nil]] = true := by decide +kernel

/-- C99: a structure, union, enumeration or trait is rejected exactly when it is defined a second time in one scope. -/
theorem C99_tag_rejected (E : Env) (hs : E.strict = true) (ops : List Op) (T : SymTab) (f : Frame) (fs : List Frame) (hr : run E .empty ops = some T) (hf : frames [[]] ops = some (f :: fs))
    (k : TagKind) (d : AggrD) : step E T (.tag k d) = none ↔ d.body = true ∧ ∃ e ∈ f.tags k d.name, e.body = true := by
  have hi := run_inv ops inv_empty hf hr
  rw [step, apply_none, hi.scope]
  exact tag_rejected hs hi.cur

/-- C99: a type is rejected exactly when it stands for a type in this scope, and the new declaration gives another. -/
theorem C99_type_rejected (E : Env) (hs : E.strict = true) (ops : List Op) (T : SymTab) (f : Frame) (fs : List Frame) (hr : run E .empty ops = some T) (hf : frames [[]] ops = some (f :: fs))
    (d : TypeD) : step E T (.type d) = none ↔ ∃ e a b, typeIn d.name f = some e ∧ e.base = some b ∧ d.base = some a ∧ E.compat b a = false := by
  have hi := run_inv ops inv_empty hf hr
  rw [step, apply_none, hi.scope]
  exact type_rejected hs hi.cur

/-- `struct S; struct S { … };` is accepted, and a second definition is not; `typedef int T; typedef int T;` is accepted, `typedef double T;` is then not. -/
example : (∃ T, run ⟨fun a b => a == b, true⟩ .empty [.tag .struct ⟨"S", false, 1⟩, .tag .struct ⟨"S", true, 2⟩, .type ⟨"T", some 1, 3⟩, .type ⟨"T", some 1, 4⟩] = some T) ∧
    run ⟨fun a b => a == b, true⟩ .empty [.tag .struct ⟨"S", false, 1⟩, .tag .struct ⟨"S", true, 2⟩, .tag .struct ⟨"S", true, 3⟩] = none ∧
    run ⟨fun a b => a == b, true⟩ .empty [.type ⟨"T", some 1, 3⟩, .type ⟨"T", some 2, 4⟩] = none := ⟨⟨_, rfl⟩, rfl, rfl⟩

/-- C99: a declaration of an identifier is rejected exactly when it clashes with one of the declarations its name denotes in the same scope: two C functions with one name, a C and a Cforall version
of one function, two definitions, or a deleted and a usable version. Missing: clashes with a later declaration of the same identifier (`C99_twice_violated`), and a C function declared after its
Cforall version (`C99_order_violated`). -/
theorem C99_clash_partial (E : Env) (hs : E.strict = true) (ops : List Op) (T : SymTab) (f : Frame) (fs : List Frame) (hr : run E .empty ops = some T) (hf : frames [[]] ops = some (f :: fs))
    (hw : noWith f) (d : IdD) (hn : specialKind d.name = none) (hne : d.name ≠ "") : step E T (.id d) = none ↔ ∃ e, denoted f e ∧ clash E.compat e d := by
  have hi := run_inv ops inv_empty hf hr
  rw [step, apply_none, hi.scope]
  exact id_rejected hs hi.cur hw hn hne

/-- `void f( int ) {}` twice; and `extern "C" { void g( int ); void g( double ); }`. -/
example : run ⟨fun _ _ => true, true⟩ .empty [.id (ident "f" "fi" .cforall true 1), .id (ident "f" "fi" .cforall true 2)] = none ∧
    run ⟨fun _ _ => true, true⟩ .empty [.id (ident "g" "gi" .C false 1), .id (ident "g" "gd" .C false 2)] = none ∧
    clash (fun _ _ => true) (ident "f" "fi" .cforall true 1) (ident "f" "fi" .cforall true 2) ∧ clash (fun _ _ => true) (ident "g" "gi" .C false 1) (ident "g" "gd" .C false 2) :=
  ⟨rfl, rfl, ⟨rfl, by decide +kernel⟩, ⟨rfl, by decide +kernel⟩⟩

/-- C99: a `with` clause, which has a scope of its own, is never rejected, whatever names its objects share. Missing: members with C linkage (`C99_with_violated`). -/
theorem C99_with_partial (E : Env) (ops : List Op) (T : SymTab) (fs : List Frame) (hr : run E .empty ops = some T) (hf : frames [[]] ops = some fs) (stmt : Nat) (es : List Mems)
    (hl : ∀ d b, Entry.id d b ∈ entries es → d.linkage.overloadable = true ∧ specialKind d.name = none) : ∃ T', run E T [.enter, .withs stmt es] = some T' := by
  have hi := run_inv ops inv_empty hf hr
  have h1 : Inv (enterScope T) ([] :: fs) := step_inv (E := E) hi (op := .enter) rfl rfl
  have he := withIds_eq 0 es
  obtain ⟨T', e⟩ := with_accepted (E := E) (stmt := stmt) (withIds 0 es) (fun p hp => by
    apply hl p.2 (some p.1)
    have : Entry.id p.2 (some p.1) ∈ (withIds 0 es).map (fun p => Entry.id p.2 (some p.1)) := List.mem_map.2 ⟨p, hp, rfl⟩
    rw [he] at this; exact this) h1 (by intro d b hm; cases hm)
  exact ⟨T', by simp only [run, step, Option.bind_some, e]⟩

/-- `with( a, b )` where both have an `int x`, `a` in an unnamed structure: using `x` is not possible, using `y` is. -/
example : ∃ T, run ⟨fun _ _ => true, true⟩ .empty [.enter, .withs 9 [.anon (.field (ident "x" "xi" .cforall true 1) .nil) .nil,
      .field (ident "x" "xi" .cforall true 2) (.field (ident "y" "yi" .cforall true 3) .nil)]] = some T ∧
    (T.lookupId "x").map (fun e => (e.base, e.deleter)) = [(some (0, [0]), some 9)] ∧ (T.lookupId "y").map (fun e => (e.base, e.deleter)) = [(some (1, []), none)] :=
  ⟨_, rfl, by decide +kernel, by decide +kernel⟩

/-- C99 fails: a function that is declared and then defined twice is accepted; defined twice without the declaration, it is rejected. -/
theorem C99_twice_violated : ∃ (E : Env) (a b c : IdD), E.strict = true ∧ clash E.compat b c ∧ run E .empty [.id b, .id c] = none ∧ ∃ T, run E .empty [.id a, .id b, .id c] = some T :=
  ⟨⟨fun _ _ => true, true⟩, ident "f" "fi" .cforall false 1, ident "f" "fi" .cforall true 2, ident "f" "fi" .cforall true 3, rfl, ⟨rfl, by decide +kernel⟩, rfl, _, rfl⟩

/-- C99 fails: whether a C and a Cforall version of a function may be declared in one scope depends on their order, and after the order that is accepted the name denotes the Cforall version. -/
theorem C99_order_violated : ∃ (E : Env) (a c : IdD), E.strict = true ∧ a.linkage = .cforall ∧ c.linkage = .C ∧ clash E.compat c a ∧ run E .empty [.id c, .id a] = none ∧
    ∃ T, run E .empty [.id a, .id c] = some T ∧ (T.lookupId "f").map (·.id) = [a] :=
  ⟨⟨fun _ _ => true, true⟩, ident "f" "fi" .cforall false 1, ident "f" "fi" .C false 2, rfl, rfl, rfl, ⟨rfl, by decide +kernel⟩, rfl, _, rfl, by decide +kernel⟩

/-- C99 fails: a `with` clause over two objects of C structures that have a member of the same name with different types is rejected, even if the member is not used. -/
theorem C99_with_violated : ∃ (E : Env) (a b : IdD), E.strict = true ∧ a.linkage = .C ∧ b.linkage = .C ∧ run E .empty [.enter, .withs 1 [.field a .nil, .field b .nil]] = none ∧
    ∃ T, run E .empty [.enter, .withs 1 [.field { a with linkage := .cforall } .nil, .field { b with linkage := .cforall } .nil]] = some T :=
  ⟨⟨fun _ _ => true, true⟩, ident "x" "xi" .C true 1, ident "x" "xd" .C true 2, rfl, rfl, rfl, rfl, _, rfl⟩

end Verif.Symbols
