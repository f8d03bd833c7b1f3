import Verif.Proof.Special
/-!
C100: which constructors, destructors and assignments can be used; where it is otherwise.

A program is a list of operations on the symbol table, as in C99. The functions of a kind (constructors, destructors, assignments) are looked up by the type they act on.
-/
namespace Verif.Symbols

/-- C100: after declarations in any number and any order, in a scope where no function of the kind was known for the type, exactly these can be used: the functions the user has written, but for those
written to be deleted; the generated copy function unless the user has written a copy function for the type; the other generated functions unless the user has written any function of the kind for the
type; and the built-in functions unless the user has written the same one. Missing: types with built-in functions for which the user writes a copy function (see `C100_builtin_violated`), and
declarations in an outer scope (see `C100_shadow_violated`). -/
theorem C100_usable_partial (E : Env) (hE : E.strict = true) (s : SKind) (key : String) (T T' : SymTab) (ops : List Op) (h0 : T.specialLookupId s key = []) (hf : flat ops)
    (hr : run E T ops = some T') (hw : WellMade (declaredFor s key ops)) (hb : NoCopyOfBuiltin (declaredFor s key ops)) (x : String) :
    T'.usable s key x ↔ Usable (declaredFor s key ops) x :=
  (run_SInv hE h0 ops hf T' hr hw hb).2.usable hw x

/-- C100: look-up finds only functions that are declared, one for each type, and the user's where the user has written one. Missing as in `C100_usable_partial`. -/
theorem C100_found_partial (E : Env) (hE : E.strict = true) (s : SKind) (key : String) (T T' : SymTab) (ops : List Op) (h0 : T.specialLookupId s key = []) (hf : flat ops)
    (hr : run E T ops = some T') (hw : WellMade (declaredFor s key ops)) (hb : NoCopyOfBuiltin (declaredFor s key ops)) :
    ((T'.specialLookupId s key).map (·.id.mangled)).Nodup ∧
    ∀ e ∈ T'.specialLookupId s key, e.id ∈ declaredFor s key ops ∧ ((∃ u ∈ declaredFor s key ops, u.user ∧ u.mangled = e.id.mangled) → e.id.user) := by
  have h := (run_SInv hE h0 ops hf T' hr hw hb).2
  have hg : T'.specialLookupId s key = (T'.group s key).map (·.2) := rfl
  rw [hg]
  constructor
  · rw [List.map_map]
    have hk := h.keys
    unfold Keys at hk
    rw [List.map_congr_left (g := Prod.fst)]
    · exact hk
    · intro q hq
      exact (h.mem q hq).2.1.symm
  · intro e he
    obtain ⟨q, hq, rfl⟩ := List.mem_map.1 he
    obtain ⟨a, b, _⟩ := h.mem q hq
    refine ⟨a, ?_⟩
    rintro ⟨u, hu1, hu2, hu3⟩
    obtain ⟨q', hq', c, f, _⟩ := h.user _ hu1 hu2
    have : q' = q := h.keys.uniq hq' hq (by rw [c, b, hu3])
    subst this
    exact f

/-- C100: the order of the declarations does not matter. Missing as in `C100_usable_partial`; and the other order may be rejected (see `C100_definition_violated`). -/
theorem C100_order_partial (E : Env) (hE : E.strict = true) (s : SKind) (key : String) (T T1 T2 : SymTab) (ops1 ops2 : List Op) (h0 : T.specialLookupId s key = []) (hf1 : flat ops1) (hf2 : flat ops2)
    (hr1 : run E T ops1 = some T1) (hr2 : run E T ops2 = some T2) (hp : (declaredFor s key ops1).Perm (declaredFor s key ops2))
    (hw : WellMade (declaredFor s key ops1)) (hb : NoCopyOfBuiltin (declaredFor s key ops1)) (x : String) :
    T1.usable s key x ↔ T2.usable s key x := by
  have hm : ∀ d, d ∈ declaredFor s key ops2 ↔ d ∈ declaredFor s key ops1 := fun d => hp.symm.mem_iff
  have hw2 : WellMade (declaredFor s key ops2) :=
    ⟨fun d hd => hw.func d ((hm d).1 hd), fun d hd e he => hw.same d ((hm d).1 hd) e ((hm e).1 he), fun d hd => hw.given d ((hm d).1 hd)⟩
  have hb2 : NoCopyOfBuiltin (declaredFor s key ops2) := fun d hd h1 h2 u hu => hb d ((hm d).1 hd) h1 h2 u ((hm u).1 hu)
  have hW : ∀ d, Withdrawn (declaredFor s key ops2) d ↔ Withdrawn (declaredFor s key ops1) d := by
    intro d; unfold Withdrawn; simp only [hm]
  have hU : Usable (declaredFor s key ops2) x ↔ Usable (declaredFor s key ops1) x := by
    unfold Usable; simp only [hm, hW]
  rw [C100_usable_partial E hE s key T T1 ops1 h0 hf1 hr1 hw hb, C100_usable_partial E hE s key T T2 ops2 h0 hf2 hr2 hw2 hb2, hU]

/-! ### Examples -/

namespace SpecialEx

def E : Env := ⟨fun a b => a == b, true⟩

/-- A constructor of `S`; the mangled name says what it is for. -/
def ctor (mangled : String) (l : Linkage) (copy : Bool) (id : Nat) : IdD := ⟨"?{}", mangled, true, l, true, false, 0, "S", "S", copy, id⟩

def genDefault := ctor "()" .autoGen false 1
def genCopy := ctor "(S)" .autoGen true 2
def genField := ctor "(int)" .autoGen false 3
def userField := ctor "(int)" .cforall false 4
def userRefCopy := ctor "(const S &)" .cforall true 5
def builtinDefault := ctor "()" .intrinsicL false 6
def builtinCopy := ctor "(S)" .intrinsicL true 7

def S : Op := .tag .struct ⟨"S", true, 10⟩

/-- The user writes a constructor from an integer: it replaces the generated one, the generated default constructor cannot be used, the generated copy constructor can. -/
def ops : List Op := [S, .id genDefault, .id genCopy, .id genField, .id userField]

end SpecialEx

open SpecialEx in
example : ∃ T', run E .empty ops = some T' ∧ SymTab.empty.specialLookupId .ctor "S" = [] ∧ flat ops ∧ WellMade (declaredFor .ctor "S" ops) ∧ NoCopyOfBuiltin (declaredFor .ctor "S" ops) ∧
    (T'.specialLookupId .ctor "S").map (fun e => (e.id.mangled, e.id.id, e.deleter.isSome)) = [("(int)", 4, false), ("(S)", 2, false), ("()", 1, true)] := by
  refine ⟨_, rfl, rfl, ?_, ⟨?_, ?_, ?_⟩, ?_, rfl⟩
  · intro op hop
    simp only [ops, List.mem_cons, List.not_mem_nil, or_false] at hop
    rcases hop with h | h | h | h | h <;> subst h <;> trivial
  · decide
  · unfold IdD.given; decide
  · unfold IdD.given; decide
  · unfold NoCopyOfBuiltin IdD.given IdD.user; decide

open SpecialEx in
/-- C100: with a copy constructor of the user's, the generated one is gone, whichever is first. -/
example : ∃ T1 T2, run E .empty [S, .id genDefault, .id genCopy, .id userRefCopy] = some T1 ∧ run E .empty [S, .id genDefault, .id userRefCopy, .id genCopy] = some T2 ∧
    (T1.specialLookupId .ctor "S").map (fun e => (e.id.mangled, e.deleter.isSome)) = [("(const S &)", false), ("()", true)] ∧
    (T2.specialLookupId .ctor "S").map (fun e => (e.id.mangled, e.deleter.isSome)) = [("(const S &)", false), ("()", true)] :=
  ⟨_, _, rfl, rfl, rfl, rfl⟩

/-! ### Where it is otherwise -/

open SpecialEx in
/-- C100 fails: a built-in default constructor "must be overridden exactly" (it is not withdrawn, in the terms of the specification), but a copy constructor the user writes for the type, such as an
enumeration, makes it unusable. -/
theorem C100_builtin_violated : ∃ (T' : SymTab) (ops : List Op), run E .empty ops = some T' ∧ flat ops ∧ WellMade (declaredFor .ctor "S" ops) ∧
    Usable (declaredFor .ctor "S" ops) "()" ∧ ¬ T'.usable .ctor "S" "()" := by
  refine ⟨_, [S, .id builtinDefault, .id builtinCopy, .id userRefCopy], rfl, ?_, ⟨?_, ?_, ?_⟩, ?_, ?_⟩
  · intro op hop
    simp only [List.mem_cons, List.not_mem_nil, or_false] at hop
    rcases hop with h | h | h | h <;> subst h <;> trivial
  · decide
  · unfold IdD.given; decide
  · unfold IdD.given; decide
  · unfold Usable Withdrawn IdD.given IdD.user; decide
  · unfold SymTab.usable; decide

open SpecialEx in
/-- C100 fails: for a type with built-in functions the order matters. With the same constructors of the user's, the built-in default constructor can be used when the one that is not a copy constructor
is written first, and cannot when the copy constructor is. -/
theorem C100_order_violated : ∃ (T1 T2 : SymTab) (ops1 ops2 : List Op), run E .empty ops1 = some T1 ∧ run E .empty ops2 = some T2 ∧ (declaredFor .ctor "S" ops1).Perm (declaredFor .ctor "S" ops2) ∧
    T1.usable .ctor "S" "()" ∧ ¬ T2.usable .ctor "S" "()" := by
  refine ⟨_, _, [S, .id builtinDefault, .id userField, .id userRefCopy], [S, .id builtinDefault, .id userRefCopy, .id userField], rfl, rfl, ?_, ?_, ?_⟩
  · decide
  · unfold SymTab.usable; decide
  · unfold SymTab.usable; decide

open SpecialEx in
/-- C100 fails: a structure in a block with the name of one outside of it is another type, but when the user has written a default constructor for the outer one, the one generated for the inner one
cannot be used: an object of the inner structure cannot be declared. -/
theorem C100_shadow_violated : ∃ (T1 T2 : SymTab) (outer inner : List Op), run E .empty outer = some T1 ∧ run E T1 (.enter :: inner) = some T2 ∧
    (T2.lookupTag .struct "S").map (·.id) = some 20 ∧ (T1.lookupTag .struct "S").map (·.id) = some 10 ∧
    declaredFor .ctor "S" inner = [{ genDefault with id := 21 }] ∧ Usable (declaredFor .ctor "S" inner) "()" ∧ ¬ T2.usable .ctor "S" "()" := by
  refine ⟨_, _, [S, .id genDefault, .id { userField with mangled := "()" }], [.tag .struct ⟨"S", true, 20⟩, .id { genDefault with id := 21 }], rfl, rfl, rfl, rfl, rfl, ?_, ?_⟩
  · unfold Usable Withdrawn IdD.given IdD.user; decide
  · unfold SymTab.usable; decide

open SpecialEx in
/-- C100 fails: a constructor the user defines between the declaration of a structure and its definition is rejected as a second definition, because the generated one comes after it. The same
definition after that of the structure is accepted. -/
theorem C100_definition_violated : ∃ d : IdD, d.user ∧
    run E .empty [.tag .struct ⟨"S", false, 10⟩, .id d, .tag .struct ⟨"S", true, 11⟩, .id genDefault] = none ∧
    (run E .empty [.tag .struct ⟨"S", false, 10⟩, .tag .struct ⟨"S", true, 11⟩, .id genDefault, .id d]).isSome = true :=
  ⟨{ userField with mangled := "()" }, rfl, rfl, rfl⟩

end Verif.Symbols
