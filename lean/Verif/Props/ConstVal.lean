import Verif.Spec.ConstVal
import Mathlib.Data.List.Basic

/-!
# C116: the values of character constants and enumerators in the compiler
-/

namespace Verif.ConstVal
open Verif.InitLength

/-! ## Character constants -/

/-- C116, characters: a character that is written as itself has the value that C gives it, so a designator
with it gives the element of that index. -/
theorem C116_char_partial (c : Char) (rest : List Char) :
    charValue ('\'' :: c :: rest) = cChar (.plain c) ∧ designated (quoted (.plain c)) = cChar (.plain c) := by
  constructor <;> rfl

example : designated "'a'".toList = 97 ∧ cChar (.plain 'a') = 97 := by decide

/-- C116 fails: every escape sequence is taken to have the value of the backslash, 92, whatever its value
is in C. -/
theorem C116_escape_violated (t : Tok) (ht : ∀ c, t ≠ .plain c) (h : cChar t ≠ 92) :
    designated (quoted t) = 92 ∧ designated (quoted t) ≠ cChar t := by
  have e : designated (quoted t) = 92 := by
    cases t with
    | plain c => exact absurd rfl (ht c)
    | simple c => rfl
    | octal ds => rfl
    | hex ds => rfl
  exact ⟨e, by rw [e]; exact fun h' => h h'.symm⟩

example : designated "'\\n'".toList = 92 ∧ cChar (.simple 'n') = 10 ∧ cChar (.octal ['1', '0']) = 8 ∧
    cChar (.hex ['f', 'F']) = 255 := by decide

/-- C116 fails: arrays whose dimensions are escape sequences are taken to have the same type. -/
theorem C116_dimension_violated :
    sameDimension "'\\n'".toList "'\\t'".toList = true ∧ cChar (.simple 'n') ≠ cChar (.simple 't') := by decide

/-! ## Enumerators -/

theorem lookup_none_of_not_mem (l : Map) (n : Nat) (h : n ∉ l.map (·.1)) : l.lookup n = none := by
  induction l with
  | nil => rfl
  | cons p l ih =>
    obtain ⟨a, b⟩ := p
    simp only [List.map_cons, List.mem_cons, not_or] at h
    rw [List.lookup_cons]
    have : (n == a) = false := by simpa using h.1
    rw [this]
    exact ih h.2

theorem lookup_append (l r : Map) (n : Nat) : (l ++ r).lookup n = (l.lookup n).or (r.lookup n) := by
  induction l with
  | nil => rfl
  | cons p l ih =>
    obtain ⟨a, b⟩ := p
    rw [List.cons_append, List.lookup_cons, List.lookup_cons]
    cases n == a
    · exact ih
    · rfl

theorem lookup_mem (l : Map) (n : Nat) (h : n ∈ l.map (·.1)) : ∃ v, l.lookup n = some v := by
  induction l with
  | nil => cases h
  | cons p l ih =>
    obtain ⟨a, b⟩ := p
    rw [List.lookup_cons]
    cases e : n == a
    · simp only [List.map_cons, List.mem_cons] at h
      exact ih (h.resolve_left (by simpa using e))
    · exact ⟨b, rfl⟩

/-- What is recorded is right, from any point of the loop. -/
theorem loop_sound (full : Map) (again : Except Err Map)
    (ha : ∀ m, again = .ok m → ∀ n v, m.lookup n = some v → full.lookup n = some v) :
    ∀ (ms : List Mem) (env map : Map) (next : Int) (cur : Option Int) (r : Map),
      Proper (env.map (·.1)) ms → full = env ++ cEnums ms env next →
      (∀ n v, map.lookup n = some v → full.lookup n = some v) → (∀ v, cur = some v → v = next) →
      loop again ms map cur = .ok r → ∀ n v, r.lookup n = some v → full.lookup n = some v := by
  intro ms
  induction ms with
  | nil =>
    intro env map next cur r _ _ hm _ h
    simp only [loop, Except.ok.injEq] at h
    rw [← h]; exact hm
  | cons m ms ih =>
    intro env map next cur r hp hf hm hc h
    obtain ⟨hp1, hp2, hp3⟩ := hp
    simp only [cEnums] at hf
    generalize hv : cIni env next m.init = v at hf
    have hfull : full.lookup m.name = some v := by
      rw [hf, lookup_append, lookup_none_of_not_mem _ _ hp1]; simp [List.lookup_cons]
    have hf' : full = (env ++ [(m.name, v)]) ++ cEnums ms (env ++ [(m.name, v)]) (v + 1) := by
      rw [hf]; simp
    -- the map and the value after the initializer
    have key : ∀ map' cur', initStep again map cur m.init = .ok (map', cur') →
        (∀ n v, map'.lookup n = some v → full.lookup n = some v) ∧ ∀ w, cur' = some w → w = v := by
      intro map' cur' e
      cases hi : m.init with
      | none =>
        rw [hi] at e hv
        simp only [initStep, Except.ok.injEq, Prod.mk.injEq] at e
        obtain ⟨rfl, rfl⟩ := e
        exact ⟨hm, fun w hw => by rw [hc w hw, ← hv]; rfl⟩
      | some i =>
        rw [hi] at e hv
        cases i with
        | val a known =>
          simp only [initStep, evalIni, Except.ok.injEq, Prod.mk.injEq] at e
          obtain ⟨rfl, rfl⟩ := e
          refine ⟨hm, fun w hw => ?_⟩
          split at hw
          · simp only [Option.some.injEq] at hw; rw [← hw]; exact hv
          · cases hw
        | ref n k =>
          have hn := hp2 n k hi
          simp only [initStep, evalIni] at e
          have fin : ∀ mm : Map, (∀ n v, mm.lookup n = some v → full.lookup n = some v) →
              map' = mm → cur' = (mm.lookup n).map (· + k) →
              (∀ n v, map'.lookup n = some v → full.lookup n = some v) ∧ ∀ w, cur' = some w → w = v := by
            rintro mm hmm rfl rfl
            refine ⟨hmm, fun w hw => ?_⟩
            cases hl : map'.lookup n with
            | none => rw [hl] at hw; cases hw
            | some x =>
              rw [hl] at hw
              simp only [Option.map_some, Option.some.injEq] at hw
              obtain ⟨y, hy⟩ := lookup_mem env n hn
              have := hmm n x hl
              rw [hf, lookup_append, hy] at this
              simp only [Option.some_or, Option.some.injEq] at this
              rw [← hw, ← hv, cIni, hy, ← this]
              rfl
          split at e
          · cases hg : again with
            | error x => rw [hg] at e; cases e
            | ok mm =>
              rw [hg] at e
              have e' : (mm, (mm.lookup n).map (· + k)) = (map', cur') := Except.ok.inj e
              simp only [Prod.mk.injEq] at e'
              exact fin mm (ha mm hg) e'.1.symm e'.2.symm
          · have e' : (map, (map.lookup n).map (· + k)) = (map', cur') := Except.ok.inj e
            simp only [Prod.mk.injEq] at e'
            exact fin map hm e'.1.symm e'.2.symm
    simp only [loop] at h
    generalize hq : initStep again map cur m.init = q at h key
    cases q with
    | error x => cases h
    | ok p =>
      obtain ⟨map', cur'⟩ := p
      obtain ⟨k1, k2⟩ := key map' cur' rfl
      change (if (map'.lookup m.name).isSome then Except.error Err.duplicate else _) = _ at h
      split at h
      · cases h
      · refine ih (env ++ [(m.name, v)]) _ (v + 1) _ r ?_ hf' ?_ ?_ h
        · simpa using hp3
        · intro n w hw
          cases cur' with
          | none => exact k1 n w hw
          | some x =>
            simp only [lookup_append] at hw
            cases hl : map'.lookup n with
            | some y => rw [hl] at hw; simp at hw; rw [← hw]; exact k1 n y hl
            | none =>
              rw [hl] at hw
              simp only [Option.none_or, List.lookup_cons, List.lookup_nil] at hw
              cases e : n == m.name
              · rw [e] at hw; cases hw
              · rw [e] at hw
                simp only [Option.some.injEq] at hw
                rw [beq_iff_eq] at e
                rw [e, hfull, ← hw, k2 x rfl]
        · intro w hw
          cases cur' with
          | none => cases hw
          | some x =>
            simp only [Option.map_some, Option.some.injEq] at hw
            rw [← hw, k2 x rfl]

theorem fill_sound (ms : List Mem) (hp : Proper [] ms) (f : Nat) : ∀ r, fill f ms = .ok r →
    ∀ n v, r.lookup n = some v → (cEnums ms [] 0).lookup n = some v := by
  induction f with
  | zero => intro r h; cases h
  | succ f ih =>
    intro r h
    exact loop_sound (cEnums ms [] 0) (fill f ms) ih ms [] [] 0 (some 0) r hp rfl (by simp) (by simp) h

/-- C116, enumerators: if the compiler knows a value for an enumerator, it is the value that C gives it. -/
theorem C116_enum_sound (ms : List Mem) (hp : Proper [] ms) (f n : Nat) (v : Int)
    (h : valueOf f ms n = .ok (some v)) : (cEnums ms [] 0).lookup n = some v := by
  unfold valueOf at h
  cases hf : fill f ms with
  | error x => rw [hf] at h; cases h
  | ok r =>
    rw [hf] at h
    exact fill_sound ms hp f r hf n v (Except.ok.inj h)

/-- The values of all enumerators, from any point of the loop. -/
theorem loop_all (again : Except Err Map) : ∀ (ms : List Mem) (env : Map) (next : Int),
    Proper (env.map (·.1)) ms → (∀ m ∈ ms, ∀ a, m.init ≠ some (.val a false)) →
    loop again ms env (some next) = .ok (env ++ cEnums ms env next) := by
  intro ms
  induction ms with
  | nil => intro env next _ _; simp [loop, cEnums]
  | cons m ms ih =>
    intro env next hp hk
    obtain ⟨hp1, hp2, hp3⟩ := hp
    have hn := lookup_none_of_not_mem _ _ hp1
    have go : ∀ v, loop again ms (env ++ [(m.name, v)]) (some (v + 1)) =
        .ok (env ++ (m.name, v) :: cEnums ms (env ++ [(m.name, v)]) (v + 1)) := fun v => by
      rw [ih (env ++ [(m.name, v)]) (v + 1) (by simpa using hp3) (fun x hx => hk x (by simp [hx]))]
      simp
    simp only [loop, cEnums]
    cases hi : m.init with
    | none =>
      change (if (env.lookup m.name).isSome then Except.error Err.duplicate else _) = _
      rw [hn]
      exact go next
    | some i =>
      cases i with
      | val a known =>
        cases known with
        | false => exact absurd hi (hk m (by simp) a)
        | true =>
          change (if (env.lookup m.name).isSome then Except.error Err.duplicate else _) = _
          rw [hn]
          exact go a
      | ref n k =>
        have hm := hp2 n k hi
        obtain ⟨y, hy⟩ := lookup_mem env n hm
        have he : env.isEmpty = false := by
          cases env with
          | nil => cases hm
          | cons => rfl
        have hc : cIni env next (some (.ref n k)) = y + k := by simp [cIni, hy]
        simp only [initStep, evalIni, he, hc]
        change (if (env.lookup m.name).isSome then Except.error Err.duplicate else _) = _
        rw [hn]
        simp only [hy]
        exact go (y + k)

/-- C116, known enumerators: if the values of all initializers are known, the compiler knows the value of
every enumerator. -/
theorem C116_enum_known (ms : List Mem) (hp : Proper [] ms) (hk : ∀ m ∈ ms, ∀ a, m.init ≠ some (.val a false))
    (f n : Nat) : valueOf (f + 1) ms n = .ok ((cEnums ms [] 0).lookup n) := by
  unfold valueOf fill
  rw [loop_all _ ms [] 0 hp hk]
  rfl

/-- `enum { A = 3, B, C = A + 4, D }`. -/
def demo : List Mem := [⟨0, some (.val 3 true)⟩, ⟨1, none⟩, ⟨2, some (.ref 0 4)⟩, ⟨3, none⟩]

example : Proper [] demo ∧ (∀ m ∈ demo, ∀ a, m.init ≠ some (.val a false)) ∧
    valueOf 1 demo 3 = .ok (some 8) := by
  refine ⟨?_, ?_, rfl⟩
  · simp [Proper, demo]
  · simp [demo]

/-- From a map that is not empty the loop ends without another call. -/
theorem loop_ends (again : Except Err Map) : ∀ (ms : List Mem) (names : List Nat) (map : Map) (cur : Option Int),
    Proper names ms → map ≠ [] → (∀ n ∈ map.map (·.1), n ∈ names) →
    ∃ r, loop again ms map cur = .ok r := by
  intro ms
  induction ms with
  | nil => intro names map cur _ _ _; exact ⟨map, rfl⟩
  | cons m ms ih =>
    intro names map cur hp hne hs
    obtain ⟨hp1, hp2, hp3⟩ := hp
    have hn := lookup_none_of_not_mem map m.name (fun h => hp1 (hs _ h))
    have go : ∀ cur' : Option Int, ∃ r, loop again ms (match cur' with
        | some v => map ++ [(m.name, v)]
        | none => map) (cur'.map (· + 1)) = .ok r := by
      intro cur'
      refine ih (names ++ [m.name]) _ _ hp3 ?_ ?_
      · cases cur' <;> simp [hne]
      · intro n hn
        cases cur' with
        | none => exact List.mem_append_left _ (hs n hn)
        | some v =>
          simp only [List.map_append, List.mem_append, List.map_cons, List.map_nil] at hn ⊢
          exact hn.imp (hs n) id
    simp only [loop]
    cases hi : m.init with
    | none =>
      obtain ⟨r, hr⟩ := go cur
      refine ⟨r, ?_⟩
      change (if (map.lookup m.name).isSome then Except.error Err.duplicate else _) = _
      rw [hn]; exact hr
    | some i =>
      cases i with
      | val a known =>
        obtain ⟨r, hr⟩ := go (if known then some a else none)
        refine ⟨r, ?_⟩
        change (if (map.lookup m.name).isSome then Except.error Err.duplicate else _) = _
        rw [hn]; exact hr
      | ref n k =>
        obtain ⟨r, hr⟩ := go ((map.lookup n).map (· + k))
        refine ⟨r, ?_⟩
        have he : map.isEmpty = false := by
          cases map with
          | nil => exact absurd rfl hne
          | cons => rfl
        simp only [initStep, evalIni, he]
        change (if (map.lookup m.name).isSome then Except.error Err.duplicate else _) = _
        rw [hn]; exact hr

/-- C116, an end: if the value of the first enumerator is known, the compiler gets an answer for every
enumerator, whatever the other initializers are. -/
theorem C116_enum_ends_partial (m : Mem) (ms : List Mem) (hp : Proper [] (m :: ms))
    (hm : ∀ a, m.init ≠ some (.val a false)) (f n : Nat) : ∃ o, valueOf (f + 1) (m :: ms) n = .ok o := by
  obtain ⟨_, hp2, hp3⟩ := hp
  have : ∃ r, fill (f + 1) (m :: ms) = .ok r := by
    have go := fun (v : Int) => loop_ends (fill f (m :: ms)) ms [m.name] [(m.name, v)] (some (v + 1)) hp3
      (by simp) (by simp)
    unfold fill
    simp only [loop]
    cases hi : m.init with
    | none => exact go 0
    | some i =>
      cases i with
      | val a known =>
        cases known with
        | false => exact absurd hi (hm a)
        | true => exact go a
      | ref n k => exact absurd (hp2 n k hi) (by simp)
  obtain ⟨r, hr⟩ := this
  exact ⟨r.lookup n, by unfold valueOf; rw [hr]; rfl⟩

/-- C116 fails: if the value of the first enumerator is not known (as with `sizeof`) and the second is
written with an enumerator, the compiler calls itself without end, at every depth. -/
theorem C116_enum_recursion_violated (a b n : Nat) (x k : Int) (ms : List Mem) (f q : Nat) :
    valueOf f (⟨a, some (.val x false)⟩ :: ⟨b, some (.ref n k)⟩ :: ms) q = .error .deep := by
  have : fill f (⟨a, some (.val x false)⟩ :: ⟨b, some (.ref n k)⟩ :: ms) = .error .deep := by
    induction f with
    | zero => rfl
    | succ f ih =>
      unfold fill
      rw [ih]
      rfl
  unfold valueOf
  rw [this]
  rfl

example : Proper [] [⟨0, some (.val 4 false)⟩, ⟨1, some (.ref 0 1)⟩] := by simp [Proper]

end Verif.ConstVal
