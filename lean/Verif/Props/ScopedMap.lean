import Mathlib.Data.Nat.Basic
import Verif.Proof.ScopedMap
/-!
C63: scoped maps. The specification is a stack of finite functions, innermost first; the level of a scope is the number of scopes outside it.
-/
namespace Verif.ScopedMap
open Verif

variable {K V : Type} [LinearOrder K]

/-! ### Specification -/

/-- A stack of scopes, innermost first. -/
abbrev Stack (K V : Type) := List (K → Option V)

/-- The innermost binding of a key: its level and value. -/
def specFind : Stack K V → K → Option (Nat × V)
  | [], _ => none
  | f :: S, k => match f k with
    | some v => some (S.length, v)
    | none => specFind S k

/-- Change the scope at a level. -/
def specAt (S : Stack K V) (level : Nat) (g : (K → Option V) → K → Option V) : Stack K V := S.modify (S.length - 1 - level) g

def bind' (k : K) (v : V) (f : K → Option V) : K → Option V := fun x => if x = k then some v else f x
def unbind (k : K) (f : K → Option V) : K → Option V := fun x => if x = k then none else f x

inductive Op (K V : Type) where
  | beginScope | endScope
  | insert (k : K) (v : V)
  | insertAt (level : Nat) (k : K) (v : V)
  | assign (k : K) (v : V)
  | erase (k : K)
  | find (k : K)
  | findAt (level : Nat) (k : K)
  | count (k : K)
  | contains (k : K)

inductive Res (V : Type) where
  | unit
  | bool (b : Bool)
  | nat (n : Nat)
  | found (x : Option (Nat × V))
  deriving DecidableEq, Repr

/-- One operation on the stack. `none`: not allowed. -/
def specStep (S : Stack K V) : Op K V → Option (Res V × Stack K V)
  | .beginScope => some (.unit, (fun _ => none) :: S)
  | .endScope => if 2 ≤ S.length then some (.unit, S.tail) else none
  | .insert k v => S.head?.map fun f => if (f k).isSome then (.bool false, S) else (.bool true, bind' k v f :: S.tail)
  | .insertAt l k v => if l < S.length then S[S.length - 1 - l]?.map fun f => if (f k).isSome then (.bool false, S) else (.bool true, specAt S l (bind' k v)) else none
  | .assign k v => match specFind S k with
    | some (l, _) => some (.unit, specAt S l (bind' k v))
    | none => some (.unit, specAt S (S.length - 1) (bind' k v))
  | .erase k => match specFind S k with
    | some (l, _) => some (.nat 1, specAt S l (unbind k))
    | none => some (.nat 0, S)
  | .find k => some (.found (specFind S k), S)
  | .findAt l k => if l < S.length then S[S.length - 1 - l]?.map fun f => (.found ((f k).map fun v => (l, v)), S) else none
  | .count k => some (.nat (S.countP fun f => (f k).isSome), S)
  | .contains k => some (.bool (specFind S k).isSome, S)

def specRun (S : Stack K V) : List (Op K V) → Option (List (Res V))
  | [] => some []
  | o :: os => (specStep S o).bind fun (r, S) => (specRun S os).map fun rs => r :: rs

/-! ### The operations of the program, as a client sees them -/

/-- What a client learns from an iterator: nothing if it is `end()`, or the level and the value. -/
def see (s : Scopes K V) (it : It) : Option (Nat × V) := if it = end' s then none else (deref s it).map fun e => (it.level, e.2)

def step (d : V) (fuel : Nat) (s : Scopes K V) : Op K V → Outcome (Res V × Scopes K V)
  | .beginScope => .ret (.unit, beginScope s)
  | .endScope => do let s ← endScope s; .ret (.unit, s)
  | .insert k v => let r := insert s k v; .ret (.bool r.1, r.2)
  | .insertAt l k v => do let r ← insertAt s l k v; .ret (.bool r.1, r.2)
  | .assign k v => .ret (.unit, assign s k d v)
  | .erase k => let r := erase s k; .ret (.nat r.1, r.2)
  | .find k => .ret (.found (see s (find s k)), s)
  | .findAt l k => do let it ← findAt s l k; .ret (.found (see s it), s)
  | .count k => do let n ← count fuel s k; .ret (.nat n, s)
  | .contains k => .ret (.bool (contains s k), s)

def run (d : V) (fuel : Nat) (s : Scopes K V) : List (Op K V) → Outcome (List (Res V))
  | [] => .ret []
  | o :: os => do
    let (r, s) ← step d fuel s o
    let rs ← run d fuel s os
    .ret (r :: rs)

/-! ### Proof -/

/-- The stack a list of scopes stands for. -/
def abs (s : Scopes K V) : Stack K V := (s.map mget).reverse

theorem abs_len (s : Scopes K V) : (abs s).length = s.length := by simp [abs]

theorem at_get {s : Scopes K V} {i : Nat} (h : i < s.length) : at' s i = s[i] := by simp [at', List.getD_eq_getElem?_getD, h]

theorem abs_get {s : Scopes K V} {i : Nat} (h : i < s.length) : (abs s)[s.length - 1 - i]? = some (mget (at' s i)) := by
  have : s.length - 1 - i < s.length := by omega
  rw [at_get h, abs, List.getElem?_eq_getElem (by simpa using this)]
  simp only [List.getElem_reverse, List.getElem_map, List.length_map, Option.some.injEq]
  congr 2; omega

theorem abs_set {s : Scopes K V} {i : Nat} (h : i < s.length) {m : Map K V} {g : (K → Option V) → K → Option V} (hm : mget m = g (mget (at' s i))) :
    abs (s.set i m) = specAt (abs s) i g := by
  unfold specAt
  apply List.ext_getElem?
  intro j
  rw [List.getElem?_modify, abs_len]
  by_cases hj : j < s.length
  · obtain ⟨x, hx, rfl⟩ : ∃ x, x < s.length ∧ j = s.length - 1 - x := ⟨s.length - 1 - j, by omega, by omega⟩
    have h1 := abs_get (s := s.set i m) (i := x) (by simpa using hx)
    rw [List.length_set] at h1
    rw [h1, abs_get hx]
    by_cases e : x = i
    · subst e; simp [at_get, hx, hm]
    · have e' : ¬ s.length - 1 - i = s.length - 1 - x := by omega
      simp [at_get, hx, Ne.symm e, e']
  · rw [List.getElem?_eq_none (by simp [abs_len]; omega), List.getElem?_eq_none (by simp [abs_len]; omega)]; simp

theorem abs_take {s : Scopes K V} {i : Nat} (h : i + 1 < s.length) : abs (s.take (i + 1 + 1)) = mget (at' s (i + 1)) :: abs (s.take (i + 1)) := by
  rw [abs, List.take_succ_eq_append_getElem h, List.map_append, List.reverse_append]; simp [abs, at_get h]

theorem abs_take_one {s : Scopes K V} (h : 0 < s.length) : abs (s.take 1) = [mget (at' s 0)] := by
  cases s with
  | nil => simp at h
  | cons m s => simp [abs, at']

theorem take_all {s : Scopes K V} (h : s ≠ []) : s.take (s.length - 1 + 1) = s := by
  have : 0 < s.length := List.length_pos_iff.2 h
  rw [List.take_of_length_le (by omega)]

/-- What the loop of `find` returns. -/
inductive Finds (s : Scopes K V) (k : K) (i : Nat) : Option (Nat × V) → It → Prop
  | none : Finds s k i none (end' s)
  | some {l v} : l ≤ i → mget (at' s l) k = some v → Finds s k i (some (l, v)) ⟨l, mfind (at' s l) k⟩

theorem findFrom_spec {s : Scopes K V} (k : K) : ∀ {i}, i < s.length → Finds s k i (specFind (abs (s.take (i + 1))) k) (findFrom s k i)
  | 0, hi => by
    rw [abs_take_one hi, findFrom]
    simp only [specFind, List.length_nil]
    cases hg : mget (at' s 0) k with
    | none => rw [if_neg (by simp [mfind_len, hg])]; exact .none
    | some v => rw [if_pos (by simp [mfind_len, hg])]; exact .some (Nat.le_refl _) hg
  | i + 1, hi => by
    have ih := findFrom_spec k (i := i) (s := s) (by omega)
    rw [abs_take hi, findFrom]
    simp only [specFind]
    cases hg : mget (at' s (i + 1)) k with
    | none =>
      rw [if_neg (by simp [mfind_len, hg])]
      generalize specFind (abs (s.take (i + 1))) k = o at *
      generalize findFrom s k i = it at *
      cases ih with
      | none => exact .none
      | some h1 h2 => exact .some (by omega) h2
    | some v =>
      rw [if_pos (by simp [mfind_len, hg])]
      simp only [abs_len, List.length_take]
      rw [Nat.min_eq_left (by omega)]
      exact .some (Nat.le_refl _) hg

theorem find_spec {s : Scopes K V} (h : Ok s) (k : K) : Finds s k (s.length - 1) (specFind (abs s) k) (find s k) := by
  have := findFrom_spec (s := s) k (i := s.length - 1) (by have := List.length_pos_iff.2 h.ne; omega)
  rwa [take_all h.ne] at this

theorem it_ne_end {s : Scopes K V} {l : Nat} {k : K} {v : V} (h : mget (at' s l) k = some v) : (⟨l, mfind (at' s l) k⟩ : It) ≠ end' s := by
  intro e
  simp only [end', It.mk.injEq] at e
  obtain ⟨rfl, e⟩ := e
  rw [mfind_len] at e; rw [e] at h; cases h

theorem see_it {s : Scopes K V} {l : Nat} {k : K} {v : V} (h : mget (at' s l) k = some v) : see s ⟨l, mfind (at' s l) k⟩ = some (l, v) := by
  rw [see, if_neg (it_ne_end h), deref, mfind_get h]; rfl

theorem eraseFrom_spec {s : Scopes K V} (k : K) : ∀ {i}, i < s.length →
    eraseFrom s k i = match specFind (abs (s.take (i + 1))) k with
      | none => (0, s)
      | some (l, _) => (1, s.set l (merase (at' s l) k).1)
  | 0, hi => by
    rw [abs_take_one hi, eraseFrom]
    simp only [specFind, List.length_nil, merase_count]
    cases hg : mget (at' s 0) k <;> simp
  | i + 1, hi => by
    have ih := eraseFrom_spec k (i := i) (s := s) (by omega)
    rw [abs_take hi, eraseFrom]
    simp only [specFind, merase_count]
    cases hg : mget (at' s (i + 1)) k with
    | none => simpa using ih
    | some v =>
      simp only [abs_len, List.length_take]
      rw [Nat.min_eq_left (by omega)]
      simp

theorem countLoop_spec {s : Scopes K V} (k : K) : ∀ {i}, i < s.length → ∀ fuel c, i + 1 < fuel →
    countLoop s k fuel (findFrom s k i) c = .ret (c + (abs (s.take (i + 1))).countP fun f => (f k).isSome)
  | 0, hi, fuel, c, hf => by
    obtain ⟨fuel, rfl⟩ : ∃ f, fuel = f + 2 := ⟨fuel - 2, by omega⟩
    rw [abs_take_one hi, findFrom]
    cases hg : mget (at' s 0) k with
    | none => rw [if_neg (by simp [mfind_len, hg])]; simp [countLoop, hg]
    | some v =>
      rw [if_pos (by simp [mfind_len, hg])]
      simp [countLoop, it_ne_end hg, findNext, hg]
  | i + 1, hi, fuel, c, hf => by
    obtain ⟨fuel, rfl⟩ : ∃ f, fuel = f + 1 := ⟨fuel - 1, by omega⟩
    rw [abs_take hi, findFrom]
    cases hg : mget (at' s (i + 1)) k with
    | none =>
      rw [if_neg (by simp [mfind_len, hg]), countLoop_spec k (by omega) (fuel + 1) c (by omega)]
      simp [hg]
    | some v =>
      rw [if_pos (by simp [mfind_len, hg])]
      simp only [countLoop, it_ne_end hg, if_false, findNext, Nat.add_one_ne_zero, Nat.add_sub_cancel]
      rw [countLoop_spec k (by omega) fuel (c + 1) (by omega)]
      simp [hg]; omega

theorem abs_head {s : Scopes K V} (h : s ≠ []) : (abs s).head? = some (mget (at' s (s.length - 1))) := by
  have := abs_get (s := s) (i := s.length - 1) (by have := List.length_pos_iff.2 h; omega)
  simpa [List.head?_eq_getElem?] using this

theorem specAt_last {S : Stack K V} {f : K → Option V} {g} (h : S.head? = some f) : specAt S (S.length - 1) g = g f :: S.tail := by
  cases S with
  | nil => cases h
  | cons a S => cases h; simp [specAt]

/-- One operation. -/
theorem step_ok {s : Scopes K V} {d : V} {S' : Stack K V} {o : Op K V} {r : Res V} (hok : Ok s) (h : specStep (abs s) o = some (r, S')) :
    ∃ s', Ok s' ∧ abs s' = S' ∧ s'.length ≤ s.length + 1 ∧ ∀ fuel, s.length < fuel → step d fuel s o = .ret (r, s') := by
  have hpos : 0 < s.length := List.length_pos_iff.2 hok.ne
  cases o with
  | beginScope =>
    simp only [specStep, Option.some.injEq, Prod.mk.injEq] at h
    obtain ⟨rfl, rfl⟩ := h
    refine ⟨beginScope s, ⟨fun m hm => ?_, by simp [beginScope]⟩, ?_, by simp [beginScope], fun fuel hf => rfl⟩
    · rcases List.mem_append.1 hm with hm | hm
      · exact hok.sorted m hm
      · simp at hm; subst hm; exact List.Pairwise.nil
    · simp [abs, beginScope]; rfl
  | endScope =>
    simp only [specStep, abs_len] at h
    split at h
    · next h2 =>
      simp only [Option.some.injEq, Prod.mk.injEq] at h
      obtain ⟨rfl, rfl⟩ := h
      have hne : s.dropLast ≠ [] := by intro e; have := congrArg List.length e; simp at this; omega
      refine ⟨s.dropLast, ⟨fun m hm => hok.sorted m (List.dropLast_subset _ hm), hne⟩, ?_, by simp; omega, fun fuel hf => ?_⟩
      · simp [abs]
      · simp [step, endScope, hne]
    · cases h
  | insert k v =>
    simp only [specStep, abs_head hok.ne, Option.map_some, Option.some.injEq] at h
    have hs := hok.at (s.length - 1)
    refine ⟨(insert s k v).2, hok.set (minsert_sorted hs), ?_, by simp [insert], fun fuel hf => ?_⟩
    · split at h
      · next h1 =>
        cases h
        rw [insert, abs_set (g := id) (by omega) (by
          funext x; rw [minsert_get hs]
          rw [if_neg (by rintro ⟨-, e⟩; rw [e] at h1; cases h1)]; rfl)]
        simp [specAt]
      · next h1 =>
        cases h
        have h1' : mget (at' s (s.length - 1)) k = none := by simpa using h1
        rw [insert, abs_set (g := bind' k v) (by omega) (by funext x; rw [minsert_get hs]; simp [h1', bind'])]
        have := specAt_last (g := bind' k v) (abs_head hok.ne)
        rwa [abs_len] at this
    · simp only [step, insert, minsert_flag hs]
      split at h
      · next h1 => cases h; simp [h1]
      · next h1 => cases h; simp at h1; simp [h1]
  | insertAt l k v =>
    simp only [specStep, abs_len] at h
    split at h
    · next hl =>
      have hs := hok.at l
      simp only [abs_get hl, Option.map_some, Option.some.injEq] at h
      refine ⟨s.set l (minsert (at' s l) k v).1, hok.set (minsert_sorted hs), ?_, by simp, fun fuel hf => ?_⟩
      · split at h
        · next h1 =>
          cases h
          rw [abs_set (g := id) hl (by
            funext x; rw [minsert_get hs]
            rw [if_neg (by rintro ⟨-, e⟩; rw [e] at h1; cases h1)]; rfl)]
          simp [specAt]
        · next h1 =>
          cases h
          have h1' : mget (at' s l) k = none := by simpa using h1
          rw [abs_set (g := bind' k v) hl (by funext x; rw [minsert_get hs]; simp [h1', bind'])]
      · simp only [step, insertAt, Nat.not_le.2 hl, if_false, Outcome.bind_ret, minsert_flag hs]
        split at h
        · next h1 => cases h; simp [h1]
        · next h1 => cases h; simp at h1; simp [h1]
    · cases h
  | assign k v =>
    have hf := find_spec hok k
    simp only [specStep] at h
    generalize hsf : specFind (abs s) k = o at *
    generalize hfi : find s k = it at *
    cases hf with
    | none =>
      simp only [Option.some.injEq, Prod.mk.injEq, abs_len] at h
      obtain ⟨rfl, rfl⟩ := h
      have hs := hok.at (s.length - 1)
      have hno : mget (at' s (s.length - 1)) k = none := by
        have h1 := abs_head hok.ne
        cases ha : abs s with
        | nil => simp [ha] at h1
        | cons f S =>
          rw [ha] at h1 hsf
          simp only [List.head?_cons, Option.some.injEq] at h1
          subst h1
          simp only [specFind] at hsf
          split at hsf
          · cases hsf
          · next e => exact e
      have e1 : assign s k d v = s.set (s.length - 1) (mset (minsert (at' s (s.length - 1)) k d).1 (mfind (minsert (at' s (s.length - 1)) k d).1 k) v) := by
        simp only [assign, hfi, ne_eq, not_true, if_false, insert, List.length_set]
        rw [at_get (s := s.set _ _) (by rw [List.length_set]; omega)]; simp
      refine ⟨assign s k d v, ?_, ?_, by simp [e1], fun fuel hf => rfl⟩
      · rw [e1]; exact hok.set (mset_sorted (minsert_sorted hs))
      · rw [e1, abs_set (g := bind' k v) (by omega)]
        funext x
        rw [mset_get (by rw [minsert_get hs]; simp [hno]), minsert_get hs, bind']
        by_cases hx : x = k <;> simp [hx]
    | some hl hg =>
      next l v0 =>
      simp only [Option.some.injEq, Prod.mk.injEq] at h
      obtain ⟨rfl, rfl⟩ := h
      refine ⟨assign s k d v, ?_, ?_, ?_, fun fuel hf => rfl⟩
      · simp only [assign, hfi, it_ne_end hg, ne_eq, not_false_iff, if_true]
        exact hok.set (mset_sorted (hok.at l))
      · simp only [assign, hfi, it_ne_end hg, ne_eq, not_false_iff, if_true]
        rw [abs_set (g := bind' k v) (by omega)]
        funext x; rw [mset_get (by simp [hg])]; rfl
      · simp only [assign, hfi, it_ne_end hg, ne_eq, not_false_iff, if_true, List.length_set]; omega
  | erase k =>
    have he := eraseFrom_spec (s := s) k (i := s.length - 1) (by omega)
    have hf := find_spec hok k
    rw [take_all hok.ne] at he
    simp only [specStep] at h
    generalize hsf : specFind (abs s) k = o at *
    generalize find s k = it at hf
    cases hf with
    | none =>
      cases h
      exact ⟨s, hok, rfl, by omega, fun fuel hf => by simp [step, erase, he]⟩
    | some hl hg =>
      next l v0 =>
      cases h
      refine ⟨s.set l (merase (at' s l) k).1, hok.set (merase_sorted (hok.at l)), ?_, by simp, fun fuel hf => by simp [step, erase, he]⟩
      rw [abs_set (g := unbind k) (by omega)]
      funext x; rw [merase_get (hok.at l)]; rfl
  | find k =>
    have hf := find_spec hok k
    simp only [specStep, Option.some.injEq, Prod.mk.injEq] at h
    obtain ⟨rfl, rfl⟩ := h
    refine ⟨s, hok, rfl, by omega, fun fuel _ => ?_⟩
    simp only [step]
    congr 3
    generalize specFind (abs s) k = o at *
    generalize find s k = it at *
    cases hf with
    | none => simp [see]
    | some hl hg => exact see_it hg
  | findAt l k =>
    simp only [specStep, abs_len] at h
    split at h
    · next hl =>
      simp only [abs_get hl, Option.map_some, Option.some.injEq, Prod.mk.injEq] at h
      obtain ⟨rfl, rfl⟩ := h
      refine ⟨s, hok, rfl, by omega, fun fuel _ => ?_⟩
      simp only [step, findAt, Nat.not_le.2 hl, if_false]
      cases hg : mget (at' s l) k with
      | none => rw [if_neg (by simp [mfind_len, hg])]; simp [see]
      | some v => rw [if_pos (by simp [mfind_len, hg])]; simp [see_it hg]
    · cases h
  | count k =>
    simp only [specStep, Option.some.injEq, Prod.mk.injEq] at h
    obtain ⟨rfl, rfl⟩ := h
    refine ⟨s, hok, rfl, by omega, fun fuel hf => ?_⟩
    have hc := countLoop_spec (s := s) k (i := s.length - 1) (by omega) fuel 0 (by omega)
    rw [take_all hok.ne] at hc
    simp [step, count, find, hc]
  | contains k =>
    have hf := find_spec hok k
    simp only [specStep, Option.some.injEq, Prod.mk.injEq] at h
    obtain ⟨rfl, rfl⟩ := h
    refine ⟨s, hok, rfl, by omega, fun fuel _ => ?_⟩
    simp only [step, contains]
    generalize specFind (abs s) k = o at *
    generalize find s k = it at *
    cases hf with
    | none => simp
    | some hl hg => simp [it_ne_end hg]

theorem run_ok {d : V} {os : List (Op K V)} : ∀ {s : Scopes K V} {rs : List (Res V)}, Ok s → specRun (abs s) os = some rs →
    ∀ fuel, s.length + os.length ≤ fuel → run d fuel s os = .ret rs := by
  induction os with
  | nil => intro s rs _ hr fuel _; simp only [specRun, Option.some.injEq] at hr; subst hr; rfl
  | cons o os ih =>
    intro s rs hok hr fuel hf
    simp only [specRun, Option.bind_eq_some_iff, Option.map_eq_some_iff] at hr
    obtain ⟨⟨r, S'⟩, h1, rs', h2, rfl⟩ := hr
    obtain ⟨s', hok', rfl, hlen, e⟩ := step_ok (d := d) hok h1
    simp only [List.length_cons] at hf
    simp only [run, e fuel (by omega), Outcome.bind_ret, ih hok' h2 fuel (by omega)]

/-! ### C63 -/

theorem ok_new : Ok (new : Scopes K V) := ⟨by simp [new, Sorted], by simp [new]⟩

/-- C63: in every history of a new scoped map (starting with one empty scope), every answer is the one the stack of scopes gives: `find` returns the innermost binding,
    ending a scope restores the earlier bindings, `count` is the number of scopes that bind the key. -/
theorem C63_history (d : V) (os : List (Op K V)) (rs : List (Res V)) (h : specRun [fun _ => none] os = some rs) (fuel : Nat) (hf : os.length < fuel) :
    run d fuel new os = .ret rs :=
  run_ok ok_new (by rw [← h]; simp [abs, new]; rfl) fuel (by simp [new]; omega)

example : specRun (K := Nat) (V := Nat) [fun _ => none]
    [.insert 1 10, .beginScope, .insert 1 11, .insert 2 20, .find 1, .count 1, .beginScope, .find 1, .assign 1 12, .find 1, .endScope, .find 1, .erase 1, .find 1,
     .insert 1 13, .insert 1 14, .endScope, .find 1, .find 2, .findAt 0 1, .contains 2, .insertAt 0 2 5, .count 2]
    = some [.bool true, .unit, .bool true, .bool true, .found (some (1, 11)), .nat 2, .unit, .found (some (1, 11)), .unit, .found (some (1, 12)), .unit,
     .found (some (1, 12)), .nat 1, .found (some (0, 10)), .bool true, .bool false, .unit, .found (some (0, 10)), .found none, .found (some (0, 10)), .bool false,
     .bool true, .nat 1] := by
  decide +kernel

/-- C63: ending the outermost scope stops the program. -/
theorem C63_end_outermost (d : V) (fuel : Nat) : run (K := K) d fuel new [.endScope] = .abort := rfl

/-! Iteration -/

/-- The iterators a loop `for ( it = begin(); it != end(); ++it )` goes through. -/
def walk (s : Scopes K V) : Nat → It → List It
  | 0, _ => []
  | n + 1, it => if it = end' s then [] else it :: walk s n (incr s it)

/-- The iterators from position `p` of level `l` on, outward. -/
def rest (s : Scopes K V) : Nat → Nat → List It
  | 0, p => (List.range' p ((at' s 0).length - p)).map (It.mk 0)
  | l + 1, p => (List.range' p ((at' s (l + 1)).length - p)).map (It.mk (l + 1)) ++ rest s l 0

theorem rest_cons {s : Scopes K V} {l p : Nat} (h : p < (at' s l).length) : rest s l p = ⟨l, p⟩ :: rest s l (p + 1) := by
  have : (at' s l).length - p = ((at' s l).length - (p + 1)) + 1 := by omega
  cases l <;> simp only [rest] <;> rw [this, List.range'_succ] <;> simp

theorem rest_end {s : Scopes K V} {l : Nat} : rest s (l + 1) (at' s (l + 1)).length = rest s l 0 := by simp [rest]
theorem rest_end0 {s : Scopes K V} : rest s 0 (at' s 0).length = [] := by simp [rest]

theorem walk_rest (s : Scopes K V) : ∀ (n l p : Nat), p ≤ (at' s l).length → (rest s l p).length < n → walk s n (nextValid s l p) = rest s l p := by
  intro n
  induction n with
  | zero => intro l p _ h; omega
  | succ n ih =>
    intro l
    induction l with
    | zero =>
      intro p hp hn
      by_cases hlt : p < (at' s 0).length
      · have hne : (⟨0, p⟩ : It) ≠ end' s := by simp [end']; omega
        rw [rest_cons hlt] at hn ⊢
        simp only [nextValid, walk, hne, if_false, incr, Nat.ne_of_lt hlt]
        congr 1
        exact ih 0 (p + 1) (by omega) (by simpa using hn)
      · obtain rfl : p = (at' s 0).length := by omega
        rw [rest_end0]; simp [nextValid, walk, end']
    | succ l ihl =>
      intro p hp hn
      by_cases hlt : p < (at' s (l + 1)).length
      · have hne : (⟨l + 1, p⟩ : It) ≠ end' s := by simp [end']
        rw [rest_cons hlt] at hn ⊢
        simp only [nextValid, Nat.ne_of_lt hlt, ne_eq, not_false_iff, if_true, walk, hne, if_false, incr]
        congr 1
        exact ih (l + 1) (p + 1) (by omega) (by simpa using hn)
      · obtain rfl : p = (at' s (l + 1)).length := by omega
        rw [rest_end] at hn ⊢
        simp only [nextValid, ne_eq, not_true, if_false]
        exact ihl 0 (Nat.zero_le _) hn

theorem mem_rest {s : Scopes K V} : ∀ {l p : Nat} {it : It}, it ∈ rest s l p ↔ (it.level = l ∧ p ≤ it.pos ∨ it.level < l) ∧ it.pos < (at' s it.level).length
  | 0, p, ⟨a, b⟩ => by
    simp only [rest, List.mem_map, List.mem_range'_1, It.mk.injEq]
    constructor
    · rintro ⟨x, h1, rfl, rfl⟩; exact ⟨.inl ⟨rfl, h1.1⟩, by omega⟩
    · rintro ⟨⟨h, h2⟩ | h, h1⟩
      · subst h; exact ⟨b, by omega, rfl, rfl⟩
      · simp at h
  | l + 1, p, ⟨a, b⟩ => by
    simp only [rest, List.mem_append, List.mem_map, List.mem_range'_1, It.mk.injEq, mem_rest]
    constructor
    · rintro (⟨x, h1, rfl, rfl⟩ | ⟨h, h1⟩)
      · exact ⟨.inl ⟨rfl, h1.1⟩, by omega⟩
      · exact ⟨.inr (by omega), h1⟩
    · rintro ⟨⟨h, h2⟩ | h, h1⟩
      · subst h; exact .inl ⟨b, by omega, rfl, rfl⟩
      · exact .inr ⟨by omega, h1⟩

/-- The order in which the entries come: inner scopes first, and by key in a scope. -/
def Before (s : Scopes K V) (a b : It) : Prop :=
  b.level < a.level ∨ a.level = b.level ∧ ∃ x ∈ deref s a, ∃ y ∈ deref s b, x.1 < y.1

theorem rest_sorted {s : Scopes K V} (hok : Ok s) : ∀ (l p : Nat), (rest s l p).Pairwise (Before s) := by
  have one : ∀ l p, ((List.range' p ((at' s l).length - p)).map (It.mk l)).Pairwise (Before s) := by
    intro l p
    rw [List.pairwise_map]
    refine (List.pairwise_lt_range' (s := p) (n := (at' s l).length - p)).imp_of_mem fun {a b} ha hb hab => ?_
    have ha := List.mem_range'_1.1 ha
    have hb := List.mem_range'_1.1 hb
    have hs := hok.at l
    refine .inr ⟨rfl, (at' s l)[a]'(by omega), by simp [deref], (at' s l)[b]'(by omega), by simp [deref], ?_⟩
    exact List.pairwise_iff_getElem.1 hs a b (by omega) (by omega) hab
  intro l
  induction l with
  | zero => exact fun p => one 0 p
  | succ l ih =>
    intro p
    rw [rest, List.pairwise_append]
    refine ⟨one (l + 1) p, ih 0, fun a ha b hb => .inl ?_⟩
    obtain ⟨x, -, rfl⟩ := List.mem_map.1 ha
    have := mem_rest.1 hb
    show b.level < l + 1
    omega

/-- C63: a loop over the map reaches every binding of every scope, each once, the inner scopes first. -/
theorem C63_iteration (s : Scopes K V) (hok : Ok s) : ∃ N L, (∀ n, N ≤ n → walk s n (begin' s) = L) ∧
    (∀ (l : Nat) (k : K) (v : V), (∃ it ∈ L, it.level = l ∧ deref s it = some (k, v)) ↔ l < s.length ∧ mget (at' s l) k = some v) ∧
    (∀ it ∈ L, (deref s it).isSome) ∧ L.Pairwise (Before s) := by
  have hpos : 0 < s.length := List.length_pos_iff.2 hok.ne
  refine ⟨(rest s (s.length - 1) 0).length + 1, rest s (s.length - 1) 0, fun n hn => walk_rest s n _ _ (Nat.zero_le _) (by omega), ?_, ?_, rest_sorted hok _ _⟩
  · intro l k v
    constructor
    · rintro ⟨it, hit, rfl, hd⟩
      have := mem_rest.1 hit
      exact ⟨by omega, (mget_mem (hok.at _)).2 (List.mem_of_getElem? hd)⟩
    · rintro ⟨hl, hg⟩
      obtain ⟨p, hp, e⟩ := List.getElem_of_mem ((mget_mem (hok.at l)).1 hg)
      exact ⟨⟨l, p⟩, mem_rest.2 ⟨by simp only; omega, hp⟩, rfl, by simp [deref, hp, e]⟩
  · intro it hit
    have := (mem_rest.1 hit).2
    simp [deref, this]

/-- Every map a history leads to is `Ok`. -/
theorem C63_reachable_ok (d : V) (fuel : Nat) (s : Scopes K V) (hok : Ok s) (o : Op K V) (r : Res V) (S' : Stack K V) (h : specStep (abs s) o = some (r, S')) (s' : Scopes K V)
    (hf : s.length < fuel) (e : step d fuel s o = .ret (r, s')) : Ok s' := by
  obtain ⟨s'', h1, -, -, h2⟩ := step_ok (d := d) hok h
  rw [h2 fuel hf] at e; cases e; exact h1

def sample : Scopes Nat Nat := [[(1, 10), (4, 40)], [], [(1, 11), (2, 21)]]

example : Ok sample := ⟨by simp [sample, Sorted], by simp [sample]⟩
example : (walk sample 9 (begin' sample)).map (deref sample) = [some (1, 11), some (2, 21), some (1, 10), some (4, 40)] := by decide +kernel

/-- C63, going backward: when every scope has an entry, `--` undoes `++`. -/
theorem C63_backward_partial (s : Scopes K V) (hne : ∀ m ∈ s, m ≠ []) (it : It) (hl : it.level < s.length) (hp : it.pos < (at' s it.level).length) :
    decr s (incr s it) = .ret it := by
  have hpos : ∀ l, l < s.length → 0 < (at' s l).length := fun l hl => by
    rw [at_get hl]; exact List.length_pos_iff.2 (hne _ (List.getElem_mem _))
  cases it with
  | mk l p =>
    simp only at hl hp
    simp only [incr, Nat.ne_of_lt hp, if_false]
    cases l with
    | zero => simp [nextValid, decr]
    | succ l =>
      simp only [nextValid]
      split
      · simp [decr]
      · next h =>
        have h : p + 1 = (at' s (l + 1)).length := by simpa using h
        have h0 := hpos l (by omega)
        have : nextValid s l 0 = ⟨l, 0⟩ := by cases l <;> simp [nextValid]; omega
        simp only [this, decr, if_true]
        rw [if_neg (by omega), if_neg (by omega)]
        congr 2; omega

/-- C63 fails going backward: with an empty scope in between, `--` on an iterator reached by `++` decrements the `begin()` of an empty `std::map`. -/
theorem C63_backward_violated : ∃ s : Scopes Nat Nat, Ok s ∧ ∃ it, deref s it = some (2, 21) ∧ deref s (incr s it) = some (1, 10) ∧ decr s (incr s it) = .undef :=
  ⟨sample, ⟨by simp [sample, Sorted], by simp [sample]⟩, ⟨2, 1⟩, rfl, rfl, rfl⟩

end Verif.ScopedMap
