import Verif.Props.ScopedMap
/-!
C64: scoped maps with scoped erasure (src/GenPoly/ErasableScopedMap.hpp). The specification is a stack of scopes; a scope may bind a key, hide it (erased), or say nothing about it.
-/
namespace Verif.ScopedMap
open Verif

variable {K V : Type} [LinearOrder K] [DecidableEq V]

/-! ### Specification -/

/-- What a scope says of a key: nothing, that it is erased, or a value. -/
inductive Mark (V : Type) where
  | unset | erased | value (v : V)
  deriving DecidableEq

/-- Innermost first. -/
abbrev EStack (K V : Type) := List (K → Mark V)

/-- The innermost scope that says something decides. -/
def especFind : EStack K V → K → Option (Nat × V)
  | [], _ => none
  | f :: S, k => match f k with
    | .value v => some (S.length, v)
    | .erased => none
    | .unset => especFind S k

def mark (k : K) (x : Mark V) (f : K → Mark V) : K → Mark V := fun y => if y = k then x else f y

inductive EOp (K V : Type) where
  | beginScope | endScope
  | insert (k : K) (v : V)
  | assign (k : K) (v : V)
  | erase (k : K)
  | find (k : K)
  | contains (k : K)

/-- One operation; `x` is the sentinel, which no client stores. `none`: not covered. An insertion of a key that was erased in the current scope is not covered, see
    `C64_insert_violated`; the result of `erase` is not shown, see `C64_erase_result_violated`. -/
def especStep (x : V) (S : EStack K V) : EOp K V → Option (Res V × EStack K V)
  | .beginScope => some (.unit, (fun _ => .unset) :: S)
  | .endScope => if 2 ≤ S.length then some (.unit, S.tail) else none
  | .insert k v => match S with
    | [] => none
    | f :: S => if v = x then none else match f k with
      | .unset => some (.bool true, mark k (.value v) f :: S)
      | .value _ => some (.bool false, f :: S)
      | .erased => none
  | .assign k v => if v = x then none else match especFind S k with
    | some (l, _) => some (.unit, S.modify (S.length - 1 - l) (mark k (.value v)))
    | none => some (.unit, S.modify 0 (mark k (.value v)))
  | .erase k => some (.unit, S.modify 0 (mark k .erased))
  | .find k => some (.found (especFind S k), S)
  | .contains k => some (.bool (especFind S k).isSome, S)

def especRun (x : V) (S : EStack K V) : List (EOp K V) → Option (List (Res V))
  | [] => some []
  | o :: os => (especStep x S o).bind fun (r, S) => (especRun x S os).map fun rs => r :: rs

/-- The operations of the program; `x` is the sentinel, `d` is `Value()`. -/
def estep (x d : V) (s : Scopes K V) : EOp K V → Outcome (Res V × Scopes K V)
  | .beginScope => .ret (.unit, beginScope s)
  | .endScope => do let s ← endScope s; .ret (.unit, s)
  | .insert k v => let r := einsert s k v; .ret (.bool r.1, r.2)
  | .assign k v => .ret (.unit, eassign x s k d v)
  | .erase k => .ret (.unit, (eerase x s k).2)
  | .find k => .ret (.found (see s (efind x s k)), s)
  | .contains k => .ret (.bool (econtains x s k), s)

def erun (x d : V) (s : Scopes K V) : List (EOp K V) → Outcome (List (Res V))
  | [] => .ret []
  | o :: os => do
    let (r, s) ← estep x d s o
    let rs ← erun x d s os
    .ret (r :: rs)

/-! ### Proof -/

/-- What a scope stands for. -/
def emark (x : V) (m : Map K V) (k : K) : Mark V := match mget m k with
  | none => .unset
  | some v => if v = x then .erased else .value v

def eabs (x : V) (s : Scopes K V) : EStack K V := (s.map (emark x)).reverse

theorem eabs_len (x : V) (s : Scopes K V) : (eabs x s).length = s.length := by simp [eabs]

theorem eabs_get {x : V} {s : Scopes K V} {i : Nat} (h : i < s.length) : (eabs x s)[s.length - 1 - i]? = some (emark x (at' s i)) := by
  have : s.length - 1 - i < s.length := by omega
  rw [at_get h, eabs, List.getElem?_eq_getElem (by simpa using this)]
  simp only [List.getElem_reverse, List.getElem_map, List.length_map, Option.some.injEq]
  congr 2; omega

theorem eabs_set {x : V} {s : Scopes K V} {i : Nat} (h : i < s.length) {m : Map K V} {g : (K → Mark V) → K → Mark V} (hm : emark x m = g (emark x (at' s i))) :
    eabs x (s.set i m) = (eabs x s).modify (s.length - 1 - i) g := by
  apply List.ext_getElem?
  intro j
  rw [List.getElem?_modify]
  by_cases hj : j < s.length
  · obtain ⟨y, hx, rfl⟩ : ∃ y, y < s.length ∧ j = s.length - 1 - y := ⟨s.length - 1 - j, by omega, by omega⟩
    have h1 := eabs_get (x := x) (s := s.set i m) (i := y) (by simpa using hx)
    rw [List.length_set] at h1
    rw [h1, eabs_get hx]
    by_cases e : y = i
    · subst e; simp [at_get, hx, hm]
    · have e' : ¬ s.length - 1 - i = s.length - 1 - y := by omega
      simp [at_get, hx, Ne.symm e, e']
  · rw [List.getElem?_eq_none (by simp [eabs_len]; omega), List.getElem?_eq_none (by simp [eabs_len]; omega)]; simp

theorem eabs_take {x : V} {s : Scopes K V} {i : Nat} (h : i + 1 < s.length) : eabs x (s.take (i + 1 + 1)) = emark x (at' s (i + 1)) :: eabs x (s.take (i + 1)) := by
  rw [eabs, List.take_succ_eq_append_getElem h, List.map_append, List.reverse_append]; simp [eabs, at_get h]

theorem eabs_take_one {x : V} {s : Scopes K V} (h : 0 < s.length) : eabs x (s.take 1) = [emark x (at' s 0)] := by
  cases s with
  | nil => simp at h
  | cons m s => simp [eabs, at']

theorem efindFrom_spec {x : V} {s : Scopes K V} (k : K) : ∀ {i}, i < s.length → Finds s k i (especFind (eabs x (s.take (i + 1))) k) (efindFrom x s k i)
  | 0, hi => by
    rw [eabs_take_one hi, efindFrom]
    simp only [especFind, List.length_nil, emark]
    cases hg : mget (at' s 0) k with
    | none => rw [if_neg (by simp [mfind_len, hg])]; exact .none
    | some v =>
      rw [if_pos (by simp [mfind_len, hg])]
      simp only [deref, mfind_get hg, Option.map_some, Option.some.injEq]
      by_cases e : v = x
      · simp only [e, if_true]; exact .none
      · simp only [e, if_false]; exact .some (Nat.le_refl _) hg
  | i + 1, hi => by
    have ih := efindFrom_spec (x := x) k (i := i) (s := s) (by omega)
    rw [eabs_take hi, efindFrom]
    simp only [especFind, emark]
    cases hg : mget (at' s (i + 1)) k with
    | none =>
      rw [if_neg (by simp [mfind_len, hg])]
      generalize especFind (eabs x (s.take (i + 1))) k = o at *
      generalize efindFrom x s k i = it at *
      cases ih with
      | none => exact .none
      | some h1 h2 => exact .some (by omega) h2
    | some v =>
      rw [if_pos (by simp [mfind_len, hg])]
      simp only [deref, mfind_get hg, Option.map_some, Option.some.injEq, eabs_len, List.length_take]
      rw [Nat.min_eq_left (by omega)]
      by_cases e : v = x
      · simp only [e, if_true]; exact .none
      · simp only [e, if_false]; exact .some (Nat.le_refl _) hg

theorem efind_spec {x : V} {s : Scopes K V} (h : Ok s) (k : K) : Finds s k (s.length - 1) (especFind (eabs x s) k) (efind x s k) := by
  have := efindFrom_spec (x := x) (s := s) k (i := s.length - 1) (by have := List.length_pos_iff.2 h.ne; omega)
  rwa [take_all h.ne] at this

theorem emark_set {x v : V} {m : Map K V} {k : K} (h : mget m k ≠ none) :
    emark x (mset m (mfind m k) v) = mark k (if v = x then .erased else .value v) (emark x m) := by
  funext y
  simp only [emark, mset_get h, mark]
  by_cases hy : y = k <;> simp [hy]

theorem emark_insert {x v : V} {m : Map K V} {k : K} (hs : Sorted m) (h : mget m k = none) :
    emark x (minsert m k v).1 = mark k (if v = x then .erased else .value v) (emark x m) := by
  funext y
  simp only [emark, minsert_get hs, mark, h]
  by_cases hy : y = k <;> simp [hy]

theorem eabs_cons {x : V} {s : Scopes K V} (h : s ≠ []) : ∃ S, eabs x s = emark x (at' s (s.length - 1)) :: S := by
  have := eabs_get (x := x) (s := s) (i := s.length - 1) (by have := List.length_pos_iff.2 h; omega)
  rw [Nat.sub_self] at this
  cases he : eabs x s with
  | nil => simp [he] at this
  | cons f S => rw [he] at this; simp at this; exact ⟨S, by rw [this]⟩

theorem estep_ok {x d : V} {s : Scopes K V} {S' : EStack K V} {o : EOp K V} {r : Res V} (hok : Ok s) (h : especStep x (eabs x s) o = some (r, S')) :
    ∃ s', Ok s' ∧ eabs x s' = S' ∧ estep x d s o = .ret (r, s') := by
  have hpos : 0 < s.length := List.length_pos_iff.2 hok.ne
  have hs := hok.at (s.length - 1)
  cases o with
  | beginScope =>
    simp only [especStep, Option.some.injEq, Prod.mk.injEq] at h
    obtain ⟨rfl, rfl⟩ := h
    refine ⟨beginScope s, ⟨fun m hm => ?_, by simp [beginScope]⟩, ?_, rfl⟩
    · rcases List.mem_append.1 hm with hm | hm
      · exact hok.sorted m hm
      · simp at hm; subst hm; exact List.Pairwise.nil
    · simp [eabs, beginScope]; rfl
  | endScope =>
    simp only [especStep, eabs_len] at h
    split at h
    · next h2 =>
      simp only [Option.some.injEq, Prod.mk.injEq] at h
      obtain ⟨rfl, rfl⟩ := h
      have hne : s.dropLast ≠ [] := by intro e; have := congrArg List.length e; simp at this; omega
      refine ⟨s.dropLast, ⟨fun m hm => hok.sorted m (List.dropLast_subset _ hm), hne⟩, ?_, ?_⟩
      · simp [eabs]
      · simp [estep, endScope, hne]
    · cases h
  | insert k v =>
    obtain ⟨S, hS⟩ := eabs_cons (x := x) hok.ne
    refine ⟨(einsert s k v).2, hok.set (minsert_sorted hs), ?_⟩
    simp only [especStep, hS] at h
    split at h
    · cases h
    · next hv =>
      cases hg : mget (at' s (s.length - 1)) k with
      | none =>
        have e1 : emark x (at' s (s.length - 1)) k = .unset := by simp [emark, hg]
        rw [e1] at h
        simp only [Option.some.injEq, Prod.mk.injEq] at h
        obtain ⟨rfl, rfl⟩ := h
        refine ⟨?_, by simp [estep, einsert, minsert_flag hs, hg]⟩
        rw [einsert, eabs_set (g := mark k (.value v)) (by omega) (by rw [emark_insert hs hg, if_neg hv]), hS]
        simp
      | some w =>
        by_cases hw : w = x
        · have e1 : emark x (at' s (s.length - 1)) k = .erased := by simp [emark, hg, hw]
          rw [e1] at h; cases h
        · have e1 : emark x (at' s (s.length - 1)) k = .value w := by simp [emark, hg, hw]
          rw [e1] at h
          simp only [Option.some.injEq, Prod.mk.injEq] at h
          obtain ⟨rfl, rfl⟩ := h
          refine ⟨?_, by simp [estep, einsert, minsert_flag hs, hg]⟩
          rw [einsert, eabs_set (g := id) (by omega) (by funext y; simp [emark, minsert_get hs, hg]), hS]
          simp
  | assign k v =>
    have hf := efind_spec (x := x) hok k
    simp only [especStep] at h
    split at h
    · cases h
    next hv =>
    generalize hsf : especFind (eabs x s) k = o at *
    generalize hfi : efind x s k = it at *
    cases hf with
    | none =>
      simp only [Option.some.injEq, Prod.mk.injEq] at h
      obtain ⟨rfl, rfl⟩ := h
      have e1 : eassign x s k d v = s.set (s.length - 1) (mset (minsert (at' s (s.length - 1)) k d).1 (mfind (minsert (at' s (s.length - 1)) k d).1 k) v) := by
        simp only [eassign, hfi, ne_eq, not_true, if_false, einsert, List.length_set]
        rw [at_get (s := s.set _ _) (by rw [List.length_set]; omega)]; simp
      refine ⟨eassign x s k d v, ?_, ?_, rfl⟩
      · rw [e1]; exact hok.set (mset_sorted (minsert_sorted hs))
      · have hn : mget (minsert (at' s (s.length - 1)) k d).1 k ≠ none := by
          rw [minsert_get hs]
          cases hg : mget (at' s (s.length - 1)) k <;> simp
        rw [e1, eabs_set (g := mark k (.value v)) (by omega)]
        · simp
        · rw [emark_set hn, if_neg hv]
          funext y
          simp only [mark, emark, minsert_get hs]
          by_cases hy : y = k <;> simp [hy]
    | some hl hg =>
      next l v0 =>
      simp only [Option.some.injEq, Prod.mk.injEq] at h
      obtain ⟨rfl, rfl⟩ := h
      have e1 : eassign x s k d v = s.set l (mset (at' s l) (mfind (at' s l) k) v) := by
        simp only [eassign, hfi, it_ne_end hg, ne_eq, not_false_iff, if_true]
      refine ⟨eassign x s k d v, ?_, ?_, rfl⟩
      · rw [e1]; exact hok.set (mset_sorted (hok.at l))
      · rw [e1, eabs_set (g := mark k (.value v)) (by omega) (by rw [emark_set (by simp [hg]), if_neg hv]), eabs_len]
  | erase k =>
    simp only [especStep, Option.some.injEq, Prod.mk.injEq] at h
    obtain ⟨rfl, rfl⟩ := h
    refine ⟨(eerase x s k).2, ?_, ?_, rfl⟩
    · simp only [eerase]
      split
      · exact hok.set (mset_sorted hs)
      · exact hok.set (minsert_sorted hs)
    · have h0 : s.length - 1 - (s.length - 1) = 0 := by omega
      simp only [eerase]
      split
      · next hf => rw [eabs_set (g := mark k .erased) (by omega) (by rw [emark_set (by rwa [ne_eq, ← mfind_len]), if_pos rfl]), h0]
      · next hf =>
        have hf : mget (at' s (s.length - 1)) k = none := by rw [← mfind_len]; simpa using hf
        rw [eabs_set (g := mark k .erased) (by omega) (by rw [emark_insert hs hf, if_pos rfl]), h0]
  | find k =>
    have hf := efind_spec (x := x) hok k
    simp only [especStep, Option.some.injEq, Prod.mk.injEq] at h
    obtain ⟨rfl, rfl⟩ := h
    refine ⟨s, hok, rfl, ?_⟩
    simp only [estep]
    congr 3
    generalize especFind (eabs x s) k = o at *
    generalize efind x s k = it at *
    cases hf with
    | none => simp [see]
    | some hl hg => exact see_it hg
  | contains k =>
    have hf := efind_spec (x := x) hok k
    simp only [especStep, Option.some.injEq, Prod.mk.injEq] at h
    obtain ⟨rfl, rfl⟩ := h
    refine ⟨s, hok, rfl, ?_⟩
    simp only [estep, econtains]
    generalize especFind (eabs x s) k = o at *
    generalize efind x s k = it at *
    cases hf with
    | none => simp
    | some hl hg => simp [it_ne_end hg]

theorem erun_ok {x d : V} {os : List (EOp K V)} : ∀ {s : Scopes K V} {rs : List (Res V)}, Ok s → especRun x (eabs x s) os = some rs → erun x d s os = .ret rs := by
  induction os with
  | nil => intro s rs _ hr; simp only [especRun, Option.some.injEq] at hr; subst hr; rfl
  | cons o os ih =>
    intro s rs hok hr
    simp only [especRun, Option.bind_eq_some_iff, Option.map_eq_some_iff] at hr
    obtain ⟨⟨r, S'⟩, h1, rs', h2, rfl⟩ := hr
    obtain ⟨s', hok', rfl, e⟩ := estep_ok (d := d) hok h1
    simp only [erun, e, Outcome.bind_ret, ih hok' h2]

/-! ### C64 -/

/-- C64, for the histories `especRun` covers: an erased key is hidden, in the scopes inside too, until the scope ends; an inserted or assigned key is found.
    Missing from the full claim: inserting a key erased in the current scope, and the result of `erase`. -/
theorem C64_history_partial (x d : V) (os : List (EOp K V)) (rs : List (Res V)) (h : especRun x [fun _ => .unset] os = some rs) : erun x d new os = .ret rs :=
  erun_ok ok_new (by rw [← h]; simp [eabs, new]; rfl)

example : especRun (K := Nat) (V := Nat) 0 [fun _ => .unset]
    [.insert 1 10, .beginScope, .find 1, .erase 1, .find 1, .beginScope, .find 1, .insert 1 12, .find 1, .endScope, .contains 1, .assign 1 13, .find 1, .endScope, .find 1]
    = some [.bool true, .unit, .found (some (0, 10)), .unit, .found none, .unit, .found none, .bool true, .found (some (2, 12)), .unit, .bool false, .unit,
      .found (some (1, 13)), .unit, .found (some (0, 10))] := by
  decide +kernel

/-- C64, erasing: whatever the map holds, after `erase` the key is not found. -/
theorem C64_erase_hides (x : V) (s : Scopes K V) (hok : Ok s) (k : K) : efind x (eerase x s k).2 k = end' (eerase x s k).2 := by
  obtain ⟨s', h1, h2, h3⟩ := estep_ok (x := x) (d := x) (o := .erase k) hok rfl
  simp only [estep, Outcome.ret.injEq, Prod.mk.injEq, true_and] at h3
  rw [h3]
  have hf := efind_spec (x := x) h1 k
  obtain ⟨S, hS⟩ := eabs_cons (x := x) hok.ne
  have : especFind (eabs x s') k = none := by rw [h2, hS]; simp [especFind, mark]
  rw [this] at hf
  generalize efind x s' k = it at *
  cases hf; rfl

/-- C64 fails for insertion: after `erase`, an insertion in the same scope leaves the sentinel in place, reports that nothing was inserted, and the key is not found. -/
theorem C64_insert_violated (k : K) (v x d : V) :
    erun x d new [.erase k, .insert k v, .find k] = .ret [.unit, .bool false, .found none] := by
  simp [erun, estep, new, eerase, einsert, efind, efindFrom, at', mfind, List.findIdx_cons, minsert, deref, see, end', lt_irrefl]

/-- C64 fails for the result of `erase`, documented as 1 when an element was erased and 0 otherwise: erasing a key that an outer scope binds hides it and returns 0,
    erasing a key twice returns 1 the second time. -/
theorem C64_erase_result_violated (k : K) (v x : V) (hv : v ≠ x) :
    (∃ s : Scopes K V, Ok s ∧ see s (efind x s k) = some (0, v) ∧ (eerase x s k).1 = 0 ∧ see (eerase x s k).2 (efind x (eerase x s k).2 k) = none) ∧
    ∃ s : Scopes K V, Ok s ∧ see s (efind x s k) = none ∧ (eerase x s k).1 = 1 := by
  constructor
  · refine ⟨[[(k, v)], []], ⟨by simp [Sorted], by simp⟩, ?_, ?_, ?_⟩
    · simp [efind, efindFrom, at', mfind, List.findIdx_cons, deref, see, end', hv]
    · simp [eerase, at', mfind]
    · simp [eerase, efind, efindFrom, at', mfind, List.findIdx_cons, minsert, deref, see, end', lt_irrefl]
  · refine ⟨[[(k, x)]], ⟨by simp [Sorted], by simp⟩, ?_, ?_⟩
    · simp [efind, efindFrom, at', mfind, List.findIdx_cons, deref, see, end']
    · simp [eerase, at', mfind, List.findIdx_cons]

/-- C64, the result of `erase` when the current scope holds the key: 1, and 0 when no scope does. -/
theorem C64_erase_result_partial (x : V) (s : Scopes K V) (k : K) :
    ((∃ v, v ≠ x ∧ mget (at' s (s.length - 1)) k = some v) → (eerase x s k).1 = 1) ∧ (mget (at' s (s.length - 1)) k = none → (eerase x s k).1 = 0) := by
  constructor
  · rintro ⟨v, -, hv⟩
    simp [eerase, mfind_len, hv]
  · intro h
    simp [eerase, mfind_len, h]

/-- C64, iteration: a key erased in an inner scope, which `find` does not find, is still reached by a loop over the map. -/
theorem C64_iteration_violated : ∃ s : Scopes Nat Nat, s = (eerase 0 [[(1, 10)], []] 1).2 ∧ efind 0 s 1 = end' s ∧ ebegin 0 s ≠ end' s ∧ deref s (ebegin 0 s) = some (1, 10) :=
  ⟨_, rfl, by decide +kernel, by decide +kernel, by decide +kernel⟩

/-! Iteration -/

/-- The iterators a loop `for ( it = begin(); it != end(); ++it )` goes through. -/
def ewalk (x : V) (s : Scopes K V) : Nat → It → List It
  | 0, _ => []
  | n + 1, it => if it = end' s then [] else it :: ewalk x s n (eincr x s it)

/-- The iterators from position `p` of level `l` on, outward, without the entries that hold the sentinel. -/
def erest (x : V) (s : Scopes K V) (l p : Nat) : List It := (rest s l p).filter fun it => (deref s it).map (·.2) ≠ some x

theorem skip_end {x : V} {m : Map K V} : skip x (m.drop m.length) m.length = m.length := by simp [skip]
theorem skip_live {x : V} {m : Map K V} {p : Nat} (h : p < m.length) (hx : m[p].2 ≠ x) : skip x (m.drop p) p = p := by
  rw [List.drop_eq_getElem_cons h]; simp [skip, hx]
theorem skip_dead {x : V} {m : Map K V} {p : Nat} (h : p < m.length) (hx : m[p].2 = x) : skip x (m.drop p) p = skip x (m.drop (p + 1)) (p + 1) := by
  rw [List.drop_eq_getElem_cons h]; simp [skip, hx]

theorem enext_dead {x : V} {s : Scopes K V} {l p : Nat} (h : p < (at' s l).length) (hx : (at' s l)[p].2 = x) :
    enextValid x s l p = enextValid x s l (p + 1) := by
  cases l <;> simp only [enextValid] <;> rw [skip_dead h hx]
theorem enext_live {x : V} {s : Scopes K V} {l p : Nat} (h : p < (at' s l).length) (hx : (at' s l)[p].2 ≠ x) :
    enextValid x s l p = ⟨l, p⟩ := by
  cases l <;> simp only [enextValid] <;> rw [skip_live h hx]
  rw [if_pos (by omega)]

theorem ewalk_rest (x : V) (s : Scopes K V) : ∀ (n l p : Nat), p ≤ (at' s l).length → (erest x s l p).length < n →
    ewalk x s n (enextValid x s l p) = erest x s l p := by
  intro n
  induction n with
  | zero => intro l p _ h; omega
  | succ n ih =>
    have base : ∀ l p, p ≤ (at' s l).length → (erest x s l p).length < n + 1 →
        ((erest x s l (at' s l).length).length < n + 1 →
          ewalk x s (n + 1) (enextValid x s l (at' s l).length) = erest x s l (at' s l).length) →
        ewalk x s (n + 1) (enextValid x s l p) = erest x s l p := by
      intro l p hp hn he
      obtain ⟨d, hd⟩ : ∃ d, (at' s l).length - p = d := ⟨_, rfl⟩
      induction d generalizing p with
      | zero => obtain rfl : p = (at' s l).length := by omega
                exact he hn
      | succ d ihd =>
        have hlt : p < (at' s l).length := by omega
        have hne : (⟨l, p⟩ : It) ≠ end' s := by simp [end']; rintro rfl; omega
        have hc : erest x s l p = if (at' s l)[p].2 = x then erest x s l (p + 1) else ⟨l, p⟩ :: erest x s l (p + 1) := by
          rw [erest, rest_cons hlt, List.filter_cons]
          by_cases hx : (at' s l)[p].2 = x <;> simp [deref, hlt, hx, erest]
        by_cases hx : (at' s l)[p].2 = x
        · rw [if_pos hx] at hc
          rw [enext_dead hlt hx, hc]
          rw [hc] at hn
          exact ihd (p + 1) (by omega) hn (by omega)
        · rw [if_neg hx] at hc
          rw [hc] at hn ⊢
          rw [enext_live hlt hx]
          simp only [ewalk, hne, if_false, eincr, Nat.ne_of_lt hlt]
          congr 1
          exact ih l (p + 1) (by omega) (by simpa using hn)
    intro l
    induction l with
    | zero =>
      intro p hp hn
      refine base 0 p hp hn fun _ => ?_
      simp [enextValid, skip_end, ewalk, end', erest, rest_end0, skip]
    | succ l ihl =>
      intro p hp hn
      refine base (l + 1) p hp hn fun h => ?_
      rw [erest, rest_end] at h ⊢
      simp only [enextValid]
      rw [skip_end, if_neg (by simp)]
      exact ihl 0 (Nat.zero_le _) h

/-- C64, iteration: a loop over the map ends; it reaches every binding of every scope that was not erased in its own scope, each once, the inner scopes first, and
    never stops at an erased entry.
    Missing from the full claim (`C64_iteration_violated`): a binding hidden by an erasure in a scope further in is reached too. -/
theorem C64_iteration_partial (x : V) (s : Scopes K V) (hok : Ok s) : ∃ N L, (∀ n, N ≤ n → ewalk x s n (ebegin x s) = L) ∧
    (∀ (l : Nat) (k : K) (v : V), (∃ it ∈ L, it.level = l ∧ deref s it = some (k, v)) ↔ l < s.length ∧ mget (at' s l) k = some v ∧ v ≠ x) ∧
    (∀ it ∈ L, (deref s it).isSome) ∧ L.Pairwise (Before s) := by
  have hpos : 0 < s.length := List.length_pos_iff.2 hok.ne
  refine ⟨(erest x s (s.length - 1) 0).length + 1, erest x s (s.length - 1) 0, fun n hn => ewalk_rest x s n _ _ (Nat.zero_le _) (by omega), ?_, ?_,
    (rest_sorted hok _ _).filter _⟩
  · intro l k v
    constructor
    · rintro ⟨it, hit, rfl, hd⟩
      obtain ⟨hit, hx⟩ := List.mem_filter.1 hit
      have := mem_rest.1 hit
      exact ⟨by omega, (mget_mem (hok.at _)).2 (List.mem_of_getElem? hd), by simpa [hd] using hx⟩
    · rintro ⟨hl, hg, hv⟩
      obtain ⟨p, hp, e⟩ := List.getElem_of_mem ((mget_mem (hok.at l)).1 hg)
      refine ⟨⟨l, p⟩, List.mem_filter.2 ⟨mem_rest.2 ⟨by simp only; omega, hp⟩, ?_⟩, rfl, by simp [deref, hp, e]⟩
      simp [deref, hp, e, hv]
  · intro it hit
    have := (mem_rest.1 (List.mem_filter.1 hit).1).2
    simp [deref, this]

/-- The loop over a map of three scopes, with erased entries at the end of a scope and alone in one. -/
example : Ok ([[(1, 10), (2, 20)], [(1, 0)], [(3, 30), (4, 0)]] : Scopes Nat Nat) ∧
    ewalk 0 ([[(1, 10), (2, 20)], [(1, 0)], [(3, 30), (4, 0)]] : Scopes Nat Nat) 9 (ebegin 0 [[(1, 10), (2, 20)], [(1, 0)], [(3, 30), (4, 0)]]) = [⟨2, 0⟩, ⟨0, 0⟩, ⟨0, 1⟩] :=
  ⟨⟨by simp [Sorted], by simp⟩, by decide +kernel⟩

end Verif.ScopedMap
