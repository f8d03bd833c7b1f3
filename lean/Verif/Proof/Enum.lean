import Verif.Spec.Enum

namespace Verif.Enum

theorem conv_conv (b : Base) (x : Int) : b.conv (b.conv x + 1) = b.conv (x + 1) := by
  unfold Base.conv
  split
  · exact Int.bmod_add_bmod
  · exact Int.emod_add_emod ..

theorem conv_idem (b : Base) (x : Int) : b.conv (b.conv x) = b.conv x := by
  unfold Base.conv
  split
  · exact Int.bmod_bmod
  · exact Int.emod_emod ..

theorem toInt_small {n : Int} (h0 : 0 ≤ n) (h1 : n < 2147483648) : toInt n = n := by
  unfold toInt
  rw [Int.bmod_def]
  omega

/-- The constants among the initializers are small. -/
def Small (k : Nat) : VInit → Prop
  | .const n => 0 ≤ n ∧ n + k < 2147483648
  | _ => True

theorem autoInit_eval (b : Base) {p : VInit} {k : Nat} (h : Small (k + 1) p) :
    (autoInit p).eval b.conv = p.eval b.conv + 1 ∧ Small k (autoInit p) := by
  cases p with
  | const n =>
    simp only [autoInit, VInit.eval, Small] at h ⊢
    have := toInt_small (n := n + 1) (by omega) (by omega)
    rw [this]
    refine ⟨rfl, by omega, by omega⟩
  | cast v => exact ⟨rfl, trivial⟩
  | plus e => exact ⟨rfl, trivial⟩

theorem valueInits_spec (b : Base) : ∀ (ms : List (String × Option Int)) (prev : Option VInit),
    ms.length < 2147483648 → (∀ p, prev = some p → Small ms.length p) →
    (valueInits prev ms).map (fun i => b.conv (i.eval b.conv)) =
      valuesAfter b (prev.map fun p => b.conv (p.eval b.conv)) ms
  | [], _, _, _ => rfl
  | (n, init) :: ms, prev, hl, hp => by
    simp only [List.length_cons] at hl
    unfold valueInits valuesAfter
    cases init with
    | some v =>
      simp only [List.map_cons]
      rw [valueInits_spec b ms _ (by omega) (by intro p h; injection h with h; subst h; trivial)]
      simp only [Option.map_some, VInit.eval, conv_idem]
    | none =>
      cases prev with
      | none =>
        simp only [List.map_cons, Option.map_none]
        rw [valueInits_spec b ms _ (by omega) (by
          intro p h; injection h with h; subst h; exact ⟨by omega, by omega⟩)]
        simp only [Option.map_some, VInit.eval]
      | some p =>
        obtain ⟨h1, h2⟩ := autoInit_eval b (hp p rfl)
        simp only [List.map_cons, Option.map_some]
        rw [valueInits_spec b ms _ (by omega) (by intro q h; injection h with h; subst h; exact h2)]
        simp only [Option.map_some, h1, conv_conv]

theorem valuesAfter_length (b : Base) : ∀ (ms : List (String × Option Int)) (prev : Option Int),
    (valuesAfter b prev ms).length = ms.length
  | [], _ => rfl
  | (_, _) :: ms, _ => by unfold valuesAfter; simp [valuesAfter_length b ms]

/-- An explicit value forgets what is before. -/
theorem valuesAfter_explicit (b : Base) {n : String} {v : Int} {ms : List (String × Option Int)}
    (p q : Option Int) : valuesAfter b p ((n, some v) :: ms) = valuesAfter b q ((n, some v) :: ms) := rfl

theorem valuesAfter_append (b : Base) : ∀ (xs ys : List (String × Option Int)) (p : Option Int),
    ∃ q, valuesAfter b p (xs ++ ys) = valuesAfter b p xs ++ valuesAfter b q ys ∧ (xs = [] → q = p)
  | [], ys, p => ⟨p, rfl, fun _ => rfl⟩
  | (n, i) :: xs, ys, p => by
    obtain ⟨q, h, _⟩ := valuesAfter_append b xs ys (some (b.conv (match i, p with
      | some v, _ => v
      | none, some p => p + 1
      | none, none => 0)))
    refine ⟨q, ?_, fun h => by cases h⟩
    exact congrArg (List.cons _) h

theorem constantsFrom_get (typed : Bool) : ∀ (ms : List (String × Option Int)) (n : Int),
    (typed = true ∨ ∀ m ∈ ms, m.2 = none) → ∀ k < ms.length,
    (constantsFrom typed n ms)[k]? = some (n + k)
  | [], _, _, k, hk => absurd hk (Nat.not_lt_zero k)
  | (nm, i) :: ms, n, h, k, hk => by
    have hv : (if typed then n else i.getD n) = n := by
      rcases h with h | h
      · simp [h]
      · have := h (nm, i) (by simp)
        simp only at this
        rw [this]; simp
    unfold constantsFrom
    simp only [hv]
    cases k with
    | zero => simp
    | succ k =>
      simp only [List.length_cons] at hk
      rw [List.getElem?_cons_succ, constantsFrom_get typed ms (n + 1)
        (h.imp id fun h m hm => h m (by simp [hm])) k (by omega)]
      congr 1
      push_cast
      omega

theorem constantsFrom_length (typed : Bool) : ∀ (ms : List (String × Option Int)) (n : Int),
    (constantsFrom typed n ms).length = ms.length
  | [], _ => rfl
  | (_, _) :: ms, n => by unfold constantsFrom; simp [constantsFrom_length typed ms]

theorem posn_from {i : Int} (h0 : -2147483648 ≤ i) (h1 : i < 2147483648) :
    posn (fromIntUnsafe i) = i := by
  unfold posn fromIntUnsafe
  rw [Int.bmod_def]
  omega

theorem index_nat {α : Type} (xs : List α) (k : Nat) : index xs (k : Int) = xs[k]? := by
  unfold index
  rw [if_neg (by omega)]
  simp

/-- An enumeration whose positions are those of its enumerators. -/
structure Good (e : EDecl) : Prop where
  plain : e.typed = true ∨ ∀ m ∈ e.members, m.2 = none
  few : e.members.length < 2147483648
  some : 0 < e.members.length

theorem lower_good {e : EDecl} (h : Good e) : posn (lowerBound e) = 0 ∧ lowerBound e = fromIntUnsafe 0 := by
  have hc := constantsFrom_get e.typed e.members 0 h.plain 0 h.some
  have : lowerBound e = fromIntUnsafe 0 := by
    unfold lowerBound constants
    rw [List.head?_eq_getElem?, hc]
    rfl
  exact ⟨by rw [this]; exact posn_from (by omega) (by omega), this⟩

theorem upper_good {e : EDecl} (h : Good e) : posn (upperBound e) = e.members.length - 1 ∧
    upperBound e = fromIntUnsafe (e.members.length - 1) := by
  have hs := h.some
  have hf := h.few
  have hc := constantsFrom_get e.typed e.members 0 h.plain (e.members.length - 1) (by omega)
  have : upperBound e = fromIntUnsafe (e.members.length - 1) := by
    unfold upperBound constants
    rw [List.getLast?_eq_getElem?, constantsFrom_length, hc]
    simp only [Option.getD_some]
    congr 1
    omega
  exact ⟨by rw [this]; exact posn_from (by omega) (by omega), this⟩

theorem loop_up {e : EDecl} (h : Good e) : ∀ (j k : Nat), k + j = e.members.length →
    loopFrom e true (j + 1) (fromIntUnsafe k) =
      some ((List.range' k j).map fun i => fromIntUnsafe (i : Int)) := by
  have hs := h.some
  have hf := h.few
  have hu := (upper_good h).1
  intro j
  induction j with
  | zero =>
    intro k hk
    unfold loopFrom
    have hp : posn (fromIntUnsafe (k : Int)) = k := posn_from (by omega) (by omega)
    rw [hp, hu]
    simp
    omega
  | succ j ih =>
    intro k hk
    unfold loopFrom
    have hp : posn (fromIntUnsafe (k : Int)) = k := posn_from (by omega) (by omega)
    simp only [if_true]
    rw [if_pos (by rw [hp, hu]; omega)]
    unfold succUnsafe
    rw [hp]
    have := ih (k + 1) (by omega)
    push_cast at this
    rw [this, List.range'_succ]
    rfl

theorem loop_down {e : EDecl} (h : Good e) : ∀ (k : Nat), k ≤ e.members.length →
    loopFrom e false (k + 1) (fromIntUnsafe ((k : Int) - 1)) =
      some ((List.range k).reverse.map fun i => fromIntUnsafe (i : Int)) := by
  have hf := h.few
  have hl := (lower_good h).1
  intro k
  induction k with
  | zero =>
    intro _
    unfold loopFrom
    have hp : posn (fromIntUnsafe ((0 : Nat) - 1 : Int)) = -1 := by
      have := posn_from (i := -1) (by omega) (by omega)
      simpa using this
    rw [hp, hl]
    simp
  | succ k ih =>
    intro hk
    unfold loopFrom
    have hk1 : (((k + 1 : Nat) : Int) - 1) = k := by push_cast; omega
    have hp : posn (fromIntUnsafe (k : Int)) = k := posn_from (by omega) (by omega)
    rw [hk1]
    simp only [Bool.false_eq_true, if_false]
    rw [if_pos (by rw [hp, hl]; omega)]
    unfold predUnsafe
    rw [hp, ih (by omega), List.range_succ, List.reverse_append]
    rfl

/-! ## Conversion -/

theorem expandMembers_append (xs ys : List Item) :
    expandMembers (xs ++ ys) = expandMembers xs ++ expandMembers ys := by
  induction xs with
  | nil => rfl
  | cons x xs ih => cases x <;> simp [expandMembers, ih]

theorem expandInlined_append (xs ys : List Item) :
    expandInlined (xs ++ ys) = expandInlined xs ++ expandInlined ys := by
  induction xs with
  | nil => rfl
  | cons x xs ih => cases x <;> simp [expandInlined, ih]

theorem expandInlined_inl (pre : List EDecl) : expandInlined (pre.map .inl) = pre := by
  induction pre with
  | nil => rfl
  | cons c pre ih => simp [expandInlined, ih]

theorem expandMembers_inl (pre : List EDecl) :
    expandMembers (pre.map .inl) = (pre.map EDecl.members).flatten := by
  induction pre with
  | nil => rfl
  | cons c pre ih => simp [expandMembers, ih]

theorem expandMembers_inl_length (pre : List EDecl) :
    (expandMembers (pre.map .inl)).length = (pre.map fun c => c.members.length).sum := by
  induction pre with
  | nil => rfl
  | cons c pre ih => simp [expandMembers, ih]

theorem has_self (e : EDecl) : has e.name e = true := by
  cases e; simp [has, EDecl.name]

theorem hasAny_append (s : String) : ∀ (xs ys : List EDecl),
    hasAny s (xs ++ ys) = (hasAny s xs || hasAny s ys)
  | [], ys => by simp [hasAny]
  | x :: xs, ys => by simp [hasAny, hasAny_append s xs ys, Bool.or_assoc]

theorem has_way {src d : EDecl} (h : Way src d) : has src.name d = true := by
  induction h with
  | child hname hpre =>
    unfold expand has
    rw [expandInlined_append, expandInlined_inl, hasAny_append]
    simp [expandInlined, hasAny, has_self]
  | deeper hname hpre hsome h ih =>
    unfold expand has
    rw [expandInlined_append, expandInlined_inl, hasAny_append]
    simp [expandInlined, hasAny, ih]

theorem convertIn_skip (s : String) : ∀ (pre : List EDecl) (rest : List EDecl) (off : Nat) (p : Int),
    (∀ c ∈ pre, has s c = false) →
    convertIn s (pre ++ rest) off p =
      convertIn s rest (off + (pre.map fun c => c.members.length).sum) p
  | [], rest, off, p, _ => by simp
  | .mk n t m i :: pre, rest, off, p, h => by
    rw [List.cons_append]
    conv => lhs; unfold convertIn
    rw [h (.mk n t m i) (by simp)]
    simp only [Bool.false_eq_true, if_false]
    rw [convertIn_skip s pre rest _ p (fun c hc => h c (by simp [hc]))]
    rw [List.map_cons, List.sum_cons, ← Nat.add_assoc]
    rfl

theorem convertIn_here {s : String} {c : EDecl} {cs : List EDecl} {off : Nat} {p : Int}
    (h : has s c = true) :
    convertIn s (c :: cs) off p = if off = 0 then some p else convert s c (p + off) := by
  cases c
  unfold convertIn
  rw [if_pos h]

theorem convert_self (e : EDecl) (p : Int) : convert e.name e p = some p := by
  cases e; unfold convert; simp [EDecl.name]

theorem convert_way {src d : EDecl} (h : Way src d) : ∃ off : Nat,
    (∀ p : Int, convert src.name d p = some (p + off)) ∧
    ∀ k < src.members.length, d.members[off + k]? = src.members[k]? := by
  induction h with
  | child hname hpre =>
    rename_i name typed pre post
    refine ⟨(pre.map fun c => c.members.length).sum, ?_, ?_⟩
    · intro p
      unfold expand convert
      rw [if_neg hname, expandInlined_append, expandInlined_inl, convertIn_skip _ _ _ _ _ hpre]
      simp only [expandInlined]
      rw [convertIn_here (has_self src)]
      split
      · rename_i h0
        have : (pre.map fun c => c.members.length).sum = 0 := by omega
        rw [this]; simp
      · rw [convert_self]; simp
    · intro k hk
      rw [show (expand name typed (pre.map .inl ++ .inl src :: post)).members =
        expandMembers (pre.map .inl ++ .inl src :: post) from rfl]
      rw [expandMembers_append, List.getElem?_append_right (by
        rw [expandMembers_inl_length]; exact Nat.le_add_right _ _), expandMembers_inl_length]
      simp only [expandMembers]
      rw [show ∀ a b : Nat, a + b - a = b from fun a b => by omega, List.getElem?_append_left hk]
  | deeper hname hpre hsome h ih =>
    rename_i name typed pre mid post
    obtain ⟨off, h1, h2⟩ := ih
    refine ⟨(pre.map fun c => c.members.length).sum + off, ?_, ?_⟩
    · intro p
      unfold expand convert
      rw [if_neg hname, expandInlined_append, expandInlined_inl, convertIn_skip _ _ _ _ _ hpre]
      simp only [expandInlined]
      rw [convertIn_here (has_way h), if_neg (by omega), h1]
      congr 1
      push_cast
      omega
    · intro k hk
      have h2k := h2 k hk
      have hlt : off + k < mid.members.length := by
        rw [List.getElem?_eq_getElem hk] at h2k
        exact (List.getElem?_eq_some_iff.1 h2k).1
      rw [show (expand name typed (pre.map .inl ++ .inl mid :: post)).members =
        expandMembers (pre.map .inl ++ .inl mid :: post) from rfl]
      rw [expandMembers_append, List.getElem?_append_right (by
        rw [expandMembers_inl_length, Nat.add_assoc]; exact Nat.le_add_right _ _),
        expandMembers_inl_length]
      simp only [expandMembers]
      rw [Nat.add_assoc, show ∀ a b : Nat, a + b - a = b from fun a b => by omega,
        List.getElem?_append_left hlt]
      exact h2k

end Verif.Enum
