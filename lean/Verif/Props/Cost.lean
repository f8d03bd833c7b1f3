import Verif.Model.Cost
/-!
C61: the resolution cost. `view c` is the list of the eight components of a cost, most important first, as the accessors return them.
-/
namespace Verif.Cost
open Verif

/-- The components in the order of the property: unsafe, implicit, poly, safe, sign, var, spec, reference. -/
def view (c : Cost) : List Int :=
  [getUnsafe c, getImplicit c, getPoly c, getSafe c, getSign c, getVar c, getSpec c, getReference c]

/-- The lexicographic order of lists. -/
def LexLt : List Int → List Int → Prop
  | a :: as, b :: bs => a < b ∨ (a = b ∧ LexLt as bs)
  | _, _ => False

theorem lexNil : LexLt [] [] = False := rfl

/-- Component-wise sum. -/
def sumView : List Int → List Int → List Int := List.zipWith (· + ·)

/-- The components stay in their ranges: below 256, and the (negative) spec cost above -256. -/
def InRange : List Int → Prop
  | [a, b, c, d, e, f, g, h] => (0 ≤ a ∧ a < 256) ∧ (0 ≤ b ∧ b < 256) ∧ (0 ≤ c ∧ c < 256) ∧ (0 ≤ d ∧ d < 256) ∧ (0 ≤ e ∧ e < 256) ∧ (0 ≤ f ∧ f < 256) ∧
    (-256 < g ∧ g ≤ 0) ∧ (0 ≤ h ∧ h < 256)
  | _ => False

/-- A word. -/
def Word (c : Cost) : Prop := c.all < 2 ^ 64

theorem digits {x : Nat} (h : x < 2 ^ 64) : x = x % 256 + x / 256 ^ 1 % 256 * 256 + x / 256 ^ 2 % 256 * 65536 + x / 256 ^ 3 % 256 * 16777216 + x / 256 ^ 4 % 256 * 4294967296
    + x / 256 ^ 5 % 256 * 1099511627776 + x / 256 ^ 6 % 256 * 281474976710656 + x / 256 ^ 7 % 256 * 72057594037927936 := by
  omega

/-- The word is determined by its bytes. -/
theorem bytes_eq {c : Cost} (h : Word c) : c.all = byte c 0 + byte c 1 * 256 + byte c 2 * 65536 + byte c 3 * 16777216 + byte c 4 * 4294967296
    + byte c 5 * 1099511627776 + byte c 6 * 281474976710656 + byte c 7 * 72057594037927936 := by
  have := digits h
  simp only [byte, Nat.pow_zero, Nat.div_one]
  exact this

theorem byte_lt (c : Cost) (k : Nat) : byte c k < 256 := Nat.mod_lt _ (by decide)

/-- The bytes of a word built from bytes. -/
theorem byte_of {x a b c d e f g h : Nat} (ha : a < 256) (hb : b < 256) (hc : c < 256) (hd : d < 256) (he : e < 256) (hf : f < 256) (hg : g < 256) (hh : h < 256)
    (hx : x = h + g * 256 + f * 65536 + e * 16777216 + d * 4294967296 + c * 1099511627776 + b * 281474976710656 + a * 72057594037927936) :
    byte ⟨x⟩ 7 = a ∧ byte ⟨x⟩ 6 = b ∧ byte ⟨x⟩ 5 = c ∧ byte ⟨x⟩ 4 = d ∧ byte ⟨x⟩ 3 = e ∧ byte ⟨x⟩ 2 = f ∧ byte ⟨x⟩ 1 = g ∧ byte ⟨x⟩ 0 = h := by
  simp only [byte]
  refine ⟨?_, ?_, ?_, ?_, ?_, ?_, ?_, ?_⟩ <;> omega

theorem view_inj {a b : Cost} (ha : Word a) (hb : Word b) (h : view a = view b) : a = b := by
  have h1 := bytes_eq ha
  have h2 := bytes_eq hb
  simp only [view, getUnsafe, getImplicit, getPoly, getSafe, getSign, getVar, getSpec, getReference, List.cons.injEq] at h
  have := byte_lt a 1
  have := byte_lt b 1
  have : a.all = b.all := by omega
  exact congrArg Cost.mk this

theorem lex_iff {a b : Cost} (ha : Word a) (hb : Word b) : LexLt (view a) (view b) ↔ a.all < b.all := by
  have h1 := bytes_eq ha
  have h2 := bytes_eq hb
  have a0 := byte_lt a 0; have a1 := byte_lt a 1; have a2 := byte_lt a 2; have a3 := byte_lt a 3
  have a4 := byte_lt a 4; have a5 := byte_lt a 5; have a6 := byte_lt a 6; have a7 := byte_lt a 7
  have b0 := byte_lt b 0; have b1 := byte_lt b 1; have b2 := byte_lt b 2; have b3 := byte_lt b 3
  have b4 := byte_lt b 4; have b5 := byte_lt b 5; have b6 := byte_lt b 6; have b7 := byte_lt b 7
  simp only [view, getUnsafe, getImplicit, getPoly, getSafe, getSign, getVar, getSpec, getReference, LexLt, lexNil, correctb, and_false, or_false]
  generalize byte a 0 = x0 at *; generalize byte a 1 = x1 at *; generalize byte a 2 = x2 at *; generalize byte a 3 = x3 at *
  generalize byte a 4 = x4 at *; generalize byte a 5 = x5 at *; generalize byte a 6 = x6 at *; generalize byte a 7 = x7 at *
  generalize byte b 0 = y0 at *; generalize byte b 1 = y1 at *; generalize byte b 2 = y2 at *; generalize byte b 3 = y3 at *
  generalize byte b 4 = y4 at *; generalize byte b 5 = y5 at *; generalize byte b 6 = y6 at *; generalize byte b 7 = y7 at *
  rcases Nat.lt_trichotomy x7 y7 with h | h | h
  · constructor
    · intro; omega
    · intro; omega
  · rcases Nat.lt_trichotomy x6 y6 with h | h | h
    · constructor <;> intro <;> omega
    · rcases Nat.lt_trichotomy x5 y5 with h | h | h
      · constructor <;> intro <;> omega
      · rcases Nat.lt_trichotomy x4 y4 with h | h | h
        · constructor <;> intro <;> omega
        · rcases Nat.lt_trichotomy x3 y3 with h | h | h
          · constructor <;> intro <;> omega
          · rcases Nat.lt_trichotomy x2 y2 with h | h | h
            · constructor <;> intro <;> omega
            · rcases Nat.lt_trichotomy x1 y1 with h | h | h
              · constructor <;> intro <;> omega
              · constructor <;> intro <;> omega
              · constructor <;> intro <;> omega
            · constructor <;> intro <;> omega
          · constructor <;> intro <;> omega
        · constructor <;> intro <;> omega
      · constructor <;> intro <;> omega
    · constructor <;> intro <;> omega
  · constructor <;> intro <;> omega

/-- C61: for finite costs `<` is the lexicographic order of the components, `==` is equality of all components, `<=` is their disjunction, and `compare` is
    negative, zero, positive accordingly. -/
theorem C61_lexicographic {a b : Cost} (ha : Word a) (hb : Word b) (ia : a ≠ infinity) (ib : b ≠ infinity) :
    (lt a b = true ↔ LexLt (view a) (view b)) ∧ (eq a b = true ↔ view a = view b) ∧ (ne a b = true ↔ view a ≠ view b) ∧
    (le a b = true ↔ LexLt (view a) (view b) ∨ view a = view b) ∧
    (compare a b < 0 ↔ LexLt (view a) (view b)) ∧ (compare a b = 0 ↔ view a = view b) ∧ (compare a b > 0 ↔ LexLt (view b) (view a)) := by
  have e1 : a.all ≠ infinity.all := fun h => ia (by cases a; simp_all)
  have e2 : b.all ≠ infinity.all := fun h => ib (by cases b; simp_all)
  have e3 : view a = view b ↔ a.all = b.all := ⟨fun h => by rw [view_inj ha hb h], fun h => by cases a; cases b; simp_all⟩
  rw [lex_iff ha hb, lex_iff hb ha, e3]
  have hlt : lt a b = true ↔ a.all < b.all := by simp [lt, e1, e2]
  have hgt : lt b a = true ↔ b.all < a.all := by simp [lt, e1, e2]
  refine ⟨hlt, by simp [eq], by simp [ne, e3], ?_, ?_, ?_, ?_⟩
  · simp only [le, Bool.not_eq_true', ← Bool.not_eq_true, hgt]; omega
  all_goals
    simp only [compare, e1, e2, if_false]
    split
    · simp; omega
    · split
      · simp; omega
      · simp; omega

/-- C61: infinity is greater than every other cost, and nothing is greater than it. -/
theorem C61_infinity_greatest {a : Cost} : (a ≠ infinity → lt a infinity = true ∧ compare a infinity < 0 ∧ compare infinity a > 0) ∧ lt infinity a = false ∧ le a infinity = true := by
  refine ⟨fun h => ?_, by simp [lt], by simp [le, lt]⟩
  have e1 : a.all ≠ infinity.all := fun h' => h (by cases a; simp_all)
  simp [lt, compare, e1]

/-- C61: infinity is absorbing, on both sides, for `+` and `+=`. -/
theorem C61_infinity_absorbing (a : Cost) : add infinity a = infinity ∧ add a infinity = infinity ∧ addAssign infinity a = infinity ∧ addAssign a infinity = infinity := by
  refine ⟨by simp [add], by simp [add], by simp [addAssign], ?_⟩
  simp only [addAssign]
  split
  · next h => cases a; simp_all
  · simp

theorem view_range {c : Cost} : InRange (view c) := by
  have a0 := byte_lt c 0; have a1 := byte_lt c 1; have a2 := byte_lt c 2; have a3 := byte_lt c 3
  have a4 := byte_lt c 4; have a5 := byte_lt c 5; have a6 := byte_lt c 6; have a7 := byte_lt c 7
  simp only [view, getUnsafe, getImplicit, getPoly, getSafe, getSign, getVar, getSpec, getReference, InRange, correctb]
  omega

/-- The word of a sum whose components stay in range. -/
theorem add_all {a b : Cost} (ha : Word a) (hb : Word b) (ia : a ≠ infinity) (ib : b ≠ infinity) (hr : InRange (sumView (view a) (view b))) :
    add a b = ⟨a.all + b.all - correctw⟩ ∧ correctw ≤ a.all + b.all ∧ a.all + b.all - correctw < 2 ^ 64 ∧
      view ⟨a.all + b.all - correctw⟩ = sumView (view a) (view b) := by
  have e1 : a.all ≠ infinity.all := fun h => ia (by cases a; simp_all)
  have e2 : b.all ≠ infinity.all := fun h => ib (by cases b; simp_all)
  have h1 := bytes_eq ha
  have h2 := bytes_eq hb
  simp only [sumView, view, getUnsafe, getImplicit, getPoly, getSafe, getSign, getVar, getSpec, getReference, List.zipWith, InRange, correctb] at hr
  obtain ⟨r7, r6, r5, r4, r3, r2, r1, r0⟩ := hr
  have hc : correctw ≤ a.all + b.all := by simp only [correctw]; omega
  have hl : a.all + b.all - correctw < 2 ^ 64 := by simp only [correctw] at *; omega
  refine ⟨?_, hc, hl, ?_⟩
  · simp only [add, e1, e2, or_self, if_false, u64, Cost.mk.injEq]
    omega
  · have := byte_of (x := a.all + b.all - correctw) (a := byte a 7 + byte b 7) (b := byte a 6 + byte b 6) (c := byte a 5 + byte b 5) (d := byte a 4 + byte b 4)
      (e := byte a 3 + byte b 3) (f := byte a 2 + byte b 2) (g := byte a 1 + byte b 1 - 255) (h := byte a 0 + byte b 0)
      (by omega) (by omega) (by omega) (by omega) (by omega) (by omega) (by omega) (by omega) (by simp only [correctw] at *; omega)
    obtain ⟨t7, t6, t5, t4, t3, t2, t1, t0⟩ := this
    simp only [sumView, view, getUnsafe, getImplicit, getPoly, getSafe, getSign, getVar, getSpec, getReference, List.zipWith, t7, t6, t5, t4, t3, t2, t1, t0, correctb]
    simp only [List.cons.injEq, and_true]
    omega

/-- C61: while the components stay in range, adding two finite costs adds them component by component, with `+` and with `+=`. -/
theorem C61_add_componentwise {a b : Cost} (ha : Word a) (hb : Word b) (ia : a ≠ infinity) (ib : b ≠ infinity) (hr : InRange (sumView (view a) (view b))) :
    view (add a b) = sumView (view a) (view b) ∧ Word (add a b) ∧ addAssign a b = add a b := by
  obtain ⟨h1, h2, h3, h4⟩ := add_all ha hb ia ib hr
  have e1 : a.all ≠ infinity.all := fun h => ia (by cases a; simp_all)
  have e2 : b.all ≠ infinity.all := fun h => ib (by cases b; simp_all)
  rw [h1]
  refine ⟨h4, h3, ?_⟩
  simp only [addAssign, e1, e2, if_false, u64, Cost.mk.injEq, Word] at *
  simp only [correctw] at *
  omega

/-- C61: addition is commutative. -/
theorem C61_add_comm (a b : Cost) : add a b = add b a := by
  simp only [add, Or.comm (a := a.all = _), Int.add_comm]

theorem zero_of_inf {c : Cost} (hw : Word c) (hr : InRange (sumView (view infinity) (view c))) : c = zero := by
  have h1 := bytes_eq hw
  have b7 : byte infinity 7 = 255 := by decide
  have b6 : byte infinity 6 = 255 := by decide
  have b5 : byte infinity 5 = 255 := by decide
  have b4 : byte infinity 4 = 255 := by decide
  have b3 : byte infinity 3 = 255 := by decide
  have b2 : byte infinity 2 = 255 := by decide
  have b1 : byte infinity 1 = 0 := by decide
  have b0 : byte infinity 0 = 255 := by decide
  have l1 := byte_lt c 1
  simp only [sumView, view, getUnsafe, getImplicit, getPoly, getSafe, getSign, getVar, getSpec, getReference, List.zipWith, InRange, correctb, b7, b6, b5, b4, b3, b2, b1, b0] at hr
  obtain ⟨all⟩ := c
  simp only [zero, Cost.mk.injEq]
  simp only at h1
  omega

theorem sum_assoc (x y z : List Int) : sumView (sumView x y) z = sumView x (sumView y z) := by
  induction x generalizing y z with
  | nil => simp [sumView]
  | cons a x ih =>
    cases y with
    | nil => simp [sumView]
    | cons b y =>
      cases z with
      | nil => simp [sumView]
      | cons c z =>
        have := ih y z
        simp only [sumView, List.zipWith, List.cons.injEq] at *
        exact ⟨by omega, this⟩

/-- C61: addition is associative while the components stay in range. -/
theorem C61_add_assoc {a b c : Cost} (ha : Word a) (hb : Word b) (hc : Word c) (hab : InRange (sumView (view a) (view b))) (hbc : InRange (sumView (view b) (view c)))
    (habc : InRange (sumView (sumView (view a) (view b)) (view c))) : add (add a b) c = add a (add b c) := by
  by_cases ia : a = infinity
  · subst ia; rw [(C61_infinity_absorbing b).1, (C61_infinity_absorbing c).1, (C61_infinity_absorbing _).1]
  by_cases ib : b = infinity
  · subst ib; rw [(C61_infinity_absorbing a).2.1, (C61_infinity_absorbing c).1, (C61_infinity_absorbing a).2.1]
  by_cases ic : c = infinity
  · subst ic; rw [(C61_infinity_absorbing b).2.1, (C61_infinity_absorbing (add a b)).2.1, (C61_infinity_absorbing a).2.1]
  obtain ⟨v1, w1, -⟩ := C61_add_componentwise ha hb ia ib hab
  obtain ⟨v2, w2, -⟩ := C61_add_componentwise hb hc ib ic hbc
  have z1 : ∀ x : Cost, Word x → x ≠ infinity → add x zero = x := by
    intro x hx hi
    have e1 : x.all ≠ infinity.all := fun h => hi (by cases x; simp_all)
    simp only [Word] at hx
    obtain ⟨x⟩ := x
    have : zero.all ≠ infinity.all := by decide
    simp only [add, e1, this, or_self, if_false, u64, Cost.mk.injEq]
    simp only [zero, correctw] at *
    omega
  have z2 : ∀ x : Cost, Word x → x ≠ infinity → add zero x = x := fun x hx hi => by rw [C61_add_comm]; exact z1 x hx hi
  have zi : add infinity zero = infinity := (C61_infinity_absorbing _).1
  by_cases i1 : add a b = infinity
  · have : c = zero := zero_of_inf hc (by rw [← i1, v1]; exact habc)
    subst this
    rw [z1 b hb ib, i1, zi]
  by_cases i2 : add b c = infinity
  · have : a = zero := by
      refine zero_of_inf ha ?_
      have : sumView (view infinity) (view a) = sumView (view a) (view infinity) := by
        simp [sumView, view, List.zipWith, Int.add_comm]
      rw [this, ← i2, v2, ← sum_assoc]
      exact habc
    subst this
    rw [z2 b hb ib, i2, (C61_infinity_absorbing _).2.1]
  obtain ⟨v3, w3, -⟩ := C61_add_componentwise w1 hc i1 ic (by rw [v1]; exact habc)
  obtain ⟨v4, w4, -⟩ := C61_add_componentwise ha w2 ia i2 (by rw [v2, ← sum_assoc]; exact habc)
  refine view_inj w3 w4 ?_
  rw [v3, v4, v1, v2, sum_assoc]

/-- C61: addition is monotone while the components stay in range: a cheaper cost stays cheaper. -/
theorem C61_add_monotone {a b c : Cost} (ha : Word a) (hb : Word b) (hc : Word c) (ia : a ≠ infinity) (ib : b ≠ infinity) (ic : c ≠ infinity)
    (hac : InRange (sumView (view a) (view c))) (hbc : InRange (sumView (view b) (view c))) (ha' : add a c ≠ infinity) (hb' : add b c ≠ infinity) :
    (lt a b = true ↔ lt (add a c) (add b c) = true) ∧ (le a b = true ↔ le (add a c) (add b c) = true) := by
  obtain ⟨h1, h2, h3, -⟩ := add_all ha hc ia ic hac
  obtain ⟨h4, h5, h6, -⟩ := add_all hb hc ib ic hbc
  have e1 : ∀ x : Cost, x ≠ infinity → x.all ≠ infinity.all := fun x hx h => hx (by cases x; simp_all)
  simp only [le, lt, e1 a ia, e1 b ib, e1 _ ha', e1 _ hb', if_false]
  rw [h1, h4]
  simp only [decide_eq_true_eq, Bool.not_eq_true', decide_eq_false_iff_not]
  omega

/-- C61: an increment changes its own component and no other, or aborts when the component would leave its range; infinity is left alone. -/
theorem C61_increments {c : Cost} (hw : Word c) (ic : c ≠ infinity) (i : Nat) :
    (∀ c', incUnsafe c i = .ret c' → view c' = sumView (view c) [i, 0, 0, 0, 0, 0, 0, 0]) ∧ (∀ c', incImplicit c i = .ret c' → view c' = sumView (view c) [0, i, 0, 0, 0, 0, 0, 0]) ∧
    (∀ c', incPoly c i = .ret c' → view c' = sumView (view c) [0, 0, i, 0, 0, 0, 0, 0]) ∧ (∀ c', incSafe c i = .ret c' → view c' = sumView (view c) [0, 0, 0, i, 0, 0, 0, 0]) ∧
    (∀ c', incSign c i = .ret c' → view c' = sumView (view c) [0, 0, 0, 0, i, 0, 0, 0]) ∧ (∀ c', incVar c i = .ret c' → view c' = sumView (view c) [0, 0, 0, 0, 0, i, 0, 0]) ∧
    (∀ c', decSpec c i = .ret c' → view c' = sumView (view c) [0, 0, 0, 0, 0, 0, -i, 0]) ∧ (∀ c', incReference c i = .ret c' → view c' = sumView (view c) [0, 0, 0, 0, 0, 0, 0, i]) := by
  have e1 : c.all ≠ infinity.all := fun h => ic (by cases c; simp_all)
  have h1 := bytes_eq hw
  have a0 := byte_lt c 0; have a1 := byte_lt c 1; have a2 := byte_lt c 2; have a3 := byte_lt c 3
  have a4 := byte_lt c 4; have a5 := byte_lt c 5; have a6 := byte_lt c 6; have a7 := byte_lt c 7
  refine ⟨?_, ?_, ?_, ?_, ?_, ?_, ?_, ?_⟩
  all_goals
    intro c' h
    simp only [incUnsafe, incImplicit, incPoly, incSafe, incSign, incVar, decSpec, incReference, inc, e1, if_false] at h
    split at h
    rotate_left
    · cases h
    cases h
  · obtain ⟨t7, t6, t5, t4, t3, t2, t1, t0⟩ := byte_of (x := c.all + i * 256 ^ 7) (a := byte c 7 + i) (by omega) a6 a5 a4 a3 a2 a1 a0 (by omega)
    simp [sumView, view, getUnsafe, getImplicit, getPoly, getSafe, getSign, getVar, getSpec, getReference, t7, t6, t5, t4, t3, t2, t1, t0]
  · obtain ⟨t7, t6, t5, t4, t3, t2, t1, t0⟩ := byte_of (x := c.all + i * 256 ^ 6) (b := byte c 6 + i) a7 (by omega) a5 a4 a3 a2 a1 a0 (by omega)
    simp [sumView, view, getUnsafe, getImplicit, getPoly, getSafe, getSign, getVar, getSpec, getReference, t7, t6, t5, t4, t3, t2, t1, t0]
  · obtain ⟨t7, t6, t5, t4, t3, t2, t1, t0⟩ := byte_of (x := c.all + i * 256 ^ 5) (c := byte c 5 + i) a7 a6 (by omega) a4 a3 a2 a1 a0 (by omega)
    simp [sumView, view, getUnsafe, getImplicit, getPoly, getSafe, getSign, getVar, getSpec, getReference, t7, t6, t5, t4, t3, t2, t1, t0]
  · obtain ⟨t7, t6, t5, t4, t3, t2, t1, t0⟩ := byte_of (x := c.all + i * 256 ^ 4) (d := byte c 4 + i) a7 a6 a5 (by omega) a3 a2 a1 a0 (by omega)
    simp [sumView, view, getUnsafe, getImplicit, getPoly, getSafe, getSign, getVar, getSpec, getReference, t7, t6, t5, t4, t3, t2, t1, t0]
  · obtain ⟨t7, t6, t5, t4, t3, t2, t1, t0⟩ := byte_of (x := c.all + i * 256 ^ 3) (e := byte c 3 + i) a7 a6 a5 a4 (by omega) a2 a1 a0 (by omega)
    simp [sumView, view, getUnsafe, getImplicit, getPoly, getSafe, getSign, getVar, getSpec, getReference, t7, t6, t5, t4, t3, t2, t1, t0]
  · obtain ⟨t7, t6, t5, t4, t3, t2, t1, t0⟩ := byte_of (x := c.all + i * 256 ^ 2) (f := byte c 2 + i) a7 a6 a5 a4 a3 (by omega) a1 a0 (by omega)
    simp [sumView, view, getUnsafe, getImplicit, getPoly, getSafe, getSign, getVar, getSpec, getReference, t7, t6, t5, t4, t3, t2, t1, t0]
  · obtain ⟨t7, t6, t5, t4, t3, t2, t1, t0⟩ := byte_of (x := c.all - i * 256) (g := byte c 1 - i) a7 a6 a5 a4 a3 a2 (by omega) a0 (by omega)
    simp [sumView, view, getUnsafe, getImplicit, getPoly, getSafe, getSign, getVar, getSpec, getReference, t7, t6, t5, t4, t3, t2, t1, t0]
    omega
  · obtain ⟨t7, t6, t5, t4, t3, t2, t1, t0⟩ := byte_of (x := c.all + i) (h := byte c 0 + i) a7 a6 a5 a4 a3 a2 a1 (by omega) (by omega)
    simp [sumView, view, getUnsafe, getImplicit, getPoly, getSafe, getSign, getVar, getSpec, getReference, t7, t6, t5, t4, t3, t2, t1, t0]

/-- C61: an increment aborts exactly when its component would leave its range. -/
theorem C61_increment_abort {c : Cost} (ic : c ≠ infinity) (i k : Nat) : (inc k c i = .abort ↔ 255 < byte c k + i) ∧ (decSpec c i = .abort ↔ byte c 1 < i) := by
  have e1 : c.all ≠ infinity.all := fun h => ic (by cases c; simp_all)
  simp only [inc, decSpec, e1, if_false]
  constructor
  · split <;> simp <;> omega
  · split <;> simp <;> omega

/-- C61: the constructor of eight components builds a cost with these components (its parameters are in another order). -/
theorem C61_constructor {a b c d e f g h : Int} (hr : InRange [a, b, c, d, e, f, g, h]) : view (mk8 a c d e b f g h) = [a, b, c, d, e, f, g, h] := by
  simp only [InRange] at hr
  have u : ∀ x : Int, 0 ≤ x → x < 256 → ((uchar x : Nat) : Int) = x ∧ uchar x < 256 := by intro x h1 h2; simp only [uchar]; omega
  have ua := u a (by omega) (by omega); have ub := u b (by omega) (by omega); have uc := u c (by omega) (by omega); have ud := u d (by omega) (by omega)
  have ue := u e (by omega) (by omega); have uf := u f (by omega) (by omega); have ug := u (g + correctb) (by simp only [correctb]; omega) (by simp only [correctb]; omega)
  have uh := u h (by omega) (by omega)
  obtain ⟨t7, t6, t5, t4, t3, t2, t1, t0⟩ := byte_of (x := (mk8 a c d e b f g h).all) ua.2 ub.2 uc.2 ud.2 ue.2 uf.2 ug.2 uh.2 (by simp only [mk8])
  have : view (mk8 a c d e b f g h) = view ⟨(mk8 a c d e b f g h).all⟩ := rfl
  rw [this]
  simp only [view, getUnsafe, getImplicit, getPoly, getSafe, getSign, getVar, getSpec, getReference, t7, t6, t5, t4, t3, t2, t1, t0, List.cons.injEq, and_true]
  simp only [correctb] at *
  omega

/-- The named constants other than `implicit`: one unit of their component. -/
theorem C61_constants : view zero = [0, 0, 0, 0, 0, 0, 0, 0] ∧ view unsafeC = [1, 0, 0, 0, 0, 0, 0, 0] ∧ view poly = [0, 0, 1, 0, 0, 0, 0, 0] ∧ view safe = [0, 0, 0, 1, 0, 0, 0, 0] ∧
    view sign = [0, 0, 0, 0, 1, 0, 0, 0] ∧ view var = [0, 0, 0, 0, 0, 1, 0, 0] ∧ view spec = [0, 0, 0, 0, 0, 0, -1, 0] ∧ view reference = [0, 0, 0, 0, 0, 0, 0, 1] := by decide

example : Word poly ∧ Word safe ∧ poly ≠ infinity ∧ InRange (sumView (view poly) (view safe)) ∧ LexLt (view safe) (view poly) ∧ lt safe poly = true ∧
    view (add (add poly safe) spec) = [0, 0, 1, 1, 0, 0, -1, 0] := by
  refine ⟨by simp [Word, poly], by simp [Word, safe], by decide, ?_, ?_, by decide, by decide⟩
  · have : sumView (view poly) (view safe) = [0, 0, 1, 1, 0, 0, 0, 0] := by decide
    rw [this]; simp [InRange]
  · have h1 : view poly = [0, 0, 1, 0, 0, 0, 0, 0] := by decide
    have h2 : view safe = [0, 0, 0, 1, 0, 0, 0, 0] := by decide
    rw [h1, h2]; simp [LexLt]

/-- C61 is false of the constant `implicit`: it is one implicit conversion and one sign conversion, so it is not `zero` with one implicit conversion. -/
theorem C61_implicit_constant_violated : view implicitC = [0, 1, 0, 0, 1, 0, 0, 0] ∧ incImplicit zero 1 ≠ .ret implicitC := by decide

/-- C61 is false of `compare` at infinity: comparing infinity with itself says greater, although they are equal and neither is less. -/
theorem C61_compare_infinity_violated : compare infinity infinity = 1 ∧ eq infinity infinity = true ∧ lt infinity infinity = false := by decide

/-- Outside the range an addition carries into the next component: two costs of 128 safe conversions have one poly conversion and none safe. -/
theorem C61_overflow_violated : ∃ a, incSafe zero 128 = .ret a ∧ view (add a a) = [0, 0, 1, 0, 0, 0, 0, 0] :=
  ⟨⟨0x000000800000ff00⟩, by decide, by decide⟩

end Verif.Cost
