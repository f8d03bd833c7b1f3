import Verif.Proof.ArithRes
/-!
C97: arithmetic expressions are given the types and conversions of C, and the versions of the operators nearest to their operands; where they are not.
-/
namespace Verif.Arith
open Verif Verif.Cost

/-- C97: for operands an operator is declared for there is exactly one nearest version: both operands widen to its type, and its type widens to that of every other version both operands widen to. -/
theorem C97_nearest (op : Op2) (a b : Kind) (h : Fits2 op a b) : ∃ k, Nearest (overloads2 op) a b k ∧ ∀ k', Nearest (overloads2 op) a b k' → k' = k :=
  ⟨_, nearest_fits h, fun _ h' => nearest_unique h' (nearest_fits h)⟩

/-- An `unsigned int` and a `double`: the version for `double`. -/
example : Fits2 .add .unsignedInt .double ∧ Nearest (overloads2 .add) .unsignedInt .double .double := by
  have h : Fits2 .add .unsignedInt .double := by decide +kernel
  exact ⟨h, nearest_fits h⟩

/-- C97: any two basic types have a least common type, which is the type of a conditional expression over them: both widen to it, and it widens to every type both widen to. -/
theorem C97_common (a b : Kind) : Nearest kinds a b (common a b) ∧ common a b = common b a ∧ common a a = a ∧ ∀ c, common (common a b) c = common a (common b c) := by
  have hn := fun a b => nearest_kinds a b
  have htr : ∀ {a b c : Kind}, SafeTo a b → SafeTo b c → SafeTo a c := by
    intro a b c h1 h2
    have := forall1 (forall2 (p := fun a b => kinds.all fun c => ! decide (SafeTo a b) || ! decide (SafeTo b c) || decide (SafeTo a c)) (by decide +kernel) a b) c
    simpa [h1, h2] using this
  have hm := mem_kinds
  refine ⟨hn a b, antisymm ((hn a b).least _ (hm _) (hn b a).right (hn b a).left) ((hn b a).least _ (hm _) (hn a b).right (hn a b).left), if_pos rfl, fun c => ?_⟩
  have x := hn a b; have y := hn b c; have z := hn (common a b) c; have w := hn a (common b c)
  exact antisymm (z.least _ (hm _) (x.least _ (hm _) w.left (htr y.left w.right)) (htr y.right w.right))
    (w.least _ (hm _) (htr x.left z.left) (y.least _ (hm _) (htr x.right z.left) z.right))

/-- `float _Complex` and `double` have the common type `double _Complex`. -/
example : common .floatComplex .double = .doubleComplex := by decide +kernel

/-- C97: an expression over variables has at most one reading with the nearest version everywhere. -/
theorem C97_reading (e : Expr) (t t' : TExpr) (h : Elab e t) (h' : Elab e t') : t = t' := elab_unique h h'

/-- C97: in whatever order the operators were declared, an expression of any shape over variables of one type each is resolved without ambiguity to the reading with the nearest version of every
operator, used as a value or as a statement. Missing: `_Bool` operands alone (`C97_bool_violated`), types without operators of their own (`C97_float32_violated`), operands an operator is not
declared for (`C97_remainder_violated`), expressions with 254 casts (`C97_casts_violated`) or 65536 operators. -/
theorem C97_resolved_partial (o1 : Op1 → List Kind) (o2 : Op2 → List Kind) (h1 : ∀ op, (o1 op).Perm (overloads1 op)) (h2 : ∀ op, (o2 op).Perm (overloads2 op)) (e : Expr) (k : Kind)
    (hf : Fit e k) (hc : e.casts < 254) (hs : e.size < 2 ^ 16) :
    ∃ t, Elab e t ∧ t.kind = k ∧ resolve o1 o2 e = some t ∧ resolveStmt o1 o2 e = some (.cast none t) := by
  obtain ⟨t, c, u, m, e1, el, tk, s, lu, lm⟩ := find_one h1 h2 hf hc hs
  refine ⟨t, el, tk, by rw [resolve, e1]; rfl, ?_⟩
  rw [resolveStmt, e1]
  show (finish (castCands none [_])).bind choose = _
  rw [castCands_one (c := ⟨t, c.1, c.2⟩) s (show Sh 0 256 (conversionCost t.kind none) from sh_safe) (by omega) (by omega), finish_one]
  rfl

/-- `( a + b ) * x > (char)c` for `int a`, `long b`, `float x` and `double c`. -/
def sample : Expr := .bin .gt (.bin .mul (.bin .add (.name [.signedInt]) (.name [.longSignedInt])) (.name [.float])) (.cast .char (.name [.double]))

theorem sample_fit : Fit sample .signedInt := by
  have n1 : Nearest (overloads2 .add) .signedInt .longSignedInt .longSignedInt := nearest_fits (op := .add) (a := .signedInt) (b := .longSignedInt) (by decide +kernel)
  have n2 : Nearest (overloads2 .mul) .longSignedInt .float .float := nearest_fits (op := .mul) (a := .longSignedInt) (b := .float) (by decide +kernel)
  have n3 : Nearest (overloads2 .gt) .float .char .float := nearest_fits (op := .gt) (a := .float) (b := .char) (by decide +kernel)
  exact .bin (.bin (.bin (.name (by decide +kernel)) (.name (by decide +kernel)) (by decide +kernel) n1) (.name (by decide +kernel)) (by decide +kernel) n2)
    (.cast (.name (by decide +kernel)) (by decide +kernel)) (by decide +kernel) n3

example : Fit sample .signedInt ∧ sample.casts < 254 ∧ sample.size < 2 ^ 16 ∧ resolve overloads1 overloads2 sample =
    some (.bin .gt .float (.bin .mul .float (.cast (some .float) (.bin .add .longSignedInt (.cast (some .longSignedInt) (.var .signedInt)) (.var .longSignedInt))) (.var .float))
      (.cast (some .float) (.cast (some .char) (.var .double)))) := ⟨sample_fit, by decide, by decide, by decide +kernel⟩

/-- C97: an expression C accepts, over variables and casts of types of at least the rank of `int`, is resolved to the expression with the conversions of C: every operand is converted to the
type of the usual arithmetic conversions, and the expression has the type C gives it. Missing: smaller types (`C97_promotion_violated`), `unsigned long` with `long long`
(`C97_longlong_violated`), shifts of one type by another (`C97_shift_violated`), and the size limits of `C97_resolved_partial`. -/
theorem C97_as_in_C_partial (o1 : Op1 → List Kind) (o2 : Op2 → List Kind) (h1 : ∀ op, (o1 op).Perm (overloads1 op)) (h2 : ∀ op, (o2 op).Perm (overloads2 op)) (e : Expr) (k : Kind)
    (hl : CLike e) (hk : cType e = some k) (hc : e.casts < 254) (hs : e.size < 2 ^ 16) :
    ∃ t, cElab e = some t ∧ t.kind = k ∧ resolve o1 o2 e = some t ∧ resolveStmt o1 o2 e = some (.cast none t) := by
  obtain ⟨t, e1, e2, -, el, hf⟩ := c_elab hl hk
  obtain ⟨t', el', -, r, r'⟩ := C97_resolved_partial o1 o2 h1 h2 e k hf hc hs
  have := elab_unique el' el
  subst this
  exact ⟨_, e1, e2, r, r'⟩

/-- `u + i < f ? d : z` in parts: `( u + i ) * d` for `unsigned int u`, `int i`, `double d`. -/
example : CLike (.bin .mul (.bin .add (.name [.unsignedInt]) (.name [.signedInt])) (.name [.double])) ∧
    cType (.bin .mul (.bin .add (.name [.unsignedInt]) (.name [.signedInt])) (.name [.double])) = some .double := by
  refine ⟨⟨⟨⟨_, rfl, by decide⟩, ⟨_, rfl, by decide⟩, ?_⟩, ⟨_, rfl, by decide⟩, ?_⟩, by decide +kernel⟩
  · intro ka kb ha hb
    have ha : ka = .unsignedInt := by have : some ka = some Kind.unsignedInt := ha.symm.trans (by decide +kernel); exact Option.some.inj this
    have hb : kb = .signedInt := by have : some kb = some Kind.signedInt := hb.symm.trans (by decide +kernel); exact Option.some.inj this
    subst ha hb
    exact ⟨by decide +kernel, by decide⟩
  · intro ka kb ha hb
    have ha : ka = .unsignedInt := by have : some ka = some Kind.unsignedInt := ha.symm.trans (by decide +kernel); exact Option.some.inj this
    have hb : kb = .double := by have : some kb = some Kind.double := hb.symm.trans (by decide +kernel); exact Option.some.inj this
    subst ha hb
    exact ⟨by decide +kernel, by decide⟩

/-- C97: a conversion between integer types counted as safe and without change of sign keeps every value. Missing: safe conversions counted as changing the sign (`C97_safe_violated`). -/
theorem C97_value_partial (a b : Kind) (ra rb : Int × Int) (ha : rangeOf a = some ra) (hb : rangeOf b = some rb) (hs : SafeTo a b) (hz : signAt a b = 0) (v : Int)
    (h1 : ra.1 ≤ v) (h2 : v ≤ ra.2) : rb.1 ≤ v ∧ v ≤ rb.2 := by
  have := forall2 (p := fun a b => match rangeOf a, rangeOf b with
    | some ra, some rb => ! decide (SafeTo a b) || ! decide (signAt a b = 0) || (decide (rb.1 ≤ ra.1) && decide (ra.2 ≤ rb.2))
    | _, _ => true) (by decide +kernel) a b
  simp only [ha, hb] at this
  simp only [hs, hz, decide_true, Bool.not_true, Bool.false_or, Bool.and_eq_true, decide_eq_true_eq] at this
  omega

example : SafeTo .shortSignedInt .longSignedInt ∧ signAt .shortSignedInt .longSignedInt = 0 ∧ rangeOf .shortSignedInt = some (-32768, 32767) := by decide +kernel

/-- C97: of two parameter types an argument widens to, where the one widens to the other, the nearer is the cheaper to convert to, unless only the farther keeps the argument's signedness. Missing: a
`_Bool` or `char` argument and a parameter of type `char` or `signed char` (`C97_nearer_violated`). -/
theorem C97_nearer_partial (a b c : Kind) (hab : SafeTo a b) (hbc : SafeTo b c) (hne : b ≠ c) (hs : Unsigned b = Unsigned a ∨ Unsigned c ≠ Unsigned a)
    (hu : a = .bool → b ≠ .char) (hf : a = .char → b ≠ .signedChar) :
    lt (conversionCost a (some b)) (conversionCost a (some c)) = true := by
  have := forall1 (forall2 (p := fun a b => kinds.all fun c => ! decide (SafeTo a b) || ! decide (SafeTo b c) || decide (b = c) || ! (Unsigned b == Unsigned a || ! (Unsigned c == Unsigned a)) ||
    (a == .bool && b == .char) || (a == .char && b == .signedChar) || lt (conversionCost a (some b)) (conversionCost a (some c))) (by decide +kernel) a b) c
  have h : ((a = .bool ∧ b = .char) ∨ a = .char ∧ b = .signedChar) ∨ lt (conversionCost a (some b)) (conversionCost a (some c)) = true := by
    rcases hs with hs | hs <;> simpa [hab, hbc, hne, hs] using this
  rcases h with (⟨h1, h2⟩ | ⟨h1, h2⟩) | h
  · exact absurd h2 (hu h1)
  · exact absurd h2 (hf h1)
  · exact h

/-- An `int` goes to `float` rather than to `double`, and to `long` rather than to `unsigned int`. -/
example : SafeTo .signedInt .float ∧ SafeTo .float .double ∧ lt (conversionCost .signedInt (some .float)) (conversionCost .signedInt (some .double)) = true ∧
    lt (conversionCost .signedInt (some .longSignedInt)) (conversionCost .signedInt (some .unsignedInt)) = true :=
  ⟨by decide, by decide, C97_nearer_partial _ _ _ (by decide) (by decide) (by decide) (by decide) (by decide) (by decide), by decide +kernel⟩

/-- C97 fails: an operator applied to two `_Bool` variables is rejected: the versions for `char` and for `signed char` are equally near, so `b1 + b2` is ambiguous, as a statement and where an
`int` is wanted. In C it is an `int`. -/
theorem C97_bool_violated :
    let e : Expr := .bin .add (.name [.bool]) (.name [.bool])
    cType e = some .signedInt ∧ resolve overloads1 overloads2 e = none ∧ resolveStmt overloads1 overloads2 e = none ∧ resolve overloads1 overloads2 (.cast .signedInt e) = none ∧
    resolve overloads1 overloads2 (.un .minus (.name [.bool])) = none := by decide +kernel

/-- C97 fails: there is no integer promotion. The sum of two `char` is a `char`, and a `signed char` compared with an `unsigned char` is converted to `unsigned char`: for `-1` and `1` the
comparison is false, in C it is true. -/
theorem C97_promotion_violated :
    (resolve overloads1 overloads2 (.bin .add (.name [.char]) (.name [.char]))).map TExpr.kind = some .char ∧ cType (.bin .add (.name [.char]) (.name [.char])) = some .signedInt ∧
    resolve overloads1 overloads2 (.bin .lt (.name [.signedChar]) (.name [.unsignedChar])) =
      some (.bin .lt .unsignedChar (.cast (some .unsignedChar) (.var .signedChar)) (.var .unsignedChar)) ∧
    ¬ toInt .unsignedChar (-1) < toInt .unsignedChar 1 ∧
    cBinary .lt .signedChar .unsignedChar = some (.signedInt, .signedInt, .signedInt) ∧ toInt .signedInt (-1) < toInt .signedInt 1 := by decide +kernel

/-- C97 fails: an `unsigned long` and a `long long` are converted to `long long`, in C to `unsigned long long`: for `1` and `-2` their sum is negative, in C it is the greatest value. -/
theorem C97_longlong_violated :
    (resolve overloads1 overloads2 (.bin .add (.name [.longUnsignedInt]) (.name [.longLongSignedInt]))).map TExpr.kind = some .longLongSignedInt ∧
    cType (.bin .add (.name [.longUnsignedInt]) (.name [.longLongSignedInt])) = some .longLongUnsignedInt ∧
    toInt .longLongSignedInt (1 + -2) = -1 ∧ toInt .longLongUnsignedInt (1 + -2) = 2 ^ 64 - 1 := by decide +kernel

/-- C97 fails: the left operand of a shift is converted to the type of the right one: an `unsigned int` shifted by a `long` is a `long`, in C an `unsigned int`, and the bits shifted out in C
are kept. -/
theorem C97_shift_violated :
    resolve overloads1 overloads2 (.bin .shl (.name [.unsignedInt]) (.name [.longSignedInt])) = some (.bin .shl .longSignedInt (.cast (some .longSignedInt) (.var .unsignedInt)) (.var .longSignedInt)) ∧
    cType (.bin .shl (.name [.unsignedInt]) (.name [.longSignedInt])) = some .unsignedInt ∧
    toInt .longSignedInt ((2 ^ 32 - 1) * 2 ^ 4) = 2 ^ 36 - 16 ∧ toInt .unsignedInt ((2 ^ 32 - 1) * 2 ^ 4) = 2 ^ 32 - 16 := by decide +kernel

/-- C97 fails: the remainder of a `double` is accepted, by narrowing the `double` to an `int`; C rejects it. -/
theorem C97_remainder_violated :
    resolve overloads1 overloads2 (.bin .mod (.name [.double]) (.name [.signedInt])) = some (.bin .mod .signedInt (.cast (some .signedInt) (.var .double)) (.var .signedInt)) ∧
    cType (.bin .mod (.name [.double]) (.name [.signedInt])) = none ∧ ¬ SafeTo .double .signedInt := by decide +kernel

/-- C97 fails: `_Float32` and `_Float64` have no operators: their sums are a `float` and a `double`. -/
theorem C97_float32_violated :
    (resolve overloads1 overloads2 (.bin .add (.name [.float32]) (.name [.float32]))).map TExpr.kind = some .float ∧
    (resolve overloads1 overloads2 (.bin .add (.name [.float64]) (.name [.float64]))).map TExpr.kind = some .double ∧ common .float32 .float32 = .float32 := by decide +kernel

/-- C97 fails: conversions that change values are counted as safe: an `int` is converted to `unsigned int`, an `unsigned long` to `long long`, with a finite number of safe steps. -/
theorem C97_safe_violated : SafeTo .signedInt .unsignedInt ∧ toInt .unsignedInt (-1) ≠ -1 ∧ SafeTo .longUnsignedInt .longLongSignedInt ∧ toInt .longLongSignedInt (2 ^ 63) ≠ 2 ^ 63 := by
  decide +kernel

/-- `(int)(char)(int)(char)…x` -/
def narrowed : Nat → Expr
  | 0 => .name [.signedInt]
  | n + 1 => .cast .signedInt (.cast .char (narrowed n))
/-- Its reading. -/
def narrowedT : Nat → TExpr
  | 0 => .var .signedInt
  | n + 1 => .cast (some .signedInt) (.cast (some .char) (narrowedT n))

theorem narrowed_elab : ∀ n, Elab (narrowed n) (narrowedT n)
  | 0 => .name _
  | n + 1 => .cast (.cast (narrowed_elab n))

/-- C97 fails: the count of narrowing conversions has one byte. After 255 of them in an operand the next one is free, and a `long` added to the operand is narrowed to `int`. -/
theorem C97_casts_violated :
    let e : Expr := .bin .add (narrowed 255) (.name [.longSignedInt])
    Elab e (.bin .add .longSignedInt (.cast (some .longSignedInt) (narrowedT 255)) (.var .longSignedInt)) ∧
    resolve overloads1 overloads2 e = some (.bin .add .signedInt (narrowedT 255) (.cast (some .signedInt) (.var .longSignedInt))) := by
  refine ⟨?_, by decide +kernel⟩
  have n1 : Nearest (overloads2 .add) .signedInt .longSignedInt .longSignedInt := nearest_fits (op := .add) (a := .signedInt) (b := .longSignedInt) (by decide +kernel)
  have := Elab.bin (op := .add) (narrowed_elab 255) (.name .longSignedInt) (show Nearest (overloads2 .add) (narrowedT 255).kind (TExpr.var .longSignedInt).kind .longSignedInt from n1)
  exact this

/-- C97 fails: a `char` is as near to `short` as to `signed char`, though `signed char` widens to `short`; and a `_Bool` as near to `signed char` as to `char`: a call with functions for both is ambiguous. -/
theorem C97_nearer_violated : SafeTo .char .signedChar ∧ SafeTo .signedChar .shortSignedInt ∧
    eq (conversionCost .char (some .signedChar)) (conversionCost .char (some .shortSignedInt)) = true ∧
    eq (conversionCost .bool (some .char)) (conversionCost .bool (some .signedChar)) = true := by decide +kernel

end Verif.Arith
