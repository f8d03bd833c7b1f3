import Verif.Model.Eval
/-!
C66: the values the compiler claims to know. The specification is the value of an integer expression in C, at the types of its operators.
-/
namespace Verif.Eval
open Verif

/-! ### Specification -/

def Ty.lo (t : Ty) : Int := if t.signed then -2 ^ (t.bits - 1) else 0
def Ty.hi (t : Ty) : Int := if t.signed then 2 ^ (t.bits - 1) else 2 ^ t.bits
/-- The values of a type. -/
def Ty.In (t : Ty) (v : Int) : Prop := t.lo ≤ v ∧ v < t.hi
instance (t : Ty) (v : Int) : Decidable (t.In v) := inferInstanceAs (Decidable (_ ∧ _))
/-- Conversion to a type. -/
def Ty.wrap (t : Ty) (v : Int) : Int := if t.signed then v.bmod (2 ^ t.bits) else v % 2 ^ t.bits
/-- The result of arithmetic at a type: unsigned arithmetic wraps, signed arithmetic that overflows has no value. -/
def Ty.arith (t : Ty) (v : Int) : Option Int := if t.signed then (if t.In v then some v else none) else some (t.wrap v)

def cun (f : Un) (t : Ty) (a : Int) : Option Int := match f with
  | .plus => some a
  | .neg => t.arith (-a)
  | .compl => t.arith (-a - 1)
  | .not => some (ofBool (a = 0))
  | .other => none

def cbin (f : Bin) (t : Ty) (a b : Int) : Option Int := match f with
  | .add => t.arith (a + b)
  | .sub => t.arith (a - b)
  | .mul => t.arith (a * b)
  | .div => if b = 0 then none else t.arith (a.tdiv b)
  | .mod => if b = 0 ∨ t.arith (a.tdiv b) = none then none else some (a.tmod b)
  | .shl => if 0 ≤ b ∧ b < t.bits ∧ 0 ≤ a then t.arith (a * 2 ^ b.toNat) else none
  | .shr => if 0 ≤ b ∧ b < t.bits then some (a / 2 ^ b.toNat) else none
  | .lt => some (ofBool (a < b))
  | .gt => some (ofBool (a > b))
  | .le => some (ofBool (a ≤ b))
  | .ge => some (ofBool (a ≥ b))
  | .eq => some (ofBool (a = b))
  | .ne => some (ofBool (a ≠ b))
  | .band => some (Int.land a b)
  | .xor => some (Int.xor a b)
  | .bor => some (Int.lor a b)
  | .other => none

/-- The value of an expression in C, when the variables have the values `σ`; `none`: it has none, or it is not described here (`other`). -/
def cval (σ : Nat → Int) : Expr → Option Int
  | .const v => some v
  | .sizeof v => some v
  | .logical isAnd a b => (cval σ a).bind fun x =>
    if (decide (x ≠ 0)) = isAnd then (cval σ b).map fun y => ofBool (y ≠ 0) else some (ofBool (x ≠ 0))
  | .cond a b c => (cval σ a).bind fun x => if x ≠ 0 then cval σ b else cval σ c
  | .cast t e => (cval σ e).map t.wrap
  | .enumerator v _ => some v
  | .var x => some (σ x)
  | .app1 f t a => (cval σ a).bind fun x => cun f t x
  | .app2 f t a b => (cval σ a).bind fun x => (cval σ b).bind fun y => cbin f t x y
  | .other => none

/-- No conversion and no unsigned operation of the expression changes a value by wrapping around, and types have at most 64 bits. -/
def NoWrap (σ : Nat → Int) : Expr → Prop
  | .logical _ a b => NoWrap σ a ∧ NoWrap σ b
  | .cond a b c => NoWrap σ a ∧ NoWrap σ b ∧ NoWrap σ c
  | .cast t e => NoWrap σ e ∧ ∀ v, cval σ e = some v → t.wrap v = v
  | .app1 f t a => NoWrap σ a ∧ (t.signed = false → ∀ x, cval σ a = some x → match f with
    | .neg => t.In (-x)
    | .compl => t.In (-x - 1)
    | _ => True)
  | .app2 f t a b => NoWrap σ a ∧ NoWrap σ b ∧ t.bits ≤ 64 ∧ ∀ x y, cval σ a = some x → cval σ b = some y → (t.signed = true ∨ match f with
    | .add => t.In (x + y)
    | .sub => t.In (x - y)
    | .mul => t.In (x * y)
    | .div => t.In (x.tdiv y)
    | .shl => t.In (x * 2 ^ y.toNat) ∧ x * 2 ^ y.toNat < 2 ^ 63
    | _ => True)
  | _ => True

/-! ### Proof -/

theorem wrap_in {t : Ty} (hs : t.signed = false) {v : Int} (h : t.In v) : t.wrap v = v := by
  simp only [Ty.In, Ty.lo, Ty.hi, hs, Bool.false_eq_true, if_false] at h
  simp only [Ty.wrap, hs, Bool.false_eq_true, if_false]
  exact Int.emod_eq_of_lt h.1 h.2

theorem arith_some {t : Ty} {v w : Int} (h : t.arith v = some w) (hu : t.signed = false → t.In v) : w = v := by
  unfold Ty.arith at h
  split at h
  · split at h
    · cases h; rfl
    · cases h
  · next hs =>
    have hs : t.signed = false := by simpa using hs
    rw [wrap_in hs (hu hs)] at h; cases h; rfl

theorem ll_ret {x y : Int} (h : ll x = .ret y) : y = x := by
  unfold ll at h; split at h <;> cases h; rfl

theorem bmod_small {x : Int} (h0 : 0 ≤ x) (h : x < 2 ^ 63) : x.bmod (2 ^ 64) = x := by
  rw [Int.bmod_eq_of_le (by omega) (by omega)]

theorem value_ok (σ : Nat → Int) : ∀ (e : Expr) (r : Evaluation) (v : Int), eval e = .ret r → r.known = true → r.gcc = true → NoWrap σ e → cval σ e = some v → r.value = v
  | .const c, r, v, h, _, _, _, hv => by simp only [eval, Outcome.ret.injEq, cval, Option.some.injEq] at h hv; subst h; exact hv
  | .sizeof c, r, v, h, hk, _, _, _ => by simp only [eval, Outcome.ret.injEq] at h; subst h; cases hk
  | .var x, r, v, h, hk, _, _, _ => by simp only [eval, Outcome.ret.injEq] at h; subst h; cases hk
  | .other, r, v, h, hk, _, _, _ => by simp only [eval, Outcome.ret.injEq] at h; subst h; cases hk
  | .enumerator w rec, r, v, h, hk, _, _, hv => by
    simp only [eval, Outcome.ret.injEq, cval, Option.some.injEq] at h hv
    subst h; simp only at hk; simp [hk, hv]
  | .cast t e, r, v, h, hk, hg, hn, hv => by
    simp only [eval] at h
    simp only [cval, Option.map_eq_some_iff] at hv
    obtain ⟨w, hw, rfl⟩ := hv
    rw [hn.2 w hw]
    exact value_ok σ e r w h hk hg hn.1 hw
  | .logical isAnd a b, r, v, h, hk, hg, hn, hv => by
    simp only [eval] at h
    cases ha : eval a with
    | abort => simp [ha] at h
    | undef => simp [ha] at h
    | ret r1 =>
      simp only [ha, Outcome.bind_ret] at h
      split at h
      · cases h; cases hg
      next g1 =>
      cases hb : eval b with
      | abort => simp [hb] at h
      | undef => simp [hb] at h
      | ret r2 =>
        simp only [hb, Outcome.bind_ret] at h
        split at h
        · cases h; cases hg
        next g2 =>
        split at h
        · cases h; cases hk
        next g3 =>
        cases h
        simp only [Bool.not_eq_true', Bool.not_eq_false, Bool.and_eq_true] at g1 g2 g3
        simp only [cval, Option.bind_eq_some_iff] at hv
        obtain ⟨x, hx, hv⟩ := hv
        have e1 := value_ok σ a r1 x ha g3.1 g1 hn.1 hx
        simp only [e1]
        split at hv
        · next hd =>
          simp only [Option.map_eq_some_iff] at hv
          obtain ⟨y, hy, rfl⟩ := hv
          have e2 := value_ok σ b r2 y hb g3.2 g2 hn.2 hy
          subst hd
          simp only [e2]
          by_cases h0 : x = 0 <;> simp [h0]
        · next hd =>
          cases hv
          by_cases h0 : x = 0 <;> cases isAnd <;> simp_all
  | .cond a b c, r, v, h, hk, hg, hn, hv => by
    simp only [eval] at h
    cases ha : eval a with
    | abort => simp [ha] at h
    | undef => simp [ha] at h
    | ret r1 =>
      simp only [ha, Outcome.bind_ret] at h
      split at h
      · cases h; cases hg
      next g1 =>
      cases hb : eval b with
      | abort => simp [hb] at h
      | undef => simp [hb] at h
      | ret r2 =>
        simp only [hb, Outcome.bind_ret] at h
        split at h
        · cases h; cases hg
        next g2 =>
        cases hc : eval c with
        | abort => simp [hc] at h
        | undef => simp [hc] at h
        | ret r3 =>
          simp only [hc, Outcome.bind_ret] at h
          split at h
          · cases h; cases hg
          next g4 =>
          split at h
          · cases h; cases hk
          next g3 =>
          cases h
          simp only [Bool.not_eq_true', Bool.not_eq_false, Bool.and_eq_true] at g1 g2 g3 g4
          simp only [cval, Option.bind_eq_some_iff] at hv
          obtain ⟨x, hx, hv⟩ := hv
          have e1 := value_ok σ a r1 x ha g3.1.1 g1 hn.1 hx
          simp only [e1]
          split at hv
          · next h0 => rw [if_pos h0]; exact value_ok σ b r2 v hb g3.1.2 g2 hn.2.1 hv
          · next h0 => rw [if_neg h0]; exact value_ok σ c r3 v hc g3.2 g4 hn.2.2 hv
  | .app1 f t a, r, v, h, hk, hg, hn, hv => by
    simp only [eval] at h
    cases ha : eval a with
    | abort => simp [ha] at h
    | undef => simp [ha] at h
    | ret r1 =>
      simp only [ha, Outcome.bind_ret] at h
      split at h
      · cases h; cases hg
      next g1 =>
      split at h
      · cases h; cases hk
      next g2 =>
      simp only [Bool.not_eq_true', Bool.not_eq_false] at g1 g2
      simp only [cval, Option.bind_eq_some_iff] at hv
      obtain ⟨x, hx, hv⟩ := hv
      have e1 := value_ok σ a r1 x ha g2 g1 hn.1 hx
      subst e1
      have hu := hn.2
      cases f with
      | plus => simp only [un, Outcome.bind_ret] at h; cases h; simp only [cun] at hv; cases hv; rfl
      | neg =>
        simp only [un] at h
        cases hl : ll (-r1.value) with
        | ret y => simp only [hl, Outcome.bind_ret] at h; cases h; rw [ll_ret hl]; exact (arith_some hv fun hs => hu hs _ hx).symm
        | abort => simp [hl] at h
        | undef => simp [hl] at h
      | compl =>
        simp only [un] at h
        cases hl : ll (-r1.value - 1) with
        | ret y => simp only [hl, Outcome.bind_ret] at h; cases h; rw [ll_ret hl]; exact (arith_some hv fun hs => hu hs _ hx).symm
        | abort => simp [hl] at h
        | undef => simp [hl] at h
      | not => simp only [un, Outcome.bind_ret] at h; cases h; simp only [cun] at hv; cases hv; rfl
      | other => simp only [un] at h; cases h; cases hk
  | .app2 f t a b, r, v, h, hk, hg, hn, hv => by
    simp only [eval] at h
    cases ha : eval a with
    | abort => simp [ha] at h
    | undef => simp [ha] at h
    | ret r1 =>
      simp only [ha, Outcome.bind_ret] at h
      split at h
      · cases h; cases hg
      next g1 =>
      cases hb : eval b with
      | abort => simp [hb] at h
      | undef => simp [hb] at h
      | ret r2 =>
        simp only [hb, Outcome.bind_ret] at h
        split at h
        · cases h; cases hg
        next g2 =>
        split at h
        · cases h; cases hk
        next g3 =>
        simp only [Bool.not_eq_true', Bool.not_eq_false, Bool.and_eq_true] at g1 g2 g3
        simp only [cval, Option.bind_eq_some_iff] at hv
        obtain ⟨x, hx, y, hy, hv⟩ := hv
        obtain ⟨n1, n2, n3, n4⟩ := hn
        have e1 := value_ok σ a r1 x ha g3.1 g1 n1 hx
        have e2 := value_ok σ b r2 y hb g3.2 g2 n2 hy
        subst e1 e2
        have hu := n4 _ _ hx hy
        have key : ∀ {z : Int} {o : Outcome Evaluation}, (do let v ← ll z; .ret (⟨v, true, true⟩ : Evaluation)) = .ret r → r.value = z := by
          intro z _ h
          cases hl : ll z with
          | ret y => simp only [hl, Outcome.bind_ret] at h; cases h; exact ll_ret hl
          | abort => simp [hl] at h
          | undef => simp [hl] at h
        have un' : ∀ {P : Prop}, (t.signed = true ∨ P) → t.signed = false → P := by
          intro P h hs; rcases h with h | h
          · rw [hs] at h; cases h
          · exact h
        cases f with
        | add => rw [key (o := .undef) h]; exact (arith_some hv (un' hu)).symm
        | sub => rw [key (o := .undef) h]; exact (arith_some hv (un' hu)).symm
        | mul => rw [key (o := .undef) h]; exact (arith_some hv (un' hu)).symm
        | div =>
          simp only [cbin] at hv
          split at hv
          · cases hv
          · next h0 =>
            simp only [bin, ne_eq, h0, not_false_iff, if_true] at h
            rw [key (o := .undef) h]; exact (arith_some hv (un' hu)).symm
        | mod =>
          simp only [cbin] at hv
          split at hv
          · cases hv
          · next h0 =>
            have h0 : ¬ r2.value = 0 := fun e => h0 (.inl e)
            cases hv
            simp only [bin, ne_eq, h0, not_false_iff, if_true] at h
            cases hl : ll (r1.value.tdiv r2.value) with
            | ret y => simp only [hl, Outcome.bind_ret] at h; cases h; rfl
            | abort => simp [hl] at h
            | undef => simp [hl] at h
        | shl =>
          simp only [cbin] at hv
          split at hv
          · next hc =>
            have e := arith_some hv (fun hs => (un' hu hs).1)
            have hlt : r1.value * 2 ^ r2.value.toNat < 2 ^ 63 := by
              by_cases hs : t.signed = true
              · simp only [Ty.arith, hs, if_true] at hv
                split at hv
                · next hin =>
                  have := hin.2
                  simp only [Ty.hi, hs, if_true] at this
                  have h2 : (2 : Int) ^ (t.bits - 1) ≤ 2 ^ 63 := by
                    exact_mod_cast Nat.pow_le_pow_right (by omega) (by omega)
                  omega
                · cases hv
              · exact (un' hu (by simpa using hs)).2
            have h64 : (0 : Int) ≤ r2.value ∧ r2.value < 64 := ⟨hc.1, by have := hc.2.1; omega⟩
            have h0 : 0 ≤ r1.value * 2 ^ r2.value.toNat := Int.mul_nonneg hc.2.2 (Int.pow_nonneg (by omega))
            simp only [bin, shl64, h64, and_self, if_true, Outcome.bind_ret] at h
            cases h
            simp only [bmod_small h0 hlt]; exact e.symm
          · cases hv
        | shr =>
          simp only [cbin] at hv
          split at hv
          · next hc =>
            cases hv
            have h64 : (0 : Int) ≤ r2.value ∧ r2.value < 64 := ⟨hc.1, by have := hc.2; omega⟩
            simp only [bin, shr64, h64, and_self, if_true, Outcome.bind_ret] at h
            cases h; rfl
          · cases hv
        | other => simp only [bin] at h; cases h; cases hk
        | _ => simp only [bin, Outcome.bind_ret] at h; cases h; simp only [cbin] at hv; cases hv; rfl

theorem const_ok (σ σ' : Nat → Int) : ∀ (e : Expr) (r : Evaluation), eval e = .ret r → r.gcc = true → cval σ e = cval σ' e
  | .const _, _, _, _ => rfl
  | .sizeof _, _, _, _ => rfl
  | .var x, r, h, hg => by simp only [eval, Outcome.ret.injEq] at h; subst h; cases hg
  | .other, _, _, _ => rfl
  | .enumerator _ _, _, _, _ => rfl
  | .cast t e, r, h, hg => by simp only [cval, const_ok σ σ' e r h hg]
  | .logical isAnd a b, r, h, hg => by
    simp only [eval] at h
    cases ha : eval a with
    | abort => simp [ha] at h
    | undef => simp [ha] at h
    | ret r1 =>
      simp only [ha, Outcome.bind_ret] at h
      split at h
      · cases h; cases hg
      next g1 =>
      cases hb : eval b with
      | abort => simp [hb] at h
      | undef => simp [hb] at h
      | ret r2 =>
        simp only [hb, Outcome.bind_ret] at h
        split at h
        · cases h; cases hg
        next g2 =>
        simp only [Bool.not_eq_true', Bool.not_eq_false] at g1 g2
        simp only [cval, const_ok σ σ' a r1 ha g1, const_ok σ σ' b r2 hb g2]
  | .cond a b c, r, h, hg => by
    simp only [eval] at h
    cases ha : eval a with
    | abort => simp [ha] at h
    | undef => simp [ha] at h
    | ret r1 =>
      simp only [ha, Outcome.bind_ret] at h
      split at h
      · cases h; cases hg
      next g1 =>
      cases hb : eval b with
      | abort => simp [hb] at h
      | undef => simp [hb] at h
      | ret r2 =>
        simp only [hb, Outcome.bind_ret] at h
        split at h
        · cases h; cases hg
        next g2 =>
        cases hc : eval c with
        | abort => simp [hc] at h
        | undef => simp [hc] at h
        | ret r3 =>
          simp only [hc, Outcome.bind_ret] at h
          split at h
          · cases h; cases hg
          next g4 =>
          simp only [Bool.not_eq_true', Bool.not_eq_false] at g1 g2 g4
          simp only [cval, const_ok σ σ' a r1 ha g1, const_ok σ σ' b r2 hb g2, const_ok σ σ' c r3 hc g4]
  | .app1 f t a, r, h, hg => by
    simp only [eval] at h
    cases ha : eval a with
    | abort => simp [ha] at h
    | undef => simp [ha] at h
    | ret r1 =>
      simp only [ha, Outcome.bind_ret] at h
      split at h
      · cases h; cases hg
      next g1 =>
      simp only [Bool.not_eq_true', Bool.not_eq_false] at g1
      simp only [cval, const_ok σ σ' a r1 ha g1]
  | .app2 f t a b, r, h, hg => by
    simp only [eval] at h
    cases ha : eval a with
    | abort => simp [ha] at h
    | undef => simp [ha] at h
    | ret r1 =>
      simp only [ha, Outcome.bind_ret] at h
      split at h
      · cases h; cases hg
      next g1 =>
      cases hb : eval b with
      | abort => simp [hb] at h
      | undef => simp [hb] at h
      | ret r2 =>
        simp only [hb, Outcome.bind_ret] at h
        split at h
        · cases h; cases hg
        next g2 =>
        simp only [Bool.not_eq_true', Bool.not_eq_false] at g1 g2
        simp only [cval, const_ok σ σ' a r1 ha g1, const_ok σ σ' b r2 hb g2]

/-! ### C66 -/

/-- C66, for an expression that is evaluable and in which nothing wraps around: the value claimed is the value in C, if the expression has one.
    Missing from the full claim: that nothing is claimed for expressions without a value or with variables, and conversions that change values; see below. -/
theorem C66_value_partial (σ : Nat → Int) (e : Expr) (r : Evaluation) (v : Int) (h : eval e = .ret r) (hk : r.known = true) (hg : r.gcc = true) (hn : NoWrap σ e)
    (hv : cval σ e = some v) : r.value = v := value_ok σ e r v h hk hg hn hv

/-- C66: an expression reported evaluable does not depend on any variable. -/
theorem C66_constant (e : Expr) (r : Evaluation) (h : eval e = .ret r) (hg : r.gcc = true) (σ σ' : Nat → Int) : cval σ e = cval σ' e := const_ok σ σ' e r h hg

def int : Ty := ⟨32, true⟩
def unsigned : Ty := ⟨32, false⟩
def uchar : Ty := ⟨8, false⟩

/-- `(int)(7 * 6 - (1 << 3)) % 5 && !0 ? -3 / 2 : 9` -/
def sampleExpr : Expr :=
  .cond (.logical true (.app2 .mod int (.cast int (.app2 .sub int (.app2 .mul int (.const 7) (.const 6)) (.app2 .shl int (.const 1) (.const 3)))) (.const 5)) (.app1 .not int (.const 0)))
    (.app2 .div int (.app1 .neg int (.const 3)) (.const 2)) (.const 9)

example : eval sampleExpr = .ret ⟨-1, true, true⟩ ∧ cval (fun _ => 0) sampleExpr = some (-1) := by decide +kernel
example : NoWrap (fun _ => 0) sampleExpr := by
  simp [sampleExpr, NoWrap, cval, cbin, cun, Ty.arith, Ty.In, Ty.lo, Ty.hi, Ty.wrap, int, ofBool]

/-- C66 fails for expressions that are not constant: for `n + 1`, with `n` a variable, the evaluator reports a known value (0), whatever the value of `n`. -/
theorem C66_variable_violated (n : Nat) (v : Int) : eval (.app2 .add int (.var n) (.const v)) = .ret ⟨0, true, false⟩ := rfl

/-- C66: so two array types with the dimensions `n + 1` and `m + 2` are taken to be the same type. -/
theorem C66_dimension_violated (n m : Nat) : tryMatchOnStaticValue (.app2 .add int (.var n) (.const 1)) (.app2 .add int (.var m) (.const 2)) = .ret true ∧
    ∃ σ, cval σ (.app2 .add int (.var n) (.const 1)) ≠ cval σ (.app2 .add int (.var m) (.const 2)) := by
  refine ⟨rfl, fun _ => 0, ?_⟩
  simp only [cval, Option.bind_some]
  decide +kernel

/-- C66: dimensions that are evaluable, have values and wrap nothing are matched exactly when they are equal. -/
theorem C66_dimension_partial (σ : Nat → Int) (e1 e2 : Expr) (r1 r2 : Evaluation) (v1 v2 : Int) (h1 : eval e1 = .ret r1) (h2 : eval e2 = .ret r2)
    (k1 : r1.known = true ∧ r1.gcc = true) (k2 : r2.known = true ∧ r2.gcc = true) (n1 : NoWrap σ e1) (n2 : NoWrap σ e2) (c1 : cval σ e1 = some v1) (c2 : cval σ e2 = some v2) :
    tryMatchOnStaticValue e1 e2 = .ret (decide (v1 = v2)) := by
  have a1 := C66_value_partial σ e1 r1 v1 h1 k1.1 k1.2 n1 c1
  have a2 := C66_value_partial σ e2 r2 v2 h2 k2.1 k2.2 n2 c2
  simp [tryMatchOnStaticValue, h1, h2, k1.1, k2.1, a1, a2]

/-- C66 fails for division by zero: `x / 0` and `x % 0` are claimed to be 0. -/
theorem C66_div_zero_violated (t : Ty) (x : Int) (σ : Nat → Int) :
    (eval (.app2 .div t (.const x) (.const 0)) = .ret ⟨0, true, true⟩ ∧ cval σ (.app2 .div t (.const x) (.const 0)) = none) ∧
    (eval (.app2 .mod t (.const x) (.const 0)) = .ret ⟨0, true, true⟩ ∧ cval σ (.app2 .mod t (.const x) (.const 0)) = none) := by
  simp [eval, bin, cval, cbin]

/-- C66 fails for conversions: `(unsigned char)300` is claimed to be 300, and is 44. -/
theorem C66_cast_violated (σ : Nat → Int) : eval (.cast uchar (.const 300)) = .ret ⟨300, true, true⟩ ∧ cval σ (.cast uchar (.const 300)) = some 44 := by
  exact ⟨rfl, by simp only [cval, Option.map_some]; decide +kernel⟩

/-- C66 fails for unsigned arithmetic: `1u - 2u` is claimed to be -1. -/
theorem C66_unsigned_violated (σ : Nat → Int) : eval (.app2 .sub unsigned (.const 1) (.const 2)) = .ret ⟨-1, true, true⟩ ∧
    cval σ (.app2 .sub unsigned (.const 1) (.const 2)) = some 4294967295 := by
  exact ⟨by decide +kernel, by simp only [cval, Option.bind_some]; decide +kernel⟩

/-- C66 fails for overflow: `2147483647 + 1` has no value at type `int`; a value is claimed. -/
theorem C66_overflow_violated (σ : Nat → Int) : eval (.app2 .add int (.const 2147483647) (.const 1)) = .ret ⟨2147483648, true, true⟩ ∧
    cval σ (.app2 .add int (.const 2147483647) (.const 1)) = none := by
  exact ⟨by decide +kernel, by simp only [cval, Option.bind_some]; decide +kernel⟩

/-- C66: a shift by 64 or more, or a sum that does not fit `long long int`, is undefined behaviour in the compiler. -/
theorem C66_shift_violated (t : Ty) (x n : Int) (h : 64 ≤ n) : eval (.app2 .shl t (.const x) (.const n)) = .undef := by
  have : ¬ (0 ≤ n ∧ n < 64) := by omega
  simp [eval, bin, shl64, this]

end Verif.Eval
