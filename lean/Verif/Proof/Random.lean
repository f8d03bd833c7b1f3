import Verif.Model.Random
import Mathlib.Logic.Function.Iterate
import Mathlib.Tactic.Ring
/-! Helper lemmas for C12-C14. -/
namespace Verif.Random
open Verif

/-! ### invertible bit operations -/

theorem xorShr_inj {w : Nat} (k : Nat) (hk : 1 ≤ k) (x y : BitVec w) (h : x ^^^ (x >>> k) = y ^^^ (y >>> k)) : x = y := by
  have key : ∀ d i, i < w → w - i ≤ d → x.getLsbD i = y.getLsbD i := by
    intro d
    induction d with
    | zero => intro i hi hd; omega
    | succ d ih =>
      intro i hi hd
      have hb := congrArg (fun v => BitVec.getLsbD v i) h
      simp only [BitVec.getLsbD_xor, BitVec.getLsbD_ushiftRight] at hb
      have hs : x.getLsbD (k + i) = y.getLsbD (k + i) := by
        by_cases hki : k + i < w
        · exact ih _ hki (by omega)
        · rw [BitVec.getLsbD_of_ge _ _ (by omega), BitVec.getLsbD_of_ge _ _ (by omega)]
      rw [hs] at hb
      simpa using hb
  apply BitVec.eq_of_getLsbD_eq
  intro i hi
  exact key w i hi (by omega)

theorem xorShl_inj {w : Nat} (k : Nat) (hk : 1 ≤ k) (x y : BitVec w) (h : x ^^^ (x <<< k) = y ^^^ (y <<< k)) : x = y := by
  apply BitVec.eq_of_getLsbD_eq
  intro i
  induction i using Nat.strongRecOn with
  | ind i ih =>
    intro hi
    have hb := congrArg (fun v => BitVec.getLsbD v i) h
    simp only [BitVec.getLsbD_xor, BitVec.getLsbD_shiftLeft, hi, decide_true, Bool.true_and] at hb
    by_cases hik : i < k
    · simpa [hik] using hb
    · rw [ih (i - k) (by omega) (by omega)] at hb
      simpa using hb

theorem mul_inj {w : Nat} (c d : BitVec w) (hcd : c * d = 1#w) (x y : BitVec w) (h : x * c = y * c) : x = y := by
  have := congrArg (· * d) h
  simpa [BitVec.mul_assoc, hcd] using this

theorem rotl_inj {w : Nat} (k : Nat) (hk : k < w) (x y : BitVec w) (h : rotl x k = rotl y k) : x = y := by
  apply BitVec.eq_of_getLsbD_eq
  intro i hi
  by_cases hik : i + k < w
  · have hb := congrArg (fun v => BitVec.getLsbD v (i + k)) h
    simp only [rotl, BitVec.getLsbD_or, BitVec.getLsbD_shiftLeft, BitVec.getLsbD_ushiftRight, hik, decide_true,
      Bool.true_and, show ¬ i + k < k by omega, decide_false, Bool.not_false, Nat.add_sub_cancel] at hb
    rw [BitVec.getLsbD_of_ge x (w - k + (i + k)) (by omega), BitVec.getLsbD_of_ge y (w - k + (i + k)) (by omega)] at hb
    simpa using hb
  · have hb := congrArg (fun v => BitVec.getLsbD v (i + k - w)) h
    simp only [rotl, BitVec.getLsbD_or, BitVec.getLsbD_shiftLeft, BitVec.getLsbD_ushiftRight,
      show i + k - w < k by omega, decide_true, Bool.not_true, Bool.false_and, Bool.and_false, Bool.false_or,
      show w - k + (i + k - w) = i by omega] at hb
    exact hb

theorem rotl_zero {w : Nat} (k : Nat) : rotl (0#w) k = 0#w := by simp [rotl]

theorem xor_left_cancel {w : Nat} {a b c : BitVec w} (h : a ^^^ b = a ^^^ c) : b = c := by
  have := congrArg (a ^^^ ·) h
  simpa [← BitVec.xor_assoc] using this

theorem xor_eq_self {w : Nat} {a b : BitVec w} (h : a ^^^ b = a) : b = 0#w := by
  apply xor_left_cancel (a := a); simpa using h

/-! ### linear maps -/

theorem linear_id {w : Nat} (f : BitVec w → BitVec w) (hadd : ∀ a b, f (a ^^^ b) = f a ^^^ f b)
    (hb : ∀ i : Fin w, f (BitVec.twoPow w i) = BitVec.twoPow w i) : ∀ x, f x = x := by
  have h0 : f 0#w = 0#w := by
    have := hadd 0#w 0#w
    simpa using this
  have key : ∀ n, n ≤ w → ∀ x : BitVec w, (∀ i, n ≤ i → x.getLsbD i = false) → f x = x := by
    intro n
    induction n with
    | zero =>
      intro _ x hx
      have : x = 0#w := by
        apply BitVec.eq_of_getLsbD_eq; intro i _; simpa using hx i (Nat.zero_le _)
      rw [this, h0]
    | succ n ih =>
      intro hn x hx
      by_cases hbit : x.getLsbD n = true
      · have hx2 : f (x ^^^ BitVec.twoPow w n) = x ^^^ BitVec.twoPow w n := by
          apply ih (by omega)
          intro i hi
          rw [BitVec.getLsbD_xor, BitVec.getLsbD_twoPow]
          by_cases hin : i = n
          · subst hin; simp [hbit, show i < w by omega]
          · rw [hx i (by omega)]; simp [Ne.symm hin]
        have hb' := hb ⟨n, by omega⟩
        have e : x = (x ^^^ BitVec.twoPow w n) ^^^ BitVec.twoPow w n := by
          rw [BitVec.xor_assoc, BitVec.xor_self, BitVec.xor_zero]
        have := hadd (x ^^^ BitVec.twoPow w n) (BitVec.twoPow w n)
        rw [← e, hx2, hb', ← e] at this
        exact this
      · apply ih (by omega)
        intro i hi
        by_cases hin : i = n
        · subst hin; simpa using hbit
        · exact hx i (by omega)
  intro x
  exact key w (Nat.le_refl w) x (fun i hi => BitVec.getLsbD_of_ge x i hi)

/-- Apply a matrix over GF(2), given by its columns. -/
def matApply {w : Nat} : List (BitVec w) → BitVec w → BitVec w
  | [], _ => 0#w
  | c :: cs, y => (if y.getLsbD 0 then c else 0#w) ^^^ matApply cs (y >>> 1)

theorem xor_shr {w : Nat} (a b : BitVec w) (k : Nat) : (a ^^^ b) >>> k = (a >>> k) ^^^ (b >>> k) := by
  apply BitVec.eq_of_getLsbD_eq; intro i _; simp

theorem xor_shl {w : Nat} (a b : BitVec w) (k : Nat) : (a ^^^ b) <<< k = (a <<< k) ^^^ (b <<< k) := by
  apply BitVec.eq_of_getLsbD_eq; intro i hi; simp [hi]
  by_cases h : i < k <;> simp [h]

theorem xor4 {w : Nat} (a b c d : BitVec w) : (a ^^^ b) ^^^ (c ^^^ d) = (a ^^^ c) ^^^ (b ^^^ d) := by
  rw [BitVec.xor_assoc, ← BitVec.xor_assoc b, BitVec.xor_comm b c, BitVec.xor_assoc c, ← BitVec.xor_assoc]

theorem matApply_add {w : Nat} (cs : List (BitVec w)) (a b : BitVec w) :
    matApply cs (a ^^^ b) = matApply cs a ^^^ matApply cs b := by
  induction cs generalizing a b with
  | nil => simp [matApply]
  | cons c cs ih =>
    simp only [matApply, xor_shr, ih, BitVec.getLsbD_xor]
    rw [xor4]
    congr 1
    cases a.getLsbD 0 <;> cases b.getLsbD 0 <;> simp

theorem no_fixed {w : Nat} (T : BitVec w → BitVec w) (hadd : ∀ a b, T (a ^^^ b) = T a ^^^ T b)
    (cs : List (BitVec w))
    (hb : ∀ i : Fin w, matApply cs (T (BitVec.twoPow w i) ^^^ BitVec.twoPow w i) = BitVec.twoPow w i)
    (s : BitVec w) (h : T s = s) : s = 0#w := by
  have := linear_id (fun x => matApply cs (T x ^^^ x))
    (fun a b => by simp only [hadd]; rw [xor4, matApply_add]) hb s
  simp only [h, BitVec.xor_self] at this
  rw [← this]
  have h0 := matApply_add cs 0#w 0#w
  simpa using h0

/-- Columns of the inverse of (step xor identity), found by elimination over GF(2) and checked below. -/
def inv13_7_17 : List (BitVec 64) := [
  0x156c74a218e5e0af#64, 0xbc4ecc4d39d616b#64, 0xd6b39e0a17b1e20f#64, 0x8c7b3994cd35642b#64, 0x39ea76a9783c6863#64,
  0x93f2af51a2a5502a#64, 0x6f95b23a71c0061#64, 0xedd4f4441ce5802e#64, 0xdba9e88839cb005c#64, 0x76699693c31d2061#64,
  0xcf56f24d4e7c02e#64, 0x38f6dbc94b992069#64, 0xb0d7f01127b9600b#64, 0x61afe0224f72c016#64, 0xe243c5c47cb32019#64,
  0xe59b8e081b30e007#64, 0xea2b1990d437603b#64, 0xf54a36a14a386043#64, 0x2bae2ac124fbe05f#64, 0x96661201f97ce067#64,
  0xccea6600a0244022#64, 0xb8c8c981a21e2071#64, 0xb0abd480f4b7603b#64, 0x404bac810b386043#64, 0x60b11b0144ad406a#64,
  0x21447401db870038#64, 0x6394ed835558a045#64, 0x6139c851a3a6053#64, 0xec017b0966a9404a#64, 0x1938b1917dd9a04d#64,
  0xd2572121a96ec076#64, 0x4488004000000000#64, 0x8910008000000000#64, 0x333c0480e256a035#64, 0x47640c8126fbe05f#64,
  0x4ff25e81fd7ce067#64, 0x7fc2ff00a8244022#64, 0xff85fe0150488044#64, 0x1f2dbe01f24c8064#64, 0xff613b8054122011#64,
  0xdfde72804a72e017#64, 0xbfbce50094e5c02e#64, 0x7f79ca0129cb805c#64, 0x1ed5d601014a8054#64, 0xfc91eb81b21e2071#64,
  0x38199080d4b7603b#64, 0x70332101a96ec076#64, 0x40000000000000#64, 0x80000000000000#64, 0x100000000000000#64,
  0x200000000000000#64, 0x400000000000000#64, 0x800000000000000#64, 0x1000000000000000#64, 0x2000000000000000#64,
  0x4000000000000000#64, 0x8000000000000000#64, 0x211c0580e256a035#64, 0x63240e8126fbe05f#64, 0x7725a81fd7ce067#64,
  0xeec2f700a8244022#64, 0xfc99eb81b21e2071#64, 0x38099080d4b7603b#64, 0x70132101a96ec076#64]

/-- Columns of the inverse of (step xor identity), found by elimination over GF(2) and checked below. -/
def inv6_21_7 : List (BitVec 32) := [
  0x9041850e#32, 0x4cb3a9f8#32, 0x126d6ff#32, 0x9a0c28f1#32, 0x341851e2#32,
  0x6830a3c4#32, 0x4820c287#32, 0x8000001#32, 0x10000002#32, 0x20000004#32,
  0x40000008#32, 0x80000010#32, 0x6c30a3c4#32, 0x4020c287#32, 0x18000001#32,
  0x30000002#32, 0x60000004#32, 0xc0000008#32, 0xec30a3f4#32, 0x2c106103#32,
  0x5820c206#32, 0x28000103#32, 0x50000206#32, 0xa000040c#32, 0x2c30abfc#32,
  0xc020d2f7#32, 0x74308305#32, 0x70208305#32, 0xe041060a#32, 0xacb2aff0#32,
  0xad14790b#32, 0x361851f2#32]

/-- Columns of the inverse of (step xor identity), found by elimination over GF(2) and checked below. -/
def inv12_25_27 : List (BitVec 64) := [
  0x24924924936da#64, 0x4924924926db4#64, 0x924924924db69#64, 0x10000000008009#64, 0x20000000010012#64,
  0x424924924b36fe#64, 0x84924924966dfc#64, 0x1092492492cdbf9#64, 0x210000000108129#64, 0x420000000210252#64,
  0x8424924920b327e#64, 0x10849249241664fc#64, 0x210b6db6da65ff22#64, 0x421492492682c89f#64, 0x842924924d05913f#64,
  0x21192412402cc9fd#64, 0x423001001210a521#64, 0x84624b24b6687c98#64, 0x218db25b24be2468#64, 0x43192d92db357e0a#64,
  0x863012012423cacf#64, 0x25290010002948c6#64, 0x4a5200200052918d#64, 0x94a4004000a5231a#64, 0x1249249249b6d#64,
  0x1#64, 0x2#64, 0x24924924936de#64, 0x4924924926dbc#64, 0x924924924db79#64,
  0x10000000008029#64, 0x20000000010052#64, 0x424924924b367e#64, 0x84924924966cfc#64, 0x1092492492cd9f9#64,
  0x210000000108529#64, 0x420000000210a52#64, 0x8400000004214a5#64, 0x108000000084294a#64, 0x210249249341644f#64,
  0x420492492682c89e#64, 0x840924924d05913d#64, 0x215b6d36d265ff23#64, 0x42b493493682c89d#64, 0x856b6fb6ff4ca7e1#64,
  0x239db25b24bea441#64, 0x47392d92db347e58#64, 0x8e725b25b668fcb1#64, 0x35ad925924bf243a#64, 0x6b5b24b2497e4874#64,
  0xd6b4004000b5a633#64, 0x842124924905913f#64, 0x210b6d36da65ff27#64, 0x421493492682c895#64, 0x842b6fb6df4ca7f1#64,
  0x211db25b64bea461#64, 0x42392d925b347e18#64, 0x84725b24b668fc31#64, 0x21ad925b24bf253a#64, 0x435b24b6497e4a74#64,
  0x86b4004800b5a233#64, 0x242124824905993f#64, 0x48424904920b327f#64, 0x90849209241664fe#64]

theorem xorShl_add {w : Nat} (a b : BitVec w) (k : Nat) :
    (a ^^^ b) ^^^ ((a ^^^ b) <<< k) = (a ^^^ (a <<< k)) ^^^ (b ^^^ (b <<< k)) := by rw [xor_shl, xor4]
theorem xorShr_add {w : Nat} (a b : BitVec w) (k : Nat) :
    (a ^^^ b) ^^^ ((a ^^^ b) >>> k) = (a ^^^ (a >>> k)) ^^^ (b ^^^ (b >>> k)) := by rw [xor_shr, xor4]
theorem xs13_add (a b : BitVec 64) : xs13_7_17 (a ^^^ b) = xs13_7_17 a ^^^ xs13_7_17 b := by
  simp only [xs13_7_17, xorShl_add a b 13]
  rw [xorShr_add _ _ 7, xorShl_add _ _ 17]
theorem xs12_add (a b : BitVec 64) : xs12_25_27 (a ^^^ b) = xs12_25_27 a ^^^ xs12_25_27 b := by
  simp only [xs12_25_27, xorShr_add a b 12]
  rw [xorShl_add _ _ 25, xorShr_add _ _ 27]
theorem xs6_add (a b : BitVec 32) : xs6_21_7 (a ^^^ b) = xs6_21_7 a ^^^ xs6_21_7 b := by
  simp only [xs6_21_7, xorShl_add a b 6]
  rw [xorShr_add _ _ 21, xorShl_add _ _ 7]

theorem xs13_fixed (s : BitVec 64) (h : xs13_7_17 s = s) : s = 0#64 :=
  no_fixed xs13_7_17 xs13_add inv13_7_17 (by decide +kernel) s h
theorem xs12_fixed (s : BitVec 64) (h : xs12_25_27 s = s) : s = 0#64 :=
  no_fixed xs12_25_27 xs12_add inv12_25_27 (by decide +kernel) s h
theorem xs6_fixed (s : BitVec 32) (h : xs6_21_7 s = s) : s = 0#32 :=
  no_fixed xs6_21_7 xs6_add inv6_21_7 (by decide +kernel) s h

theorem xs13_inj : Function.Injective xs13_7_17 := by
  intro a b h
  exact xorShl_inj 13 (by omega) _ _ (xorShr_inj 7 (by omega) _ _ (xorShl_inj 17 (by omega) _ _ h))
theorem xs12_inj : Function.Injective xs12_25_27 := by
  intro a b h
  exact xorShr_inj 12 (by omega) _ _ (xorShl_inj 25 (by omega) _ _ (xorShr_inj 27 (by omega) _ _ h))
theorem xs6_inj : Function.Injective xs6_21_7 := by
  intro a b h
  exact xorShl_inj 6 (by omega) _ _ (xorShr_inj 21 (by omega) _ _ (xorShl_inj 7 (by omega) _ _ h))

/-! ### splitmix64 -/

theorem mix64_inj : Function.Injective mix64 := by
  intro a b h
  unfold mix64 at h
  have h1 := xorShr_inj 31 (by omega) _ _ h
  have h2 := mul_inj 0x94d049bb133111eb#64 0x319642b2d24d8ec3#64 (by decide) _ _ h1
  have h3 := xorShr_inj 27 (by omega) _ _ h2
  have h4 := mul_inj 0xbf58476d1ce4e5b9#64 0x96de1b173f119089#64 (by decide) _ _ h3
  exact xorShr_inj 30 (by omega) _ _ h4

/-! ### xoshiro -/

theorem xoshiro_inj {w : Nat} (r1 sh r2 : Nat) (h2 : r2 < w) (hsh : 1 ≤ sh) :
    Function.Injective (fun s : Xoshiro w => (xoshiroStep r1 sh r2 s).2) := by
  intro a b h
  obtain ⟨a0, a1, a2, a3⟩ := a
  obtain ⟨b0, b1, b2, b3⟩ := b
  simp only [xoshiroStep, Xoshiro.mk.injEq] at h
  obtain ⟨e0, e1, e2, e3⟩ := h
  have k3 : a3 ^^^ a1 = b3 ^^^ b1 := rotl_inj _ h2 _ _ e3
  rw [k3] at e0
  have k0 : a0 = b0 := by
    apply xor_left_cancel (a := b3 ^^^ b1); rw [BitVec.xor_comm, e0, BitVec.xor_comm]
  -- e1 : a1 ^ (a2 ^ a0) = b1 ^ (b2 ^ b0);  e2 : (a2 ^ a0) ^ (a1 << sh) = ...
  have k1 : a1 ^^^ (a1 <<< sh) = b1 ^^^ (b1 <<< sh) := by
    have := congrArg₂ (· ^^^ ·) e1 e2
    rw [show ∀ x y z : BitVec w, (x ^^^ y) ^^^ (y ^^^ z) = x ^^^ z from fun x y z => by
        rw [BitVec.xor_assoc, ← BitVec.xor_assoc y, BitVec.xor_self, BitVec.zero_xor]] at this
    rw [show ∀ x y z : BitVec w, (x ^^^ y) ^^^ (y ^^^ z) = x ^^^ z from fun x y z => by
        rw [BitVec.xor_assoc, ← BitVec.xor_assoc y, BitVec.xor_self, BitVec.zero_xor]] at this
    exact this
  have k1' : a1 = b1 := xorShl_inj sh hsh _ _ k1
  subst k0; subst k1'
  have k2 : a2 = b2 := by
    have := xor_left_cancel e1
    rw [BitVec.xor_comm a2, BitVec.xor_comm b2] at this
    exact xor_left_cancel this
  have k3' : a3 = b3 := by
    rw [BitVec.xor_comm a3, BitVec.xor_comm b3] at k3
    exact xor_left_cancel k3
  subst k2; subst k3'; rfl

theorem xoshiro_fixed {w : Nat} (r1 sh r2 : Nat) (s : Xoshiro w) (h : (xoshiroStep r1 sh r2 s).2 = s) :
    s = ⟨0#w, 0#w, 0#w, 0#w⟩ := by
  obtain ⟨a0, a1, a2, a3⟩ := s
  simp only [xoshiroStep, Xoshiro.mk.injEq] at h ⊢
  obtain ⟨e0, e1, e2, e3⟩ := h
  have k3 := xor_eq_self e0
  have k2 := xor_eq_self e1
  rw [k3, rotl_zero] at e3
  subst e3
  simp at k3
  subst k3
  rw [k2] at e2
  simp at e2
  subst e2
  simp at k2
  subst k2
  simp

/-! ### iteration -/

theorem iterate_ne {S : Type u} (f : S → S) (z : S) (hf : Function.Injective f) (hz : f z = z) (s : S) (hs : s ≠ z) :
    ∀ n, f^[n] s ≠ z := by
  intro n h
  apply hs
  have : f^[n] s = f^[n] z := by rw [h, Function.iterate_fixed hz]
  exact hf.iterate n this

theorem add_cancel_zero {w : Nat} {a b : BitVec w} (h : a + b = a) : b = 0#w := by
  have := congrArg (fun v => v - a) h
  simp only [BitVec.sub_self] at this
  rw [← this, BitVec.add_comm, BitVec.add_sub_cancel]

theorem iter_add {w : Nat} (g s : BitVec w) (k : Nat) : (fun s => s + g)^[k] s = s + BitVec.ofNat w k * g := by
  induction k with
  | zero => simp
  | succ k ih =>
    rw [Function.iterate_succ_apply', ih, BitVec.add_assoc]; congr 1
    rw [BitVec.ofNat_add, BitVec.add_mul]; simp

theorem iter_mul {w : Nat} (c s : BitVec w) (k : Nat) : (fun s => s * c)^[k] s = s * c ^ k := by
  induction k with
  | zero => simp
  | succ k ih => rw [Function.iterate_succ_apply', ih, BitVec.pow_succ, BitVec.mul_assoc]

theorem pow_cancel {w : Nat} (c d : BitVec w) (hcd : c * d = 1#w) (k : Nat) (x y : BitVec w)
    (h : x * c ^ k = y * c ^ k) : x = y := by
  induction k generalizing x y with
  | zero => simpa using h
  | succ k ih =>
    rw [BitVec.pow_succ, ← BitVec.mul_assoc, ← BitVec.mul_assoc] at h
    exact ih _ _ (mul_inj c d hcd _ _ h)

theorem mul_fixed_small {w : Nat} (c s : BitVec w) (hc : 1 < c.toNat) (hlt : s.toNat * c.toNat < 2 ^ w) (h : s * c = s) :
    s = 0#w := by
  have h1 := congrArg BitVec.toNat h
  rw [BitVec.toNat_mul, Nat.mod_eq_of_lt hlt] at h1
  apply BitVec.eq_of_toNat_eq
  rw [BitVec.toNat_ofNat, Nat.zero_mod]
  rcases Nat.eq_zero_or_pos s.toNat with h2 | h2
  · exact h2
  · exfalso
    have : s.toNat * 2 ≤ s.toNat * c.toNat := Nat.mul_le_mul_left _ hc
    omega

theorem odd_lcg_moves {w : Nat} (hw : 1 ≤ w) (a b x : BitVec w) (ha : a.toNat % 2 = 1) (hb : b.toNat % 2 = 1) :
    a * x + b ≠ x := by
  intro h
  have h1 := congrArg (fun v => v.toNat % 2) h
  have hd : 2 ∣ 2 ^ w := dvd_pow_self 2 (by omega)
  simp only [BitVec.toNat_add, BitVec.toNat_mul, Nat.mod_mod_of_dvd _ hd] at h1
  rw [Nat.add_mod, Nat.mod_mod_of_dvd _ hd, Nat.mul_mod, ha, hb] at h1
  omega

/-! ### LCG -/

theorem mask_toNat (x : BitVec 64) : (x &&& lcgMask).toNat = x.toNat % 2 ^ 48 := by
  have : lcgMask.toNat = 2 ^ 48 - 1 := by decide
  rw [BitVec.toNat_and, this, Nat.and_two_pow_sub_one_eq_mod]

theorem bck_fwd (rs : BitVec 64) (h : rs.toNat < 2 ^ 48) :
    lcgBck (lcgFwd rs).2 = ((lcgFwd rs).1, rs) := by
  unfold lcgBck lcgFwd
  simp only
  congr 1
  apply BitVec.eq_of_toNat_eq
  rw [mask_toNat, BitVec.toNat_mul, BitVec.toNat_sub, mask_toNat, BitVec.toNat_add, BitVec.toNat_mul]
  simp only [BitVec.toNat_ofNat]
  generalize rs.toNat = r at *
  omega

theorem fwd_lt (rs : BitVec 64) : (lcgFwd rs).2.toNat < 2 ^ 48 := by
  unfold lcgFwd; simp only; rw [mask_toNat]; omega

end Verif.Random
