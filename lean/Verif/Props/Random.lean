import Verif.Proof.Random
/-!
Pseudo-random numbers: C12 (generators never get stuck), C13 (bi-directional generator), C14 (ranges).
-/
namespace Verif.Random
open Verif

/-! ## C12 -/

/-- From state `s`, every draw, however many came before, changes the generator's state. -/
def NeverStuck {S : Type u} (step : S → S) (s : S) : Prop := ∀ n, step (step^[n] s) ≠ step^[n] s

/-- The default 64-bit generator: distinct states stay distinct, and no seed gets it stuck. -/
theorem C12_xoshiro256pp :
    Function.Injective (fun s => (xoshiro256pp s).2) ∧
    ∀ seed, NeverStuck (fun s => (xoshiro256pp s).2) (xoshiro256pp_set_seed seed) := by
  have hinj : Function.Injective (fun s => (xoshiro256pp s).2) :=
    xoshiro_inj 23 17 45 (by omega) (by omega)
  refine ⟨hinj, fun seed n hfix => ?_⟩
  have hz := xoshiro_fixed 23 17 45 _ hfix
  refine iterate_ne _ ⟨0, 0, 0, 0⟩ hinj (by decide +kernel) _ ?_ n hz
  intro h0
  have h1 : (xoshiro256pp_set_seed seed).s0 = (xoshiro256pp_set_seed seed).s1 := by rw [h0]
  have h2 : seed + 0x9e3779b97f4a7c15#64 = seed + 0x9e3779b97f4a7c15#64 + 0x9e3779b97f4a7c15#64 := mix64_inj h1
  exact absurd (add_cancel_zero h2.symm) (by decide +kernel)

example : xoshiro256pp_set_seed 1009#64 ≠ ⟨0, 0, 0, 0⟩ := by decide +kernel

/-- The default 32-bit generator: distinct states stay distinct, and any state but the all-zero one never gets
    stuck. Missing: that no 32-bit seed produces the all-zero state (its seeding mixes in 64 bits and is not
    injective). -/
theorem C12_xoshiro128pp_partial :
    Function.Injective (fun s => (xoshiro128pp s).2) ∧
    ∀ s, s ≠ ⟨0, 0, 0, 0⟩ → NeverStuck (fun s => (xoshiro128pp s).2) s := by
  have hinj : Function.Injective (fun s => (xoshiro128pp s).2) :=
    xoshiro_inj 7 9 11 (by omega) (by omega)
  exact ⟨hinj, fun s hs n hfix =>
    iterate_ne _ ⟨0, 0, 0, 0⟩ hinj (by decide +kernel) _ hs n (xoshiro_fixed 7 9 11 _ hfix)⟩

example : xoshiro128pp_set_seed 1009#32 ≠ ⟨0, 0, 0, 0⟩ := by decide +kernel

/-- splitmix64: two draws less than 2^64 calls apart never produce the same value, from any seed. -/
theorem C12_splitmix64 (seed : BitVec 64) (m n : Nat) (hmn : m < n) (hn : n < m + 2 ^ 64) :
    (splitmix64 ((fun s => (splitmix64 s).2)^[m] seed)).1 ≠ (splitmix64 ((fun s => (splitmix64 s).2)^[n] seed)).1 := by
  have hst : ∀ k, (fun s => (splitmix64 s).2)^[k] seed = seed + BitVec.ofNat 64 k * 0x9e3779b97f4a7c15#64 :=
    fun k => iter_add 0x9e3779b97f4a7c15#64 seed k
  rw [hst, hst]
  intro h
  have h1 := mix64_inj h
  rw [BitVec.add_left_inj, BitVec.add_right_inj] at h1
  have h3 := mul_inj 0x9e3779b97f4a7c15#64 0xf1de83e19937733d#64 (by decide +kernel) _ _ h1
  have h4 := congrArg BitVec.toNat h3
  simp only [BitVec.toNat_ofNat] at h4
  omega

example : (splitmix64 5#64).1 ≠ (splitmix64 (splitmix64 5#64).2).1 := by decide +kernel

/-- The 64-bit xorshift generators: distinct states stay distinct, and any non-zero state never gets stuck: since
    the value drawn is (a fixed odd multiple of) the state, consecutive values always differ.
    Missing: one seed gives the zero state (next theorem). -/
theorem C12_xorshift64_partial :
    (Function.Injective xs13_7_17 ∧ ∀ s, s ≠ 0#64 → ∀ n,
      (xorshift_13_7_17 (xs13_7_17^[n + 1] s)).1 ≠ (xorshift_13_7_17 (xs13_7_17^[n] s)).1) ∧
    (Function.Injective xs12_25_27 ∧ ∀ s, s ≠ 0#64 → ∀ n,
      (xorshift_12_25_27 (xs12_25_27^[n + 1] s)).1 ≠ (xorshift_12_25_27 (xs12_25_27^[n] s)).1) := by
  refine ⟨⟨xs13_inj, fun s hs n h => ?_⟩, ⟨xs12_inj, fun s hs n h => ?_⟩⟩
  · rw [Function.iterate_succ_apply'] at h
    exact iterate_ne _ 0#64 xs13_inj (by decide +kernel) s hs n (xs13_fixed _ h)
  · rw [Function.iterate_succ_apply'] at h
    have h' := mul_inj 0x2545F4914F6CDD1D#64 0x59071d96d81ecd35#64 (by decide +kernel) _ _ h
    exact iterate_ne _ 0#64 xs12_inj (by decide +kernel) s hs n (xs12_fixed _ h')

example : xorshift64_set_seed 1009#64 ≠ 0#64 := by decide +kernel

/-- The 32-bit xorshift generator, likewise. -/
theorem C12_xorshift32_partial :
    Function.Injective xs6_21_7 ∧ ∀ s, s ≠ 0#32 → ∀ n,
      (xorshift_6_21_7 (xs6_21_7^[n + 1] s)).1 ≠ (xorshift_6_21_7 (xs6_21_7^[n] s)).1 := by
  refine ⟨xs6_inj, fun s hs n h => ?_⟩
  rw [Function.iterate_succ_apply'] at h
  exact iterate_ne _ 0#32 xs6_inj (by decide +kernel) s hs n (xs6_fixed _ h)

example : xorshift_6_21_7_set_seed 1009#32 ≠ 0#32 := by decide +kernel

/-- One seed of each xorshift generator, and of lehmer64, gives the zero state, from which every draw is 0. -/
theorem C12_seed_violated :
    (∀ n, (xorshift_13_7_17 (xs13_7_17^[n] (xorshift64_set_seed 0x61c8864680b583eb#64))).1 = 0#64) ∧
    (∀ n, (xorshift_12_25_27 (xs12_25_27^[n] (xorshift64_set_seed 0x61c8864680b583eb#64))).1 = 0#64) ∧
    (∀ n, (xorshift_6_21_7 (xs6_21_7^[n] (xorshift_6_21_7_set_seed 0x61c88647#32))).1 = 0#32) ∧
    (∀ n, (lehmer64 ((fun s => (lehmer64 s).2)^[n] (lehmer64_set_seed 0x61c8864680b583eb#64))).1 = 0#64) := by
  have e1 : xorshift64_set_seed 0x61c8864680b583eb#64 = 0#64 := by decide +kernel
  have e2 : xorshift_6_21_7_set_seed 0x61c88647#32 = 0#32 := by decide +kernel
  have e3 : lehmer64_set_seed 0x61c8864680b583eb#64 = 0#128 := by decide +kernel
  rw [e1, e2, e3]
  refine ⟨fun n => ?_, fun n => ?_, fun n => ?_, fun n => ?_⟩
  · rw [Function.iterate_fixed (by decide +kernel)]; decide +kernel
  · rw [Function.iterate_fixed (by decide +kernel)]; decide +kernel
  · rw [Function.iterate_fixed (by decide +kernel)]; decide +kernel
  · rw [Function.iterate_fixed (by decide +kernel)]; decide +kernel

/-- lehmer64: distinct states stay distinct, and every seed but those whose primed state is 0 never gets stuck. -/
theorem C12_lehmer64_partial :
    Function.Injective (fun s => (lehmer64 s).2) ∧
    ∀ seed, lehmer64_set_seed seed ≠ 0#128 → NeverStuck (fun s => (lehmer64 s).2) (lehmer64_set_seed seed) := by
  constructor
  · intro a b h
    exact mul_inj 0xda942042e4dd58b5#128 0x0cd365d2cb1a6a6c8b838d0354ead59d#128 (by decide +kernel) _ _ h
  · intro seed hs n h
    have hst : ∀ k x, (fun s => (lehmer64 s).2)^[k] x = x * 0xda942042e4dd58b5#128 ^ k :=
      fun k x => iter_mul 0xda942042e4dd58b5#128 x k
    rw [hst] at h
    have h' : lehmer64_set_seed seed * 0xda942042e4dd58b5#128 ^ n * 0xda942042e4dd58b5#128 =
        lehmer64_set_seed seed * 0xda942042e4dd58b5#128 ^ n := h
    rw [BitVec.mul_assoc, BitVec.mul_comm (0xda942042e4dd58b5#128 ^ n), ← BitVec.mul_assoc] at h'
    have h1 := pow_cancel 0xda942042e4dd58b5#128 0x0cd365d2cb1a6a6c8b838d0354ead59d#128 (by decide +kernel) n _ _ h'
    refine hs (mul_fixed_small 0xda942042e4dd58b5#128 _ (by decide +kernel) ?_ h1)
    have hlt : (lehmer64_set_seed seed).toNat < 2 ^ 64 := by
      unfold lehmer64_set_seed
      rw [BitVec.toNat_setWidth]
      exact lt_of_le_of_lt (Nat.mod_le _ _) (splitmix64 seed).1.isLt
    calc _ ≤ 2 ^ 64 * (0xda942042e4dd58b5#128).toNat := Nat.mul_le_mul_right _ hlt.le
      _ < 2 ^ 128 := by decide +kernel

example : lehmer64_set_seed 1009#64 ≠ 0#128 := by decide +kernel

/-- wyhash64, kiss_64 and xorwow never get stuck, from any state at all. -/
theorem C12_wyhash_kiss_xorwow :
    (∀ s, NeverStuck (fun s => (wyhash64 s).2) s) ∧ (∀ s, NeverStuck (fun s => (kiss_64 s).2) s) ∧
    (∀ s, NeverStuck (fun s => (xorwow s).2) s) := by
  refine ⟨fun s n h => ?_, fun s n h => ?_, fun s n h => ?_⟩
  · generalize (fun s => (wyhash64 s).2)^[n] s = x at h
    exact absurd (add_cancel_zero h) (by decide +kernel)
  · generalize (fun s => (kiss_64 s).2)^[n] s = x at h
    have h1 : 69069#64 * x.jcong + 1234567#64 = x.jcong := congrArg (fun k => k.jcong) h
    exact odd_lcg_moves (by omega) _ _ _ (by decide +kernel) (by decide +kernel) h1
  · generalize (fun s => (xorwow s).2)^[n] s = x at h
    have h1 : x.counter + 362437#32 = x.counter := congrArg (fun k => k.counter) h
    exact absurd (add_cancel_zero h1) (by decide +kernel)

/-- wyhash64 and xorwow: distinct states stay distinct. -/
theorem C12_wyhash_xorwow_injective :
    Function.Injective (fun s => (wyhash64 s).2) ∧ Function.Injective (fun s => (xorwow s).2) := by
  constructor
  · intro a b h
    simpa [wyhash64] using h
  · intro a b h
    obtain ⟨a1, a2, a3, a4, a5⟩ := a
    obtain ⟨b1, b2, b3, b4, b5⟩ := b
    simp only [xorwow, Xorwow.mk.injEq] at h ⊢
    obtain ⟨h1, h2, h3, h4, h5⟩ := h
    subst h2
    refine ⟨rfl, h3, h4, ?_, by simpa using h5⟩
    rw [BitVec.xor_comm _ (a1 ^^^ _), BitVec.xor_comm _ (a1 ^^^ _)] at h1
    exact xorShr_inj 2 (by omega) _ _ (xorShl_inj 1 (by omega) _ _ (xor_left_cancel h1))

example : (xorwow (xorwow_set_seed 7#32)).1 ≠ 0#32 := by decide +kernel

/-! ## C13 -/

/-- Values drawn by `n` forward steps, in order, and the final state. -/
def forward : Nat → BitVec 64 → List (BitVec 32) × BitVec 64
  | 0, s => ([], s)
  | n + 1, s => ((lcgFwd s).1 :: (forward n (lcgFwd s).2).1, (forward n (lcgFwd s).2).2)

/-- Values drawn by `n` backward steps, in order, and the final state. -/
def backward : Nat → BitVec 64 → List (BitVec 32) × BitVec 64
  | 0, s => ([], s)
  | n + 1, s => ((lcgBck s).1 :: (backward n (lcgBck s).2).1, (backward n (lcgBck s).2).2)

theorem backward_add (m n : Nat) (s : BitVec 64) :
    backward (m + n) s = ((backward m s).1 ++ (backward n (backward m s).2).1, (backward n (backward m s).2).2) := by
  induction m generalizing s with
  | zero => simp [backward]
  | succ m ih =>
    rw [show m + 1 + n = (m + n) + 1 by omega]
    simp [backward, ih]

/-- Stepping backwards `n` times after stepping forwards `n` times replays the same values in reverse order and
    restores the state. -/
theorem C13_reverse (n : Nat) (s : BitVec 64) (hs : s.toNat < 2 ^ 48) :
    backward n (forward n s).2 = ((forward n s).1.reverse, s) := by
  induction n generalizing s with
  | zero => simp [forward, backward]
  | succ n ih =>
    rw [show n + 1 = n + 1 from rfl, backward_add n 1]
    simp only [forward]
    rw [ih _ (fwd_lt s)]
    simp only [backward]
    rw [bck_fwd s hs]
    simp

example : (12345#64).toNat < 2 ^ 48 ∧ (forward 3 12345#64).1.length = 3 := by decide +kernel

/-! ## C14 -/

/-- `prng( u )` is below `u`, for every non-zero `u` and every generator output; each value below `u` is produced by
    some output. -/
theorem C14_below {w : Nat} (u : BitVec w) (hu : u ≠ 0#w) :
    (∀ x, ∃ r, prngU x u = .ret r ∧ r.toNat < u.toNat) ∧ (∀ v : BitVec w, v.toNat < u.toNat → ∃ x, prngU x u = .ret v) := by
  have hu0 : 0 < u.toNat := by
    apply Nat.pos_of_ne_zero; intro h; apply hu; exact BitVec.eq_of_toNat_eq (by simpa using h)
  constructor
  · intro x
    refine ⟨x % u, by simp [prngU, hu], ?_⟩
    rw [BitVec.toNat_umod]; exact Nat.mod_lt _ hu0
  · intro v hv
    refine ⟨v, ?_⟩
    simp only [prngU, hu, if_false]
    congr 1
    apply BitVec.eq_of_toNat_eq
    rw [BitVec.toNat_umod, Nat.mod_eq_of_lt hv]

/-- `prng( l, u )` lies in `[l, u]` and reaches every value of it, for every `l ≤ u` except the full range. -/
theorem C14_between_partial {w : Nat} (l u : BitVec w) (hlu : l.toNat ≤ u.toNat)
    (hfull : u.toNat - l.toNat + 1 < 2 ^ w) :
    (∀ x, ∃ r, prngLU x l u = .ret r ∧ l.toNat ≤ r.toNat ∧ r.toNat ≤ u.toNat) ∧
    (∀ v : BitVec w, l.toNat ≤ v.toNat → v.toNat ≤ u.toNat → ∃ x, prngLU x l u = .ret v) := by
  have hw : 0 < w := by
    apply Nat.pos_of_ne_zero; intro h; subst h; simp at hfull
  have h1 : (1 : Nat) % 2 ^ w = 1 := Nat.mod_eq_of_lt (Nat.one_lt_two_pow (by omega))
  have hl := l.isLt
  have hu := u.isLt
  have hd : (u - l + 1#w).toNat = u.toNat - l.toNat + 1 := by
    rw [BitVec.toNat_add, BitVec.toNat_sub, BitVec.toNat_ofNat, h1]
    rw [show 2 ^ w - l.toNat + u.toNat = (u.toNat - l.toNat) + 2 ^ w by omega, Nat.add_mod_right,
      Nat.mod_eq_of_lt (show u.toNat - l.toNat < 2 ^ w by omega), Nat.mod_eq_of_lt hfull]
  have hne : u - l + 1#w ≠ 0#w := by
    intro h; rw [h] at hd; simp at hd
  constructor
  · intro x
    obtain ⟨r, hr, hlt⟩ := (C14_below _ hne).1 x
    refine ⟨r + l, by simp [prngLU, hr], ?_⟩
    rw [hd] at hlt
    rw [BitVec.toNat_add, Nat.mod_eq_of_lt (by omega)]
    omega
  · intro v hv1 hv2
    have hvl : (v - l).toNat = v.toNat - l.toNat := by
      rw [BitVec.toNat_sub, show 2 ^ w - l.toNat + v.toNat = (v.toNat - l.toNat) + 2 ^ w by omega,
        Nat.add_mod_right, Nat.mod_eq_of_lt (by omega)]
    obtain ⟨x, hx⟩ := (C14_below _ hne).2 (v - l) (by rw [hd, hvl]; omega)
    refine ⟨x, ?_⟩
    simp only [prngLU, hx, Outcome.bind_ret, Outcome.pure_eq, Outcome.ret.injEq]
    exact BitVec.sub_add_cancel v l

example : (5#64).toNat ≤ (21#64).toNat ∧ (21#64).toNat - (5#64).toNat + 1 < 2 ^ 64 := by decide +kernel

/-- Asking for the full range divides by zero. -/
theorem C14_full_range_violated (w : Nat) (x : BitVec w) : prngLU x 0#w (BitVec.allOnes w) = .undef := by
  have : BitVec.allOnes w - 0#w + 1#w = 0#w := by
    apply BitVec.eq_of_toNat_eq
    simp only [BitVec.sub_zero, BitVec.toNat_add, BitVec.toNat_allOnes, BitVec.toNat_ofNat]
    have : 0 < 2 ^ w := Nat.two_pow_pos w
    by_cases hw : w = 0
    · subst hw; rfl
    · rw [Nat.mod_eq_of_lt (Nat.one_lt_two_pow hw), Nat.sub_add_cancel this]; simp
  simp only [prngLU, prngU, this, if_true, Outcome.bind_undef]

/-- `random( l, u )` on `long int` stays in the range spanned by its arguments, in either order, whenever the width
    of the range is representable (`x` is any value of `lrand48()`). -/
theorem C14_random_long_partial (x l u : Int) (hx : 0 ≤ x) (hl : -(2 ^ 63) ≤ l ∧ l < 2 ^ 63)
    (hu : -(2 ^ 63) ≤ u ∧ u < 2 ^ 63) (hd : max l u - min l u + 1 < 2 ^ 63) :
    ∃ r, randomLU x l u = .ret r ∧ min l u ≤ r ∧ r ≤ max l u := by
  have main : ∀ a b : Int, a ≤ b → -(2 ^ 63) ≤ a → b < 2 ^ 63 → b - a + 1 < 2 ^ 63 →
      ∃ r, (do let d ← long (b - a); let d ← long (d + 1); let m ← cmod x d; long (m + a) : Outcome Int) = .ret r ∧
        a ≤ r ∧ r ≤ b := by
    intro a b hab ha hb hw
    have e1 : long (b - a) = .ret (b - a) := by unfold long; rw [if_pos]; omega
    have e2 : long (b - a + 1) = .ret (b - a + 1) := by unfold long; rw [if_pos]; omega
    have e3 : cmod x (b - a + 1) = .ret (x.tmod (b - a + 1)) := by unfold cmod; rw [if_neg]; omega
    have h1 := Int.tmod_nonneg (b - a + 1) hx
    have h2 := Int.tmod_lt_of_pos x (show 0 < b - a + 1 by omega)
    refine ⟨x.tmod (b - a + 1) + a, ?_, by omega, by omega⟩
    rw [e1, Outcome.bind_ret, e2, Outcome.bind_ret, e3, Outcome.bind_ret]
    unfold long; rw [if_pos]; omega
  unfold randomLU
  by_cases h : u < l
  · simp only [h, if_true]
    obtain ⟨r, hr, h1, h2⟩ := main u l (by omega) hu.1 hl.2 (by omega)
    exact ⟨r, hr, by omega, by omega⟩
  · simp only [h, if_false]
    obtain ⟨r, hr, h1, h2⟩ := main l u (by omega) hl.1 hu.2 (by omega)
    exact ⟨r, hr, by omega, by omega⟩

example : randomLU 100 5 (-3) = .ret (-2) := by decide +kernel

/-- `random( u )` on `long int`, for `u > 0`: the value drawn modulo `u`, so in `[0, u)`, and every value of the range below
    2^31 (the bound of `lrand48()`) is drawn. -/
theorem C14_random_upto (u : Int) (hu : 0 < u ∧ u < 2 ^ 63) :
    (∀ x, 0 ≤ x → ∃ r, randomU x u = .ret r ∧ 0 ≤ r ∧ r < u) ∧
    (∀ r, 0 ≤ r → r < u → r < 2 ^ 31 → ∃ x, 0 ≤ x ∧ x < 2 ^ 31 ∧ randomU x u = .ret r) := by
  have key : ∀ x, 0 ≤ x → randomU x u = .ret (x.tmod u) := by
    intro x hx
    have h1 := Int.tmod_nonneg u hx
    have h2 := Int.tmod_lt_of_pos x hu.1
    have e0 : long (u - 1) = .ret (u - 1) := by unfold long; rw [if_pos]; omega
    have e1 : long (u - 1 - 0) = .ret (u - 1) := by unfold long; rw [if_pos] <;> simp <;> omega
    have e2 : long (u - 1 + 1) = .ret u := by
      rw [show u - 1 + 1 = u by omega]; unfold long; rw [if_pos]; omega
    have e3 : cmod x u = .ret (x.tmod u) := by unfold cmod; rw [if_neg]; omega
    have e4 : long (x.tmod u + 0) = .ret (x.tmod u) := by
      rw [Int.add_zero]; unfold long; rw [if_pos]; omega
    unfold randomU randomLU
    rw [e0, Outcome.bind_ret, if_neg (by omega)]
    simp only [e1, Outcome.bind_ret, e2, e3, e4]
  refine ⟨fun x hx => ⟨_, key x hx, Int.tmod_nonneg u hx, Int.tmod_lt_of_pos x hu.1⟩, fun r h0 h1 h2 => ⟨r, h0, h2, ?_⟩⟩
  rw [key r h0, Int.tmod_eq_of_lt h0 h1]

example : (0 : Int) < 6 ∧ (6 : Int) < 2 ^ 63 := by decide

/-- `random( u )` and `random( l, u )` on `unsigned long int`: in range, and every value is drawn for some 64-bit value. -/
theorem C14_random_unsigned_partial (l u : BitVec 64) (hw : max l.toNat u.toNat - min l.toNat u.toNat + 1 < 2 ^ 64) :
    (∀ x, u ≠ 0 → ∃ r, urandomU x u = .ret r ∧ r.toNat < u.toNat) ∧
    (∀ r : BitVec 64, r.toNat < u.toNat → ∃ x, urandomU x u = .ret r) ∧
    (∀ x, ∃ r, urandomLU x l u = .ret r ∧ min l.toNat u.toNat ≤ r.toNat ∧ r.toNat ≤ max l.toNat u.toNat) ∧
    (∀ r : BitVec 64, min l.toNat u.toNat ≤ r.toNat → r.toNat ≤ max l.toNat u.toNat → ∃ x, urandomLU x l u = .ret r) := by
  have main : ∀ a b : BitVec 64, a.toNat ≤ b.toNat → b.toNat - a.toNat + 1 < 2 ^ 64 →
      (b - a + 1#64 ≠ 0#64) ∧ (b - a + 1#64).toNat = b.toNat - a.toNat + 1 := by
    intro a b hab hw
    have e : (b - a + 1#64).toNat = b.toNat - a.toNat + 1 := by
      rw [BitVec.toNat_add, BitVec.toNat_sub_of_le (by simpa [BitVec.le_def] using hab)]
      exact Nat.mod_eq_of_lt hw
    refine ⟨fun h => ?_, e⟩
    rw [h] at e
    simp at e
  have range : ∀ a b x : BitVec 64, a.toNat ≤ b.toNat → b.toNat - a.toNat + 1 < 2 ^ 64 →
      (x % (b - a + 1#64) + a).toNat = x.toNat % (b.toNat - a.toNat + 1) + a.toNat := by
    intro a b x hab hw
    have hm : x.toNat % (b.toNat - a.toNat + 1) < b.toNat - a.toNat + 1 := Nat.mod_lt _ (by omega)
    have hb := b.isLt
    rw [BitVec.toNat_add, BitVec.toNat_umod, (main a b hab hw).2, Nat.mod_eq_of_lt]
    omega
  have whole : ∀ a b : BitVec 64, a.toNat ≤ b.toNat → b.toNat - a.toNat + 1 < 2 ^ 64 →
      (∀ x, ∃ r, (if b - a + 1#64 = 0#64 then Outcome.undef else .ret (x % (b - a + 1#64) + a)) = .ret r ∧
        a.toNat ≤ r.toNat ∧ r.toNat ≤ b.toNat) ∧
      (∀ r : BitVec 64, a.toNat ≤ r.toNat → r.toNat ≤ b.toNat →
        ∃ x, (if b - a + 1#64 = 0#64 then Outcome.undef else .ret (x % (b - a + 1#64) + a)) = .ret r) := by
    intro a b hab hw
    refine ⟨fun x => ⟨_, if_neg (main a b hab hw).1, ?_, ?_⟩, fun r h1 h2 => ⟨r - a, ?_⟩⟩
    · rw [range a b x hab hw]; omega
    · rw [range a b x hab hw]
      have : x.toNat % (b.toNat - a.toNat + 1) < b.toNat - a.toNat + 1 := Nat.mod_lt _ (by omega)
      omega
    · rw [if_neg (main a b hab hw).1]
      congr 1
      apply BitVec.eq_of_toNat_eq
      rw [range a b _ hab hw, BitVec.toNat_sub_of_le (by simpa [BitVec.le_def] using h1), Nat.mod_eq_of_lt (by omega)]
      omega
  refine ⟨fun x h0 => ?_, fun r hr => ⟨r, ?_⟩, ?_⟩
  · have hp : 0 < u.toNat := by
      rcases Nat.eq_zero_or_pos u.toNat with h | h
      · exact absurd (BitVec.eq_of_toNat_eq (by simpa using h)) h0
      · exact h
    refine ⟨x % u, if_neg h0, ?_⟩
    rw [BitVec.toNat_umod]
    exact Nat.mod_lt _ hp
  · have h0 : u ≠ 0#64 := fun h => by rw [h] at hr; simp at hr
    unfold urandomU
    rw [if_neg h0]
    congr 1
    apply BitVec.eq_of_toNat_eq
    rw [BitVec.toNat_umod, Nat.mod_eq_of_lt hr]
  · unfold urandomLU
    by_cases h : u < l
    · have h' : u.toNat < l.toNat := h
      simp only [h, if_true]
      rw [Nat.max_eq_left (by omega), Nat.min_eq_right (by omega)] at *
      exact whole u l (by omega) hw
    · have h' : l.toNat ≤ u.toNat := by simpa [BitVec.lt_def] using h
      simp only [h, if_false]
      rw [Nat.max_eq_right h', Nat.min_eq_left h'] at *
      exact whole l u h' hw

example : max (3#64).toNat (9#64).toNat - min (3#64).toNat (9#64).toNat + 1 < 2 ^ 64 ∧ (9#64) ≠ 0 := by decide

/-- `random( l, u )` on `char` leaves its range for bounds of opposite sign. -/
theorem C14_random_char_violated :
    ∃ x : BitVec 64, x.toNat < 2 ^ 31 ∧ ∃ r, crandomLU x (-5#8) 5#8 = .ret r ∧ ¬ (-5 ≤ r.toInt ∧ r.toInt ≤ 5) :=
  ⟨20#64, by decide +kernel, 25#8, by decide +kernel, by decide +kernel⟩

/-- `random( l, u )` reaches no value above `l + 2^31 - 1`, because `lrand48()` is below 2^31: wide ranges are not
    covered. -/
theorem C14_random_coverage_violated (x : Int) (hx : 0 ≤ x ∧ x < 2 ^ 31) :
    randomLU x 0 (2 ^ 40) ≠ .ret (2 ^ 40) := by
  intro h
  unfold randomLU at h
  simp only [show ¬ ((2 : Int) ^ 40 < 0) by decide +kernel, if_false] at h
  have e1 : long (2 ^ 40 - 0) = .ret (2 ^ 40) := by decide +kernel
  have e2 : long (2 ^ 40 + 1) = .ret (2 ^ 40 + 1) := by decide +kernel
  have e3 : cmod x (2 ^ 40 + 1) = .ret x := by
    unfold cmod; rw [if_neg (by decide +kernel), Int.tmod_eq_of_lt hx.1 (by omega)]
  rw [e1, Outcome.bind_ret, e2, Outcome.bind_ret, e3, Outcome.bind_ret] at h
  unfold long at h
  split at h
  · injection h with h; omega
  · exact absurd h (by simp)

end Verif.Random
