import Verif.Model.Base
/-!
Model of the pseudo-random generators in `libcfa/src/bits/random.hfa` and of the range functions in
`libcfa/src/stdlib.hfa` and `libcfa/src/concurrency/thread.hfa`. C unsigned types are `BitVec`.
A generator step returns the value produced and the new state.
-/
namespace Verif.Random

/-! ### splitmix -/

/-- random.hfa:140-143: output of `splitmix64` from the already advanced state. -/
def mix64 (z : BitVec 64) : BitVec 64 :=
  let z := (z ^^^ (z >>> 30)) * 0xbf58476d1ce4e5b9#64
  let z := (z ^^^ (z >>> 27)) * 0x94d049bb133111eb#64
  z ^^^ (z >>> 31)

/-- random.hfa:138-144 `splitmix64`. -/
def splitmix64 (state : BitVec 64) : BitVec 64 × BitVec 64 :=
  let state := state + 0x9e3779b97f4a7c15#64
  (mix64 state, state)

/-- random.hfa:146-149 `splitmix64_set_seed`. -/
def splitmix64_set_seed (seed : BitVec 64) : BitVec 64 := (splitmix64 seed).2

/-- random.hfa:158-161: output of `splitmix32`; the intermediate `z` is 64 bits wide, as in the code. -/
def mix32 (state : BitVec 32) : BitVec 32 :=
  let z : BitVec 64 := state.setWidth 64
  let z := (z ^^^ (z >>> 15)) * 0x85ebca6b#64
  let z := (z ^^^ (z >>> 13)) * 0xc2b2ae35#64
  (z ^^^ (z >>> 16)).setWidth 32

/-- random.hfa:156-162 `splitmix32`. -/
def splitmix32 (state : BitVec 32) : BitVec 32 × BitVec 32 :=
  let state := state + 0x9e3779b9#32
  (mix32 state, state)

/-! ### lehmer64, wyhash64 -/

/-- random.hfa:171-175 `lehmer64`. -/
def lehmer64 (state : BitVec 128) : BitVec 64 × BitVec 128 :=
  ((state >>> 64).setWidth 64, state * 0xda942042e4dd58b5#128)

/-- random.hfa:177-180 `lehmer64_set_seed`. -/
def lehmer64_set_seed (seed : BitVec 64) : BitVec 128 := (splitmix64 seed).1.setWidth 128

/-- random.hfa:183-192 `wyhash64`. -/
def wyhash64 (state : BitVec 64) : BitVec 64 × BitVec 64 :=
  let tmp : BitVec 128 := state.setWidth 128 * 0xa3b195354a39b70d#128
  let m1 : BitVec 64 := ((tmp >>> 64) ^^^ tmp).setWidth 64
  let tmp : BitVec 128 := m1.setWidth 128 * 0x1b03738712fad5c9#128
  let m2 : BitVec 64 := ((tmp >>> 64) ^^^ tmp).setWidth 64
  (m2, state + 0x60bee2bee120fc15#64)

/-- random.hfa:194-196 `wyhash64_set_seed`. -/
def wyhash64_set_seed (seed : BitVec 64) : BitVec 64 := (splitmix64 seed).1

/-! ### xoshiro -/

/-- random.hfa:210, 249: the four-word state of `xoshiro256pp_t` (`w = 64`) and `xoshiro128pp_t` (`w = 32`). -/
structure Xoshiro (w : Nat) where
  s0 : BitVec w
  s1 : BitVec w
  s2 : BitVec w
  s3 : BitVec w
  deriving DecidableEq, Repr

/-- random.hfa:214-216, 253-255: `rotl`, for `0 < k < w`. -/
def rotl {w : Nat} (x : BitVec w) (k : Nat) : BitVec w := (x <<< k) ||| (x >>> (w - k))

/-- random.hfa:213-227, 252-266: the common body of `xoshiro256pp` and `xoshiro128pp`; the rotation and shift
    amounts are the parameters. -/
def xoshiroStep {w : Nat} (r1 sh r2 : Nat) (s : Xoshiro w) : BitVec w × Xoshiro w :=
  let result := rotl (s.s0 + s.s3) r1 + s.s0
  let t := s.s1 <<< sh
  let s2 := s.s2 ^^^ s.s0
  let s3 := s.s3 ^^^ s.s1
  let s1 := s.s1 ^^^ s2
  let s0 := s.s0 ^^^ s3
  let s2 := s2 ^^^ t
  let s3 := rotl s3 r2
  (result, ⟨s0, s1, s2, s3⟩)

/-- random.hfa:213-228 `xoshiro256pp`. -/
def xoshiro256pp (s : Xoshiro 64) : BitVec 64 × Xoshiro 64 := xoshiroStep 23 17 45 s

/-- random.hfa:230-237 `xoshiro256pp_set_seed`. -/
def xoshiro256pp_set_seed (seed : BitVec 64) : Xoshiro 64 :=
  let r1 := splitmix64 seed
  let r2 := splitmix64 r1.2
  let r3 := splitmix64 r2.2
  let r4 := splitmix64 r3.2
  ⟨r1.1, r2.1, r3.1, r4.1⟩

/-- random.hfa:252-267 `xoshiro128pp`. -/
def xoshiro128pp (s : Xoshiro 32) : BitVec 32 × Xoshiro 32 := xoshiroStep 7 9 11 s

/-- random.hfa:269-276 `xoshiro128pp_set_seed`. -/
def xoshiro128pp_set_seed (seed : BitVec 32) : Xoshiro 32 :=
  let r1 := splitmix32 seed
  let r2 := splitmix32 r1.2
  let r3 := splitmix32 r2.2
  let r4 := splitmix32 r3.2
  ⟨r1.1, r2.1, r3.1, r4.1⟩

/-! ### xorshift -/

/-- random.hfa:279-285 `xorshift_13_7_17`, state part. -/
def xs13_7_17 (s : BitVec 64) : BitVec 64 :=
  let s := s ^^^ (s <<< 13)
  let s := s ^^^ (s >>> 7)
  s ^^^ (s <<< 17)

/-- random.hfa:279-285 `xorshift_13_7_17`. -/
def xorshift_13_7_17 (s : BitVec 64) : BitVec 64 × BitVec 64 := (s, xs13_7_17 s)

/-- random.hfa:287-289, 318-320 `xorshift_13_7_17_set_seed`, `xorshift_12_25_27_set_seed`: of the 64-bit xorshifts. -/
def xorshift64_set_seed (seed : BitVec 64) : BitVec 64 := (splitmix64 seed).1

/-- random.hfa:296-302 `xorshift_6_21_7`, state part. -/
def xs6_21_7 (s : BitVec 32) : BitVec 32 :=
  let s := s ^^^ (s <<< 6)
  let s := s ^^^ (s >>> 21)
  s ^^^ (s <<< 7)

/-- random.hfa:296-302 `xorshift_6_21_7`. -/
def xorshift_6_21_7 (s : BitVec 32) : BitVec 32 × BitVec 32 := (s, xs6_21_7 s)

/-- random.hfa:304-306 `xorshift_6_21_7_set_seed`. -/
def xorshift_6_21_7_set_seed (seed : BitVec 32) : BitVec 32 := (splitmix32 seed).1

/-- random.hfa:310-316 `xorshift_12_25_27`, state part. -/
def xs12_25_27 (s : BitVec 64) : BitVec 64 :=
  let s := s ^^^ (s >>> 12)
  let s := s ^^^ (s <<< 25)
  s ^^^ (s >>> 27)

/-- random.hfa:310-316 `xorshift_12_25_27`. -/
def xorshift_12_25_27 (s : BitVec 64) : BitVec 64 × BitVec 64 := (s * 0x2545F4914F6CDD1D#64, xs12_25_27 s)

/-! ### kiss_64, xorwow -/

/-- random.hfa:325 `kiss_64_t`. -/
structure Kiss where
  z : BitVec 64
  w : BitVec 64
  jsr : BitVec 64
  jcong : BitVec 64
  deriving DecidableEq, Repr

/-- random.hfa:328-337 `kiss_64`. -/
def kiss_64 (s : Kiss) : BitVec 64 × Kiss :=
  let z := 36969#64 * (s.z &&& 65535#64) + (s.z >>> 16)
  let w := 18000#64 * (s.w &&& 65535#64) + (s.w >>> 16)
  let jsr := s.jsr ^^^ (s.jsr <<< 13)
  let jsr := jsr ^^^ (jsr >>> 17)
  let jsr := jsr ^^^ (jsr <<< 5)
  let jcong := 69069#64 * s.jcong + 1234567#64
  ((((s.z <<< 16) + s.w) ^^^ s.jcong) + s.jsr, ⟨z, w, jsr, jcong⟩)

/-- random.hfa:339-341 `kiss_64_set_seed`. -/
def kiss_64_set_seed (seed : BitVec 64) : Kiss := ⟨1, 1, 4, (splitmix64 seed).1⟩

/-- random.hfa:346 `xorwow_t`. -/
structure Xorwow where
  a : BitVec 32
  b : BitVec 32
  c : BitVec 32
  d : BitVec 32
  counter : BitVec 32
  deriving DecidableEq, Repr

/-- random.hfa:349-365 `xorwow`. -/
def xorwow (r : Xorwow) : BitVec 32 × Xorwow :=
  let ret := r.a + r.counter
  let t := r.d
  let s := r.a
  let t := t ^^^ (t >>> 2)
  let t := t ^^^ (t <<< 1)
  let t := t ^^^ (s ^^^ (s <<< 4))
  (ret, ⟨t, s, r.b, r.c, r.counter + 362437#32⟩)

/-- random.hfa:367-374 `xorwow_set_seed`. -/
def xorwow_set_seed (seed : BitVec 32) : Xorwow :=
  let r1 := splitmix32 seed
  let r2 := splitmix32 r1.2
  let r3 := splitmix32 r2.2
  let r4 := splitmix32 r3.2
  ⟨r1.1, r2.1, r3.1, r4.1, 0⟩

/-! ### Bi-directional generator -/

/-- random.hfa:378 `M - 1`, the 48-bit mask. -/
def lcgMask : BitVec 64 := (1#64 <<< 48) - 1#64

/-- random.hfa:385-388 `LCGBI_fwd`. -/
def lcgFwd (rs : BitVec 64) : BitVec 32 × BitVec 64 :=
  let rs := (25214903917#64 * rs + 11#64) &&& lcgMask
  ((rs >>> 16).setWidth 32, rs)

/-- random.hfa:390-394 `LCGBI_bck`. -/
def lcgBck (rs : BitVec 64) : BitVec 32 × BitVec 64 :=
  let r := (rs >>> 16).setWidth 32
  (r, (18446708753438544741#64 * (rs - 11#64)) &&& lcgMask)

/-! ### Ranges: stdlib.hfa:469-474, 489-490, 509-510, 543-544; thread.hfa:152-153 -/

/-- `R prng( PRNG & prng, R u ) { return prng( prng ) % u; }` on the raw output `x`. -/
def prngU {w : Nat} (x u : BitVec w) : Outcome (BitVec w) :=
  if u = 0#w then .undef else .ret (x % u)

/-- `R prng( PRNG & prng, R l, R u ) { return prng( prng, u - l + 1 ) + l; }` on the raw output `x`. -/
def prngLU {w : Nat} (x l u : BitVec w) : Outcome (BitVec w) := do
  let r ← prngU x (u - l + 1#w)
  pure (r + l)

/-- A value of `long int` (64 bits); overflow is undefined. -/
def long (x : Int) : Outcome Int := if -(2 ^ 63) ≤ x ∧ x < 2 ^ 63 then .ret x else .undef

/-- stdlib.hfa:417 `long int random( long int l, long int u )`; `x` is the value of `lrand48()`. -/
def randomLU (x l u : Int) : Outcome Int :=
  let (l, u) := if u < l then (u, l) else (l, u)
  do
    let d ← long (u - l)
    let d ← long (d + 1)
    let m ← cmod x d
    long (m + l)

/-- stdlib.hfa:418 `long int random( long int u )`. -/
def randomU (x u : Int) : Outcome Int := do
  let u1 ← long (u - 1)
  randomLU x 0 u1

/-- stdlib.hfa:420 `unsigned long int random( unsigned long int u )`. -/
def urandomU (x u : BitVec 64) : Outcome (BitVec 64) := if u = 0#64 then .undef else .ret (x % u)

/-- stdlib.hfa:421 `unsigned long int random( unsigned long int l, unsigned long int u )`. -/
def urandomLU (x l u : BitVec 64) : Outcome (BitVec 64) :=
  let (l, u) := if u < l then (u, l) else (l, u)
  if u - l + 1#64 = 0#64 then .undef else .ret (x % (u - l + 1#64) + l)

/-- stdlib.hfa:425 `char random( char l, char u )`: both bounds are converted to `unsigned long int`, which
    sign-extends (`char` is signed on x86), the result is truncated. -/
def crandomLU (x : BitVec 64) (l u : BitVec 8) : Outcome (BitVec 8) := do
  let r ← urandomLU x (l.signExtend 64) (u.signExtend 64)
  pure (r.setWidth 8)

end Verif.Random
