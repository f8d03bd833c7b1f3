import Verif.Proof.Time
/-!
C08-C11, C72: durations and times (`libcfa/src/time.hfa`, `libcfa/src/time.cfa`).
-/
namespace Verif.Time
open Verif

/-! ### C08 -/

/-- Nanoseconds in one unit: the specification of the unit suffixes. -/
inductive TUnit | ns | us | ms | s | m | h | d | w
  deriving DecidableEq

def TUnit.nanos : TUnit → Int
  | .ns => 1
  | .us => 1000
  | .ms => 1000000
  | .s => 1000000000
  | .m => 60 * 1000000000
  | .h => 3600 * 1000000000
  | .d => 86400 * 1000000000
  | .w => 604800 * 1000000000

/-- The library's constructor for a unit. -/
def TUnit.make : TUnit → Int → Outcome Duration
  | .ns => Duration.mkNs | .us => Duration.mkUs | .ms => Duration.mkMs | .s => Duration.mkS
  | .m => Duration.mkM | .h => Duration.mkH | .d => Duration.mkD | .w => Duration.mkW

/-- The library's accessor for a unit. -/
def TUnit.get : TUnit → Duration → Int
  | .ns => Duration.getNs | .us => Duration.getUs | .ms => Duration.getMs | .s => Duration.getS
  | .m => Duration.getM | .h => Duration.getH | .d => Duration.getD | .w => Duration.getW

private theorem make_eq (u : TUnit) (n : Int) :
    u.make n = (i64 (n * u.nanos) >>= fun t => pure ⟨t⟩) := by
  cases u <;> simp [TUnit.make, TUnit.nanos, Duration.mkNs, Duration.mkUs, Duration.mkMs, Duration.mkS, Duration.mkM,
    Duration.mkH, Duration.mkD, Duration.mkW, TIMEGRAN]

private theorem get_eq (u : TUnit) (d : Duration) : u.get d = d.tn.tdiv u.nanos := by
  cases u <;> simp [TUnit.get, TUnit.nanos, Duration.getNs, Duration.getUs, Duration.getMs, Duration.getS, Duration.getM,
    Duration.getH, Duration.getD, Duration.getW, TIMEGRAN]

private theorem nanos_pos (u : TUnit) : 0 < u.nanos := by cases u <;> simp [TUnit.nanos]

/-- C08: building `n` units yields exactly `n * nanos` nanoseconds, when that fits 64 bits, and the
    accessor gives `n` back. -/
theorem C08_unit_make_get (u : TUnit) (n : Int) (h : InI64 (n * u.nanos)) :
    u.make n = .ret ⟨n * u.nanos⟩ ∧ u.get ⟨n * u.nanos⟩ = n := by
  constructor
  · rw [make_eq, i64_ok h]; rfl
  · rw [get_eq]; exact Int.mul_tdiv_cancel _ (by have := nanos_pos u; omega)

/-- C08: the accessor truncates toward zero: rebuilding never moves away from zero, keeps the sign and
    loses less than one unit. -/
theorem C08_unit_get_make (u : TUnit) (d : Duration) (h : InI64 d.tn) :
    ∃ e : Duration, u.make (u.get d) = .ret e ∧ (d.tn - e.tn).natAbs < u.nanos.natAbs ∧
      (0 ≤ d.tn → 0 ≤ e.tn ∧ e.tn ≤ d.tn) ∧ (d.tn ≤ 0 → d.tn ≤ e.tn ∧ e.tn ≤ 0) := by
  have hp := nanos_pos u
  have hmod := Int.tmod_add_mul_tdiv d.tn u.nanos
  have hlt : (d.tn.tmod u.nanos).natAbs < u.nanos.natAbs := by
    rw [Int.natAbs_tmod]; exact Nat.mod_lt _ (by omega)
  have hn1 : 0 ≤ d.tn → 0 ≤ d.tn.tmod u.nanos ∧ 0 ≤ d.tn.tdiv u.nanos := fun h0 =>
    ⟨Int.tmod_nonneg _ h0, Int.tdiv_nonneg h0 (by omega)⟩
  have hn2 : d.tn ≤ 0 → d.tn.tmod u.nanos ≤ 0 ∧ d.tn.tdiv u.nanos ≤ 0 := by
    intro h0
    have e1 : d.tn = -(-d.tn) := by omega
    constructor
    · rw [e1, Int.neg_tmod]; have := Int.tmod_nonneg u.nanos (by omega : 0 ≤ -d.tn); omega
    · rw [e1, Int.neg_tdiv]; have := Int.tdiv_nonneg (by omega : 0 ≤ -d.tn) (by omega : 0 ≤ u.nanos); omega
  have hmul : 0 ≤ d.tn → 0 ≤ u.nanos * d.tn.tdiv u.nanos := fun h0 =>
    Int.mul_nonneg (by omega) (hn1 h0).2
  have hmul2 : d.tn ≤ 0 → u.nanos * d.tn.tdiv u.nanos ≤ 0 := fun h0 =>
    Int.mul_nonpos_of_nonneg_of_nonpos (by omega) (hn2 h0).2
  have hin : InI64 (d.tn.tdiv u.nanos * u.nanos) := by
    rw [Int.mul_comm]
    unfold InI64 at *
    rcases Int.le_total 0 d.tn with h0 | h0
    · have := hn1 h0; have := hmul h0; omega
    · have := hn2 h0; have := hmul2 h0; omega
  refine ⟨⟨d.tn.tdiv u.nanos * u.nanos⟩, ?_, ?_, ?_, ?_⟩
  · rw [make_eq, get_eq, i64_ok hin]; rfl
  · show (d.tn - d.tn.tdiv u.nanos * u.nanos).natAbs < _
    rw [Int.mul_comm]
    have : d.tn - u.nanos * d.tn.tdiv u.nanos = d.tn.tmod u.nanos := by omega
    rw [this]; exact hlt
  · intro h0; rw [Int.mul_comm]; have := hn1 h0; have := hmul h0; exact ⟨by assumption, by show u.nanos * d.tn.tdiv u.nanos ≤ d.tn; omega⟩
  · intro h0; rw [Int.mul_comm]; have := hn2 h0; have := hmul2 h0; exact ⟨by show d.tn ≤ u.nanos * d.tn.tdiv u.nanos; omega, by assumption⟩

/-- C08: addition, subtraction, negation and scaling are exact whenever the exact result fits. -/
theorem C08_exact_arithmetic (a b : Duration) (n : Int) :
    (InI64 (a.tn + b.tn) → a.add b = .ret ⟨a.tn + b.tn⟩) ∧
    (InI64 (a.tn - b.tn) → a.sub b = .ret ⟨a.tn - b.tn⟩) ∧
    (InI64 (a.tn * n) → a.scale n = .ret ⟨a.tn * n⟩) ∧
    (InI64 (-a.tn) → a.neg = .ret ⟨-a.tn⟩ ∧ a.abs = .ret ⟨(a.tn.natAbs : Int)⟩) := by
  refine ⟨fun h => by simp [Duration.add, i64_ok h], fun h => by simp [Duration.sub, i64_ok h],
    fun h => by simp [Duration.scale, i64_ok h], fun h => ⟨by simp [Duration.neg, i64_ok h], ?_⟩⟩
  unfold Duration.abs
  split
  · next h0 =>
      have : (a.tn.natAbs : Int) = a.tn := by omega
      rw [this]
  · next h0 => simp only [Duration.neg, i64_ok h, Outcome.bind_ret, Outcome.pure_eq]; congr 2; omega

private theorem tdiv_inI64 {a b : Int} (ha : InI64 a) (hb : b ≠ 0) (hm : ¬ (a = -(2 ^ 63) ∧ b = -1)) :
    InI64 (a.tdiv b) := by
  have hle : (a.tdiv b).natAbs ≤ a.natAbs := by
    rw [Int.natAbs_tdiv]; exact Nat.div_le_self _ _
  unfold InI64 at *
  by_cases hmin : a = -(2 ^ 63)
  · have hb1 : b ≠ -1 := fun h => hm ⟨hmin, h⟩
    by_cases hb2 : b = 1
    · subst hb2; simp; omega
    · have : (a.tdiv b).natAbs ≤ a.natAbs / 2 := by
        rw [Int.natAbs_tdiv]
        exact Nat.div_le_div_left (by omega) (by omega)
      omega
  · omega

/-- C08: division and remainder of durations: `d == (d/e)*e + d%e` with `|d%e| < |e|` and `d%e` of the sign
    of `d`, for every non-zero `e` (excluding only the one overflowing quotient). -/
theorem C08_division (d e : Duration) (hd : InI64 d.tn) (he : e.tn ≠ 0)
    (hm : ¬ (d.tn = -(2 ^ 63) ∧ e.tn = -1)) :
    ∃ (q : Int) (r : Duration), d.div e = .ret q ∧ d.mod e = .ret r ∧ d.tn = q * e.tn + r.tn ∧
      r.tn.natAbs < e.tn.natAbs ∧ (0 ≤ d.tn → 0 ≤ r.tn) ∧ (d.tn ≤ 0 → r.tn ≤ 0) := by
  have hin := tdiv_inI64 hd he hm
  refine ⟨d.tn.tdiv e.tn, ⟨d.tn.tmod e.tn⟩, by simp [Duration.div, div64, he, i64_ok hin],
    by simp [Duration.mod, mod64, he, hin], ?_, ?_, ?_, ?_⟩
  · have := Int.tmod_add_mul_tdiv d.tn e.tn; show _ = _ + d.tn.tmod e.tn; rw [Int.mul_comm]; omega
  · show (d.tn.tmod e.tn).natAbs < _
    rw [Int.natAbs_tmod]; exact Nat.mod_lt _ (by omega)
  · intro h; exact Int.tmod_nonneg _ h
  · intro h
    show d.tn.tmod e.tn ≤ 0
    have e1 : d.tn = -(-d.tn) := by omega
    rw [e1, Int.neg_tmod]; have := Int.tmod_nonneg e.tn (by omega : 0 ≤ -d.tn); omega

/-- A valid `Time`: an unsigned 64-bit count. -/
def ValidTime (t : Time) : Prop := 0 ≤ t.tn ∧ t.tn < 2 ^ 64

private theorem u64_of_range {x : Int} (h : 0 ≤ x ∧ x < 2 ^ 64) : u64 x = x := by
  unfold u64; omega

/-- C08: `Time - Time` is the exact difference whenever it fits a Duration, and in every case the Duration
    that added to the second time gives the first. -/
theorem C08_time_difference (a b : Time) (ha : ValidTime a) (hb : ValidTime b) :
    b.add (a.diff b) = a ∧ (InI64 (a.tn - b.tn) → (a.diff b).tn = a.tn - b.tn) ∧ InI64 (a.diff b).tn := by
  obtain ⟨a1, a2⟩ := ha
  obtain ⟨b1, b2⟩ := hb
  refine ⟨?_, ?_, ?_⟩
  · cases a; cases b
    simp only [Time.add, Time.diff, u64, u64toI64, Time.mk.injEq] at *
    omega
  · intro h
    unfold InI64 at h
    simp only [Time.diff, u64, u64toI64]
    omega
  · unfold InI64
    simp only [Time.diff, u64, u64toI64]
    omega

/-- C08: adding and subtracting a duration are inverse, and exact when the result is a valid time. -/
theorem C08_time_shift (t : Time) (d : Duration) (ht : ValidTime t) (hd : InI64 d.tn) :
    (t.add d).sub d = t ∧ (t.sub d).add d = t ∧
    (ValidTime ⟨t.tn + d.tn⟩ → t.add d = ⟨t.tn + d.tn⟩) ∧
    (ValidTime ⟨t.tn - d.tn⟩ → t.sub d = ⟨t.tn - d.tn⟩) := by
  obtain ⟨a1, a2⟩ := ht
  obtain ⟨b1, b2⟩ := hd
  cases t; cases d
  unfold ValidTime
  simp only [Time.add, Time.sub, u64, Time.mk.injEq] at *
  refine ⟨by omega, by omega, fun h => by omega, fun h => by omega⟩

/-- C08: comparisons of durations and of times are the order of the nanosecond counts; `min`/`max` pick
    the smaller/larger. -/
theorem C08_comparisons (a b : Duration) (s t : Time) :
    (a.eq b = true ↔ a = b) ∧ (a.ne b = true ↔ a ≠ b) ∧ (a.lt b = true ↔ a.tn < b.tn) ∧
    (a.le b = true ↔ a.tn ≤ b.tn) ∧ (a.gt b = true ↔ b.tn < a.tn) ∧ (a.ge b = true ↔ b.tn ≤ a.tn) ∧
    (s.eq t = true ↔ s = t) ∧ (s.ne t = true ↔ s ≠ t) ∧ (s.lt t = true ↔ s.tn < t.tn) ∧
    (s.le t = true ↔ s.tn ≤ t.tn) ∧ (s.gt t = true ↔ t.tn < s.tn) ∧ (s.ge t = true ↔ t.tn ≤ s.tn) ∧
    (a.max b).tn = max a.tn b.tn ∧ (a.min b).tn = min a.tn b.tn := by
  cases a; cases b; cases s; cases t
  refine ⟨?_, ?_, ?_, ?_, ?_, ?_, ?_, ?_, ?_, ?_, ?_, ?_, ?_, ?_⟩
  all_goals first
    | done
    | (simp [Duration.eq, Duration.ne, Duration.lt, Duration.le, Duration.gt, Duration.ge, Time.eq, Time.ne, Time.lt,
        Time.le, Time.gt, Time.ge]; done)
    | (simp only [Duration.max, Duration.min]; split <;> simp only [] <;> omega)

example : InI64 (3 * TUnit.h.nanos) ∧ InI64 (⟨-1500000000⟩ : Duration).tn ∧
    TUnit.s.make (TUnit.s.get ⟨-1500000000⟩) = .ret ⟨-1000000000⟩ ∧
    ValidTime ⟨1700000000000000001⟩ := by
  refine ⟨by decide, by decide, by decide, ?_⟩; unfold ValidTime; decide

/-! ### C09 -/

/-- Nanoseconds denoted by a C struct. -/
def Timespec.nanos (t : Timespec) : Int := t.sec * 1000000000 + t.nsec
def Timeval.nanos (t : Timeval) : Int := (t.sec * 1000000 + t.usec) * 1000
/-- Normalised C structs. -/
def Timespec.Norm (t : Timespec) : Prop := 0 ≤ t.nsec ∧ t.nsec < 1000000000
def Timeval.Norm (t : Timeval) : Prop := 0 ≤ t.usec ∧ t.usec < 1000000

/-- C09: converting any time to `timespec` is exact and normalised; converting back is the identity (for times
    whose count fits the signed 64-bit intermediate, i.e. before the year 2262). -/
theorem C09_timespec_roundtrip (t : Time) (ht : ValidTime t) :
    t.toTimespec.Norm ∧ t.toTimespec.nanos = t.tn ∧
    (t.tn < 2 ^ 63 → Time.ofTimespec t.toTimespec = .ret t ∧ Duration.ofTimespec t.toTimespec = .ret ⟨t.tn⟩) := by
  obtain ⟨h1, h2⟩ := ht
  refine ⟨?_, ?_, ?_⟩
  · simp only [Time.toTimespec, Timespec.Norm, TIMEGRAN]; omega
  · simp only [Time.toTimespec, Timespec.nanos, TIMEGRAN]; omega
  · intro h
    have e1 : InI64 (t.tn / TIMEGRAN * TIMEGRAN) := by simp only [InI64, TIMEGRAN]; omega
    have e2 : t.tn / TIMEGRAN * TIMEGRAN + t.tn % TIMEGRAN = t.tn := by simp only [TIMEGRAN]; omega
    have e3 : InI64 t.tn := by simp only [InI64]; omega
    constructor
    · simp only [Time.ofTimespec, Time.toTimespec, i64_ok e1, Outcome.bind_ret, e2, i64_ok e3, Outcome.pure_eq,
        u64_of_range ⟨h1, h2⟩]
    · simp only [Duration.ofTimespec, Time.toTimespec, i64_ok e1, Outcome.bind_ret, e2, i64_ok e3, Outcome.pure_eq]

/-- C09: converting to `timeval` is normalised, and converting back loses exactly the sub-microsecond part. -/
theorem C09_timeval_roundtrip (t : Time) (ht : ValidTime t) (h : t.tn < 2 ^ 63) :
    t.toTimeval.Norm ∧ t.toTimeval.nanos = t.tn - t.tn % 1000 ∧
    Time.ofTimeval t.toTimeval = .ret ⟨t.tn - t.tn % 1000⟩ ∧
    Duration.ofTimeval t.toTimeval = .ret ⟨t.tn - t.tn % 1000⟩ := by
  obtain ⟨h1, h2⟩ := ht
  have hk : TIMEGRAN.tdiv 1000000 = 1000 := by decide
  have e1 : InI64 (t.tn / TIMEGRAN * TIMEGRAN) := by simp only [InI64, TIMEGRAN]; omega
  have e2 : InI64 (t.tn % TIMEGRAN / 1000 * 1000) := by simp only [InI64, TIMEGRAN]; omega
  have e3 : t.tn / TIMEGRAN * TIMEGRAN + t.tn % TIMEGRAN / 1000 * 1000 = t.tn - t.tn % 1000 := by
    simp only [TIMEGRAN]; omega
  have e4 : InI64 (t.tn - t.tn % 1000) := by simp only [InI64]; omega
  have e5 : u64 (t.tn - t.tn % 1000) = t.tn - t.tn % 1000 := u64_of_range (by omega)
  refine ⟨?_, ?_, ?_, ?_⟩
  · simp only [Time.toTimeval, Timeval.Norm, hk]; simp only [TIMEGRAN]; omega
  · simp only [Time.toTimeval, Timeval.nanos, hk]; simp only [TIMEGRAN]; omega
  · simp only [Time.ofTimeval, Time.toTimeval, hk, i64_ok e1, i64_ok e2, Outcome.bind_ret, e3, i64_ok e4, e5,
      Outcome.pure_eq]
  · simp only [Duration.ofTimeval, Time.toTimeval, hk, i64_ok e1, i64_ok e2, Outcome.bind_ret, e3, i64_ok e4,
      Outcome.pure_eq]

/-- C09: any normalised non-negative struct in range is denoted exactly by the Time/Duration built from it. -/
theorem C09_from_structs (ts : Timespec) (tv : Timeval) (h1 : ts.Norm) (h2 : tv.Norm)
    (p1 : 0 ≤ ts.sec) (p2 : 0 ≤ tv.sec) (r1 : ts.nanos < 2 ^ 63) (r2 : tv.nanos < 2 ^ 63) :
    Duration.ofTimespec ts = .ret ⟨ts.nanos⟩ ∧ Duration.ofTimeval tv = .ret ⟨tv.nanos⟩ ∧
    Time.ofTimespec ts = .ret ⟨ts.nanos⟩ ∧ Time.ofTimeval tv = .ret ⟨tv.nanos⟩ := by
  unfold Timespec.Norm at h1; unfold Timeval.Norm at h2
  unfold Timespec.nanos at *; unfold Timeval.nanos at *
  have a1 : InI64 (ts.sec * TIMEGRAN) := by simp only [InI64, TIMEGRAN]; omega
  have a2 : InI64 (ts.sec * TIMEGRAN + ts.nsec) := by simp only [InI64, TIMEGRAN]; omega
  have b1 : InI64 (tv.sec * TIMEGRAN) := by simp only [InI64, TIMEGRAN]; omega
  have b2 : InI64 (tv.usec * 1000) := by simp only [InI64]; omega
  have b3 : InI64 (tv.sec * TIMEGRAN + tv.usec * 1000) := by simp only [InI64, TIMEGRAN]; omega
  refine ⟨?_, ?_, ?_, ?_⟩
  · simp only [Duration.ofTimespec, i64_ok a1, i64_ok a2, Outcome.bind_ret, Outcome.pure_eq]; rfl
  · simp only [Duration.ofTimeval, i64_ok b1, i64_ok b2, i64_ok b3, Outcome.bind_ret, Outcome.pure_eq]
    congr 2; simp only [TIMEGRAN]; omega
  · simp only [Time.ofTimespec, i64_ok a1, i64_ok a2, Outcome.bind_ret, Outcome.pure_eq]
    rw [u64_of_range (by simp only [TIMEGRAN]; omega)]; rfl
  · simp only [Time.ofTimeval, i64_ok b1, i64_ok b2, i64_ok b3, Outcome.bind_ret, Outcome.pure_eq]
    rw [u64_of_range (by simp only [TIMEGRAN]; omega)]
    congr 2; simp only [TIMEGRAN]; omega

/-- C09, violated part: sums and differences of normalised C structs are not normalised. -/
theorem C09_struct_arithmetic_violated :
    ¬ (∀ a b : Timespec, a.Norm → b.Norm → (a.add b).Norm) ∧
    ¬ (∀ a b : Timespec, a.Norm → b.Norm → (a.sub b).Norm) ∧
    ¬ (∀ a b : Timeval, a.Norm → b.Norm → (a.add b).Norm) ∧
    ¬ (∀ a b : Timeval, a.Norm → b.Norm → (a.sub b).Norm) := by
  refine ⟨fun h => ?_, fun h => ?_, fun h => ?_, fun h => ?_⟩
  · have := h ⟨0, 600000000⟩ ⟨0, 600000000⟩ (by simp [Timespec.Norm]) (by simp [Timespec.Norm])
    simp [Timespec.Norm, Timespec.add] at this
  · have := h ⟨1, 0⟩ ⟨0, 600000000⟩ (by simp [Timespec.Norm]) (by simp [Timespec.Norm])
    simp [Timespec.Norm, Timespec.sub] at this
  · have := h ⟨0, 600000⟩ ⟨0, 600000⟩ (by simp [Timeval.Norm]) (by simp [Timeval.Norm])
    simp [Timeval.Norm, Timeval.add] at this
  · have := h ⟨1, 0⟩ ⟨0, 600000⟩ (by simp [Timeval.Norm]) (by simp [Timeval.Norm])
    simp [Timeval.Norm, Timeval.sub] at this

/-- C09, what holds of struct arithmetic: the denoted number of nanoseconds is exact. Missing: normalisation. -/
theorem C09_struct_arithmetic_partial (a b : Timespec) (c d : Timeval) :
    (a.add b).nanos = a.nanos + b.nanos ∧ (a.sub b).nanos = a.nanos - b.nanos ∧
    (c.add d).nanos = c.nanos + d.nanos ∧ (c.sub d).nanos = c.nanos - d.nanos := by
  simp only [Timespec.add, Timespec.sub, Timeval.add, Timeval.sub, Timespec.nanos, Timeval.nanos]
  refine ⟨?_, ?_, ?_, ?_⟩ <;> omega

example : ValidTime ⟨1700000000123456789⟩ ∧
    Time.toTimespec ⟨1700000000123456789⟩ = ⟨1700000000, 123456789⟩ ∧
    Time.toTimeval ⟨1700000000123456789⟩ = ⟨1700000000, 123456⟩ := by
  refine ⟨?_, by decide, by decide⟩; unfold ValidTime; decide

/-! ### C10 -/

private theorem mod_one {alarm : Duration} (h : InI64 alarm.tn) :
    (do let one ← Duration.mkS 1; alarm.mod one : Outcome Duration) = .ret ⟨alarm.tn.tmod 1000000000⟩ := by
  have h1 : InI64 (1 * TIMEGRAN) := by decide
  have h2 : InI64 (alarm.tn.tdiv 1000000000) := tdiv_inI64 h (by decide) (by omega)
  simp only [Duration.mkS, i64_ok h1, Outcome.bind_ret, Outcome.pure_eq, Duration.mod, mod64]
  have h3 : (1 * TIMEGRAN : Int) = 1000000000 := by decide
  simp only [h3, h2, if_true]
  rfl

/-- C10, one-argument form: the alarm value is normalised, denotes the duration truncated to microseconds,
    and the interval is zero. -/
theorem C10_itimerval_alarm (alarm : Duration) (h : InI64 alarm.tn) (h0 : 0 ≤ alarm.tn) :
    ∃ v : Timeval, Itimerval.ofAlarm alarm = .ret ⟨v, ⟨0, 0⟩⟩ ∧ v.Norm ∧
      v.nanos = alarm.tn - alarm.tn % 1000 := by
  have hm := mod_one h
  have hk : TIMEGRAN.tdiv 1000000 = 1000 := by decide
  have t1 : alarm.tn.tmod 1000000000 = alarm.tn % 1000000000 := Int.tmod_eq_emod_of_nonneg h0
  have t2 : alarm.tn.tdiv 1000000000 = alarm.tn / 1000000000 := Int.tdiv_eq_ediv_of_nonneg h0
  have t3 : (alarm.tn % 1000000000).tdiv 1000 = alarm.tn % 1000000000 / 1000 :=
    Int.tdiv_eq_ediv_of_nonneg (by omega)
  refine ⟨⟨alarm.tn / 1000000000, alarm.tn % 1000000000 / 1000⟩, ?_, ?_, ?_⟩
  · unfold Itimerval.ofAlarm
    have : (do let one ← Duration.mkS 1; let r ← alarm.mod one
               pure (⟨⟨alarm.getS, r.getUs⟩, ⟨0, 0⟩⟩ : Itimerval) : Outcome Itimerval) =
        ((do let one ← Duration.mkS 1; alarm.mod one) >>= fun r => pure ⟨⟨alarm.getS, r.getUs⟩, ⟨0, 0⟩⟩) := by
      cases Duration.mkS 1 <;> rfl
    rw [this, hm]
    simp only [Outcome.bind_ret, Outcome.pure_eq, Duration.getS, Duration.getUs, hk, t1, t3]
    simp only [TIMEGRAN, t2]
  · simp only [Timeval.Norm]; omega
  · simp only [Timeval.nanos]; omega

/-- C10 is violated by the two-argument form: an interval of 2.5 s gets a microsecond field of 2500000. -/
theorem C10_itimerval_interval_violated :
    ¬ (∀ alarm interval : Duration, InI64 alarm.tn → InI64 interval.tn → 0 ≤ alarm.tn → 0 ≤ interval.tn →
      ∃ v i : Timeval, Itimerval.ofAlarmInterval alarm interval = .ret ⟨v, i⟩ ∧ v.Norm ∧ i.Norm) := by
  intro h
  obtain ⟨v, i, h1, _, h3⟩ := h ⟨0⟩ ⟨2500000000⟩ (by decide) (by decide) (by decide) (by decide)
  have : Itimerval.ofAlarmInterval ⟨0⟩ ⟨2500000000⟩ = .ret ⟨⟨0, 0⟩, ⟨2, 2500000⟩⟩ := by decide
  rw [this] at h1
  injection h1 with h1; injection h1 with _ h1; subst h1
  simp [Timeval.Norm] at h3

/-- C10, what holds of the two-argument form: the alarm field always is right, and the interval field is right
    for intervals below one second. Missing: intervals of a second or more. -/
theorem C10_itimerval_interval_partial (alarm interval : Duration) (h : InI64 alarm.tn) (h0 : 0 ≤ alarm.tn)
    (hi : 0 ≤ interval.tn) :
    ∃ v i : Timeval, Itimerval.ofAlarmInterval alarm interval = .ret ⟨v, i⟩ ∧ v.Norm ∧
      v.nanos = alarm.tn - alarm.tn % 1000 ∧
      (interval.tn < 1000000000 → i.Norm ∧ i.nanos = interval.tn - interval.tn % 1000) := by
  obtain ⟨v, h1, h2, h3⟩ := C10_itimerval_alarm alarm h h0
  have hk : TIMEGRAN.tdiv 1000000 = 1000 := by decide
  refine ⟨v, ⟨interval.getS, interval.getUs⟩, ?_, h2, h3, ?_⟩
  · unfold Itimerval.ofAlarm at h1
    unfold Itimerval.ofAlarmInterval
    revert h1
    cases Duration.mkS 1 with
    | ret one =>
      simp only [Outcome.bind_ret]
      cases alarm.mod one with
      | ret r => simp only [Outcome.bind_ret, Outcome.pure_eq]; intro h1; injection h1 with h1; injection h1 with h1; rw [h1]
      | abort => intro h; cases h
      | undef => intro h; cases h
    | abort => intro h; cases h
    | undef => intro h; cases h
  · intro hlt
    have t1 : interval.tn.tdiv 1000000000 = interval.tn / 1000000000 := Int.tdiv_eq_ediv_of_nonneg hi
    have t2 : interval.tn.tdiv 1000 = interval.tn / 1000 := Int.tdiv_eq_ediv_of_nonneg hi
    simp only [Timeval.Norm, Timeval.nanos, Duration.getS, Duration.getUs, hk, t2]
    simp only [TIMEGRAN, t1]
    omega

example : Itimerval.ofAlarmInterval ⟨1234567890⟩ ⟨500000000⟩ = .ret ⟨⟨1, 234567⟩, ⟨0, 500000⟩⟩ := by decide

/-! ### C11 -/

/-- Decimal numerals: optional '-', at least one digit, optionally '.' and at least one digit, and the
    rational number such a string denotes. -/
def Denotes (s : List Char) (q : ℚ) : Prop :=
  ∃ (neg : Bool) (ip fp : List Char), ip ≠ [] ∧ (∀ c ∈ ip ++ fp, c.isDigit = true) ∧
    s = (if neg then ['-'] else []) ++ ip ++ (if fp = [] then [] else '.' :: fp) ∧
    q = (if neg then -1 else 1) * ((digitsVal ip : ℚ) + (digitsVal fp : ℚ) / 10 ^ fp.length)

/-- C11 is violated: minus half a second prints as "0.5", whose numeral denotes a positive number. -/
theorem C11_duration_printing_violated :
    printDuration ⟨-500000000⟩ = .ret ['0', '.', '5'] := by decide +kernel

private theorem fin_eq (σ q r G : ℚ) (hG : G ≠ 0) : σ * (G * q + r) / G = σ * (q + r / G) := by
  field_simp

/-- C11, what holds: every representable duration outside the open interval (-1 s, 0) except the most negative one
    prints as a numeral denoting its exact number of seconds, with no trailing zero in the fraction.
    Missing: durations strictly between -1 s and 0, which lose their sign. -/
theorem C11_duration_printing_partial (d : Duration) (h : InI64 d.tn) (hmin : d.tn ≠ -(2 ^ 63))
    (hs : 0 ≤ d.tn ∨ d.tn ≤ -1000000000) :
    ∃ s, printDuration d = .ret s ∧ Denotes s ((d.tn : ℚ) / 1000000000) ∧
      ('.' ∈ s → s.getLast? ≠ some '0') := by
  have hdiv : InI64 (d.tn.tdiv 1000000000) := tdiv_inI64 h (by decide) (by omega)
  have hneg : InI64 (-d.tn) := by unfold InI64 at *; omega
  -- absolute value
  have habs : absTn d.tn = .ret (d.tn.natAbs : Int) := by
    unfold absTn
    split
    · rw [i64_ok hneg]; congr 1; omega
    · congr 1; omega
  have hA : (d.tn.natAbs : Int).tmod 1000000000 = ((d.tn.natAbs % 1000000000 : Nat) : Int) := by
    rw [Int.tmod_eq_emod_of_nonneg (by omega)]; omega
  have hQ : InI64 ((d.tn.natAbs : Int).tdiv 1000000000) := by
    rw [Int.tdiv_eq_ediv_of_nonneg (by omega)]; unfold InI64 at *; omega
  have hsec : d.tn.tdiv 1000000000 = (if d.tn < 0 then -1 else 1) * ((d.tn.natAbs / 1000000000 : Nat) : Int) := by
    split
    · next hn =>
      have e1 : d.tn = -(-d.tn) := by omega
      rw [e1, Int.neg_tdiv, Int.tdiv_eq_ediv_of_nonneg (by omega)]; omega
    · rw [Int.tdiv_eq_ediv_of_nonneg (by omega)]; omega
  have hprint : printInt (d.tn.tdiv 1000000000) =
      (if decide (d.tn < 0) = true then ['-'] else []) ++ natDigits (d.tn.natAbs / 1000000000) := by
    unfold printInt
    have hN : (d.tn.tdiv 1000000000).natAbs = d.tn.natAbs / 1000000000 := by
      rw [hsec]; split <;> omega
    have hiff : d.tn.tdiv 1000000000 < 0 ↔ d.tn < 0 := by
      rw [hsec]; split <;> omega
    simp only [hiff, hN, decide_eq_true_eq]
    split <;> simp
  obtain ⟨v1, v2, v3⟩ := natDigits_spec (d.tn.natAbs / 1000000000)
  have hcast : (d.tn : ℚ) = (if decide (d.tn < 0) = true then -1 else 1) * (d.tn.natAbs : ℚ) := by
    have e : (d.tn.natAbs : ℚ) = ((d.tn.natAbs : Int) : ℚ) := (Int.cast_natCast _).symm
    by_cases hn : d.tn < 0
    · have h2 : (d.tn.natAbs : Int) = -d.tn := by omega
      rw [e, h2]; simp [hn]
    · have h2 : (d.tn.natAbs : Int) = d.tn := by omega
      rw [e, h2]; simp [hn]
  have nz : (1000000000 : ℚ) ≠ 0 := by norm_num
  have hqr := Nat.div_add_mod d.tn.natAbs 1000000000
  have hqrQ : (d.tn.natAbs : ℚ) = 1000000000 * ((d.tn.natAbs / 1000000000 : Nat) : ℚ) +
      ((d.tn.natAbs % 1000000000 : Nat) : ℚ) := by
    have := congrArg (Nat.cast (R := ℚ)) hqr
    rw [Nat.cast_add, Nat.cast_mul, Nat.cast_ofNat] at this
    exact this.symm
  have hrlt : d.tn.natAbs % 1000000000 < 1000000000 := Nat.mod_lt _ (by decide)
  have htg : TIMEGRAN = 1000000000 := rfl
  have htg0 : (1000000000 : Int) ≠ 0 := by omega
  have hd1 : div64 d.tn TIMEGRAN = .ret (d.tn.tdiv 1000000000) := by
    rw [htg, div64, if_neg htg0, i64_ok hdiv]
  have hm1 : mod64 (d.tn.natAbs : Int) TIMEGRAN = .ret ((d.tn.natAbs % 1000000000 : Nat) : Int) := by
    rw [htg, mod64, if_neg htg0, if_pos hQ, hA]
  have hpd : printDuration d = printFraction ((if decide (d.tn < 0) = true then ['-'] else []) ++
      natDigits (d.tn.natAbs / 1000000000)) ((d.tn.natAbs % 1000000000 : Nat) : Int) := by
    rw [printDuration, hd1, Outcome.bind_ret, habs, Outcome.bind_ret, hm1, Outcome.bind_ret, hprint]
  rw [hpd]
  by_cases hz : d.tn.natAbs % 1000000000 = 0
  · rw [hz, printFraction, if_pos (by rfl)]
    refine ⟨_, rfl, ⟨decide (d.tn < 0), natDigits (d.tn.natAbs / 1000000000), [], v3, ?_, ?_, ?_⟩, ?_⟩
    · simpa using v2
    · simp
    · rw [v1, hcast]
      rw [hqrQ, hz]
      have := fin_eq (if decide (d.tn < 0) = true then -1 else 1) ((d.tn.natAbs / 1000000000 : Nat) : ℚ) 0 1000000000 nz
      simpa only [Nat.cast_zero, zero_div, digitsVal, List.foldl_nil] using this
    · intro hdot
      exfalso
      rcases List.mem_append.1 hdot with h1 | h1
      · split at h1 <;> simp at h1
      · have := v2 _ h1; simp at this
  · have hne : ((d.tn.natAbs % 1000000000 : Nat) : Int) ≠ 0 := by omega
    rw [printFraction, if_neg hne]
    obtain ⟨fp, f1, f2, f3, f4, f5, f6⟩ := nanomsd_spec (d.tn.natAbs % 1000000000) hz hrlt
    rw [Int.toNat_natCast, f1]
    refine ⟨_, rfl, ⟨decide (d.tn < 0), natDigits (d.tn.natAbs / 1000000000), fp, v3, ?_, ?_, ?_⟩, ?_⟩
    · intro c hc
      rcases List.mem_append.1 hc with h1 | h1
      · exact v2 c h1
      · exact f4 c h1
    · simp [f2]
    · rw [v1, hcast]
      have hfp : (digitsVal fp : ℚ) / 10 ^ fp.length = ((d.tn.natAbs % 1000000000 : Nat) : ℚ) / 1000000000 := by
        rw [← f5]
        have : (10 : ℚ) ^ fp.length * 10 ^ (9 - fp.length) = 1000000000 := by
          rw [← pow_add, Nat.add_sub_of_le f3]; norm_num
        rw [← this]; push_cast
        field_simp
      rw [hfp]
      rw [hqrQ]
      exact fin_eq _ _ _ _ nz
    · intro _
      rw [List.getLast?_append]
      cases fp with
      | nil => exact absurd rfl f2
      | cons a l => simpa [List.getLast?_cons_cons] using f6

example : printDuration ⟨-12050000000⟩ = .ret ['-', '1', '2', '.', '0', '5'] := by decide +kernel

/-! ### C72 -/

/-- C72 is violated: the year 1999 is printed as 00. -/
theorem C72_two_digit_year_violated :
    ¬ (∀ year : Int, 1970 ≤ year → year ≤ 2038 → printedYear year = year % 100) := by
  intro h; have := h 1999 (by decide) (by decide); revert this; decide

/-- C72, what holds: exactly the years 1970..1998 are printed right; from 1999 to 2038 every printed year is wrong. -/
theorem C72_two_digit_year_partial (year : Int) (h1 : 1970 ≤ year) (h2 : year ≤ 2038) :
    printedYear year = year % 100 ↔ year ≤ 1998 := by
  unfold printedYear
  rw [Int.tmod_eq_emod_of_nonneg (by omega)]
  omega

example : printedYear 1985 = 85 := by decide

end Verif.Time
