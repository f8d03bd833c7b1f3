import Verif.Model.PthreadTime
import Verif.Props.Time
/-!
C42: how long a wait until an absolute time sleeps. The code has the two cases exchanged, so that the property holds only for the present time.
-/
namespace Verif.PthreadTime
open Verif Verif.Time

/-- Specification: the number of nanoseconds to sleep for a wait until `t` when it is `now` (both in nanoseconds). -/
def sleepSpec (now t : Int) : Int := if now < t then t - now else 0

/-- A valid time: non-negative seconds before the year 2262, and a fraction of a second. -/
def Valid (t : Timespec) : Prop := 0 ≤ t.sec ∧ t.sec < 9223372036 ∧ 0 ≤ t.nsec ∧ t.nsec < 1000000000

/-- Nanoseconds since the epoch. -/
def nanos (t : Timespec) : Int := t.sec * 1000000000 + t.nsec

theorem ofTimespec_valid {t : Timespec} (h : Valid t) : Duration.ofTimespec t = .ret ⟨nanos t⟩ := by
  obtain ⟨h1, h2, h3, h4⟩ := h
  have e1 : InI64 (t.sec * TIMEGRAN) := by unfold InI64 TIMEGRAN; omega
  have e2 : InI64 (t.sec * TIMEGRAN + t.nsec) := by unfold InI64 TIMEGRAN; omega
  simp only [Duration.ofTimespec, i64_ok e1, i64_ok e2, Outcome.bind_ret, Outcome.pure_eq]
  rfl

/-- What the code computes, for all valid times. -/
theorem getDuration_eq {now t : Timespec} (hn : Valid now) (ht : Valid t) :
    getDuration now t = .ret ⟨if nanos t ≤ nanos now then nanos now - nanos t else 0⟩ := by
  unfold getDuration
  rw [ofTimespec_valid hn, ofTimespec_valid ht]
  simp only [Outcome.bind_ret, Duration.ge, decide_eq_true_eq, ge_iff_le]
  split
  · rename_i h
    obtain ⟨h1, h2, h3, h4⟩ := hn
    obtain ⟨g1, g2, g3, g4⟩ := ht
    have e : InI64 (nanos now - nanos t) := by unfold InI64 nanos; unfold nanos at h; omega
    simp only [Duration.sub, i64_ok e, Outcome.bind_ret, Outcome.pure_eq]
  · rfl

/-- C42, the only case in which the code agrees with the specification: a wait until the present time. -/
theorem C42_now_partial (now t : Timespec) (hn : Valid now) (ht : Valid t) :
    getDuration now t = .ret ⟨sleepSpec (nanos now) (nanos t)⟩ ↔ nanos t = nanos now := by
  rw [getDuration_eq hn ht]
  unfold sleepSpec
  simp only [Outcome.ret.injEq, Duration.mk.injEq]
  split <;> split <;> omega

/-- C42 fails for every other time: a wait until a time in the future does not sleep, and a wait until a time in the past sleeps for as
    long as that time is past. -/
theorem C42_inverted_violated (now t : Timespec) (hn : Valid now) (ht : Valid t) :
    (nanos now < nanos t → getDuration now t = .ret ⟨0⟩) ∧
    (nanos t < nanos now → getDuration now t = .ret ⟨nanos now - nanos t⟩) := by
  rw [getDuration_eq hn ht]
  refine ⟨fun h => ?_, fun h => ?_⟩
  · rw [if_neg (by omega)]
  · rw [if_pos (by omega)]

/-- One second in the future: no sleep; one second in the past: one second. -/
example : getDuration ⟨1700000000, 5⟩ ⟨1700000001, 5⟩ = .ret ⟨0⟩ ∧ getDuration ⟨1700000001, 5⟩ ⟨1700000000, 5⟩ = .ret ⟨1000000000⟩ ∧
    Valid ⟨1700000000, 5⟩ := ⟨by decide +kernel, by decide +kernel, by decide, by decide, by decide, by decide⟩

end Verif.PthreadTime
