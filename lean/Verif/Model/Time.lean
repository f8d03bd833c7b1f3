import Verif.Model.Base
/-!
Model of `libcfa/src/time_t.hfa`, `libcfa/src/time.hfa`, `libcfa/src/time.cfa`.

`int64_t` values are mathematical integers; every `int64_t` result is passed through `i64`, which is
undefined behaviour outside the 64-bit signed range. `uint64_t` values wrap modulo `2^64`.
Not modelled: the `double` overloads, `mktime`/`gmtime`/`strftime`.
-/
namespace Verif.Time

/-- Signed 64-bit range. -/
def InI64 (x : Int) : Prop := -(2 ^ 63) ≤ x ∧ x < 2 ^ 63

instance (x : Int) : Decidable (InI64 x) := by unfold InI64; infer_instance

/-- The result of an `int64_t` operation: signed overflow is undefined behaviour. -/
def i64 (x : Int) : Outcome Int := if InI64 x then .ret x else .undef

/-- The result of a `uint64_t` operation. -/
def u64 (x : Int) : Int := x % 2 ^ 64

/-- Conversion of a `uint64_t` to `int64_t` (GCC: modulo `2^64`). -/
def u64toI64 (x : Int) : Int := if x < 2 ^ 63 then x else x - 2 ^ 64

/-- `int64_t` division: undefined for a zero divisor and for the overflowing `INT64_MIN / -1`. -/
def div64 (a b : Int) : Outcome Int := if b = 0 then .undef else i64 (a.tdiv b)

/-- `int64_t` remainder: undefined exactly when the division is. -/
def mod64 (a b : Int) : Outcome Int :=
  if b = 0 then .undef else if InI64 (a.tdiv b) then .ret (a.tmod b) else .undef

/-- time_t.hfa:21-23 `struct Duration { int64_t tn; }`. -/
structure Duration where
  tn : Int
  deriving DecidableEq, Repr

/-- time_t.hfa:31-33 `struct Time { uint64_t tn; }`. -/
structure Time where
  tn : Int
  deriving DecidableEq, Repr

/-- time.hfa:25 `TIMEGRAN`. -/
def TIMEGRAN : Int := 1000000000

/-- C `struct timeval`. -/
structure Timeval where
  sec : Int
  usec : Int
  deriving DecidableEq, Repr

/-- C `struct timespec`. -/
structure Timespec where
  sec : Int
  nsec : Int
  deriving DecidableEq, Repr

/-- C `struct itimerval`. -/
structure Itimerval where
  value : Timeval
  interval : Timeval
  deriving DecidableEq, Repr

namespace Duration

/-- time.hfa:30 `?{}( Duration &, timeval )` (also line 34-37 `?=?`, whose factor is `TIMEGRAN / 1_000_000`). -/
def ofTimeval (t : Timeval) : Outcome Duration := do
  let a ← i64 (t.sec * TIMEGRAN)
  let b ← i64 (t.usec * 1000)
  let c ← i64 (a + b)
  pure ⟨c⟩

/-- time.hfa:31 `?{}( Duration &, timespec )` (also lines 38-41 `?=?`). -/
def ofTimespec (t : Timespec) : Outcome Duration := do
  let a ← i64 (t.sec * TIMEGRAN)
  let c ← i64 (a + t.nsec)
  pure ⟨c⟩

/-- time.hfa:44 `?+?`. -/
def add (l r : Duration) : Outcome Duration := do let t ← i64 (l.tn + r.tn); pure ⟨t⟩
/-- time.hfa:47 unary `-?`. -/
def neg (r : Duration) : Outcome Duration := do let t ← i64 (-r.tn); pure ⟨t⟩
/-- time.hfa:48 `?-?`. -/
def sub (l r : Duration) : Outcome Duration := do let t ← i64 (l.tn - r.tn); pure ⟨t⟩
/-- time.hfa:51-52 `?*?`. -/
def scale (l : Duration) (r : Int) : Outcome Duration := do let t ← i64 (l.tn * r); pure ⟨t⟩
/-- time.hfa:55 `int64_t ?/?( Duration, Duration )`. -/
def div (l r : Duration) : Outcome Int := div64 l.tn r.tn
/-- time.hfa:56 `Duration ?/?( Duration, int64_t )`. -/
def divN (l : Duration) (r : Int) : Outcome Duration := do let t ← div64 l.tn r; pure ⟨t⟩
/-- time.hfa:60 `?%?`. -/
def mod (l r : Duration) : Outcome Duration := do let t ← mod64 l.tn r.tn; pure ⟨t⟩
/-- time.hfa:77 `abs`. -/
def abs (r : Duration) : Outcome Duration := if r.tn ≥ 0 then .ret r else neg r
/-- time.hfa:111 `max`. -/
def max (l r : Duration) : Duration := if l.tn < r.tn then r else l
/-- time.hfa:112 `min`. -/
def min (l r : Duration) : Duration := if ¬ (r.tn < l.tn) then l else r
/-- time.hfa:70-75 comparisons. -/
def eq (l r : Duration) : Bool := l.tn == r.tn
def ne (l r : Duration) : Bool := l.tn != r.tn
def lt (l r : Duration) : Bool := l.tn < r.tn
def le (l r : Duration) : Bool := l.tn ≤ r.tn
def gt (l r : Duration) : Bool := l.tn > r.tn
def ge (l r : Duration) : Bool := l.tn ≥ r.tn

/-- time.hfa:79 ``?`ns( int64_t )``. -/
def mkNs (n : Int) : Outcome Duration := do let t ← i64 n; pure ⟨t⟩
/-- time.hfa:80 ``?`us``. -/
def mkUs (n : Int) : Outcome Duration := do let t ← i64 (n * TIMEGRAN.tdiv 1000000); pure ⟨t⟩
/-- time.hfa:81 ``?`ms``. -/
def mkMs (n : Int) : Outcome Duration := do let t ← i64 (n * TIMEGRAN.tdiv 1000); pure ⟨t⟩
/-- time.hfa:82 ``?`s``. -/
def mkS (n : Int) : Outcome Duration := do let t ← i64 (n * TIMEGRAN); pure ⟨t⟩
/-- time.hfa:84 ``?`m``. -/
def mkM (n : Int) : Outcome Duration := do let t ← i64 (n * (60 * TIMEGRAN)); pure ⟨t⟩
/-- time.hfa:86 ``?`h``. -/
def mkH (n : Int) : Outcome Duration := do let t ← i64 (n * (60 * 60 * TIMEGRAN)); pure ⟨t⟩
/-- time.hfa:88 ``?`d``. -/
def mkD (n : Int) : Outcome Duration := do let t ← i64 (n * (24 * 60 * 60 * TIMEGRAN)); pure ⟨t⟩
/-- time.hfa:90 ``?`w``. -/
def mkW (n : Int) : Outcome Duration := do let t ← i64 (n * (7 * 24 * 60 * 60 * TIMEGRAN)); pure ⟨t⟩

/-- time.hfa:93-100 unit accessors. -/
def getNs (d : Duration) : Int := d.tn
def getUs (d : Duration) : Int := d.tn.tdiv (TIMEGRAN.tdiv 1000000)
def getMs (d : Duration) : Int := d.tn.tdiv (TIMEGRAN.tdiv 1000)
def getS (d : Duration) : Int := d.tn.tdiv TIMEGRAN
def getM (d : Duration) : Int := d.tn.tdiv (60 * TIMEGRAN)
def getH (d : Duration) : Int := d.tn.tdiv (60 * 60 * TIMEGRAN)
def getD (d : Duration) : Int := d.tn.tdiv (24 * 60 * 60 * TIMEGRAN)
def getW (d : Duration) : Int := d.tn.tdiv (7 * 24 * 60 * 60 * TIMEGRAN)

end Duration

/-- time.hfa:124 `timeval + timeval`. -/
def Timeval.add (l r : Timeval) : Timeval := ⟨l.sec + r.sec, l.usec + r.usec⟩
/-- time.hfa:125 `timeval - timeval`. -/
def Timeval.sub (l r : Timeval) : Timeval := ⟨l.sec - r.sec, l.usec - r.usec⟩
/-- time.hfa:139 `timespec + timespec`. -/
def Timespec.add (l r : Timespec) : Timespec := ⟨l.sec + r.sec, l.nsec + r.nsec⟩
/-- time.hfa:140 `timespec - timespec`. -/
def Timespec.sub (l r : Timespec) : Timespec := ⟨l.sec - r.sec, l.nsec - r.nsec⟩

/-- time.hfa:148-152 `?{}( itimerval &, Duration )`. -/
def Itimerval.ofAlarm (alarm : Duration) : Outcome Itimerval := do
  let one ← Duration.mkS 1
  let r ← alarm.mod one
  pure ⟨⟨alarm.getS, r.getUs⟩, ⟨0, 0⟩⟩

/-- time.hfa:154-158 `?{}( itimerval &, Duration, Duration )`. -/
def Itimerval.ofAlarmInterval (alarm interval : Duration) : Outcome Itimerval := do
  let one ← Duration.mkS 1
  let r ← alarm.mod one
  pure ⟨⟨alarm.getS, r.getUs⟩, ⟨interval.getS, interval.getUs⟩⟩

namespace Time

/-- time.hfa:165 `?{}( Time &, timeval )` (also 169-172 `?=?`). -/
def ofTimeval (t : Timeval) : Outcome Time := do
  let a ← i64 (t.sec * TIMEGRAN)
  let b ← i64 (t.usec * 1000)
  let c ← i64 (a + b)
  pure ⟨u64 c⟩

/-- time.hfa:166 `?{}( Time &, timespec )` (also 173-176 `?=?`). -/
def ofTimespec (t : Timespec) : Outcome Time := do
  let a ← i64 (t.sec * TIMEGRAN)
  let c ← i64 (a + t.nsec)
  pure ⟨u64 c⟩

/-- time.hfa:178-179 `Time + Duration`: the duration is converted to `uint64_t`. -/
def add (l : Time) (r : Duration) : Time := ⟨u64 (l.tn + u64 r.tn)⟩
/-- time.hfa:182 `Time - Time`. -/
def diff (l r : Time) : Duration := ⟨u64toI64 (u64 (l.tn - r.tn))⟩
/-- time.hfa:183 `Time - Duration`. -/
def sub (l : Time) (r : Duration) : Time := ⟨u64 (l.tn - u64 r.tn)⟩
/-- time.hfa:185-190 comparisons. -/
def eq (l r : Time) : Bool := l.tn == r.tn
def ne (l r : Time) : Bool := l.tn != r.tn
def lt (l r : Time) : Bool := l.tn < r.tn
def le (l r : Time) : Bool := l.tn ≤ r.tn
def gt (l r : Time) : Bool := l.tn > r.tn
def ge (l r : Time) : Bool := l.tn ≥ r.tn

/-- time.hfa:214-217 `?{}( timeval &, Time )` (unsigned division and remainder). -/
def toTimeval (t : Time) : Timeval := ⟨t.tn / TIMEGRAN, t.tn % TIMEGRAN / (TIMEGRAN.tdiv 1000000)⟩
/-- time.hfa:221-224 `?{}( timespec &, Time )`. -/
def toTimespec (t : Time) : Timespec := ⟨t.tn / TIMEGRAN, t.tn % TIMEGRAN⟩

end Time

/-! Printing. -/

/-- The character of a decimal digit. -/
def digit (n : Nat) : Char := Char.ofNat (48 + n)

/-- Decimal digits of a natural number, as C `%ld` / stream output prints them. -/
def natDigits (n : Nat) : List Char :=
  if h : n < 10 then [digit n] else natDigits (n / 10) ++ [digit (n % 10)]
termination_by n

/-- Stream output of an `int64_t`. -/
def printInt (x : Int) : List Char := if x < 0 then '-' :: natDigits x.natAbs else natDigits x.natAbs

/-- time.cfa:26 `for ( i = 9; buf[i] == '0' ; i -= 1 );`. Running off the front of the buffer is undefined. -/
def lastNonZero (buf : List Char) : Nat → Outcome Nat
  | 0 => match buf[0]? with
    | none => .undef
    | some c => if c = '0' then .undef else .ret 0
  | i + 1 => match buf[i + 1]? with
    | none => .undef
    | some c => if c = '0' then lastNonZero buf i else .ret (i + 1)

/-- time.cfa:23-29 `nanomsd`: `snprintf( buf, 16, ".%09ld", ns )`, find the last non-zero digit, cut after it. -/
def nanomsd (ns : Nat) : Outcome (List Char) := do
  let d := natDigits ns
  let buf := '.' :: (List.replicate (9 - d.length) '0' ++ d)
  let i ← lastNonZero buf 9
  pure (buf.take (i + 1))

/-- time.cfa:38 `tn < 0 ? -tn : tn`. -/
def absTn (x : Int) : Outcome Int := if x < 0 then i64 (-x) else .ret x

/-- time.cfa:39-42: append the fraction when there is one. -/
def printFraction (whole : List Char) (ns : Int) : Outcome (List Char) :=
  if ns = 0 then .ret whole
  else do
    let f ← nanomsd ns.toNat
    pure (whole ++ f)

/-- time.cfa:36-44 stream output of a Duration: the characters written. The fraction starts with '.',
    a closing delimiter, so the stream adds no separator before it (iostream.cfa:232-263). -/
def printDuration (d : Duration) : Outcome (List Char) := do
  let s ← div64 d.tn TIMEGRAN
  let a ← absTn d.tn
  let ns ← mod64 a TIMEGRAN
  printFraction (printInt s) ns

/-- time.cfa:93,108,123: the two-digit year written by `yy_mm_dd`, `mm_dd_yy`, `dd_mm_yy`, for calendar year
    `year` as decoded by `gmtime_r` (`tm_year = year - 1900`). -/
def printedYear (year : Int) : Int := (year - 1900).tmod 99

end Verif.Time
