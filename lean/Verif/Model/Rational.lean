import Verif.Model.Base
/-!
Model of `libcfa/src/rational.hfa`, `libcfa/src/rational.cfa`.

Simplification (whole file): the element type `T` is the mathematical integers, so machine
overflow of the underlying type is not modelled.
-/
namespace Verif.Rational

/-- rational.hfa:25-29 `struct rational { T numerator, denominator; }`. -/
structure Rational where
  num : Int
  den : Int
  deriving DecidableEq, Repr

/-- rational.cfa:27-35 `gcd`: Euclid's loop `r = a % b; if r == 0 break; a = b; b = r`.
    `a % b` with `b = 0` is undefined behaviour. -/
def gcd (a b : Int) : Outcome Int :=
  if _hb : b = 0 then .undef
  else if _hr : a.tmod b = 0 then .ret b
  else gcd b (a.tmod b)
termination_by b.natAbs
decreasing_by
  rw [Int.natAbs_tmod]
  exact Nat.mod_lt _ (by omega)

/-- rational.cfa:37-43 `simplify( T & n, T & d )`: returns the gcd and the updated `n`, `d`
    (reference parameters become results). `abs` on `T` is the absolute value. -/
def simplify (n d : Int) : Outcome (Int × Int × Int) :=
  if d = 0 then .abort
  else
    let (n, d) := if d < 0 then (-n, -d) else (n, d)
    do let t ← gcd (n.natAbs : Int) d
       pure (t, n, d)

/-- rational.cfa:65-68 constructor `?{}( rational(T) & r, T n, T d )`. -/
def mk2 (n d : Int) : Outcome Rational := do
  let (t, n, d) ← simplify n d
  let a ← cdiv n t
  let b ← cdiv d t
  pure ⟨a, b⟩

/-- rational.cfa:49-51, 57-59 constructors from nothing and from `0`. -/
def mk0 : Outcome Rational := mk2 0 1
/-- rational.cfa:53-55 constructor from `1`. -/
def mkOne : Outcome Rational := mk2 1 1
/-- rational.cfa:61-63 constructor `?{}( rational(T) & r, T n )`. -/
def mk1 (n : Int) : Outcome Rational := mk2 n 1

/-- rational.cfa:86-91 `numerator( rational(T) r, T n )`. Result: the returned value and the
    caller's object afterwards. `r` is passed by value, so the assignment on line 89 changes the
    parameter only and the caller's object is the one passed in. -/
def setNumerator (r : Rational) (n : Int) : Outcome (Int × Rational) := do
  let prev := r.num
  let t ← gcd (n.natAbs : Int) r.den
  let a ← cdiv n t
  let b ← cdiv r.den t
  let _local : Rational := ⟨a, b⟩
  pure (prev, r)

/-- rational.cfa:93-98 `denominator( rational(T) r, T d )`; by-value parameter as above. -/
def setDenominator (r : Rational) (d : Int) : Outcome (Int × Rational) := do
  let prev := r.den
  let (t, n, d) ← simplify r.num d
  let a ← cdiv n t
  let b ← cdiv d t
  let _local : Rational := ⟨a, b⟩
  pure (prev, r)

/-- rational.cfa:102-104 `?==?`. -/
def eq (l r : Rational) : Bool := l.num * r.den == l.den * r.num
/-- rational.cfa:106-108 `?!=?`. -/
def ne (l r : Rational) : Bool := ! eq l r
/-- rational.cfa:114-116 `?<?`. -/
def lt (l r : Rational) : Bool := l.num * r.den < l.den * r.num
/-- rational.cfa:118-120 `?<=?`. -/
def le (l r : Rational) : Bool := l.num * r.den ≤ l.den * r.num
/-- rational.cfa:122-124 `?>?`. -/
def gt (l r : Rational) : Bool := ! le l r
/-- rational.cfa:126-128 `?>=?`. -/
def ge (l r : Rational) : Bool := ! lt l r

/-- rational.cfa:132-134 unary `+?`. -/
def pos (r : Rational) : Outcome Rational := mk2 r.num r.den
/-- rational.cfa:136-138 unary `-?`. -/
def neg (r : Rational) : Outcome Rational := mk2 (-r.num) r.den

/-- rational.cfa:140-146 `?+?`. -/
def add (l r : Rational) : Outcome Rational :=
  if l.den = r.den then mk2 (l.num + r.num) l.den
  else mk2 (l.num * r.den + l.den * r.num) (l.den * r.den)

/-- rational.cfa:158-164 `?-?`. -/
def sub (l r : Rational) : Outcome Rational :=
  if l.den = r.den then mk2 (l.num - r.num) l.den
  else mk2 (l.num * r.den - l.den * r.num) (l.den * r.den)

/-- rational.cfa:176-178 `?*?`. -/
def mul (l r : Rational) : Outcome Rational := mk2 (l.num * r.num) (l.den * r.den)

/-- rational.cfa:184-189 `?/?`. -/
def div (l r : Rational) : Outcome Rational :=
  let r := if r.num < 0 then (⟨-r.num, -r.den⟩ : Rational) else r
  mk2 (l.num * r.den) (l.den * r.num)

/-- rational.cfa:148-151, 166-169, 180-182, 191-193: `l op= r` stores `l op r` and returns it.
    Result: returned value and new value of `l`. -/
def opAssign (op : Rational → Rational → Outcome Rational) (l r : Rational) :
    Outcome (Rational × Rational) := do
  let v ← op l r
  pure (v, v)

/-- rational.cfa:153-156, 171-174: `l += 1`, `l -= 1` (the meaning of `++`/`--`). -/
def opAssignOne (op : Rational → Rational → Outcome Rational) (l : Rational) :
    Outcome (Rational × Rational) := do
  let one ← mk1 1
  let v ← op l one
  pure (v, v)

/-- math.cfa:114-127, 140-144, the generic squaring exponentiation used for `T ?\?( T, unsigned long )`:
    loop `for ( ; y > 1; y >>= 1 ) { if ( y & 1 ) op = op * w; w = w * w; } return w * op`. -/
def powLoop (op w : Int) (y : Nat) : Int :=
  if h : y ≤ 1 then w * op
  else powLoop (if y % 2 = 1 then op * w else op) (w * w) (y / 2)
termination_by y
decreasing_by omega

/-- math.cfa:115-127 `if ( y == 0 ) return 1;` then the loop above. -/
def ipow (x : Int) (y : Nat) : Int := if y = 0 then 1 else powLoop 1 x y

/-- rational.cfa:219-225 `?\?( rational(T) x, long int y )`. -/
def pow (x : Rational) (y : Int) : Outcome Rational :=
  if y < 0 then mk2 (ipow x.den (-y).toNat) (ipow x.num (-y).toNat)
  else mk2 (ipow x.num y.toNat) (ipow x.den y.toNat)

end Verif.Rational
