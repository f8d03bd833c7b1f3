import Verif.Model.RefLower

/-!
# What expressions with references mean

A reference is an address which is followed by itself: an expression of type `T & … &` with `n`
`&` stands for an object of type `T` with `n` addresses on the way to it.  Where an expression with
`s` levels is used where `d ≤ s` are wanted, the outer `s - d` levels are followed.  `&e` names the
address one level further out: for a variable `r` of type `T &`, `&r` is of type `T * &`, a
reference to the address inside `r`; used as a `T *` it is the address of the object `r` refers to,
and `&r = &x` makes `r` refer to `x`.
-/

namespace Verif.RefLower

/-- What an expression stands for: an object in the store, a value, or (for `&e` of an expression
which has a value but no place, such as `&*p` used as a reference to a pointer) a reference to an
object holding a value, not in the store. -/
inductive Den where
  | place (a : Nat)
  | val (v : Nat)
  | tmp (v : Nat)
deriving DecidableEq, Repr

/-- The word it stands for. -/
def Den.read : Den → Store → Option Nat
  | .place a, σ => some (σ a)
  | .val v, _ => some v
  | .tmp _, _ => none

/-- Following one reference level: the object at the address it stands for. -/
def Den.follow (σ : Store) : Den → Den
  | .place a => .place (σ a)
  | .val v => .place v
  | .tmp v => .val v

/-- What a conversion can hand on: an object or a value. -/
def Den.solid : Den → Option Den
  | .tmp _ => none
  | d => some d

/-- The meaning of a resolved expression: what it stands for, and the store after it.  `none`: a
conversion of something which is not an object to a type with more reference levels, or the use of
a reference to a value without a place; for these the program needs an object it does not name. -/
def sem (F : Fns) : E → Store → Option (Den × Store)
  | .num n _, σ => some (.val n, σ)
  | .var x _, σ => some (.place x, σ)
  | .addr e _, σ => (sem F e σ).bind fun r =>
      if e.lv = true then
        match r.1 with
        | .place a => some (.val a, r.2)
        | .val v => some (.tmp v, r.2)
        | .tmp _ => none
      else (r.1.read r.2).map fun v => (.val v, r.2)
  | .deref e _, σ => (sem F e σ).bind fun r => (r.1.read r.2).map fun v => (.val v, r.2)
  | .assign l r _, σ =>
      (sem F l σ).bind fun a => (a.1.read a.2).bind fun p =>
        (sem F r a.2).bind fun b => (b.1.read b.2).map fun v => (.val v, b.2.set p v)
  | .plus a b _, σ =>
      (sem F a σ).bind fun x => (x.1.read x.2).bind fun v =>
        (sem F b x.2).bind fun y => (y.1.read y.2).map fun w => (.val (v + w), y.2)
  | .call f e _ _, σ =>
      (sem F e σ).bind fun r => (r.1.read r.2).map fun v =>
        (.val (F f v r.2).1, (F f v r.2).2)
  | .cast e _ t, σ => (sem F e σ).bind fun r =>
      if t.depth ≤ e.ty.depth then
        ((Den.follow r.2)^[e.ty.depth - t.depth] r.1).solid.map fun d => (d, r.2)
      else if t.depth = e.ty.depth + 1 then
        match r.1 with
        | .place a => some (.val a, r.2)
        | _ => none
      else none
  | .cond c a b _, σ =>
      (sem F c σ).bind fun x => (x.1.read x.2).bind fun v =>
        (if v ≠ 0 then sem F a x.2 else sem F b x.2).bind fun y =>
          (y.1.read y.2).map fun w => (.val w, y.2)

/-- The types the resolver gives (`src/AST/Expr.cpp` 145-175 for `&`): an lvalue of type
`T & … &` gives `T * & … &` with as many `&`, an rvalue one fewer; `*e` of a `T *` is a `T &`;
assignment takes a `T &` and a `T` without references; the branches of `?:` have its type. -/
def WT : E → Prop
  | .num _ t => t.depth = 0
  | .var _ _ => True
  | .addr e t => WT e ∧
      (if e.lv = true then t = Ty.refs e.ty.depth (.ptr e.ty.strip)
       else 1 ≤ e.ty.depth ∧ t = Ty.refs (e.ty.depth - 1) (.ptr e.ty.strip))
  | .deref e t => WT e ∧ ∃ T, e.ty = .ptr T ∧ t = .ref T
  | .assign l r t => WT l ∧ WT r ∧ t.depth = 0 ∧ l.ty = .ref t ∧ r.ty = t
  | .plus a b t => WT a ∧ WT b ∧ a.ty.depth = 0 ∧ b.ty.depth = 0 ∧ t.depth = 0
  | .call _ e pr _ => WT e ∧ (pr = true ↔ 0 < e.ty.depth)
  | .cast e _ _ => WT e
  | .cond c a b t => WT c ∧ WT a ∧ WT b ∧ c.ty.depth = 0 ∧ a.ty = t ∧ b.ty = t

instance WT.dec : (e : E) → Decidable (WT e)
  | .num _ t => inferInstanceAs (Decidable (t.depth = 0))
  | .var _ _ => isTrue trivial
  | .addr e t => by
      have := WT.dec e; unfold WT; exact inferInstance
  | .deref e t => by
      have := WT.dec e
      have : Decidable (∃ T, e.ty = .ptr T ∧ t = .ref T) :=
        match h : e.ty, t with
        | .ptr T, .ref T' => if h' : T' = T then isTrue ⟨T, rfl, by rw [h']⟩
            else isFalse (fun ⟨U, h1, h2⟩ => h' (by cases h1; cases h2; rfl))
        | .base _, _ => isFalse (fun ⟨U, h1, _⟩ => by cases h1)
        | .ref _, _ => isFalse (fun ⟨U, h1, _⟩ => by cases h1)
        | .ptr _, .base _ => isFalse (fun ⟨U, _, h2⟩ => by cases h2)
        | .ptr _, .ptr _ => isFalse (fun ⟨U, _, h2⟩ => by cases h2)
      unfold WT; exact inferInstance
  | .assign l r t => by
      have := WT.dec l; have := WT.dec r; unfold WT; exact inferInstance
  | .plus a b t => by
      have := WT.dec a; have := WT.dec b; unfold WT; exact inferInstance
  | .call _ e pr _ => by
      have := WT.dec e; unfold WT; exact inferInstance
  | .cast e _ _ => by
      have := WT.dec e; unfold WT; exact inferInstance
  | .cond c a b t => by
      have := WT.dec c; have := WT.dec a; have := WT.dec b; unfold WT; exact inferInstance

/-! ## The programs for which the rewriting is right -/

/-- An expression that names an object: a variable, or a reference used with fewer levels. -/
def E.names : E → Bool
  | .var _ _ => true
  | .cast e _ t =>
      (!e.isAddr) && (decide (t.depth < e.ty.depth) ||
        (decide (t.depth = e.ty.depth) && e.names))
  | _ => false

/-- A reference used with fewer levels, as it is. -/
def E.deep : E → Bool
  | .cast e _ t =>
      (!e.isAddr) && (decide (t.depth < e.ty.depth) ||
        (decide (t.depth = e.ty.depth) && e.deep))
  | _ => false

/-- A cast which changes the type by more than reference levels, or that is written without
changing them, stays in the program. -/
def kept (e : E) (ex : Bool) (t : Ty) : Bool :=
  if e.ty.depth < t.depth then decide (e.ty ≠ t.peel)
  else if t.depth < e.ty.depth then decide (t.strip ≠ e.ty.strip)
  else ex || decide (t ≠ e.ty)

/-- No cast that stays is in the way from a `&` to what it is taken of. -/
def E.clear : E → Bool
  | .cast e ex t => (!e.isAddr) && (!kept e ex t) && e.clear
  | .deref e _ => e.clear
  | .addr e _ => e.clear
  | _ => true

/-- The programs for which the rewriting is proved right.
* `&e`: no cast stays in the way to what the address is taken of;
* a call: an argument for a reference parameter is not a reference used with fewer levels;
* a conversion to more levels goes up by one, from an expression that names an object;
* the branches of `?:` are not `&` expressions with reference levels. -/
def Plain : E → Bool
  | .num _ _ => true
  | .var _ _ => true
  | .addr e _ => Plain e && e.clear
  | .deref e _ => Plain e
  | .assign l r _ => Plain l && Plain r
  | .plus a b _ => Plain a && Plain b
  | .call _ e pr _ => Plain e && !(pr && e.deep)
  | .cast e _ t => Plain e && (decide (t.depth ≤ e.ty.depth) ||
      (decide (t.depth = e.ty.depth + 1) && e.names))
  | .cond c a b _ => Plain c && Plain a && Plain b &&
      !(a.isAddr && decide (a.ty.depth ≠ 0)) && !(b.isAddr && decide (b.ty.depth ≠ 0))

/-- An expression that is a value and not an object: a constant, a sum, an assignment, a call. -/
def E.isValue : E → Bool
  | .num _ _ => true
  | .plus _ _ _ => true
  | .assign _ _ _ => true
  | .call _ _ _ _ => true
  | _ => false

end Verif.RefLower
