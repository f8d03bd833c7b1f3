import Verif.Proof.RefLower

/-!
# C106: references are followed as often as their types say

Full statement: for every expression the resolver accepts, whatever the depths of the references in
it, the C which `cfa` writes for it is valid and computes the value and the effects that the types
of the expression say (`sem`): a reference used as a `T` is followed to the object, a reference
handed on as a reference is the address of that object, `&r` is the address of the object, and
`&r = &x` changes what `r` refers to.
-/

namespace Verif.RefLower

/-- The type `int`. -/
private abbrev int : Ty := .base 0
/-- Functions that return their argument. -/
private def idF : Fns := fun _ v σ => (v, σ)

/-- C106, for every expression without the forms listed under `Plain` (Spec/RefLower.lean), of any
size and with references of any depth: no temporary is made, and the C that comes out has the value
and the effects which the types of the expression say, in every store and for all functions.
`ac` says the expression is an initialiser; elsewhere a `&` expression must not be left as a
reference.  Missing: the forms for which it is false, see below, and the conversions of values to
references, which need a temporary. -/
theorem C106_value_partial (F : Fns) (e : E) (ac : Bool) (tmp : Nat) (σ σ1 : Store) (d : Den)
    (v : Nat) (hw : WT e) (hp : Plain e = true)
    (hac : ac = true ∨ e.isAddr = false ∨ e.ty.depth = 0)
    (hs : sem F e σ = some (d, σ1)) (hv : d.read σ1 = some v) :
    ∃ p, lower ac tmp e = some p ∧ p.1 = [] ∧ evStmt F p σ = some (v, σ1) := by
  refine ⟨([], Gr (A e ac)), lower_eq ac tmp e hw hp, rfl, ?_⟩
  have key : ev F (Gr (A e ac)) false σ = some (v, σ1) := by
    cases ac with
    | true => exact (good_all F e hw hp).arg hw hp hs hv
    | false =>
      refine (good_all F e hw hp).plain (fun h => ?_) hs hv
      rcases hac with h1 | h1 | h1
      · cases h1
      · rw [h] at h1; cases h1
      · exact h1
  simpa [evStmt, evDecls] using key

/-- `f( (int &) r ) = *p + &…`: a case with references of depth two, a rebinding, a call and a
conditional expression meets the hypotheses.  `rr` (variable 2) is an `int &&` referring to `r`
(variable 1), an `int &`; `(int * &)&rr = (int *)&x; ` then makes `r` refer to `x` (variable 3). -/
example :
    let rr : E := .var 2 (.ref (.ref int))
    let e : E := .assign (.cast (.addr rr (.ref (.ref (.ptr int)))) true (.ref (.ptr int)))
      (.addr (.var 3 int) (.ptr int)) (.ptr int)
    let σ : Store := fun a => if a = 2 then 1 else if a = 1 then 0 else 7
    WT e ∧ Plain e = true ∧ e.isAddr = false ∧
      (sem idF e σ).map (fun r => (r.1, r.2 0, r.2 1, r.2 2)) = some (.val 3, 7, 3, 1) := by
  decide +kernel

/-- Iterating the store from the place of a variable. -/
theorem follow_place (σ : Store) (n x : Nat) :
    (Den.follow σ)^[n] (.place x) = .place (σ^[n] x) := by
  induction n generalizing x with
  | zero => rfl
  | succ n ih => rw [Function.iterate_succ_apply, Function.iterate_succ_apply]; exact ih _

/-- C106: a variable of type `T & … &` with any number `n` of `&`, used as a `T`, is read by
following `n` addresses. -/
theorem C106_read (F : Fns) (x n tmp : Nat) (T : Ty) (hT : T.depth = 0) (σ : Store) :
    ∃ p, lower false tmp (.cast (.var x (Ty.refs n T)) false T) = some p ∧
      evStmt F p σ = some (σ (σ^[n] x), σ) := by
  have hd : (Ty.refs n T).depth = n := by rw [depth_refs, hT]; rfl
  obtain ⟨p, h1, _, h2⟩ := C106_value_partial F (.cast (.var x (Ty.refs n T)) false T) false tmp
    σ σ (.place (σ^[n] x)) (σ (σ^[n] x)) trivial
    (by simp [Plain, E.ty, hd, hT]) (Or.inr (Or.inl rfl))
    (by simp [sem, E.ty, hd, hT, follow_place, Den.solid]) rfl
  exact ⟨p, h1, h2⟩

example : Ty.depth (.ptr int) = 0 ∧ (Ty.refs 3 (.ptr int)).depth = 3 := by decide

/-- C106: an assignment to it changes the object at the end of the `n` addresses (`n ≥ 1`) and
nothing else. -/
theorem C106_assign (F : Fns) (x n tmp k : Nat) (T : Ty) (hT : T.depth = 0) (σ : Store) :
    ∃ p, lower false tmp (.assign (.cast (.var x (Ty.refs (n + 1) T)) false (.ref T)) (.num k T) T)
        = some p ∧
      evStmt F p σ = some (k, σ.set (σ^[n + 1] x) k) := by
  have hd : (Ty.refs (n + 1) T).depth = n + 1 := by rw [depth_refs, hT]
  have hr : (Ty.ref T).depth = 1 := by simp [Ty.depth, hT]
  obtain ⟨p, h1, _, h2⟩ := C106_value_partial F
    (.assign (.cast (.var x (Ty.refs (n + 1) T)) false (.ref T)) (.num k T) T) false tmp
    σ (σ.set (σ^[n + 1] x) k) (.val k) k ⟨trivial, hT, hT, rfl, rfl⟩
    (by simp [Plain, E.ty, hd, hr]) (Or.inr (Or.inl rfl))
    (by
      have : n + 1 - 1 = n := by omega
      simp only [sem, E.ty, hd, hr, Option.bind_some, this]
      rw [if_pos (by omega), follow_place]
      simp only [Den.solid, Option.map_some, Option.bind_some, Den.read]
      rw [Function.iterate_succ_apply']) rfl
  exact ⟨p, h1, h2⟩

/-- C106: `&r` used as a pointer, `r` a variable of type `T & … &` with `n` `&`, is the address of
the object at the end of the `n` addresses. -/
theorem C106_address (F : Fns) (x n tmp : Nat) (T : Ty) (hT : T.depth = 0) (σ : Store) :
    ∃ p, lower false tmp
        (.cast (.addr (.var x (Ty.refs n T)) (Ty.refs n (.ptr T))) false (.ptr T)) = some p ∧
      evStmt F p σ = some (σ^[n] x, σ) := by
  have hd : (Ty.refs n T).depth = n := by rw [depth_refs, hT]; rfl
  have hs : (Ty.refs n T).strip = T := by
    rw [strip_refs]; cases T <;> first | rfl | simp [Ty.depth] at hT
  have hdp : (Ty.refs n (.ptr T)).depth = n := by rw [depth_refs]; rfl
  have hsem : ∃ d, (Den.follow σ)^[n] (Den.val x) = d ∧ d.solid = some d ∧
      d.read σ = some (σ^[n] x) := by
    cases n with
    | zero => exact ⟨_, rfl, rfl, rfl⟩
    | succ n =>
      refine ⟨.place (σ^[n] x), ?_, rfl, ?_⟩
      · rw [Function.iterate_succ_apply]; exact follow_place σ n x
      · rw [Function.iterate_succ_apply']; rfl
  obtain ⟨d, h1, h2, h3⟩ := hsem
  obtain ⟨p, g1, _, g2⟩ := C106_value_partial F
    (.cast (.addr (.var x (Ty.refs n T)) (Ty.refs n (.ptr T))) false (.ptr T)) false tmp
    σ σ d (σ^[n] x) ⟨trivial, by simp [E.lv, E.ty, hd, hs]⟩
    (by simp [Plain, E.ty, hdp, E.clear, Ty.depth]) (Or.inr (Or.inl rfl))
    (by
      have h0 : (Ty.ptr T).depth = 0 := rfl
      simp only [sem, E.lv, if_true, Option.bind_some, E.ty, hdp, h0]
      rw [if_pos (by omega), Nat.sub_zero, h1, h2]
      rfl) h3
  exact ⟨p, g1, g2⟩

/-- C106: `&r = p`, `r` a variable of type `T & … &` with `n + 1` `&`, makes the innermost reference
refer to the object `p` points to, and changes nothing else. -/
theorem C106_rebind (F : Fns) (x q n tmp : Nat) (T : Ty) (hT : T.depth = 0) (σ : Store) :
    ∃ p, lower false tmp
        (.assign (.cast (.addr (.var x (Ty.refs (n + 1) T)) (Ty.refs (n + 1) (.ptr T))) false
            (.ref (.ptr T)))
          (.cast (.var q (.ptr T)) false (.ptr T)) (.ptr T)) = some p ∧
      evStmt F p σ = some (σ q, σ.set (σ^[n] x) (σ q)) := by
  have hd : (Ty.refs (n + 1) T).depth = n + 1 := by rw [depth_refs, hT]
  have hs : (Ty.refs (n + 1) T).strip = T := by
    rw [strip_refs]; cases T <;> first | rfl | simp [Ty.depth] at hT
  have hdp : (Ty.refs (n + 1) (.ptr T)).depth = n + 1 := by rw [depth_refs]; rfl
  have h0 : (Ty.ptr T).depth = 0 := rfl
  have h1' : (Ty.ref (.ptr T)).depth = 1 := rfl
  have hsem : ∃ d, (Den.follow σ)^[n] (Den.val x) = d ∧ d.solid = some d ∧
      d.read σ = some (σ^[n] x) := by
    cases n with
    | zero => exact ⟨_, rfl, rfl, rfl⟩
    | succ n =>
      refine ⟨.place (σ^[n] x), ?_, rfl, ?_⟩
      · rw [Function.iterate_succ_apply]; exact follow_place σ n x
      · rw [Function.iterate_succ_apply']; rfl
  obtain ⟨d, g1, g2, g3⟩ := hsem
  obtain ⟨p, k1, _, k2⟩ := C106_value_partial F
    (.assign (.cast (.addr (.var x (Ty.refs (n + 1) T)) (Ty.refs (n + 1) (.ptr T))) false
            (.ref (.ptr T)))
          (.cast (.var q (.ptr T)) false (.ptr T)) (.ptr T)) false tmp
    σ (σ.set (σ^[n] x) (σ q)) (.val (σ q)) (σ q)
    ⟨⟨trivial, by simp [E.lv, E.ty, hd, hs]⟩, trivial, rfl, rfl, rfl⟩
    (by simp [Plain, E.ty, hdp, h0, h1', E.clear]) (Or.inr (Or.inl rfl))
    (by
      simp only [sem, E.lv, if_true, Option.bind_some, E.ty, hdp, h1', h0, Nat.sub_self]
      rw [if_pos (by omega), show n + 1 - 1 = n by omega, g1, g2]
      simp only [Option.map_some, Option.bind_some, g3, if_true, Nat.le_refl,
        Function.iterate_zero, id_eq]
      rfl) rfl
  exact ⟨p, k1, k2⟩

/-- C106: a value given to a parameter of type `T & … &` with any number `k + 1` of `&`.  Whatever
the value itself needs in front of the statement (`p`), it comes first; then the value goes to a new
object, and the function gets an address from which `k` addresses lead to that object.  The new
objects are not among those `p` makes, and nothing else is changed. -/
theorem C106_temporary (F : Fns) (e : E) (f k tmp v : Nat) (R : Ty) (σ σ1 : Store)
    (p : List (Nat × C) × C) (he : e.isValue = true) (h0 : e.ty.depth = 0)
    (hp : lower false tmp e = some p) (hv : evStmt F p σ = some (v, σ1)) :
    ∃ p' n σ2, lower false tmp (.call f (.cast e false (Ty.refs (k + 1) e.ty)) true R) = some p' ∧
      evStmt F p' σ = some (F f (n + k) σ2) ∧
      tmp ≤ n ∧ (∀ d ∈ p.1, d.1 < n) ∧
      σ2^[k] (n + k) = n ∧ σ2 n = v ∧ (∀ a, a < n ∨ n + k < a → σ2 a = σ1 a) := by
  unfold lower at hp
  cases hr : rcT (ar (fir e) true false).1 tmp with
  | none => rw [hr] at hp; simp at hp
  | some r =>
    obtain ⟨a, ds, n⟩ := r
    rw [hr] at hp
    simp only [Option.map_some, Option.some.injEq] at hp
    subst hp
    obtain ⟨hlv, hty⟩ := rcT_value e he _ _ _ _ hr
    obtain ⟨hn1, hn2⟩ := rcT_names _ _ _ _ _ hr
    have hd : (Ty.refs (k + 1) e.ty).depth = k + 1 := by rw [depth_refs, h0]
    have hs : (Ty.refs (k + 1) e.ty).strip = e.ty := by
      rw [strip_refs]; cases hT : e.ty <;> first | rfl | (rw [hT] at h0; simp [Ty.depth] at h0)
    have hdk : (Ty.refs k e.ty).depth = k := by rw [depth_refs, h0]; rfl
    have hl : lower false tmp (.call f (.cast e false (Ty.refs (k + 1) e.ty)) true R) =
        some ((ds.map fun d => (d.1, out (fia d.2))) ++ (n, out (fia a)) ::
          (tmpRefs e.ty n k).map (fun d => (d.1, out (fia d.2))), .call f (.addr (.var (n + k)))) := by
      have hconv : conv false (Ty.refs (k + 1) e.ty) (.var (n + k) (Ty.refs k e.ty)) =
          .addr (.var (n + k) (Ty.refs k e.ty)) (Ty.refs (k + 1) e.ty) := by
        unfold conv
        have : (E.var (n + k) (Ty.refs k e.ty)).ty = Ty.refs k e.ty := rfl
        rw [this, hd, hdk, if_pos (by omega), show k + 1 - k = 1 by omega]
        dsimp only
        rw [if_pos (by rfl)]
        rfl
      simp only [lower, fir, ar, rcT, hr, Option.bind_some, hty, h0, hd, hlv, hs]
      rw [if_pos ⟨by omega, trivial⟩, if_pos trivial, show k + 1 - 1 = k by omega, hconv]
      simp only [Option.map_some, List.map_append, List.map_cons]
      rfl
    simp only [evStmt] at hv
    cases hdv : evDecls F (ds.map fun d => (d.1, out (fia d.2))) σ with
    | none => rw [hdv] at hv; simp at hv
    | some σ0 =>
      rw [hdv] at hv
      simp only [Option.bind_some] at hv
      obtain ⟨σ2, g1, g2, g3⟩ := ev_tmpRefs F e.ty n k (σ1.set n v)
      refine ⟨_, n, σ2, hl, ?_, hn1, ?_, iter_down σ2 n k g3, ?_, ?_⟩
      · simp only [evStmt, evDecls_append, hdv, Option.bind_some, evDecls, hv, g1]
        rfl
      · intro d hd
        simp only [List.mem_map] at hd
        obtain ⟨d', h1, rfl⟩ := hd
        exact (hn2 d' h1).2
      · rw [g2 n (Or.inl (Nat.le_refl _))]; simp [Store.set]
      · intro b hb
        rw [g2 b (by omega)]
        unfold Store.set
        rw [if_neg (by omega)]

/-- The value may need temporaries itself: `g( 3 )` with `g` taking an `int &`. -/
example :
    let e : E := .call 1 (.cast (.num 3 int) false (.ref int)) true int
    e.isValue = true ∧ e.ty.depth = 0 ∧
      lower false 100 e = some ([(100, .num 3)], .call 1 (.addr (.var 100))) ∧
      (evStmt idF ([(100, .num 3)], .call 1 (.addr (.var 100))) (fun _ => 0)).map Prod.fst
        = some 100 := by
  decide +kernel

/-! ## Where it fails -/

/-- C106 fails: an `int &&` given to a function with an `int &` parameter is handed on one level
too far out: the function gets the address of the reference instead of the address of the object
(`FixIntrinsicArgs` takes the address of the `*` that `ReferenceConversions` has just added, and the
two cancel).  Here `x` is variable 0, `r` (1) refers to it, `rr` (2) to `r`; the types ask for the
address 0, and the call gets 1. -/
theorem C106_argument_violated :
    ∃ (e : E) (σ : Store), WT e ∧ e.isAddr = false ∧
      (sem idF e σ).bind (fun r => r.1.read r.2) = some 0 ∧
      (∃ p, lower false 100 e = some p ∧ (evStmt idF p σ).map Prod.fst = some 1) := by
  refine ⟨.call 0 (.cast (.var 2 (.ref (.ref int))) false (.ref int)) true int,
    fun a => if a = 2 then 1 else 0, by decide, by decide, by decide +kernel,
    ([], .call 0 (.var 2)), by decide +kernel, by decide +kernel⟩

/-- Function 1 leaves a mark at address 50. -/
private def mark : Fns := fun f v σ => if f = 1 then (v, σ.set 50 1) else (v, σ)

/-- C106 fails: a value given to a reference parameter is computed into a temporary in front of the
whole statement.  In `c ? f( g( 3 ) ) : 7` with `f` taking an `int &`, `g` is called although `c`
is 0. -/
theorem C106_untaken_violated :
    ∃ (e : E) (σ : Store), WT e ∧
      (sem mark e σ).map (fun r => (r.1, r.2 50)) = some (.val 7, 0) ∧
      (∃ p, lower false 100 e = some p ∧
        (evStmt mark p σ).map (fun r => (r.1, r.2 50)) = some (7, 1)) := by
  refine ⟨.cond (.num 0 int)
      (.call 0 (.cast (.call 1 (.num 3 int) false int) false (.ref int)) true int)
      (.num 7 int) int,
    fun _ => 0, by decide, by decide +kernel,
    ([(100, .call 1 (.num 3))], .cond (.num 0) (.call 0 (.addr (.var 100))) (.num 7)),
    by decide +kernel, by decide +kernel⟩

/-- C106 fails: in `(int *)( c ? &r : &s )` with `r` and `s` of type `int &`, the branches have
already been turned into pointers when the conversion of the whole to `int *` follows one more
address: the result is the content of the object, not its address. -/
theorem C106_conditional_violated :
    ∃ (e : E) (σ : Store), WT e ∧
      (sem idF e σ).bind (fun r => r.1.read r.2) = some 0 ∧
      (∃ p, lower false 100 e = some p ∧ (evStmt idF p σ).map Prod.fst = some 42) := by
  refine ⟨.cast (.cond (.num 1 int) (.addr (.var 1 (.ref int)) (.ref (.ptr int)))
      (.addr (.var 2 (.ref int)) (.ref (.ptr int))) (.ref (.ptr int))) false (.ptr int),
    fun a => if a = 1 then 0 else if a = 0 then 42 else 0, by decide, by decide +kernel,
    ([], .deref (.cond (.num 1) (.var 1) (.var 2))), by decide +kernel, by decide +kernel⟩

/-- Function 0 writes 9 to the object its argument is a reference to. -/
private def write9 : Fns := fun _ v σ => (v, σ.set v 9)

/-- C106 fails: `&*p` given to a function with an `int * &` parameter is handed on as the variable
`p` itself, without a warning or a temporary: the function can change `p` (variable 0). -/
theorem C106_address_of_value_violated :
    ∃ (e : E) (σ : Store), WT e ∧
      e = .call 0 (.addr (.deref (.var 0 (.ptr int)) (.ref int)) (.ref (.ptr int))) true int ∧
      σ 0 = 5 ∧
      (∃ p, lower false 100 e = some p ∧ p.1 = [] ∧
        (evStmt write9 p σ).map (fun r => r.2 0) = some 9) := by
  refine ⟨_, fun _ => 5, ?_, rfl, rfl, ([], .call 0 (.addr (.var 0))), by decide +kernel, rfl,
    by decide +kernel⟩
  decide

/-- C106 fails: `&&r`, `r` of type `int &`, is a value of type `int **`; given to a function with
an `int ** &` parameter it becomes `(int ***)&(&r)`, which is not C. -/
theorem C106_double_address_violated :
    ∃ e : E, WT e ∧
      e = .call 0 (.cast (.addr (.addr (.var 1 (.ref int)) (.ref (.ptr int))) (.ptr (.ptr int)))
        false (.ref (.ptr (.ptr int)))) true int ∧
      (∃ p, lower false 100 e = some p ∧ ∀ F σ, evStmt F p σ = none) := by
  refine ⟨_, ?_, rfl, ([], .call 0 (.cast (.addr (.addr (.var 1))))), by decide +kernel,
    fun F σ => rfl⟩
  decide

/-- C106 fails: an `int` variable where an `int &&` is wanted becomes `&(&x)`, which is not C (the
compiler itself ends with an error about it when it makes the second `&`, Expr.cpp 169). -/
theorem C106_two_levels_violated :
    ∃ e : E, WT e ∧ e = .call 0 (.cast (.var 1 int) false (.ref (.ref int))) true int ∧
      (∃ p, lower false 100 e = some p ∧ ∀ F σ, evStmt F p σ = none) := by
  refine ⟨_, ?_, rfl, ([], .call 0 (.cast (.addr (.addr (.var 1))))), by decide +kernel,
    fun F σ => rfl⟩
  decide

/-- C106 fails: the result of a function returning `int &` where an `int &&` is wanted ends the
compiler: one temporary too many is made, and `assert( 1 == diff )` does not hold. -/
theorem C106_returned_reference_violated :
    ∃ e : E, WT e ∧
      e = .call 0 (.cast (.call 1 (.num 3 int) false (.ref int)) false (.ref (.ref int))) true int ∧
      ∀ n, lower false n e = none := by
  refine ⟨_, ?_, rfl, fun n => rfl⟩
  decide

/-- C106 fails: `&(long &)x` with `x` of type `int` has a value by its types, the address of `x`,
and becomes `*(long **)&(&x)`, which is not C. -/
theorem C106_address_of_cast_violated :
    ∃ (e : E), WT e ∧
      e = .cast (.addr (.cast (.var 1 int) true (.ref (.base 1))) (.ref (.ptr (.base 1)))) false
        (.ptr (.base 1)) ∧
      (∀ F σ, (sem F e σ).map Prod.fst = some (.val 1)) ∧
      (∃ p, lower false 100 e = some p ∧ ∀ F σ, evStmt F p σ = none) := by
  refine ⟨_, ?_, rfl, fun F σ => rfl, ([], .deref (.cast (.addr (.addr (.var 1))))),
    by decide +kernel, fun F σ => rfl⟩
  decide

end Verif.RefLower
