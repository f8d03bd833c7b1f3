import Verif.Proof.ObjLife
/-!
# C92: objects are constructed once, destroyed once, and live as long as their scope
-/
namespace ObjLife
open Verif

/-- C92 for function bodies without computed gotos, without temporaries in
conditions and in labelled expressions, and with constructors that raise no
exception: on every path through an accepted body (loops, gotos forwards and
backwards, returns, exceptions raised by expressions) no constructor runs on an
existing object, no destructor on one that does not exist or is not the newest,
and whenever an expression has its operands, the existing objects are exactly
those declared before it in the blocks around it, plus temporaries of the
expression itself, the newest first. -/
theorem C92_scope_partial (p : B) (hl : Legal p) (hc : coveredB (declaredB p) p = true)
    (ha : accepted p = true) (st : St) (h : Exec p false st) :
    st.bad = false ∧
    ∀ e, st.ctl = .stm (.eval e []) →
      ∃ ts sc tl, (e, ts, sc) ∈ placesB [] p ∧ tl.Sublist ts.reverse ∧ st.alive = tl ++ sc := by
  have hi := inv_exec hl hc ha h
  refine ⟨by cases hi <;> rfl, ?_⟩
  intro e he
  cases hi with
  | done => simp at he
  | pend1 => simp at he
  | pend2 => simp at he
  | tmpA => simp at he
  | tmpC => simp at he
  | @tmpB a ts1 ts2 k sc tm v hpl =>
    simp only [Ctl.stm.injEq, S.eval.injEq] at he
    obtain ⟨rfl, rfl⟩ := he
    refine ⟨_, _, ts1.reverse.filter (fun t => tm t = .set), hpl, ?_, ?_⟩
    · rw [List.append_nil]
      exact List.filter_sublist
    · simp only
      rw [live_tmps, v.live]
  | @stable c k sc tm hs =>
    cases hs with
    | blk => simp at he
    | evB => simp at he
    | @ev ls a _ _ v hpl =>
      cases ls with
      | cons _ _ => simp [labs] at he
      | nil =>
        simp only [labs, Ctl.stm.injEq, S.eval.injEq, and_true] at he
        subst he
        exact ⟨[], objs sc, [], hpl, by simp, rfl⟩
    | @stm ls s _ _ w v hp =>
      obtain ⟨ls', s', e', hlab, w', hp'⟩ := unlab s ls w hp
      simp only at he
      rw [e'] at he
      cases s' with
      | lab l s => simp [isLab] at hlab
      | eval a ts => exact absurd w'.cov (by simp only [covered, Bool.false_eq_true, not_false_eq_true])
      | ctor x => exact absurd w'.cov (by simp only [covered, Bool.false_eq_true, not_false_eq_true])
      | computed x => exact absurd w'.cov (by simp only [covered, Bool.false_eq_true, not_false_eq_true])
      | expr e ts => simp [fixS] at he
      | goto l => cases ls' <;> simp [fixS, labs] at he
      | ret => cases ls' <;> simp [fixS, labs] at he
      | block b => cases ls' <;> simp [fixS, labs] at he
      | ite c ts s t => cases ls' <;> simp [fixS, labs] at he
      | loop c ts s => cases ls' <;> simp [fixS, labs] at he

/-- C92, the end of a call: when the function has been left, by its end, a
return or an exception, every object constructed has been destroyed. -/
theorem C92_end_partial (p : B) (hl : Legal p) (hc : coveredB (declaredB p) p = true)
    (ha : accepted p = true) (st : St) (h : Exec p false st) (hd : st.ctl = .done) :
    st.alive = [] ∧ st.bad = false := by
  have hi := inv_exec hl hc ha h
  cases hi with
  | done => exact ⟨rfl, rfl⟩
  | stable hs =>
    cases hs <;> simp at hd
  | _ => simp at hd

/-- C92: the generated program is never stuck, in particular every goto has
somewhere to go. -/
theorem C92_runs_partial (p : B) (hl : Legal p) (hc : coveredB (declaredB p) p = true)
    (ha : accepted p = true) (st : St) (h : Exec p false st) (hd : st.ctl ≠ .done) :
    (next (fixB p) false st .go).isSome = true :=
  inv_progress hl (inv_exec hl hc ha h) hd

/-- ```
X 0;
f( t10, t11 );
L5: { X 1;  int 2;  if ( 21 ) goto L6;  while ( 22 ) { X 3; 23( t12 ); if ( 24 ) goto L5; } }
L6: X 4;
25;
``` -/
def sample : B :=
  .decl [] 0 true <| .stmt (.expr 20 [10, 11]) <|
  .stmt (.lab 5 (.block (.decl [] 1 true <| .decl [] 2 false <| .stmt (.ite 21 [] (.goto 6) (.block .nil)) <|
    .stmt (.loop 22 [] (.block (.decl [] 3 true <| .stmt (.expr 23 [12]) <|
      .stmt (.ite 24 [] (.goto 5) (.block .nil)) .nil))) .nil))) <|
  .decl [6] 4 true <| .stmt (.expr 25 []) .nil

example : Legal sample ∧ coveredB (declaredB sample) sample = true ∧ accepted sample = true :=
  ⟨⟨by decide, by decide, by decide⟩, by decide, by decide⟩

/-- Running with given choices. -/
def run (p : B) (ct : Bool) : List Act → Option St := exec (next (fixB p) ct) (start p)

/-- What is seen of a state. -/
def view (st : St) : Option Nat × List Nat × Bool :=
  (match st.ctl with | .stm (.eval e []) => some e | .done => some 1000 | _ => none, st.alive, st.bad)

/-- In the sample: the first expression has its two temporaries. -/
example : (run sample false (List.replicate 11 .go)).map view = some (some 20, [11, 10, 0], false) := by
  decide +kernel

/-- Once round the loop: the goto back to `L5` leaves the scopes of 3 and 1 and
enters that of another 1. -/
example : (run sample false (List.replicate 27 .go ++ [.other] ++ List.replicate 40 .go)).map view
    = some (some 21, [1, 0], false) := by
  decide +kernel

/-- The end. -/
example : (run sample false (List.replicate 44 .go)).map view = some (some 1000, [], false) := by
  decide +kernel

theorem reach_view {p : B} {ct : Bool} {as : List Act} {r : Option Nat × List Nat × Bool}
    (h : (run p ct as).map view = some r) : ∃ st, Exec p ct st ∧ view st = r := by
  cases e : run p ct as with
  | none => rw [e] at h; simp at h
  | some st =>
    rw [e] at h
    simp only [Option.map_some, Option.some.injEq] at h
    exact ⟨st, Reach.of_exec as e, h⟩

/-- C92 fails: the `cleanup` attribute is on the declaration and the constructor
call comes after it, so if the constructor raises an exception the destructor
is run on an object that was never constructed. -/
theorem C92_throwingConstructor_violated : ∃ p, Legal p ∧ coveredB (declaredB p) p = true ∧ accepted p = true ∧
    ∃ st, Exec p true st ∧ view st = (some 1000, [], true) :=
  ⟨.decl [] 0 true (.stmt (.expr 20 []) .nil), ⟨by decide, by decide, by decide⟩, by decide, by decide,
    reach_view (as := [.go, .go, .throw]) (by decide +kernel)⟩

/-- C92 fails: a computed goto is not checked, and no destructors are called
when it leaves a block: the call returns with an object still there.
`{ X 0; goto *p; } L5: 20;` -/
theorem C92_computedGoto_violated : ∃ p, Legal p ∧ accepted p = true ∧
    ∃ st, Exec p false st ∧ view st = (some 1000, [0], false) :=
  ⟨.stmt (.block (.decl [] 0 true (.stmt (.computed [5]) .nil))) (.stmt (.lab 5 (.expr 20 [])) .nil),
    ⟨by decide, by decide, by decide⟩, by decide,
    reach_view (as := List.replicate 7 .go ++ [.to 5] ++ List.replicate 4 .go) (by decide +kernel)⟩

/-- C92 fails: the label of an expression stays on the expression, behind the
declarations of its temporaries.  A goto to it enters their scope without
initialising them, and if the expression raises an exception before the
temporary is constructed, a destructor is called through memory that was never
written.  `L5: 20( t10 ); goto L5;` -/
theorem C92_labelledExpression_violated : ∃ p, Legal p ∧ accepted p = true ∧
    ∃ st, Exec p false st ∧ view st = (some 1000, [], true) :=
  ⟨.stmt (.lab 5 (.expr 20 [10])) (.stmt (.goto 5) .nil),
    ⟨by decide, by decide, by decide⟩, by decide,
    reach_view (as := List.replicate 12 .go ++ [.throw]) (by decide +kernel)⟩

/-- C92 fails: the temporaries of the condition of a loop are declared before
the loop, so each iteration constructs them again over the ones of the last
iteration, which are never destroyed.  `while ( 20( t10 ) ) 21;` -/
theorem C92_loopCondition_violated : ∃ p, Legal p ∧ accepted p = true ∧
    ∃ st, Exec p false st ∧ view st = (some 20, [10], true) :=
  ⟨.stmt (.loop 20 [10] (.expr 21 [])) .nil,
    ⟨by decide, by decide, by decide⟩, by decide,
    reach_view (as := List.replicate 16 .go) (by decide +kernel)⟩

end ObjLife
