import Verif.Spec.TupleAsg
namespace Verif.Proof.TupleAsg
open Verif.Model.TupleAsg Verif.Spec.TupleAsg

/-- Evaluate a list of expressions; with `smp` each is read at once. -/
def smp (b : Bool) (m : Mem) (c : Cell) : Cell := if b then .num (readCell m c) else c

def evalList (b : Bool) : List Ex → St → St × List Cell
  | [], s => (s, [])
  | e :: es, s =>
    ((evalList b es (eval e s).1).1,
      smp b (eval e s).1.w.mem ((eval e s).2 []) :: (evalList b es (eval e s).1).2)

theorem evalList_append (b : Bool) (xs ys : List Ex) (s : St) :
    evalList b (xs ++ ys) s =
      ((evalList b ys (evalList b xs s).1).1,
        (evalList b xs s).2 ++ (evalList b ys (evalList b xs s).1).2) := by
  induction xs generalizing s with
  | nil => simp [evalList]
  | cons x xs ih => simp [evalList, ih]

theorem evalList_congr (b : Bool) (g : Ex → Ex) (hg : ∀ e s, eval (g e) s = eval e s)
    (xs : List Ex) (s : St) : evalList b (xs.map g) s = evalList b xs s := by
  induction xs generalizing s with
  | nil => rfl
  | cons x xs ih => simp [evalList, ih, hg]

/-- An expression that is pure apart from unique parts evaluates again to the same. -/
theorem pure_again (e : Ex) (h : maybeImpure e = false) (s s' : St) (r : Res)
    (he : eval e s = (s', r)) : eval e s' = (s', r) := by
  induction e generalizing s s' r with
  | obj a t => simp only [eval, Prod.mk.injEq] at he; obtain ⟨rfl, rfl⟩ := he; rfl
  | call n f t => simp [maybeImpure] at h
  | idx e i ih =>
    simp only [eval, Prod.mk.injEq] at he
    obtain ⟨h1, h2⟩ := he
    have := ih h s (eval e s).1 (eval e s).2 rfl
    simp only [eval]
    rw [← h1, this, ← h2]
  | uniq id e ih =>
    simp only [eval] at he
    cases hc : s.cache id with
    | some r0 =>
      rw [hc] at he
      simp only [Prod.mk.injEq] at he
      obtain ⟨rfl, rfl⟩ := he
      simp [eval, hc]
    | none =>
      rw [hc] at he
      simp only [Prod.mk.injEq] at he
      obtain ⟨rfl, rfl⟩ := he
      simp [eval]
  | cast e t ih => exact ih h s s' r he

mutual
/-- What `explodeAt` evaluates to, for an expression that is pure apart from unique parts. -/
theorem explodeAt_pure : ∀ (t full : Ty) (e : Ex) (isR : Bool) (n : Nat),
    maybeImpure e = false → ∀ (b : Bool) (s s' : St) (r : Res), eval e s = (s', r) →
    (explodeAt e isR t n).2 = n ∧
    evalList b (explodeAt e isR t n).1 s =
      (cond (scalarsOf full t).isEmpty s s',
        (scalarsOf full t).map fun p => smp b s'.w.mem (r p.1))
  | .base, full, e, isR, n, hp, b, s, s', r, he => by
    simp [explodeAt, scalarsOf, evalList, he]
  | .ref t, full, e, isR, n, hp, b, s, s', r, he => by
    simp only [explodeAt, scalarsOf]
    exact explodeAt_pure t full e true n hp b s s' r he
  | .tup ts, full, e, isR, n, hp, b, s, s', r, he => by
    simp only [explodeAt, scalarsOf, hp, Bool.false_eq_true, if_false]
    cases isR with
    | false => exact explodeIdx_pure ts e 0 n hp b s s' r he
    | true => exact explodeIdx_pure ts (.cast e (.tup ts)) 0 n hp b s s' r he
theorem explodeIdx_pure : ∀ (ts : List Ty) (e : Ex) (i n : Nat),
    maybeImpure e = false → ∀ (b : Bool) (s s' : St) (r : Res), eval e s = (s', r) →
    (explodeIdx e i ts n).2 = n ∧
    evalList b (explodeIdx e i ts n).1 s =
      (cond (scalarsFrom i ts).isEmpty s s',
        (scalarsFrom i ts).map fun p => smp b s'.w.mem (r p.1))
  | [], e, i, n, hp, b, s, s', r, he => by
    simp [explodeIdx, scalarsFrom, evalList]
  | t :: ts, e, i, n, hp, b, s, s', r, he => by
    have h1 := explodeAt_pure t t (.idx e i) false n hp b s s' (fun p => r (i :: p))
      (by simp [eval, he])
    have h2 := explodeIdx_pure ts e (i + 1) n hp b s s' r he
    have h3 := explodeIdx_pure ts e (i + 1) n hp b s' s' r (pure_again e hp s s' r he)
    simp only [explodeIdx]
    rw [h1.1]
    refine ⟨h2.1, ?_⟩
    rw [evalList_append, h1.2]
    simp only [scalarsFrom]
    cases ht : scalarsOf t t with
    | nil =>
      simp only [List.isEmpty_nil, cond_true, List.map_nil, List.nil_append]
      exact h2.2
    | cons x xs =>
      simp only [List.isEmpty_cons, cond_false, h3.2]
      simp [List.map_map, Function.comp_def]
end

theorem impure_call (e : Ex) (n : Nat) (s s' : St) (r : Res) (hc : s.cache n = none)
    (he : eval e s = (s', r)) :
    eval (.uniq n e) s = ({ s' with cache := fun k => if k = n then some r else s'.cache k }, r) := by
  simp only [eval, hc, he]

/-- Outside `lo … hi-1` the cache has not changed. -/
def Same (lo hi : Nat) (s s' : St) : Prop :=
  ∀ k, ¬ (lo ≤ k ∧ k < hi) → s'.cache k = s.cache k

theorem eval_emb (x : Simple) (s : St) :
    eval (emb x) s = ({ s with w := (Simple.ev x s.w).1 }, (Simple.ev x s.w).2) := by
  induction x with
  | obj a t => rfl
  | call n f t => rfl
  | idx x i ih => simp [emb, eval, ih, Simple.ev]

theorem typeOf_emb (x : Simple) : typeOf (emb x) = Simple.ty x := by
  induction x with
  | obj a t => rfl
  | call n f t => rfl
  | idx x i ih => simp [emb, typeOf, ih, Simple.ty]

/-- `explodeAt` on any expression: its number grows, and it evaluates the expression once if it has
any scalar. -/
theorem explodeAt_any : ∀ (t full : Ty) (e : Ex) (isR : Bool) (n : Nat),
    n ≤ (explodeAt e isR t n).2 ∧
    ∀ (b : Bool) (s s' : St) (r : Res), eval e s = (s', r) → s.cache n = none →
      scalarsOf full t ≠ [] →
      ∃ s'', evalList b (explodeAt e isR t n).1 s =
          (s'', (scalarsOf full t).map fun p => smp b s'.w.mem (r p.1)) ∧
        s''.w = s'.w ∧ Same n (explodeAt e isR t n).2 s' s''
  | .base, full, e, isR, n => by
    refine ⟨Nat.le_refl _, ?_⟩
    intro b s s' r he hc hne
    exact ⟨s', by simp [explodeAt, scalarsOf, evalList, he], rfl, fun k _ => rfl⟩
  | .ref t, full, e, isR, n => by
    simp only [explodeAt, scalarsOf]
    exact explodeAt_any t full e true n
  | .tup ts, full, e, isR, n => by
    simp only [explodeAt, scalarsOf]
    cases hp : maybeImpure e with
    | false =>
      simp only [Bool.false_eq_true, if_false]
      have key : ∀ e', maybeImpure e' = false → (∀ s, eval e' s = eval e s) →
          n ≤ (explodeIdx e' 0 ts n).2 ∧
          ∀ (b : Bool) (s s' : St) (r : Res), eval e s = (s', r) → s.cache n = none →
            scalarsFrom 0 ts ≠ [] →
            ∃ s'', evalList b (explodeIdx e' 0 ts n).1 s =
                (s'', (scalarsFrom 0 ts).map fun p => smp b s'.w.mem (r p.1)) ∧
              s''.w = s'.w ∧ Same n (explodeIdx e' 0 ts n).2 s' s'' := by
        intro e' hp' hev
        have h0 := explodeIdx_pure ts e' 0 n hp' true
          ⟨⟨fun _ => 0, []⟩, fun _ => none⟩ _ _ rfl
        refine ⟨Nat.le_of_eq h0.1.symm, ?_⟩
        intro b s s' r he hc hne
        have h := explodeIdx_pure ts e' 0 n hp' b s s' r (by rw [hev]; exact he)
        refine ⟨s', ?_, rfl, fun k _ => rfl⟩
        rw [h.2, show (scalarsFrom 0 ts).isEmpty = false by simpa using hne]; rfl
      cases isR with
      | false => exact key e hp (fun _ => rfl)
      | true => exact key (.cast e (.tup ts)) hp (fun _ => rfl)
    | true =>
      simp only [if_true]
      have key : ∀ e', maybeImpure e' = false → (∀ s, eval e' s = eval (.uniq n e) s) →
          n ≤ (explodeIdx e' 0 ts (n + 1)).2 ∧
          ∀ (b : Bool) (s s' : St) (r : Res), eval e s = (s', r) → s.cache n = none →
            scalarsFrom 0 ts ≠ [] →
            ∃ s'', evalList b (explodeIdx e' 0 ts (n + 1)).1 s =
                (s'', (scalarsFrom 0 ts).map fun p => smp b s'.w.mem (r p.1)) ∧
              s''.w = s'.w ∧ Same n (explodeIdx e' 0 ts (n + 1)).2 s' s'' := by
        intro e' hp' hev
        have h0 := explodeIdx_pure ts e' 0 (n + 1) hp' true
          ⟨⟨fun _ => 0, []⟩, fun _ => none⟩ _ _ rfl
        refine ⟨by omega, ?_⟩
        intro b s s' r he hc hne
        have hu := impure_call e n s s' r hc he
        have h := explodeIdx_pure ts e' 0 (n + 1) hp' b s _ r (by rw [hev]; exact hu)
        refine ⟨{ s' with cache := fun k => if k = n then some r else s'.cache k }, ?_, rfl, ?_⟩
        · rw [h.2, show (scalarsFrom 0 ts).isEmpty = false by simpa using hne]; rfl
        · intro k hk
          rw [h0.1] at hk
          exact if_neg (by omega)
      cases isR with
      | false => exact key (.uniq n e) rfl (fun _ => rfl)
      | true => exact key (.cast (.uniq n e) (.tup ts)) rfl (fun _ => rfl)

/-- A member tuple over an aggregate that is pure apart from unique parts. -/
theorem explode_picked (g : Ex) (hp : maybeImpure g = false) (b : Bool) (fs : List Nat) (n : Nat)
    (s s' : St) (r : Res) (he : eval g s = (s', r)) :
    (explodeAll (fs.map fun i => .leaf (.idx g i)) n).2 = n ∧
    evalList b (explodeAll (fs.map fun i => .leaf (.idx g i)) n).1 s =
      (cond (picked (typeOf g) fs).isEmpty s s',
        (picked (typeOf g) fs).map fun p => smp b s'.w.mem (r p.1)) := by
  induction fs generalizing s with
  | nil => simp [explodeAll, picked, evalList]
  | cons i fs ih =>
    have h1 := explodeAt_pure (fieldTy (typeOf g) i) (fieldTy (typeOf g) i) (.idx g i) false n hp b
      s s' (fun p => r (i :: p)) (by simp [eval, he])
    have h2 := ih s he
    have h3 := ih s' (pure_again g hp s s' r he)
    simp only [List.map_cons, explodeAll, explode, typeOf]
    rw [h1.1]
    refine ⟨h2.1, ?_⟩
    rw [evalList_append, h1.2]
    have hpk : picked (typeOf g) (i :: fs) =
        (scalarsOf (fieldTy (typeOf g) i) (fieldTy (typeOf g) i)).map (fun p => (i :: p.1, p.2))
          ++ picked (typeOf g) fs := by simp [picked, scalars]
    rw [hpk]
    cases ht : scalarsOf (fieldTy (typeOf g) i) (fieldTy (typeOf g) i) with
    | nil =>
      simp only [List.isEmpty_nil, cond_true, List.map_nil, List.nil_append]
      exact h2.2
    | cons x xs =>
      simp only [List.isEmpty_cons, cond_false, h3.2]
      simp [List.map_map, Function.comp_def]

/-- `places`, or `values` as cells. -/
def look (b : Bool) (e : Src) (w : World) : World × List Cell :=
  if b then ((values e w).1, (values e w).2.map .num) else places e w

def lookAll (b : Bool) (es : List Src) (w : World) : World × List Cell :=
  if b then ((valuesAll es w).1, (valuesAll es w).2.map .num) else placesAll es w

theorem look_simple (b : Bool) (x : Simple) (w : World) :
    look b (.simple x) w = ((Simple.ev x w).1,
      (scalars (Simple.ty x)).map fun p => smp b (Simple.ev x w).1.mem ((Simple.ev x w).2 p.1)) := by
  cases b <;> simp [look, places, values, smp, Function.comp_def]

theorem look_pick (b : Bool) (x : Simple) (fs : List Nat) (w : World) :
    look b (.pick x fs) w = ((Simple.ev x w).1,
      (picked (Simple.ty x) fs).map fun p =>
        smp b (Simple.ev x w).1.mem ((Simple.ev x w).2 p.1)) := by
  cases b <;> simp [look, places, values, smp, Function.comp_def]

theorem look_tup (b : Bool) (es : List Src) (w : World) :
    look b (.tup es) w = lookAll b es w := by
  cases b <;> simp [look, lookAll, places, values]

theorem lookAll_nil (b : Bool) (w : World) : lookAll b [] w = (w, []) := by
  cases b <;> simp [lookAll, placesAll, valuesAll]

theorem lookAll_cons (b : Bool) (e : Src) (es : List Src) (w : World) :
    lookAll b (e :: es) w = ((lookAll b es (look b e w).1).1,
      (look b e w).2 ++ (lookAll b es (look b e w).1).2) := by
  cases b <;> simp [lookAll, look, placesAll, valuesAll]

/-- What is left of the caches. -/
def Kept (a a' n n' : Nat) (s s' : St) : Prop :=
  ∀ k, ¬ (a ≤ k ∧ k < a') → ¬ (n ≤ k ∧ k < n') → s'.cache k = s.cache k

def LookOk (b : Bool) (xs : List Ex) (a a' n n' : Nat) (s : St) (r : World × List Cell) : Prop :=
  ∃ s', evalList b xs s = (s', r.2) ∧ s'.w = r.1 ∧ Kept a a' n n' s s'

mutual
/-- Evaluating the components `explode` gives for `e` is evaluating `e`. -/
theorem explode_ok : ∀ (e : Src) (a n : Nat),
    a ≤ (expandMember e a).2 ∧ n ≤ (explode (expandMember e a).1 n).2 ∧
    ∀ (b : Bool) (s : St), HasParts e → (expandMember e a).2 ≤ n →
      (∀ k, a ≤ k → k < (expandMember e a).2 → s.cache k = none) →
      (∀ k, n ≤ k → s.cache k = none) →
      LookOk b (explode (expandMember e a).1 n).1 a (expandMember e a).2 n
        (explode (expandMember e a).1 n).2 s (look b e s.w)
  | .simple x, a, n => by
    simp only [expandMember, explode]
    have h := explodeAt_any (typeOf (emb x)) (Simple.ty x) (emb x) false n
    refine ⟨Nat.le_refl _, h.1, ?_⟩
    intro b s hin _ _ hn
    obtain ⟨s'', h1, h2, h3⟩ := h.2 b s _ _ (eval_emb x s) (hn n (Nat.le_refl _))
      (by rw [typeOf_emb]; exact hin)
    refine ⟨s'', ?_, ?_, ?_⟩
    · rw [h1, look_simple, typeOf_emb]; rfl
    · rw [h2, look_simple]
    · intro k _ hk; rw [h3 k hk]
  | .pick x fs, a, n => by
    simp only [expandMember, explode]
    cases hp : maybeImpure (emb x) with
    | false =>
      simp only [Bool.false_eq_true, if_false]
      have h0 := explode_picked (emb x) hp true fs n ⟨⟨fun _ => 0, []⟩, fun _ => none⟩ _ _ rfl
      refine ⟨Nat.le_succ _, Nat.le_of_eq h0.1.symm, ?_⟩
      intro b s hin _ _ _
      have h := explode_picked (emb x) hp b fs n s _ _ (eval_emb x s)
      refine ⟨{ s with w := (Simple.ev x s.w).1 }, ?_, ?_, fun k _ _ => rfl⟩
      · rw [h.2, look_pick, typeOf_emb,
          show (picked (Simple.ty x) fs).isEmpty = false by simpa [HasParts] using hin]
        rfl
      · rw [look_pick]
    | true =>
      simp only [if_true]
      have h0 := explode_picked (.uniq a (emb x)) rfl true fs n
        ⟨⟨fun _ => 0, []⟩, fun _ => none⟩ _ _ rfl
      refine ⟨Nat.le_succ _, Nat.le_of_eq h0.1.symm, ?_⟩
      intro b s hin _ ha _
      have hu := impure_call (emb x) a s _ _ (ha a (Nat.le_refl _) (Nat.lt_succ_self _))
        (eval_emb x s)
      have h := explode_picked (.uniq a (emb x)) rfl b fs n s _ _ hu
      refine ⟨{ w := (Simple.ev x s.w).1,
                cache := fun k => if k = a then some (Simple.ev x s.w).2 else s.cache k },
        ?_, ?_, ?_⟩
      · rw [h.2]
        simp only [typeOf, typeOf_emb]
        rw [show (picked (Simple.ty x) fs).isEmpty = false by simpa [HasParts] using hin,
          look_pick]
        rfl
      · rw [look_pick]
      · intro k hk _
        exact if_neg (by omega)
  | .tup es, a, n => by
    simp only [expandMember, explode]
    have h := explodeAll_ok es a n
    refine ⟨h.1, h.2.1, ?_⟩
    intro b s hin hle ha hn
    rw [look_tup]
    exact h.2.2 b s hin hle ha hn
theorem explodeAll_ok : ∀ (es : List Src) (a n : Nat),
    a ≤ (expandMembers es a).2 ∧ n ≤ (explodeAll (expandMembers es a).1 n).2 ∧
    ∀ (b : Bool) (s : St), HasPartsAll es → (expandMembers es a).2 ≤ n →
      (∀ k, a ≤ k → k < (expandMembers es a).2 → s.cache k = none) →
      (∀ k, n ≤ k → s.cache k = none) →
      LookOk b (explodeAll (expandMembers es a).1 n).1 a (expandMembers es a).2 n
        (explodeAll (expandMembers es a).1 n).2 s (lookAll b es s.w)
  | [], a, n => by
    simp only [expandMembers, explodeAll]
    refine ⟨Nat.le_refl _, Nat.le_refl _, ?_⟩
    intro b s _ _ _ _
    rw [lookAll_nil]
    exact ⟨s, rfl, rfl, fun k _ _ => rfl⟩
  | e :: es, a, n => by
    simp only [expandMembers, explodeAll]
    have h1 := explode_ok e a n
    have h2 := explodeAll_ok es (expandMember e a).2 (explode (expandMember e a).1 n).2
    refine ⟨Nat.le_trans h1.1 h2.1, Nat.le_trans h1.2.1 h2.2.1, ?_⟩
    intro b s hin hle ha hn
    obtain ⟨s1, e1, w1, k1⟩ := h1.2.2 b s hin.1 (by omega) (fun k hk hk' => ha k hk (by omega)) hn
    obtain ⟨s2, e2, w2, k2⟩ := h2.2.2 b s1 hin.2 (by omega)
      (fun k hk hk' => by rw [k1 k (by omega) (by omega)]; exact ha k (by omega) hk')
      (fun k hk => by rw [k1 k (by omega) (by omega)]; exact hn k (by omega))
    refine ⟨s2, ?_, ?_, ?_⟩
    · rw [evalList_append, e1, lookAll_cons]
      simp only
      rw [e2, w1]
    · rw [w2, w1, lookAll_cons]
    · intro k hk hk'
      rw [k2 k (by omega) (by omega), k1 k (by omega) (by omega)]
end

mutual
/-- The types of the components. -/
theorem explodeAt_types : ∀ (t full : Ty) (e : Ex) (isR : Bool) (n : Nat), typeOf e = full →
    (isR = false → full = t) →
    (explodeAt e isR t n).1.map typeOf = (scalarsOf full t).map (·.2)
  | .base, full, e, isR, n, h, hr => by simp [explodeAt, scalarsOf, h]
  | .ref t, full, e, isR, n, h, hr => by
    simp only [explodeAt, scalarsOf]
    exact explodeAt_types t full e true n h (by simp)
  | .tup ts, full, e, isR, n, h, hr => by
    simp only [explodeAt, scalarsOf]
    apply explodeIdx_types
    intro j
    cases isR with
    | false =>
      have : typeOf (if maybeImpure e then (Ex.uniq n e, n + 1) else (e, n)).1 = Ty.tup ts := by
        split <;> simp [typeOf, h, hr rfl]
      simp only [Bool.false_eq_true, if_false, this]
      simp [fieldTy]
    | true => simp [typeOf, fieldTy]
theorem explodeIdx_types : ∀ (ts : List Ty) (e : Ex) (i n : Nat),
    (∀ j, fieldTy (typeOf e) (i + j) = ts.getD j .base) →
    (explodeIdx e i ts n).1.map typeOf = (scalarsFrom i ts).map (·.2)
  | [], e, i, n, h => by simp [explodeIdx, scalarsFrom]
  | t :: ts, e, i, n, h => by
    simp only [explodeIdx, scalarsFrom, List.map_append]
    rw [explodeAt_types t t (.idx e i) false n (by simpa [typeOf] using h 0) (fun _ => rfl),
      explodeIdx_types ts e (i + 1) _ (fun j => by
        have := h (j + 1)
        rw [show i + (j + 1) = i + 1 + j by omega] at this
        simpa using this)]
    simp [List.map_map, Function.comp_def]
end

theorem explode_leaf_types (e : Ex) (n : Nat) :
    (explode (.leaf e) n).1.map typeOf = (scalars (typeOf e)).map (·.2) :=
  explodeAt_types _ _ e false n rfl (fun _ => rfl)

theorem picked_types (g : Ex) (fs : List Nat) (n : Nat) :
    (explodeAll (fs.map fun i => .leaf (.idx g i)) n).1.map typeOf =
      (picked (typeOf g) fs).map (·.2) := by
  induction fs generalizing n with
  | nil => simp [explodeAll, picked]
  | cons i fs ih =>
    simp only [List.map_cons, explodeAll, List.map_append]
    rw [explode_leaf_types, ih]
    simp [picked, typeOf, List.map_map, Function.comp_def]

mutual
theorem explode_types : ∀ (e : Src) (a n : Nat),
    (explode (expandMember e a).1 n).1.map typeOf = types e
  | .simple x, a, n => by
    simp only [expandMember, types]
    rw [explode_leaf_types, typeOf_emb]
  | .pick x fs, a, n => by
    simp only [expandMember, types, explode]
    rw [picked_types]
    split <;> simp [typeOf, typeOf_emb]
  | .tup es, a, n => by
    simp only [expandMember, types, explode]
    exact explodeAll_types es a n
theorem explodeAll_types : ∀ (es : List Src) (a n : Nat),
    (explodeAll (expandMembers es a).1 n).1.map typeOf = typesAll es
  | [], a, n => by simp [expandMembers, explodeAll, typesAll]
  | e :: es, a, n => by
    simp only [expandMembers, explodeAll, typesAll, List.map_append]
    rw [explode_types e a n, explodeAll_types es _ _]
end

theorem eval_castInto (e : Ex) (s : St) : eval (castInto e) s = eval e s := by
  induction e generalizing s with
  | obj a t => rfl
  | call n f t => rfl
  | idx e i ih => simp [castInto, eval, ih]
  | uniq id e ih =>
    simp only [castInto]
    split <;> simp [eval]
  | cast e t ih => simp [castInto, eval, ih]

theorem eval_dist (e : Ex) (s : St) : eval (distributeReference e) s = eval e s := by
  simp [distributeReference, eval, eval_castInto]

theorem typeOf_castInto (e : Ex) : typeOf (castInto e) = typeOf e := by
  induction e with
  | obj a t => rfl
  | call n f t => rfl
  | idx e i ih => simp [castInto, typeOf, ih]
  | uniq id e ih =>
    simp only [castInto]
    split <;> simp [typeOf]
  | cast e t ih => simp [castInto, typeOf]

theorem typeOf_dist (e : Ex) : typeOf (distributeReference e) = .ref (typeOf e) := by
  simp [distributeReference, typeOf, typeOf_castInto]

theorem refBase_dist (e : Ex) : refBase (typeOf (distributeReference e)) = typeOf e := by
  rw [typeOf_dist]; rfl

/-- Temporaries that are all references, or all copies. -/
theorem initTemps_eq (b : Bool) (xs : List Ex) (h : ∀ e ∈ xs, isRef (typeOf e) = !b) (s : St) :
    initTemps xs s = evalList b xs s := by
  induction xs generalizing s with
  | nil => rfl
  | cons x xs ih =>
    have hx := h x (by simp)
    simp only [initTemps, initTemp, evalList]
    rw [ih (fun e he => h e (by simp [he])), hx]
    cases b <;> simp [smp]

theorem initTemps_append (xs ys : List Ex) (s : St) :
    initTemps (xs ++ ys) s =
      ((initTemps ys (initTemps xs s).1).1,
        (initTemps xs s).2 ++ (initTemps ys (initTemps xs s).1).2) := by
  induction xs generalizing s with
  | nil => simp [initTemps]
  | cons x xs ih => simp [initTemps, ih]

theorem initTemps_lhs (xs : List Ex) (s : St) :
    initTemps (xs.map distributeReference) s = evalList false xs s := by
  rw [initTemps_eq false, evalList_congr false _ eval_dist]
  intro e he
  obtain ⟨x, _, rfl⟩ := List.mem_map.mp he
  simp [typeOf_dist, isRef]

/-- The right-hand temporaries when no left-hand type is a reference. -/
theorem initTemps_rhs (ls rs : List Ex) (hlen : ls.length = rs.length)
    (hp : ∀ t ∈ ls.map typeOf, Plain t) (s : St) :
    initTemps (List.zipWith (fun l r => Ex.cast r (refBase (typeOf l)))
      (ls.map distributeReference) rs) s = evalList true rs s := by
  induction ls generalizing rs s with
  | nil =>
    cases rs with
    | nil => rfl
    | cons r rs => simp at hlen
  | cons l ls ih =>
    cases rs with
    | nil => simp at hlen
    | cons r rs =>
      have hl : isRef (typeOf l) = false := hp (typeOf l) (by simp)
      simp only [List.map_cons, List.zipWith_cons_cons, initTemps, initTemp, evalList,
        refBase_dist, eval]
      rw [show typeOf (r.cast (typeOf l)) = typeOf l from rfl, hl]
      rw [ih rs (by simpa using hlen) (fun t ht => hp t (by
        simp only [List.map_cons, List.mem_cons]; exact Or.inr ht))]
      simp [smp]

/-- The right-hand temporaries when every right-hand component is a value. -/
theorem initTemps_rhs_num (ls rs : List Ex) (hlen : ls.length = rs.length) (s : St)
    (hn : ∀ c ∈ (evalList false rs s).2, ∃ n, c = .num n) :
    initTemps (List.zipWith (fun l r => Ex.cast r (refBase (typeOf l))) ls rs) s =
      evalList false rs s := by
  induction ls generalizing rs s with
  | nil =>
    cases rs with
    | nil => rfl
    | cons r rs => simp at hlen
  | cons l ls ih =>
    cases rs with
    | nil => simp at hlen
    | cons r rs =>
      simp only [evalList, List.mem_cons] at hn
      obtain ⟨n, h0⟩ := hn _ (Or.inl rfl)
      simp only [smp, Bool.false_eq_true, if_false] at h0
      simp only [List.zipWith_cons_cons, initTemps, initTemp, evalList, eval]
      rw [ih rs (by simpa using hlen) _ (fun c hc => hn c (Or.inr hc)), h0]
      cases isRef (typeOf (Ex.cast r (refBase (typeOf l)))) <;> rfl

/-! ### The assignments -/

theorem doAssigns_num (op : Int → Int → Int) (cs : List Cell) (ps : List (Nat × Nat))
    (ds : List Cell) (vs : List Int)
    (hl : ∀ k, k < ds.length → cs.getD (ps.getD k (0, 0)).1 (.num 0) = ds.getD k (.num 0))
    (hr : ∀ k, k < ds.length → cs.getD (ps.getD k (0, 0)).2 (.num 0) = .num (vs.getD k 0))
    (hd : Distinct ds) (order : List Nat) (hnd : order.Nodup)
    (hlt : ∀ k ∈ order, k < ds.length) (m : Mem) (f : Nat → Int) :
    let x := doAssigns op cs ps order (m, f)
    (∀ k ∈ order, x.2 k = op (readCell m (ds.getD k (.num 0))) (vs.getD k 0) ∧
      ∀ l, ds[k]? = some (.at l) → x.1 l = op (m l) (vs.getD k 0)) ∧
    (∀ k, k ∉ order → x.2 k = f k) ∧
    ∀ l, (∀ k ∈ order, ds[k]? ≠ some (.at l)) → x.1 l = m l := by
  induction order generalizing m f with
  | nil => simp [doAssigns]
  | cons k ks ih =>
    have hk : k < ds.length := hlt k (by simp)
    have hks : k ∉ ks := (List.nodup_cons.mp hnd).1
    simp only [doAssigns, doAssign]
    rw [hl k hk, hr k hk, show readCell m (.num (vs.getD k 0)) = vs.getD k 0 from rfl]
    have hget : ds[k]? = some (ds.getD k (.num 0)) := by
      simp [List.getD, hk]
    -- memory after the first assignment
    have hw : ∀ (j : Nat) (l : Loc), j ≠ k → ds[j]? = some (.at l) →
        writeCell m (ds.getD k (.num 0)) (op (readCell m (ds.getD k (.num 0))) (vs.getD k 0)) l = m l := by
      intro j l hjk hj
      cases hc : ds.getD k (.num 0) with
      | num n => rfl
      | «at» l' =>
        simp only [writeCell]
        by_cases hll : l = l'
        · subst hll
          exact absurd (hd j k l hj (by rw [hget, hc])) hjk
        · exact if_neg hll
    have h := ih (List.nodup_cons.mp hnd).2 (fun j hj => hlt j (by simp [hj]))
      (writeCell m (ds.getD k (.num 0)) (op (readCell m (ds.getD k (.num 0))) (vs.getD k 0)))
      (fun j => if j = k then op (readCell m (ds.getD k (.num 0))) (vs.getD k 0) else f j)
    refine ⟨?_, ?_, ?_⟩
    · intro j hj
      rcases List.mem_cons.mp hj with rfl | hj
      · refine ⟨?_, ?_⟩
        · rw [h.2.1 j hks, if_pos rfl]
        · intro l hl'
          have hc : ds.getD j (.num 0) = .at l := by
            rw [hget] at hl'; exact Option.some.inj hl'
          rw [h.2.2 l (fun i hi hi' => hks (by rw [← hd i j l hi' hl']; exact hi)), hc]
          simp [writeCell, readCell]
      · have hjk : j ≠ k := fun e => hks (e ▸ hj)
        obtain ⟨h1, h2⟩ := h.1 j hj
        have hjl : j < ds.length := hlt j (by simp [hj])
        have hgetj : ds[j]? = some (ds.getD j (.num 0)) := by simp [List.getD, hjl]
        refine ⟨?_, ?_⟩
        · rw [h1]
          congr 1
          cases hc : ds.getD j (.num 0) with
          | num n => rfl
          | «at» l' => exact hw j l' hjk (by rw [hgetj, hc])
        · intro l hl'
          rw [h2 l hl', hw j l hjk hl']
    · intro j hj
      rw [h.2.1 j (fun h' => hj (List.mem_cons_of_mem _ h')), if_neg (fun e => hj (by simp [e]))]
    · intro l hl'
      rw [h.2.2 l (fun i hi => hl' i (List.mem_cons_of_mem _ hi))]
      cases hc : ds.getD k (.num 0) with
      | num n => rfl
      | «at» l' =>
        simp only [writeCell]
        exact if_neg (fun e => hl' k (by simp) (by rw [hget, hc, e]))

/-- From the assignments to the property: `n` assignments in any order. -/
theorem doAssigns_sim (op : Int → Int → Int) (cs : List Cell) (ps : List (Nat × Nat))
    (ds : List Cell) (vs : List Int) (hlen : vs.length = ds.length)
    (hl : ∀ k, k < ds.length → cs.getD (ps.getD k (0, 0)).1 (.num 0) = ds.getD k (.num 0))
    (hr : ∀ k, k < ds.length → cs.getD (ps.getD k (0, 0)).2 (.num 0) = .num (vs.getD k 0))
    (hd : Distinct ds) (order : List Nat) (ho : Order ds.length order) (m : Mem) (f : Nat → Int) :
    Simultaneous op ds vs m (doAssigns op cs ps order (m, f)).1 ∧
    (List.range ds.length).map (doAssigns op cs ps order (m, f)).2 =
      List.zipWith (fun d v => op (readCell m d) v) ds vs := by
  have hmem : ∀ k, k ∈ order ↔ k < ds.length := fun k => by
    rw [ho.mem_iff]; simp
  have h := doAssigns_num op cs ps ds vs hl hr hd order
    (ho.nodup_iff.mpr List.nodup_range) (fun k hk => (hmem k).mp hk) m f
  refine ⟨⟨?_, ?_⟩, ?_⟩
  · intro i l v hi hv
    have hil : i < ds.length := (List.getElem?_eq_some_iff.mp hi).1
    rw [(h.1 i ((hmem i).mpr hil)).2 l hi]
    simp [List.getD, hv]
  · intro l hnot
    exact h.2.2 l (fun k _ hk => hnot (List.mem_of_getElem? hk))
  · apply List.ext_getElem
    · simp [hlen]
    · intro i h1 h2
      have hil : i < ds.length := by simpa using h1
      simp only [List.getElem_map, List.getElem_range, List.getElem_zipWith]
      rw [(h.1 i ((hmem i).mpr hil)).1]
      have hiv : i < vs.length := by omega
      simp [List.getD, hil, hiv]

theorem initTemps_snoc (ls : List Ex) (r : Ex) (s : St) :
    initTemps (ls ++ [r]) s =
      ((initTemp r (initTemps ls s).1).1, (initTemps ls s).2 ++ [(initTemp r (initTemps ls s).1).2]) := by
  rw [initTemps_append]; simp [initTemps]

def start (w : World) : St := { w := w, cache := fun _ => none }

/-- The components of the left-hand side, as temporaries. -/
theorem lhs_ok (l : Src) (n : Nat) (hn : (expandMember l 0).2 ≤ n) (hl : HasParts l) (w : World) :
    ∃ s, initTemps ((explode (expandMember l 0).1 n).1.map distributeReference) (start w) =
        (s, (places l w).2) ∧ s.w = (places l w).1 ∧
      Kept 0 (expandMember l 0).2 n (explode (expandMember l 0).1 n).2 (start w) s := by
  obtain ⟨s, h1, h2, h3⟩ := (explode_ok l 0 n).2.2 false (start w) hl hn
    (fun _ _ _ => rfl) (fun _ _ => rfl)
  exact ⟨s, by rw [initTemps_lhs]; exact h1, h2, h3⟩

theorem evalList_length (b : Bool) (xs : List Ex) (s : St) :
    (evalList b xs s).2.length = xs.length := by
  induction xs generalizing s with
  | nil => rfl
  | cons x xs ih => simp [evalList, ih]

theorem types_length (e : Src) (a n : Nat) :
    (explode (expandMember e a).1 n).1.length = (types e).length := by
  rw [← explode_types e a n, List.length_map]

mutual
theorem places_length : ∀ (e : Src) (w : World), (places e w).2.length = (types e).length
  | .simple x, w => by simp [places, types]
  | .pick x fs, w => by simp [places, types]
  | .tup es, w => by simp only [places, types]; exact placesAll_length es w
theorem placesAll_length : ∀ (es : List Src) (w : World),
    (placesAll es w).2.length = (typesAll es).length
  | [], w => rfl
  | e :: es, w => by
    simp only [placesAll, typesAll, List.length_append]
    rw [places_length e w, placesAll_length es _]
end

mutual
theorem values_length : ∀ (e : Src) (w : World), (values e w).2.length = (types e).length
  | .simple x, w => by simp [values, types]
  | .pick x fs, w => by simp [values, types]
  | .tup es, w => by simp only [values, types]; exact valuesAll_length es w
theorem valuesAll_length : ∀ (es : List Src) (w : World),
    (valuesAll es w).2.length = (typesAll es).length
  | [], w => rfl
  | e :: es, w => by
    simp only [valuesAll, typesAll, List.length_append]
    rw [values_length e w, valuesAll_length es _]
end

theorem multiple_none (l r : Src) : multiple l r = none ↔ (types l).length ≠ (types r).length := by
  simp only [multiple, multipleMatch, List.length_map, types_length]
  split <;> simp_all

/-- The pairs of a multiple assignment. -/
theorem pairs_multiple (n k : Nat) (h : k < n) :
    ((List.range n).map fun i => (i, n + i)).getD k (0, 0) = (k, n + k) := by
  simp [List.getD, h]

theorem pairs_mass (n k : Nat) (h : k < n) :
    ((List.range n).map fun i => (i, n)).getD k (0, 0) = (k, n) := by
  simp [List.getD, h]

theorem getD_left (ds cs : List Cell) (k : Nat) (h : k < ds.length) (d : Cell) :
    (ds ++ cs).getD k d = ds.getD k d := by
  simp [List.getD, List.getElem?_append_left h]

theorem getD_right (ds : List Cell) (vs : List Int) (k : Nat) (h : k < vs.length) :
    (ds ++ vs.map Cell.num).getD (ds.length + k) (.num 0) = .num (vs.getD k 0) := by
  simp [List.getD, h]

/-- The whole of a multiple assignment, once the right-hand temporaries are known to be values. -/
theorem run_multiple (op : Int → Int → Int) (l r : Src) (hl : HasParts l)
    (hlen : (types l).length = (types r).length) (w w2 : World) (vs : List Int)
    (hrhs : ∀ s : St, s.w = (places l w).1 →
      (∀ k, (expandMember l 0).2 ≤ k → k < (expandMember r (expandMember l 0).2).2 →
        s.cache k = none) →
      (∀ k, (explode (expandMember l 0).1 (expandMember r (expandMember l 0).2).2).2 ≤ k →
        s.cache k = none) →
      ∃ s', initTemps (List.zipWith (fun l r => Ex.cast r (refBase (typeOf l)))
          ((explode (expandMember l 0).1 (expandMember r (expandMember l 0).2).2).1.map
            distributeReference)
          (explode (expandMember r (expandMember l 0).2).1
            (explode (expandMember l 0).1 (expandMember r (expandMember l 0).2).2).2).1) s =
          (s', vs.map Cell.num) ∧ s'.w = w2)
    (hvs : vs.length = (types r).length)
    (hd : Distinct (places l w).2) (order : List Nat) (ho : Order (types l).length order) :
    ∃ a, multiple l r = some a ∧
      (run op a order w).1.log = w2.log ∧
      Simultaneous op (places l w).2 vs w2.mem (run op a order w).1.mem ∧
      (run op a order w).2 =
        List.zipWith (fun d v => op (readCell w2.mem d) v) (places l w).2 vs := by
  have hr0 := (explode_ok r (expandMember l 0).2 0).1
  obtain ⟨s1, e1, w1, k1⟩ := lhs_ok l (expandMember r (expandMember l 0).2).2 hr0 hl w
  have hx := (explode_ok l 0 (expandMember r (expandMember l 0).2).2).2.1
  obtain ⟨s2, e2, hw2⟩ := hrhs s1 w1
    (fun k hk hk' => by rw [k1 k (by omega) (by omega)]; rfl)
    (fun k hk => by rw [k1 k (by omega) (by omega)]; rfl)
  have hll : ((explode (expandMember l 0).1 (expandMember r (expandMember l 0).2).2).1.map
      distributeReference).length = (types l).length := by
    rw [List.length_map, types_length]
  refine ⟨_, by
    simp only [multiple, multipleMatch]
    rw [if_neg]
    rw [hll, types_length, hlen]; simp, ?_⟩
  simp only [run]
  rw [initTemps_append]
  rw [show ({ w := w, cache := fun _ => none } : St) = start w from rfl, e1]
  simp only
  rw [e2]
  simp only [hll, List.length_map, List.length_range]
  have hpl := places_length l w
  have key := doAssigns_sim op ((places l w).2 ++ vs.map Cell.num)
    ((List.range (types l).length).map fun i => (i, (types l).length + i)) (places l w).2 vs
    (by rw [hvs, hpl, hlen])
    (fun k hk => by
      rw [pairs_multiple _ _ (by omega)]; exact getD_left _ _ _ hk _)
    (fun k hk => by
      rw [pairs_multiple _ _ (by omega), ← hpl]; exact getD_right _ _ _ (by omega))
    hd order (by rw [hpl]; exact ho) s2.w.mem (fun _ => 0)
  rw [hw2] at key
  rw [hpl] at key
  exact ⟨by rw [hw2], by rw [hw2]; exact key.1, by rw [hw2]; exact key.2⟩

/-- The whole of a mass assignment. -/
theorem run_mass (op : Int → Int → Int) (l : Src) (r : Simple) (hl : HasParts l)
    (w : World) (hr : Plain (Simple.ty r)) 
    (hd : Distinct (places l w).2) (order : List Nat) (ho : Order (types l).length order) :
    let w2 := (Simple.ev r (places l w).1).1
    let v := readCell w2.mem ((Simple.ev r (places l w).1).2 [])
    (run op (mass l r) order w).1.log = w2.log ∧
      Simultaneous op (places l w).2 (List.replicate (types l).length v) w2.mem
        (run op (mass l r) order w).1.mem ∧
      (run op (mass l r) order w).2 = (places l w).2.map fun d => op (readCell w2.mem d) v := by
  intro w2 v
  obtain ⟨s1, e1, w1, k1⟩ := lhs_ok l (expandMember l 0).2 (Nat.le_refl _) hl w
  have hll : ((explode (expandMember l 0).1 (expandMember l 0).2).1.map
      distributeReference).length = (types l).length := by
    rw [List.length_map, types_length]
  have hr' : isRef (Simple.ty r) = false := hr
  have hv : initTemp (emb r) s1 = ({ s1 with w := w2 }, .num v) := by
    simp only [initTemp, eval_emb, typeOf_emb, hr']
    rw [w1]; rfl
  have hpl := places_length l w
  have key := doAssigns_sim op ((places l w).2 ++ [.num v])
    ((List.range (types l).length).map fun i => (i, (types l).length)) (places l w).2
    (List.replicate (types l).length v)
    (by simp [hpl])
    (fun k hk => by
      rw [pairs_mass _ _ (by omega)]; exact getD_left _ _ _ hk _)
    (fun k hk => by
      rw [pairs_mass _ _ (by omega), ← hpl]
      simp [List.getD, hk])
    hd order (by rw [hpl]; exact ho) w2.mem (fun _ => 0)
  have hz : List.zipWith (fun d v => op (readCell w2.mem d) v) (places l w).2
      (List.replicate (types l).length v) = (places l w).2.map fun d => op (readCell w2.mem d) v := by
    rw [← hpl]
    apply List.ext_getElem <;> simp
  rw [hz, hpl] at key
  simp only [run, mass, massMatch]
  rw [show ({ w := w, cache := fun _ => none } : St) = start w from rfl, initTemps_snoc, e1]
  simp only [hll, List.length_map, List.length_range]
  rw [hv]
  exact ⟨rfl, key.1, key.2⟩

/-- Plain assignment of what a reference refers to: each place gets what was there. -/
theorem doAssigns_ref (cs : List Cell) (ps : List (Nat × Nat)) (ds : List Cell) (c : Cell)
    (v : Int)
    (hl : ∀ k, k < ds.length → cs.getD (ps.getD k (0, 0)).1 (.num 0) = ds.getD k (.num 0))
    (hr : ∀ k, k < ds.length → cs.getD (ps.getD k (0, 0)).2 (.num 0) = c)
    (order : List Nat) (hlt : ∀ k ∈ order, k < ds.length) (m : Mem) (hv : readCell m c = v)
    (f : Nat → Int) :
    let x := doAssigns (fun _ b => b) cs ps order (m, f)
    (∀ k ∈ order, ∀ l, ds[k]? = some (.at l) → x.1 l = v) ∧
    (∀ l, m l = v → x.1 l = v) ∧
    (∀ k, f k = v → x.2 k = v) ∧ (∀ k ∈ order, x.2 k = v) ∧
    ∀ l, Cell.at l ∉ ds → x.1 l = m l := by
  induction order generalizing m f with
  | nil => simp [doAssigns]
  | cons k ks ih =>
    have hk : k < ds.length := hlt k (by simp)
    have hget : ds[k]? = some (ds.getD k (.num 0)) := by simp [List.getD, hk]
    simp only [doAssigns, doAssign]
    rw [hl k hk, hr k hk, hv]
    have hm : ∀ l, m l = v → writeCell m (ds.getD k (.num 0)) v l = v := by
      intro l h
      cases ds.getD k (.num 0) with
      | num n => exact h
      | «at» l' => simp only [writeCell]; split <;> simp [h]
    have hc : readCell (writeCell m (ds.getD k (.num 0)) v) c = v := by
      cases c with
      | num n => exact hv
      | «at» l => exact hm l hv
    obtain ⟨h1, h2, h3, h4, h5⟩ := ih (fun j hj => hlt j (by simp [hj]))
      (writeCell m (ds.getD k (.num 0)) v) hc (fun j => if j = k then v else f j)
    refine ⟨?_, ?_, ?_, ?_, ?_⟩
    · intro j hj l hjl
      rcases List.mem_cons.mp hj with rfl | hj
      · apply h2
        rw [hget] at hjl
        rw [Option.some.inj hjl]
        simp [writeCell]
      · exact h1 j hj l hjl
    · intro l hml; exact h2 l (hm l hml)
    · intro j hj; exact h3 j (by split <;> simp [hj])
    · intro j hj
      rcases List.mem_cons.mp hj with rfl | hj
      · exact h3 j (by simp)
      · exact h4 j hj
    · intro l hl'
      rw [h5 l hl']
      cases hc' : ds.getD k (.num 0) with
      | num n => rfl
      | «at» l' =>
        simp only [writeCell]
        exact if_neg (fun e => hl' (by rw [e, ← hc']; exact List.mem_of_getElem? hget))

theorem run_mass_plain (l : Src) (r : Simple) (hl : HasParts l) (w : World) 
    (order : List Nat) (ho : Order (types l).length order) :
    let w2 := (Simple.ev r (places l w).1).1
    let v := readCell w2.mem ((Simple.ev r (places l w).1).2 [])
    let x := run (fun _ b => b) (mass l r) order w
    x.1.log = w2.log ∧
      (∀ p, Cell.at p ∈ (places l w).2 → x.1.mem p = v) ∧
      (∀ p, Cell.at p ∉ (places l w).2 → x.1.mem p = w2.mem p) ∧
      x.2 = List.replicate (types l).length v := by
  intro w2 v x
  obtain ⟨s1, e1, w1, k1⟩ := lhs_ok l (expandMember l 0).2 (Nat.le_refl _) hl w
  have hll : ((explode (expandMember l 0).1 (expandMember l 0).2).1.map
      distributeReference).length = (types l).length := by
    rw [List.length_map, types_length]
  have hpl := places_length l w
  obtain ⟨c, hv, hc⟩ : ∃ c, initTemp (emb r) s1 = ({ s1 with w := w2 }, c) ∧
      readCell w2.mem c = v := by
    simp only [initTemp, eval_emb, typeOf_emb]
    rw [w1]
    refine ⟨_, rfl, ?_⟩
    split <;> rfl
  have hmem : ∀ k, k ∈ order ↔ k < (types l).length := fun k => by rw [ho.mem_iff]; simp
  have key := doAssigns_ref ((places l w).2 ++ [c])
    ((List.range (types l).length).map fun i => (i, (types l).length)) (places l w).2 c v
    (fun k hk => by
      rw [pairs_mass _ _ (by omega)]; exact getD_left _ _ _ hk _)
    (fun k hk => by
      rw [pairs_mass _ _ (by omega), ← hpl]
      simp [List.getD])
    order (fun k hk => by rw [hpl]; exact (hmem k).mp hk) w2.mem hc (fun _ => 0)
  obtain ⟨h1, _, _, h4, h5⟩ := key
  have hx : x = ({ w2 with mem := (doAssigns (fun _ b => b) ((places l w).2 ++ [c])
      ((List.range (types l).length).map fun i => (i, (types l).length)) order
      (w2.mem, fun _ => 0)).1 },
      (List.range (types l).length).map (doAssigns (fun _ b => b) ((places l w).2 ++ [c])
      ((List.range (types l).length).map fun i => (i, (types l).length)) order
      (w2.mem, fun _ => 0)).2) := by
    simp only [x, run, mass, massMatch]
    rw [show ({ w := w, cache := fun _ => none } : St) = start w from rfl, initTemps_snoc, e1]
    simp only [hll, List.length_map, List.length_range]
    rw [hv]
  rw [hx]
  refine ⟨rfl, ?_, ?_, ?_⟩
  · intro p hp
    obtain ⟨k, hk, hkp⟩ := List.mem_iff_getElem.mp hp
    exact h1 k ((hmem k).mpr (by omega)) p (by rw [List.getElem?_eq_getElem hk, hkp])
  · intro p hp; exact h5 p hp
  · apply List.ext_getElem
    · simp
    · intro i hi _
      simp only [List.getElem_map, List.getElem_range, List.getElem_replicate]
      exact h4 i ((hmem i).mpr (by simpa using hi))

end Verif.Proof.TupleAsg
