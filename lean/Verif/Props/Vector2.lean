import Verif.Proof.Vector2
/-!
C27 (vector with iterators).

Specification: the vector is a list with a capacity; a permit or an exit is a position in the list (an exit may also be at
the origin, before the first element). `length < 2^64`.
-/
namespace Verif.Vector2
open Verif
variable {α : Type}

structure Abs (α : Type) where
  l : List α
  cap : Nat
  /-- positions of the live permits -/
  P : Nat → Option Nat
  /-- positions of the live exits; `some none` is the origin -/
  E : Nat → Option (Option Nat)
  /-- number of live exits -/
  nE : Nat

/-- Capacity after making room for one more element. -/
def roomy (A : Abs α) : Nat := if A.l.length = A.cap then 2 * A.cap else A.cap

/-- Calls and results. `addr` is whatever non-null address the allocator returns. Growing needs a capacity that is not 0;
    adding elements needs that no exit is live; `moveNext` needs a vector that is not full; inserting at position 0
    needs, when it fills the vector, that no permit is live, and inserting needs a non-empty vector (the violations below
    show that the code fails otherwise). -/
inductive Spec (A : Abs α) : Op α → Abs α → Res α → Prop
  | pushLast (x addr) : 0 < addr → 0 < A.cap → A.nE = 0 → A.l.length + 1 < 2 ^ 63 →
      Spec A (.pushLast x addr) { A with l := A.l ++ [x], cap := roomy A } (.num A.l.length)
  | insertBefore (a b : List α) (x addr) : A.l = a ++ b → A.l ≠ [] → 0 < addr → 0 < A.cap → A.nE = 0 → A.l.length + 1 < 2 ^ 63 →
      (a ≠ [] ∨ A.l.length + 1 ≠ roomy A ∨ ∀ i, A.P i = none) →
      Spec A (.insertBefore a.length x addr)
        { A with l := a ++ x :: b, cap := roomy A, P := fun i => (A.P i).map fun k => if a.length ≤ k then k + 1 else k } .unit
  | get (i : Nat) (h : i < A.l.length) : Spec A (.get i) A (.val A.l[i])
  | set (i : Nat) (x) (h : i < A.l.length) : Spec A (.set i x) { A with l := A.l.set i x } .unit
  | length : Spec A .length A (.num A.l.length)
  | capacity : Spec A .capacity A (.num A.cap)
  | permitAt (i k : Nat) : k < A.l.length → Spec A (.permitAt i k) { A with P := upd A.P i (some k) } .unit
  | permitDrop (i) : Spec A (.permitDrop i) { A with P := upd A.P i none } .unit
  | permitVal (i k) (h : k < A.l.length) : A.P i = some k → Spec A (.permitVal i) A (.val A.l[k])
  | origin (i) : A.E i = none → Spec A (.origin i) { A with E := upd A.E i (some none), nE := A.nE + 1 } .unit
  | exitAt (i k : Nat) : A.E i = none → k < A.l.length →
      Spec A (.exitAt i k) { A with E := upd A.E i (some (some k)), nE := A.nE + 1 } .unit
  | exitDrop (i n) : A.nE = n + 1 → (n = 0 → ∀ j, j ≠ i → A.E j = none) →
      Spec A (.exitDrop i) { A with E := upd A.E i none, nE := n } .unit
  | exitVal (i k) (h : k < A.l.length) : A.E i = some (some k) → Spec A (.exitVal i) A (.val A.l[k])
  | moveFirst (i) : A.E i = some none → A.l ≠ [] → A.l.length < A.cap →
      Spec A (.moveNext i) { A with E := upd A.E i (some (some 0)) } (.bool true)
  | moveEmpty (i) : A.E i = some none → A.l = [] → Spec A (.moveNext i) A (.bool false)
  | moveOn (i k) : A.E i = some (some k) → k + 1 < A.l.length → A.l.length < A.cap →
      Spec A (.moveNext i) { A with E := upd A.E i (some (some (k + 1))) } (.bool true)
  | moveLast (i k) : A.E i = some (some k) → k + 1 = A.l.length → A.l.length < A.cap →
      Spec A (.moveNext i) { A with E := upd A.E i (some none) } (.bool false)

inductive SpecRun : Abs α → List (Op α) → Abs α → List (Res α) → Prop
  | nil (A) : SpecRun A [] A []
  | cons (A o A' r os A'' rs) : Spec A o A' r → SpecRun A' os A'' rs → SpecRun A (o :: os) A'' (r :: rs)

/-- The results of a run. -/
def results (o : Outcome (Vec α × List (Res α))) : Option (List (Res α)) :=
  match o with
  | .ret (_, rs) => some rs
  | _ => none

theorem results_some {o : Outcome (Vec α × List (Res α))} {rs : List (Res α)} (h : results o = some rs) : ∃ v, o = .ret (v, rs) := by
  unfold results at h
  split at h
  · next v rs' => exact ⟨v, by simp at h; rw [h]⟩
  · simp at h

/-- A new vector. -/
def Abs.new (cap : Nat) : Abs α := ⟨[], cap, fun _ => none, fun _ => none, 0⟩

structure Inv (v : Vec α) (A : Abs α) : Prop where
  lay : Lay v A.l A.cap
  its : Its v A.l.length A.P A.E A.nE
  fits : A.l.length < 2 ^ 63

theorem step_spec {A A' : Abs α} {o : Op α} {r : Res α} (hs : Spec A o A' r) {v : Vec α} (h : Inv v A) :
    ∃ v', step v o = .ret (v', r) ∧ Inv v' A' := by
  have hL := h.lay
  have hI := h.its
  have hf : A.l.length < 2 ^ 64 := by have := h.fits; omega
  have hle := hL.le
  have hpos := hL.pos
  have hnil : ∀ {k}, k < A.l.length → A.l ≠ [] := by intro k hk e; rw [e] at hk; simp at hk
  cases hs with
  | pushLast x addr ha hc hn hb =>
    rw [hn] at hI
    obtain ⟨v', h1, h2, h3⟩ := pushLast_spec hL hf hc hI ha x
    refine ⟨v', by simp [step, h1], h2, ?_, by simpa using hb⟩
    simp only [hn, List.length_append, List.length_cons, List.length_nil]
    exact h3
  | insertBefore a b x addr hab hne ha hc hn hb hok =>
    rw [hn] at hI
    rw [hab] at hL hI hf hne hok hb
    obtain ⟨v', h1, h2, h3⟩ := insertBefore_spec hL hf hc hI ha x hne (cap' := roomy A) (by rw [← hab]; rfl) hok
    refine ⟨v', by simp [step, h1], h2, ?_, by simp at hb ⊢; omega⟩
    have e : (a ++ x :: b).length = (a ++ b).length + 1 := by simp; omega
    show Its v' (a ++ x :: b).length _ _ A.nE
    rw [hn, e]
    exact h3
  | get i hi =>
    refine ⟨v, ?_, h⟩
    simp [step, get, hL.find (hnil hi) (by omega : i < A.cap) (by omega) (by omega), hL.rd hi]
  | set i x hi =>
    obtain ⟨c, h1, h2⟩ := hL.wr_lt hi x
    refine ⟨{ v with cells := c }, ?_, h2, ?_, by simpa using h.fits⟩
    · simp [step, set, hL.find (hnil hi) (by omega : i < A.cap) (by omega) (by omega), h1]
    · show Its _ (A.l.set i x).length _ _ _
      rw [List.length_set]
      exact ⟨hI.permits, hI.plt, hI.exits, hI.elt, hI.refs, hI.noExit⟩
  | length => exact ⟨v, by rw [step, hL.length], h⟩
  | capacity => exact ⟨v, by rw [step, Vector2.capacity, hL.clen], h⟩
  | permitAt i k hk =>
    refine ⟨{ v with permits := upd v.permits i (some (v.bf + k)) }, ?_, ⟨hL.pos, hL.cells, hL.le, hL.ef, hL.ee⟩, ⟨fun j => ?_, fun j m hm => ?_, hI.exits, hI.elt, hI.refs, hI.noExit⟩, h.fits⟩
    · simp [step, permitAt, hL.find (hnil hk) (by omega : k < A.cap) (by omega) (by omega)]
    · dsimp only
      by_cases hj : j = i
      · subst hj; simp [upd_same]
      · rw [upd_ne _ _ hj, upd_ne _ _ hj]; exact hI.permits j
    · dsimp only at hm
      by_cases hj : j = i
      · subst hj; rw [upd_same] at hm; simp at hm; show m < A.l.length; omega
      · rw [upd_ne _ _ hj] at hm; exact hI.plt j m hm
  | permitDrop i =>
    refine ⟨_, rfl, ⟨hL.pos, hL.cells, hL.le, hL.ef, hL.ee⟩, ⟨fun j => ?_, fun j m hm => ?_, hI.exits, hI.elt, hI.refs, hI.noExit⟩, h.fits⟩
    · dsimp only [permitDrop]
      by_cases hj : j = i
      · subst hj; simp [upd_same]
      · rw [upd_ne _ _ hj, upd_ne _ _ hj]; exact hI.permits j
    · dsimp only at hm
      by_cases hj : j = i
      · subst hj; rw [upd_same] at hm; simp at hm
      · rw [upd_ne _ _ hj] at hm; exact hI.plt j m hm
  | permitVal i k hk hP =>
    refine ⟨v, ?_, h⟩
    have : v.permits i = some (v.bf + k) := by rw [hI.permits i, hP]; rfl
    simp [step, permitVal, this, hL.rd hk]
  | origin i hE =>
    refine ⟨_, rfl, ⟨hL.pos, hL.cells, hL.le, hL.ef, hL.ee⟩, ⟨hI.permits, hI.plt, fun j => ?_, fun j m hm => ?_, ?_, fun e => by simp at e⟩, h.fits⟩
    · dsimp only [origin]
      by_cases hj : j = i
      · subst hj; simp [upd_same]
      · rw [upd_ne _ _ hj, upd_ne _ _ hj]; exact hI.exits j
    · dsimp only at hm
      by_cases hj : j = i
      · subst hj; rw [upd_same] at hm; simp at hm
      · rw [upd_ne _ _ hj] at hm; exact hI.elt j m hm
    · show v.refs + 1 = _; rw [hI.refs]
  | exitAt i k hE hk =>
    refine ⟨{ v with exits := upd v.exits i (some (v.bf + k)), refs := v.refs + 1 }, ?_, ⟨hL.pos, hL.cells, hL.le, hL.ef, hL.ee⟩, ⟨hI.permits, hI.plt, fun j => ?_, fun j m hm => ?_, ?_, fun e => by simp at e⟩, h.fits⟩
    · simp [step, exitAt, hL.find (hnil hk) (by omega : k < A.cap) (by omega) (by omega)]
    · dsimp only
      by_cases hj : j = i
      · subst hj; simp [upd_same]
      · rw [upd_ne _ _ hj, upd_ne _ _ hj]; exact hI.exits j
    · dsimp only at hm
      by_cases hj : j = i
      · subst hj; rw [upd_same] at hm; simp at hm; show m < A.l.length; omega
      · rw [upd_ne _ _ hj] at hm; exact hI.elt j m hm
    · show v.refs + 1 = _; rw [hI.refs]
  | exitDrop i n hn hlast =>
    refine ⟨_, rfl, ⟨hL.pos, hL.cells, hL.le, hL.ef, hL.ee⟩, ⟨hI.permits, hI.plt, fun j => ?_, fun j m hm => ?_, ?_, fun e j => ?_⟩, h.fits⟩
    · dsimp only [exitDrop]
      by_cases hj : j = i
      · subst hj; simp [upd_same]
      · rw [upd_ne _ _ hj, upd_ne _ _ hj]; exact hI.exits j
    · dsimp only at hm
      by_cases hj : j = i
      · subst hj; rw [upd_same] at hm; simp at hm
      · rw [upd_ne _ _ hj] at hm; exact hI.elt j m hm
    · show v.refs - 1 = n
      rw [hI.refs, hn]; rfl
    · dsimp only
      by_cases hj : j = i
      · subst hj; rw [upd_same]
      · rw [upd_ne _ _ hj]; exact hlast e j hj
  | exitVal i k hk hE =>
    refine ⟨v, ?_, h⟩
    have : v.exits i = some (v.bf + k) := by rw [hI.exits i, hE]; rfl
    simp [step, exitVal, this, hL.rd hk]
  | moveFirst i hE hl hlt =>
    have hx : v.exits i = some 0 := by rw [hI.exits i, hE]; rfl
    have hpl : 0 < A.l.length := List.length_pos_of_ne_nil hl
    have hef : v.ef = v.bf := by rw [hL.ef, if_neg hl]
    have hee : v.ee = v.bf + A.l.length := by rw [hL.ee, if_neg (by omega)]
    refine ⟨{ v with exits := upd v.exits i (some v.bf) }, ?_, ⟨hL.pos, hL.cells, hL.le, hL.ef, hL.ee⟩, ⟨hI.permits, hI.plt, fun j => ?_, fun j m hm => ?_, hI.refs, fun e => ?_⟩, h.fits⟩
    · simp only [step, moveNext, hx, hef, hee]
      rw [if_neg (by omega), if_neg (by omega)]
      simp only [if_true]
      rw [if_neg (by omega)]; rfl
    · dsimp only
      by_cases hj : j = i
      · subst hj; simp [upd_same]
      · rw [upd_ne _ _ hj, upd_ne _ _ hj]; exact hI.exits j
    · dsimp only at hm
      by_cases hj : j = i
      · subst hj; rw [upd_same] at hm; simp at hm; show m < A.l.length; omega
      · rw [upd_ne _ _ hj] at hm; exact hI.elt j m hm
    · have := hI.noExit e i; rw [hE] at this; simp at this
  | moveEmpty i hE hl =>
    have hx : v.exits i = some 0 := by rw [hI.exits i, hE]; rfl
    refine ⟨v, ?_, h⟩
    simp [step, moveNext, hx, hL.ef, hl]
  | moveOn i k hE hk hlt =>
    have hx : v.exits i = some (v.bf + k) := by rw [hI.exits i, hE]; rfl
    have hl : A.l ≠ [] := hnil hk
    have hef : v.ef = v.bf := by rw [hL.ef, if_neg hl]
    have hee : v.ee = v.bf + A.l.length := by rw [hL.ee, if_neg (by omega)]
    refine ⟨{ v with exits := upd v.exits i (some (v.bf + (k + 1))) }, ?_, ⟨hL.pos, hL.cells, hL.le, hL.ef, hL.ee⟩, ⟨hI.permits, hI.plt, fun j => ?_, fun j m hm => ?_, hI.refs, fun e => ?_⟩, h.fits⟩
    · have hit : (if v.bf + k = 0 then v.bf else if v.bf + k + 1 > v.bf + A.cap then v.bf else v.bf + k + 1) = v.bf + (k + 1) := by
        rw [if_neg (by omega), if_neg (by omega)]; rfl
      simp only [step, moveNext, hx, hef, hee, hL.be, hit]
      rw [if_neg (by omega), if_neg (by omega), if_neg (by omega)]; rfl
    · dsimp only
      by_cases hj : j = i
      · subst hj; simp [upd_same]
      · rw [upd_ne _ _ hj, upd_ne _ _ hj]; exact hI.exits j
    · dsimp only at hm
      by_cases hj : j = i
      · subst hj; rw [upd_same] at hm; simp at hm; show m < A.l.length; omega
      · rw [upd_ne _ _ hj] at hm; exact hI.elt j m hm
    · have := hI.noExit e i; rw [hE] at this; simp at this
  | moveLast i k hE hk hlt =>
    have hx : v.exits i = some (v.bf + k) := by rw [hI.exits i, hE]; rfl
    have hl : A.l ≠ [] := hnil (by omega : k < _)
    have hef : v.ef = v.bf := by rw [hL.ef, if_neg hl]
    have hee : v.ee = v.bf + A.l.length := by rw [hL.ee, if_neg (by omega)]
    refine ⟨{ v with exits := upd v.exits i (some 0) }, ?_, ⟨hL.pos, hL.cells, hL.le, hL.ef, hL.ee⟩, ⟨hI.permits, hI.plt, fun j => ?_, fun j m hm => ?_, hI.refs, fun e => ?_⟩, h.fits⟩
    · have hit : (if v.bf + k = 0 then v.bf else if v.bf + k + 1 > v.bf + A.cap then v.bf else v.bf + k + 1) = v.bf + (k + 1) := by
        rw [if_neg (by omega), if_neg (by omega)]; rfl
      simp only [step, moveNext, hx, hef, hee, hL.be, hit]
      rw [if_neg (by omega), if_neg (by omega), if_pos (by omega)]; rfl
    · dsimp only
      by_cases hj : j = i
      · subst hj; simp [upd_same]
      · rw [upd_ne _ _ hj, upd_ne _ _ hj]; exact hI.exits j
    · dsimp only at hm
      by_cases hj : j = i
      · subst hj; rw [upd_same] at hm; simp at hm
      · rw [upd_ne _ _ hj] at hm; exact hI.elt j m hm
    · have := hI.noExit e i; rw [hE] at this; simp at this

theorem run_spec {A A' : Abs α} {os : List (Op α)} {rs : List (Res α)} (h : SpecRun A os A' rs) :
    ∀ v, Inv v A → ∃ v', run v os = .ret (v', rs) ∧ Inv v' A' := by
  induction h with
  | nil A => exact fun v hv => ⟨v, rfl, hv⟩
  | cons A o A' r os A'' rs h1 _ ih =>
    intro v hv
    obtain ⟨v', h2, h3⟩ := step_spec h1 hv
    obtain ⟨v'', h4, h5⟩ := ih v' h3
    exact ⟨v'', by simp [run, h2, h4], h5⟩

theorem make_inv {addr cap : Nat} (ha : 0 < addr) : Inv (make addr cap : Vec α) (Abs.new cap) := by
  refine ⟨⟨ha, by simp [make, Abs.new], by simp [Abs.new], by simp [make, Abs.new], ?_⟩, ⟨fun _ => rfl, ?_, fun _ => rfl, ?_, rfl, fun _ _ => rfl⟩, by simp [Abs.new]⟩
  · show addr = if _ then addr else addr + 0
    split <;> rfl
  · intro i k h; simp [Abs.new] at h
  · intro i k h; simp [Abs.new] at h

/-- Every history of calls within `Spec` behaves as on lists: elements are found by index, permits keep designating their
    element through growth and insertion (wherever new buffers are allocated), exits traverse all elements in order. -/
theorem C27_vector_is_list_partial (addr cap : Nat) (ha : 0 < addr) (os : List (Op α)) (A : Abs α) (rs : List (Res α))
    (h : SpecRun (Abs.new cap) os A rs) : ∃ v, run (make addr cap) os = .ret (v, rs) := by
  obtain ⟨v, h1, _⟩ := run_spec h _ (make_inv ha)
  exact ⟨v, h1⟩

/-- Adding an element while an exit is live is always reported. -/
theorem C27_exit_blocks_growth (addr cap : Nat) (ha : 0 < addr) (os : List (Op α)) (A : Abs α) (rs : List (Res α))
    (h : SpecRun (Abs.new cap) os A rs) (hn : A.nE ≠ 0) (x : α) (idx : Int) (addr' : Nat) :
    ∃ v, run (make addr cap) os = .ret (v, rs) ∧ pushLast v x addr' = .abort ∧ insertBefore v idx x addr' = .abort := by
  obtain ⟨v, h1, h2⟩ := run_spec h _ (make_inv ha)
  have : v.refs ≠ 0 := by rw [h2.its.refs]; exact hn
  exact ⟨v, h1, by simp [pushLast, ensure, this], by simp [insertBefore, ensure, this]⟩

/-- `v[length]` is not reported: in every reachable non-empty vector that is not full it reads a cell that holds no
    element. -/
theorem C27_index_violated (addr cap : Nat) (ha : 0 < addr) (os : List (Op α)) (A : Abs α) (rs : List (Res α))
    (h : SpecRun (Abs.new cap) os A rs) (hl : A.l ≠ []) (hc : A.l.length < A.cap) :
    ∃ v, run (make addr cap) os = .ret (v, rs) ∧ get v A.l.length = .undef := by
  obtain ⟨v, h1, h2⟩ := run_spec h _ (make_inv ha)
  have hf := h2.fits
  refine ⟨v, h1, ?_⟩
  rw [get, h2.lay.find hl hc (Nat.le_refl _) (by omega), Outcome.bind_ret]
  exact h2.lay.rd_none (Nat.le_refl _)

/-- Traversing a full vector aborts, in every reachable full vector. -/
theorem C27_full_traversal_violated (addr cap : Nat) (ha : 0 < addr) (os : List (Op α)) (A : Abs α) (rs : List (Res α))
    (h : SpecRun (Abs.new cap) os A rs) (hl : A.l ≠ []) (hc : A.l.length = A.cap) (i : Nat) :
    ∃ v, run (make addr cap) os = .ret (v, rs) ∧ moveNext (origin v i) i = .abort := by
  obtain ⟨v, h1, h2⟩ := run_spec h _ (make_inv ha)
  have hef : v.ef = v.bf := by rw [h2.lay.ef, if_neg hl]
  have hee : v.ee = v.bf := by rw [h2.lay.ee, if_pos hc]
  have hpos := h2.lay.pos
  refine ⟨v, h1, ?_⟩
  simp [moveNext, origin, upd_same, hef, hee]
  omega

/-- Inserting into an empty vector is undefined behaviour (unless no capacity was reserved, when it aborts). -/
theorem C27_insert_empty_violated (addr cap : Nat) (ha : 0 < addr) (hc : 0 < cap) (x : α) (addr' : Nat) :
    insertBefore (make addr cap) 0 x addr' = .undef := by
  have hE : ensure (make addr cap : Vec α) addr' = .ret (make addr cap) := by
    have : ¬ cap = 0 := by omega
    simp [ensure, make, length, capacity, this]
  have hF : find (make addr cap : Vec α) 0 = .ret 0 := by
    unfold find
    have : reduce (length (make addr cap : Vec α)) ((0 : Int) % 2 ^ 64).toNat = .ret 0 := reduce_le (by simp)
    rw [this, Outcome.bind_ret]
    simp [make, be]; omega
  unfold insertBefore
  rw [hE, Outcome.bind_ret, hF, Outcome.bind_ret, if_neg (by simp)]
  obtain ⟨m, hm⟩ : ∃ m, addr = m + 1 := ⟨addr - 1, by omega⟩
  have : bubble ((make addr cap : Vec α).ee - 0) (make addr cap : Vec α).ee (make addr cap : Vec α) = .undef := by
    simp only [make, hm, Nat.sub_zero, bubble]
    have : rd (⟨m + 1, List.replicate cap none, 0, m + 1, 0, fun _ => none, fun _ => none⟩ : Vec α) (m + 1 - 1) = .undef := by
      unfold rd; rw [if_neg (by simp)]
    rw [this]; rfl
  rw [this]; rfl

/-- Pushing onto a vector created with capacity 0 aborts. -/
theorem C27_capacity_zero_violated (addr : Nat) (x : α) (addr' : Nat) : pushLast (make addr 0) x addr' = .abort := by
  simp [pushLast, ensure, make, length, capacity, grow, copyLoop, be]

/-- A permit on the first element of a vector of three; inserting a fourth element before it, which fills the vector, leaves
    the permit on the new element. -/
theorem C27_permit_violated : ∃ v : Vec Nat,
    run (make 100 4) [.pushLast 10 1, .pushLast 11 1, .pushLast 12 1, .permitAt 0 0, .permitVal 0, .insertBefore 0 9 1,
        .permitVal 0, .get 0, .get 1] =
      .ret (v, [.num 0, .num 1, .num 2, .unit, .val 10, .unit, .val 9, .val 9, .val 10]) := by
  have h : results (run (make 100 4 : Vec Nat) [.pushLast 10 1, .pushLast 11 1, .pushLast 12 1, .permitAt 0 0, .permitVal 0, .insertBefore 0 9 1,
        .permitVal 0, .get 0, .get 1]) = some [.num 0, .num 1, .num 2, .unit, .val 10, .unit, .val 9, .val 9, .val 10] := by decide +kernel
  exact results_some h

/-- `v[-1]` is not the last element: in every reachable vector of three elements that is not full it reads a cell that holds
    no element. -/
theorem C27_negative_violated (addr cap : Nat) (ha : 0 < addr) (os : List (Op α)) (A : Abs α) (rs : List (Res α))
    (h : SpecRun (Abs.new cap) os A rs) (hl : A.l.length = 3) (hc : 3 < A.cap) :
    ∃ v, run (make addr cap) os = .ret (v, rs) ∧ get v (-1) = .undef := by
  obtain ⟨v, h1, h2⟩ := run_spec h _ (make_inv ha)
  refine ⟨v, h1, ?_⟩
  have hne : A.l ≠ [] := by intro e; rw [e] at hl; simp at hl
  have e : ((-1 : Int) % 2 ^ 64).toNat = 2 ^ 64 - 1 := by decide +kernel
  have e2 : (2 ^ 64 - 1 - 1) % 3 + 1 = 3 := by decide +kernel
  have hF : find v (-1) = .ret (v.bf + 3) := by
    unfold find
    rw [e, h2.lay.length, hl, reduce_mod (by omega) _ (by omega), e2, Outcome.bind_ret, h2.lay.ef, if_neg hne, h2.lay.be]
    simp [hc]
  rw [get, hF, Outcome.bind_ret]
  exact h2.lay.rd_none (by omega)

/-- A history meeting the hypotheses: growth with a live permit, insertion before it, traversal. -/
example : ∃ A, SpecRun (Abs.new 2) [.pushLast 10 50, .pushLast 11 50, .permitAt 7 1, .pushLast 12 50, .permitVal 7, .insertBefore 1 20 90,
      .permitVal 7, .pushLast 13 90, .origin 3, .moveNext 3, .exitVal 3] A
    [.num 0, .num 1, .unit, .num 2, .val 11, .unit, .val 11, .num 4, .unit, .bool true, .val 10] :=
  ⟨_, .cons _ _ _ _ _ _ _ (.pushLast 10 50 (by decide) (by decide) rfl (by decide)) <|
    .cons _ _ _ _ _ _ _ (.pushLast 11 50 (by decide) (by decide) rfl (by decide)) <|
    .cons _ _ _ _ _ _ _ (.permitAt 7 1 (by decide)) <|
    .cons _ _ _ _ _ _ _ (.pushLast 12 50 (by decide) (by decide) rfl (by decide)) <|
    .cons _ _ _ _ _ _ _ (.permitVal 7 1 (by decide) rfl) <|
    .cons _ _ _ _ _ _ _ (.insertBefore [10] [11, 12] 20 90 rfl (by decide) (by decide) (by decide) rfl (by decide) (.inl (by decide))) <|
    .cons _ _ _ _ _ _ _ (.permitVal 7 2 (by decide) rfl) <|
    .cons _ _ _ _ _ _ _ (.pushLast 13 90 (by decide) (by decide) rfl (by decide)) <|
    .cons _ _ _ _ _ _ _ (.origin 3 rfl) <|
    .cons _ _ _ _ _ _ _ (.moveFirst 3 rfl (by decide) (by decide)) <|
    .cons _ _ _ _ _ _ _ (.exitVal 3 0 (by decide) rfl) <| .nil _⟩

end Verif.Vector2
