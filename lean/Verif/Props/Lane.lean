import Verif.Proof.Lane
/-!
C23: a lane of the ready queue is a FIFO of threads.

Specification: each lane holds a list of (thread, time of its push), oldest first.
-/
namespace Verif.Lane
open Verif

/-- `H` says which addresses are lanes. A thread pushed is on no lane; the clock never reads 0 or MAX; `pop` is called on
    a lane that is not empty. The stamp of a lane is the time its oldest thread was pushed, MAX if it has none. -/
inductive Spec (H : Nat → Bool) (A : Nat → List (Nat × Nat)) : Op → (Nat → List (Nat × Nat)) → Res → Prop
  | push (now q n) : H q = true → n ≠ 0 → H n = false → (∀ q' t, (n, t) ∉ A q') → now ≠ 0 → now ≠ 2 ^ 64 - 1 →
      Spec H A (.push now q n) (upd A q (A q ++ [(n, now)])) .unit
  | popLast (q n t) : H q = true → A q = [(n, t)] → Spec H A (.pop q) (upd A q []) (.popped n (2 ^ 64 - 1))
  | pop (q n t m u l) : H q = true → A q = (n, t) :: (m, u) :: l → Spec H A (.pop q) (upd A q ((m, u) :: l)) (.popped n u)
  | isEmpty (q) : H q = true → Spec H A (.isEmpty q) A (.bool (A q).isEmpty)
  | tsEmpty (q) : H q = true → A q = [] → Spec H A (.ts q) A (.stamp (2 ^ 64 - 1))
  | ts (q n t l) : H q = true → A q = (n, t) :: l → Spec H A (.ts q) A (.stamp t)

inductive SpecRun (H : Nat → Bool) : (Nat → List (Nat × Nat)) → List Op → (Nat → List (Nat × Nat)) → List Res → Prop
  | nil (A) : SpecRun H A [] A []
  | cons (A o A' r os A'' rs) : Spec H A o A' r → SpecRun H A' os A'' rs → SpecRun H A (o :: os) A'' (r :: rs)

theorem step_spec {H : Nat → Bool} {A A' : Nat → List (Nat × Nat)} {o : Op} {r : Res} (hs : Spec H A o A' r) {s : St}
    (h : Inv H s A) (dbg : Bool) : ∃ s', step dbg s o = .ret (s', r) ∧ Inv H s' A' := by
  cases hs with
  | push now q n hq hn hnH hu h0 hm =>
    obtain ⟨s', h1, h2⟩ := push_spec h hq hn hnH (by
      intro q' hm'
      simp only [threads, List.mem_map] at hm'
      obtain ⟨p, hp, e⟩ := hm'
      exact hu q' p.2 (by rw [← e]; exact hp)) h0 hm dbg
    exact ⟨s', by simp [step, h1], h2⟩
  | popLast q n t hq hA =>
    obtain ⟨s', h1, h2⟩ := pop_spec h hq hA dbg
    exact ⟨s', by simp [step, h1, MAX], h2⟩
  | pop q n t m u l hq hA =>
    obtain ⟨s', h1, h2⟩ := pop_spec h hq hA dbg
    exact ⟨s', by simp [step, h1], h2⟩
  | isEmpty q hq =>
    refine ⟨s, ?_, h⟩
    have := (chain_head h hq).1
    cases hA : A q with
    | nil => rw [hA] at this; simp at this; simp [step, Lane.isEmpty, this]
    | cons p l => rw [hA] at this; simp at this; simp [step, Lane.isEmpty, this, (head_ne h hA).1]
  | tsEmpty q hq hA =>
    refine ⟨s, ?_, h⟩
    have := (chain_head h hq).2
    rw [hA] at this; simp at this
    simp [step, Lane.ts, this, verify, MAX]
  | ts q n t l hq hA =>
    refine ⟨s, ?_, h⟩
    have := (chain_head h hq).2
    rw [hA] at this; simp at this
    have := (head_ne h hA).2.1
    simp at this
    simp [step, Lane.ts, *, verify]

/-- Every history of pushes, pops, emptiness tests and stamp reads, on any number of lanes, with any clock readings,
    returns what it returns on FIFO lists, with every check satisfied. In particular the stamp is MAX exactly when the
    lane is empty, since the clock never reads MAX. -/
theorem C23_lane_is_fifo (H : Nat → Bool) (os : List Op) (A : Nat → List (Nat × Nat)) (rs : List Res)
    (h : SpecRun H (fun _ => []) os A rs) (dbg : Bool) : ∃ s, run dbg init os = .ret (s, rs) := by
  have gen : ∀ (A0 A1 : Nat → List (Nat × Nat)) (os : List Op) (rs : List Res), SpecRun H A0 os A1 rs → ∀ s, Inv H s A0 →
      ∃ s', run dbg s os = .ret (s', rs) := by
    intro A0 A1 os rs h
    induction h with
    | nil A => exact fun s _ => ⟨s, rfl⟩
    | cons A o A' r os A'' rs h1 _ ih =>
      intro s hs
      obtain ⟨s', h2, h3⟩ := step_spec h1 hs dbg
      obtain ⟨s'', h4⟩ := ih s' h3
      exact ⟨s'', by simp [run, h2, h4]⟩
  refine gen _ _ _ _ h init ?_
  constructor <;> simp [init, Chain, lastOf, threads]

/-- Popping an empty lane fails its check, in every reachable state. -/
theorem C23_pop_empty_checked (H : Nat → Bool) (os : List Op) (A : Nat → List (Nat × Nat)) (rs : List Res)
    (h : SpecRun H (fun _ => []) os A rs) :
    ∃ s, run true init os = .ret (s, rs) ∧ ∀ q, H q = true → A q = [] → pop true s q = .abort := by
  have gen : ∀ (A0 A1 : Nat → List (Nat × Nat)) (os : List Op) (rs : List Res), SpecRun H A0 os A1 rs → ∀ s, Inv H s A0 →
      ∃ s', run true s os = .ret (s', rs) ∧ Inv H s' A1 := by
    intro A0 A1 os rs h
    induction h with
    | nil A => exact fun s hs => ⟨s, rfl, hs⟩
    | cons A o A' r os A'' rs h1 _ ih =>
      intro s hs
      obtain ⟨s', h2, h3⟩ := step_spec h1 hs true
      obtain ⟨s'', h4, h5⟩ := ih s' h3
      exact ⟨s'', by simp [run, h2, h4], h5⟩
  obtain ⟨s, h1, h2⟩ := gen _ _ _ _ h init (by constructor <;> simp [init, Chain, lastOf, threads])
  refine ⟨s, h1, fun q hq hA => ?_⟩
  have := (chain_head h2 hq).1
  rw [hA] at this; simp at this
  simp [pop, verify, this]

example : ∃ A, SpecRun (fun q => q == 1 || q == 2) (fun _ => [])
    [.push 100 1 10, .push 107 1 11, .push 109 2 12, .ts 1, .pop 1, .pop 1, .isEmpty 1, .ts 1, .push 120 1 10, .ts 1, .pop 2] A
    [.unit, .unit, .unit, .stamp 100, .popped 10 107, .popped 11 (2 ^ 64 - 1), .bool true, .stamp (2 ^ 64 - 1), .unit,
      .stamp 120, .popped 12 (2 ^ 64 - 1)] :=
  ⟨_, .cons _ _ _ _ _ _ _ (.push 100 1 10 rfl (by decide) rfl (by simp) (by decide) (by decide)) <|
    .cons _ _ _ _ _ _ _ (.push 107 1 11 rfl (by decide) rfl (by intro q t; simp only [upd_apply]; split <;> simp) (by decide) (by decide)) <|
    .cons _ _ _ _ _ _ _ (.push 109 2 12 rfl (by decide) rfl (by intro q t; simp only [upd_apply]; split <;> simp) (by decide) (by decide)) <|
    .cons _ _ _ _ _ _ _ (.ts 1 10 100 [(11, 107)] rfl (by simp [upd])) <|
    .cons _ _ _ _ _ _ _ (.pop 1 10 100 11 107 [] rfl (by simp [upd])) <|
    .cons _ _ _ _ _ _ _ (.popLast 1 11 107 rfl (by simp [upd])) <|
    .cons _ _ _ _ _ _ _ (.isEmpty 1 rfl) <|
    .cons _ _ _ _ _ _ _ (.tsEmpty 1 rfl (by simp [upd])) <|
    .cons _ _ _ _ _ _ _ (.push 120 1 10 rfl (by decide) rfl (by intro q t; simp only [upd_apply]; split <;> (try split) <;> simp) (by decide) (by decide)) <|
    .cons _ _ _ _ _ _ _ (.ts 1 10 120 [] rfl (by simp [upd])) <|
    .cons _ _ _ _ _ _ _ (.popLast 2 12 109 rfl (by simp [upd])) <| .nil _⟩

end Verif.Lane
