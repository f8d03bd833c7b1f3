import Mathlib.Tactic.ByContra
import Verif.Model.ActorCount
/-! C79: `actor_stop` waits for all actors. -/
namespace Verif.ActorCount
open Verif

/-- The rule under which the property holds: at least one actor is created before `actor_stop`, and no actor is created once all
    the actors have terminated. -/
def Rule (s : State) : Act → Prop
  | .create _ => s.made = 0 ∨ s.alive ≠ []
  | .stop => 0 < s.made
  | _ => True

instance (s : State) (a : Act) : Decidable (Rule s a) := by cases a <;> unfold Rule <;> infer_instance

def nextR (s : State) (a : Act) : Option State := if Rule s a then next s a else none

structure Inv (s : State) : Prop where
  ab : s.aborted = false
  num : s.num = s.alive.length
  none : s.made = 0 → s.alive = [] ∧ s.ticket = 0 ∧ s.main = .running ∧ s.waking = 0
  some : s.alive ≠ [] → s.waking = 0 ∧ ((s.main = .running ∧ s.ticket = 0) ∨ (s.main = .parked ∧ s.ticket = -1))
  last : s.alive = [] → 0 < s.made →
    (s.waking = 1 ∧ ((s.main = .running ∧ s.ticket = 0) ∨ (s.main = .parked ∧ s.ticket = -1))) ∨
    (s.waking = 0 ∧ ((s.main = .running ∧ s.ticket = 1) ∨ s.main = .stopped))

theorem Inv.reach {s : State} (h : Reach nextR start s) : Inv s := by
  induction h with
  | init => constructor <;> simp [start]
  | @step s s' a _ hn ih =>
    unfold nextR at hn
    by_cases hr : Rule s a
    case neg => rw [if_neg hr] at hn; cases hn
    rw [if_pos hr] at hn
    obtain ⟨i1, i2, i3, i4, i5⟩ := ih
    cases a with
    | create a =>
      simp only [next] at hn; split at hn
      · next hc =>
        cases hn
        simp only [Rule] at hr
        refine ⟨i1, ?_, ?_, ?_, ?_⟩
        · simp only [List.length_cons]; omega
        · simp
        · intro _
          rcases hr with h | h
          · have := i3 h; exact ⟨this.2.2.2, Or.inl ⟨this.2.2.1, this.2.1⟩⟩
          · exact i4 h
        · simp
      · cases hn
    | die a =>
      simp only [next] at hn; split at hn
      · next hc =>
        cases hn
        have hne : s.alive ≠ [] := by intro h; rw [h] at hc; cases hc.2
        have hpos : 0 < s.alive.length := List.length_pos_iff.2 hne
        have hmade : s.made ≠ 0 := fun h => hne (i3 h).1
        have hlen : (s.alive.erase a).length = s.alive.length - 1 := List.length_erase_of_mem hc.2
        have h4 := i4 hne
        refine ⟨i1, by simp only [hlen]; omega, fun h => (hmade h).elim, ?_, ?_⟩
        · intro h
          have : 0 < (s.alive.erase a).length := List.length_pos_iff.2 h
          simp only
          rw [if_neg (by omega)]; exact h4
        · intro h _
          simp only at h
          have h0 : (s.alive.erase a).length = 0 := by rw [h]; rfl
          simp only
          rw [if_pos (by omega)]
          exact Or.inl ⟨by omega, h4.2⟩
      · cases hn
    | wake =>
      simp only [next] at hn; split at hn
      · next hc =>
        cases hn
        have hal : s.alive = [] := by
          by_contra h; have := (i4 h).1; omega
        have hmade : 0 < s.made := by
          rcases Nat.eq_zero_or_pos s.made with h | h
          · have := (i3 h).2.2.2; omega
          · exact h
        rcases i5 hal hmade with ⟨h1, ⟨h2, h3⟩ | ⟨h2, h3⟩⟩ | ⟨h1, _⟩
        · have : unpark s = { s with ticket := 1 } := by unfold unpark; rw [if_pos h3]
          rw [this]
          exact ⟨i1, i2, fun h => by simp only at h; omega, fun h => (h hal).elim, fun _ _ => Or.inr ⟨by simp only; omega, Or.inl ⟨h2, rfl⟩⟩⟩
        · have : unpark s = { s with ticket := 0, main := .stopped } := by
            unfold unpark; rw [if_neg (by omega), if_pos h3]
          rw [this]
          exact ⟨i1, i2, fun h => by simp only at h; omega, fun h => (h hal).elim, fun _ _ => Or.inr ⟨by simp only; omega, Or.inr rfl⟩⟩
        · omega
      · cases hn
    | stop =>
      simp only [Rule] at hr
      simp only [next] at hn; split at hn
      · next hc =>
        by_cases hal : s.alive = []
        · rcases i5 hal hr with ⟨h1, ⟨h2, h3⟩ | ⟨h2, h3⟩⟩ | ⟨h1, ⟨h2, h3⟩ | h2⟩
          · rw [if_neg (by omega)] at hn; cases hn
            exact ⟨i1, i2, fun h => by simp only at h; omega, fun h => (h hal).elim, fun _ _ => Or.inl ⟨h1, Or.inr ⟨rfl, rfl⟩⟩⟩
          · rw [hc.2] at h2; cases h2
          · rw [if_pos h3] at hn; cases hn
            exact ⟨i1, i2, fun h => by simp only at h; omega, fun h => (h hal).elim, fun _ _ => Or.inr ⟨h1, Or.inr rfl⟩⟩
          · rw [hc.2] at h2; cases h2
        · obtain ⟨h1, ⟨h2, h3⟩ | ⟨h2, h3⟩⟩ := i4 hal
          · rw [if_neg (by omega)] at hn; cases hn
            exact ⟨i1, i2, fun h => by simp only at h; omega, fun _ => ⟨h1, Or.inr ⟨rfl, rfl⟩⟩, fun h => (hal h).elim⟩
          · rw [hc.2] at h2; cases h2
      · cases hn

/-- `actor_stop` gets past its `park` only when every actor that was created has terminated, and nothing aborts. What is missing: programs
    that create an actor after all earlier ones have terminated, or none at all, for which this is false. -/
theorem C79_stop_partial {s : State} (h : Reach nextR start s) : s.aborted = false ∧ (s.main = .stopped → s.alive = [] ∧ 0 < s.made) := by
  have iv := Inv.reach h
  refine ⟨iv.ab, fun hm => ?_⟩
  have hal : s.alive = [] := by
    by_contra hne
    obtain ⟨_, h1 | h1⟩ := iv.some hne <;> rw [hm] at h1 <;> cases h1.1
  refine ⟨hal, ?_⟩
  rcases Nat.eq_zero_or_pos s.made with h0 | h0
  · have := (iv.none h0).2.2.1; rw [hm] at this; cases this
  · exact h0

/-- When every actor has terminated, a blocked `actor_stop` is woken: the wake-up is on its way, and it ends the `park`. -/
theorem C79_returns_partial {s : State} (h : Reach nextR start s) (hp : s.main = .parked) (ha : s.alive = []) :
    ∃ s', nextR s .wake = some s' ∧ s'.main = .stopped := by
  have iv := Inv.reach h
  have hm : 0 < s.made := by
    rcases Nat.eq_zero_or_pos s.made with h0 | h0
    · have := (iv.none h0).2.2.1; rw [hp] at this; cases this
    · exact h0
  rcases iv.last ha hm with ⟨h1, ⟨h2, h3⟩ | ⟨h2, h3⟩⟩ | ⟨h1, ⟨h2, h3⟩ | h2⟩
  · rw [hp] at h2; cases h2
  · refine ⟨{ unpark s with waking := s.waking - 1 }, ?_, ?_⟩
    · simp [nextR, Rule, next, iv.ab, h1]
    · unfold unpark; rw [if_neg (by omega), if_pos h3]
  · rw [hp] at h2; cases h2
  · rw [hp] at h2; cases h2

/-- An actor terminates before the next one is created: `actor_stop` does not wait for the second one. -/
theorem C79_early_violated : ∃ s, exec next start [.create 1, .die 1, .wake, .create 2, .stop] = some s ∧ s.main = .stopped ∧ s.alive = [2] :=
  ⟨_, rfl, by decide, by decide⟩

/-- Two actors, one after the other, terminate before `actor_stop`: the program aborts. -/
theorem C79_abort_violated : ∃ s, exec next start [.create 1, .die 1, .wake, .create 2, .die 2, .wake] = some s ∧ s.aborted = true ∧ s.alive = [] :=
  ⟨_, rfl, by decide, by decide⟩

/-- `actor_stop` without any actor: it blocks, and nothing but the creation of an actor, which its caller can no longer do, goes on. -/
theorem C79_no_actor_violated : ∃ s, exec next start [.stop] = Option.some s ∧ s.main = .parked ∧ s.alive = [] ∧
    ∀ a, (∀ n, a ≠ .create n) → next s a = none := by
  refine ⟨_, rfl, by decide, by decide, ?_⟩
  intro a ha
  cases a with
  | create n => exact (ha n rfl).elim
  | die n => simp [next, start]
  | wake => rfl
  | stop => rfl

/-! Witnesses: two actors, one of which creates the other, and `actor_stop` before and after the end. -/

example : ∃ s, Reach nextR start s ∧ s.main = .stopped ∧ s.made = 2 :=
  ⟨_, Reach.of_isSome [.create 1, .create 2, .die 1, .stop, .die 2, .wake] (by decide), by decide, by decide⟩
example : ∃ s, Reach nextR start s ∧ s.main = .parked ∧ s.alive = [] :=
  ⟨_, Reach.of_isSome [.create 1, .create 2, .die 1, .stop, .die 2] (by decide), by decide, by decide⟩

end Verif.ActorCount
