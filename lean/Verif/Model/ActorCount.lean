import Verif.Model.Trans
/-!
`actor_stop` and the number of actors (libcfa/src/concurrency/actor.hfa:393-446, 676-704). The thread that called `actor_start` is `main`
here; its `park` and the `unpark`s follow the tickets of Model/Park.lean in one step each. Not modelled: the executor, and when an actor
terminates (Model/Actor.lean has deliveries): an actor may terminate at any time after its creation.
-/
namespace Verif.ActorCount
open Verif

inductive Main where
  /-- has not called `actor_stop` -/
  | running
  /-- blocked in the `park` of `actor_stop` -/
  | parked
  /-- past the `park`: `actor_stop` deletes the executor and returns -/
  | stopped
  deriving DecidableEq, Repr

structure State where
  /-- `__num_actors_` -/
  num : Int
  /-- the ticket of `main`: -1 blocked, 0 running, 1 unpark pending -/
  ticket : Int
  main : Main
  /-- workers between the `__atomic_add_fetch` that gave 0 and the `unpark` -/
  waking : Nat
  /-- kernel.cfa:537: abort, mismatch of park and unpark -/
  aborted : Bool
  /-- for the properties: the actors that live, and how many were created -/
  alive : List Nat
  made : Nat
  deriving DecidableEq, Repr

/-- actor.hfa:676-683 `actor_start`. -/
def start : State := ⟨0, 0, .running, 0, false, [], 0⟩

inductive Act where
  /-- actor.hfa:407-417 `?{}( actor & )` -/
  | create (a : Nat)
  /-- actor.hfa:419-438 `check_actor` of an actor that has terminated -/
  | die (a : Nat)
  /-- actor.hfa:435: `unpark( __actor_executor_thd )` -/
  | wake
  /-- actor.hfa:694-695: `actor_stop` calls `park` -/
  | stop
  deriving DecidableEq, Repr

/-- kernel.cfa:525-539 `__must_unpark`, with the return of `main` from `park` if it was blocked. -/
def unpark (s : State) : State :=
  if s.ticket = 0 then { s with ticket := 1 }
  else if s.ticket = -1 then { s with ticket := 0, main := .stopped }
  else { s with aborted := true }

def next (s : State) : Act → Option State
  | .create a =>
    if s.aborted = false ∧ s.main ≠ .stopped ∧ a ∉ s.alive then
      some { s with num := s.num + 1, alive := a :: s.alive, made := s.made + 1 }
    else none
  | .die a =>
    if s.aborted = false ∧ a ∈ s.alive then
      some { s with num := s.num - 1, alive := s.alive.erase a, waking := if s.num - 1 = 0 then s.waking + 1 else s.waking }
    else none
  | .wake => if s.aborted = false ∧ 0 < s.waking then some { unpark s with waking := s.waking - 1 } else none
  | .stop =>
    if s.aborted = false ∧ s.main = .running then
      if s.ticket = 1 then some { s with ticket := 0, main := .stopped } else some { s with ticket := -1, main := .parked }
    else none

end Verif.ActorCount
