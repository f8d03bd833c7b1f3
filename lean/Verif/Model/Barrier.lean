import Verif.Model.Trans
import Verif.Model.Heap
/-!
The barrier (concurrency/barrier.hfa). One barrier, any number of threads. The barrier is a monitor: what `block` does between entering the
monitor and waiting or leaving is one step (C53). Threads that have been signalled leave in any order, and new threads may enter
before they do: the monitor gives signalled threads precedence, the model does not rely on it.
-/
namespace Verif.Barrier
open Verif

inductive Pc where
  | run
  /-- in `wait( c$ )` (barrier.hfa:53); `g` is the number of groups formed before, `a` the value of `arrived` -/
  | waiting (g a : Nat)
  /-- signalled -/
  | signalled (g a : Nat)
  deriving DecidableEq, Repr

structure State where
  group : Nat
  arrivals : Nat
  cond : List Nat
  pc : Nat → Pc
  /-- for the properties: the number of groups formed, the arrivals `(thread, groups formed before, arrived)`, the returns of `block`, the calls of
      the callback -/
  formed : Nat
  arrived : List (Nat × Nat × Nat)
  rets : List (Nat × Nat × Nat)
  calls : List (Nat × Nat)

/-- barrier.hfa:33-38 -/
def start (n : Nat) : State :=
  { group := n, arrivals := n, cond := [], pc := fun _ => .run, formed := 0, arrived := [], rets := [], calls := [] }

/-- `signal_all` (barrier.hfa:58) -/
def signalAll (pc : Nat → Pc) : List Nat → Nat → Pc
  | [] => pc
  | c :: l => upd (signalAll pc l) c (match pc c with | .waiting g a => .signalled g a | p => p)

inductive Act where
  | block (t : Nat)
  /-- a signalled thread leaves -/
  | leave (t : Nat)
  deriving DecidableEq, Repr

/-- `size_t` subtraction of one. -/
def dec (n : Nat) : Nat := (n + 2 ^ 64 - 1) % 2 ^ 64

def next (s : State) : Act → Option State
  -- barrier.hfa:48-62
  | .block t => if s.pc t = .run then
      let a := dec s.arrivals
      if a ≠ 0 then
        some { s with arrivals := a, cond := s.cond ++ [t], pc := upd s.pc t (.waiting s.formed a), arrived := s.arrived ++ [(t, s.formed, a)] }
      else
        some { s with
          arrivals := s.group, cond := [], pc := signalAll s.pc s.cond, arrived := s.arrived ++ [(t, s.formed, a)],
          calls := s.calls ++ [(t, s.formed)], formed := s.formed + 1, rets := s.rets ++ [(t, s.formed, a)] }
    else none
  -- barrier.hfa:61
  | .leave t => match s.pc t with
    | .signalled g a => some { s with pc := upd s.pc t .run, rets := s.rets ++ [(t, g, a)] }
    | _ => none

end Verif.Barrier
