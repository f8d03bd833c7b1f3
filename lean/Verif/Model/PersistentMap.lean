import Verif.Model.Base
import Verif.Model.Heap
/-!
Model of `PersistentMap` (src/Common/PersistentMap.hpp). The nodes of all versions live in one store, indexed by the node's identity; `n` is the number of nodes created.
The hash table is an association list (`std::unordered_map`: find, emplace, erase, operator[], size, count, end of a failed find). Reference counting and the order of
iteration are not modelled. `reroot` is recursive: `fuel` bounds the depth of the recursion, running out of it is undefined.
-/
namespace Verif.PersistentMap
open Verif

variable {K V : Type} [DecidableEq K]

/-- The hash table. -/
abbrev Tab (K V : Type) := List (K × V)

/-- `find` -/
def find (m : Tab K V) (k : K) : Option V := (m.find? (fun e => e.1 = k)).map (fun e => e.2)
/-- `erase` -/
def del (m : Tab K V) (k : K) : Tab K V := m.filter (fun e => e.1 ≠ k)
/-- `emplace`: nothing happens when the key is present -/
def emplace (m : Tab K V) (k : K) (v : V) : Tab K V := if (find m k).isSome then m else (k, v) :: m
/-- `it->second = v` -/
def assign (m : Tab K V) (k : K) (v : V) : Tab K V := m.map (fun e => if e.1 = k then (k, v) else e)

/-- PersistentMap.hpp:40-81: a node: the mode and the data. -/
inductive Node (K V : Type) where
  | base (m : Tab K V)
  | rem (b : Nat) (k : K)
  | ins (b : Nat) (k : K) (v : V)
  | upd (b : Nat) (k : K) (v : V)

structure Store (K V : Type) where
  node : Nat → Node K V
  n : Nat

/-- PersistentMap.hpp:138-191 -/
def reroot : Nat → Store K V → Nat → Outcome (Store K V)
  | 0, _, _ => .undef
  | fuel + 1, s, i => match s.node i with
    | .base _ => .ret s
    | .rem b k => do
      let s ← reroot fuel s b
      match s.node b with
      | .base m => match find m k with
        -- lines 153-163
        | some v => .ret { s with node := upd (upd s.node b (.ins i k v)) i (.base (del m k)) }
        | none => .undef
      | _ => .undef
    | .ins b k v => do
      let s ← reroot fuel s b
      match s.node b with
      -- lines 164-172
      | .base m => .ret { s with node := upd (upd s.node b (.rem i k)) i (.base (emplace m k v)) }
      | _ => .undef
    | .upd b k v => do
      let s ← reroot fuel s b
      match s.node b with
      | .base m => match find m k with
        -- lines 173-183
        | some v0 => .ret { s with node := upd (upd s.node b (.upd i k v0)) i (.base (assign m k v)) }
        | none => .undef
      | _ => .undef

/-- PersistentMap.hpp:195-198 -/
def rerooted (fuel : Nat) (s : Store K V) (i : Nat) : Outcome (Tab K V × Store K V) := do
  let s ← reroot fuel s i
  match s.node i with
  | .base m => .ret (m, s)
  | _ => .undef

/-- PersistentMap.hpp:135, 119 -/
def newPtr (s : Store K V) : Nat × Store K V := (s.n, { node := upd s.node s.n (.base []), n := s.n + 1 })

/-- PersistentMap.hpp:239-264 -/
def set (fuel : Nat) (s : Store K V) (i : Nat) (k : K) (v : V) : Outcome (Nat × Store K V) := do
  let (m, s) ← rerooted fuel s i
  match find m k with
  | none => .ret (s.n, { node := upd (upd s.node s.n (.base (emplace m k v))) i (.rem s.n k), n := s.n + 1 })
  | some v0 => .ret (s.n, { node := upd (upd s.node s.n (.base (assign m k v))) i (.upd s.n k v0), n := s.n + 1 })

/-- PersistentMap.hpp:267-285 -/
def erase (fuel : Nat) (s : Store K V) (i : Nat) (k : K) : Outcome (Nat × Store K V) := do
  let (m, s) ← rerooted fuel s i
  match find m k with
  | none => .ret (i, s)
  | some v0 => .ret (s.n, { node := upd (upd s.node s.n (.base (del m k))) i (.ins s.n k v0), n := s.n + 1 })

/-- PersistentMap.hpp:202 -/
def empty (fuel : Nat) (s : Store K V) (i : Nat) : Outcome (Bool × Store K V) := do
  let (m, s) ← rerooted fuel s i
  .ret (m.isEmpty, s)

/-- PersistentMap.hpp:205 -/
def size (fuel : Nat) (s : Store K V) (i : Nat) : Outcome (Nat × Store K V) := do
  let (m, s) ← rerooted fuel s i
  .ret (m.length, s)

/-- PersistentMap.hpp:219 -/
def count (fuel : Nat) (s : Store K V) (i : Nat) (k : K) : Outcome (Nat × Store K V) := do
  let (m, s) ← rerooted fuel s i
  .ret (if (find m k).isSome then 1 else 0, s)

/-- PersistentMap.hpp:222-226: undefined when the key is not present. -/
def get (fuel : Nat) (s : Store K V) (i : Nat) (k : K) : Outcome (V × Store K V) := do
  let (m, s) ← rerooted fuel s i
  match find m k with
  | some v => .ret (v, s)
  | none => .undef

/-- PersistentMap.hpp:230-235 -/
def getOrDefault (fuel : Nat) (s : Store K V) (i : Nat) (k : K) (d : V) : Outcome (V × Store K V) := do
  let (m, s) ← rerooted fuel s i
  .ret ((find m k).getD d, s)

/-- An operation of a client that keeps every version it is given: versions are numbered in the order in which the client got them. -/
inductive Op (K V : Type) where
  | new
  | set (ver : Nat) (k : K) (v : V)
  | erase (ver : Nat) (k : K)
  | empty (ver : Nat)
  | size (ver : Nat)
  | count (ver : Nat) (k : K)
  | get (ver : Nat) (k : K)
  | getOrDefault (ver : Nat) (k : K) (d : V)

/-- What the client sees. -/
inductive Res (V : Type) where
  | version
  | bool (b : Bool)
  | nat (n : Nat)
  | val (v : V)
  deriving DecidableEq, Repr

/-- One operation of the client on the versions `h` it holds (their nodes). -/
def step (fuel : Nat) (s : Store K V) (h : List Nat) : Op K V → Outcome (Res V × Store K V × List Nat)
  | .new => let (i, s) := newPtr s; .ret (.version, s, h ++ [i])
  | .set w k v => do let (i, s) ← set fuel s (h.getD w 0) k v; .ret (.version, s, h ++ [i])
  | .erase w k => do let (i, s) ← erase fuel s (h.getD w 0) k; .ret (.version, s, h ++ [i])
  | .empty w => do let (b, s) ← empty fuel s (h.getD w 0); .ret (.bool b, s, h)
  | .size w => do let (b, s) ← size fuel s (h.getD w 0); .ret (.nat b, s, h)
  | .count w k => do let (b, s) ← count fuel s (h.getD w 0) k; .ret (.nat b, s, h)
  | .get w k => do let (b, s) ← get fuel s (h.getD w 0) k; .ret (.val b, s, h)
  | .getOrDefault w k d => do let (b, s) ← getOrDefault fuel s (h.getD w 0) k d; .ret (.val b, s, h)

/-- A sequence of operations. -/
def run (fuel : Nat) (s : Store K V) (h : List Nat) : List (Op K V) → Outcome (List (Res V))
  | [] => .ret []
  | o :: os => do
    let (r, s, h) ← step fuel s h o
    let rs ← run fuel s h os
    .ret (r :: rs)

/-- No nodes. -/
def start : Store K V := { node := fun _ => .base [], n := 0 }

end Verif.PersistentMap
