import Mathlib.Order.Defs.LinearOrder
import Verif.Model.Base
/-!
Model of `ScopedMap` (src/Common/ScopedMap.hpp) and `ErasableScopedMap` (src/GenPoly/ErasableScopedMap.hpp). A `std::map` is a list of entries in increasing order of
their keys; an iterator into it is a position, the position after the last entry being `end()`. Scopes are in a list, outermost first. Iterators kept across
modifications of the map are not modelled.
-/
namespace Verif.ScopedMap
open Verif

variable {K V : Type} [LinearOrder K]

/-- `std::map`. -/
abbrev Map (K V : Type) := List (K × V)

/-- `std::map::find`: a position, or `end()`. -/
def mfind (m : Map K V) (k : K) : Nat := m.findIdx (fun e => e.1 = k)
/-- `std::map::insert`: an entry that is there is left alone; tells whether the entry was added. -/
def minsert : Map K V → K → V → Map K V × Bool
  | [], k, v => ([(k, v)], true)
  | e :: m, k, v =>
    if k < e.1 then ((k, v) :: e :: m, true)
    else if e.1 = k then (e :: m, false)
    else let r := minsert m k v; (e :: r.1, r.2)
/-- `std::map::erase(key)`: the number of entries erased. -/
def merase (m : Map K V) (k : K) : Map K V × Nat :=
  if mfind m k = m.length then (m, 0) else (m.eraseIdx (mfind m k), 1)
/-- `it->second = v` -/
def mset (m : Map K V) (p : Nat) (v : V) : Map K V := m.modify p (fun e => (e.1, v))

/-- The list of scopes; ScopedMap.hpp:51. The notes are not modelled here. -/
abbrev Scopes (K V : Type) := List (Map K V)

/-- `scopes[i]` -/
def at' (s : Scopes K V) (i : Nat) : Map K V := s.getD i []

/-- ScopedMap.hpp:268-271: an iterator. -/
structure It where
  level : Nat
  pos : Nat
  deriving DecidableEq, Repr

/-- ScopedMap.hpp:94-96 -/
def end' (s : Scopes K V) : It := ⟨0, (at' s 0).length⟩

/-- ScopedMap.hpp:232, 314 -/
def deref (s : Scopes K V) (it : It) : Option (K × V) := (at' s it.level)[it.pos]?

/-- ScopedMap.hpp:85 -/
def new : Scopes K V := [[]]
/-- ScopedMap.hpp:68-70 -/
def beginScope (s : Scopes K V) : Scopes K V := s ++ [[]]
/-- ScopedMap.hpp:79-82 -/
def endScope (s : Scopes K V) : Outcome (Scopes K V) := if s.dropLast = [] then .abort else .ret s.dropLast

/-- The loop of ScopedMap.hpp:109-114 and 133-138, from scope `i` outward. -/
def findFrom (s : Scopes K V) (k : K) : Nat → It
  | 0 => if mfind (at' s 0) k ≠ (at' s 0).length then ⟨0, mfind (at' s 0) k⟩ else end' s
  | i + 1 => if mfind (at' s (i + 1)) k ≠ (at' s (i + 1)).length then ⟨i + 1, mfind (at' s (i + 1)) k⟩ else findFrom s k i
/-- ScopedMap.hpp:108-115 -/
def find (s : Scopes K V) (k : K) : It := findFrom s k (s.length - 1)
/-- ScopedMap.hpp:121-125 -/
def findAt (s : Scopes K V) (i : Nat) (k : K) : Outcome It :=
  if s.length ≤ i then .undef
  else if mfind (at' s i) k ≠ (at' s i).length then .ret ⟨i, mfind (at' s i) k⟩ else .ret (end' s)
/-- ScopedMap.hpp:131-139 -/
def findNext (s : Scopes K V) (it : It) (k : K) : It := if it.level = 0 then end' s else findFrom s k (it.level - 1)

/-- ScopedMap.hpp:155-158: `scopes.at` throws when there is no such scope. -/
def insertAt (s : Scopes K V) (i : Nat) (k : K) (v : V) : Outcome (Bool × Scopes K V) :=
  if s.length ≤ i then .abort
  else let r := minsert (at' s i) k v; .ret (r.2, s.set i r.1)
/-- ScopedMap.hpp:146-152 -/
def insert (s : Scopes K V) (k : K) (v : V) : Bool × Scopes K V :=
  let r := minsert (at' s (s.length - 1)) k v
  (r.2, s.set (s.length - 1) r.1)

/-- ScopedMap.hpp:165-169, in `map[ k ] = v`: `d` is `Value()`. -/
def assign (s : Scopes K V) (k : K) (d v : V) : Scopes K V :=
  let slot := find s k
  if slot ≠ end' s then s.set slot.level (mset (at' s slot.level) slot.pos v)
  else
    let s := (insert s k d).2
    let i := s.length - 1
    s.set i (mset (at' s i) (mfind (at' s i) k) v)

/-- ScopedMap.hpp:173-177: the loop, from scope `i` outward. -/
def eraseFrom (s : Scopes K V) (k : K) : Nat → Nat × Scopes K V
  | 0 => let r := merase (at' s 0) k; if r.2 ≠ 0 then (r.2, s.set 0 r.1) else (0, s)
  | i + 1 => let r := merase (at' s (i + 1)) k; if r.2 ≠ 0 then (r.2, s.set (i + 1) r.1) else eraseFrom s k i
/-- ScopedMap.hpp:172-178 -/
def erase (s : Scopes K V) (k : K) : Nat × Scopes K V := eraseFrom s k (s.length - 1)

/-- ScopedMap.hpp:185-188: the loop; the first argument bounds the number of turns. -/
def countLoop (s : Scopes K V) (k : K) : Nat → It → Nat → Outcome Nat
  | 0, _, _ => .undef
  | fuel + 1, it, c => if it = end' s then .ret c else countLoop s k fuel (findNext s it k) (c + 1)
/-- ScopedMap.hpp:180-191 -/
def count (fuel : Nat) (s : Scopes K V) (k : K) : Outcome Nat := countLoop s k fuel (find s k) 0
/-- ScopedMap.hpp:193-195 -/
def contains (s : Scopes K V) (k : K) : Bool := find s k ≠ end' s

/-- ScopedMap.hpp:212-215, 289-292: `next_valid`, with the branch of `operator++` (236-239) it calls for an iterator at the end of its scope. -/
def nextValid (s : Scopes K V) : Nat → Nat → It
  | 0, p => ⟨0, p⟩
  | l + 1, p => if p ≠ (at' s (l + 1)).length then ⟨l + 1, p⟩ else nextValid s l 0
/-- ScopedMap.hpp:235-244, 317-326: `operator++` -/
def incr (s : Scopes K V) (it : It) : It :=
  if it.pos = (at' s it.level).length then (if it.level = 0 then it else nextValid s (it.level - 1) 0)
  else nextValid s it.level (it.pos + 1)
/-- ScopedMap.hpp:91-93 -/
def begin' (s : Scopes K V) : It := nextValid s (s.length - 1) 0
/-- ScopedMap.hpp:247-255, 329-337: `operator--`. Decrementing the `begin()` of a `std::map`, and going beyond the last scope, are undefined. After `--it` the iterator
    is at an entry, so `prev_valid` does nothing. -/
def decr (s : Scopes K V) (it : It) : Outcome It :=
  if it.pos = 0 then
    if s.length ≤ it.level + 1 then .undef
    else if (at' s (it.level + 1)).length = 0 then .undef
    else .ret ⟨it.level + 1, (at' s (it.level + 1)).length - 1⟩
  else .ret ⟨it.level, it.pos - 1⟩

/-! ### ErasableScopedMap -/

variable [DecidableEq V]

/-- ErasableScopedMap.hpp:83-90, 99-106: the loop, from scope `i` outward; `x` is the sentinel. -/
def efindFrom (x : V) (s : Scopes K V) (k : K) : Nat → It
  | 0 =>
    if mfind (at' s 0) k ≠ (at' s 0).length then
      if (deref s ⟨0, mfind (at' s 0) k⟩).map (fun e => e.2) = some x then end' s else ⟨0, mfind (at' s 0) k⟩
    else end' s
  | i + 1 =>
    if mfind (at' s (i + 1)) k ≠ (at' s (i + 1)).length then
      if (deref s ⟨i + 1, mfind (at' s (i + 1)) k⟩).map (fun e => e.2) = some x then end' s else ⟨i + 1, mfind (at' s (i + 1)) k⟩
    else efindFrom x s k i
/-- ErasableScopedMap.hpp:82-91 -/
def efind (x : V) (s : Scopes K V) (k : K) : It := efindFrom x s k (s.length - 1)
/-- ErasableScopedMap.hpp:113-117 -/
def einsert (s : Scopes K V) (k : K) (v : V) : Bool × Scopes K V :=
  let r := minsert (at' s (s.length - 1)) k v
  (r.2, s.set (s.length - 1) r.1)
/-- ErasableScopedMap.hpp:119-123, in `map[ k ] = v`: the reference returned is to the entry `insert` found or made. -/
def eassign (x : V) (s : Scopes K V) (k : K) (d v : V) : Scopes K V :=
  let slot := efind x s k
  if slot ≠ end' s then s.set slot.level (mset (at' s slot.level) slot.pos v)
  else
    let s := (einsert s k d).2
    let i := s.length - 1
    s.set i (mset (at' s i) (mfind (at' s i) k) v)
/-- ErasableScopedMap.hpp:126-135 -/
def eerase (x : V) (s : Scopes K V) (k : K) : Nat × Scopes K V :=
  let i := s.length - 1
  let m := at' s i
  if mfind m k ≠ m.length then (1, s.set i (mset m (mfind m k) x))
  else (0, s.set i (minsert m k x).1)
/-- ErasableScopedMap.hpp:137-139 -/
def econtains (x : V) (s : Scopes K V) (k : K) : Bool := efind x s k ≠ end' s

/-- The positions of the entries from `p` on that hold the sentinel are skipped: the branch of ErasableScopedMap.hpp:184-187 reached from `next_valid` (155-158). -/
def skip (x : V) : Map K V → Nat → Nat
  | [], p => p
  | e :: m, p => if e.2 = x then skip x m (p + 1) else p
/-- ErasableScopedMap.hpp:155-158 -/
def enextValid (x : V) (s : Scopes K V) : Nat → Nat → It
  | 0, p => ⟨0, skip x ((at' s 0).drop p) p⟩
  | l + 1, p =>
    let q := skip x ((at' s (l + 1)).drop p) p
    if q ≠ (at' s (l + 1)).length then ⟨l + 1, q⟩ else enextValid x s l 0
/-- ErasableScopedMap.hpp:179-188 -/
def eincr (x : V) (s : Scopes K V) (it : It) : It :=
  if it.pos = (at' s it.level).length then (if it.level = 0 then it else enextValid x s (it.level - 1) 0)
  else enextValid x s it.level (it.pos + 1)
/-- ErasableScopedMap.hpp:71-73 -/
def ebegin (x : V) (s : Scopes K V) : It := enextValid x s (s.length - 1) 0

end Verif.ScopedMap
