import Verif.Model.CpuList

/-!
The map from processors to last-level caches that the run-time builds at its start (device/cpu.cfa).  The
processors are 0 to n-1, and `shared i` is the text of the list of the processors that share the last-level
cache of processor i (what is kept of the file `shared_cpu_list`).  Arithmetic is unbounded, and a start that is not set,
`-1u` in the code, is `none`.  The case of a system without caches (cpu.cfa 361-376) is not modelled.
-/
namespace Verif.CpuMap
open Verif.CpuList

/-- The text that is kept of a file `shared_cpu_list` (cpu.cfa 217-222): at most 32 characters, without the
last of them, which is the end of the line if the file is not longer. -/
def cut (file : List Char) : List Char := (file.take 32).dropLast

/-- `distinct_llcs` (cpu.cfa 271-308): the texts that differ, in the order of the processors. -/
def distinct (shared : Nat → List Char) (n : Nat) : List (List Char) :=
  (List.range n).foldl (fun acc i => if shared i ∈ acc then acc else acc ++ [shared i]) []

/-- A processor and the number of its cache (cpu.cfa 310-313). -/
structure Pairing where
  cpu : Nat
  id : Nat
  deriving DecidableEq, Repr

/-- `get_cpu_pairings` (cpu.cfa 319-338): the first of the texts that is that of the processor. -/
def pairings (shared : Nat → List Char) (n : Nat) : List Pairing :=
  (List.range n).map fun i => ⟨i, (distinct shared n).idxOf (shared i)⟩

/-- The width of a cache, the number of processors that its text has (cpu.cfa 256, 426). -/
def cacheWidth (shared : Nat → List Char) (n : Nat) (id : Nat) : Nat :=
  let t := (distinct shared n).getD id []
  width (t.length + 1) t

/-- One round of the loop that sets the starts of the caches (cpu.cfa 421-430). -/
def startStep (w : Nat → Nat) (s : Nat × (Nat → Option Nat)) (p : Pairing) : Nat × (Nat → Option Nat) :=
  if s.2 p.id = none then (s.1 + w p.id, fun j => if j = p.id then some s.1 else s.2 j) else s

/-- The starts of the caches (cpu.cfa 418-432). -/
def starts (w : Nat → Nat) (ps : List Pairing) : Nat → Option Nat :=
  (ps.foldl (startStep w) (0, fun _ => none)).2

/-- `cpu_map_entry_t` (cpu.hfa 23-35), with the processor at which it is stored. -/
structure Entry where
  cpu : Nat
  self : Nat
  start : Nat
  count : Nat
  cache : Nat
  deriving DecidableEq, Repr

/-- The loop that fills the entries (cpu.cfa 438-449), with the numbers of entries that each cache has so
far. -/
def fill (w : Nat → Nat) (st : Nat → Option Nat) : List Pairing → (Nat → Nat) → List Entry
  | [], _ => []
  | p :: ps, cnt =>
    let s := (st p.id).getD (2 ^ 32 - 1)
    ⟨p.cpu, s + cnt p.id, s, w p.id, p.id⟩ ::
      fill w st ps (fun j => if j = p.id then cnt j + 1 else cnt j)

/-- The entries of the map from the sorted pairings on (cpu.cfa 418-449). -/
def entries (shared : Nat → List Char) (n : Nat) (sorted : List Pairing) : List Entry :=
  let w := cacheWidth shared n
  fill w (starts w sorted) sorted (fun _ => 0)

end Verif.CpuMap
