import Verif.Model.Trans
import Verif.Model.Heap
/-!
The scalable non-zero indicator (libcfa/src/concurrency/snzi.hfa), for any depth of the tree and any number of threads. A step of a
thread is one access to the value of one node: a read, a compare-and-swap, or the fetch-and-add or fetch-and-sub of the root. Calls of
`arrive` and `depart` on the parent are frames of a stack. Simplifications: the 56 bits of the version and the 64 bits of the root do
not wrap; the 8 bits of the count do. The `verify`s, which only debug builds have, are absent.
-/
namespace Verif.Snzi
open Verif

/-- snzi.hfa:133: `width`, the number of leaves. -/
def width (depth : Nat) : Nat := 2 ^ depth

/-- snzi.hfa:130: the index of the root. -/
def root (depth : Nat) : Nat := 2 ^ (depth + 1) - 2

/-- snzi.hfa:136: the parent of node `i`. -/
def par (depth i : Nat) : Nat := i / 2 + width depth

/-- snzi.hfa:149-158: the leaf that the argument of `arrive` and `depart` selects: `idx >>= 2; idx &= mask`. -/
def leafOf (depth : Nat) (idx : Int) : Nat := ((idx / 4) % (width depth : Int)).toNat

/-- snzi.hfa:38 `__snzi_half`. -/
def half : Int := -1

/-- snzi.hfa:6-12 `__snzi_val_t`. -/
structure Val where
  cnt : Int
  ver : Nat
  deriving DecidableEq, Repr

/-- snzi.hfa:61: `x.cnt + 1` as a `char`. -/
def inc (c : Int) : Int := if c = 127 then -128 else c + 1

/-- snzi.hfa:93: `x.cnt - 1` as a `char`. -/
def dec (c : Int) : Int := if c = -128 then 127 else c - 1

/-- Where a call of `arrive_h` is (snzi.hfa:54-87). -/
inductive Ph where
  /-- line 57-58: the head of the loop, about to read the value -/
  | head
  /-- line 61: about to swap in the count plus one -/
  | add
  /-- line 67: about to swap in one half -/
  | claim
  /-- line 76: about to call `arrive` on the parent -/
  | up
  /-- line 76: in that call -/
  | upWait
  /-- line 77: about to swap in 1 -/
  | commit
  /-- lines 83-86: undoing -/
  | undo
  deriving DecidableEq, Repr

inductive Frame where
  /-- a call of `arrive` on node `q`, with `x`, `undoArr` and `success` -/
  | arr (q : Nat) (ph : Ph) (x : Val) (u : Nat) (s : Bool)
  /-- a call of `depart` on node `q`; `some x`: it read `x` and is about to swap -/
  | dep (q : Nat) (x : Option Val)
  deriving DecidableEq, Repr

structure State where
  /-- the values of the nodes other than the root -/
  val : Nat → Val
  /-- the root's value -/
  all : Int
  /-- the calls in progress of each thread, innermost first -/
  stk : Nat → List Frame
  /-- for the properties: per leaf, the arrivals that have completed for which no departure has been called -/
  held : Nat → Nat

/-- snzi.hfa:128-143 the constructor. -/
def start : State := ⟨fun _ => ⟨0, 0⟩, 0, fun _ => [], fun _ => 0⟩

/-- A fresh call of `arrive` (snzi.hfa:105-108). -/
def arrive (q : Nat) : Frame := .arr q .head ⟨0, 0⟩ 0 false

/-- A fresh call of `depart` (snzi.hfa:110-113). -/
def depart (q : Nat) : Frame := .dep q none

/-- The return of an `arrive` on node `q`: to the client, or to the `arrive` on a child that called it (line 77). -/
def retArr (s : State) (t q : Nat) : List Frame → State
  | [] => { s with stk := upd s.stk t [], held := upd s.held q (s.held q + 1) }
  | .arr p _ x u b :: fs => { s with stk := upd s.stk t (.arr p .commit x u b :: fs) }
  | fs => { s with stk := upd s.stk t fs }

/-- snzi.hfa:66-74: the tests of `x.cnt` after the first, with the continuation of the loop (`while(!success)`). -/
def test2 (x : Val) (b : Bool) : Ph := if x.cnt = 0 then .claim else if x.cnt = half then .up else if b then .undo else .head

/-- snzi.hfa:74 the last test of `x.cnt`. -/
def test3 (x : Val) (b : Bool) : Ph := if x.cnt = half then .up else if b then .undo else .head

/-- snzi.hfa:60 the first test of `x.cnt`. -/
def test1 (x : Val) : Ph := if 1 ≤ x.cnt then .add else test2 x false

/-- One step of the innermost call of thread `t`, the rest of its stack being `fs`. -/
def stepF (depth : Nat) (s : State) (t : Nat) (fs : List Frame) : Frame → Option State
  | .arr q ph x u b =>
    let go := fun (f : Frame) => some { s with stk := upd s.stk t (f :: fs) }
    let swap := fun (v : Val) (f : Frame) => some { s with val := upd s.val q v, stk := upd s.stk t (f :: fs) }
    -- lines 42-45
    if q = root depth then some (retArr { s with all := s.all + 1 } t q fs)
    else match ph with
    | .head => go (.arr q (test1 (s.val q)) (s.val q) u b)
    | .add =>
      if s.val q = x then swap ⟨inc x.cnt, x.ver⟩ (.arr q (test2 x true) x u true)
      else go (.arr q (test2 (s.val q) b) (s.val q) u b)
    | .claim =>
      if s.val q = x then swap ⟨half, x.ver + 1⟩ (.arr q (test3 ⟨half, x.ver + 1⟩ true) ⟨half, x.ver + 1⟩ u true)
      else go (.arr q (test3 (s.val q) b) (s.val q) u b)
    | .up => some { s with stk := upd s.stk t (arrive (par depth q) :: .arr q .upWait x u b :: fs) }
    | .upWait => none
    | .commit =>
      if s.val q = x then swap ⟨1, x.ver⟩ (.arr q (if b then .undo else .head) x u b)
      else go (.arr q (if b then .undo else .head) (s.val q) (u + 1) b)
    | .undo =>
      match u with
      | 0 => some (retArr s t q fs)
      | u + 1 => some { s with stk := upd s.stk t (depart (par depth q) :: .arr q .undo x u b :: fs) }
  | .dep q x =>
    -- lines 47-50
    if q = root depth then some { s with all := s.all - 1, stk := upd s.stk t fs }
    else match x with
    | none => some { s with stk := upd s.stk t (.dep q (some (s.val q)) :: fs) }
    | some x =>
      if s.val q = x then
        -- lines 94-98; the call on the parent is the last thing `depart_h` does, so its frame replaces this one
        some { s with
          val := upd s.val q ⟨dec x.cnt, x.ver⟩
          stk := upd s.stk t (if x.cnt = 1 then depart (par depth q) :: fs else fs) }
      else some { s with stk := upd s.stk t (.dep q none :: fs) }

inductive Act where
  /-- a thread calls `arrive( this, idx )` -/
  | arrive (t : Nat) (idx : Int)
  /-- a thread calls `depart( this, idx )`, to undo a completed arrival with the same argument -/
  | depart (t : Nat) (idx : Int)
  /-- the next step of a thread in one of them -/
  | step (t : Nat)
  deriving DecidableEq, Repr

/-- The steps of `n` threads. -/
def next (depth n : Nat) (s : State) : Act → Option State
  | .arrive t idx => if t < n ∧ s.stk t = [] then some { s with stk := upd s.stk t [arrive (leafOf depth idx)] } else none
  | .depart t idx =>
    let l := leafOf depth idx
    if t < n ∧ s.stk t = [] ∧ 0 < s.held l then
      some { s with stk := upd s.stk t [depart l], held := upd s.held l (s.held l - 1) }
    else none
  | .step t =>
    if t < n then
      match s.stk t with
      | [] => none
      | f :: fs => stepF depth s t fs f
    else none

/-- snzi.hfa:115-118, 161-163 `query`. The value is unsigned. -/
def query (s : State) : Bool := s.all ≠ 0

end Verif.Snzi
