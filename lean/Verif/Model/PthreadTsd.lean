/-
Model of the pthread emulation: thread-specific data, the end and the joining of threads.

  libcfa/src/concurrency/pthread.cfa

Each function that takes `key_lock` is one step.  The deletion of a thread's data by whoever joins it
(`pthread_deletespecific_`, which gives up the lock around each destructor) is a machine of its own,
advanced by `tick`: other threads may act between any two of its steps (the code holds the lock over
some of these, so this is more than it allows).  What a destructor does is not modelled: the calls it
makes are operations of the joining thread, between the tick that enters it and the tick that leaves
it.  Values are numbers, 0 is NULL.

`none` is a use of memory outside of an object, or a call of a null pointer.
-/
namespace Verif.Model.PthreadTsd

def set (f : Nat → α) (i : Nat) (v : α) : Nat → α := fun k => if k = i then v else f k

/-- `pthread_values`: pthread.cfa 31-35.  The link is the membership in `Key.threads`. -/
structure Val where
  value : Nat
  in_use : Bool

/-- `pthread_keys`: pthread.cfa 38-42.  `threads` lists the threads whose entry is linked. -/
structure Key where
  in_use : Bool
  destructor : Option Nat
  threads : List Nat

inductive Phase
  | scan | calling | inside
  deriving DecidableEq, Repr

/-- The variables of `pthread_deletespecific_`, and who runs it. -/
structure Ender where
  runner : Nat
  attempts : Nat
  destcalled : Bool
  i : Nat
  phase : Phase

/-- `cfaPthread` (pthread.cfa 171-189).  `ended`: the thread has stopped; `cancelled`: by
`pthread_exit`. -/
structure Thr where
  pthreadData : Option (Nat → Val)
  isTerminated : Bool
  joinval : Nat
  ended : Bool
  cancelled : Bool
  ender : Option Ender

/-- `thr t`: a thread made by `pthread_create`; `none` for other threads, of which the main thread is
one. -/
structure Sys where
  keys : Nat → Key
  thr : Nat → Option Thr

def init : Sys := { keys := fun _ => ⟨false, none, []⟩, thr := fun _ => none }

/-- `spawn t junk`: `junk` is what the memory of the new object holds. -/
inductive Op
  | spawn (t : Nat) (junk : Bool) | exit (t v : Nat) (cancel : Bool)
  | create (d : Option Nat) | delete (k : Nat) | set (t k v : Nat) | get (t k : Nat)
  | join (j t : Nat) | tryjoin (j t : Nat) | tick (t : Nat)
  deriving DecidableEq, Repr

inductive Res
  | nothing | code (n : Nat) | key (k : Nat) | val (v : Nat)
  | joined (v : Nat) | blocks | raises
  | called (k d v runner : Nat) | done
  deriving DecidableEq, Repr

def EINVAL : Nat := 22
def EAGAIN : Nat := 11
def EBUSY : Nat := 16

/-- `PTHREAD_DESTRUCTOR_ITERATIONS`: pthread.cfa 58-62. -/
def ITERATIONS : Nat := 4

/-- `pthread_create` (pthread.cfa 350-354) with the constructor (pthread.cfa 242-261), which leaves
`isTerminated` and `joinval` as they are. -/
def spawn (s : Sys) (t : Nat) (junk : Bool) : Sys :=
  { s with thr := set s.thr t (some
    { pthreadData := none, isTerminated := junk, joinval := 0, ended := false, cancelled := false
      ender := none }) }

/-- The end of the start routine (pthread.cfa 193-196) and `pthread_exit` (pthread.cfa 396-402). -/
def exit (s : Sys) (t v : Nat) (cancel : Bool) : Sys :=
  match s.thr t with
  | none => s
  | some th => { s with thr := set s.thr t (some { th with
      joinval := v, isTerminated := true, ended := true, cancelled := cancel }) }

/-- `pthread_key_create`: pthread.cfa 513-526. -/
def keyCreate (N : Nat) (s : Sys) (d : Option Nat) : Sys × Res :=
  match (List.range N).find? (fun i => !(s.keys i).in_use) with
  | some i =>
    ({ s with keys := set s.keys i { s.keys i with in_use := true, destructor := d } }, .key i)
  | none => (s, .code EAGAIN)

/-- `p->in_use = false` for the entry of thread `t`. -/
def clearUse (thr : Nat → Option Thr) (k t : Nat) : Nat → Option Thr :=
  match thr t with
  | none => thr
  | some th =>
    match th.pthreadData with
    | none => thr
    | some f => set thr t (some { th with
        pthreadData := some (set f k { f k with in_use := false }) })

/-- `pthread_key_delete`: pthread.cfa 528-549. -/
def keyDelete (N : Nat) (s : Sys) (k : Nat) : Sys × Res :=
  if k ≥ N ∨ (s.keys k).in_use = false then (s, .code EINVAL)
  else
    ({ keys := set s.keys k { in_use := false, destructor := none, threads := [] }
       thr := (s.keys k).threads.foldl (fun thr t => clearUse thr k t) s.thr }, .code 0)

/-- `pthread_setspecific`: pthread.cfa 551-580. -/
def setspecific (N : Nat) (s : Sys) (t k v : Nat) : Option (Sys × Res) :=
  match s.thr t with
  | none => none
  | some th =>
    let values := th.pthreadData.getD fun _ => ⟨0, false⟩
    let th' := { th with pthreadData := some values }
    if k ≥ N ∨ (s.keys k).in_use = false then
      some ({ s with thr := set s.thr t (some th') }, .code EINVAL)
    else
      let key := s.keys k
      some
        ({ keys := if (values k).in_use then s.keys
             else set s.keys k { key with threads := key.threads ++ [t] }
           thr := set s.thr t (some { th' with pthreadData := some (set values k ⟨v, true⟩) }) },
          .code 0)

/-- `pthread_getspecific`: pthread.cfa 582-597. -/
def getspecific (N : Nat) (s : Sys) (t k : Nat) : Option (Sys × Res) :=
  if k ≥ N ∨ (s.keys k).in_use = false then some (s, .val 0)
  else
    match s.thr t with
    | none => none
    | some th =>
      match th.pthreadData with
      | none => some (s, .val 0)
      | some f => some (s, .val (if (f k).in_use then (f k).value else 0))

/-- `delete(p)`: the destructor (pthread.cfa 236-240) starts `pthread_deletespecific_`. -/
def startEnd (s : Sys) (j t : Nat) (th : Thr) : Sys × Res :=
  ({ s with thr := set s.thr t (some { th with
      ender := th.pthreadData.map fun _ => ⟨j, 0, false, 0, .scan⟩ }) }, .joined th.joinval)

/-- `pthread_join`: pthread.cfa 356-373. -/
def join (s : Sys) (j t : Nat) : Option (Sys × Res) :=
  match s.thr t with
  | none => none
  | some th => some (if th.ended then startEnd s j t th else (s, .blocks))

/-- `pthread_tryjoin_np`: pthread.cfa 375-390.  The cancellation of a thread that has called
`pthread_exit` is raised in `join` (thread.cfa 113-118, 173-176) and not caught here. -/
def tryjoin (s : Sys) (j t : Nat) : Option (Sys × Res) :=
  match s.thr t with
  | none => none
  | some th =>
    some (if th.isTerminated = false then (s, .code EBUSY)
      else if th.ended = false then (s, .blocks)
      else if th.cancelled then (s, .raises)
      else startEnd s j t th)

/-- One step of `pthread_deletespecific_`: pthread.cfa 203-234. -/
def tick (N : Nat) (s : Sys) (t : Nat) : Option (Sys × Res) :=
  match s.thr t with
  | none => some (s, .nothing)
  | some th =>
    match th.ender, th.pthreadData with
    | some e, some f =>
      let put (keys : Nat → Key) (f : Nat → Val) (e : Ender) : Sys :=
        { keys := keys, thr := set s.thr t (some { th with pthreadData := some f, ender := some e }) }
      match e.phase with
      | .scan =>
        if e.i ≥ N then
          if e.attempts + 1 < ITERATIONS ∧ e.destcalled then
            some (put s.keys f { e with attempts := e.attempts + 1, destcalled := false, i := 0 },
              .nothing)
          else
            some ({ s with thr := set s.thr t (some { th with
              pthreadData := none, ender := none }) }, .done)
        else if (f e.i).in_use then
          let key := s.keys e.i
          let keys := set s.keys e.i { key with threads := key.threads.erase t }
          if (f e.i).value ≠ 0 ∧ key.destructor ≠ none then
            some (put keys (set f e.i { f e.i with in_use := false }) { e with phase := .calling },
              .nothing)
          else
            some (put keys (set f e.i ⟨0, false⟩) { e with i := e.i + 1 }, .nothing)
        else some (put s.keys f { e with i := e.i + 1 }, .nothing)
      | .calling =>
        match (s.keys e.i).destructor with
        | none => none
        | some d =>
          some (put s.keys f { e with phase := .inside }, .called e.i d (f e.i).value e.runner)
      | .inside =>
        some (put s.keys (set f e.i { f e.i with value := 0 })
          { e with phase := .scan, destcalled := true, i := e.i + 1 }, .nothing)
    | _, _ => some (s, .nothing)

def step (N : Nat) (s : Sys) : Op → Option (Sys × Res)
  | .spawn t b => some (spawn s t b, .nothing)
  | .exit t v c => some (exit s t v c, .nothing)
  | .create d => some (keyCreate N s d)
  | .delete k => some (keyDelete N s k)
  | .set t k v => setspecific N s t k v
  | .get t k => getspecific N s t k
  | .join j t => join s j t
  | .tryjoin j t => tryjoin s j t
  | .tick t => tick N s t

/-- What was done and what was answered, the latest first. -/
abbrev Trace := List (Op × Res)

def exec (N : Nat) (st : Sys × Trace) (op : Op) : Option (Sys × Trace) :=
  (step N st.1 op).map fun x => (x.1, (op, x.2) :: st.2)

def runFrom (N : Nat) (st : Sys × Trace) : List Op → Option (Sys × Trace)
  | [] => some st
  | op :: ops => (exec N st op).bind fun st' => runFrom N st' ops

def run (N : Nat) (ops : List Op) : Option (Sys × Trace) := runFrom N (init, []) ops

end Verif.Model.PthreadTsd
