/-
Model of an I/O context: requests, entries of the submission ring, completions.

  libcfa/src/concurrency/io.cfa           allocation, submission, flushing, draining, the arbiter
  libcfa/src/concurrency/io/setup.cfa     the initial state
  libcfa/src/concurrency/io/call.cfa.in   what a request does

One context (one ring of a cluster) is modelled, used by the threads of its own processor, by threads
that have migrated (external submission) and by processors that help.  The operations below are
single steps; `enter`, `relRead` and `relWrite` are the parts of a system call with the release of
its entries, for calls of two processors that overlap.  A request is a number, standing for its
future; it asks for one entry, as all requests of call.cfa.in do.

The kernel is the one described by io_uring(7): a system call consumes at most the given number of
the entries listed, in order; each consumed entry completes once, at any time; completions are
appended to the completion ring, or kept back if it is full, until a call with
IORING_ENTER_GETEVENTS.  Assertions (`verify`) are taken as switched off.  Statistics, signals,
waking of threads, and the choice of whom to help are not modelled.
-/
namespace Verif.Model.IoUring

/-- `__u32`. -/
def W : Nat := 2 ^ 32
def add32 (a b : Nat) : Nat := (a + b) % W
def sub32 (a b : Nat) : Nat := (W + a - b) % W

def set (f : Nat → α) (i : Nat) (v : α) : Nat → α := fun k => if k = i then v else f k

/-- `for(i; n) array[(tail + i) & mask] = xs[i]`. -/
def writeAll (f : Nat → α) (mask tail : Nat) : List α → Nat → α
  | [] => f
  | x :: xs => writeAll (set f (tail &&& mask) x) mask (add32 tail 1) xs

/-- `array[(head + i) & mask]` for `i < n`. -/
def readAll (f : Nat → α) (mask head n : Nat) : List α :=
  (List.range n).map fun i => f (add32 head i &&& mask)

/-- `__sub_ring_t` (io/types.hfa 37-82) and `__cmp_ring_t` (io/types.hfa 85-115).  A completion is a
request with its result. -/
structure Ctx where
  mask : Nat
  karray : Nat → Nat
  khead : Nat
  ktail : Nat
  released : Nat
  farray : Nat → Nat
  fhead : Nat
  ftail : Nat
  to_submit : Nat
  cmask : Nat
  cqes : Nat → Nat × Nat
  chead : Nat
  ctail : Nat

/-- `sqes`: the request an entry was filled for.  `pend` is `arbiter.pending`, `ext` is `ext_sq`
with the entry.  `got`: requests with an entry that is not filled; `ready`: filled.  `full`: a
processor holds `cq.try_lock`, has found the ring full and goes on with a system call.  `slot p`:
what processor `p` has read in `__release_sqes`.  Of the kernel: `flight`, consumed and not complete;
`overflow`, completions kept back; `accepted`, all consumed; `completed`, all completed.  `handed`:
all requests listed for the kernel.  `fulfilled`: futures, in the order they were fulfilled. -/
structure Sys where
  ctx : Ctx
  sqes : Nat → Nat
  pend : List Nat
  pendEmpty : Bool
  ext : List (Nat × Nat)
  extEmpty : Bool
  got : List (Nat × Nat)
  ready : List (Nat × Nat)
  ioPending : Bool
  full : Bool
  slot : Nat → Nat × Nat
  flight : List Nat
  overflow : List (Nat × Nat)
  accepted : List Nat
  completed : List (Nat × Nat)
  handed : List Nat
  fulfilled : List (Nat × Nat)

/-- `__io_uring_setup`: io/setup.cfa 203-232.  The numbers of entries are powers of two. -/
def init (k ck : Nat) : Sys :=
  { ctx :=
      { mask := 2 ^ k - 1, karray := fun _ => 0, khead := 0, ktail := 0, released := 0
        farray := id, fhead := 0, ftail := 2 ^ k, to_submit := 0
        cmask := 2 ^ ck - 1, cqes := fun _ => (0, 0), chead := 0, ctail := 0 }
    sqes := fun _ => 0, pend := [], pendEmpty := true, ext := [], extEmpty := true, got := []
    ready := [], ioPending := false, full := false, slot := fun _ => (0, 0), flight := []
    overflow := [], accepted := [], completed := [], handed := [], fulfilled := [] }

/-- `__alloc`: io.cfa 385-405. -/
def alloc (c : Ctx) (want : Nat) : Option (Ctx × List Nat) :=
  if sub32 c.ftail c.fhead < want then none
  else some ({ c with fhead := add32 c.fhead want }, readAll c.farray c.mask c.fhead want)

/-- `cfa_io_allocate` (io.cfa 412-449) with `__ioarbiter_allocate` (io.cfa 613-630). -/
def ask (s : Sys) (r : Nat) : Sys :=
  match alloc s.ctx 1 with
  | some (c, idxs) => { s with ctx := c, got := s.got ++ idxs.map fun i => (r, i) }
  | none => { s with pend := s.pend ++ [r], pendEmpty := false }

/-- The request writes its entry: io/call.cfa.in 195-200. -/
def fill (s : Sys) (r : Nat) : Sys :=
  match s.got.find? (fun p => p.1 = r) with
  | none => s
  | some p => { s with
      sqes := set s.sqes p.2 r, got := s.got.erase p, ready := s.ready ++ [p] }

/-- `__submit_only`: io.cfa 457-482. -/
def submitOnly (s : Sys) (idxs : List Nat) : Sys :=
  let c := s.ctx
  { s with
    ctx := { c with
      karray := writeAll c.karray c.mask c.ktail idxs
      ktail := add32 c.ktail idxs.length
      to_submit := c.to_submit + idxs.length }
    ioPending := true
    handed := s.handed ++ idxs.map s.sqes }

/-- `cfa_io_submit`, the fast path (io.cfa 501-521), lazy: an eager one is followed by a flush. -/
def submit (s : Sys) (r : Nat) : Sys :=
  match s.ready.find? (fun p => p.1 = r) with
  | none => s
  | some p => submitOnly { s with ready := s.ready.erase p } [p.2]

/-- `cfa_io_submit` from another processor: `__ioarbiter_submit` (io.cfa 683-713). -/
def submitExt (s : Sys) (r : Nat) : Sys :=
  match s.ready.find? (fun p => p.1 = r) with
  | none => s
  | some p => { s with
      ready := s.ready.erase p, ext := s.ext ++ [p], extEmpty := false, ioPending := true }

/-- `__ioarbiter_flush`: io.cfa 716-746. -/
def arbiterFlush (s : Sys) : Sys :=
  if s.extEmpty then s
  else
    let s' := s.ext.foldl (fun s p => submitOnly s [p.2]) s
    { s' with ext := [], extEmpty := true }

/-- `__ioarbiter_notify`: io.cfa 633-674.  A request that is woken without entries goes on with an
index that was never set: `none`. -/
def notifyLoop (s : Sys) : List Nat → Option Sys
  | [] => some { s with pend := [], pendEmpty := true }
  | r :: rs =>
    if sub32 s.ctx.ftail s.ctx.fhead > 1 then some { s with pend := r :: rs }
    else
      match alloc s.ctx 1 with
      | none => none
      | some (c, idxs) =>
        notifyLoop { s with ctx := c, got := s.got ++ idxs.map fun i => (r, i) } rs

/-- `__ioarbiter_notify` of a context: io.cfa 677-680. -/
def notify (s : Sys) : Option Sys := if s.pendEmpty then some s else notifyLoop s s.pend

/-- `__release_sqes` (io.cfa 539-584), from the values read of the heads. -/
def releaseWith (s : Sys) (chead phead : Nat) : Option Sys :=
  let c := s.ctx
  let count := sub32 chead phead
  if count = 0 then some s
  else
    notify { s with ctx := { c with
      farray := writeAll c.farray c.mask c.ftail (readAll c.karray c.mask phead count)
      released := chead
      ftail := add32 c.ftail count } }

/-- What a system call answers: an error (EAGAIN, EBUSY), or the kernel consumed up to `m`. -/
inductive Ans
  | busy | ok (m : Nat)
  deriving DecidableEq, Repr

/-- The kernel in `io_uring_enter`: consume, and with IORING_ENTER_GETEVENTS let out completions
that were kept back. -/
def kernelEnter (s : Sys) (m : Nat) (getevents : Bool) : Sys × Nat :=
  let c := s.ctx
  let ret := min m (min c.to_submit (sub32 c.ktail c.khead))
  let reqs := (readAll c.karray c.mask c.khead ret).map s.sqes
  let room := c.cmask + 1 - sub32 c.ctail c.chead
  let out := if getevents then s.overflow.take room else []
  ({ s with
      ctx := { c with
        khead := add32 c.khead ret
        cqes := writeAll c.cqes c.cmask c.ctail out
        ctail := add32 c.ctail out.length }
      flight := s.flight ++ reqs
      accepted := s.accepted ++ reqs
      overflow := if getevents then s.overflow.drop room else s.overflow }, ret)

/-- `ioring_syscsll` up to the release: io.cfa 104-130. -/
def enter (s : Sys) (a : Ans) (getevents : Bool) : Option Sys :=
  match a with
  | .busy => none
  | .ok m =>
    let x := kernelEnter s m getevents
    some { x.1 with ctx := { x.1.ctx with to_submit := x.1.ctx.to_submit - x.2 } }

/-- `ioring_syscsll`: io.cfa 104-142. -/
def syscall (s : Sys) (a : Ans) (getevents : Bool) : Option Sys :=
  match enter s a getevents with
  | none => some s
  | some s' => (releaseWith s' s'.ctx.khead s'.ctx.released).map fun s => { s with ioPending := false }

/-- `__cfa_do_flush`: io.cfa 237-248. -/
def flush (s : Sys) (a : Ans) : Option Sys :=
  let s := arbiterFlush s
  if s.ctx.to_submit ≠ 0 then syscall s a false else some s

/-- The kernel completes the `j`th of what it has consumed. -/
def complete (s : Sys) (j res : Nat) : Sys :=
  match s.flight[j]? with
  | none => s
  | some r =>
    let s := { s with flight := s.flight.eraseIdx j, completed := s.completed ++ [(r, res)] }
    let c := s.ctx
    if s.overflow = [] ∧ sub32 c.ctail c.chead < c.cmask + 1 then
      { s with ctx := { c with
          cqes := set c.cqes (c.ctail &&& c.cmask) (r, res), ctail := add32 c.ctail 1 } }
    else { s with overflow := s.overflow ++ [(r, res)] }

/-- One turn of the loop of `__cfa_do_drain`: io.cfa 185-216. -/
def drainTurn (s : Sys) : Sys :=
  let c := s.ctx
  let count := sub32 c.ctail c.chead
  { s with
    fulfilled := s.fulfilled ++ readAll c.cqes c.cmask c.chead count
    ctx := { c with chead := add32 c.chead count }
    full := !decide (count < c.cmask + 1) }

/-- `try_acquire` (io.cfa 146-168) and the first turn of `__cfa_do_drain` (io.cfa 171-230). -/
def drain (s : Sys) : Sys :=
  if s.ctx.chead = s.ctx.ctail then s else if s.full then s else drainTurn s

/-- The processor that drains makes its system call and another turn: io.cfa 218-219. -/
def drainMore (s : Sys) (a : Ans) : Option Sys :=
  if s.full then (syscall s a true).map drainTurn else some s

inductive Op
  | ask (r : Nat) | fill (r : Nat) | submit (r : Nat) | submitExt (r : Nat) | flush (a : Ans)
  | complete (j res : Nat) | drain | drainMore (a : Ans)
  | enter (a : Ans) | relRead (p : Nat) | relWrite (p : Nat)
  deriving DecidableEq, Repr

def step (s : Sys) : Op → Option Sys
  | .ask r => some (ask s r)
  | .fill r => some (fill s r)
  | .submit r => some (submit s r)
  | .submitExt r => some (submitExt s r)
  | .flush a => flush s a
  | .complete j res => some (complete s j res)
  | .drain => some (drain s)
  | .drainMore a => drainMore s a
  | .enter a => some ((enter s a false).getD s)
  | .relRead p => some { s with slot := set s.slot p (s.ctx.khead, s.ctx.released) }
  | .relWrite p => releaseWith s (s.slot p).1 (s.slot p).2

def runFrom (s : Sys) : List Op → Option Sys
  | [] => some s
  | op :: ops => (step s op).bind fun s' => runFrom s' ops

def run (k ck : Nat) (ops : List Op) : Option Sys := runFrom (init k ck) ops

end Verif.Model.IoUring
