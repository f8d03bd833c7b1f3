import Verif.Proof.IoUring

/-!
# C104: every I/O request reaches the kernel once and gets its own answer
-/
namespace Verif.Props.IoUring

open Verif.Model.IoUring
open Verif.Spec.IoUring
open Verif.Proof.IoUring

/-- For rings of any size and any history of requests, submissions from the own and from other
processors, flushes of which the kernel takes any part, completions in any order, and drains, where
no two processors are in a system call on one context at once: the kernel takes a request at most
once, in the order in which requests were listed, and only requests that were made; every request
made waits for an entry, or has one, or is listed, or was taken, and is there once; futures are
fulfilled in the order of the completions, each with the result of its own request; what the kernel
has taken is complete or in flight; no two requests have the same entry.  Partial: for two processors
in a system call at once see `C104_two_processors_violated`, and that every request is taken at last
is not claimed, see `C104_waiting_violated`. -/
theorem C104_once_partial {k ck : Nat} (hk : k ≤ 31) (hck : ck ≤ 31) {ops : List Op} {s : Sys}
    (hw : ∀ op ∈ ops, Whole op) (hd : (asked ops).Nodup) (h : run k ck ops = some s) :
    s.accepted.Nodup ∧
    s.accepted <+: s.handed ∧
    (asked ops).Perm (s.pend ++ s.got.map Prod.fst ++ s.ready.map Prod.fst ++ s.ext.map Prod.fst ++
      listed s ++ s.accepted) ∧
    s.fulfilled <+: s.completed ∧
    (s.completed.map Prod.fst ++ s.flight).Perm s.accepted ∧
    ((s.got ++ s.ready ++ s.ext).map Prod.snd).Nodup ∧
    inUse s ≤ 2 ^ k := by
  obtain ⟨F, K, C, H, -⟩ := ok_run (served := False) hk hck hw (fun h => h.elim) h
  have hl := H.listed
  have hn := H.nodup
  refine ⟨?_, ?_, ?_, ?_, H.fly, ?_, ?_⟩
  · exact (List.nodup_append.mp (H.cons.nodup_iff.mp hd)).2.1
  · rw [H.hand]; exact List.prefix_append _ _
  · rw [hl]; exact H.cons
  · rw [← H.done, List.append_assoc]; exact List.prefix_append _ _
  · rw [List.map_append, List.map_append]
    have h1 := (List.nodup_append.mp hn).1
    rw [List.append_assoc, List.append_assoc] at h1
    have h2 := (List.nodup_append.mp h1).2.1
    rwa [List.append_assoc]
  · unfold inUse
    rw [hl, List.length_map]
    have := H.total
    omega

/-- Two requests through a ring of two, one from another processor, answered in the other order,
then a third that uses an entry again. -/
def exOps : List Op :=
  [.ask 1, .ask 2, .fill 2, .fill 1, .submitExt 2, .submit 1, .flush (.ok 1), .flush (.ok 5),
    .complete 1 20, .drain, .complete 0 10, .ask 3, .fill 3, .submit 3, .flush (.ok 1), .drain]

example : (∀ op ∈ exOps, Whole op) ∧ (asked exOps).Nodup ∧
    (run 1 2 exOps).map (fun s => (s.accepted, s.fulfilled, s.flight, listed s)) =
      some ([1, 2, 3], [(2, 20), (1, 10)], [3], []) := by
  refine ⟨?_, by decide, by decide +kernel⟩
  intro op h
  simp only [exOps, List.mem_cons, List.not_mem_nil, or_false] at h
  rcases h with rfl | rfl | rfl | rfl | rfl | rfl | rfl | rfl | rfl | rfl | rfl | rfl | rfl | rfl | rfl |
    rfl <;> exact trivial

/-- A request gets an entry at once, one that nobody has, whenever fewer entries are in use than there
are; otherwise it is put last among those that wait. -/
theorem C104_entry {k ck : Nat} (hk : k ≤ 31) (hck : ck ≤ 31) {ops : List Op} {s : Sys}
    (hw : ∀ op ∈ ops, Whole op) (h : run k ck ops = some s) (r : Nat) :
    (inUse s < 2 ^ k → ∃ i, i < 2 ^ k ∧ i ∉ (s.got ++ s.ready ++ s.ext).map Prod.snd ∧
      (ask s r).got = s.got ++ [(r, i)] ∧ (ask s r).pend = s.pend) ∧
    (¬ inUse s < 2 ^ k → (ask s r).got = s.got ∧ (ask s r).pend = s.pend ++ [r]) := by
  obtain ⟨F, K, C, H, -⟩ := ok_run (served := False) hk hck hw (fun h => h.elim) h
  have hl := H.listed
  have ht := H.total
  unfold inUse
  rw [hl, List.length_map]
  cases F with
  | nil =>
    simp only [List.length_nil] at ht
    refine ⟨fun h => by omega, fun _ => ?_⟩
    rw [ask_none (alloc_nil H)]
    exact ⟨rfl, rfl⟩
  | cons x F =>
    simp only [List.length_cons] at ht
    refine ⟨fun _ => ⟨x, ?_, ?_, ?_⟩, fun h => by omega⟩
    · have : x ∈ List.range (2 ^ k) := H.idx.subset (by simp)
      simpa using this
    · have hn := H.nodup
      intro hx
      have : x ∉ F ++ s.got.map Prod.snd ++ s.ready.map Prod.snd ++ s.ext.map Prod.snd ++ K := by
        have := hn
        simp only [List.cons_append, List.nodup_cons] at this
        exact this.1
      apply this
      simp only [List.map_append, List.mem_append] at hx ⊢
      tauto
    · rw [ask_some (alloc_cons H)]
      exact ⟨rfl, rfl⟩

example : (run 1 2 [.ask 1]).map inUse = some 1 ∧ (run 1 2 [.ask 1, .ask 2]).map inUse = some 2 := by
  decide +kernel

/-- A flush that the kernel takes whole leaves nothing behind: all that was listed, and all that
other processors had submitted, is taken. -/
theorem C104_flush {k ck : Nat} (hk : k ≤ 31) (hck : ck ≤ 31) {ops : List Op} {s s' : Sys} {m : Nat}
    (hw : ∀ op ∈ ops, Whole op) (h : run k ck ops = some s)
    (hm : (listed s).length + s.ext.length ≤ m) (hf : flush s (.ok m) = some s') :
    s'.accepted = s.handed ++ s.ext.map Prod.fst ∧ s'.ext = [] ∧ listed s' = [] := by
  obtain ⟨F, K, C, H, -⟩ := ok_run (served := False) hk hck hw (fun h => h.elim) h
  obtain ⟨K', H1, hh, ha, he, -, -⟩ := inv_arbiterFlush H
  have hlen : K'.length ≤ m := by
    have h1 := H1.hand
    rw [hh, ha, H.hand, List.append_assoc] at h1
    have h2 := congrArg List.length (List.append_cancel_left h1)
    simp only [List.length_append, List.length_map] at h2
    rw [H.listed, List.length_map] at hm
    omega
  have hf' : (if (arbiterFlush s).ctx.to_submit ≠ 0 then syscall (arbiterFlush s) (.ok m) false
    else some (arbiterFlush s)) = some s' := hf
  split at hf'
  · obtain ⟨F', K'', C', h2, h3, h4, -, h5, -, -⟩ := inv_syscall H1 (.ok m) false hf'
    have h6 := (h5 m rfl).1
    rw [List.take_of_length_le hlen, ← H1.hand, hh] at h6
    refine ⟨h6, h4.trans he, ?_⟩
    unfold listed
    rw [h3, hh, h6]
    simp
  · next h0 =>
    cases hf'
    have hK : K' = [] := by
      rw [H1.tosub] at h0
      simpa using h0
    have h1 := H1.hand
    rw [hK] at h1
    simp only [List.map_nil, List.append_nil] at h1
    refine ⟨by rw [← h1, hh], he, ?_⟩
    unfold listed
    rw [h1]; simp

example : ((run 1 2 (exOps.take 6)).bind fun s => (flush s (.ok 2)).map fun s' =>
    (listed s, s.ext.map Prod.fst, s'.accepted)) = some ([1], [2], [1, 2]) := by decide +kernel

/-- No step fails while no request waits for an entry. -/
theorem C104_no_crash {k ck : Nat} (hk : k ≤ 31) (hck : ck ≤ 31) {ops : List Op} {s : Sys}
    (hw : ∀ op ∈ ops, Whole op) (h : run k ck ops = some s) (hp : s.pend = [])
    (op : Op) (ho : Whole op) : ∃ s', step s op = some s' := by
  obtain ⟨F, K, C, H, -⟩ := ok_run (served := False) hk hck hw (fun h => h.elim) h
  cases op with
  | flush a =>
    obtain ⟨K', H1, -, -, -, h2, -⟩ := inv_arbiterFlush H
    show ∃ s', flush s a = some s'
    unfold flush
    dsimp only
    split
    · exact syscall_noone H1 (h2.trans hp) a false
    · exact ⟨_, rfl⟩
  | drainMore a =>
    show ∃ s', drainMore s a = some s'
    unfold drainMore
    split
    · obtain ⟨s1, h1⟩ := syscall_noone H hp a true
      exact ⟨_, by rw [h1]; rfl⟩
    · exact ⟨_, rfl⟩
  | enter a => exact absurd ho (by simp [Whole])
  | relRead p => exact absurd ho (by simp [Whole])
  | relWrite p => exact absurd ho (by simp [Whole])
  | ask r => exact ⟨_, rfl⟩
  | fill r => exact ⟨_, rfl⟩
  | submit r => exact ⟨_, rfl⟩
  | submitExt r => exact ⟨_, rfl⟩
  | complete j res => exact ⟨_, rfl⟩
  | drain => exact ⟨_, rfl⟩

example : (run 1 2 exOps).map (fun s => s.pend) = some [] := by decide +kernel

/-- If no call for completions that were kept back has been refused, a drain that ends (it found the
completion ring not full) leaves no request complete whose future is not fulfilled. -/
theorem C104_drained_partial {k ck : Nat} (hk : k ≤ 31) (hck : ck ≤ 31) {ops : List Op} {s : Sys}
    (hw : ∀ op ∈ ops, Whole op) (hs : ∀ op ∈ ops, Served op) (h : run k ck ops = some s)
    (hf : (drain s).full = false) : (drain s).fulfilled = (drain s).completed :=
  (ok_drain (ok_run (served := True) hk hck hw (fun _ => hs) h)).2 trivial hf

/-- Three completions for a completion ring of two. -/
def exFull : List Op :=
  [.ask 1, .ask 2, .ask 3, .fill 1, .fill 2, .fill 3, .submit 1, .submit 2, .submit 3, .flush (.ok 3),
    .complete 2 30, .complete 0 10, .complete 0 20]

example : (run 2 1 exFull).map (fun s => ((drain s).full, (drain s).fulfilled)) =
      some (true, [(3, 30), (1, 10)]) ∧
    (run 2 1 (exFull ++ [.drain, .drainMore (.ok 0)])).map
      (fun s => ((drain s).full, (drain s).fulfilled)) =
      some (false, [(3, 30), (1, 10), (2, 20)]) := by decide +kernel

/-- If one request waits, all entries being in use, and a flush frees one entry, the request is given
one.  Partial: it must be exactly one of each, see `C104_waiting_violated` and
`C104_no_entry_violated`. -/
theorem C104_granted_partial {k ck : Nat} (hk : k ≤ 31) (hck : ck ≤ 31) {ops : List Op} {s s' : Sys}
    {r : Nat} (hw : ∀ op ∈ ops, Whole op) (h : run k ck ops = some s) (hu : inUse s = 2 ^ k)
    (hl : listed s ≠ []) (he : s.ext = []) (hp : s.pend = [r]) (hf : flush s (.ok 1) = some s') :
    s'.pend = [] ∧ ∃ i, s'.got = s.got ++ [(r, i)] := by
  obtain ⟨F, K, C, H, -⟩ := ok_run (served := False) hk hck hw (fun h => h.elim) h
  have hkl := H.listed
  have ht := H.total
  unfold inUse at hu
  rw [hkl, List.length_map] at hu
  have hF : F = [] := List.eq_nil_of_length_eq_zero (by omega)
  subst hF
  cases K with
  | nil => exact absurd hkl hl
  | cons x K =>
    have haf : (arbiterFlush s).ctx.to_submit = s.ctx.to_submit ∧ (arbiterFlush s).pend = s.pend ∧
        (arbiterFlush s).got = s.got ∧ Inv k ck (asked ops) (arbiterFlush s) [] (x :: K) C := by
      unfold arbiterFlush
      rw [he]
      split
      · exact ⟨rfl, rfl, rfl, H⟩
      · exact ⟨rfl, rfl, rfl, H.mask, H.cmask, H.free, H.ring, H.rel, H.tosub, H.comp,
          by have := H.idx; rw [he] at this; exact this,
          by have := H.filled; rw [he] at this; exact this, H.hand, fun _ => rfl, H.pendE, H.done,
          H.fly, by have := H.cons; rw [he] at this; exact this⟩
    obtain ⟨h1, h2, h3, H1⟩ := haf
    have hf' : (if (arbiterFlush s).ctx.to_submit ≠ 0 then syscall (arbiterFlush s) (.ok 1) false
      else some (arbiterFlush s)) = some s' := hf
    rw [if_pos (by rw [H1.tosub]; simp)] at hf'
    have hgot : ∀ s1, enter (arbiterFlush s) (.ok 1) false = some s1 →
        s1.got = (arbiterFlush s).got := by
      intro s1 h
      unfold enter at h
      cases h
      rfl
    obtain ⟨s1, h4, ⟨C', hm, -, -⟩, -, -, -, -, h5, -⟩ := mid_enter H1 1 false
    unfold syscall at hf'
    rw [h4] at hf'
    cases hr : releaseWith s1 s1.ctx.khead s1.ctx.released with
    | none => simp [hr] at hf'
    | some s2 =>
      simp only [hr, Option.map_some, Option.some.injEq] at hf'
      subst hf'
      obtain ⟨h6, h7⟩ := release_one (x := x) (r := r) hm (h5.trans (h2.trans hp)) hr
      exact ⟨h6, x, by rw [← h3, ← hgot s1 h4]; exact h7⟩

example : ((run 1 2 [.ask 1, .ask 2, .ask 3, .fill 1, .submit 1]).bind fun s =>
    (flush s (.ok 1)).map fun s' => (inUse s, s.pend, s'.pend, s'.got.map Prod.fst)) =
    some (2, [3], [], [2, 3]) := by decide +kernel

/-! ## Where it fails -/

/-- C104 fails: a request that waits for an entry is left waiting for ever although all entries are
free.  The arbiter passes over a waiting request if *more* entries are free than it wants.  Ring of
two; two requests are submitted while a third waits; the flush frees both entries, and whatever
happens later, short of further requests, the third waits on. -/
theorem C104_waiting_violated :
    ∃ ops s, (∀ op ∈ ops, Whole op) ∧ run 1 2 ops = some s ∧ inUse s = 0 ∧
      ∀ more, (∀ op ∈ more, Whole op) → asked more = [] →
        ∃ s', runFrom s more = some s' ∧ 3 ∈ s'.pend ∧ 3 ∉ s'.got.map Prod.fst := by
  let ops : List Op := [.ask 1, .ask 2, .ask 3, .fill 1, .fill 2, .submit 1, .submit 2, .flush (.ok 2)]
  have h1 : (run 1 2 ops).isSome = true := by decide +kernel
  obtain ⟨s, hs⟩ := Option.isSome_iff_exists.mp h1
  have h2 : (run 1 2 ops).map (fun s => ((s.pend, s.got, s.ready, s.extEmpty),
      s.ctx.to_submit, s.ctx.released, s.ctx.khead, inUse s)) =
      some (([3], [], [], true), 0, 2, 2, 0) := by
    set_option synthInstance.maxSize 1000 in
    set_option synthInstance.maxHeartbeats 200000 in
    decide +kernel
  rw [hs] at h2
  simp only [Option.map_some, Option.some.injEq, Prod.mk.injEq] at h2
  obtain ⟨⟨e1, e2, e3, e4⟩, e5, e6, e7, e8⟩ := h2
  refine ⟨ops, s, ?_, hs, e8, ?_⟩
  · intro op h
    simp only [ops, List.mem_cons, List.not_mem_nil, or_false] at h
    rcases h with rfl | rfl | rfl | rfl | rfl | rfl | rfl | rfl <;> exact trivial
  · intro more hw hn
    have : Stuck s := ⟨e1, e2, e3, e4, e5, e6.trans e7.symm, by rw [e7]; decide⟩
    obtain ⟨s', h3, h4⟩ := stuck_runFrom this hw hn
    exact ⟨s', h3, by simp [h4.pend], by simp [h4.got]⟩

/-- C104 fails: a waiting request is woken without an entry, and goes on with an index that was never
set, if fewer entries are free than it wants.  Ring of one, two requests wait, one entry is
freed. -/
theorem C104_no_entry_violated :
    ∃ ops s, (∀ op ∈ ops, Whole op) ∧ (asked ops).Nodup ∧ run 0 2 ops = some s ∧
      s.pend = [2, 3] ∧ flush s (.ok 1) = none := by
  let ops : List Op := [.ask 1, .ask 2, .ask 3, .fill 1, .submit 1]
  have h1 : (run 0 2 ops).isSome = true := by decide +kernel
  obtain ⟨s, hs⟩ := Option.isSome_iff_exists.mp h1
  have h2 : (run 0 2 ops).map (fun s => (s.pend, (flush s (.ok 1)).isNone)) =
    some ([2, 3], true) := by decide +kernel
  rw [hs] at h2
  simp only [Option.map_some, Option.some.injEq, Prod.mk.injEq, Option.isNone_iff_eq_none] at h2
  refine ⟨ops, s, ?_, by decide, hs, h2.1, h2.2⟩
  intro op h
  simp only [ops, List.mem_cons, List.not_mem_nil, or_false] at h
  rcases h with rfl | rfl | rfl | rfl | rfl <;> exact trivial

/-- C104 fails: after the kernel has taken only part of what is listed, the processor is marked as
having nothing to submit, with a request still listed. -/
theorem C104_mark_violated :
    ∃ ops s, (∀ op ∈ ops, Whole op) ∧ (asked ops).Nodup ∧ run 1 2 ops = some s ∧
      listed s = [2] ∧ s.ioPending = false := by
  let ops : List Op := [.ask 1, .ask 2, .fill 1, .fill 2, .submit 1, .submit 2, .flush (.ok 1)]
  have h1 : (run 1 2 ops).isSome = true := by decide +kernel
  obtain ⟨s, hs⟩ := Option.isSome_iff_exists.mp h1
  have h2 : (run 1 2 ops).map (fun s => (listed s, s.ioPending)) = some ([2], false) := by
    decide +kernel
  rw [hs] at h2
  simp only [Option.map_some, Option.some.injEq, Prod.mk.injEq] at h2
  refine ⟨ops, s, ?_, by decide, hs, h2.1, h2.2⟩
  intro op h
  simp only [ops, List.mem_cons, List.not_mem_nil, or_false] at h
  rcases h with rfl | rfl | rfl | rfl | rfl | rfl | rfl <;> exact trivial

/-- C104 fails: if the call for completions that were kept back is refused once (EAGAIN, EBUSY), the
drain ends as if there were none, with the completion ring empty; then no future of this context is
ever fulfilled again, of old requests or of new ones. -/
theorem C104_refused_violated :
    ∃ ops s, (∀ op ∈ ops, Whole op) ∧ (asked ops).Nodup ∧ run 2 1 ops = some s ∧
      s.fulfilled = [(3, 30), (1, 10)] ∧ (2, 20) ∈ s.completed ∧
      ∀ more s', (∀ op ∈ more, Whole op) → runFrom s more = some s' →
        s'.fulfilled = [(3, 30), (1, 10)] := by
  let ops : List Op := exFull ++ [.ask 4, .fill 4, .submit 4, .drain, .drainMore .busy]
  have h1 : (run 2 1 ops).isSome = true := by decide +kernel
  obtain ⟨s, hs⟩ := Option.isSome_iff_exists.mp h1
  have h2 : (run 2 1 ops).map (fun s => ((s.fulfilled, s.completed, s.overflow), s.ctx.chead,
      s.ctx.ctail, s.full)) =
    some (([(3, 30), (1, 10)], [(3, 30), (1, 10), (2, 20)], [(2, 20)]), 2, 2, false) := by
    set_option synthInstance.maxSize 1000 in
    set_option synthInstance.maxHeartbeats 200000 in
    decide +kernel
  rw [hs] at h2
  simp only [Option.map_some, Option.some.injEq, Prod.mk.injEq] at h2
  obtain ⟨⟨e1, e2, e3⟩, e4, e5, e6⟩ := h2
  refine ⟨ops, s, ?_, by decide, hs, e1, by simp [e2], ?_⟩
  · intro op h
    simp only [ops, exFull, List.cons_append, List.nil_append, List.mem_cons, List.not_mem_nil,
      or_false] at h
    rcases h with rfl | rfl | rfl | rfl | rfl | rfl | rfl | rfl | rfl | rfl | rfl | rfl | rfl | rfl |
      rfl | rfl | rfl | rfl <;> exact trivial
  · intro more s' hw hr
    have : Mute [(3, 30), (1, 10)] s := ⟨e1, by simp [e3], e4.trans e5.symm, by rw [e5]; decide, e6⟩
    exact (mute_runFrom this hw hr).ful

/-- C104 fails: two processors (the owner of a context, and one that helps) can release the entries
of one system call both, and an entry is then free twice.  Requests 2 and 5 get the same entry: the
kernel takes 5 twice and never 2. -/
theorem C104_two_processors_violated :
    ∃ ops s, (asked ops).Nodup ∧ run 2 2 ops = some s ∧ s.accepted = [1, 5, 5] ∧
      listed s = [] ∧ 2 ∉ s.accepted ++ s.pend ++ (s.got ++ s.ready ++ s.ext).map Prod.fst := by
  let ops : List Op := [.ask 1, .fill 1, .submit 1, .enter (.ok 1), .relRead 0, .relRead 1,
    .relWrite 1, .relWrite 0, .ask 2, .ask 3, .ask 4, .ask 5, .fill 2, .fill 5, .submit 2, .submit 5,
    .flush (.ok 2)]
  have h1 : (run 2 2 ops).isSome = true := by decide +kernel
  obtain ⟨s, hs⟩ := Option.isSome_iff_exists.mp h1
  have h2 : (run 2 2 ops).map (fun s => (s.accepted, listed s,
      s.accepted ++ s.pend ++ (s.got ++ s.ready ++ s.ext).map Prod.fst)) =
    some ([1, 5, 5], [], [1, 5, 5, 3, 4]) := by decide +kernel
  rw [hs] at h2
  simp only [Option.map_some, Option.some.injEq, Prod.mk.injEq] at h2
  refine ⟨ops, s, by decide, hs, h2.1, h2.2.1, ?_⟩
  rw [h2.2.2]; decide

end Verif.Props.IoUring
