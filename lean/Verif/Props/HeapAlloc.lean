import Verif.Proof.HeapAllocG
/-!
C84-C87: the memory allocator.  The model is `Verif.Model.HeapAlloc`; what each routine promises to its client is
`promise` in `Verif.Spec.HeapAlloc`.
-/
namespace Verif.HeapAlloc

/-- The byte is in memory the allocator got from the system. -/
def FromSystem (s : St) (x : Nat) : Prop := (s.heapBegin ≤ x ∧ x < s.heapEnd) ∨ ∃ m ∈ s.maps, m.1 ≤ x ∧ x < m.1 + m.2

/-- The start of a program with the default values, the break at 4 MB. -/
def dflt : St := start (2 ^ 22) (10 * 2 ^ 20) (512 * 2 ^ 10 + 1)

theorem dflt_ok : StartOk (2 ^ 22) (10 * 2 ^ 20) (512 * 2 ^ 10 + 1) := by
  refine ⟨by decide, by decide, by decide, by decide, by decide +kernel⟩

theorem some_getD {α : Type} {o : Option α} {d : α} (h : o.isSome = true) : o = some (o.getD d) := by cases o <;> simp_all

/-- Two threads, with blocks from a bucket, aligned, mapped, enlarged, and one given back by the other thread. -/
def demo : List Ev :=
  [.start 0, .start 1, .call 0 (.malloc 40), .run 0 none, .run 0 none, .run 0 (some 0), .run 0 none,
   .call 1 (.cmemalign 256 10 10), .run 1 none, .run 1 none, .run 1 (some 0), .run 1 none, .run 1 none, .run 1 none,
   .call 0 (.malloc 1000000), .run 0 (some (2 ^ 46)), .run 0 none, .write (2 ^ 46 + 16) 999999 7]

/-! ### C84 -/

/-- C84: blocks clients hold are at an address that is a multiple of the promised alignment (and of 16), have at least
the size asked for, lie in memory from the system, and have no byte in common, for every execution of a program whose
requests stay away from 2^64 and that does not allocate while it changes the threshold for mapped blocks.  The allocator
never uses an address that is not mapped. -/
theorem C84_blocks_partial {brk expand thr : Nat} (h0 : StartOk brk expand thr) {s : St} (h : Reach nextSane (start brk expand thr) s) :
    s.status ≠ .fault ∧
    (∀ p r, s.live p = some r → p ≠ 0 ∧ p % r.align = 0 ∧ p % 16 = 0 ∧ r.size ≤ mallocUsableSize s.mem p ∧
      ∀ x, p ≤ x → x < p + mallocUsableSize s.mem p → FromSystem s x) ∧
    (∀ p r q r' x, s.live p = some r → s.live q = some r' → p ≠ q →
      ¬ ((p ≤ x ∧ x < p + mallocUsableSize s.mem p) ∧ (q ≤ x ∧ x < q + mallocUsableSize s.mem q))) := by
  obtain ⟨⟨g, i⟩, _⟩ := reach_inv h0 h
  refine ⟨i.nofault, ?_, ?_⟩
  · intro p r hl
    obtain ⟨a, tot, k, h1, h2, h3, h4, h5, h6, _⟩ := i.client hl
    exact ⟨by omega, h5, h6, by omega, fun x x1 x2 => i.core.system h1 (by omega) (by omega)⟩
  · intro p r q r' x hp hq hne ⟨⟨x1, x2⟩, x3, x4⟩
    obtain ⟨a, tot, k, h1, h2, h3, h4, _⟩ := i.client hp
    obtain ⟨a', tot', k', f1, f2, f3, f4, _⟩ := i.client hq
    have hn : a ≠ a' := by
      intro e; subst e
      rw [h1] at f1
      simp only [Option.some.injEq, Blk.mk.injEq, Stat.live.injEq] at f1
      exact hne f1.2.2
    exact i.core.disj h1 f1 hn (x := x) (by omega) (by show x < a + tot; omega) ⟨by omega, by show x < a' + tot'; omega⟩

example : ∃ s, Reach nextSane dflt s ∧ (s.live (2 ^ 22 + 16)).isSome = true ∧ (s.live 5243136).isSome = true ∧
    (s.live (2 ^ 46 + 16)).isSome = true ∧ s.mem (2 ^ 46 + 16 + 999999) = 7 :=
  ⟨(exec nextSane dflt demo).getD dflt, Reach.of_isSome _ (by decide +kernel), by decide +kernel, by decide +kernel, by decide +kernel,
    by decide +kernel⟩

/-- C84: a routine of a reasonable program that returns a block returns one that no client holds, with the promise of
its call, and never the null pointer. -/
theorem C84_returned_partial {brk expand thr : Nat} (h0 : StartOk brk expand thr) {s s' : St}
    (h : Reach nextSane (start brk expand thr) s) {t : Nat} {ans : Option Nat} (hn : nextSane s (.run t ans) = some s') :
    (s'.live = s.live ∧ ∀ p, s.pc t ≠ .got p []) ∨
    ∃ p, s.pc t = .got p [] ∧ p ≠ 0 ∧ s.live p = none ∧ s'.live = upd s.live p (some (s.cur t)) ∧ s'.pc t = .idle := by
  obtain ⟨⟨g, i⟩, _⟩ := reach_inv h0 h
  exact live_next i (nextSane_next hn)

example : ∃ s s', Reach nextSane dflt s ∧ nextSane s (.run 0 none) = some s' ∧ (s.live (2 ^ 22 + 16)).isNone = true ∧
    (s'.live (2 ^ 22 + 16)).isSome = true :=
  ⟨(exec nextSane dflt (demo.take 6)).getD dflt, _, Reach.of_isSome _ (by decide +kernel), some_getD (d := dflt) (by decide +kernel),
    by decide +kernel, by decide +kernel⟩

/-- What is missing in `C84_blocks_partial` is false.  Adding the size of the header wraps around: a request for
2^64 - 16 bytes gets a block with 16 bytes, and the next block lies within the bytes asked for. -/
theorem C84_malloc_wraps_violated : ∃ s, Reach next dflt s ∧ s.status = .ok ∧
    (s.live (2 ^ 22 + 16)).map Rec.size = some (2 ^ 64 - 16) ∧ mallocUsableSize s.mem (2 ^ 22 + 16) = 16 ∧
    (s.live (2 ^ 22 + 48)).isSome = true :=
  let es : List Ev := [.start 0, .call 0 (.malloc (2 ^ 64 - 16)), .run 0 none, .run 0 none, .run 0 (some 0), .run 0 none,
    .call 0 (.malloc 1), .run 0 none, .run 0 none, .run 0 (some 0), .run 0 none]
  ⟨(exec next dflt es).getD dflt, Reach.of_isSome _ (by decide +kernel), by decide +kernel, by decide +kernel,
    by decide +kernel, by decide +kernel⟩

/-- calloc multiplies without a check: 2^32 elements of 2^32 bytes get a block with 16 bytes. -/
theorem C84_calloc_wraps_violated : ∃ s, Reach next dflt s ∧ s.status = .ok ∧
    (s.live (2 ^ 22 + 16)).map Rec.size = some (2 ^ 64) ∧ mallocUsableSize s.mem (2 ^ 22 + 16) = 16 :=
  let es : List Ev := [.start 0, .call 0 (.calloc (2 ^ 32) (2 ^ 32)), .run 0 none, .run 0 none, .run 0 (some 0), .run 0 none, .run 0 none]
  ⟨(exec next dflt es).getD dflt, Reach.of_isSome _ (by decide +kernel), by decide +kernel, by decide +kernel,
    by decide +kernel⟩

/-- memalign uses the null pointer it gets for a request that is too large. -/
theorem C84_memalign_null_violated : ∃ s, Reach next dflt s ∧ s.status = .fault :=
  let es : List Ev := [.start 0, .call 0 (.memalign 32 (2 ^ 64 - 100)), .run 0 none, .run 0 none]
  ⟨(exec next dflt es).getD dflt, Reach.of_isSome _ (by decide +kernel), by decide +kernel⟩

/-- And so does realloc. -/
theorem C84_realloc_null_violated : ∃ s, Reach next dflt s ∧ s.status = .fault :=
  let es : List Ev := [.start 0, .call 0 (.malloc 8), .run 0 none, .run 0 none, .run 0 (some 0), .run 0 none,
    .call 0 (.realloc (2 ^ 22 + 16) (2 ^ 64 - 100)), .run 0 none, .run 0 none]
  ⟨(exec next dflt es).getD dflt, Reach.of_isSome _ (by decide +kernel), by decide +kernel⟩

/-- An allocation between the two assignments of a change of the threshold gets a block that is too small. -/
theorem C84_mallopt_race_violated : ∃ s, Reach next dflt s ∧ s.status = .ok ∧
    (s.live (2 ^ 22 + 16)).map Rec.size = some 3000000 ∧ mallocUsableSize s.mem (2 ^ 22 + 16) < 3000000 :=
  let es : List Ev := [.start 0, .mmapStart 4000000, .call 0 (.malloc 3000000), .run 0 none, .run 0 none, .run 0 (some 0), .run 0 none]
  ⟨(exec next dflt es).getD dflt, Reach.of_isSome _ (by decide +kernel), by decide +kernel, by decide +kernel, by decide +kernel⟩

/-- C84: if the heap starts at a page, grows by whole pages, and never by less than the largest bucket, a step of a routine
stops the program only if the system refuses memory, the addresses of `sbrk` are used up, or the alignment of a resize is
not a power of two of at least 16. -/
theorem C84_stops_partial {brk expand thr : Nat} (h0 : StartOk brk expand thr)
    (h1 : brk % page = 0 ∧ expand % page = 0 ∧ bs 90 ≤ expand) {s s' : St} (h : Reach nextPaged (start brk expand thr) s)
    (hs : s.status = .ok) {t : Nat} {ans : Option Nat} (hn : nextPaged s (.run t ans) = some s') (ha : s'.status = .aborted) :
    ans = none ∨ sbrkLimit < s.heapEnd + s.heapRem + s.expand ∨ ∃ al n, s.pc t = .aln al n ∧ ¬ goodAlign al := by
  obtain ⟨⟨g, i⟩, hx, hp⟩ := reach_paged h0 ⟨h1.2.1, h1.2.2, by simpa [start] using h1.1⟩ h
  have hn := nextSane_next (nextPaged_sane hn)
  unfold next at hn
  rw [if_neg (by simp [hs])] at hn
  exact (run_paged i hp hx hn).2 ha hs

example : (2 ^ 22 % page = 0 ∧ 10 * 2 ^ 20 % page = 0 ∧ bs 90 ≤ 10 * 2 ^ 20) ∧ ∃ s s', Reach nextPaged dflt s ∧ s.status = .ok ∧
    nextPaged s (.run 0 none) = some s' ∧ s'.status = .aborted :=
  ⟨by decide +kernel, (exec nextPaged dflt [.start 0, .call 0 (.malloc 1000000)]).getD dflt, _, Reach.of_isSome _ (by decide +kernel), by decide +kernel,
    some_getD (d := dflt) (by decide +kernel), by decide +kernel⟩

/-- After mallopt( M_TOP_PAD, 0 ) the heap grows by less than a page, and the next time it has to grow the program is
stopped, although the system grants the memory. -/
theorem C84_top_pad_violated : ∃ s, Reach nextSane dflt s ∧ s.status = .aborted ∧ (s.live (2 ^ 22 + 16)).isSome = true ∧
    s.heapEnd = 2 ^ 22 + 32 :=
  let es : List Ev := [.start 0, .topPad 0, .call 0 (.malloc 8), .run 0 none, .run 0 none, .run 0 (some 0), .run 0 none,
    .call 0 (.malloc 8), .run 0 none, .run 0 none, .run 0 (some 0)]
  ⟨(exec nextSane dflt es).getD dflt, Reach.of_isSome _ (by decide +kernel), by decide +kernel, by decide +kernel, by decide +kernel⟩

/-! ### C85 -/

/-- C85: what a client knows of a block it holds is true: the bytes it has written, the 0 of calloc, and the bytes realloc
has kept are there, and the questions about size, alignment and fill of the block get the right answer. -/
theorem C85_contents {brk expand thr : Nat} (h0 : StartOk brk expand thr) {s : St} (h : Reach nextSane (start brk expand thr) s)
    {p : Nat} {r : Rec} (hl : s.live p = some r) :
    (∀ j v, j < r.size → r.val j = some v → s.mem (p + j) = v) ∧ mallocSize s.mem p = r.size ∧
    mallocAlignment s.mem p = r.align ∧ mallocZeroFill s.mem p = r.zero := by
  obtain ⟨⟨g, i⟩, _⟩ := reach_inv h0 h
  obtain ⟨a, tot, k, _, _, _, _, _, _, h7, h8, h9, h10⟩ := i.client hl
  exact ⟨h10, h7, h8, h9⟩

example : ∃ s, Reach nextSane dflt s ∧ (s.live 5243136).map (fun r => (r.size, r.align, r.zero, r.val 99)) = some (100, 256, true, some 0) :=
  ⟨(exec nextSane dflt demo).getD dflt, Reach.of_isSome _ (by decide +kernel), by decide +kernel⟩

/-- C85: what a client knows of a block changes only when it writes to the block or gives it back, whatever other threads
do; a write changes what is known of that byte only. -/
theorem C85_kept {brk expand thr : Nat} (h0 : StartOk brk expand thr) {s s' : St} (h : Reach nextSane (start brk expand thr) s)
    {e : Ev} (hn : nextSane s e = some s') {p : Nat} {r : Rec} (hl : s.live p = some r) :
    s'.live p = some r ∨ (∃ j v, e = .write p j v ∧ s'.live p = some { r with val := upd r.val j (some v) }) ∨
    ∃ t q, e = .call t q ∧ q.old = p := by
  obtain ⟨⟨g, i⟩, _⟩ := reach_inv h0 h
  have hp : p ≠ 0 := (i.live p r hl).ne i.core
  have := live_next i (nextSane_next hn)
  cases e with
  | call t q =>
    dsimp only at this
    by_cases hq : q.old = p
    · exact Or.inr (Or.inr ⟨t, q, rfl, hq⟩)
    · left; rw [this]; split
      · exact hl
      · rw [upd_n (fun e => hq e.symm)]; exact hl
  | run t a =>
    rcases this with h | ⟨p', _, _, h1, h2, _⟩
    · left; rw [h.1]; exact hl
    · left; rw [h2, upd_n (fun e => by subst e; rw [hl] at h1; simp at h1)]; exact hl
  | write p' j v =>
    obtain ⟨r', h1, h2⟩ := this
    by_cases x : p = p'
    · subst x; rw [hl] at h1; cases h1
      exact Or.inr (Or.inl ⟨j, v, rfl, by rw [h2, upd_same]⟩)
    · left; rw [h2, upd_n x]; exact hl
  | _ => left; dsimp only at this; rw [this]; exact hl

example : ∃ s s', Reach nextSane dflt s ∧ nextSane s (.run 1 none) = some s' ∧ (s.live (2 ^ 22 + 16)).isSome = true :=
  ⟨(exec nextSane dflt (demo.take 8)).getD dflt, _, Reach.of_isSome _ (by decide +kernel), some_getD (d := dflt) (by decide +kernel),
    by decide +kernel⟩

/-- C85: a call fixes what its client may expect, from the request and from what was known of the block given back, and
nothing but the next call of the thread changes it.  With `C84_returned_partial` and `C85_contents`: a block that is
returned keeps the promise of the call. -/
theorem C85_promise {s s' : St} {e : Ev} (hn : next s e = some s') (t : Nat) :
    (∀ q, e = .call t q → s'.cur t = promise q (if q.old = 0 then none else s.live q.old)) ∧
    ((∀ q, e ≠ .call t q) → s'.cur t = s.cur t) := cur_next hn t

example : ∃ s, Reach nextSane dflt s ∧ (s.cur 1).zero = true ∧ (s.cur 1).align = 256 :=
  ⟨(exec nextSane dflt (demo.take 10)).getD dflt, Reach.of_isSome _ (by decide +kernel), by decide +kernel, by decide +kernel⟩

/-- realloc of a block of calloc in two threads' memory: the bytes written are kept and the new ones are 0. -/
example : ∃ s p, Reach nextSane dflt s ∧ (s.live p).map (fun r => (r.size, r.val 3, r.val 150)) = some (200, some 9, some 0) ∧ p ≠ 2 ^ 22 + 16 ∧
    s.mem (p + 3) = 9 ∧ s.mem (p + 150) = 0 :=
  let es : List Ev := [.start 0, .call 0 (.calloc 4 10), .run 0 none, .run 0 none, .run 0 (some 0), .run 0 none, .run 0 none,
    .write (2 ^ 22 + 16) 3 9, .call 0 (.realloc (2 ^ 22 + 16) 200), .run 0 none, .run 0 none, .run 0 (some 0), .run 0 none, .run 0 none,
    .run 0 none, .run 0 none]
  ⟨(exec nextSane dflt es).getD dflt, 2 ^ 22 + 80, Reach.of_isSome _ (by decide +kernel), by decide +kernel, by decide, by decide +kernel,
    by decide +kernel⟩

/-- resize( p, 0 ) is said to be the same as free( p ) (heap.cfa:1327-1330), but returns a block, which stays allocated
if the client takes the comment at its word. -/
theorem C85_resize_0_violated : ∃ s, Reach nextSane dflt s ∧ s.status = .ok ∧ s.pc 0 = .idle ∧ (s.live (2 ^ 22 + 16)).isSome = true :=
  let es : List Ev := [.start 0, .call 0 (.malloc 8), .run 0 none, .run 0 none, .run 0 (some 0), .run 0 none,
    .call 0 (.resize (2 ^ 22 + 16) 0), .run 0 none, .run 0 none, .run 0 none]
  ⟨(exec nextSane dflt es).getD dflt, Reach.of_isSome _ (by decide +kernel), by decide +kernel, by decide +kernel, by decide +kernel⟩

/-- memalign( al, 0 ) is said to return an address that is a multiple of `al` (heap.cfa:1428), but does not. -/
theorem C85_memalign_0_violated : ∃ s, Reach nextSane dflt s ∧ s.status = .ok ∧ s.pc 0 = .idle ∧ (s.live (2 ^ 22 + 16)).isSome = true ∧
    (2 ^ 22 + 16) % 64 ≠ 0 :=
  let es : List Ev := [.start 0, .call 0 (.memalign 64 0), .run 0 none, .run 0 none, .run 0 (some 0), .run 0 none]
  ⟨(exec nextSane dflt es).getD dflt, Reach.of_isSome _ (by decide +kernel), by decide +kernel, by decide +kernel, by decide +kernel, by decide⟩

/-! ### C86 -/

/-- C86: a routine that has begun always has a next step, and between the call and the return a thread makes at most eight
steps, whatever the other threads do.  (A step waits for at most one lock, which is held for one step only.) -/
theorem C86_routines_end {brk expand thr : Nat} {s : St} (h : Reach next (start brk expand thr) s) (hs : s.status = .ok) (t : Nat) :
    (s.pc t ≠ .idle → ∃ ans s', next s (.run t ans) = some s') ∧
    ∀ q es s1 s2, next s (.call t q) = some s1 → exec next s1 es = some s2 → (∀ q', Ev.call t q' ∉ es) → es.countP (Ev.isStepOf t) ≤ 8 := by
  refine ⟨fun hb => can_run hs hb (busy_mgr (fun _ => rfl) h t hb), ?_⟩
  intro q es s1 s2 h1 h2 h3
  have h4 := exec_rank h3 h2
  by_cases hok : s1.status = .ok
  · have := (next_rank h1 t).1 rfl hok
    omega
  · cases es with
    | nil => simp
    | cons e es =>
      unfold exec at h2
      unfold next at h2
      rw [if_pos hok] at h2
      exact absurd h2 (by simp)

set_option maxRecDepth 100000 in
/-- Eight steps are needed: realloc of an aligned block that has to move. -/
example : ∃ s s1 s2 es, Reach next dflt s ∧ s.status = .ok ∧ next s (.call 0 (.realloc 4194816 5000)) = some s1 ∧ exec next s1 es = some s2 ∧
    es.countP (Ev.isStepOf 0) = 8 :=
  let pre : List Ev := [.start 0, .call 0 (.memalign 512 100), .run 0 none, .run 0 none, .run 0 (some 0), .run 0 none, .run 0 none]
  let es : List Ev := [.run 0 none, .run 0 none, .run 0 (some 0), .run 0 none, .run 0 none, .run 0 none, .run 0 none, .run 0 none]
  let s := (exec next dflt pre).getD dflt
  ⟨s, _, _, es, Reach.of_isSome _ (by decide +kernel), by decide +kernel, some_getD (d := dflt) (by decide +kernel),
    some_getD (d := dflt) (by decide +kernel), by decide⟩

/-! ### C87 -/

/-- C87: two threads that run at the same time have different heaps, and the heap of a thread that runs is not among
those that wait for a new thread. -/
theorem C87_private_heaps_partial {brk expand thr : Nat} (h0 : StartOk brk expand thr) {s : St} (h : Reach nextSane (start brk expand thr) s) :
    (∀ t t' x, s.mgr t = some x → s.mgr t' = some x → t = t') ∧ (∀ t x, s.mgr t = some x → x ∉ s.freeHeaps) ∧
    ∀ t x, s.mgr t = some x → x < s.heaps := by
  obtain ⟨⟨g, i⟩, _⟩ := reach_inv h0 h
  exact ⟨i.core.mgrInj, fun t x hx hf => i.core.fhNo t x hf hx, i.core.mgrLt⟩

example : ∃ s, Reach nextSane dflt s ∧ s.mgr 0 = some 0 ∧ s.mgr 1 = some 1 :=
  ⟨(exec nextSane dflt demo).getD dflt, Reach.of_isSome _ (by decide +kernel), by decide +kernel, by decide +kernel⟩

/-- One thread at a time starts and ends, four times: two heaps are lost. -/
def turns : Nat → List Ev
  | 0 => []
  | n + 1 => turns n ++ [.start 0, .exit 0, .start 0, .exit 0]

theorem start_new {s : St} (h1 : s.status = .ok) (h2 : s.mgr 0 = none) (h3 : s.freeHeaps = []) (h4 : s.heaps < 2 ^ 40) :
    ∃ s', next s (.start 0) = some s' ∧ s'.status = .ok ∧ s'.mgr 0 = some s.heaps ∧ s'.boot 0 = true ∧ s'.heaps = s.heaps + 1 ∧
      s'.freeHeaps = [] ∧ s'.pc = s.pc := by
  unfold next doStart
  rw [if_neg (by simp [h1])]
  dsimp only
  rw [if_neg (by simp [h2])]
  simp only [h3]
  rw [if_pos h4]
  exact ⟨_, rfl, h1, by simp only [upd_same], by simp only [upd_same], rfl, rfl, rfl⟩

theorem start_old {s : St} (h1 : s.status = .ok) (h2 : s.mgr 0 = none) {x : Nat} (h3 : s.freeHeaps = [x]) :
    ∃ s', next s (.start 0) = some s' ∧ s'.status = .ok ∧ s'.mgr 0 = some x ∧ s'.boot 0 = false ∧ s'.heaps = s.heaps ∧
      s'.freeHeaps = [] ∧ s'.pc = s.pc := by
  unfold next doStart
  rw [if_neg (by simp [h1])]
  dsimp only
  rw [if_neg (by simp [h2])]
  simp only [h3]
  exact ⟨_, rfl, h1, by simp only [upd_same], by simp only [upd_same], rfl, rfl, rfl⟩

theorem exit_thread {s : St} (h1 : s.status = .ok) {x : Nat} (h2 : s.mgr 0 = some x) (h3 : s.freeHeaps = []) (h4 : s.pc 0 = .idle) :
    ∃ s', next s (.exit 0) = some s' ∧ s'.status = .ok ∧ s'.mgr 0 = none ∧ s'.heaps = s.heaps ∧
      s'.freeHeaps = (if s.boot 0 then [x] else []) ∧ s'.pc = s.pc := by
  unfold next doExit
  rw [if_neg (by simp [h1])]
  simp only [h2]
  rw [if_pos h4]
  exact ⟨_, rfl, h1, by simp only [upd_same], rfl, by simp only [h3], rfl⟩

theorem turns_spec {brk expand thr : Nat} : ∀ n, n ≤ 2 ^ 40 → ∃ s, exec next (start brk expand thr) (turns n) = some s ∧
    s.heaps = n ∧ s.freeHeaps = [] ∧ s.mgr 0 = none ∧ s.pc 0 = .idle ∧ s.status = .ok := by
  intro n
  induction n with
  | zero => intro _; exact ⟨_, rfl, rfl, rfl, rfl, rfl, rfl⟩
  | succ n ih =>
    intro hn
    obtain ⟨s, h1, h2, h3, h4, h5, h6⟩ := ih (by omega)
    obtain ⟨s1, a1, a2, a3, a4, a5, a6, a7⟩ := start_new h6 h4 h3 (by omega)
    obtain ⟨s2, b1, b2, b3, b4, b5, b6⟩ := exit_thread a2 a3 a6 (by rw [a7, h5])
    rw [a4, if_pos rfl] at b5
    obtain ⟨s3, c1, c2, c3, c4, c5, c6, c7⟩ := start_old b2 b3 b5
    obtain ⟨s4, d1, d2, d3, d4, d5, d6⟩ := exit_thread c2 c3 c6 (by rw [c7, b6, a7, h5])
    rw [c4, if_neg (by simp)] at d5
    refine ⟨s4, ?_, by omega, d5, d3, by rw [d6, c7, b6, a7, h5], d2⟩
    unfold turns
    have := exec_snoc d1 _ (exec_snoc c1 _ (exec_snoc b1 _ (exec_snoc a1 _ h1)))
    simpa only [List.append_assoc, List.cons_append, List.nil_append] using this

/-- What is missing in `C87_private_heaps_partial`, that the number of heaps is bounded by the number of threads that run
at the same time, is false: heapManagerBootFlag is set only for a new heap (heap.cfa:476), so the heap of a thread that
got a heap for the second time is not given back.  The number of heaps grows without bound (up to the memory of the
machine) although never more than one thread runs. -/
theorem C87_heaps_lost_violated (n : Nat) (hn : n ≤ 2 ^ 40) : ∃ s, exec next dflt (turns n) = some s ∧ s.heaps = n := by
  obtain ⟨s, h1, h2, _⟩ := turns_spec (brk := 2 ^ 22) (expand := 10 * 2 ^ 20) (thr := 512 * 2 ^ 10 + 1) n hn
  exact ⟨s, h1, h2⟩

end Verif.HeapAlloc
