import Verif.Proof.Channel
/-!
C43, C44: channels.

`Reach next (start n b) s`: `s` is reached from a new channel of capacity `n` by any interleaving of the operations of any number of threads.
`s.got` lists what the channel has delivered, oldest first, with the thread it was delivered to. `s.log` lists the elements that have entered
the channel in the order of the critical sections of the inserting operations, minus those of producers that were still blocked at a `close`
(`C43_insert_enters` shows what adds to it).
-/
namespace Verif.Channel
open Verif
variable {α : Type}

/-- The elements that have entered and not left: those stored, oldest first, then those of the blocked producers. -/
def waiting (s : State α) : List α := contents s ++ s.prods.map Prod.snd

/-- C43: elements leave in the order in which they entered, each exactly once: what has been delivered followed by what has not is what has entered. -/
theorem C43_fifo {n : Nat} {b : Nat → α} {s : State α} (h : Reach next (start n b) s) : s.log = s.got.map Prod.snd ++ waiting s := by
  rw [(reach_inv h).fifo, waiting, List.append_assoc]

/-- C43: what is delivered is never taken back, changed or reordered. -/
theorem C43_delivered_once {n : Nat} {b : Nat → α} {s s' : State α} {a : Act α} (h : Reach next (start n b) s) (hs : next s a = some s') :
    s.got <+: s'.got := by
  have iv := reach_inv h
  have hput : ∀ e s1, putNow s e = some s1 → s.got <+: s1.got := by
    intro e s1 hp
    simp only [putNow] at hp
    split at hp
    · cases hp; exact ⟨_, rfl⟩
    · split at hp <;> cases hp; exact List.prefix_refl _
  have hget : ∀ t s1, getNow s t = some s1 → s.got <+: s1.got := by
    intro t s1 hp
    obtain ⟨-, -, ⟨e, he, -⟩, -⟩ := get_inv hp iv
    exact ⟨_, he.symm⟩
  cases a with
  | insert t e => simp only [next] at hs; split at hs <;> cases hs <;> exact List.prefix_refl _
  | remove t => simp only [next] at hs; split at hs <;> cases hs <;> exact List.prefix_refl _
  | tryInsert t e =>
    simp only [next] at hs
    split at hs <;> cases hs <;>
    · cases hp : putNow s e with
      | none => exact List.prefix_refl _
      | some s1 => exact hput e s1 hp
  | tryRemove t =>
    simp only [next] at hs
    split at hs <;> cases hs <;>
    · cases hp : getNow s t with
      | none => exact List.prefix_refl _
      | some s1 => exact hget t s1 hp
  | close t => simp only [next] at hs; split at hs <;> cases hs <;> exact List.prefix_refl _
  | flush t e =>
    simp only [next] at hs
    split at hs <;> cases hs <;> exact ⟨_, (flush_inv e _ s iv rfl).2.2.1.symm⟩
  | go t =>
    simp only [next] at hs
    split at hs
    · split at hs
      · cases hs; exact List.prefix_refl _
      · split at hs
        · next s1 hp => cases hs; exact hput _ s1 hp
        · cases hs; exact List.prefix_refl _
    · split at hs
      · cases hs; exact List.prefix_refl _
      · split at hs
        · next s1 hp => cases hs; exact hget _ s1 hp
        · cases hs; exact List.prefix_refl _
    · cases hs
  | retry t =>
    simp only [next] at hs
    split at hs
    · split at hs
      · next s1 hp => cases hs; exact hput _ s1 hp
      · cases hs; exact List.prefix_refl _
    · split at hs
      · next s1 hp => cases hs; exact hget _ s1 hp
      · cases hs; exact List.prefix_refl _
    · cases hs
  | noHandler t => simp only [next] at hs; split at hs <;> cases hs <;> exact List.prefix_refl _

/-- C43: the critical section of `insert e` on an open channel makes `e` the newest element that has entered; the thread returns, unless the
    channel is full and no consumer waits: then it blocks. -/
theorem C43_insert_enters {n : Nat} {b : Nat → α} {s s' : State α} {t : Nat} {e : α} (h : Reach next (start n b) s)
    (hp : s.pc t = .ins e) (ho : s.closed = false) (hs : next s (.go t) = some s') :
    s'.log = s.log ++ [e] ∧
    ((s'.pc t = .run ∧ (s.cons ≠ [] ∨ (contents s).length < n)) ∨ (s'.pc t = .blockedIns e ∧ s.cons = [] ∧ (contents s).length = n)) := by
  have hsz := reach_size h
  have iv := reach_inv h
  simp only [next, hp, ho, Bool.false_eq_true, if_false] at hs
  rw [contents_length]
  simp only [putNow] at hs
  split at hs
  · next hq =>
    simp at hs
    split at hq
    · next hc => cases hq; subst hs; simp [consHandoff, hc]
    · next hc =>
      split at hq
      · cases hq
      next hne =>
      cases hq; subst hs
      have := iv.le
      simp only [bufInsert, upd_same, true_and, hc]
      exact Or.inl (Or.inr (by omega))
  · next hq =>
    split at hq
    · cases hq
    · next hc =>
      split at hq
      · next hf =>
        simp at hs; subst hs
        exact ⟨rfl, Or.inr ⟨by simp, hc, by omega⟩⟩
      · cases hq

/-- C43: the critical section of `remove` on an open channel delivers the oldest waiting element, or there is none and the thread blocks. -/
theorem C43_remove_takes_oldest {n : Nat} {b : Nat → α} {s s' : State α} {t : Nat} (h : Reach next (start n b) s)
    (hp : s.pc t = .rem) (ho : s.closed = false) (hs : next s (.go t) = some s') :
    (∃ e, (waiting s).head? = some e ∧ s'.got = s.got ++ [(t, e)] ∧ s'.pc t = .run) ∨
    (waiting s = [] ∧ s'.got = s.got ∧ s'.pc t = .blockedRem) := by
  have iv := reach_inv h
  simp only [next, hp, ho] at hs
  simp at hs
  split at hs
  · next s1 hq =>
    cases hs
    obtain ⟨-, -, ⟨e, h1, h2⟩, -⟩ := get_inv hq iv
    exact Or.inl ⟨e, h2, h1, by simp⟩
  · next hq =>
    cases hs
    refine Or.inr ⟨?_, rfl, by simp⟩
    simp only [getNow] at hq
    split at hq
    · cases hq
    next hz =>
    split at hq
    swap
    · cases hq
    next h0 =>
    have hpr : s.prods = [] := by
      by_contra hpr
      have := iv.prodsFull hpr
      obtain ⟨p, l, hpl⟩ := List.exists_cons_of_ne_nil hpr
      exact hz p l (by omega) hpl
    simp [waiting, contents, h0, hpr]

/-- C43: a channel never stores more than its capacity. -/
theorem C43_capacity {n : Nat} {b : Nat → α} {s : State α} (h : Reach next (start n b) s) : (contents s).length ≤ s.size := by
  rw [contents_length]; exact (reach_inv h).le

/-- C43: a thread stays blocked in `insert` only while the channel is full, and in `remove` only while nothing is stored and no producer waits. -/
theorem C43_blocks_only {n : Nat} {b : Nat → α} {s : State α} (h : Reach next (start n b) s) (t : Nat) :
    (∀ e, s.pc t = .blockedIns e → (contents s).length = s.size ∧ ∀ u, s.pc u ≠ .blockedRem) ∧
    (s.pc t = .blockedRem → waiting s = []) := by
  have iv := reach_inv h
  refine ⟨fun e he => ?_, fun he => ?_⟩
  · have hm := (iv.prodsPc t e).2 he
    have hne : s.prods ≠ [] := List.ne_nil_of_mem hm
    refine ⟨by rw [contents_length]; exact iv.prodsFull hne, fun u hu => ?_⟩
    exact hne (iv.cons0 (List.ne_nil_of_mem ((iv.consPc u).2 hu))).2
  · obtain ⟨h0, hp⟩ := iv.cons0 (List.ne_nil_of_mem ((iv.consPc t).2 he))
    simp [waiting, contents, h0, hp]

/-- C43: a blocked consumer that returns has been delivered exactly one element by the step that released it. -/
theorem C43_blocked_consumer {n : Nat} {b : Nat → α} {s s' : State α} {a : Act α} {t : Nat} (h : Reach next (start n b) s)
    (hs : next s a = some s') (hb : s.pc t = .blockedRem) (hr : s'.pc t = .run) :
    ∃ l, s'.got = s.got ++ l ∧ ∃ e, l.filter (fun p => p.1 = t) = [(t, e)] := by
  have iv := reach_inv h
  have hmem := (iv.consPc t).2 hb
  have hput : ∀ e s1, putNow s e = some s1 → s1.pc t = .run → s1.got = s.got ++ [(t, e)] := by
    intro e s1 hp hr
    simp only [putNow] at hp
    split at hp
    · next c l hc =>
      cases hp
      simp only [consHandoff, upd] at hr ⊢
      split at hr
      · next he => rw [he]
      · rw [hb] at hr; cases hr
    · next hc => rw [hc] at hmem; simp at hmem
  have hgetno : ∀ u s1, getNow s u = some s1 → s1.pc t = .blockedRem := by
    intro u s1 hp
    rw [(get_inv hp iv).2.2.2.2.1 t (by simp [hb]), hb]
  cases a with
  | insert u e =>
    simp only [next] at hs
    split at hs <;> cases hs <;> (simp only [upd] at hr; split at hr <;> first | (split at hr <;> cases hr) | (rw [hb] at hr; cases hr))
  | remove u =>
    simp only [next] at hs
    split at hs <;> cases hs <;> (simp only [upd] at hr; split at hr <;> first | (split at hr <;> cases hr) | (rw [hb] at hr; cases hr))
  | tryInsert u e =>
    simp only [next] at hs
    split at hs <;> cases hs <;>
    · cases hp : putNow s e with
      | none => rw [hp] at hr; simp [hb] at hr
      | some s1 => rw [hp] at hr; exact ⟨_, hput e s1 hp hr, e, by simp⟩
  | tryRemove u =>
    simp only [next] at hs
    split at hs <;> cases hs <;>
    · cases hp : getNow s u with
      | none => rw [hp] at hr; simp [hb] at hr
      | some s1 => rw [hp] at hr; simp [hgetno u s1 hp] at hr
  | close u =>
    have hw := wakeProds_eq (wakeCons s.pc s.cons) s.prods iv.prodsND t
    have hn : ∀ e, (t, e) ∉ s.prods := fun e he => by rw [(iv.prodsPc t e).1 he] at hb; cases hb
    simp only [next] at hs
    split at hs <;> cases hs <;>
    · simp only at hr
      rw [hw.2 hn, wakeCons_eq, if_pos hmem] at hr
      cases hr
  | flush u e =>
    simp only [next] at hs
    split at hs <;> cases hs <;>
    · refine ⟨_, (flush_inv e _ s iv rfl).2.2.1, e, ?_⟩
      have : ∀ l : List Nat, l.Nodup → t ∈ l → (l.map (fun c => (c, e))).filter (fun p => p.1 = t) = [(t, e)] := by
        intro l
        induction l with
        | nil => simp
        | cons c l ih =>
          intro hn hm
          obtain ⟨h1, h2⟩ := List.nodup_cons.1 hn
          rcases List.mem_cons.1 hm with rfl | hm
          · simp only [List.map_cons, List.filter_cons, decide_true, if_true, List.cons.injEq, true_and]
            simp only [List.filter_eq_nil_iff, List.mem_map]
            rintro p ⟨c, hc, rfl⟩
            simp only [decide_eq_true_eq]
            rintro rfl
            exact h1 hc
          · have : c ≠ t := by rintro rfl; exact h1 hm
            simp only [List.map_cons, List.filter_cons, this, decide_false]
            simpa using ih h2 hm
      exact this _ iv.consND hmem
  | go u =>
    simp only [next] at hs
    split at hs
    · next e hpc =>
      have hne : t ≠ u := by rintro rfl; rw [hb] at hpc; cases hpc
      split at hs
      · cases hs; simp [upd, hne, hb] at hr
      · split at hs
        · next s1 hp =>
          cases hs
          simp only [upd, hne, if_false] at hr
          exact ⟨_, hput e s1 hp hr, e, by simp⟩
        · cases hs; simp [upd, hne, hb] at hr
    · next hpc =>
      have hne : t ≠ u := by rintro rfl; rw [hb] at hpc; cases hpc
      split at hs
      · cases hs; simp [upd, hne, hb] at hr
      · split at hs
        · next s1 hp =>
          cases hs
          simp only [upd, hne, if_false] at hr
          simp [hgetno u s1 hp] at hr
        · cases hs; simp [upd, hne, hb] at hr
    · cases hs
  | retry u =>
    simp only [next] at hs
    split at hs
    · next e hpc =>
      have hne : t ≠ u := by rintro rfl; rw [hb] at hpc; cases hpc
      split at hs
      · next s1 hp =>
        cases hs
        simp only [upd, hne, if_false] at hr
        exact ⟨_, hput e s1 hp hr, e, by simp⟩
      · cases hs; simp [upd, hne, hb] at hr
    · next hpc =>
      have hne : t ≠ u := by rintro rfl; rw [hb] at hpc; cases hpc
      split at hs
      · next s1 hp =>
        cases hs
        simp only [upd, hne, if_false] at hr
        simp [hgetno u s1 hp] at hr
      · cases hs; simp [upd, hne, hb] at hr
    · cases hs
  | noHandler u =>
    simp only [next] at hs
    split at hs <;> cases hs <;> (next hpc =>
      have hne : t ≠ u := by rintro rfl; rw [hb] at hpc; cases hpc
      simp [upd, hne, hb] at hr)

/-- Two producers and two consumers on a channel of capacity 1: the third insert is blocked, then released by the removal of the first element. -/
def demo : List (Act Nat) := [.insert 1 10, .go 1, .insert 1 11, .go 1, .insert 2 20, .go 2, .remove 3, .go 3]

example : let s := (exec next (start 1 (fun _ => 0)) demo).getD (start 1 (fun _ => 0))
    Reach next (start 1 (fun _ => 0)) s ∧ s.got = [(3, 10)] ∧ waiting s = [11, 20] ∧ s.pc 1 = .run ∧ s.pc 2 = .blockedIns 20 :=
  ⟨Reach.of_exec demo rfl, by decide +kernel, by decide +kernel, by decide +kernel, by decide +kernel⟩

/-- On a channel of capacity 0 a blocked consumer is handed the element of the next producer. -/
example : let s := (exec next (start 0 (fun _ => 0)) [.remove 3, .go 3, .insert 1 10, .go 1]).getD (start 0 (fun _ => 0))
    s.got = [(3, 10)] ∧ s.pc 3 = .run ∧ s.pc 1 = .run := ⟨by decide +kernel, by decide +kernel, by decide +kernel⟩

/-! ### C44 -/

/-- C44: `close` releases every blocked producer and consumer (each continues in the routine for a closed channel, with its own element) and
    disturbs no other thread, nor what is stored. -/
theorem C44_close_releases {n : Nat} {b : Nat → α} {s s' : State α} {u : Nat} (h : Reach next (start n b) s) (hs : next s (.close u) = some s') (t : Nat) :
    s'.closed = true ∧ contents s' = contents s ∧ s'.got = s.got ∧
    (s.pc t = .blockedRem → s'.pc t = .closedRem) ∧ (∀ e, s.pc t = .blockedIns e → s'.pc t = .closedIns e) ∧
    (s.pc t ≠ .blockedRem → (∀ e, s.pc t ≠ .blockedIns e) → s'.pc t = s.pc t) := by
  have iv := reach_inv h
  have hw := wakeProds_eq (wakeCons s.pc s.cons) s.prods iv.prodsND t
  simp only [next] at hs
  split at hs <;> cases hs <;>
  · refine ⟨rfl, rfl, rfl, fun hb => ?_, fun e he => hw.1 e ((iv.prodsPc t e).2 he), fun h1 h2 => ?_⟩
    · have hn : ∀ e, (t, e) ∉ s.prods := fun e he => by rw [(iv.prodsPc t e).1 he] at hb; cases hb
      simp only
      rw [hw.2 hn, wakeCons_eq, if_pos ((iv.consPc t).2 hb)]
    · simp only
      rw [hw.2 (fun e he => h2 e ((iv.prodsPc t e).1 he)), wakeCons_eq, if_neg (fun hm => h1 ((iv.consPc t).1 hm))]

/-- C44: no thread is blocked, or blocks, on a closed channel, so no thread is left behind or released twice. -/
theorem C44_none_blocked {n : Nat} {b : Nat → α} {s : State α} (h : Reach next (start n b) s) (hc : s.closed = true) (t : Nat) :
    s.pc t ≠ .blockedRem ∧ ∀ e, s.pc t ≠ .blockedIns e := by
  have iv := reach_inv h
  obtain ⟨h1, h2⟩ := iv.closedE hc
  refine ⟨fun hb => ?_, fun e he => ?_⟩
  · have := (iv.consPc t).2 hb; simp [h1] at this
  · have := (iv.prodsPc t e).2 he; simp [h2] at this

/-- C44: a `remove` on a closed channel whose resumption handler returns drains the channel: it delivers the oldest stored element, and throws
    exactly when nothing is stored. Partial: without a resumption handler it throws in any case (`C44_drain_violated`), and an `insert` on a
    closed channel does not fail if there is room and the resumption handler returns (`C44_insert_violated`). -/
theorem C44_drain_partial {n : Nat} {b : Nat → α} {s s' : State α} {t : Nat} (h : Reach next (start n b) s) (hc : s.closed = true)
    (hp : s.pc t = .closedRem) (hs : next s (.retry t) = some s') :
    (∃ e l, contents s = e :: l ∧ contents s' = l ∧ s'.got = s.got ++ [(t, e)] ∧ s'.pc t = .run) ∨
    (contents s = [] ∧ s'.got = s.got ∧ s'.pc t = .thrown) := by
  have iv := reach_inv h
  have iv' := step_inv hs iv
  obtain ⟨hc0, hp0⟩ := iv.closedE hc
  simp only [next, hp] at hs
  split at hs
  · next s1 hq =>
    cases hs
    obtain ⟨i1, hcl, ⟨e, h1, h2⟩, hl, -⟩ := get_inv hq iv
    have hp1 := (i1.closedE (hcl.trans hc)).2
    have f1 := iv.fifo
    have f2 := i1.fifo
    rw [hl, f1, h1, hp0, hp1] at f2
    rw [hp0] at h2
    simp only [List.map_nil, List.append_nil, List.map_append, List.map_cons, List.append_assoc, List.append_cancel_left_eq] at f2
    exact Or.inl ⟨e, contents s1, f2, rfl, h1, by simp⟩
  · next hq =>
    cases hs
    refine Or.inr ⟨?_, rfl, by simp⟩
    simp only [getNow] at hq
    split at hq
    · cases hq
    split at hq
    swap
    · cases hq
    next h0 => simp [contents, h0]

/-- C44: an `insert` on a closed channel throws if there is no resumption handler or there is no room; its element then does not enter.
    Partial: see `C44_insert_violated`. -/
theorem C44_insert_fails_partial {n : Nat} {b : Nat → α} {s s' : State α} {t : Nat} {e : α} (h : Reach next (start n b) s) (hc : s.closed = true)
    (hp : s.pc t = .closedIns e) (hs : next s (.noHandler t) = some s' ∨ (next s (.retry t) = some s' ∧ (contents s).length = s.size)) :
    s'.pc t = .thrown ∧ s'.log = s.log ∧ contents s' = contents s := by
  have iv := reach_inv h
  rcases hs with hs | ⟨hs, hf⟩
  · simp only [next, hp] at hs
    cases hs; exact ⟨by simp, rfl, rfl⟩
  · rw [contents_length] at hf
    have hput : putNow s e = none := by simp [putNow, (iv.closedE hc).1, hf]
    simp only [next, hp, hput] at hs
    cases hs; exact ⟨by simp, rfl, rfl⟩

/-- C44 fails: in every reachable state of a closed channel with room, a `try_insert`, and an `insert` whose resumption handler returns, succeeds:
    the element enters the closed channel. -/
theorem C44_insert_violated {n : Nat} {b : Nat → α} {s : State α} {t : Nat} {e : α} (h : Reach next (start n b) s) (hc : s.closed = true)
    (hroom : (contents s).length < s.size) :
    (s.pc t = .run → ∃ s', next s (.tryInsert t e) = some s' ∧ contents s' = contents s ++ [e]) ∧
    (s.pc t = .closedIns e → ∃ s', next s (.retry t) = some s' ∧ contents s' = contents s ++ [e] ∧ s'.pc t = .run) := by
  have iv := reach_inv h
  rw [contents_length] at hroom
  have hput : putNow s e = some { bufInsert s e with log := s.log ++ [e] } := by
    simp [putNow, (iv.closedE hc).1, Nat.ne_of_lt hroom]
  have hcon := contents_bufInsert s e iv hroom
  refine ⟨fun hp => ⟨{ bufInsert s e with log := s.log ++ [e] }, by simp only [next, hp, hput, Option.getD_some], hcon⟩, fun hp => ?_⟩
  refine ⟨{ bufInsert s e with log := s.log ++ [e], pc := upd s.pc t .run }, ?_, hcon, by simp⟩
  simp only [next, hp, hput]
  rfl

/-- C44 fails: without a resumption handler, a `remove` on a closed channel throws although elements are stored. -/
theorem C44_drain_violated : ∃ s s' : State Nat, Reach next (start 2 (fun _ => 0)) s ∧ s.closed = true ∧ contents s = [10] ∧ s.pc 2 = .closedRem ∧
    next s (.noHandler 2) = some s' ∧ s'.pc 2 = .thrown ∧ contents s' = [10] ∧ s'.got = [] := by
  let s0 : State Nat := start 2 (fun _ => 0)
  let as : List (Act Nat) := [.insert 1 10, .go 1, .close 1, .remove 2]
  exact ⟨(exec next s0 as).getD s0, (exec next s0 (as ++ [.noHandler 2])).getD s0, Reach.of_exec as rfl, by decide +kernel, by decide +kernel,
    by decide +kernel, rfl, by decide +kernel, by decide +kernel, by decide +kernel⟩

/-- A consumer blocked when the channel is closed, and a stored element drained after that by a retry. -/
example : let s0 : State Nat := start 2 (fun _ => 0)
    let s := (exec next s0 [.remove 3, .go 3, .close 1]).getD s0
    s.pc 3 = .closedRem ∧ s.closed = true ∧ Reach next s0 s := 
  ⟨by decide +kernel, by decide +kernel, Reach.of_exec [.remove 3, .go 3, .close 1] rfl⟩

example : let s0 : State Nat := start 2 (fun _ => 0)
    let s := (exec next s0 [.insert 1 10, .go 1, .close 1, .remove 2, .retry 2, .remove 3]).getD s0
    s.got = [(2, 10)] ∧ s.pc 3 = .closedRem ∧ s.closed = true ∧ Reach next s0 s :=
  ⟨by decide +kernel, by decide +kernel, by decide +kernel,
    Reach.of_exec [.insert 1 10, .go 1, .close 1, .remove 2, .retry 2, .remove 3] rfl⟩

end Verif.Channel
