import Verif.Proof.HeapAllocF
/-! What clients see. -/
namespace Verif.HeapAlloc

/-- What a client can check of a block, from the invariant. -/
theorem Inv.client {s : St} {g : Gh} (i : Inv s g) {p : Nat} {r : Rec} (h : s.live p = some r) :
    ∃ a tot k, g.st a = some ⟨tot, k, .live p⟩ ∧ a + 16 ≤ p ∧ p + r.size ≤ a + tot ∧ p + mallocUsableSize s.mem p = a + tot ∧
      p % r.align = 0 ∧ p % 16 = 0 ∧ mallocSize s.mem p = r.size ∧ mallocAlignment s.mem p = r.align ∧
      mallocZeroFill s.mem p = r.zero ∧ ∀ j v, j < r.size → r.val j = some v → s.mem (p + j) = v := by
  have c := i.core
  have hp := (i.live p r h).ne c
  obtain ⟨a, tot, k, h1, h2, h3, h4, h5, h6⟩ := i.live p r h
  obtain ⟨q1, q2, q3, q4⟩ := h4.pos c h1
  obtain ⟨d1, d2, d3, d4, d5⟩ := headers_spec c h1 h2 h4
  obtain ⟨e1, e2, _, _⟩ := realHeader_spec c h1 h2 h4
  have hlt := h4.lt
  refine ⟨a, tot, k, h1, q1, h5, ?_, h4.al, q4, ?_, e2, ?_, h6⟩
  · unfold mallocUsableSize dataStorage; rw [if_neg hp, d1, d3]; omega
  · unfold mallocSize; rw [if_neg hp, e1]; exact h3
  · unfold mallocZeroFill; rw [if_neg hp, e1]; exact zeroBit_spec c h1 h2

/-- The bytes of a block are in memory that came from the system. -/
theorem Core.system {s : St} {g : Gh} (c : Core s g) {a tot : Nat} {k : Kind} {st : Stat} (h : g.st a = some ⟨tot, k, st⟩) {x : Nat}
    (h1 : a ≤ x) (h2 : x < a + tot) : (s.heapBegin ≤ x ∧ x < s.heapEnd) ∨ ∃ m ∈ s.maps, m.1 ≤ x ∧ x < m.1 + m.2 := by
  have hb := c.blk _ _ h
  cases k with
  | home h' b => have := c.homeB _ _ _ _ _ h; exact Or.inl ⟨by omega, by omega⟩
  | map => exact Or.inr ⟨_, (c.mapB _ _ _ h).2.1, h1, h2⟩

/-! ### How many steps a routine takes -/

def fRank : List Frame → Nat
  | [] => 0
  | .memalign _ _ :: fs => 1 + fRank fs
  | .calloc _ :: fs => 1 + fRank fs
  | .realloc .. :: fs => 3 + fRank fs

def kRank : After → Nat
  | .ret => 0
  | .mal _ fs => 4 + fRank fs
  | .memalign _ _ => 6
  | .fin .. => 2

def rank : Pc → Nat
  | .idle => 0
  | .mal _ fs => 4 + fRank fs
  | .look _ _ fs => 3 + fRank fs
  | .pull _ _ fs => 2 + fRank fs
  | .ext _ _ fs => 2 + fRank fs
  | .got _ fs => 1 + fRank fs
  | .fr _ k => 1 + kRank k
  | .fin .. => 2
  | .aln _ _ => 6

theorem rank_after (k : After) : rank (afterPc k) = kRank k := by cases k <;> rfl

/-- A thread that steps leaves the others where they are. -/
def Moves (s s' : St) (t : Nat) (n : Nat) : Prop :=
  (∀ t', t' ≠ t → s'.pc t' = s.pc t') ∧ (s'.status = .ok → rank (s'.pc t) ≤ n) ∧ s'.mgr = s.mgr

theorem Moves.pc {s s' : St} {t n : Nat} {pc : Pc} (h : s'.pc = upd s.pc t pc) (h2 : rank pc ≤ n) (h3 : s'.mgr = s.mgr) : Moves s s' t n := by
  refine ⟨fun t' e => by rw [h]; exact upd_n e, fun _ => by rw [h, upd_same]; exact h2, h3⟩

theorem Moves.stop {s s' : St} {t n : Nat} (h : s'.status ≠ .ok) (h2 : s'.pc = s.pc) (h3 : s'.mgr = s.mgr) : Moves s s' t n :=
  ⟨fun t' _ => by rw [h2], fun e => absurd e h, h3⟩

theorem moves_memalign {s : St} {t al n m : Nat} {fs : List Frame} (h : 5 + fRank fs ≤ m) : Moves s (memalignStart s t al n fs) t m := by
  unfold memalignStart
  split
  · exact .stop (by simp) rfl rfl
  split
  · exact .pc (pc := .mal n fs) rfl (by simp only [rank]; omega) rfl
  · exact .pc (pc := .mal ((n + al) % W) (.memalign al n :: fs)) rfl (by simp only [rank, fRank]; omega) rfl

theorem moves_run {s s' : St} {t : Nat} {ans : Option Nat} (e : doRun s t ans = some s') : Moves s s' t (rank (s.pc t) - 1) ∧ 0 < rank (s.pc t) := by
  unfold doRun at e
  split at e
  · exact absurd e (by simp)
  rename_i h _
  split at e
  · exact absurd e (by simp)
  all_goals rename_i hpc; rw [hpc]
  · refine ⟨?_, by simp only [rank]; omega⟩
    unfold doMal at e
    dsimp only at e
    repeat' split at e
    · obtain rfl := Option.some.inj e; exact .pc rfl (by simp only [rank]; omega) rfl
    · obtain rfl := Option.some.inj e; exact .pc rfl (by simp only [rank]; omega) rfl
    · obtain rfl := Option.some.inj e; exact .pc rfl (by simp only [rank]; omega) rfl
    · obtain rfl := Option.some.inj e; exact .stop (by simp) rfl rfl
    · exact absurd e (by simp)
    · obtain rfl := Option.some.inj e; exact .pc rfl (by simp only [rank]; omega) rfl
  · refine ⟨?_, by simp only [rank]; omega⟩
    split at e
    · obtain rfl := Option.some.inj e; exact .pc rfl (by simp only [rank]; omega) rfl
    · obtain rfl := Option.some.inj e; exact .pc rfl (by simp only [rank]; omega) rfl
  · obtain rfl := Option.some.inj e
    exact ⟨.pc rfl (by simp only [rank]; omega) rfl, by simp only [rank]; omega⟩
  · obtain rfl := Option.some.inj e
    refine ⟨?_, by simp only [rank]; omega⟩
    unfold doExt
    dsimp only
    split
    · have h1 : (dropReserve s h).pc = s.pc ∧ (dropReserve s h).mgr = s.mgr := by
        unfold dropReserve
        dsimp only
        split <;> exact ⟨rfl, rfl⟩
      split
      · exact .stop (by simp) rfl rfl
      · rename_i a s2 hm
        have h2 : s2.pc = s.pc ∧ s2.mgr = s.mgr := by
          unfold masterExtend at hm
          dsimp only at hm
          repeat' split at hm
          all_goals (cases hm; try exact h1)
        exact .pc (by show upd s2.pc t _ = _; rw [h2.1]) (by simp only [rank]; omega) h2.2
    · exact .pc rfl (by simp only [rank]; omega) rfl
  · obtain rfl := Option.some.inj e
    refine ⟨?_, by simp only [rank]; omega⟩
    rename_i p fs
    cases fs with
    | nil => exact .pc rfl (by simp only [rank, fRank]; omega) rfl
    | cons f fs =>
      cases f with
      | memalign al size =>
        unfold doGot
        dsimp only
        split
        · exact .stop (by simp) rfl rfl
        · exact .pc rfl (by simp only [rank, fRank]; omega) rfl
      | calloc size =>
        unfold doGot
        dsimp only
        split
        · exact .pc rfl (by simp only [rank, fRank]; omega) rfl
        · exact .pc rfl (by simp only [rank, fRank]; omega) rfl
      | realloc =>
        unfold doGot
        dsimp only
        split
        · exact .stop (by simp) rfl rfl
        · exact .pc rfl (by simp only [rank, fRank, kRank]; omega) rfl
  · obtain rfl := Option.some.inj e
    refine ⟨?_, by simp only [rank]; omega⟩
    rename_i k
    unfold doFree
    dsimp only
    repeat' split
    · exact .pc rfl (by rw [rank_after]; simp only [rank]; omega) rfl
    · exact .stop (by simp) rfl rfl
    · exact .pc rfl (by rw [rank_after]; simp only [rank]; omega) rfl
    · exact .pc rfl (by rw [rank_after]; simp only [rank]; omega) rfl
  · obtain rfl := Option.some.inj e
    exact ⟨.pc rfl (by simp only [rank, fRank]; omega) rfl, by simp only [rank]; omega⟩
  · obtain rfl := Option.some.inj e
    exact ⟨moves_memalign (by simp only [rank, fRank]; omega), by simp only [rank]; omega⟩

theorem moves_realloc {s : St} {t p n : Nat} : Moves s (realloc s t p n) t 8 := by
  unfold realloc
  dsimp only
  repeat' split
  all_goals first | exact .pc rfl (by simp [rank, fRank, kRank]) rfl | exact moves_memalign (by simp [fRank])

theorem moves_resize {s : St} {t p n : Nat} : Moves s (resize s t p n) t 8 := by
  unfold resize
  dsimp only
  repeat' split
  all_goals exact .pc rfl (by simp [rank, fRank, kRank]) rfl

theorem Moves.mem {s s' : St} {m : Mem} {t n : Nat} (h : Moves { s with mem := m } s' t n) : Moves s s' t n := h

theorem moves_resizeAl {s : St} {t p al n : Nat} : Moves s (resizeAl s t p al n) t 8 := by
  unfold resizeAl
  dsimp only
  repeat' split
  all_goals first | exact .pc rfl (by simp [rank, fRank, kRank]) rfl | exact moves_memalign (by simp [fRank]) | exact moves_resize |
    exact .stop (by simp) rfl rfl

theorem moves_reallocAl {s : St} {t p al n : Nat} : Moves s (reallocAl s t p al n) t 8 := by
  unfold reallocAl
  dsimp only
  repeat' split
  all_goals first | exact moves_memalign (by simp [fRank]) | exact moves_realloc | exact Moves.mem moves_realloc | exact .stop (by simp) rfl rfl

theorem moves_call {s s' : St} {t : Nat} {q : Req} (e : doCall s t q = some s') : Moves s s' t 8 ∧ s.mgr t ≠ none := by
  unfold doCall at e
  split at e
  · exact absurd e (by simp)
  rename_i hc
  split at e
  · exact absurd e (by simp)
  obtain rfl := Option.some.inj e
  refine ⟨?_, fun h => hc (Or.inl h)⟩
  have hi : s.pc t = .idle := Decidable.byContradiction fun h => hc (Or.inr (Or.inl h))
  show Moves { s with cur := _, live := _ } _ t 8
  cases q <;> unfold begin <;> dsimp only
  all_goals first | exact .pc rfl (by simp [rank, fRank, kRank]) rfl | exact moves_memalign (by simp [fRank]) | exact moves_realloc |
    exact moves_resize | exact moves_resizeAl | exact moves_reallocAl | skip
  split
  · exact ⟨fun _ _ => rfl, fun _ => by show rank (s.pc t) ≤ 8; rw [hi]; simp [rank], rfl⟩
  · exact .pc rfl (by simp [rank, fRank, kRank]) rfl

/-- What an event does to the position of a thread. -/
theorem next_rank {s s' : St} {e : Ev} (h : next s e = some s') (t : Nat) :
    (match e with
      | .call t' _ => t' = t → s'.status = .ok → rank (s'.pc t) ≤ 8
      | .run t' _ => t' = t → 0 < rank (s.pc t) ∧ (s'.status = .ok → rank (s'.pc t) + 1 ≤ rank (s.pc t))
      | _ => True) ∧
    ((∀ q, e ≠ .call t q) → (∀ a, e ≠ .run t a) → s'.pc t = s.pc t) := by
  unfold next at h
  split at h
  · exact absurd h (by simp)
  cases e with
  | start t' =>
    refine ⟨trivial, fun _ _ => ?_⟩
    dsimp only at h
    unfold doStart at h
    repeat' split at h
    all_goals first | (obtain rfl := Option.some.inj h; rfl) | exact absurd h (by simp)
  | exit t' =>
    refine ⟨trivial, fun _ _ => ?_⟩
    dsimp only at h
    unfold doExit at h
    split at h
    · exact absurd h (by simp)
    · by_cases hp : s.pc t' = .idle
      · rw [if_pos hp] at h
        obtain rfl := Option.some.inj h
        rfl
      · rw [if_neg hp] at h; exact absurd h (by simp)
  | call t' q =>
    obtain ⟨m1, m2, m3⟩ := (moves_call h).1
    refine ⟨fun e => by subst e; exact m2, fun h1 _ => m1 t fun e => by subst e; exact h1 q rfl⟩
  | run t' a =>
    obtain ⟨⟨m1, m2, m3⟩, m4⟩ := moves_run h
    refine ⟨fun e => by subst e; exact ⟨m4, fun h => by have := m2 h; omega⟩, fun _ h1 => m1 t fun e => by subst e; exact h1 a rfl⟩
  | write p j v =>
    refine ⟨trivial, fun _ _ => ?_⟩
    dsimp only at h
    unfold doWrite at h
    repeat' split at h
    all_goals first | (obtain rfl := Option.some.inj h; rfl) | exact absurd h (by simp)
  | mmapStart v =>
    refine ⟨trivial, fun _ _ => ?_⟩
    dsimp only at h
    split at h
    · exact absurd h (by simp)
    · obtain rfl := Option.some.inj h; rfl
  | maxBuckets => obtain rfl := Option.some.inj h; exact ⟨trivial, fun _ _ => rfl⟩
  | threshold v =>
    refine ⟨trivial, fun _ _ => ?_⟩
    dsimp only at h
    split at h
    · exact absurd h (by simp)
    · obtain rfl := Option.some.inj h; rfl
  | topPad v =>
    refine ⟨trivial, fun _ _ => ?_⟩
    dsimp only at h
    split at h
    · exact absurd h (by simp)
    · obtain rfl := Option.some.inj h; rfl

/-- A thread in a routine is running. -/
theorem busy_mgr {s0 s : St} (h0 : ∀ t, s0.pc t = .idle) (h : Reach next s0 s) : ∀ t, s.pc t ≠ .idle → s.mgr t ≠ none := by
  refine Reach.inv (P := fun s => ∀ t, s.pc t ≠ .idle → s.mgr t ≠ none) (fun t h => absurd (h0 t) h) ?_ h
  intro s e s' ih hn t hb
  have hr := next_rank hn t
  unfold next at hn
  split at hn
  · exact absurd hn (by simp)
  have key : s'.pc t = s.pc t → (s'.mgr t = none → s.mgr t = none ∨ s.pc t = .idle) → s'.mgr t ≠ none := by
    intro h1 h2 h3
    rw [h1] at hb
    rcases h2 h3 with h | h
    · exact ih t hb h
    · exact hb h
  cases e with
  | start t' =>
    refine key (hr.2 (by simp) (by simp)) ?_
    dsimp only at hn
    unfold doStart at hn
    repeat' split at hn
    · exact absurd hn (by simp)
    · obtain rfl := Option.some.inj hn
      intro h; left
      dsimp only at h
      by_cases x : t = t'
      · subst x; rw [upd_same] at h; exact absurd h (by simp)
      · rw [upd_n x] at h; exact h
    · obtain rfl := Option.some.inj hn
      intro h; left
      dsimp only at h
      by_cases x : t = t'
      · subst x; rw [upd_same] at h; exact absurd h (by simp)
      · rw [upd_n x] at h; exact h
    · obtain rfl := Option.some.inj hn
      exact Or.inl
  | exit t' =>
    refine key (hr.2 (by simp) (by simp)) ?_
    dsimp only at hn
    unfold doExit at hn
    split at hn
    · exact absurd hn (by simp)
    · by_cases hp : s.pc t' = .idle
      · rw [if_pos hp] at hn
        obtain rfl := Option.some.inj hn
        intro h
        by_cases x : t = t'
        · subst x; exact Or.inr hp
        · left; change upd s.mgr t' none t = none at h; rw [upd_n x] at h; exact h
      · rw [if_neg hp] at hn; exact absurd hn (by simp)
  | call t' q =>
    obtain ⟨⟨m1, m2, m3⟩, m4⟩ := moves_call hn
    rw [m3]
    by_cases x : t = t'
    · subst x; exact m4
    · exact ih t (by rw [← m1 t x]; exact hb)
  | run t' a =>
    obtain ⟨⟨m1, m2, m3⟩, m4⟩ := moves_run hn
    rw [m3]
    by_cases x : t = t'
    · subst x; exact ih t fun h => by rw [h] at m4; exact absurd m4 (by simp [rank])
    · exact ih t (by rw [← m1 t x]; exact hb)
  | write p j v =>
    refine key (hr.2 (by simp) (by simp)) ?_
    dsimp only at hn
    unfold doWrite at hn
    repeat' split at hn
    all_goals first | (obtain rfl := Option.some.inj hn; exact Or.inl) | exact absurd hn (by simp)
  | mmapStart v =>
    refine key (hr.2 (by simp) (by simp)) ?_
    dsimp only at hn
    split at hn
    · exact absurd hn (by simp)
    · obtain rfl := Option.some.inj hn; exact Or.inl
  | maxBuckets => obtain rfl := Option.some.inj hn; exact key rfl Or.inl
  | threshold v =>
    refine key (hr.2 (by simp) (by simp)) ?_
    dsimp only at hn
    split at hn
    · exact absurd hn (by simp)
    · obtain rfl := Option.some.inj hn; exact Or.inl
  | topPad v =>
    refine key (hr.2 (by simp) (by simp)) ?_
    dsimp only at hn
    split at hn
    · exact absurd hn (by simp)
    · obtain rfl := Option.some.inj hn; exact Or.inl

/-- A routine can always go on. -/
theorem can_run {s : St} (hs : s.status = .ok) {t : Nat} (hb : s.pc t ≠ .idle) (hm : s.mgr t ≠ none) :
    ∃ ans s', next s (.run t ans) = some s' := by
  refine ⟨none, ?_⟩
  unfold next
  rw [if_neg (by simp [hs])]
  dsimp only
  unfold doRun
  cases hg : s.mgr t with
  | none => exact absurd hg hm
  | some h =>
    dsimp only
    split
    · rename_i e; exact absurd e hb
    · unfold doMal
      dsimp only
      repeat' split
      all_goals first | exact ⟨_, rfl⟩ | (rename_i e; exact absurd e (by simp))
    · split <;> exact ⟨_, rfl⟩
    all_goals exact ⟨_, rfl⟩

/-- A routine that has a block for its client: no client holds the block yet. -/
theorem Inv.got {s : St} {g : Gh} (i : Inv s g) {t p : Nat} (h : s.pc t = .got p []) : p ≠ 0 ∧ s.live p = none := by
  have hp := i.pcs t
  unfold PcOk at hp
  rw [h] at hp
  obtain ⟨h0, h1⟩ := hp
  refine ⟨h0, ?_⟩
  obtain ⟨a, tot, k, e1, _, _, e4, _⟩ := h1.nil
  cases hl : s.live p with
  | none => rfl
  | some r =>
    obtain ⟨a', tot', k', f1, _, _, f4, _⟩ := i.live p r hl
    by_cases x : a = a'
    · subst x; rw [e1] at f1; simp at f1
    · have := i.core.disj e1 f1 x (x := p) (e4.pos i.core e1 |>.1 |> fun h => by omega) e4.lt
      exact absurd ⟨(by have := (f4.pos i.core f1).1; omega), f4.lt⟩ this

/-- The blocks of clients change only by the action of clients. -/
theorem live_next {s s' : St} {g : Gh} (i : Inv s g) {e : Ev} (h : next s e = some s') :
    match e with
    | .call _ q => s'.live = if q.old = 0 then s.live else upd s.live q.old none
    | .run t _ => (s'.live = s.live ∧ ∀ p, s.pc t ≠ .got p []) ∨
        ∃ p, s.pc t = .got p [] ∧ p ≠ 0 ∧ s.live p = none ∧ s'.live = upd s.live p (some (s.cur t)) ∧ s'.pc t = .idle
    | .write p j v => ∃ r, s.live p = some r ∧ s'.live = upd s.live p (some { r with val := upd r.val j (some v) })
    | _ => s'.live = s.live := by
  unfold next at h
  split at h
  · exact absurd h (by simp)
  cases e with
  | start t' =>
    dsimp only at h ⊢
    unfold doStart at h
    repeat' split at h
    all_goals first | (obtain rfl := Option.some.inj h; rfl) | exact absurd h (by simp)
  | exit t' =>
    dsimp only at h ⊢
    unfold doExit at h
    split at h
    · exact absurd h (by simp)
    · by_cases hp : s.pc t' = .idle
      · rw [if_pos hp] at h
        obtain rfl := Option.some.inj h
        rfl
      · rw [if_neg hp] at h; exact absurd h (by simp)
  | call t' q => exact (cfg_call h).2.2.2
  | run t' a =>
    dsimp only at h ⊢
    by_cases hg : ∃ p, s.pc t' = .got p []
    · obtain ⟨p, hg⟩ := hg
      obtain ⟨h0, h1⟩ := i.got hg
      have : s' = doGot s t' p [] := by
        unfold doRun at h
        rw [hg] at h
        split at h
        · exact absurd h (by simp)
        · exact (Option.some.inj h).symm
      subst this
      refine Or.inr ⟨p, hg, h0, h1, ?_, ?_⟩
      · unfold doGot; rw [if_neg h0]
      · unfold doGot; exact upd_same ..
    · rcases cfg_run h with h | ⟨p, h, _⟩
      · exact Or.inl ⟨h.2.2.2, fun p hp => hg ⟨p, hp⟩⟩
      · exact absurd ⟨p, h⟩ hg
  | write p j v =>
    dsimp only at h ⊢
    unfold doWrite at h
    split at h
    · exact absurd h (by simp)
    · rename_i r hr
      split at h
      · obtain rfl := Option.some.inj h; exact ⟨r, hr, rfl⟩
      · exact absurd h (by simp)
  | mmapStart v =>
    dsimp only at h ⊢
    split at h
    · exact absurd h (by simp)
    · obtain rfl := Option.some.inj h; rfl
  | maxBuckets => obtain rfl := Option.some.inj h; rfl
  | threshold v =>
    dsimp only at h ⊢
    split at h
    · exact absurd h (by simp)
    · obtain rfl := Option.some.inj h; rfl
  | topPad v =>
    dsimp only at h ⊢
    split at h
    · exact absurd h (by simp)
    · obtain rfl := Option.some.inj h; rfl

/-- What a thread may expect changes only with its calls. -/
theorem cur_next {s s' : St} {e : Ev} (h : next s e = some s') (t : Nat) :
    (∀ q, e = .call t q → s'.cur t = promise q (if q.old = 0 then none else s.live q.old)) ∧
    ((∀ q, e ≠ .call t q) → s'.cur t = s.cur t) := by
  unfold next at h
  split at h
  · exact absurd h (by simp)
  cases e with
  | start t' =>
    refine ⟨fun q e => by simp at e, fun _ => ?_⟩
    dsimp only at h
    unfold doStart at h
    repeat' split at h
    all_goals first | (obtain rfl := Option.some.inj h; rfl) | exact absurd h (by simp)
  | exit t' =>
    refine ⟨fun q e => by simp at e, fun _ => ?_⟩
    dsimp only at h
    unfold doExit at h
    split at h
    · exact absurd h (by simp)
    · by_cases hp : s.pc t' = .idle
      · rw [if_pos hp] at h
        obtain rfl := Option.some.inj h
        rfl
      · rw [if_neg hp] at h; exact absurd h (by simp)
  | call t' q =>
    have := (cfg_call h).2.2.1
    rw [this]
    refine ⟨fun q' e => ?_, fun hq => ?_⟩
    · cases e; exact upd_same ..
    · refine upd_n fun e => ?_
      subst e; exact hq q rfl
  | run t' a =>
    refine ⟨fun q e => by simp at e, fun _ => ?_⟩
    rcases cfg_run h with h | ⟨p, _, rfl⟩
    · rw [h.2.2.1]
    · rfl
  | write p j v =>
    refine ⟨fun q e => by simp at e, fun _ => ?_⟩
    dsimp only at h
    unfold doWrite at h
    repeat' split at h
    all_goals first | (obtain rfl := Option.some.inj h; rfl) | exact absurd h (by simp)
  | mmapStart v =>
    refine ⟨fun q e => by simp at e, fun _ => ?_⟩
    dsimp only at h
    split at h
    · exact absurd h (by simp)
    · obtain rfl := Option.some.inj h; rfl
  | maxBuckets => refine ⟨fun q e => by simp at e, fun _ => ?_⟩; obtain rfl := Option.some.inj h; rfl
  | threshold v =>
    refine ⟨fun q e => by simp at e, fun _ => ?_⟩
    dsimp only at h
    split at h
    · exact absurd h (by simp)
    · obtain rfl := Option.some.inj h; rfl
  | topPad v =>
    refine ⟨fun q e => by simp at e, fun _ => ?_⟩
    dsimp only at h
    split at h
    · exact absurd h (by simp)
    · obtain rfl := Option.some.inj h; rfl

theorem nextSane_next {s s' : St} {e : Ev} (h : nextSane s e = some s') : next s e = some s' := by
  unfold nextSane at h
  split at h
  · exact h
  · exact absurd h (by simp)

theorem reach_next {s0 s : St} (h : Reach nextSane s0 s) : Reach next s0 s := by
  induction h with
  | init => exact .init
  | step _ e ih => exact .step ih (nextSane_next e)

/-- Own steps use up the rank. -/
theorem exec_rank {t : Nat} : ∀ {es : List Ev} {s s' : St}, (∀ q, Ev.call t q ∉ es) → exec next s es = some s' →
    es.countP (Ev.isStepOf t) ≤ rank (s.pc t) := by
  intro es
  induction es with
  | nil => intro s s' _ _; simp
  | cons e es ih =>
    intro s s' hq hx
    unfold exec at hx
    cases hn : next s e with
    | none => rw [hn] at hx; exact absurd hx (by simp)
    | some s1 =>
      simp only [hn, Option.bind_some] at hx
      have hq1 : ∀ q, e ≠ .call t q := fun q h => hq q (by rw [h]; exact List.mem_cons_self)
      obtain ⟨r1, r2⟩ := next_rank hn t
      have ih := ih (fun q h => hq q (List.mem_cons_of_mem _ h)) hx
      rw [List.countP_cons]
      by_cases hr : ∃ a, e = .run t a
      · obtain ⟨a, rfl⟩ := hr
        have r1 := r1 rfl
        by_cases hs : s1.status = .ok
        · have := r1.2 hs
          simp only [Ev.isStepOf, BEq.rfl, if_true]
          omega
        · cases es with
          | nil => simp only [Ev.isStepOf, BEq.rfl, if_true, List.countP_nil]; omega
          | cons e' es' =>
            unfold exec at hx
            unfold next at hx
            rw [if_pos hs] at hx
            exact absurd hx (by simp)
      · have h2 := r2 hq1 (fun a h => hr ⟨a, h⟩)
        have : Ev.isStepOf t e = false := by
          cases e with
          | run t' a => simp only [Ev.isStepOf, beq_eq_false_iff_ne]; intro h; subst h; exact hr ⟨a, rfl⟩
          | _ => rfl
        rw [h2] at ih
        simpa [this] using ih

/-! ### When the program is stopped -/

/-- The heap ends at a page, and grows by whole pages. -/
def Paged (s : St) : Prop := s.expand % page = 0 ∧ bs 90 ≤ s.expand ∧ (s.heapEnd + s.heapRem) % page = 0

/-- Only the extension of the heap moves its end. -/
def Ends (s s' : St) : Prop := s'.heapEnd = s.heapEnd ∧ s'.heapRem = s.heapRem

theorem ends_memalign {s : St} {t al n : Nat} {fs : List Frame} : Ends s (memalignStart s t al n fs) := by
  unfold memalignStart; repeat' split
  all_goals exact ⟨rfl, rfl⟩

theorem ends_realloc {s : St} {t p n : Nat} : Ends s (realloc s t p n) := by
  unfold realloc
  dsimp only
  repeat' split
  all_goals first | exact ⟨rfl, rfl⟩ | exact ends_memalign

theorem ends_resize {s : St} {t p n : Nat} : Ends s (resize s t p n) := by
  unfold resize
  dsimp only
  repeat' split
  all_goals exact ⟨rfl, rfl⟩

theorem ends_call {s s' : St} {t : Nat} {q : Req} (e : doCall s t q = some s') : Ends s s' := by
  unfold doCall at e
  split at e
  · exact absurd e (by simp)
  split at e
  · exact absurd e (by simp)
  obtain rfl := Option.some.inj e
  show Ends { s with cur := _, live := _ } _
  cases q <;> unfold begin <;> dsimp only
  all_goals first | exact ⟨rfl, rfl⟩ | exact ends_memalign | exact ends_realloc | exact ends_resize | skip
  · unfold resizeAl
    dsimp only
    repeat' split
    all_goals first | exact ⟨rfl, rfl⟩ | exact ends_memalign | exact ends_resize
  · unfold reallocAl
    dsimp only
    repeat' split
    all_goals first | exact ⟨rfl, rfl⟩ | exact ends_memalign | exact ends_realloc | exact ends_realloc (s := { s with mem := _, cur := _, live := _ })
  · unfold reallocAl
    dsimp only
    repeat' split
    all_goals first | exact ⟨rfl, rfl⟩ | exact ends_memalign | exact ends_realloc | exact ends_realloc (s := { s with mem := _, cur := _, live := _ })
  · split <;> exact ⟨rfl, rfl⟩

/-- The amount a heap asks for. -/
theorem ask_le {s : St} (h : bs 90 ≤ s.expand) (hx : s.expand < 2 ^ 62) {b : Nat} (hb : b ≤ 90) :
    ceiling2 (if bs b > s.expand / 10 then bs b else s.expand / 10) 16 ≤ s.expand := by
  have h1 := bs_facts hb
  have h90 := bs_facts (Nat.le_refl 90)
  have h2 := bs_le hb (Nat.le_refl 90)
  generalize bs b = x at *
  generalize bs 90 = y at *
  generalize s.expand = z at *
  have hx' : z < 2 ^ 62 := hx
  unfold ceiling2 W
  split
  · have : (x + (16 - 1)) / 16 * 16 = x := by omega
    rw [this, Nat.mod_eq_of_lt (by omega)]; omega
  · have : (z / 10 + (16 - 1)) / 16 * 16 ≤ z := by omega
    rw [Nat.mod_eq_of_lt (by omega)]; exact this

theorem ext_paged {s : St} (h : Paged s) (hx : s.expand < 2 ^ 62) {t hh b n : Nat} {fs : List Frame} {gr : Bool} (hb : b ≤ 90) :
    Paged (doExt s t hh b n fs gr) ∧ ((doExt s t hh b n fs gr).status = .aborted → s.status = .ok → gr = false ∨
      sbrkLimit < s.heapEnd + s.heapRem + s.expand) := by
  have hd : (dropReserve s hh).expand = s.expand ∧ (dropReserve s hh).heapEnd = s.heapEnd ∧ (dropReserve s hh).heapRem = s.heapRem ∧
      (dropReserve s hh).status = s.status := by
    unfold dropReserve
    dsimp only
    split <;> exact ⟨rfl, rfl, rfl, rfl⟩
  obtain ⟨d1, d2, d3, d4⟩ := hd
  have ha := ask_le h.2.1 hx hb
  unfold doExt
  dsimp only
  split
  · rw [d1]
    obtain ⟨c, hc⟩ : ∃ c, ceiling2 (if bs b > s.expand / 10 then bs b else s.expand / 10) 16 = c := ⟨_, rfl⟩
    rw [hc] at ha ⊢
    have hinc : ceiling2 (if c > (dropReserve s hh).expand then c else (dropReserve s hh).expand) 16 = s.expand := by
      rw [d1, if_neg (by omega)]
      have := h.1
      unfold ceiling2 W
      simp only [page] at this
      omega
    have hme : masterExtend (dropReserve s hh) c gr = none → gr = false ∨ sbrkLimit < s.heapEnd + s.heapRem + s.expand := by
      intro hm
      unfold masterExtend at hm
      dsimp only at hm
      rw [hinc, d2, d3] at hm
      split at hm
      · split at hm
        · exact absurd hm (by simp)
        · rename_i hcond
          by_cases hg : gr = true
          · subst hg
            have := h.2.2
            simp only [Bool.true_and, Bool.and_eq_true, beq_iff_eq, decide_eq_true_eq, not_and] at hcond
            have := hcond this
            right; omega
          · left; simpa using hg
      · exact absurd hm (by simp)
    have hms : ∀ a s2, masterExtend (dropReserve s hh) c gr = some (a, s2) → Paged s2 ∧ s2.status = s.status := by
      intro a s2 hm
      unfold masterExtend at hm
      dsimp only at hm
      rw [hinc, d2, d3] at hm
      obtain ⟨p1, p2, p3⟩ := h
      simp only [page] at p1 p3
      split at hm
      · rename_i hlt
        split at hm
        · cases hm
          refine ⟨⟨by show (dropReserve s hh).expand % page = 0; rw [d1]; exact p1, by show bs 90 ≤ (dropReserve s hh).expand; rw [d1]; exact p2, ?_⟩, d4⟩
          show (s.heapEnd + c + (s.heapRem + s.expand - c)) % page = 0
          simp only [page]
          omega
        · exact absurd hm (by simp)
      · cases hm
        refine ⟨⟨by show (dropReserve s hh).expand % page = 0; rw [d1]; exact p1, by show bs 90 ≤ (dropReserve s hh).expand; rw [d1]; exact p2, ?_⟩, d4⟩
        show (s.heapEnd + c + (s.heapRem - c)) % page = 0
        simp only [page]
        omega
    split
    · rename_i hm
      exact ⟨h, fun _ _ => hme hm⟩
    · rename_i a s2 hm
      obtain ⟨q1, q2⟩ := hms a s2 hm
      exact ⟨q1, fun e1 e2 => by change s2.status = .aborted at e1; rw [q2, e2] at e1; exact absurd e1 (by simp)⟩
  · exact ⟨h, fun e1 e2 => by change s.status = .aborted at e1; rw [e2] at e1; exact absurd e1 (by simp)⟩

theorem Paged.of {s s' : St} (h : Paged s) (e1 : s'.expand = s.expand) (e2 : s'.heapEnd = s.heapEnd) (e3 : s'.heapRem = s.heapRem) : Paged s' := by
  unfold Paged; rw [e1, e2, e3]; exact h

/-- A step of a routine. -/
theorem run_paged {s s' : St} {g : Gh} (i : Inv s g) (h : Paged s) (hx : s.expand < 2 ^ 62) {t : Nat} {ans : Option Nat}
    (e : doRun s t ans = some s') :
    Paged s' ∧ (s'.status = .aborted → s.status = .ok → ans = none ∨ sbrkLimit < s.heapEnd + s.heapRem + s.expand ∨
      ∃ al n, s.pc t = .aln al n ∧ ¬ goodAlign al) := by
  have no : ∀ {s' : St} {P : Prop}, s'.status = s.status → s'.status = .aborted → s.status = .ok → P := by
    intro s' P e1 e2 e3; rw [e1, e3] at e2; exact absurd e2 (by simp)
  have hp := i.pcs t
  unfold PcOk at hp
  unfold doRun at e
  split at e
  · exact absurd e (by simp)
  split at e
  · exact absurd e (by simp)
  all_goals rename_i hpc; rw [hpc] at hp; dsimp only at hp
  · unfold doMal at e
    dsimp only at e
    repeat' split at e
    · obtain rfl := Option.some.inj e; exact ⟨h.of rfl rfl rfl, no rfl⟩
    · obtain rfl := Option.some.inj e; exact ⟨h.of rfl rfl rfl, no rfl⟩
    · obtain rfl := Option.some.inj e; exact ⟨h.of rfl rfl rfl, no rfl⟩
    · obtain rfl := Option.some.inj e; exact ⟨h.of rfl rfl rfl, fun _ _ => Or.inl rfl⟩
    · exact absurd e (by simp)
    · obtain rfl := Option.some.inj e; exact ⟨h.of rfl rfl rfl, no rfl⟩
  · split at e
    · obtain rfl := Option.some.inj e; exact ⟨h.of rfl rfl rfl, no rfl⟩
    · obtain rfl := Option.some.inj e; exact ⟨h.of rfl rfl rfl, no rfl⟩
  · obtain rfl := Option.some.inj e; exact ⟨h.of rfl rfl rfl, no rfl⟩
  · obtain rfl := Option.some.inj e
    obtain ⟨q1, q2⟩ := ext_paged h hx hp.2.2.1
    refine ⟨q1, fun e1 e2 => ?_⟩
    rcases q2 e1 e2 with q | q
    · left; cases ans <;> simp_all
    · exact Or.inr (Or.inl q)
  · obtain rfl := Option.some.inj e
    rename_i p fs
    cases fs with
    | nil => exact ⟨h.of rfl rfl rfl, no rfl⟩
    | cons f fs =>
      cases f <;> (unfold doGot; dsimp only; split)
      · exact ⟨h.of rfl rfl rfl, fun e => absurd e (by simp)⟩
      · exact ⟨h.of rfl rfl rfl, no rfl⟩
      · exact ⟨h.of rfl rfl rfl, no rfl⟩
      · exact ⟨h.of rfl rfl rfl, no rfl⟩
      · exact ⟨h.of rfl rfl rfl, fun e => absurd e (by simp)⟩
      · exact ⟨h.of rfl rfl rfl, no rfl⟩
  · obtain rfl := Option.some.inj e
    unfold doFree
    dsimp only
    repeat' split
    · exact ⟨h.of rfl rfl rfl, no rfl⟩
    · exact ⟨h.of rfl rfl rfl, fun e => absurd e (by simp)⟩
    · exact ⟨h.of rfl rfl rfl, no rfl⟩
    · exact ⟨h.of rfl rfl rfl, no rfl⟩
  · obtain rfl := Option.some.inj e; exact ⟨h.of rfl rfl rfl, no rfl⟩
  · obtain rfl := Option.some.inj e
    rename_i al n
    unfold memalignStart
    split
    · rename_i hg; exact ⟨h.of rfl rfl rfl, fun _ _ => Or.inr (Or.inr ⟨al, n, hpc, hg⟩)⟩
    split
    · exact ⟨h.of rfl rfl rfl, no rfl⟩
    · exact ⟨h.of rfl rfl rfl, no rfl⟩

/-- Steps of programs that leave the amount of an extension above the largest bucket. -/
def nextPaged (s : St) : Ev → Option St
  | .topPad v => if bs 90 ≤ v then nextSane s (.topPad v) else none
  | e => nextSane s e

theorem nextPaged_sane {s s' : St} {e : Ev} (h : nextPaged s e = some s') : nextSane s e = some s' := by
  unfold nextPaged at h
  split at h
  · split at h
    · exact h
    · exact absurd h (by simp)
  · exact h

theorem reach_paged {brk expand thr : Nat} (h0 : StartOk brk expand thr) (h1 : Paged (start brk expand thr)) {s : St}
    (h : Reach nextPaged (start brk expand thr) s) : (∃ g, Inv s g) ∧ s.expand < 2 ^ 62 ∧ Paged s := by
  refine Reach.inv (P := fun s => (∃ g, Inv s g) ∧ s.expand < 2 ^ 62 ∧ Paged s) ⟨⟨_, start_inv h0⟩, h0.2.2.2.1, h1⟩ ?_ h
  intro s e s' hP hn
  obtain ⟨⟨g, i⟩, hx, hp⟩ := hP
  obtain ⟨⟨n1, n2⟩, n3⟩ := next_inv ⟨⟨g, i⟩, hx⟩ (nextPaged_sane hn)
  refine ⟨n1, n2, ?_⟩
  have hs := nextSane_next (nextPaged_sane hn)
  have key : Ends s s' → s'.expand = s.expand → Paged s' := by
    intro e1 e2
    unfold Paged
    rw [e1.1, e1.2, e2]; exact hp.of rfl rfl rfl
  unfold next at hs
  split at hs
  · exact absurd hs (by simp)
  cases e with
  | start t' =>
    dsimp only at hs
    unfold doStart at hs
    repeat' split at hs
    all_goals first | (obtain rfl := Option.some.inj hs; exact hp.of rfl rfl rfl) | exact absurd hs (by simp)
  | exit t' =>
    dsimp only at hs
    unfold doExit at hs
    split at hs
    · exact absurd hs (by simp)
    · by_cases hq : s.pc t' = .idle
      · rw [if_pos hq] at hs
        obtain rfl := Option.some.inj hs
        exact hp.of rfl rfl rfl
      · rw [if_neg hq] at hs; exact absurd hs (by simp)
  | call t' q => exact key (ends_call hs) (cfg_call hs).1
  | run t' a => exact (run_paged i hp hx hs).1
  | write p j v =>
    dsimp only at hs
    unfold doWrite at hs
    repeat' split at hs
    all_goals first | (obtain rfl := Option.some.inj hs; exact hp.of rfl rfl rfl) | exact absurd hs (by simp)
  | mmapStart v =>
    dsimp only at hs
    split at hs
    · exact absurd hs (by simp)
    · obtain rfl := Option.some.inj hs; exact hp.of rfl rfl rfl
  | maxBuckets => obtain rfl := Option.some.inj hs; exact hp.of rfl rfl rfl
  | threshold v =>
    dsimp only at hs
    split at hs
    · exact absurd hs (by simp)
    · obtain rfl := Option.some.inj hs; exact hp.of rfl rfl rfl
  | topPad v =>
    have hv : bs 90 ≤ v := by
      refine Decidable.byContradiction fun hv => ?_
      unfold nextPaged at hn
      dsimp only at hn
      rw [if_neg hv] at hn
      exact absurd hn (by simp)
    dsimp only at hs
    split at hs
    · exact absurd hs (by simp)
    · obtain rfl := Option.some.inj hs
      refine ⟨?_, ?_, hp.2.2⟩
      · show ceiling2 v page % page = 0
        unfold ceiling2 W; simp only [page]; omega
      · show bs 90 ≤ ceiling2 v page
        unfold ceiling2 W; simp only [page]; omega

end Verif.HeapAlloc
