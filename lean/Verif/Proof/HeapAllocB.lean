import Verif.Proof.HeapAllocA
/-!
The main invariant of the allocator, apart from what the threads and clients hold.

Every byte has one owner: nobody, the reserve of a heap, or a block.  Blocks never overlap because a byte has only one
owner.  `Gh` is the ghost state: it exists in the proofs only.
-/
namespace Verif.HeapAlloc

theorem upd_n {α : Type} {f : Nat → α} {a b : Nat} {v : α} (h : b ≠ a) : upd f a v b = f b := by simp [upd, h]

inductive Kind
  | home (h b : Nat)
  | map
deriving DecidableEq

/-- Where a block is: on a free list, on a return list, in the hands of a client that knows it by the address `p`, or used
by a routine thread `t` runs, as the block to return or as the block given back. -/
inductive Stat
  | free
  | ret
  | live (p : Nat)
  | new (t : Nat)
  | old (t : Nat)
deriving DecidableEq

structure Blk where
  tot : Nat
  kind : Kind
  stat : Stat
deriving DecidableEq

inductive Own
  | none
  | rsv (h : Nat)
  | blk (a : Nat)
deriving DecidableEq

structure Gh where
  own : Nat → Own
  st : Nat → Option Blk
  fl : Nat → Nat → List Nat
  rl : Nat → Nat → List Nat

def setOwn (own : Nat → Own) (lo hi : Nat) (o : Own) : Nat → Own := fun x => if lo ≤ x ∧ x < hi then o else own x

theorem setOwn_in {own : Nat → Own} {lo hi x : Nat} {o : Own} (h : lo ≤ x) (h2 : x < hi) : setOwn own lo hi o x = o := by
  unfold setOwn; rw [if_pos ⟨h, h2⟩]

theorem setOwn_out {own : Nat → Own} {lo hi x : Nat} {o : Own} (h : x < lo ∨ hi ≤ x) : setOwn own lo hi o x = own x := by
  unfold setOwn; rw [if_neg (by omega)]

/-- A list of blocks linked through their first word. -/
def Chain (m : Mem) : Nat → List Nat → Prop
  | hd, [] => hd = 0
  | hd, a :: l => hd = a ∧ Chain m (load m a) l

theorem Chain.congr {m m' : Mem} : ∀ {l : List Nat} {hd : Nat}, (∀ a ∈ l, ∀ x, a ≤ x → x < a + 8 → m' x = m x) →
    Chain m hd l → Chain m' hd l
  | [], _, _, h => h
  | a :: l, hd, hm, h => by
    refine ⟨h.1, ?_⟩
    rw [load_congr (hm a (List.mem_cons_self ..))]
    exact Chain.congr (fun b hb => hm b (List.mem_cons_of_mem _ hb)) h.2

structure Core (s : St) (g : Gh) : Prop where
  end16 : s.heapEnd % 16 = 0
  endPos : 16 ≤ s.heapBegin ∧ s.heapBegin ≤ s.heapEnd
  endLim : s.heapEnd + s.heapRem ≤ sbrkLimit
  unused : ∀ x, s.heapEnd ≤ x → x < sbrkLimit → g.own x = .none
  rsvOwn : ∀ h x, s.buf h ≤ x → x < s.buf h + s.rsv h → g.own x = .rsv h
  rsvEnd : ∀ h, 0 < s.rsv h → s.heapBegin ≤ s.buf h ∧ s.buf h + s.rsv h ≤ s.heapEnd
  rsv16 : ∀ h, s.buf h % 16 = 0 ∧ s.rsv h % 16 = 0
  blk : ∀ a B, g.st a = some B → a % 16 = 0 ∧ s.heapBegin ≤ a ∧ 32 ≤ B.tot ∧ ∀ x, a ≤ x → x < a + B.tot → g.own x = .blk a
  homeB : ∀ a tot h b st, g.st a = some ⟨tot, .home h b, st⟩ → tot = bs b ∧ b ≤ 90 ∧ h < s.heaps ∧ a + tot ≤ s.heapEnd
  mapB : ∀ a tot st, g.st a = some ⟨tot, .map, st⟩ → tot % 4096 = 0 ∧ (a, tot) ∈ s.maps ∧ sbrkLimit ≤ a ∧ a + tot ≤ 2 ^ 47 ∧
    st ≠ .free ∧ st ≠ .ret
  mapsOwn : ∀ x, sbrkLimit ≤ x → (∀ r ∈ s.maps, ¬ (r.1 ≤ x ∧ x < r.1 + r.2)) → g.own x = .none
  flChain : ∀ h b, Chain s.mem (s.free h b) (g.fl h b)
  flNodup : ∀ h b, (g.fl h b).Nodup
  flMem : ∀ h b a, a ∈ g.fl h b ↔ g.st a = some ⟨bs b, .home h b, .free⟩
  rlChain : ∀ h b, Chain s.mem (s.ret h b) (g.rl h b)
  rlNodup : ∀ h b, (g.rl h b).Nodup
  rlMem : ∀ h b a, a ∈ g.rl h b ↔ g.st a = some ⟨bs b, .home h b, .ret⟩
  mgrLt : ∀ t h, s.mgr t = some h → h < s.heaps
  mgrInj : ∀ t t' h, s.mgr t = some h → s.mgr t' = some h → t = t'
  fhLt : ∀ h, h ∈ s.freeHeaps → h < s.heaps
  fhNo : ∀ t h, h ∈ s.freeHeaps → s.mgr t ≠ some h
  fhNodup : s.freeHeaps.Nodup
  heapsLim : s.heaps ≤ 2 ^ 40
  maxB : s.maxB ≤ 90
  mm : s.mmapStart ≤ bs s.maxB

/-- The address of a block is below 2^47. -/
theorem Core.lim {s : St} {g : Gh} (c : Core s g) {a : Nat} {B : Blk} (h : g.st a = some B) : a + B.tot ≤ 2 ^ 47 := by
  obtain ⟨tot, k, st⟩ := B
  cases k with
  | home h' b => have := c.homeB _ _ _ _ _ h; have := c.endLim; simp only [sbrkLimit] at *; omega
  | map => exact (c.mapB _ _ _ h).2.2.2.1

/-- Distinct blocks have no common byte. -/
theorem Core.disj {s : St} {g : Gh} (c : Core s g) {a a' : Nat} {B B' : Blk} (h : g.st a = some B) (h' : g.st a' = some B')
    (hne : a ≠ a') {x : Nat} (h1 : a ≤ x) (h2 : x < a + B.tot) : ¬ (a' ≤ x ∧ x < a' + B'.tot) := by
  intro hx
  have e1 := (c.blk a B h).2.2.2 x h1 h2
  have e2 := (c.blk a' B' h').2.2.2 x hx.1 hx.2
  rw [e1] at e2
  exact hne (Own.blk.inj e2)

/-- Memory may change outside the blocks on lists. -/
theorem Core.setMem {s : St} {g : Gh} (c : Core s g) (m' : Mem)
    (h : ∀ a B, g.st a = some B → B.stat = .free ∨ B.stat = .ret → ∀ x, a ≤ x → x < a + 8 → m' x = s.mem x) :
    Core { s with mem := m' } g :=
  { c with
    flChain := fun h' b => (c.flChain h' b).congr fun a ha => h a _ ((c.flMem h' b a).1 ha) (Or.inl rfl)
    rlChain := fun h' b => (c.rlChain h' b).congr fun a ha => h a _ ((c.rlMem h' b a).1 ha) (Or.inr rfl) }

/-- Memory may change inside a block that is on no list. -/
theorem Core.setMemIn {s : St} {g : Gh} (c : Core s g) (m' : Mem) {a : Nat} {B : Blk} (ha : g.st a = some B)
    (hf : B.stat ≠ .free) (hr : B.stat ≠ .ret) (h : ∀ x, x < a ∨ a + B.tot ≤ x → m' x = s.mem x) :
    Core { s with mem := m' } g := by
  refine c.setMem m' fun a' B' ha' hst x h1 h2 => h x ?_
  have hne : a ≠ a' := by
    intro e
    rw [e, ha'] at ha
    obtain rfl := Option.some.inj ha
    rcases hst with h | h
    · exact hf h
    · exact hr h
  have := (c.blk a' B' ha').2.2.1
  have := c.disj ha' ha (Ne.symm hne) h1 (by omega)
  omega

/-- The state of a block that is on no list may change. -/
theorem Core.setStat {s : St} {g : Gh} (c : Core s g) {a tot : Nat} {k : Kind} {s1 s2 : Stat} (ha : g.st a = some ⟨tot, k, s1⟩)
    (h1 : s1 ≠ .free ∧ s1 ≠ .ret) (h2 : s2 ≠ .free ∧ s2 ≠ .ret) :
    Core s { g with st := upd g.st a (some ⟨tot, k, s2⟩) } :=
  { c with
    blk := by
      intro a' B hB
      try dsimp only at hB
      by_cases e : a' = a
      · subst e
        simp only [upd_same, Option.some.injEq] at hB
        subst hB
        have := c.blk _ _ ha; exact this
      · rw [upd_n e] at hB
        exact c.blk _ _ hB
    homeB := by
      intro a' tot' h b st hB
      try dsimp only at hB
      by_cases e : a' = a
      · subst e
        simp only [upd_same, Option.some.injEq, Blk.mk.injEq] at hB
        obtain ⟨rfl, rfl, rfl⟩ := hB
        exact c.homeB _ _ _ _ _ ha
      · rw [upd_n e] at hB
        exact c.homeB _ _ _ _ _ hB
    mapB := by
      intro a' tot' st hB
      try dsimp only at hB
      by_cases e : a' = a
      · subst e
        simp only [upd_same, Option.some.injEq, Blk.mk.injEq] at hB
        obtain ⟨rfl, rfl, rfl⟩ := hB
        have := c.mapB _ _ _ ha
        exact ⟨this.1, this.2.1, this.2.2.1, this.2.2.2.1, h2⟩
      · rw [upd_n e] at hB
        exact c.mapB _ _ _ hB
    flMem := by
      intro h b a'
      rw [c.flMem]
      try dsimp only
      by_cases e : a' = a
      · subst e
        simp only [upd_same, Option.some.injEq, Blk.mk.injEq, ha]
        constructor
        · intro hh; exact absurd hh.2.2 h1.1
        · intro hh; exact absurd hh.2.2 h2.1
      · rw [upd_n e]
    rlMem := by
      intro h b a'
      rw [c.rlMem]
      try dsimp only
      by_cases e : a' = a
      · subst e
        simp only [upd_same, Option.some.injEq, Blk.mk.injEq, ha]
        constructor
        · intro hh; exact absurd hh.2.2 h1.2
        · intro hh; exact absurd hh.2.2 h2.2
      · rw [upd_n e] }

/-- `upd` of one entry of a table. -/
def upd2 {α : Type} (f : Nat → Nat → α) (h b : Nat) (v : α) : Nat → Nat → α := upd f h (upd (f h) b v)

theorem upd2_same {α : Type} {f : Nat → Nat → α} {h b : Nat} {v : α} : upd2 f h b v h b = v := by simp [upd2]

theorem upd2_ne {α : Type} {f : Nat → Nat → α} {h b h' b' : Nat} {v : α} (e : ¬ (h' = h ∧ b' = b)) :
    upd2 f h b v h' b' = f h' b' := by
  unfold upd2
  by_cases e1 : h' = h
  · subst e1
    rw [upd_same, upd_n (fun e2 => e ⟨rfl, e2⟩)]
  · rw [upd_n e1]

/-- A block goes onto the free list of its bucket. -/
theorem Core.pushFree {s : St} {g : Gh} (c : Core s g) {a tot h b : Nat} {st : Stat} (ha : g.st a = some ⟨tot, .home h b, st⟩)
    (hst : st ≠ .free ∧ st ≠ .ret) (hv : s.free h b < W) :
    Core { s with mem := store s.mem a (s.free h b), free := upd2 s.free h b a }
      { g with st := upd g.st a (some ⟨tot, .home h b, .free⟩), fl := upd2 g.fl h b (a :: g.fl h b) } := by
  have hB := c.homeB _ _ _ _ _ ha
  have h32 := (c.blk _ _ ha).2.2.1
  have c' : Core { s with mem := store s.mem a (s.free h b) } g :=
    c.setMemIn _ ha hst.1 hst.2 (fun x hx => store_out (by omega))
  have hnf : a ∉ g.fl h b := by
    rw [c.flMem, ha]; intro e; simp only [Option.some.injEq, Blk.mk.injEq] at e; exact hst.1 e.2.2
  refine { c' with
    blk := ?_, homeB := ?_, mapB := ?_, flChain := ?_, flNodup := ?_, flMem := ?_, rlMem := ?_ }
  · intro a' B hB'
    try dsimp only at hB'
    by_cases e : a' = a
    · subst e
      simp only [upd_same, Option.some.injEq] at hB'
      subst hB'
      have := c.blk _ _ ha; exact this
    · rw [upd_n e] at hB'
      exact c.blk _ _ hB'
  · intro a' tot' h' b' st' hB'
    try dsimp only at hB'
    by_cases e : a' = a
    · subst e
      simp only [upd_same, Option.some.injEq, Blk.mk.injEq, Kind.home.injEq] at hB'
      obtain ⟨rfl, ⟨rfl, rfl⟩, rfl⟩ := hB'
      exact hB
    · rw [upd_n e] at hB'
      exact c.homeB _ _ _ _ _ hB'
  · intro a' tot' st' hB'
    try dsimp only at hB'
    by_cases e : a' = a
    · subst e
      simp at hB'
    · rw [upd_n e] at hB'
      exact c.mapB _ _ _ hB'
  · intro h' b'
    by_cases e : h' = h ∧ b' = b
    · obtain ⟨rfl, rfl⟩ := e
      show Chain _ (upd2 s.free h' b' a h' b') (upd2 g.fl h' b' _ h' b')
      rw [upd2_same, upd2_same]
      refine ⟨rfl, ?_⟩
      show Chain (store s.mem a (s.free h' b')) (load (store s.mem a (s.free h' b')) a) _
      rw [load_store hv]
      exact c'.flChain h' b'
    · show Chain _ (upd2 s.free h b a h' b') (upd2 g.fl h b _ h' b')
      rw [upd2_ne e, upd2_ne e]
      exact c'.flChain h' b'
  · intro h' b'
    by_cases e : h' = h ∧ b' = b
    · obtain ⟨rfl, rfl⟩ := e
      show (upd2 g.fl h' b' _ h' b').Nodup
      rw [upd2_same]
      exact List.nodup_cons.2 ⟨hnf, c.flNodup h' b'⟩
    · show (upd2 g.fl h b _ h' b').Nodup
      rw [upd2_ne e]
      exact c.flNodup h' b'
  · intro h' b' a'
    show a' ∈ upd2 g.fl h b _ h' b' ↔ upd g.st a _ a' = _
    by_cases e : h' = h ∧ b' = b
    · obtain ⟨rfl, rfl⟩ := e
      rw [upd2_same]
      by_cases e2 : a' = a
      · subst e2
        simp [hB.1]
      · rw [upd_n e2, List.mem_cons, c.flMem]
        simp [e2]
    · rw [upd2_ne e, c.flMem]
      by_cases e2 : a' = a
      · subst e2
        rw [upd_same, ha]
        simp only [Option.some.injEq, Blk.mk.injEq, Kind.home.injEq]
        constructor
        · intro hh; exact absurd hh.2.2 hst.1
        · intro hh; exact absurd ⟨hh.2.1.1.symm, hh.2.1.2.symm⟩ e
      · rw [upd_n e2]
  · intro h' b' a'
    show a' ∈ g.rl h' b' ↔ upd g.st a _ a' = _
    rw [c.rlMem]
    by_cases e2 : a' = a
    · subst e2
      rw [upd_same, ha]
      simp only [Option.some.injEq, Blk.mk.injEq]
      constructor
      · intro hh; exact absurd hh.2.2 hst.2
      · intro hh; exact absurd hh.2.2 (by simp)
    · rw [upd_n e2]

/-- A block goes onto the return list of its bucket. -/
theorem Core.pushRet {s : St} {g : Gh} (c : Core s g) {a tot h b : Nat} {st : Stat} (ha : g.st a = some ⟨tot, .home h b, st⟩)
    (hst : st ≠ .free ∧ st ≠ .ret) (hv : s.ret h b < W) :
    Core { s with mem := store s.mem a (s.ret h b), ret := upd2 s.ret h b a }
      { g with st := upd g.st a (some ⟨tot, .home h b, .ret⟩), rl := upd2 g.rl h b (a :: g.rl h b) } := by
  have hB := c.homeB _ _ _ _ _ ha
  have h32 := (c.blk _ _ ha).2.2.1
  have c' : Core { s with mem := store s.mem a (s.ret h b) } g :=
    c.setMemIn _ ha hst.1 hst.2 (fun x hx => store_out (by omega))
  have hnf : a ∉ g.rl h b := by
    rw [c.rlMem, ha]; intro e; simp only [Option.some.injEq, Blk.mk.injEq] at e; exact hst.2 e.2.2
  refine { c' with
    blk := ?_, homeB := ?_, mapB := ?_, rlChain := ?_, rlNodup := ?_, rlMem := ?_, flMem := ?_ }
  · intro a' B hB'
    try dsimp only at hB'
    by_cases e : a' = a
    · subst e
      simp only [upd_same, Option.some.injEq] at hB'
      subst hB'
      have := c.blk _ _ ha; exact this
    · rw [upd_n e] at hB'
      exact c.blk _ _ hB'
  · intro a' tot' h' b' st' hB'
    try dsimp only at hB'
    by_cases e : a' = a
    · subst e
      simp only [upd_same, Option.some.injEq, Blk.mk.injEq, Kind.home.injEq] at hB'
      obtain ⟨rfl, ⟨rfl, rfl⟩, rfl⟩ := hB'
      exact hB
    · rw [upd_n e] at hB'
      exact c.homeB _ _ _ _ _ hB'
  · intro a' tot' st' hB'
    try dsimp only at hB'
    by_cases e : a' = a
    · subst e
      simp at hB'
    · rw [upd_n e] at hB'
      exact c.mapB _ _ _ hB'
  · intro h' b' a'
    show a' ∈ g.fl h' b' ↔ upd g.st a _ a' = _
    rw [c.flMem]
    by_cases e2 : a' = a
    · subst e2
      rw [upd_same, ha]
      simp only [Option.some.injEq, Blk.mk.injEq]
      constructor
      · intro hh; exact absurd hh.2.2 hst.1
      · intro hh; exact absurd hh.2.2 (by simp)
    · rw [upd_n e2]
  · intro h' b'
    by_cases e : h' = h ∧ b' = b
    · obtain ⟨rfl, rfl⟩ := e
      show Chain _ (upd2 s.ret h' b' a h' b') (upd2 g.rl h' b' _ h' b')
      rw [upd2_same, upd2_same]
      refine ⟨rfl, ?_⟩
      show Chain (store s.mem a (s.ret h' b')) (load (store s.mem a (s.ret h' b')) a) _
      rw [load_store hv]
      exact c'.rlChain h' b'
    · show Chain _ (upd2 s.ret h b a h' b') (upd2 g.rl h b _ h' b')
      rw [upd2_ne e, upd2_ne e]
      exact c'.rlChain h' b'
  · intro h' b'
    by_cases e : h' = h ∧ b' = b
    · obtain ⟨rfl, rfl⟩ := e
      show (upd2 g.rl h' b' _ h' b').Nodup
      rw [upd2_same]
      exact List.nodup_cons.2 ⟨hnf, c.rlNodup h' b'⟩
    · show (upd2 g.rl h b _ h' b').Nodup
      rw [upd2_ne e]
      exact c.rlNodup h' b'
  · intro h' b' a'
    show a' ∈ upd2 g.rl h b _ h' b' ↔ upd g.st a _ a' = _
    by_cases e : h' = h ∧ b' = b
    · obtain ⟨rfl, rfl⟩ := e
      rw [upd2_same]
      by_cases e2 : a' = a
      · subst e2
        simp [hB.1]
      · rw [upd_n e2, List.mem_cons, c.rlMem]
        simp [e2]
    · rw [upd2_ne e, c.rlMem]
      by_cases e2 : a' = a
      · subst e2
        rw [upd_same, ha]
        simp only [Option.some.injEq, Blk.mk.injEq, Kind.home.injEq]
        constructor
        · intro hh; exact absurd hh.2.2 hst.2
        · intro hh; exact absurd ⟨hh.2.1.1.symm, hh.2.1.2.symm⟩ e
      · rw [upd_n e2]

/-- The first block of a free list that is not empty. -/
theorem Core.freeHead {s : St} {g : Gh} (c : Core s g) {h b : Nat} (hne : s.free h b ≠ 0) :
    ∃ l, g.fl h b = s.free h b :: l ∧ g.st (s.free h b) = some ⟨bs b, .home h b, .free⟩ ∧ Chain s.mem (load s.mem (s.free h b)) l := by
  have hc := c.flChain h b
  cases hl : g.fl h b with
  | nil => rw [hl] at hc; exact absurd hc hne
  | cons a l =>
    rw [hl] at hc
    obtain ⟨h1, h2⟩ := hc
    refine ⟨l, by rw [h1], ?_, by rw [h1]; exact h2⟩
    rw [h1, ← c.flMem, hl]
    exact List.mem_cons_self ..

theorem Core.retHead {s : St} {g : Gh} (c : Core s g) {h b : Nat} (hne : s.ret h b ≠ 0) :
    ∃ l, g.rl h b = s.ret h b :: l ∧ g.st (s.ret h b) = some ⟨bs b, .home h b, .ret⟩ ∧ Chain s.mem (load s.mem (s.ret h b)) l := by
  have hc := c.rlChain h b
  cases hl : g.rl h b with
  | nil => rw [hl] at hc; exact absurd hc hne
  | cons a l =>
    rw [hl] at hc
    obtain ⟨h1, h2⟩ := hc
    refine ⟨l, by rw [h1], ?_, by rw [h1]; exact h2⟩
    rw [h1, ← c.rlMem, hl]
    exact List.mem_cons_self ..

/-- The head of a list is an address. -/
theorem Core.freeLt {s : St} {g : Gh} (c : Core s g) (h b : Nat) : s.free h b < W := by
  by_cases e : s.free h b = 0
  · rw [e]; simp [W]
  · obtain ⟨l, _, h2, _⟩ := c.freeHead e
    have := c.lim h2
    simp only [W]; omega

theorem Core.retLt {s : St} {g : Gh} (c : Core s g) (h b : Nat) : s.ret h b < W := by
  by_cases e : s.ret h b = 0
  · rw [e]; simp [W]
  · obtain ⟨l, _, h2, _⟩ := c.retHead e
    have := c.lim h2
    simp only [W]; omega

theorem Core.fl_nil {s : St} {g : Gh} (c : Core s g) {h b : Nat} (h0 : s.free h b = 0) : g.fl h b = [] := by
  have hc := c.flChain h b
  cases hl : g.fl h b with
  | nil => rfl
  | cons a l =>
    rw [hl] at hc
    have : g.st a = some ⟨bs b, .home h b, .free⟩ := by rw [← c.flMem, hl]; exact List.mem_cons_self ..
    have := (c.blk _ _ this).2.1
    have := hc.1
    have := c.endPos
    omega

/-- Taking the first block of a free list. -/
theorem Core.pop {s : St} {g : Gh} (c : Core s g) {h b a t : Nat} {l : List Nat} (hl : g.fl h b = a :: l)
    (hs : g.st a = some ⟨bs b, .home h b, .free⟩) (hc : Chain s.mem (load s.mem a) l) :
    Core { s with free := upd2 s.free h b (load s.mem a) }
      { g with st := upd g.st a (some ⟨bs b, .home h b, .new t⟩), fl := upd2 g.fl h b l } := by
  have hnd := c.flNodup h b
  rw [hl] at hnd
  have hB := c.homeB _ _ _ _ _ hs
  refine { c with
    blk := ?_, homeB := ?_, mapB := ?_, flChain := ?_, flNodup := ?_, flMem := ?_, rlMem := ?_ }
  · intro a' B hB'
    try dsimp only at hB'
    by_cases e : a' = a
    · subst e
      simp only [upd_same, Option.some.injEq] at hB'
      subst hB'
      have := c.blk _ _ hs; exact this
    · rw [upd_n e] at hB'
      exact c.blk _ _ hB'
  · intro a' tot' h' b' st' hB'
    try dsimp only at hB'
    by_cases e : a' = a
    · subst e
      simp only [upd_same, Option.some.injEq, Blk.mk.injEq, Kind.home.injEq] at hB'
      obtain ⟨rfl, ⟨rfl, rfl⟩, rfl⟩ := hB'
      exact hB
    · rw [upd_n e] at hB'
      exact c.homeB _ _ _ _ _ hB'
  · intro a' tot' st' hB'
    try dsimp only at hB'
    by_cases e : a' = a
    · subst e
      simp at hB'
    · rw [upd_n e] at hB'
      exact c.mapB _ _ _ hB'
  · intro h' b'
    show Chain _ (upd2 s.free h b _ h' b') (upd2 g.fl h b _ h' b')
    by_cases e : h' = h ∧ b' = b
    · obtain ⟨rfl, rfl⟩ := e
      rw [upd2_same, upd2_same]
      exact hc
    · rw [upd2_ne e, upd2_ne e]
      exact c.flChain h' b'
  · intro h' b'
    show (upd2 g.fl h b _ h' b').Nodup
    by_cases e : h' = h ∧ b' = b
    · obtain ⟨rfl, rfl⟩ := e
      rw [upd2_same]
      exact (List.nodup_cons.1 hnd).2
    · rw [upd2_ne e]
      exact c.flNodup h' b'
  · intro h' b' a'
    show a' ∈ upd2 g.fl h b _ h' b' ↔ upd g.st a _ a' = _
    by_cases e : h' = h ∧ b' = b
    · obtain ⟨rfl, rfl⟩ := e
      rw [upd2_same]
      by_cases e2 : a' = a
      · subst e2
        simp [(List.nodup_cons.1 hnd).1]
      · rw [upd_n e2, ← c.flMem, hl, List.mem_cons]
        simp [e2]
    · rw [upd2_ne e, c.flMem]
      by_cases e2 : a' = a
      · subst e2
        rw [upd_same, hs]
        simp only [Option.some.injEq, Blk.mk.injEq, Kind.home.injEq]
        constructor
        · intro hh; exact absurd ⟨hh.2.1.1.symm, hh.2.1.2.symm⟩ e
        · intro hh; exact absurd hh.2.2 (by simp)
      · rw [upd_n e2]
  · intro h' b' a'
    show a' ∈ g.rl h' b' ↔ upd g.st a _ a' = _
    rw [c.rlMem]
    by_cases e2 : a' = a
    · subst e2
      rw [upd_same, hs]
      simp
    · rw [upd_n e2]

/-- The state of the blocks when the blocks of `l` go from a return list to the free list and `a` is taken. -/
def pulled (st : Nat → Option Blk) (h b a t : Nat) (l : List Nat) : Nat → Option Blk := fun x =>
  if x = a then some ⟨bs b, .home h b, .new t⟩ else if x ∈ l then some ⟨bs b, .home h b, .free⟩ else st x

/-- Taking over a return list. -/
theorem Core.pullList {s : St} {g : Gh} (c : Core s g) {h b a t : Nat} {l : List Nat} (hl : g.rl h b = a :: l)
    (hc : Chain s.mem (load s.mem a) l) (h0 : s.free h b = 0) :
    Core { s with ret := upd2 s.ret h b 0, free := upd2 s.free h b (load s.mem a) }
      { g with st := pulled g.st h b a t l, rl := upd2 g.rl h b [], fl := upd2 g.fl h b l } := by
  have hnd := c.rlNodup h b
  rw [hl] at hnd
  obtain ⟨hal, hnl⟩ := List.nodup_cons.1 hnd
  have hs : g.st a = some ⟨bs b, .home h b, .ret⟩ := by rw [← c.rlMem, hl]; exact List.mem_cons_self ..
  have hsl : ∀ x ∈ l, g.st x = some ⟨bs b, .home h b, .ret⟩ := by
    intro x hx; rw [← c.rlMem, hl]; exact List.mem_cons_of_mem _ hx
  have hnil := c.fl_nil h0
  -- a block changes its state only
  have key : ∀ x B, pulled g.st h b a t l x = some B → ∃ B0, g.st x = some B0 ∧ B.tot = B0.tot ∧ B.kind = B0.kind := by
    intro x B hB
    unfold pulled at hB
    split at hB
    · rename_i e; subst e
      obtain rfl := Option.some.inj hB
      exact ⟨_, hs, rfl, rfl⟩
    · split at hB
      · rename_i e
        obtain rfl := Option.some.inj hB
        exact ⟨_, hsl _ e, rfl, rfl⟩
      · exact ⟨B, hB, rfl, rfl⟩
  refine { c with
    blk := ?_, homeB := ?_, mapB := ?_, flChain := ?_, flNodup := ?_, flMem := ?_, rlChain := ?_, rlNodup := ?_, rlMem := ?_ }
  · intro a' B hB'
    obtain ⟨B0, e1, e2, e3⟩ := key _ _ hB'
    rw [e2]
    exact c.blk _ _ e1
  · intro a' tot' h' b' st' hB'
    obtain ⟨⟨t0, k0, st0⟩, e1, e2, e3⟩ := key _ _ hB'
    simp only at e2 e3
    subst e2 e3
    exact c.homeB _ _ _ _ _ e1
  · intro a' tot' st' hB'
    show _ ∧ _
    change pulled g.st h b a t l a' = _ at hB'
    unfold pulled at hB'
    split at hB'
    · simp at hB'
    · split at hB'
      · simp at hB'
      · exact c.mapB _ _ _ hB'
  · intro h' b'
    show Chain _ (upd2 s.free h b _ h' b') (upd2 g.fl h b _ h' b')
    by_cases e : h' = h ∧ b' = b
    · obtain ⟨rfl, rfl⟩ := e
      rw [upd2_same, upd2_same]
      exact hc
    · rw [upd2_ne e, upd2_ne e]
      exact c.flChain h' b'
  · intro h' b'
    show (upd2 g.fl h b _ h' b').Nodup
    by_cases e : h' = h ∧ b' = b
    · obtain ⟨rfl, rfl⟩ := e
      rw [upd2_same]
      exact hnl
    · rw [upd2_ne e]
      exact c.flNodup h' b'
  · intro h' b' a'
    show a' ∈ upd2 g.fl h b _ h' b' ↔ pulled g.st h b a t l a' = _
    unfold pulled
    by_cases e : h' = h ∧ b' = b
    · obtain ⟨rfl, rfl⟩ := e
      rw [upd2_same]
      split
      · rename_i e2; subst e2
        simp [hal]
      · split
        · simp [*]
        · rename_i e2
          simp only [e2, false_iff]
          rw [← c.flMem, hnil]
          simp
    · rw [upd2_ne e, c.flMem]
      split
      · rename_i e2; subst e2
        rw [hs]; simp
      · split
        · rename_i e2
          rw [hsl _ e2]
          simp only [Option.some.injEq, Blk.mk.injEq, Kind.home.injEq]
          constructor
          · intro hh; exact absurd hh.2.2 (by simp)
          · intro hh; exact absurd ⟨hh.2.1.1.symm, hh.2.1.2.symm⟩ e
        · exact Iff.rfl
  · intro h' b'
    show Chain _ (upd2 s.ret h b _ h' b') (upd2 g.rl h b _ h' b')
    by_cases e : h' = h ∧ b' = b
    · obtain ⟨rfl, rfl⟩ := e
      rw [upd2_same, upd2_same]
      rfl
    · rw [upd2_ne e, upd2_ne e]
      exact c.rlChain h' b'
  · intro h' b'
    show (upd2 g.rl h b _ h' b').Nodup
    by_cases e : h' = h ∧ b' = b
    · obtain ⟨rfl, rfl⟩ := e
      rw [upd2_same]
      exact List.nodup_nil
    · rw [upd2_ne e]
      exact c.rlNodup h' b'
  · intro h' b' a'
    show a' ∈ upd2 g.rl h b _ h' b' ↔ pulled g.st h b a t l a' = _
    unfold pulled
    by_cases e : h' = h ∧ b' = b
    · obtain ⟨rfl, rfl⟩ := e
      rw [upd2_same]
      split
      · simp
      · split
        · simp
        · rename_i e1 e2
          simp only [List.not_mem_nil, false_iff]
          rw [← c.rlMem, hl, List.mem_cons]
          simp [e1, e2]
    · rw [upd2_ne e, c.rlMem]
      split
      · rename_i e2; subst e2
        rw [hs]
        simp only [Option.some.injEq, Blk.mk.injEq, Kind.home.injEq]
        constructor
        · intro hh; exact absurd ⟨hh.2.1.1.symm, hh.2.1.2.symm⟩ e
        · intro hh; exact absurd hh.2.2 (by simp)
      · split
        · rename_i e2
          rw [hsl _ e2]
          simp only [Option.some.injEq, Blk.mk.injEq, Kind.home.injEq]
          constructor
          · intro hh; exact absurd ⟨hh.2.1.1.symm, hh.2.1.2.symm⟩ e
          · intro hh; exact absurd hh.2.2 (by simp)
        · exact Iff.rfl

/-- A new block, from bytes that no block owns. -/
theorem Core.newBlock {s : St} {g : Gh} (c : Core s g) {a tot : Nat} {k : Kind} {t : Nat} (h16 : a % 16 = 0) (hpos : s.heapBegin ≤ a)
    (h32 : 32 ≤ tot) (hown : ∀ x, a ≤ x → x < a + tot → ∀ a', g.own x ≠ .blk a')
    (hend : ∀ x, a ≤ x → x < a + tot → x < s.heapEnd ∨ sbrkLimit ≤ x)
    (hrsv : ∀ h x, s.buf h ≤ x → x < s.buf h + s.rsv h → ¬ (a ≤ x ∧ x < a + tot))
    (hk : match k with
      | .home h b => tot = bs b ∧ b ≤ 90 ∧ h < s.heaps ∧ a + tot ≤ s.heapEnd
      | .map => tot % 4096 = 0 ∧ (a, tot) ∈ s.maps ∧ sbrkLimit ≤ a ∧ a + tot ≤ 2 ^ 47)
    (hm : ∀ x, sbrkLimit ≤ x → a ≤ x → x < a + tot → ∃ r ∈ s.maps, r.1 ≤ x ∧ x < r.1 + r.2) :
    g.st a = none ∧
    Core s { g with st := upd g.st a (some ⟨tot, k, .new t⟩), own := setOwn g.own a (a + tot) (.blk a) } := by
  have hnone : g.st a = none := by
    cases e : g.st a with
    | none => rfl
    | some B =>
      have hb := c.blk _ _ e
      exact absurd (hb.2.2.2 a (by omega) (by omega)) (hown a (by omega) (by omega) a)
  refine ⟨hnone, { c with
    unused := ?_, rsvOwn := ?_, blk := ?_, homeB := ?_, mapB := ?_, mapsOwn := ?_, flMem := ?_, rlMem := ?_ }⟩
  · intro x h1 h2
    show setOwn g.own a (a + tot) (.blk a) x = _
    rw [setOwn_out]
    · exact c.unused x h1 h2
    · by_cases e : a ≤ x ∧ x < a + tot
      · have := hend x e.1 e.2; omega
      · omega
  · intro h x h1 h2
    show setOwn g.own a (a + tot) (.blk a) x = _
    rw [setOwn_out]
    · exact c.rsvOwn h x h1 h2
    · have := hrsv h x h1 h2; omega
  · intro a' B hB'
    try dsimp only at hB'
    by_cases e : a' = a
    · subst e
      simp only [upd_same, Option.some.injEq] at hB'
      subst hB'
      exact ⟨h16, hpos, h32, fun x h1 h2 => setOwn_in h1 h2⟩
    · rw [upd_n e] at hB'
      have hb := c.blk _ _ hB'
      refine ⟨hb.1, hb.2.1, hb.2.2.1, fun x h1 h2 => ?_⟩
      have hx := hb.2.2.2 x h1 h2
      show setOwn g.own a (a + tot) (.blk a) x = _
      rw [setOwn_out]
      · exact hx
      · by_cases e : a ≤ x ∧ x < a + tot
        · exact absurd hx (hown x e.1 e.2 a')
        · omega
  · intro a' tot' h' b' st' hB'
    try dsimp only at hB'
    by_cases e : a' = a
    · subst e
      simp only [upd_same, Option.some.injEq, Blk.mk.injEq] at hB'
      obtain ⟨rfl, rfl, rfl⟩ := hB'
      exact hk
    · rw [upd_n e] at hB'
      exact c.homeB _ _ _ _ _ hB'
  · intro a' tot' st' hB'
    try dsimp only at hB'
    by_cases e : a' = a
    · subst e
      simp only [upd_same, Option.some.injEq, Blk.mk.injEq] at hB'
      obtain ⟨rfl, rfl, rfl⟩ := hB'
      exact ⟨hk.1, hk.2.1, hk.2.2.1, hk.2.2.2, by simp, by simp⟩
    · rw [upd_n e] at hB'
      exact c.mapB _ _ _ hB'
  · intro x h1 h2
    show setOwn g.own a (a + tot) (.blk a) x = _
    rw [setOwn_out]
    · exact c.mapsOwn x h1 h2
    · by_cases e : a ≤ x ∧ x < a + tot
      · obtain ⟨r, hr, hr2⟩ := hm x h1 e.1 e.2
        exact absurd hr2 (h2 r hr)
      · omega
  · intro h' b' a'
    show a' ∈ g.fl h' b' ↔ upd g.st a _ a' = _
    rw [c.flMem]
    by_cases e2 : a' = a
    · subst e2
      rw [upd_same, hnone]
      simp
    · rw [upd_n e2]
  · intro h' b' a'
    show a' ∈ g.rl h' b' ↔ upd g.st a _ a' = _
    rw [c.rlMem]
    by_cases e2 : a' = a
    · subst e2
      rw [upd_same, hnone]
      simp
    · rw [upd_n e2]

/-- A part of the reserve becomes a block. -/
theorem Core.carve {s : St} {g : Gh} (c : Core s g) {h b t : Nat} (hb : b ≤ 90) (hh : h < s.heaps) (hle : bs b ≤ s.rsv h) :
    g.st (s.buf h) = none ∧
    Core { s with buf := upd s.buf h (s.buf h + bs b), rsv := upd s.rsv h (s.rsv h - bs b) }
      { g with st := upd g.st (s.buf h) (some ⟨bs b, .home h b, .new t⟩),
               own := setOwn g.own (s.buf h) (s.buf h + bs b) (.blk (s.buf h)) } := by
  have hbs := bs_facts hb
  have hre := c.rsvEnd h (by omega)
  have hr16 := c.rsv16 h
  have c' : Core { s with buf := upd s.buf h (s.buf h + bs b), rsv := upd s.rsv h (s.rsv h - bs b) } g := by
    refine { c with rsvOwn := ?_, rsvEnd := ?_, rsv16 := ?_ }
    · intro h' x h1 h2
      change upd s.buf h _ h' ≤ x at h1
      change x < upd s.buf h _ h' + upd s.rsv h _ h' at h2
      by_cases e : h' = h
      · subst e
        rw [upd_same] at h1 h2
        rw [upd_same] at h2
        exact c.rsvOwn _ x (by omega) (by omega)
      · rw [upd_n e] at h1 h2
        rw [upd_n e] at h2
        exact c.rsvOwn _ x h1 h2
    · intro h'
      show 0 < upd s.rsv h _ h' → s.heapBegin ≤ upd s.buf h _ h' ∧ upd s.buf h _ h' + upd s.rsv h _ h' ≤ _
      by_cases e : h' = h
      · subst e
        rw [upd_same, upd_same]
        intro _; show _ ∧ _ ≤ s.heapEnd; omega
      · rw [upd_n e, upd_n e]
        exact c.rsvEnd h'
    · intro h'
      show upd s.buf h _ h' % 16 = 0 ∧ upd s.rsv h _ h' % 16 = 0
      by_cases e : h' = h
      · subst e
        rw [upd_same, upd_same]
        omega
      · rw [upd_n e, upd_n e]
        exact c.rsv16 h'
  refine c'.newBlock hr16.1 hre.1 hbs.2.1 ?_ ?_ ?_ ?_ ?_
  · intro x h1 h2 a'
    rw [c.rsvOwn h x h1 (by omega)]
    simp
  · intro x h1 h2
    left; show x < s.heapEnd; omega
  · intro h' x h1 h2 hx
    change upd s.buf h _ h' ≤ x at h1
    change x < upd s.buf h _ h' + upd s.rsv h _ h' at h2
    by_cases e : h' = h
    · subst e
      rw [upd_same] at h1
      omega
    · rw [upd_n e] at h1 h2
      rw [upd_n e] at h2
      have e1 := c.rsvOwn h' x h1 h2
      have e2 := c.rsvOwn h x hx.1 (by omega)
      rw [e1] at e2
      exact e (Own.rsv.inj e2)
  · exact ⟨rfl, hb, hh, by show _ ≤ s.heapEnd; omega⟩
  · intro x h1 h2 h3
    have := c.endLim
    omega

/-- The reserve of a heap is replaced by new storage. -/
theorem Core.extend {s : St} {g : Gh} (c : Core s g) {h inc rem : Nat} (h16 : inc % 16 = 0)
    (hlim : s.heapEnd + inc + rem ≤ sbrkLimit) :
    Core { s with heapEnd := s.heapEnd + inc, heapRem := rem, buf := upd s.buf h s.heapEnd, rsv := upd s.rsv h inc }
      { g with own := setOwn g.own s.heapEnd (s.heapEnd + inc) (.rsv h) } := by
  have he := c.end16
  have hp := c.endPos
  refine { c with
    end16 := ?_, endPos := ?_, endLim := ?_, unused := ?_, rsvOwn := ?_, rsvEnd := ?_, rsv16 := ?_, blk := ?_, homeB := ?_,
    mapsOwn := ?_ }
  · show (s.heapEnd + inc) % 16 = 0; omega
  · show 16 ≤ s.heapBegin ∧ s.heapBegin ≤ s.heapEnd + inc; omega
  · show s.heapEnd + inc + rem ≤ sbrkLimit; omega
  · intro x h1 h2
    change s.heapEnd + inc ≤ x at h1
    show setOwn _ _ _ _ x = _
    rw [setOwn_out (by omega)]
    exact c.unused x (by omega) h2
  · intro h' x h1 h2
    change upd s.buf h _ h' ≤ x at h1
    change x < upd s.buf h _ h' + upd s.rsv h _ h' at h2
    show setOwn _ _ _ _ x = _
    by_cases e : h' = h
    · subst e
      rw [upd_same] at h1 h2
      rw [upd_same] at h2
      exact setOwn_in h1 h2
    · rw [upd_n e] at h1 h2
      rw [upd_n e] at h2
      have := c.rsvEnd h' (by omega)
      rw [setOwn_out (by omega)]
      exact c.rsvOwn _ x h1 h2
  · intro h'
    show 0 < upd s.rsv h _ h' → s.heapBegin ≤ upd s.buf h _ h' ∧ upd s.buf h _ h' + upd s.rsv h _ h' ≤ s.heapEnd + inc
    by_cases e : h' = h
    · subst e
      rw [upd_same, upd_same]
      intro _; exact ⟨hp.2, Nat.le_refl _⟩
    · rw [upd_n e, upd_n e]
      intro h0
      have := c.rsvEnd h' h0
      omega
  · intro h'
    show upd s.buf h _ h' % 16 = 0 ∧ upd s.rsv h _ h' % 16 = 0
    by_cases e : h' = h
    · subst e
      rw [upd_same, upd_same]
      exact ⟨he, h16⟩
    · rw [upd_n e, upd_n e]
      exact c.rsv16 h'
  · intro a B hB
    have hb := c.blk a B hB
    refine ⟨hb.1, hb.2.1, hb.2.2.1, fun x h1 h2 => ?_⟩
    have hx := hb.2.2.2 x h1 h2
    show setOwn _ _ _ _ x = _
    rw [setOwn_out]
    · exact hx
    · by_cases e : s.heapEnd ≤ x ∧ x < s.heapEnd + inc
      · have := c.unused x e.1 (by omega)
        rw [hx] at this
        exact absurd this (by simp)
      · omega
  · intro a tot h' b st hB
    have := c.homeB _ _ _ _ _ hB
    refine ⟨this.1, this.2.1, this.2.2.1, ?_⟩
    show a + tot ≤ s.heapEnd + inc
    omega
  · intro x h1 h2
    show setOwn _ _ _ _ x = _
    rw [setOwn_out (by omega)]
    exact c.mapsOwn x h1 h2

/-- A new mapping. -/
theorem Core.mmap {s : St} {g : Gh} (c : Core s g) {a len t : Nat} (hpg : a % 4096 = 0) (hlen : len % 4096 = 0) (h0 : 0 < len)
    (hlo : sbrkLimit ≤ a) (hhi : a + len ≤ 2 ^ 47)
    (hfree : ∀ r ∈ s.maps, ¬ (r.1 < a + len ∧ a < r.1 + r.2)) :
    g.st a = none ∧
    Core { s with maps := (a, len) :: s.maps }
      { g with st := upd g.st a (some ⟨len, .map, .new t⟩), own := setOwn g.own a (a + len) (.blk a) } := by
  have hnone : ∀ x, a ≤ x → x < a + len → g.own x = .none := by
    intro x h1 h2
    refine c.mapsOwn x (by omega) fun r hr hx => hfree r hr (by omega)
  have c' : Core { s with maps := (a, len) :: s.maps } g :=
    { c with
      mapB := fun a' tot' st' h => by
        have := c.mapB a' tot' st' h
        exact ⟨this.1, List.mem_cons_of_mem _ this.2.1, this.2.2⟩
      mapsOwn := fun x h1 h2 => c.mapsOwn x h1 fun r hr => h2 r (List.mem_cons_of_mem _ hr) }
  have hs := c.endPos
  have hs2 := c.endLim
  refine c'.newBlock (by omega) (by show s.heapBegin ≤ a; omega) (by omega) ?_ ?_ ?_ ?_ ?_
  · intro x h1 h2 a'; rw [hnone x h1 h2]; simp
  · intro x h1 h2; right; omega
  · intro h x h1 h2 hx
    have := c.rsvEnd h (by change s.buf h ≤ x at h1; change x < s.buf h + s.rsv h at h2; omega)
    have := c.endLim
    change s.buf h ≤ x at h1; change x < s.buf h + s.rsv h at h2
    omega
  · exact ⟨hlen, List.mem_cons_self .., hlo, hhi⟩
  · intro x h1 h2 h3
    exact ⟨_, List.mem_cons_self .., h2, h3⟩

/-- A mapped block is given back to the system. -/
theorem Core.munmap {s : St} {g : Gh} (c : Core s g) {a len : Nat} {st : Stat} (ha : g.st a = some ⟨len, .map, st⟩) :
    Core { s with maps := s.maps.filter (· ≠ (a, len)) }
      { g with st := upd g.st a none, own := setOwn g.own a (a + len) .none } := by
  have hm := c.mapB _ _ _ ha
  have hb := c.blk _ _ ha
  refine { c with
    unused := ?_, rsvOwn := ?_, blk := ?_, homeB := ?_, mapB := ?_, mapsOwn := ?_, flMem := ?_, rlMem := ?_ }
  · intro x h1 h2
    show setOwn _ _ _ _ x = _
    rw [setOwn_out (by omega)]
    exact c.unused x h1 h2
  · intro h x h1 h2
    have := c.rsvEnd h (by change s.buf h ≤ x at h1; change x < s.buf h + s.rsv h at h2; omega)
    have := c.endLim
    show setOwn _ _ _ _ x = _
    rw [setOwn_out (by change s.buf h ≤ x at h1; change x < s.buf h + s.rsv h at h2; omega)]
    exact c.rsvOwn h x h1 h2
  · intro a' B hB'
    try dsimp only at hB'
    by_cases e : a' = a
    · subst e; simp at hB'
    · rw [upd_n e] at hB'
      have hb' := c.blk _ _ hB'
      refine ⟨hb'.1, hb'.2.1, hb'.2.2.1, fun x h1 h2 => ?_⟩
      have := c.disj hB' ha e h1 h2
      show setOwn _ _ _ _ x = _
      rw [setOwn_out (by simp only at this; omega)]
      exact hb'.2.2.2 x h1 h2
  · intro a' tot' h' b' st' hB'
    try dsimp only at hB'
    by_cases e : a' = a
    · subst e; simp at hB'
    · rw [upd_n e] at hB'
      exact c.homeB _ _ _ _ _ hB'
  · intro a' tot' st' hB'
    try dsimp only at hB'
    by_cases e : a' = a
    · subst e; simp at hB'
    · rw [upd_n e] at hB'
      have := c.mapB _ _ _ hB'
      refine ⟨this.1, List.mem_filter.2 ⟨this.2.1, ?_⟩, this.2.2⟩
      simp [e]
  · intro x h1 h2
    show setOwn _ _ _ _ x = _
    by_cases e : a ≤ x ∧ x < a + len
    · exact setOwn_in e.1 e.2
    · rw [setOwn_out (by omega)]
      refine c.mapsOwn x h1 fun r hr hx => ?_
      by_cases e2 : r = (a, len)
      · subst e2; exact e hx
      · exact h2 r (List.mem_filter.2 ⟨hr, by simp [e2]⟩) hx
  · intro h' b' a'
    show a' ∈ g.fl h' b' ↔ upd g.st a _ a' = _
    rw [c.flMem]
    by_cases e2 : a' = a
    · subst e2; rw [upd_same, ha]; simp
    · rw [upd_n e2]
  · intro h' b' a'
    show a' ∈ g.rl h' b' ↔ upd g.st a _ a' = _
    rw [c.rlMem]
    by_cases e2 : a' = a
    · subst e2; rw [upd_same, ha]; simp
    · rw [upd_n e2]

end Verif.HeapAlloc
