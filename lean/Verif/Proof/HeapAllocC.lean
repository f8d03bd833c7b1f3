import Verif.Proof.HeapAllocB
/-! What clients and threads hold, and the invariant of the allocator. -/
namespace Verif.HeapAlloc

/-- The first word of a block in use, without the bit for 0. -/
def base (k : Kind) (tot : Nat) : Nat :=
  match k with
  | .home h b => homeAddr h b
  | .map => tot + 4

def zb (z : Bool) : Nat := if z then 2 else 0

/-- `p` is the address by which a client knows the block at `a`: after its header, or after a second header. -/
structure Us (m : Mem) (a tot p A : Nat) : Prop where
  lt : p < a + tot
  al : p % A = 0
  a16 : A % 16 = 0 ∧ 16 ≤ A
  two : (p = a + 16 ∧ A = 16) ∨ (a + 32 ≤ p ∧ load m (p - 16) = A + 1 ∧ load m (p - 8) = p - 16 - a)

/-- There is a block in the state `st` known by the address `p`, with size `n`, alignment `A`, the bit for 0, room for
`cap` bytes, and the contents `f`. -/
def Held (m : Mem) (g : Gh) (st : Stat) (p n A : Nat) (z : Bool) (cap : Nat) (f : Nat → Option Nat) : Prop :=
  ∃ a tot k, g.st a = some ⟨tot, k, st⟩ ∧ load m a = base k tot + zb z ∧ load m (a + 8) = n ∧ Us m a tot p A ∧
    p + cap ≤ a + tot ∧ ∀ i v, i < cap → f i = some v → m (p + i) = v

/-- A block as doMalloc leaves it, at `a` and known by `p`. -/
def Fresh (m : Mem) (g : Gh) (t a p n A : Nat) : Prop :=
  ∃ tot k, g.st a = some ⟨tot, k, .new t⟩ ∧ load m a = base k tot ∧ load m (a + 8) = n ∧ Us m a tot p A ∧
    p + n ≤ a + tot ∧ (k = .map → ∀ i, i < n → m (p + i) = 0)

/-- What is left to do fits what was promised: the block has `n` bytes and alignment `A`. -/
def TailOk (m : Mem) (g : Gh) (t : Nat) (r : Rec) : List Frame → Nat → Nat → Prop
  | [], n, A => r.size = n ∧ r.align = A ∧ r.zero = false ∧ ∀ i, r.val i = none
  | [.calloc sz], n, A => sz = n ∧ r.size = n ∧ r.align = A ∧ r.zero = true ∧ ∀ i v, r.val i = some v → v = 0
  | [.realloc old osz sz oz], n, A => sz = n ∧ r.size = n ∧ r.align = A ∧ r.zero = oz ∧
      ∃ A' f, Held m g (.old t) old osz A' oz osz f ∧
        ∀ i v, i < n → r.val i = some v → if i < osz then f i = some v else oz = true ∧ v = 0
  | _, _, _ => False

def MalOk (m : Mem) (g : Gh) (t : Nat) (r : Rec) (n : Nat) (fs : List Frame) : Prop :=
  n + 8192 ≤ W ∧ (TailOk m g t r fs n 16 ∨
    ∃ al sz fs', fs = .memalign al sz :: fs' ∧ n = sz + al ∧ al % 16 = 0 ∧ (16 ≤ al ∧ 0 < sz) ∧ TailOk m g t r fs' sz al)

def GotOk (m : Mem) (g : Gh) (t : Nat) (r : Rec) (p : Nat) (fs : List Frame) : Prop :=
  (fs = [] ∧ Held m g (.new t) p r.size r.align r.zero r.size r.val) ∨
  (∃ n A a, n < W ∧ Fresh m g t a p n A ∧ TailOk m g t r fs n A) ∨
  (∃ al sz fs' a, fs = .memalign al sz :: fs' ∧ p = a + 16 ∧ sz + al < W ∧ Fresh m g t a p (sz + al) 16 ∧ al % 16 = 0 ∧ (16 ≤ al ∧ 0 < sz) ∧
    TailOk m g t r fs' sz al)

def FinOk (m : Mem) (g : Gh) (t : Nat) (r : Rec) (p osz sz : Nat) (oz : Bool) : Prop :=
  r.size = sz ∧ r.zero = oz ∧ ∃ f, Held m g (.new t) p sz r.align false sz f ∧
    ∀ i v, i < sz → r.val i = some v → if i < osz then f i = some v else oz = true ∧ v = 0

def AlnOk (r : Rec) (al n : Nat) : Prop :=
  n + al + 2 ^ 48 ≤ W ∧ r.size = n ∧ r.align = (if n = 0 then 16 else al) ∧ r.zero = false ∧ ∀ i, r.val i = none

def AfterOk (m : Mem) (g : Gh) (t : Nat) (r : Rec) : After → Prop
  | .ret => True
  | .mal n fs => fs = [] ∧ n + 8192 ≤ W ∧ TailOk m g t r [] n 16
  | .memalign al n => AlnOk r al n
  | .fin p osz sz oz => FinOk m g t r p osz sz oz

def PcOk (s : St) (g : Gh) (t : Nat) : Prop :=
  match s.pc t with
  | .idle => True
  | .mal n fs => MalOk s.mem g t (s.cur t) n fs
  | .look n b fs => MalOk s.mem g t (s.cur t) n fs ∧ n + 16 ≤ bs b ∧ b ≤ 90 ∧ ∃ h, s.mgr t = some h ∧ s.free h b = 0
  | .pull n b fs => MalOk s.mem g t (s.cur t) n fs ∧ n + 16 ≤ bs b ∧ b ≤ 90 ∧
      ∃ h, s.mgr t = some h ∧ s.free h b = 0 ∧ s.ret h b ≠ 0
  | .ext n b fs => MalOk s.mem g t (s.cur t) n fs ∧ n + 16 ≤ bs b ∧ b ≤ 90 ∧ ∃ h, s.mgr t = some h ∧ s.free h b = 0
  | .got p fs => p ≠ 0 ∧ GotOk s.mem g t (s.cur t) p fs
  | .fr p k => (∃ n A z f, Held s.mem g (.old t) p n A z 0 f) ∧ AfterOk s.mem g t (s.cur t) k
  | .fin p osz sz oz => FinOk s.mem g t (s.cur t) p osz sz oz
  | .aln al n => AlnOk (s.cur t) al n

structure Inv (s : St) (g : Gh) : Prop where
  nofault : s.status ≠ .fault
  core : Core s g
  live : ∀ p r, s.live p = some r → Held s.mem g (.live p) p r.size r.align r.zero r.size r.val
  pcs : ∀ t, PcOk s g t

/-! ### What a change leaves alone -/

/-- Blocks in a state of `P` stay as they are, and so do their bytes. -/
def Same (m m' : Mem) (g g' : Gh) (P : Stat → Prop) : Prop :=
  ∀ a B, g.st a = some B → P B.stat → g'.st a = some B ∧ ∀ x, a ≤ x → x < a + B.tot → m' x = m x

theorem Same.refl {m : Mem} {g : Gh} {P : Stat → Prop} : Same m m g g P := fun _ _ h _ => ⟨h, fun _ _ _ => rfl⟩

theorem Same.trans {m m' m'' : Mem} {g g' g'' : Gh} {P : Stat → Prop} (h1 : Same m m' g g' P) (h2 : Same m' m'' g' g'' P) :
    Same m m'' g g'' P := by
  intro a B ha hP
  obtain ⟨e1, e2⟩ := h1 a B ha hP
  obtain ⟨e3, e4⟩ := h2 a B e1 hP
  exact ⟨e3, fun x x1 x2 => by rw [e4 x x1 x2, e2 x x1 x2]⟩

theorem Same.mono {m m' : Mem} {g g' : Gh} {P Q : Stat → Prop} (h : Same m m' g g' P) (hq : ∀ st, Q st → P st) :
    Same m m' g g' Q := fun a B ha hQ => h a B ha (hq _ hQ)

/-- Only the block at `a` changes. -/
theorem Same.block {s : St} {g g' : Gh} (c : Core s g) {m' : Mem} {P : Stat → Prop} {a : Nat} {B : Blk} (ha : g.st a = some B)
    (hP : ¬ P B.stat) (hm : ∀ x, x < a ∨ a + B.tot ≤ x → m' x = s.mem x) (hg : ∀ x, x ≠ a → g'.st x = g.st x) :
    Same s.mem m' g g' P := by
  intro a' B' ha' hP'
  have hne : a' ≠ a := by
    intro e; subst e; rw [ha] at ha'; obtain rfl := Option.some.inj ha'; exact hP hP'
  refine ⟨by rw [hg _ hne]; exact ha', fun x h1 h2 => hm x ?_⟩
  have := c.disj ha' ha hne h1 h2
  omega

/-- Only bytes that belong to no block change, and there is a new block at `a`. -/
theorem Same.fresh {s : St} {g g' : Gh} (c : Core s g) {m' : Mem} {P : Stat → Prop} {a : Nat} (ha : g.st a = none)
    (hm : ∀ x, (∃ c, g.own x = .blk c) → m' x = s.mem x) (hg : ∀ x, x ≠ a → g'.st x = g.st x) :
    Same s.mem m' g g' P := by
  intro a' B' ha' _
  have hne : a' ≠ a := by
    intro e; subst e; rw [ha] at ha'; exact absurd ha' (by simp)
  exact ⟨by rw [hg _ hne]; exact ha', fun x h1 h2 => hm x ⟨a', (c.blk _ _ ha').2.2.2 x h1 h2⟩⟩

theorem Us.same {s : St} {m' : Mem} {a tot p A : Nat} (u : Us s.mem a tot p A)
    (hm : ∀ x, a ≤ x → x < a + tot → m' x = s.mem x) : Us m' a tot p A := by
  refine { u with two := ?_ }
  have := u.lt
  rcases u.two with h | ⟨h1, h2, h3⟩
  · exact Or.inl h
  · refine Or.inr ⟨h1, ?_, ?_⟩
    · rw [load_congr fun x x1 x2 => hm x (by omega) (by omega)]; exact h2
    · rw [load_congr fun x x1 x2 => hm x (by omega) (by omega)]; exact h3

theorem Held.same {s : St} {g g' : Gh} (c : Core s g) {m' : Mem} {P : Stat → Prop} (hs : Same s.mem m' g g' P) {st : Stat}
    (hP : P st) {p n A cap : Nat} {z : Bool} {f : Nat → Option Nat} (h : Held s.mem g st p n A z cap f) :
    Held m' g' st p n A z cap f := by
  obtain ⟨a, tot, k, h1, h2, h3, h4, h5, h6⟩ := h
  obtain ⟨e1, e2⟩ := hs a _ h1 hP
  simp only at e2
  have h32 := (c.blk _ _ h1).2.2.1
  simp only at h32
  refine ⟨a, tot, k, e1, ?_, ?_, h4.same e2, h5, fun i v hi hv => ?_⟩
  · rw [load_congr fun x x1 x2 => e2 x (by omega) (by omega)]; exact h2
  · rw [load_congr fun x x1 x2 => e2 x (by omega) (by omega)]; exact h3
  · have hp : a ≤ p := by rcases h4.two with h | h <;> omega
    rw [e2 _ (by omega) (by omega)]; exact h6 i v hi hv

theorem Fresh.same {s : St} {g g' : Gh} (c : Core s g) {m' : Mem} {P : Stat → Prop} (hs : Same s.mem m' g g' P) {t : Nat}
    (hP : P (.new t)) {a p n A : Nat} (h : Fresh s.mem g t a p n A) : Fresh m' g' t a p n A := by
  obtain ⟨tot, k, h1, h2, h3, h4, h5, h6⟩ := h
  obtain ⟨e1, e2⟩ := hs a _ h1 hP
  simp only at e2
  have h32 := (c.blk _ _ h1).2.2.1
  simp only at h32
  refine ⟨tot, k, e1, ?_, ?_, h4.same e2, h5, fun hk i hi => ?_⟩
  · rw [load_congr fun x x1 x2 => e2 x (by omega) (by omega)]; exact h2
  · rw [load_congr fun x x1 x2 => e2 x (by omega) (by omega)]; exact h3
  · have hp : a ≤ p := by rcases h4.two with h | h <;> omega
    rw [e2 _ (by omega) (by omega)]; exact h6 hk i hi

theorem TailOk.same {s : St} {g g' : Gh} (c : Core s g) {m' : Mem} {P : Stat → Prop} (hs : Same s.mem m' g g' P) {t : Nat}
    (hP : P (.old t)) {r : Rec} {fs : List Frame} {n A : Nat} (h : TailOk s.mem g t r fs n A) : TailOk m' g' t r fs n A := by
  match fs, h with
  | [], h => exact h
  | [.calloc sz], h => exact h
  | [.realloc old osz sz oz], ⟨h1, h2, h3, h4, A', f, h5, h6⟩ => exact ⟨h1, h2, h3, h4, A', f, h5.same c hs hP, h6⟩

theorem MalOk.same {s : St} {g g' : Gh} (c : Core s g) {m' : Mem} {P : Stat → Prop} (hs : Same s.mem m' g g' P) {t : Nat}
    (hP : P (.old t)) {r : Rec} {fs : List Frame} {n : Nat} (h : MalOk s.mem g t r n fs) : MalOk m' g' t r n fs := by
  obtain ⟨h1, h2⟩ := h
  refine ⟨h1, ?_⟩
  rcases h2 with h2 | ⟨al, sz, fs', e1, e2, e3, e4, e5⟩
  · exact Or.inl (h2.same c hs hP)
  · exact Or.inr ⟨al, sz, fs', e1, e2, e3, e4, e5.same c hs hP⟩

theorem FinOk.same {s : St} {g g' : Gh} (c : Core s g) {m' : Mem} {P : Stat → Prop} (hs : Same s.mem m' g g' P) {t : Nat}
    (hP : P (.new t)) {r : Rec} {p osz sz : Nat} {oz : Bool} (h : FinOk s.mem g t r p osz sz oz) : FinOk m' g' t r p osz sz oz := by
  obtain ⟨h1, h2, f, h3, h4⟩ := h
  exact ⟨h1, h2, f, h3.same c hs hP, h4⟩

theorem AfterOk.same {s : St} {g g' : Gh} (c : Core s g) {m' : Mem} {P : Stat → Prop} (hs : Same s.mem m' g g' P) {t : Nat}
    (hN : P (.new t)) {r : Rec} {k : After} (h : AfterOk s.mem g t r k) : AfterOk m' g' t r k := by
  cases k with
  | ret => trivial
  | mal n fs => exact h
  | memalign al n => exact h
  | fin p osz sz oz => exact FinOk.same c hs hN h

theorem GotOk.same {s : St} {g g' : Gh} (c : Core s g) {m' : Mem} {P : Stat → Prop} (hs : Same s.mem m' g g' P) {t : Nat}
    (hN : P (.new t)) (hO : P (.old t)) {r : Rec} {p : Nat} {fs : List Frame} (h : GotOk s.mem g t r p fs) : GotOk m' g' t r p fs := by
  rcases h with ⟨e, h⟩ | ⟨n, A, a, hn, h1, h2⟩ | ⟨al, sz, fs', a, e1, e2, e3, e4, e5, e6, e7⟩
  · exact Or.inl ⟨e, h.same c hs hN⟩
  · exact Or.inr (Or.inl ⟨n, A, a, hn, h1.same c hs hN, h2.same c hs hO⟩)
  · exact Or.inr (Or.inr ⟨al, sz, fs', a, e1, e2, e3, e4.same c hs hN, e5, e6, e7.same c hs hO⟩)

/-- A thread is not disturbed. -/
theorem PcOk.same {s s' : St} {g g' : Gh} (c : Core s g) {t : Nat} (hs : Same s.mem s'.mem g g' fun st => st = .new t ∨ st = .old t)
    (hpc : s'.pc t = s.pc t) (hcur : s'.cur t = s.cur t) (hmgr : s'.mgr t = s.mgr t)
    (hl : ∀ h b, s.mgr t = some h → s'.free h b = s.free h b ∧ (s.ret h b ≠ 0 → s'.ret h b ≠ 0)) (h : PcOk s g t) : PcOk s' g' t := by
  unfold PcOk at h ⊢
  rw [hpc, hcur, hmgr]
  split
  · trivial
  · rename_i e; rw [e] at h; exact h.same c hs (Or.inr rfl)
  · rename_i e; rw [e] at h
    obtain ⟨h1, h2, h3, hh, h4, h5⟩ := h
    exact ⟨h1.same c hs (Or.inr rfl), h2, h3, hh, h4, by rw [(hl hh _ h4).1]; exact h5⟩
  · rename_i e; rw [e] at h
    obtain ⟨h1, h2, h3, hh, h4, h5, h6⟩ := h
    exact ⟨h1.same c hs (Or.inr rfl), h2, h3, hh, h4, by rw [(hl hh _ h4).1]; exact h5, (hl hh _ h4).2 h6⟩
  · rename_i e; rw [e] at h
    obtain ⟨h1, h2, h3, hh, h4, h5⟩ := h
    exact ⟨h1.same c hs (Or.inr rfl), h2, h3, hh, h4, by rw [(hl hh _ h4).1]; exact h5⟩
  · rename_i e; rw [e] at h
    exact ⟨h.1, h.2.same c hs (Or.inl rfl) (Or.inr rfl)⟩
  · rename_i e; rw [e] at h
    obtain ⟨⟨n, A, z, f, h1⟩, h2⟩ := h
    exact ⟨⟨n, A, z, f, h1.same c hs (Or.inr rfl)⟩, h2.same c hs (Or.inl rfl)⟩
  · rename_i e; rw [e] at h
    exact FinOk.same c hs (Or.inl rfl) h
  · rename_i e; rw [e] at h; exact h

/-- The blocks that are not those of thread `t`. -/
def Others (t : Nat) (st : Stat) : Prop := st ≠ .free ∧ st ≠ .ret ∧ st ≠ .new t ∧ st ≠ .old t

/-- A step of thread `t` that keeps the blocks of clients. -/
theorem Inv.ofStep {s s' : St} {g g' : Gh} (i : Inv s g) (t : Nat) (nf : s'.status ≠ .fault) (c' : Core s' g')
    (hlive : s'.live = s.live) (hpc : ∀ t', t' ≠ t → s'.pc t' = s.pc t') (hcur : s'.cur = s.cur) (hmgr : s'.mgr = s.mgr)
    (hl : ∀ t', t' ≠ t → ∀ h b, s.mgr t' = some h → s'.free h b = s.free h b ∧ (s.ret h b ≠ 0 → s'.ret h b ≠ 0))
    (hs : Same s.mem s'.mem g g' (Others t)) (ht : PcOk s' g' t) : Inv s' g' := by
  refine ⟨nf, c', ?_, ?_⟩
  · intro p r hp
    rw [hlive] at hp
    exact (i.live p r hp).same i.core hs (by simp [Others])
  · intro t'
    by_cases e : t' = t
    · subst e; exact ht
    · refine (i.pcs t').same i.core (hs.mono ?_) (hpc t' e) (by rw [hcur]) (by rw [hmgr]) (hl t' e)
      rintro st (rfl | rfl) <;> simp [Others, e]

/-! ### Headers -/

theorem Core.kindOk {s : St} {g : Gh} (c : Core s g) {a tot : Nat} {k : Kind} {st : Stat} (h : g.st a = some ⟨tot, k, st⟩) :
    base k tot % 8 = (if k = .map then 4 else 0) ∧ base k tot + 8 < W ∧ a % 16 = 0 ∧ 16 ≤ a ∧ 32 ≤ tot ∧ a + tot ≤ 2 ^ 47 := by
  have hb := c.blk _ _ h
  have hl := c.lim h
  refine ⟨?_, ?_, hb.1, Nat.le_trans c.endPos.1 hb.2.1, hb.2.2.1, hl⟩
  · cases k with
    | home h' b =>
      have := c.homeB _ _ _ _ _ h
      have := homeAddr_facts (b := b) (h := h') this.2.1 (by have := c.heapsLim; omega)
      simp [base]; omega
    | map =>
      have := c.mapB _ _ _ h
      simp [base]; omega
  · cases k with
    | home h' b =>
      have := c.homeB _ _ _ _ _ h
      have := homeAddr_facts (b := b) (h := h') this.2.1 (by have := c.heapsLim; omega)
      simp only [base]; omega
    | map =>
      simp only [base, W] at *; omega

theorem headers_plain {m : Mem} {p w : Nat} (hw : load m (p - 16) = w) (h2 : w % 2 = 0) :
    headers m p = if w / 4 % 2 = 1 then ⟨p - 16, true, 0, w / 8 * 8, 16⟩
      else ⟨p - 16, false, w / 8 * 8, bs (homeBucket (w / 8 * 8)), 16⟩ := by
  unfold headers
  simp only [hw]
  by_cases h8 : w % 8 = 0
  · rw [if_pos h8, if_neg (by omega), show w / 8 * 8 = w by omega]
  · have h1 : ¬ w % 2 = 1 := by omega
    simp only [if_neg h8, if_neg h1, hw]

theorem headers_fake {m : Mem} {p A o v : Nat} (hw : load m (p - 16) = A + 1) (hA : A % 8 = 0) (ho : load m (p - 8) = o)
    (hv : load m (p - 16 - o) = v) :
    headers m p = if v / 4 % 2 = 1 then ⟨p - 16 - o, true, 0, v / 8 * 8, A⟩
      else ⟨p - 16 - o, false, v / 8 * 8, bs (homeBucket (v / 8 * 8)), A⟩ := by
  unfold headers
  have h8 : ¬ (A + 1) % 8 = 0 := by omega
  have h1 : (A + 1) % 2 = 1 := by omega
  simp only [hw, if_neg h8, if_pos h1, ho, hv, Nat.add_sub_cancel]

/-- headers( ) finds the block. -/
theorem headers_spec {s : St} {g : Gh} (c : Core s g) {m : Mem} {a tot p A : Nat} {k : Kind} {st : Stat} {z : Bool}
    (h : g.st a = some ⟨tot, k, st⟩) (hw : load m a = base k tot + zb z) (u : Us m a tot p A) :
    (headers m p).hdr = a ∧ (headers m p).mapped = decide (k = .map) ∧ (headers m p).bsize = tot ∧ (headers m p).align = A ∧
      ∀ h' b, k = .home h' b → (headers m p).home = homeAddr h' b := by
  obtain ⟨k1, k2, k3, k4, k5, k6⟩ := c.kindOk h
  have hz : zb z = 0 ∨ zb z = 2 := by cases z <;> simp [zb]
  have ha16 := u.a16
  obtain ⟨v, hv⟩ : ∃ v, load m a = v := ⟨_, rfl⟩
  have hE : headers m p = if v / 4 % 2 = 1 then ⟨a, true, 0, v / 8 * 8, A⟩
      else ⟨a, false, v / 8 * 8, bs (homeBucket (v / 8 * 8)), A⟩ := by
    rcases u.two with ⟨e1, e2⟩ | ⟨e1, e2, e3⟩
    · have ep : p - 16 = a := by omega
      rw [headers_plain (w := v) (by rw [ep]; exact hv) (by rw [← hv, hw]; split at k1 <;> omega), ep, e2]
    · have ep : p - 16 - (p - 16 - a) = a := by omega
      rw [headers_fake e2 (by omega) e3 (v := v) (by rw [ep]; exact hv), ep]
  rw [hw] at hv
  cases k with
  | home h' b =>
    have hB := c.homeB _ _ _ _ _ h
    have hf := homeAddr_facts (b := b) (h := h') hB.2.1 (by have := c.heapsLim; omega)
    simp only [base] at hv
    rw [if_neg (by omega), show v / 8 * 8 = homeAddr h' b by omega, hf.2.2.1, ← hB.1] at hE
    rw [hE]
    refine ⟨rfl, by simp, rfl, rfl, ?_⟩
    intro h2 b2 e
    obtain ⟨rfl, rfl⟩ := Kind.home.inj e
    rfl
  | map =>
    have hB := c.mapB _ _ _ h
    simp only [base] at hv
    rw [if_pos (by omega), show v / 8 * 8 = tot by omega] at hE
    rw [hE]
    exact ⟨rfl, by simp, rfl, rfl, fun _ _ e => by simp at e⟩

theorem realHeader_spec {s : St} {g : Gh} (c : Core s g) {m : Mem} {a tot p A : Nat} {k : Kind} {st : Stat} {z : Bool}
    (h : g.st a = some ⟨tot, k, st⟩) (hw : load m a = base k tot + zb z) (u : Us m a tot p A) :
    realHeader m p = a ∧ mallocAlignment m p = A ∧ (load m (p - 16) % 2 = 1 → load m (p - 16) = A + 1 ∧ a + 32 ≤ p) ∧
      (load m (p - 16) % 2 ≠ 1 → p = a + 16 ∧ A = 16) := by
  obtain ⟨k1, k2, k3, k4, k5, k6⟩ := c.kindOk h
  have hz : zb z = 0 ∨ zb z = 2 := by cases z <;> simp [zb]
  have ha16 := u.a16
  have he : base k tot % 2 = 0 := by split at k1 <;> omega
  have hp : p ≠ 0 := by rcases u.two with h | h <;> omega
  unfold realHeader mallocAlignment
  rcases u.two with ⟨e1, e2⟩ | ⟨e1, e2, e3⟩
  · have ep : p - 16 = a := by omega
    rw [ep, hw, if_neg (by omega), if_neg hp, if_neg (by omega)]
    exact ⟨rfl, e2.symm, by omega, fun _ => ⟨e1, e2⟩⟩
  · rw [e2, e3, if_pos (by omega), if_neg hp, if_pos (by omega)]
    exact ⟨by omega, rfl, fun _ => ⟨rfl, e1⟩, by omega⟩

theorem zeroBit_spec {s : St} {g : Gh} (c : Core s g) {m : Mem} {a tot : Nat} {k : Kind} {st : Stat} {z : Bool}
    (h : g.st a = some ⟨tot, k, st⟩) (hw : load m a = base k tot + zb z) : zeroBit m a = z := by
  obtain ⟨k1, _⟩ := c.kindOk h
  unfold zeroBit
  rw [hw]
  cases z
  · simp only [zb]
    have : (base k tot + 0) / 2 % 2 = 0 := by split at k1 <;> omega
    simp only [Bool.false_eq_true, if_false, this]
    rfl
  · simp only [zb]
    have : (base k tot + 2) / 2 % 2 = 1 := by split at k1 <;> omega
    simp only [if_true, this]
    rfl

theorem markZero_spec {s : St} {g : Gh} (c : Core s g) {m : Mem} {a tot : Nat} {k : Kind} {st : Stat} {z : Bool}
    (h : g.st a = some ⟨tot, k, st⟩) (hw : load m a = base k tot + zb z) :
    load (markZero m a) a = base k tot + zb true ∧ ∀ x, x < a ∨ a + 8 ≤ x → markZero m a x = m x := by
  obtain ⟨_, k2, _⟩ := c.kindOk h
  unfold markZero
  rw [zeroBit_spec c h hw]
  cases z
  · simp only [Bool.false_eq_true, if_false, hw]
    refine ⟨?_, fun x hx => store_out hx⟩
    rw [load_store (by simp [zb]; omega)]
    simp [zb]
  · simp only [if_true, hw]
    exact ⟨trivial, fun x _ => trivial⟩

theorem clearZero_spec {s : St} {g : Gh} (c : Core s g) {m : Mem} {a tot : Nat} {k : Kind} {st : Stat} {z : Bool}
    (h : g.st a = some ⟨tot, k, st⟩) (hw : load m a = base k tot + zb z) :
    load (clearZero m a) a = base k tot + zb false ∧ ∀ x, x < a ∨ a + 8 ≤ x → clearZero m a x = m x := by
  obtain ⟨_, k2, _⟩ := c.kindOk h
  unfold clearZero
  rw [zeroBit_spec c h hw]
  cases z
  · simp only [Bool.false_eq_true, if_false, hw]
    exact ⟨trivial, fun x _ => trivial⟩
  · simp only [if_true, hw]
    refine ⟨?_, fun x hx => store_out hx⟩
    rw [load_store (by simp [zb]; omega)]
    simp [zb]

end Verif.HeapAlloc
