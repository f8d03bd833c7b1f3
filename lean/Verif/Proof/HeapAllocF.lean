import Verif.Proof.HeapAllocE
/-! Calls of clients, and the invariant of all executions. -/
namespace Verif.HeapAlloc

/-- The request has the size and the alignment, and no known contents. -/
def Plain (r : Rec) (n A : Nat) : Prop := r.size = n ∧ r.align = A ∧ r.zero = false ∧ ∀ i, r.val i = none

/-- The request is one to keep the contents of a block. -/
def Keeps (r o : Rec) (n A : Nat) : Prop := r.size = n ∧ r.align = (if n = 0 then 16 else A) ∧ r.zero = o.zero ∧
  ∀ i v, r.val i = some v → if i < o.size then o.val i = some v else o.zero = true ∧ v = 0

theorem Held.ne {s : St} {g : Gh} (c : Core s g) {m : Mem} {st : Stat} {p n A cap : Nat} {z : Bool} {f : Nat → Option Nat}
    (h : Held m g st p n A z cap f) : p ≠ 0 := by
  obtain ⟨a, tot, k, h1, _, _, h4, _⟩ := h
  have := (h4.pos c h1).1
  omega

/-- Only a block a client holds changes. -/
theorem Inv.ofLive {s : St} {g : Gh} (i : Inv s g) {p a tot : Nat} {k : Kind} (ha : g.st a = some ⟨tot, k, .live p⟩) (m' : Mem) (r : Rec)
    (hm : ∀ x, x < a ∨ a + tot ≤ x → m' x = s.mem x) (hh : Held m' g (.live p) p r.size r.align r.zero r.size r.val) :
    Inv { s with mem := m', live := upd s.live p (some r) } g := by
  have c2 := i.core.setMemIn m' ha (by simp) (by simp) hm
  refine ⟨i.nofault, { c2 with }, ?_, ?_⟩
  · intro p' r' hr
    by_cases e : p' = p
    · subst e
      change upd s.live p' (some r) p' = some r' at hr
      rw [upd_same] at hr
      obtain rfl := Option.some.inj hr
      exact hh
    · change upd s.live p (some r) p' = some r' at hr
      rw [upd_n e] at hr
      refine (i.live p' r' hr).same i.core (Same.block (P := fun st => st = .live p') i.core ha ?_ hm fun _ _ => rfl) rfl
      simp only [Stat.live.injEq]; omega
  · intro t
    exact (i.pcs t).same i.core (Same.block i.core ha (by simp) hm fun _ _ => rfl) rfl rfl rfl (fun _ _ _ => ⟨rfl, id⟩)

/-- A call without a block to give back. -/
theorem call_fresh {s : St} {g : Gh} (i : Inv s g) {t : Nat} (r : Rec) (pc : Pc)
    (hp : PcOk { s with cur := upd s.cur t r, pc := upd s.pc t pc } g t) : Inv { s with cur := upd s.cur t r, pc := upd s.pc t pc } g := by
  refine i.ofStep' t i.nofault { i.core with } i.live ?_ (fun _ _ _ _ _ => ⟨rfl, id⟩) (fun _ _ => Same.refl) hp
  intro t' e; exact ⟨upd_n e, upd_n e, rfl⟩

/-- A call with a block to give back. -/
theorem call_old {s : St} {g : Gh} (i : Inv s g) {t p : Nat} (r : Rec) {o : Rec} (hl : s.live p = some o) (st : Stat)
    (hst : st = .new t ∨ st = .old t) :
    ∃ a tot k g', g.st a = some ⟨tot, k, .live p⟩ ∧ g'.st a = some ⟨tot, k, st⟩ ∧ load s.mem a = base k tot + zb o.zero ∧
      load s.mem (a + 8) = o.size ∧ Us s.mem a tot p o.align ∧ p + o.size ≤ a + tot ∧
      (∀ i v, i < o.size → o.val i = some v → s.mem (p + i) = v) ∧
      ∀ m' pc, (∀ x, x < a ∨ a + tot ≤ x → m' x = s.mem x) →
        PcOk { s with mem := m', cur := upd s.cur t r, live := upd s.live p none, pc := upd s.pc t pc } g' t →
        Inv { s with mem := m', cur := upd s.cur t r, live := upd s.live p none, pc := upd s.pc t pc } g' := by
  obtain ⟨a, tot, k, h1, h2, h3, h4, h5, h6⟩ := i.live p o hl
  have c := i.core
  have hst2 : st ≠ .free ∧ st ≠ .ret := by rcases hst with rfl | rfl <;> simp
  refine ⟨a, tot, k, { g with st := upd g.st a (some ⟨tot, k, st⟩) }, h1, upd_same .., h2, h3, h4, h5, h6, ?_⟩
  intro m' pc hm hp
  have c1 := c.setStat (s2 := st) h1 (by simp) hst2
  have c2 := c1.setMemIn m' (upd_same ..) hst2.1 hst2.2 hm
  have hsame : ∀ P : Stat → Prop, ¬ P (.live p) → Same s.mem m' g { g with st := upd g.st a (some ⟨tot, k, st⟩) } P :=
    fun P hP => Same.block c h1 hP hm (fun x hx => upd_n hx)
  refine i.ofStep' t i.nofault { c2 with } ?_ ?_ (fun _ _ _ _ _ => ⟨rfl, id⟩) ?_ hp
  · intro p' r' hr
    change upd s.live p none p' = some r' at hr
    by_cases e : p' = p
    · subst e; rw [upd_same] at hr; exact absurd hr (by simp)
    · rw [upd_n e] at hr
      refine (i.live p' r' hr).same c (hsame (fun st => st = .live p') ?_) rfl
      simp only [Stat.live.injEq]; omega
  · intro t' e; exact ⟨upd_n e, upd_n e, rfl⟩
  · intro t' e; exact hsame _ (by simp)

/-- The routine frees the block first. -/
theorem call_fr {s : St} {g : Gh} (i : Inv s g) {t p : Nat} {r o : Rec} (hl : s.live p = some o) {k : After}
    (hk : ∀ g', AfterOk s.mem g' t r k) :
    ∃ g', Inv { s with cur := upd s.cur t r, live := upd s.live p none, pc := upd s.pc t (.fr p k) } g' := by
  obtain ⟨a, tot, kd, g', h1, h1', h2, h3, h4, h5, h6, h7⟩ := call_old i r hl (.old t) (Or.inr rfl)
  refine ⟨g', h7 s.mem (.fr p k) (fun _ _ => rfl) ?_⟩
  unfold PcOk
  simp only [upd_same]
  refine ⟨⟨o.size, o.align, o.zero, o.val, a, tot, kd, h1', h2, h3, h4, by omega, fun _ _ h => by omega⟩, hk g'⟩

/-- The program stops in a call. -/
theorem call_abort {s : St} {g : Gh} (i : Inv s g) {t p : Nat} {r : Rec} (hi : s.pc t = .idle) :
    Inv { s with cur := upd s.cur t r, live := upd s.live p none, status := .aborted } g := by
  refine ⟨by simp, { i.core with }, ?_, ?_⟩
  · intro p' r' hr
    change upd s.live p none p' = some r' at hr
    by_cases e : p' = p
    · subst e; rw [upd_same] at hr; exact absurd hr (by simp)
    · rw [upd_n e] at hr; exact i.live p' r' hr
  · intro t'
    by_cases e : t' = t
    · subst e; unfold PcOk; simp [hi]
    · exact (i.pcs t').same i.core Same.refl rfl (upd_n e) rfl (fun _ _ _ => ⟨rfl, id⟩)

theorem call_abort0 {s : St} {g : Gh} (i : Inv s g) {t : Nat} {r : Rec} (hi : s.pc t = .idle) :
    Inv { s with cur := upd s.cur t r, status := .aborted } g := by
  refine ⟨by simp, { i.core with }, i.live, ?_⟩
  intro t'
  by_cases e : t' = t
  · subst e; unfold PcOk; simp [hi]
  · exact (i.pcs t').same i.core Same.refl rfl (upd_n e) rfl (fun _ _ _ => ⟨rfl, id⟩)

/-- The block is kept, and its contents are forgotten. -/
theorem call_shrink {s : St} {g : Gh} (i : Inv s g) {t p n : Nat} {r o : Rec} (hl : s.live p = some o) (hr : Plain r n o.align)
    (hn : n ≤ dataStorage (headers s.mem p) p) :
    ∃ g', Inv { s with mem := store (clearZero s.mem (headers s.mem p).hdr) ((headers s.mem p).hdr + 8) n, cur := upd s.cur t r,
                       live := upd s.live p none, pc := upd s.pc t (.got p []) } g' := by
  obtain ⟨a, tot, kd, g', h1, h1', h2, h3, h4, h5, h6, h7⟩ := call_old i r hl (.new t) (Or.inl rfl)
  have c := i.core
  obtain ⟨k1, k2, k3, k4, k5, k6⟩ := c.kindOk h1
  obtain ⟨q1, q2, q3, q4⟩ := h4.pos c h1
  obtain ⟨d1, d2, d3, d4, d5⟩ := headers_spec c h1 h2 h4
  unfold dataStorage at hn
  rw [d1, d3] at hn
  rw [d1]
  obtain ⟨z1, z2⟩ := clearZero_spec c h1 h2
  have hlt := h4.lt
  have hout : ∀ x, x < a ∨ a + 16 ≤ x → store (clearZero s.mem a) (a + 8) n x = s.mem x := by
    intro x hx
    rw [store_out (by omega), z2 x (by omega)]
  refine ⟨g', h7 _ _ (fun x hx => hout x (by omega)) ?_⟩
  unfold PcOk
  simp only [upd_same]
  obtain ⟨r1, r2, r3, r4⟩ := hr
  refine ⟨by omega, Or.inl ⟨rfl, a, tot, kd, h1', ?_, ?_, ?_, by omega, ?_⟩⟩
  · rw [load_store_ne (by omega), z1, r3]
  · rw [load_store (by simp only [W]; omega), r1]
  · rw [r2]; exact h4.out fun h x x1 x2 => hout x (by omega)
  · intro j v _ e; rw [r4] at e; exact absurd e (by simp)

theorem resize_inv {s : St} {g : Gh} (i : Inv s g) {t p n : Nat} {r o : Rec} (hl : s.live p = some o) (hr : Plain r n 16)
    (hn : n + 8192 ≤ W) : ∃ g', Inv (resize { s with cur := upd s.cur t r, live := upd s.live p none } t p n) g' := by
  have hp := (i.live p o hl).ne i.core
  unfold resize
  rw [if_neg hp]
  simp only
  split
  · rename_i h
    obtain ⟨h1, h2, _⟩ := h
    have : o.align = 16 := by
      obtain ⟨a, tot, k, f1, f2, _, f4, _⟩ := i.live p o hl
      rw [← (headers_spec i.core f1 f2 f4).2.2.2.1, h1]
    exact call_shrink i hl (by rw [this]; exact hr) h2
  · exact call_fr i hl (k := .mal n []) fun g' => ⟨rfl, hn, hr⟩

theorem realloc_inv {s : St} {g : Gh} (i : Inv s g) {t p n : Nat} {r o : Rec} (hi : s.pc t = .idle) (hl : s.live p = some o)
    (hr : Keeps r o n o.align) (hn : n + 2 ^ 48 ≤ W) :
    ∃ g', Inv (realloc { s with cur := upd s.cur t r, live := upd s.live p none } t p n) g' := by
  have c := i.core
  have hp := (i.live p o hl).ne c
  obtain ⟨r1, r2, r3, r4⟩ := hr
  unfold realloc
  rw [if_neg hp]
  simp only
  obtain ⟨a, tot, kd, g', h1, h1', h2, h3, h4, h5, h6, h7⟩ := call_old i r hl (.old t) (Or.inr rfl)
  obtain ⟨k1, k2, k3, k4, k5, k6⟩ := c.kindOk h1
  obtain ⟨q1, q2, q3, q4⟩ := h4.pos c h1
  obtain ⟨d1, d2, d3, d4, d5⟩ := headers_spec c h1 h2 h4
  have hlt := h4.lt
  have ha16 := h4.a16
  have hod : dataStorage (headers s.mem p) p = a + tot - p := by unfold dataStorage; rw [d1, d3]; omega
  rw [hod, d1, d4, h3, zeroBit_spec c h1 h2]
  have hT : TailOk s.mem g' t r [.realloc p o.size n o.zero] n (if n = 0 then 16 else o.align) :=
    ⟨rfl, r1, r2, r3, o.align, o.val, ⟨a, tot, kd, h1', h2, h3, h4, h5, h6⟩, fun j v _ hv => r4 j v hv⟩
  split
  · rename_i h
    obtain ⟨e1, e2⟩ := h
    have hn0 : n ≠ 0 := by intro e; subst e; simp only [Nat.zero_mul, Nat.zero_mod] at e2; omega
    rw [if_neg hn0] at r2
    obtain ⟨a2, tot2, kd2, g2, f1, f1', f2, f3, f4, f5, f6, f7⟩ := call_old i r hl (.new t) (Or.inl rfl)
    have := headers_spec c f1 f2 f4
    obtain rfl : a = a2 := by rw [← d1, this.1]
    obtain rfl : tot = tot2 := by rw [← d3, this.2.2.1]
    obtain ⟨m2, hm2⟩ : ∃ m2, (if o.zero = true ∧ n > o.size then memset (store s.mem (a + 8) n) (p + o.size) 0 (n - o.size)
      else store s.mem (a + 8) n) = m2 := ⟨_, rfl⟩
    rw [hm2]
    have hin : ∀ j, o.zero = true → o.size ≤ j → j < n → m2 (p + j) = 0 := by
      intro j h0 h1 h2
      rw [← hm2, if_pos ⟨h0, by omega⟩]
      exact memset_in (by omega) (by omega)
    have hout1 : ∀ x, x < p + o.size ∨ p + n ≤ x → m2 x = store s.mem (a + 8) n x := by
      intro x hx
      rw [← hm2]
      split
      · exact memset_out (by omega)
      · rfl
    have hout : ∀ x, x < a + 8 ∨ (a + 16 ≤ x ∧ x < p + o.size) ∨ a + tot ≤ x → m2 x = s.mem x := by
      intro x hx
      rw [hout1 x (by omega), store_out (by omega)]
    refine ⟨g2, f7 m2 _ (fun x hx => hout x (by omega)) ?_⟩
    unfold PcOk
    simp only [upd_same]
    refine ⟨hp, Or.inl ⟨rfl, a, tot, kd2, f1', ?_, ?_, ?_, by omega, ?_⟩⟩
    · rw [load_congr fun x x1 x2 => hout x (by omega), f2, r3]
    · rw [load_congr fun x x1 x2 => hout1 x (by omega), load_store (by simp only [W]; omega), r1]
    · rw [r2]; exact f4.out fun h x x1 x2 => hout x (by omega)
    · intro j v hj hv
      have := r4 j v hv
      split at this
      · rename_i hjo
        rw [hout _ (by omega)]
        exact f6 j v hjo this
      · rw [hin j this.1 (by omega) (by omega), this.2]
  · split
    · rename_i h16
      refine ⟨g', h7 s.mem _ (fun _ _ => rfl) ?_⟩
      unfold PcOk
      simp only [upd_same]
      refine ⟨by omega, Or.inl ?_⟩
      have : (if n = 0 then 16 else o.align) = 16 := by split <;> omega
      rw [this] at hT; exact hT
    · rename_i h16
      rcases memalignStart_pc (s := { s with cur := upd s.cur t r, live := upd s.live p none }) (g := g') (t := t) (al := o.align)
        (n := n) (fs := [.realloc p o.size n o.zero]) (by omega) (by simp only [upd_same]; exact hT) with h | ⟨pc, h, hk⟩
      · rw [h]; exact ⟨g, call_abort i hi⟩
      · rw [h]; exact ⟨g', h7 s.mem pc (fun _ _ => rfl) hk⟩

/-- Changing the alignment in the second header. -/
theorem Inv.realign {s : St} {g : Gh} (i : Inv s g) {p al : Nat} {o : Rec} (hl : s.live p = some o) (hw : load s.mem (p - 16) % 2 = 1)
    (hal : p % al = 0) (h16 : 16 ≤ al ∧ al % 16 = 0) (hb : al + 1 < W) :
    Inv { s with mem := store s.mem (p - 16) (al + 1), live := upd s.live p (some { o with align := al }) } g := by
  obtain ⟨a, tot, k, h1, h2, h3, h4, h5, h6⟩ := i.live p o hl
  have c := i.core
  obtain ⟨k1, k2, k3, k4, k5, k6⟩ := c.kindOk h1
  obtain ⟨q1, q2, q3, q4⟩ := h4.pos c h1
  obtain ⟨_, _, w1, _⟩ := realHeader_spec c h1 h2 h4
  obtain ⟨w2, w3⟩ := w1 hw
  have hlt := h4.lt
  refine i.ofLive h1 _ _ (fun x hx => store_out (by omega)) ⟨a, tot, k, h1, ?_, ?_, ?_, h5, ?_⟩
  · rw [load_store_ne (by omega)]; exact h2
  · rw [load_store_ne (by omega)]; exact h3
  · refine { lt := hlt, al := hal, a16 := ⟨h16.2, h16.1⟩, two := Or.inr ⟨w3, load_store hb, ?_⟩ }
    rw [load_store_ne (by omega)]
    rcases h4.two with ⟨h, _⟩ | ⟨_, _, h⟩
    · omega
    · exact h
  · intro j v hj hv
    rw [store_out (by omega)]
    exact h6 j v hj hv

theorem resizeAl_inv {s : St} {g : Gh} (i : Inv s g) {t p al n : Nat} {r o : Rec} (hi : s.pc t = .idle) (hl : s.live p = some o)
    (hr : Plain r n (if n = 0 then 16 else al)) (hn : n + al + 2 ^ 48 ≤ W) :
    ∃ g', Inv (resizeAl { s with cur := upd s.cur t r, live := upd s.live p none } t p al n) g' := by
  have c := i.core
  have hp := (i.live p o hl).ne c
  have hrest : ∀ g', AfterOk s.mem g' t r (.memalign al n) := fun g' => ⟨hn, hr.1, hr.2.1, hr.2.2.1, hr.2.2.2⟩
  unfold resizeAl
  rw [if_neg hp]
  simp only
  split
  · rename_i hw
    split
    · exact ⟨g, call_abort i hi⟩
    · rename_i hga
      have hg := pow2_mod (by simpa using hga)
      have hma : markAlign al = al + 1 := by unfold markAlign; rw [if_neg (by omega)]
      split
      · rename_i hlm
        unfold luckyMatch at hlm
        simp only [Bool.and_eq_true, beq_iff_eq] at hlm
        have i1 := i.realign hl hw hlm.1 hg (by omega)
        have hl1 : upd s.live p (some { o with align := al }) p = some { o with align := al } := upd_same ..
        rw [hma]
        split
        · rename_i hcond
          obtain ⟨e1, e2⟩ := hcond
          obtain ⟨a, tot, k, f1, f2, f3, f4, f5, f6⟩ := i1.live p _ hl1
          obtain ⟨d1, d2, d3, d4, d5⟩ := headers_spec i1.core f1 f2 f4
          have hlt := f4.lt
          have hq := (f4.pos i1.core f1).1
          have hn0 : n ≠ 0 := by
            intro e; subst e
            simp only [Nat.zero_mul, Nat.zero_mod] at e2
            unfold dataStorage at e2
            simp only at d1 d3
            rw [d1, d3] at e2
            omega
          rw [if_neg hn0] at hr
          have := call_shrink (t := t) i1 hl1 hr e1
          simp only [upd_upd] at this
          exact this
        · have := call_fr (t := t) (r := r) i1 hl1 (k := .memalign al n) hrest
          simp only [upd_upd] at this
          exact this
      · exact call_fr i hl hrest
  · split
    · rename_i h16
      have : (if n = 0 then 16 else al) = 16 := by split <;> omega
      rw [this] at hr
      exact resize_inv i hl hr (by omega)
    · exact call_fr i hl hrest

theorem reallocAl_inv {s : St} {g : Gh} (i : Inv s g) {t p al n : Nat} {r o : Rec} (hi : s.pc t = .idle) (hl : s.live p = some o)
    (hr : Keeps r o n al) (hn : n + al + 2 ^ 48 ≤ W) :
    ∃ g', Inv (reallocAl { s with cur := upd s.cur t r, live := upd s.live p none } t p al n) g' := by
  have c := i.core
  have hp := (i.live p o hl).ne c
  have hrest : ∃ g', Inv (memalignStart { s with cur := upd s.cur t r, live := upd s.live p none } t al n
      [.realloc p (load s.mem ((headers s.mem p).hdr + 8)) n (zeroBit s.mem (headers s.mem p).hdr)]) g' := by
    obtain ⟨a, tot, kd, g', h1, h1', h2, h3, h4, h5, h6, h7⟩ := call_old i r hl (.old t) (Or.inr rfl)
    obtain ⟨d1, d2, d3, d4, d5⟩ := headers_spec c h1 h2 h4
    obtain ⟨r1, r2, r3, r4⟩ := hr
    rw [d1, h3, zeroBit_spec c h1 h2]
    have hT : TailOk s.mem g' t r [.realloc p o.size n o.zero] n (if n = 0 then 16 else al) :=
      ⟨rfl, r1, r2, r3, o.align, o.val, ⟨a, tot, kd, h1', h2, h3, h4, h5, h6⟩, fun j v _ hv => r4 j v hv⟩
    rcases memalignStart_pc (s := { s with cur := upd s.cur t r, live := upd s.live p none }) (g := g') (t := t) (al := al)
      (n := n) (fs := [.realloc p o.size n o.zero]) (by omega) (by simp only [upd_same]; exact hT) with h | ⟨pc, h, hk⟩
    · rw [h]; exact ⟨g, call_abort i hi⟩
    · rw [h]; exact ⟨g', h7 s.mem pc (fun _ _ => rfl) hk⟩
  unfold reallocAl
  rw [if_neg hp]
  simp only
  split
  · rename_i hw
    split
    · exact ⟨g, call_abort i hi⟩
    · rename_i hga
      have hg := pow2_mod (by simpa using hga)
      have hma : markAlign al = al + 1 := by unfold markAlign; rw [if_neg (by omega)]
      split
      · rename_i hlm
        unfold luckyMatch at hlm
        simp only [Bool.and_eq_true, beq_iff_eq] at hlm
        have i1 := i.realign hl hw hlm.1 hg (by omega)
        have hl1 : upd s.live p (some { o with align := al }) p = some { o with align := al } := upd_same ..
        rw [hma]
        have := realloc_inv (t := t) (r := r) (n := n) i1 hi hl1 hr (by omega)
        simp only [upd_upd] at this
        exact this
      · exact hrest
  · rename_i hw
    split
    · rename_i h16
      obtain ⟨a, tot, k, f1, f2, f3, f4, f5, f6⟩ := i.live p o hl
      obtain ⟨_, _, _, w2⟩ := realHeader_spec c f1 f2 f4
      have : o.align = 16 := (w2 hw).2
      subst h16
      exact realloc_inv i hi hl (by rw [this]; exact hr) (by omega)
    · exact hrest

/-- A call that begins with memalignNoStats( ). -/
theorem begin_memalign {s : St} {g : Gh} (i : Inv s g) {t al n : Nat} {r : Rec} {fs : List Frame} (hi : s.pc t = .idle)
    (hb : n + al + 2 ^ 48 ≤ W) (hT : TailOk s.mem g t r fs n (if n = 0 then 16 else al)) :
    ∃ g', Inv (memalignStart { s with cur := upd s.cur t r } t al n fs) g' := by
  rcases memalignStart_pc (s := { s with cur := upd s.cur t r }) (g := g) (t := t) (al := al)
    (n := n) (fs := fs) (by omega) (by simp only [upd_same]; exact hT) with h | ⟨pc, h, hk⟩
  · rw [h]; exact ⟨g, call_abort0 i hi⟩
  · rw [h]; exact ⟨g, call_fresh i r pc hk⟩

theorem begin_mal {s : St} {g : Gh} (i : Inv s g) {t n : Nat} {r : Rec} {fs : List Frame}
    (hb : n + 2 ^ 48 ≤ W) (hT : TailOk s.mem g t r fs n 16) :
    ∃ g', Inv { s with cur := upd s.cur t r, pc := upd s.pc t (.mal n fs) } g' := by
  refine ⟨g, call_fresh i r _ ?_⟩
  unfold PcOk
  simp only [upd_same]
  exact ⟨by omega, Or.inl hT⟩

theorem keeps_promise {n A : Nat} {o : Rec} : Keeps ⟨n, if n = 0 then 16 else A, o.zero,
    fun i => if i < o.size then o.val i else if o.zero then some 0 else none⟩ o n A := by
  refine ⟨rfl, rfl, rfl, ?_⟩
  intro i v hv
  dsimp only at hv
  split
  · rename_i h; rw [if_pos h] at hv; exact hv
  · rename_i h
    rw [if_neg h] at hv
    split at hv
    · rename_i hz; exact ⟨hz, (Option.some.inj hv).symm⟩
    · exact absurd hv (by simp)

theorem doCall_inv {s s' : St} {g : Gh} (i : Inv s g) {t : Nat} {q : Req} (hq : q.bytes + q.alignArg + 2 ^ 48 ≤ W)
    (e : doCall s t q = some s') : ∃ g', Inv s' g' := by
  unfold doCall at e
  split at e
  · exact absurd e (by simp)
  rename_i hc
  have hi : s.pc t = .idle := by
    refine Decidable.byContradiction fun h => hc (Or.inr (Or.inl h))
  split at e
  · exact absurd e (by simp)
  rename_i ho
  have hold : q.old ≠ 0 → ∃ o, s.live q.old = some o := by
    intro h
    cases hx : s.live q.old with
    | none => exact absurd ⟨h, by rw [hx]; rfl⟩ ho
    | some o => exact ⟨o, rfl⟩
  simp only [Option.some.injEq] at e
  have hW : q.bytes % W = q.bytes := Nat.mod_eq_of_lt (by omega)
  obtain ⟨lv, hlv⟩ : ∃ lv, (if q.old = 0 then s.live else upd s.live q.old none) = lv := ⟨_, rfl⟩
  rw [hlv] at e
  have hlv0 : q.old = 0 → lv = s.live := fun h => by rw [← hlv, if_pos h]
  have hlv1 : q.old ≠ 0 → lv = upd s.live q.old none := fun h => by rw [← hlv, if_neg h]
  clear hlv
  cases q with
  | malloc n =>
    simp only [Req.old, Req.bytes, Req.alignArg, begin, promise] at *
    rw [hlv0 (by trivial)] at e
    subst e
    exact begin_mal i (by omega) ⟨rfl, rfl, rfl, fun _ => rfl⟩
  | aalloc d n =>
    simp only [Req.old, Req.bytes, Req.alignArg, begin, promise] at *
    rw [hlv0 (by trivial)] at e
    subst e
    rw [hW]
    exact begin_mal i (by omega) ⟨rfl, rfl, rfl, fun _ => rfl⟩
  | calloc d n =>
    simp only [Req.old, Req.bytes, Req.alignArg, begin, promise] at *
    rw [hlv0 (by trivial)] at e
    subst e
    rw [hW]
    exact begin_mal i (by omega) ⟨rfl, rfl, rfl, rfl, fun _ _ h => (Option.some.inj h).symm⟩
  | memalign al n =>
    simp only [Req.old, Req.bytes, Req.alignArg, begin, promise] at *
    rw [hlv0 (by trivial)] at e
    subst e
    exact begin_memalign i hi (by omega) ⟨rfl, rfl, rfl, fun _ => rfl⟩
  | amemalign al d n =>
    simp only [Req.old, Req.bytes, Req.alignArg, begin, promise] at *
    rw [hlv0 (by trivial)] at e
    subst e
    rw [hW]
    exact begin_memalign i hi (by omega) ⟨rfl, rfl, rfl, fun _ => rfl⟩
  | cmemalign al d n =>
    simp only [Req.old, Req.bytes, Req.alignArg, begin, promise] at *
    rw [hlv0 (by trivial)] at e
    subst e
    rw [hW]
    exact begin_memalign i hi (by omega) ⟨rfl, rfl, rfl, rfl, fun _ _ h => (Option.some.inj h).symm⟩
  | resize p n =>
    simp only [Req.old, Req.bytes, Req.alignArg, begin, promise] at *
    by_cases hp : p = 0
    · subst hp
      rw [hlv0 (by trivial)] at e
      simp only [if_true, resize] at e
      subst e
      exact begin_mal i (by omega) ⟨rfl, rfl, rfl, fun _ => rfl⟩
    · rw [hlv1 hp] at e
      obtain ⟨o, hl⟩ := hold hp
      subst e
      exact resize_inv i hl ⟨rfl, rfl, rfl, fun _ => rfl⟩ (by omega)
  | realloc p n =>
    simp only [Req.old, Req.bytes, Req.alignArg, begin, promise] at *
    by_cases hp : p = 0
    · subst hp
      rw [hlv0 (by trivial)] at e
      simp only [if_true, realloc] at e
      subst e
      exact begin_mal i (by omega) ⟨rfl, rfl, rfl, fun _ => rfl⟩
    · obtain ⟨o, hl⟩ := hold hp
      rw [hlv1 hp] at e
      simp only [if_neg hp, hl] at e
      subst e
      exact realloc_inv i hi hl keeps_promise (by omega)
  | reallocarray p d n =>
    simp only [Req.old, Req.bytes, Req.alignArg, begin, promise] at *
    rw [hW] at e
    by_cases hp : p = 0
    · subst hp
      rw [hlv0 (by trivial)] at e
      simp only [if_true, realloc] at e
      subst e
      exact begin_mal i (by omega) ⟨rfl, rfl, rfl, fun _ => rfl⟩
    · obtain ⟨o, hl⟩ := hold hp
      rw [hlv1 hp] at e
      simp only [if_neg hp, hl] at e
      subst e
      exact realloc_inv i hi hl keeps_promise (by omega)
  | resizeAl p al n =>
    simp only [Req.old, Req.bytes, Req.alignArg, begin, promise] at *
    by_cases hp : p = 0
    · subst hp
      rw [hlv0 (by trivial)] at e
      simp only [if_true, resizeAl] at e
      subst e
      exact begin_memalign i hi (by omega) ⟨rfl, rfl, rfl, fun _ => rfl⟩
    · rw [hlv1 hp] at e
      obtain ⟨o, hl⟩ := hold hp
      subst e
      exact resizeAl_inv i hi hl ⟨rfl, rfl, rfl, fun _ => rfl⟩ (by omega)
  | reallocAl p al n =>
    simp only [Req.old, Req.bytes, Req.alignArg, begin, promise] at *
    by_cases hp : p = 0
    · subst hp
      rw [hlv0 (by trivial)] at e
      simp only [if_true, reallocAl] at e
      subst e
      exact begin_memalign i hi (by omega) ⟨rfl, rfl, rfl, fun _ => rfl⟩
    · obtain ⟨o, hl⟩ := hold hp
      rw [hlv1 hp] at e
      simp only [if_neg hp, hl] at e
      subst e
      exact reallocAl_inv i hi hl keeps_promise (by omega)
  | reallocarrayAl p al d n =>
    simp only [Req.old, Req.bytes, Req.alignArg, begin, promise] at *
    rw [hW] at e
    by_cases hp : p = 0
    · subst hp
      rw [hlv0 (by trivial)] at e
      simp only [if_true, reallocAl] at e
      subst e
      exact begin_memalign i hi (by omega) ⟨rfl, rfl, rfl, fun _ => rfl⟩
    · obtain ⟨o, hl⟩ := hold hp
      rw [hlv1 hp] at e
      simp only [if_neg hp, hl] at e
      subst e
      exact reallocAl_inv i hi hl keeps_promise (by omega)
  | free p =>
    simp only [Req.old, begin] at *
    by_cases hp : p = 0
    · subst hp
      rw [hlv0 (by trivial)] at e
      simp only [if_true] at e
      subst e
      refine ⟨g, i.nofault, { i.core with }, i.live, fun t' => ?_⟩
      by_cases e : t' = t
      · subst e; unfold PcOk; simp [hi]
      · exact (i.pcs t').same i.core Same.refl rfl (upd_n e) rfl (fun _ _ _ => ⟨rfl, id⟩)
    · obtain ⟨o, hl⟩ := hold hp
      rw [hlv1 hp] at e
      simp only [if_neg hp] at e
      subst e
      exact call_fr i hl (k := .ret) fun _ => trivial

theorem doWrite_inv {s s' : St} {g : Gh} (i : Inv s g) {p j v : Nat} (e : doWrite s p j v = some s') : ∃ g', Inv s' g' := by
  unfold doWrite at e
  cases hl : s.live p with
  | none => rw [hl] at e; exact absurd e (by simp)
  | some r =>
    simp only [hl] at e
    split at e
    · rename_i h
      obtain rfl := Option.some.inj e
      obtain ⟨a, tot, k, h1, h2, h3, h4, h5, h6⟩ := i.live p r hl
      have hp := h4.pos i.core h1
      have ho : ∀ x, x ≠ p + j → upd s.mem (p + j) v x = s.mem x := fun x hx => upd_n hx
      refine ⟨g, i.ofLive h1 _ _ (fun x hx => ho x (by omega)) ⟨a, tot, k, h1, ?_, ?_, ?_, h5, ?_⟩⟩
      · rw [load_congr fun x x1 x2 => ho x (by omega)]; exact h2
      · rw [load_congr fun x x1 x2 => ho x (by omega)]; exact h3
      · exact h4.out fun h x x1 x2 => ho x (by omega)
      · intro l w hlt hw
        change upd r.val j (some v) l = some w at hw
        by_cases e : l = j
        · subst e; rw [upd_same] at hw; rw [upd_same]; exact Option.some.inj hw
        · rw [upd_n e] at hw; rw [ho _ (by omega)]; exact h6 l w hlt hw
    · exact absurd e (by simp)

theorem doStart_inv {s s' : St} {g : Gh} (i : Inv s g) {t : Nat} (e : doStart s t = some s') : ∃ g', Inv s' g' := by
  have c := i.core
  unfold doStart at e
  split at e
  · exact absurd e (by simp)
  rename_i hm
  have hm : s.mgr t = none := by simpa using hm
  have key : ∀ s' : St, s'.mem = s.mem → s'.pc = s.pc → s'.cur = s.cur → s'.free = s.free → s'.ret = s.ret →
      (∀ t', t' ≠ t → s'.mgr t' = s.mgr t') → ∀ t', PcOk s' g t' := by
    intro s' e1 e2 e3 e4 e5 e6 t'
    have hs : Same s.mem s'.mem g g fun st => st = .new t' ∨ st = .old t' := by rw [e1]; exact Same.refl
    by_cases et : t' = t
    · subst et
      have h := i.pcs t'
      unfold PcOk at h ⊢
      rw [e2, e3, e1]
      split
      · trivial
      · rename_i hh; rw [hh] at h; exact h
      · rename_i hh; rw [hh] at h; obtain ⟨_, _, _, x, hx, _⟩ := h; rw [hm] at hx; exact absurd hx (by simp)
      · rename_i hh; rw [hh] at h; obtain ⟨_, _, _, x, hx, _⟩ := h; rw [hm] at hx; exact absurd hx (by simp)
      · rename_i hh; rw [hh] at h; obtain ⟨_, _, _, x, hx, _⟩ := h; rw [hm] at hx; exact absurd hx (by simp)
      · rename_i hh; rw [hh] at h; exact h
      · rename_i hh; rw [hh] at h; exact h
      · rename_i hh; rw [hh] at h; exact h
      · rename_i hh; rw [hh] at h; exact h
    · exact (i.pcs t').same c hs (by rw [e2]) (by rw [e3]) (e6 t' et) (fun h b _ => by rw [e4, e5]; exact ⟨rfl, id⟩)
  have hne : ∀ h, (∀ t', s.mgr t' ≠ some h) → ∀ t1 t2 h', upd s.mgr t (some h) t1 = some h' → upd s.mgr t (some h) t2 = some h' → t1 = t2 := by
    intro h hh t1 t2 h' q1 q2
    by_cases x1 : t1 = t <;> by_cases x2 : t2 = t
    · omega
    · subst x1; rw [upd_same] at q1; rw [upd_n x2] at q2; cases q1; exact absurd q2 (hh t2)
    · subst x2; rw [upd_same] at q2; rw [upd_n x1] at q1; cases q2; exact absurd q1 (hh t1)
    · rw [upd_n x1] at q1; rw [upd_n x2] at q2; exact c.mgrInj t1 t2 h' q1 q2
  cases hf : s.freeHeaps with
  | cons h hs =>
    simp only [hf] at e
    obtain rfl := Option.some.inj e
    have hmem : h ∈ s.freeHeaps := by rw [hf]; exact List.mem_cons_self
    have hnd := c.fhNodup
    rw [hf] at hnd
    have hno : ∀ t', s.mgr t' ≠ some h := fun t' => c.fhNo t' h hmem
    refine ⟨g, i.nofault, { c with mgrLt := ?_, mgrInj := hne h hno, fhLt := ?_, fhNo := ?_, fhNodup := ?_ }, i.live,
      key _ rfl rfl rfl rfl rfl (fun t' et => upd_n et)⟩
    · intro t' h' q
      change upd s.mgr t (some h) t' = some h' at q
      by_cases x : t' = t
      · subst x; rw [upd_same] at q; cases q; exact c.fhLt h hmem
      · rw [upd_n x] at q; exact c.mgrLt t' h' q
    · intro h' q; exact c.fhLt h' (by rw [hf]; exact List.mem_cons_of_mem _ q)
    · intro t' h' q q2
      change upd s.mgr t (some h) t' = some h' at q2
      by_cases x : t' = t
      · subst x; rw [upd_same] at q2; cases q2; exact (List.nodup_cons.1 hnd).1 q
      · rw [upd_n x] at q2; exact c.fhNo t' h' (by rw [hf]; exact List.mem_cons_of_mem _ q) q2
    · exact (List.nodup_cons.1 hnd).2
  | nil =>
    simp only [hf] at e
    split at e
    · rename_i hl
      obtain rfl := Option.some.inj e
      have hno : ∀ t', s.mgr t' ≠ some s.heaps := fun t' q => by have := c.mgrLt t' _ q; omega
      refine ⟨g, i.nofault, { c with homeB := ?_, mgrLt := ?_, mgrInj := hne s.heaps hno, fhLt := ?_, fhNo := ?_, fhNodup := List.nodup_nil, heapsLim := hl }, i.live,
        key _ rfl rfl rfl rfl rfl (fun t' et => upd_n et)⟩
      · intro a tot h b st q; have := c.homeB a tot h b st q; exact ⟨this.1, this.2.1, by show h < s.heaps + 1; omega, this.2.2.2⟩
      · intro t' h' q
        change upd s.mgr t (some s.heaps) t' = some h' at q
        show h' < s.heaps + 1
        by_cases x : t' = t
        · subst x; rw [upd_same] at q; cases q; omega
        · rw [upd_n x] at q; have := c.mgrLt t' h' q; omega
      · intro h' q; exact absurd q (by simp)
      · intro t' h' q; exact absurd q (by simp)
    · obtain rfl := Option.some.inj e
      exact ⟨g, by simp, { c with fhLt := fun _ q => absurd q (by simp), fhNo := fun _ _ q => absurd q (by simp), fhNodup := List.nodup_nil }, i.live, key _ rfl rfl rfl rfl rfl fun _ _ => rfl⟩

theorem doExit_inv {s s' : St} {g : Gh} (i : Inv s g) {t : Nat} (e : doExit s t = some s') : ∃ g', Inv s' g' := by
  have c := i.core
  unfold doExit at e
  cases hm : s.mgr t with
  | none => rw [hm] at e; exact absurd e (by simp)
  | some h =>
    simp only [hm] at e
    split at e
    · rename_i hi
      obtain rfl := Option.some.inj e
      have hnf : h ∉ s.freeHeaps := fun q => c.fhNo t h q hm
      have hup : ∀ t' h', upd s.mgr t none t' = some h' → t' ≠ t ∧ s.mgr t' = some h' := by
        intro t' h' q
        by_cases x : t' = t
        · subst x; rw [upd_same] at q; exact absurd q (by simp)
        · rw [upd_n x] at q; exact ⟨x, q⟩
      have hsub : ∀ x, x ∈ (if s.boot t = true then h :: s.freeHeaps else s.freeHeaps) → x = h ∨ x ∈ s.freeHeaps := by
        intro x hx
        split at hx
        · simpa using hx
        · exact Or.inr hx
      refine ⟨g, i.nofault, { c with mgrLt := ?_, mgrInj := ?_, fhLt := ?_, fhNo := ?_, fhNodup := ?_ }, i.live, fun t' => ?_⟩
      · intro t' h' q; exact c.mgrLt t' h' (hup t' h' q).2
      · intro t1 t2 h' q1 q2; exact c.mgrInj t1 t2 h' (hup t1 h' q1).2 (hup t2 h' q2).2
      · intro x hx
        rcases hsub x hx with rfl | hx
        · exact c.mgrLt t _ hm
        · exact c.fhLt x hx
      · intro t' x hx q
        obtain ⟨q1, q2⟩ := hup t' x q
        rcases hsub x hx with rfl | hx
        · exact q1 (c.mgrInj t' t _ q2 hm)
        · exact c.fhNo t' x hx q2
      · show (if s.boot t = true then h :: s.freeHeaps else s.freeHeaps).Nodup
        split
        · exact List.nodup_cons.2 ⟨hnf, c.fhNodup⟩
        · exact c.fhNodup
      · by_cases x : t' = t
        · subst x; unfold PcOk; simp [hi]
        · exact (i.pcs t').same c Same.refl rfl rfl (upd_n x) (fun _ _ _ => ⟨rfl, id⟩)
    · exact absurd e (by simp)

theorem start_inv {brk expand thr : Nat} (h : StartOk brk expand thr) :
    Inv (start brk expand thr) ⟨fun _ => .none, fun _ => none, fun _ _ => [], fun _ _ => []⟩ := by
  obtain ⟨h1, h2, h3, h4, h5⟩ := h
  obtain ⟨m1, m2⟩ := maxB_spec h5
  refine ⟨by simp [start], ?_, fun p r e => by simp [start] at e, fun t => by unfold PcOk; simp [start]⟩
  constructor <;> first | (simp [start, Chain]; done) | skip
  all_goals simp_all [start]

/-- No step changes the begin of the heap, only mallopt the amount of an extension, and only a call what is expected. -/
def Cfg (s s' : St) : Prop := s'.expand = s.expand ∧ s'.heapBegin = s.heapBegin ∧ s'.cur = s.cur ∧ s'.live = s.live

theorem Cfg.trans {a b c : St} (h : Cfg a b) (h2 : Cfg b c) : Cfg a c := ⟨h2.1.trans h.1, h2.2.1.trans h.2.1, h2.2.2.1.trans h.2.2.1, h2.2.2.2.trans h.2.2.2⟩

theorem cfg_finish {s : St} {t h b a n : Nat} {fs : List Frame} : Cfg s (finish s t h b a n fs) := ⟨rfl, rfl, rfl, rfl⟩

theorem cfg_memalign {s : St} {t al n : Nat} {fs : List Frame} : Cfg s (memalignStart s t al n fs) := by
  unfold memalignStart; repeat' split
  all_goals exact ⟨rfl, rfl, rfl, rfl⟩

theorem cfg_realloc {s : St} {t p n : Nat} : Cfg s (realloc s t p n) := by
  unfold realloc
  dsimp only
  repeat' split
  all_goals first | exact ⟨rfl, rfl, rfl, rfl⟩ | exact cfg_memalign

theorem cfg_resize {s : St} {t p n : Nat} : Cfg s (resize s t p n) := by
  unfold resize
  dsimp only
  repeat' split
  all_goals exact ⟨rfl, rfl, rfl, rfl⟩

theorem cfg_resizeAl {s : St} {t p al n : Nat} : Cfg s (resizeAl s t p al n) := by
  unfold resizeAl
  dsimp only
  repeat' split
  all_goals first | exact ⟨rfl, rfl, rfl, rfl⟩ | exact cfg_memalign | exact cfg_resize

theorem cfg_reallocAl {s : St} {t p al n : Nat} : Cfg s (reallocAl s t p al n) := by
  unfold reallocAl
  dsimp only
  repeat' split
  all_goals first | exact ⟨rfl, rfl, rfl, rfl⟩ | exact cfg_memalign | exact cfg_realloc | exact Cfg.trans (b := { s with mem := _ }) ⟨rfl, rfl, rfl, rfl⟩ cfg_realloc

theorem cfg_begin {s : St} {t : Nat} {q : Req} : Cfg s (begin s t q) := by
  cases q <;> unfold begin <;> dsimp only
  all_goals first | exact ⟨rfl, rfl, rfl, rfl⟩ | exact cfg_memalign | exact cfg_realloc | exact cfg_resize | exact cfg_resizeAl | exact cfg_reallocAl | skip
  split <;> exact ⟨rfl, rfl, rfl, rfl⟩

theorem cfg_call {s s' : St} {t : Nat} {q : Req} (e : doCall s t q = some s') :
    s'.expand = s.expand ∧ s'.heapBegin = s.heapBegin ∧ s'.cur = upd s.cur t (promise q (if q.old = 0 then none else s.live q.old)) ∧
    s'.live = (if q.old = 0 then s.live else upd s.live q.old none) := by
  unfold doCall at e
  split at e
  · exact absurd e (by simp)
  split at e
  · exact absurd e (by simp)
  obtain rfl := Option.some.inj e
  exact cfg_begin (s := { s with cur := _, live := _ })

theorem cfg_mal {s s' : St} {t h n : Nat} {fs : List Frame} {ans : Option Nat} (e : doMal s t h n fs ans = some s') : Cfg s s' := by
  unfold doMal at e
  dsimp only at e
  repeat' split at e
  all_goals first | (obtain rfl := Option.some.inj e; exact ⟨rfl, rfl, rfl, rfl⟩) | exact absurd e (by simp)

theorem cfg_ext {s : St} {t h b n : Nat} {fs : List Frame} {gr : Bool} : Cfg s (doExt s t h b n fs gr) := by
  unfold doExt
  dsimp only
  split
  · have h1 : Cfg s (dropReserve s h) := by
      unfold dropReserve
      dsimp only
      split <;> exact ⟨rfl, rfl, rfl, rfl⟩
    split
    · exact ⟨rfl, rfl, rfl, rfl⟩
    · rename_i a s2 hm
      have h2 : Cfg (dropReserve s h) s2 := by
        unfold masterExtend at hm
        dsimp only at hm
        repeat' split at hm
        all_goals (cases hm; try exact ⟨rfl, rfl, rfl, rfl⟩)
      exact (h1.trans h2).trans ⟨rfl, rfl, rfl, rfl⟩
  · exact ⟨rfl, rfl, rfl, rfl⟩

theorem cfg_run {s s' : St} {t : Nat} {ans : Option Nat} (e : doRun s t ans = some s') : Cfg s s' ∨
    ∃ p, s.pc t = .got p [] ∧ s' = doGot s t p [] := by
  unfold doRun at e
  split at e
  · exact absurd e (by simp)
  split at e
  · exact absurd e (by simp)
  · exact Or.inl (cfg_mal e)
  · split at e <;> (obtain rfl := Option.some.inj e; exact Or.inl ⟨rfl, rfl, rfl, rfl⟩)
  · obtain rfl := Option.some.inj e; exact Or.inl ⟨rfl, rfl, rfl, rfl⟩
  · obtain rfl := Option.some.inj e; exact Or.inl cfg_ext
  · obtain rfl := Option.some.inj e
    rename_i p fs hpc
    cases fs with
    | nil => exact Or.inr ⟨p, hpc, rfl⟩
    | cons f fs =>
      cases f <;> (unfold doGot; dsimp only; split <;> exact Or.inl ⟨rfl, rfl, rfl, rfl⟩)
  · obtain rfl := Option.some.inj e
    unfold doFree
    dsimp only
    repeat' split
    all_goals exact Or.inl ⟨rfl, rfl, rfl, rfl⟩
  · obtain rfl := Option.some.inj e; exact Or.inl ⟨rfl, rfl, rfl, rfl⟩
  · obtain rfl := Option.some.inj e; exact Or.inl cfg_memalign

/-- One step of a reasonable program. -/
theorem next_inv {s s' : St} {e : Ev} (h : (∃ g, Inv s g) ∧ s.expand < 2 ^ 62) (he : nextSane s e = some s') :
    ((∃ g, Inv s' g) ∧ s'.expand < 2 ^ 62) ∧ s'.heapBegin = s.heapBegin := by
  obtain ⟨⟨g, i⟩, hx⟩ := h
  unfold nextSane at he
  split at he
  · rename_i hs
    unfold next at he
    split at he
    · exact absurd he (by simp)
    · cases e with
      | start t =>
        refine ⟨⟨doStart_inv i he, ?_⟩, ?_⟩
        all_goals
          dsimp only at he
          unfold doStart at he
          repeat' split at he
          all_goals first | (obtain rfl := Option.some.inj he; first | exact hx | rfl) | exact absurd he (by simp)
      | exit t =>
        refine ⟨⟨doExit_inv i he, ?_⟩, ?_⟩
        all_goals
          dsimp only at he
          unfold doExit at he
          split at he
          · exact absurd he (by simp)
          · by_cases hp : s.pc t = .idle
            · rw [if_pos hp] at he
              obtain rfl := Option.some.inj he
              first | exact hx | rfl
            · rw [if_neg hp] at he; exact absurd he (by simp)
      | call t q =>
        have := cfg_call he
        exact ⟨⟨doCall_inv i (by simpa [sane] using hs) he, by rw [this.1]; exact hx⟩, this.2.1⟩
      | run t ans =>
        have : s'.expand = s.expand ∧ s'.heapBegin = s.heapBegin := by
          rcases cfg_run he with h | ⟨p, _, rfl⟩
          · exact ⟨h.1, h.2.1⟩
          · exact ⟨rfl, rfl⟩
        exact ⟨⟨doRun_inv i hx he, by rw [this.1]; exact hx⟩, this.2⟩
      | write p j v =>
        refine ⟨⟨doWrite_inv i he, ?_⟩, ?_⟩
        all_goals
          dsimp only at he
          unfold doWrite at he
          repeat' split at he
          all_goals first | (obtain rfl := Option.some.inj he; first | exact hx | rfl) | exact absurd he (by simp)
      | mmapStart v => exact absurd hs (by simp [sane])
      | maxBuckets => exact absurd hs (by simp [sane])
      | threshold v =>
        dsimp only at he
        split at he
        · exact absurd he (by simp)
        · rename_i hv
          obtain rfl := Option.some.inj he
          obtain ⟨m1, m2⟩ := maxB_spec (v := v) (by omega)
          exact ⟨⟨⟨g, i.nofault, { i.core with maxB := m1, mm := m2 }, i.live, i.pcs⟩, hx⟩, rfl⟩
      | topPad v =>
        dsimp only at he
        split at he
        · exact absurd he (by simp)
        · rename_i hv
          obtain rfl := Option.some.inj he
          refine ⟨⟨⟨g, i.nofault, { i.core with }, i.live, i.pcs⟩, ?_⟩, rfl⟩
          show ceiling2 v page < 2 ^ 62
          unfold ceiling2
          simp only [page, W]
          omega
  · exact absurd he (by simp)

theorem reach_inv {brk expand thr : Nat} (h0 : StartOk brk expand thr) {s : St} (h : Reach nextSane (start brk expand thr) s) :
    (∃ g, Inv s g) ∧ s.heapBegin = brk := by
  have := Reach.inv (P := fun s => ((∃ g, Inv s g) ∧ s.expand < 2 ^ 62) ∧ s.heapBegin = brk)
    ⟨⟨⟨_, start_inv h0⟩, h0.2.2.2.1⟩, rfl⟩ (fun s e s' hP he => by
      obtain ⟨h1, h2⟩ := next_inv hP.1 he
      exact ⟨h1, h2.trans hP.2⟩) h
  exact ⟨this.1.1, this.2⟩

end Verif.HeapAlloc
