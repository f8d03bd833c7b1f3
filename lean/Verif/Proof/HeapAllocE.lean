import Verif.Proof.HeapAllocD
/-! The rest of the steps of a routine. -/
namespace Verif.HeapAlloc

/-- The blocks in use other than the one thread `t` gives back. -/
def But' (t : Nat) (st : Stat) : Prop := st ≠ .free ∧ st ≠ .ret ∧ st ≠ .old t

/-- A step of thread `t` that may change the blocks of clients. -/
theorem Inv.ofStep' {s s' : St} {g g' : Gh} (i : Inv s g) (t : Nat) (nf : s'.status ≠ .fault) (c' : Core s' g')
    (hlive : ∀ p r, s'.live p = some r → Held s'.mem g' (.live p) p r.size r.align r.zero r.size r.val)
    (hpc : ∀ t', t' ≠ t → s'.pc t' = s.pc t' ∧ s'.cur t' = s.cur t' ∧ s'.mgr t' = s.mgr t')
    (hl : ∀ t', t' ≠ t → ∀ h b, s.mgr t' = some h → s'.free h b = s.free h b ∧ (s.ret h b ≠ 0 → s'.ret h b ≠ 0))
    (hs : ∀ t', t' ≠ t → Same s.mem s'.mem g g' fun st => st = .new t' ∨ st = .old t') (ht : PcOk s' g' t) : Inv s' g' := by
  refine ⟨nf, c', hlive, ?_⟩
  intro t'
  by_cases e : t' = t
  · subst e; exact ht
  · obtain ⟨h1, h2, h3⟩ := hpc t' e
    exact (i.pcs t').same i.core (hs t' e) h1 h2 h3 (hl t' e)

/-- The state of the block is changed. -/
theorem Held.setStat {m : Mem} {g : Gh} {st st' : Stat} {p n A cap : Nat} {z : Bool} {f : Nat → Option Nat}
    (h : Held m g st p n A z cap f) : ∃ a tot k, g.st a = some ⟨tot, k, st⟩ ∧
      Held m { g with st := upd g.st a (some ⟨tot, k, st'⟩) } st' p n A z cap f := by
  obtain ⟨a, tot, k, h1, h2⟩ := h
  exact ⟨a, tot, k, h1, a, tot, k, upd_same .., h2⟩

/-- A fresh block that needs nothing more. -/
theorem Fresh.held {m : Mem} {g : Gh} {t a p n A : Nat} (h : Fresh m g t a p n A) (f : Nat → Option Nat) (hf : ∀ i, f i = none) :
    Held m g (.new t) p n A false n f := by
  obtain ⟨tot, k, h1, h2, h3, h4, h5, _⟩ := h
  exact ⟨a, tot, k, h1, by rw [h2]; rfl, h3, h4, h5, fun i v _ e => by rw [hf] at e; exact absurd e (by simp)⟩

theorem GotOk.nil {m : Mem} {g : Gh} {t p : Nat} {r : Rec} (h : GotOk m g t r p []) :
    Held m g (.new t) p r.size r.align r.zero r.size r.val := by
  rcases h with ⟨_, h⟩ | ⟨n, A, a, _, h1, h2, h3, h4, h5⟩ | ⟨_, _, _, _, h, _⟩
  · exact h
  · rw [h2, h3, h4]; exact h1.held _ h5
  · exact absurd h (by simp)

/-- A block that is in use is where its client thinks. -/
theorem Us.pos {s : St} {g : Gh} (c : Core s g) {m : Mem} {a tot p A : Nat} {k : Kind} {st : Stat} (h : g.st a = some ⟨tot, k, st⟩)
    (u : Us m a tot p A) : a + 16 ≤ p ∧ p < 2 ^ 47 ∧ A < 2 ^ 47 ∧ p % 16 = 0 := by
  have := c.lim h
  have := u.lt
  have h2 := u.al
  have h3 : a + 16 ≤ p := by rcases u.two with h | h <;> omega
  have h4 : A ≤ p := Nat.le_of_dvd (by omega) (Nat.dvd_of_mod_eq_zero h2)
  refine ⟨h3, by simp only at *; omega, by simp only at *; omega, ?_⟩
  exact Nat.mod_eq_zero_of_dvd (Nat.dvd_trans (Nat.dvd_of_mod_eq_zero u.a16.1) (Nat.dvd_of_mod_eq_zero h2))

theorem Us.out {m m' : Mem} {a tot p A : Nat} (u : Us m a tot p A)
    (hm : a + 32 ≤ p → ∀ x, p - 16 ≤ x → x < p → m' x = m x) : Us m' a tot p A := by
  refine { u with two := ?_ }
  rcases u.two with h | ⟨h1, h2, h3⟩
  · exact Or.inl h
  · refine Or.inr ⟨h1, ?_, ?_⟩
    · rw [load_congr fun x x1 x2 => hm h1 x (by omega) (by omega)]; exact h2
    · rw [load_congr fun x x1 x2 => hm h1 x (by omega) (by omega)]; exact h3

/-- Only a block of thread `t` changes, and only its bytes. -/
theorem Inv.ofMem {s : St} {g : Gh} (i : Inv s g) {t a tot : Nat} {k : Kind} {st : Stat} (ha : g.st a = some ⟨tot, k, st⟩)
    (hst : st = .new t ∨ st = .old t) (m' : Mem) (pc : Pc) (hm : ∀ x, x < a ∨ a + tot ≤ x → m' x = s.mem x)
    (ht : PcOk { s with mem := m', pc := upd s.pc t pc } g t) : Inv { s with mem := m', pc := upd s.pc t pc } g := by
  have c2 := i.core.setMemIn m' ha (by rcases hst with rfl | rfl <;> simp) (by rcases hst with rfl | rfl <;> simp) hm
  refine i.ofStep t i.nofault { c2 with } rfl ?_ rfl rfl (fun _ _ _ _ _ => ⟨rfl, id⟩) ?_ ht
  · intro t' e; exact upd_n e
  · exact Same.block i.core ha (by rcases hst with rfl | rfl <;> simp [Others]) hm (fun _ _ => rfl)

theorem doGot_inv {s : St} {g : Gh} (i : Inv s g) {t p : Nat} {fs : List Frame} (hpc : s.pc t = .got p fs) :
    ∃ g', Inv (doGot s t p fs) g' := by
  have c := i.core
  have hp := i.pcs t
  unfold PcOk at hp
  rw [hpc] at hp
  obtain ⟨hp0, hp⟩ := hp
  match fs, hp with
  | [], hp =>
    have hh := hp.nil
    obtain ⟨a, tot, k, h1, h2⟩ := hh.setStat (st' := .live p)
    refine ⟨_, i.ofStep' t i.nofault { c.setStat (s2 := .live p) h1 (by simp) (by simp) with } ?_ ?_ (fun _ _ _ _ _ => ⟨rfl, id⟩) ?_ ?_⟩
    · intro p' r hr
      simp only [doGot, if_neg hp0] at hr
      by_cases e : p' = p
      · subst e
        rw [upd_same] at hr
        obtain rfl := Option.some.inj hr
        exact h2
      · rw [upd_n e] at hr
        refine (i.live p' r hr).same c (Same.block (P := fun st => st = .live p') c h1 (by simp) (fun _ _ => rfl) (fun x hx => upd_n hx)) rfl
    · intro t' e; exact ⟨upd_n e, rfl, rfl⟩
    · intro t' e
      refine Same.block c h1 (by simp; omega) (fun _ _ => rfl) (fun x hx => upd_n hx)
    · unfold PcOk
      simp [doGot]
  | .memalign al size :: fs', hp =>
    rcases hp with ⟨h, _⟩ | ⟨n, A, a, _, _, h2⟩ | ⟨al', sz', fs2, a, e1, e2, e3, ⟨tot, k, f1, f2, f3, f4, f5, f6⟩, e5, e6, e7⟩
    · exact absurd h (by simp)
    · exact h2.elim
    · simp only [List.cons.injEq, Frame.memalign.injEq] at e1
      obtain ⟨⟨rfl, rfl⟩, rfl⟩ := e1
      obtain ⟨k1, k2, k3, k4, k5, k6⟩ := c.kindOk f1
      obtain ⟨u1, u2, u3, u4⟩ := ceiling2_16 (n := p + 16) (al := al) e5 (by omega) (by omega) (by simp only [W]; omega)
      obtain ⟨u, hu⟩ : ∃ u, ceiling2 (p + 16) al = u := ⟨_, rfl⟩
      rw [hu] at u1 u2 u3 u4
      have hma : markAlign al = al + 1 := by unfold markAlign; rw [if_neg (by omega)]
      simp only [doGot, if_neg hp0, hu, hma]
      have hW : W = 2 ^ 64 := rfl
      have h47 : al < 2 ^ 47 := by omega
      have hout : ∀ x, x < a + 8 ∨ (a + 16 ≤ x ∧ x < u - 16) ∨ u ≤ x →
          store (store (store s.mem (p - 8) size) (u - 8) (u - p)) (u - 16) (al + 1) x = s.mem x := by
        intro x hx
        rw [store_out (by omega), store_out (by omega), store_out (by omega)]
      refine ⟨g, i.ofMem f1 (Or.inl rfl) _ _ (fun x hx => hout x (by omega)) ?_⟩
      unfold PcOk
      simp only [upd_same]
      refine ⟨by omega, Or.inr (Or.inl ⟨size, al, a, by omega, ⟨tot, k, f1, ?_, ?_, ?_, by omega, ?_⟩, ?_⟩)⟩
      · rw [load_congr fun x x1 x2 => hout x (by omega)]; exact f2
      · rw [load_store_ne (by omega), load_store_ne (by omega), show p - 8 = a + 8 by omega, load_store (by omega)]
      · refine { lt := by omega, al := u3, a16 := by omega, two := Or.inr ⟨by omega, ?_, ?_⟩ }
        · exact load_store (by omega)
        · rw [load_store_ne (by omega), load_store (by omega)]; omega
      · intro hk j hj
        rw [hout _ (by omega)]
        have := f6 hk (u - p + j) (by omega)
        rw [show p + (u - p + j) = u + j by omega] at this
        exact this
      · exact e7.same c (Same.block (P := fun st => st = .old t) c f1 (by simp) (fun x hx => hout x (by simp only at hx; omega)) fun _ _ => rfl) rfl
  | .calloc size :: fs', hp =>
    rcases hp with ⟨h, _⟩ | ⟨n, A, a, hn, ⟨tot, k, f1, f2, f3, f4, f5, f6⟩, h2⟩ | ⟨_, _, _, _, h, _⟩
    · exact absurd h (by simp)
    · cases fs' with
      | cons x l => exact h2.elim
      | nil =>
        obtain ⟨rfl, r1, r2, r3, r4⟩ := h2
        obtain ⟨k1, k2, k3, k4, k5, k6⟩ := c.kindOk f1
        obtain ⟨q1, q2, q3, q4⟩ := f4.pos c f1
        obtain ⟨d1, d2, d3, d4, d5⟩ := headers_spec c (z := false) f1 (by rw [f2]; rfl) f4
        simp only [doGot, if_neg hp0]
        obtain ⟨m1, hm1⟩ : ∃ m1, (if (headers s.mem p).mapped = true then s.mem else memset s.mem p 0 size) = m1 := ⟨_, rfl⟩
        have hin : ∀ j, j < size → m1 (p + j) = 0 := by
          intro j hj
          rw [← hm1, d2]
          by_cases e : k = .map
          · rw [if_pos (by simp [e])]; exact f6 e j hj
          · rw [if_neg (by simp [e])]; exact memset_in (by omega) (by omega)
        have hout1 : ∀ x, x < p ∨ p + size ≤ x → m1 x = s.mem x := by
          intro x hx
          rw [← hm1]
          split
          · rfl
          · exact memset_out hx
        rw [hm1, d1]
        obtain ⟨z1, z2⟩ := markZero_spec c (m := m1) (z := false) f1 (by rw [load_congr fun x x1 x2 => hout1 x (by omega), f2]; rfl)
        have hout : ∀ x, x < a ∨ (a + 8 ≤ x ∧ x < p) ∨ a + tot ≤ x → markZero m1 a x = s.mem x := by
          intro x hx
          rw [z2 x (by omega), hout1 x (by omega)]
        refine ⟨g, i.ofMem f1 (Or.inl rfl) _ _ (fun x hx => hout x (by omega)) ?_⟩
        unfold PcOk
        simp only [upd_same]
        refine ⟨hp0, Or.inl ⟨rfl, a, tot, k, f1, by rw [r3]; exact z1, ?_, ?_, by rw [r1]; exact f5, ?_⟩⟩
        · rw [load_congr fun x x1 x2 => hout x (by omega), f3, r1]
        · rw [r2]; exact f4.out fun h x x1 x2 => hout x (by omega)
        · intro j v hj hv
          rw [z2 _ (by omega), hin j (by omega), r4 j v hv]
    · exact absurd h (by simp)
  | .realloc old osz sz oz :: fs', hp =>
    rcases hp with ⟨h, _⟩ | ⟨n, A, a, hn, ⟨tot, k, f1, f2, f3, f4, f5, f6⟩, h2⟩ | ⟨_, _, _, _, h, _⟩
    · exact absurd h (by simp)
    · cases fs' with
      | cons x l => exact h2.elim
      | nil =>
        obtain ⟨rfl, r1, r2, r3, A', f, hold, r4⟩ := h2
        obtain ⟨k1, k2, k3, k4, k5, k6⟩ := c.kindOk f1
        obtain ⟨q1, q2, q3, q4⟩ := f4.pos c f1
        simp only [doGot, if_neg hp0]
        have hmin : min osz sz ≤ sz ∧ min osz sz ≤ osz := ⟨Nat.min_le_right .., Nat.min_le_left ..⟩
        have hout : ∀ x, x < p ∨ a + tot ≤ x → memcpy s.mem p old (min osz sz) x = s.mem x := by
          intro x hx
          exact memcpy_out (by omega)
        refine ⟨g, i.ofMem f1 (Or.inl rfl) _ _ (fun x hx => hout x (by omega)) ?_⟩
        unfold PcOk
        simp only [upd_same]
        have hold2 := hold.same c (Same.block (P := fun st => st = .old t) c f1 (by simp) (fun x hx => hout x (by simp only at hx; omega)) fun _ _ => rfl) rfl
        obtain ⟨a', tot', k', o1, o2, o3, o4, o5, o6⟩ := hold
        refine ⟨?_, r1, r3, fun j => if j < osz then f j else none, ⟨a, tot, k, f1, ?_, ?_, ?_, f5, ?_⟩, ?_⟩
        · obtain ⟨b1, b2, b3, b4, b5, b6, b7, b8, b9⟩ := hold2
          exact ⟨osz, A', oz, f, b1, b2, b3, b4, b5, b6, b7, by omega, fun _ _ h => by omega⟩
        · rw [load_congr fun x x1 x2 => hout x (by omega), f2]; rfl
        · rw [load_congr fun x x1 x2 => hout x (by omega), f3]
        · rw [r2]; exact f4.out fun h x x1 x2 => hout x (by omega)
        · intro j v hj hv
          dsimp only at hv
          split at hv
          · rename_i hjo
            rw [memcpy_in (by omega)]
            exact o6 j v hjo hv
          · exact absurd hv (by simp)
        · intro j v hj hv
          have := r4 j v hj hv
          split
          · rename_i hjo; simpa [hjo] using this
          · rename_i hjo; simpa [hjo] using this
    · exact absurd h (by simp)

theorem doFin_inv {s : St} {g : Gh} (i : Inv s g) {t p osz sz : Nat} {oz : Bool} (hpc : s.pc t = .fin p osz sz oz) :
    ∃ g', Inv (doFin s t p osz sz oz) g' := by
  have c := i.core
  have hp := i.pcs t
  unfold PcOk at hp
  rw [hpc] at hp
  obtain ⟨r1, r2, f, ⟨a, tot, k, f1, f2, f3, f4, f5, f6⟩, r3⟩ := hp
  obtain ⟨k1, k2, k3, k4, k5, k6⟩ := c.kindOk f1
  obtain ⟨q1, q2, q3, q4⟩ := f4.pos c f1
  obtain ⟨d1, _⟩ := headers_spec c (z := false) f1 f2 f4
  unfold doFin
  simp only [d1]
  cases oz with
  | false =>
    simp only [Bool.false_eq_true, if_false]
    refine ⟨g, i.ofMem f1 (Or.inl rfl) _ _ (fun x hx => rfl) ?_⟩
    unfold PcOk
    simp only [upd_same]
    refine ⟨by omega, Or.inl ⟨rfl, a, tot, k, f1, by rw [r2]; exact f2, by rw [r1]; exact f3, f4, by rw [r1]; exact f5, ?_⟩⟩
    intro j v hj hv
    have := r3 j v (by omega) hv
    split at this
    · exact f6 j v (by omega) this
    · exact absurd this.1 (by simp)
  | true =>
    simp only [if_true]
    obtain ⟨z1, z2⟩ := markZero_spec c (m := s.mem) (z := false) f1 f2
    obtain ⟨m2, hm2⟩ : ∃ m2, (if sz > osz then memset (markZero s.mem a) (p + osz) 0 (sz - osz) else markZero s.mem a) = m2 := ⟨_, rfl⟩
    rw [hm2]
    have hin : ∀ j, osz ≤ j → j < sz → m2 (p + j) = 0 := by
      intro j h1 h2
      rw [← hm2, if_pos (by omega)]
      exact memset_in (by omega) (by omega)
    have hout1 : ∀ x, x < p + osz ∨ p + sz ≤ x → m2 x = markZero s.mem a x := by
      intro x hx
      rw [← hm2]
      split
      · exact memset_out (by omega)
      · rfl
    have hout : ∀ x, x < a ∨ (a + 8 ≤ x ∧ x < p + osz) ∨ a + tot ≤ x → m2 x = s.mem x := by
      intro x hx
      rw [hout1 x (by omega), z2 x (by omega)]
    refine ⟨g, i.ofMem f1 (Or.inl rfl) _ _ (fun x hx => hout x (by omega)) ?_⟩
    unfold PcOk
    simp only [upd_same]
    refine ⟨by omega, Or.inl ⟨rfl, a, tot, k, f1, ?_, ?_, ?_, by rw [r1]; exact f5, ?_⟩⟩
    · rw [r2, load_congr fun x x1 x2 => hout1 x (by omega)]; exact z1
    · rw [load_congr fun x x1 x2 => hout x (by omega), f3, r1]
    · exact f4.out fun h x x1 x2 => hout x (by omega)
    · intro j v hj hv
      have := r3 j v (by omega) hv
      split at this
      · rw [hout _ (by omega)]
        exact f6 j v (by omega) this
      · rw [hin j (by omega) (by omega), this.2]

theorem AfterOk.pc {s : St} {g : Gh} {t : Nat} {k : After} (hpc : s.pc t = afterPc k) (h : AfterOk s.mem g t (s.cur t) k) : PcOk s g t := by
  unfold PcOk
  rw [hpc]
  cases k with
  | ret => trivial
  | mal n fs => obtain ⟨rfl, h1, h2⟩ := h; exact ⟨h1, Or.inl h2⟩
  | memalign al n => exact h
  | fin p osz sz oz => exact h

theorem doFree_inv {s : St} {g : Gh} (i : Inv s g) {t h p : Nat} {k : After} (ht : s.mgr t = some h) (hpc : s.pc t = .fr p k) :
    ∃ g', Inv (doFree s t h p k) g' := by
  have c := i.core
  have hp := i.pcs t
  unfold PcOk at hp
  rw [hpc] at hp
  obtain ⟨⟨n, A, z, f, a, tot, kd, f1, f2, f3, f4, f5, f6⟩, hk⟩ := hp
  obtain ⟨k1, k2, k3, k4, k5, k6⟩ := c.kindOk f1
  obtain ⟨d1, d2, d3, d4, d5⟩ := headers_spec c f1 f2 f4
  unfold doFree
  simp only [d1, d3]
  cases kd with
  | map =>
    have hB := c.mapB _ _ _ f1
    rw [d2, if_pos (by simp), if_pos hB.2.1]
    have c2 := c.munmap f1
    have hsame : ∀ P : Stat → Prop, ¬ P (.old t) →
        Same s.mem s.mem g { g with st := upd g.st a none, own := setOwn g.own a (a + tot) .none } P :=
      fun P hP => Same.block c f1 hP (fun _ _ => rfl) (fun x hx => upd_n hx)
    refine ⟨_, i.ofStep t i.nofault { c2 with } rfl ?_ rfl rfl (fun _ _ _ _ _ => ⟨rfl, id⟩) (hsame _ (by simp [Others])) ?_⟩
    · intro t' e; exact upd_n e
    · exact AfterOk.pc (k := k) (upd_same ..) (hk.same c (hsame (But' t) (by simp [But'])) (by simp [But']))
  | home h' b =>
    have hB := c.homeB _ _ _ _ _ f1
    have hh := homeAddr_facts (b := b) (h := h') hB.2.1 (by have := c.heapsLim; omega)
    rw [d2, if_neg (by simp), d5 h' b rfl, hh.2.1, hh.2.2.1]
    have hsame : ∀ (v : Nat) (g' : Gh) (P : Stat → Prop), ¬ P (.old t) → (∀ x, x ≠ a → g'.st x = g.st x) →
        Same s.mem (store s.mem a v) g g' P :=
      fun v g' P hP hg => Same.block c f1 hP (fun x hx => store_out (by simp only at hx; omega)) hg
    split
    · rename_i e
      subst e
      have c2 := c.pushFree f1 (by simp) (c.freeLt h b)
      refine ⟨_, i.ofStep t i.nofault { c2 with } rfl ?_ rfl rfl ?_ (hsame _ _ _ (by simp [Others]) (fun x hx => upd_n hx)) ?_⟩
      · intro t' e; exact upd_n e
      · intro t' et h2 b' ht'
        have := other_heap c ht et ht'
        exact ⟨upd2_ne (fun e => this e.1), id⟩
      · exact AfterOk.pc (k := k) (upd_same ..) (hk.same c (hsame _ _ (But' t) (by simp [But']) (fun x hx => upd_n hx)) (by simp [But']))
    · have c2 := c.pushRet f1 (by simp) (c.retLt h' b)
      refine ⟨_, i.ofStep t i.nofault { c2 with } rfl ?_ rfl rfl ?_ (hsame _ _ _ (by simp [Others]) (fun x hx => upd_n hx)) ?_⟩
      · intro t' e; exact upd_n e
      · intro t' et h2 b' ht'
        refine ⟨rfl, fun hr => ?_⟩
        show upd2 s.ret h' b a h2 b' ≠ 0
        by_cases e : h2 = h' ∧ b' = b
        · obtain ⟨rfl, rfl⟩ := e
          rw [upd2_same]; omega
        · rw [upd2_ne e]; exact hr
      · exact AfterOk.pc (k := k) (upd_same ..) (hk.same c (hsame _ _ (But' t) (by simp [But']) (fun x hx => upd_n hx)) (by simp [But']))

/-- memalignNoStats( ) starts. -/
theorem memalignStart_cases (s : St) (t al n : Nat) (fs : List Frame) :
    memalignStart s t al n fs = { s with status := .aborted } ∨
    ((16 ≤ al ∧ al % 16 = 0) ∧ ((al = 16 ∨ n = 0) ∧ memalignStart s t al n fs = { s with pc := upd s.pc t (.mal n fs) } ∨
      0 < n ∧ 16 < al ∧ memalignStart s t al n fs = { s with pc := upd s.pc t (.mal ((n + al) % W) (.memalign al n :: fs)) })) := by
  unfold memalignStart
  by_cases h : goodAlign al = true
  · have hg := pow2_mod h
    rw [if_neg (by simp [h])]
    refine Or.inr ⟨hg, ?_⟩
    by_cases h2 : al ≤ 16 ∨ n = 0
    · rw [if_pos h2]; exact Or.inl ⟨by omega, rfl⟩
    · rw [if_neg h2]; exact Or.inr ⟨by omega, by omega, rfl⟩
  · rw [if_pos h]; exact Or.inl rfl

/-- The start of memalignNoStats( ) is right if the rest of the routine is. -/
theorem memalignStart_pc {s : St} {g : Gh} {t al n : Nat} {fs : List Frame} (hb : n + al + 2 ^ 47 ≤ W)
    (hT : TailOk s.mem g t (s.cur t) fs n (if n = 0 then 16 else al)) :
    memalignStart s t al n fs = { s with status := .aborted } ∨
    ∃ pc, memalignStart s t al n fs = { s with pc := upd s.pc t pc } ∧ PcOk { s with pc := upd s.pc t pc } g t := by
  rcases memalignStart_cases s t al n fs with h | ⟨hg, ⟨h1, h2⟩ | ⟨h1, h2, h3⟩⟩
  · exact Or.inl h
  · refine Or.inr ⟨_, h2, ?_⟩
    unfold PcOk
    simp only [upd_same]
    refine ⟨by omega, Or.inl ?_⟩
    have : (if n = 0 then 16 else al) = 16 := by split <;> omega
    rw [this] at hT; exact hT
  · refine Or.inr ⟨_, h3, ?_⟩
    rw [Nat.mod_eq_of_lt (by omega)]
    unfold PcOk
    simp only [upd_same]
    rw [if_neg (by omega)] at hT
    exact ⟨by omega, Or.inr ⟨al, n, fs, rfl, rfl, hg.2, ⟨by omega, h1⟩, hT⟩⟩

theorem Inv.abort {s : St} {g : Gh} (i : Inv s g) : Inv { s with status := .aborted } g :=
  ⟨by simp, { i.core with }, i.live, fun t' => i.pcs t'⟩

theorem doAln_inv {s : St} {g : Gh} (i : Inv s g) {t al n : Nat} (hpc : s.pc t = .aln al n) :
    ∃ g', Inv (memalignStart s t al n []) g' := by
  have hp := i.pcs t
  unfold PcOk at hp
  rw [hpc] at hp
  obtain ⟨h1, h2, h3, h4, h5⟩ := hp
  rcases memalignStart_pc (s := s) (g := g) (t := t) (al := al) (n := n) (fs := []) (by omega) ⟨h2, h3, h4, h5⟩ with h | ⟨pc, h, hk⟩
  · rw [h]; exact ⟨g, i.abort⟩
  · rw [h]
    refine ⟨g, i.ofStep t i.nofault { i.core with } rfl ?_ rfl rfl (fun _ _ _ _ _ => ⟨rfl, id⟩) Same.refl hk⟩
    intro t' e; exact upd_n e

theorem doRun_inv {s s' : St} {g : Gh} (i : Inv s g) {t : Nat} {ans : Option Nat} (hexp : s.expand < 2 ^ 62)
    (e : doRun s t ans = some s') : ∃ g', Inv s' g' := by
  unfold doRun at e
  split at e
  · exact absurd e (by simp)
  · rename_i h ht
    split at e <;> rename_i hpc
    · exact absurd e (by simp)
    · exact doMal_inv i ht hpc e
    · have hp := i.pcs t
      unfold PcOk at hp
      rw [hpc] at hp
      obtain ⟨hm, b2, b1, h', ht', h0⟩ := hp
      split at e
      · rename_i hr
        obtain rfl := Option.some.inj e
        refine ⟨g, i.ofStep t i.nofault { i.core with } rfl ?_ rfl rfl (fun _ _ _ _ _ => ⟨rfl, id⟩) Same.refl ?_⟩
        · intro t' e; exact upd_n e
        · unfold PcOk
          simp only [upd_same]
          rw [ht] at ht'
          obtain rfl := Option.some.inj ht'
          exact ⟨hm, b2, b1, h, ht, h0, hr⟩
      · obtain rfl := Option.some.inj e
        refine ⟨g, i.ofStep t i.nofault { i.core with } rfl ?_ rfl rfl (fun _ _ _ _ _ => ⟨rfl, id⟩) Same.refl ?_⟩
        · intro t' e; exact upd_n e
        · unfold PcOk
          simp only [upd_same]
          exact ⟨hm, b2, b1, h', ht', h0⟩
    · obtain rfl := Option.some.inj e; exact doPull_inv i ht hpc
    · obtain rfl := Option.some.inj e; exact doExt_inv i ht hpc hexp
    · obtain rfl := Option.some.inj e; exact doGot_inv i hpc
    · obtain rfl := Option.some.inj e; exact doFree_inv i ht hpc
    · obtain rfl := Option.some.inj e; exact doFin_inv i hpc
    · obtain rfl := Option.some.inj e; exact doAln_inv i hpc

end Verif.HeapAlloc
