import Verif.Proof.HeapAllocC
/-! doMalloc and doFree keep the invariant. -/
namespace Verif.HeapAlloc

/-- The blocks that are in use, except the one thread `t` is to return. -/
def But (t : Nat) (st : Stat) : Prop := st ≠ .free ∧ st ≠ .ret ∧ st ≠ .new t

theorem Others.but {t : Nat} {st : Stat} (h : Others t st) : But t st := ⟨h.1, h.2.1, h.2.2.1⟩

theorem GotOk.ofMal {m : Mem} {g : Gh} {t : Nat} {r : Rec} {n a : Nat} {fs : List Frame} (hm : MalOk m g t r n fs)
    (hf : Fresh m g t a (a + 16) n 16) : GotOk m g t r (a + 16) fs := by
  obtain ⟨h1, h2⟩ := hm
  rcases h2 with h2 | ⟨al, sz, fs', e1, e2, e3, e4, e5⟩
  · exact Or.inr (Or.inl ⟨n, 16, a, by omega, hf, h2⟩)
  · exact Or.inr (Or.inr ⟨al, sz, fs', a, e1, rfl, by omega, by rw [← e2]; exact hf, e3, e4, e5⟩)

/-- The end of doMalloc for a block of a bucket. -/
theorem finish_inv {s s1 : St} {g g1 : Gh} (i : Inv s g) {t h b a n : Nat} {fs : List Frame} (nf : s1.status = s.status)
    (c1 : Core s1 g1) (ha : g1.st a = some ⟨bs b, .home h b, .new t⟩) (hm : MalOk s.mem g t (s.cur t) n fs) (hn : n + 16 ≤ bs b)
    (hlive : s1.live = s.live) (hpc : s1.pc = s.pc) (hcur : s1.cur = s.cur) (hmgr : s1.mgr = s.mgr)
    (hl : ∀ t', t' ≠ t → ∀ h b, s.mgr t' = some h → s1.free h b = s.free h b ∧ (s.ret h b ≠ 0 → s1.ret h b ≠ 0))
    (hs : Same s.mem s1.mem g g1 (But t)) : Inv (finish s1 t h b a n fs) g1 := by
  obtain ⟨k1, k2, k3, k4, k5, k6⟩ := c1.kindOk ha
  have hn2 := hm.1
  have hout : ∀ x, x < a ∨ a + bs b ≤ x → store (store s1.mem a (homeAddr h b)) (a + 8) n x = s1.mem x := by
    intro x hx
    rw [store_out (by omega), store_out (by omega)]
  have hs2 : Same s.mem (store (store s1.mem a (homeAddr h b)) (a + 8) n) g g1 (But t) :=
    hs.trans (Same.block c1 ha (by simp [But]) hout (fun _ _ => rfl))
  have c2 : Core { s1 with mem := store (store s1.mem a (homeAddr h b)) (a + 8) n } g1 :=
    c1.setMemIn _ ha (by simp) (by simp) hout
  refine i.ofStep t ?_ { c2 with } hlive ?_ hcur hmgr hl (hs2.mono fun _ h => h.but) ?_
  · show s1.status ≠ _; rw [nf]; exact i.nofault
  · intro t' e; show upd s1.pc t _ t' = _; rw [upd_n e, hpc]
  · unfold PcOk
    simp only [finish, upd_same]
    refine ⟨by omega, ?_⟩
    rw [hcur]
    refine GotOk.ofMal (hm.same i.core hs2 (by simp [But])) ⟨bs b, .home h b, ha, ?_, ?_, ?_, by omega, by simp⟩
    · rw [load_store_ne (by omega), load_store (by simp only [base] at k2; omega)]; rfl
    · exact load_store (by omega)
    · exact { lt := by omega, al := by omega, a16 := by omega, two := Or.inl ⟨rfl, rfl⟩ }

/-- Lists of other heaps are not touched. -/
theorem other_heap {s : St} {g : Gh} (c : Core s g) {t t' h h' : Nat} (ht : s.mgr t = some h) (e : t' ≠ t) (ht' : s.mgr t' = some h') :
    h' ≠ h := by
  intro eh; subst eh; exact e (c.mgrInj _ _ _ ht' ht)

theorem doMal_inv {s s' : St} {g : Gh} (i : Inv s g) {t h n : Nat} {fs : List Frame} {ans : Option Nat} (ht : s.mgr t = some h)
    (hpc : s.pc t = .mal n fs) (e : doMal s t h n fs ans = some s') : ∃ g', Inv s' g' := by
  have c := i.core
  have hm : MalOk s.mem g t (s.cur t) n fs := by have := i.pcs t; unfold PcOk at this; rw [hpc] at this; exact this
  have hn := hm.1
  have htW : (n + 16) % W = n + 16 := Nat.mod_eq_of_lt (by omega)
  unfold doMal at e
  simp only [htW] at e
  split at e
  · -- a bucket
    rename_i hlt
    obtain ⟨b1, b2, _⟩ := bucketFor_spec (n := n + 16) c.maxB c.mm hlt
    split at e
    · rename_i h0
      obtain rfl := Option.some.inj e
      refine ⟨g, i.ofStep t i.nofault { c with } rfl ?_ rfl rfl (fun _ _ _ _ _ => ⟨rfl, id⟩) Same.refl ?_⟩
      · intro t' e; exact upd_n e
      · unfold PcOk
        simp only [upd_same]
        exact ⟨hm, b2, b1, h, ht, h0⟩
    · rename_i h0
      obtain rfl := Option.some.inj e
      obtain ⟨l, hl, hst, hc⟩ := c.freeHead h0
      refine ⟨_, finish_inv i rfl (c.pop (t := t) hl hst hc) (upd_same ..) hm b2 rfl rfl rfl rfl ?_ ?_⟩
      · intro t' et h' b' ht'
        have := other_heap c ht et ht'
        exact ⟨upd2_ne (fun e => this e.1), id⟩
      · exact Same.block c hst (by simp [But]) (fun _ _ => rfl) (fun x hx => upd_n hx)
  · split at e
    · rename_i hbig
      simp only [page] at hbig
      omega
    · -- mmap
      cases ans with
      | none =>
        obtain rfl := Option.some.inj e
        exact ⟨g, ⟨by simp, { c with }, i.live, fun t' => i.pcs t'⟩⟩
      | some a =>
        simp only at e
        split at e
        · exact absurd e (by simp)
        · rename_i hok
          obtain rfl := Option.some.inj e
          obtain ⟨f1, f2, f3⟩ := ceiling2_spec (n := n + 16) (al := page) (by decide) (by simp only [page, W] at *; omega)
          obtain ⟨len, hlen⟩ : ∃ len, ceiling2 (n + 16) page = len := ⟨_, rfl⟩
          rw [hlen] at f1 f2 f3 hok
          rw [hlen]
          simp only [not_or, ne_eq, Decidable.not_not, List.any_eq_true, Bool.and_eq_true, decide_eq_true_eq, not_exists, not_and, Nat.not_lt,
            page] at hok
          obtain ⟨g1, g2, g3, g4, g5⟩ := hok
          simp only [page] at f2 f3
          obtain ⟨hnone, c1⟩ := c.mmap (t := t) (a := a) (len := len) g2 f3 (by omega) (by omega) (by omega)
            (fun r hr hx => by have := g5 r hr hx.1; omega)
          have hown : ∀ x, a ≤ x → x < a + len → ∀ y, g.own x ≠ .blk y := by
            intro x h1 h2 y
            rw [c.mapsOwn x (by omega) fun r hr hx => by have := g5 r hr (by omega); omega]
            simp
          obtain ⟨mm, hmm⟩ : ∃ mm, store (store (memset s.mem a 0 len) a (len + 4)) (a + 8) n = mm := ⟨_, rfl⟩
          have hout : ∀ x, x < a ∨ a + len ≤ x → mm x = s.mem x := by
            intro x hx
            rw [← hmm, store_out (by omega), store_out (by omega), memset_out (by omega)]
          have hs2 : Same s.mem mm g _ (But t) :=
            Same.fresh c (a := a) hnone (g' := { g with st := upd g.st a (some ⟨len, .map, .new t⟩), own := setOwn g.own a (a + len) (.blk a) })
              (fun x ⟨y, hy⟩ => hout x (by
                by_cases e : a ≤ x ∧ x < a + len
                · exact absurd hy (hown x e.1 e.2 y)
                · omega)) (fun x hx => upd_n hx)
          have c2 := c1.setMemIn mm (upd_same ..) (by simp) (by simp) hout
          obtain ⟨k1, k2, k3, k4, k5, k6⟩ := c1.kindOk (a := a) (upd_same ..)
          refine ⟨_, i.ofStep t i.nofault { c2 with mapB := ?_, mapsOwn := ?_, flChain := ?_, rlChain := ?_ } rfl ?_ rfl rfl
            (fun _ _ _ _ _ => ⟨rfl, id⟩) (g' := { g with st := upd g.st a (some ⟨len, .map, .new t⟩), own := setOwn g.own a (a + len) (.blk a) }) ?_ ?_⟩
          · exact c2.mapB
          · exact c2.mapsOwn
          · rw [hmm]; exact c2.flChain
          · rw [hmm]; exact c2.rlChain
          · intro t' e; exact upd_n e
          · rw [hmm]; exact hs2.mono fun _ h => h.but
          · unfold PcOk
            simp only [upd_same, hmm]
            refine ⟨by omega, GotOk.ofMal (hm.same c hs2 (by simp [But])) ⟨len, .map, upd_same .., ?_, ?_, ?_, by omega, ?_⟩⟩
            · rw [← hmm, load_store_ne (by omega), load_store (by simp only [base] at k2; omega)]; rfl
            · rw [← hmm]; exact load_store (by omega)
            · exact { lt := by omega, al := by omega, a16 := by omega, two := Or.inl ⟨rfl, rfl⟩ }
            · intro _ j hj
              rw [← hmm, store_out (by omega), store_out (by omega), memset_in (by omega) (by omega)]

theorem doPull_inv {s : St} {g : Gh} (i : Inv s g) {t h b n : Nat} {fs : List Frame} (ht : s.mgr t = some h)
    (hpc : s.pc t = .pull n b fs) : ∃ g', Inv (doPull s t h b n fs) g' := by
  have c := i.core
  have hp := i.pcs t
  unfold PcOk at hp
  rw [hpc] at hp
  obtain ⟨hm, b2, b1, h', ht', h0, h1⟩ := hp
  rw [ht] at ht'
  obtain rfl := Option.some.inj ht'
  obtain ⟨l, hl, hst, hc⟩ := c.retHead h1
  have hnd := c.rlNodup h b
  rw [hl] at hnd
  refine ⟨_, finish_inv i rfl (c.pullList (t := t) hl hc h0) (by simp [pulled]) hm b2 rfl rfl rfl rfl ?_ ?_⟩
  · intro t' et h' b' ht'
    have := other_heap c ht et ht'
    refine ⟨upd2_ne (fun e => this e.1), fun hr => ?_⟩
    show upd2 s.ret h b 0 h' b' ≠ 0
    rw [upd2_ne (fun e => this e.1)]
    exact hr
  · intro a B ha hP
    refine ⟨?_, fun _ _ _ => rfl⟩
    show pulled g.st h b _ t l a = some B
    unfold pulled
    rw [if_neg, if_neg]
    · exact ha
    · intro hx
      have : g.st a = some ⟨bs b, .home h b, .ret⟩ := by rw [← c.rlMem, hl]; exact List.mem_cons_of_mem _ hx
      rw [ha] at this
      obtain rfl := Option.some.inj this
      simp [But] at hP
    · intro hx
      subst hx
      rw [hst] at ha
      obtain rfl := Option.some.inj ha
      simp [But] at hP

theorem upd_upd {α : Type} {f : Nat → α} {a : Nat} {v w : α} : upd (upd f a v) a w = upd f a w := by
  funext x; simp only [upd]; split <;> rfl

/-- The remaining reserve goes to a free list. -/
theorem drop_core {s : St} {g : Gh} (c : Core s g) {t h size : Nat} (ht : s.mgr t = some h) (hlt : s.rsv h < size) (hsz : size ≤ 4194320) :
    ∃ g1 buf rsv, Core { dropReserve s h with buf := buf, rsv := rsv } g1 ∧ (∀ x, x ≠ h → buf x = s.buf x ∧ rsv x = s.rsv x) ∧
      Same s.mem (dropReserve s h).mem g g1 (But t) ∧
      (∀ h' b, h' ≠ h → (dropReserve s h).free h' b = s.free h' b) := by
  unfold dropReserve
  simp only
  split
  · rename_i hge
    have hb0 : bs 0 = 32 := by decide
    have hrem : s.rsv h % 2 ^ 32 = s.rsv h := Nat.mod_eq_of_lt (by omega)
    rw [hrem] at hge
    obtain ⟨p1, p2, p3⟩ := bsearchl_spec (key := s.rsv h) (dim := s.maxB) (by omega) (by have := c.maxB; omega)
    obtain ⟨b0, hb0e⟩ : ∃ b0, bsearchl (s.rsv h) s.maxB = b0 := ⟨_, rfl⟩
    rw [hb0e] at p1 p2 p3
    rw [hb0e]
    have hmaxB := c.maxB
    obtain ⟨b, hbe⟩ : ∃ b, (if bs b0 > s.rsv h then b0 - 1 else b0) = b := ⟨_, rfl⟩
    rw [hbe]
    have hb : b ≤ 90 ∧ bs b ≤ s.rsv h := by
      rw [← hbe]
      split
      · rename_i hgt
        rcases Nat.eq_zero_or_pos b0 with e | e
        · rw [e, hb0] at hgt; omega
        · have := p2 (b0 - 1) (by omega)
          exact ⟨by omega, by omega⟩
      · exact ⟨by omega, by omega⟩
    obtain ⟨hnone, c1⟩ := c.carve (h := h) (b := b) (t := t) hb.1 (c.mgrLt t h ht) hb.2
    have hbuf : (s.buf h) % 16 = 0 := (c.rsv16 h).1
    have hre := c.rsvEnd h (by omega)
    have hbsf := bs_facts hb.1
    have c2 := c1.pushFree (a := s.buf h) (tot := bs b) (h := h) (b := b) (upd_same ..) (by simp) (c1.freeLt h b)
    refine ⟨_, upd s.buf h (s.buf h + bs b), upd s.rsv h (s.rsv h - bs b), c2, ?_, ?_, ?_⟩
    · intro x hx; exact ⟨upd_n hx, upd_n hx⟩
    · refine Same.fresh c hnone (fun x ⟨y, hy⟩ => store_out ?_) (fun x hx => ?_)
      · by_cases e : s.buf h ≤ x ∧ x < s.buf h + 8
        · have := c.rsvOwn h x e.1 (by omega)
          rw [hy] at this
          exact absurd this (by simp)
        · omega
      · show upd (upd g.st _ _) _ _ x = _
        rw [upd_n hx, upd_n hx]
    · intro h' b' e
      exact upd2_ne (fun x => e x.1)
  · exact ⟨g, s.buf, s.rsv, { c with }, fun _ _ => ⟨rfl, rfl⟩, Same.refl, fun _ _ _ => rfl⟩

theorem dropReserve_fields (s : St) (h : Nat) : (dropReserve s h).status = s.status ∧ (dropReserve s h).live = s.live ∧
    (dropReserve s h).pc = s.pc ∧ (dropReserve s h).cur = s.cur ∧ (dropReserve s h).mgr = s.mgr ∧ (dropReserve s h).ret = s.ret ∧
    (dropReserve s h).heapEnd = s.heapEnd ∧ (dropReserve s h).heapRem = s.heapRem ∧ (dropReserve s h).expand = s.expand ∧
    (dropReserve s h).buf = s.buf ∧ (dropReserve s h).rsv = s.rsv ∧ (dropReserve s h).heaps = s.heaps := by
  unfold dropReserve
  simp only
  split <;> simp

theorem funext_upd {α : Type} {f f' : Nat → α} {h : Nat} {v : α} (hf : ∀ x, x ≠ h → f' x = f x) : upd f' h v = upd f h v := by
  funext x
  by_cases e : x = h
  · subst e; simp
  · rw [upd_n e, upd_n e, hf x e]

theorem doExt_inv {s : St} {g : Gh} (i : Inv s g) {t h b n : Nat} {fs : List Frame} {grant : Bool} (ht : s.mgr t = some h)
    (hpc : s.pc t = .ext n b fs) (hexp : s.expand < 2 ^ 62) : ∃ g', Inv (doExt s t h b n fs grant) g' := by
  have c := i.core
  have hp := i.pcs t
  unfold PcOk at hp
  rw [hpc] at hp
  obtain ⟨hm, b2, b1, h', ht', h0⟩ := hp
  rw [ht] at ht'
  obtain rfl := Option.some.inj ht'
  have hbs := bs_facts b1
  unfold doExt
  simp only
  split
  · rename_i hlt
    obtain ⟨g1, bu, rs, c1, hbr, hs1, hfr⟩ := drop_core c (t := t) ht hlt hbs.2.2
    obtain ⟨d1, d2, d3, d4, d5, d6, d7, d8, d9, d10, d11, d12⟩ := dropReserve_fields s h
    obtain ⟨s1, hs1e⟩ : ∃ s1, dropReserve s h = s1 := ⟨_, rfl⟩
    rw [hs1e] at c1 hs1 hfr d1 d2 d3 d4 d5 d6 d7 d8 d9 d10 d11 d12
    rw [hs1e]
    obtain ⟨inc, hince⟩ : ∃ inc, ceiling2 (if bs b > s1.expand / 10 then bs b else s1.expand / 10) 16 = inc := ⟨_, rfl⟩
    have hinc : bs b ≤ inc ∧ inc % 16 = 0 := by
      rw [← hince]
      obtain ⟨f1, f2, f3⟩ := ceiling2_spec (n := if bs b > s1.expand / 10 then bs b else s1.expand / 10) (al := 16) (by omega)
        (by simp only [W]; split <;> omega)
      refine ⟨?_, f3⟩
      split at f1 <;> rename_i hh
      · rw [if_pos hh]; exact f1
      · rw [if_neg hh]; omega
    rw [hince]
    -- the storage of the master
    have hme : ∀ a s2, masterExtend s1 inc grant = some (a, s2) → a = s1.heapEnd ∧ ∃ rem, s1.heapEnd + inc + rem ≤ sbrkLimit ∧
        s2 = { s1 with heapRem := rem, heapEnd := s1.heapEnd + inc } := by
      intro a s2 he
      unfold masterExtend at he
      by_cases hr : s1.heapRem < inc
      · rw [if_pos hr] at he
        dsimp only at he
        by_cases hg : (grant && (s1.heapEnd + s1.heapRem) % page == 0 && s1.heapEnd + s1.heapRem + ceiling2 (if inc > s1.expand then inc else s1.expand) 16 ≤ sbrkLimit) = true
        · rw [if_pos hg] at he
          simp only [Bool.and_eq_true, decide_eq_true_eq] at hg
          simp only [Option.some.injEq, Prod.mk.injEq] at he
          obtain ⟨f1, f2, f3⟩ := ceiling2_spec (n := if inc > s1.expand then inc else s1.expand) (al := 16) (by omega)
            (by
              have : inc ≤ 2 ^ 63 := by
                rw [← hince]
                obtain ⟨f1, f2, f3⟩ := ceiling2_spec (n := if bs b > s1.expand / 10 then bs b else s1.expand / 10) (al := 16) (by omega)
                  (by simp only [W]; split <;> omega)
                split at f2 <;> rename_i hh
                · rw [if_pos hh]; omega
                · rw [if_neg hh]; omega
              simp only [W]; split <;> omega)
          refine ⟨he.1.symm, _, ?_, he.2.symm⟩
          split at f1 <;> rename_i hh
          · rw [if_pos hh] at hg ⊢; omega
          · rw [if_neg hh] at hg ⊢; omega
        · rw [if_neg hg] at he; exact absurd he (by simp)
      · rw [if_neg hr] at he
        simp only [Option.some.injEq, Prod.mk.injEq] at he
        refine ⟨he.1.symm, _, ?_, he.2.symm⟩
        have := c1.endLim
        simp only at this
        omega
    cases hmx : masterExtend s1 inc grant with
    | none => exact ⟨g, ⟨by simp, { c with }, i.live, fun t' => i.pcs t'⟩⟩
    | some as =>
      obtain ⟨a, s2⟩ := as
      obtain ⟨rfl, rem, hrem, rfl⟩ := hme a s2 hmx
      simp only
      have c2 := c1.extend (h := h) (inc := inc) (rem := rem) hinc.2 hrem
      obtain ⟨hnone, c3⟩ := c2.carve (h := h) (b := b) (t := t) b1 (by
          show h < s1.heaps; rw [d12]; exact c.mgrLt t h ht) (by
          show bs b ≤ upd _ h inc h; rw [upd_same]; exact hinc.1)
      have e1 : upd s1.buf h (s1.heapEnd + bs b) = upd (upd bu h s1.heapEnd) h (s1.heapEnd + bs b) := by
        rw [upd_upd, funext_upd (fun x hx => (hbr x hx).1), d10]
      have e2 : upd s1.rsv h (inc - bs b) = upd (upd rs h inc) h (inc - bs b) := by
        rw [upd_upd, funext_upd (fun x hx => (hbr x hx).2), d11]
      rw [e1, e2]
      simp only [upd_same] at c3 hnone
      refine ⟨_, finish_inv i ?_ { c3 with } (upd_same ..) hm b2 d2 d3 d4 d5 ?_ ?_⟩
      · exact d1
      · intro t' et h2 b' ht'
        have := other_heap c ht et ht'
        refine ⟨hfr _ _ this, ?_⟩
        show _ → s1.ret h2 b' ≠ 0
        rw [d6]; exact id
      · refine hs1.trans ?_
        refine Same.fresh c1 (a := s1.heapEnd) ?_ (fun _ _ => rfl) (fun x hx => upd_n hx)
        exact hnone
  · rename_i hge
    obtain ⟨hnone, c1⟩ := c.carve (h := h) (b := b) (t := t) b1 (c.mgrLt t h ht) (by omega)
    refine ⟨_, finish_inv i rfl c1 (upd_same ..) hm b2 rfl rfl rfl rfl (fun _ _ _ _ _ => ⟨rfl, id⟩) ?_⟩
    exact Same.fresh c hnone (fun _ _ => rfl) (fun x hx => upd_n hx)

end Verif.HeapAlloc
