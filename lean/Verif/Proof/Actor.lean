import Verif.Model.Actor
import Verif.Proof.Heap
/-! Lemmas about the actor model. -/
namespace Verif.Actor
open Verif

/-! ### Ranges -/

theorem begin_eq (c : Cfg) (i : Nat) : begin c i = i * (c.nr / c.nw) + min i (c.nr % c.nw) := by
  induction i with
  | zero => simp [begin]
  | succ i ih =>
    rw [begin, ih, range, Nat.succ_mul]
    split <;> omega

theorem begin_mono (c : Cfg) {i j : Nat} (h : i < j) : begin c i + range c i ≤ begin c j := by
  induction j with
  | zero => omega
  | succ j ih =>
    rw [begin]
    rcases Nat.lt_or_eq_of_le (Nat.le_of_lt_succ h) with h | h
    · have := ih h; omega
    · subst h; exact Nat.le_refl _

theorem begin_all (c : Cfg) (h : 0 < c.nw) : begin c c.nw = c.nr := by
  rw [begin_eq, Nat.min_eq_right (Nat.le_of_lt (Nat.mod_lt _ h))]
  exact Nat.div_add_mod c.nr c.nw

theorem victim_eq (c : Cfg) (v : Nat) : victim c v = (begin c v, range c v) := by
  unfold victim
  simp only [begin_eq, range]
  by_cases h : v < c.nr % c.nw
  · rw [if_pos h, if_pos h, Nat.min_eq_left (Nat.le_of_lt h), Nat.mul_comm, Nat.mul_succ]
  · rw [if_neg h, if_neg h, Nat.min_eq_right (by omega)]
    simp only [Nat.add_zero, Prod.mk.injEq, and_true]; omega

theorem range_own (c : Cfg) {w w' m : Nat} (h1 : begin c w ≤ m) (h2 : m < begin c w + range c w) (h3 : begin c w' ≤ m)
    (h4 : m < begin c w' + range c w') : w = w' := by
  rcases Nat.lt_trichotomy w w' with h | h | h
  · have := begin_mono c h; omega
  · exact h
  · have := begin_mono c h; omega

theorem range_lt (c : Cfg) {w i : Nat} (hw : w < c.nw) (hi : i < range c w) : begin c w + i < c.nr := by
  have h1 := begin_all c (by omega)
  have h2 := begin_mono c hw
  omega

/-! ### Copy queues -/

def view (x : CQ) : List (Option Req) := (x.buf.drop x.index).take x.count

structure Good (x : CQ) : Prop where
  idx : x.index = 0
  cnt : x.count ≤ x.buf.length
  pos : 1 ≤ x.buf.length

structure GoodL (x : CQ) : Prop where
  cnt : x.index + x.count ≤ x.buf.length
  pos : 1 ≤ x.buf.length
  emp : x.count = 0 → x.index = 0

theorem Good.toL {x : CQ} (h : Good x) : GoodL x := ⟨by rw [h.idx, Nat.zero_add]; exact h.cnt, h.pos, fun _ => h.idx⟩

theorem view_nil {x : CQ} (h : x.count = 0) : view x = [] := by simp [view, h]

theorem view_length {x : CQ} (h : x.index + x.count ≤ x.buf.length) : (view x).length = x.count := by
  simp only [view, List.length_take, List.length_drop]; omega

theorem insert_spec {x : CQ} (h : Good x) (r : Req) :
    ∃ y, x.insert r = .ret y ∧ Good y ∧ view y = view x ++ [some r] ∧ y.count = x.count + 1 := by
  have hg : ∃ y, x.grow = y ∧ y.index = 0 ∧ y.count = x.count ∧ x.count < y.buf.length ∧ y.buf.take x.count = x.buf.take x.count := by
    refine ⟨_, rfl, ?_⟩
    unfold CQ.grow
    have h1 := h.cnt
    have h2 := h.pos
    split
    · refine ⟨h.idx, rfl, ?_, ?_⟩
      · simp only [List.length_append, List.length_replicate]; omega
      · rw [List.take_append_of_le_length h1]
    · exact ⟨h.idx, rfl, by omega, rfl⟩
  obtain ⟨y, hy, h1, h2, h3, h4⟩ := hg
  refine ⟨{ y with buf := y.buf.set y.count (some r), count := y.count + 1 }, ?_, ⟨h1, ?_, ?_⟩, ?_, ?_⟩
  · unfold CQ.insert; simp only [hy]; rw [if_pos (by omega)]
  · simp only [List.length_set]; omega
  · simp only [List.length_set]; omega
  · simp only [view, h1, h.idx, List.drop_zero, h2]
    rw [List.take_add_one, List.take_set_of_le (Nat.le_refl _), h4]
    simp [h3]
  · simp only [h2]

theorem remove_spec {x : CQ} (h : GoodL x) (hc : x.count ≠ 0) {o : Option Req} {l : List (Option Req)} (hv : view x = o :: l) :
    (∃ r, o = some r) → ∃ r y, o = some r ∧ x.remove = .ret (some r, y) ∧ GoodL y ∧ view y = l ∧ y.count = x.count - 1 := by
  rintro ⟨r, rfl⟩
  have h1 := h.cnt
  have hb : x.buf[x.index]? = some (some r) := by
    have : (view x)[0]? = some (some r) := by rw [hv]; rfl
    unfold view at this
    rw [List.getElem?_take_of_lt (by omega), List.getElem?_drop] at this
    simpa using this
  have hd : x.buf.drop x.index = some r :: x.buf.drop (x.index + 1) := by
    rw [List.drop_eq_getElem_cons (by omega)]
    congr 1
    rw [List.getElem?_eq_getElem (by omega)] at hb
    exact Option.some.inj hb
  obtain ⟨n, hn⟩ : ∃ n, x.count = n + 1 := ⟨x.count - 1, by omega⟩
  have hl : l = (x.buf.drop (x.index + 1)).take n := by
    unfold view at hv
    rw [hd, hn, List.take_succ_cons] at hv
    exact (List.cons.inj hv).2.symm
  refine ⟨r, { x with count := x.count - 1, index := if x.count - 1 = 0 then 0 else x.index + 1 }, rfl, ?_, ⟨?_, h.pos, ?_⟩, ?_, rfl⟩
  · unfold CQ.remove; rw [if_pos (by omega), hb]
  · simp only; split <;> omega
  · simp only; intro h; rw [if_pos h]
  · rw [hl]
    simp only [view, hn, Nat.add_sub_cancel]
    split
    · next h0 => rw [h0]; simp
    · rfl

theorem reclaim_spec {x : CQ} (h : GoodL x) (hc : x.count = 0) : GoodL x.reclaim ∧ x.reclaim.count = 0 := by
  unfold CQ.reclaim
  have h1 := h.emp hc
  have h2 := h.pos
  split
  · exact ⟨⟨h.cnt, h.pos, h.emp⟩, hc⟩
  · refine ⟨⟨?_, ?_, fun _ => h1⟩, hc⟩
    · simp only [List.length_take]; omega
    · simp only [List.length_take]; omega

/-! ### Mailboxes -/

/-- The mailbox that a worker empties. -/
def dr : Pc → Nat → Option Nat
  | .chk q, n => if n = 0 then none else some q
  | .drain q, _ | .running q _, _ | .fin q, _ => some q
  | _, _ => none

/-- The requests for actors of mailbox `q`. -/
def flt (c : Cfg) (l : List Req) (q : Nat) : List (Option Req) := (l.filter (fun r => c.ticket r.rcv = q)).map some

theorem flt_append (c : Cfg) (l l' : List Req) (q : Nat) : flt c (l ++ l') q = flt c l q ++ flt c l' q := by simp [flt]

theorem flt_one (c : Cfg) (r : Req) (q : Nat) : flt c [r] q = if c.ticket r.rcv = q then [some r] else [] := by
  simp only [flt, List.filter_cons, List.filter_nil]; split <;> simp_all

theorem mem_flt {c : Cfg} {l : List Req} {q : Nat} {o : Option Req} (h : o ∈ flt c l q) : ∃ r, o = some r ∧ c.ticket r.rcv = q := by
  simp only [flt, List.mem_map, List.mem_filter, decide_eq_true_eq] at h
  obtain ⟨r, ⟨_, h1⟩, h2⟩ := h
  exact ⟨r, h2.symm, h1⟩

structure InvM (c : Cfg) (s : State) : Prop where
  inj1 : ∀ q q', s.cur q = s.cur q' → q = q'
  inj2 : ∀ w w', s.loc w = s.loc w' → w = w'
  inj3 : ∀ q w, s.cur q ≠ s.loc w
  good : ∀ q, Good (s.cq (s.cur q))
  goodL : ∀ w, GoodL (s.cq (s.loc w))
  idle : ∀ w, dr (s.pc w) (s.cq (s.loc w)).count = none → (s.cq (s.loc w)).count = 0
  fin0 : ∀ w q, s.pc w = .fin q → (s.cq (s.loc w)).count = 0
  prc : ∀ q, s.proc q = true → ∃ w, dr (s.pc w) (s.cq (s.loc w)).count = some q
  prd : ∀ w q, dr (s.pc w) (s.cq (s.loc w)).count = some q → s.proc q = true
  unq : ∀ w w' q, dr (s.pc w) (s.cq (s.loc w)).count = some q → dr (s.pc w') (s.cq (s.loc w')).count = some q → w = w'
  eqN : ∀ q, s.proc q = false → flt c s.sent q = flt c s.dlv q ++ view (s.cq (s.cur q))
  eqD : ∀ w q, dr (s.pc w) (s.cq (s.loc w)).count = some q →
    flt c s.sent q = flt c s.dlv q ++ view (s.cq (s.loc w)) ++ view (s.cq (s.cur q))

theorem InvM.start {c : Cfg} (h : 1 ≤ c.bufSize) : InvM c (start c) := by
  have hg : Good (CQ.new c.bufSize) := ⟨rfl, by simp [CQ.new], by simpa [CQ.new] using h⟩
  refine ⟨?_, ?_, ?_, fun _ => hg, fun _ => hg.toL, fun _ _ => rfl, fun _ _ h => (by cases h), fun _ h => (by cases h),
    fun _ _ h => (by cases h), fun _ _ _ h => (by cases h), fun q _ => (by simp [Actor.start, flt, view, CQ.new]), fun _ _ h => (by cases h)⟩
  · intro q q' h; simp only [Actor.start] at h; omega
  · intro q q' h; simp only [Actor.start] at h; omega
  · intro q w; simp only [Actor.start]; omega

/-- Steps that move a worker between places where it empties nothing. -/
theorem InvM.move {c : Cfg} {s : State} (iv : InvM c s) {w : Nat} {p : Pc} (sl : Nat → Option Nat)
    (h : dr p (s.cq (s.loc w)).count = dr (s.pc w) (s.cq (s.loc w)).count) (hf : ∀ q, p = .fin q → (s.cq (s.loc w)).count = 0) :
    InvM c { s with slot := sl, pc := upd s.pc w p } := by
  have hd : ∀ u, dr (upd s.pc w p u) (s.cq (s.loc u)).count = dr (s.pc u) (s.cq (s.loc u)).count := by
    intro u; simp only [upd]; split
    · next e => rw [e]; exact h
    · rfl
  refine ⟨iv.inj1, iv.inj2, iv.inj3, iv.good, iv.goodL, ?_, ?_, ?_, ?_, ?_, iv.eqN, ?_⟩ <;> simp only [hd]
  · exact iv.idle
  · intro u q
    simp only [upd]; split
    · next e => rw [e]; exact hf q
    · exact iv.fin0 u q
  · exact iv.prc
  · exact iv.prd
  · exact iv.unq
  · exact iv.eqD

theorem InvM.deposit {c : Cfg} {s : State} (iv : InvM c s) (r : Req) (hb : s.bad = false) :
    InvM c (deposit s (c.ticket r.rcv) r) ∧ (deposit s (c.ticket r.rcv) r).bad = false := by
  obtain ⟨y, h1, h2, h3, h4⟩ := insert_spec (iv.good (c.ticket r.rcv)) r
  unfold Actor.deposit
  rw [h1]
  refine ⟨?_, hb⟩
  have hl : ∀ w, upd s.cq (s.cur (c.ticket r.rcv)) y (s.loc w) = s.cq (s.loc w) := by
    intro w; simp only [upd]; rw [if_neg (Ne.symm (iv.inj3 _ w))]
  have hc : ∀ q, upd s.cq (s.cur (c.ticket r.rcv)) y (s.cur q) = if q = c.ticket r.rcv then y else s.cq (s.cur q) := by
    intro q; simp only [upd]
    by_cases e : q = c.ticket r.rcv
    · simp [e]
    · rw [if_neg (fun h => e (iv.inj1 _ _ h)), if_neg e]
  refine ⟨iv.inj1, iv.inj2, iv.inj3, ?_, ?_, ?_, ?_, ?_, ?_, ?_, ?_, ?_⟩ <;> simp only [hl, hc]
  · intro q; split
    · exact h2
    · exact iv.good q
  · exact iv.goodL
  · exact iv.idle
  · exact iv.fin0
  · exact iv.prc
  · exact iv.prd
  · exact iv.unq
  · intro q hq
    have := iv.eqN q hq
    rw [flt_append, flt_one, this]
    split
    · next e => subst e; rw [if_pos rfl, h3, List.append_assoc]
    · next e => rw [if_neg (Ne.symm e), List.append_nil]
  · intro w q hq
    have := iv.eqD w q hq
    rw [flt_append, flt_one, this]
    split
    · next e => subst e; rw [if_pos rfl, h3]; simp
    · next e => rw [if_neg (Ne.symm e), List.append_nil]

theorem InvM.transfer {c : Cfg} {s : State} (iv : InvM c s) {w q : Nat} (hp : s.pc w = .got q) :
    InvM c { transfer s w q with pc := upd s.pc w (.chk q) } := by
  have h0 : (s.cq (s.loc w)).count = 0 := iv.idle w (by rw [hp]; rfl)
  unfold Actor.transfer
  split
  · exact iv.move s.slot (by rw [hp, h0]; rfl) (by intro q h; cases h)
  · next hpr =>
    have hpr : s.proc q = false := by simpa using hpr
    generalize hx : ({ s.cq (s.cur q) with utilized := (s.cq (s.cur q)).count } : CQ) = x
    have hxc : x.count = (s.cq (s.cur q)).count := by rw [← hx]
    have hxv : view x = view (s.cq (s.cur q)) := by rw [← hx]; rfl
    have hxg : Good x := by have := iv.good q; rw [← hx]; exact ⟨this.idx, this.cnt, this.pos⟩
    have hl : ∀ u, upd s.cq (s.cur q) x (upd s.loc w (s.cur q) u) = if u = w then x else s.cq (s.loc u) := by
      intro u
      by_cases e : u = w
      · simp [e]
      · have : upd s.loc w (s.cur q) u = s.loc u := by simp [upd, e]
        rw [this, if_neg e]; simp only [upd]; rw [if_neg (Ne.symm (iv.inj3 q u))]
    have hc : ∀ q', upd s.cq (s.cur q) x (upd s.cur q (s.loc w) q') = if q' = q then s.cq (s.loc w) else s.cq (s.cur q') := by
      intro q'
      by_cases e : q' = q
      · subst e; rw [upd_same, if_pos rfl]; simp only [upd]; rw [if_neg (Ne.symm (iv.inj3 q' w))]
      · have : upd s.cur q (s.loc w) q' = s.cur q' := by simp [upd, e]
        rw [this, if_neg e]; simp only [upd]; rw [if_neg (fun h => e (iv.inj1 _ _ h))]
    have hwq : ∀ u, dr (s.pc u) (s.cq (s.loc u)).count ≠ some q := by
      intro u hu; rw [iv.prd u q hu] at hpr; cases hpr
    have hd : ∀ u q', dr (upd s.pc w (.chk q) u) (if u = w then x else s.cq (s.loc u)).count = some q' ↔
        (u = w ∧ q' = q ∧ x.count ≠ 0) ∨ (u ≠ w ∧ dr (s.pc u) (s.cq (s.loc u)).count = some q') := by
      intro u q'
      by_cases e : u = w
      · subst e; simp only [upd_same, if_true, dr]; grind
      · simp only [upd, if_neg e]; simp [e]
    have hdw : dr (s.pc w) (s.cq (s.loc w)).count = none := by rw [hp]; rfl
    refine ⟨?_, ?_, ?_, ?_, ?_, ?_, ?_, ?_, ?_, ?_, ?_, ?_⟩ <;> simp only [hl, hc, hd]
    · intro a b h; simp only [upd] at h
      have := iv.inj1 a b; have h3 := iv.inj3 a w; have h4 := iv.inj3 b w
      split at h <;> split at h <;> simp_all
    · intro a b h; simp only [upd] at h
      have := iv.inj2 a b; have h3 := iv.inj3 q a; have h4 := iv.inj3 q b
      split at h <;> split at h <;> simp_all
    · intro a b; simp only [upd]
      have h1 := iv.inj3 a b; have h2 := iv.inj1 a q; have h3 := iv.inj2 w b; have h4 := iv.inj3 q w
      split <;> split <;> grind
    · intro a; split
      · have := iv.goodL w; exact ⟨this.emp h0, by rw [h0]; omega, this.pos⟩
      · exact iv.good a
    · intro a; split
      · exact hxg.toL
      · exact iv.goodL a
    · intro u; simp only [upd]
      split
      · simp only [dr]; split <;> simp_all
      · exact iv.idle u
    · intro u q' h; simp only [upd] at h
      split at h
      · cases h
      · next e => rw [if_neg e]; exact iv.fin0 u q' h
    · intro q' h; simp only [upd] at h
      split at h
      · next e => exact ⟨w, Or.inl ⟨rfl, e, by simpa [hxc] using h⟩⟩
      · obtain ⟨u, hu⟩ := iv.prc q' h
        refine ⟨u, Or.inr ⟨?_, hu⟩⟩
        rintro rfl; rw [hdw] at hu; cases hu
    · rintro u q' (⟨_, rfl, h⟩ | ⟨_, h⟩)
      · simpa [← hxc] using h
      · simp only [upd]; split
        · next e => subst e; exact (hwq u h).elim
        · exact iv.prd u q' h
    · rintro u u' q' (⟨rfl, rfl, h⟩ | ⟨h1, h⟩) (⟨rfl, h2, h'⟩ | ⟨h2, h'⟩)
      · rfl
      · exact (hwq _ h').elim
      · subst h2; exact (hwq _ h).elim
      · exact iv.unq u u' q' h h'
    · intro q' h
      by_cases e : q' = q
      · subst e
        simp only [upd_same, decide_eq_false_iff_not, ne_eq, Decidable.not_not] at h
        rw [if_pos rfl, view_nil h0, iv.eqN q' hpr, view_nil h]
      · rw [if_neg e]; simp only [upd, if_neg e] at h; exact iv.eqN q' h
    · rintro u q' (⟨rfl, rfl, h⟩ | ⟨h1, h⟩)
      · rw [if_pos rfl, if_pos rfl, hxv, view_nil h0, List.append_nil]; exact iv.eqN q' hpr
      · rw [if_neg h1]
        have : q' ≠ q := by rintro rfl; exact hwq u h
        rw [if_neg this]; exact iv.eqD u q' h

theorem InvM.remove {c : Cfg} {s : State} (iv : InvM c s) {w q : Nat} (hp : s.pc w = .drain q) (hn : (s.cq (s.loc w)).count ≠ 0) :
    ∃ r x, (s.cq (s.loc w)).remove = .ret (some r, x) ∧ c.ticket r.rcv = q ∧
      InvM c { s with cq := upd s.cq (s.loc w) x, pc := upd s.pc w (.running q r), dlv := s.dlv ++ [r] } := by
  have hdw : dr (s.pc w) (s.cq (s.loc w)).count = some q := by rw [hp]; rfl
  have he := iv.eqD w q hdw
  have hlen := view_length (iv.goodL w).cnt
  cases hv : view (s.cq (s.loc w)) with
  | nil => rw [hv] at hlen; exact (hn hlen.symm).elim
  | cons o l =>
    have hmem : o ∈ flt c s.sent q := by rw [he, hv]; simp
    obtain ⟨r0, hr0, ht⟩ := mem_flt hmem
    obtain ⟨r, y, hr, h1, h2, h3, h4⟩ := remove_spec (iv.goodL w) hn hv ⟨r0, hr0⟩
    have : r0 = r := by rw [hr] at hr0; exact (Option.some.inj hr0).symm
    subst this
    refine ⟨r0, y, h1, ht, ?_⟩
    have hl : ∀ u, upd s.cq (s.loc w) y (s.loc u) = if u = w then y else s.cq (s.loc u) := by
      intro u; simp only [upd]
      by_cases e : u = w
      · simp [e]
      · rw [if_neg (fun h => e (iv.inj2 _ _ h)), if_neg e]
    have hc : ∀ a, upd s.cq (s.loc w) y (s.cur a) = s.cq (s.cur a) := by
      intro a; simp only [upd]; rw [if_neg (iv.inj3 a w)]
    have hd : ∀ u, dr (upd s.pc w (.running q r0) u) (if u = w then y else s.cq (s.loc u)).count = dr (s.pc u) (s.cq (s.loc u)).count := by
      intro u
      by_cases e : u = w
      · subst e; simp only [upd_same, if_true]; rw [hdw]; rfl
      · simp only [upd, if_neg e]
    refine ⟨iv.inj1, iv.inj2, iv.inj3, ?_, ?_, ?_, ?_, ?_, ?_, ?_, ?_, ?_⟩ <;> simp only [hl, hc, hd]
    · exact iv.good
    · intro u; split
      · exact h2
      · exact iv.goodL u
    · intro u hu
      by_cases e : u = w
      · subst e; rw [hdw] at hu; cases hu
      · rw [if_neg e]; exact iv.idle u hu
    · intro u q' h; simp only [upd] at h
      split at h
      · cases h
      · next e => rw [if_neg e]; exact iv.fin0 u q' h
    · exact iv.prc
    · exact iv.prd
    · exact iv.unq
    · intro q' h
      have hne : c.ticket r0.rcv ≠ q' := by rintro rfl; rw [ht] at h; rw [iv.prd w q hdw] at h; cases h
      rw [flt_append, flt_one, if_neg hne, List.append_nil]; exact iv.eqN q' h
    · intro u q' h
      by_cases e : u = w
      · subst e
        rw [hdw] at h; cases h
        rw [if_pos rfl, flt_append, flt_one, if_pos ht, he, hv, h3, hr]
        simp
      · have hne : q' ≠ q := by rintro rfl; exact e (iv.unq u w q' h hdw)
        rw [if_neg e, flt_append, flt_one, if_neg (by rw [ht]; exact Ne.symm hne), List.append_nil]
        exact iv.eqD u q' h

theorem InvM.finish {c : Cfg} {s : State} (iv : InvM c s) {w q : Nat} (hp : s.pc w = .fin q) :
    InvM c { s with proc := upd s.proc q false, pc := upd s.pc w .recl } := by
  have h0 := iv.fin0 w q hp
  have hdw : dr (s.pc w) (s.cq (s.loc w)).count = some q := by rw [hp]; rfl
  have hd : ∀ u q', dr (upd s.pc w .recl u) (s.cq (s.loc u)).count = some q' ↔ u ≠ w ∧ dr (s.pc u) (s.cq (s.loc u)).count = some q' := by
    intro u q'
    by_cases e : u = w
    · subst e; simp [dr]
    · simp [upd, e]
  refine ⟨iv.inj1, iv.inj2, iv.inj3, iv.good, iv.goodL, ?_, ?_, ?_, ?_, ?_, ?_, ?_⟩ <;> simp only [hd]
  · intro u hu
    by_cases e : u = w
    · rw [e]; exact h0
    · simp only [upd, if_neg e] at hu; exact iv.idle u hu
  · intro u q' h; simp only [upd] at h
    split at h
    · cases h
    · exact iv.fin0 u q' h
  · intro q' h; simp only [upd] at h
    split at h
    · cases h
    · next e =>
      obtain ⟨u, hu⟩ := iv.prc q' h
      refine ⟨u, ?_, hu⟩
      rintro rfl; rw [hdw] at hu; cases hu; exact e rfl
  · rintro u q' ⟨h1, h2⟩
    simp only [upd]; split
    · next e => subst e; exact (h1 (iv.unq u w q' h2 hdw)).elim
    · exact iv.prd u q' h2
  · rintro u u' q' ⟨_, h⟩ ⟨_, h'⟩; exact iv.unq u u' q' h h'
  · intro q' h
    by_cases e : q' = q
    · subst e
      have := iv.eqD w q' hdw
      rw [view_nil h0, List.append_nil] at this; exact this
    · simp only [upd, if_neg e] at h; exact iv.eqN q' h
  · rintro u q' ⟨_, h⟩; exact iv.eqD u q' h

theorem InvM.reclaim {c : Cfg} {s : State} (iv : InvM c s) {w : Nat} (hp : s.pc w = .recl) :
    InvM c { s with cq := upd s.cq (s.loc w) (s.cq (s.loc w)).reclaim, pc := upd s.pc w .top } := by
  have h0 : (s.cq (s.loc w)).count = 0 := iv.idle w (by rw [hp]; rfl)
  obtain ⟨hg, hz⟩ := reclaim_spec (iv.goodL w) h0
  generalize (s.cq (s.loc w)).reclaim = y at hg hz ⊢
  have hl : ∀ u, upd s.cq (s.loc w) y (s.loc u) = if u = w then y else s.cq (s.loc u) := by
    intro u; simp only [upd]
    by_cases e : u = w
    · simp [e]
    · rw [if_neg (fun h => e (iv.inj2 _ _ h)), if_neg e]
  have hc : ∀ a, upd s.cq (s.loc w) y (s.cur a) = s.cq (s.cur a) := by
    intro a; simp only [upd]; rw [if_neg (iv.inj3 a w)]
  have hdw : dr (s.pc w) (s.cq (s.loc w)).count = none := by rw [hp]; rfl
  have hd : ∀ u, dr (upd s.pc w .top u) (if u = w then y else s.cq (s.loc u)).count = dr (s.pc u) (s.cq (s.loc u)).count := by
    intro u
    by_cases e : u = w
    · subst e; simp only [upd_same, if_true]; rw [hdw]; rfl
    · simp only [upd, if_neg e]
  refine ⟨iv.inj1, iv.inj2, iv.inj3, ?_, ?_, ?_, ?_, ?_, ?_, ?_, ?_, ?_⟩ <;> simp only [hl, hc, hd]
  · exact iv.good
  · intro u; split
    · exact hg
    · exact iv.goodL u
  · intro u hu; split
    · exact hz
    · exact iv.idle u hu
  · intro u q' h; simp only [upd] at h
    split at h
    · cases h
    · next e => rw [if_neg e]; exact iv.fin0 u q' h
  · exact iv.prc
  · exact iv.prd
  · exact iv.unq
  · exact iv.eqN
  · intro u q' h
    by_cases e : u = w
    · subst e; rw [hdw] at h; cases h
    · rw [if_neg e]; exact iv.eqD u q' h

/-! ### Slots -/

/-- The slot that was set to 0p, and the mailbox that a worker has instead. -/
def hold : Pc → Option (Nat × Nat)
  | .s4 _ m my _ => some (m, my)
  | .s5 m q => some (m, q)
  | _ => none

/-- The own slot in a swap. -/
def ownS : Pc → Option Nat
  | .s1 _ m | .s2 _ m _ | .s3 _ m _ _ | .s4 _ m _ _ | .s5 m _ => some m
  | _ => none

def vicS : Pc → Option Nat
  | .s1 v _ | .s2 v _ _ | .s3 v _ _ _ | .s4 v _ _ _ => some v
  | _ => none

structure InvS (c : Cfg) (s : State) : Prop where
  own : ∀ w m, ownS (s.pc w) = some m → w < c.nw ∧ begin c w ≤ m ∧ m < begin c w + range c w
  vic : ∀ w v, vicS (s.pc w) = some v → v < c.nr
  hn : ∀ w m q, hold (s.pc w) = some (m, q) → s.slot m = none
  null : ∀ j, j < c.nr → s.slot j = none → ∃ w q, hold (s.pc w) = some (j, q)
  big : ∀ j, c.nr ≤ j → s.slot j = none
  injS : ∀ j j' q, s.slot j = some q → s.slot j' = some q → j = j'
  injH : ∀ w w' m m' q, hold (s.pc w) = some (m, q) → hold (s.pc w') = some (m', q) → w = w'
  injX : ∀ j w m q, s.slot j = some q → hold (s.pc w) ≠ some (m, q)
  sur : ∀ q, q < c.nr → (∃ j, s.slot j = some q) ∨ ∃ w m, hold (s.pc w) = some (m, q)

theorem InvS.start (c : Cfg) : InvS c (start c) := by
  constructor <;> simp only [Actor.start]
  · intro w m h; cases h
  · intro w m h; cases h
  · intro w m q h; cases h
  · intro j h1 h2; rw [if_pos h1] at h2; cases h2
  · intro j h; rw [if_neg (by omega)]
  · intro j j' q h h'; split at h <;> split at h' <;> simp_all
  · intro w w' m m' q h; cases h
  · intro j w m q _ h; cases h
  · intro q h; exact Or.inl ⟨q, by rw [if_pos h]⟩

theorem hold_own {p : Pc} {m q : Nat} (h : hold p = some (m, q)) : ownS p = some m := by
  cases p <;> simp_all [hold, ownS]

/-- Two workers with 0p in the same slot are one. -/
theorem InvS.sameSlot {c : Cfg} {s : State} (iv : InvS c s) {w w' m : Nat} (h : ownS (s.pc w) = some m) (h' : ownS (s.pc w') = some m) : w = w' := by
  obtain ⟨_, h1, h2⟩ := iv.own w m h
  obtain ⟨_, h3, h4⟩ := iv.own w' m h'
  exact range_own c h1 h2 h3 h4

theorem InvS.same {c : Cfg} {s s' : State} (iv : InvS c s) (h1 : s'.slot = s.slot) (h2 : s'.pc = s.pc) : InvS c s' := by
  obtain ⟨i1, i2, i3, i4, i5, i6, i7, i8, i9⟩ := iv
  rw [← h1] at i3 i4 i5 i6 i8 i9
  rw [← h2] at i1 i2 i3 i4 i7 i8 i9
  exact ⟨i1, i2, i3, i4, i5, i6, i7, i8, i9⟩

/-- A worker that has set no slot to 0p goes on without touching the slots. -/
theorem InvS.move {c : Cfg} {s s' : State} (iv : InvS c s) {w : Nat} {p : Pc} (h1 : s'.slot = s.slot) (h2 : s'.pc = upd s.pc w p)
    (hh : hold p = hold (s.pc w)) (ho : ∀ m, ownS p = some m → w < c.nw ∧ begin c w ≤ m ∧ m < begin c w + range c w)
    (hv : ∀ v, vicS p = some v → v < c.nr) : InvS c s' := by
  have hd : ∀ u, hold (upd s.pc w p u) = hold (s.pc u) := by
    intro u; simp only [upd]; split
    · next e => rw [e]; exact hh
    · rfl
  constructor <;> (try rw [h2])
  · intro u m h; simp only [upd] at h; split at h
    · next e => rw [e]; exact ho m h
    · exact iv.own u m h
  · intro u m h; simp only [upd] at h; split at h
    · exact hv m h
    · exact iv.vic u m h
  · simp only [hd, h1]; exact iv.hn
  · simp only [hd, h1]; exact iv.null
  · rw [h1]; exact iv.big
  · rw [h1]; exact iv.injS
  · simp only [hd]; exact iv.injH
  · simp only [hd, h1]; exact iv.injX
  · simp only [hd, h1]; exact iv.sur

theorem InvS.take {c : Cfg} {s s' : State} (iv : InvS c s) {w v m my o : Nat} (hp : s.pc w = .s3 v m my o) (hm : s.slot m = some my)
    (h1 : s'.slot = upd s.slot m none) (h2 : s'.pc = upd s.pc w (.s4 v m my o)) : InvS c s' := by
  have hw := iv.own w m (by rw [hp]; rfl)
  have hv := iv.vic w v (by rw [hp]; rfl)
  have hh : hold (s.pc w) = none := by rw [hp]; rfl
  have hd : ∀ u, hold (upd s.pc w (.s4 v m my o) u) = if u = w then some (m, my) else hold (s.pc u) := by
    intro u; simp only [upd]; split <;> rfl
  have hs : ∀ j, upd s.slot m none j = if j = m then none else s.slot j := fun j => rfl
  have hs0 := @InvS.sameSlot c s iv
  obtain ⟨i1, i2, i3, i4, i5, i6, i7, i8, i9⟩ := iv
  constructor <;> (try rw [h2]) <;> (try simp only [h1]) <;> (try simp only [hd]) <;> (try simp only [hs])
  · intro u x h; simp only [upd] at h; split at h
    · next e => cases h; rw [e]; exact hw
    · exact i1 u x h
  · intro u x h; simp only [upd] at h; split at h
    · next e => cases h; exact hv
    · exact i2 u x h
  · grind
  · intro j hj h
    split at h
    · next e => exact ⟨w, my, by simp [e]⟩
    · obtain ⟨u, q, hu⟩ := i4 j hj h
      refine ⟨u, q, ?_⟩
      rw [if_neg]; exact hu
      rintro rfl; rw [hh] at hu; cases hu
  · grind
  · grind
  · grind
  · grind
  · intro q hq
    rcases i9 q hq with ⟨j, hj⟩ | ⟨u, x, hu⟩
    · by_cases e : j = m
      · right; exact ⟨w, m, by grind⟩
      · left; exact ⟨j, by grind⟩
    · right; exact ⟨u, x, by grind⟩

theorem InvS.swap {c : Cfg} {s s' : State} (iv : InvS c s) {w v m my o : Nat} (hp : s.pc w = .s4 v m my o) (hv : s.slot v = some o)
    (h1 : s'.slot = upd s.slot v (some my)) (h2 : s'.pc = upd s.pc w (.s5 m o)) : InvS c s' := by
  have hw := iv.own w m (by rw [hp]; rfl)
  have hh : hold (s.pc w) = some (m, my) := by rw [hp]; rfl
  have hd : ∀ u, hold (upd s.pc w (.s5 m o) u) = if u = w then some (m, o) else hold (s.pc u) := by
    intro u; simp only [upd]; split <;> rfl
  have hs : ∀ j, upd s.slot v (some my) j = if j = v then some my else s.slot j := fun j => rfl
  obtain ⟨i1, i2, i3, i4, i5, i6, i7, i8, i9⟩ := iv
  constructor <;> (try rw [h2]) <;> (try simp only [h1]) <;> (try simp only [hd]) <;> (try simp only [hs])
  · intro u x h; simp only [upd] at h; split at h
    · next e => cases h; rw [e]; exact hw
    · exact i1 u x h
  · intro u x h; simp only [upd] at h; split at h
    · next e => cases h
    · exact i2 u x h
  · intro u x q; have := i3 u x q; have := i3 w m my hh; grind
  · intro j hj h
    split at h
    · cases h
    · obtain ⟨u, q, hu⟩ := i4 j hj h
      by_cases e : u = w
      · exact ⟨w, o, by grind⟩
      · exact ⟨u, q, by grind⟩
  · intro j hj; have := i5 j hj; grind
  · intro j j' q; have := i6 j j' q; have := i8 j w m my; have := i8 j' w m my; grind
  · intro u u' x x' q h h'
    have a := i7 u u' x x' q
    have b := i8 v u x q
    have b' := i8 v u' x' q
    grind
  · intro j u x q h h'
    have a := i8 j u x q
    have b := i7 u w x m my
    have d := i6 j v o
    grind
  · intro q hq
    rcases i9 q hq with ⟨j, hj⟩ | ⟨u, x, hu⟩
    · by_cases e : j = v
      · right; exact ⟨w, m, by grind⟩
      · left; exact ⟨j, by grind⟩
    · by_cases e : u = w
      · left; exact ⟨v, by grind⟩
      · right; exact ⟨u, x, by grind⟩

theorem InvS.give {c : Cfg} {s s' : State} (iv : InvS c s) {w m q : Nat} (hp : s.pc w = .s5 m q)
    (h1 : s'.slot = upd s.slot m (some q)) (h2 : s'.pc = upd s.pc w .top) : InvS c s' := by
  have hw := iv.own w m (by rw [hp]; rfl)
  have hm : m < c.nr := by have := range_lt c hw.1 (i := m - begin c w) (by omega); omega
  have hh : hold (s.pc w) = some (m, q) := by rw [hp]; rfl
  have hs0 := @InvS.sameSlot c s iv
  have hd : ∀ u, hold (upd s.pc w .top u) = if u = w then none else hold (s.pc u) := by
    intro u; simp only [upd]; split <;> rfl
  have hs : ∀ j, upd s.slot m (some q) j = if j = m then some q else s.slot j := fun j => rfl
  obtain ⟨i1, i2, i3, i4, i5, i6, i7, i8, i9⟩ := iv
  constructor <;> (try rw [h2]) <;> (try simp only [h1]) <;> (try simp only [hd]) <;> (try simp only [hs])
  · intro u x h; simp only [upd] at h; split at h
    · cases h
    · exact i1 u x h
  · intro u x h; simp only [upd] at h; split at h
    · cases h
    · exact i2 u x h
  · intro u x q' h
    split at h
    · cases h
    · next e =>
      have h3 := i3 u x q' h
      split
      · next e' => subst e'; exact (e (hs0 (hold_own h) (by rw [hp]; rfl))).elim
      · exact h3
  · intro j hj h
    split at h
    · cases h
    · obtain ⟨u, x, hu⟩ := i4 j hj h
      refine ⟨u, x, ?_⟩
      grind
  · intro j hj; have := i5 j hj; grind
  · intro j j' x; have := i6 j j' x; have := i8 j w m q; have := i8 j' w m q; grind
  · intro u u' x x' y h h'
    have a := i7 u u' x x' y
    grind
  · intro j u x y h h'
    have a := i8 j u x y
    have b := i7 u w x m q
    grind
  · intro y hq
    rcases i9 y hq with ⟨j, hj⟩ | ⟨u, x, hu⟩
    · left; exact ⟨j, by have := i3 w m q hh; grind⟩
    · by_cases e : u = w
      · left; exact ⟨m, by grind⟩
      · right; exact ⟨u, x, by grind⟩

structure Inv (c : Cfg) (s : State) : Prop where
  bad : s.bad = false
  m : InvM c s
  sl : InvS c s
  lt : ∀ w, s.pc w ≠ .top → w < c.nw

theorem lt_upd {c : Cfg} {pc : Nat → Pc} (h : ∀ w, pc w ≠ .top → w < c.nw) {w : Nat} (hw : w < c.nw) (p : Pc) :
    ∀ u, upd pc w p u ≠ .top → u < c.nw := by
  intro u hu; simp only [upd] at hu; split at hu
  · next e => rw [e]; exact hw
  · exact h u hu

theorem Inv.move {c : Cfg} {s : State} (iv : Inv c s) {w : Nat} {p : Pc} (hw : w < c.nw)
    (h : dr p (s.cq (s.loc w)).count = dr (s.pc w) (s.cq (s.loc w)).count) (hf : ∀ q, p = .fin q → (s.cq (s.loc w)).count = 0)
    (hh : hold p = hold (s.pc w)) (ho : ∀ m, ownS p = some m → begin c w ≤ m ∧ m < begin c w + range c w)
    (hv : ∀ v, vicS p = some v → v < c.nr) : Inv c { s with pc := upd s.pc w p } :=
  ⟨iv.bad, iv.m.move s.slot h hf, iv.sl.move rfl rfl hh (fun m h => ⟨hw, ho m h⟩) hv, lt_upd iv.lt hw _⟩

theorem Inv.stepW {c : Cfg} {s s' : State} (iv : Inv c s) {w : Nat} (hw : w < c.nw) (h : stepW s w = some s') : Inv c s' := by
  unfold Actor.stepW at h
  split at h
  · cases h
  · next q hp =>
    cases h
    have hps : (transfer s w q).slot = s.slot ∧ (transfer s w q).bad = s.bad := by unfold transfer; split <;> exact ⟨rfl, rfl⟩
    exact ⟨hps.2.trans iv.bad, iv.m.transfer hp, iv.sl.move (w := w) (p := .chk q) hps.1 rfl (by rw [hp]; rfl) (by intro m h; cases h) (by intro m h; cases h),
      lt_upd iv.lt hw _⟩
  · next q hp =>
    split at h
    · next h0 =>
      cases h
      exact iv.move hw (by rw [hp, h0]; rfl) (by intro q h; cases h) (by rw [hp]; rfl) (by intro m h; cases h) (by intro m h; cases h)
    · next h0 =>
      cases h
      exact iv.move hw (by rw [hp]; simp [dr, h0]) (by intro q h; cases h) (by rw [hp]; rfl) (by intro m h; cases h) (by intro m h; cases h)
  · next q hp =>
    split at h
    · next h0 =>
      cases h
      exact iv.move hw (by rw [hp]; rfl) (fun _ _ => h0) (by rw [hp]; rfl) (by intro m h; cases h) (by intro m h; cases h)
    · next h0 =>
      obtain ⟨r, x, hr, _, hi⟩ := iv.m.remove hp h0
      rw [hr] at h
      cases h
      exact ⟨iv.bad, hi, iv.sl.move (w := w) (p := .running q r) rfl rfl (by rw [hp]; rfl) (by intro m h; cases h) (by intro m h; cases h),
        lt_upd iv.lt hw _⟩
  · next q r hp =>
    cases h
    exact iv.move hw (by rw [hp]; rfl) (by intro q h; cases h) (by rw [hp]; rfl) (by intro m h; cases h) (by intro m h; cases h)
  · next q hp =>
    cases h
    exact ⟨iv.bad, iv.m.finish hp, iv.sl.move (w := w) (p := .recl) rfl rfl (by rw [hp]; rfl) (by intro m h; cases h) (by intro m h; cases h),
        lt_upd iv.lt hw _⟩
  · next hp =>
    cases h
    exact ⟨iv.bad, iv.m.reclaim hp, iv.sl.move (w := w) (p := .top) rfl rfl (by rw [hp]; rfl) (by intro m h; cases h) (by intro m h; cases h),
        lt_upd iv.lt hw _⟩
  · next v m hp =>
    have hown := iv.sl.own w m (by rw [hp]; rfl)
    have hvic := iv.sl.vic w v (by rw [hp]; rfl)
    split at h
    · next my hmy =>
      cases h
      exact iv.move hw (by rw [hp]; rfl) (by intro q h; cases h) (by rw [hp]; rfl) (by intro m' h; cases h; exact hown.2)
        (by intro v' h; cases h; exact hvic)
    · next hmy =>
      exfalso
      obtain ⟨u, q, hu⟩ := iv.sl.null m (by have := range_lt c hw (i := m - begin c w) (by omega); omega) hmy
      have := iv.sl.sameSlot (hold_own hu) (show ownS (s.pc w) = some m by rw [hp]; rfl)
      subst this
      rw [hp] at hu; cases hu
  · next v m my hp =>
    have hown := iv.sl.own w m (by rw [hp]; rfl)
    have hvic := iv.sl.vic w v (by rw [hp]; rfl)
    split at h
    · cases h
      exact iv.move hw (by rw [hp]; rfl) (by intro q h; cases h) (by rw [hp]; rfl) (by intro m' h; cases h; exact hown.2)
        (by intro v' h; cases h; exact hvic)
    · cases h
      exact iv.move hw (by rw [hp]; rfl) (by intro q h; cases h) (by rw [hp]; rfl) (by intro m h; cases h) (by intro m h; cases h)
  · next v m my o hp =>
    split at h
    · next hm =>
      cases h
      exact ⟨iv.bad, iv.m.move _ (by rw [hp]; rfl) (by intro q h; cases h), iv.sl.take hp hm rfl rfl, lt_upd iv.lt hw _⟩
    · cases h
      exact iv.move hw (by rw [hp]; rfl) (by intro q h; cases h) (by rw [hp]; rfl) (by intro m h; cases h) (by intro m h; cases h)
  · next v m my o hp =>
    split at h
    · next hv =>
      cases h
      exact ⟨iv.bad, iv.m.move _ (by rw [hp]; rfl) (by intro q h; cases h), iv.sl.swap hp hv rfl rfl, lt_upd iv.lt hw _⟩
    · cases h
      have hown := iv.sl.own w m (by rw [hp]; rfl)
      exact iv.move hw (by rw [hp]; rfl) (by intro q h; cases h) (by rw [hp]; rfl) (by intro m' h; cases h; exact hown.2)
        (by intro m h; cases h)
  · next m q hp =>
    cases h
    exact ⟨iv.bad, iv.m.move _ (by rw [hp]; rfl) (by intro q h; cases h), iv.sl.give hp rfl rfl, lt_upd iv.lt hw _⟩

theorem Inv.next {c : Cfg} {s s' : State} (iv : Inv c s) {a : Act} (h : next c s a = some s') : Inv c s' := by
  cases a with
  | send r =>
    simp only [Actor.next] at h
    split at h
    · cases h
      obtain ⟨h1, h2⟩ := iv.m.deposit r iv.bad
      have hps : (Actor.deposit s (c.ticket r.rcv) r).slot = s.slot ∧ (Actor.deposit s (c.ticket r.rcv) r).pc = s.pc := by
        unfold Actor.deposit; split <;> exact ⟨rfl, rfl⟩
      exact ⟨h2, h1, iv.sl.same hps.1 hps.2, by rw [hps.2]; exact iv.lt⟩
    · cases h
  | look w i =>
    simp only [Actor.next] at h
    split at h
    · next hc =>
      obtain ⟨_, hw, hi, hp⟩ := hc
      split at h
      · cases h
        exact iv.move hw (by rw [hp]; rfl) (by intro q h; cases h) (by rw [hp]; rfl) (by intro m h; cases h) (by intro m h; cases h)
      · next hn =>
        exfalso
        obtain ⟨u, q, hu⟩ := iv.sl.null _ (range_lt c hw hi) hn
        obtain ⟨_, h1, h2⟩ := iv.sl.own u _ (hold_own hu)
        have := range_own c h1 h2 (w' := w) (by omega) (by omega)
        subst this
        rw [hp] at hu; cases hu
    · cases h
  | skip w =>
    simp only [Actor.next] at h
    split at h
    · split at h
      · next q hp =>
        cases h
        exact iv.move (iv.lt w (by rw [hp]; simp)) (by rw [hp]; rfl) (by intro q h; cases h) (by rw [hp]; rfl) (by intro m h; cases h)
          (by intro m h; cases h)
      · cases h
    · cases h
  | steal w i v j =>
    simp only [Actor.next] at h
    split at h
    · next hc =>
      obtain ⟨_, hw, hv, hi, hj, hp⟩ := hc
      cases h
      rw [victim_eq] at hj ⊢
      exact iv.move hw (by rw [hp]; rfl) (by intro q h; cases h) (by rw [hp]; rfl) (by intro m h; cases h; omega)
        (by intro v' h; cases h; exact range_lt c hv hj)
    · cases h
  | step w =>
    simp only [Actor.next] at h
    split at h
    · next hc => exact iv.stepW hc.2 h
    · cases h

theorem Inv.reach {c : Cfg} (hb : 1 ≤ c.bufSize) {s : State} (h : Reach (Actor.next c) (Actor.start c) s) : Inv c s := by
  induction h with
  | init => exact ⟨rfl, InvM.start hb, InvS.start c, fun w h => (h rfl).elim⟩
  | step _ hn ih => exact ih.next hn

end Verif.Actor
