import Verif.Spec.IdleSleep
import Verif.Proof.Heap
import Mathlib.Data.Nat.ModEq
/-! Proofs about idle processors. -/
namespace IdleSleep
open Verif

/-- Holds the lock of the lists. -/
def PC.locked : PC → Bool
  | .mi2 | .mi3 | .ma2 | .ma3 => true
  | _ => false

/-- In the list of idle processors. -/
def PC.region : PC → Bool
  | .mi3 | .mi4 | .search _ _ | .hold _ _ | .s1 | .s2 _ | .reading | .ma1 | .ma2 => true
  | _ => false

structure Inv (n c m : Nat) (st : St) : Prop where
  lt : ∀ p, st.pc p ≠ .awake → p < n
  lk : ∀ p, st.lk = some p ↔ (st.pc p).locked = true
  idl : ∀ p, p ∈ st.idles ↔ (st.pc p).region = true
  head : ∀ p, st.pc p = .mi3 → st.idles.head? = some p
  fdw : (∀ q, st.pc q ≠ .mi3 ∧ st.pc q ≠ .ma3) → st.fdw = st.idles.head?
  fdn : ∀ p, st.fdw = some p → p < n
  wn : ∀ w p, st.wk w = .w2 p ∨ st.wk w = .w3 p → p < n
  wm : ∀ w, st.wk w ≠ .none → w < m
  llp : ∀ j p, st.ll j = some (.proc p) →
    st.pc p = .popping j ∨ ∃ off i, st.pc p = .hold off i ∧ i < c ∧ ix c off i = j
  llw : ∀ j w, st.ll j = some (.caller w) → st.wk w = .push j
  rd : ∀ p, st.pc p = .reading → st.sem p ≠ .zero
  rd1 : ∀ p, st.pc p = .reading → st.sem p = .one → st.ev p ≠ 0 ∨ ∃ w, st.wk w = .w4 p
  s2 : ∀ p e, st.pc p = .s2 e → e ≠ .one
  nd : ∀ p, st.pc p ≠ .dead ∧ st.tm p = false
  nt : ∀ w p, st.wk w ≠ .t1 p ∧ st.wk w ≠ .t2 p

theorem inv_init (n c m : Nat) : Inv n c m init := by
  constructor <;> simp [init, PC.locked, PC.region]


set_option maxHeartbeats 2000000 in
theorem inv_stepP {n c m p} {st st' : St} (h : Inv n c m st) (hp : p < n)
    (hs : stepP c st p = some st') : Inv n c m st' := by
  obtain ⟨h1, h2, h3, h4, h5, h6, h7, h8, h9, h10, h11, h12, h13, h14, h15⟩ := h
  have h16 : ∀ q, st.idles.head? = some q → q < n := by
    intro q hq
    have := (h3 q).mp (List.mem_of_head? hq)
    exact h1 q (fun e => by simp [e, PC.region] at this)
  unfold stepP at hs
  split at hs
  · split at hs <;> simp only [Option.some.injEq] at hs <;> subst hs <;>
      constructor <;> simp only [upd_apply] <;> grind [PC.locked, PC.region]
  · split at hs <;> simp only [Option.some.injEq] at hs <;> subst hs <;>
      constructor <;> simp only [upd_apply] <;> grind [PC.locked, PC.region]
  · simp only [Option.some.injEq] at hs; subst hs
    constructor <;> simp only [upd_apply] <;> grind [PC.locked, PC.region]
  · simp only [Option.some.injEq] at hs; subst hs
    constructor <;> simp only [upd_apply] <;> grind [PC.locked, PC.region]
  · split at hs
    · split at hs
      · simp only [Option.some.injEq] at hs; subst hs
        constructor <;> simp only [upd_apply] <;> grind [PC.locked, PC.region]
      · split at hs <;> simp only [Option.some.injEq] at hs <;> subst hs <;>
          constructor <;> simp only [upd_apply] <;> grind [PC.locked, PC.region]
    · simp only [Option.some.injEq] at hs; subst hs
      constructor <;> simp only [upd_apply] <;> grind [PC.locked, PC.region]
  · split at hs <;> simp only [Option.some.injEq] at hs <;> subst hs <;>
      constructor <;> simp only [upd_apply] <;> grind [PC.locked, PC.region]
  · split at hs <;> simp only [Option.some.injEq] at hs <;> subst hs <;>
      constructor <;> simp only [upd_apply] <;> grind [PC.locked, PC.region]
  · split at hs <;> simp only [Option.some.injEq] at hs <;> subst hs <;>
      constructor <;> simp only [upd_apply] <;> grind [PC.locked, PC.region]
  · split at hs
    · simp at hs
    · simp only [Option.some.injEq] at hs; subst hs
      constructor <;> simp only [upd_apply] <;> grind [PC.locked, PC.region]
  · split at hs
    · simp only [Option.some.injEq] at hs; subst hs
      constructor <;> simp only [upd_apply] <;> grind [PC.locked, PC.region]
    · simp at hs
  · simp only [Option.some.injEq] at hs; subst hs
    constructor <;> simp only [upd_apply] <;> grind [PC.locked, PC.region]
  · simp only [Option.some.injEq] at hs; subst hs
    constructor <;> simp only [upd_apply] <;> grind [PC.locked, PC.region]
  all_goals simp at hs

set_option maxHeartbeats 2000000 in
theorem inv_stepW {n c m w} {st st' : St} (h : Inv n c m st) (hw : w < m)
    (hs : stepW st w = some st') : Inv n c m st' := by
  obtain ⟨h1, h2, h3, h4, h5, h6, h7, h8, h9, h10, h11, h12, h13, h14, h15⟩ := h
  have h16 : ∀ p, st.sem p = .zero ∨ st.sem p = .one ∨ st.sem p = .fd := by
    intro p; cases st.sem p <;> simp
  unfold stepW at hs
  split at hs
  · simp at hs
  · simp only [Option.some.injEq] at hs; subst hs
    constructor <;> simp only [upd_apply] <;> grind [PC.locked, PC.region]
  · split at hs <;> simp only [Option.some.injEq] at hs <;> subst hs <;>
      constructor <;> simp only [upd_apply] <;> grind [PC.locked, PC.region]
  · split at hs <;> simp only [Option.some.injEq] at hs <;> subst hs <;>
      constructor <;> simp only [upd_apply] <;> grind [PC.locked, PC.region]
  · split at hs <;> simp only [Option.some.injEq] at hs <;> subst hs <;>
      constructor <;> simp only [upd_apply] <;> grind [PC.locked, PC.region]
  · simp only [Option.some.injEq] at hs; subst hs
    constructor <;> simp only [upd_apply] <;> grind [PC.locked, PC.region]
  all_goals grind

theorem inv_step {n c m offs a} {st st' : St} (h : Inv n c m st)
    (hs : nextK n c m offs st a = some st') : Inv n c m st' := by
  cases a with
  | adv p =>
    simp only [nextK, next] at hs
    split at hs
    · next hp => exact inv_stepP h hp hs
    · simp at hs
  | wake w =>
    simp only [nextK, next] at hs
    split at hs
    · next hw => exact inv_stepW h hw hs
    · simp at hs
  | term w p => simp [nextK] at hs
  | halt p =>
    obtain ⟨h1, h2, h3, h4, h5, h6, h7, h8, h9, h10, h11, h12, h13, h14, h15⟩ := h
    simp only [nextK, next] at hs
    split at hs
    · simp only [Option.some.injEq] at hs; subst hs
      constructor <;> simp only [upd_apply] <;> grind [PC.locked, PC.region]
    · simp at hs
  | pop p j =>
    obtain ⟨h1, h2, h3, h4, h5, h6, h7, h8, h9, h10, h11, h12, h13, h14, h15⟩ := h
    simp only [nextK, next] at hs
    split at hs
    · simp only [Option.some.injEq] at hs; subst hs
      constructor <;> simp only [upd_apply] <;> grind [PC.locked, PC.region]
    · simp at hs
  | off p j =>
    obtain ⟨h1, h2, h3, h4, h5, h6, h7, h8, h9, h10, h11, h12, h13, h14, h15⟩ := h
    simp only [nextK, next] at hs
    split at hs
    · simp only [Option.some.injEq] at hs; subst hs
      constructor <;> simp only [upd_apply] <;> grind [PC.locked, PC.region]
    · simp at hs
  | intr p =>
    obtain ⟨h1, h2, h3, h4, h5, h6, h7, h8, h9, h10, h11, h12, h13, h14, h15⟩ := h
    simp only [nextK, next] at hs
    split at hs
    · simp only [Option.some.injEq] at hs; subst hs
      constructor <;> simp only [upd_apply] <;> grind [PC.locked, PC.region]
    · simp at hs
  | ready w j =>
    obtain ⟨h1, h2, h3, h4, h5, h6, h7, h8, h9, h10, h11, h12, h13, h14, h15⟩ := h
    simp only [nextK, next] at hs
    split at hs
    · simp only [Option.some.injEq] at hs; subst hs
      constructor <;> simp only [upd_apply] <;> grind [PC.locked, PC.region]
    · simp at hs
  | quit p =>
    simp only [nextK, next] at hs
    split at hs
    · next hq => exact absurd (h.nd p).2 (by simp [hq.2.2])
    · simp at hs

/-! ## Somebody will look -/

/-- Processor `p` will look for a thread that is there, or will not sleep. -/
def hopeP (c : Nat) (st : St) (p : Nat) : Prop :=
  match st.pc p with
  | .search off i | .hold off i => st.sem p = .one ∨ ∃ i', i ≤ i' ∧ i' < c ∧ st.lane (ix c off i') ≠ 0
  | .s1 | .s2 _ => st.sem p = .one
  | .reading => st.sem p = .one ∨ st.ev p ≠ 0
  | .dead => False
  | _ => True

/-- Caller `w` will make sure of that. -/
def hopeW (st : St) (w : Nat) : Prop :=
  match st.wk w with
  | .push _ | .w1 | .w2 _ | .w3 _ => True
  | _ => False

def Hope (n c : Nat) (st : St) : Prop :=
  (∃ j < c, st.lane j ≠ 0) → (∃ p < n, hopeP c st p) ∨ ∃ w, hopeW st w

/-- Starting at `off` all lanes are looked at. -/
def Covers (c off : Nat) : Prop := ∀ j < c, ∃ i < c, ix c off i = j

/-- The other processors' hope depends on little. -/
theorem hopeP_mono {c : Nat} {st st' : St} {p : Nat} (h : hopeP c st p) (hpc : st'.pc p = st.pc p)
    (hs : st'.sem p = st.sem p ∨ st'.sem p = .one)
    (he : st'.ev p = st.ev p ∨ st'.ev p ≠ 0)
    (hl : ∀ j, st.lane j ≠ 0 → st'.lane j ≠ 0) : hopeP c st' p := by
  unfold hopeP at h ⊢
  rw [hpc]
  split at h <;> grind


/-- Nothing is lost if only processor `p` moves, and its own hope is kept. -/
theorem hope_keep {n c p} {st st' : St} (h : Hope n c st)
    (hpc : ∀ q, q ≠ p → st'.pc q = st.pc q) (hsem : ∀ q, q ≠ p → st'.sem q = st.sem q)
    (hev : ∀ q, q ≠ p → st'.ev q = st.ev q) (hl : st'.lane = st.lane) (hwk : st'.wk = st.wk)
    (hown : hopeP c st p → (∃ q < n, hopeP c st' q) ∨ ∃ w, hopeW st' w) : Hope n c st' := by
  intro hr
  rw [hl] at hr
  rcases h hr with ⟨q, hq, hh⟩ | ⟨w, hw⟩
  · by_cases e : q = p
    · subst e; exact hown hh
    · exact .inl ⟨q, hq, hopeP_mono hh (hpc q e) (.inl (hsem q e)) (.inl (hev q e)) (by rw [hl]; exact fun _ h => h)⟩
  · refine .inr ⟨w, ?_⟩
    unfold hopeW at hw ⊢
    rw [hwk]
    exact hw

theorem hope_self {n c p} {st : St} (hp : p < n) (h : hopeP c st p) : Hope n c st :=
  fun _ => .inl ⟨p, hp, h⟩

theorem hope_stepP {n c m p} {st st' : St} (hi : Inv n c m st) (h : Hope n c st) (hp : p < n)
    (hs : stepP c st p = some st') : Hope n c st' := by
  unfold stepP at hs
  split at hs
  · split at hs <;> simp only [Option.some.injEq] at hs <;> subst hs <;>
      exact hope_self hp (by simp only [hopeP, upd_same])
  · split at hs <;> simp only [Option.some.injEq] at hs <;> subst hs <;>
      exact hope_self hp (by simp only [hopeP, upd_same])
  · simp only [Option.some.injEq] at hs; subst hs
    exact hope_self hp (by simp only [hopeP, upd_same])
  · simp only [Option.some.injEq] at hs; subst hs
    exact hope_self hp (by simp only [hopeP, upd_same])
  · next off i hpc =>
    split at hs
    · next hic =>
      split at hs
      · next hz =>
        simp only [Option.some.injEq] at hs; subst hs
        refine hope_keep (p := p) h (fun q hq => upd_ne _ _ hq) (fun _ _ => rfl) (fun _ _ => rfl) rfl rfl ?_
        intro hh
        refine .inl ⟨p, hp, ?_⟩
        simp only [hopeP, hpc] at hh
        simp only [hopeP, upd_same]
        refine hh.imp id ?_
        rintro ⟨i', h1, h2, h3⟩
        refine ⟨i', ?_, h2, h3⟩
        rcases Nat.lt_or_ge i i' with h | h
        · exact h
        · have : i' = i := by omega
          subst this
          exact absurd hz h3
      · next hz =>
        split at hs
        · simp only [Option.some.injEq] at hs; subst hs
          refine hope_self hp ?_
          simp only [hopeP, upd_same]
          exact .inr ⟨i, Nat.le_refl _, hic, hz⟩
        · next hl =>
          simp only [Option.some.injEq] at hs; subst hs
          -- somebody else holds the lock of the lane
          cases ho : st.ll (ix c off i) with
          | none => exact absurd ho hl
          | some o =>
            cases o with
            | caller w =>
              have := hi.llw _ _ ho
              exact fun _ => .inr ⟨w, by simp only [hopeW, this]⟩
            | proc q =>
              have hq := hi.llp _ _ ho
              have hne : q ≠ p := by
                rintro rfl
                rw [hpc] at hq
                simp at hq
              refine hope_self (p := q) (hi.lt q ?_) ?_
              · rcases hq with hq | ⟨_, _, hq, _⟩ <;> rw [hq] <;> simp
              · unfold hopeP
                simp only [upd_ne _ _ hne]
                rcases hq with hq | ⟨off', i', hq, hi', e⟩
                · rw [hq]; trivial
                · rw [hq]
                  exact .inr ⟨i', Nat.le_refl _, hi', by rw [e]; exact hz⟩
    · next hic =>
      simp only [Option.some.injEq] at hs; subst hs
      refine hope_keep (p := p) h (fun q hq => upd_ne _ _ hq) (fun _ _ => rfl) (fun _ _ => rfl) rfl rfl ?_
      intro hh
      refine .inl ⟨p, hp, ?_⟩
      simp only [hopeP, hpc] at hh
      simp only [hopeP, upd_same]
      rcases hh with hh | ⟨i', h1, h2, h3⟩
      · exact hh
      · omega
  · next off i hpc =>
    split at hs
    · next hz =>
      simp only [Option.some.injEq] at hs; subst hs
      refine hope_keep (p := p) h (fun q hq => upd_ne _ _ hq) (fun _ _ => rfl) (fun _ _ => rfl) rfl rfl ?_
      intro hh
      refine .inl ⟨p, hp, ?_⟩
      simp only [hopeP, hpc] at hh
      simp only [hopeP, upd_same]
      refine hh.imp id ?_
      rintro ⟨i', h1, h2, h3⟩
      refine ⟨i', ?_, h2, h3⟩
      rcases Nat.lt_or_ge i i' with h | h
      · exact h
      · have : i' = i := by omega
        subst this
        exact absurd hz h3
    · simp only [Option.some.injEq] at hs; subst hs
      exact hope_self hp (by simp only [hopeP, upd_same])
  · next hpc =>
    split at hs
    · simp only [Option.some.injEq] at hs; subst hs
      exact hope_self hp (by simp only [hopeP, upd_same])
    · next hne =>
      simp only [Option.some.injEq] at hs; subst hs
      refine hope_keep (p := p) h (fun q hq => upd_ne _ _ hq) (fun _ _ => rfl) (fun _ _ => rfl) rfl rfl ?_
      intro hh
      simp only [hopeP, hpc] at hh
      exact absurd hh hne
  · next e hpc =>
    split at hs
    · next he =>
      simp only [Option.some.injEq] at hs; subst hs
      refine hope_keep (p := p) h (fun q hq => upd_ne _ _ hq) (fun q hq => upd_ne _ _ hq) (fun _ _ => rfl) rfl rfl ?_
      intro hh
      simp only [hopeP, hpc] at hh
      exact absurd (he.symm.trans hh) (hi.s2 p e hpc)
    · simp only [Option.some.injEq] at hs; subst hs
      refine hope_keep (p := p) h (fun q hq => upd_ne _ _ hq) (fun _ _ => rfl) (fun _ _ => rfl) rfl rfl ?_
      intro hh
      refine .inl ⟨p, hp, ?_⟩
      simp only [hopeP, hpc] at hh
      simp only [hopeP, upd_same]
      exact hh
  · split at hs
    · simp at hs
    · simp only [Option.some.injEq] at hs; subst hs
      exact hope_self hp (by simp only [hopeP, upd_same])
  · split at hs
    · simp only [Option.some.injEq] at hs; subst hs
      exact hope_self hp (by simp only [hopeP, upd_same])
    · simp at hs
  · simp only [Option.some.injEq] at hs; subst hs
    exact hope_self hp (by simp only [hopeP, upd_same])
  · simp only [Option.some.injEq] at hs; subst hs
    exact hope_self hp (by simp only [hopeP, upd_same])
  all_goals simp at hs

theorem hopeP_one {n c m p} {st : St} (hi : Inv n c m st) (h : st.sem p = .one) : hopeP c st p := by
  unfold hopeP
  split <;> first | exact .inl h | exact h | trivial | exact absurd ‹st.pc p = .dead› (hi.nd p).1

theorem hope_stepW {n c m w} {st st' : St} (hn : 0 < n) (hi : Inv n c m st) (h : Hope n c st) (hw : w < m)
    (hs : stepW st w = some st') : Hope n c st' := by
  have hi' := inv_stepW hi hw hs
  unfold stepW at hs
  split at hs
  · simp at hs
  · simp only [Option.some.injEq] at hs; subst hs
    exact fun _ => .inr ⟨w, by simp only [hopeW, upd_same]⟩
  · split at hs
    · next hf =>
      simp only [Option.some.injEq] at hs; subst hs
      by_cases hq : ∃ q, st.pc q = .mi3 ∨ st.pc q = .ma3
      · obtain ⟨q, hq⟩ := hq
        refine hope_self (p := q) (hi.lt q ?_) ?_
        · rcases hq with hq | hq <;> rw [hq] <;> simp
        · rcases hq with hq | hq <;> simp only [hopeP, hq]
      · have he := hi.fdw (fun q => ⟨fun e => hq ⟨q, .inl e⟩, fun e => hq ⟨q, .inr e⟩⟩)
        rw [hf] at he
        have hnil : st.idles = [] := by
          cases hl : st.idles with
          | nil => rfl
          | cons a l => rw [hl] at he; simp at he
        have h0 : (st.pc 0).region = false := by
          have := hi.idl 0
          rw [hnil] at this
          simpa using this
        refine hope_self (p := 0) hn ?_
        have hd := (hi.nd 0).1
        unfold hopeP
        simp only
        cases e : st.pc 0 <;> simp [e, PC.region] at h0 hd ⊢
    · simp only [Option.some.injEq] at hs; subst hs
      exact fun _ => .inr ⟨w, by simp only [hopeW, upd_same]⟩
  · next p hwk =>
    split at hs
    · next h1 =>
      simp only [Option.some.injEq] at hs; subst hs
      exact hope_self (hi.wn w p (.inl hwk)) (hopeP_one hi' h1)
    · simp only [Option.some.injEq] at hs; subst hs
      exact fun _ => .inr ⟨w, by simp only [hopeW, upd_same]⟩
  · next p hwk =>
    split at hs <;> simp only [Option.some.injEq] at hs <;> subst hs <;>
      exact hope_self (hi.wn w p (.inr hwk)) (hopeP_one hi' (upd_same _ _ _))
  · next p hwk =>
    simp only [Option.some.injEq] at hs; subst hs
    intro hr
    rcases h hr with ⟨q, hq, hh⟩ | ⟨v, hv⟩
    · refine .inl ⟨q, hq, hopeP_mono hh rfl (.inl rfl) ?_ (fun _ h => h)⟩
      by_cases e : q = p
      · subst e; right; simp [upd_same]
      · exact .inl (upd_ne _ _ e)
    · refine .inr ⟨v, ?_⟩
      have hne : v ≠ w := by
        rintro rfl
        simp [hopeW, hwk] at hv
      unfold hopeW at hv ⊢
      simp only [upd_ne _ _ hne]
      exact hv
  · next p hwk => exact absurd hwk (hi.nt w p).1
  · next p hwk => exact absurd hwk (hi.nt w p).2

theorem hope_step {n c m offs a} {st st' : St} (hn : 0 < n) (ho : ∀ off < 2 ^ 32, offs off = true → Covers c off)
    (hi : Inv n c m st) (h : Hope n c st)
    (hs : nextK n c m offs st a = some st') : Hope n c st' := by
  cases a with
  | adv p =>
    simp only [nextK, next] at hs
    split at hs
    · next hp => exact hope_stepP hi h hp hs
    · simp at hs
  | wake w =>
    simp only [nextK, next] at hs
    split at hs
    · next hw => exact hope_stepW hn hi h hw hs
    · simp at hs
  | term w p => simp [nextK] at hs
  | halt p =>
    simp only [nextK, next] at hs
    split at hs
    · next hp =>
      simp only [Option.some.injEq] at hs; subst hs
      exact hope_self hp.1 (by simp only [hopeP, upd_same])
    · simp at hs
  | pop p j =>
    simp only [nextK, next] at hs
    split at hs
    · next hp =>
      simp only [Option.some.injEq] at hs; subst hs
      exact hope_self hp.1 (by simp only [hopeP, upd_same])
    · simp at hs
  | off p j =>
    simp only [nextK, next] at hs
    split at hs
    · next hp =>
      simp only [Option.some.injEq] at hs; subst hs
      rintro ⟨k, hk, hz⟩
      refine .inl ⟨p, hp.1, ?_⟩
      simp only [hopeP, upd_same]
      obtain ⟨i, hi, e⟩ := ho j hp.2.2.1 hp.2.2.2 k hk
      exact .inr ⟨i, Nat.zero_le _, hi, by rw [e]; exact hz⟩
    · simp at hs
  | intr p =>
    simp only [nextK, next] at hs
    split at hs
    · next hp =>
      simp only [Option.some.injEq] at hs; subst hs
      exact hope_self hp.1 (by simp only [hopeP, upd_same])
    · simp at hs
  | ready w j =>
    simp only [nextK, next] at hs
    split at hs
    · simp only [Option.some.injEq] at hs; subst hs
      exact fun _ => .inr ⟨w, by simp only [hopeW, upd_same]⟩
    · simp at hs
  | quit p =>
    simp only [nextK, next] at hs
    split at hs
    · next hq => exact absurd (hi.nd p).2 (by simp [hq.2.2])
    · simp at hs

theorem run_inv {n c m offs} {st : St} (hn : 0 < n) (ho : ∀ off < 2 ^ 32, offs off = true → Covers c off)
    (h : RunK n c m offs st) : Inv n c m st ∧ Hope n c st :=
  Reach.inv (fun st => Inv n c m st ∧ Hope n c st)
    ⟨inv_init n c m, fun ⟨_, _, h⟩ => absurd rfl h⟩
    (fun _ _ _ hi hs => ⟨inv_step hi.1 hs, hope_step hn ho hi.1 hi.2 hs⟩) h

/-- A processor that is not asleep, or a caller, can go on. -/
theorem not_stalled {n c m} {st : St} (hi : Inv n c m st) (h : Hope n c st) : ¬ Stalled n c m st := by
  rintro ⟨hr, _, hall⟩
  have hW : ∀ w, st.wk w = .none := by
    intro w
    by_contra hne
    have h1 := hall (.wake w) rfl
    simp only [next, if_pos (hi.wm w hne)] at h1
    unfold stepW at h1
    split at h1
    · contradiction
    · simp at h1
    · split at h1 <;> simp at h1
    · split at h1 <;> simp at h1
    · split at h1 <;> simp at h1
    all_goals simp at h1
  -- nobody holds the lock of the lists
  have hL : st.lk = none := by
    cases e : st.lk with
    | none => rfl
    | some q =>
      have hq := (hi.lk q).mp e
      have hlt := hi.lt q (fun e => by simp [e, PC.locked] at hq)
      have h1 := hall (.adv q) rfl
      simp only [next, if_pos hlt] at h1
      unfold stepP at h1
      cases e : st.pc q <;> simp [e, PC.locked] at hq h1
  rcases h hr with ⟨p, hp, hh⟩ | ⟨w, hw⟩
  · have h1 := hall (.adv p) rfl
    have h2 := hall (.halt p) rfl
    have h3 := hall (.off p 0) rfl
    simp only [next, if_pos hp] at h1
    unfold stepP at h1
    unfold hopeP at hh
    split at h1
    · split at h1 <;> simp at h1
    · split at h1 <;> simp at h1
    · simp at h1
    · simp at h1
    · split at h1
      · split at h1
        · simp at h1
        · split at h1 <;> simp at h1
      · simp at h1
    · split at h1 <;> simp at h1
    · split at h1 <;> simp at h1
    · split at h1 <;> simp at h1
    · next hpc =>
      split at h1
      · next hev =>
        rw [hpc] at hh
        simp only at hh
        have h4 : st.sem p = .one := hh.resolve_right (fun h => h hev)
        rcases hi.rd1 p hpc h4 with h5 | ⟨w, h5⟩
        · exact h5 hev
        · rw [hW w] at h5; simp at h5
      · simp at h1
    · rw [if_pos hL] at h1; simp at h1
    · simp at h1
    · simp at h1
    · next hpc => simp [next, hp, hpc] at h2
    · next hpc => simp [next, hp, hpc] at h3
    · next hpc => rw [hpc] at hh; exact hh
  · simp [hopeW, hW w] at hw

/-! ## Which lanes are searched -/

theorem covers_small {c off : Nat} (h : off + c ≤ 2 ^ 32) : Covers c off := by
  intro j hj
  have hc : 0 < c := by omega
  refine ⟨(j + c - off % c) % c, Nat.mod_lt _ hc, ?_⟩
  have hlt := Nat.mod_lt (j + c - off % c) hc
  have hlt' := Nat.mod_lt off hc
  rw [ix, Nat.mod_eq_of_lt (Nat.lt_of_lt_of_le (Nat.add_lt_add_left hlt off) h), Nat.add_mod_mod]
  have : off + (j + c - off % c) = j + c * (off / c + 1) := by
    have := Nat.div_add_mod off c
    rw [Nat.mul_add, Nat.mul_one]
    omega
  rw [this, Nat.add_mul_mod_self_left, Nat.mod_eq_of_lt hj]

theorem covers_dvd {c off : Nat} (h : c ∣ 2 ^ 32) (hc : 0 < c) : Covers c off := by
  intro j hj
  refine ⟨(j + c - off % c) % c, Nat.mod_lt _ hc, ?_⟩
  have hlt' := Nat.mod_lt off hc
  rw [ix, Nat.mod_mod_of_dvd _ h, Nat.add_mod_mod]
  have : off + (j + c - off % c) = j + c * (off / c + 1) := by
    have := Nat.div_add_mod off c
    rw [Nat.mul_add, Nat.mul_one]
    omega
  rw [this, Nat.add_mul_mod_self_left, Nat.mod_eq_of_lt hj]

end IdleSleep
