import Verif.Proof.Monitor
import Verif.Props.Sort
/-! Every step of the monitor model keeps the invariant. -/
namespace Verif.Monitor
open Verif

theorem sortMons_perm (ms : List Nat) : (sortMons ms).Perm ms := by
  obtain ⟨r, h1, h2, _⟩ := Sort.C15_sort ms
  unfold sortMons; rw [h1]; exact h2

theorem sortMons_sorted (ms : List Nat) : (sortMons ms).Pairwise (· ≤ ·) := by
  obtain ⟨r, h1, _, h2⟩ := Sort.C15_sort ms
  unfold sortMons; rw [h1]; exact h2

theorem checkCondition_eq (s : State) (x m : Nat) :
    checkCondition s x m = ({ s with rd := upd s.rd x (upd (s.rd x) m true) },
      if (s.wm x).all (upd (s.rd x) m true) then some x else none) := by
  have : upd s.rd x (upd (s.rd x) m true) x = upd (s.rd x) m true := by simp [upd]
  simp only [checkCondition, this]

theorem rd_cases (s : State) (x m : Nat) :
    ((s.wm x).all (upd (s.rd x) m true) = true ∧ ∀ m' ∈ s.wm x, m' = m ∨ s.rd x m' = true) ∨
    ((s.wm x).all (upd (s.rd x) m true) = false ∧ ∃ m' ∈ s.wm x, m' ≠ m ∧ s.rd x m' = false) := by
  cases h : (s.wm x).all (upd (s.rd x) m true) with
  | true =>
    left
    refine ⟨rfl, fun m' hm => ?_⟩
    have := List.all_eq_true.1 h m' hm
    simp only [upd] at this
    split at this
    · left; assumption
    · right; exact this
  | false =>
    right
    refine ⟨rfl, ?_⟩
    rw [List.all_eq_false] at h
    obtain ⟨m', hm, h⟩ := h
    simp only [upd] at h
    split at h
    · simp at h
    · exact ⟨m', hm, by assumption, by simpa using h⟩

theorem Inv.leaveMon {s : State} (iv : Inv s) {t m i : Nat} {g : Guard} {gs : List Guard} (hpc : s.pc t = .leave (i + 1))
    (hs : s.stk t = g :: gs) (hm : g.mons[i]? = some m) : Inv (leaveMon s t m i) := by
  have hsame : upd s.recn m (s.recn m - 1) m = s.recn m - 1 := by simp [upd]
  have hoo : ∀ v, upd (upd s.recn m (s.recn m - 1)) m v = upd s.recn m v := by
    intro v; funext y; simp only [upd]; split <;> rfl
  unfold Monitor.leaveMon
  simp only [hsame]
  split
  · next hr => exact iv.leaveRec hpc hs hm hr
  · next hr =>
    have hr' : s.recn m = 1 := by simp only [ne_eq, Decidable.not_not] at hr; omega
    unfold nextThread
    simp only
    cases hg : s.sig m with
    | cons x xs =>
      simp only [checkCondition_eq, setOwner, hoo, Option.isSome_some, if_true]
      rcases rd_cases s x m with ⟨h1, h2⟩ | ⟨h1, h2⟩
      · rw [if_pos h1]; exact iv.leaveSigR hpc hs hm hr' hg h2
      · rw [if_neg (by rw [h1]; simp)]; exact iv.leaveSigN hpc hs hm hr' hg h2
    | nil =>
      cases he : s.entry m with
      | cons x xs =>
        simp only [setOwner, hoo, Option.isSome_some, if_true]
        exact iv.leaveEnt hpc hs hm hr' hg he
      | nil =>
        simp only [setOwner, hoo]
        exact iv.leaveNone hpc hs hm hr' hg he

theorem Inv.relStep {s : State} (iv : Inv s) {t m : Nat} {ms ts : List Nat} (hpc : s.pc t = .rel (m :: ms) ts) :
    Inv { (nextThread s m).1 with pc := upd (nextThread s m).1.pc t (.rel ms (insertUnique ts (nextThread s m).2)) } := by
  have htn : ts.Nodup := by have := iv.trN t; rw [hpc] at this; exact this
  unfold nextThread
  simp only
  cases hg : s.sig m with
  | cons x xs =>
    simp only [checkCondition_eq, setOwner, Option.isSome_some, if_true]
    rcases rd_cases s x m with ⟨h1, h2⟩ | ⟨h1, h2⟩
    · rw [if_pos h1]
      exact iv.relSigR hpc (fun y => by rw [mem_insertUnique]; simp [eq_comm]) (nodup_insertUnique htn) hg h2
    · rw [if_neg (by rw [h1]; simp)]
      exact iv.relSigN hpc hg h2
  | nil =>
    cases he : s.entry m with
    | cons x xs =>
      simp only [setOwner, Option.isSome_some, if_true]
      exact iv.relEnt hpc (fun y => by rw [mem_insertUnique]; simp [eq_comm]) (nodup_insertUnique htn) hg he
    | nil =>
      simp only [setOwner]
      exact iv.relNone hpc hg he

theorem Inv.enterMon {s : State} (iv : Inv s) {t m i : Nat} {g : Guard} {gs : List Guard} (hpc : s.pc t = .enter i)
    (hs : s.stk t = g :: gs) (hm : g.mons[i]? = some m) : Inv (enterMon s t m i g) := by
  unfold Monitor.enterMon
  cases ho : s.owner m with
  | none => exact iv.enterFree hpc hs hm ho
  | some o =>
    simp only
    by_cases e : o = t
    · subst e; rw [if_pos rfl]; exact iv.enterOwn hpc hs hm ho
    · rw [if_neg e]
      split
      · exact iv.enqueue hpc hs hm ho e
      · split
        · next s' h =>
          unfold isAccepted at h
          split at h
          · cases h
          · next a cl hk =>
            have hk' : s.mask m ≠ none := by rw [hk]; simp
            split at h
            · split at h
              · cases h; exact iv.enterAcc hpc hs hm ho e hk' _
              · cases h
            · cases h; exact iv.enterAcc hpc hs hm ho e hk' _
        · exact iv.enqueue hpc hs hm ho e

theorem Inv.stepThread {s s' : State} (iv : Inv s) {t : Nat} (h : stepThread s t = some s') : Inv s' := by
  unfold Monitor.stepThread at h
  split at h
  · cases h
  · next i hpc =>
    split at h
    · cases h
    · next g gs hs =>
      split at h
      · next hm => cases h; exact iv.enterDone hpc hs hm
      · next m hm => cases h; exact iv.enterMon hpc hs hm
  · next i hpc =>
    split at h
    · next hk =>
      cases h
      obtain ⟨m, hm⟩ := iv.eat t i hpc
      rw [hpc] at hm
      cases hs : s.stk t with
      | nil => rw [hs] at hm; simp [atP] at hm
      | cons g gs => rw [hs] at hm; exact iv.epark hpc hs hm hk
    · cases h
  · next hpc =>
    split at h
    · cases h
    · next g gs hs => cases h; exact iv.leave0 hpc hs
  · next i hpc =>
    split at h
    · cases h
    · next g gs hs =>
      split at h
      · cases h
      · next m hm => cases h; exact iv.leaveMon hpc hs hm
  · next i u hpc =>
    cases h
    cases u with
    | none => exact iv.lwakeNone hpc
    | some x => exact iv.lwakeSome hpc
  · next c hpc =>
    split at h
    · next hn => cases h; exact iv.w1 hpc hn (iv.bw1 t c hpc)
    · cases h
  · next m ms ts hpc => cases h; exact iv.relStep hpc
  · next u us hpc => cases h; exact iv.wakeOne hpc
  · next hpc => cases h; exact iv.toPark hpc
  · next hpc =>
    split at h
    · next hk => cases h; exact iv.park hpc hk
    · cases h
  · next hpc => cases h; exact iv.restore hpc

theorem foldl_insertUnique : ∀ (l acc : List Nat), (∀ x, x ∈ l.foldl (fun l m => insertUnique l (some m)) acc ↔ x ∈ acc ∨ x ∈ l)
  | [], acc, x => by simp
  | a :: as, acc, x => by
    rw [List.foldl_cons, foldl_insertUnique as, mem_insertUnique]
    simp only [Option.some.injEq, List.mem_cons]
    constructor
    · rintro ((h | h) | h)
      · exact Or.inl h
      · exact Or.inr (Or.inl h.symm)
      · exact Or.inr (Or.inr h)
    · rintro (h | h | h)
      · exact Or.inl (Or.inl h)
      · exact Or.inl (Or.inr h.symm)
      · exact Or.inr h

theorem mem_aggregate {cl : List Group} {x : Nat} : x ∈ aggregate cl ↔ ∃ g ∈ cl, x ∈ g.mons := by
  unfold aggregate
  rw [(sortMons_perm _).mem_iff, foldl_insertUnique]
  simp

theorem search_mem {s : State} {q : List Nat} : ∀ {cl : List Group} {i u k : Nat}, search s q cl i = some (u, k) → u ∈ q
  | [], i, u, k, h => by simp [search] at h
  | g :: gs, i, u, k, h => by
    rw [search] at h
    split at h
    · next v hv => cases h; exact List.mem_of_find?_eq_some hv
    · exact search_mem h

theorem upd_self {α : Type} (f : Nat → α) (a : Nat) : upd f a (f a) = f := by
  funext x; simp only [upd]; split
  · next h => rw [h]
  · rfl

theorem Inv.accepted {s : State} (iv : Inv s) (acc : Nat → Option Nat) : Inv { s with accepted := acc } := by
  obtain ⟨i1, i2, i3, i4, i5, i6, i7, i8, i9, i10, i11, i12, i13, i14, i15, i16, i17, i18, i19, i20, i21, i22, i23, i24, i25, i26, i27, i28, i29, i30⟩ := iv
  exact ⟨i1, i2, i3, i4, i5, i6, i7, i8, i9, i10, i11, i12, i13, i14, i15, i16, i17, i18, i19, i20, i21, i22, i23, i24, i25, i26, i27, i28, i29, i30⟩

theorem Inv.waitfor {s : State} (iv : Inv s) {t : Nat} {cl : List Group} {blk : Bool} (hpc : s.pc t = .run)
    (hP : ∀ g ∈ cl, ∀ m ∈ g.mons, 0 < dep (s.pc t) (s.stk t) m) : Inv (waitfor s t cl blk) := by
  unfold Monitor.waitfor
  simp only
  have hmem : ∀ m ∈ aggregate (cl.map fun g => { g with mons := sortMons g.mons }), 0 < dep .run (s.stk t) m := by
    intro m hm
    rw [mem_aggregate] at hm
    obtain ⟨g, hg, hm⟩ := hm
    rw [List.mem_map] at hg
    obtain ⟨g', hg', rfl⟩ := hg
    have := hP g' hg' m ((sortMons_perm _).mem_iff.1 hm)
    rwa [hpc] at this
  revert hmem
  generalize (cl.map fun g => ({ g with mons := sortMons g.mons } : Group)) = cl'
  intro hmem
  cases hag : aggregate cl' with
  | nil => exact iv.accepted _
  | cons m0 ms =>
    rw [hag] at hmem
    simp only
    split
    · next u i hse =>
      have hu := search_mem hse
      simp only [initNode, pushAll, save, setOwners, upd_same]
      exact iv.waitforFound hpc (by simp) rfl hu hmem _
    · split
      · simp only [initNode, pushAll, save, setMask, upd_same]
        exact iv.waitforBlock hpc (by simp) hmem _ _
      · exact iv.accepted _

theorem Inv.next {s s' : State} (iv : Inv s) {a : Act} (hP : Proper s a) (h : next s a = some s') : Inv s' := by
  cases a with
  | call t ms f =>
    simp only [Monitor.next] at h
    split at h
    · next hpc =>
      cases h
      exact iv.call hpc (by simp only [chain, Bool.false_eq_true, if_false]; exact ⟨trivial, iv.grpI t⟩)
    · cases h
  | stmt t ms =>
    simp only [Monitor.next] at h
    split at h
    · next hpc =>
      cases h
      have := iv.call (g := ⟨sortMons ms, none, s.grp t, true⟩) hpc (gr := s.grp t) (by simp only [chain]; exact iv.grpI t)
      rw [upd_self] at this
      exact this
    · cases h
  | ret t =>
    simp only [Monitor.next] at h
    split at h
    · next hpc =>
      split at h
      · cases h
      · next g gs hs => cases h; exact iv.ret hpc hs
    · cases h
  | wait t c =>
    simp only [Monitor.next] at h
    split at h
    · next hpc =>
      obtain ⟨h1, h2⟩ := hP
      have hdl : ∀ m ∈ (s.grp t).mons, 0 < dep .run (s.stk t) m := fun m hm => by rw [dep_run]; exact chain_below (iv.grpI t) hm
      have key := iv.wait hpc h1 h2 hdl
      cases h
      rcases h2 with h2 | h2
      · simp only [brandCond, h2, initNode, upd_same, Option.getD_some]
        exact key
      · simp only [brandCond, h2, initNode, Option.getD_some]
        have : upd s.brand c (some (s.grp t).mons) = s.brand := by rw [← h2]; exact upd_self _ _
        rw [this] at key
        exact key
    · cases h
  | signal t c =>
    simp only [Monitor.next] at h
    split at h
    · next hpc =>
      cases h
      unfold Monitor.signal
      split
      · exact iv
      · next x xs hb =>
        rcases hP with hP | hP
        · have hw : s.wm x = (s.grp t).mons := by
            have := (iv.blk x c (by rw [hb]; simp)).2.1
            rw [hP] at this; exact (Option.some.inj this).symm
          exact iv.signal hpc hb (fun m hm => by rw [dep_run]; exact chain_below (iv.grpI t) (hw ▸ hm))
        · rw [hP] at hb; cases hb
    · cases h
  | signalBlock t c =>
    simp only [Monitor.next] at h
    split at h
    · next hpc =>
      cases h
      unfold Monitor.signalBlock
      split
      · exact iv
      · next x xs hb =>
        rcases hP with hP | hP
        · have hbr := (iv.blk x c (by rw [hb]; simp)).2.1
          have hw : s.wm x = (s.grp t).mons := by
            rw [hP] at hbr; exact (Option.some.inj hbr).symm
          have key := iv.signalBlock hpc hb (by rw [← hw]; exact iv.brn c _ hbr) hw
            (fun m hm => by rw [dep_run]; exact chain_below (iv.grpI t) hm)
          simp only [hP, Option.getD_some, initNode, pushAll, save, setOwners, upd_same]
          exact key
        · rw [hP] at hb; cases hb
    · cases h
  | waitfor t cl blk =>
    simp only [Monitor.next] at h
    split at h
    · next hpc => cases h; exact iv.waitfor hpc (fun g hg m hm => (hP g hg).2.2 m hm)
    · cases h
  | step t => exact iv.stepThread h

theorem Inv.reach {s : State} (h : Reach nextP Monitor.start s) : Inv s := by
  refine h.inv Inv Inv.start ?_
  intro s a s' iv h
  unfold nextP at h
  split at h
  · next hP => exact iv.next hP h
  · cases h

end Verif.Monitor
