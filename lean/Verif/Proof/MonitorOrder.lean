import Verif.Proof.MonitorReach
/-! The invariant of threads that enter monitors in order. -/
namespace Verif.Monitor
open Verif

/-- The rule of use of C54: mutex routines and statements only; a nested one names only monitors that are already entered or above all of
    those. In particular any set of monitors may be entered by a thread that is inside of none. -/
def Ordered (s : State) : Act → Prop
  | .call t ms _ | .stmt t ms => ∀ m ∈ ms, (∃ g ∈ s.stk t, m ∈ g.mons) ∨ ∀ g ∈ s.stk t, ∀ m' ∈ g.mons, m' < m
  | .ret _ | .step _ => True
  | _ => False

instance (s : State) (a : Act) : Decidable (Ordered s a) := by cases a <;> unfold Ordered <;> infer_instance

def nextE (s : State) (a : Act) : Option State := if Ordered s a then next s a else none

theorem nextE_P {s s' : State} {a : Act} (h : nextE s a = some s') : nextP s a = some s' := by
  unfold nextE at h
  split at h
  · next ho =>
    have : Proper s a := by cases a <;> simp_all [Ordered, Proper]
    rw [nextP, if_pos this]; exact h
  · cases h

theorem reachE_P {s : State} (h : Reach nextE start s) : Reach nextP start s := by
  induction h with
  | init => exact Reach.init
  | step _ hn ih => exact Reach.step ih (nextE_P hn)

theorem below_pos {gs : List Guard} {m : Nat} : 0 < below gs m ↔ ∃ g ∈ gs, m ∈ g.mons := by
  induction gs with
  | nil => simp [below]
  | cons g gs ih =>
    rw [below_cons]
    constructor
    · intro h
      by_cases hg : m ∈ g.mons
      · exact ⟨g, by simp, hg⟩
      · rw [List.count_eq_zero_of_not_mem hg] at h
        obtain ⟨g', h1, h2⟩ := ih.1 (by omega)
        exact ⟨g', by simp [h1], h2⟩
    · rintro ⟨g', h1, h2⟩
      rcases List.mem_cons.1 h1 with rfl | h1
      · have := List.count_pos_iff.2 h2; omega
      · have := ih.2 ⟨g', h1, h2⟩; omega

def ordG (g : Guard) (gs : List Guard) : Prop := ∀ m ∈ g.mons, 0 < below gs m ∨ ∀ m', 0 < below gs m' → m' < m

def shape : Pc → List Guard → Prop
  | .run, _ => True
  | .enter _, g :: gs | .epark _, g :: gs => ordG g gs
  | .leave i, g :: _ | .lwake i _, g :: _ => i ≤ g.mons.length
  | _, _ => False

structure InvE (s : State) : Prop where
  iv : Inv s
  srt : ∀ t, ∀ g ∈ s.stk t, g.mons.Pairwise (· ≤ ·)
  shp : ∀ t, shape (s.pc t) (s.stk t)
  mkN : ∀ m, s.mask m = none
  sg : ∀ m, s.sig m = []
  rc : ∀ m, s.owner m ≠ none → 0 < s.recn m
  fin : ∃ N, ∀ t, N ≤ t → s.pc t = .run ∧ s.stk t = []

theorem InvE.start : InvE Monitor.start :=
  ⟨Inv.start, by simp [Monitor.start], by simp [Monitor.start, shape], fun _ => rfl, fun _ => rfl, by simp [Monitor.start],
    0, fun _ _ => ⟨rfl, rfl⟩⟩

theorem fin_upd {pc : Nat → Pc} {stk : Nat → List Guard} (h : ∃ N, ∀ t, N ≤ t → pc t = .run ∧ stk t = []) (t : Nat) (X : Pc)
    (Y : List Guard) : ∃ N, ∀ u, N ≤ u → upd pc t X u = .run ∧ upd stk t Y u = [] := by
  obtain ⟨N, h⟩ := h
  refine ⟨max N (t + 1), fun u hu => ?_⟩
  have : u ≠ t := by omega
  simp only [upd, if_neg this]
  exact h u (by omega)

theorem fin_upd1 {pc : Nat → Pc} {stk : Nat → List Guard} (h : ∃ N, ∀ t, N ≤ t → pc t = .run ∧ stk t = []) (t : Nat) (X : Pc) :
    ∃ N, ∀ u, N ≤ u → upd pc t X u = .run ∧ stk u = [] := by
  have := fin_upd h t X (stk t)
  rwa [upd_self] at this

theorem shape_upd {pc : Nat → Pc} {stk : Nat → List Guard} (h : ∀ t, shape (pc t) (stk t)) {t : Nat} {X : Pc} (hx : shape X (stk t)) (u : Nat) :
    shape (upd pc t X u) (stk u) := by
  simp only [upd]; split
  · next e => rw [e]; exact hx
  · exact h u

theorem InvE.step {s s' : State} (e : InvE s) {t : Nat} (h : stepThread s t = some s') : InvE s' := by
  have iv' := e.iv.stepThread h
  have hsh := e.shp t
  unfold Monitor.stepThread at h
  split at h
  · cases h
  · next i hpc =>
    split at h
    · cases h
    · next g gs hs =>
      rw [hpc, hs] at hsh
      split at h
      · cases h
        exact ⟨iv', e.srt, shape_upd e.shp trivial, e.mkN, e.sg, e.rc, fin_upd1 e.fin _ _⟩
      · next m hm =>
        have hacc : isAccepted s m ⟨g.mons, g.fn⟩ = none := by unfold isAccepted; rw [e.mkN]
        cases h
        revert iv'
        unfold Monitor.enterMon
        rw [hacc]
        cases ho : s.owner m with
        | none =>
          intro iv'
          refine ⟨iv', e.srt, shape_upd e.shp (by rw [hs]; exact hsh), e.mkN, e.sg, ?_, fin_upd1 e.fin _ _⟩
          intro x hx
          simp only [setOwner, upd] at hx ⊢
          split
          · simp
          · next hne => rw [if_neg hne] at hx; exact e.rc x hx
        | some o =>
          simp only
          by_cases hot : o = t
          · rw [if_pos hot]
            intro iv'
            refine ⟨iv', e.srt, shape_upd e.shp (by rw [hs]; exact hsh), e.mkN, e.sg, ?_, fin_upd1 e.fin _ _⟩
            intro x hx
            simp only [upd]
            split
            · have := e.rc m (by rw [ho]; simp); omega
            · exact e.rc x hx
          · rw [if_neg hot]
            intro iv'
            have : (if g.stmt = true then enqueue s t m i else enqueue s t m i) = enqueue s t m i := by split <;> rfl
            rw [this] at iv' ⊢
            exact ⟨iv', e.srt, shape_upd e.shp (by rw [hs]; exact hsh), e.mkN, e.sg, e.rc, fin_upd1 e.fin _ _⟩
  · next i hpc =>
    rw [hpc] at hsh
    split at h
    · cases h
      refine ⟨iv', e.srt, shape_upd e.shp ?_, e.mkN, e.sg, e.rc, fin_upd1 e.fin _ _⟩
      cases hs : s.stk t with
      | nil => rw [hs] at hsh; exact hsh.elim
      | cons g gs => rw [hs] at hsh; exact hsh
    · cases h
  · next hpc =>
    split at h
    · cases h
    · next g gs hs =>
      cases h
      refine ⟨iv', ?_, ?_, e.mkN, e.sg, e.rc, fin_upd e.fin _ _ _⟩
      · intro u g' hg'
        simp only [upd] at hg'
        split at hg'
        · exact e.srt t g' (by rw [hs]; exact List.mem_cons_of_mem _ hg')
        · exact e.srt u g' hg'
      · intro u
        simp only [upd]
        split
        · trivial
        · exact e.shp u
  · next i hpc =>
    split at h
    · cases h
    · next g gs hs =>
      rw [hpc, hs] at hsh
      split at h
      · cases h
      · next m hm =>
        cases h
        have hown : s.owner m = some t := by
          apply e.iv.own t m
          · rw [hpc, hs, dep_leave, count_take_succ hm, if_pos rfl]; omega
          · rw [hpc]; rintro ⟨_, h⟩; exact h
        have hr := e.rc m (by rw [hown]; simp)
        have hi : i ≤ g.mons.length := Nat.le_of_succ_le hsh
        revert iv'
        unfold Monitor.leaveMon nextThread
        simp only [upd_same, e.sg]
        split
        · intro iv'
          refine ⟨iv', e.srt, shape_upd e.shp (by rw [hs]; exact hi), e.mkN, e.sg, ?_, fin_upd1 e.fin _ _⟩
          intro x hx
          simp only [upd]
          split
          · omega
          · exact e.rc x hx
        · split
          · intro iv'
            refine ⟨iv', e.srt, shape_upd e.shp (by rw [hs]; exact hi), e.mkN, e.sg, ?_, fin_upd1 e.fin _ _⟩
            intro x hx
            simp only [setOwner, upd] at hx ⊢
            split
            · simp
            · next hne => rw [if_neg hne] at hx; exact e.rc x hx
          · intro iv'
            refine ⟨iv', e.srt, shape_upd e.shp (by rw [hs]; exact hi), e.mkN, e.sg, ?_, fin_upd1 e.fin _ _⟩
            intro x hx
            simp only [setOwner, upd] at hx ⊢
            split
            · next he => simp [he] at hx
            · next hne => rw [if_neg hne] at hx; exact e.rc x hx
  · next i u hpc =>
    cases h
    rw [hpc] at hsh
    have : shape (.leave i) (s.stk t) := by
      cases hs : s.stk t with
      | nil => rw [hs] at hsh; exact hsh.elim
      | cons g gs => rw [hs] at hsh; exact hsh
    cases u with
    | none => exact ⟨iv', e.srt, shape_upd e.shp this, e.mkN, e.sg, e.rc, fin_upd1 e.fin _ _⟩
    | some x => exact ⟨iv', e.srt, shape_upd e.shp this, e.mkN, e.sg, e.rc, fin_upd1 e.fin _ _⟩
  all_goals
    next hpc => rw [hpc] at hsh; cases hs : s.stk t <;> (rw [hs] at hsh; exact hsh.elim)

theorem InvE.begin {s : State} (e : InvE s) {t : Nat} {ms : List Nat} (g : Guard) (gr : Nat → Group)
    (hg : g.mons = sortMons ms) (ho : ∀ m ∈ ms, (∃ g ∈ s.stk t, m ∈ g.mons) ∨ ∀ g ∈ s.stk t, ∀ m' ∈ g.mons, m' < m)
    (iv' : Inv { s with stk := upd s.stk t (g :: s.stk t), grp := gr, pc := upd s.pc t (.enter 0) }) :
    InvE { s with stk := upd s.stk t (g :: s.stk t), grp := gr, pc := upd s.pc t (.enter 0) } := by
  refine ⟨iv', ?_, ?_, e.mkN, e.sg, e.rc, fin_upd e.fin _ _ _⟩
  · intro u g' hg'
    simp only [upd] at hg'
    split at hg'
    · rcases List.mem_cons.1 hg' with rfl | hg'
      · rw [hg]; exact sortMons_sorted ms
      · exact e.srt t g' hg'
    · exact e.srt u g' hg'
  · intro u
    simp only [upd]
    split
    · intro m hm
      rw [hg, (sortMons_perm ms).mem_iff] at hm
      rcases ho m hm with h | h
      · exact Or.inl (below_pos.2 h)
      · refine Or.inr fun m' hm' => ?_
        obtain ⟨g', h1, h2⟩ := below_pos.1 hm'
        exact h g' h1 m' h2
    · exact e.shp u

theorem InvE.next {s s' : State} (e : InvE s) {a : Act} (h : nextE s a = some s') : InvE s' := by
  have iv' : Inv s' := by
    have h' := nextE_P h
    unfold nextP at h'
    split at h'
    · next hP => exact e.iv.next hP h'
    · cases h'
  unfold nextE at h
  split at h
  swap
  · cases h
  next ho =>
  cases a with
  | call t ms f =>
    simp only [Monitor.next] at h
    split at h
    · cases h; exact e.begin _ _ rfl ho iv'
    · cases h
  | stmt t ms =>
    simp only [Monitor.next] at h
    split at h
    · cases h; exact e.begin _ _ rfl ho iv'
    · cases h
  | ret t =>
    simp only [Monitor.next] at h
    split at h
    · split at h
      · cases h
      · next g gs hs =>
        cases h
        exact ⟨iv', e.srt, shape_upd e.shp (by rw [hs]; exact Nat.le_refl _), e.mkN, e.sg, e.rc, fin_upd1 e.fin _ _⟩
    · cases h
  | step t => exact e.step h
  | _ => exact ho.elim

theorem InvE.reach {s : State} (h : Reach nextE Monitor.start s) : InvE s := by
  induction h with
  | init => exact InvE.start
  | step _ hn ih => exact ih.next hn

/-- Who is in the way of a queued thread. -/
theorem InvE.wait {s : State} (e : InvE s) {t o m i : Nat} {g : Guard} {gs : List Guard} (hp : s.pc t = .epark i) (hs : s.stk t = g :: gs)
    (hm : g.mons[i]? = some m) (ho : s.owner m = some o) (hne : o ≠ t) :
    0 < dep (s.pc o) (s.stk o) m ∨ (atP (s.pc o) (s.stk o) = some m ∧ pendP s.tok s.pc o) := by
  have h1 := e.rc m (by rw [ho]; simp)
  by_cases hd : 0 < dep (s.pc o) (s.stk o) m
  · exact Or.inl hd
  · right
    have h2 := e.iv.rcn o m ho (by
      have := e.shp o
      rintro ⟨_, h⟩
      revert this h
      cases s.pc o <;> cases s.stk o <;> simp [shape, waitP])
    by_cases ha : atP (s.pc o) (s.stk o) = some m
    · refine ⟨ha, ?_⟩
      rcases e.iv.eprog o m ha with h | h
      · exact ((e.iv.en o m h).2.1 ho).elim
      · exact h
    · rw [if_neg ha] at h2; omega

/-- Entered monitors are below the one that a thread waits for. -/
theorem InvE.lt {s : State} (e : InvE s) {t m m' i : Nat} {g : Guard} {gs : List Guard} (hp : s.pc t = .epark i) (hs : s.stk t = g :: gs)
    (hm : g.mons[i]? = some m') (ho : s.owner m' ≠ some t) (hd : 0 < dep (s.pc t) (s.stk t) m) : m < m' := by
  have hno : ¬ 0 < dep (s.pc t) (s.stk t) m' := fun h => ho (e.iv.own t m' h (by rw [hp]; rintro ⟨_, h⟩; exact h))
  rw [hp, hs, dep_epark] at hd hno
  have hsrt := e.srt t g (by rw [hs]; simp)
  have hsh := e.shp t
  rw [hp, hs] at hsh
  by_cases hc : 0 < (g.mons.take i).count m
  · have hmem := List.count_pos_iff.1 hc
    obtain ⟨j, hj, hje⟩ := List.getElem_of_mem hmem
    rw [List.getElem_take] at hje
    have hj' : j < i := by simp at hj; omega
    obtain ⟨hi, hie⟩ := List.getElem?_eq_some_iff.1 hm
    have hle : m ≤ m' := by
      rw [← hje, ← hie]; exact List.pairwise_iff_getElem.1 hsrt j i _ _ hj'
    rcases Nat.lt_or_eq_of_le hle with h | h
    · exact h
    · subst h; omega
  · rcases hsh m' (List.mem_of_getElem? hm) with h | h
    · omega
    · exact h m (by omega)

end Verif.Monitor
