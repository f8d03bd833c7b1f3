import Verif.Model.Monitor
import Verif.Proof.Heap
/-! The invariant of the monitor model. -/
namespace Verif.Monitor
open Verif

/-- Waiting, and monitor `m` is given up. -/
def relP : Pc → Nat → Prop
  | .park, _ => True
  | .rel ms _, m => m ∉ ms
  | _, _ => False

/-- All monitors given up. -/
def relAll : Pc → Prop
  | .park => True
  | .rel [] _ => True
  | _ => False

theorem relAll_relP {p : Pc} (h : relAll p) (m : Nat) : relP p m := by
  revert h; unfold relAll; split <;> simp [relP]

grind_pattern relAll_relP => relAll p, relP p m

def waitP : Pc → Prop
  | .park | .restore | .rel _ _ => True
  | _ => False

def sleepP : Pc → Prop
  | .park | .rel _ _ => True
  | _ => False

/-- The threads that are about to be unparked. -/
def wakes : Pc → List Nat
  | .lwake _ u => u.toList
  | .rel _ ts => ts
  | _ => []

/-- The monitor at which a thread is queued. -/
def atP : Pc → List Guard → Option Nat
  | .epark i, g :: _ => g.mons[i]?
  | _, _ => none

def toRel : Pc → List Nat
  | .rel ms _ => ms
  | _ => []

def chain : List Guard → Group → Prop
  | [], g => g = ⟨[], none⟩
  | d :: ds, g => if d.stmt then chain ds g else g = ⟨d.mons, d.fn⟩ ∧ chain ds d.prev

theorem chain_below : ∀ {ds : List Guard} {g : Group} {m : Nat}, chain ds g → m ∈ g.mons → 0 < below ds m
  | [], g, m, h, hm => by simp only [chain] at h; subst h; simp at hm
  | d :: ds, g, m, h, hm => by
    simp only [chain] at h
    simp only [below, List.map_cons, List.sum_cons]
    split at h
    · have := chain_below h hm; simp only [below] at this; omega
    · have := List.count_pos_iff.2 (show m ∈ d.mons by rw [h.1] at hm; exact hm); omega

theorem below_cons (g : Guard) (gs : List Guard) (m : Nat) : below (g :: gs) m = g.mons.count m + below gs m := by simp [below]

theorem count_take_succ {l : List Nat} {i a : Nat} (h : l[i]? = some a) (m : Nat) :
    (l.take (i + 1)).count m = (l.take i).count m + if a = m then 1 else 0 := by
  rw [List.take_add_one, h, Option.toList_some, List.count_append, List.count_singleton]; grind

theorem count_take_all {l : List Nat} {i : Nat} (h : l[i]? = none) (m : Nat) : (l.take i).count m = l.count m := by
  rw [List.take_of_length_le (by simpa using h)]

theorem dep_run (gs : List Guard) (m : Nat) : dep .run gs m = below gs m := by cases gs <;> rfl
theorem dep_w1 (c : Nat) (gs : List Guard) (m : Nat) : dep (.w1 c) gs m = below gs m := by cases gs <;> rfl
theorem dep_rel (ms ts : List Nat) (gs : List Guard) (m : Nat) : dep (.rel ms ts) gs m = below gs m := by cases gs <;> rfl
theorem dep_park (gs : List Guard) (m : Nat) : dep .park gs m = below gs m := by cases gs <;> rfl
theorem dep_restore (gs : List Guard) (m : Nat) : dep .restore gs m = below gs m := by cases gs <;> rfl
theorem dep_enter (i : Nat) (g : Guard) (gs : List Guard) (m : Nat) : dep (.enter i) (g :: gs) m = (g.mons.take i).count m + below gs m := rfl
theorem dep_epark (i : Nat) (g : Guard) (gs : List Guard) (m : Nat) : dep (.epark i) (g :: gs) m = (g.mons.take i).count m + below gs m := rfl
theorem dep_leave (i : Nat) (g : Guard) (gs : List Guard) (m : Nat) : dep (.leave i) (g :: gs) m = (g.mons.take i).count m + below gs m := rfl
theorem dep_lwake (i : Nat) (u : Option Nat) (g : Guard) (gs : List Guard) (m : Nat) :
    dep (.lwake i u) (g :: gs) m = (g.mons.take i).count m + below gs m := rfl

/-- Woken, or about to be. -/
def pendP (tok : Nat → Bool) (pc : Nat → Pc) (t : Nat) : Prop := tok t = true ∨ ∃ v, t ∈ wakes (pc v)

theorem pend_add {tok : Nat → Bool} {pc : Nat → Pc} {t : Nat} {X : Pc} (h : ∀ u, u ∈ wakes (pc t) → u ∈ wakes X) (u : Nat) :
    pendP tok (upd pc t X) u ↔ pendP tok pc u ∨ u ∈ wakes X := by
  simp only [pendP, upd]
  constructor
  · rintro (h | ⟨v, hv⟩)
    · grind
    · split at hv <;> grind
  · rintro ((h' | ⟨v, hv⟩) | h')
    · grind
    · right
      by_cases e : v = t
      · exact ⟨t, by rw [if_pos rfl]; exact h _ (e ▸ hv)⟩
      · exact ⟨v, by rw [if_neg e]; exact hv⟩
    · exact Or.inr ⟨t, by rw [if_pos rfl]; exact h'⟩

theorem pend_same {tok : Nat → Bool} {pc : Nat → Pc} {t : Nat} {X : Pc} (h : wakes X = wakes (pc t)) (u : Nat) :
    pendP tok (upd pc t X) u ↔ pendP tok pc u := by
  rw [pend_add (by rw [h]; exact fun _ h => h)]
  constructor
  · rintro (h' | h')
    · exact h'
    · exact Or.inr ⟨t, h ▸ h'⟩
  · exact Or.inl

theorem pend_move {tok : Nat → Bool} {pc : Nat → Pc} {t x : Nat} {X : Pc} (h : wakes (pc t) = x :: wakes X) (u : Nat) :
    pendP (upd tok x true) (upd pc t X) u ↔ pendP tok pc u := by
  simp only [pendP, upd]
  constructor
  · rintro (h' | ⟨v, hv⟩)
    · split at h'
      · exact Or.inr ⟨t, by grind⟩
      · exact Or.inl h'
    · split at hv
      · exact Or.inr ⟨t, by grind⟩
      · exact Or.inr ⟨v, hv⟩
  · rintro (h' | ⟨v, hv⟩)
    · left; grind
    · by_cases e : v = t
      · subst e
        rw [h] at hv
        rcases List.mem_cons.1 hv with hv | hv
        · left; rw [if_pos hv]
        · exact Or.inr ⟨v, by rw [if_pos rfl]; exact hv⟩
      · exact Or.inr ⟨v, by rw [if_neg e]; exact hv⟩

theorem pend_consume {tok : Nat → Bool} {pc : Nat → Pc} {t : Nat} {X : Pc} (h : wakes X = []) (h' : wakes (pc t) = [])
    (hn : ∀ v, t ∉ wakes (pc v)) (u : Nat) :
    pendP (upd tok t false) (upd pc t X) u ↔ pendP tok pc u ∧ u ≠ t := by
  simp only [pendP, upd]
  constructor
  · rintro (h1 | ⟨v, hv⟩)
    · split at h1
      · simp at h1
      · exact ⟨Or.inl h1, by assumption⟩
    · split at hv
      · rw [h] at hv; simp at hv
      · exact ⟨Or.inr ⟨v, hv⟩, by rintro rfl; exact hn _ hv⟩
  · rintro ⟨h1 | ⟨v, hv⟩, hu⟩
    · left; rw [if_neg hu]; exact h1
    · right
      refine ⟨v, ?_⟩
      rw [if_neg (by rintro rfl; rw [h'] at hv; simp at hv)]
      exact hv

theorem upd2 {α : Type} (f : Nat → Nat → α) (a : Nat) (v : Nat → α) (x y : Nat) : upd f a v x y = if x = a then v y else f x y := by
  simp only [upd]; split <;> rfl

theorem mem_insertUnique {ts : List Nat} {v : Option Nat} {x : Nat} : x ∈ insertUnique ts v ↔ x ∈ ts ∨ v = some x := by
  unfold insertUnique
  split
  · simp
  · split <;> grind

theorem nodup_insertUnique {ts : List Nat} {v : Option Nat} (h : ts.Nodup) : (insertUnique ts v).Nodup := by
  unfold insertUnique
  split
  · exact h
  · split
    · exact h
    · rw [List.nodup_append]; grind

structure Inv (s : State) : Prop where
  own : ∀ t m, 0 < dep (s.pc t) (s.stk t) m → ¬(m ∈ s.wm t ∧ relP (s.pc t) m) → s.owner m = some t
  msk : ∀ m, s.mask m ≠ none → ∃ a, s.owner m = some a ∧ a ∈ s.sig m
  sg : ∀ t m, t ∈ s.sig m → m ∈ s.wm t ∧ relAll (s.pc t) ∧ s.rd t m = false
  sgN : ∀ m, (s.sig m).Nodup
  en : ∀ t m, t ∈ s.entry m → atP (s.pc t) (s.stk t) = some m ∧ s.owner m ≠ some t ∧ ¬pendP s.tok s.pc t
  enN : ∀ m, (s.entry m).Nodup
  busy : ∀ m, s.owner m = none → s.entry m = [] ∧ s.sig m = []
  rcn : ∀ t m, s.owner m = some t → ¬(m ∈ s.wm t ∧ waitP (s.pc t)) →
    s.recn m = dep (s.pc t) (s.stk t) m + if atP (s.pc t) (s.stk t) = some m then 1 else 0
  svd : ∀ t m, waitP (s.pc t) → m ∈ s.wm t → s.sv t m = dep (s.pc t) (s.stk t) m
  svn : ∀ t m, waitP (s.pc t) → m ∈ s.wm t → s.svm t m = none
  wmd : ∀ t m c, (waitP (s.pc t) ∨ s.pc t = .w1 c) → m ∈ s.wm t → 0 < dep (s.pc t) (s.stk t) m
  rdy : ∀ t m, relP (s.pc t) m → m ∈ s.wm t → s.rd t m = true → s.owner m = some t
  pnd : ∀ t, pendP s.tok s.pc t → (∃ m, atP (s.pc t) (s.stk t) = some m ∧ s.owner m = some t) ∨
    (relAll (s.pc t) ∧ (∀ m ∈ s.wm t, s.owner m = some t ∧ t ∉ s.sig m) ∧ ∀ c, t ∉ s.blocked c)
  blk : ∀ t c, t ∈ s.blocked c → (s.pc t = .w1 c ∨ sleepP (s.pc t)) ∧ s.brand c = some (s.wm t) ∧
    ∀ m, t ∉ s.sig m ∧ s.rd t m = false
  blkN : ∀ c, (s.blocked c).Nodup
  blk1 : ∀ t c c', t ∈ s.blocked c → t ∈ s.blocked c' → c = c'
  brn : ∀ c l, s.brand c = some l → l ≠ []
  tr1 : ∀ v v' t, t ∈ wakes (s.pc v) → t ∈ wakes (s.pc v') → v = v'
  trT : ∀ v t, t ∈ wakes (s.pc v) → s.tok t = false
  trN : ∀ v, (wakes (s.pc v)).Nodup
  grpI : ∀ t, chain (s.stk t) (s.grp t)
  relN : ∀ t, (toRel (s.pc t)).Nodup ∧ ∀ m ∈ toRel (s.pc t), m ∈ s.wm t
  prog : ∀ t, sleepP (s.pc t) → (∃ c, t ∈ s.blocked c) ∨ pendP s.tok s.pc t ∨
    ((∀ m ∈ s.wm t, s.rd t m = true ∨ t ∈ s.sig m) ∧ ∃ m ∈ s.wm t, t ∈ s.sig m)
  eprog : ∀ t m, atP (s.pc t) (s.stk t) = some m → t ∈ s.entry m ∨ pendP s.tok s.pc t
  arrN : ∀ m t, t ∈ s.entry m → s.arr t < s.now
  arrS : ∀ m, (s.entry m).Pairwise (fun a b => s.arr a < s.arr b)
  bw1 : ∀ t c, s.pc t = .w1 c → t ∈ s.blocked c
  bown : ∀ t c m, t ∈ s.blocked c → m ∈ s.wm t → relP (s.pc t) m → s.owner m ≠ some t
  mown : ∀ m a, s.mask m = some a → s.owner m = some a.1
  eat : ∀ t i, s.pc t = .epark i → ∃ m, atP (s.pc t) (s.stk t) = some m

theorem Inv.start : Inv start := by
  constructor <;> simp [Monitor.start, dep, below, wakes, toRel, chain, atP, relP, waitP, pendP, sleepP]

syntax "gr" : tactic
macro_rules | `(tactic| gr) => `(tactic| (intros; (try simp only [upd2] at *); (try simp only [upd] at *); grind (splits := 20) (verbose := false) [relP, relAll, waitP, wakes, atP, toRel, sleepP]))

set_option maxHeartbeats 4000000 in
theorem Inv.call {s : State} (iv : Inv s) {t : Nat} {g : Guard} (hpc : s.pc t = .run) {gr : Group}
    (hg : chain (g :: s.stk t) gr) :
    Inv { s with stk := upd s.stk t (g :: s.stk t), grp := upd s.grp t gr, pc := upd s.pc t (.enter 0) } := by
  have hd : ∀ m, dep (.enter 0) (g :: s.stk t) m = dep .run (s.stk t) m := by intro m; simp [dep_run, dep_enter]
  have hp : ∀ u, pendP s.tok (upd s.pc t (.enter 0)) u ↔ pendP s.tok s.pc u := pend_same (by rw [hpc]; rfl)
  obtain ⟨i1, i2, i3, i4, i5, i6, i7, i8, i9, i10, i11, i12, i13, i14, i15, i16, i17, i18, i19, i20, i21, i22, i23, i24, i25, i26, i27, i29, i30, i28⟩ := iv
  constructor
  · (try simp only [hp]); gr
  · (try simp only [hp]); gr
  · (try simp only [hp]); gr
  · (try simp only [hp]); gr
  · (try simp only [hp]); gr
  · (try simp only [hp]); gr
  · (try simp only [hp]); gr
  · (try simp only [hp]); gr
  · (try simp only [hp]); gr
  · (try simp only [hp]); gr
  · (try simp only [hp]); gr
  · (try simp only [hp]); gr
  · (try simp only [hp]); gr
  · (try simp only [hp]); gr
  · (try simp only [hp]); gr
  · (try simp only [hp]); gr
  · (try simp only [hp]); gr
  · (try simp only [hp]); gr
  · (try simp only [hp]); gr
  · (try simp only [hp]); gr
  · (try simp only [hp]); gr
  · (try simp only [hp]); gr
  · intro u hu
    have h1 := i23 u
    (try simp only [hp])
    clear i1 i4 i5 i6 i7 i8 i9 i10 i11 i13 i15 i16 i18 i19 i20 i21 i22 i23 i24 i25 i26
    gr
  · (try simp only [hp]); gr
  · (try simp only [hp]); gr
  · (try simp only [hp]); gr
  · (try simp only [hp]); gr
  · (try simp only [hp]); gr
  · (try simp only [hp]); gr
  · (try simp only [hp]); gr

set_option maxHeartbeats 4000000 in
theorem Inv.enterFree {s : State} (iv : Inv s) {t m i : Nat} {g : Guard} {gs : List Guard} (hpc : s.pc t = .enter i) (hs : s.stk t = g :: gs) (hm : g.mons[i]? = some m) (ho : s.owner m = none) :
    Inv { s with owner := upd s.owner m (some t), recn := upd s.recn m 1, pc := upd s.pc t (.enter (i + 1)) } := by
  have hd : ∀ x, dep (.enter (i + 1)) (s.stk t) x = dep (.enter i) (s.stk t) x + if m = x then 1 else 0 := by
    intro x; rw [hs, dep_enter, dep_enter, count_take_succ hm]; omega
  have hp : ∀ u, pendP s.tok (upd s.pc t (.enter (i + 1))) u ↔ pendP s.tok s.pc u := pend_same (by rw [hpc]; rfl)
  obtain ⟨i1, i2, i3, i4, i5, i6, i7, i8, i9, i10, i11, i12, i13, i14, i15, i16, i17, i18, i19, i20, i21, i22, i23, i24, i25, i26, i27, i29, i30, i28⟩ := iv
  constructor
  · (try simp only [hp]); gr
  · (try simp only [hp]); gr
  · (try simp only [hp]); gr
  · (try simp only [hp]); gr
  · (try simp only [hp]); gr
  · (try simp only [hp]); gr
  · (try simp only [hp]); gr
  · (try simp only [hp]); gr
  · (try simp only [hp]); gr
  · (try simp only [hp]); gr
  · (try simp only [hp]); gr
  · (try simp only [hp]); gr
  · (try simp only [hp]); gr
  · (try simp only [hp]); gr
  · (try simp only [hp]); gr
  · (try simp only [hp]); gr
  · (try simp only [hp]); gr
  · (try simp only [hp]); gr
  · (try simp only [hp]); gr
  · (try simp only [hp]); gr
  · (try simp only [hp]); gr
  · (try simp only [hp]); gr
  · intro u hu
    have h1 := i23 u
    (try simp only [hp])
    clear i1 i4 i5 i6 i7 i8 i9 i10 i11 i13 i15 i16 i18 i19 i20 i21 i22 i23 i24 i25 i26
    gr
  · (try simp only [hp]); gr
  · (try simp only [hp]); gr
  · (try simp only [hp]); gr
  · (try simp only [hp]); gr
  · (try simp only [hp]); gr
  · (try simp only [hp]); gr
  · (try simp only [hp]); gr

set_option maxHeartbeats 4000000 in
theorem Inv.enterOwn {s : State} (iv : Inv s) {t m i : Nat} {g : Guard} {gs : List Guard} (hpc : s.pc t = .enter i) (hs : s.stk t = g :: gs) (hm : g.mons[i]? = some m) (ho : s.owner m = some t) :
    Inv { s with recn := upd s.recn m (s.recn m + 1), pc := upd s.pc t (.enter (i + 1)) } := by
  have hd : ∀ x, dep (.enter (i + 1)) (s.stk t) x = dep (.enter i) (s.stk t) x + if m = x then 1 else 0 := by
    intro x; rw [hs, dep_enter, dep_enter, count_take_succ hm]; omega
  have hp : ∀ u, pendP s.tok (upd s.pc t (.enter (i + 1))) u ↔ pendP s.tok s.pc u := pend_same (by rw [hpc]; rfl)
  obtain ⟨i1, i2, i3, i4, i5, i6, i7, i8, i9, i10, i11, i12, i13, i14, i15, i16, i17, i18, i19, i20, i21, i22, i23, i24, i25, i26, i27, i29, i30, i28⟩ := iv
  constructor
  · (try simp only [hp]); gr
  · (try simp only [hp]); gr
  · (try simp only [hp]); gr
  · (try simp only [hp]); gr
  · (try simp only [hp]); gr
  · (try simp only [hp]); gr
  · (try simp only [hp]); gr
  · (try simp only [hp]); gr
  · (try simp only [hp]); gr
  · (try simp only [hp]); gr
  · (try simp only [hp]); gr
  · (try simp only [hp]); gr
  · (try simp only [hp]); gr
  · (try simp only [hp]); gr
  · (try simp only [hp]); gr
  · (try simp only [hp]); gr
  · (try simp only [hp]); gr
  · (try simp only [hp]); gr
  · (try simp only [hp]); gr
  · (try simp only [hp]); gr
  · (try simp only [hp]); gr
  · (try simp only [hp]); gr
  · intro u hu
    have h1 := i23 u
    (try simp only [hp])
    clear i1 i4 i5 i6 i7 i8 i9 i10 i11 i13 i15 i16 i18 i19 i20 i21 i22 i23 i24 i25 i26
    gr
  · (try simp only [hp]); gr
  · (try simp only [hp]); gr
  · (try simp only [hp]); gr
  · (try simp only [hp]); gr
  · (try simp only [hp]); gr
  · (try simp only [hp]); gr
  · (try simp only [hp]); gr

set_option maxHeartbeats 4000000 in
theorem Inv.enterAcc {s : State} (iv : Inv s) {t m i : Nat} {g : Guard} {gs : List Guard} (hpc : s.pc t = .enter i) (hs : s.stk t = g :: gs) (hm : g.mons[i]? = some m) {o : Nat} (ho : s.owner m = some o) (hot : o ≠ t) (hk : s.mask m ≠ none) (acc : Nat → Option Nat) :
    Inv { s with owner := upd s.owner m (some t), recn := upd s.recn m 1, mask := upd s.mask m none, accepted := acc,
                 pc := upd s.pc t (.enter (i + 1)) } := by
  have hd : ∀ x, dep (.enter (i + 1)) (s.stk t) x = dep (.enter i) (s.stk t) x + if m = x then 1 else 0 := by
    intro x; rw [hs, dep_enter, dep_enter, count_take_succ hm]; omega
  have hp : ∀ u, pendP s.tok (upd s.pc t (.enter (i + 1))) u ↔ pendP s.tok s.pc u := pend_same (by rw [hpc]; rfl)
  have hoS : o ∈ s.sig m := by
    obtain ⟨a, h1, h2⟩ := iv.msk m hk
    rw [ho] at h1; cases h1; exact h2
  have hoR := iv.sg o m hoS
  have hoP : ¬pendP s.tok s.pc o := by
    intro h
    rcases iv.pnd o h with ⟨m', h1, _⟩ | ⟨_, h1, _⟩
    · have h2 := hoR.2.1
      revert h2 h1; cases s.pc o <;> simp [relAll, atP]
    · exact (h1 m hoR.1).2 hoS
  obtain ⟨i1, i2, i3, i4, i5, i6, i7, i8, i9, i10, i11, i12, i13, i14, i15, i16, i17, i18, i19, i20, i21, i22, i23, i24, i25, i26, i27, i29, i30, i28⟩ := iv
  constructor
  · (try simp only [hp]); gr
  · (try simp only [hp]); gr
  · (try simp only [hp]); gr
  · (try simp only [hp]); gr
  · (try simp only [hp]); gr
  · (try simp only [hp]); gr
  · (try simp only [hp]); gr
  · (try simp only [hp]); gr
  · (try simp only [hp]); gr
  · (try simp only [hp]); gr
  · (try simp only [hp]); gr
  · (try simp only [hp]); gr
  · intro u hu
    simp only [hp] at hu
    have h1 := i13 u hu
    have hux : u ≠ o := by rintro rfl; exact hoP hu
    clear i13 i4 i6 i7 i8 i9 i10 i15 i17 i18 i19 i20 i21 i23 i25 i26
    gr
  · (try simp only [hp]); gr
  · (try simp only [hp]); gr
  · (try simp only [hp]); gr
  · (try simp only [hp]); gr
  · (try simp only [hp]); gr
  · (try simp only [hp]); gr
  · (try simp only [hp]); gr
  · (try simp only [hp]); gr
  · (try simp only [hp]); gr
  · intro u hu
    have h1 := i23 u
    (try simp only [hp])
    clear i1 i4 i5 i6 i7 i8 i9 i10 i11 i13 i15 i16 i18 i19 i20 i21 i22 i23 i24 i25 i26
    gr
  · (try simp only [hp]); gr
  · (try simp only [hp]); gr
  · (try simp only [hp]); gr
  · (try simp only [hp]); gr
  · (try simp only [hp]); gr
  · (try simp only [hp]); gr
  · (try simp only [hp]); gr

set_option maxHeartbeats 4000000 in
theorem Inv.enqueue {s : State} (iv : Inv s) {t m i : Nat} {g : Guard} {gs : List Guard} (hpc : s.pc t = .enter i) (hs : s.stk t = g :: gs) (hm : g.mons[i]? = some m) {o : Nat} (ho : s.owner m = some o) (hot : o ≠ t) :
    Inv { s with entry := upd s.entry m (s.entry m ++ [t]), pc := upd s.pc t (.epark i), arr := upd s.arr t s.now, now := s.now + 1 } := by
  have hd : ∀ x, dep (.epark i) (s.stk t) x = dep (.enter i) (s.stk t) x := by
    intro x; rw [hs]; rfl
  have hp : ∀ u, pendP s.tok (upd s.pc t (.epark i)) u ↔ pendP s.tok s.pc u := pend_same (by rw [hpc]; rfl)
  obtain ⟨i1, i2, i3, i4, i5, i6, i7, i8, i9, i10, i11, i12, i13, i14, i15, i16, i17, i18, i19, i20, i21, i22, i23, i24, i25, i26, i27, i29, i30, i28⟩ := iv
  constructor
  · (try simp only [hp]); gr
  · (try simp only [hp]); gr
  · (try simp only [hp]); gr
  · (try simp only [hp]); gr
  · (try simp only [hp]); gr
  · (try simp only [hp]); gr
  · (try simp only [hp]); gr
  · (try simp only [hp]); gr
  · (try simp only [hp]); gr
  · (try simp only [hp]); gr
  · (try simp only [hp]); gr
  · (try simp only [hp]); gr
  · (try simp only [hp]); gr
  · (try simp only [hp]); gr
  · (try simp only [hp]); gr
  · (try simp only [hp]); gr
  · (try simp only [hp]); gr
  · (try simp only [hp]); gr
  · (try simp only [hp]); gr
  · (try simp only [hp]); gr
  · (try simp only [hp]); gr
  · (try simp only [hp]); gr
  · intro u hu
    have h1 := i23 u
    (try simp only [hp])
    clear i1 i4 i5 i6 i7 i8 i9 i10 i11 i13 i15 i16 i18 i19 i20 i21 i22 i23 i24 i25 i26
    gr
  · (try simp only [hp]); gr
  · (try simp only [hp]); gr
  · intro y
    have h1 := i26 y
    have htn : ∀ y, t ∉ s.entry y := fun y h => by have := (i5 t y h).1; rw [hpc] at this; simp [atP] at this
    have h2 : (s.entry y).Pairwise (fun a b => upd s.arr t s.now a < upd s.arr t s.now b) := by
      refine h1.imp_of_mem ?_
      intro a b ha hb hab
      have ha' : a ≠ t := fun e => htn y (e ▸ ha)
      have hb' : b ≠ t := fun e => htn y (e ▸ hb)
      simp only [upd, if_neg ha', if_neg hb']; exact hab
    simp only [upd] at h2 ⊢
    split
    · rename_i e; subst e
      rw [List.pairwise_append]
      refine ⟨h2, by simp, ?_⟩
      intro a ha b hb
      have ha' : a ≠ t := fun e => htn _ (e ▸ ha)
      rw [List.mem_singleton.1 hb, if_neg ha', if_pos rfl]
      exact i25 _ _ ha
    · exact h2
  · (try simp only [hp]); gr
  · (try simp only [hp]); gr
  · (try simp only [hp]); gr
  · (try simp only [hp]); gr

set_option maxHeartbeats 4000000 in
theorem Inv.enterDone {s : State} (iv : Inv s) {t i : Nat} {g : Guard} {gs : List Guard} (hpc : s.pc t = .enter i) (hs : s.stk t = g :: gs) (hm : g.mons[i]? = none) :
    Inv { s with pc := upd s.pc t .run } := by
  have hd : ∀ x, dep .run (s.stk t) x = dep (.enter i) (s.stk t) x := by
    intro x; rw [hs, dep_run, dep_enter, below_cons, count_take_all hm]
  have hp : ∀ u, pendP s.tok (upd s.pc t (.run)) u ↔ pendP s.tok s.pc u := pend_same (by rw [hpc]; rfl)
  obtain ⟨i1, i2, i3, i4, i5, i6, i7, i8, i9, i10, i11, i12, i13, i14, i15, i16, i17, i18, i19, i20, i21, i22, i23, i24, i25, i26, i27, i29, i30, i28⟩ := iv
  constructor
  · (try simp only [hp]); gr
  · (try simp only [hp]); gr
  · (try simp only [hp]); gr
  · (try simp only [hp]); gr
  · (try simp only [hp]); gr
  · (try simp only [hp]); gr
  · (try simp only [hp]); gr
  · (try simp only [hp]); gr
  · (try simp only [hp]); gr
  · (try simp only [hp]); gr
  · (try simp only [hp]); gr
  · (try simp only [hp]); gr
  · (try simp only [hp]); gr
  · (try simp only [hp]); gr
  · (try simp only [hp]); gr
  · (try simp only [hp]); gr
  · (try simp only [hp]); gr
  · (try simp only [hp]); gr
  · (try simp only [hp]); gr
  · (try simp only [hp]); gr
  · (try simp only [hp]); gr
  · (try simp only [hp]); gr
  · intro u hu
    have h1 := i23 u
    (try simp only [hp])
    clear i1 i4 i5 i6 i7 i8 i9 i10 i11 i13 i15 i16 i18 i19 i20 i21 i22 i23 i24 i25 i26
    gr
  · (try simp only [hp]); gr
  · (try simp only [hp]); gr
  · (try simp only [hp]); gr
  · (try simp only [hp]); gr
  · (try simp only [hp]); gr
  · (try simp only [hp]); gr
  · (try simp only [hp]); gr

set_option maxHeartbeats 4000000 in
theorem Inv.epark {s : State} (iv : Inv s) {t m i : Nat} {g : Guard} {gs : List Guard} (hpc : s.pc t = .epark i) (hs : s.stk t = g :: gs) (hm : g.mons[i]? = some m)
    (hk : s.tok t = true) : Inv { s with tok := upd s.tok t false, pc := upd s.pc t (.enter (i + 1)) } := by
  have hd : ∀ x, dep (.enter (i + 1)) (s.stk t) x = dep (.epark i) (s.stk t) x + if m = x then 1 else 0 := by
    intro x; rw [hs, dep_enter, dep_epark, count_take_succ hm]; omega
  have hp : ∀ u, pendP (upd s.tok t false) (upd s.pc t (.enter (i + 1))) u ↔ pendP s.tok s.pc u ∧ u ≠ t :=
    pend_consume rfl (by rw [hpc]; rfl) (fun v hv => by have := iv.trT v t hv; grind)
  have hpt : pendP s.tok s.pc t := Or.inl hk
  have hat : atP (s.pc t) (s.stk t) = some m := by rw [hpc, hs]; exact hm
  obtain ⟨i1, i2, i3, i4, i5, i6, i7, i8, i9, i10, i11, i12, i13, i14, i15, i16, i17, i18, i19, i20, i21, i22, i23, i24, i25, i26, i27, i29, i30, i28⟩ := iv
  constructor
  · (try simp only [hp]); gr
  · (try simp only [hp]); gr
  · (try simp only [hp]); gr
  · (try simp only [hp]); gr
  · (try simp only [hp]); gr
  · (try simp only [hp]); gr
  · (try simp only [hp]); gr
  · (try simp only [hp]); gr
  · (try simp only [hp]); gr
  · (try simp only [hp]); gr
  · (try simp only [hp]); gr
  · (try simp only [hp]); gr
  · (try simp only [hp]); gr
  · (try simp only [hp]); gr
  · (try simp only [hp]); gr
  · (try simp only [hp]); gr
  · (try simp only [hp]); gr
  · (try simp only [hp]); gr
  · (try simp only [hp]); gr
  · (try simp only [hp]); gr
  · (try simp only [hp]); gr
  · (try simp only [hp]); gr
  · intro u hu
    have h1 := i23 u
    (try simp only [hp])
    clear i1 i4 i5 i6 i7 i8 i9 i10 i11 i13 i15 i16 i18 i19 i20 i21 i22 i23 i24 i25 i26
    gr
  · (try simp only [hp]); gr
  · (try simp only [hp]); gr
  · (try simp only [hp]); gr
  · (try simp only [hp]); gr
  · (try simp only [hp]); gr
  · (try simp only [hp]); gr
  · (try simp only [hp]); gr

set_option maxHeartbeats 4000000 in
theorem Inv.ret {s : State} (iv : Inv s) {t : Nat} {g : Guard} {gs : List Guard} (hpc : s.pc t = .run) (hs : s.stk t = g :: gs) :
    Inv { s with pc := upd s.pc t (.leave g.mons.length) } := by
  have hd : ∀ x, dep (.leave g.mons.length) (s.stk t) x = dep .run (s.stk t) x := by
    intro x; rw [hs, dep_run, dep_leave, below_cons, List.take_length]
  have hp : ∀ u, pendP s.tok (upd s.pc t (.leave g.mons.length)) u ↔ pendP s.tok s.pc u := pend_same (by rw [hpc]; rfl)
  obtain ⟨i1, i2, i3, i4, i5, i6, i7, i8, i9, i10, i11, i12, i13, i14, i15, i16, i17, i18, i19, i20, i21, i22, i23, i24, i25, i26, i27, i29, i30, i28⟩ := iv
  constructor
  · (try simp only [hp]); gr
  · (try simp only [hp]); gr
  · (try simp only [hp]); gr
  · (try simp only [hp]); gr
  · (try simp only [hp]); gr
  · (try simp only [hp]); gr
  · (try simp only [hp]); gr
  · (try simp only [hp]); gr
  · (try simp only [hp]); gr
  · (try simp only [hp]); gr
  · (try simp only [hp]); gr
  · (try simp only [hp]); gr
  · (try simp only [hp]); gr
  · (try simp only [hp]); gr
  · (try simp only [hp]); gr
  · (try simp only [hp]); gr
  · (try simp only [hp]); gr
  · (try simp only [hp]); gr
  · (try simp only [hp]); gr
  · (try simp only [hp]); gr
  · (try simp only [hp]); gr
  · (try simp only [hp]); gr
  · intro u hu
    have h1 := i23 u
    (try simp only [hp])
    clear i1 i4 i5 i6 i7 i8 i9 i10 i11 i13 i15 i16 i18 i19 i20 i21 i22 i23 i24 i25 i26
    gr
  · (try simp only [hp]); gr
  · (try simp only [hp]); gr
  · (try simp only [hp]); gr
  · (try simp only [hp]); gr
  · (try simp only [hp]); gr
  · (try simp only [hp]); gr
  · (try simp only [hp]); gr

set_option maxHeartbeats 4000000 in
theorem Inv.leave0 {s : State} (iv : Inv s) {t : Nat} {g : Guard} {gs : List Guard} (hpc : s.pc t = .leave 0) (hs : s.stk t = g :: gs) :
    Inv { s with stk := upd s.stk t gs, grp := if g.stmt then s.grp else upd s.grp t g.prev, pc := upd s.pc t .run } := by
  have hd : ∀ x, dep .run gs x = dep (.leave 0) (s.stk t) x := by
    intro x; rw [hs, dep_run, dep_leave]; simp
  have hp : ∀ u, pendP s.tok (upd s.pc t (.run)) u ↔ pendP s.tok s.pc u := pend_same (by rw [hpc]; rfl)
  obtain ⟨i1, i2, i3, i4, i5, i6, i7, i8, i9, i10, i11, i12, i13, i14, i15, i16, i17, i18, i19, i20, i21, i22, i23, i24, i25, i26, i27, i29, i30, i28⟩ := iv
  constructor
  · (try simp only [hp]); gr
  · (try simp only [hp]); gr
  · (try simp only [hp]); gr
  · (try simp only [hp]); gr
  · (try simp only [hp]); gr
  · (try simp only [hp]); gr
  · (try simp only [hp]); gr
  · (try simp only [hp]); gr
  · (try simp only [hp]); gr
  · (try simp only [hp]); gr
  · (try simp only [hp]); gr
  · (try simp only [hp]); gr
  · (try simp only [hp]); gr
  · (try simp only [hp]); gr
  · (try simp only [hp]); gr
  · (try simp only [hp]); gr
  · (try simp only [hp]); gr
  · (try simp only [hp]); gr
  · (try simp only [hp]); gr
  · (try simp only [hp]); gr
  · intro u
    have h1 := i21 u
    by_cases e : u = t
    · subst e
      rw [hs] at h1
      simp only [chain] at h1
      cases hst : g.stmt <;> rw [hst] at h1 <;> simp_all [upd]
    · cases hst : g.stmt <;> simp_all [upd]
  · (try simp only [hp]); gr
  · intro u hu
    have h1 := i23 u
    (try simp only [hp])
    clear i1 i4 i5 i6 i7 i8 i9 i10 i11 i13 i15 i16 i18 i19 i20 i21 i22 i23 i24 i25 i26
    gr
  · (try simp only [hp]); gr
  · (try simp only [hp]); gr
  · (try simp only [hp]); gr
  · (try simp only [hp]); gr
  · (try simp only [hp]); gr
  · (try simp only [hp]); gr
  · (try simp only [hp]); gr

set_option maxHeartbeats 4000000 in
theorem Inv.leaveRec {s : State} (iv : Inv s) {t m i : Nat} {g : Guard} {gs : List Guard} (hpc : s.pc t = .leave (i + 1)) (hs : s.stk t = g :: gs) (hm : g.mons[i]? = some m) (hr : s.recn m - 1 ≠ 0) :
    Inv { s with recn := upd s.recn m (s.recn m - 1), pc := upd s.pc t (.leave i) } := by
  have hd : ∀ x, dep (.leave (i + 1)) (s.stk t) x = dep (.leave i) (s.stk t) x + if m = x then 1 else 0 := by
    intro x; rw [hs, dep_leave, dep_leave, count_take_succ hm]; omega
  have hp : ∀ u, pendP s.tok (upd s.pc t (.leave i)) u ↔ pendP s.tok s.pc u := pend_same (by rw [hpc]; rfl)
  have ho : s.owner m = some t := iv.own t m (by rw [hpc, hd]; simp) (by rw [hpc]; simp [relP])
  have hr' : s.recn m = dep (.leave i) (s.stk t) m + 1 := by
    have := iv.rcn t m ho (by rw [hpc]; simp [waitP])
    rw [hpc, hd] at this
    simp [atP] at this
    omega
  obtain ⟨i1, i2, i3, i4, i5, i6, i7, i8, i9, i10, i11, i12, i13, i14, i15, i16, i17, i18, i19, i20, i21, i22, i23, i24, i25, i26, i27, i29, i30, i28⟩ := iv
  constructor
  · (try simp only [hp]); gr
  · (try simp only [hp]); gr
  · (try simp only [hp]); gr
  · (try simp only [hp]); gr
  · (try simp only [hp]); gr
  · (try simp only [hp]); gr
  · (try simp only [hp]); gr
  · (try simp only [hp]); gr
  · (try simp only [hp]); gr
  · (try simp only [hp]); gr
  · (try simp only [hp]); gr
  · (try simp only [hp]); gr
  · (try simp only [hp]); gr
  · (try simp only [hp]); gr
  · (try simp only [hp]); gr
  · (try simp only [hp]); gr
  · (try simp only [hp]); gr
  · (try simp only [hp]); gr
  · (try simp only [hp]); gr
  · (try simp only [hp]); gr
  · (try simp only [hp]); gr
  · (try simp only [hp]); gr
  · intro u hu
    have h1 := i23 u
    (try simp only [hp])
    clear i1 i4 i5 i6 i7 i8 i9 i10 i11 i13 i15 i16 i18 i19 i20 i21 i22 i23 i24 i25 i26
    gr
  · (try simp only [hp]); gr
  · (try simp only [hp]); gr
  · (try simp only [hp]); gr
  · (try simp only [hp]); gr
  · (try simp only [hp]); gr
  · (try simp only [hp]); gr
  · (try simp only [hp]); gr

set_option maxHeartbeats 4000000 in
theorem Inv.leaveSigR {s : State} (iv : Inv s) {t m i : Nat} {g : Guard} {gs : List Guard} (hpc : s.pc t = .leave (i + 1)) (hs : s.stk t = g :: gs) (hm : g.mons[i]? = some m) (hr : s.recn m = 1) {x : Nat} {xs : List Nat} (hg : s.sig m = x :: xs)
    (hu : ∀ m' ∈ s.wm x, m' = m ∨ s.rd x m' = true) :
    Inv { s with owner := upd s.owner m (some x), recn := upd s.recn m 1, sig := upd s.sig m xs, rd := upd s.rd x (upd (s.rd x) m true),
                 pc := upd s.pc t (.lwake i (some x)) } := by
  have hd : ∀ x, dep (.leave (i + 1)) (s.stk t) x = dep (.leave i) (s.stk t) x + if m = x then 1 else 0 := by
    intro x; rw [hs, dep_leave, dep_leave, count_take_succ hm]; omega
  have hd2 : ∀ u x, dep (.lwake i u) (s.stk t) x = dep (.leave i) (s.stk t) x := by
    intro u x; rw [hs]; rfl
  have ho : s.owner m = some t := iv.own t m (by rw [hpc, hd]; simp) (by rw [hpc]; simp [relP])
  have hd3 : dep (.leave i) (s.stk t) m = 0 := by
    have := iv.rcn t m ho (by rw [hpc]; simp [waitP])
    rw [hpc, hd, hr] at this
    simp [atP] at this
    omega
  have hmk : s.mask m = none := by
    rcases Classical.em (s.mask m = none) with h | h
    · exact h
    · obtain ⟨a, h1, h2⟩ := iv.msk m h
      have h3 := (iv.sg a m h2).2.1
      rw [ho] at h1; cases h1
      rw [hpc] at h3; exact h3.elim
  have hp : ∀ v, pendP s.tok (upd s.pc t (.lwake i (some x))) v ↔ pendP s.tok s.pc v ∨ v = x := by
    intro v; rw [pend_add (by rw [hpc]; simp [wakes])]; simp [wakes]
  have hgx : x ∈ s.sig m := by rw [hg]; simp
  obtain ⟨hx1, hx0, hx7⟩ := iv.sg x m hgx
  have hx2 := relAll_relP hx0
  have hx3 : x ∉ xs ∧ xs.Nodup := by have := iv.sgN m; rw [hg] at this; grind
  have hx5 : ∀ c, x ∉ s.blocked c := fun c hc => (iv.blk x c hc).2.2 m |>.1 hgx
  have hx4 : ¬pendP s.tok s.pc x := by
    intro h
    rcases iv.pnd x h with ⟨m', h1, _⟩ | ⟨_, h1, _⟩
    · revert hx0 h1; cases s.pc x <;> simp [relAll, atP]
    · exact (h1 m hx1).2 hgx
  have hx6 : s.tok x = false ∧ ∀ v, x ∉ wakes (s.pc v) :=
    ⟨by cases h : s.tok x with | false => rfl | true => exact (hx4 (Or.inl h)).elim, fun v hv => hx4 (Or.inr ⟨v, hv⟩)⟩
  have hx8 : waitP (s.pc x) ∧ ∀ y, atP (s.pc x) (s.stk x) ≠ some y := by revert hx0; cases s.pc x <;> simp [relAll, waitP, atP]
  have hxt : x ≠ t := by rintro rfl; rw [hpc] at hx0; simp [relAll] at hx0
  obtain ⟨i1, i2, i3, i4, i5, i6, i7, i8, i9, i10, i11, i12, i13, i14, i15, i16, i17, i18, i19, i20, i21, i22, i23, i24, i25, i26, i27, i29, i30, i28⟩ := iv
  constructor
  · clear hu
    (try simp only [hp]); gr
  · clear hu
    (try simp only [hp]); gr
  · clear hu
    (try simp only [hp]); gr
  · clear hu
    (try simp only [hp]); gr
  · clear hu
    (try simp only [hp]); gr
  · clear hu
    (try simp only [hp]); gr
  · clear hu
    (try simp only [hp]); gr
  · clear hu
    (try simp only [hp]); gr
  · clear hu
    (try simp only [hp]); gr
  · clear hu
    (try simp only [hp]); gr
  · clear hu
    (try simp only [hp]); gr
  · clear hu
    (try simp only [hp]); gr
  · (try simp only [hp]); gr
  · clear hu
    (try simp only [hp]); gr
  · clear hu
    (try simp only [hp]); gr
  · clear hu
    (try simp only [hp]); gr
  · clear hu
    (try simp only [hp]); gr
  · clear hu
    (try simp only [hp]); gr
  · clear hu
    (try simp only [hp]); gr
  · clear hu
    (try simp only [hp]); gr
  · clear hu
    (try simp only [hp]); gr
  · clear hu
    (try simp only [hp]); gr
  · clear hu
    (try simp only [hp]); gr
  · clear hu
    (try simp only [hp]); gr
  · clear hu
    (try simp only [hp]); gr
  · clear hu
    (try simp only [hp]); gr
  · clear hu
    (try simp only [hp]); gr
  · clear hu
    (try simp only [hp]); gr
  · clear hu
    (try simp only [hp]); gr
  · clear hu
    (try simp only [hp]); gr

set_option maxHeartbeats 4000000 in
theorem Inv.leaveSigN {s : State} (iv : Inv s) {t m i : Nat} {g : Guard} {gs : List Guard} (hpc : s.pc t = .leave (i + 1)) (hs : s.stk t = g :: gs) (hm : g.mons[i]? = some m) (hr : s.recn m = 1) {x : Nat} {xs : List Nat} (hg : s.sig m = x :: xs)
    (hu : ∃ m' ∈ s.wm x, m' ≠ m ∧ s.rd x m' = false) :
    Inv { s with owner := upd s.owner m (some x), recn := upd s.recn m 1, sig := upd s.sig m xs, rd := upd s.rd x (upd (s.rd x) m true),
                 pc := upd s.pc t (.lwake i none) } := by
  have hd : ∀ x, dep (.leave (i + 1)) (s.stk t) x = dep (.leave i) (s.stk t) x + if m = x then 1 else 0 := by
    intro x; rw [hs, dep_leave, dep_leave, count_take_succ hm]; omega
  have hd2 : ∀ u x, dep (.lwake i u) (s.stk t) x = dep (.leave i) (s.stk t) x := by
    intro u x; rw [hs]; rfl
  have ho : s.owner m = some t := iv.own t m (by rw [hpc, hd]; simp) (by rw [hpc]; simp [relP])
  have hd3 : dep (.leave i) (s.stk t) m = 0 := by
    have := iv.rcn t m ho (by rw [hpc]; simp [waitP])
    rw [hpc, hd, hr] at this
    simp [atP] at this
    omega
  have hmk : s.mask m = none := by
    rcases Classical.em (s.mask m = none) with h | h
    · exact h
    · obtain ⟨a, h1, h2⟩ := iv.msk m h
      have h3 := (iv.sg a m h2).2.1
      rw [ho] at h1; cases h1
      rw [hpc] at h3; exact h3.elim
  have hp : ∀ u, pendP s.tok (upd s.pc t (.lwake i none)) u ↔ pendP s.tok s.pc u := pend_same (by rw [hpc]; rfl)
  have hgx : x ∈ s.sig m := by rw [hg]; simp
  obtain ⟨hx1, hx0, hx7⟩ := iv.sg x m hgx
  have hx2 := relAll_relP hx0
  have hx3 : x ∉ xs ∧ xs.Nodup := by have := iv.sgN m; rw [hg] at this; grind
  have hx5 : ∀ c, x ∉ s.blocked c := fun c hc => (iv.blk x c hc).2.2 m |>.1 hgx
  have hx4 : ¬pendP s.tok s.pc x := by
    intro h
    rcases iv.pnd x h with ⟨m', h1, _⟩ | ⟨_, h1, _⟩
    · revert hx0 h1; cases s.pc x <;> simp [relAll, atP]
    · exact (h1 m hx1).2 hgx
  have hx6 : s.tok x = false ∧ ∀ v, x ∉ wakes (s.pc v) :=
    ⟨by cases h : s.tok x with | false => rfl | true => exact (hx4 (Or.inl h)).elim, fun v hv => hx4 (Or.inr ⟨v, hv⟩)⟩
  have hx8 : waitP (s.pc x) ∧ ∀ y, atP (s.pc x) (s.stk x) ≠ some y := by revert hx0; cases s.pc x <;> simp [relAll, waitP, atP]
  have hxt : x ≠ t := by rintro rfl; rw [hpc] at hx0; simp [relAll] at hx0
  obtain ⟨m1, hm1, hm2, hm3⟩ := hu
  obtain ⟨i1, i2, i3, i4, i5, i6, i7, i8, i9, i10, i11, i12, i13, i14, i15, i16, i17, i18, i19, i20, i21, i22, i23, i24, i25, i26, i27, i29, i30, i28⟩ := iv
  constructor
  · clear hm1 hm2 hm3
    (try simp only [hp]); gr
  · clear hm1 hm2 hm3
    (try simp only [hp]); gr
  · clear hm1 hm2 hm3
    (try simp only [hp]); gr
  · clear hm1 hm2 hm3
    (try simp only [hp]); gr
  · clear hm1 hm2 hm3
    (try simp only [hp]); gr
  · clear hm1 hm2 hm3
    (try simp only [hp]); gr
  · clear hm1 hm2 hm3
    (try simp only [hp]); gr
  · clear hm1 hm2 hm3
    (try simp only [hp]); gr
  · clear hm1 hm2 hm3
    (try simp only [hp]); gr
  · clear hm1 hm2 hm3
    (try simp only [hp]); gr
  · clear hm1 hm2 hm3
    (try simp only [hp]); gr
  · clear hm1 hm2 hm3
    (try simp only [hp]); gr
  · clear hm1 hm2 hm3
    (try simp only [hp]); gr
  · clear hm1 hm2 hm3
    (try simp only [hp]); gr
  · clear hm1 hm2 hm3
    (try simp only [hp]); gr
  · clear hm1 hm2 hm3
    (try simp only [hp]); gr
  · clear hm1 hm2 hm3
    (try simp only [hp]); gr
  · clear hm1 hm2 hm3
    (try simp only [hp]); gr
  · clear hm1 hm2 hm3
    (try simp only [hp]); gr
  · clear hm1 hm2 hm3
    (try simp only [hp]); gr
  · clear hm1 hm2 hm3
    (try simp only [hp]); gr
  · clear hm1 hm2 hm3
    (try simp only [hp]); gr
  · intro u hu
    have h1 := i23 u
    (try simp only [hp])
    clear i1 i4 i5 i6 i7 i8 i9 i10 i11 i13 i15 i16 i18 i19 i20 i21 i22 i23 i24 i25 i26
    gr
  · clear hm1 hm2 hm3
    (try simp only [hp]); gr
  · clear hm1 hm2 hm3
    (try simp only [hp]); gr
  · clear hm1 hm2 hm3
    (try simp only [hp]); gr
  · clear hm1 hm2 hm3
    (try simp only [hp]); gr
  · clear hm1 hm2 hm3
    (try simp only [hp]); gr
  · clear hm1 hm2 hm3
    (try simp only [hp]); gr
  · clear hm1 hm2 hm3
    (try simp only [hp]); gr

set_option maxHeartbeats 4000000 in
theorem Inv.leaveEnt {s : State} (iv : Inv s) {t m i : Nat} {g : Guard} {gs : List Guard} (hpc : s.pc t = .leave (i + 1)) (hs : s.stk t = g :: gs) (hm : g.mons[i]? = some m) (hr : s.recn m = 1) {x : Nat} {xs : List Nat} (hg : s.sig m = []) (he : s.entry m = x :: xs) :
    Inv { s with owner := upd s.owner m (some x), recn := upd s.recn m 1, entry := upd s.entry m xs,
                 pc := upd s.pc t (.lwake i (some x)) } := by
  have hd : ∀ x, dep (.leave (i + 1)) (s.stk t) x = dep (.leave i) (s.stk t) x + if m = x then 1 else 0 := by
    intro x; rw [hs, dep_leave, dep_leave, count_take_succ hm]; omega
  have hd2 : ∀ u x, dep (.lwake i u) (s.stk t) x = dep (.leave i) (s.stk t) x := by
    intro u x; rw [hs]; rfl
  have ho : s.owner m = some t := iv.own t m (by rw [hpc, hd]; simp) (by rw [hpc]; simp [relP])
  have hd3 : dep (.leave i) (s.stk t) m = 0 := by
    have := iv.rcn t m ho (by rw [hpc]; simp [waitP])
    rw [hpc, hd, hr] at this
    simp [atP] at this
    omega
  have hmk : s.mask m = none := by
    rcases Classical.em (s.mask m = none) with h | h
    · exact h
    · obtain ⟨a, h1, h2⟩ := iv.msk m h
      have h3 := (iv.sg a m h2).2.1
      rw [ho] at h1; cases h1
      rw [hpc] at h3; exact h3.elim
  have hp : ∀ v, pendP s.tok (upd s.pc t (.lwake i (some x))) v ↔ pendP s.tok s.pc v ∨ v = x := by
    intro v; rw [pend_add (by rw [hpc]; simp [wakes])]; simp [wakes]
  have hex : x ∈ s.entry m := by rw [he]; simp
  obtain ⟨hx1, hx2, hx4⟩ := iv.en x m hex
  have hx6 : s.tok x = false ∧ ∀ v, x ∉ wakes (s.pc v) :=
    ⟨by cases h : s.tok x with | false => rfl | true => exact (hx4 (Or.inl h)).elim, fun v hv => hx4 (Or.inr ⟨v, hv⟩)⟩
  have hx3 : x ∉ xs ∧ xs.Nodup := by have := iv.enN m; rw [he] at this; grind
  have hx8 : ¬waitP (s.pc x) ∧ ∀ y, ¬relP (s.pc x) y := by revert hx1; cases s.pc x <;> simp [relP, waitP, atP]
  have hx7 : dep (s.pc x) (s.stk x) m = 0 := by
    rcases Nat.eq_zero_or_pos (dep (s.pc x) (s.stk x) m) with h | h
    · exact h
    · exact (hx2 (iv.own x m h (fun h => hx8.2 m h.2))).elim
  have hxt : x ≠ t := by rintro rfl; rw [hpc] at hx1; simp [atP] at hx1
  obtain ⟨i1, i2, i3, i4, i5, i6, i7, i8, i9, i10, i11, i12, i13, i14, i15, i16, i17, i18, i19, i20, i21, i22, i23, i24, i25, i26, i27, i29, i30, i28⟩ := iv
  constructor
  · (try simp only [hp]); gr
  · (try simp only [hp]); gr
  · (try simp only [hp]); gr
  · (try simp only [hp]); gr
  · (try simp only [hp]); gr
  · (try simp only [hp]); gr
  · (try simp only [hp]); gr
  · (try simp only [hp]); gr
  · (try simp only [hp]); gr
  · (try simp only [hp]); gr
  · (try simp only [hp]); gr
  · (try simp only [hp]); gr
  · (try simp only [hp]); gr
  · (try simp only [hp]); gr
  · (try simp only [hp]); gr
  · (try simp only [hp]); gr
  · (try simp only [hp]); gr
  · (try simp only [hp]); gr
  · (try simp only [hp]); gr
  · (try simp only [hp]); gr
  · (try simp only [hp]); gr
  · (try simp only [hp]); gr
  · intro u hu
    have h1 := i23 u
    (try simp only [hp])
    clear i1 i4 i5 i6 i7 i8 i9 i10 i11 i13 i15 i16 i18 i19 i20 i21 i22 i23 i24 i25 i26
    gr
  · (try simp only [hp]); gr
  · (try simp only [hp]); gr
  · (try simp only [hp]); gr
  · (try simp only [hp]); gr
  · (try simp only [hp]); gr
  · (try simp only [hp]); gr
  · (try simp only [hp]); gr

set_option maxHeartbeats 4000000 in
theorem Inv.leaveNone {s : State} (iv : Inv s) {t m i : Nat} {g : Guard} {gs : List Guard} (hpc : s.pc t = .leave (i + 1)) (hs : s.stk t = g :: gs) (hm : g.mons[i]? = some m) (hr : s.recn m = 1) (hg : s.sig m = []) (he : s.entry m = []) :
    Inv { s with owner := upd s.owner m none, recn := upd s.recn m 0, pc := upd s.pc t (.lwake i none) } := by
  have hd : ∀ x, dep (.leave (i + 1)) (s.stk t) x = dep (.leave i) (s.stk t) x + if m = x then 1 else 0 := by
    intro x; rw [hs, dep_leave, dep_leave, count_take_succ hm]; omega
  have hd2 : ∀ u x, dep (.lwake i u) (s.stk t) x = dep (.leave i) (s.stk t) x := by
    intro u x; rw [hs]; rfl
  have ho : s.owner m = some t := iv.own t m (by rw [hpc, hd]; simp) (by rw [hpc]; simp [relP])
  have hd3 : dep (.leave i) (s.stk t) m = 0 := by
    have := iv.rcn t m ho (by rw [hpc]; simp [waitP])
    rw [hpc, hd, hr] at this
    simp [atP] at this
    omega
  have hmk : s.mask m = none := by
    rcases Classical.em (s.mask m = none) with h | h
    · exact h
    · obtain ⟨a, h1, h2⟩ := iv.msk m h
      have h3 := (iv.sg a m h2).2.1
      rw [ho] at h1; cases h1
      rw [hpc] at h3; exact h3.elim
  have hp : ∀ u, pendP s.tok (upd s.pc t (.lwake i none)) u ↔ pendP s.tok s.pc u := pend_same (by rw [hpc]; rfl)
  obtain ⟨i1, i2, i3, i4, i5, i6, i7, i8, i9, i10, i11, i12, i13, i14, i15, i16, i17, i18, i19, i20, i21, i22, i23, i24, i25, i26, i27, i29, i30, i28⟩ := iv
  constructor
  · (try simp only [hp]); gr
  · (try simp only [hp]); gr
  · (try simp only [hp]); gr
  · (try simp only [hp]); gr
  · (try simp only [hp]); gr
  · (try simp only [hp]); gr
  · (try simp only [hp]); gr
  · (try simp only [hp]); gr
  · (try simp only [hp]); gr
  · (try simp only [hp]); gr
  · (try simp only [hp]); gr
  · (try simp only [hp]); gr
  · (try simp only [hp]); gr
  · (try simp only [hp]); gr
  · (try simp only [hp]); gr
  · (try simp only [hp]); gr
  · (try simp only [hp]); gr
  · (try simp only [hp]); gr
  · (try simp only [hp]); gr
  · (try simp only [hp]); gr
  · (try simp only [hp]); gr
  · (try simp only [hp]); gr
  · intro u hu
    have h1 := i23 u
    (try simp only [hp])
    clear i1 i4 i5 i6 i7 i8 i9 i10 i11 i13 i15 i16 i18 i19 i20 i21 i22 i23 i24 i25 i26
    gr
  · (try simp only [hp]); gr
  · (try simp only [hp]); gr
  · (try simp only [hp]); gr
  · (try simp only [hp]); gr
  · (try simp only [hp]); gr
  · (try simp only [hp]); gr
  · (try simp only [hp]); gr

set_option maxHeartbeats 4000000 in
theorem Inv.lwakeNone {s : State} (iv : Inv s) {t i : Nat} (hpc : s.pc t = .lwake i none) : Inv { s with pc := upd s.pc t (.leave i) } := by
  have hd : ∀ x, dep (.leave i) (s.stk t) x = dep (.lwake i none) (s.stk t) x := by
    intro x; cases s.stk t <;> rfl
  have hp : ∀ u, pendP s.tok (upd s.pc t (.leave i)) u ↔ pendP s.tok s.pc u := pend_same (by rw [hpc]; rfl)
  obtain ⟨i1, i2, i3, i4, i5, i6, i7, i8, i9, i10, i11, i12, i13, i14, i15, i16, i17, i18, i19, i20, i21, i22, i23, i24, i25, i26, i27, i29, i30, i28⟩ := iv
  constructor
  · (try simp only [hp]); gr
  · (try simp only [hp]); gr
  · (try simp only [hp]); gr
  · (try simp only [hp]); gr
  · (try simp only [hp]); gr
  · (try simp only [hp]); gr
  · (try simp only [hp]); gr
  · (try simp only [hp]); gr
  · (try simp only [hp]); gr
  · (try simp only [hp]); gr
  · (try simp only [hp]); gr
  · (try simp only [hp]); gr
  · (try simp only [hp]); gr
  · (try simp only [hp]); gr
  · (try simp only [hp]); gr
  · (try simp only [hp]); gr
  · (try simp only [hp]); gr
  · (try simp only [hp]); gr
  · (try simp only [hp]); gr
  · (try simp only [hp]); gr
  · (try simp only [hp]); gr
  · (try simp only [hp]); gr
  · intro u hu
    have h1 := i23 u
    (try simp only [hp])
    clear i1 i4 i5 i6 i7 i8 i9 i10 i11 i13 i15 i16 i18 i19 i20 i21 i22 i23 i24 i25 i26
    gr
  · (try simp only [hp]); gr
  · (try simp only [hp]); gr
  · (try simp only [hp]); gr
  · (try simp only [hp]); gr
  · (try simp only [hp]); gr
  · (try simp only [hp]); gr
  · (try simp only [hp]); gr

set_option maxHeartbeats 4000000 in
theorem Inv.lwakeSome {s : State} (iv : Inv s) {t i x : Nat} (hpc : s.pc t = .lwake i (some x)) :
    Inv { s with tok := upd s.tok x true, pc := upd s.pc t (.leave i) } := by
  have hd : ∀ y, dep (.leave i) (s.stk t) y = dep (.lwake i (some x)) (s.stk t) y := by
    intro x; cases s.stk t <;> rfl
  have hp : ∀ v, pendP (upd s.tok x true) (upd s.pc t (.leave i)) v ↔ pendP s.tok s.pc v := pend_move (by rw [hpc]; rfl)
  obtain ⟨i1, i2, i3, i4, i5, i6, i7, i8, i9, i10, i11, i12, i13, i14, i15, i16, i17, i18, i19, i20, i21, i22, i23, i24, i25, i26, i27, i29, i30, i28⟩ := iv
  constructor
  · (try simp only [hp]); gr
  · (try simp only [hp]); gr
  · (try simp only [hp]); gr
  · (try simp only [hp]); gr
  · (try simp only [hp]); gr
  · (try simp only [hp]); gr
  · (try simp only [hp]); gr
  · (try simp only [hp]); gr
  · (try simp only [hp]); gr
  · (try simp only [hp]); gr
  · (try simp only [hp]); gr
  · (try simp only [hp]); gr
  · (try simp only [hp]); gr
  · (try simp only [hp]); gr
  · (try simp only [hp]); gr
  · (try simp only [hp]); gr
  · (try simp only [hp]); gr
  · (try simp only [hp]); gr
  · (try simp only [hp]); gr
  · (try simp only [hp]); gr
  · (try simp only [hp]); gr
  · (try simp only [hp]); gr
  · intro u hu
    have h1 := i23 u
    (try simp only [hp])
    clear i1 i4 i5 i6 i7 i8 i9 i10 i11 i13 i15 i16 i18 i19 i20 i21 i22 i23 i24 i25 i26
    gr
  · (try simp only [hp]); gr
  · (try simp only [hp]); gr
  · (try simp only [hp]); gr
  · (try simp only [hp]); gr
  · (try simp only [hp]); gr
  · (try simp only [hp]); gr
  · (try simp only [hp]); gr

set_option maxHeartbeats 4000000 in
theorem Inv.wakeOne {s : State} (iv : Inv s) {t x : Nat} {us : List Nat} (hpc : s.pc t = .rel [] (x :: us)) :
    Inv { s with tok := upd s.tok x true, pc := upd s.pc t (.rel [] us) } := by
  have hd : ∀ y, dep (.rel [] us) (s.stk t) y = dep (.rel [] (x :: us)) (s.stk t) y := by
    intro x; cases s.stk t <;> rfl
  have hp : ∀ v, pendP (upd s.tok x true) (upd s.pc t (.rel [] us)) v ↔ pendP s.tok s.pc v := pend_move (by rw [hpc]; rfl)
  obtain ⟨i1, i2, i3, i4, i5, i6, i7, i8, i9, i10, i11, i12, i13, i14, i15, i16, i17, i18, i19, i20, i21, i22, i23, i24, i25, i26, i27, i29, i30, i28⟩ := iv
  constructor
  · (try simp only [hp]); gr
  · (try simp only [hp]); gr
  · (try simp only [hp]); gr
  · (try simp only [hp]); gr
  · (try simp only [hp]); gr
  · (try simp only [hp]); gr
  · (try simp only [hp]); gr
  · (try simp only [hp]); gr
  · (try simp only [hp]); gr
  · (try simp only [hp]); gr
  · (try simp only [hp]); gr
  · (try simp only [hp]); gr
  · (try simp only [hp]); gr
  · (try simp only [hp]); gr
  · (try simp only [hp]); gr
  · (try simp only [hp]); gr
  · (try simp only [hp]); gr
  · (try simp only [hp]); gr
  · (try simp only [hp]); gr
  · (try simp only [hp]); gr
  · (try simp only [hp]); gr
  · (try simp only [hp]); gr
  · intro u hu
    have h1 := i23 u
    (try simp only [hp])
    clear i1 i4 i5 i6 i7 i8 i9 i10 i11 i13 i15 i16 i18 i19 i20 i21 i22 i23 i24 i25 i26
    gr
  · (try simp only [hp]); gr
  · (try simp only [hp]); gr
  · (try simp only [hp]); gr
  · (try simp only [hp]); gr
  · (try simp only [hp]); gr
  · (try simp only [hp]); gr
  · (try simp only [hp]); gr

set_option maxHeartbeats 4000000 in
theorem Inv.toPark {s : State} (iv : Inv s) {t : Nat} (hpc : s.pc t = .rel [] []) : Inv { s with pc := upd s.pc t .park } := by
  have hd : ∀ y, dep .park (s.stk t) y = dep (.rel [] []) (s.stk t) y := by
    intro x; cases s.stk t <;> rfl
  have hp : ∀ u, pendP s.tok (upd s.pc t (.park)) u ↔ pendP s.tok s.pc u := pend_same (by rw [hpc]; rfl)
  obtain ⟨i1, i2, i3, i4, i5, i6, i7, i8, i9, i10, i11, i12, i13, i14, i15, i16, i17, i18, i19, i20, i21, i22, i23, i24, i25, i26, i27, i29, i30, i28⟩ := iv
  constructor
  · (try simp only [hp]); gr
  · (try simp only [hp]); gr
  · (try simp only [hp]); gr
  · (try simp only [hp]); gr
  · (try simp only [hp]); gr
  · (try simp only [hp]); gr
  · (try simp only [hp]); gr
  · (try simp only [hp]); gr
  · (try simp only [hp]); gr
  · (try simp only [hp]); gr
  · (try simp only [hp]); gr
  · (try simp only [hp]); gr
  · (try simp only [hp]); gr
  · (try simp only [hp]); gr
  · (try simp only [hp]); gr
  · (try simp only [hp]); gr
  · (try simp only [hp]); gr
  · (try simp only [hp]); gr
  · (try simp only [hp]); gr
  · (try simp only [hp]); gr
  · (try simp only [hp]); gr
  · (try simp only [hp]); gr
  · intro u hu
    have h1 := i23 u
    (try simp only [hp])
    clear i1 i4 i5 i6 i7 i8 i9 i10 i11 i13 i15 i16 i18 i19 i20 i21 i22 i23 i24 i25 i26
    gr
  · (try simp only [hp]); gr
  · (try simp only [hp]); gr
  · (try simp only [hp]); gr
  · (try simp only [hp]); gr
  · (try simp only [hp]); gr
  · (try simp only [hp]); gr
  · (try simp only [hp]); gr

set_option maxHeartbeats 4000000 in
theorem Inv.park {s : State} (iv : Inv s) {t : Nat} (hpc : s.pc t = .park) (hk : s.tok t = true) :
    Inv { s with tok := upd s.tok t false, pc := upd s.pc t .restore } := by
  have hd : ∀ y, dep .restore (s.stk t) y = dep .park (s.stk t) y := by
    intro x; cases s.stk t <;> rfl
  have hp : ∀ u, pendP (upd s.tok t false) (upd s.pc t .restore) u ↔ pendP s.tok s.pc u ∧ u ≠ t :=
    pend_consume rfl (by rw [hpc]; rfl) (fun v hv => by have := iv.trT v t hv; grind)
  have hpt := iv.pnd t (Or.inl hk)
  rw [hpc] at hpt
  obtain ⟨i1, i2, i3, i4, i5, i6, i7, i8, i9, i10, i11, i12, i13, i14, i15, i16, i17, i18, i19, i20, i21, i22, i23, i24, i25, i26, i27, i29, i30, i28⟩ := iv
  constructor
  · (try simp only [hp]); gr
  · (try simp only [hp]); gr
  · (try simp only [hp]); gr
  · (try simp only [hp]); gr
  · (try simp only [hp]); gr
  · (try simp only [hp]); gr
  · (try simp only [hp]); gr
  · (try simp only [hp]); gr
  · (try simp only [hp]); gr
  · (try simp only [hp]); gr
  · (try simp only [hp]); gr
  · (try simp only [hp]); gr
  · (try simp only [hp]); gr
  · (try simp only [hp]); gr
  · (try simp only [hp]); gr
  · (try simp only [hp]); gr
  · (try simp only [hp]); gr
  · (try simp only [hp]); gr
  · (try simp only [hp]); gr
  · (try simp only [hp]); gr
  · (try simp only [hp]); gr
  · (try simp only [hp]); gr
  · intro u hu
    have h1 := i23 u
    (try simp only [hp])
    clear i1 i4 i5 i6 i7 i8 i9 i10 i11 i13 i15 i16 i18 i19 i20 i21 i22 i23 i24 i25 i26
    gr
  · (try simp only [hp]); gr
  · (try simp only [hp]); gr
  · (try simp only [hp]); gr
  · (try simp only [hp]); gr
  · (try simp only [hp]); gr
  · (try simp only [hp]); gr
  · (try simp only [hp]); gr

set_option maxHeartbeats 4000000 in
theorem Inv.restore {s : State} (iv : Inv s) {t : Nat} (hpc : s.pc t = .restore) :
    Inv { s with recn := fun m => if m ∈ s.wm t then s.sv t m else s.recn m, mask := fun m => if m ∈ s.wm t then s.svm t m else s.mask m,
                 pc := upd s.pc t .run } := by
  have hd : ∀ y, dep .run (s.stk t) y = dep .restore (s.stk t) y := by
    intro x; cases s.stk t <;> rfl
  have hot : ∀ m ∈ s.wm t, s.owner m = some t := fun m hm =>
    iv.own t m (iv.wmd t m 0 (by rw [hpc]; simp [waitP]) hm) (by rw [hpc]; simp [relP])
  have hp : ∀ u, pendP s.tok (upd s.pc t (.run)) u ↔ pendP s.tok s.pc u := pend_same (by rw [hpc]; rfl)
  obtain ⟨i1, i2, i3, i4, i5, i6, i7, i8, i9, i10, i11, i12, i13, i14, i15, i16, i17, i18, i19, i20, i21, i22, i23, i24, i25, i26, i27, i29, i30, i28⟩ := iv
  constructor
  · (try simp only [hp]); gr
  · (try simp only [hp]); gr
  · (try simp only [hp]); gr
  · (try simp only [hp]); gr
  · (try simp only [hp]); gr
  · (try simp only [hp]); gr
  · (try simp only [hp]); gr
  · (try simp only [hp]); gr
  · (try simp only [hp]); gr
  · (try simp only [hp]); gr
  · (try simp only [hp]); gr
  · (try simp only [hp]); gr
  · (try simp only [hp]); gr
  · (try simp only [hp]); gr
  · (try simp only [hp]); gr
  · (try simp only [hp]); gr
  · (try simp only [hp]); gr
  · (try simp only [hp]); gr
  · (try simp only [hp]); gr
  · (try simp only [hp]); gr
  · (try simp only [hp]); gr
  · (try simp only [hp]); gr
  · intro u hu
    have h1 := i23 u
    (try simp only [hp])
    clear i1 i4 i5 i6 i7 i8 i9 i10 i11 i13 i15 i16 i18 i19 i20 i21 i22 i23 i24 i25 i26
    gr
  · (try simp only [hp]); gr
  · (try simp only [hp]); gr
  · (try simp only [hp]); gr
  · (try simp only [hp]); gr
  · (try simp only [hp]); gr
  · (try simp only [hp]); gr
  · (try simp only [hp]); gr

set_option maxHeartbeats 4000000 in
theorem Inv.w1 {s : State} (iv : Inv s) {t c : Nat} (hpc : s.pc t = .w1 c) (hn : (s.wm t).Nodup) (hb : t ∈ s.blocked c) :
    Inv { s with sv := upd s.sv t s.recn, svm := upd s.svm t s.mask, pc := upd s.pc t (.rel (s.wm t) []) } := by
  have hd : ∀ y, dep (.rel (s.wm t) []) (s.stk t) y = dep (.w1 c) (s.stk t) y := by
    intro x; cases s.stk t <;> rfl
  have hp : ∀ u, pendP s.tok (upd s.pc t (.rel (s.wm t) [])) u ↔ pendP s.tok s.pc u := pend_same (by rw [hpc]; rfl)
  obtain ⟨i1, i2, i3, i4, i5, i6, i7, i8, i9, i10, i11, i12, i13, i14, i15, i16, i17, i18, i19, i20, i21, i22, i23, i24, i25, i26, i27, i29, i30, i28⟩ := iv
  constructor
  · (try simp only [hp]); gr
  · (try simp only [hp]); gr
  · (try simp only [hp]); gr
  · (try simp only [hp]); gr
  · (try simp only [hp]); gr
  · (try simp only [hp]); gr
  · (try simp only [hp]); gr
  · (try simp only [hp]); gr
  · (try simp only [hp]); gr
  · (try simp only [hp]); gr
  · (try simp only [hp]); gr
  · (try simp only [hp]); gr
  · (try simp only [hp]); gr
  · (try simp only [hp]); gr
  · (try simp only [hp]); gr
  · (try simp only [hp]); gr
  · (try simp only [hp]); gr
  · (try simp only [hp]); gr
  · (try simp only [hp]); gr
  · (try simp only [hp]); gr
  · (try simp only [hp]); gr
  · (try simp only [hp]); gr
  · intro u hu
    have h1 := i23 u
    (try simp only [hp])
    clear i1 i4 i5 i6 i7 i8 i9 i10 i11 i13 i15 i16 i18 i19 i20 i21 i22 i23 i24 i25 i26
    gr
  · (try simp only [hp]); gr
  · (try simp only [hp]); gr
  · (try simp only [hp]); gr
  · (try simp only [hp]); gr
  · (try simp only [hp]); gr
  · (try simp only [hp]); gr
  · (try simp only [hp]); gr

set_option maxHeartbeats 4000000 in
theorem Inv.relSigR {s : State} (iv : Inv s) {t m : Nat} {ms ts : List Nat} (hpc : s.pc t = .rel (m :: ms) ts) {x : Nat} {ts' : List Nat} (hts : ∀ y, y ∈ ts' ↔ y ∈ ts ∨ y = x) (htn : ts'.Nodup) {xs : List Nat} (hg : s.sig m = x :: xs)
    (hu : ∀ m' ∈ s.wm x, m' = m ∨ s.rd x m' = true) :
    Inv { s with owner := upd s.owner m (some x), recn := upd s.recn m 1, sig := upd s.sig m xs, rd := upd s.rd x (upd (s.rd x) m true),
                 pc := upd s.pc t (.rel ms ts') } := by
  have hd : ∀ y, dep (.rel ms ts') (s.stk t) y = dep (.rel (m :: ms) ts) (s.stk t) y := by
    intro x; cases s.stk t <;> rfl
  have hmw : m ∈ s.wm t := (iv.relN t).2 m (by rw [hpc]; simp [toRel])
  have ho : s.owner m = some t := iv.own t m (iv.wmd t m 0 (by rw [hpc]; simp [waitP]) hmw) (by rw [hpc]; simp [relP])
  have hmm : m ∉ ms ∧ ms.Nodup ∧ ∀ y ∈ ms, y ∈ s.wm t := by have := iv.relN t; rw [hpc] at this; simp [toRel] at this; grind
  have hmk : s.mask m = none := by
    rcases Classical.em (s.mask m = none) with h | h
    · exact h
    · obtain ⟨a, h1, h2⟩ := iv.msk m h
      have h3 := relAll_relP (iv.sg a m h2).2.1 m
      rw [ho] at h1; cases h1
      rw [hpc] at h3; simp [relP] at h3
  have hp : ∀ v, pendP s.tok (upd s.pc t (.rel ms ts')) v ↔ pendP s.tok s.pc v ∨ v = x := by
    intro v
    rw [pend_add (by rw [hpc]; simp only [wakes]; grind)]
    simp only [wakes, hts]
    constructor
    · rintro (h | h | h)
      · exact Or.inl h
      · exact Or.inl (Or.inr ⟨t, by rw [hpc]; exact h⟩)
      · exact Or.inr h
    · rintro (h | h)
      · exact Or.inl h
      · exact Or.inr (Or.inr h)
  have hgx : x ∈ s.sig m := by rw [hg]; simp
  obtain ⟨hx1, hx0, hx7⟩ := iv.sg x m hgx
  have hx2 := relAll_relP hx0
  have hx3 : x ∉ xs ∧ xs.Nodup := by have := iv.sgN m; rw [hg] at this; grind
  have hx5 : ∀ c, x ∉ s.blocked c := fun c hc => (iv.blk x c hc).2.2 m |>.1 hgx
  have hx4 : ¬pendP s.tok s.pc x := by
    intro h
    rcases iv.pnd x h with ⟨m', h1, _⟩ | ⟨_, h1, _⟩
    · revert hx0 h1; cases s.pc x <;> simp [relAll, atP]
    · exact (h1 m hx1).2 hgx
  have hx6 : s.tok x = false ∧ ∀ v, x ∉ wakes (s.pc v) :=
    ⟨by cases h : s.tok x with | false => rfl | true => exact (hx4 (Or.inl h)).elim, fun v hv => hx4 (Or.inr ⟨v, hv⟩)⟩
  have hx8 : waitP (s.pc x) ∧ ∀ y, atP (s.pc x) (s.stk x) ≠ some y := by revert hx0; cases s.pc x <;> simp [relAll, waitP, atP]
  have hxt : x ≠ t := by rintro rfl; rw [hpc] at hx0; simp [relAll] at hx0
  obtain ⟨i1, i2, i3, i4, i5, i6, i7, i8, i9, i10, i11, i12, i13, i14, i15, i16, i17, i18, i19, i20, i21, i22, i23, i24, i25, i26, i27, i29, i30, i28⟩ := iv
  constructor
  · clear hu
    (try simp only [hp]); gr
  · clear hu
    (try simp only [hp]); gr
  · clear hu
    (try simp only [hp]); gr
  · clear hu
    (try simp only [hp]); gr
  · clear hu
    (try simp only [hp]); gr
  · clear hu
    (try simp only [hp]); gr
  · clear hu
    (try simp only [hp]); gr
  · clear hu
    (try simp only [hp]); gr
  · clear hu
    (try simp only [hp]); gr
  · clear hu
    (try simp only [hp]); gr
  · clear hu
    (try simp only [hp]); gr
  · clear hu
    (try simp only [hp]); gr
  · (try simp only [hp]); gr
  · clear hu
    (try simp only [hp]); gr
  · clear hu
    (try simp only [hp]); gr
  · clear hu
    (try simp only [hp]); gr
  · clear hu
    (try simp only [hp]); gr
  · clear hu
    (try simp only [hp]); gr
  · clear hu
    (try simp only [hp]); gr
  · clear hu
    (try simp only [hp]); gr
  · clear hu
    (try simp only [hp]); gr
  · clear hu
    (try simp only [hp]); gr
  · clear hu
    (try simp only [hp]); gr
  · clear hu
    (try simp only [hp]); gr
  · clear hu
    (try simp only [hp]); gr
  · clear hu
    (try simp only [hp]); gr
  · clear hu
    (try simp only [hp]); gr
  · clear hu
    (try simp only [hp]); gr
  · clear hu
    (try simp only [hp]); gr
  · clear hu
    (try simp only [hp]); gr

set_option maxHeartbeats 4000000 in
theorem Inv.relSigN {s : State} (iv : Inv s) {t m : Nat} {ms ts : List Nat} (hpc : s.pc t = .rel (m :: ms) ts) {x : Nat} {xs : List Nat} (hg : s.sig m = x :: xs)
    (hu : ∃ m' ∈ s.wm x, m' ≠ m ∧ s.rd x m' = false) :
    Inv { s with owner := upd s.owner m (some x), recn := upd s.recn m 1, sig := upd s.sig m xs, rd := upd s.rd x (upd (s.rd x) m true),
                 pc := upd s.pc t (.rel ms ts) } := by
  have hd : ∀ y, dep (.rel ms ts) (s.stk t) y = dep (.rel (m :: ms) ts) (s.stk t) y := by
    intro x; cases s.stk t <;> rfl
  have hmw : m ∈ s.wm t := (iv.relN t).2 m (by rw [hpc]; simp [toRel])
  have ho : s.owner m = some t := iv.own t m (iv.wmd t m 0 (by rw [hpc]; simp [waitP]) hmw) (by rw [hpc]; simp [relP])
  have hmm : m ∉ ms ∧ ms.Nodup ∧ ∀ y ∈ ms, y ∈ s.wm t := by have := iv.relN t; rw [hpc] at this; simp [toRel] at this; grind
  have hmk : s.mask m = none := by
    rcases Classical.em (s.mask m = none) with h | h
    · exact h
    · obtain ⟨a, h1, h2⟩ := iv.msk m h
      have h3 := relAll_relP (iv.sg a m h2).2.1 m
      rw [ho] at h1; cases h1
      rw [hpc] at h3; simp [relP] at h3
  have hp : ∀ u, pendP s.tok (upd s.pc t (.rel ms ts)) u ↔ pendP s.tok s.pc u := pend_same (by rw [hpc]; rfl)
  have hgx : x ∈ s.sig m := by rw [hg]; simp
  obtain ⟨hx1, hx0, hx7⟩ := iv.sg x m hgx
  have hx2 := relAll_relP hx0
  have hx3 : x ∉ xs ∧ xs.Nodup := by have := iv.sgN m; rw [hg] at this; grind
  have hx5 : ∀ c, x ∉ s.blocked c := fun c hc => (iv.blk x c hc).2.2 m |>.1 hgx
  have hx4 : ¬pendP s.tok s.pc x := by
    intro h
    rcases iv.pnd x h with ⟨m', h1, _⟩ | ⟨_, h1, _⟩
    · revert hx0 h1; cases s.pc x <;> simp [relAll, atP]
    · exact (h1 m hx1).2 hgx
  have hx6 : s.tok x = false ∧ ∀ v, x ∉ wakes (s.pc v) :=
    ⟨by cases h : s.tok x with | false => rfl | true => exact (hx4 (Or.inl h)).elim, fun v hv => hx4 (Or.inr ⟨v, hv⟩)⟩
  have hx8 : waitP (s.pc x) ∧ ∀ y, atP (s.pc x) (s.stk x) ≠ some y := by revert hx0; cases s.pc x <;> simp [relAll, waitP, atP]
  have hxt : x ≠ t := by rintro rfl; rw [hpc] at hx0; simp [relAll] at hx0
  obtain ⟨m1, hm1, hm2, hm3⟩ := hu
  obtain ⟨i1, i2, i3, i4, i5, i6, i7, i8, i9, i10, i11, i12, i13, i14, i15, i16, i17, i18, i19, i20, i21, i22, i23, i24, i25, i26, i27, i29, i30, i28⟩ := iv
  constructor
  · clear hm1 hm2 hm3
    (try simp only [hp]); gr
  · clear hm1 hm2 hm3
    (try simp only [hp]); gr
  · clear hm1 hm2 hm3
    (try simp only [hp]); gr
  · clear hm1 hm2 hm3
    (try simp only [hp]); gr
  · clear hm1 hm2 hm3
    (try simp only [hp]); gr
  · clear hm1 hm2 hm3
    (try simp only [hp]); gr
  · clear hm1 hm2 hm3
    (try simp only [hp]); gr
  · clear hm1 hm2 hm3
    (try simp only [hp]); gr
  · clear hm1 hm2 hm3
    (try simp only [hp]); gr
  · clear hm1 hm2 hm3
    (try simp only [hp]); gr
  · clear hm1 hm2 hm3
    (try simp only [hp]); gr
  · clear hm1 hm2 hm3
    (try simp only [hp]); gr
  · clear hm1 hm2 hm3
    (try simp only [hp]); gr
  · clear hm1 hm2 hm3
    (try simp only [hp]); gr
  · clear hm1 hm2 hm3
    (try simp only [hp]); gr
  · clear hm1 hm2 hm3
    (try simp only [hp]); gr
  · clear hm1 hm2 hm3
    (try simp only [hp]); gr
  · clear hm1 hm2 hm3
    (try simp only [hp]); gr
  · clear hm1 hm2 hm3
    (try simp only [hp]); gr
  · clear hm1 hm2 hm3
    (try simp only [hp]); gr
  · clear hm1 hm2 hm3
    (try simp only [hp]); gr
  · clear hm1 hm2 hm3
    (try simp only [hp]); gr
  · intro u hu
    have h1 := i23 u
    (try simp only [hp])
    clear i1 i4 i5 i6 i7 i8 i9 i10 i11 i13 i15 i16 i18 i19 i20 i21 i22 i23 i24 i25 i26
    gr
  · clear hm1 hm2 hm3
    (try simp only [hp]); gr
  · clear hm1 hm2 hm3
    (try simp only [hp]); gr
  · clear hm1 hm2 hm3
    (try simp only [hp]); gr
  · clear hm1 hm2 hm3
    (try simp only [hp]); gr
  · clear hm1 hm2 hm3
    (try simp only [hp]); gr
  · clear hm1 hm2 hm3
    (try simp only [hp]); gr
  · clear hm1 hm2 hm3
    (try simp only [hp]); gr

set_option maxHeartbeats 4000000 in
theorem Inv.relEnt {s : State} (iv : Inv s) {t m : Nat} {ms ts : List Nat} (hpc : s.pc t = .rel (m :: ms) ts) {x : Nat} {ts' : List Nat} (hts : ∀ y, y ∈ ts' ↔ y ∈ ts ∨ y = x) (htn : ts'.Nodup) {xs : List Nat} (hg : s.sig m = []) (he : s.entry m = x :: xs) :
    Inv { s with owner := upd s.owner m (some x), recn := upd s.recn m 1, entry := upd s.entry m xs,
                 pc := upd s.pc t (.rel ms ts') } := by
  have hd : ∀ y, dep (.rel ms ts') (s.stk t) y = dep (.rel (m :: ms) ts) (s.stk t) y := by
    intro x; cases s.stk t <;> rfl
  have hmw : m ∈ s.wm t := (iv.relN t).2 m (by rw [hpc]; simp [toRel])
  have ho : s.owner m = some t := iv.own t m (iv.wmd t m 0 (by rw [hpc]; simp [waitP]) hmw) (by rw [hpc]; simp [relP])
  have hmm : m ∉ ms ∧ ms.Nodup ∧ ∀ y ∈ ms, y ∈ s.wm t := by have := iv.relN t; rw [hpc] at this; simp [toRel] at this; grind
  have hmk : s.mask m = none := by
    rcases Classical.em (s.mask m = none) with h | h
    · exact h
    · obtain ⟨a, h1, h2⟩ := iv.msk m h
      have h3 := relAll_relP (iv.sg a m h2).2.1 m
      rw [ho] at h1; cases h1
      rw [hpc] at h3; simp [relP] at h3
  have hp : ∀ v, pendP s.tok (upd s.pc t (.rel ms ts')) v ↔ pendP s.tok s.pc v ∨ v = x := by
    intro v
    rw [pend_add (by rw [hpc]; simp only [wakes]; grind)]
    simp only [wakes, hts]
    constructor
    · rintro (h | h | h)
      · exact Or.inl h
      · exact Or.inl (Or.inr ⟨t, by rw [hpc]; exact h⟩)
      · exact Or.inr h
    · rintro (h | h)
      · exact Or.inl h
      · exact Or.inr (Or.inr h)
  have hex : x ∈ s.entry m := by rw [he]; simp
  obtain ⟨hx1, hx2, hx4⟩ := iv.en x m hex
  have hx6 : s.tok x = false ∧ ∀ v, x ∉ wakes (s.pc v) :=
    ⟨by cases h : s.tok x with | false => rfl | true => exact (hx4 (Or.inl h)).elim, fun v hv => hx4 (Or.inr ⟨v, hv⟩)⟩
  have hx3 : x ∉ xs ∧ xs.Nodup := by have := iv.enN m; rw [he] at this; grind
  have hx8 : ¬waitP (s.pc x) ∧ ∀ y, ¬relP (s.pc x) y := by revert hx1; cases s.pc x <;> simp [relP, waitP, atP]
  have hx7 : dep (s.pc x) (s.stk x) m = 0 := by
    rcases Nat.eq_zero_or_pos (dep (s.pc x) (s.stk x) m) with h | h
    · exact h
    · exact (hx2 (iv.own x m h (fun h => hx8.2 m h.2))).elim
  have hxt : x ≠ t := by rintro rfl; rw [hpc] at hx1; simp [atP] at hx1
  obtain ⟨i1, i2, i3, i4, i5, i6, i7, i8, i9, i10, i11, i12, i13, i14, i15, i16, i17, i18, i19, i20, i21, i22, i23, i24, i25, i26, i27, i29, i30, i28⟩ := iv
  constructor
  · (try simp only [hp]); gr
  · (try simp only [hp]); gr
  · (try simp only [hp]); gr
  · (try simp only [hp]); gr
  · (try simp only [hp]); gr
  · (try simp only [hp]); gr
  · (try simp only [hp]); gr
  · (try simp only [hp]); gr
  · (try simp only [hp]); gr
  · (try simp only [hp]); gr
  · (try simp only [hp]); gr
  · (try simp only [hp]); gr
  · (try simp only [hp]); gr
  · (try simp only [hp]); gr
  · (try simp only [hp]); gr
  · (try simp only [hp]); gr
  · (try simp only [hp]); gr
  · (try simp only [hp]); gr
  · (try simp only [hp]); gr
  · (try simp only [hp]); gr
  · (try simp only [hp]); gr
  · (try simp only [hp]); gr
  · intro u hu
    have h1 := i23 u
    (try simp only [hp])
    clear i1 i4 i5 i6 i7 i8 i9 i10 i11 i13 i15 i16 i18 i19 i20 i21 i22 i23 i24 i25 i26
    gr
  · (try simp only [hp]); gr
  · (try simp only [hp]); gr
  · (try simp only [hp]); gr
  · (try simp only [hp]); gr
  · (try simp only [hp]); gr
  · (try simp only [hp]); gr
  · (try simp only [hp]); gr

set_option maxHeartbeats 4000000 in
theorem Inv.relNone {s : State} (iv : Inv s) {t m : Nat} {ms ts : List Nat} (hpc : s.pc t = .rel (m :: ms) ts) (hg : s.sig m = []) (he : s.entry m = []) :
    Inv { s with owner := upd s.owner m none, recn := upd s.recn m 0, pc := upd s.pc t (.rel ms ts) } := by
  have hd : ∀ y, dep (.rel ms ts) (s.stk t) y = dep (.rel (m :: ms) ts) (s.stk t) y := by
    intro x; cases s.stk t <;> rfl
  have hmw : m ∈ s.wm t := (iv.relN t).2 m (by rw [hpc]; simp [toRel])
  have ho : s.owner m = some t := iv.own t m (iv.wmd t m 0 (by rw [hpc]; simp [waitP]) hmw) (by rw [hpc]; simp [relP])
  have hmm : m ∉ ms ∧ ms.Nodup ∧ ∀ y ∈ ms, y ∈ s.wm t := by have := iv.relN t; rw [hpc] at this; simp [toRel] at this; grind
  have hmk : s.mask m = none := by
    rcases Classical.em (s.mask m = none) with h | h
    · exact h
    · obtain ⟨a, h1, h2⟩ := iv.msk m h
      have h3 := relAll_relP (iv.sg a m h2).2.1 m
      rw [ho] at h1; cases h1
      rw [hpc] at h3; simp [relP] at h3
  have hp : ∀ u, pendP s.tok (upd s.pc t (.rel ms ts)) u ↔ pendP s.tok s.pc u := pend_same (by rw [hpc]; rfl)
  obtain ⟨i1, i2, i3, i4, i5, i6, i7, i8, i9, i10, i11, i12, i13, i14, i15, i16, i17, i18, i19, i20, i21, i22, i23, i24, i25, i26, i27, i29, i30, i28⟩ := iv
  constructor
  · (try simp only [hp]); gr
  · (try simp only [hp]); gr
  · (try simp only [hp]); gr
  · (try simp only [hp]); gr
  · (try simp only [hp]); gr
  · (try simp only [hp]); gr
  · (try simp only [hp]); gr
  · (try simp only [hp]); gr
  · (try simp only [hp]); gr
  · (try simp only [hp]); gr
  · (try simp only [hp]); gr
  · (try simp only [hp]); gr
  · (try simp only [hp]); gr
  · (try simp only [hp]); gr
  · (try simp only [hp]); gr
  · (try simp only [hp]); gr
  · (try simp only [hp]); gr
  · (try simp only [hp]); gr
  · (try simp only [hp]); gr
  · (try simp only [hp]); gr
  · (try simp only [hp]); gr
  · (try simp only [hp]); gr
  · intro u hu
    have h1 := i23 u
    (try simp only [hp])
    clear i1 i4 i5 i6 i7 i8 i9 i10 i11 i13 i15 i16 i18 i19 i20 i21 i22 i23 i24 i25 i26
    gr
  · (try simp only [hp]); gr
  · (try simp only [hp]); gr
  · (try simp only [hp]); gr
  · (try simp only [hp]); gr
  · (try simp only [hp]); gr
  · (try simp only [hp]); gr
  · (try simp only [hp]); gr

set_option maxHeartbeats 4000000 in
theorem Inv.wait {s : State} (iv : Inv s) {t c : Nat} {l : List Nat} (hpc : s.pc t = .run) (hl : l ≠ []) (hb : s.brand c = none ∨ s.brand c = some l)
    (hdl : ∀ m ∈ l, 0 < dep .run (s.stk t) m) :
    Inv { s with brand := upd s.brand c (some l), wm := upd s.wm t l, rd := upd s.rd t (fun _ => false),
                 blocked := upd s.blocked c (s.blocked c ++ [t]), pc := upd s.pc t (.w1 c) } := by
  have hd : ∀ y, dep (.w1 c) (s.stk t) y = dep .run (s.stk t) y := by
    intro x; cases s.stk t <;> rfl
  have hbe : ∀ u, u ∈ s.blocked c → s.brand c = some l := by
    intro u hu
    have := (iv.blk u c hu).2.1
    rcases hb with hb | hb
    · rw [hb] at this; cases this
    · exact hb
  have hp : ∀ u, pendP s.tok (upd s.pc t (.w1 c)) u ↔ pendP s.tok s.pc u := pend_same (by rw [hpc]; rfl)
  obtain ⟨i1, i2, i3, i4, i5, i6, i7, i8, i9, i10, i11, i12, i13, i14, i15, i16, i17, i18, i19, i20, i21, i22, i23, i24, i25, i26, i27, i29, i30, i28⟩ := iv
  constructor
  · (try simp only [hp]); gr
  · (try simp only [hp]); gr
  · (try simp only [hp]); gr
  · (try simp only [hp]); gr
  · (try simp only [hp]); gr
  · (try simp only [hp]); gr
  · (try simp only [hp]); gr
  · (try simp only [hp]); gr
  · (try simp only [hp]); gr
  · (try simp only [hp]); gr
  · (try simp only [hp]); gr
  · (try simp only [hp]); gr
  · (try simp only [hp]); gr
  · (try simp only [hp]); gr
  · (try simp only [hp]); gr
  · (try simp only [hp]); gr
  · (try simp only [hp]); gr
  · (try simp only [hp]); gr
  · (try simp only [hp]); gr
  · (try simp only [hp]); gr
  · (try simp only [hp]); gr
  · (try simp only [hp]); gr
  · intro u hu
    have h1 := i23 u
    (try simp only [hp])
    clear i1 i4 i5 i6 i7 i8 i9 i10 i11 i13 i15 i16 i18 i19 i20 i21 i22 i23 i24 i25 i26
    gr
  · (try simp only [hp]); gr
  · (try simp only [hp]); gr
  · (try simp only [hp]); gr
  · (try simp only [hp]); gr
  · (try simp only [hp]); gr
  · (try simp only [hp]); gr
  · (try simp only [hp]); gr

set_option maxHeartbeats 4000000 in
theorem Inv.signal {s : State} (iv : Inv s) {t c x : Nat} {xs : List Nat} (hpc : s.pc t = .run) (hb : s.blocked c = x :: xs) (hdl : ∀ m ∈ s.wm x, 0 < dep .run (s.stk t) m) :
    Inv { s with blocked := upd s.blocked c xs, sig := fun m => if m ∈ s.wm x then x :: s.sig m else s.sig m } := by
  have hbx : x ∈ s.blocked c := by rw [hb]; simp
  have hxs : x ∉ xs ∧ xs.Nodup := by have := iv.blkN c; rw [hb] at this; grind
  obtain ⟨hx1, hx2, hx3⟩ := iv.blk x c hbx
  have hwx : s.wm x ≠ [] := iv.brn c _ hx2
  have hxt : x ≠ t := by rintro rfl; rw [hpc] at hx1; simp [sleepP] at hx1
  have hox : ∀ m ∈ s.wm x, s.owner m = some t := fun m hm => iv.own t m (by rw [hpc]; exact hdl m hm) (by rw [hpc]; simp [relP])
  have hrx : ∀ m ∈ s.wm x, relP (s.pc x) m := by
    intro m hm
    rcases Classical.em (relP (s.pc x) m) with h | h
    · exact h
    · have h1 := iv.own x m (iv.wmd x m c (by revert hx1; cases s.pc x <;> simp [sleepP, waitP]) hm) (fun h' => h h'.2)
      rw [hox m hm] at h1; cases h1; exact (hxt rfl).elim
  have hra : relAll (s.pc x) := by
    obtain ⟨m, hm⟩ := List.exists_mem_of_ne_nil _ hwx
    have h1 := hrx m hm
    have h2 := iv.relN x
    revert h1 h2 hrx
    cases s.pc x with
    | rel ms ts =>
      intro hrx _ h2
      cases ms with
      | nil => simp [relAll]
      | cons a as => have := hrx a (h2.2 a (by simp [toRel])); simp [relP] at this
    | _ => simp [relP, relAll]
  obtain ⟨m0, hm0⟩ := List.exists_mem_of_ne_nil _ hwx
  have hp : ∀ u, pendP s.tok s.pc u ↔ pendP s.tok s.pc u := fun u => Iff.rfl
  have hpx : ¬pendP s.tok s.pc x := by
    intro h
    rcases iv.pnd x h with ⟨m', h1, _⟩ | ⟨_, _, h1⟩
    · revert hra h1; cases s.pc x <;> simp [relAll, atP]
    · exact h1 c hbx
  obtain ⟨i1, i2, i3, i4, i5, i6, i7, i8, i9, i10, i11, i12, i13, i14, i15, i16, i17, i18, i19, i20, i21, i22, i23, i24, i25, i26, i27, i29, i30, i28⟩ := iv
  constructor
  · (try simp only [hp]); gr
  · (try simp only [hp]); gr
  · (try simp only [hp]); gr
  · (try simp only [hp]); gr
  · (try simp only [hp]); gr
  · (try simp only [hp]); gr
  · (try simp only [hp]); gr
  · (try simp only [hp]); gr
  · (try simp only [hp]); gr
  · (try simp only [hp]); gr
  · (try simp only [hp]); gr
  · (try simp only [hp]); gr
  · intro u hu
    have h1 := i13 u hu
    have hux : u ≠ x := by rintro rfl; exact hpx hu
    clear i13 i4 i6 i7 i8 i9 i10 i15 i17 i18 i19 i20 i21 i23 i25 i26
    gr
  · clear i1 i2 i4 i5 i6 i7 i8 i9 i10 i11 i12 i13 i17 i18 i19 i20 i21 i22 i23 i24 i25 i26 i27 i28 hdl hox
    gr
  · (try simp only [hp]); gr
  · (try simp only [hp]); gr
  · (try simp only [hp]); gr
  · (try simp only [hp]); gr
  · (try simp only [hp]); gr
  · (try simp only [hp]); gr
  · (try simp only [hp]); gr
  · (try simp only [hp]); gr
  · intro u hu
    have h1 := i23 u
    (try simp only [hp])
    clear i1 i4 i5 i6 i7 i8 i9 i10 i11 i13 i15 i16 i18 i19 i20 i21 i22 i23 i24 i25 i26
    gr
  · (try simp only [hp]); gr
  · (try simp only [hp]); gr
  · (try simp only [hp]); gr
  · (try simp only [hp]); gr
  · (try simp only [hp]); gr
  · (try simp only [hp]); gr
  · (try simp only [hp]); gr

set_option maxHeartbeats 4000000 in
theorem Inv.signalBlock {s : State} (iv : Inv s) {t c x : Nat} {l xs : List Nat} (hpc : s.pc t = .run) (hb : s.blocked c = x :: xs) (hl : l ≠ []) (hlx : s.wm x = l)
    (hdl : ∀ m ∈ l, 0 < dep .run (s.stk t) m) :
    Inv { s with blocked := upd s.blocked c xs, wm := upd s.wm t l, rd := upd s.rd t (fun _ => false),
                 sig := fun m => if m ∈ l then t :: s.sig m else s.sig m,
                 sv := upd s.sv t s.recn, svm := upd s.svm t s.mask,
                 owner := fun m => if m ∈ l then some x else s.owner m,
                 recn := fun m => if m ∈ l then (if l.head? = some m then 1 else 0) else s.recn m,
                 pc := upd s.pc t (.rel [] [x]) } := by
  have hd : ∀ y, dep (.rel [] [x]) (s.stk t) y = dep .run (s.stk t) y := by
    intro x; cases s.stk t <;> rfl
  have hot : ∀ m ∈ l, s.owner m = some t := fun m hm => iv.own t m (by rw [hpc]; exact hdl m hm) (by rw [hpc]; simp [relP])
  have hmk : ∀ m ∈ l, s.mask m = none := by
    intro m hm
    rcases Classical.em (s.mask m = none) with h | h
    · exact h
    · obtain ⟨a, h1, h2⟩ := iv.msk m h
      have h3 := (iv.sg a m h2).2.1
      rw [hot m hm] at h1; cases h1
      rw [hpc] at h3; simp [relAll] at h3
  have hrt : ∀ m ∈ l, s.recn m = dep .run (s.stk t) m := by
    intro m hm
    have := iv.rcn t m (hot m hm) (by rw [hpc]; simp [waitP])
    rw [hpc] at this
    simpa [atP] using this
  have hts : ∀ m, t ∉ s.sig m := by
    intro m h
    have := (iv.sg t m h).2.1
    rw [hpc] at this; simp [relAll] at this
  have htb : ∀ c, t ∉ s.blocked c := by
    intro c h
    have := (iv.blk t c h).1
    rw [hpc] at this; simp [sleepP] at this
  have htp : ¬pendP s.tok s.pc t := by
    intro h
    rcases iv.pnd t h with ⟨m', h1, _⟩ | ⟨h1, _, _⟩ <;> rw [hpc] at h1 <;> simp [atP, relAll] at h1
  obtain ⟨m1, hm1⟩ := List.exists_mem_of_ne_nil _ hl
  have hp : ∀ v, pendP s.tok (upd s.pc t (.rel [] [x])) v ↔ pendP s.tok s.pc v ∨ v = x := by
    intro v; rw [pend_add (by rw [hpc]; simp [wakes])]; simp [wakes]
  have hbx : x ∈ s.blocked c := by rw [hb]; simp
  have hxs : x ∉ xs ∧ xs.Nodup := by have := iv.blkN c; rw [hb] at this; grind
  obtain ⟨hx1, hx2, hx3⟩ := iv.blk x c hbx
  have hxt : x ≠ t := by rintro rfl; rw [hpc] at hx1; simp [sleepP] at hx1
  have hrx : ∀ m ∈ s.wm x, relP (s.pc x) m := by
    intro m hm
    rcases Classical.em (relP (s.pc x) m) with h | h
    · exact h
    · have h1 := iv.own x m (iv.wmd x m c (by revert hx1; cases s.pc x <;> simp [sleepP, waitP]) hm) (fun h' => h h'.2)
      rw [hot m (hlx ▸ hm)] at h1; cases h1; exact (hxt rfl).elim
  have hra : relAll (s.pc x) := by
    have h1 := hrx m1 (hlx ▸ hm1)
    have h2 := iv.relN x
    revert h1 h2 hrx
    cases s.pc x with
    | rel ms ts =>
      intro hrx _ h2
      cases ms with
      | nil => simp [relAll]
      | cons a as => have := hrx a (h2.2 a (by simp [toRel])); simp [relP] at this
    | _ => simp [relP, relAll]
  have hpx : ¬pendP s.tok s.pc x := by
    intro h
    rcases iv.pnd x h with ⟨m', h1, _⟩ | ⟨_, _, h1⟩
    · revert hra h1; cases s.pc x <;> simp [relAll, atP]
    · exact h1 c hbx
  have hx6 : s.tok x = false ∧ ∀ v, x ∉ wakes (s.pc v) :=
    ⟨by cases h : s.tok x with | false => rfl | true => exact (hpx (Or.inl h)).elim, fun v hv => hpx (Or.inr ⟨v, hv⟩)⟩
  have hx8 : waitP (s.pc x) ∧ ∀ y, atP (s.pc x) (s.stk x) ≠ some y := by revert hra; cases s.pc x <;> simp [relAll, waitP, atP]
  obtain ⟨i1, i2, i3, i4, i5, i6, i7, i8, i9, i10, i11, i12, i13, i14, i15, i16, i17, i18, i19, i20, i21, i22, i23, i24, i25, i26, i27, i29, i30, i28⟩ := iv
  constructor
  · (try simp only [hp]); gr
  · (try simp only [hp]); gr
  · (try simp only [hp]); gr
  · (try simp only [hp]); gr
  · (try simp only [hp]); gr
  · (try simp only [hp]); gr
  · (try simp only [hp]); gr
  · (try simp only [hp]); gr
  · (try simp only [hp]); gr
  · (try simp only [hp]); gr
  · (try simp only [hp]); gr
  · (try simp only [hp]); gr
  · intro u hu
    simp only [hp] at hu
    rcases hu with hu | rfl
    · have h1 := i13 u hu
      have hux : u ≠ x := by rintro rfl; exact hpx hu
      clear i13 i4 i6 i7 i8 i9 i10 i15 i17 i18 i19 i20 i21 i23 i25 i26
      gr
    · clear i13 i4 i6 i7 i8 i9 i10 i15 i17 i18 i19 i20 i21 i23 i25 i26
      gr
  · clear i4 i6 i7 i8 i9 i10 i13 i17 i18 i19 i20 i21 i23 i24 i25 i26
    gr
  · (try simp only [hp]); gr
  · (try simp only [hp]); gr
  · (try simp only [hp]); gr
  · (try simp only [hp]); gr
  · (try simp only [hp]); gr
  · (try simp only [hp]); gr
  · (try simp only [hp]); gr
  · (try simp only [hp]); gr
  · intro u hu
    have h1 := i23 u
    (try simp only [hp])
    clear i1 i4 i5 i6 i7 i8 i9 i10 i11 i13 i15 i16 i18 i19 i20 i21 i22 i23 i24 i25 i26
    gr
  · (try simp only [hp]); gr
  · (try simp only [hp]); gr
  · (try simp only [hp]); gr
  · (try simp only [hp]); gr
  · intro u d m hu hm hr
    have h1 := i29 u d m
    have h2 := i16 u c d
    have h3 := htb d
    clear i29 i1 i2 i3 i4 i5 i6 i7 i8 i9 i10 i11 i12 i13 i14 i15 i16 i17 i18 i19 i20 i21 i22 i23 i24 i25 i26 i27 i28 i30 htb hx1 hx3 hp hd hts
    gr
  · (try simp only [hp]); gr
  · (try simp only [hp]); gr

set_option maxHeartbeats 4000000 in
theorem Inv.waitforFound {s : State} (iv : Inv s) {t m x : Nat} {l ms : List Nat} (hpc : s.pc t = .run) (hl : l ≠ []) (hlh : l = m :: ms) (hex : x ∈ s.entry m)
    (hdl : ∀ m ∈ l, 0 < dep .run (s.stk t) m) (acc : Nat → Option Nat) :
    Inv { s with accepted := acc, entry := upd s.entry m ((s.entry m).erase x), wm := upd s.wm t l, rd := upd s.rd t (fun _ => false),
                 sig := fun m => if m ∈ l then t :: s.sig m else s.sig m,
                 sv := upd s.sv t s.recn, svm := upd s.svm t s.mask,
                 owner := fun m => if m ∈ l then some x else s.owner m,
                 recn := fun m => if m ∈ l then (if l.head? = some m then 1 else 0) else s.recn m,
                 pc := upd s.pc t (.rel [] [x]) } := by
  have hd : ∀ y, dep (.rel [] [x]) (s.stk t) y = dep .run (s.stk t) y := by
    intro x; cases s.stk t <;> rfl
  have hot : ∀ m ∈ l, s.owner m = some t := fun m hm => iv.own t m (by rw [hpc]; exact hdl m hm) (by rw [hpc]; simp [relP])
  have hmk : ∀ m ∈ l, s.mask m = none := by
    intro m hm
    rcases Classical.em (s.mask m = none) with h | h
    · exact h
    · obtain ⟨a, h1, h2⟩ := iv.msk m h
      have h3 := (iv.sg a m h2).2.1
      rw [hot m hm] at h1; cases h1
      rw [hpc] at h3; simp [relAll] at h3
  have hrt : ∀ m ∈ l, s.recn m = dep .run (s.stk t) m := by
    intro m hm
    have := iv.rcn t m (hot m hm) (by rw [hpc]; simp [waitP])
    rw [hpc] at this
    simpa [atP] using this
  have hts : ∀ m, t ∉ s.sig m := by
    intro m h
    have := (iv.sg t m h).2.1
    rw [hpc] at this; simp [relAll] at this
  have htb : ∀ c, t ∉ s.blocked c := by
    intro c h
    have := (iv.blk t c h).1
    rw [hpc] at this; simp [sleepP] at this
  have htp : ¬pendP s.tok s.pc t := by
    intro h
    rcases iv.pnd t h with ⟨m', h1, _⟩ | ⟨h1, _, _⟩ <;> rw [hpc] at h1 <;> simp [atP, relAll] at h1
  obtain ⟨m1, hm1⟩ := List.exists_mem_of_ne_nil _ hl
  have hp : ∀ v, pendP s.tok (upd s.pc t (.rel [] [x])) v ↔ pendP s.tok s.pc v ∨ v = x := by
    intro v; rw [pend_add (by rw [hpc]; simp [wakes])]; simp [wakes]
  have hml : m ∈ l := by rw [hlh]; simp
  have hlm : ∀ y, l.head? = some y ↔ y = m := by rw [hlh]; simp [eq_comm]
  obtain ⟨hx1, hx2, hx4⟩ := iv.en x m hex
  have hx6 : s.tok x = false ∧ ∀ v, x ∉ wakes (s.pc v) :=
    ⟨by cases h : s.tok x with | false => rfl | true => exact (hx4 (Or.inl h)).elim, fun v hv => hx4 (Or.inr ⟨v, hv⟩)⟩
  have hx8 : ¬waitP (s.pc x) ∧ ¬sleepP (s.pc x) ∧ ¬relAll (s.pc x) ∧ ∀ y, ¬relP (s.pc x) y := by revert hx1; cases s.pc x <;> simp [relP, waitP, sleepP, relAll, atP]
  have hxt : x ≠ t := by rintro rfl; rw [hpc] at hx1; simp [atP] at hx1
  have hx7 : ∀ y ∈ l, dep (s.pc x) (s.stk x) y = 0 := by
    intro y hy
    rcases Nat.eq_zero_or_pos (dep (s.pc x) (s.stk x) y) with h | h
    · exact h
    · have := iv.own x y h (fun h => hx8.2.2.2 y h.2)
      rw [hot y hy] at this; cases this; exact (hxt rfl).elim
  have hq : ((s.entry m).erase x).Nodup ∧ ∀ y, y ∈ (s.entry m).erase x ↔ y ∈ s.entry m ∧ y ≠ x := by
    refine ⟨(iv.enN m).erase x, fun y => ?_⟩
    rw [(iv.enN m).mem_erase_iff]; exact and_comm
  have hqs : ((s.entry m).erase x).Pairwise (fun a b => s.arr a < s.arr b) := (iv.arrS m).sublist List.erase_sublist
  obtain ⟨i1, i2, i3, i4, i5, i6, i7, i8, i9, i10, i11, i12, i13, i14, i15, i16, i17, i18, i19, i20, i21, i22, i23, i24, i25, i26, i27, i29, i30, i28⟩ := iv
  constructor
  · clear hq hqs hmk hrt i2 i4 i6 i7 i8 i9 i10 i13 i14 i15 i16 i17 i18 i19 i20 i21 i22 i23 i24 i25 i26
    gr
  · (try simp only [hp]); gr
  · clear hq hqs hmk hrt i1 i2 i4 i6 i7 i8 i9 i10 i11 i13 i15 i16 i17 i18 i19 i20 i21 i22 i23 i24 i25 i26
    gr
  · (try simp only [hp]); gr
  · (try simp only [hp]); gr
  · (try simp only [hp]); gr
  · (try simp only [hp]); gr
  · (try simp only [hp]); gr
  · (try simp only [hp]); gr
  · (try simp only [hp]); gr
  · (try simp only [hp]); gr
  · (try simp only [hp]); gr
  · intro u hu
    simp only [hp] at hu
    rcases hu with hu | rfl
    · have h1 := i13 u hu
      have hux : u ≠ x := by rintro rfl; exact hx4 hu
      clear i13 i4 i6 i7 i8 i9 i10 i15 i17 i18 i19 i20 i21 i23 i25 i26
      gr
    · clear i13 i4 i6 i7 i8 i9 i10 i15 i17 i18 i19 i20 i21 i23 i25 i26
      gr
  · clear hq hqs hmk hrt i1 i2 i4 i6 i7 i8 i9 i10 i11 i13 i15 i16 i17 i18 i19 i20 i21 i22 i23 i24 i25 i26
    gr
  · (try simp only [hp]); gr
  · (try simp only [hp]); gr
  · (try simp only [hp]); gr
  · clear hq hqs hmk hrt i1 i2 i3 i4 i6 i7 i8 i9 i10 i11 i12 i13 i14 i15 i16 i17 i20 i21 i22 i23 i24 i25 i26
    gr
  · (try simp only [hp]); gr
  · (try simp only [hp]); gr
  · (try simp only [hp]); gr
  · (try simp only [hp]); gr
  · intro u hu
    have h1 := i23 u
    (try simp only [hp])
    clear i1 i4 i5 i6 i7 i8 i9 i10 i11 i13 i15 i16 i18 i19 i20 i21 i22 i23 i24 i25 i26
    gr
  · (try simp only [hp]); gr
  · (try simp only [hp]); gr
  · (try simp only [hp]); gr
  · (try simp only [hp]); gr
  · (try simp only [hp]); gr
  · (try simp only [hp]); gr
  · (try simp only [hp]); gr

set_option maxHeartbeats 4000000 in
theorem Inv.waitforBlock {s : State} (iv : Inv s) {t : Nat} {l : List Nat} (hpc : s.pc t = .run) (hl : l ≠ [])
    (hdl : ∀ m ∈ l, 0 < dep .run (s.stk t) m) (acc : Nat → Option Nat) (cl : List Group) :
    Inv { s with accepted := acc, wm := upd s.wm t l, rd := upd s.rd t (fun _ => false),
                 sig := fun m => if m ∈ l then t :: s.sig m else s.sig m,
                 sv := upd s.sv t s.recn, svm := upd s.svm t s.mask,
                 mask := fun m => if m ∈ l then some (t, cl) else s.mask m, pc := upd s.pc t (.rel [] []) } := by
  have hd : ∀ y, dep (.rel [] []) (s.stk t) y = dep .run (s.stk t) y := by
    intro x; cases s.stk t <;> rfl
  have hot : ∀ m ∈ l, s.owner m = some t := fun m hm => iv.own t m (by rw [hpc]; exact hdl m hm) (by rw [hpc]; simp [relP])
  have hmk : ∀ m ∈ l, s.mask m = none := by
    intro m hm
    rcases Classical.em (s.mask m = none) with h | h
    · exact h
    · obtain ⟨a, h1, h2⟩ := iv.msk m h
      have h3 := (iv.sg a m h2).2.1
      rw [hot m hm] at h1; cases h1
      rw [hpc] at h3; simp [relAll] at h3
  have hrt : ∀ m ∈ l, s.recn m = dep .run (s.stk t) m := by
    intro m hm
    have := iv.rcn t m (hot m hm) (by rw [hpc]; simp [waitP])
    rw [hpc] at this
    simpa [atP] using this
  have hts : ∀ m, t ∉ s.sig m := by
    intro m h
    have := (iv.sg t m h).2.1
    rw [hpc] at this; simp [relAll] at this
  have htb : ∀ c, t ∉ s.blocked c := by
    intro c h
    have := (iv.blk t c h).1
    rw [hpc] at this; simp [sleepP] at this
  have htp : ¬pendP s.tok s.pc t := by
    intro h
    rcases iv.pnd t h with ⟨m', h1, _⟩ | ⟨h1, _, _⟩ <;> rw [hpc] at h1 <;> simp [atP, relAll] at h1
  obtain ⟨m1, hm1⟩ := List.exists_mem_of_ne_nil _ hl
  have hp : ∀ u, pendP s.tok (upd s.pc t (.rel [] [])) u ↔ pendP s.tok s.pc u := pend_same (by rw [hpc]; rfl)
  obtain ⟨i1, i2, i3, i4, i5, i6, i7, i8, i9, i10, i11, i12, i13, i14, i15, i16, i17, i18, i19, i20, i21, i22, i23, i24, i25, i26, i27, i29, i30, i28⟩ := iv
  constructor
  · (try simp only [hp]); gr
  · (try simp only [hp]); gr
  · (try simp only [hp]); gr
  · (try simp only [hp]); gr
  · (try simp only [hp]); gr
  · (try simp only [hp]); gr
  · (try simp only [hp]); gr
  · (try simp only [hp]); gr
  · (try simp only [hp]); gr
  · (try simp only [hp]); gr
  · (try simp only [hp]); gr
  · (try simp only [hp]); gr
  · (try simp only [hp]); gr
  · (try simp only [hp]); gr
  · (try simp only [hp]); gr
  · (try simp only [hp]); gr
  · (try simp only [hp]); gr
  · (try simp only [hp]); gr
  · (try simp only [hp]); gr
  · (try simp only [hp]); gr
  · (try simp only [hp]); gr
  · (try simp only [hp]); gr
  · intro u hu
    have h1 := i23 u
    (try simp only [hp])
    clear i1 i4 i5 i6 i7 i8 i9 i10 i11 i13 i15 i16 i18 i19 i20 i21 i22 i23 i24 i25 i26
    gr
  · (try simp only [hp]); gr
  · (try simp only [hp]); gr
  · (try simp only [hp]); gr
  · (try simp only [hp]); gr
  · (try simp only [hp]); gr
  · (try simp only [hp]); gr
  · (try simp only [hp]); gr

end Verif.Monitor
