import Verif.Model.Once
import Verif.Proof.Heap
import Mathlib.Tactic.SplitIfs
namespace Verif.Once
open Verif

/-- The thread runs the function or what follows it. -/
def isW : Pc → Bool
  | .func | .store | .poison | .waking _ | .waking2 _ _ => true
  | _ => false

/-- Past the function. -/
def past : Pc → Bool
  | .store | .poison | .waking _ | .waking2 _ _ => true
  | _ => false

def isWaking : Pc → Bool
  | .waking _ | .waking2 _ _ => true
  | _ => false

def inPush : Pc → Bool
  | .push0 | .push1 | .push2 _ | .push3 _ | .park => true
  | _ => false

def inList : Pc → Bool
  | .push3 _ | .park => true
  | _ => false

/-- What follows a thread on the list. -/
def succ (s : State) (t : Nat) : Link := match s.pc t with
  | .push3 e => e
  | _ => s.nxt t

def Chain (s : State) : Link → List Nat → Prop
  | .null, [] => True
  | .at t, u :: l => t = u ∧ Chain s (succ s t) l
  | _, _ => False

theorem Chain.congr {s s' : State} {r : Link} {l : List Nat} (h : Chain s r l) (hs : ∀ t, t ∈ l → succ s' t = succ s t) : Chain s' r l := by
  induction l generalizing r with
  | nil => cases r <;> simp_all [Chain]
  | cons u l ih =>
    cases r with
    | null => simp [Chain] at h
    | one => simp [Chain] at h
    | «at» t =>
      obtain ⟨rfl, h⟩ := h
      refine ⟨rfl, ?_⟩
      rw [hs t (by simp)]
      exact ih h fun u hu => hs u (List.mem_cons_of_mem _ hu)

structure Inv (s : State) (w : Nat) (l : List Nat) : Prop where
  st : s.state = 0 ∨ s.state = 1
  ent : s.entered = s.state
  com0 : s.state = 0 → s.completed = 0
  comle : s.completed ≤ 1
  wst : ∀ t, isW (s.pc t) = true → s.state = 1 ∧ t = w
  fun0 : ∀ t, s.pc t = .func → s.completed = 0
  past1 : ∀ t, past (s.pc t) = true → s.completed = 1
  head1 : s.head = .one → s.completed = 1
  head0 : s.state = 0 → s.head = .null
  headw : ∀ t, isWaking (s.pc t) = true → s.head = .one
  headn : ∀ t, isW (s.pc t) = true → isWaking (s.pc t) = false → s.head ≠ .one
  headl : s.state = 1 → isW (s.pc w) = false → s.head = .one ∧ l = []
  p2 : ∀ t, s.pc t = .push2 .one → s.completed = 1
  push : ∀ t, inPush (s.pc t) = true → s.state = 1
  nx1 : ∀ t e, s.pc t = .push1 ∨ s.pc t = .push2 e ∨ s.pc t = .push3 e → s.nxt t = .one
  p3 : ∀ t, s.pc t ≠ .push3 .one
  nxp : ∀ t, s.pc t = .park → s.nxt t ≠ .one
  tok : ∀ t, s.token t = true → s.pc t = .park ∧ s.completed = 1
  mem : ∀ t, t ∈ l ↔ inList (s.pc t) = true ∧ s.token t = false
  nd : l.Nodup
  ch : s.head ≠ .one → Chain s s.head l
  wk : ∀ t sl, s.pc t = .waking sl → Chain s sl l
  wk2 : ∀ t u nx, s.pc t = .waking2 u nx → Chain s (.at u) l ∧ s.pc u = .park ∧ s.nxt u = nx
  rets : s.rets ≠ [] → s.completed = 1

theorem start_inv (w : Nat) : Inv start w [] := by
  constructor <;> simp [start, isW, past, isWaking, inPush, inList, Chain]

set_option maxHeartbeats 4000000 in
theorem step_inv {s s' : State} {a : Act} {w : Nat} {l : List Nat} (h : next s a = some s') (iv : Inv s w l) : ∃ w' l', Inv s' w' l' := by
  obtain ⟨i1, i2, i3, i4, i5, i6, i7, i8, i9, i10, i11, i12, i13, i14, i15, i16, i17, i18, i19, i20, i21, i22, i23, i24⟩ := iv
  have key : ∀ (s' : State) (r : Link), (∀ u, u ∈ l → s'.nxt u = s.nxt u ∧ (s'.pc u = s.pc u)) → Chain s r l → Chain s' r l := by
    intro s' r h1 h2
    exact h2.congr fun u hu => by simp only [succ, h1 u hu]
  cases a with
  | call t =>
    simp only [next] at h
    split at h
    swap
    · cases h
    split at h
    · omega
    next hpc hst =>
    cases h
    refine ⟨w, l, ?_⟩
    have k := key { s with pc := upd s.pc t .cas }
    have hm : t ∉ l := by grind [inList]
    have k' : ∀ r, Chain s r l → Chain { s with pc := upd s.pc t .cas } r l := fun r => k r (by intro u hu; simp only [upd]; grind)
    constructor <;> (try simp only [upd] at *) <;> grind [isW, past, isWaking, inPush, inList]
  | step t weak =>
    simp only [next] at h
    split at h
    · cases h
    · next hpc =>
      have hm : t ∉ l := by grind [inList]
      split at h
      · next hst =>
        cases h
        have k' : ∀ r, Chain s r l → Chain { s with state := 1, pc := upd s.pc t .func, entered := s.entered + 1 } r l :=
          fun r => key _ r (by intro u hu; simp only [upd]; grind)
        refine ⟨t, l, ?_⟩
        constructor <;> (try simp only [upd] at *) <;> grind [isW, past, isWaking, inPush, inList]
      · cases h
        have k' : ∀ r, Chain s r l → Chain { s with pc := upd s.pc t .push0 } r l :=
          fun r => key _ r (by intro u hu; simp only [upd]; grind)
        refine ⟨w, l, ?_⟩
        constructor <;> (try simp only [upd] at *) <;> grind [isW, past, isWaking, inPush, inList]
    · next hpc =>
      have hm : t ∉ l := by grind [inList]
      cases h
      have k' : ∀ r, Chain s r l → Chain { s with pc := upd s.pc t .store, completed := s.completed + 1 } r l :=
        fun r => key _ r (by intro u hu; simp only [upd]; grind)
      refine ⟨w, l, ?_⟩
      constructor <;> (try simp only [upd] at *) <;> grind [isW, past, isWaking, inPush, inList]
    · next hpc =>
      have hm : t ∉ l := by grind [inList]
      cases h
      have k' : ∀ r, Chain s r l → Chain { s with state := 1, pc := upd s.pc t .poison } r l :=
        fun r => key _ r (by intro u hu; simp only [upd]; grind)
      refine ⟨w, l, ?_⟩
      constructor <;> (try simp only [upd] at *) <;> grind [isW, past, isWaking, inPush, inList]
    · next hpc =>
      have hm : t ∉ l := by grind [inList]
      cases h
      have k' : ∀ r, Chain s r l → Chain { s with head := .one, pc := upd s.pc t (.waking s.head) } r l :=
        fun r => key _ r (by intro u hu; simp only [upd]; grind)
      refine ⟨w, l, ?_⟩
      constructor <;> (try simp only [upd] at *) <;> grind [isW, past, isWaking, inPush, inList]
    · next sl hpc =>
      have hm : t ∉ l := by grind [inList]
      split at h
      · cases h
        have hl : l = [] := by
          have := i22 t _ hpc
          cases l <;> simp [Chain] at this ⊢
        refine ⟨w, l, ?_⟩
        constructor <;> (try simp only [upd] at *) <;> grind [isW, past, isWaking, inPush, inList]
      · cases h
      · next u =>
        split at h
        · cases h
        next hne =>
        cases h
        have hch := i22 t _ hpc
        have hu : u ∈ l := by cases l <;> simp [Chain] at hch ⊢; exact Or.inl hch.1
        have hup : s.pc u = .park := by
          have := (i19 u).1 hu
          have := i15 u
          cases hq : s.pc u <;> grind [inList]
        have k' : ∀ r, Chain s r l → Chain { s with pc := upd s.pc t (.waking2 u (s.nxt u)) } r l :=
          fun r => key _ r (by intro u hu; simp only [upd]; grind)
        refine ⟨w, l, ?_⟩
        constructor <;> (try simp only [upd] at *) <;> grind [isW, past, isWaking, inPush, inList]
    · next u nx hpc =>
      have hm : t ∉ l := by grind [inList]
      cases h
      obtain ⟨hch, hup, hnx⟩ := i23 t u nx hpc
      obtain hl | ⟨v, q, hl⟩ : l = [] ∨ ∃ u q, l = u :: q := by cases l <;> simp
      · rw [hl] at hch; simp [Chain] at hch
      subst hl
      obtain ⟨rfl, hch⟩ := hch
      have hsu : succ s u = nx := by simp [succ, hup, hnx]
      rw [hsu] at hch
      have hmq : t ∉ q := by grind
      have hx : Chain { s with token := upd s.token u true, pc := upd s.pc t (.waking nx) } nx q :=
        hch.congr fun v hv => by simp only [succ, upd]; grind
      have hnd := (List.nodup_cons.1 i20)
      have hwt : t = w := (i5 t (by rw [hpc]; rfl)).2
      refine ⟨w, q, ?_⟩
      constructor <;> (try simp only [upd] at *) <;> grind [isW, past, isWaking, inPush, inList]
    · next hpc =>
      have hm : t ∉ l := by grind [inList]
      cases h
      have k' : ∀ r, Chain s r l → Chain { s with nxt := upd s.nxt t .one, pc := upd s.pc t .push1 } r l :=
        fun r => key _ r (by intro u hu; simp only [upd]; grind)
      refine ⟨w, l, ?_⟩
      constructor <;> (try simp only [upd] at *) <;> grind [isW, past, isWaking, inPush, inList]
    · next hpc =>
      have hm : t ∉ l := by grind [inList]
      cases h
      have k' : ∀ r, Chain s r l → Chain { s with pc := upd s.pc t (.push2 s.head) } r l :=
        fun r => key _ r (by intro u hu; simp only [upd]; grind)
      refine ⟨w, l, ?_⟩
      constructor <;> (try simp only [upd] at *) <;> grind [isW, past, isWaking, inPush, inList]
    · next e hpc =>
      have hm : t ∉ l := by grind [inList]
      split at h
      · cases h
        have k' : ∀ r, Chain s r l → Chain { s with pc := upd s.pc t .run, rets := s.rets ++ [(t, false)] } r l :=
          fun r => key _ r (by intro u hu; simp only [upd]; grind)
        refine ⟨w, l, ?_⟩
        constructor <;> (try simp only [upd] at *) <;> grind [isW, past, isWaking, inPush, inList]
      split at h
      · next hne hcas =>
        cases h
        have hh := i21 (by rw [hcas.1]; exact hne)
        have htok : s.token t = false := by grind
        have hx : Chain { s with head := .at t, pc := upd s.pc t (.push3 e) } (.at t) (t :: l) := by
          refine ⟨rfl, ?_⟩
          have h1 : succ { s with head := .at t, pc := upd s.pc t (.push3 e) } t = s.head := by simp [succ, upd, hcas.1]
          rw [h1]
          exact hh.congr fun v hv => by simp only [succ, upd]; grind
        refine ⟨w, t :: l, ?_⟩
        have hnw : ∀ v, isWaking (s.pc v) = false := by
          intro v
          have := i10 v
          grind
        have hst1 := i14 t (by rw [hpc]; rfl)
        have hww : isW (s.pc w) = true := by
          have := i12 hst1
          grind
        constructor <;> (try simp only [upd] at *) <;> grind [isW, past, isWaking, inPush, inList]
      · cases h
        have k' : ∀ r, Chain s r l → Chain { s with pc := upd s.pc t (.push2 s.head) } r l :=
          fun r => key _ r (by intro u hu; simp only [upd]; grind)
        refine ⟨w, l, ?_⟩
        constructor <;> (try simp only [upd] at *) <;> grind [isW, past, isWaking, inPush, inList]
    · next e hpc =>
      cases h
      have k' : ∀ r, Chain s r l → Chain { s with nxt := upd s.nxt t e, pc := upd s.pc t .park } r l :=
        fun r hr => hr.congr (by intro u hu; simp only [succ, upd]; grind)
      refine ⟨w, l, ?_⟩
      constructor <;> (try simp only [upd] at *) <;> grind [isW, past, isWaking, inPush, inList]
    · next hpc =>
      split at h
      swap
      · cases h
      next ht =>
      have hm : t ∉ l := by grind [inList]
      cases h
      have k' : ∀ r, Chain s r l → Chain { s with token := upd s.token t false, pc := upd s.pc t .run, rets := s.rets ++ [(t, false)] } r l :=
        fun r => key _ r (by intro u hu; simp only [upd]; grind)
      have hwu : ∀ v u nx, s.pc v = .waking2 u nx → u ≠ t := by
        intro v u nx hv hut
        have := (i23 v u nx hv).1
        subst hut
        cases l with
        | nil => simp [Chain] at this
        | cons a q => exact hm (by rw [this.1]; simp)
      refine ⟨w, l, ?_⟩
      constructor <;> (try simp only [upd] at *) <;> grind [isW, past, isWaking, inPush, inList]

theorem reach_inv {s : State} (h : Reach next start s) : ∃ w l, Inv s w l :=
  Reach.inv (fun s => ∃ w l, Inv s w l) ⟨0, [], start_inv 0⟩ (fun _ _ _ hi hn => by obtain ⟨w, l, hi⟩ := hi; exact step_inv hn hi) h

end Verif.Once
