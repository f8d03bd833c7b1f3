import Verif.Spec.KFuture
import Verif.Proof.Heap
import Mathlib.Tactic.SplitIfs
/-!
C52: the invariant of the kernel's futures and its preservation by the calls and by the servers' steps.
-/
namespace Verif.KFuture
open Verif Verif.SingleSem

/-- The future is set up with the current context and the client has not retracted it. -/
def armedBy (s : State) (f : Nat) : Bool := match s.c with
  | .setR i => s.lo ≤ f && f < i
  | .setC i _ => s.lo ≤ f && f < i
  | .osL | .osC _ | .osP | .spin => s.lo ≤ f && f < s.hi
  | .ret i _ | .retS i _ => i ≤ f && f < s.hi
  | _ => false

def busy : SPc → Bool
  | .post _ | .unpark | .store => true
  | _ => false

def posted : SPc → Bool
  | .unpark | .store | .done => true
  | _ => false

/-- The client is in a call of `wait` or `wait_any`. -/
def inCall : CPc → Bool
  | .run | .abd _ => false
  | _ => true

/-- `u`: the server about to unpark; `hit`: a future that has posted the context. -/
structure Inv (s : State) (u hit : Option Nat) : Prop where
  live : s.live = inCall s.c
  abd : ∀ f, s.c ≠ .abd f
  rng : inCall s.c = true → s.lo < s.hi
  any : inCall s.c = true → s.any = false → s.hi = s.lo + 1
  spin : s.c = .spin → s.any = false
  nab : inCall s.c = true → ∀ f, s.lo ≤ f → f < s.hi → s.ab f = false
  ctx : ∀ f c, s.ptr f = .ctx c → c = s.ctx ∧ armedBy s f = true
  arm : ∀ f, s.ptr f = .armed → busy (s.sv f) = false ∧ posted (s.sv f) = false
  prog : ∀ f, s.ptr f = .prog ↔ busy (s.sv f) = true
  progA : ∀ f, s.ptr f = .prog → armedBy s f = true
  postC : ∀ f c, s.sv f = .post c → c = s.ctx
  ful : ∀ f, s.ptr f = .ful → s.sv f = .done
  done : ∀ f, s.sv f = .done → s.ptr f = .ful ∨ s.ptr f = .aband
  ab : ∀ f, s.ab f = true ↔ s.ptr f = .aband
  casE : ∀ f e, s.sv f = .cas e → e ≠ .ful ∧ e ≠ .prog ∧ e ≠ .aband
  setC : ∀ i e, s.c = .setC i e → e = .armed
  idx : ∀ i, s.c = .setR i ∨ (∃ e, s.c = .setC i e) ∨ (∃ r, s.c = .ret i r) ∨ (∃ r, s.c = .retS i r) → s.lo ≤ i ∧ i < s.hi
  retA : ∀ i r, s.c = .ret i r ∨ s.c = .retS i r → s.any = true
  armd : ∀ f, armedBy s f = true → s.ptr f ≠ .armed
  un : ∀ f, s.sv f = .unpark ↔ u = some f
  tok : s.token + (if u = none then 0 else 1) + (if s.c = .osP ∧ s.os s.ctx = .thr then 1 else 0) = if s.c = .osP then 1 else 0
  thr : s.os s.ctx = .thr → s.c = .osP ∨ inCall s.c = false
  osP : s.c = .osP → s.os s.ctx ≠ .zero
  osE : ∀ e, s.c = .osC e → e = .zero
  hit1 : inCall s.c = true → (s.os s.ctx = .one ↔ hit ≠ none)
  hit2 : ∀ f, inCall s.c = true → hit = some f → posted (s.sv f) = true ∧ s.lo ≤ f ∧ f < s.hi
  hit3 : ∀ f, armedBy s f = true → posted (s.sv f) = true → hit ≠ none
  after : (s.c = .spin ∨ ∃ i r, s.c = .ret i r ∨ s.c = .retS i r) → hit ≠ none
  hitr : ∀ i r f, s.c = .ret i r ∨ s.c = .retS i r → hit = some f → f < i → r ≠ none
  retR : ∀ i r j, s.c = .ret i r ∨ s.c = .retS i r → r = some j → s.ptr j = .ful ∧ s.lo ≤ j ∧ j < s.hi
  fr : ∀ f, s.freed f = if s.ptr f = .aband ∧ s.sv f = .done then 1 else 0
  uaf : s.uaf = false
  dead : s.dead = false
  abort : s.abort = false

theorem start_inv : Inv start none none := by
  constructor <;> simp [start, inCall, busy, posted, armedBy]

theorem nextP_some {s s' : State} {a : Act} (h : nextP s a = some s') : Proper s a ∧ next s a = some s' := by
  unfold nextP at h
  split at h
  · next hp => exact ⟨hp, h⟩
  · cases h

set_option maxHeartbeats 4000000 in
theorem step_wait {s s' : State} {u hit : Option Nat} (iv : Inv s u hit) {f c : Nat} (h : nextP s (.wait f c) = some s') : Inv s' u none := by
  obtain ⟨i1, i2, i3, i4, i5, i6, i7, i8, i9, i10, i11, i12, i13, i14, i15, i16, i17, i18, i19, i20, i21, i22, i23, i24, i25, i26, i27, i28, i29, i30, i31, i32, i33, i34⟩ := iv
  obtain ⟨hp, h⟩ := nextP_some h
  simp only [next] at h
  simp only [Proper] at hp
  split at h <;> cases h
  constructor <;> intros <;> (try simp only [upd] at *) <;> grind [inCall, armedBy, busy, posted]

set_option maxHeartbeats 4000000 in
theorem step_waitAny {s s' : State} {u hit : Option Nat} (iv : Inv s u hit) {l m c : Nat} (h : nextP s (.waitAny l m c) = some s') : Inv s' u none := by
  obtain ⟨i1, i2, i3, i4, i5, i6, i7, i8, i9, i10, i11, i12, i13, i14, i15, i16, i17, i18, i19, i20, i21, i22, i23, i24, i25, i26, i27, i28, i29, i30, i31, i32, i33, i34⟩ := iv
  obtain ⟨hp, h⟩ := nextP_some h
  simp only [next] at h
  simp only [Proper] at hp
  obtain ⟨hp1, hp2⟩ := hp
  rw [if_pos hp1] at h
  split at h <;> cases h
  constructor <;> intros <;> (try simp only [upd] at *) <;> grind [inCall, armedBy, busy, posted]

set_option maxHeartbeats 4000000 in
theorem step_abandon {s s' : State} {u hit : Option Nat} (iv : Inv s u hit) {f : Nat} (h : nextP s (.abandon f) = some s') : Inv s' u hit := by
  obtain ⟨i1, i2, i3, i4, i5, i6, i7, i8, i9, i10, i11, i12, i13, i14, i15, i16, i17, i18, i19, i20, i21, i22, i23, i24, i25, i26, i27, i28, i29, i30, i31, i32, i33, i34⟩ := iv
  obtain ⟨hp, h⟩ := nextP_some h
  simp only [next, touch] at h
  simp only [Proper] at hp
  split at h
  · next hc =>
    have ha : armedBy s f = false := by simp [armedBy, hc]
    split at h
    · cases h
      constructor <;> intros <;> (try simp only [upd] at *) <;> grind [inCall, armedBy, busy, posted]
    · next hq => exact absurd (i10 f hq) (by simp [ha])
    · next h1 h2 =>
      cases h
      have hq : s.ptr f = .ful := by
        cases hq : s.ptr f with
        | armed => exact absurd hq h1
        | ful => rfl
        | prog => exact absurd hq h2
        | aband => exact absurd ((i14 f).2 hq) (by simp [hp])
        | ctx c => exact absurd (i7 f c hq).2 (by simp [ha])
      constructor <;> intros <;> (try simp only [upd] at *) <;> grind [inCall, armedBy, busy, posted]
  · cases h

set_option maxHeartbeats 4000000 in
theorem step_fulfil {s s' : State} {u hit : Option Nat} (iv : Inv s u hit) {f : Nat} (h : nextP s (.fulfil f) = some s') : Inv s' u hit := by
  obtain ⟨i1, i2, i3, i4, i5, i6, i7, i8, i9, i10, i11, i12, i13, i14, i15, i16, i17, i18, i19, i20, i21, i22, i23, i24, i25, i26, i27, i28, i29, i30, i31, i32, i33, i34⟩ := iv
  obtain ⟨hp, h⟩ := nextP_some h
  simp only [next] at h
  split at h <;> cases h
  constructor <;> intros <;> (try simp only [upd] at *) <;> grind [inCall, armedBy, busy, posted]

set_option maxHeartbeats 8000000 in
theorem step_server {s s' : State} {u hit : Option Nat} (iv : Inv s u hit) {f : Nat} (h : nextP s (.stepS f) = some s') : ∃ u' hit', Inv s' u' hit' := by
  obtain ⟨i1, i2, i3, i4, i5, i6, i7, i8, i9, i10, i11, i12, i13, i14, i15, i16, i17, i18, i19, i20, i21, i22, i23, i24, i25, i26, i27, i28, i29, i30, i31, i32, i33, i34⟩ := iv
  obtain ⟨hp, h⟩ := nextP_some h
  simp only [next, touch] at h
  split at h
  · cases h
  · cases h
  · split at h <;> cases h
    · refine ⟨u, hit, ?_⟩; constructor <;> intros <;> (try simp only [upd] at *) <;> grind [inCall, armedBy, busy, posted]
    · refine ⟨u, hit, ?_⟩; constructor <;> intros <;> (try simp only [upd] at *) <;> grind [inCall, armedBy, busy, posted]
  · split at h
    · split at h
      · cases h; refine ⟨u, hit, ?_⟩; constructor <;> intros <;> (try simp only [upd] at *) <;> grind [inCall, armedBy, busy, posted]
      · cases h; refine ⟨u, hit, ?_⟩; constructor <;> intros <;> (try simp only [upd] at *) <;> grind [inCall, armedBy, busy, posted]
      · cases h
    · cases h; refine ⟨u, hit, ?_⟩; constructor <;> intros <;> (try simp only [upd] at *) <;> grind [inCall, armedBy, busy, posted]
  · next c hc =>
    cases h
    refine ⟨if s.os c = .thr then some f else u, some f, ?_⟩; constructor <;> intros <;> (try simp only [upd] at *) <;> grind [inCall, armedBy, busy, posted]
  · cases h; refine ⟨none, hit, ?_⟩; constructor <;> intros <;> (try simp only [upd] at *) <;> grind [inCall, armedBy, busy, posted]
  · cases h; refine ⟨u, hit, ?_⟩; constructor <;> intros <;> (try simp only [upd] at *) <;> grind [inCall, armedBy, busy, posted]

end Verif.KFuture
