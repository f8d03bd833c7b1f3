import Verif.Proof.KFuture
/-!
C52: the client's steps keep the invariant.
-/
namespace Verif.KFuture
open Verif Verif.SingleSem

set_option maxHeartbeats 8000000 in
theorem step_setR {s s' : State} {u hit : Option Nat} {i : Nat} (iv : Inv s u hit) (hc : s.c = .setR i) (h : nextP s .stepC = some s') : Inv s' u hit := by
  obtain ⟨i1, i2, i3, i4, i5, i6, i7, i8, i9, i10, i11, i12, i13, i14, i15, i16, i17, i18, i19, i20, i21, i22, i23, i24, i25, i26, i27, i28, i29, i30, i31, i32, i33, i34⟩ := iv
  obtain ⟨hp, h'⟩ := nextP_some h
  clear h
  have h := h'
  clear h'
  simp only [next, hc, touch, afterSetup, afterWait, afterRet, leave] at h
  simp only [Proper, hc] at hp
  simp only [hc, inCall, armedBy, reduceCtorEq, false_implies, implies_true, CPc.setR.injEq, CPc.setC.injEq, CPc.osC.injEq, CPc.ret.injEq, CPc.retS.injEq, false_or, or_false, exists_false, and_imp, forall_eq', forall_const, true_or, or_true, true_implies, forall_eq_or_imp, false_and, and_false, if_false, if_true, true_and, and_true, Nat.add_zero] at i1 i2 i3 i4 i5 i6 i7 i10 i16 i17 i18 i19 i21 i22 i23 i24 i25 i26 i27 i28 i29 i30
  have hi := i17
  have hn := i6 i hi.1 hi.2
  have ha : ¬ ((decide (s.lo ≤ i) && decide (i < i)) = true) := by simp
  split at h
  · cases h; constructor <;> intros <;> (try simp only [upd] at *) <;> grind [inCall, armedBy, busy, posted]
  · next hf =>
    have hq : s.ptr i = .armed := by
      cases hq : s.ptr i with
      | armed => rfl
      | ful => exact absurd hq hf
      | prog => exact absurd (i10 i hq) ha
      | aband => exact absurd ((i14 i).2 hq) (by simp [hn])
      | ctx c => exact absurd (i7 i c hq).2 ha
    cases h; constructor <;> intros <;> (try simp only [upd] at *) <;> grind [inCall, armedBy, busy, posted]

set_option maxHeartbeats 8000000 in
theorem step_setC {s s' : State} {u hit : Option Nat} {i : Nat} {e : FPtr} (iv : Inv s u hit) (hc : s.c = .setC i e) (h : nextP s .stepC = some s') : Inv s' u hit := by
  obtain ⟨i1, i2, i3, i4, i5, i6, i7, i8, i9, i10, i11, i12, i13, i14, i15, i16, i17, i18, i19, i20, i21, i22, i23, i24, i25, i26, i27, i28, i29, i30, i31, i32, i33, i34⟩ := iv
  obtain ⟨hp, h'⟩ := nextP_some h
  clear h
  have h := h'
  clear h'
  simp only [next, hc, touch, afterSetup, afterWait, afterRet, leave] at h
  simp only [Proper, hc] at hp
  simp only [hc, inCall, armedBy, reduceCtorEq, false_implies, implies_true, CPc.setR.injEq, CPc.setC.injEq, CPc.osC.injEq, CPc.ret.injEq, CPc.retS.injEq, false_or, or_false, exists_false, and_imp, forall_eq', forall_const, true_or, or_true, true_implies, forall_eq_or_imp, false_and, and_false, if_false, if_true, true_and, and_true, Nat.add_zero] at i1 i2 i3 i4 i5 i6 i7 i10 i16 i17 i18 i19 i21 i22 i23 i24 i25 i26 i27 i28 i29 i30
  split at h
  · cases h
    by_cases hl : i + 1 < s.hi
    · simp only [hl, if_true]; constructor <;> intros <;> (try simp only [upd] at *) <;> grind [inCall, armedBy, busy, posted]
    · simp only [hl, if_false]; constructor <;> intros <;> (try simp only [upd] at *) <;> grind [inCall, armedBy, busy, posted]
  · cases h; constructor <;> intros <;> (try simp only [upd] at *) <;> grind [inCall, armedBy, busy, posted]

set_option maxHeartbeats 8000000 in
theorem step_osL {s s' : State} {u hit : Option Nat} (iv : Inv s u hit) (hc : s.c = .osL) (h : nextP s .stepC = some s') : Inv s' u hit := by
  obtain ⟨i1, i2, i3, i4, i5, i6, i7, i8, i9, i10, i11, i12, i13, i14, i15, i16, i17, i18, i19, i20, i21, i22, i23, i24, i25, i26, i27, i28, i29, i30, i31, i32, i33, i34⟩ := iv
  obtain ⟨hp, h'⟩ := nextP_some h
  clear h
  have h := h'
  clear h'
  simp only [next, hc, touch, afterSetup, afterWait, afterRet, leave] at h
  simp only [Proper, hc] at hp
  simp only [hc, inCall, armedBy, reduceCtorEq, false_implies, implies_true, CPc.setR.injEq, CPc.setC.injEq, CPc.osC.injEq, CPc.ret.injEq, CPc.retS.injEq, false_or, or_false, exists_false, and_imp, forall_eq', forall_const, true_or, or_true, true_implies, forall_eq_or_imp, false_and, and_false, if_false, if_true, true_and, and_true, Nat.add_zero] at i1 i2 i3 i4 i5 i6 i7 i10 i16 i17 i18 i19 i21 i22 i23 i24 i25 i26 i27 i28 i29 i30
  split at h
  · split at h
    · cases h; constructor <;> intros <;> (try simp only [upd] at *) <;> grind [inCall, armedBy, busy, posted]
    · cases h; constructor <;> intros <;> (try simp only [upd] at *) <;> grind [inCall, armedBy, busy, posted]
  · next hf =>
    have hq : s.os s.ctx = .zero := by
      cases hq : s.os s.ctx with
      | zero => rfl
      | one => exact absurd hq hf
      | thr => have := i22 hq; simp at this
    cases h; constructor <;> intros <;> (try simp only [upd] at *) <;> grind [inCall, armedBy, busy, posted]

set_option maxHeartbeats 8000000 in
theorem step_osC {s s' : State} {u hit : Option Nat} {e : Ptr} (iv : Inv s u hit) (hc : s.c = .osC e) (h : nextP s .stepC = some s') : Inv s' u hit := by
  obtain ⟨i1, i2, i3, i4, i5, i6, i7, i8, i9, i10, i11, i12, i13, i14, i15, i16, i17, i18, i19, i20, i21, i22, i23, i24, i25, i26, i27, i28, i29, i30, i31, i32, i33, i34⟩ := iv
  obtain ⟨hp, h'⟩ := nextP_some h
  clear h
  have h := h'
  clear h'
  simp only [next, hc, touch, afterSetup, afterWait, afterRet, leave] at h
  simp only [Proper, hc] at hp
  simp only [hc, inCall, armedBy, reduceCtorEq, false_implies, implies_true, CPc.setR.injEq, CPc.setC.injEq, CPc.osC.injEq, CPc.ret.injEq, CPc.retS.injEq, false_or, or_false, exists_false, and_imp, forall_eq', forall_const, true_or, or_true, true_implies, forall_eq_or_imp, false_and, and_false, if_false, if_true, true_and, and_true, Nat.add_zero] at i1 i2 i3 i4 i5 i6 i7 i10 i16 i17 i18 i19 i21 i22 i23 i24 i25 i26 i27 i28 i29 i30
  split at h <;> cases h
  · constructor <;> intros <;> (try simp only [upd] at *) <;> grind [inCall, armedBy, busy, posted]
  · constructor <;> intros <;> (try simp only [upd] at *) <;> grind [inCall, armedBy, busy, posted]

set_option maxHeartbeats 8000000 in
theorem step_osP {s s' : State} {u hit : Option Nat} (iv : Inv s u hit) (hc : s.c = .osP) (h : nextP s .stepC = some s') : Inv s' u hit := by
  obtain ⟨i1, i2, i3, i4, i5, i6, i7, i8, i9, i10, i11, i12, i13, i14, i15, i16, i17, i18, i19, i20, i21, i22, i23, i24, i25, i26, i27, i28, i29, i30, i31, i32, i33, i34⟩ := iv
  obtain ⟨hp, h'⟩ := nextP_some h
  clear h
  have h := h'
  clear h'
  simp only [next, hc, touch, afterSetup, afterWait, afterRet, leave] at h
  simp only [Proper, hc] at hp
  simp only [hc, inCall, armedBy, reduceCtorEq, false_implies, implies_true, CPc.setR.injEq, CPc.setC.injEq, CPc.osC.injEq, CPc.ret.injEq, CPc.retS.injEq, false_or, or_false, exists_false, and_imp, forall_eq', forall_const, true_or, or_true, true_implies, forall_eq_or_imp, false_and, and_false, if_false, if_true, true_and, and_true, Nat.add_zero] at i1 i2 i3 i4 i5 i6 i7 i10 i16 i17 i18 i19 i21 i22 i23 i24 i25 i26 i27 i28 i29 i30
  split at h
  · have hq : s.os s.ctx = .one := by
      cases hq : s.os s.ctx with
      | zero => exact absurd hq (by grind)
      | one => rfl
      | thr => simp only [hq] at i21; grind
    split at h
    · cases h; constructor <;> intros <;> (try simp only [upd] at *) <;> grind [inCall, armedBy, busy, posted]
    · cases h; constructor <;> intros <;> (try simp only [upd] at *) <;> grind [inCall, armedBy, busy, posted]
  · cases h

set_option maxHeartbeats 8000000 in
theorem step_spin {s s' : State} {u hit : Option Nat} (iv : Inv s u hit) (hc : s.c = .spin) (h : nextP s .stepC = some s') : Inv s' u hit := by
  obtain ⟨i1, i2, i3, i4, i5, i6, i7, i8, i9, i10, i11, i12, i13, i14, i15, i16, i17, i18, i19, i20, i21, i22, i23, i24, i25, i26, i27, i28, i29, i30, i31, i32, i33, i34⟩ := iv
  obtain ⟨hp, h'⟩ := nextP_some h
  clear h
  have h := h'
  clear h'
  simp only [next, hc, touch, afterSetup, afterWait, afterRet, leave] at h
  simp only [Proper, hc] at hp
  simp only [hc, inCall, armedBy, reduceCtorEq, false_implies, implies_true, CPc.setR.injEq, CPc.setC.injEq, CPc.osC.injEq, CPc.ret.injEq, CPc.retS.injEq, false_or, or_false, exists_false, and_imp, forall_eq', forall_const, true_or, or_true, true_implies, forall_eq_or_imp, false_and, and_false, if_false, if_true, true_and, and_true, Nat.add_zero] at i1 i2 i3 i4 i5 i6 i7 i10 i16 i17 i18 i19 i21 i22 i23 i24 i25 i26 i27 i28 i29 i30
  split at h
  · cases h; constructor <;> intros <;> (try simp only [upd] at *) <;> grind [inCall, armedBy, busy, posted]
  · next hf =>
    have hh : hit = some s.lo := by
      cases hh : hit with
      | none => grind
      | some f => have := i26 f hh; grind
    have hps := (i26 s.lo hh).1
    have hd : s.sv s.lo = .done := by
      cases hd : s.sv s.lo with
      | unpark => exact absurd ((i9 s.lo).2 (by simp [hd, busy])) hf
      | store => exact absurd ((i9 s.lo).2 (by simp [hd, busy])) hf
      | done => rfl
      | _ => simp [hd, posted] at hps
    cases h; constructor <;> intros <;> (try simp only [upd] at *) <;> grind [inCall, armedBy, busy, posted]

set_option maxHeartbeats 8000000 in
theorem step_ret {s s' : State} {u hit : Option Nat} {i : Nat} {r : Option Nat} (iv : Inv s u hit) (hc : s.c = .ret i r) (h : nextP s .stepC = some s') : Inv s' u hit := by
  obtain ⟨i1, i2, i3, i4, i5, i6, i7, i8, i9, i10, i11, i12, i13, i14, i15, i16, i17, i18, i19, i20, i21, i22, i23, i24, i25, i26, i27, i28, i29, i30, i31, i32, i33, i34⟩ := iv
  obtain ⟨hp, h'⟩ := nextP_some h
  clear h
  have h := h'
  clear h'
  simp only [next, hc, touch, afterSetup, afterWait, afterRet, leave] at h
  simp only [Proper, hc] at hp
  simp only [hc, inCall, armedBy, reduceCtorEq, false_implies, implies_true, CPc.setR.injEq, CPc.setC.injEq, CPc.osC.injEq, CPc.ret.injEq, CPc.retS.injEq, false_or, or_false, exists_false, and_imp, forall_eq', forall_const, true_or, or_true, true_implies, forall_eq_or_imp, false_and, and_false, if_false, if_true, true_and, and_true, Nat.add_zero] at i1 i2 i3 i4 i5 i6 i7 i10 i16 i17 i18 i19 i21 i22 i23 i24 i25 i26 i27 i28 i29 i30
  split at h
  · split at h <;> cases h
    · constructor <;> intros <;> (try simp only [upd] at *) <;> grind [inCall, armedBy, busy, posted]
    · constructor <;> intros <;> (try simp only [upd] at *) <;> grind [inCall, armedBy, busy, posted]
  · split at h
    · split at h <;> cases h
      · constructor <;> intros <;> (try simp only [upd] at *) <;> grind [inCall, armedBy, busy, posted]
      · constructor <;> intros <;> (try simp only [upd] at *) <;> grind [inCall, armedBy, busy, posted]
    · split at h <;> cases h
      · constructor <;> intros <;> (try simp only [upd] at *) <;> grind [inCall, armedBy, busy, posted]
      · constructor <;> intros <;> (try simp only [upd] at *) <;> grind [inCall, armedBy, busy, posted]
    · cases h; constructor <;> intros <;> (try simp only [upd] at *) <;> grind [inCall, armedBy, busy, posted]
    · next hx h1 h2 h3 =>
      exfalso
      cases hq : s.ptr i with
      | armed => exact h1 hq
      | ful => exact h2 hq
      | prog => exact h3 hq
      | aband => have := (i14 i).2 hq; grind
      | ctx c => have := i7 i c hq; grind

set_option maxHeartbeats 8000000 in
theorem step_retS {s s' : State} {u hit : Option Nat} {i : Nat} {r : Option Nat} (iv : Inv s u hit) (hc : s.c = .retS i r) (h : nextP s .stepC = some s') : Inv s' u hit := by
  obtain ⟨i1, i2, i3, i4, i5, i6, i7, i8, i9, i10, i11, i12, i13, i14, i15, i16, i17, i18, i19, i20, i21, i22, i23, i24, i25, i26, i27, i28, i29, i30, i31, i32, i33, i34⟩ := iv
  obtain ⟨hp, h'⟩ := nextP_some h
  clear h
  have h := h'
  clear h'
  simp only [next, hc, touch, afterSetup, afterWait, afterRet, leave] at h
  simp only [Proper, hc] at hp
  simp only [hc, inCall, armedBy, reduceCtorEq, false_implies, implies_true, CPc.setR.injEq, CPc.setC.injEq, CPc.osC.injEq, CPc.ret.injEq, CPc.retS.injEq, false_or, or_false, exists_false, and_imp, forall_eq', forall_const, true_or, or_true, true_implies, forall_eq_or_imp, false_and, and_false, if_false, if_true, true_and, and_true, Nat.add_zero] at i1 i2 i3 i4 i5 i6 i7 i10 i16 i17 i18 i19 i21 i22 i23 i24 i25 i26 i27 i28 i29 i30
  split at h
  · split at h <;> cases h
    · constructor <;> intros <;> (try simp only [upd] at *) <;> grind [inCall, armedBy, busy, posted]
    · constructor <;> intros <;> (try simp only [upd] at *) <;> grind [inCall, armedBy, busy, posted]
  · cases h; constructor <;> intros <;> (try simp only [upd] at *) <;> grind [inCall, armedBy, busy, posted]

theorem step_client {s s' : State} {u hit : Option Nat} (iv : Inv s u hit) (h : nextP s .stepC = some s') : Inv s' u hit := by
  cases hc : s.c with
  | run => simp [nextP_some, nextP, next, hc] at h
  | setR i => exact step_setR iv hc h
  | setC i e => exact step_setC iv hc h
  | osL => exact step_osL iv hc h
  | osC e => exact step_osC iv hc h
  | osP => exact step_osP iv hc h
  | spin => exact step_spin iv hc h
  | ret i r => exact step_ret iv hc h
  | retS i r => exact step_retS iv hc h
  | abd f => exact absurd hc (iv.abd f)

theorem reach_inv {s : State} (h : Reach nextP start s) : ∃ u hit, Inv s u hit := by
  refine Reach.inv (fun s => ∃ u hit, Inv s u hit) ⟨none, none, start_inv⟩ (fun s a s' hi hn => ?_) h
  obtain ⟨u, hit, hi⟩ := hi
  cases a with
  | wait f c => exact ⟨u, none, step_wait hi hn⟩
  | waitAny l m c => exact ⟨u, none, step_waitAny hi hn⟩
  | abandon f => exact ⟨u, hit, step_abandon hi hn⟩
  | fulfil f => exact ⟨u, hit, step_fulfil hi hn⟩
  | stepC => exact ⟨u, hit, step_client hi hn⟩
  | stepS f => exact step_server hi hn

end Verif.KFuture
