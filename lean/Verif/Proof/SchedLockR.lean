import Verif.Proof.SchedLockC
/-! The invariants of the scheduler's reader-writer lock hold in every reachable state. -/
namespace Verif.SchedLock
open Verif

structure Inv (max : Nat) (s : State) : Prop where
  a : InvA max s
  b : InvB s
  c : InvC s
  o : s.outside = false

variable {max : Nat} {s s' : State} {a : Act}

theorem step_o (ha : s.aborted = false) (hA : InvA max s) (hB : InvB s) (h : s.outside = false) (e : step max s a = some s') :
    s'.outside = false := by
  have am := hA.am ha
  have ra := hA.ra
  have h1 := hA.scan
  have h2 : ∀ t n, s.pc t = .fill n → n < s.alloc := fun t n ht => (hA.slots t n (by rw [ht]; rfl)).2
  have h3 : ∀ t c i n, s.pc t = .wLoop c i n → n ≤ s.ready := fun t c i n ht => hB.sz t n (by rw [ht]; rfl)
  have h4 : ∀ t c i n, s.pc t = .rel c i n → n ≤ s.ready := fun t c i n ht => hB.sz t n (by rw [ht]; rfl)
  clear hA hB
  step_cases e a <;> first | exact h | (simp only [h, Bool.false_or, decide_eq_false_iff_not]; grind)

theorem inv_step (h : Inv max s) (e : next max s a = some s') : Inv max s' := by
  obtain ⟨hA, hB, hC, ho⟩ := h
  unfold next at e
  split at e
  · exact absurd e (by simp)
  · rename_i hab
    have ha : s.aborted = false := by simpa using hab
    exact ⟨⟨step_cell ha hA e, step_data ha hA e, step_slots ha hA e, step_slot1 ha hA e, step_pub ha hA e, step_slotE ha hA e,
        step_ra ha hA e, step_am ha hA e, step_scan ha hA e, step_cas ha hA e, step_nz ha hA e⟩,
      ⟨step_sec hA hB e, step_sec1 hA hB e, step_secE hA hB e, step_sz hA hB e, step_ix hA hB e, step_ixa hB e, step_ixb hB e⟩,
      ⟨step_rdl hA hB hC e, step_lkW hA hB hC e, step_lk hA hB hC e, step_rsz hA hB hC e, step_rhas hA hB hC e, step_rptr hA hB hC e,
        step_fr hA hB hC e, step_ptrR hA hB hC e, step_ptrF hA hB hC e, step_wl hA hB hC e⟩, step_o ha hA hB ho e⟩

theorem inv_start : Inv max start :=
  ⟨by constructor <;> simp [start], by constructor <;> simp [start], by constructor <;> simp [start], rfl⟩

theorem inv_reach (h : Reach (next max) start s) : Inv max s := h.inv (Inv max) inv_start fun _ _ _ h e => inv_step h e

/-- If the writer cannot go on, then someone is in the critical section. -/
theorem sec_go (h : Inv max s) (hr : ∀ t, isReading (s.pc t) = false) (hw : ∀ t c n, s.pc t ≠ .writing c n) {w : Nat}
    (hs : inSec (s.pc w) = true) : (step max s (.go w)).isSome := by
  have wl := h.c.wl w
  have hw := hw w
  simp only [step]
  cases hp : s.pc w <;> simp_all <;> (try split) <;> simp_all

/-- The thread that acts. -/
def Act.thread : Act → Nat
  | .register t | .readLock t | .readUnlock t | .writeLock t | .writeUnlock t | .unregister t | .go t => t

theorem step_other (e : step max s a = some s') {t : Nat} (h : a.thread ≠ t) : s'.pc t = s.pc t := by
  step_cases e a <;> simp only [Act.thread] at h <;> simp [upd_apply, Ne.symm h]

theorem exec_other {t : Nat} : ∀ (as : List Act) (s : State), (∀ a ∈ as, a.thread ≠ t) →
    ((exec (next max) s as).getD start).pc t = s.pc t ∨ exec (next max) s as = none
  | [], s, _ => .inl rfl
  | a :: as, s, h => by
    simp only [exec]
    cases e : next max s a with
    | none => exact .inr rfl
    | some u =>
      have e' : step max s a = some u := by
        unfold next at e
        split at e
        · cases e
        · exact e
      rw [← step_other e' (h a (by simp))]
      exact exec_other as u fun b hb => h b (by simp [hb])

end Verif.SchedLock
