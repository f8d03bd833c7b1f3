import Verif.Proof.SchedLock
namespace Verif.SchedLock
open Verif

section
variable {max : Nat} {s s' : State} {a : Act}

theorem rd_cases {p : PC} {c : Nat} (h : rd p = some c) : p = .rdAcq c ∨ p = .reading c := by cases p <;> simp_all

theorem step_rdl (hA : InvA max s) (hB : InvB s) (h : InvC s) (e : step max s a = some s') :
    ∀ t c, s'.pc t = .reading c → s'.lock t = true := by
  clear hA
  obtain ⟨-, -, -, -, -, -, ixb⟩ := hB
  obtain ⟨rdl, -, -, -, rhas, -, -, ptrR, -, -⟩ := h
  rcases a with t | t | t | t | t | t | t <;>
    (obtain ⟨ptr_t, h_ptr⟩ : ∃ x, x = ptr (s.pc t) := ⟨_, rfl⟩) <;>
    simp only [step] at e <;> (repeat' split at e) <;> cases e <;> simp only [upd_apply] <;>
    intro u c hu <;> have H1 := rdl u c <;> have H2 := rhas u c t <;> have P := ptrR t <;> have X := ixb t <;>
    clear rdl rhas ptrR ixb <;>
    (set_option maxHeartbeats 100000 in grind)

theorem step_lkW (hA : InvA max s) (hB : InvB s) (h : InvC s) (e : step max s a = some s') :
    ∀ t c, reg (s'.pc t) = some c → s'.lock t = true → isReading (s'.pc t) = false → s'.writeLock = true := by
  clear hA
  obtain ⟨sec, -, -, -, -, -, -⟩ := hB
  obtain ⟨-, lkW, lk, -, -, -, fr, -, -, -⟩ := h
  rcases a with t | t | t | t | t | t | t <;>
    simp only [step] at e <;> (repeat' split at e) <;> cases e <;> simp only [upd_apply] <;>
    (set_option maxHeartbeats 100000 in grind)

theorem step_lk (hA : InvA max s) (hB : InvB s) (h : InvC s) (e : step max s a = some s') :
    ∀ t c w, reg (s'.pc t) = some c → s'.lock t = true → isReading (s'.pc t) = false → inSec (s'.pc w) = true → has (s'.pc w) c = true := by
  obtain ⟨cell, -, -, -, -, -, -, -, -, -, nz⟩ := hA
  obtain ⟨sec, sec1, -, -, ix, -, -⟩ := hB
  obtain ⟨-, lkW, lk, -, -, -, fr, ptrR, ptrF, -⟩ := h
  rcases a with t | t | t | t | t | t | t <;>
    (obtain ⟨ptr_t, h_ptr⟩ : ∃ x, x = ptr (s.pc t) := ⟨_, rfl⟩) <;>
    simp only [step] at e <;> (repeat' split at e) <;> cases e <;> simp only [upd_apply] <;>
    intro u c w hr hl hn hs <;> have H1 := lk u c w <;> have H0 := lkW u c <;> have H2 := fr u <;>
    have P := ptrR t <;> have F := (fun i p => ptrF t i p u) <;> have S := sec w <;> have S1 := sec1 w t <;> have X := ix t <;>
    have C := cell u c <;> have Z := nz <;> clear lk lkW fr ptrR ptrF sec sec1 ix cell nz <;>
    (set_option maxHeartbeats 100000 in grind)

theorem step_rsz (hA : InvA max s) (hB : InvB s) (h : InvC s) (e : step max s a = some s') :
    ∀ t c w n, rd (s'.pc t) = some c → size (s'.pc w) = some n → c < n := by
  obtain ⟨cell, -, -, -, -, -, -, -, -, -, -⟩ := hA
  obtain ⟨sec, -, -, -, -, -, -⟩ := hB
  obtain ⟨-, -, -, rsz, -, -, -, -, -, -⟩ := h
  rcases a with t | t | t | t | t | t | t <;>
    simp only [step] at e <;> (repeat' split at e) <;> cases e <;> simp only [upd_apply] <;>
    (set_option maxHeartbeats 100000 in grind)

theorem step_rhas (hA : InvA max s) (hB : InvB s) (h : InvC s) (e : step max s a = some s') :
    ∀ t c w, rd (s'.pc t) = some c → has (s'.pc w) c = true → s'.lock t = true ∧ s'.pc t = .rdAcq c := by
  obtain ⟨cell, -, -, -, -, -, -, -, -, -, nz⟩ := hA
  obtain ⟨sec, sec1, -, -, -, -, -⟩ := hB
  obtain ⟨rdl, -, -, rsz, rhas, rptr, -, ptrR, -, -⟩ := h
  rcases a with t | t | t | t | t | t | t <;>
    (obtain ⟨ptr_t, h_ptr⟩ : ∃ x, x = ptr (s.pc t) := ⟨_, rfl⟩) <;>
    simp only [step] at e <;> (repeat' split at e) <;> cases e <;> simp only [upd_apply] <;>
    intro u c w hr hs <;> have H1 := rhas u c w <;> have H0 := (fun n => rsz u c w n) <;> have H2 := rdl u c <;> have D := rd_cases (p := s.pc u) (c := c) <;>
    have R := (fun p => rptr u c t p) <;> have P := ptrR t <;> have S := sec w <;> have S1 := sec1 w t <;>
    have C := cell u c <;> have Z := nz <;> clear rhas rsz rdl rptr ptrR sec sec1 cell nz <;>
    (set_option maxHeartbeats 100000 in grind)

theorem step_rptr (hA : InvA max s) (hB : InvB s) (h : InvC s) (e : step max s a = some s') :
    ∀ t i w p, rd (s'.pc t) = some i → ptr (s'.pc w) = some (i, p) → p = t := by
  obtain ⟨cell, -, -, -, -, -, -, -, -, -, -⟩ := hA
  obtain ⟨sec, -, -, -, -, -, -⟩ := hB
  obtain ⟨-, -, -, -, -, rptr, -, -, -, -⟩ := h
  rcases a with t | t | t | t | t | t | t <;>
    simp only [step] at e <;> (repeat' split at e) <;> cases e <;> simp only [upd_apply] <;>
    (set_option maxHeartbeats 100000 in grind)

theorem step_fr (hA : InvA max s) (hB : InvB s) (h : InvC s) (e : step max s a = some s') :
    ∀ t, fresh (s'.pc t) = true → s'.lock t = false := by
  clear hA
  clear hB
  obtain ⟨-, -, -, -, -, -, fr, ptrR, -, -⟩ := h
  rcases a with t | t | t | t | t | t | t <;>
    (obtain ⟨ptr_t, h_ptr⟩ : ∃ x, x = ptr (s.pc t) := ⟨_, rfl⟩) <;>
    simp only [step] at e <;> (repeat' split at e) <;> cases e <;> simp only [upd_apply] <;>
    (set_option maxHeartbeats 100000 in grind)

theorem step_ptrR (hA : InvA max s) (hB : InvB s) (h : InvC s) (e : step max s a = some s') :
    ∀ w i p, ptr (s'.pc w) = some (i, p) → p ≠ 0 ∧ here (s'.pc p) i = true := by
  have ld1 : ∀ w c i n, s.pc w = .wLoop c i n → i < n → s.data i ≠ 0 → reg (s.pc (s.data i)) = some i :=
    fun w c i n e h h0 => load hA (i := i) (by have := hB.sz w n (by rw [e]; rfl); omega) h0
  have ld2 : ∀ w c i n, s.pc w = .rel c i n → i < n → s.data i ≠ 0 → reg (s.pc (s.data i)) = some i :=
    fun w c i n e h h0 => load hA (i := i) (by have := hB.sz w n (by rw [e]; rfl); omega) h0
  clear hA
  clear hB
  obtain ⟨-, -, -, -, -, -, -, ptrR, -, -⟩ := h
  rcases a with t | t | t | t | t | t | t <;>
    simp only [step] at e <;> (repeat' split at e) <;> cases e <;> simp only [upd_apply] <;>
    (set_option maxHeartbeats 100000 in grind)

theorem step_ptrF (hA : InvA max s) (hB : InvB s) (h : InvC s) (e : step max s a = some s') :
    ∀ w i p t, ptr (s'.pc w) = some (i, p) → reg (s'.pc t) = some i → t ≠ p → s'.lock t = false := by
  obtain ⟨cell, -, -, -, -, -, -, -, -, -, -⟩ := hA
  obtain ⟨sec, sec1, -, -, -, -, -⟩ := hB
  obtain ⟨-, -, -, -, -, rptr, fr, ptrR, ptrF, -⟩ := h
  rcases a with t | t | t | t | t | t | t <;>
    simp only [step] at e <;> (repeat' split at e) <;> cases e <;> simp only [upd_apply] <;>
    (set_option maxHeartbeats 100000 in grind)

theorem step_wl (hA : InvA max s) (hB : InvB s) (h : InvC s) (e : step max s a = some s') :
    ∀ w c i n p, s'.pc w = .wLock c i n p → s'.lock p = true → isReading (s'.pc p) = true := by
  have ld1 : ∀ w c i n, s.pc w = .wLoop c i n → i < n → s.data i ≠ 0 → reg (s.pc (s.data i)) = some i :=
    fun w c i n e h h0 => load hA (i := i) (by have := hB.sz w n (by rw [e]; rfl); omega) h0
  have ld2 : ∀ w c i n, s.pc w = .rel c i n → i < n → s.data i ≠ 0 → reg (s.pc (s.data i)) = some i :=
    fun w c i n e h h0 => load hA (i := i) (by have := hB.sz w n (by rw [e]; rfl); omega) h0
  clear hA
  obtain ⟨-, sec1, -, -, -, -, -⟩ := hB
  obtain ⟨-, -, lk, -, -, -, -, ptrR, -, wl⟩ := h
  rcases a with t | t | t | t | t | t | t <;>
    (obtain ⟨ptr_t, h_ptr⟩ : ∃ x, x = ptr (s.pc t) := ⟨_, rfl⟩) <;>
    simp only [step] at e <;> (repeat' split at e) <;> cases e <;> simp only [upd_apply] <;>
    (set_option maxHeartbeats 100000 in grind)

end

end Verif.SchedLock
