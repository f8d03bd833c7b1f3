import Verif.Model.SchedLock
import Verif.Proof.Heap
namespace Verif.SchedLock
open Verif

/-- The identifier of a registered thread. -/
@[simp] def reg : PC → Option Nat
  | .idle c | .rdSpin c | .rdAcq c | .reading c | .wAcq c | .wSize c | .wLoop c _ _ | .wLock c _ _ _ | .writing c _
  | .rel c _ _ | .relStore c _ _ _ | .relW c => some c
  | _ => none

/-- The cell a thread has been given and has not published. -/
@[simp] def slot : PC → Option Nat
  | .fill n | .publish n => some n
  | _ => none

/-- Not yet registered. -/
@[simp] def fresh : PC → Bool
  | .out | .scan _ _ | .cas _ _ | .chk | .faa | .fill _ | .publish _ => true
  | _ => false

/-- Between the acquisition and the release of `write_lock`. -/
@[simp] def inSec : PC → Bool
  | .wSize _ | .wLoop _ _ _ | .wLock _ _ _ _ | .writing _ _ | .rel _ _ _ | .relStore _ _ _ _ | .relW _ => true
  | _ => false

/-- Past the test of `write_lock` in the reader. -/
@[simp] def rd : PC → Option Nat
  | .rdAcq c | .reading c => some c
  | _ => none

/-- The number of cells a writer goes through. -/
@[simp] def size : PC → Option Nat
  | .wLoop _ _ n | .wLock _ _ n _ | .writing _ n | .rel _ _ n | .relStore _ _ n _ => some n
  | _ => none

@[simp] def idx : PC → Option Nat
  | .wLoop _ i _ | .wLock _ i _ _ | .rel _ i _ | .relStore _ i _ _ => some i
  | _ => none

/-- The cells whose lock a writer has. -/
@[simp] def has : PC → Nat → Bool
  | .wLoop _ i _, c => decide (c < i)
  | .wLock _ i _ _, c => decide (c < i)
  | .writing _ n, c => decide (c < n)
  | .rel _ i n, c => decide (i ≤ c ∧ c < n)
  | .relStore _ i n _, c => decide (i ≤ c ∧ c < n)
  | _, _ => false

/-- The cell and the pointer a writer has read from it. -/
@[simp] def ptr : PC → Option (Nat × Nat)
  | .wLock _ i _ p | .relStore _ i _ p => some (i, p)
  | _ => none

@[simp] def isReading : PC → Bool
  | .reading _ => true
  | _ => false

/-- Registered with the identifier, or gone. -/
@[simp] def here (p : PC) (d : Nat) : Bool := decide (p = .gone) || decide (reg p = some d)

/-! The values of these functions, one equation for each constructor. -/

section
variable (c d i n p : Nat)
@[grind =] theorem isReading_out : isReading .out = false := rfl
@[grind =] theorem isReading_scan : isReading (.scan i n) = false := rfl
@[grind =] theorem isReading_cas : isReading (.cas i n) = false := rfl
@[grind =] theorem isReading_chk : isReading .chk = false := rfl
@[grind =] theorem isReading_faa : isReading .faa = false := rfl
@[grind =] theorem isReading_fill : isReading (.fill n) = false := rfl
@[grind =] theorem isReading_publish : isReading (.publish n) = false := rfl
@[grind =] theorem isReading_idle : isReading (.idle c) = false := rfl
@[grind =] theorem isReading_rdSpin : isReading (.rdSpin c) = false := rfl
@[grind =] theorem isReading_rdAcq : isReading (.rdAcq c) = false := rfl
@[grind =] theorem isReading_reading : isReading (.reading c) = true := rfl
@[grind =] theorem isReading_wAcq : isReading (.wAcq c) = false := rfl
@[grind =] theorem isReading_wSize : isReading (.wSize c) = false := rfl
@[grind =] theorem isReading_wLoop : isReading (.wLoop c i n) = false := rfl
@[grind =] theorem isReading_wLock : isReading (.wLock c i n p) = false := rfl
@[grind =] theorem isReading_writing : isReading (.writing c n) = false := rfl
@[grind =] theorem isReading_rel : isReading (.rel c i n) = false := rfl
@[grind =] theorem isReading_relStore : isReading (.relStore c i n p) = false := rfl
@[grind =] theorem isReading_relW : isReading (.relW c) = false := rfl
@[grind =] theorem isReading_gone : isReading .gone = false := rfl
@[grind =] theorem here_out : here .out d = false := by simp
@[grind =] theorem here_scan : here (.scan i n) d = false := by simp
@[grind =] theorem here_cas : here (.cas i n) d = false := by simp
@[grind =] theorem here_chk : here .chk d = false := by simp
@[grind =] theorem here_faa : here .faa d = false := by simp
@[grind =] theorem here_fill : here (.fill n) d = false := by simp
@[grind =] theorem here_publish : here (.publish n) d = false := by simp
@[grind =] theorem here_idle : here (.idle c) d = decide (c = d) := by simp
@[grind =] theorem here_rdSpin : here (.rdSpin c) d = decide (c = d) := by simp
@[grind =] theorem here_rdAcq : here (.rdAcq c) d = decide (c = d) := by simp
@[grind =] theorem here_reading : here (.reading c) d = decide (c = d) := by simp
@[grind =] theorem here_wAcq : here (.wAcq c) d = decide (c = d) := by simp
@[grind =] theorem here_wSize : here (.wSize c) d = decide (c = d) := by simp
@[grind =] theorem here_wLoop : here (.wLoop c i n) d = decide (c = d) := by simp
@[grind =] theorem here_wLock : here (.wLock c i n p) d = decide (c = d) := by simp
@[grind =] theorem here_writing : here (.writing c n) d = decide (c = d) := by simp
@[grind =] theorem here_rel : here (.rel c i n) d = decide (c = d) := by simp
@[grind =] theorem here_relStore : here (.relStore c i n p) d = decide (c = d) := by simp
@[grind =] theorem here_relW : here (.relW c) d = decide (c = d) := by simp
@[grind =] theorem here_gone : here .gone d = true := by simp
@[grind =] theorem reg_out : reg .out = none := rfl
@[grind =] theorem reg_scan : reg (.scan i n) = none := rfl
@[grind =] theorem reg_cas : reg (.cas i n) = none := rfl
@[grind =] theorem reg_chk : reg .chk = none := rfl
@[grind =] theorem reg_faa : reg .faa = none := rfl
@[grind =] theorem reg_fill : reg (.fill n) = none := rfl
@[grind =] theorem reg_publish : reg (.publish n) = none := rfl
@[grind =] theorem reg_idle : reg (.idle c) = some c := rfl
@[grind =] theorem reg_rdSpin : reg (.rdSpin c) = some c := rfl
@[grind =] theorem reg_rdAcq : reg (.rdAcq c) = some c := rfl
@[grind =] theorem reg_reading : reg (.reading c) = some c := rfl
@[grind =] theorem reg_wAcq : reg (.wAcq c) = some c := rfl
@[grind =] theorem reg_wSize : reg (.wSize c) = some c := rfl
@[grind =] theorem reg_wLoop : reg (.wLoop c i n) = some c := rfl
@[grind =] theorem reg_wLock : reg (.wLock c i n p) = some c := rfl
@[grind =] theorem reg_writing : reg (.writing c n) = some c := rfl
@[grind =] theorem reg_rel : reg (.rel c i n) = some c := rfl
@[grind =] theorem reg_relStore : reg (.relStore c i n p) = some c := rfl
@[grind =] theorem reg_relW : reg (.relW c) = some c := rfl
@[grind =] theorem reg_gone : reg .gone = none := rfl
@[grind =] theorem slot_out : slot .out = none := rfl
@[grind =] theorem slot_scan : slot (.scan i n) = none := rfl
@[grind =] theorem slot_cas : slot (.cas i n) = none := rfl
@[grind =] theorem slot_chk : slot .chk = none := rfl
@[grind =] theorem slot_faa : slot .faa = none := rfl
@[grind =] theorem slot_fill : slot (.fill n) = some n := rfl
@[grind =] theorem slot_publish : slot (.publish n) = some n := rfl
@[grind =] theorem slot_idle : slot (.idle c) = none := rfl
@[grind =] theorem slot_rdSpin : slot (.rdSpin c) = none := rfl
@[grind =] theorem slot_rdAcq : slot (.rdAcq c) = none := rfl
@[grind =] theorem slot_reading : slot (.reading c) = none := rfl
@[grind =] theorem slot_wAcq : slot (.wAcq c) = none := rfl
@[grind =] theorem slot_wSize : slot (.wSize c) = none := rfl
@[grind =] theorem slot_wLoop : slot (.wLoop c i n) = none := rfl
@[grind =] theorem slot_wLock : slot (.wLock c i n p) = none := rfl
@[grind =] theorem slot_writing : slot (.writing c n) = none := rfl
@[grind =] theorem slot_rel : slot (.rel c i n) = none := rfl
@[grind =] theorem slot_relStore : slot (.relStore c i n p) = none := rfl
@[grind =] theorem slot_relW : slot (.relW c) = none := rfl
@[grind =] theorem slot_gone : slot .gone = none := rfl
@[grind =] theorem fresh_out : fresh .out = true := rfl
@[grind =] theorem fresh_scan : fresh (.scan i n) = true := rfl
@[grind =] theorem fresh_cas : fresh (.cas i n) = true := rfl
@[grind =] theorem fresh_chk : fresh .chk = true := rfl
@[grind =] theorem fresh_faa : fresh .faa = true := rfl
@[grind =] theorem fresh_fill : fresh (.fill n) = true := rfl
@[grind =] theorem fresh_publish : fresh (.publish n) = true := rfl
@[grind =] theorem fresh_idle : fresh (.idle c) = false := rfl
@[grind =] theorem fresh_rdSpin : fresh (.rdSpin c) = false := rfl
@[grind =] theorem fresh_rdAcq : fresh (.rdAcq c) = false := rfl
@[grind =] theorem fresh_reading : fresh (.reading c) = false := rfl
@[grind =] theorem fresh_wAcq : fresh (.wAcq c) = false := rfl
@[grind =] theorem fresh_wSize : fresh (.wSize c) = false := rfl
@[grind =] theorem fresh_wLoop : fresh (.wLoop c i n) = false := rfl
@[grind =] theorem fresh_wLock : fresh (.wLock c i n p) = false := rfl
@[grind =] theorem fresh_writing : fresh (.writing c n) = false := rfl
@[grind =] theorem fresh_rel : fresh (.rel c i n) = false := rfl
@[grind =] theorem fresh_relStore : fresh (.relStore c i n p) = false := rfl
@[grind =] theorem fresh_relW : fresh (.relW c) = false := rfl
@[grind =] theorem fresh_gone : fresh .gone = false := rfl
@[grind =] theorem inSec_out : inSec .out = false := rfl
@[grind =] theorem inSec_scan : inSec (.scan i n) = false := rfl
@[grind =] theorem inSec_cas : inSec (.cas i n) = false := rfl
@[grind =] theorem inSec_chk : inSec .chk = false := rfl
@[grind =] theorem inSec_faa : inSec .faa = false := rfl
@[grind =] theorem inSec_fill : inSec (.fill n) = false := rfl
@[grind =] theorem inSec_publish : inSec (.publish n) = false := rfl
@[grind =] theorem inSec_idle : inSec (.idle c) = false := rfl
@[grind =] theorem inSec_rdSpin : inSec (.rdSpin c) = false := rfl
@[grind =] theorem inSec_rdAcq : inSec (.rdAcq c) = false := rfl
@[grind =] theorem inSec_reading : inSec (.reading c) = false := rfl
@[grind =] theorem inSec_wAcq : inSec (.wAcq c) = false := rfl
@[grind =] theorem inSec_wSize : inSec (.wSize c) = true := rfl
@[grind =] theorem inSec_wLoop : inSec (.wLoop c i n) = true := rfl
@[grind =] theorem inSec_wLock : inSec (.wLock c i n p) = true := rfl
@[grind =] theorem inSec_writing : inSec (.writing c n) = true := rfl
@[grind =] theorem inSec_rel : inSec (.rel c i n) = true := rfl
@[grind =] theorem inSec_relStore : inSec (.relStore c i n p) = true := rfl
@[grind =] theorem inSec_relW : inSec (.relW c) = true := rfl
@[grind =] theorem inSec_gone : inSec .gone = false := rfl
@[grind =] theorem rd_out : rd .out = none := rfl
@[grind =] theorem rd_scan : rd (.scan i n) = none := rfl
@[grind =] theorem rd_cas : rd (.cas i n) = none := rfl
@[grind =] theorem rd_chk : rd .chk = none := rfl
@[grind =] theorem rd_faa : rd .faa = none := rfl
@[grind =] theorem rd_fill : rd (.fill n) = none := rfl
@[grind =] theorem rd_publish : rd (.publish n) = none := rfl
@[grind =] theorem rd_idle : rd (.idle c) = none := rfl
@[grind =] theorem rd_rdSpin : rd (.rdSpin c) = none := rfl
@[grind =] theorem rd_rdAcq : rd (.rdAcq c) = some c := rfl
@[grind =] theorem rd_reading : rd (.reading c) = some c := rfl
@[grind =] theorem rd_wAcq : rd (.wAcq c) = none := rfl
@[grind =] theorem rd_wSize : rd (.wSize c) = none := rfl
@[grind =] theorem rd_wLoop : rd (.wLoop c i n) = none := rfl
@[grind =] theorem rd_wLock : rd (.wLock c i n p) = none := rfl
@[grind =] theorem rd_writing : rd (.writing c n) = none := rfl
@[grind =] theorem rd_rel : rd (.rel c i n) = none := rfl
@[grind =] theorem rd_relStore : rd (.relStore c i n p) = none := rfl
@[grind =] theorem rd_relW : rd (.relW c) = none := rfl
@[grind =] theorem rd_gone : rd .gone = none := rfl
@[grind =] theorem size_out : size .out = none := rfl
@[grind =] theorem size_scan : size (.scan i n) = none := rfl
@[grind =] theorem size_cas : size (.cas i n) = none := rfl
@[grind =] theorem size_chk : size .chk = none := rfl
@[grind =] theorem size_faa : size .faa = none := rfl
@[grind =] theorem size_fill : size (.fill n) = none := rfl
@[grind =] theorem size_publish : size (.publish n) = none := rfl
@[grind =] theorem size_idle : size (.idle c) = none := rfl
@[grind =] theorem size_rdSpin : size (.rdSpin c) = none := rfl
@[grind =] theorem size_rdAcq : size (.rdAcq c) = none := rfl
@[grind =] theorem size_reading : size (.reading c) = none := rfl
@[grind =] theorem size_wAcq : size (.wAcq c) = none := rfl
@[grind =] theorem size_wSize : size (.wSize c) = none := rfl
@[grind =] theorem size_wLoop : size (.wLoop c i n) = some n := rfl
@[grind =] theorem size_wLock : size (.wLock c i n p) = some n := rfl
@[grind =] theorem size_writing : size (.writing c n) = some n := rfl
@[grind =] theorem size_rel : size (.rel c i n) = some n := rfl
@[grind =] theorem size_relStore : size (.relStore c i n p) = some n := rfl
@[grind =] theorem size_relW : size (.relW c) = none := rfl
@[grind =] theorem size_gone : size .gone = none := rfl
@[grind =] theorem idx_out : idx .out = none := rfl
@[grind =] theorem idx_scan : idx (.scan i n) = none := rfl
@[grind =] theorem idx_cas : idx (.cas i n) = none := rfl
@[grind =] theorem idx_chk : idx .chk = none := rfl
@[grind =] theorem idx_faa : idx .faa = none := rfl
@[grind =] theorem idx_fill : idx (.fill n) = none := rfl
@[grind =] theorem idx_publish : idx (.publish n) = none := rfl
@[grind =] theorem idx_idle : idx (.idle c) = none := rfl
@[grind =] theorem idx_rdSpin : idx (.rdSpin c) = none := rfl
@[grind =] theorem idx_rdAcq : idx (.rdAcq c) = none := rfl
@[grind =] theorem idx_reading : idx (.reading c) = none := rfl
@[grind =] theorem idx_wAcq : idx (.wAcq c) = none := rfl
@[grind =] theorem idx_wSize : idx (.wSize c) = none := rfl
@[grind =] theorem idx_wLoop : idx (.wLoop c i n) = some i := rfl
@[grind =] theorem idx_wLock : idx (.wLock c i n p) = some i := rfl
@[grind =] theorem idx_writing : idx (.writing c n) = none := rfl
@[grind =] theorem idx_rel : idx (.rel c i n) = some i := rfl
@[grind =] theorem idx_relStore : idx (.relStore c i n p) = some i := rfl
@[grind =] theorem idx_relW : idx (.relW c) = none := rfl
@[grind =] theorem idx_gone : idx .gone = none := rfl
@[grind =] theorem ptr_out : ptr .out = none := rfl
@[grind =] theorem ptr_scan : ptr (.scan i n) = none := rfl
@[grind =] theorem ptr_cas : ptr (.cas i n) = none := rfl
@[grind =] theorem ptr_chk : ptr .chk = none := rfl
@[grind =] theorem ptr_faa : ptr .faa = none := rfl
@[grind =] theorem ptr_fill : ptr (.fill n) = none := rfl
@[grind =] theorem ptr_publish : ptr (.publish n) = none := rfl
@[grind =] theorem ptr_idle : ptr (.idle c) = none := rfl
@[grind =] theorem ptr_rdSpin : ptr (.rdSpin c) = none := rfl
@[grind =] theorem ptr_rdAcq : ptr (.rdAcq c) = none := rfl
@[grind =] theorem ptr_reading : ptr (.reading c) = none := rfl
@[grind =] theorem ptr_wAcq : ptr (.wAcq c) = none := rfl
@[grind =] theorem ptr_wSize : ptr (.wSize c) = none := rfl
@[grind =] theorem ptr_wLoop : ptr (.wLoop c i n) = none := rfl
@[grind =] theorem ptr_wLock : ptr (.wLock c i n p) = some (i, p) := rfl
@[grind =] theorem ptr_writing : ptr (.writing c n) = none := rfl
@[grind =] theorem ptr_rel : ptr (.rel c i n) = none := rfl
@[grind =] theorem ptr_relStore : ptr (.relStore c i n p) = some (i, p) := rfl
@[grind =] theorem ptr_relW : ptr (.relW c) = none := rfl
@[grind =] theorem ptr_gone : ptr .gone = none := rfl
@[grind =] theorem has_out : has .out d = false := rfl
@[grind =] theorem has_scan : has (.scan i n) d = false := rfl
@[grind =] theorem has_cas : has (.cas i n) d = false := rfl
@[grind =] theorem has_chk : has .chk d = false := rfl
@[grind =] theorem has_faa : has .faa d = false := rfl
@[grind =] theorem has_fill : has (.fill n) d = false := rfl
@[grind =] theorem has_publish : has (.publish n) d = false := rfl
@[grind =] theorem has_idle : has (.idle c) d = false := rfl
@[grind =] theorem has_rdSpin : has (.rdSpin c) d = false := rfl
@[grind =] theorem has_rdAcq : has (.rdAcq c) d = false := rfl
@[grind =] theorem has_reading : has (.reading c) d = false := rfl
@[grind =] theorem has_wAcq : has (.wAcq c) d = false := rfl
@[grind =] theorem has_wSize : has (.wSize c) d = false := rfl
@[grind =] theorem has_wLoop : has (.wLoop c i n) d = decide (d < i) := rfl
@[grind =] theorem has_wLock : has (.wLock c i n p) d = decide (d < i) := rfl
@[grind =] theorem has_writing : has (.writing c n) d = decide (d < n) := rfl
@[grind =] theorem has_rel : has (.rel c i n) d = decide (i ≤ d ∧ d < n) := rfl
@[grind =] theorem has_relStore : has (.relStore c i n p) d = decide (i ≤ d ∧ d < n) := rfl
@[grind =] theorem has_relW : has (.relW c) d = false := rfl
@[grind =] theorem has_gone : has .gone d = false := rfl
end

/-- The cells and who is registered. -/
structure InvA (max : Nat) (s : State) : Prop where
  cell : ∀ t c, reg (s.pc t) = some c → s.data c = t ∧ c < s.ready
  data : ∀ c, s.data c ≠ 0 → reg (s.pc (s.data c)) = some c ∨ s.pc (s.data c) = .publish c
  slots : ∀ t n, slot (s.pc t) = some n → s.ready ≤ n ∧ n < s.alloc
  slot1 : ∀ t u n, slot (s.pc t) = some n → slot (s.pc u) = some n → t = u
  pub : ∀ t n, s.pc t = .publish n → s.data n = t
  slotE : s.aborted = false → ∀ n, s.ready ≤ n → n < s.alloc → ∃ t, slot (s.pc t) = some n
  ra : s.ready ≤ s.alloc
  am : s.aborted = false → s.alloc ≤ max
  scan : ∀ t i n, s.pc t = .scan i n → n ≤ s.ready
  cas : ∀ t i n, s.pc t = .cas i n → i < n ∧ n ≤ s.ready
  nz : s.pc 0 = .out

/-- The writer. -/
structure InvB (s : State) : Prop where
  sec : ∀ w, inSec (s.pc w) = true → s.writeLock = true
  sec1 : ∀ w v, inSec (s.pc w) = true → inSec (s.pc v) = true → w = v
  secE : s.writeLock = true → ∃ w, inSec (s.pc w) = true
  sz : ∀ w n, size (s.pc w) = some n → n ≤ s.ready
  ix : ∀ w n i, size (s.pc w) = some n → idx (s.pc w) = some i → i ≤ n
  ixa : ∀ w c i n p, s.pc w = .wLock c i n p → i < n
  ixb : ∀ w c i n p, s.pc w = .relStore c i n p → i < n

/-- The local locks. -/
structure InvC (s : State) : Prop where
  rdl : ∀ t c, s.pc t = .reading c → s.lock t = true
  lkW : ∀ t c, reg (s.pc t) = some c → s.lock t = true → isReading (s.pc t) = false → s.writeLock = true
  lk : ∀ t c w, reg (s.pc t) = some c → s.lock t = true → isReading (s.pc t) = false → inSec (s.pc w) = true → has (s.pc w) c = true
  rsz : ∀ t c w n, rd (s.pc t) = some c → size (s.pc w) = some n → c < n
  rhas : ∀ t c w, rd (s.pc t) = some c → has (s.pc w) c = true → s.lock t = true ∧ s.pc t = .rdAcq c
  rptr : ∀ t i w p, rd (s.pc t) = some i → ptr (s.pc w) = some (i, p) → p = t
  fr : ∀ t, fresh (s.pc t) = true → s.lock t = false
  ptrR : ∀ w i p, ptr (s.pc w) = some (i, p) → p ≠ 0 ∧ here (s.pc p) i = true
  ptrF : ∀ w i p t, ptr (s.pc w) = some (i, p) → reg (s.pc t) = some i → t ≠ p → s.lock t = false
  wl : ∀ w c i n p, s.pc w = .wLock c i n p → s.lock p = true → isReading (s.pc p) = true

/-- Case analysis on a step. -/
macro "step_cases" e:ident a:ident : tactic => `(tactic|
  (cases $a:ident <;> simp only [step] at $e:ident <;> (repeat' split at $e:ident) <;>
    cases $e:ident))

@[grind →] theorem here_reg {p : PC} {c d : Nat} (h : here p d = true) (hr : reg p = some c) : c = d := by
  cases p <;> simp_all
@[grind →] theorem reg_here {p : PC} {c : Nat} (h : reg p = some c) : here p c = true := by cases p <;> simp_all
@[grind →] theorem reg_fresh {p : PC} {c : Nat} (h : reg p = some c) : fresh p = false := by cases p <;> simp_all
@[grind →] theorem here_fresh {p : PC} {c : Nat} (h : here p c = true) : fresh p = false := by cases p <;> simp_all
@[grind →] theorem rd_sec {p : PC} {c : Nat} (h : rd p = some c) : inSec p = false := by cases p <;> simp_all
@[grind →] theorem has_sec {p : PC} {c : Nat} (h : has p c = true) : inSec p = true := by cases p <;> simp_all
@[grind →] theorem ptr_sec {p : PC} {q : Nat × Nat} (h : ptr p = some q) : inSec p = true := by cases p <;> simp_all
@[grind →] theorem size_sec {p : PC} {n : Nat} (h : size p = some n) : inSec p = true := by cases p <;> simp_all
@[grind →] theorem rd_reg {p : PC} {c : Nat} (h : rd p = some c) : reg p = some c := by cases p <;> simp_all

section
variable {max : Nat} {s s' : State} {a : Act}

theorem step_cell (ha : s.aborted = false) (h : InvA max s) (e : step max s a = some s') :
    ∀ t c, reg (s'.pc t) = some c → s'.data c = t ∧ c < s'.ready := by
  obtain ⟨cell, data, slots, -, pub, -, -, -, -, cas, nz⟩ := h
  step_cases e a <;> simp only [upd_apply] <;> (set_option maxHeartbeats 100000 in grind)

theorem step_data (ha : s.aborted = false) (h : InvA max s) (e : step max s a = some s') :
    ∀ c, s'.data c ≠ 0 → reg (s'.pc (s'.data c)) = some c ∨ s'.pc (s'.data c) = .publish c := by
  obtain ⟨cell, data, slots, -, -, -, -, -, -, -, nz⟩ := h
  step_cases e a <;> simp only [upd_apply] <;> (set_option maxHeartbeats 100000 in grind)

theorem step_slots (ha : s.aborted = false) (h : InvA max s) (e : step max s a = some s') :
    ∀ t n, slot (s'.pc t) = some n → s'.ready ≤ n ∧ n < s'.alloc := by
  obtain ⟨-, -, slots, slot1, -, -, ra, -, -, -, -⟩ := h
  step_cases e a <;> simp only [upd_apply] <;> (set_option maxHeartbeats 100000 in grind)

theorem step_slot1 (ha : s.aborted = false) (h : InvA max s) (e : step max s a = some s') :
    ∀ t u n, slot (s'.pc t) = some n → slot (s'.pc u) = some n → t = u := by
  obtain ⟨-, -, slots, slot1, -, -, -, -, -, -, -⟩ := h
  step_cases e a <;> simp only [upd_apply] <;> (set_option maxHeartbeats 100000 in grind)

theorem step_pub (ha : s.aborted = false) (h : InvA max s) (e : step max s a = some s') :
    ∀ t n, s'.pc t = .publish n → s'.data n = t := by
  obtain ⟨cell, -, slots, slot1, pub, -, -, -, -, cas, -⟩ := h
  step_cases e a <;> simp only [upd_apply] <;> (set_option maxHeartbeats 100000 in grind)

theorem step_slotE (ha : s.aborted = false) (h : InvA max s) (e : step max s a = some s') :
    s'.aborted = false → ∀ n, s'.ready ≤ n → n < s'.alloc → ∃ t, slot (s'.pc t) = some n := by
  obtain ⟨-, -, slots, -, -, slotE, -, -, -, -, -⟩ := h
  step_cases e a <;> simp only [upd_apply] <;> (set_option maxHeartbeats 100000 in grind)

theorem step_ra (ha : s.aborted = false) (h : InvA max s) (e : step max s a = some s') :
    s'.ready ≤ s'.alloc := by
  obtain ⟨-, -, slots, -, -, -, ra, -, -, -, -⟩ := h
  step_cases e a <;> simp only [upd_apply] <;> (set_option maxHeartbeats 100000 in grind)

theorem step_am (ha : s.aborted = false) (h : InvA max s) (e : step max s a = some s') :
    s'.aborted = false → s'.alloc ≤ max := by
  obtain ⟨-, -, -, -, -, -, -, am, -, -, -⟩ := h
  step_cases e a <;> simp only [upd_apply] <;> (set_option maxHeartbeats 100000 in grind)

theorem step_scan (ha : s.aborted = false) (h : InvA max s) (e : step max s a = some s') :
    ∀ t i n, s'.pc t = .scan i n → n ≤ s'.ready := by
  obtain ⟨-, -, slots, -, -, -, -, -, scan, cas, -⟩ := h
  step_cases e a <;> simp only [upd_apply] <;> (set_option maxHeartbeats 100000 in grind)

theorem step_cas (ha : s.aborted = false) (h : InvA max s) (e : step max s a = some s') :
    ∀ t i n, s'.pc t = .cas i n → i < n ∧ n ≤ s'.ready := by
  obtain ⟨-, -, slots, -, -, -, -, -, scan, cas, -⟩ := h
  step_cases e a <;> simp only [upd_apply] <;> (set_option maxHeartbeats 100000 in grind)

theorem step_nz (ha : s.aborted = false) (h : InvA max s) (e : step max s a = some s') :
    s'.pc 0 = .out := by
  obtain ⟨-, -, -, -, -, -, -, -, -, -, nz⟩ := h
  step_cases e a <;> simp only [upd_apply] <;> (set_option maxHeartbeats 100000 in grind)

/-- The thread in a cell that has been published is registered with it. -/
theorem load (h : InvA max s) {i : Nat} (hi : i < s.ready) (h0 : s.data i ≠ 0) : reg (s.pc (s.data i)) = some i := by
  rcases h.data i h0 with h1 | h1
  · exact h1
  · have := (h.slots _ i (by rw [h1]; rfl)).1
    omega

theorem step_sec (hA : InvA max s) (h : InvB s) (e : step max s a = some s') :
    ∀ w, inSec (s'.pc w) = true → s'.writeLock = true := by
  obtain ⟨sec, sec1, -, -, -, -, -⟩ := h
  step_cases e a <;> simp only [upd_apply] <;> (set_option maxHeartbeats 100000 in grind)

theorem step_sec1 (hA : InvA max s) (h : InvB s) (e : step max s a = some s') :
    ∀ w v, inSec (s'.pc w) = true → inSec (s'.pc v) = true → w = v := by
  obtain ⟨sec, sec1, -, -, -, -, -⟩ := h
  step_cases e a <;> simp only [upd_apply] <;> (set_option maxHeartbeats 100000 in grind)

theorem step_secE (hA : InvA max s) (h : InvB s) (e : step max s a = some s') :
    s'.writeLock = true → ∃ w, inSec (s'.pc w) = true := by
  obtain ⟨sec, sec1, secE, -, -, -, -⟩ := h
  step_cases e a <;> simp only [upd_apply] <;> (set_option maxHeartbeats 100000 in grind)

theorem step_sz (hA : InvA max s) (h : InvB s) (e : step max s a = some s') :
    ∀ w n, size (s'.pc w) = some n → n ≤ s'.ready := by
  obtain ⟨-, -, -, -, -, -, ra, -, -, -, -⟩ := hA
  obtain ⟨-, -, -, sz, -, -, -⟩ := h
  step_cases e a <;> simp only [upd_apply] <;> (set_option maxHeartbeats 100000 in grind)

theorem step_ix (hA : InvA max s) (h : InvB s) (e : step max s a = some s') :
    ∀ w n i, size (s'.pc w) = some n → idx (s'.pc w) = some i → i ≤ n := by
  obtain ⟨-, -, -, -, ix, ixa, ixb⟩ := h
  step_cases e a <;> simp only [upd_apply] <;> (set_option maxHeartbeats 100000 in grind)

theorem step_ixa (h : InvB s) (e : step max s a = some s') :
    ∀ w c i n p, s'.pc w = .wLock c i n p → i < n := by
  obtain ⟨-, -, -, -, ix, ixa, ixb⟩ := h
  step_cases e a <;> simp only [upd_apply] <;> (set_option maxHeartbeats 100000 in grind)

theorem step_ixb (h : InvB s) (e : step max s a = some s') :
    ∀ w c i n p, s'.pc w = .relStore c i n p → i < n := by
  obtain ⟨-, -, -, -, ix, ixa, ixb⟩ := h
  step_cases e a <;> simp only [upd_apply] <;> (set_option maxHeartbeats 100000 in grind)

end

end Verif.SchedLock
