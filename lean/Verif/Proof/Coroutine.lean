import Verif.Spec.Coroutine
namespace Verif.Proof.Coroutine
open Verif.Model.Coroutine Verif.Spec.Coroutine

/-! ### Histories -/

theorem resumers_cons (a : Nat) (op : Op) (h : Hist) (c : Nat) :
    resumers (⟨a, op⟩ :: h) c =
      if (op = .resume c ∨ op = .prime c) ∧ a ≠ c then a :: resumers h c else resumers h c := by
  simp only [resumers, List.filter_cons]
  by_cases h1 : (op = .resume c ∨ op = .prime c) ∧ a ≠ c
  · rw [if_pos h1, if_pos (by simpa [resumes] using h1)]; rfl
  · rw [if_neg h1, if_neg (by simpa [resumes] using h1)]

theorem ended_cons (a : Nat) (op : Op) (h : Hist) (c : Nat) :
    ended (⟨a, op⟩ :: h) c = ((a = c && op = .ret) || ended h c) := by simp [ended]

theorem cancelled_cons (a : Nat) (op : Op) (h : Hist) (c : Nat) :
    cancelled (⟨a, op⟩ :: h) c = ((a = c && op = .cancel) || cancelled h c) := by simp [cancelled]

theorem deleter_cons (a : Nat) (op : Op) (h : Hist) (c : Nat) :
    deleter (⟨a, op⟩ :: h) c = if op = .delete c then some a else deleter h c := by
  simp only [deleter, List.find?_cons]
  by_cases h1 : op = .delete c
  · simp [h1]
  · simp [h1]

theorem latest_cons (a : Nat) (op : Op) (h : Hist) (c : Nat) :
    latest (⟨a, op⟩ :: h) c = if a = c then some op else latest h c := by
  simp only [latest, List.find?_cons]
  by_cases h1 : a = c
  · simp [h1]
  · simp [h1]

/-- What holds of the record of coroutine `c` after history `h` with `a` active. -/
structure Ok (h : Hist) (a c : Nat) (k : Cor) : Prop where
  started : k.started = begun h c
  starter : k.starter = (resumers h c).getLast?
  last : deleter h c = none → k.last = (resumers h c).head?
  unbegun : begun h c = false → k.state = .Start ∧ k.cancellation = .null ∧ k.mode = .no ∧ c ≠ a
    ∧ ended h c = false ∧ cancelled h c = false ∧ latest h c = none
  done : ended h c = true → c ≠ a ∧ (k.state = .Halted ∨
    k.state = .Cancelled ∧ k.wait = .inCancelStop ∧ k.cancellation = .null) ∧
    latest h c = some .ret
  active : c = a → k.state = .Active ∧ begun h c = true ∧ ended h c = false ∧
    k.cancellation = (if unwinding h c then .exc else .null) ∧
    k.mode = (if cancelled h c then .cancel else if (deleter h c).isSome then .unwind else .no) ∧
    (cancelled h c = false → ∀ b, deleter h c = some b → k.last = some b ∧ b ≠ c) ∧
    (cancelled h c = true → deleter h c = none)
  blocked : c ≠ a → begun h c = true → ended h c = false → k.state = .Blocked ∧
    k.cancellation = .null ∧ k.mode = .no ∧ unwinding h c = false ∧
    (k.wait ≠ .fresh ∧ k.wait ≠ .inLeave ∧ k.wait ≠ .inCancelStop) ∧
    ∀ d, latest h c = some (.resume d) → k.wait = .inResume d

structure Inv (t : SSt) (s : Sys) : Prop where
  curr : s.curr = t.active
  cors : ∀ c, Ok t.hist t.active c (s.cor c)
  raised : s.raised = t.raised
  cut : s.cut = []

theorem inv_init : Inv sinit init where
  curr := rfl
  raised := rfl
  cut := rfl
  cors := by
    intro c
    by_cases hc : c = 0
    · subst hc
      constructor <;>
        simp [sinit, init, newCor, begun, resumers, deleter, ended, unwinding, cancelled]
    · constructor <;>
        simp [sinit, init, newCor, begun, resumers, deleter, ended, hc, cancelled, latest]

/-- A coroutine that has nothing to do with an event. -/
theorem Ok.frame {h : Hist} {a a' c : Nat} {k : Cor} {op : Op} (H : Ok h a c k)
    (h1 : c ≠ a) (h2 : c ≠ a') (h3 : target op ≠ some c) : Ok (⟨a, op⟩ :: h) a' c k := by
  have e0 : a ≠ c := fun e => h1 e.symm
  have ho : op ≠ .resume c ∧ op ≠ .prime c ∧ op ≠ .delete c := by
    refine ⟨?_, ?_, ?_⟩ <;> (intro e; rw [e] at h3; exact h3 rfl)
  have e1 : resumers (⟨a, op⟩ :: h) c = resumers h c := by
    rw [resumers_cons, if_neg]; rintro ⟨h | h, _⟩
    · exact ho.1 h
    · exact ho.2.1 h
  have e2 : begun (⟨a, op⟩ :: h) c = begun h c := by simp [begun, e1]
  have e3 : ended (⟨a, op⟩ :: h) c = ended h c := by rw [ended_cons]; simp [e0]
  have e4 : cancelled (⟨a, op⟩ :: h) c = cancelled h c := by rw [cancelled_cons]; simp [e0]
  have e5 : deleter (⟨a, op⟩ :: h) c = deleter h c := by rw [deleter_cons, if_neg ho.2.2]
  have e6 : latest (⟨a, op⟩ :: h) c = latest h c := by rw [latest_cons, if_neg e0]
  have e7 : unwinding (⟨a, op⟩ :: h) c = unwinding h c := by simp [unwinding, e3, e4, e5]
  constructor
  · rw [e2]; exact H.started
  · rw [e1]; exact H.starter
  · rw [e5, e1]; exact H.last
  · rw [e2, e3, e4, e6]; intro h
    obtain ⟨x1, x2, x3, x4, x5, x6⟩ := H.unbegun h
    exact ⟨x1, x2, x3, h2, x5, x6⟩
  · rw [e3, e6]; intro h; exact ⟨h2, (H.done h).2⟩
  · intro h; exact absurd h h2
  · rw [e2, e3, e6, e7]; intro _ hb he; exact H.blocked h1 hb he

/-- Only the exceptions buffer differs. -/
theorem Ok.buffer {h : Hist} {a c : Nat} {k k' : Cor} (H : Ok h a c k)
    (e1 : k'.started = k.started) (e2 : k'.starter = k.starter) (e3 : k'.last = k.last)
    (e4 : k'.state = k.state) (e5 : k'.cancellation = k.cancellation) (e6 : k'.mode = k.mode)
    (e7 : k'.wait = k.wait) : Ok h a c k' := by
  obtain ⟨x1, x2, x3, x4, x5, x6, x7⟩ := H
  exact ⟨by rw [e1]; exact x1, by rw [e2]; exact x2, by rw [e3]; exact x3,
    by rw [e4, e5, e6]; exact x4, by rw [e4, e5, e7]; exact x5,
    by rw [e4, e5, e6, e3]; exact x6, by rw [e4, e5, e6, e7]; exact x7⟩

/-- The active coroutine stays active. -/
theorem Ok.stay {h : Hist} {a : Nat} {k k' : Cor} {op : Op} (H : Ok h a a k)
    (h1 : op ≠ .ret) (h2 : op ≠ .cancel) (h3 : op ≠ .delete a)
    (f1 : k'.started = k.started) (f2 : k'.starter = k.starter) (f3 : k'.last = k.last)
    (f4 : k'.state = k.state) (f5 : k'.cancellation = k.cancellation) (f6 : k'.mode = k.mode) :
    Ok (⟨a, op⟩ :: h) a a k' := by
  have e1 : resumers (⟨a, op⟩ :: h) a = resumers h a := by
    rw [resumers_cons, if_neg]; rintro ⟨_, h⟩; exact h rfl
  have e2 : begun (⟨a, op⟩ :: h) a = begun h a := by simp [begun, e1]
  have e3 : ended (⟨a, op⟩ :: h) a = ended h a := by rw [ended_cons]; simp [h1]
  have e4 : cancelled (⟨a, op⟩ :: h) a = cancelled h a := by rw [cancelled_cons]; simp [h2]
  have e5 : deleter (⟨a, op⟩ :: h) a = deleter h a := by rw [deleter_cons, if_neg h3]
  have e7 : unwinding (⟨a, op⟩ :: h) a = unwinding h a := by simp [unwinding, e3, e4, e5]
  obtain ⟨x1, x2, x3, x4, x5, x6, x7⟩ := H
  obtain ⟨y1, y2, y3, y4, y5, y6, y7⟩ := x6 rfl
  constructor
  · rw [e2, f1]; exact x1
  · rw [e1, f2]; exact x2
  · rw [e5, e1, f3]; exact x3
  · rw [e2]; intro h; rw [y2] at h; exact absurd h (by simp)
  · rw [e3]; intro h; rw [y3] at h; exact absurd h (by simp)
  · rw [e2, e3, e4, e5, e7, f3, f4, f5, f6]; exact x6
  · intro h; exact absurd rfl h

/-- The active coroutine, not being unwound, gives up control and does not end. -/
theorem Ok.block {h : Hist} {a a' : Nat} {k : Cor} {op : Op} {w : Wait} (H : Ok h a a k)
    (hu : unwinding h a = false) (h1 : op ≠ .ret) (h2 : op ≠ .cancel)
    (h3 : op ≠ .delete a) (ha : a ≠ a') (hw : w ≠ .fresh ∧ w ≠ .inLeave ∧ w ≠ .inCancelStop)
    (hr : ∀ d, op = .resume d → w = .inResume d) :
    Ok (⟨a, op⟩ :: h) a' a { k with state := .Blocked, wait := w } := by
  have e1 : resumers (⟨a, op⟩ :: h) a = resumers h a := by
    rw [resumers_cons, if_neg]; rintro ⟨_, h⟩; exact h rfl
  have e2 : begun (⟨a, op⟩ :: h) a = begun h a := by simp [begun, e1]
  have e3 : ended (⟨a, op⟩ :: h) a = ended h a := by rw [ended_cons]; simp [h1]
  have e4 : cancelled (⟨a, op⟩ :: h) a = cancelled h a := by rw [cancelled_cons]; simp [h2]
  have e5 : deleter (⟨a, op⟩ :: h) a = deleter h a := by rw [deleter_cons, if_neg h3]
  have e7 : unwinding (⟨a, op⟩ :: h) a = unwinding h a := by simp [unwinding, e3, e4, e5]
  obtain ⟨x1, x2, x3, x4, x5, x6, x7⟩ := H
  obtain ⟨y1, y2, y3, y4, y5, y6, y7⟩ := x6 rfl
  have hun : cancelled h a = false ∧ deleter h a = none := by
    simpa [unwinding, y3] using hu
  constructor
  · rw [e2]; exact x1
  · rw [e1]; exact x2
  · rw [e5, e1]; exact x3
  · rw [e2]; intro h; rw [y2] at h; exact absurd h (by simp)
  · rw [e3]; intro h; rw [y3] at h; exact absurd h (by simp)
  · intro h; exact absurd h ha
  · intro _ _ _
    refine ⟨rfl, ?_, ?_, by rw [e7, hu], hw, ?_⟩
    · simp [y4, hu]
    · simp [y5, hun.1, hun.2]
    · intro d hd
      rw [latest_cons, if_pos rfl] at hd
      exact hr d (Option.some.inj hd)

/-- A waiting coroutine gets control, by nothing that resumes or destroys it. -/
theorem Ok.wake {h : Hist} {a b : Nat} {k : Cor} {op : Op} (H : Ok h a b k) (hab : b ≠ a)
    (hb : begun h b = true) (he : ended h b = false) (h3 : target op ≠ some b) :
    Ok (⟨a, op⟩ :: h) b b { k with state := .Active } := by
  have e0 : a ≠ b := fun e => hab e.symm
  have ho : op ≠ .resume b ∧ op ≠ .prime b ∧ op ≠ .delete b := by
    refine ⟨?_, ?_, ?_⟩ <;> (intro e; rw [e] at h3; exact h3 rfl)
  have e1 : resumers (⟨a, op⟩ :: h) b = resumers h b := by
    rw [resumers_cons, if_neg]; rintro ⟨h | h, _⟩
    · exact ho.1 h
    · exact ho.2.1 h
  have e2 : begun (⟨a, op⟩ :: h) b = begun h b := by simp [begun, e1]
  have e3 : ended (⟨a, op⟩ :: h) b = ended h b := by rw [ended_cons]; simp [e0]
  have e4 : cancelled (⟨a, op⟩ :: h) b = cancelled h b := by rw [cancelled_cons]; simp [e0]
  have e5 : deleter (⟨a, op⟩ :: h) b = deleter h b := by rw [deleter_cons, if_neg ho.2.2]
  have e7 : unwinding (⟨a, op⟩ :: h) b = unwinding h b := by simp [unwinding, e3, e4, e5]
  obtain ⟨x1, x2, x3, x4, x5, x6, x7⟩ := H
  obtain ⟨y1, y2, y3, y4, y5, y6⟩ := x7 hab hb he
  have hun : cancelled h b = false ∧ deleter h b = none := by
    simpa [unwinding, he] using y4
  constructor
  · rw [e2]; exact x1
  · rw [e1]; exact x2
  · rw [e5, e1]; exact x3
  · rw [e2]; intro h; rw [hb] at h; exact absurd h (by simp)
  · rw [e3]; intro h; rw [he] at h; exact absurd h (by simp)
  · intro _
    refine ⟨rfl, by rw [e2, hb], by rw [e3, he], ?_, ?_, ?_, ?_⟩
    · simp [e7, y4, y2]
    · simp [e4, e5, hun.1, hun.2, y3]
    · intro _ b' hb'; rw [e5, hun.2] at hb'; exact absurd hb' (by simp)
    · rw [e4, hun.1]; intro h; exact absurd h (by simp)
  · intro h; exact absurd rfl h

/-- A coroutine that has not been destroyed is resumed by another. -/
theorem Ok.resumed {h : Hist} {a d : Nat} {k : Cor} {w : Wait} (H : Ok h a d k) (hda : d ≠ a)
    (he : ended h d = false) (hdel : deleter h d = none) :
    Ok (⟨a, .resume d⟩ :: h) d d { k with
      started := true, wait := w, last := some a
      starter := k.starter.or (some a)
      state := .Active } := by
  have e0 : a ≠ d := fun e => hda e.symm
  have e1 : resumers (⟨a, .resume d⟩ :: h) d = a :: resumers h d := by
    rw [resumers_cons, if_pos ⟨Or.inl rfl, e0⟩]
  have e2 : begun (⟨a, .resume d⟩ :: h) d = true := by simp [begun, e1]
  have e3 : ended (⟨a, .resume d⟩ :: h) d = ended h d := by rw [ended_cons]; simp
  have e4 : cancelled (⟨a, .resume d⟩ :: h) d = cancelled h d := by rw [cancelled_cons]; simp
  have e5 : deleter (⟨a, .resume d⟩ :: h) d = deleter h d := by rw [deleter_cons, if_neg (by simp)]
  have e7 : unwinding (⟨a, .resume d⟩ :: h) d = unwinding h d := by simp [unwinding, e3, e4, e5]
  obtain ⟨x1, x2, x3, x4, x5, x6, x7⟩ := H
  have hun : k.cancellation = .null ∧ k.mode = .no ∧ unwinding h d = false := by
    cases hb : begun h d with
    | true =>
      obtain ⟨y1, y2, y3, y4, y5, y6⟩ := x7 hda hb he
      exact ⟨y2, y3, y4⟩
    | false =>
      obtain ⟨y1, y2, y3, y4, y5, y6⟩ := x4 hb
      exact ⟨y2, y3, by simp [unwinding, y6.1, hdel]⟩
  constructor
  · rw [e2]
  · simp only [x2, e1]
    cases h : (resumers h d).getLast? with
    | none => rw [List.getLast?_eq_none_iff] at h; simp [h]
    | some x => rw [List.getLast?_cons]; simp [h]
  · intro _; rw [e1]; rfl
  · rw [e2]; intro h; exact absurd h (by simp)
  · rw [e3, he]; intro h; exact absurd h (by simp)
  · intro _
    have hc : cancelled h d = false := by
      have := hun.2.2
      simp only [unwinding, he, hdel] at this
      simpa using this
    refine ⟨rfl, e2, by rw [e3, he], ?_, ?_, ?_, ?_⟩
    · simp [e7, hun]
    · simp [e4, e5, hc, hdel, hun]
    · intro _ b hb; rw [e5, hdel] at hb; exact absurd hb (by simp)
    · intro _; rw [e5, hdel]
  · intro h; exact absurd rfl h

/-- A coroutine is primed: it begins, and waits. -/
theorem Ok.primed {h : Hist} {a d : Nat} {k : Cor} (H : Ok h a d k) (hda : d ≠ a)
    (hb : begun h d = false) (hdel : deleter h d = none) :
    Ok (⟨a, .prime d⟩ :: h) a d { k with
      started := true, wait := .inPrime, last := some a, starter := some a, state := .Blocked } := by
  have e0 : a ≠ d := fun e => hda e.symm
  have e1 : resumers (⟨a, .prime d⟩ :: h) d = a :: resumers h d := by
    rw [resumers_cons, if_pos ⟨Or.inr rfl, e0⟩]
  have e2 : begun (⟨a, .prime d⟩ :: h) d = true := by simp [begun, e1]
  have e3 : ended (⟨a, .prime d⟩ :: h) d = ended h d := by rw [ended_cons]; simp
  have e4 : cancelled (⟨a, .prime d⟩ :: h) d = cancelled h d := by rw [cancelled_cons]; simp
  have e5 : deleter (⟨a, .prime d⟩ :: h) d = deleter h d := by rw [deleter_cons, if_neg (by simp)]
  have e6 : latest (⟨a, .prime d⟩ :: h) d = latest h d := by rw [latest_cons, if_neg e0]
  obtain ⟨x1, x2, x3, x4, x5, x6, x7⟩ := H
  obtain ⟨y1, y2, y3, y4, y5, y6, y7⟩ := x4 hb
  have hr : resumers h d = [] := by
    simp [begun] at hb
    simpa using hb.2
  constructor
  · rw [e2]
  · rw [e1, hr]; rfl
  · intro _; rw [e1]; rfl
  · rw [e2]; intro h; exact absurd h (by simp)
  · rw [e3, y5]; intro h; exact absurd h (by simp)
  · intro h; exact absurd h hda
  · intro _ _ _
    refine ⟨rfl, y2, y3, ?_, by simp, ?_⟩
    · simp [unwinding, e3, e4, e5, y6, hdel]
    · intro b hb'; rw [e6, y7] at hb'; exact absurd hb' (by simp)

/-- The active coroutine ends. -/
theorem Ok.ends {h : Hist} {a b : Nat} {k k' : Cor} (H : Ok h a a k) (hab : a ≠ b)
    (f1 : k'.started = k.started) (f2 : k'.starter = k.starter)
    (f3 : deleter h a = none → k'.last = k.last)
    (f4 : k'.state = .Halted ∨
      k'.state = .Cancelled ∧ k'.wait = .inCancelStop ∧ k'.cancellation = .null) :
    Ok (⟨a, .ret⟩ :: h) b a k' := by
  have e1 : resumers (⟨a, .ret⟩ :: h) a = resumers h a := by
    rw [resumers_cons, if_neg]; rintro ⟨_, h⟩; exact h rfl
  have e2 : begun (⟨a, .ret⟩ :: h) a = begun h a := by simp [begun, e1]
  have e3 : ended (⟨a, .ret⟩ :: h) a = true := by rw [ended_cons]; simp
  have e5 : deleter (⟨a, .ret⟩ :: h) a = deleter h a := by rw [deleter_cons, if_neg (by simp)]
  obtain ⟨x1, x2, x3, x4, x5, x6, x7⟩ := H
  obtain ⟨y1, y2, y3, y4, y5, y6, y7⟩ := x6 rfl
  constructor
  · rw [e2, f1]; exact x1
  · rw [e1, f2]; exact x2
  · rw [e5, e1]; intro h; rw [f3 h]; exact x3 h
  · rw [e2]; intro h; rw [y2] at h; exact absurd h (by simp)
  · intro _; exact ⟨hab, f4, by rw [latest_cons, if_pos rfl]⟩
  · intro h; exact absurd h hab
  · rw [e3]; intro _ _ h; exact absurd h (by simp)

/-- The active coroutine is cancelled. -/
theorem Ok.cancels {h : Hist} {a : Nat} {k : Cor} (H : Ok h a a k) (hu : unwinding h a = false) :
    Ok (⟨a, .cancel⟩ :: h) a a { k with cancellation := .exc, mode := .cancel } := by
  have e1 : resumers (⟨a, .cancel⟩ :: h) a = resumers h a := by
    rw [resumers_cons, if_neg]; rintro ⟨_, h⟩; exact h rfl
  have e2 : begun (⟨a, .cancel⟩ :: h) a = begun h a := by simp [begun, e1]
  have e3 : ended (⟨a, .cancel⟩ :: h) a = ended h a := by rw [ended_cons]; simp
  have e4 : cancelled (⟨a, .cancel⟩ :: h) a = true := by rw [cancelled_cons]; simp
  have e5 : deleter (⟨a, .cancel⟩ :: h) a = deleter h a := by rw [deleter_cons, if_neg (by simp)]
  obtain ⟨x1, x2, x3, x4, x5, x6, x7⟩ := H
  obtain ⟨y1, y2, y3, y4, y5, y6, y7⟩ := x6 rfl
  have hun : cancelled h a = false ∧ deleter h a = none := by
    simpa [unwinding, y3] using hu
  constructor
  · rw [e2]; exact x1
  · rw [e1]; exact x2
  · rw [e5, e1]; exact x3
  · rw [e2]; intro h; rw [y2] at h; exact absurd h (by simp)
  · rw [e3]; intro h; rw [y3] at h; exact absurd h (by simp)
  · intro _
    refine ⟨y1, by rw [e2, y2], by rw [e3, y3], ?_, ?_, ?_, ?_⟩
    · simp [unwinding, e3, e4, y3]
    · simp [e4]
    · rw [e4]; intro h; exact absurd h (by simp)
    · intro _; rw [e5, hun.2]
  · intro h; exact absurd rfl h

/-- A coroutine that has begun and not ended is destroyed. -/
theorem Ok.deletes {h : Hist} {a d : Nat} {k : Cor} {w : Wait} {bf : List Nat} (H : Ok h a d k)
    (hda : d ≠ a) (hb : begun h d = true) (he : ended h d = false) :
    Ok (⟨a, .delete d⟩ :: h) d d { k with
      wait := w, ehm_buffer := bf, cancellation := .exc, last := some a, state := .Active
      mode := .unwind } := by
  have e0 : a ≠ d := fun e => hda e.symm
  have e1 : resumers (⟨a, .delete d⟩ :: h) d = resumers h d := by
    rw [resumers_cons, if_neg]; simp
  have e2 : begun (⟨a, .delete d⟩ :: h) d = begun h d := by simp [begun, e1]
  have e3 : ended (⟨a, .delete d⟩ :: h) d = ended h d := by rw [ended_cons]; simp
  have e4 : cancelled (⟨a, .delete d⟩ :: h) d = cancelled h d := by rw [cancelled_cons]; simp
  have e5 : deleter (⟨a, .delete d⟩ :: h) d = some a := by rw [deleter_cons, if_pos rfl]
  obtain ⟨x1, x2, x3, x4, x5, x6, x7⟩ := H
  obtain ⟨y1, y2, y3, y4, y5, y6⟩ := x7 hda hb he
  have hun : cancelled h d = false ∧ deleter h d = none := by
    simpa [unwinding, he] using y4
  constructor
  · rw [e2]; exact x1
  · rw [e1]; exact x2
  · rw [e5]; intro h; exact absurd h (by simp)
  · rw [e2]; intro h; rw [hb] at h; exact absurd h (by simp)
  · rw [e3]; intro h; rw [he] at h; exact absurd h (by simp)
  · intro _
    refine ⟨rfl, by rw [e2, hb], by rw [e3, he], ?_, ?_, ?_, ?_⟩
    · simp [unwinding, e3, e5, he]
    · simp [e4, e5, hun.1]
    · intro _ b hb'; rw [e5] at hb'; exact ⟨hb', fun e => e0 ((Option.some.inj hb').trans e)⟩
    · rw [e4, hun.1]; intro h; exact absurd h (by simp)
  · intro h; exact absurd rfl h

/-- A coroutine that has not begun, or has ended, is destroyed. -/
theorem Ok.drops {h : Hist} {a d : Nat} {k k' : Cor} (H : Ok h a d k) (hda : d ≠ a)
    (hb : begun h d = false ∨ ended h d = true)
    (f1 : k'.started = k.started) (f2 : k'.starter = k.starter)
    (f3 : begun h d = false → k'.state = k.state ∧ k'.cancellation = k.cancellation ∧
      k'.mode = k.mode)
    (f4 : ended h d = true → k'.state = .Halted) :
    Ok (⟨a, .delete d⟩ :: h) a d k' := by
  have e0 : a ≠ d := fun e => hda e.symm
  have e1 : resumers (⟨a, .delete d⟩ :: h) d = resumers h d := by
    rw [resumers_cons, if_neg]; simp
  have e2 : begun (⟨a, .delete d⟩ :: h) d = begun h d := by simp [begun, e1]
  have e3 : ended (⟨a, .delete d⟩ :: h) d = ended h d := by rw [ended_cons]; simp
  have e4 : cancelled (⟨a, .delete d⟩ :: h) d = cancelled h d := by rw [cancelled_cons]; simp
  have e5 : deleter (⟨a, .delete d⟩ :: h) d = some a := by rw [deleter_cons, if_pos rfl]
  have e6 : latest (⟨a, .delete d⟩ :: h) d = latest h d := by rw [latest_cons, if_neg e0]
  obtain ⟨x1, x2, x3, x4, x5, x6, x7⟩ := H
  constructor
  · rw [e2, f1]; exact x1
  · rw [e1, f2]; exact x2
  · rw [e5]; intro h; exact absurd h (by simp)
  · rw [e2, e3, e4, e6]; intro h; rw [(f3 h).1, (f3 h).2.1, (f3 h).2.2]; exact x4 h
  · rw [e3, e6]; intro h; exact ⟨hda, Or.inl (f4 h), (x5 h).2.2⟩
  · intro h; exact absurd h hda
  · rw [e2, e3]; intro _ h1 h2
    rcases hb with h | h
    · rw [h] at h1; exact absurd h1 (by simp)
    · rw [h] at h2; exact absurd h2 (by simp)

/-! ### What the operations do -/

/-- The two coroutines of a switch, and nothing else. -/
structure Moved (s s' : Sys) (b : Nat) (ka kb : Cor) : Prop where
  curr : s'.curr = b
  old : s'.cor s.curr = ka
  new : s'.cor b = kb
  rest : ∀ c, c ≠ s.curr → c ≠ b → s'.cor c = s.cor c
  raised : s'.raised = s.raised
  cut : s'.cut = s.cut

def blockedIn (k : Cor) (w : Wait) : Cor := { k with state := .Blocked, wait := w }

theorem returnIn_null {s : Sys} {d : Nat} (h1 : (s.cor d).cancellation = .null)
    (h2 : (s.cor d).wait ≠ .fresh ∧ (s.cor d).wait ≠ .inLeave ∧ (s.cor d).wait ≠ .inCancelStop) :
    returnIn s d = some (upd s d { s.cor d with state := .Active }) := by
  unfold returnIn
  simp only [h1]
  rw [if_neg (by simp)]
  cases hw : (s.cor d).wait <;> simp [hw] at h2 ⊢

theorem arrive_back {s : Sys} (h0 : (s.cor s.curr).started = true)
    (h1 : (s.cor s.curr).cancellation = .null)
    (h2 : (s.cor s.curr).wait ≠ .fresh ∧ (s.cor s.curr).wait ≠ .inLeave ∧
      (s.cor s.curr).wait ≠ .inCancelStop) :
    arrive s = some (upd s s.curr { s.cor s.curr with state := .Active }) := by
  unfold arrive
  dsimp only
  rw [if_pos h0, if_neg h2.1, returnIn_null h1 h2]

theorem arrive_fresh {s : Sys} (h0 : (s.cor s.curr).started = true)
    (h1 : (s.cor s.curr).wait = .fresh) (h2 : (s.cor s.curr).state ≠ .Primed) :
    arrive s = some (upd s s.curr { s.cor s.curr with state := .Active }) := by
  unfold arrive
  dsimp only
  rw [if_pos h0, if_pos h1, if_neg h2]

theorem upd_self (s : Sys) (c : Nat) (v : Cor) : (upd s c v).cor c = v := by simp [upd]
theorem upd_other (s : Sys) {c d : Nat} (v : Cor) (h : d ≠ c) : (upd s c v).cor d = s.cor d := by
  simp [upd, h]

/-- A switch to a waiting coroutine. -/
theorem switch_back {s : Sys} {b : Nat} {w : Wait} (hb : b ≠ s.curr)
    (ha : (s.cor s.curr).state ≠ .Halted) (h0 : (s.cor b).started = true)
    (h1 : (s.cor b).cancellation = .null)
    (h2 : (s.cor b).wait ≠ .fresh ∧ (s.cor b).wait ≠ .inLeave ∧ (s.cor b).wait ≠ .inCancelStop) :
    ∃ s', arrive (switchFrom s s.curr b w) = some s' ∧
      Moved s s' b (blockedIn (s.cor s.curr) w) { s.cor b with state := .Active } := by
  have e : (switchFrom s s.curr b w).cor (switchFrom s s.curr b w).curr = s.cor b := by
    simp [switchFrom, upd, hb]
  refine ⟨_, arrive_back (by rw [e]; exact h0) (by rw [e]; exact h1) (by rw [e]; exact h2), ?_⟩
  have e2 : (switchFrom s s.curr b w).curr = b := rfl
  have hb' : s.curr ≠ b := fun h => hb h.symm
  constructor
  · rfl
  · rw [e2]; simp [switchFrom, upd, hb', ha, blockedIn]
  · rw [e2]; simp [switchFrom, upd, hb]
  · intro c h1 h2; rw [e2]; simp [switchFrom, upd, h1, h2]
  · rfl
  · rfl

theorem upd_upd (s : Sys) (c : Nat) (v w : Cor) : upd (upd s c v) c w = upd s c w := by
  simp only [upd]
  congr 1
  funext k
  by_cases h : k = c <;> simp [h]

/-- `d`, about to be resumed by `a`. -/
def prepared (k : Cor) (a : Nat) : Cor :=
  { k with
    started := true, wait := if k.started then k.wait else .fresh, last := some a
    starter := k.starter.or (some a) }

theorem resume_eq {s : Sys} {d : Nat} (hd : d ≠ s.curr) :
    resume s d = if (s.cor d).state = .Halted then none
      else arrive (switchFrom (upd s d (prepared (s.cor d) s.curr)) s.curr d (.inResume d)) := by
  have hd' : s.curr ≠ d := fun h => hd h.symm
  unfold resume
  dsimp only
  cases h : (s.cor d).started with
  | true =>
    simp only [if_true]
    rw [if_pos hd']
    cases hs : (s.cor d).starter <;> simp [prepared, h, hs]
  | false =>
    simp only [Bool.false_eq_true, if_false]
    have : (upd s d { s.cor d with started := true, wait := .fresh }).curr = s.curr := rfl
    rw [if_pos hd', upd_self, upd_upd]
    cases hs : (s.cor d).starter <;> simp [prepared, h, hs]

theorem resume_self {s : Sys} (h0 : (s.cor s.curr).started = true)
    (h1 : (s.cor s.curr).cancellation = .null) :
    ∃ s', resume s s.curr = some s' ∧ Moved s s' s.curr
      { s.cor s.curr with state := .Active, wait := .inResume s.curr }
      { s.cor s.curr with state := .Active, wait := .inResume s.curr } := by
  have e : resume s s.curr = arrive (switchFrom s s.curr s.curr (.inResume s.curr)) := by
    unfold resume
    dsimp only
    rw [if_neg (by simp), if_pos h0]
  rw [e]
  refine ⟨_, arrive_back ?_ ?_ ?_, ?_⟩
  · simp [switchFrom, upd, h0]
  · simp [switchFrom, upd, h1]
  · simp [switchFrom, upd]
  · have e2 : (switchFrom s s.curr s.curr (.inResume s.curr)).curr = s.curr := rfl
    constructor
    · rfl
    · rw [e2]; simp [switchFrom, upd]
    · rw [e2]; simp [switchFrom, upd]
    · intro c h1 h2; rw [e2]; simp [switchFrom, upd, h1]
    · rfl
    · rfl

theorem switch_fresh {s : Sys} {b : Nat} {w : Wait} (hb : b ≠ s.curr)
    (ha : (s.cor s.curr).state ≠ .Halted) (h0 : (s.cor b).started = true)
    (h1 : (s.cor b).wait = .fresh) (h2 : (s.cor b).state ≠ .Primed) :
    ∃ s', arrive (switchFrom s s.curr b w) = some s' ∧
      Moved s s' b (blockedIn (s.cor s.curr) w) { s.cor b with state := .Active } := by
  have e : (switchFrom s s.curr b w).cor (switchFrom s s.curr b w).curr = s.cor b := by
    simp [switchFrom, upd, hb]
  refine ⟨_, arrive_fresh (by rw [e]; exact h0) (by rw [e]; exact h1) (by rw [e]; exact h2), ?_⟩
  have e2 : (switchFrom s s.curr b w).curr = b := rfl
  have hb' : s.curr ≠ b := fun h => hb h.symm
  constructor
  · rfl
  · rw [e2]; simp [switchFrom, upd, hb', ha, blockedIn]
  · rw [e2]; simp [switchFrom, upd, hb]
  · intro c h1 h2; rw [e2]; simp [switchFrom, upd, h1, h2]
  · rfl
  · rfl

theorem Moved.of_upd {s s' : Sys} {b : Nat} {v ka kb : Cor} (hb : b ≠ s.curr)
    (h : Moved (upd s b v) s' b ka kb) : Moved s s' b ka kb :=
  ⟨h.curr, h.old, h.new, fun c h1 h2 => by rw [h.rest c h1 h2, upd_other _ _ h2], h.raised, h.cut⟩

/-- Nothing comes back to a coroutine that has left, or stopped. -/
theorem switch_dead {s : Sys} {a b : Nat} {w : Wait} (hb : b ≠ a)
    (h0 : (s.cor b).started = true)
    (h1 : (s.cor b).cancellation ≠ .exc)
    (h2 : (s.cor b).wait = .inLeave ∨ (s.cor b).wait = .inCancelStop) :
    arrive (switchFrom s a b w) = none := by
  have e : (switchFrom s a b w).cor (switchFrom s a b w).curr = s.cor b := by
    simp [switchFrom, upd, hb]
  have e2 : (switchFrom s a b w).curr = b := rfl
  rw [e2] at e
  unfold arrive
  dsimp only
  rw [e2, e, if_pos h0, if_neg (by rcases h2 with h | h <;> simp [h])]
  unfold returnIn
  dsimp only
  rw [e, if_neg h1]
  rcases h2 with h | h <;> simp [h]

theorem switch_back' {s : Sys} {a b : Nat} {w : Wait} {ka kb : Cor} (hc : s.curr = a)
    (hka : s.cor a = ka) (hkb : s.cor b = kb) (hb : b ≠ a) (ha : ka.state ≠ .Halted)
    (h0 : kb.started = true) (h1 : kb.cancellation = .null)
    (h2 : kb.wait ≠ .fresh ∧ kb.wait ≠ .inLeave ∧ kb.wait ≠ .inCancelStop) :
    ∃ s', arrive (switchFrom s a b w) = some s' ∧
      Moved s s' b (blockedIn ka w) { kb with state := .Active } := by
  subst hc hka hkb
  exact switch_back hb ha h0 h1 h2

theorem switch_fresh' {s : Sys} {a b : Nat} {w : Wait} {ka kb : Cor} (hc : s.curr = a)
    (hka : s.cor a = ka) (hkb : s.cor b = kb) (hb : b ≠ a) (ha : ka.state ≠ .Halted)
    (h0 : kb.started = true) (h1 : kb.wait = .fresh) (h2 : kb.state ≠ .Primed) :
    ∃ s', arrive (switchFrom s a b w) = some s' ∧
      Moved s s' b (blockedIn ka w) { kb with state := .Active } := by
  subst hc hka hkb
  exact switch_fresh hb ha h0 h1 h2

/-! ### Step by step -/

def Rel : Option Sys → Option SSt → Prop
  | none, none => True
  | some s, some t => Inv t s
  | _, _ => False

theorem Rel.none' {x : Option Sys} {y : Option SSt} (h1 : x = none) (h2 : y = none) : Rel x y := by
  rw [h1, h2]; trivial

theorem Rel.some' {x : Option Sys} {y : Option SSt} {s : Sys} {t : SSt} (h1 : x = some s)
    (h2 : y = some t) (h : Inv t s) : Rel x y := by rw [h1, h2]; exact h

theorem sstep_none {t : SSt} {op : Op} (h : next t.hist t.active op = none) : sstep t op = none := by
  simp [sstep, h]

theorem sstep_some {t : SSt} {op : Op} {b : Nat} (h : next t.hist t.active op = some b) :
    sstep t op = some ⟨⟨t.active, op⟩ :: t.hist, b, t.raised ++ raises t.hist t.active op⟩ := by
  simp [sstep, h]

/-- A switch keeps the invariant if it does for the two coroutines. -/
theorem Inv.moved {t : SSt} {s s' : Sys} {b : Nat} {ka kb : Cor} {op : Op} (H : Inv t s)
    (M : Moved s s' b ka kb) (hop : raises t.hist t.active op = [])
    (ht : ∀ c, target op = some c → c = t.active ∨ c = b)
    (ha : t.active ≠ b → Ok (⟨t.active, op⟩ :: t.hist) b t.active ka)
    (hb : Ok (⟨t.active, op⟩ :: t.hist) b b kb) :
    Inv ⟨⟨t.active, op⟩ :: t.hist, b, t.raised ++ raises t.hist t.active op⟩ s' := by
  refine ⟨M.curr, ?_, ?_, ?_⟩
  · intro c
    by_cases h1 : c = b
    · subst h1; show Ok _ c c _; rw [M.new]; exact hb
    · by_cases h2 : c = s.curr
      · subst h2
        have := M.old
        show Ok _ b s.curr (s'.cor s.curr)
        rw [this, H.curr]
        exact ha (by rw [← H.curr]; exact h1)
      · rw [M.rest c h2 h1]
        rw [H.curr] at h2
        refine (H.cors c).frame h2 h1 ?_
        intro e
        rcases ht c e with h | h
        · exact h2 h
        · exact h1 h
  · rw [M.raised, H.raised, hop, List.append_nil]
  · rw [M.cut, H.cut]

theorem step_resume {t : SSt} {s : Sys} {d : Nat} (H : Inv t s)
    (ho : Orderly t.hist t.active (.resume d)) : Rel (step s (.resume d)) (sstep t (.resume d)) := by
  obtain ⟨o1, o2, o3, o4, o5, o6⟩ := ho
  have hdel := o2 d rfl
  have hu : unwinding t.hist t.active = false := by
    cases h : unwinding t.hist t.active with
    | false => rfl
    | true => exact absurd (o3 h).1 (by simp [target])
  have Ha := H.cors t.active
  have Hd := H.cors d
  obtain ⟨y1, y2, y3, y4, y5, y6, y7⟩ := Ha.active rfl
  by_cases hda : d = t.active
  · -- itself
    subst hda
    obtain ⟨s', h1, h2⟩ := resume_self (s := s) (by rw [H.curr, Ha.started, y2])
      (by rw [H.curr, y4, hu]; rfl)
    rw [H.curr] at h1 h2
    refine Rel.some' h1 (sstep_some (b := t.active) (by simp [next, goto, y3])) ?_
    refine H.moved h2 rfl ?_ ?_ ?_
    · intro c hc; exact Or.inl (Option.some.inj hc).symm
    · intro h; exact absurd rfl h
    · exact Ha.stay (by simp) (by simp) (by simp) rfl rfl rfl y1.symm rfl rfl
  · have hda' : d ≠ s.curr := by rw [H.curr]; exact hda
    have hal : (s.cor s.curr).state ≠ .Halted := by rw [H.curr, y1]; simp
    show Rel (resume s d) _
    rw [resume_eq hda']
    cases he : ended t.hist d with
    | true =>
      refine Rel.none' ?_ (sstep_none (by simp [next, goto, he]))
      obtain ⟨z1, z2, z3⟩ := Hd.done he
      rcases z2 with z | ⟨z, z4, z5⟩
      · rw [if_pos z]
      · rw [if_neg (by simp [z])]
        have hst : (s.cor d).started = true := by
          rw [Hd.started]
          cases hb : begun t.hist d with
          | true => rfl
          | false => have := (Hd.unbegun hb).1; rw [z] at this; exact absurd this (by simp)
        refine switch_dead hda' ?_ ?_ ?_
        · rw [upd_self]; simp [prepared]
        · rw [upd_self]; simp [prepared, z5]
        · rw [upd_self]; simp [prepared, z4, hst]
    | false =>
      have hs : (s.cor d).state ≠ .Halted ∧ (s.cor d).state ≠ .Primed := by
        cases hb : begun t.hist d with
        | true => have := (Hd.blocked hda hb he).1; simp [this]
        | false => have := (Hd.unbegun hb).1; simp [this]
      rw [if_neg hs.1]
      have hc' : (upd s d (prepared (s.cor d) s.curr)).curr = s.curr := rfl
      have key : ∃ s', arrive (switchFrom (upd s d (prepared (s.cor d) s.curr)) s.curr d
          (.inResume d)) = some s' ∧ Moved (upd s d (prepared (s.cor d) s.curr)) s' d
            (blockedIn (s.cor s.curr) (.inResume d))
            { prepared (s.cor d) s.curr with state := .Active } := by
        have e1 : (upd s d (prepared (s.cor d) s.curr)).cor d = prepared (s.cor d) s.curr := upd_self _ _ _
        have e2 : (upd s d (prepared (s.cor d) s.curr)).cor s.curr = s.cor s.curr :=
          upd_other _ _ (fun h => hda' h.symm)
        cases hb : begun t.hist d with
        | true =>
          obtain ⟨z1, z2, z3, z4, z5, z6⟩ := Hd.blocked hda hb he
          refine switch_back' hc' e2 e1 hda' hal rfl z2 ?_
          simp only [prepared, Hd.started, hb, if_true]; exact z5
        | false =>
          exact switch_fresh' hc' e2 e1 hda' hal rfl (by simp [prepared, Hd.started, hb]) hs.2
      obtain ⟨s', h1, h2⟩ := key
      refine Rel.some' h1 (sstep_some (b := d) (by simp [next, goto, he])) ?_
      refine H.moved (h2.of_upd hda') rfl ?_ ?_ ?_
      · intro c hc; exact Or.inr (Option.some.inj hc).symm
      · intro hne
        rw [H.curr]
        exact Ha.block hu (by simp) (by simp) (by simp) hne (by simp)
          (fun x hx => by injection hx with hx; rw [hx])
      · have := Hd.resumed (w := if (s.cor d).started then (s.cor d).wait else .fresh) hda he hdel
        rw [H.curr]
        exact this

theorem mem_resumers {h : Hist} {c b : Nat} (hb : b ∈ resumers h c) :
    b ≠ c ∧ latest h b ≠ none := by
  simp only [resumers, List.mem_map, List.mem_filter] at hb
  obtain ⟨e, ⟨h1, h2⟩, h3⟩ := hb
  subst h3
  refine ⟨by simp [resumes] at h2; exact h2.2, ?_⟩
  simp only [latest, ne_eq, Option.map_eq_none_iff, List.find?_eq_none]
  intro hh
  exact hh e h1 (by simp)

theorem deleter_acted {h : Hist} {c b : Nat} (hb : deleter h c = some b) : latest h b ≠ none := by
  simp only [deleter, Option.map_eq_some_iff] at hb
  obtain ⟨e, h1, h3⟩ := hb
  subst h3
  simp only [latest, ne_eq, Option.map_eq_none_iff, List.find?_eq_none]
  intro hh
  exact hh e (List.mem_of_find?_eq_some h1) (by simp)

theorem Ok.acted {h : Hist} {a b : Nat} {k : Cor} (H : Ok h a b k) (hb : latest h b ≠ none) :
    begun h b = true := by
  cases hh : begun h b with
  | true => rfl
  | false => exact absurd (H.unbegun hh).2.2.2.2.2.2 hb

theorem switch_halt {s : Sys} {a b : Nat} {w : Wait} {ka kb : Cor} (hc : s.curr = a)
    (hka : s.cor a = ka) (hkb : s.cor b = kb) (hb : b ≠ a) (ha : ka.state = .Halted)
    (h0 : kb.started = true) (h1 : kb.cancellation = .null)
    (h2 : kb.wait ≠ .fresh ∧ kb.wait ≠ .inLeave ∧ kb.wait ≠ .inCancelStop) :
    ∃ s', arrive (switchFrom s a b w) = some s' ∧
      Moved s s' b { ka with wait := w } { kb with state := .Active } := by
  subst hc hka hkb
  have e : (switchFrom s s.curr b w).cor (switchFrom s s.curr b w).curr = s.cor b := by
    simp [switchFrom, upd, hb]
  refine ⟨_, arrive_back (by rw [e]; exact h0) (by rw [e]; exact h1) (by rw [e]; exact h2), ?_⟩
  have e2 : (switchFrom s s.curr b w).curr = b := rfl
  have hb' : s.curr ≠ b := fun h => hb h.symm
  constructor
  · rfl
  · rw [e2]; simp [switchFrom, upd, hb', ha]
  · rw [e2]; simp [switchFrom, upd, hb]
  · intro c h1 h2; rw [e2]; simp [switchFrom, upd, h1, h2]
  · rfl
  · rfl

theorem quiet {h : Hist} {a : Nat} {op : Op} (o : Orderly h a op)
    (ht : target op ≠ none ∨ op = .suspend ∨ op = .cancel) : unwinding h a = false := by
  cases hu : unwinding h a with
  | false => rfl
  | true =>
    obtain ⟨x1, x2, x3⟩ := o.2.2.1 hu
    rcases ht with h | h | h
    · exact absurd x1 h
    · exact absurd h x2
    · exact absurd h x3

theorem step_suspend {t : SSt} {s : Sys} (H : Inv t s) (ho : Orderly t.hist t.active .suspend) :
    Rel (step s .suspend) (sstep t .suspend) := by
  have hu := quiet ho (by simp)
  have Ha := H.cors t.active
  obtain ⟨y1, y2, y3, y4, y5, y6, y7⟩ := Ha.active rfl
  have hun : cancelled t.hist t.active = false ∧ deleter t.hist t.active = none := by
    simpa [unwinding, y3] using hu
  have hl := Ha.last hun.2
  show Rel (suspendIn s .inSuspend arrive) _
  unfold suspendIn
  dsimp only
  rw [H.curr, hl]
  cases hh : (resumers t.hist t.active).head? with
  | none => exact Rel.none' rfl (sstep_none (by simp [next, goto, hh]))
  | some b =>
    have hm := mem_resumers (List.mem_of_head? hh)
    have Hb := H.cors b
    have hbg := Hb.acted hm.2
    dsimp only
    cases he : ended t.hist b with
    | true =>
      refine Rel.none' ?_ (sstep_none (by simp [next, goto, hh, he]))
      obtain ⟨z1, z2, z3⟩ := Hb.done he
      rcases z2 with z | ⟨z, z4, z5⟩
      · rw [if_pos z]
      · rw [if_neg (by simp [z])]
        exact switch_dead hm.1 (by rw [Hb.started, hbg]) (by simp [z5]) (Or.inr z4)
    | false =>
      obtain ⟨z1, z2, z3, z4, z5, z6⟩ := Hb.blocked hm.1 hbg he
      rw [if_neg (by simp [z1])]
      obtain ⟨s', h1, h2⟩ := switch_back' (w := .inSuspend) H.curr rfl rfl hm.1 (by rw [y1]; simp)
        (by rw [Hb.started, hbg]) z2 z5
      refine Rel.some' h1 (sstep_some (b := b) (by simp [next, goto, hh, he])) ?_
      refine H.moved h2 rfl (by simp [target]) ?_ ?_
      · intro hne
        exact Ha.block hu (by simp) (by simp) (by simp) hne (by simp) (by simp)
      · exact Hb.wake hm.1 hbg he (by simp [target])

theorem Inv.here {t : SSt} {s s' : Sys} {op : Op} (H : Inv t s) (hc : s'.curr = s.curr)
    (hr : s'.raised = s.raised) (hcut : s'.cut = s.cut) (hop : raises t.hist t.active op = [])
    (hn : next t.hist t.active op = some t.active)
    (hk : ∀ c, Ok (⟨t.active, op⟩ :: t.hist) t.active c (s'.cor c)) :
    Rel (some s') (sstep t op) := by
  rw [sstep_some hn]
  refine ⟨by rw [hc, H.curr], hk, by rw [hr, H.raised, hop, List.append_nil], by rw [hcut, H.cut]⟩

theorem step_cancel {t : SSt} {s : Sys} (H : Inv t s) (ho : Orderly t.hist t.active .cancel) :
    Rel (step s .cancel) (sstep t .cancel) := by
  have hu := quiet ho (by simp)
  have Ha := H.cors t.active
  show Rel (cancel s) _
  unfold cancel
  rw [H.curr]
  by_cases h0 : t.active = 0
  · rw [if_pos h0]; exact Rel.none' rfl (sstep_none (by simp [next, h0]))
  · rw [if_neg h0]
    refine H.here rfl rfl rfl rfl (by simp [next, h0]) ?_
    intro c
    by_cases hc : c = t.active
    · subst hc; rw [upd_self]; exact Ha.cancels hu
    · rw [upd_other _ _ hc]; exact (H.cors c).frame hc hc (by simp [target])

theorem step_resumeAt {t : SSt} {s : Sys} {d x : Nat} (H : Inv t s) :
    Rel (step s (.resumeAt d x)) (sstep t (.resumeAt d x)) := by
  refine H.here (s' := resumeAt s d x) rfl rfl rfl rfl rfl ?_
  intro c
  have : Ok (⟨t.active, .resumeAt d x⟩ :: t.hist) t.active c (s.cor c) := by
    by_cases hc : c = t.active
    · subst hc
      exact (H.cors t.active).stay (by simp) (by simp) (by simp) rfl rfl rfl rfl rfl rfl
    · exact (H.cors c).frame hc hc (by simp [target])
  unfold resumeAt
  by_cases hc : c = d
  · subst hc; rw [upd_self]; exact this.buffer rfl rfl rfl rfl rfl rfl rfl
  · rw [upd_other _ _ hc]; exact this

theorem here_own {t : SSt} {s s' : Sys} {op : Op} (H : Inv t s) (hc : s'.curr = s.curr)
    (hr : s'.raised = s.raised) (hcut : s'.cut = s.cut) (h1 : op ≠ .ret) (h2 : op ≠ .cancel)
    (h3 : target op = none) (hn : next t.hist t.active op = some t.active)
    (f : ∀ c, c ≠ s.curr → s'.cor c = s.cor c)
    (f1 : (s'.cor s.curr).started = (s.cor s.curr).started)
    (f2 : (s'.cor s.curr).starter = (s.cor s.curr).starter)
    (f3 : (s'.cor s.curr).last = (s.cor s.curr).last)
    (f4 : (s'.cor s.curr).state = (s.cor s.curr).state)
    (f5 : (s'.cor s.curr).cancellation = (s.cor s.curr).cancellation)
    (f6 : (s'.cor s.curr).mode = (s.cor s.curr).mode) : Rel (some s') (sstep t op) := by
  rw [H.curr] at f f1 f2 f3 f4 f5 f6
  refine H.here hc hr hcut ?_ hn ?_
  · cases op <;> first | rfl | exact absurd rfl h1
  · intro c
    by_cases hc : c = t.active
    · subst hc
      refine (H.cors t.active).stay h1 h2 ?_ f1 f2 f3 f4 f5 f6
      intro h; rw [h] at h3; exact absurd h3 (by simp [target])
    · rw [f c hc]; exact (H.cors c).frame hc hc (by simp [h3])

theorem poll_facts (s : Sys) : (poll s).curr = s.curr ∧ (poll s).raised = s.raised ∧
    (poll s).cut = s.cut ∧ (∀ c, c ≠ s.curr → (poll s).cor c = s.cor c) ∧
    ((poll s).cor s.curr).started = (s.cor s.curr).started ∧
    ((poll s).cor s.curr).starter = (s.cor s.curr).starter ∧
    ((poll s).cor s.curr).last = (s.cor s.curr).last ∧
    ((poll s).cor s.curr).state = (s.cor s.curr).state ∧
    ((poll s).cor s.curr).cancellation = (s.cor s.curr).cancellation ∧
    ((poll s).cor s.curr).mode = (s.cor s.curr).mode := by
  unfold poll
  cases h : (s.cor s.curr).ehm_buffer with
  | nil => simp
  | cons x xs =>
    refine ⟨rfl, rfl, rfl, ?_, ?_⟩
    · intro c hc; simp [upd, hc]
    · simp [upd]

theorem step_poll {t : SSt} {s : Sys} (H : Inv t s) : Rel (step s .poll) (sstep t .poll) := by
  obtain ⟨f1, f2, f3, f4, f5, f6, f7, f8, f9, f10⟩ := poll_facts s
  exact here_own H f1 f2 f3 (by simp) (by simp) rfl rfl f4 f5 f6 f7 f8 f9 f10

theorem step_checkedPoll {t : SSt} {s : Sys} (H : Inv t s) :
    Rel (step s .checkedPoll) (sstep t .checkedPoll) := by
  show Rel (some (checkedPoll s)) _
  unfold checkedPoll
  by_cases h : (s.cor s.curr).ehm_enabled = true
  · rw [if_pos h]
    obtain ⟨f1, f2, f3, f4, f5, f6, f7, f8, f9, f10⟩ := poll_facts s
    exact here_own H f1 f2 f3 (by simp) (by simp) rfl rfl f4 f5 f6 f7 f8 f9 f10
  · rw [if_neg h]
    exact here_own H rfl rfl rfl (by simp) (by simp) rfl rfl (fun _ _ => rfl) rfl rfl rfl rfl rfl rfl

theorem step_enable {t : SSt} {s : Sys} {b : Bool} (H : Inv t s) :
    Rel (step s (.enable b)) (sstep t (.enable b)) := by
  refine here_own H rfl rfl rfl (by simp) (by simp) rfl rfl ?_ ?_ ?_ ?_ ?_ ?_ ?_
  · intro c hc; exact upd_other _ _ hc
  all_goals rw [upd_self]

theorem arriveBack_eq {s : Sys} (h : (s.cor s.curr).wait ≠ .fresh) : arriveBack s = arrive s := by
  unfold arriveBack arrive
  dsimp only
  rw [if_neg h]

theorem arrive_primed {s : Sys} {a : Nat} {kd ka : Cor} (hkd : s.cor s.curr = kd)
    (hka : s.cor a = ka) (h1 : kd.started = true) (h2 : kd.wait = .fresh) (h3 : kd.state = .Primed)
    (h4 : kd.last = some a) (ha : a ≠ s.curr) (h5 : ka.state ≠ .Halted) (h6 : ka.started = true)
    (h7 : ka.cancellation = .null)
    (h8 : ka.wait ≠ .fresh ∧ ka.wait ≠ .inLeave ∧ ka.wait ≠ .inCancelStop) :
    ∃ s', arrive s = some s' ∧
      Moved s s' a (blockedIn kd .inPrime) { ka with state := .Active } := by
  obtain ⟨s', x1, x2⟩ := switch_back' (s := s) (w := .inPrime) rfl hkd hka ha (by rw [h3]; simp) h6 h7 h8
  refine ⟨s', ?_, x2⟩
  unfold arrive
  dsimp only
  rw [hkd, if_pos h1, if_pos h2, if_pos h3]
  unfold suspendIn
  dsimp only
  rw [hkd, h4]
  dsimp only
  rw [hka, if_neg h5, arriveBack_eq, x1]
  have : (switchFrom s s.curr a .inPrime).cor (switchFrom s s.curr a .inPrime).curr = ka := by
    simp [switchFrom, upd, ha, hka]
  rw [this]; exact h8.1

theorem step_prime {t : SSt} {s : Sys} {d : Nat} (H : Inv t s)
    (ho : Orderly t.hist t.active (.prime d)) : Rel (step s (.prime d)) (sstep t (.prime d)) := by
  have hu := quiet ho (by simp [target])
  have hdel := ho.2.1 d rfl
  have Ha := H.cors t.active
  have Hd := H.cors d
  obtain ⟨y1, y2, y3, y4, y5, y6, y7⟩ := Ha.active rfl
  show Rel (prime s d) _
  cases hb : begun t.hist d with
  | true =>
    refine Rel.none' ?_ (sstep_none (by simp [next, hb]))
    unfold prime
    rw [if_neg]
    cases he : ended t.hist d with
    | true => rcases (Hd.done he).2.1 with z | ⟨z, _⟩ <;> simp [z]
    | false =>
      by_cases hda : d = t.active
      · rw [hda, y1]; simp
      · rw [(Hd.blocked hda hb he).1]; simp
  | false =>
    obtain ⟨z1, z2, z3, z4, z5, z6, z7⟩ := Hd.unbegun hb
    have hst : (s.cor d).started = false := by rw [Hd.started, hb]
    have hcd : s.curr ≠ d := by rw [H.curr]; exact fun h => z4 h.symm
    have hcd' : d ≠ s.curr := fun h => hcd h.symm
    have e0 : prime s d = resume (upd s d { s.cor d with state := .Primed }) d := by
      unfold prime; rw [if_pos z1]
    have hstn : (s.cor d).starter = none := by
      rw [Hd.starter]
      simp [begun] at hb
      simp [hb.2]
    -- after the switch to d
    have hac : (s.cor s.curr).cancellation = .null := by rw [H.curr, y4, hu]; rfl
    have hal : (s.cor s.curr).state = .Active := by rw [H.curr, y1]
    have has : (s.cor s.curr).started = true := by rw [H.curr, Ha.started, y2]
    let kd := prepared { s.cor d with state := .Primed } s.curr
    let s1 := switchFrom (upd (upd s d { s.cor d with state := .Primed }) d kd) s.curr d (.inResume d)
    have e1 : prime s d = arrive s1 := by
      rw [e0, resume_eq (by exact hcd'), upd_self, if_neg (by simp)]
      rfl
    have c1 : s1.cor d = kd := by simp [s1, switchFrom, upd, hcd']
    have c2 : s1.cor s.curr = blockedIn (s.cor s.curr) (.inResume d) := by
      simp [s1, switchFrom, upd, hcd, hal, blockedIn]
    have c3 : ∀ c, c ≠ d → c ≠ s.curr → s1.cor c = s.cor c := by
      intro c h1 h2; simp [s1, switchFrom, upd, h1, h2]
    obtain ⟨s', x1, x2⟩ := arrive_primed (s := s1) (a := s.curr) c1 c2 rfl
      (by simp [kd, prepared, hst]) rfl rfl hcd (by simp [blockedIn]) has hac (by simp [blockedIn])
    rw [e1, x1]
    refine H.here x2.curr x2.raised x2.cut rfl (by simp [next, hb]) ?_
    intro c
    by_cases h1 : c = d
    · subst h1
      have h3 : s'.cor c = blockedIn kd .inPrime := x2.old
      rw [h3]
      have h4 := Hd.primed z4 hb hdel
      refine h4.buffer rfl ?_ ?_ rfl rfl rfl rfl
      · simp [blockedIn, kd, prepared, hstn, H.curr]
      · simp [blockedIn, kd, prepared, H.curr]
    · by_cases h2 : c = s.curr
      · subst h2
        rw [x2.new, H.curr]
        exact Ha.stay (by simp) (by simp) (by simp) rfl rfl rfl y1.symm rfl rfl
      · rw [x2.rest c h1 h2, c3 c h1 h2]
        rw [H.curr] at h2
        refine (H.cors c).frame h2 h2 ?_
        intro h; exact h1 (Option.some.inj h).symm

theorem step_ret {t : SSt} {s : Sys} (H : Inv t s) (ho : Orderly t.hist t.active .ret) :
    Rel (step s .ret) (sstep t .ret) := by
  have Ha := H.cors t.active
  obtain ⟨y1, y2, y3, y4, y5, y6, y7⟩ := Ha.active rfl
  have hcr : ∀ b, b ≠ t.active → ended (⟨t.active, .ret⟩ :: t.hist) b = ended t.hist b := by
    intro b hb; rw [ended_cons]; simp; intro h; exact absurd h.symm hb
  show Rel (ret s) _
  unfold ret
  rw [H.curr]
  cases hc : cancelled t.hist t.active with
  | true =>
    rw [if_pos (by rw [y5, hc]; rfl)]
    have hl := Ha.last (y7 hc)
    unfold cancelstop
    dsimp only
    rw [H.curr, hl]
    cases hh : (resumers t.hist t.active).head? with
    | none => exact Rel.none' rfl (sstep_none (by simp [next, goto, hh, hc]))
    | some b =>
      have hm := mem_resumers (List.mem_of_head? hh)
      have hm' : t.active ≠ b := fun h => hm.1 h.symm
      have Hb := H.cors b
      have hbg := Hb.acted hm.2
      have hlt := ho.2.2.2.1 rfl hc b hh
      have he : ended t.hist b = false := by
        cases he : ended t.hist b with
        | false => rfl
        | true => have := (Hb.done he).2.2; rw [hlt] at this; simp at this
      obtain ⟨z1, z2, z3, z4, z5, z6⟩ := Hb.blocked hm.1 hbg he
      have hw := z6 _ hlt
      have hbs : (s.cor b).started = true := by rw [Hb.started, hbg]
      have hun : unwinding t.hist t.active = true := by simp [unwinding, y3, hc]
      dsimp only
      let s1 := upd s t.active { s.cor t.active with mode := .no, last := some b }
      let s2 := upd s1 b { s1.cor b with cancellation := .one }
      let s3 := switchFrom s2 t.active b .inCancelStop
      have c1 : s3.cor b = { s.cor b with cancellation := .one } := by
        simp [s3, s2, s1, switchFrom, upd, hm.1]
      have c2 : s3.cor t.active = { s.cor t.active with
          mode := .no, state := .Blocked, wait := .inCancelStop, last := some b } := by
        simp [s3, s2, s1, switchFrom, upd, hm', y1]
      have c3 : ∀ c, c ≠ t.active → c ≠ b → s3.cor c = s.cor c := by
        intro c h1 h2; simp [s3, s2, s1, switchFrom, upd, h1, h2]
      let s4 := upd s3 b { s.cor b with state := .Active }
      have key : arrive s3 = some { upd s4 t.active { s4.cor t.active with
          state := .Cancelled, cancellation := .null } with
          raised := s.raised ++ [(b, t.active)] } := by
        have hcur : s3.curr = b := rfl
        unfold arrive
        dsimp only
        rw [hcur, c1, if_pos hbs, if_neg (by simp [hw])]
        unfold returnIn
        dsimp only
        rw [c1, if_neg (by simp)]
        dsimp only
        rw [hw]
        dsimp only
        rw [if_pos rfl, upd_other _ _ hm', c2, if_neg (by simp [y4, hun])]
        simp only [s4, c2, upd_other _ _ hm', z2, hw]
        rfl
      show Rel (arrive s3) _
      refine Rel.some' key (sstep_some (b := b) (by simp [next, goto, hh, hc, hcr b hm.1, he])) ?_
      refine ⟨rfl, ?_, ?_, H.cut⟩
      · intro c
        by_cases h1 : c = t.active
        · subst h1
          show Ok _ b t.active ((upd s4 t.active _).cor t.active)
          rw [upd_self]
          refine Ha.ends hm' ?_ ?_ ?_ (Or.inr ⟨rfl, ?_, rfl⟩)
          · simp [s4, upd_other _ _ hm', c2]
          · simp [s4, upd_other _ _ hm', c2]
          · intro _; simp [s4, upd_other _ _ hm', c2, hl, hh]
          · simp [s4, upd_other _ _ hm', c2]
        · show Ok _ b c ((upd s4 t.active _).cor c)
          rw [upd_other _ _ h1]
          by_cases h2 : c = b
          · subst h2
            rw [upd_self]
            exact Hb.wake hm.1 hbg he (by simp [target])
          · rw [upd_other _ _ h2, c3 c h1 h2]
            exact (H.cors c).frame h1 h2 (by simp [target])
      · show s.raised ++ _ = _
        simp [H.raised, raises, hc, hh]
  | false =>
    rw [if_neg (by rw [y5, hc]; cases (deleter t.hist t.active).isSome <;> simp)]
    unfold leave
    dsimp only
    -- where it goes
    have hg : ∃ o : Option Nat, (if (s.cor t.active).cancellation ≠ .null then (s.cor t.active).last
          else (s.cor t.active).starter) = o ∧
        next t.hist t.active .ret = goto (⟨t.active, .ret⟩ :: t.hist) o ∧
        ∀ b, o = some b → b ≠ t.active ∧ latest t.hist b ≠ none := by
      cases hd : deleter t.hist t.active with
      | some b =>
        have hun : unwinding t.hist t.active = true := by simp [unwinding, y3, hd]
        refine ⟨some b, ?_, by simp [next, hc, hd], ?_⟩
        · rw [if_pos (by simp [y4, hun]), (y6 hc b hd).1]
        · intro b' hb'; cases hb'; exact ⟨(y6 hc b hd).2, deleter_acted hd⟩
      | none =>
        have hun : unwinding t.hist t.active = false := by simp [unwinding, y3, hd, hc]
        refine ⟨(resumers t.hist t.active).getLast?, ?_, by simp [next, hc, hd], ?_⟩
        · rw [if_neg (by simp [y4, hun]), Ha.starter]
        · intro b hb; exact mem_resumers (List.mem_of_getLast? hb)
    obtain ⟨o, g1, g2, g3⟩ := hg
    rw [H.curr, g1]
    cases o with
    | none => exact Rel.none' rfl (sstep_none (by rw [g2]; rfl))
    | some b =>
      have hm := g3 b rfl
      have hm' : t.active ≠ b := fun h => hm.1 h.symm
      have Hb := H.cors b
      have hbg := Hb.acted hm.2
      dsimp only
      have c1 := upd_other s { s.cor t.active with state := .Halted, mode := .no } hm.1
      have c2 := upd_self s t.active { s.cor t.active with state := .Halted, mode := .no }
      rw [c1]
      cases he : ended t.hist b with
      | true =>
        refine Rel.none' ?_ (sstep_none (by rw [g2]; simp [goto, hcr b hm.1, he]))
        obtain ⟨z1, z2, z3⟩ := Hb.done he
        rcases z2 with z | ⟨z, z4, z5⟩
        · rw [if_pos z]
        · rw [if_neg (by simp [z])]
          exact switch_dead hm.1 (by rw [c1, Hb.started, hbg]) (by rw [c1]; simp [z5])
            (by rw [c1]; exact Or.inr z4)
      | false =>
        obtain ⟨z1, z2, z3, z4, z5, z6⟩ := Hb.blocked hm.1 hbg he
        rw [if_neg (by simp [z1])]
        obtain ⟨s', h1, h2⟩ := switch_halt (w := .inLeave)
          (s := upd s t.active { s.cor t.active with state := .Halted, mode := .no }) H.curr c2 c1 hm.1
          rfl (by rw [Hb.started, hbg]) z2 z5
        refine Rel.some' h1 (sstep_some (b := b) (by rw [g2]; simp [goto, hcr b hm.1, he])) ?_
        have h3 : Moved s s' b _ _ := ⟨h2.curr, h2.old, h2.new, ?_, h2.raised, h2.cut⟩
        · refine H.moved h3 (by simp [raises, hc]) (by simp [target]) ?_ ?_
          · intro hne
            exact Ha.ends hne rfl rfl (fun _ => rfl) (Or.inl rfl)
          · exact Hb.wake hm.1 hbg he (by simp [target])
        · intro c x1 x2
          rw [h2.rest c x1 x2]
          exact upd_other _ _ (by rw [← H.curr]; exact x1)

theorem step_delete {t : SSt} {s : Sys} {d : Nat} (H : Inv t s)
    (ho : Orderly t.hist t.active (.delete d)) : Rel (step s (.delete d)) (sstep t (.delete d)) := by
  have hu := quiet ho (by simp [target])
  have hdel := ho.2.1 d rfl
  have Ha := H.cors t.active
  have Hd := H.cors d
  obtain ⟨y1, y2, y3, y4, y5, y6, y7⟩ := Ha.active rfl
  have hal : (s.cor s.curr).state = .Active := by rw [H.curr, y1]
  have hac : (s.cor s.curr).cancellation = .null := by rw [H.curr, y4, hu]; rfl
  have has : (s.cor s.curr).started = true := by rw [H.curr, Ha.started, y2]
  show Rel (delete s d) _
  unfold delete
  dsimp only
  by_cases hda : d = t.active
  · refine Rel.none' ?_ (sstep_none ?_)
    · rw [hda, if_pos (by simp [y1]), if_pos H.curr]
    · simp [next, hda, y2, y3]
  have hda' : d ≠ s.curr := by rw [H.curr]; exact hda
  have hda'' : s.curr ≠ d := fun h => hda' h.symm
  cases hb : begun t.hist d with
  | false =>
    obtain ⟨z1, z2, z3, z4, z5, z6, z7⟩ := Hd.unbegun hb
    rw [if_neg (by simp [z1])]
    refine H.here rfl rfl rfl rfl (by simp [next, hb]) ?_
    intro c
    by_cases h1 : c = d
    · subst h1; rw [upd_self]
      exact Hd.drops hda (Or.inl hb) rfl rfl (fun _ => ⟨rfl, rfl, rfl⟩)
        (fun h => by rw [z5] at h; simp at h)
    · rw [upd_other _ _ h1]
      by_cases h2 : c = t.active
      · subst h2
        refine Ha.stay (by simp) (by simp) ?_ rfl rfl rfl rfl rfl rfl
        intro h; injection h with h; exact hda h
      · refine (H.cors c).frame h2 h2 ?_
        intro h; exact h1 (Option.some.inj h).symm
  | true =>
    cases he : ended t.hist d with
    | true =>
      have hn : next t.hist t.active (.delete d) = some t.active := by simp [next, hb, he]
      rcases (Hd.done he).2.1 with z | ⟨z, z4, z5⟩
      · rw [if_neg (by simp [z])]
        refine H.here rfl rfl rfl rfl hn ?_
        intro c
        by_cases h1 : c = d
        · subst h1; rw [upd_self]
          exact Hd.drops hda (Or.inr he) rfl rfl (fun h => by rw [hb] at h; simp at h) (fun _ => z)
        · rw [upd_other _ _ h1]
          by_cases h2 : c = t.active
          · subst h2
            refine Ha.stay (by simp) (by simp) ?_ rfl rfl rfl rfl rfl rfl
            intro h; injection h with h; exact hda h
          · refine (H.cors c).frame h2 h2 ?_
            intro h; exact h1 (Option.some.inj h).symm
      · rw [if_pos (by simp [z]), if_neg hda'', if_pos z4, upd_upd, upd_self, upd_upd]
        let kd : Cor := { s.cor d with
          ehm_buffer := [], cancellation := .exc, last := some s.curr, state := .Halted
          wait := .inLeave }
        let s1 : Sys := { switchFrom (upd s d kd) s.curr d .inDelete with curr := s.curr }
        have c1 : s1.cor d = kd := by simp [s1, switchFrom, upd, hda']
        have c2 : s1.cor s.curr = blockedIn (s.cor s.curr) .inDelete := by
          simp [s1, switchFrom, upd, hda'', blockedIn, hal]
        have c3 : ∀ c, c ≠ d → c ≠ s.curr → s1.cor c = s.cor c := by
          intro c h1 h2; simp [s1, switchFrom, upd, h1, h2]
        have hcur : s1.curr = s.curr := rfl
        have e1 := arrive_back (s := s1) (by rw [hcur, c2]; exact has) (by rw [hcur, c2]; exact hac)
          (by rw [hcur, c2]; simp [blockedIn])
        show Rel (arrive s1) _
        rw [e1]
        refine H.here rfl rfl rfl rfl hn ?_
        intro c
        by_cases h1 : c = d
        · subst h1
          rw [upd_other _ _ (by rw [hcur]; exact hda'), c1]
          exact Hd.drops hda (Or.inr he) rfl rfl (fun h => by rw [hb] at h; simp at h) (fun _ => rfl)
        · by_cases h2 : c = s.curr
          · subst h2
            rw [hcur, upd_self, c2, H.curr]
            refine Ha.stay (by simp) (by simp) ?_ rfl rfl rfl y1.symm rfl rfl
            intro h; injection h with h; exact hda h
          · rw [upd_other _ _ (by rw [hcur]; exact h2), c3 c h1 h2]
            rw [H.curr] at h2
            refine (H.cors c).frame h2 h2 ?_
            intro h; exact h1 (Option.some.inj h).symm
    | false =>
      obtain ⟨z1, z2, z3, z4, z5, z6⟩ := Hd.blocked hda hb he
      rw [if_pos (by simp [z1]), if_neg hda'', if_neg z5.2.2, upd_upd]
      let kd : Cor := { s.cor d with ehm_buffer := [], cancellation := .exc, last := some s.curr }
      let s1 := switchFrom (upd s d kd) s.curr d .inDelete
      have c1 : s1.cor d = kd := by simp [s1, switchFrom, upd, hda']
      have c2 : s1.cor s.curr = blockedIn (s.cor s.curr) .inDelete := by
        simp [s1, switchFrom, upd, hda'', blockedIn, hal]
      have c3 : ∀ c, c ≠ d → c ≠ s.curr → s1.cor c = s.cor c := by
        intro c h1 h2; simp [s1, switchFrom, upd, h1, h2]
      have hcur : s1.curr = d := rfl
      have e1 : arrive s1 = some { upd s1 d { kd with state := .Active, mode := .unwind } with
          cut := s.cut } := by
        unfold arrive
        dsimp only
        rw [hcur, c1, if_pos (by simp [kd, Hd.started, hb]), if_neg (by exact z5.1)]
        unfold returnIn
        dsimp only
        rw [c1, if_pos rfl]
        simp only [kd, z3]
        rfl
      refine Rel.some' e1 (sstep_some (b := d) (by simp [next, hb, he, hda])) ?_
      refine H.moved (b := d) (ka := blockedIn (s.cor s.curr) .inDelete) ⟨rfl, ?_, upd_self _ _ _, ?_, rfl, rfl⟩ rfl ?_ ?_ ?_
      · show (upd s1 d _).cor s.curr = _
        rw [upd_other _ _ hda'', c2]
      · intro c h1 h2
        show (upd s1 d _).cor c = _
        rw [upd_other _ _ h2, c3 c h2 h1]
      · intro c hc; exact Or.inr (Option.some.inj hc).symm
      · intro hne
        rw [H.curr]
        refine Ha.block hu (by simp) (by simp) ?_ hne (by simp) (by simp)
        intro h; injection h with h; exact hda h
      · rw [← H.curr]
        have := Hd.deletes (w := (s.cor d).wait) (bf := []) hda hb he
        rw [← H.curr] at this
        exact this

theorem step_rel {t : SSt} {s : Sys} (H : Inv t s) {op : Op} (ho : Orderly t.hist t.active op) :
    Rel (step s op) (sstep t op) := by
  cases op with
  | resume d => exact step_resume H ho
  | resumePtr d => exact absurd rfl (ho.1 d)
  | prime d => exact step_prime H ho
  | suspend => exact step_suspend H ho
  | ret => exact step_ret H ho
  | cancel => exact step_cancel H ho
  | delete d => exact step_delete H ho
  | resumeAt d x => exact step_resumeAt H
  | poll => exact step_poll H
  | checkedPoll => exact step_checkedPoll H
  | enable b => exact step_enable H

theorem run_rel (ops : List Op) : ∀ {t : SSt} {s : Sys}, Inv t s → AllOrderly t ops →
    Rel (runFrom s ops) (srunFrom t ops) := by
  induction ops with
  | nil => intro t s H _; exact H
  | cons op ops ih =>
    intro t s H ho
    have h1 := step_rel H ho.1
    simp only [runFrom, srunFrom]
    cases hs : step s op with
    | none =>
      cases ht : sstep t op with
      | none => trivial
      | some t' => rw [hs, ht] at h1; exact h1.elim
    | some s' =>
      cases ht : sstep t op with
      | none => rw [hs, ht] at h1; exact h1.elim
      | some t' => rw [hs, ht] at h1; exact ih h1 (ho.2 t' ht)

end Verif.Proof.Coroutine
