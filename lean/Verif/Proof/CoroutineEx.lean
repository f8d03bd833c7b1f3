import Verif.Proof.Coroutine
namespace Verif.Proof.Coroutine
open Verif.Model.Coroutine Verif.Spec.Coroutine

/-! ### A check for orderliness -/

def orderlyB (h : Hist) (a : Nat) (op : Op) : Bool :=
  (match op with | .resumePtr _ => false | _ => true) &&
  (match target op with | some d => (deleter h d).isNone | none => true) &&
  (!unwinding h a || ((target op).isNone && op != .suspend && op != .cancel)) &&
  (op != .ret || !cancelled h a || (match (resumers h a).head? with
    | some b => latest h b == some (.resume a) | none => true)) &&
  (op != .ret || a != 0) && (op != .delete 0)

def checkOrderly (s : SSt) : List Op → Bool
  | [] => true
  | op :: ops => orderlyB s.hist s.active op &&
    match sstep s op with | none => true | some s' => checkOrderly s' ops

theorem orderlyB_sound {h : Hist} {a : Nat} {op : Op} (hh : orderlyB h a op = true) :
    Orderly h a op := by
  simp only [orderlyB, Bool.and_eq_true] at hh
  obtain ⟨⟨⟨⟨⟨h1, h2⟩, h3⟩, h4⟩, h5⟩, h6⟩ := hh
  refine ⟨?_, ?_, ?_, ?_, ?_, ?_⟩
  · intro d hd; rw [hd] at h1; simp at h1
  · intro d hd; rw [hd] at h2; simpa using h2
  · intro hu; rw [hu] at h3; simp at h3; exact ⟨h3.1.1, h3.1.2, h3.2⟩
  · intro h hc b hb; rw [h, hc, hb] at h4; simp at h4; exact h4
  · intro h; rw [h] at h5; simpa using h5
  · simpa using h6

theorem checkOrderly_sound {ops : List Op} : ∀ {t : SSt}, checkOrderly t ops = true →
    AllOrderly t ops := by
  induction ops with
  | nil => intro t _; trivial
  | cons op ops ih =>
    intro t h
    simp only [checkOrderly, Bool.and_eq_true] at h
    refine ⟨orderlyB_sound h.1, ?_⟩
    intro s' hs
    have h2 := h.2
    rw [hs] at h2
    exact ih h2

/-! ### Exceptions sent to coroutines -/

/-- Nothing about the exceptions changed. -/
def Keep (s s' : Sys) : Prop := s'.nonlocal = s.nonlocal ∧
  ∀ c, (s'.cor c).ehm_buffer = (s.cor c).ehm_buffer ∧ (s'.cor c).ehm_enabled = (s.cor c).ehm_enabled

theorem Keep.refl (s : Sys) : Keep s s := ⟨rfl, fun _ => ⟨rfl, rfl⟩⟩

theorem Keep.trans {s s' s'' : Sys} (h : Keep s s') (h' : Keep s' s'') : Keep s s'' :=
  ⟨h'.1.trans h.1, fun c => ⟨(h'.2 c).1.trans (h.2 c).1, (h'.2 c).2.trans (h.2 c).2⟩⟩

theorem Keep.upd {s s' : Sys} {d : Nat} {v : Cor} (h : Keep s s')
    (h1 : v.ehm_buffer = (s'.cor d).ehm_buffer) (h2 : v.ehm_enabled = (s'.cor d).ehm_enabled) :
    Keep s (upd s' d v) := by
  refine ⟨h.1, fun c => ?_⟩
  by_cases hc : c = d
  · subst hc; rw [upd_self]; exact ⟨h1.trans (h.2 c).1, h2.trans (h.2 c).2⟩
  · rw [upd_other _ _ hc]; exact h.2 c

theorem Keep.one {s : Sys} {d : Nat} {v : Cor} (h1 : v.ehm_buffer = (s.cor d).ehm_buffer)
    (h2 : v.ehm_enabled = (s.cor d).ehm_enabled) : Keep s (Verif.Model.Coroutine.upd s d v) :=
  (Keep.refl s).upd h1 h2

theorem Keep.same {s x y : Sys} (h : Keep s x) (h1 : y.nonlocal = x.nonlocal) (h2 : y.cor = x.cor) :
    Keep s y := ⟨h1.trans h.1, fun c => by rw [h2]; exact h.2 c⟩

theorem keep_returnIn {s s' : Sys} {d : Nat} (h : returnIn s d = some s') : Keep s s' := by
  unfold returnIn at h
  dsimp only at h
  by_cases h1 : (s.cor d).cancellation = .exc
  · rw [if_pos h1] at h
    cases h
    exact Keep.same (x := upd s d { s.cor d with mode := .unwind, state := .Active })
      (Keep.one (by rfl) (by rfl)) rfl rfl
  · rw [if_neg h1] at h
    cases hw : (s.cor d).wait <;> rw [hw] at h <;> dsimp only at h
    case fresh => cases h
    case inLeave => cases h
    case inCancelStop => cases h
    case inResume e =>
      by_cases h2 : (s.cor d).cancellation = .one
      · rw [if_pos h2] at h
        split at h
        · cases h
        · cases h
          refine Keep.trans (s' := upd s d _) ?_ (Keep.same (Keep.one (d := e) ?_ ?_) rfl rfl)
          · exact Keep.one (by rfl) (by rfl)
          · rfl
          · rfl
      · rw [if_neg h2] at h; cases h; exact (Keep.refl s).upd (by rfl) (by rfl)
    all_goals (cases h; exact (Keep.refl s).upd (by rfl) (by rfl))

theorem keep_switch (s : Sys) (a b : Nat) (w : Wait) : Keep s (switchFrom s a b w) :=
  Keep.same (x := upd s a { s.cor a with
    state := if (s.cor a).state = .Halted then .Halted else .Blocked, wait := w })
    (Keep.one (by rfl) (by rfl)) rfl rfl

theorem keep_arriveBack {s s' : Sys} (h : arriveBack s = some s') : Keep s s' := by
  unfold arriveBack at h
  split at h
  · exact keep_returnIn h
  · cases h

theorem keep_suspendIn {s s' : Sys} {w : Wait} {f : Sys → Option Sys}
    (hf : ∀ s s', f s = some s' → Keep s s') (h : suspendIn s w f = some s') : Keep s s' := by
  unfold suspendIn at h
  dsimp only at h
  split at h
  · cases h
  · split at h
    · cases h
    · exact (keep_switch _ _ _ _).trans (hf _ _ h)

theorem keep_arrive {s s' : Sys} (h : arrive s = some s') : Keep s s' := by
  unfold arrive at h
  dsimp only at h
  split at h
  · split at h
    · split at h
      · exact keep_suspendIn (fun _ _ => keep_arriveBack) h
      · cases h; exact (Keep.refl s).upd (by rfl) (by rfl)
    · exact keep_returnIn h
  · cases h

theorem keep_go {s s' s1 : Sys} {a b : Nat} {w : Wait} (h0 : Keep s s1)
    (h : arrive (switchFrom s1 a b w) = some s') : Keep s s' :=
  h0.trans ((keep_switch _ _ _ _).trans (keep_arrive h))

theorem keep_resume {s s' : Sys} {d : Nat} (h : resume s d = some s') : Keep s s' := by
  by_cases hd : d = s.curr
  · subst hd
    unfold resume at h
    dsimp only at h
    rw [if_neg (by simp)] at h
    split at h
    · exact keep_go (Keep.refl s) h
    · exact keep_go ((Keep.refl s).upd (by rfl) (by rfl)) h
  · rw [resume_eq hd] at h
    split at h
    · cases h
    · exact keep_go ((Keep.refl s).upd (by rfl) (by rfl)) h

theorem keep_resumePtr {s s' : Sys} {d : Nat} (h : resumePtr s d = some s') : Keep s s' := by
  unfold resumePtr at h
  dsimp only at h
  split at h
  · split at h
    · cases h
    · exact keep_go ((Keep.refl s).upd (by rfl) (by rfl)) h
  · exact keep_go (Keep.refl s) h

theorem keep_prime {s s' : Sys} {d : Nat} (h : prime s d = some s') : Keep s s' := by
  unfold prime at h
  split at h
  · exact ((Keep.refl s).upd (by rfl) (by rfl) : Keep s (upd s d _)).trans (keep_resume h)
  · cases h

theorem keep_ret {s s' : Sys} (h : ret s = some s') : Keep s s' := by
  unfold ret at h
  split at h
  · unfold cancelstop at h
    dsimp only at h
    split at h
    · cases h
    · exact keep_go (((Keep.refl s).upd (by rfl) (by rfl) : Keep s (upd s s.curr _)).upd (by rfl) (by rfl)) h
  · unfold leave at h
    dsimp only at h
    split at h
    · cases h
    · split at h
      · cases h
      · exact keep_go ((Keep.refl s).upd (by rfl) (by rfl)) h

theorem keep_cancel {s s' : Sys} (h : cancel s = some s') : Keep s s' := by
  unfold cancel at h
  split at h
  · cases h
  · cases h; exact (Keep.refl s).upd (by rfl) (by rfl)

/-- Destroying a coroutine loses what waits for it, and nothing else. -/
theorem keep_delete {s s' : Sys} {d : Nat} (h : delete s d = some s') :
    Keep (upd s d { s.cor d with ehm_buffer := [] }) s' := by
  unfold delete at h
  dsimp only at h
  split at h
  · split at h
    · cases h
    · split at h
      · refine Keep.trans ?_ (keep_arrive h)
        rw [upd_upd, upd_self, upd_upd]
        have h1 : Keep (upd s d { s.cor d with ehm_buffer := [] }) (upd s d
            { s.cor d with
              state := .Halted, last := some s.curr, cancellation := .exc, wait := .inLeave
              ehm_buffer := [] }) := by
          refine ⟨rfl, fun c => ?_⟩
          by_cases hc : c = d
          · subst hc; simp [upd]
          · simp [upd, hc]
        exact h1.trans (Keep.same (keep_switch _ s.curr d .inDelete) rfl rfl)
      · refine keep_go ?_ h
        exact ((Keep.refl _).upd (by rw [upd_self]) (by rw [upd_self]))
  · cases h; exact Keep.refl _

def localOp : Op → Bool
  | .resumeAt _ _ => true
  | .poll => true
  | .checkedPoll => true
  | .enable _ => true
  | .delete _ => true
  | _ => false

theorem keep_step {s s' : Sys} {op : Op} (h : step s op = some s') (ho : localOp op = false) :
    Keep s s' := by
  cases op with
  | resume d => exact keep_resume h
  | resumePtr d => exact keep_resumePtr h
  | prime d => exact keep_prime h
  | suspend => exact keep_suspendIn (fun _ _ => keep_arrive) h
  | ret => exact keep_ret h
  | cancel => exact keep_cancel h
  | _ => simp [localOp] at ho

theorem raisedIn_append (s : Sys) (l : List (Nat × Nat)) (s' : Sys)
    (h : s'.nonlocal = s.nonlocal ++ l) (c : Nat) :
    raisedIn s' c = raisedIn s c ++ (l.filter fun p => p.1 = c).map (·.2) := by
  simp [raisedIn, h]

theorem poll_ex (s : Sys) (c : Nat) :
    raisedIn (poll s) c ++ ((poll s).cor c).ehm_buffer = raisedIn s c ++ (s.cor c).ehm_buffer := by
  unfold poll
  cases h : (s.cor s.curr).ehm_buffer with
  | nil => rfl
  | cons x xs =>
    dsimp only
    rw [raisedIn_append s [(s.curr, x)] _ rfl c]
    by_cases hc : c = s.curr
    · subst hc; simp [upd, h]
    · have hc' : ¬s.curr = c := fun e => hc e.symm
      simp [upd, hc, hc']

theorem step_ex {s s' : Sys} {op : Op} (h : step s op = some s') (c : Nat) (hd : op ≠ .delete c) :
    raisedIn s' c ++ (s'.cor c).ehm_buffer =
      raisedIn s c ++ (s.cor c).ehm_buffer ++ sentTo [op] c := by
  cases hl : localOp op with
  | false =>
    have hk := keep_step h hl
    have e : sentTo [op] c = [] := by cases op <;> simp [localOp] at hl <;> rfl
    rw [e, (hk.2 c).1, List.append_nil]
    simp [raisedIn, hk.1]
  | true =>
    cases op with
    | resumeAt d x =>
      cases h
      by_cases hc : d = c
      · subst hc; simp [sentTo, resumeAt, upd, raisedIn]
      · have hc' : ¬c = d := fun e => hc e.symm
        simp [sentTo, resumeAt, upd, raisedIn, hc, hc']
    | poll => cases h; rw [poll_ex]; simp [sentTo]
    | checkedPoll =>
      cases h
      unfold checkedPoll
      split
      · rw [poll_ex]; simp [sentTo]
      · simp [sentTo]
    | enable b =>
      cases h
      by_cases hc : c = s.curr
      · subst hc; simp [sentTo, upd, raisedIn]
      · simp [sentTo, upd, raisedIn, hc]
    | delete d =>
      have hk := keep_delete h
      have hc : c ≠ d := fun e => hd (by rw [e])
      rw [(hk.2 c).1, upd_other _ _ hc]
      have : raisedIn s' c = raisedIn s c := by simp only [raisedIn, hk.1]; rfl
      simp [this, sentTo]
    | _ => simp [localOp] at hl

theorem sentTo_cons (op : Op) (ops : List Op) (c : Nat) :
    sentTo (op :: ops) c = sentTo [op] c ++ sentTo ops c := by
  show sentTo ([op] ++ ops) c = _
  simp only [sentTo, List.filterMap_append]

theorem runFrom_ex (c : Nat) : ∀ {ops : List Op} {s s' : Sys}, Op.delete c ∉ ops →
    runFrom s ops = some s' →
    raisedIn s' c ++ (s'.cor c).ehm_buffer =
      raisedIn s c ++ (s.cor c).ehm_buffer ++ sentTo ops c := by
  intro ops
  induction ops with
  | nil => intro s s' _ h; cases h; simp [sentTo]
  | cons op ops ih =>
    intro s s' hd h
    simp only [List.mem_cons, not_or] at hd
    simp only [runFrom, Option.bind_eq_some_iff] at h
    obtain ⟨s1, h1, h2⟩ := h
    rw [ih hd.2 h2, step_ex h1 c (fun e => hd.1 e.symm), sentTo_cons op ops]
    simp only [List.append_assoc]

theorem enabledIn_cons (e : Ev) (h : Hist) (c : Nat) :
    enabledIn (e :: h) c = match e.op with
      | .enable b => if e.actor = c then b else enabledIn h c
      | _ => enabledIn h c := by
  unfold enabledIn
  cases ho : e.op <;> simp [List.findSome?_cons, ho]
  by_cases hc : e.actor = c <;> simp [hc]

theorem step_enabled {s s' : Sys} {op : Op} (h : step s op = some s') (c : Nat) :
    (s'.cor c).ehm_enabled = match op with
      | .enable b => if s.curr = c then b else (s.cor c).ehm_enabled
      | _ => (s.cor c).ehm_enabled := by
  have hp : ∀ c, ((poll s).cor c).ehm_enabled = (s.cor c).ehm_enabled := by
    intro c
    unfold poll
    cases h : (s.cor s.curr).ehm_buffer with
    | nil => rfl
    | cons x xs =>
      by_cases hc : c = s.curr
      · subst hc; simp [upd]
      · simp [upd, hc]
  cases hl : localOp op with
  | false =>
    have hk := keep_step h hl
    rw [(hk.2 c).2]
    cases op <;> simp [localOp] at hl <;> rfl
  | true =>
    cases op with
    | resumeAt d x =>
      cases h
      by_cases hc : c = d
      · subst hc; simp [resumeAt, upd]
      · simp [resumeAt, upd, hc]
    | poll => cases h; exact hp c
    | checkedPoll =>
      cases h
      unfold checkedPoll
      split
      · exact hp c
      · rfl
    | enable b =>
      cases h
      by_cases hc : c = s.curr
      · subst hc; simp [upd]
      · have hc' : ¬s.curr = c := fun e => hc e.symm
        simp [upd, hc, hc']
    | delete d =>
      have hk := keep_delete h
      rw [(hk.2 c).2]
      by_cases hc : c = d
      · subst hc; simp [upd]
      · simp [upd, hc]
    | _ => simp [localOp] at hl

theorem trace_enabled (c : Nat) : ∀ {ops : List Op} {s s' : Sys} {h h' : Hist},
    (s.cor c).ehm_enabled = enabledIn h c → traceFrom s h ops = some (s', h') →
    (s'.cor c).ehm_enabled = enabledIn h' c := by
  intro ops
  induction ops with
  | nil => intro s s' h h' h0 ht; cases ht; exact h0
  | cons op ops ih =>
    intro s s' h h' h0 ht
    simp only [traceFrom, Option.bind_eq_some_iff] at ht
    obtain ⟨s1, h1, h2⟩ := ht
    refine ih ?_ h2
    rw [step_enabled h1, enabledIn_cons, h0]
    cases op <;> rfl

end Verif.Proof.Coroutine
