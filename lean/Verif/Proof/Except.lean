import Verif.Spec.Except
import Verif.Proof.Heap
/-! The rewritten program does what the program means. -/

namespace Verif.Except

variable {σ : Type} {P : Prog σ}

/-! ## Once an exception is lost, the flag stays. -/

theorem lose_lost : ∀ r : Res σ, r.lose.lost = true := by intro r; cases r <;> rfl
theorem returned_lost : ∀ r : Res σ, r.returned.lost = r.lost := by intro r; cases r <;> rfl

/-- Statements keep the flag. -/
def Mono (ev : Sem σ) : Prop := ∀ cx s m, (ev cx s m true).lost = true

theorem finally_mono {f : σ → Bool → Res σ} (h : ∀ m, (f m true).lost = true) (r : Res σ) (hr : r.lost = true) : (r.finally f).lost = true := by
  cases r <;> simp only [Res.lost] at hr <;> subst hr
  case done m => exact h m
  case abort => rfl
  case timeout => rfl
  all_goals
    simp only [Res.finally]
    rename_i m
    have := h m
    revert this
    cases f m true <;> simp [Res.lost, Res.lose]

theorem sthrow_mono {ev : Sem σ} (h : Mono ev) (cx : Cx) (x : Nat) (e : Exc) (m : σ) : (sthrow P ev cx x e m true).lost = true := by
  unfold sthrow
  split
  · rfl
  · split
    · rw [returned_lost]; exact h _ _ _
    · rfl

theorem sresume_mono {ev : Sem σ} (h : Mono ev) (cx : Cx) (x : Nat) (e : Exc) : ∀ (hs : List Handlers) (m : σ), (sresume P ev cx x e hs m true).lost = true
  | [], m => by
    unfold sresume
    split
    · rw [returned_lost]; exact h _ _ _
    · exact sthrow_mono h ..
  | hs :: rest, m => by
    unfold sresume
    split
    · exact sresume_mono h cx x e rest _
    · rename_i b m' _
      have := h { cx with res := rest, exc := some e } b m'
      split
      · rename_i m2 l2 heq; rw [heq] at this; simp only [Res.lost] at this; subst this; exact sresume_mono h cx x e rest _
      · exact this

theorem sstep_mono {ev : Sem σ} (h : Mono ev) : Mono (sstep P ev) := by
  intro cx s m
  cases s with
  | act a => rfl
  | use a => simp only [sstep]; split <;> rfl
  | seq s t =>
    simp only [sstep]
    have := h cx s m
    split
    · rename_i heq; rw [heq] at this; simp only [Res.lost] at this; subst this; exact h _ _ _
    · exact this
  | ite c s t => simp only [sstep]; split <;> exact h _ _ _
  | call f => simp only [sstep]; rw [returned_lost]; exact h _ _ _
  | ret => rfl
  | throw x => simp only [sstep]; exact sthrow_mono h ..
  | throwResume x => simp only [sstep]; exact sresume_mono h ..
  | rethrow =>
    simp only [sstep]
    split
    · rfl
    · split <;> rfl
  | reresume => rfl
  | «try» body hs fin =>
    have key : ∀ inside : Cx, (match ev inside body m true with
      | .exc d b e m l => if hs.has .terminate ∧ d = cx.term.length then ev { cx with exc := some e } b m l else .exc d b e m l
      | r => r).lost = true := by
      intro inside
      have := h inside body m
      split
      · rename_i heq; rw [heq] at this; simp only [Res.lost] at this; subst this
        split
        · exact h _ _ _
        · rfl
      · exact this
    simp only [sstep]
    cases fin with
    | none => exact key _
    | some s => exact finally_mono (fun m => h _ _ _) _ (key _)

theorem run_mono : ∀ n, Mono (run P n)
  | 0 => fun _ _ _ => rfl
  | n + 1 => fun cx s m => sstep_mono (run_mono n) cx s m

theorem Mono.false {ev : Sem σ} (h : Mono ev) {cx : Cx} {s : Stmt} {m : σ} {l : Bool} (hl : (ev cx s m l).lost = false) : l = false := by
  cases l
  · rfl
  · rw [h] at hl; cases hl

/-! ## What the translator accepts -/

mutual
theorem ok_accepted : ∀ {s : Stmt} {rt rs rr rt' rs' rr' : Bool}, s.ok rt rs rr = true → (rt = true → rt' = true) → (rs = true → rs' = true) → (rr = true → rr' = true) →
    s.accepted rt' rs' rr' = true
  | .act _, _, _, _, _, _, _, _, _, _, _ | .use _, _, _, _, _, _, _, _, _, _, _ | .call _, _, _, _, _, _, _, _, _, _, _ | .throw _, _, _, _, _, _, _, _, _, _, _ | .throwResume _, _, _, _, _, _, _, _, _, _, _ => by
    simp [Stmt.accepted]
  | .seq s t, _, _, _, _, _, _, h, h1, h2, h3 | .ite _ s t, _, _, _, _, _, _, h, h1, h2, h3 => by
    simp only [Stmt.ok, Bool.and_eq_true] at h
    simp only [Stmt.accepted, Bool.and_eq_true]
    exact ⟨ok_accepted h.1 h1 h2 h3, ok_accepted h.2 h1 h2 h3⟩
  | .ret, _, _, _, _, _, _, h, h1, h2, h3 => by simp only [Stmt.ok, Stmt.accepted] at *; exact h3 h
  | .rethrow, _, _, _, _, _, _, h, h1, h2, h3 => by simp only [Stmt.ok, Stmt.accepted] at *; exact h1 h
  | .reresume, _, _, _, _, _, _, h, h1, h2, h3 => by simp only [Stmt.ok, Stmt.accepted] at *; exact h2 h
  | .try body hs fin, _, _, _, _, _, _, h, h1, h2, h3 => by
    simp only [Stmt.ok, Bool.and_eq_true] at h
    simp only [Stmt.accepted, Bool.and_eq_true]
    refine ⟨⟨ok_accepted h.1.1 ?_ ?_ ?_, handlers_accepted h.1.2 h3⟩, opt_accepted h.2⟩
    · simp only [Bool.and_eq_true]; exact fun g => h1 g.1.1
    · simp only [Bool.and_eq_true]; exact fun g => h2 g.1
    · simp only [Bool.and_eq_true]; exact fun g => ⟨h3 g.1, g.2⟩
theorem handlers_accepted : ∀ {hs : Handlers} {rr rr' : Bool}, hs.ok rr = true → (rr = true → rr' = true) → hs.accepted rr' = true
  | .nil, _, _, _, _ => by simp [Handlers.accepted]
  | .cons .terminate _ _ b hs, _, _, h, h3 => by
    simp only [Handlers.ok, Bool.and_eq_true] at h
    simp only [Handlers.accepted, Bool.and_eq_true]
    exact ⟨ok_accepted h.1 id id h3, handlers_accepted h.2 h3⟩
  | .cons .resume _ _ b hs, _, _, h, h3 => by
    simp only [Handlers.ok, Bool.and_eq_true] at h
    simp only [Handlers.accepted, Bool.and_eq_true]
    exact ⟨ok_accepted h.1 id id id, handlers_accepted h.2 h3⟩
theorem opt_accepted : ∀ {o : Opt} {rt rs : Bool}, o.ok = true → o.accepted rt rs = true
  | .none, _, _, _ => by simp [Opt.accepted]
  | .some s, _, _, h => by
    simp only [Opt.ok] at h
    simp only [Opt.accepted]
    exact ok_accepted h nofun nofun id
end

/-! ## Handlers -/

/-- The handlers of one kind, in order. -/
def Handlers.nth (k : Kind) : Handlers → Nat → Option Stmt
  | .nil, _ => none
  | .cons k' _ _ b hs, i => if k' = k then match i with
      | 0 => some b
      | i + 1 => hs.nth k i
    else hs.nth k i

theorem body_nth (k : Kind) : ∀ (hs : Handlers) (i : Nat), (trC k hs).body i = (hs.nth k i).map tr
  | .nil, i => by simp [trC, TClauses.body, Handlers.nth]
  | .cons k' ty c b hs, i => by
    simp only [trC, Handlers.nth]
    split
    · cases i with
      | zero => simp [TClauses.body]
      | succ i => simpa [TClauses.body] using body_nth k hs i
    · exact body_nth k hs i

theorem nth_ok {rr : Bool} {h : Stmt} : ∀ {hs : Handlers} {i : Nat}, hs.ok rr → hs.nth .terminate i = some h → h.ok true false rr
  | .nil, _, _, h2 => by simp [Handlers.nth] at h2
  | .cons .terminate _ _ b hs, 0, h1, h2 => by
    simp only [Handlers.nth, if_true, Option.some.injEq] at h2; subst h2
    simp only [Handlers.ok, Bool.and_eq_true] at h1; exact h1.1
  | .cons .terminate _ _ b hs, i + 1, h1, h2 => by
    simp only [Handlers.nth, if_true] at h2
    simp only [Handlers.ok, Bool.and_eq_true] at h1; exact nth_ok h1.2 h2
  | .cons .resume _ _ b hs, i, h1, h2 => by
    simp only [Handlers.nth, reduceCtorEq, if_false] at h2
    simp only [Handlers.ok, Bool.and_eq_true] at h1; exact nth_ok h1.2 h2

theorem pick_ok {rr : Bool} {e : Exc} {b : Stmt} : ∀ {hs : Handlers} {m m' : σ}, hs.ok rr → pick P .resume e hs m = (some b, m') → b.ok false true false
  | .nil, _, _, _, h2 => by simp [pick] at h2
  | .cons .resume _ _ c hs, m, m', h1, h2 => by
    simp only [Handlers.ok, Bool.and_eq_true] at h1
    simp only [pick, if_true] at h2
    split at h2
    · cases h2; exact h1.1
    · exact pick_ok h1.2 h2
  | .cons .terminate _ _ c hs, m, m', h1, h2 => by
    simp only [Handlers.ok, Bool.and_eq_true] at h1
    simp only [pick, reduceCtorEq, if_false] at h2
    exact pick_ok h1.2 h2

theorem matcher_pick (e : Exc) : ∀ (hs : Handlers) (i : Nat) (m : σ), match pick P .terminate e hs m with
    | (none, m') => matcher P e (trC .terminate hs) i m = (0, m')
    | (some b, m') => ∃ j, matcher P e (trC .terminate hs) i m = (i + j + 1, m') ∧ hs.nth .terminate j = some b
  | .nil, i, m => by simp [pick, trC, matcher]
  | .cons .terminate ty c b hs, i, m => by
    simp only [pick, if_true, trC, matcher, Handlers.nth]
    rcases accepts P ty c e m with ⟨_ | _, m1⟩
    · have ih := matcher_pick e hs (i + 1) m1
      simp only
      split at ih
      · exact ih
      · obtain ⟨j, h1, h2⟩ := ih
        exact ⟨j + 1, by rw [h1]; congr 1; omega, h2⟩
    · exact ⟨0, rfl, rfl⟩
  | .cons .resume ty c b hs, i, m => by
    simp only [pick, reduceCtorEq, if_false, trC, Handlers.nth]
    exact matcher_pick e hs i m

theorem handler_pick (ev : Ev σ) (stk : List TClauses) (e : Exc) : ∀ (hs : Handlers) (st : St σ), handler P ev stk e (trC .resume hs) st = match pick P .resume e hs st.m with
    | (some b, m) => ev stk (.obj e) (tr b) { st with m := m }
    | (none, m) => .retFalse { st with m := m }
  | .nil, st => by simp [pick, trC, handler]
  | .cons .resume ty c b hs, st => by
    simp only [pick, if_true, trC, handler]
    rcases accepts P ty c e st.m with ⟨_ | _, m1⟩
    · exact handler_pick ev stk e hs { st with m := m1 }
    · rfl
  | .cons .terminate ty c b hs, st => by
    simp only [pick, reduceCtorEq, if_false, trC]
    exact handler_pick ev stk e hs st

/-! ## The relation -/

/-- The list of nodes from an address on. -/
def Chain (nodes : Nat → Option (Nat × TClauses)) : Nat → List Handlers → Prop
  | top, [] => top = 0
  | top, hs :: rest => top ≠ 0 ∧ ∃ next, nodes top = some (next, trC .resume hs) ∧ next < top ∧ Chain nodes next rest

/-- Nothing but the store is changed. -/
structure Same (st st' : St σ) : Prop where
  top : st'.top = st.top
  cur : st'.cur = st.cur
  nodes : st'.nodes = st.nodes
  excs : st'.excs = st.excs
  slots : st'.slots = st.slots
  fresh : st.fresh ≤ st'.fresh

/-- A new exception, at `p`, is the current one. -/
structure Thrown (st st' : St σ) (p : Nat) (e : Exc) (i : Nat) : Prop where
  top : st'.top = st.top
  cur : st'.cur = p
  nodes : st'.nodes = st.nodes
  excs : st'.excs = upd st.excs p (some ⟨st.cur, e, i⟩)
  slots : st'.slots = st.slots
  lo : st.fresh ≤ p
  hi : p < st'.fresh

/-- The current exception is thrown again. -/
structure Rethrown (v : Var) (st st' : St σ) (p : Nat) (e : Exc) (i : Nat) : Prop where
  top : st'.top = st.top
  cur : st'.cur = p
  nodes : st'.nodes = st.nodes
  was : p = st.cur
  excs : ∃ x, st.excs p = some x ∧ x.exc = e ∧ st'.excs = upd st.excs p (some { x with idx := i })
  slots : ∃ a, v = .slot a ∧ st'.slots = upd st.slots a (some 0)
  fresh : st.fresh ≤ st'.fresh

/-- The `try` statement with `d` others around it. -/
def At (term : List Handlers) (d : Nat) (hs : Handlers) : Prop := ∃ pre rest, term = pre ++ hs :: rest ∧ rest.length = d

/-- The rewritten program ends a statement as the program does. -/
def Post (term : List Handlers) (v : Var) (rt : Bool) (st : St σ) : Res σ → TRes σ → Prop
  | .done m _, .done st' | .ret m _, .ret st' | .reresume m _, .retFalse st' => Same st st' ∧ st'.m = m
  | .exc d h e m _, .unwind d' p st' => d' = d ∧ st'.m = m ∧ ∃ i hs, At term d hs ∧ hs.nth .terminate i = some h ∧
      (Thrown st st' p e (i + 1) ∨ rt = true ∧ Rethrown v st st' p e (i + 1))
  | .cancel e m _, .forced p st' => st'.m = m ∧ Thrown st st' p e 0
  | .abort m _, .abort st' => st'.m = m
  | .timeout _, .timeout => True
  | _, _ => False

/-- The data of the library is in order. -/
structure WF (st : St σ) : Prop where
  pos : 1 ≤ st.fresh
  nodes : ∀ a, st.fresh ≤ a → st.nodes a = none
  excs : ∀ a, st.fresh ≤ a → st.excs a = none
  slots : ∀ a, st.fresh ≤ a → st.slots a = none
  null : st.excs 0 = none

/-- The data of the library is that of what surrounds the statement. -/
structure Pre (cx : Cx) (stk : List TClauses) (v : Var) (rt : Bool) (st : St σ) : Prop where
  wf : WF st
  stk : stk = cx.term.map (trC .terminate)
  chain : Chain st.nodes st.top cx.res
  hok : ∀ hs ∈ cx.res, ∃ rr, hs.ok rr
  var : match cx.exc with
    | none => v = .none
    | some e => v ≠ .none ∧ v.get st = some e
  rt : rt = true → ∃ a, v = .slot a ∧ st.slots a = some st.cur

/-- Which ends are possible. -/
def Allowed (rs rr : Bool) : Res σ → Prop
  | .reresume _ _ => rs = true
  | .ret _ _ => rr = true
  | _ => True

/-- The two executions agree. -/
def Sim (ev : Sem σ) (ev' : Ev σ) : Prop := ∀ {cx s stk v rt rs rr st}, s.ok rt rs rr → Pre cx stk v rt st → (ev cx s st.m false).lost = false →
  Post cx.term v rt st (ev cx s st.m false) (ev' stk v (tr s) st) ∧ Allowed rs rr (ev cx s st.m false)

theorem Same.refl (st : St σ) : Same st st := ⟨rfl, rfl, rfl, rfl, rfl, Nat.le_refl _⟩
theorem Same.store (st : St σ) (m : σ) : Same st { st with m := m } := ⟨rfl, rfl, rfl, rfl, rfl, Nat.le_refl _⟩

theorem WF.same {st st' : St σ} (w : WF st) (h : Same st st') : WF st' where
  pos := Nat.le_trans w.pos h.fresh
  nodes a ha := by rw [h.nodes]; exact w.nodes a (Nat.le_trans h.fresh ha)
  excs a ha := by rw [h.excs]; exact w.excs a (Nat.le_trans h.fresh ha)
  slots a ha := by rw [h.slots]; exact w.slots a (Nat.le_trans h.fresh ha)
  null := by rw [h.excs]; exact w.null

theorem WF.thrown {st st' : St σ} {p i : Nat} {e : Exc} (w : WF st) (h : Thrown st st' p e i) : WF st' where
  pos := by have := h.lo; have := h.hi; have := w.pos; omega
  nodes a ha := by rw [h.nodes]; exact w.nodes a (by have := h.lo; have := h.hi; omega)
  excs a ha := by rw [h.excs, upd_ne _ _ (by have := h.hi; omega)]; exact w.excs a (by have := h.lo; have := h.hi; omega)
  slots a ha := by rw [h.slots]; exact w.slots a (by have := h.lo; have := h.hi; omega)
  null := by rw [h.excs, upd_ne _ _ (by have := h.lo; have := w.pos; omega)]; exact w.null

theorem Var.get_same {st st' : St σ} (h1 : st'.excs = st.excs) (h2 : st'.slots = st.slots) (v : Var) : v.get st' = v.get st := by
  cases v <;> simp [Var.get, h1, h2]

/-- A new exception does not change what a variable refers to. -/
theorem Var.get_upd {st st' : St σ} {p : Nat} {y : Option XNode} {v : Var} {e : Exc} (h1 : st'.excs = upd st.excs p y) (h2 : st'.slots = st.slots) (h3 : st.excs p = .none)
    (h : v.get st = some e) : v.get st' = some e := by
  cases v with
  | none => cases h
  | obj e => exact h
  | slot a =>
    simp only [Var.get, h1, h2] at h ⊢
    cases hs : st.slots a with
    | none => simp [hs] at h
    | some q =>
      simp only [hs, Option.bind_some] at h ⊢
      rw [upd_ne _ _ (by rintro rfl; rw [h3] at h; cases h)]; exact h
  | ptr q =>
    simp only [Var.get, h1] at h ⊢
    rw [upd_ne _ _ (by rintro rfl; rw [h3] at h; cases h)]; exact h

theorem Pre.same {cx : Cx} {stk : List TClauses} {v : Var} {rt : Bool} {st st' : St σ} (p : Pre cx stk v rt st) (h : Same st st') : Pre cx stk v rt st' where
  wf := p.wf.same h
  stk := p.stk
  chain := by rw [h.nodes, h.top]; exact p.chain
  hok := p.hok
  var := by have := p.var; rw [Var.get_same h.excs h.slots]; exact this
  rt ht := by rw [h.slots, h.cur]; exact p.rt ht

theorem Pre.norethrow {cx : Cx} {stk : List TClauses} {v : Var} {rt : Bool} {st : St σ} (p : Pre cx stk v rt st) : Pre cx stk v false st :=
  { p with rt := nofun }

/-- What is relative to a state is relative to one that differs in the store. -/
theorem Post.base {term : List Handlers} {v : Var} {rt : Bool} {st st1 : St σ} {r : Res σ} {t : TRes σ} (hs : Same st st1) (h : Post term v rt st1 r t) : Post term v rt st r t := by
  have same : ∀ {st'}, Same st1 st' → Same st st' := fun g => ⟨g.top.trans hs.top, g.cur.trans hs.cur, g.nodes.trans hs.nodes, g.excs.trans hs.excs, g.slots.trans hs.slots, Nat.le_trans hs.fresh g.fresh⟩
  have thrown : ∀ {st' p e i}, Thrown st1 st' p e i → Thrown st st' p e i := fun g =>
    ⟨g.top.trans hs.top, g.cur, g.nodes.trans hs.nodes, by rw [g.excs, hs.excs, hs.cur], g.slots.trans hs.slots, Nat.le_trans hs.fresh g.lo, g.hi⟩
  cases r <;> cases t <;> try (exact h.elim)
  case done.done => exact ⟨same h.1, h.2⟩
  case ret.ret => exact ⟨same h.1, h.2⟩
  case reresume.retFalse => exact ⟨same h.1, h.2⟩
  case exc.unwind =>
    obtain ⟨h1, h2, i, hh, h3, h4, h5⟩ := h
    refine ⟨h1, h2, i, hh, h3, h4, h5.imp thrown fun ⟨g1, g⟩ => ⟨g1, ?_⟩⟩
    obtain ⟨x, a1, a2, a3⟩ := g.excs
    obtain ⟨a, b1, b2⟩ := g.slots
    exact ⟨g.top.trans hs.top, g.cur, g.nodes.trans hs.nodes, g.was.trans hs.cur, ⟨x, hs.excs ▸ a1, a2, by rw [a3, hs.excs]⟩, ⟨a, b1, by rw [b2, hs.slots]⟩, Nat.le_trans hs.fresh g.fresh⟩
  case cancel.forced => exact ⟨h.1, thrown h.2⟩
  case abort.abort => exact h
  case timeout.timeout => trivial

/-- If rethrowing is not possible, the variable does not matter. -/
theorem Post.var {term : List Handlers} {v v' : Var} {rt : Bool} {st : St σ} {r : Res σ} {t : TRes σ} (h : Post term v false st r t) : Post term v' rt st r t := by
  cases r <;> cases t <;> try (exact h.elim)
  case exc.unwind =>
    obtain ⟨h1, h2, i, hh, h3, h4, h5⟩ := h
    exact ⟨h1, h2, i, hh, h3, h4, .inl (h5.resolve_right nofun)⟩
  all_goals exact h

/-! ## Searching -/

theorem upd_upd {α : Type} {f : Nat → α} {a : Nat} {v w : α} : upd (upd f a v) a w = upd f a w := by
  funext x; simp only [upd]; split <;> rfl
theorem upd_id {α : Type} {f : Nat → α} {a : Nat} {v : α} (h : f a = v) : upd f a v = f := by
  funext x; simp only [upd]; split
  · rename_i e; rw [e, h]
  · rfl

theorem search_find {p : Nat} : ∀ (term : List Handlers) (st : St σ) (y : XNode), st.cur = p → st.excs p = some y → match find P y.exc term st.m with
    | (none, m) => ∃ j, search P p (term.map (trC .terminate)) st = some (none, { st with m := m, excs := upd st.excs p (some { y with idx := j }) })
    | (some (d, h), m) => ∃ i hs, At term d hs ∧ hs.nth .terminate i = some h ∧
        search P p (term.map (trC .terminate)) st = some (some d, { st with m := m, excs := upd st.excs p (some { y with idx := i + 1 }) })
  | [], st, y, h1, h2 => by
    simp only [find]
    exact ⟨y.idx, by simp only [List.map_nil, search]; rw [upd_id h2]⟩
  | hs :: term, st, y, h1, h2 => by
    have hm := matcher_pick (P := P) y.exc hs 0 st.m
    simp only [find, List.map_cons, search, h1, h2]
    split at hm
    · rename_i m' hp
      simp only [hp, hm, if_true]
      have ih := search_find term { st with m := m', excs := upd st.excs p (some { y with idx := 0 }) } { y with idx := 0 } h1 (by simp)
      simp only [upd_upd] at ih
      rcases hq : find P y.exc term m' with ⟨_ | ⟨d, h⟩, m''⟩
      · simp only [hq, h1] at ih ⊢; exact ih
      · simp only [hq, h1] at ih ⊢
        obtain ⟨i, g, ⟨pre, rest, e1, e2⟩, a2, a3⟩ := ih
        exact ⟨i, g, ⟨hs :: pre, rest, by rw [e1]; rfl, e2⟩, a2, a3⟩
    · rename_i b m' hp
      obtain ⟨j, hj, hn⟩ := hm
      simp only [hp, hj]
      refine ⟨j, hs, ⟨[], term, rfl, rfl⟩, hn, ?_⟩
      rw [if_neg (by omega)]
      simp only [List.length_map, Nat.zero_add]

/-! ## Deleting -/

/-- The state `st2` is `st` with a new exception at `p`, the current one. -/
structure Owns (st st2 : St σ) (p : Nat) : Prop where
  top : st2.top = st.top
  cur : st2.cur = p
  nodes : st2.nodes = st.nodes
  excs : ∃ y, y.next = st.cur ∧ st2.excs = upd st.excs p (some y)
  lo : st.fresh ≤ p
  hi : p < st2.fresh

theorem Owns.same {st st2 st3 : St σ} {p : Nat} (w : WF st) (o : Owns st st2 p) (h : Same st2 st3) :
    ∃ st4, delete p st3 = some st4 ∧ st4.top = st.top ∧ st4.cur = st.cur ∧ st4.nodes = st.nodes ∧ st4.excs = st.excs ∧ st4.slots = st2.slots ∧ st4.fresh = st3.fresh ∧ st4.m = st3.m := by
  obtain ⟨y, hy, he⟩ := o.excs
  refine ⟨{ st3 with cur := y.next, excs := upd st3.excs p none }, ?_, ?_⟩
  · have : st3.excs p = some y := by rw [h.excs, he]; simp
    simp [delete, h.cur, o.cur, this]
  · refine ⟨h.top.trans o.top, hy, h.nodes.trans o.nodes, ?_, h.slots, rfl, rfl⟩
    show upd st3.excs p none = st.excs
    rw [h.excs, he, upd_upd, upd_id (w.excs p o.lo)]

theorem Owns.thrown {st st2 st3 : St σ} {p q i : Nat} {e : Exc} (w : WF st) (o : Owns st st2 p) (h : Thrown st2 st3 q e i) :
    ∃ st4, delete p st3 = some st4 ∧ st4.top = st.top ∧ st4.cur = q ∧ st4.nodes = st.nodes ∧ st4.excs = upd st.excs q (some ⟨st.cur, e, i⟩) ∧ st4.slots = st2.slots ∧ st4.fresh = st3.fresh ∧
      st4.m = st3.m := by
  obtain ⟨y, hy, he⟩ := o.excs
  have hpq : q ≠ p := by have := h.lo; have := o.hi; omega
  have e1 : st3.excs q = some ⟨p, e, i⟩ := by rw [h.excs]; simp [o.cur]
  have e2 : st3.excs p = some y := by rw [h.excs, upd_ne _ _ (Ne.symm hpq), he]; simp
  have hf : ∃ k, st3.fresh = k + 1 := ⟨st3.fresh - 1, by have := h.hi; omega⟩
  obtain ⟨k, hk⟩ := hf
  refine ⟨{ st3 with excs := upd (upd st3.excs q (some ⟨st.cur, e, i⟩)) p none }, ?_, h.top.trans o.top, h.cur, h.nodes.trans o.nodes, ?_, h.slots, rfl, rfl⟩
  · simp only [delete, h.cur, if_neg hpq, hk, unlink, e1, e2, if_true, Option.map_some, hy]
  · show upd (upd st3.excs q _) p none = _
    rw [h.excs, he]
    funext a
    simp only [upd]
    by_cases ha : a = p
    · subst ha; simp [Ne.symm hpq, w.excs a o.lo]
    · by_cases hb : a = q
      · subst hb; simp [ha]
      · simp [ha, hb]

/-- Deleting the exception at the end of a handler that cannot rethrow it. -/
theorem Post.delete {term : List Handlers} {v v' : Var} {rt : Bool} {st st2 : St σ} {p : Nat} {r : Res σ} {t : TRes σ} (w : WF st) (o : Owns st st2 p) (hsl : st2.slots = st.slots)
    (h : Post term v false st2 r t) : Post term v' rt st r (t.cleanup (Except.delete p)) := by
  have hf : st.fresh ≤ st2.fresh := Nat.le_of_lt (Nat.lt_of_le_of_lt o.lo o.hi)
  cases r <;> cases t <;> try (exact h.elim)
  case exc.unwind =>
    obtain ⟨h1, h2, i, hh, h3, h4, h5⟩ := h
    have g := h5.resolve_right nofun
    obtain ⟨st4, a0, a1, a2, a3, a4, a5, a6, a7⟩ := o.thrown w g
    simp only [TRes.cleanup, a0]
    exact ⟨h1, a7.trans h2, i, hh, h3, h4, .inl ⟨a1, a2, a3, a4, a5.trans hsl, Nat.le_trans hf g.lo, by rw [a6]; exact g.hi⟩⟩
  case cancel.forced =>
    obtain ⟨h2, g⟩ := h
    obtain ⟨st4, a0, a1, a2, a3, a4, a5, a6, a7⟩ := o.thrown w g
    simp only [TRes.cleanup, a0]
    exact ⟨a7.trans h2, a1, a2, a3, a4, a5.trans hsl, Nat.le_trans hf g.lo, by rw [a6]; exact g.hi⟩
  case abort.abort => exact h
  case timeout.timeout => exact h
  all_goals
    obtain ⟨g, h2⟩ := h
    obtain ⟨st4, a0, a1, a2, a3, a4, a5, a6, a7⟩ := o.same w g
    simp only [TRes.cleanup, a0]
    exact ⟨⟨a1, a2, a3, a4, a5.trans hsl, by rw [a6]; exact Nat.le_trans hf g.fresh⟩, a7.trans h2⟩

theorem Post.returned {term : List Handlers} {v : Var} {rt : Bool} {st : St σ} {r : Res σ} {t : TRes σ} {rr : Bool} (ha : Allowed false rr r) (h : Post term v rt st r t) :
    Post term v rt st r.returned t.returned ∧ Allowed false false r.returned := by
  cases r <;> cases t <;> try (exact h.elim)
  case reresume.retFalse => cases ha
  all_goals exact ⟨h, trivial⟩

/-! ## Throwing -/

theorem throw_sim (hP : P.ok) {ev : Sem σ} {ev' : Ev σ} (hs : Sim ev ev') {cx : Cx} {stk : List TClauses} {v : Var} {rt : Bool} {st : St σ} (x : Nat) (e : Exc) (p : Pre cx stk v rt st)
    (hl : (sthrow P ev cx x e st.m false).lost = false) :
    Post cx.term v rt st (sthrow P ev cx x e st.m false) (throwTerminate P ev' stk x e st) ∧ Allowed false false (sthrow P ev cx x e st.m false) := by
  have w := p.wf
  have hne : st.fresh ≠ 0 := by have := w.pos; omega
  have hsf := search_find (P := P) cx.term (allocate e st) ⟨st.cur, e, 0⟩ (p := st.fresh) rfl (by simp [allocate])
  unfold throwTerminate beginUnwind
  unfold sthrow at hl ⊢
  rw [if_neg (by exact hne)]
  rw [show (allocate e st).m = st.m from rfl] at hsf
  rw [p.stk]
  simp only [show (allocate e st).cur = st.fresh from rfl]
  rcases hfm : find P e cx.term st.m with ⟨_ | ⟨d, h⟩, m⟩
  · simp only [hfm] at hsf hl ⊢
    obtain ⟨j, hj⟩ := hsf
    simp only [hj]
    generalize hst2 : ({ allocate e st with m := m, excs := upd (allocate e st).excs st.fresh (some ⟨st.cur, e, j⟩) } : St σ) = st2
    have o : Owns st st2 st.fresh := by
      subst hst2
      exact ⟨rfl, rfl, rfl, ⟨⟨st.cur, e, j⟩, rfl, by simp [allocate, upd_upd]⟩, Nat.le_refl _, by simp [allocate]⟩
    have hex : st2.excs st.fresh = some ⟨st.cur, e, j⟩ := by subst hst2; simp
    have hsl : st2.slots = st.slots := by subst hst2; rfl
    have hm : st2.m = m := by subst hst2; rfl
    have hc : st2.cur = st.fresh := o.cur
    have w2 : WF st2 := by
      have : Thrown st st2 st.fresh e j := by subst hst2; exact ⟨rfl, rfl, rfl, by simp [allocate, upd_upd], rfl, Nat.le_refl _, by simp [allocate]⟩
      exact w.thrown this
    cases htd : P.tdef x with
    | none =>
      have hac : (allocate e st).cur = st.fresh := rfl
      simp only [cancel, hac, hex, TRes.returned]
      have post : Post cx.term v false st2 (.cancel e m false) (.forced (allocate e st2).cur (allocate e st2)) :=
        ⟨hm, ⟨rfl, rfl, rfl, rfl, rfl, Nat.le_refl _, Nat.lt_succ_self _⟩⟩
      exact ⟨post.delete w o hsl, trivial⟩
    | some f =>
      simp only [htd] at hl ⊢
      rw [returned_lost] at hl
      have pre : Pre { cx with exc := some e } stk (.ptr st.fresh) false st2 :=
        ⟨w2, p.stk, by rw [o.nodes, o.top]; exact p.chain, p.hok, ⟨nofun, by simp [Var.get, hex]⟩, nofun⟩
      rw [← hm] at hl ⊢
      obtain ⟨a, b⟩ := hs (hP f) pre hl
      rw [← p.stk]
      obtain ⟨a', b'⟩ := Post.returned b a
      exact ⟨a'.delete w o hsl, b'⟩
  · simp only [hfm] at hsf ⊢
    obtain ⟨i, hs', h1, h2, h3⟩ := hsf
    simp only [h3]
    exact ⟨⟨rfl, rfl, i, hs', h1, h2, .inl ⟨rfl, rfl, rfl, by simp [allocate, upd_upd], rfl, Nat.le_refl _, Nat.lt_succ_self _⟩⟩, trivial⟩

/-- The top of the list of nodes does not matter. -/
theorem Post.top {term : List Handlers} {v : Var} {rt : Bool} {st : St σ} {t0 : Nat} {r : Res σ} {t : TRes σ} (h : Post term v rt { st with top := t0 } r t) :
    Post term v rt st r (t.cleanup fun st' => some { st' with top := st.top }) := by
  cases r <;> cases t <;> try (exact h.elim)
  case exc.unwind =>
    obtain ⟨h1, h2, i, hh, h3, h4, h5⟩ := h
    refine ⟨h1, h2, i, hh, h3, h4, h5.imp (fun g => ⟨rfl, g.cur, g.nodes, g.excs, g.slots, g.lo, g.hi⟩) fun ⟨g1, g⟩ => ⟨g1, rfl, g.cur, g.nodes, g.was, g.excs, g.slots, g.fresh⟩⟩
  case cancel.forced =>
    obtain ⟨h2, g⟩ := h
    exact ⟨h2, rfl, g.cur, g.nodes, g.excs, g.slots, g.lo, g.hi⟩
  case abort.abort => exact h
  case timeout.timeout => exact h
  all_goals
    obtain ⟨g, h2⟩ := h
    exact ⟨⟨rfl, g.cur, g.nodes, g.excs, g.slots, g.fresh⟩, h2⟩

/-- The loop of `throwResume`: a handler was found, or the default handler is to be called. -/
theorem loop_sim {ev : Sem σ} {ev' : Ev σ} (hm : Mono ev) (hs : Sim ev ev') {cx : Cx} {stk : List TClauses} {v : Var} (x : Nat) (e : Exc) {T : Nat} : ∀ (rest : List Handlers) (k current : Nat) (st : St σ),
    WF st → stk = cx.term.map (trC .terminate) → Chain st.nodes current rest → (∀ hs ∈ rest, ∃ rr, hs.ok rr) → current ≤ k →
    (sresume P ev cx x e rest st.m false).lost = false →
    (∃ t0, Post cx.term v false { st with top := t0 } (sresume P ev cx x e rest st.m false) (resumeLoop P ev' stk e k current st) ∧ (∀ st', resumeLoop P ev' stk e k current st ≠ .retFalse st') ∧
        Allowed false false (sresume P ev cx x e rest st.m false)) ∨
    ∃ st', resumeLoop P ev' stk e k current st = .retFalse st' ∧ Same { st with top := T } { st' with top := T } ∧ sresume P ev cx x e rest st.m false = sresume P ev cx x e [] st'.m false
  | [], k, current, st, w, hst, hc, _, hk, hl => by
    simp only [Chain] at hc; subst hc
    exact .inr ⟨st, by cases k <;> rfl, Same.refl _, rfl⟩
  | h :: rest, k, current, st, w, hst, hc, ho, hk, hl => by
    obtain ⟨hne, next, hn, hlt, hc⟩ := hc
    obtain ⟨current, rfl⟩ : ∃ c, current = c + 1 := ⟨current - 1, by omega⟩
    obtain ⟨k, rfl⟩ : ∃ c, k = c + 1 := ⟨k - 1, by omega⟩
    have hrest : ∀ hs ∈ rest, ∃ rr, hs.ok rr := fun g hg => ho g (List.mem_cons_of_mem _ hg)
    simp only [resumeLoop, hn, handler_pick]
    simp only [sresume] at hl ⊢
    rcases hp : pick P .resume e h st.m with ⟨_ | b, m⟩
    · simp only [hp, hn] at hl ⊢
      have := loop_sim hm hs (v := v) x e (T := T) rest k next { st with top := next, m := m } ⟨w.pos, w.nodes, w.excs, w.slots, w.null⟩ hst hc hrest (by omega) hl
      rcases this with ⟨t0, h1, h2, h3⟩ | ⟨st', h1, h2, h3⟩
      · refine .inl ⟨t0, ?_, h2, h3⟩
        refine Post.base ?_ h1
        exact ⟨rfl, rfl, rfl, rfl, rfl, Nat.le_refl _⟩
      · exact .inr ⟨st', h1, ⟨rfl, h2.cur, h2.nodes, h2.excs, h2.slots, h2.fresh⟩, h3⟩
    · simp only [hp] at hl ⊢
      obtain ⟨rr, hrr⟩ := ho h (List.mem_cons_self ..)
      have hb := pick_ok hrr hp
      have pre : Pre { cx with res := rest, exc := some e } stk (.obj e) false { st with top := next, m := m } :=
        ⟨⟨w.pos, w.nodes, w.excs, w.slots, w.null⟩, hst, hc, hrest, ⟨nofun, rfl⟩, nofun⟩
      have sim := @hs { cx with res := rest, exc := some e } b stk (.obj e) false true false { st with top := next, m := m } hb pre
      simp only at sim
      generalize ev { cx with res := rest, exc := some e } b m false = r at hl sim
      generalize ev' stk (.obj e) (tr b) { st with top := next, m := m } = t at sim
      cases r with
      | reresume m2 l2 =>
        simp only at hl
        have hl2 : l2 = false := by cases l2 with
          | false => rfl
          | true => rw [sresume_mono hm] at hl; cases hl
        subst hl2
        obtain ⟨a, -⟩ := sim rfl
        cases t <;> try (exact a.elim)
        rename_i st2
        obtain ⟨sm, rfl⟩ := a
        have w2 := WF.same pre.wf sm
        have hn2 : st2.nodes (current + 1) = some (next, trC .resume h) := by rw [sm.nodes]; exact hn
        simp only [hn2]
        have hc2 : Chain st2.nodes next rest := by rw [sm.nodes]; exact hc
        have := loop_sim hm hs (v := v) x e (T := T) rest k next st2 w2 hst hc2 hrest (by omega) hl
        rcases this with ⟨t0, h1, h2, h3⟩ | ⟨st', h1, h2, h3⟩
        · refine .inl ⟨t0, ?_, h2, h3⟩
          refine Post.base ?_ h1
          exact ⟨rfl, sm.cur, sm.nodes, sm.excs, sm.slots, sm.fresh⟩
        · exact .inr ⟨st', h1, ⟨rfl, h2.cur.trans sm.cur, h2.nodes.trans sm.nodes, h2.excs.trans sm.excs, h2.slots.trans sm.slots, Nat.le_trans sm.fresh h2.fresh⟩, h3⟩
      | ret m2 l2 =>
        obtain ⟨-, b⟩ := sim hl
        cases b
      | _ =>
        obtain ⟨a, -⟩ := sim hl
        cases t <;> try (exact a.elim)
        refine .inl ⟨next, ?_, nofun, trivial⟩
        exact (Post.var a).base (Same.store { st with top := next } m)

theorem resume_sim (hP : P.ok) {ev : Sem σ} {ev' : Ev σ} (hm : Mono ev) (hs : Sim ev ev') {cx : Cx} {stk : List TClauses} {v : Var} {rt : Bool} {st : St σ} (x : Nat) (e : Exc) (p : Pre cx stk v rt st)
    (hl : (sresume P ev cx x e cx.res st.m false).lost = false) :
    Post cx.term v rt st (sresume P ev cx x e cx.res st.m false) (throwResume P ev' stk x e st) ∧ Allowed false false (sresume P ev cx x e cx.res st.m false) := by
  unfold throwResume
  rcases loop_sim hm hs (v := v) x e (T := st.top) cx.res st.top st.top st p.wf p.stk p.chain p.hok (Nat.le_refl _) hl with ⟨t0, h1, h2, h3⟩ | ⟨st', h1, h2, h3⟩
  · refine ⟨?_, h3⟩
    have := Post.top h1
    have hne : ∀ st', (resumeLoop P ev' stk e st.top st.top st).cleanup (fun st' => some { st' with top := st.top }) ≠ .retFalse st' := by
      intro st'
      revert h2
      cases resumeLoop P ev' stk e st.top st.top st <;> intro h2 <;> simp only [TRes.cleanup, ne_eq, reduceCtorEq, not_false_eq_true]
      exact absurd rfl (h2 _)
    split
    · rename_i heq; exact absurd heq (hne _)
    · exact Post.var this
  · rw [h1]
    simp only [TRes.cleanup]
    rw [h3] at hl ⊢
    have hsame : Same st { st' with top := st.top } := h2
    have p2 : Pre cx stk v rt { st' with top := st.top } := p.same hsame
    unfold sresume at hl ⊢
    cases hr : P.rdef x with
    | none =>
      simp only [hr] at hl ⊢
      obtain ⟨a, b⟩ := throw_sim hP hs x e p2 hl
      exact ⟨a.base hsame, b⟩
    | some f =>
      simp only [hr] at hl ⊢
      rw [returned_lost] at hl
      have pre : Pre { cx with exc := some e } stk (.obj e) false { st' with top := st.top } := ⟨p2.wf, p2.stk, p2.chain, p2.hok, ⟨nofun, rfl⟩, nofun⟩
      obtain ⟨a, b⟩ := hs (hP f) pre hl
      obtain ⟨a', b'⟩ := Post.returned b a
      exact ⟨(Post.var a').base hsame, b'⟩

theorem rethrow_sim {cx : Cx} {stk : List TClauses} {v : Var} {st : St σ} (p : Pre cx stk v true st) : ∃ e, cx.exc = some e ∧
    Post cx.term v true st (match find P e cx.term st.m with | (some (d, h), m) => .exc d h e m false | (none, m) => .abort m false) (rethrow P stk v st) := by
  obtain ⟨a, rfl, hsl⟩ := p.rt rfl
  have hv := p.var
  cases he : cx.exc with
  | none => rw [he] at hv; cases hv
  | some e =>
    rw [he] at hv
    have hv := hv.2
    simp only [Var.get, hsl, Option.bind_some, Option.map_eq_some_iff] at hv
    obtain ⟨y, hy, rfl⟩ := hv
    have hne : st.cur ≠ 0 := by intro h; rw [h, p.wf.null] at hy; cases hy
    refine ⟨y.exc, rfl, ?_⟩
    have hsf := search_find (P := P) cx.term { st with slots := upd st.slots a (some 0) } y (p := st.cur) rfl hy
    simp only at hsf
    simp only [rethrow, beginUnwind, if_neg hne, p.stk]
    rcases hfm : find P y.exc cx.term st.m with ⟨_ | ⟨d, h⟩, m⟩
    · simp only [hfm] at hsf ⊢
      obtain ⟨j, hj⟩ := hsf
      simp only [hj, TRes.returned, TRes.cleanup]
      rfl
    · simp only [hfm] at hsf ⊢
      obtain ⟨i, hs', h1, h2, h3⟩ := hsf
      simp only [h3]
      exact ⟨rfl, rfl, i, hs', h1, h2, .inr ⟨rfl, rfl, rfl, rfl, rfl, ⟨y, hy, rfl, rfl⟩, ⟨a, rfl, rfl⟩, Nat.le_refl _⟩⟩

/-! ## `try` statements -/

theorem node_sim {term : List Handlers} {v : Var} {rt : Bool} {st : St σ} {cs : TClauses} {r : Res σ} {t : TRes σ} (w : WF st) (h : Post term v rt (setup cs st) r t) :
    Post term v rt st r (t.cleanup (dropNode st.fresh)) := by
  have key : ∀ st' : St σ, st'.nodes = (setup cs st).nodes → dropNode st.fresh st' = some { st' with top := st.top, nodes := st.nodes } := by
    intro st' hn
    simp only [dropNode, hn, setup, upd_same, Option.map_some, upd_upd, upd_id (w.nodes _ (Nat.le_refl _))]
  have lo : (setup cs st).fresh = st.fresh + 1 := rfl
  cases r <;> cases t <;> try (exact h.elim)
  case exc.unwind =>
    obtain ⟨h1, h2, i, hh, h3, h4, h5⟩ := h
    simp only [TRes.cleanup]
    rw [key _ (h5.elim (·.nodes) (·.2.nodes))]
    refine ⟨h1, h2, i, hh, h3, h4, h5.imp (fun g => ⟨rfl, g.cur, rfl, g.excs, g.slots, ?_, g.hi⟩) fun ⟨g1, g⟩ => ⟨g1, rfl, g.cur, rfl, g.was, g.excs, g.slots, ?_⟩⟩
    · have := g.lo; omega
    · have := g.fresh; simp only; omega
  case cancel.forced =>
    obtain ⟨h2, g⟩ := h
    simp only [TRes.cleanup]
    rw [key _ g.nodes]
    exact ⟨h2, rfl, g.cur, rfl, g.excs, g.slots, by have := g.lo; omega, g.hi⟩
  case abort.abort => exact h
  case timeout.timeout => exact h
  all_goals
    obtain ⟨g, h2⟩ := h
    simp only [TRes.cleanup]
    rw [key _ g.nodes]
    exact ⟨⟨rfl, g.cur, rfl, g.excs, g.slots, by have := g.fresh; simp only; omega⟩, h2⟩

/-- The handler has been executed: the variable goes out of scope. -/
theorem slot_sim {term : List Handlers} {v : Var} {rt : Bool} {st st1 : St σ} {p i : Nat} {e : Exc} {r : Res σ} {t : TRes σ} (w : WF st) (ht : Thrown st st1 p e i)
    (h : Post term (.slot st1.fresh) true { st1 with slots := upd st1.slots st1.fresh (some st1.cur), fresh := st1.fresh + 1 } r t) :
    Post term v rt st r (t.cleanup (dropSlot st1.fresh)) := by
  have w1 := w.thrown ht
  have hp0 : p ≠ 0 := by have := ht.lo; have := w.pos; omega
  have o : Owns st { st1 with slots := upd st1.slots st1.fresh (some st1.cur), fresh := st1.fresh + 1 } p :=
    ⟨ht.top, ht.cur, ht.nodes, ⟨⟨st.cur, e, i⟩, rfl, ht.excs⟩, ht.lo, Nat.lt_succ_of_lt ht.hi⟩
  have hslots : upd (upd st1.slots st1.fresh (some st1.cur)) st1.fresh none = st.slots := by
    rw [upd_upd, upd_id (w1.slots _ (Nat.le_refl _)), ht.slots]
  have hf : st.fresh ≤ st1.fresh + 1 := by have := ht.lo; have := ht.hi; omega
  have drop : ∀ {st3 st4 : St σ}, st3.slots = upd st1.slots st1.fresh (some st1.cur) → delete p st3 = some st4 → dropSlot st1.fresh st3 = some { st4 with slots := upd st4.slots st1.fresh none } := by
    intro st3 st4 h1 h2
    simp [dropSlot, h1, ht.cur, hp0, h2]
  cases r <;> cases t <;> try (exact h.elim)
  case exc.unwind =>
    obtain ⟨h1, h2, i2, hh, h3, h4, h5⟩ := h
    rcases h5 with g | ⟨-, g⟩
    · obtain ⟨st4, a0, a1, a2, a3, a4, a5, a6, a7⟩ := o.thrown w g
      simp only [TRes.cleanup, drop g.slots a0]
      exact ⟨h1, a7.trans h2, i2, hh, h3, h4, .inl ⟨a1, a2, a3, a4, by rw [a5]; exact hslots, Nat.le_trans hf g.lo, by rw [a6]; exact g.hi⟩⟩
    · obtain ⟨x, b1, b2, b3⟩ := g.excs
      obtain ⟨a, c1, c2⟩ := g.slots
      cases c1
      have hq := g.was
      simp only [ht.cur] at hq
      subst hq
      have hx : x = ⟨st.cur, e, i⟩ := by simp only [ht.excs, upd_same, Option.some.injEq] at b1; exact b1.symm
      subst hx
      simp only at b2; subst b2
      simp only [TRes.cleanup, dropSlot, c2, upd_same, if_true, Option.map_some]
      refine ⟨h1, h2, i2, hh, h3, h4, .inl ⟨g.top.trans ht.top, g.cur, g.nodes.trans ht.nodes, ?_, ?_, ht.lo, ?_⟩⟩
      · rw [b3]; simp only; rw [ht.excs, upd_upd]
      · simp only; rw [upd_upd]; exact hslots
      · have h1 := g.fresh; have h2 := ht.hi; simp only at h1 ⊢; omega
  case cancel.forced =>
    obtain ⟨h2, g⟩ := h
    obtain ⟨st4, a0, a1, a2, a3, a4, a5, a6, a7⟩ := o.thrown w g
    simp only [TRes.cleanup, drop g.slots a0]
    exact ⟨a7.trans h2, a1, a2, a3, a4, by simp only; rw [a5]; exact hslots, Nat.le_trans hf g.lo, by rw [a6]; exact g.hi⟩
  case abort.abort => exact h
  case timeout.timeout => exact h
  all_goals
    obtain ⟨g, h2⟩ := h
    obtain ⟨st4, a0, a1, a2, a3, a4, a5, a6, a7⟩ := o.same w g
    simp only [TRes.cleanup, drop g.slots a0]
    exact ⟨⟨a1, a2, a3, a4, by simp only; rw [a5]; exact hslots, by rw [a6]; exact Nat.le_trans hf g.fresh⟩, a7.trans h2⟩

/-- A `finally` clause. -/
theorem hook_sim {ev : Sem σ} {ev' : Ev σ} (hs : Sim ev ev') {cx : Cx} {stk : List TClauses} {v : Var} {rt : Bool} {st : St σ} {r : Res σ} {t : TRes σ} {s : Stmt} {rs rr : Bool} (hm : Mono ev) (p : Pre cx stk v rt st)
    (ho : s.ok false false false) (ha : Allowed rs rr r) (h : Post cx.term v false st r t) (hl : (r.finally (ev cx s)).lost = false) :
    Post cx.term v rt st (r.finally (ev cx s)) (t.after (ev' stk v (tr s))) ∧ Allowed rs rr (r.finally (ev cx s)) := by
  have simd : ∀ {st' : St σ} {l : Bool}, Same st st' → (ev cx s st'.m l).lost = false → Post cx.term v false st (ev cx s st'.m l) (ev' stk v (tr s) st') ∧ Allowed false false (ev cx s st'.m l) := by
    intro st' l g hl
    have := hm.false hl; subst this
    obtain ⟨a, b⟩ := hs ho ((p.norethrow).same g) hl
    exact ⟨a.base g, b⟩
  have simt : ∀ {st' : St σ} {l : Bool} {q : Nat} {e : Exc} {i : Nat}, Thrown st st' q e i → (ev cx s st'.m l).lost = false →
      Post cx.term v false st' (ev cx s st'.m l) (ev' stk v (tr s) st') ∧ Allowed false false (ev cx s st'.m l) := by
    intro st' l q e i g hl
    have := hm.false hl; subst this
    have pre : Pre cx stk v false st' := ⟨p.wf.thrown g, p.stk, by rw [g.nodes, g.top]; exact p.chain, p.hok, by
      have hv := p.var
      cases he : cx.exc with
      | none => rw [he] at hv; exact hv
      | some e => rw [he] at hv; exact ⟨hv.1, Var.get_upd g.excs g.slots (p.wf.excs _ g.lo) hv.2⟩, nofun⟩
    exact hs ho pre hl
  cases r <;> cases t <;> try (exact h.elim)
  case done.done m l st' =>
    obtain ⟨g, rfl⟩ := h
    simp only [Res.finally] at hl ⊢
    obtain ⟨a, b⟩ := simd g hl
    simp only [TRes.after]
    revert a b
    cases ev cx s st'.m l <;> cases ev' stk v (tr s) st' <;> intro a b <;> try (exact a.elim)
    case ret.ret => cases b
    case reresume.retFalse => cases b
    all_goals exact ⟨Post.var a, trivial⟩
  case ret.ret m l st' =>
    obtain ⟨g, rfl⟩ := h
    simp only [Res.finally] at hl ⊢
    have hl' : (ev cx s st'.m l).lost = false := by revert hl; cases ev cx s st'.m l <;> simp [Res.lost]
    obtain ⟨a, b⟩ := simd g hl'
    simp only [TRes.after]
    revert a b
    cases ev cx s st'.m l <;> cases ev' stk v (tr s) st' <;> intro a b <;> try (exact a.elim)
    case ret.ret => cases b
    case reresume.retFalse => cases b
    case done.done => exact ⟨a, ha⟩
    all_goals exact ⟨Post.var a, trivial⟩
  case reresume.retFalse m l st' =>
    obtain ⟨g, rfl⟩ := h
    simp only [Res.finally] at hl ⊢
    have hl' : (ev cx s st'.m l).lost = false := by revert hl; cases ev cx s st'.m l <;> simp [Res.lost]
    obtain ⟨a, b⟩ := simd g hl'
    simp only [TRes.after]
    revert a b
    cases ev cx s st'.m l <;> cases ev' stk v (tr s) st' <;> intro a b <;> try (exact a.elim)
    case ret.ret => cases b
    case reresume.retFalse => cases b
    case done.done => exact ⟨a, ha⟩
    all_goals exact ⟨Post.var a, trivial⟩
  case exc.unwind d h' e m l d' q st' =>
    obtain ⟨h1, rfl, i, hh, h3, h4, h5⟩ := h
    have g := h5.resolve_right nofun
    simp only [Res.finally] at hl ⊢
    have hl' : (ev cx s st'.m l).lost = false := by revert hl; cases ev cx s st'.m l <;> simp [Res.lost, Res.lose]
    obtain ⟨a, b⟩ := simt g hl'
    simp only [TRes.after]
    revert hl a b
    cases ev cx s st'.m l <;> cases ev' stk v (tr s) st' <;> intro hl a b <;> try (exact a.elim)
    case done.done =>
      obtain ⟨k, rfl⟩ := a
      exact ⟨⟨h1, rfl, i, hh, h3, h4, .inl ⟨k.top.trans g.top, k.cur.trans g.cur, k.nodes.trans g.nodes, k.excs.trans g.excs, k.slots.trans g.slots, g.lo, Nat.lt_of_lt_of_le g.hi k.fresh⟩⟩, trivial⟩
    case abort.abort => exact ⟨a, trivial⟩
    case timeout.timeout => exact ⟨a, trivial⟩
    all_goals simp [Res.lose, Res.lost] at hl
  case cancel.forced e m l q st' =>
    obtain ⟨rfl, g⟩ := h
    simp only [Res.finally] at hl ⊢
    have hl' : (ev cx s st'.m l).lost = false := by revert hl; cases ev cx s st'.m l <;> simp [Res.lost, Res.lose]
    obtain ⟨a, b⟩ := simt g hl'
    simp only [TRes.after]
    revert hl a b
    cases ev cx s st'.m l <;> cases ev' stk v (tr s) st' <;> intro hl a b <;> try (exact a.elim)
    case done.done =>
      obtain ⟨k, rfl⟩ := a
      exact ⟨⟨rfl, k.top.trans g.top, k.cur.trans g.cur, k.nodes.trans g.nodes, k.excs.trans g.excs, k.slots.trans g.slots, g.lo, Nat.lt_of_lt_of_le g.hi k.fresh⟩, trivial⟩
    case abort.abort => exact ⟨a, trivial⟩
    case timeout.timeout => exact ⟨a, trivial⟩
    all_goals simp [Res.lose, Res.lost] at hl
  case abort.abort => exact ⟨h, trivial⟩
  case timeout.timeout => exact ⟨h, trivial⟩

theorem At.cons {hs h : Handlers} {term : List Handlers} {d : Nat} (a : At (hs :: term) d h) : d = term.length ∧ h = hs ∨ d ≠ term.length ∧ At term d h := by
  obtain ⟨pre, rest, e, rfl⟩ := a
  cases pre with
  | nil => simp only [List.nil_append, List.cons.injEq] at e; exact .inl ⟨by rw [e.2], e.1.symm⟩
  | cons a pre =>
    simp only [List.cons_append, List.cons.injEq] at e
    refine .inr ⟨?_, ⟨pre, rest, e.2, rfl⟩⟩
    rw [e.2]; simp only [List.length_append, List.length_cons]; omega

/-- What the `catch` clauses of a `try` statement do with the end of its block. -/
def caught (ev : Sem σ) (cx : Cx) : Res σ → Res σ
  | .exc d b e m l => if d = cx.term.length then ev { cx with exc := some e } b m l else .exc d b e m l
  | r => r

/-- The `catch` clauses. -/
theorem caller_sim {ev : Sem σ} {ev' : Ev σ} (hm : Mono ev) (hs : Sim ev ev') {cx : Cx} {stk : List TClauses} {v : Var} {rt rr : Bool} {st : St σ} {r : Res σ} {t : TRes σ} {h : Handlers} (p : Pre cx stk v rt st)
    (ho : h.ok rr) (ha : Allowed false false r) (hp : Post (h :: cx.term) v false st r t)
    (hl : (caught ev cx r).lost = false) :
    Post cx.term v false st (caught ev cx r) (match t.returned with
      | .unwind d p st => if d = stk.length then catching ev' stk (trC .terminate h) st else .unwind d p st
      | r => r) ∧ Allowed false rr (caught ev cx r) := by
  cases r <;> cases t <;> try (exact hp.elim)
  case ret.ret => cases ha
  case reresume.retFalse => cases ha
  case done.done => exact ⟨hp, trivial⟩
  case cancel.forced => exact ⟨hp, trivial⟩
  case abort.abort => exact ⟨hp, trivial⟩
  case timeout.timeout => exact ⟨hp, trivial⟩
  case exc.unwind d b e m l d' q st1 =>
    obtain ⟨rfl, rfl, i, hh, h3, h4, h5⟩ := hp
    have g := h5.resolve_right nofun
    have hlen : stk.length = cx.term.length := by rw [p.stk]; simp
    simp only [TRes.returned, hlen, caught] at hl ⊢
    rcases h3.cons with ⟨e1, rfl⟩ | ⟨e1, h3⟩
    · rw [if_pos e1] at hl ⊢
      rw [if_pos e1]
      have := hm.false hl; subst this
      have hc : st1.excs st1.cur = some ⟨st.cur, e, i + 1⟩ := by rw [g.cur, g.excs]; simp
      have w1 := p.wf.thrown g
      have pre : Pre { cx with exc := some e } stk (.slot st1.fresh) true { st1 with slots := upd st1.slots st1.fresh (some st1.cur), fresh := st1.fresh + 1 } :=
        ⟨⟨Nat.succ_le_succ (Nat.zero_le _), fun a h => w1.nodes a (by simp only at h; omega), fun a h => w1.excs a (by simp only at h; omega),
            fun a h => by simp only at h; simp only; rw [upd_ne _ _ (by omega)]; exact w1.slots a (by omega), w1.null⟩,
          p.stk, by simp only; rw [g.nodes, g.top]; exact p.chain, p.hok, ⟨nofun, by simp [Var.get, hc]⟩, fun _ => ⟨_, rfl, by simp⟩⟩
      obtain ⟨a, b⟩ := hs (nth_ok ho h4) pre hl
      simp only [catching, hc, body_nth, h4, Option.map_some]
      exact ⟨slot_sim p.wf g a, b⟩
    · rw [if_neg e1, if_neg e1]
      exact ⟨⟨rfl, rfl, i, hh, h3, h4, .inl g⟩, trivial⟩

theorem Allowed.weaken {rs rr rs' rr' : Bool} {r : Res σ} (h : Allowed rs rr r) (h1 : rs = true → rs' = true) (h2 : rr = true → rr' = true) : Allowed rs' rr' r := by
  cases r
  case reresume => exact h1 h
  case ret => exact h2 h
  all_goals trivial

/-- The `try` statement. -/
theorem try_sim {ev : Sem σ} {ev' : Ev σ} (hm : Mono ev) (hs : Sim ev ev') {cx : Cx} {stk : List TClauses} {v : Var} {rt rs rr : Bool} {st : St σ} {body : Stmt} {h : Handlers} {fin : Opt}
    (ho : (Stmt.try body h fin).ok rt rs rr) (p : Pre cx stk v rt st) (hl : (sstep P ev cx (.try body h fin) st.m false).lost = false) :
    Post cx.term v rt st (sstep P ev cx (.try body h fin) st.m false) (evT P ev' stk v (tr (.try body h fin)) st) ∧ Allowed rs rr (sstep P ev cx (.try body h fin) st.m false) := by
  simp only [Stmt.ok, Bool.and_eq_true] at ho
  obtain ⟨⟨ho1, ho2⟩, ho3⟩ := ho
  -- the block, with the node
  have node : ∀ {term : List Handlers} {stk : List TClauses} {rt0 rs0 rr0 : Bool}, body.ok rt0 rs0 rr0 → Pre { cx with term := term } stk v rt0 st →
      (ev { cx with term := term, res := if h.has .resume then h :: cx.res else cx.res } body st.m false).lost = false →
      Post term v rt0 st (ev { cx with term := term, res := if h.has .resume then h :: cx.res else cx.res } body st.m false)
        (evT P ev' stk v (if h.has .resume then .node (trC .resume h) (.block (tr body)) else .block (tr body)) st) ∧
      Allowed rs0 rr0 (ev { cx with term := term, res := if h.has .resume then h :: cx.res else cx.res } body st.m false) := by
    intro term stk rt0 rs0 rr0 hb q hl
    by_cases hr : h.has .resume
    · simp only [hr, if_true] at hl ⊢
      have w := q.wf
      have pre : Pre { cx with term := term, res := h :: cx.res } stk v rt0 (setup (trC .resume h) st) := by
        refine ⟨⟨Nat.succ_le_succ (Nat.zero_le _), fun a ha => ?_, fun a ha => w.excs a ?_, fun a ha => w.slots a ?_, w.null⟩, q.stk, ⟨?_, st.top, ?_, ?_, ?_⟩, ?_, ?_, q.rt⟩
        · simp only [setup] at ha ⊢; rw [upd_ne _ _ (by omega)]; exact w.nodes a (by omega)
        · simp only [setup] at ha; omega
        · simp only [setup] at ha; omega
        · have := w.pos; simp only [setup]; omega
        · simp [setup]
        · have : ∀ (l : List Handlers) (t : Nat), Chain st.nodes t l → t < st.fresh := by
            intro l t hc
            cases l with
            | nil => simp only [Chain] at hc; have := w.pos; omega
            | cons a l => obtain ⟨-, n, hn, -⟩ := hc; refine Nat.lt_of_not_le fun hle => ?_; rw [w.nodes t hle] at hn; cases hn
          exact this _ _ q.chain
        · have : ∀ (l : List Handlers) (t : Nat), Chain st.nodes t l → Chain (setup (trC .resume h) st).nodes t l := by
            intro l
            induction l with
            | nil => exact fun t hc => hc
            | cons a l ih =>
              rintro t ⟨h1, n, hn, h2, hc⟩
              refine ⟨h1, n, ?_, h2, ih _ hc⟩
              simp only [setup]
              rw [upd_ne _ _ (by rintro rfl; rw [w.nodes _ (Nat.le_refl _)] at hn; cases hn)]; exact hn
          exact this _ _ q.chain
        · intro g hg
          rcases List.mem_cons.1 hg with rfl | hg
          · exact ⟨rr, ho2⟩
          · exact q.hok g hg
        · have hv := q.var
          rw [Var.get_same (st := st) (st' := setup (trC .resume h) st) rfl rfl]; exact hv
      obtain ⟨a, b⟩ := hs hb pre hl
      simp only [evT]
      exact ⟨node_sim w a, b⟩
    · simp only [hr, if_false] at hl ⊢
      simp only [Bool.false_eq_true, if_false] at hl ⊢
      simp only [evT]
      exact hs hb q hl
  -- the clauses
  have clauses : ∀ {rt0 : Bool}, body.ok rt0 (rs && !h.has .terminate) (rr && !h.has .terminate) → (rt0 = true → rt = true) → (h.has .terminate = true → rt0 = false) →
      (match ev { cx with term := if h.has .terminate then h :: cx.term else cx.term, res := if h.has .resume then h :: cx.res else cx.res } body st.m false with
        | .exc d b e m l => if h.has .terminate ∧ d = cx.term.length then ev { cx with exc := some e } b m l else .exc d b e m l
        | r => r).lost = false →
      Post cx.term v rt0 st (match ev { cx with term := if h.has .terminate then h :: cx.term else cx.term, res := if h.has .resume then h :: cx.res else cx.res } body st.m false with
        | .exc d b e m l => if h.has .terminate ∧ d = cx.term.length then ev { cx with exc := some e } b m l else .exc d b e m l
        | r => r)
        (evT P ev' stk v (if h.has .terminate then .caller (trC .terminate h) (if h.has .resume then .node (trC .resume h) (.block (tr body)) else .block (tr body))
          else if h.has .resume then .node (trC .resume h) (.block (tr body)) else .block (tr body)) st) ∧
      Allowed rs rr (match ev { cx with term := if h.has .terminate then h :: cx.term else cx.term, res := if h.has .resume then h :: cx.res else cx.res } body st.m false with
        | .exc d b e m l => if h.has .terminate ∧ d = cx.term.length then ev { cx with exc := some e } b m l else .exc d b e m l
        | r => r) := by
    intro rt0 hb hrt hrt' hl
    by_cases ht : h.has .terminate
    · have := hrt' ht; subst this
      simp only [ht, if_true, true_and, Bool.not_true, Bool.and_false] at hb hl ⊢
      have pre : Pre { cx with term := h :: cx.term } (trC .terminate h :: stk) v false st := ⟨p.wf, by simp [p.stk], p.chain, p.hok, p.var, nofun⟩
      have hl0 : (ev { cx with term := h :: cx.term, res := if h.has .resume then h :: cx.res else cx.res } body st.m false).lost = false := by
        have e : ∀ r : Res σ, (caught ev cx r).lost = false → r.lost = false := by
          intro r hr
          cases r <;> try exact hr
          simp only [caught] at hr
          split at hr
          · exact hm.false hr
          · exact hr
        exact e _ hl
      obtain ⟨a, b⟩ := node hb pre hl0
      have := caller_sim hm hs p ho2 b a hl
      simp only [evT]
      exact ⟨this.1, this.2.weaken nofun id⟩
    · simp only [Bool.not_eq_true] at ht
      simp only [ht, Bool.false_eq_true, if_false, false_and, Bool.not_false, Bool.and_true] at hb hl ⊢
      have e : ∀ r : Res σ, (match r with | .exc d b e m l => .exc d b e m l | r => r) = r := by intro r; cases r <;> rfl
      rw [e] at hl ⊢
      have pre : Pre { cx with term := cx.term } stk v rt0 st := { p with rt := fun g => p.rt (hrt g) }
      exact node hb pre hl
  cases fin with
  | none =>
    simp only [Bool.and_true] at ho1
    simp only [sstep, tr] at hl ⊢
    obtain ⟨a, b⟩ := clauses (rt0 := rt && !h.has .terminate) ho1 (by simp +contextual) (by simp +contextual) hl
    refine ⟨?_, b⟩
    cases hrt : rt && !h.has .terminate with
    | true =>
      simp only [Bool.and_eq_true] at hrt
      rw [hrt.1] at a ⊢
      simp only [hrt.2, Bool.and_true] at a
      exact a
    | false => rw [hrt] at a; exact Post.var a
  | some s =>
    simp only [Bool.and_false] at ho1
    simp only [sstep, tr] at hl ⊢
    have hl0 : ∀ r : Res σ, (r.finally (ev cx s)).lost = false → r.lost = false := by
      intro r hr
      cases h : r.lost with
      | false => rfl
      | true => rw [finally_mono (fun m => hm _ _ _) r h] at hr; cases hr
    obtain ⟨a, b⟩ := clauses (rt0 := false) ho1 nofun (fun _ => rfl) (hl0 _ hl)
    simp only [evT]
    exact hook_sim hs hm p ho3 b a hl

/-! ## The simulation -/

theorem step_sim (hP : P.ok) {ev : Sem σ} {ev' : Ev σ} (hm : Mono ev) (hs : Sim ev ev') : Sim (sstep P ev) (evT P ev') := by
  intro cx s stk v rt rs rr st ho p hl
  cases s with
  | act a => exact ⟨⟨Same.store _ _, rfl⟩, trivial⟩
  | use a =>
    have hv := p.var
    simp only [sstep, tr, evT]
    cases he : cx.exc with
    | none =>
      rw [he] at hv; simp only at hv; subst hv
      exact ⟨⟨Same.refl _, rfl⟩, trivial⟩
    | some e =>
      rw [he] at hv
      obtain ⟨h1, h2⟩ := hv
      cases v with
      | none => exact absurd rfl h1
      | _ => simp only [h2]; exact ⟨⟨Same.store _ _, rfl⟩, trivial⟩
  | seq s t =>
    simp only [Stmt.ok, Bool.and_eq_true] at ho
    simp only [sstep, tr, evT] at hl ⊢
    have hl0 : (ev cx s st.m false).lost = false := by
      revert hl
      cases ev cx s st.m false <;> simp only [Res.lost] <;> try exact id
      intro hl; exact hm.false hl
    obtain ⟨a, b⟩ := hs ho.1 p hl0
    revert hl hl0 a b
    cases ev cx s st.m false <;> cases ev' stk v (tr s) st <;> intro hl hl0 a b <;> try (exact a.elim)
    case done.done m l st' =>
      obtain ⟨g, rfl⟩ := a
      simp only [Res.lost] at hl0; subst hl0
      obtain ⟨a2, b2⟩ := hs ho.2 (p.same g) hl
      exact ⟨a2.base g, b2⟩
    all_goals exact ⟨a, b⟩
  | ite c s t =>
    simp only [Stmt.ok, Bool.and_eq_true] at ho
    simp only [sstep, tr, evT] at hl ⊢
    rcases ht : P.test c st.m with ⟨_ | _, m⟩ <;> rw [ht] at hl
    · obtain ⟨a, b⟩ := hs ho.2 (p.same (Same.store st m)) hl
      exact ⟨a.base (Same.store st m), b⟩
    · obtain ⟨a, b⟩ := hs ho.1 (p.same (Same.store st m)) hl
      exact ⟨a.base (Same.store st m), b⟩
  | call f =>
    simp only [sstep, tr, evT] at hl ⊢
    rw [returned_lost] at hl
    have pre : Pre { cx with exc := none } stk .none false st := ⟨p.wf, p.stk, p.chain, p.hok, rfl, nofun⟩
    obtain ⟨a, b⟩ := hs (hP f) pre hl
    obtain ⟨a', b'⟩ := Post.returned b a
    exact ⟨Post.var a', b'.weaken nofun nofun⟩
  | ret => exact ⟨⟨Same.refl _, rfl⟩, ho⟩
  | throw x =>
    simp only [sstep, tr, evT] at hl ⊢
    obtain ⟨a, b⟩ := throw_sim hP hs x _ (p.same (Same.store st (P.exc x st.m).2)) hl
    exact ⟨a.base (Same.store st _), b.weaken nofun nofun⟩
  | throwResume x =>
    simp only [sstep, tr, evT] at hl ⊢
    obtain ⟨a, b⟩ := resume_sim hP hm hs x _ (p.same (Same.store st (P.exc x st.m).2)) hl
    exact ⟨a.base (Same.store st _), b.weaken nofun nofun⟩
  | rethrow =>
    simp only [Stmt.ok] at ho; subst ho
    obtain ⟨e, he, a⟩ := rethrow_sim (P := P) p
    simp only [sstep, tr, evT, he]
    refine ⟨a, ?_⟩
    rcases find P e cx.term st.m with ⟨_ | ⟨d, h⟩, m⟩ <;> trivial
  | reresume => exact ⟨⟨Same.refl _, rfl⟩, ho⟩
  | «try» body h fin => exact try_sim hm hs ho p hl

theorem run_sim (hP : P.ok) : ∀ n, Sim (run P n) (eval P n)
  | 0 => fun _ _ _ => ⟨trivial, trivial⟩
  | n + 1 => step_sim hP (run_mono n) (run_sim hP n)

end Verif.Except
