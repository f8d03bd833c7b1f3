import Verif.Spec.MultiExit
/-! Structure of the pass's output: entries, labels. -/

namespace Verif.MultiExit

/-- How an entry changes while statements inside it are visited. -/
structure Entry.Le (a b : Entry) : Prop where
  kind : b.kind = a.kind
  ls : b.ls = a.ls
  first : b.first = a.first
  second : b.second = a.second
  hasDef : b.hasDefault = a.hasDefault
  f : a.firstUsed → b.firstUsed
  s : a.secondUsed → b.secondUsed
  valid : a.kind = .switch → a.fallDefaultValid = false → b.fallDefaultValid = false ∧ b.secondUsed = a.secondUsed
  d : a.kind = .switch → b.secondUsed → a.secondUsed ∨ a.hasDefault

theorem Entry.Le.refl (a : Entry) : a.Le a := ⟨rfl, rfl, rfl, rfl, rfl, id, id, fun _ h => ⟨h, rfl⟩, fun _ h => .inl h⟩
theorem Entry.Le.trans {a b c : Entry} (h1 : a.Le b) (h2 : b.Le c) : a.Le c where
  kind := h2.kind.trans h1.kind
  ls := h2.ls.trans h1.ls
  first := h2.first.trans h1.first
  second := h2.second.trans h1.second
  hasDef := h2.hasDef.trans h1.hasDef
  f := h2.f ∘ h1.f
  s := h2.s ∘ h1.s
  valid hk hv := by
    have h3 := h1.valid hk hv
    have h4 := h2.valid (h1.kind.trans hk) h3.1
    exact ⟨h4.1, h4.2.trans h3.2⟩
  d hk hs := by
    rcases h2.d (h1.kind.trans hk) hs with h | h
    · exact h1.d hk h
    · exact .inr (by rw [← h1.hasDef]; exact h)

/-- How the entries change. -/
inductive Grow : List Entry → List Entry → Prop
  | nil : Grow [] []
  | cons {a b : Entry} {as bs : List Entry} : a.Le b → Grow as bs → Grow (a :: as) (b :: bs)

theorem Grow.refl : ∀ es, Grow es es
  | [] => .nil
  | e :: es => .cons (.refl e) (.refl es)
theorem Grow.trans : ∀ {a b c : List Entry}, Grow a b → Grow b c → Grow a c
  | _, _, _, .nil, .nil => .nil
  | _, _, _, .cons h1 g1, .cons h2 g2 => .cons (h1.trans h2) (g1.trans g2)
theorem Grow.inv {e : Entry} {es r : List Entry} (h : Grow (e :: es) r) : ∃ e' es', r = e' :: es' ∧ e.Le e' ∧ Grow es es' := by
  cases h with
  | cons h g => exact ⟨_, _, rfl, h, g⟩

theorem useEntry_grow {b : Br} {t : Option Label} : ∀ {es : List Entry} {l : Label} {es' : List Entry}, useEntry b t es = some (l, es') → Grow es es'
  | [], _, _, h => by simp [useEntry] at h
  | e :: es, l, es', h => by
    simp only [useEntry] at h
    split at h
    · split at h
      · rename_i hs ht
        simp only [Option.map_eq_some_iff, Prod.mk.injEq] at h
        obtain ⟨⟨l', e'⟩, h1, rfl, rfl⟩ := h
        refine .cons ?_ (.refl es)
        cases b <;> simp only [Entry.use, Option.some.injEq, Prod.mk.injEq, reduceCtorEq, ite_eq_left_iff] at h1
        · obtain ⟨-, rfl⟩ := h1; exact ⟨rfl, rfl, rfl, rfl, rfl, fun _ => rfl, id, fun _ h => ⟨h, rfl⟩, fun _ h => .inl h⟩
        · obtain ⟨-, rfl⟩ := h1
          have : e.kind = .loop := by simpa [Kind.isTarget] using ht
          exact ⟨rfl, rfl, rfl, rfl, rfl, id, fun _ => rfl, fun h => by simp [this] at h, fun h => by simp [this] at h⟩
        · obtain ⟨-, rfl⟩ := h1; exact ⟨rfl, rfl, rfl, rfl, rfl, fun _ => rfl, id, fun _ h => ⟨h, rfl⟩, fun _ h => .inl h⟩
        · split at h1
          · rename_i hv
            simp only [Option.some.injEq, Prod.mk.injEq] at h1
            obtain ⟨-, rfl⟩ := h1
            exact ⟨rfl, rfl, rfl, rfl, rfl, id, fun _ => rfl, fun _ h => by simp [h] at hv, fun _ _ => .inr hv.1⟩
          · simp at h1
      · simp at h
    · simp only [Option.map_eq_some_iff, Prod.mk.injEq] at h
      obtain ⟨⟨l', es''⟩, h1, rfl, rfl⟩ := h
      exact .cons (.refl e) (useEntry_grow h1)

/-! Labels -/

/-- Is it a pending label? -/
def pend (l : Label) (o : Option Label) : Nat := if o = some l then 1 else 0
/-- Is it a label made between these two calls? -/
def new (l : Label) (a b : Nat) : Nat := match l with | .user _ => 0 | .gen n => if a ≤ n ∧ n < b then 1 else 0

theorem pend_none (l : Label) : pend l none = 0 := by simp [pend]
theorem new_add (l : Label) {a b c : Nat} (h1 : a ≤ b) (h2 : b ≤ c) : new l a b + new l b c = new l a c := by
  cases l with
  | user n => rfl
  | gen n =>
    simp only [new]
    by_cases h3 : n < b
    · by_cases h4 : a ≤ n
      · rw [if_pos ⟨h4, h3⟩, if_neg (by omega), if_pos (by omega)]
      · rw [if_neg (by omega), if_neg (by omega), if_neg (by omega)]
    · rw [if_neg (by omega)]
      by_cases h4 : n < c
      · rw [if_pos (by omega), if_pos (by omega)]
      · rw [if_neg (by omega), if_neg (by omega)]
theorem new_one (l : Label) (a : Nat) : new l a (a + 1) = if l = .gen a then 1 else 0 := by
  cases l with
  | user n => simp [new]
  | gen n =>
    simp only [new, Label.gen.injEq]
    by_cases h : n = a
    · rw [if_pos (by omega), if_pos h]
    · rw [if_neg (by omega), if_neg h]
theorem pend_some (l : Label) (a : Nat) : pend l (some (.gen a)) = new l a (a + 1) := by
  rw [new_one, pend]; simp only [Option.some.injEq, eq_comm]

/-- Number of times a label occurs. -/
def cnt (l : Label) (ls : List Label) : Nat := ls.count l
@[simp] theorem cnt_nil (l : Label) : cnt l [] = 0 := rfl
@[simp] theorem cnt_append (l : Label) (a b : List Label) : cnt l (a ++ b) = cnt l a + cnt l b := by simp [cnt]
theorem cnt_one (l l' : Label) : cnt l [l'] = pend l (some l') := by
  simp only [cnt, pend, List.count_singleton, Option.some.injEq, beq_iff_eq]

mutual
/-- Every `switch` has at most one `default` clause. -/
def Stmt.ok : Stmt → Bool
  | .null _ | .act _ _ | .ret _ _ | .branch _ _ _ => true
  | .block _ kids => kids.ok
  | .ite _ _ t e => t.ok && e.ok
  | .loop _ _ _ _ body els => body.ok && els.ok
  | .switch _ _ cs => oneDefault cs && cs.ok
def Opt.ok : Opt → Bool
  | .none => true
  | .some s => s.ok
def Stmts.ok : Stmts → Bool
  | .nil => true
  | .cons s ss => s.ok && ss.ok
def Cases.ok : Cases → Bool
  | .nil => true
  | .cons _ ss cs => ss.ok && cs.ok
end

theorem Stmts.snoc_labels : ∀ (ss : Stmts) (t : Stmt), (ss.snoc t).labels = ss.labels ++ t.labels
  | .nil, t => by simp [Stmts.snoc, Stmts.labels]
  | .cons s ss, t => by simp [Stmts.snoc, Stmts.labels, Stmts.snoc_labels ss t]
theorem Stmts.snoc_ok : ∀ (ss : Stmts) (t : Stmt), (ss.snoc t).ok = (ss.ok && t.ok)
  | .nil, t => by simp [Stmts.snoc, Stmts.ok]
  | .cons s ss, t => by simp [Stmts.snoc, Stmts.ok, Stmts.snoc_ok ss t, Bool.and_assoc]

/-- What a visit does to the pass's variables and the labels: `a` and `b` are the labels before and after. -/
structure Goes (st st' : St) (a b : List Label) : Prop where
  fresh : st.fresh ≤ st'.fresh
  grow : Grow st.encl st'.encl
  cnt : ∀ l, cnt l b + pend l st'.brk ≤ cnt l a + pend l st.brk + new l st.fresh st'.fresh

theorem Goes.refl (st : St) (a : List Label) : Goes st st a a := ⟨Nat.le_refl _, .refl _, fun l => by omega⟩
theorem Goes.trans {s0 s1 s2 : St} {a b c d : List Label} (h1 : Goes s0 s1 a b) (h2 : Goes s1 s2 c d) : Goes s0 s2 (a ++ c) (b ++ d) where
  fresh := Nat.le_trans h1.fresh h2.fresh
  grow := h1.grow.trans h2.grow
  cnt l := by
    have e1 := h1.cnt l
    have e2 := h2.cnt l
    have := new_add l h1.fresh h2.fresh
    simp only [cnt_append]; omega
theorem Goes.mid {s0 s1 s2 : St} {a b c : List Label} (h1 : Goes s0 s1 a b) (h2 : Goes s1 s2 b c) : Goes s0 s2 a c where
  fresh := Nat.le_trans h1.fresh h2.fresh
  grow := h1.grow.trans h2.grow
  cnt l := by
    have e1 := h1.cnt l
    have e2 := h2.cnt l
    have := new_add l h1.fresh h2.fresh
    omega

/-- A visit of a statement is good. -/
def Good (v : Stmt → M Stmt) : Prop := ∀ s st s' st', v s st = some (s', st') → s.ok → s'.ok ∧ Goes st st' s.labels s'.labels

theorem place_labels (o : Option Label) (ss : Stmts) (l : Label) : cnt l (place o ss).labels = pend l o + cnt l ss.labels := by
  cases o with
  | none => simp [place, pend]
  | some x => rw [place, Stmts.labels, cnt_append, Stmt.labels, cnt_one]
theorem place_ok (o : Option Label) (ss : Stmts) : (place o ss).ok = ss.ok := by cases o <;> simp [place, Stmts.ok, Stmt.ok]

theorem splitElse_some {s s0 e : Stmt} (h : splitElse s = some (s0, e)) :
    ∃ ls post c inc body, s = .loop ls post c inc body (.some e) ∧ s0 = .loop ls post c inc body .none := by
  unfold splitElse at h
  split at h
  · simp only [Option.some.injEq, Prod.mk.injEq] at h; obtain ⟨rfl, rfl⟩ := h; exact ⟨_, _, _, _, _, rfl, rfl⟩
  · simp at h

/-- Visiting a loop gives a loop. -/
def Loops (v : Stmt → M Stmt) : Prop := ∀ ls post c inc body els st s' st', v (.loop ls post c inc body els) st = some (s', st') →
  ∃ body' els', s' = .loop ls post c inc body' els' ∧ (els = .none → els' = .none)

theorem visitKid_good {v : Stmt → M Stmt} (hv : Good v) (hl : Loops v) {kid : Stmt} {st : St} {r : Stmt × Option Label} {st' : St}
    (h : visitKid v kid st = some (r, st')) (ok : kid.ok) :
    r.1.ok ∧ st.fresh ≤ st'.fresh ∧ Grow st.encl st'.encl ∧
    ∀ l, cnt l r.1.labels + pend l r.2 + pend l st'.brk ≤ cnt l kid.labels + pend l st.brk + new l st.fresh st'.fresh := by
  unfold visitKid at h
  split at h
  · simp only [Option.map_eq_some_iff, Prod.mk.injEq] at h
    obtain ⟨⟨s', st1⟩, h1, rfl, rfl⟩ := h
    have ⟨o, g⟩ := hv _ _ _ _ h1 ok
    exact ⟨o, g.fresh, g.grow, fun l => by have := g.cnt l; simp only [pend_none]; omega⟩
  · rename_i s0 e hs
    obtain ⟨ls, post, c, inc, body, rfl, rfl⟩ := splitElse_some hs
    simp only [Option.bind_eq_some_iff, Option.map_eq_some_iff, Prod.mk.injEq] at h
    obtain ⟨⟨s1, st1⟩, h1, ⟨s2, st2⟩, h2, ⟨s3, st3⟩, h3, rfl, rfl⟩ := h
    simp only [Stmt.ok, Opt.ok, Bool.and_eq_true] at ok
    have ⟨o1, g1⟩ := hv _ _ _ _ h1 (by simp [Stmt.ok, Opt.ok, ok.1])
    have ⟨o2, g2⟩ := hv _ _ _ _ h2 ok.2
    obtain ⟨body', els', rfl, he⟩ := hl _ _ _ _ _ _ _ _ _ h1
    obtain rfl := he rfl
    simp only [Stmt.ok, Opt.ok, Bool.and_true] at o1
    simp only [setElse] at h3
    have ⟨o3, g3⟩ := hv _ _ _ _ h3 (by simp [Stmt.ok, Opt.ok, o1, o2])
    refine ⟨o3, Nat.le_trans (Nat.le_trans g1.fresh g2.fresh) g3.fresh, (g1.grow.trans g2.grow).trans g3.grow, fun l => ?_⟩
    have e1 := g1.cnt l
    have e2 := g2.cnt l
    have e3 := g3.cnt l
    have n1 := new_add l g1.fresh g2.fresh
    have n2 := new_add l (Nat.le_trans g1.fresh g2.fresh) g3.fresh
    simp only [Stmt.labels, Opt.labels, cnt_append, cnt_nil, pend_none] at e1 e2 e3 ⊢
    omega

theorem fixBlock_good {v : Stmt → M Stmt} (hv : Good v) (hl : Loops v) {ic : Bool} : ∀ {ss : Stmts} {st : St} {ss' : Stmts} {st' : St},
    fixBlock v ic ss st = some (ss', st') → ss.ok → ss'.ok ∧ Goes st st' ss.labels ss'.labels
  | .nil, st, ss', st', h, _ => by
    simp only [fixBlock, Option.some.injEq, Prod.mk.injEq] at h
    obtain ⟨rfl, rfl⟩ := h
    exact ⟨rfl, .refl _ _⟩
  | .cons kid kids, st, ss', st', h, ok => by
    simp only [fixBlock, Option.bind_eq_some_iff, Option.map_eq_some_iff, Prod.mk.injEq] at h
    obtain ⟨⟨⟨k', P⟩, st1⟩, h1, ⟨ks', st2⟩, h2, rfl, rfl⟩ := h
    simp only [Stmts.ok, Bool.and_eq_true] at ok
    have ⟨o1, f1, g1, c1⟩ := visitKid_good hv hl h1 ok.1
    have ⟨o2, g2⟩ := fixBlock_good hv hl h2 ok.2
    have e1 : (seen ic kid st).fresh = st.fresh := by unfold seen; split <;> rfl
    have e2 : (seen ic kid st).encl = st.encl := by unfold seen; split <;> rfl
    have e3 : (seen ic kid st).brk = st.brk := by unfold seen; split <;> rfl
    rw [e1] at f1
    rw [e2] at g1
    refine ⟨by simp only [Stmts.ok, place_ok]; simp_all, ⟨Nat.le_trans f1 g2.fresh, g1.trans g2.grow, fun l => ?_⟩⟩
    have c1 := c1 l
    have c2 := g2.cnt l
    have := new_add l f1 g2.fresh
    simp only [Stmts.labels, cnt_append, place_labels, e1, e3] at c1 c2 ⊢
    omega

theorem visitOpt_good {v : Stmt → M Stmt} (hv : Good v) : ∀ {o : Opt} {st : St} {o' : Opt} {st' : St},
    visitOpt v o st = some (o', st') → o.ok → o'.ok ∧ Goes st st' o.labels o'.labels
  | .none, st, o', st', h, _ => by
    simp only [visitOpt, Option.some.injEq, Prod.mk.injEq] at h
    obtain ⟨rfl, rfl⟩ := h
    exact ⟨rfl, .refl _ _⟩
  | .some s, st, o', st', h, ok => by
    simp only [visitOpt, Option.map_eq_some_iff, Prod.mk.injEq] at h
    obtain ⟨⟨s', st1⟩, h1, rfl, rfl⟩ := h
    exact hv _ _ _ _ h1 ok

theorem compound_good {v : Stmt → M Stmt} (hv : Good v) (hl : Loops v) {ls : List Label} {ss : Stmts} {st : St} {s' : Stmt} {st' : St}
    (h : compound v ls ss st = some (s', st')) (ok : ss.ok) : s'.ok ∧ Goes st st' (ls ++ ss.labels) s'.labels := by
  unfold compound at h
  split at h
  · simp only [Option.map_eq_some_iff, Prod.mk.injEq] at h
    obtain ⟨⟨ss', st1⟩, h1, rfl, rfl⟩ := h
    have ⟨o, g⟩ := fixBlock_good hv hl h1 ok
    refine ⟨o, g.fresh, g.grow, fun l => ?_⟩
    have := g.cnt l
    simp only [Stmt.labels, cnt_append]; omega
  · simp only [Option.map_eq_some_iff, Prod.mk.injEq] at h
    obtain ⟨⟨ss', st1⟩, h1, rfl, rfl⟩ := h
    have ⟨o, g⟩ := fixBlock_good hv hl h1 ok
    obtain ⟨e', es', he, hle, hg⟩ := g.grow.inv
    refine ⟨o, by have := g.fresh; simp only at this ⊢; omega, by simpa only [he, List.tail_cons] using hg, fun l => ?_⟩
    have c := g.cnt l
    have f := g.fresh
    simp only at c f
    have := new_add l (a := st.fresh) (b := st.fresh + 1) (by omega) f
    simp only [Stmt.labels, cnt_append, pend_some]; omega

theorem visitIf_good {v : Stmt → M Stmt} (hv : Good v) {ls : List Label} {c : Nat} {t : Stmt} {e : Opt} {st : St} {s' : Stmt} {st' : St}
    (h : visitIf v ls c t e st = some (s', st')) (ok : t.ok) (ok' : e.ok) : s'.ok ∧ Goes st st' (ls ++ t.labels ++ e.labels) s'.labels := by
  unfold visitIf at h
  simp only [Option.bind_eq_some_iff, Option.map_eq_some_iff, Prod.mk.injEq] at h
  obtain ⟨⟨t', st1⟩, h1, ⟨e', st2⟩, h2, rfl, rfl⟩ := h
  have ⟨o1, g1⟩ := hv _ _ _ _ h1 ok
  have ⟨o2, g2⟩ := visitOpt_good hv h2 ok'
  have g := g1.trans g2
  refine ⟨by simp [Stmt.ok, o1, o2], ?_⟩
  split at g
  · rename_i hls
    simp only [hls, if_true]
    refine ⟨g.fresh, g.grow, fun l => ?_⟩
    have := g.cnt l
    simp only [Stmt.labels, cnt_append] at this ⊢; omega
  · rename_i hls
    simp only [hls, if_false]
    obtain ⟨e', es', he, hle, hg⟩ := g.grow.inv
    refine ⟨by have := g.fresh; simp only at this ⊢; omega, by simpa only [he, List.tail_cons] using hg, fun l => ?_⟩
    have c := g.cnt l
    have f := g.fresh
    simp only at c f
    have := new_add l (a := st.fresh) (b := st.fresh + 1) (by omega) f
    simp only [Stmt.labels, cnt_append, pend_some] at c ⊢; omega

theorem wrap_ok {u : Bool} {l : Label} {s : Stmt} (h : s.ok) : (wrap u l s).ok := by cases u <;> simp [wrap, Stmt.ok, Stmts.ok, h]
theorem wrap_labels {u : Bool} {l l' : Label} {s : Stmt} : cnt l' (wrap u l s).labels ≤ cnt l' s.labels + pend l' (some l) := by
  cases u
  · simp [wrap]
  · simp only [wrap, if_true, Stmt.labels, Stmts.labels, cnt_append, cnt_one, List.append_nil, cnt_nil]; omega

theorem visitLoop_good {v : Stmt → M Stmt} (hv : Good v) {ls : List Label} {post : Bool} {c : Nat} {inc : Option Nat} {body : Stmt} {els : Opt} {st : St} {s' : Stmt} {st' : St}
    (h : visitLoop v ls post c inc body els st = some (s', st')) (ok : body.ok) (ok' : els.ok) :
    s'.ok ∧ Goes st st' (ls ++ body.labels ++ els.labels) s'.labels := by
  unfold visitLoop at h
  simp only [Option.bind_eq_some_iff] at h
  obtain ⟨⟨b', st1⟩, h1, ⟨e', st2⟩, h2, h⟩ := h
  have ⟨o1, g1⟩ := hv _ _ _ _ h1 ok
  have ⟨o2, g2⟩ := visitOpt_good hv h2 ok'
  have g := g1.trans g2
  obtain ⟨en, es, he, hle, hg⟩ := g.grow.inv
  simp only [he, Option.some.injEq, Prod.mk.injEq] at h
  obtain ⟨rfl, rfl⟩ := h
  refine ⟨by simp [Stmt.ok, wrap_ok o1, o2], ⟨by have := g.fresh; simp only at this ⊢; omega, hg, fun l => ?_⟩⟩
  have c := g.cnt l
  have f := g.fresh
  simp only at c f
  have w := wrap_labels (u := en.secondUsed) (l := .gen (st.fresh + 1)) (l' := l) (s := b')
  have n1 := new_add l (a := st.fresh) (b := st.fresh + 1) (c := st.fresh + 2) (by omega) (by omega)
  have n2 := new_add l (a := st.fresh) (b := st.fresh + 2) (by omega) f
  rw [pend_some] at w
  simp only [Nat.add_assoc, Nat.reduceAdd] at w n1 n2
  have : pend l (if en.firstUsed = true then some (.gen st.fresh) else st2.brk) ≤ new l st.fresh (st.fresh + 1) + pend l st2.brk := by
    split
    · rw [pend_some]; omega
    · omega
  simp only [Stmt.labels, cnt_append] at c ⊢
  omega

theorem seenDefault_spec {d : Bool} {st : St} {e : Entry} {es : List Entry} (hes : st.encl = e :: es) :
    ∃ e0 : Entry, (seenDefault d st).encl = e0 :: es ∧ e.Le e0 ∧ (d → e0.fallDefaultValid = false) ∧ (seenDefault d st).fresh = st.fresh ∧ (seenDefault d st).brk = st.brk := by
  unfold seenDefault
  split
  · refine ⟨{ e with fallDefaultValid := false }, by simp only [hes], ⟨rfl, rfl, rfl, rfl, rfl, id, id, fun _ _ => ⟨rfl, rfl⟩, fun _ h => .inl h⟩, fun _ => rfl, rfl, rfl⟩
  · exact ⟨e, hes, .refl e, fun h => by contradiction, rfl, rfl⟩

theorem caseBlock_good {v : Stmt → M Stmt} (hv : Good v) (hl : Loops v) : ∀ {ss : Stmts} {st : St} {ss' : Stmts} {st' : St},
    caseBlock v ss st = some (ss', st') → ss.ok → ss'.ok ∧ Goes st st' ss.labels ss'.labels
  | .nil, st, ss', st', h, _ => by
    simp only [caseBlock, Option.some.injEq, Prod.mk.injEq] at h
    obtain ⟨rfl, rfl⟩ := h
    exact ⟨rfl, Nat.le_succ _, .refl _, fun l => by show _ + pend l st.brk ≤ _; omega⟩
  | .cons (.block ls kids) rest, st, ss', st', h, ok => by
    simp only [caseBlock, Option.bind_eq_some_iff] at h
    obtain ⟨⟨ks, st2⟩, h1, h2⟩ := h
    simp only [Stmts.ok, Stmt.ok, Bool.and_eq_true] at ok
    have ⟨o, g⟩ := fixBlock_good hv hl h1 ok.1
    obtain ⟨en, es2, he, hle, hg⟩ := g.grow.inv
    simp only [he, Option.some.injEq, Prod.mk.injEq] at h2
    obtain ⟨rfl, rfl⟩ := h2
    have f := g.fresh
    simp only at f
    refine ⟨?_, ⟨by simp only; omega, hg, fun l => ?_⟩⟩
    · split
      · simp [Stmts.snoc_ok, Stmts.ok, Stmt.ok, o, ok.2]
      · simp [Stmts.ok, Stmt.ok, o, ok.2]
    · have c := g.cnt l
      have n := new_add l (a := st.fresh) (b := st.fresh + 1) (by omega) f
      have p := pend_some l st.fresh
      split
      · simp only [Stmts.snoc_labels, Stmts.labels, Stmt.labels, cnt_append, cnt_one] at c ⊢
        omega
      · simp only [Stmts.labels, Stmt.labels, cnt_append] at c ⊢
        omega
  | .cons (.null _) _, _, _, _, h, _ | .cons (.act _ _) _, _, _, _, h, _ | .cons (.ret _ _) _, _, _, _, h, _ | .cons (.branch _ _ _) _, _, _, _, h, _
  | .cons (.ite _ _ _ _) _, _, _, _, h, _ | .cons (.loop _ _ _ _ _ _) _, _, _, _, h, _ | .cons (.switch _ _ _) _, _, _, _, h, _ => by simp [caseBlock] at h

/-- A clause: with the label of its `default`. -/
theorem caseClause_good {v : Stmt → M Stmt} (hv : Good v) (hl : Loops v) {d : Bool} {ss : Stmts} {st : St} {e : Entry} {es : List Entry} (hes : st.encl = e :: es)
    {ss' : Stmts} {st' : St} (h : caseClause v d ss st = some (ss', st')) (ok : ss.ok) :
    ss'.ok ∧ st.fresh ≤ st'.fresh ∧ Grow st.encl st'.encl ∧
    ∀ l, cnt l ss'.labels + pend l st'.brk ≤ cnt l ss.labels + pend l st.brk + new l st.fresh st'.fresh + if d then pend l (some e.second) else 0 := by
  unfold caseClause at h
  simp only [Option.bind_eq_some_iff] at h
  obtain ⟨⟨ss1, st1⟩, h1, h⟩ := h
  obtain ⟨e0, he0, hle0, -, f0, b0⟩ := seenDefault_spec (d := d) hes
  obtain ⟨ok1, g⟩ := caseBlock_good hv hl h1 ok
  have gg := g.grow
  rw [he0] at gg
  obtain ⟨e1, es1, he1, hle1, hg1⟩ := gg.inv
  simp only [he1, Option.some.injEq, Prod.mk.injEq] at h
  obtain ⟨rfl, rfl⟩ := h
  refine ⟨by split <;> simp [Stmts.ok, Stmt.ok, ok1], by rw [← f0]; exact g.fresh, ?_, fun l => ?_⟩
  · rw [hes, he1]; exact .cons (hle0.trans hle1) hg1
  · have c := g.cnt l
    rw [b0, f0] at c
    split
    · rename_i hd
      have : e1.second = e.second := (hle0.trans hle1).second
      simp only [Stmts.labels, Stmt.labels, cnt_append, cnt_one, hd.1, if_true, this]; omega
    · omega

/-- Number of `default` clauses. -/
def ndef : Cases → Nat
  | .nil => 0
  | .cons v _ cs => (if v.isNone then 1 else 0) + ndef cs

theorem ndef_has : ∀ {cs : Cases}, hasDefault cs = false → ndef cs = 0
  | .nil, _ => rfl
  | .cons v ss cs, h => by simp only [hasDefault, Bool.or_eq_false_iff] at h; simp [ndef, h.1, ndef_has h.2]
theorem ndef_one : ∀ {cs : Cases}, oneDefault cs → ndef cs ≤ 1
  | .nil, _ => by simp [ndef]
  | .cons v ss cs, h => by
    simp only [oneDefault, Bool.and_eq_true, Bool.or_eq_true, Bool.not_eq_true'] at h
    cases v with
    | none => simp [ndef, ndef_has (by simpa using h.1)]
    | some n => simp [ndef, ndef_one h.2]

/-- The values of the clauses. -/
def vals : Cases → List (Option Nat)
  | .nil => []
  | .cons v _ cs => v :: vals cs
theorem hasDefault_vals : ∀ {a b : Cases}, vals a = vals b → hasDefault a = hasDefault b
  | .nil, .nil, _ => rfl
  | .nil, .cons _ _ _, h => by simp [vals] at h
  | .cons _ _ _, .nil, h => by simp [vals] at h
  | .cons v ss cs, .cons v' ss' cs', h => by
    simp only [vals, List.cons.injEq] at h
    simp only [hasDefault, h.1, hasDefault_vals h.2]
theorem oneDefault_vals : ∀ {a b : Cases}, vals a = vals b → oneDefault a = oneDefault b
  | .nil, .nil, _ => rfl
  | .nil, .cons _ _ _, h => by simp [vals] at h
  | .cons _ _ _, .nil, h => by simp [vals] at h
  | .cons v ss cs, .cons v' ss' cs', h => by
    simp only [vals, List.cons.injEq] at h
    simp only [oneDefault, h.1, hasDefault_vals h.2, oneDefault_vals h.2]

theorem visitCases_good {v : Stmt → M Stmt} (hv : Good v) (hl : Loops v) : ∀ {cs : Cases} {st : St} {e : Entry} {es : List Entry} (_ : st.encl = e :: es)
    {cs' : Cases} {st' : St} (_ : visitCases v cs st = some (cs', st')) (_ : cs.ok),
    cs'.ok ∧ vals cs' = vals cs ∧ st.fresh ≤ st'.fresh ∧ Grow st.encl st'.encl ∧
    ∀ l, cnt l cs'.labels + pend l st'.brk ≤ cnt l cs.labels + pend l st.brk + new l st.fresh st'.fresh + ndef cs * pend l (some e.second)
  | .nil, st, e, es, hes, cs', st', h, _ => by
    simp only [visitCases, Option.some.injEq, Prod.mk.injEq] at h
    obtain ⟨rfl, rfl⟩ := h
    exact ⟨rfl, rfl, Nat.le_refl _, .refl _, fun l => by omega⟩
  | .cons w ss cs, st, e, es, hes, cs', st', h, ok => by
    simp only [visitCases, Option.bind_eq_some_iff, Option.map_eq_some_iff, Prod.mk.injEq] at h
    obtain ⟨⟨ss1, st1⟩, h1, ⟨cs1, st2⟩, h2, rfl, rfl⟩ := h
    simp only [Cases.ok, Bool.and_eq_true] at ok
    have ⟨o1, f1, g1, c1⟩ := caseClause_good hv hl hes h1 ok.1
    have g1' := g1
    rw [hes] at g1
    obtain ⟨e1, es1, he1, hle1, hg1⟩ := g1.inv
    have ⟨o2, v2, f2, g2, c2⟩ := visitCases_good hv hl he1 h2 ok.2
    refine ⟨by simp [Cases.ok, o1, o2], by simp [vals, v2], Nat.le_trans f1 f2, g1'.trans g2, fun l => ?_⟩
    have c1 := c1 l
    have c2 := c2 l
    have := new_add l f1 f2
    rw [hle1.second] at c2
    simp only [Cases.labels, cnt_append, ndef, Nat.add_mul] at c1 c2 ⊢
    split at c1
    · rename_i hw; simp only [hw, if_true, Nat.one_mul]; omega
    · rename_i hw; simp only [hw]; simp; omega

theorem placeBreak_labels (l l' : Label) : ∀ cs : Cases, cnt l' (placeBreak l cs).labels = cnt l' cs.labels + pend l' (some l)
  | .nil => by simp [placeBreak, Cases.labels, Stmts.labels, Stmt.labels, cnt_one]
  | .cons v ss .nil => by simp [placeBreak, Cases.labels, Stmts.snoc_labels, Stmt.labels, cnt_one]
  | .cons v ss (.cons v' ss' cs) => by
    have := placeBreak_labels l l' (.cons v' ss' cs)
    simp only [placeBreak]
    have e : ∀ cs, (Cases.cons v ss cs).labels = ss.labels ++ cs.labels := fun cs => by rw [Cases.labels]
    rw [e, e, cnt_append, cnt_append, this]; omega
theorem placeBreak_ok (l : Label) : ∀ cs : Cases, cs.ok → (placeBreak l cs).ok
  | .nil, _ => by simp [placeBreak, Cases.ok, Stmts.ok, Stmt.ok]
  | .cons v ss .nil, h => by simp_all [placeBreak, Cases.ok, Stmts.snoc_ok, Stmt.ok]
  | .cons v ss (.cons v' ss' cs), h => by
    simp only [Cases.ok, Bool.and_eq_true] at h
    have := placeBreak_ok l (.cons v' ss' cs) (by simp [Cases.ok, h.2])
    simp only [placeBreak]
    rw [Cases.ok]; simp [h.1, this]
theorem placeBreak_vals (l : Label) : ∀ cs : Cases, cs ≠ .nil → vals (placeBreak l cs) = vals cs
  | .nil, h => absurd rfl h
  | .cons v ss .nil, _ => by simp [placeBreak, vals]
  | .cons v ss (.cons v' ss' cs), _ => by
    have := placeBreak_vals l (.cons v' ss' cs) (by simp)
    simp only [placeBreak]
    rw [vals, this]; rfl
theorem placeBreak_one (l : Label) (cs : Cases) (h : oneDefault cs) : oneDefault (placeBreak l cs) := by
  by_cases hc : cs = .nil
  · subst hc; simp [placeBreak, oneDefault, hasDefault]
  · rw [oneDefault_vals (placeBreak_vals l cs hc)]; exact h

theorem visitSwitch_good {v : Stmt → M Stmt} (hv : Good v) (hl : Loops v) {ls : List Label} {e : Nat} {cs : Cases} {st : St} {s' : Stmt} {st' : St}
    (h : visitSwitch v ls e cs st = some (s', st')) (ok : oneDefault cs) (ok' : cs.ok) : s'.ok ∧ Goes st st' (ls ++ cs.labels) s'.labels := by
  unfold visitSwitch at h
  simp only [Option.bind_eq_some_iff] at h
  obtain ⟨fl, -, ⟨cs1, st1⟩, h1, h⟩ := h
  have ⟨o1, v1, f1, g1, c1⟩ := visitCases_good hv hl rfl h1 ok'
  obtain ⟨en, es, he, hle, hg⟩ := g1.inv
  simp only [he, Option.some.injEq, Prod.mk.injEq] at h
  obtain ⟨rfl, rfl⟩ := h
  have o2 : oneDefault cs1 := by rw [oneDefault_vals v1]; exact ok
  refine ⟨?_, ⟨by simp only at f1 ⊢; omega, hg, fun l => ?_⟩⟩
  · split
    · simp [Stmt.ok, placeBreak_one _ _ o2, placeBreak_ok _ _ o1]
    · simp [Stmt.ok, o1, o2]
  · have c := c1 l
    have f := f1
    simp only at c f
    have n1 := new_add l (a := st.fresh) (b := st.fresh + 1) (c := st.fresh + if hasDefault cs then 2 else 1) (by omega) (by split <;> omega)
    have n2 := new_add l (a := st.fresh) (by omega) f
    have nd := ndef_one ok
    have hd : ndef cs * pend l (some (.gen (st.fresh + 1))) ≤ new l (st.fresh + 1) (st.fresh + if hasDefault cs then 2 else 1) := by
      rw [pend_some]
      by_cases hh : hasDefault cs
      · rw [if_pos hh]
        exact Nat.le_trans (Nat.mul_le_mul_right _ nd) (by simp)
      · simp [ndef_has (by simpa using hh)]
    have p := pend_some l st.fresh
    split
    · simp only [Stmt.labels, cnt_append, placeBreak_labels] at c ⊢; omega
    · simp only [Stmt.labels, cnt_append] at c ⊢; omega

theorem branch_good {ls : List Label} {b : Br} {t : Option Label} {st : St} {s' : Stmt} {st' : St} (h : branch ls b t st = some (s', st')) :
    s'.ok ∧ Goes st st' ls s'.labels := by
  have rest : (useEntry b t st.encl).map (fun r => (Stmt.branch [] .goto (some r.1), { st with encl := r.2 })) = some (s', st') → s'.ok ∧ Goes st st' ls s'.labels := by
    intro h
    simp only [Option.map_eq_some_iff, Prod.mk.injEq] at h
    obtain ⟨⟨l, es⟩, h1, rfl, rfl⟩ := h
    exact ⟨rfl, Nat.le_refl _, useEntry_grow h1, fun l => by simp only [Stmt.labels, cnt_nil]; omega⟩
  unfold branch at h
  split at h
  · simp only [Option.some.injEq, Prod.mk.injEq] at h; obtain ⟨rfl, rfl⟩ := h; exact ⟨rfl, .refl _ _⟩
  · split at h
    · simp only [Option.some.injEq, Prod.mk.injEq] at h; obtain ⟨rfl, rfl⟩ := h
      exact ⟨rfl, Nat.le_refl _, .refl _, fun l => by simp only [Stmt.labels, cnt_nil]; omega⟩
    · simp at h
  · exact rest h

theorem visit_loops : ∀ n, Loops (visit n)
  | 0 => by intro ls post c inc body els st s' st' h; simp [visit] at h
  | n + 1 => by
    intro ls post c inc body els st s' st' h
    simp only [visit, visitStmt, visitLoop, Option.bind_eq_some_iff] at h
    obtain ⟨⟨b', st1⟩, h1, ⟨e', st2⟩, h2, h⟩ := h
    simp only at h
    split at h
    · simp at h
    · simp only [Option.some.injEq, Prod.mk.injEq] at h
      obtain ⟨rfl, rfl⟩ := h
      refine ⟨_, _, rfl, ?_⟩
      rintro rfl
      simp only [visitOpt, Option.some.injEq, Prod.mk.injEq] at h2
      exact h2.1.symm

theorem visit_good : ∀ n, Good (visit n)
  | 0 => by intro s st s' st' h; simp [visit] at h
  | n + 1 => by
    intro s st s' st' h ok
    have hv := visit_good n
    have hl := visit_loops n
    simp only [visit] at h
    cases s <;> simp only [visitStmt] at h
    case null | act | ret => simp only [Option.some.injEq, Prod.mk.injEq] at h; obtain ⟨rfl, rfl⟩ := h; exact ⟨rfl, .refl _ _⟩
    case branch => exact branch_good h
    case block => exact compound_good hv hl h ok
    case ite => simp only [Stmt.ok, Bool.and_eq_true] at ok; exact visitIf_good hv h ok.1 ok.2
    case loop => simp only [Stmt.ok, Bool.and_eq_true] at ok; exact visitLoop_good hv h ok.1 ok.2
    case switch => simp only [Stmt.ok, Bool.and_eq_true] at ok; exact visitSwitch_good hv hl h ok.1 ok.2

end Verif.MultiExit
