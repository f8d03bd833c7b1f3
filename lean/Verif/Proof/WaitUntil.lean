import Verif.Model.WaitUntil
import Verif.Proof.Heap
/-! Lemmas for C81. -/
namespace Verif.WaitUntil
open Verif

/-- `n` is `t` with the marks of `paint` and `collect`, below `and` (`aA`), below `or` (`oA`), the parent is an `and` (`p`). -/
def Marked : Tree → Node → (aA oA p : Bool) → Prop
  | .leaf b, n, _, _, p => n = .leaf b b (p && b)
  | .and l r, n, _, oA, _ => ∃ c l' r', n = .node true (l'.amb && r'.amb && c) l' r' ∧ (oA = true → c = true) ∧ Marked l l' true oA true ∧
      Marked r r' true oA true
  | .or l r, n, aA, _, _ => ∃ c l' r', n = .node false (l'.amb && r'.amb && c) l' r' ∧ (aA = true → c = true) ∧ Marked l l' aA true false ∧
      Marked r r' aA true false

theorem Marked.leaves : ∀ {t : Tree} {n : Node} {aA oA p : Bool}, Marked t n aA oA p → n.leaves = t.leaves := by
  intro t
  induction t with
  | leaf b => intro n _ _ _ h; rw [show n = _ from h]; rfl
  | and l r ihl ihr =>
    rintro n aA oA p ⟨c, l', r', rfl, _, hl, hr⟩
    simp only [Node.leaves, Tree.leaves, ihl hl, ihr hr]
  | or l r ihl ihr =>
    rintro n aA oA p ⟨c, l', r', rfl, _, hl, hr⟩
    simp only [Node.leaves, Tree.leaves, ihl hl, ihr hr]

@[simp] theorem amb_node (a b : Bool) (l r : Node) : (Node.node a b l r).amb = b := rfl

theorem collect_amb (n : Node) (k : Nat) (pa p : Bool) : (collect n k pa p).1.amb = n.amb := by cases n <;> rfl

theorem collect_leaves (n : Node) : ∀ (k : Nat) (pa p : Bool), (collect n k pa p).1.leaves = n.leaves := by
  induction n with
  | leaf => intro _ _ _; rfl
  | node _ _ l r ihl ihr => intro k pa p; simp [collect, Node.leaves, ihl, ihr]

theorem marked_paint (t : Tree) : ∀ (aA oA a0 o0 : Bool) (k : Nat) (pa p : Bool),
    Marked t (collect (paint t aA oA a0 o0).1 k pa p).1 aA oA p := by
  induction t with
  | leaf b => intro aA oA a0 o0 k pa p; simp [paint, collect, Marked]
  | and l r ihl ihr =>
    intro aA oA a0 o0 k pa p
    simp only [paint, collect, Marked]
    have hl := fun pa => ihl true oA false false k pa true
    generalize paint l true oA false false = x at *
    have hr := fun pa => ihr true oA x.2.1 x.2.2 (k + x.1.leaves) pa true
    generalize paint r true oA x.2.1 x.2.2 = y at *
    refine ⟨(oA || y.2.2) && (y.2.1 || true), _, _, ?_, fun h => by simp [h], hl (x.1.amb && y.1.amb && ((oA || y.2.2) && (y.2.1 || true))),
      hr (x.1.amb && y.1.amb && ((oA || y.2.2) && (y.2.1 || true)))⟩
    simp only [collect_amb]
  | or l r ihl ihr =>
    intro aA oA a0 o0 k pa p
    simp only [paint, collect, Marked]
    have hl := fun pa => ihl aA true false false k pa false
    generalize paint l aA true false false = x at *
    have hr := fun pa => ihr aA true x.2.1 x.2.2 (k + x.1.leaves) pa false
    generalize paint r aA true x.2.1 x.2.2 = y at *
    refine ⟨(true || y.2.2) && (y.2.1 || aA), _, _, ?_, fun h => by simp [h], hl (x.1.amb && y.1.amb && ((true || y.2.2) && (y.2.1 || aA))),
      hr (x.1.amb && y.1.amb && ((true || y.2.2) && (y.2.1 || aA)))⟩
    simp only [collect_amb]

/-! Facts about the leaves of a tree with clauses `k`, `k + 1`, .... -/

def OnOk (on g : Nat → Bool) : Tree → Nat → Prop
  | .leaf b, k => on k = (!b || g k)
  | .and l r, k | .or l r, k => OnOk on g l k ∧ OnOk on g r (k + l.leaves)

def AllOff (g : Nat → Bool) : Tree → Nat → Prop
  | .leaf b, k => b = true ∧ g k = false
  | .and l r, k | .or l r, k => AllOff g l k ∧ AllOff g r (k + l.leaves)

/-- The statuses before the assignments of `statusAssign`. -/
def BaseOk (g : Nat → Bool) (s : Nat → St) : Node → Nat → Prop
  | .leaf _ _ oa, k => s k = if oa && !g k then .run else .unsat
  | .node _ _ l r, k => BaseOk g s l k ∧ BaseOk g s r (k + l.leaves)

def WsOk (g ws : Nat → Bool) : Node → Nat → Bool → Prop
  | .leaf _ _ _, k, pa => ws k = if pa then g k else true
  | .node _ amb l r, k, _ => WsOk g ws l k amb ∧ WsOk g ws r (k + l.leaves) amb

theorem cond_none {on g x : Nat → Bool} (t : Tree) : ∀ {k : Nat}, OnOk on g t k → (t.cond on x k = none ↔ AllOff g t k) := by
  induction t with
  | leaf b => intro k h; simp only [Tree.cond, AllOff]; rw [show on k = _ from h]; cases b <;> cases g k <;> simp
  | and l r ihl ihr =>
    intro k h
    simp only [AllOff, ← ihl h.1, ← ihr h.2, Tree.cond]
    cases l.cond on x k <;> cases r.cond on x (k + l.leaves) <;> simp
  | or l r ihl ihr =>
    intro k h
    simp only [AllOff, ← ihl h.1, ← ihr h.2, Tree.cond]
    cases l.cond on x k <;> cases r.cond on x (k + l.leaves) <;> simp

theorem runSat_congr {s s' : Nat → St} (t : Tree) : ∀ {k : Nat}, (∀ i, k ≤ i → i < k + t.leaves → s i = s' i) → runSat s t k = runSat s' t k := by
  induction t with
  | leaf b => intro k h; simp only [runSat]; rw [h k (by omega) (by simp [Tree.leaves])]
  | and l r ihl ihr =>
    intro k h
    simp only [Tree.leaves] at h
    simp only [runSat]
    rw [ihl (fun i h1 h2 => h i h1 (by omega)), ihr (fun i h1 h2 => h i (by omega) (by omega))]
  | or l r ihl ihr =>
    intro k h
    simp only [Tree.leaves] at h
    simp only [runSat]
    rw [ihl (fun i h1 h2 => h i h1 (by omega)), ihr (fun i h1 h2 => h i (by omega) (by omega))]

theorem BaseOk.congr {g : Nat → Bool} {s s' : Nat → St} (n : Node) : ∀ {k : Nat}, BaseOk g s n k → (∀ i, k ≤ i → i < k + n.leaves → s i = s' i) →
    BaseOk g s' n k := by
  induction n with
  | leaf _ _ oa => intro k h he; simp only [BaseOk]; rw [← he k (by omega) (by simp [Node.leaves])]; exact h
  | node _ _ l r ihl ihr =>
    intro k h he
    simp only [Node.leaves] at he
    exact ⟨ihl h.1 (fun i h1 h2 => he i h1 (by omega)), ihr h.2 (fun i h1 h2 => he i (by omega) (by omega))⟩

theorem assignAll_append (s : Nat → St) (a b : List (Nat × St)) : assignAll s (a ++ b) = assignAll (assignAll s a) b := by
  simp [assignAll]

theorem assignAll_notin (as : List (Nat × St)) : ∀ (s : Nat → St) {i : Nat}, (∀ a ∈ as, a.1 ≠ i) → assignAll s as i = s i := by
  induction as with
  | nil => intro s i _; rfl
  | cons a as ih =>
    intro s i h
    have h1 := h a (by simp)
    have := ih (upd s a.1 a.2) (i := i) (fun b hb => h b (by simp [hb]))
    simp only [assignAll, List.foldl_cons] at this ⊢
    rw [this]
    simp [upd_apply, Ne.symm h1]

theorem subtreeAssign_range (n : Node) : ∀ {b : Bool} {k : Nat} {a : Nat × St}, a ∈ subtreeAssign n b k → k ≤ a.1 ∧ a.1 < k + n.leaves := by
  induction n with
  | leaf _ _ oa =>
    intro b k a h
    simp only [subtreeAssign] at h
    split at h
    · simp at h; subst h; simp [Node.leaves]
    · split at h
      · simp at h; subst h; simp [Node.leaves]
      · simp at h
  | node isAnd _ l r ihl ihr =>
    intro b k a h
    simp only [subtreeAssign] at h
    simp only [Node.leaves]
    split at h
    · rcases List.mem_append.1 h with h | h
      · have := ihl h; omega
      · have := ihr h; omega
    · split at h
      · have := ihl h; omega
      · have := ihr h; omega

theorem statusAssign_range {ws : Nat → Bool} (n : Node) : ∀ {k : Nat} {a : Nat × St}, a ∈ statusAssign ws n k → k ≤ a.1 ∧ a.1 < k + n.leaves := by
  induction n with
  | leaf => intro k a h; simp [statusAssign] at h
  | node isAnd amb l r ihl ihr =>
    intro k a h
    simp only [statusAssign] at h
    split at h
    · exact subtreeAssign_range _ h
    all_goals
      simp only [Node.leaves]
      rcases List.mem_append.1 h with h | h
      · first | (have := ihl h; omega) | (have := subtreeAssign_range _ h; omega)
      · first | (have := ihr h; omega) | (have := subtreeAssign_range _ h; omega)

/-- The assignments that give a disabled subtree the value `b`. -/
theorem subtreeAssign_ok {g : Nat → Bool} (t : Tree) : ∀ {n : Node} {aA oA p b : Bool} {k : Nat} {s : Nat → St}, Marked t n aA oA p → BaseOk g s n k →
    AllOff g t k → runSat (assignAll s (subtreeAssign n b k)) t k = b := by
  have key : ∀ {l r : Tree} {l' r' : Node} {b : Bool} {k : Nat} {s : Nat → St}, l'.leaves = l.leaves → r'.leaves = r.leaves →
      BaseOk g s l' k → BaseOk g s r' (k + l.leaves) →
      (∀ {s}, BaseOk g s l' k → runSat (assignAll s (subtreeAssign l' b k)) l k = b) →
      (∀ {s}, BaseOk g s r' (k + l.leaves) → runSat (assignAll s (subtreeAssign r' b (k + l.leaves))) r (k + l.leaves) = b) →
      runSat (assignAll s (subtreeAssign l' b k ++ subtreeAssign r' b (k + l.leaves))) l k = b ∧
      runSat (assignAll s (subtreeAssign l' b k ++ subtreeAssign r' b (k + l.leaves))) r (k + l.leaves) = b := by
    intro l r l' r' b k s hl hr bl br h1 h2
    rw [assignAll_append]
    constructor
    · rw [runSat_congr l (s' := assignAll s (subtreeAssign l' b k))]
      · exact h1 bl
      · intro i g1 g2
        refine assignAll_notin _ _ (fun a ha => ?_)
        have := subtreeAssign_range _ ha
        omega
    · refine h2 (br.congr _ (fun i g1 g2 => ?_))
      refine (assignAll_notin _ _ (fun a ha => ?_)).symm
      have := subtreeAssign_range _ ha
      omega
  induction t with
  | leaf b0 =>
    intro n aA oA p b k s hm hb ho
    rw [show n = _ from hm] at hb ⊢
    obtain ⟨h1, h2⟩ := ho
    subst h1
    have hb' : s k = if p then .run else .unsat := by simpa [BaseOk, h2] using hb
    cases p <;> cases b <;> simp [subtreeAssign, assignAll, runSat, hb']
  | and l r ihl ihr =>
    rintro n aA oA p b k s ⟨c, l', r', rfl, hc, ml, mr⟩ hb ho
    have el := ml.leaves
    have er := mr.leaves
    simp only [BaseOk, el] at hb
    simp only [subtreeAssign, el, runSat]
    cases b with
    | true =>
      obtain ⟨h1, h2⟩ := key (b := true) el er hb.1 hb.2 (fun h => ihl ml h ho.1) (fun h => ihr mr h ho.2)
      simp only [beq_self_eq_true, if_true, h1, h2, Bool.and_self]
    | false =>
      rw [if_neg (by decide)]
      split
      · rw [ihl ml hb.1 ho.1]; rfl
      · rw [ihr mr hb.2 ho.2]; simp
  | or l r ihl ihr =>
    rintro n aA oA p b k s ⟨c, l', r', rfl, hc, ml, mr⟩ hb ho
    have el := ml.leaves
    have er := mr.leaves
    simp only [BaseOk, el] at hb
    simp only [subtreeAssign, el, runSat]
    cases b with
    | false =>
      obtain ⟨h1, h2⟩ := key (b := false) el er hb.1 hb.2 (fun h => ihl ml h ho.1) (fun h => ihr mr h ho.2)
      simp only [beq_self_eq_true, if_true, h1, h2, Bool.or_self]
    | true =>
      rw [if_neg (by decide)]
      split
      · rw [ihl ml hb.1 ho.1]; rfl
      · rw [ihr mr hb.2 ho.2]; simp

/-- A disabled subtree with both operations above is when-ambiguous. -/
theorem allAmb {g : Nat → Bool} (t : Tree) : ∀ {n : Node} {p : Bool} {k : Nat}, Marked t n true true p → AllOff g t k → n.amb = true := by
  induction t with
  | leaf b => intro n p k hm ho; rw [show n = _ from hm]; exact ho.1
  | and l r ihl ihr => rintro n p k ⟨c, l', r', rfl, hc, ml, mr⟩ ho; simp [hc, ihl ml ho.1, ihr mr ho.2]
  | or l r ihl ihr => rintro n p k ⟨c, l', r', rfl, hc, ml, mr⟩ ho; simp [hc, ihl ml ho.1, ihr mr ho.2]

theorem whenState_off {g ws : Nat → Bool} (t : Tree) : ∀ {n : Node} {p : Bool} {k : Nat}, Marked t n true true p → AllOff g t k →
    WsOk g ws n k true → whenState ws n k = false := by
  induction t with
  | leaf b =>
    intro n p k hm ho hw
    rw [show n = _ from hm] at hw ⊢
    simp only [WsOk, if_true] at hw
    simp [whenState, hw, ho.2]
  | and l r ihl ihr =>
    rintro n p k hm ho hw
    have hamb := allAmb _ hm ho
    obtain ⟨c, l', r', rfl, hc, ml, mr⟩ := hm
    rw [amb_node] at hamb
    simp only [WsOk, hamb, ml.leaves] at hw
    simp [whenState, ml.leaves, ihl ml ho.1 hw.1, ihr mr ho.2 hw.2]
  | or l r ihl ihr =>
    rintro n p k hm ho hw
    have hamb := allAmb _ hm ho
    obtain ⟨c, l', r', rfl, hc, ml, mr⟩ := hm
    rw [amb_node] at hamb
    simp only [WsOk, hamb, ml.leaves] at hw
    simp [whenState, ml.leaves, ihl ml ho.1 hw.1, ihr mr ho.2 hw.2]

/-- A subtree that the compiler sees as disabled is disabled. -/
theorem off_of_whenState {g ws : Nat → Bool} (t : Tree) : ∀ {n : Node} {aA oA p pa : Bool} {k : Nat}, Marked t n aA oA p → (pa = true → n.amb = true) →
    WsOk g ws n k pa → whenState ws n k = false → AllOff g t k := by
  induction t with
  | leaf b =>
    intro n aA oA p pa k hm hpa hw h
    rw [show n = _ from hm] at hw hpa h
    simp only [WsOk] at hw
    simp only [whenState] at h
    rw [h] at hw
    cases pa with
    | false => simp at hw
    | true => exact ⟨hpa rfl, by simpa using hw.symm⟩
  | and l r ihl ihr =>
    rintro n aA oA p pa k ⟨c, l', r', rfl, hc, ml, mr⟩ hpa hw h
    simp only [whenState, ml.leaves, Bool.or_eq_false_iff] at h
    simp only [WsOk, ml.leaves] at hw
    exact ⟨ihl ml (fun h => by simp_all) hw.1 h.1, ihr mr (fun h => by simp_all) hw.2 h.2⟩
  | or l r ihl ihr =>
    rintro n aA oA p pa k ⟨c, l', r', rfl, hc, ml, mr⟩ hpa hw h
    simp only [whenState, ml.leaves, Bool.or_eq_false_iff] at h
    simp only [WsOk, ml.leaves] at hw
    exact ⟨ihl ml (fun h => by simp_all) hw.1 h.1, ihr mr (fun h => by simp_all) hw.2 h.2⟩

/-- The statuses when the clauses in `x` have been executed too. -/
def over (x : Nat → Bool) (s : Nat → St) : Nat → St := fun i => if x i then .run else s i

theorem over_off {g on x : Nat → Bool} {s : Nat → St} (hx : ∀ i, x i = true → on i = true) (t : Tree) : ∀ {k : Nat}, OnOk on g t k → AllOff g t k →
    runSat (over x s) t k = runSat s t k := by
  induction t with
  | leaf b =>
    intro k h1 h2
    have : x k = false := by
      cases hk : x k with
      | false => rfl
      | true =>
        have := hx k hk
        rw [show on k = _ from h1, h2.1, h2.2] at this
        simp at this
    simp [runSat, over, this]
  | and l r ihl ihr => intro k h1 h2; simp only [runSat, ihl h1.1 h2.1, ihr h1.2 h2.2]
  | or l r ihl ihr => intro k h1 h2; simp only [runSat, ihl h1.1 h2.1, ihr h1.2 h2.2]

theorem over_congr {x : Nat → Bool} {s s' : Nat → St} {t : Tree} {k : Nat} (h : ∀ i, k ≤ i → i < k + t.leaves → s i = s' i) :
    runSat (over x s) t k = runSat (over x s') t k :=
  runSat_congr t (fun i h1 h2 => by simp only [over, h i h1 h2])

/-- The predicate of a subtree that is not disabled, or that the compiler does not see as disabled. -/
theorem statusAssign_ok {g ws on x : Nat → Bool} (hx : ∀ i, x i = true → on i = true) (t : Tree) :
    ∀ {n : Node} {aA oA p pa : Bool} {k : Nat} {s : Nat → St}, Marked t n aA oA p → (p = true → aA = true) → (p = false → oA = true) →
    (pa = true → n.amb = true) → BaseOk g s n k → WsOk g ws n k pa → OnOk on g t k → whenState ws n k = true →
    runSat (over x (assignAll s (statusAssign ws n k))) t k = (t.cond on x k).getD p := by
  -- one operation, two subtrees; `A` and `B` are the assignments for them
  have key : ∀ {l r : Tree} {l' r' : Node} {k : Nat} {s : Nat → St} {A B : List (Nat × St)}, l'.leaves = l.leaves → r'.leaves = r.leaves →
      (∀ a ∈ A, k ≤ a.1 ∧ a.1 < k + l'.leaves) → (∀ a ∈ B, k + l.leaves ≤ a.1 ∧ a.1 < k + l.leaves + r'.leaves) →
      BaseOk g s r' (k + l.leaves) →
      runSat (over x (assignAll s (A ++ B))) l k = runSat (over x (assignAll s A)) l k ∧
      ∃ s', BaseOk g s' r' (k + l.leaves) ∧ runSat (over x (assignAll s (A ++ B))) r (k + l.leaves) = runSat (over x (assignAll s' B)) r (k + l.leaves) := by
    intro l r l' r' k s A B hl hr hA hB br
    rw [assignAll_append]
    refine ⟨over_congr (fun i g1 g2 => assignAll_notin _ _ (fun a ha => ?_)), assignAll s A, br.congr _ (fun i g1 g2 => ?_), rfl⟩
    · have := hB a ha; omega
    · refine (assignAll_notin _ _ (fun a ha => ?_)).symm
      have := hA a ha; omega
  induction t with
  | leaf b =>
    intro n aA oA p pa k s hm _ _ hpa hb hw hon hst
    rw [show n = _ from hm] at hb ⊢
    simp only [statusAssign, assignAll, List.foldl_nil, runSat, over, Tree.cond]
    rw [show on k = _ from hon]
    have hb' : s k = if (p && b) && !g k then .run else .unsat := hb
    have hxk : x k = true → (!b || g k) = true := fun h => by rw [← show on k = _ from hon]; exact hx k h
    rw [hb']
    cases hxv : x k <;> cases b <;> cases hg : g k <;> cases p <;> simp_all
  | and l r ihl ihr =>
    rintro n aA oA p pa k s hm h1 h2 hpa hb hw hon hst
    have hm' := hm
    obtain ⟨c, l', r', rfl, hc, ml, mr⟩ := hm
    have el := ml.leaves
    have er := mr.leaves
    -- if all is disabled, there is no `or` above
    have hp : AllOff g (.and l r) k → p = true := by
      intro ho
      cases p with
      | true => rfl
      | false =>
        have ho' := h2 rfl
        rw [ho'] at hm' ml mr
        have m' : Marked (.and l r) (.node true (l'.amb && r'.amb && c) l' r') true true false := by
          exact ⟨c, l', r', rfl, fun _ => hc ho', ml, mr⟩
        have hamb := allAmb _ m' ho
        rw [amb_node] at hamb
        have := whenState_off (ws := ws) _ m' ho (by simpa only [WsOk] using hw)
        rw [this] at hst
        cases hst
    simp only [BaseOk, el] at hb
    simp only [WsOk, el] at hw
    simp only [whenState, el] at hst
    have hpl : (l'.amb && r'.amb && c) = true → l'.amb = true := by simp_all
    have hpr : (l'.amb && r'.amb && c) = true → r'.amb = true := by simp_all
    have Bl := fun {s} hb => ihl (s := s) ml (fun _ => rfl) (fun h => by cases h) hpl hb hw.1 hon.1
    have Br := fun {s} hb => ihr (s := s) mr (fun _ => rfl) (fun h => by cases h) hpr hb hw.2 hon.2
    have nl := cond_none (x := x) l hon.1
    have nr := cond_none (x := x) r hon.2
    simp only [statusAssign, el]
    cases hl : whenState ws l' k with
    | false =>
      have offl := off_of_whenState l ml hpl hw.1 hl
      cases hr : whenState ws r' (k + l.leaves) with
      | false => simp [hl, hr] at hst
      | true =>
        obtain ⟨e1, s', b', e2⟩ := key (l' := l') (r := r) (s := s) el er (fun a ha => subtreeAssign_range _ ha) (fun a ha => statusAssign_range (ws := ws) r' ha) hb.2 (A := subtreeAssign l' true k)
        simp only [runSat, e1, e2, Br b' hr, over_off hx l hon.1 offl, subtreeAssign_ok l ml hb.1 offl, Tree.cond, nl.2 offl]
        cases hcr : r.cond on x (k + l.leaves) with
        | some v => simp
        | none => simp [hp ⟨offl, nr.1 hcr⟩]
    | true =>
      cases hr : whenState ws r' (k + l.leaves) with
      | false =>
        have offr := off_of_whenState r mr hpr hw.2 hr
        obtain ⟨e1, s', b', e2⟩ := key (l' := l') (r := r) (s := s) el er (fun a ha => statusAssign_range (ws := ws) l' ha) (fun a ha => subtreeAssign_range _ ha) hb.2 (B := subtreeAssign r' true (k + l.leaves))
        simp only [runSat, e1, e2, Bl hb.1 hl, over_off hx r hon.2 offr, subtreeAssign_ok r mr b' offr, Tree.cond, nr.2 offr]
        cases hcl : l.cond on x k with
        | some v => simp
        | none => simp [hp ⟨nl.1 hcl, offr⟩]
      | true =>
        obtain ⟨e1, s', b', e2⟩ := key (l' := l') (r := r) (s := s) el er (fun a ha => statusAssign_range (ws := ws) l' ha) (fun a ha => statusAssign_range (ws := ws) r' ha) hb.2
        simp only [runSat, e1, e2, Bl hb.1 hl, Br b' hr, Tree.cond]
        cases hcl : l.cond on x k with
        | some v => cases hcr : r.cond on x (k + l.leaves) <;> simp
        | none =>
          cases hcr : r.cond on x (k + l.leaves) with
          | some v => simp
          | none => simp [hp ⟨nl.1 hcl, nr.1 hcr⟩]
  | or l r ihl ihr =>
    rintro n aA oA p pa k s hm h1 h2 hpa hb hw hon hst
    have hm' := hm
    obtain ⟨c, l', r', rfl, hc, ml, mr⟩ := hm
    have el := ml.leaves
    have er := mr.leaves
    -- if all is disabled, there is no `and` above
    have hp : AllOff g (.or l r) k → p = false := by
      intro ho
      cases p with
      | false => rfl
      | true =>
        have ho' := h1 rfl
        rw [ho'] at hm' ml mr
        have m' : Marked (.or l r) (.node false (l'.amb && r'.amb && c) l' r') true true true := by
          exact ⟨c, l', r', rfl, fun _ => hc ho', ml, mr⟩
        have hamb := allAmb _ m' ho
        rw [amb_node] at hamb
        have := whenState_off (ws := ws) _ m' ho (by simpa only [WsOk] using hw)
        rw [this] at hst
        cases hst
    simp only [BaseOk, el] at hb
    simp only [WsOk, el] at hw
    simp only [whenState, el] at hst
    have hpl : (l'.amb && r'.amb && c) = true → l'.amb = true := by simp_all
    have hpr : (l'.amb && r'.amb && c) = true → r'.amb = true := by simp_all
    have Bl := fun {s} hb => ihl (s := s) ml (fun h => by cases h) (fun _ => rfl) hpl hb hw.1 hon.1
    have Br := fun {s} hb => ihr (s := s) mr (fun h => by cases h) (fun _ => rfl) hpr hb hw.2 hon.2
    have nl := cond_none (x := x) l hon.1
    have nr := cond_none (x := x) r hon.2
    simp only [statusAssign, el]
    cases hl : whenState ws l' k with
    | false =>
      have offl := off_of_whenState l ml hpl hw.1 hl
      cases hr : whenState ws r' (k + l.leaves) with
      | false => simp [hl, hr] at hst
      | true =>
        obtain ⟨e1, s', b', e2⟩ := key (l' := l') (r := r) (s := s) el er (fun a ha => subtreeAssign_range _ ha) (fun a ha => statusAssign_range (ws := ws) r' ha) hb.2 (A := subtreeAssign l' false k)
        simp only [runSat, e1, e2, Br b' hr, over_off hx l hon.1 offl, subtreeAssign_ok l ml hb.1 offl, Tree.cond, nl.2 offl]
        cases hcr : r.cond on x (k + l.leaves) with
        | some v => simp
        | none => simp [hp ⟨offl, nr.1 hcr⟩]
    | true =>
      cases hr : whenState ws r' (k + l.leaves) with
      | false =>
        have offr := off_of_whenState r mr hpr hw.2 hr
        obtain ⟨e1, s', b', e2⟩ := key (l' := l') (r := r) (s := s) el er (fun a ha => statusAssign_range (ws := ws) l' ha) (fun a ha => subtreeAssign_range _ ha) hb.2 (B := subtreeAssign r' false (k + l.leaves))
        simp only [runSat, e1, e2, Bl hb.1 hl, over_off hx r hon.2 offr, subtreeAssign_ok r mr b' offr, Tree.cond, nr.2 offr]
        cases hcl : l.cond on x k with
        | some v => simp
        | none => simp [hp ⟨nl.1 hcl, offr⟩]
      | true =>
        obtain ⟨e1, s', b', e2⟩ := key (l' := l') (r := r) (s := s) el er (fun a ha => statusAssign_range (ws := ws) l' ha) (fun a ha => statusAssign_range (ws := ws) r' ha) hb.2
        simp only [runSat, e1, e2, Bl hb.1 hl, Br b' hr, Tree.cond]
        cases hcl : l.cond on x k with
        | some v => cases hcr : r.cond on x (k + l.leaves) <;> simp
        | none =>
          cases hcr : r.cond on x (k + l.leaves) with
          | some v => simp
          | none => simp [hp ⟨nl.1 hcl, nr.1 hcr⟩]

theorem collect_range (n : Node) : ∀ {k : Nat} {pa p : Bool} {i : Nat},
    (i ∈ (collect n k pa p).2.1 → k ≤ i ∧ i < k + n.leaves) ∧ (i ∈ (collect n k pa p).2.2 → k ≤ i ∧ i < k + n.leaves) := by
  induction n with
  | leaf b a o =>
    intro k pa p i
    simp only [collect, Node.leaves]
    constructor
    · intro h; split at h <;> simp at h; omega
    · intro h; split at h <;> simp at h; omega
  | node a b l r ihl ihr =>
    intro k pa p i
    simp only [collect, Node.leaves, List.mem_append]
    constructor
    · rintro (h | h)
      · have := ihl.1 h; omega
      · have := ihr.1 h; omega
    · rintro (h | h)
      · have := ihl.2 h; omega
      · have := ihr.2 h; omega

theorem baseOk_collect {g : Nat → Bool} {s : Nat → St} (n : Node) : ∀ {k : Nat} {pa p : Bool},
    (∀ i, k ≤ i → i < k + n.leaves → s i = if i ∈ (collect n k pa p).2.2 ∧ g i = false then .run else .unsat) → BaseOk g s (collect n k pa p).1 k := by
  induction n with
  | leaf b a o =>
    intro k pa p h
    have := h k (by omega) (by simp [Node.leaves])
    simp only [collect] at this
    simp only [collect, BaseOk, this]
    cases p <;> cases b <;> cases g k <;> simp
  | node a b l r ihl ihr =>
    intro k pa p h
    simp only [collect, Node.leaves, List.mem_append] at h
    simp only [collect, BaseOk, collect_leaves]
    refine ⟨ihl (fun i h1 h2 => ?_), ihr (fun i h1 h2 => ?_)⟩
    · have hn : i ∉ (collect r (k + l.leaves) b a).2.2 := fun hm => by have := (collect_range r).2 hm; omega
      simpa [hn] using h i h1 (by omega)
    · have hn : i ∉ (collect l k b a).2.2 := fun hm => by have := (collect_range l).2 hm; omega
      simpa [hn] using h i (by omega) (by omega)

theorem wsOk_collect {g ws : Nat → Bool} (n : Node) : ∀ {k : Nat} {pa p : Bool},
    (∀ i, k ≤ i → i < k + n.leaves → ws i = if i ∈ (collect n k pa p).2.1 then g i else true) → WsOk g ws (collect n k pa p).1 k pa := by
  induction n with
  | leaf b a o =>
    intro k pa p h
    have := h k (by omega) (by simp [Node.leaves])
    simp only [collect] at this
    simp only [collect, WsOk, this]
    cases pa <;> simp
  | node a b l r ihl ihr =>
    intro k pa p h
    simp only [collect, Node.leaves, List.mem_append] at h
    simp only [collect, WsOk, collect_leaves]
    refine ⟨ihl (fun i h1 h2 => ?_), ihr (fun i h1 h2 => ?_)⟩
    · have hn : i ∉ (collect r (k + l.leaves) b a).2.1 := fun hm => by have := (collect_range r).1 hm; omega
      simpa [hn] using h i h1 (by omega)
    · have hn : i ∉ (collect l k b a).2.1 := fun hm => by have := (collect_range l).1 hm; omega
      simpa [hn] using h i (by omega) (by omega)

theorem foldl_run {g : Nat → Bool} (L : List Nat) : ∀ (s : Nat → St) (i : Nat),
    L.foldl (fun s i => if !g i then upd s i .run else s) s i = if i ∈ L ∧ g i = false then .run else s i := by
  induction L with
  | nil => intro s i; simp
  | cons a L ih =>
    intro s i
    rw [List.foldl_cons, ih]
    by_cases hL : i ∈ L ∧ g i = false
    · rw [if_pos hL, if_pos ⟨by simp [hL.1], hL.2⟩]
    · rw [if_neg hL]
      by_cases ha : i = a
      · subst ha
        cases hg : g i <;> simp
      · have : (i ∈ a :: L ∧ g i = false) ↔ (i ∈ L ∧ g i = false) := by simp [ha]
        rw [if_neg (fun h => hL (this.1 h))]
        cases g a <;> simp [upd_apply, ha]

theorem runCode_eq {g : Nat → Bool} {s : Nat → St} (n : Node) (L : List Nat) : ∀ (ws : Nat → Bool),
    ∃ ws', (∀ i, ws' i = if i ∈ L then g i else ws i) ∧ runCode g s (whenConditions n ws L) = assignAll s (statusAssign ws' n 0) := by
  induction L with
  | nil => intro ws; exact ⟨ws, by simp, rfl⟩
  | cons a L ih =>
    intro ws
    obtain ⟨ws', h1, h2⟩ := ih (upd ws a (g a))
    refine ⟨ws', fun i => ?_, ?_⟩
    · rw [h1]
      by_cases hL : i ∈ L
      · simp [hL]
      · by_cases ha : i = a
        · subst ha; simp
        · simp [hL, ha, upd_apply]
    · rw [← h2]
      simp only [whenConditions, runCode]
      cases hg : g a <;> simp

theorem statusAssign_on {ws : Nat → Bool} (h : ∀ i, ws i = true) (n : Node) : ∀ k, statusAssign ws n k = [] ∧ whenState ws n k = true := by
  induction n with
  | leaf => intro k; exact ⟨rfl, h k⟩
  | node a b l r ihl ihr => intro k; simp [statusAssign, whenState, ihl, ihr]

/-- The initial statuses. -/
theorem initial_eq (t : Tree) (g : Nat → Bool) : ∃ n s ws, Marked t n false false (match t with | .and _ _ => true | _ => false) ∧ BaseOk g s n 0 ∧
    WsOk g ws n 0 false ∧ initial t g = assignAll s (statusAssign ws n 0) := by
  have e : ∀ q, collect (paint t false false false false).1 0 false false = q → initial t g =
      if q.2.1.isEmpty then q.2.2.foldl (fun s i => if !g i then upd s i .run else s) (fun _ => .unsat)
      else runCode g (q.2.2.foldl (fun s i => if !g i then upd s i .run else s) (fun _ => .unsat)) (whenConditions q.1 (fun _ => true) q.2.1) := by
    rintro q rfl; rfl
  have hm := marked_paint t false false false false 0 false false
  have hm' : Marked t (collect (paint t false false false false).1 0 false false).1 false false (match (generalizing := false) t with | .and _ _ => true | _ => false) := by
    cases t <;> exact hm
  obtain ⟨ws, h1, h2⟩ := runCode_eq (g := g) (s := (collect (paint t false false false false).1 0 false false).2.2.foldl (fun s i => if !g i then upd s i .run else s) (fun _ => .unsat)) (collect (paint t false false false false).1 0 false false).1 (collect (paint t false false false false).1 0 false false).2.1 (fun _ => true)
  refine ⟨_, (collect (paint t false false false false).1 0 false false).2.2.foldl (fun s i => if !g i then upd s i .run else s) (fun _ => .unsat), ws,
    hm', baseOk_collect _ (fun i _ _ => foldl_run _ _ _), wsOk_collect _ (fun i _ _ => h1 i), ?_⟩
  rw [e _ rfl, ← h2]
  split
  · next he =>
    have he' : (collect (paint t false false false false).1 0 false false).2.1 = [] := List.isEmpty_iff.1 he
    rw [h2, (statusAssign_on (fun i => by rw [h1]; simp [he']) _ 0).1]
    rfl
  · rfl

theorem onOk_congr {on on' g : Nat → Bool} (t : Tree) : ∀ {k : Nat}, OnOk on g t k → (∀ i, k ≤ i → i < k + t.leaves → on i = on' i) → OnOk on' g t k := by
  induction t with
  | leaf b => intro k h he; simp only [OnOk]; rw [← he k (by omega) (by simp [Tree.leaves])]; exact h
  | and l r ihl ihr =>
    intro k h he
    simp only [Tree.leaves] at he
    exact ⟨ihl h.1 (fun i h1 h2 => he i h1 (by omega)), ihr h.2 (fun i h1 h2 => he i (by omega) (by omega))⟩
  | or l r ihl ihr =>
    intro k h he
    simp only [Tree.leaves] at he
    exact ⟨ihl h.1 (fun i h1 h2 => he i h1 (by omega)), ihr h.2 (fun i h1 h2 => he i (by omega) (by omega))⟩

theorem enabled_range {g : Nat → Bool} (t : Tree) : ∀ {k i : Nat}, t.enabled g k i = true → k ≤ i ∧ i < k + t.leaves := by
  induction t with
  | leaf b => intro k i h; simp [Tree.enabled] at h; simp [Tree.leaves]; omega
  | and l r ihl ihr =>
    intro k i h
    simp only [Tree.enabled, Bool.or_eq_true] at h
    simp only [Tree.leaves]
    rcases h with h | h
    · have := ihl h; omega
    · have := ihr h; omega
  | or l r ihl ihr =>
    intro k i h
    simp only [Tree.enabled, Bool.or_eq_true] at h
    simp only [Tree.leaves]
    rcases h with h | h
    · have := ihl h; omega
    · have := ihr h; omega

theorem onOk_enabled (g : Nat → Bool) (t : Tree) : ∀ k, OnOk (t.enabled g k) g t k := by
  have out : ∀ (t : Tree) {k i : Nat}, (i < k ∨ k + t.leaves ≤ i) → t.enabled g k i = false := by
    intro t k i h
    cases he : t.enabled g k i with
    | false => rfl
    | true => have := enabled_range t he; omega
  induction t with
  | leaf b => intro k; simp [OnOk, Tree.enabled]
  | and l r ihl ihr =>
    intro k
    exact ⟨onOk_congr _ (ihl k) (fun i h1 h2 => by simp [Tree.enabled, out r (Or.inl h2)]),
      onOk_congr _ (ihr _) (fun i h1 h2 => by simp [Tree.enabled, out l (Or.inr h1)])⟩
  | or l r ihl ihr =>
    intro k
    exact ⟨onOk_congr _ (ihl k) (fun i h1 h2 => by simp [Tree.enabled, out r (Or.inl h2)]),
      onOk_congr _ (ihr _) (fun i h1 h2 => by simp [Tree.enabled, out l (Or.inr h1)])⟩

theorem allOff_iff (g : Nat → Bool) (t : Tree) : ∀ k, AllOff g t k ↔ ∀ i, t.enabled g k i = false := by
  induction t with
  | leaf b =>
    intro k
    simp only [AllOff, Tree.enabled]
    constructor
    · rintro ⟨rfl, h⟩ i
      by_cases hi : i = k
      · subst hi; simp [h]
      · simp [hi]
    · intro h
      have := h k
      cases b <;> simp_all
  | and l r ihl ihr => intro k; simp only [AllOff, Tree.enabled, ihl, ihr, Bool.or_eq_false_iff]; exact ⟨fun h i => ⟨h.1 i, h.2 i⟩, fun h => ⟨fun i => (h i).1, fun i => (h i).2⟩⟩
  | or l r ihl ihr => intro k; simp only [AllOff, Tree.enabled, ihl, ihr, Bool.or_eq_false_iff]; exact ⟨fun h i => ⟨h.1 i, h.2 i⟩, fun h => ⟨fun i => (h i).1, fun i => (h i).2⟩⟩

/-- The predicate that the generated code evaluates is the condition. -/
theorem runSat_initial (t : Tree) (g x : Nat → Bool) (hx : ∀ i, x i = true → t.enabled g 0 i = true)
    (hon : (∃ l r, t = .and l r) ∨ ∃ i, t.enabled g 0 i = true) : runSat (over x (initial t g)) t 0 = t.satisfied (t.enabled g 0) x := by
  obtain ⟨n, s, ws, hm, hb, hw, he⟩ := initial_eq t g
  rw [he]
  have hOn := onOk_enabled g t 0
  have hnone := cond_none (x := x) t hOn
  unfold Tree.satisfied
  cases hst : whenState ws n 0 with
  | false =>
    have hoff := off_of_whenState t hm (fun h => by cases h) hw hst
    rw [hnone.2 hoff, over_off hx t hOn hoff]
    cases t with
    | leaf b =>
      rw [show n = _ from hm] at hw hst
      simp [WsOk] at hw
      simp [whenState, hw] at hst
    | and l r =>
      have : statusAssign ws n 0 = subtreeAssign n true 0 := by
        obtain ⟨c, l', r', rfl, _, ml, mr⟩ := hm
        simp only [whenState, Bool.or_eq_false_iff] at hst
        simp only [statusAssign, hst.1, hst.2]
      rw [this, subtreeAssign_ok _ hm hb hoff]
      rfl
    | or l r =>
      have : statusAssign ws n 0 = subtreeAssign n true 0 := by
        obtain ⟨c, l', r', rfl, _, ml, mr⟩ := hm
        simp only [whenState, Bool.or_eq_false_iff] at hst
        simp only [statusAssign, hst.1, hst.2]
      rw [this, subtreeAssign_ok _ hm hb hoff]
      rfl
  | true =>
    have hsome : ∀ {p : Bool}, ((∃ l r, t = .and l r) → p = true) → (t.cond (t.enabled g 0) x 0).getD p = (t.cond (t.enabled g 0) x 0).getD true := by
      intro p hp
      cases hc : t.cond (t.enabled g 0) x 0 with
      | some v => rfl
      | none =>
        rcases hon with h | ⟨i, hi⟩
        · rw [hp h]
        · have := (allOff_iff g t 0).1 (hnone.1 hc) i
          rw [this] at hi
          cases hi
    cases t with
    | leaf b => rw [statusAssign_ok hx _ (aA := true) (oA := true) (p := false) hm (fun _ => rfl) (fun _ => rfl) (fun h => by cases h) hb hw hOn hst]; exact hsome (fun h => by obtain ⟨_, _, h⟩ := h; cases h)
    | and l r =>
      rw [statusAssign_ok hx _ (aA := true) (oA := false) (p := true) hm (fun _ => rfl) (fun h => by cases h) (fun h => by cases h) hb hw hOn hst]
    | or l r =>
      rw [statusAssign_ok hx _ (aA := false) (oA := true) (p := false) hm (fun h => by cases h) (fun _ => rfl) (fun h => by cases h) hb hw hOn hst]
      exact hsome (fun h => by obtain ⟨_, _, h⟩ := h; cases h)

/-! The status of an enabled clause is initially unset. -/

theorem allOff_on {g on : Nat → Bool} (t : Tree) : ∀ {k i : Nat}, AllOff g t k → OnOk on g t k → k ≤ i → i < k + t.leaves → on i = false := by
  induction t with
  | leaf b =>
    intro k i h1 h2 h3 h4
    simp only [Tree.leaves] at h4
    have : i = k := by omega
    subst this
    rw [show on i = _ from h2, h1.1, h1.2]; rfl
  | and l r ihl ihr =>
    intro k i h1 h2 h3 h4
    simp only [Tree.leaves] at h4
    by_cases hi : i < k + l.leaves
    · exact ihl h1.1 h2.1 h3 hi
    · exact ihr h1.2 h2.2 (by omega) (by omega)
  | or l r ihl ihr =>
    intro k i h1 h2 h3 h4
    simp only [Tree.leaves] at h4
    by_cases hi : i < k + l.leaves
    · exact ihl h1.1 h2.1 h3 hi
    · exact ihr h1.2 h2.2 (by omega) (by omega)

theorem statusAssign_off {g ws on : Nat → Bool} (t : Tree) : ∀ {n : Node} {aA oA p pa : Bool} {k : Nat} {a : Nat × St}, Marked t n aA oA p →
    (pa = true → n.amb = true) → WsOk g ws n k pa → OnOk on g t k → a ∈ statusAssign ws n k → on a.1 = false := by
  have key : ∀ {l r : Tree} {op : Bool} {l' r' : Node} {c aA oA aA' oA' p q : Bool} {k : Nat} {a : Nat × St}, Marked l l' aA oA p → Marked r r' aA' oA' q →
      (∀ {k : Nat} {pa : Bool}, (pa = true → l'.amb = true) → WsOk g ws l' k pa → OnOk on g l k → a ∈ statusAssign ws l' k → on a.1 = false) →
      (∀ {k : Nat} {pa : Bool}, (pa = true → r'.amb = true) → WsOk g ws r' k pa → OnOk on g r k → a ∈ statusAssign ws r' k → on a.1 = false) →
      WsOk g ws (.node op (l'.amb && r'.amb && c) l' r') k false → OnOk on g l k ∧ OnOk on g r (k + l.leaves) →
      a ∈ statusAssign ws (.node op (l'.amb && r'.amb && c) l' r') k → on a.1 = false := by
    intro l r op l' r' c aA oA aA' oA' p q k a ml mr ihl ihr hw ho ha
    have hpl : (l'.amb && r'.amb && c) = true → l'.amb = true := by simp_all
    have hpr : (l'.amb && r'.amb && c) = true → r'.amb = true := by simp_all
    simp only [WsOk, ml.leaves] at hw
    simp only [statusAssign, ml.leaves] at ha
    have offl := off_of_whenState l ml hpl hw.1
    have offr := off_of_whenState r mr hpr hw.2
    have inl : whenState ws l' k = false → k ≤ a.1 → a.1 < k + l'.leaves → on a.1 = false := fun h h1 h2 =>
      allOff_on l (offl h) ho.1 h1 (by rw [← ml.leaves]; exact h2)
    have inr : whenState ws r' (k + l.leaves) = false → k + l.leaves ≤ a.1 → a.1 < k + l.leaves + r'.leaves → on a.1 = false := fun h h1 h2 =>
      allOff_on r (offr h) ho.2 h1 (by rw [← mr.leaves]; exact h2)
    split at ha
    · next hl hr =>
      have hrange := subtreeAssign_range _ ha
      simp only [Node.leaves] at hrange
      by_cases hi : a.1 < k + l'.leaves
      · exact inl hl hrange.1 hi
      · rw [ml.leaves] at hi hrange
        exact inr hr (by omega) (by omega)
    · next hl hr =>
      rcases List.mem_append.1 ha with ha | ha
      · have := subtreeAssign_range _ ha; exact inl hl this.1 this.2
      · exact ihr hpr hw.2 ho.2 ha
    · next hl hr =>
      rcases List.mem_append.1 ha with ha | ha
      · exact ihl hpl hw.1 ho.1 ha
      · have := subtreeAssign_range _ ha; exact inr hr this.1 this.2
    · rcases List.mem_append.1 ha with ha | ha
      · exact ihl hpl hw.1 ho.1 ha
      · exact ihr hpr hw.2 ho.2 ha
  induction t with
  | leaf b => intro n aA oA p pa k a hm _ _ _ ha; rw [show n = _ from hm] at ha; simp [statusAssign] at ha
  | and l r ihl ihr =>
    rintro n aA oA p pa k a ⟨c, l', r', rfl, _, ml, mr⟩ _ hw ho ha
    exact key ml mr (fun h1 h2 h3 h4 => ihl ml h1 h2 h3 h4) (fun h1 h2 h3 h4 => ihr mr h1 h2 h3 h4) hw ho ha
  | or l r ihl ihr =>
    rintro n aA oA p pa k a ⟨c, l', r', rfl, _, ml, mr⟩ _ hw ho ha
    exact key ml mr (fun h1 h2 h3 h4 => ihl ml h1 h2 h3 h4) (fun h1 h2 h3 h4 => ihr mr h1 h2 h3 h4) hw ho ha

theorem base_on {g on : Nat → Bool} {s : Nat → St} (t : Tree) : ∀ {n : Node} {aA oA p : Bool} {k i : Nat}, Marked t n aA oA p → BaseOk g s n k → OnOk on g t k →
    k ≤ i → i < k + t.leaves → on i = true → s i = .unsat := by
  induction t with
  | leaf b =>
    intro n aA oA p k i hm hb ho h1 h2 hi
    simp only [Tree.leaves] at h2
    have : i = k := by omega
    subst this
    rw [show n = _ from hm] at hb
    rw [show on i = _ from ho] at hi
    simp only [BaseOk] at hb
    rw [hb]
    cases b <;> cases hg : g i <;> simp_all
  | and l r ihl ihr =>
    rintro n aA oA p k i ⟨c, l', r', rfl, _, ml, mr⟩ hb ho h1 h2 hi
    simp only [Tree.leaves] at h2
    simp only [BaseOk, ml.leaves] at hb
    by_cases h : i < k + l.leaves
    · exact ihl ml hb.1 ho.1 h1 h hi
    · exact ihr mr hb.2 ho.2 (by omega) (by omega) hi
  | or l r ihl ihr =>
    rintro n aA oA p k i ⟨c, l', r', rfl, _, ml, mr⟩ hb ho h1 h2 hi
    simp only [Tree.leaves] at h2
    simp only [BaseOk, ml.leaves] at hb
    by_cases h : i < k + l.leaves
    · exact ihl ml hb.1 ho.1 h1 h hi
    · exact ihr mr hb.2 ho.2 (by omega) (by omega) hi

theorem initial_enabled {t : Tree} {g : Nat → Bool} {i : Nat} (h : t.enabled g 0 i = true) : initial t g i = .unsat := by
  obtain ⟨n, s, ws, hm, hb, hw, he⟩ := initial_eq t g
  have hr := enabled_range t h
  rw [he, assignAll_notin]
  · exact base_on t hm hb (onOk_enabled g t 0) hr.1 hr.2 h
  · rintro a ha rfl
    have := statusAssign_off t hm (fun h => by cases h) hw (onOk_enabled g t 0) ha
    rw [this] at h
    cases h

theorem assign_ne_sat {n : Node} {ws : Nat → Bool} : ∀ {k : Nat} {a : Nat × St}, a ∈ statusAssign ws n k → a.2 ≠ .sat := by
  have sub : ∀ (n : Node) {b : Bool} {k : Nat} {a : Nat × St}, a ∈ subtreeAssign n b k → a.2 ≠ .sat := by
    intro n
    induction n with
    | leaf _ _ oa =>
      intro b k a h
      simp only [subtreeAssign] at h
      split at h
      · simp at h; subst h; simp
      · split at h
        · simp at h; subst h; simp
        · simp at h
    | node isAnd _ l r ihl ihr =>
      intro b k a h
      simp only [subtreeAssign] at h
      split at h
      · rcases List.mem_append.1 h with h | h
        · exact ihl h
        · exact ihr h
      · split at h
        · exact ihl h
        · exact ihr h
  induction n with
  | leaf => intro k a h; simp [statusAssign] at h
  | node isAnd amb l r ihl ihr =>
    intro k a h
    simp only [statusAssign] at h
    split at h
    · exact sub _ h
    all_goals
      rcases List.mem_append.1 h with h | h
      · first | exact ihl h | exact sub _ h
      · first | exact ihr h | exact sub _ h

theorem assignAll_ne_sat (as : List (Nat × St)) : ∀ (s : Nat → St) (i : Nat), s i ≠ .sat → (∀ a ∈ as, a.2 ≠ .sat) → assignAll s as i ≠ .sat := by
  induction as with
  | nil => intro s i h _; exact h
  | cons a as ih =>
    intro s i h ha
    refine ih (upd s a.1 a.2) i ?_ (fun b hb => ha b (by simp [hb]))
    simp only [upd_apply]
    split
    · exact ha a (by simp)
    · exact h

theorem initial_ne_sat (t : Tree) (g : Nat → Bool) (i : Nat) : initial t g i ≠ .sat := by
  have hf : ∀ (L : List Nat), L.foldl (fun s i => if !g i then upd s i .run else s) (fun _ => St.unsat) i ≠ .sat := by
    intro L; rw [foldl_run]; split <;> simp
  simp only [initial]
  split
  · exact hf _
  · obtain ⟨ws, _, h2⟩ := runCode_eq (g := g) (s := (collect (paint t false false false false).1 0 false false).2.2.foldl (fun s i => if !g i then upd s i .run else s) (fun _ => .unsat)) (collect (paint t false false false false).1 0 false false).1 (collect (paint t false false false false).1 0 false false).2.1 (fun _ => true)
    rw [h2]
    exact assignAll_ne_sat _ _ _ (hf _) (fun a ha => assign_ne_sat ha)

/-! Which statements are compiled as an `or` of all clauses. -/

def Tree.hasAnd : Tree → Bool
  | .leaf _ => false
  | .and _ _ => true
  | .or l r => l.hasAnd || r.hasAnd

/-- No right operand of `or` is a parenthesised `or`. -/
def Tree.noRightOr : Tree → Bool
  | .leaf _ => true
  | .and l r => l.noRightOr && r.noRightOr
  | .or l r => l.noRightOr && r.noRightOr && (match r with | .or _ _ => false | _ => true)

theorem paint_andBelow (t : Tree) : ∀ (aA oA a0 o0 : Bool), t.noRightOr = true → (paint t aA oA a0 o0).2.1 =
    match t with | .leaf _ => a0 | _ => t.hasAnd := by
  induction t with
  | leaf b => intro _ _ _ _ _; rfl
  | and l r _ _ => intro _ _ _ _ _; rfl
  | or l r ihl ihr =>
    intro aA oA a0 o0 h
    simp only [Tree.noRightOr, Bool.and_eq_true] at h
    have hl := ihl aA true false false h.1.1
    have hl' : (paint l aA true false false).2.1 = l.hasAnd := by rw [hl]; cases l <;> rfl
    have hr := ihr aA true (paint l aA true false false).2.1 (paint l aA true false false).2.2 h.1.2
    simp only [paint, hr, Tree.hasAnd]
    cases r with
    | leaf b => simp [hl', Tree.hasAnd]
    | and a b => simp [Tree.hasAnd]
    | or a b => simp at h

theorem allOr_eq {t : Tree} (h : t.noRightOr = true) : allOr t = !t.hasAnd := by
  simp only [allOr, paint_andBelow t _ _ _ _ h]
  cases t <;> rfl

/-- The condition of an `or` of all clauses. -/
theorem cond_or {on x : Nat → Bool} (t : Tree) (h : t.hasAnd = false) : ∀ k, (t.cond on x k = none ↔ ∀ i, k ≤ i → i < k + t.leaves → on i = false) ∧
    ∀ v, t.cond on x k = some v → (v = true ↔ ∃ i, k ≤ i ∧ i < k + t.leaves ∧ on i = true ∧ x i = true) := by
  induction t with
  | leaf b =>
    intro k
    have e : ∀ i, (k ≤ i ∧ i < k + 1) ↔ i = k := fun i => by omega
    constructor
    · simp only [Tree.cond, Tree.leaves]
      constructor
      · intro h i h1 h2
        rw [(e i).1 ⟨h1, h2⟩]
        cases hk : on k <;> simp_all
      · intro h; simp [h k (by omega) (by omega)]
    · intro v hv
      simp only [Tree.cond] at hv
      simp only [Tree.leaves]
      split at hv
      · next ho =>
        cases hv
        constructor
        · intro hx; exact ⟨k, by omega, by omega, ho, hx⟩
        · rintro ⟨i, h1, h2, _, h3⟩
          rw [(e i).1 ⟨h1, h2⟩] at h3
          exact h3
      · cases hv
  | and l r _ _ => simp [Tree.hasAnd] at h
  | or l r ihl ihr =>
    intro k
    simp only [Tree.hasAnd, Bool.or_eq_false_iff] at h
    obtain ⟨l1, l2⟩ := ihl h.1 k
    obtain ⟨r1, r2⟩ := ihr h.2 (k + l.leaves)
    constructor
    · simp only [Tree.cond, Tree.leaves]
      constructor
      · intro hc i h1 h2
        have : l.cond on x k = none ∧ r.cond on x (k + l.leaves) = none := by
          cases hl : l.cond on x k <;> cases hr : r.cond on x (k + l.leaves) <;> simp_all
        by_cases hi : i < k + l.leaves
        · exact l1.1 this.1 i h1 hi
        · exact r1.1 this.2 i (by omega) (by omega)
      · intro hc
        rw [l1.2 (fun i h1 h2 => hc i h1 (by omega)), r1.2 (fun i h1 h2 => hc i (by omega) (by omega))]
    · intro v hv
      simp only [Tree.cond] at hv
      simp only [Tree.leaves]
      have hsplit : (∃ i, k ≤ i ∧ i < k + (l.leaves + r.leaves) ∧ on i = true ∧ x i = true) ↔
          (∃ i, k ≤ i ∧ i < k + l.leaves ∧ on i = true ∧ x i = true) ∨ ∃ i, k + l.leaves ≤ i ∧ i < k + l.leaves + r.leaves ∧ on i = true ∧ x i = true := by
        constructor
        · rintro ⟨i, h1, h2, h3⟩
          by_cases hi : i < k + l.leaves
          · exact Or.inl ⟨i, h1, hi, h3⟩
          · exact Or.inr ⟨i, by omega, by omega, h3⟩
        · rintro (⟨i, h1, h2, h3⟩ | ⟨i, h1, h2, h3⟩)
          · exact ⟨i, h1, by omega, h3⟩
          · exact ⟨i, by omega, by omega, h3⟩
      rw [hsplit]
      have nol : l.cond on x k = none → ¬ ∃ i, k ≤ i ∧ i < k + l.leaves ∧ on i = true ∧ x i = true := by
        rintro hn ⟨i, h1, h2, h3, _⟩
        rw [l1.1 hn i h1 h2] at h3
        cases h3
      have nor : r.cond on x (k + l.leaves) = none → ¬ ∃ i, k + l.leaves ≤ i ∧ i < k + l.leaves + r.leaves ∧ on i = true ∧ x i = true := by
        rintro hn ⟨i, h1, h2, h3, _⟩
        rw [r1.1 hn i h1 h2] at h3
        cases h3
      cases hl : l.cond on x k with
      | none =>
        rw [hl] at hv
        rw [r2 v hv]
        simp [nol hl]
      | some a =>
        cases hr : r.cond on x (k + l.leaves) with
        | none =>
          rw [hl, hr] at hv
          cases hv
          rw [l2 v hl]
          simp [nor hr]
        | some b =>
          rw [hl, hr] at hv
          cases hv
          rw [← l2 a hl, ← r2 b hr]
          simp

theorem guarded_enabled (g : Nat → Bool) (t : Tree) : ∀ {k i : Nat}, k ≤ i → i < k + t.leaves → (t.guarded k i && !g i) = !t.enabled g k i := by
  have out : ∀ (t : Tree) {k i : Nat}, (i < k ∨ k + t.leaves ≤ i) → t.enabled g k i = false := by
    intro t k i h
    cases he : t.enabled g k i with
    | false => rfl
    | true => have := enabled_range t he; omega
  have outg : ∀ (t : Tree) {k i : Nat}, (i < k ∨ k + t.leaves ≤ i) → t.guarded k i = false := by
    intro t
    induction t with
    | leaf b => intro k i h; simp only [Tree.leaves] at h; simp [Tree.guarded]; omega
    | and l r ihl ihr => intro k i h; simp only [Tree.leaves] at h; simp [Tree.guarded, ihl (k := k) (i := i) (by omega), ihr (k := k + l.leaves) (i := i) (by omega)]
    | or l r ihl ihr => intro k i h; simp only [Tree.leaves] at h; simp [Tree.guarded, ihl (k := k) (i := i) (by omega), ihr (k := k + l.leaves) (i := i) (by omega)]
  induction t with
  | leaf b =>
    intro k i h1 h2
    simp only [Tree.leaves] at h2
    have : i = k := by omega
    subst this
    simp [Tree.guarded, Tree.enabled]
  | and l r ihl ihr =>
    intro k i h1 h2
    simp only [Tree.leaves] at h2
    simp only [Tree.guarded, Tree.enabled]
    by_cases hi : i < k + l.leaves
    · rw [out r (Or.inl hi), outg r (Or.inl hi)]; simpa using ihl h1 hi
    · rw [out l (k := k) (Or.inr (by omega)), outg l (k := k) (Or.inr (by omega))]; simpa using ihr (k := k + l.leaves) (by omega) (by omega)
  | or l r ihl ihr =>
    intro k i h1 h2
    simp only [Tree.leaves] at h2
    simp only [Tree.guarded, Tree.enabled]
    by_cases hi : i < k + l.leaves
    · rw [out r (Or.inl hi), outg r (Or.inl hi)]; simpa using ihl h1 hi
    · rw [out l (k := k) (Or.inr (by omega)), outg l (k := k) (Or.inr (by omega))]; simpa using ihr (k := k + l.leaves) (by omega) (by omega)

end Verif.WaitUntil
