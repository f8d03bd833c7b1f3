import Verif.Model.Snzi
import Verif.Proof.Heap
import Mathlib.Algebra.BigOperators.Group.Finset.Basic
import Mathlib.Algebra.Order.BigOperators.Group.Finset
import Mathlib.Tactic.ByContra
/-!
Lemmas for C58. The value of a node counts the completed arrivals at it, its children with a positive count, and the units that calls
in progress have there.
-/
namespace Verif.Snzi
open Verif

/-- What the count of a node stands for: one half is one arrival in progress, and -128 is 128. -/
def vl (c : Int) : Int := if c = half then 1 else if c = -128 then 128 else c

/-- A node whose count is positive has arrived at its parent. -/
def eng (c : Int) : Nat := if c = 0 ∨ c = half then 0 else 1

/-- The units of a call at a node. -/
def w (d p : Nat) : Frame → Nat
  | .arr q ph _ u b => (if b = true ∧ q = p then 1 else 0) + (if par d q = p then u + (if ph = .commit then 1 else 0) else 0)
  | .dep q _ => if q = p then 1 else 0

def ws (d p : Nat) : List Frame → Nat
  | [] => 0
  | f :: fs => w d p f + ws d p fs

def sumW (d n : Nat) (stk : Nat → List Frame) (p : Nat) : Nat := ∑ t ∈ Finset.range n, ws d p (stk t)

def e (d p q : Nat) (c : Int) : Nat := if q < root d ∧ par d q = p then eng c else 0

def sumE (d : Nat) (val : Nat → Val) (p : Nat) : Nat := ∑ q ∈ Finset.range (root d), e d p q (val q).cnt

/-- The call that changed the count of `p` from 0 to one half. -/
def Wit (p : Nat) : Frame → Prop
  | .arr q ph _ _ b => q = p ∧ b = true ∧ (ph = .up ∨ ph = .upWait ∨ ph = .commit)
  | .dep _ _ => False

/-- A call and the call that made it. -/
def Link (d : Nat) : Frame → Frame → Prop
  | .arr q _ _ _ _, .arr p ph _ _ _ => ph = .upWait ∧ q = par d p ∧ p < root d
  | .dep _ _, .arr p ph _ _ b => ph = .undo ∧ p < root d ∧ b = true
  | _, _ => False

def Shape (d : Nat) : List Frame → Prop
  | f :: g :: l => Link d f g ∧ Shape d (g :: l)
  | _ => True

/-- What holds of a call wherever it is. -/
def FOk (d : Nat) (val : Nat → Val) : Frame → Prop
  | .arr q ph x u b =>
    q ≤ root d ∧ (q = root d → u = 0 ∧ b = false ∧ ph = .head) ∧
    (match ph with
      | .head => b = false
      | .add => b = false ∧ 1 ≤ x.cnt
      | .claim => b = false ∧ x.cnt = 0
      | .undo => b = true
      | _ => x.cnt = half ∧ (b = true → x.ver = (val q).ver))
  | .dep q _ => q ≤ root d

structure Inv (d n : Nat) (s : State) : Prop where
  shape : ∀ t, Shape d (s.stk t)
  ok : ∀ t, ∀ f ∈ s.stk t, FOk d s.val f
  bal : ∀ p, p < root d → vl (s.val p).cnt = ((s.held p + sumE d s.val p + sumW d n s.stk p : Nat) : Int)
  balR : s.all = ((s.held (root d) + sumE d s.val (root d) + sumW d n s.stk (root d) : Nat) : Int)
  wit : ∀ p, p < root d → (s.val p).cnt = half → ∃ t, t < n ∧ ∃ f ∈ s.stk t, Wit p f
  le : ∀ p, (s.val p).cnt ≤ 127
  idle : ∀ t, n ≤ t → s.stk t = []

/-! ### The tree -/

theorem root_width (d : Nat) : root d + 2 = 2 * width d ∧ 1 ≤ width d := by
  have h := Nat.one_le_two_pow (n := d)
  simp only [root, width]
  omega

theorem lt_par (d i : Nat) (h : i < root d) : i < par d i ∧ par d i ≤ root d := by
  have := root_width d
  unfold par
  omega

theorem root_lt_par (d : Nat) : root d < par d (root d) := by
  have := root_width d
  unfold par
  omega

theorem leafOf_le (d : Nat) (idx : Int) : leafOf d idx ≤ root d := by
  have h := root_width d
  have hp : (0 : Int) < (width d : Int) := by omega
  have h1 := Int.emod_lt_of_pos (idx / 4) hp
  have h2 := Int.emod_nonneg (idx / 4) (ne_of_gt hp)
  unfold leafOf
  omega

/-! ### Sums -/

theorem sumW_upd (d n : Nat) (stk : Nat → List Frame) (p t : Nat) (v : List Frame) (ht : t < n) :
    sumW d n (upd stk t v) p + ws d p (stk t) = sumW d n stk p + ws d p v := by
  unfold sumW
  have hm : t ∈ Finset.range n := Finset.mem_range.2 ht
  rw [← Finset.add_sum_erase _ _ hm, ← Finset.add_sum_erase _ (fun t => ws d p (stk t)) hm]
  have : ∑ x ∈ (Finset.range n).erase t, ws d p (upd stk t v x) = ∑ x ∈ (Finset.range n).erase t, ws d p (stk x) :=
    Finset.sum_congr rfl fun x hx => by rw [upd_ne _ _ (Finset.ne_of_mem_erase hx)]
  rw [this, upd_same]
  omega

theorem sumE_upd (d : Nat) (val : Nat → Val) (p q : Nat) (v : Val) :
    sumE d (upd val q v) p + e d p q (val q).cnt = sumE d val p + e d p q v.cnt := by
  unfold sumE
  by_cases hq : q < root d
  · have hm : q ∈ Finset.range (root d) := Finset.mem_range.2 hq
    rw [← Finset.add_sum_erase _ _ hm, ← Finset.add_sum_erase _ (fun q => e d p q (val q).cnt) hm]
    have : ∑ x ∈ (Finset.range (root d)).erase q, e d p x (upd val q v x).cnt
        = ∑ x ∈ (Finset.range (root d)).erase q, e d p x (val x).cnt :=
      Finset.sum_congr rfl fun x hx => by rw [upd_ne _ _ (Finset.ne_of_mem_erase hx)]
    rw [this, upd_same]
    omega
  · have h0 : ∀ c, e d p q c = 0 := fun c => by simp [e, hq]
    rw [h0, h0]
    refine congrArg (· + 0) (Finset.sum_congr rfl fun x hx => ?_)
    rw [upd_ne]
    rintro rfl
    exact hq (Finset.mem_range.1 hx)

theorem ws_le_sumW (d n : Nat) (stk : Nat → List Frame) (p t : Nat) (ht : t < n) : ws d p (stk t) ≤ sumW d n stk p :=
  Finset.single_le_sum (f := fun t => ws d p (stk t)) (fun _ _ => Nat.zero_le _) (Finset.mem_range.2 ht)

theorem ws_two (d n : Nat) (stk : Nat → List Frame) (p t u : Nat) (ht : t < n) (hu : u < n) (h : t ≠ u) :
    ws d p (stk t) + ws d p (stk u) ≤ sumW d n stk p := by
  have h1 := sumW_upd d n stk p t [] ht
  have h2 := ws_le_sumW d n (upd stk t []) p u hu
  rw [upd_ne _ _ (Ne.symm h)] at h2
  simp only [ws] at h1
  omega

theorem e_le_sumE (d : Nat) (val : Nat → Val) (p q : Nat) : e d p q (val q).cnt ≤ sumE d val p := by
  by_cases hq : q < root d
  · exact Finset.single_le_sum (f := fun q => e d p q (val q).cnt) (fun _ _ => Nat.zero_le _) (Finset.mem_range.2 hq)
  · simp [e, hq]

theorem w_le_ws (d p : Nat) (f : Frame) (l : List Frame) (h : f ∈ l) : w d p f ≤ ws d p l := by
  induction l with
  | nil => simp at h
  | cons g l ih =>
    simp only [ws]
    rcases List.mem_cons.1 h with rfl | h
    · omega
    · have := ih h; omega

theorem w_wit (d p : Nat) (f : Frame) (h : Wit p f) : 1 ≤ w d p f := by
  cases f with
  | arr q ph x u b => simp only [Wit] at h; simp [w, h.1, h.2.1]
  | dep => simp [Wit] at h

/-! ### Consequences of the invariant -/

theorem Inv.half_only {d n : Nat} {s : State} (h : Inv d n s) {p : Nat} (hp : p < root d) (hh : (s.val p).cnt = half) :
    s.held p = 0 ∧ sumE d s.val p = 0 ∧ ∀ t f fs, t < n → s.stk t = f :: fs → w d p f = 0 ∨ Wit p f := by
  obtain ⟨u, hu, g, hg, hw⟩ := h.wit p hp hh
  have hb := h.bal p hp
  have hv : vl (s.val p).cnt = 1 := by simp [vl, hh]
  rw [hv] at hb
  have h1 := w_wit d p g hw
  have h2 := w_le_ws d p g _ hg
  have h3 := ws_le_sumW d n s.stk p u hu
  refine ⟨by omega, by omega, fun t f fs ht hs => ?_⟩
  by_cases htu : t = u
  · subst htu
    rw [hs] at hg h2 h3
    rcases List.mem_cons.1 hg with rfl | hg
    · exact Or.inr hw
    · have h4 := w_le_ws d p g _ hg
      simp only [ws] at h3
      left; omega
  · have h5 := ws_two d n s.stk p t u ht hu htu
    rw [hs] at h5
    simp only [ws] at h5
    left; omega

/-- How a step of thread `t` that changes the value of node `q` keeps the invariant. -/
theorem Inv.step {d n : Nat} {s : State} (h : Inv d n s) (t q : Nat) (v : Val) (a : Int) (st : List Frame) (hl : Nat → Nat)
    (ht : t < n) (hs : Shape d st) (hok : ∀ f ∈ st, FOk d (upd s.val q v) f)
    (hver : v.ver = (s.val q).ver ∨ q < root d ∧ (s.val q).cnt = 0)
    (hbal : ∀ p, p < root d → vl (upd s.val q v p).cnt - vl (s.val p).cnt
      = ((hl p : Int) - s.held p) + ((e d p q v.cnt : Int) - e d p q (s.val q).cnt) + ((ws d p st : Int) - ws d p (s.stk t)))
    (hbalR : a - s.all = ((hl (root d) : Int) - s.held (root d)) + ((e d (root d) q v.cnt : Int) - e d (root d) q (s.val q).cnt)
      + ((ws d (root d) st : Int) - ws d (root d) (s.stk t)))
    (hw : ∀ p, p < root d → (upd s.val q v p).cnt = half → (∃ f ∈ st, Wit p f) ∨ (s.val p).cnt = half ∧ ∀ f ∈ s.stk t, ¬ Wit p f)
    (hle : v.cnt ≤ 127) : Inv d n ⟨upd s.val q v, a, upd s.stk t st, hl⟩ := by
  constructor
  · intro t'
    show Shape d (upd s.stk t st t')
    rw [upd_apply]; split
    · exact hs
    · exact h.shape t'
  · intro t' f
    show f ∈ upd s.stk t st t' → FOk d (upd s.val q v) f
    rw [upd_apply]
    split
    · exact hok f
    · intro hf
      have h1 := h.ok t' f hf
      cases f with
      | dep => exact h1
      | arr r ph x u b =>
        refine ⟨h1.1, h1.2.1, ?_⟩
        have h2 := h1.2.2
        have key : (x.cnt = half ∧ (b = true → x.ver = (s.val r).ver)) →
            (x.cnt = half ∧ (b = true → x.ver = (upd s.val q v r).ver)) := by
          rintro ⟨hx, hx2⟩
          refine ⟨hx, fun hb => ?_⟩
          rw [upd_apply]
          split
          · next hrq =>
            subst hrq
            rcases hver with hver | ⟨hq, hz⟩
            · rw [hver]; exact hx2 hb
            · exfalso
              have hbq := h.bal r hq
              have h3 := w_le_ws d r _ _ hf
              have h4 : t' < n ∨ ¬ t' < n := Classical.em _
              have h5 : 1 ≤ w d r (.arr r ph x u b) := by simp [w, hb]
              rw [hz] at hbq
              have h6 : vl 0 = 0 := by decide
              rw [h6] at hbq
              rcases h4 with h4 | h4
              · have h7 := ws_le_sumW d n s.stk r t' h4
                omega
              · rw [h.idle t' (by omega)] at hf; simp at hf
          · exact hx2 hb
        cases ph <;> first | exact h2 | exact key h2
  · intro p hp
    have h1 := h.bal p hp
    have h2 := sumW_upd d n s.stk p t st ht
    have h3 := sumE_upd d s.val p q v
    have h4 := hbal p hp
    show vl (upd s.val q v p).cnt = ((hl p + sumE d (upd s.val q v) p + sumW d n (upd s.stk t st) p : Nat) : Int)
    omega
  · have h1 := h.balR
    have h2 := sumW_upd d n s.stk (root d) t st ht
    have h3 := sumE_upd d s.val (root d) q v
    show a = ((hl (root d) + sumE d (upd s.val q v) (root d) + sumW d n (upd s.stk t st) (root d) : Nat) : Int)
    omega
  · intro p hp hh
    rcases hw p hp hh with ⟨f, hf, hf2⟩ | ⟨h1, h2⟩
    · exact ⟨t, ht, f, by simpa using hf, hf2⟩
    · obtain ⟨u, hu, f, hf, hf2⟩ := h.wit p hp h1
      refine ⟨u, hu, f, ?_, hf2⟩
      have : u ≠ t := by rintro rfl; exact h2 f hf hf2
      show f ∈ upd s.stk t st u
      rw [upd_ne _ _ this]; exact hf
  · intro p
    show (upd s.val q v p).cnt ≤ 127
    rw [upd_apply]; split
    · exact hle
    · exact h.le p
  · intro t' ht'
    show upd s.stk t st t' = []
    rw [upd_ne _ _ (by omega)]; exact h.idle t' ht'

theorem upd_self {α : Type u} (f : Nat → α) (a : Nat) : upd f a (f a) = f := by
  funext x; rw [upd_apply]; split
  · next h => rw [h]
  · rfl

/-- A step that changes no value of a node other than the root. -/
theorem Inv.local {d n : Nat} {s : State} (h : Inv d n s) (t : Nat) (a : Int) (st : List Frame) (hl : Nat → Nat)
    (ht : t < n) (hs : Shape d st) (hok : ∀ f ∈ st, FOk d s.val f)
    (hbal : ∀ p, p < root d → (s.held p : Int) + ws d p (s.stk t) = hl p + ws d p st)
    (hbalR : a - s.all = ((hl (root d) : Int) - s.held (root d)) + ((ws d (root d) st : Int) - ws d (root d) (s.stk t)))
    (hw : ∀ p, p < root d → (s.val p).cnt = half → (∃ f ∈ st, Wit p f) ∨ ∀ f ∈ s.stk t, ¬ Wit p f) :
    Inv d n ⟨s.val, a, upd s.stk t st, hl⟩ := by
  have := h.step t 0 (s.val 0) a st hl ht hs (by rw [upd_self]; exact hok) (Or.inl rfl)
    (by intro p hp; rw [upd_self]; have := hbal p hp; omega) (by omega)
    (by intro p hp hh; rw [upd_self] at hh; rcases hw p hp hh with h1 | h1
        · exact Or.inl h1
        · exact Or.inr ⟨hh, h1⟩) (h.le 0)
  rwa [upd_self] at this

theorem inv_start (d n : Nat) : Inv d n start := by
  constructor
  · intro t; exact trivial
  · intro t f hf; simp [start] at hf
  · intro p hp; simp [start, sumE, sumW, e, eng, ws, vl, half]
  · simp [start, sumE, sumW, e, eng, ws]
  · intro p hp hh; simp [start, half] at hh
  · intro p; simp [start]
  · intro t _; rfl

theorem Shape.tail {d : Nat} {f : Frame} {l : List Frame} (h : Shape d (f :: l)) : Shape d l := by
  cases l with
  | nil => trivial
  | cons g l => exact h.2

theorem Shape.swap {d : Nat} {f f' : Frame} {l : List Frame} (h : Shape d (f :: l)) (hl : ∀ g, Link d f g → Link d f' g) :
    Shape d (f' :: l) := by
  cases l with
  | nil => trivial
  | cons g l => exact ⟨hl g h.1, h.2⟩

/-- The same call further on. -/
theorem Shape.arr {d q : Nat} {ph ph' : Ph} {x x' : Val} {u u' : Nat} {b b' : Bool} {l : List Frame}
    (h : Shape d (.arr q ph x u b :: l)) : Shape d (.arr q ph' x' u' b' :: l) :=
  h.swap fun g hg => by cases g <;> exact hg

theorem Shape.dep {d q q' : Nat} {x x' : Option Val} {l : List Frame} (h : Shape d (.dep q x :: l)) : Shape d (.dep q' x' :: l) :=
  h.swap fun g hg => by cases g <;> exact hg

/-- An arrival at `q` that is counted there returns. -/
theorem Inv.ret {d n : Nat} {s : State} (h : Inv d n s) {t q : Nat} {ph : Ph} {x : Val} {u : Nat} {b : Bool} {fs : List Frame} (ht : t < n)
    (hs : s.stk t = .arr q ph x u b :: fs) (a : Int)
    (hq : q < root d ∧ ph = .undo ∧ u = 0 ∧ a = s.all ∨ q = root d ∧ a = s.all + 1) : Inv d n (retArr { s with all := a } t q fs) := by
  have hsh := h.shape t
  rw [hs] at hsh
  have hok := fun f hf => h.ok t f (by rw [hs]; exact List.mem_cons_of_mem _ hf)
  have hf := h.ok t (.arr q ph x u b) (by rw [hs]; simp)
  have hR := root_lt_par d
  have hnw : ∀ p, p < root d → ¬ Wit p (.arr q ph x u b) := by
    rintro p hp ⟨h1, h2, h3⟩
    rcases hq with hq | hq
    · rw [hq.2.1] at h3; simp at h3
    · omega
  cases fs with
  | nil =>
    refine h.local t a [] (upd s.held q (s.held q + 1)) ht trivial (by simp) ?_ ?_ ?_
    · intro p hp
      rw [hs]
      simp only [ws, w, upd_apply]
      obtain ⟨hf1, hf2, hf3⟩ := hf
      rcases hq with ⟨hq, rfl, rfl, ha⟩ | ⟨rfl, ha⟩
      · simp only at hf3
        subst hf3
        by_cases hpq : q = p
        · subst hpq; simp
        · simp [hpq, Ne.symm hpq]
      · obtain ⟨rfl, rfl, rfl⟩ := hf2 rfl
        have : ¬ p = root d := by omega
        simp [this]
    · rw [hs]
      simp only [ws, w, upd_apply]
      obtain ⟨hf1, hf2, hf3⟩ := hf
      rcases hq with ⟨hq, rfl, rfl, ha⟩ | ⟨rfl, ha⟩
      · simp only at hf3
        subst hf3
        have : ¬ root d = q := by omega
        have h' : ¬ q = root d := by omega
        simp [this, h', ha]
      · obtain ⟨rfl, rfl, rfl⟩ := hf2 rfl
        simp [ha]
    · intro p hp hh
      right
      intro f hf'
      rw [hs] at hf'
      rw [List.mem_singleton.1 hf']
      exact hnw p hp
  | cons g fs =>
    have hl := hsh.1
    cases g with
    | dep => exact absurd hl (by simp [Link])
    | arr p ph' x' u' b' =>
      obtain ⟨rfl, rfl, hp⟩ := hl
      have hg := hok _ (List.mem_cons_self ..)
      refine h.local t a (.arr p .commit x' u' b' :: fs) s.held ht hsh.2.arr ?_ ?_ ?_ ?_
      · intro f hf'
        rcases List.mem_cons.1 hf' with rfl | hf'
        · refine ⟨hg.1, fun hr => ?_, hg.2.2⟩
          omega
        · exact hok f (List.mem_cons_of_mem _ hf')
      · intro r hr
        rw [hs]
        simp only [ws, w]
        obtain ⟨hf1, hf2, hf3⟩ := hf
        rcases hq with ⟨hq, rfl, rfl, ha⟩ | ⟨hq, ha⟩
        · simp only at hf3
          subst hf3
          by_cases h1 : par d p = r <;> simp [h1]
          omega
        · obtain ⟨rfl, rfl, rfl⟩ := hf2 hq
          have h1 : ¬ par d p = r := by omega
          simp [h1]
      · rw [hs]
        simp only [ws, w]
        obtain ⟨hf1, hf2, hf3⟩ := hf
        rcases hq with ⟨hq, rfl, rfl, ha⟩ | ⟨hq, ha⟩
        · have h1 : ¬ par d p = root d := by omega
          simp [h1, ha]
        · obtain ⟨rfl, rfl, rfl⟩ := hf2 hq
          simp [ha, hq]
      · intro r hr hh
        by_cases h1 : ∃ f ∈ s.stk t, Wit r f
        · left
          obtain ⟨f, hf', hw⟩ := h1
          rw [hs] at hf'
          rcases List.mem_cons.1 hf' with rfl | hf'
          · exact absurd hw (hnw r hr)
          · rcases List.mem_cons.1 hf' with rfl | hf'
            · exact ⟨_, List.mem_cons_self .., hw.1, hw.2.1, by simp⟩
            · exact ⟨f, List.mem_cons_of_mem _ hf', hw⟩
        · right
          intro f hf' hw
          exact h1 ⟨f, hf', hw⟩


theorem ws_cons (d p : Nat) (f : Frame) (l : List Frame) : ws d p (f :: l) = w d p f + ws d p l := rfl

/-- A step of the innermost call within itself. -/
theorem Inv.go {d n : Nat} {s : State} (h : Inv d n s) {t : Nat} {f f' : Frame} {fs : List Frame} (ht : t < n)
    (hs : s.stk t = f :: fs) (hsh : Shape d (f' :: fs)) (hok : FOk d s.val f') (hw : ∀ p, p ≤ root d → w d p f' = w d p f)
    (hwit : ∀ p, p < root d → (s.val p).cnt = half → Wit p f → Wit p f') :
    Inv d n { s with stk := upd s.stk t (f' :: fs) } := by
  have hok' := fun f hf => h.ok t f (by rw [hs]; exact List.mem_cons_of_mem _ hf)
  refine h.local t s.all (f' :: fs) s.held ht hsh ?_ ?_ ?_ ?_
  · intro g hg
    rcases List.mem_cons.1 hg with rfl | hg
    · exact hok
    · exact hok' g hg
  · intro p hp; rw [hs, ws_cons, ws_cons, hw p (by omega)]
  · rw [hs, ws_cons, ws_cons, hw _ (le_refl _)]; omega
  · intro p hp hh
    by_cases h1 : ∃ g ∈ s.stk t, Wit p g
    · left
      obtain ⟨g, hg, hw'⟩ := h1
      rw [hs] at hg
      rcases List.mem_cons.1 hg with rfl | hg
      · exact ⟨_, List.mem_cons_self .., hwit p hp hh hw'⟩
      · exact ⟨g, List.mem_cons_of_mem _ hg, hw'⟩
    · right
      intro g hg hw'
      exact h1 ⟨g, hg, hw'⟩

/-- A step of the innermost call `f`, which changes the value of node `q`, and leaves the calls `st` above the rest. -/
theorem Inv.swap {d n : Nat} {s : State} (h : Inv d n s) {t q : Nat} {v : Val} {f : Frame} {st fs : List Frame} (ht : t < n)
    (hq : q < root d) (hs : s.stk t = f :: fs) (hsh : Shape d (st ++ fs)) (hok : ∀ g ∈ st, FOk d (upd s.val q v) g)
    (hst : st.length ≤ 1)
    (hver : v.ver = (s.val q).ver ∨ (s.val q).cnt = 0)
    (hbal : ∀ p, p ≤ root d → (if p = q then vl v.cnt - vl (s.val q).cnt else 0)
      = ((e d p q v.cnt : Int) - e d p q (s.val q).cnt) + ((ws d p st : Int) - w d p f))
    (hw1 : v.cnt = half → ∃ g ∈ st, Wit q g)
    (hw2 : ∀ p, p ≠ q → ¬ Wit p f)
    (hle : v.cnt ≤ 127) : Inv d n { s with val := upd s.val q v, stk := upd s.stk t (st ++ fs) } := by
  have hok' := fun f hf => h.ok t f (by rw [hs]; exact List.mem_cons_of_mem _ hf)
  have hws : ∀ p, ws d p (st ++ fs) = ws d p st + ws d p fs := by
    intro p
    match st, hst with
    | [], _ => simp [ws]
    | [g], _ => simp [ws]
  refine h.step t q v s.all (st ++ fs) s.held ht hsh ?_ ?_ ?_ ?_ ?_ hle
  · intro g hg
    rcases List.mem_append.1 hg with hg | hg
    · exact hok g hg
    · have h1 := hok' g hg
      cases g with
      | dep => exact h1
      | arr r ph x u b =>
        refine ⟨h1.1, h1.2.1, ?_⟩
        have h2 := h1.2.2
        have key : (x.cnt = half ∧ (b = true → x.ver = (s.val r).ver)) →
            (x.cnt = half ∧ (b = true → x.ver = (upd s.val q v r).ver)) := by
          rintro ⟨hx, hx2⟩
          refine ⟨hx, fun hb => ?_⟩
          rw [upd_apply]
          split
          · next hrq =>
            subst hrq
            rcases hver with hver | hz
            · rw [hver]; exact hx2 hb
            · exfalso
              have hbq := h.bal r hq
              have h3 := w_le_ws d r _ _ (show Frame.arr r ph x u b ∈ s.stk t by rw [hs]; exact List.mem_cons_of_mem _ hg)
              have h5 : 1 ≤ w d r (.arr r ph x u b) := by simp [w, hb]
              rw [hz] at hbq
              have h6 : vl 0 = 0 := by decide
              rw [h6] at hbq
              have h7 := ws_le_sumW d n s.stk r t ht
              omega
          · exact hx2 hb
        cases ph <;> first | exact h2 | exact key h2
  · rcases hver with h1 | h1
    · exact Or.inl h1
    · exact Or.inr ⟨hq, h1⟩
  · intro p hp
    have h1 := hbal p (by omega)
    rw [hs, ws_cons, hws, upd_apply]
    split
    · next h2 => subst h2; rw [if_pos rfl] at h1; omega
    · next h2 => rw [if_neg h2] at h1; omega
  · have h1 := hbal (root d) (le_refl _)
    rw [if_neg (by omega)] at h1
    rw [hs, ws_cons, hws]
    omega
  · intro p hp hh
    rw [upd_apply] at hh
    split at hh
    · next h1 =>
      subst h1
      left
      obtain ⟨g, hg, hg2⟩ := hw1 hh
      exact ⟨g, List.mem_append_left _ hg, hg2⟩
    · next h1 =>
      by_cases h2 : ∃ g ∈ s.stk t, Wit p g
      · left
        obtain ⟨g, hg, hw'⟩ := h2
        rw [hs] at hg
        rcases List.mem_cons.1 hg with rfl | hg
        · exact absurd hw' (hw2 p h1)
        · exact ⟨g, List.mem_append_right _ hg, hw'⟩
      · right
        refine ⟨hh, fun g hg hw' => h2 ⟨g, hg, hw'⟩⟩

theorem inv_next {d n : Nat} {s s' : State} {a : Act} (h : Inv d n s) (hn : next d n s a = some s') : Inv d n s' := by
  cases a with
  | arrive t idx =>
    simp only [next] at hn
    split at hn
    · next hc =>
      obtain ⟨ht, hs⟩ := hc
      cases hn
      have hle := leafOf_le d idx
      refine h.local t s.all _ s.held ht trivial ?_ ?_ ?_ ?_
      · intro f hf; rw [List.mem_singleton.1 hf]; exact ⟨hle, fun _ => ⟨rfl, rfl, rfl⟩, rfl⟩
      · intro p hp; simp [hs, ws, w, Snzi.arrive]
      · simp [hs, ws, w, Snzi.arrive]
      · intro p hp hh; right; simp [hs]
    · simp at hn
  | depart t idx =>
    simp only [next] at hn
    split at hn
    · next hc =>
      obtain ⟨ht, hs, hh⟩ := hc
      cases hn
      have hle := leafOf_le d idx
      refine h.local t s.all _ _ ht trivial ?_ ?_ ?_ ?_
      · intro f hf; rw [List.mem_singleton.1 hf]; exact hle
      · intro p hp
        simp only [hs, ws, w, Snzi.depart, upd_apply]
        by_cases h1 : leafOf d idx = p
        · subst h1; simp; omega
        · simp [h1, Ne.symm h1]
      · simp only [hs, ws, w, Snzi.depart, upd_apply]
        by_cases h1 : leafOf d idx = root d
        · simp [← h1]; omega
        · simp [h1, Ne.symm h1]
      · intro p hp hh; right; simp [hs]
    · simp at hn
  | step t =>
    simp only [next] at hn
    split at hn
    swap
    · simp at hn
    next ht =>
    split at hn
    · simp at hn
    next f fs hs =>
    have hsh := h.shape t
    rw [hs] at hsh
    have hf := h.ok t f (by rw [hs]; simp)
    cases f with
    | arr q ph x u b =>
      simp only [stepF] at hn
      split at hn
      · next hq => cases hn; exact h.ret ht hs _ (Or.inr ⟨hq, rfl⟩)
      next hq =>
      obtain ⟨hf1, hf2, hf3⟩ := hf
      have hq' : q < root d := by omega
      have hlt := lt_par d q hq'
      cases ph with
      | head =>
        simp only at hn hf3
        cases hn
        subst hf3
        refine h.go ht hs hsh.arr ⟨hf1, fun hr => absurd hr hq, ?_⟩ ?_ ?_
        · simp only [test1, test2]
          split <;> rename_i hph <;> (split at hph <;> [skip; (split at hph <;> [skip; split at hph])]) <;> simp_all
        · intro p hp
          have : test1 (s.val q) ≠ .commit := by simp only [test1, test2]; repeat' split
                                                 all_goals simp_all
          simp [w, this]
        · intro p hp hh hw; simp [Wit] at hw
      | add =>
        simp only at hn hf3
        obtain ⟨rfl, hx⟩ := hf3
        split at hn
        · next hv =>
          cases hn
          have hle := h.le q
          rw [hv] at hle
          have ht2 : test2 x true = .undo := by
            have h1 : ¬ x.cnt = 0 := by omega
            have h2 : ¬ x.cnt = half := by unfold half; omega
            simp [test2, h1, h2]
          have hinc : (inc x.cnt = -128 ∧ x.cnt = 127) ∨ (inc x.cnt = x.cnt + 1 ∧ x.cnt ≤ 126) := by unfold inc; split <;> omega
          rw [ht2]
          refine h.swap (st := [.arr q .undo x u true]) ht hq' hs hsh.arr ?_ (by simp) (Or.inl (by rw [hv])) ?_ ?_ ?_ ?_
          · intro g hg; rw [List.mem_singleton.1 hg]; exact ⟨hf1, fun hr => absurd hr hq, rfl⟩
          · intro p hp
            have e1 : eng (inc x.cnt) = 1 := by unfold eng half; rw [if_neg]; omega
            have e2 : eng x.cnt = 1 := by unfold eng half; rw [if_neg]; omega
            have e3 : vl (inc x.cnt) - vl x.cnt = 1 := by unfold vl half; repeat' split
                                                          all_goals omega
            rw [hv]
            simp only [e, e1, e2, e3, ws, w]
            by_cases hpq : q = p
            · subst hpq; simp
            · simp [hpq, Ne.symm hpq]
          · simp only; intro hh; unfold half at hh; omega
          · intro p hp hw; simp [Wit] at hw
          · simp only; omega
        · next hv =>
          cases hn
          refine h.go ht hs hsh.arr ⟨hf1, fun hr => absurd hr hq, ?_⟩ ?_ ?_
          · simp only [test2]
            split <;> rename_i hph <;> (split at hph <;> [skip; split at hph]) <;> simp_all
          · intro p hp
            have : test2 (s.val q) false ≠ .commit := by simp only [test2]; repeat' split
                                                         all_goals simp_all
            simp [w, this]
          · intro p hp hh hw; simp [Wit] at hw
      | claim =>
        simp only at hn hf3
        obtain ⟨rfl, hx⟩ := hf3
        split at hn
        · next hv =>
          cases hn
          have ht3 : test3 ⟨half, x.ver + 1⟩ true = .up := by simp [test3]
          rw [ht3]
          refine h.swap (st := [.arr q .up ⟨half, x.ver + 1⟩ u true]) ht hq' hs hsh.arr ?_ (by simp) (Or.inr (by rw [hv, hx])) ?_ ?_ ?_ ?_
          · intro g hg; rw [List.mem_singleton.1 hg]; exact ⟨hf1, fun hr => absurd hr hq, rfl, fun _ => by simp⟩
          · intro p hp
            have e1 : eng half = 0 := by decide
            have e2 : eng 0 = 0 := by decide
            have e3 : vl half - vl 0 = 1 := by decide
            rw [hv, hx]
            simp only [e, e1, e2, e3, ws, w]
            by_cases hpq : q = p
            · subst hpq; simp
            · simp [hpq, Ne.symm hpq]
          · intro _; exact ⟨_, List.mem_cons_self .., rfl, rfl, Or.inl rfl⟩
          · intro p hp hw; simp [Wit] at hw
          · simp [half]
        · next hv =>
          cases hn
          refine h.go ht hs hsh.arr ⟨hf1, fun hr => absurd hr hq, ?_⟩ ?_ ?_
          · simp only [test3]
            split <;> rename_i hph <;> split at hph <;> simp_all
          · intro p hp
            have : test3 (s.val q) false ≠ .commit := by simp only [test3]; repeat' split
                                                         all_goals simp_all
            simp [w, this]
          · intro p hp hh hw; simp [Wit] at hw
      | up =>
        simp only at hn hf3
        cases hn
        have hok' := fun f hf => h.ok t f (by rw [hs]; exact List.mem_cons_of_mem _ hf)
        refine h.local t s.all _ s.held ht ⟨⟨rfl, rfl, hq'⟩, hsh.arr⟩ ?_ ?_ ?_ ?_
        · intro g hg
          rcases List.mem_cons.1 hg with rfl | hg
          · exact ⟨hlt.2, fun _ => ⟨rfl, rfl, rfl⟩, rfl⟩
          rcases List.mem_cons.1 hg with rfl | hg
          · exact ⟨hf1, fun hr => absurd hr hq, hf3⟩
          · exact hok' g hg
        · intro p hp; rw [hs]; simp [ws, w, Snzi.arrive]
        · rw [hs]; simp [ws, w, Snzi.arrive]
        · intro p hp hh
          by_cases h1 : ∃ g ∈ s.stk t, Wit p g
          · left
            obtain ⟨g, hg, hw'⟩ := h1
            rw [hs] at hg
            rcases List.mem_cons.1 hg with rfl | hg
            · exact ⟨_, List.mem_cons_of_mem _ (List.mem_cons_self ..), hw'.1, hw'.2.1, by simp⟩
            · exact ⟨g, List.mem_cons_of_mem _ (List.mem_cons_of_mem _ hg), hw'⟩
          · right
            intro g hg hw'
            exact h1 ⟨g, hg, hw'⟩
      | upWait => simp at hn
      | commit =>
        simp only at hn hf3
        obtain ⟨hx, hx2⟩ := hf3
        split at hn
        · next hv =>
          cases hn
          refine h.swap (st := [.arr q (if b then .undo else .head) x u b]) ht hq' hs hsh.arr ?_ (by simp) (Or.inl (by rw [hv])) ?_ ?_ ?_ ?_
          · intro g hg; rw [List.mem_singleton.1 hg]; exact ⟨hf1, fun hr => absurd hr hq, by cases b <;> rfl⟩
          · intro p hp
            have e1 : eng half = 0 := by decide
            have e2 : eng 1 = 1 := by decide
            have e3 : vl 1 - vl half = 0 := by decide
            rw [hv, hx]
            have e4 : (if b = true then Ph.undo else Ph.head) ≠ .commit := by cases b <;> simp
            simp only [e, e1, e2, e3, ws, w, if_neg e4, hq', true_and]
            by_cases hpq : par d q = p
            · simp [hpq]
            · simp [hpq]
          · intro hh; simp [half] at hh
          · intro p hp hw; exact hp hw.1.symm
          · simp
        · next hv =>
          cases hn
          refine h.go ht hs hsh.arr ⟨hf1, fun hr => absurd hr hq, by cases b <;> rfl⟩ ?_ ?_
          · intro p hp
            have e4 : (if b = true then Ph.undo else Ph.head) ≠ .commit := by cases b <;> simp
            simp only [w, if_neg e4]
            simp
          · rintro p hp hh ⟨rfl, hb, _⟩
            refine absurd ?_ hv
            have h1 := hx2 hb
            cases hval : s.val q with
            | mk c v => rw [hval] at hh h1; cases x; simp_all
      | undo =>
        simp only at hn hf3
        cases u with
        | zero => cases hn; exact h.ret ht hs _ (Or.inl ⟨hq', rfl, rfl, rfl⟩)
        | succ u =>
          simp only at hn
          cases hn
          have hok' := fun f hf => h.ok t f (by rw [hs]; exact List.mem_cons_of_mem _ hf)
          refine h.local t s.all _ s.held ht ⟨⟨rfl, hq', hf3⟩, hsh.arr⟩ ?_ ?_ ?_ ?_
          · intro g hg
            rcases List.mem_cons.1 hg with rfl | hg
            · exact hlt.2
            rcases List.mem_cons.1 hg with rfl | hg
            · exact ⟨hf1, fun hr => absurd hr hq, hf3⟩
            · exact hok' g hg
          · intro p hp; rw [hs]; simp only [ws, w, Snzi.depart]
            by_cases hpq : par d q = p
            · simp [hpq]; omega
            · simp [hpq]
          · rw [hs]; simp only [ws, w, Snzi.depart]
            by_cases hpq : par d q = root d
            · simp [hpq]; omega
            · simp [hpq]
          · intro p hp hh
            by_cases h1 : ∃ g ∈ s.stk t, Wit p g
            · left
              obtain ⟨g, hg, hw'⟩ := h1
              rw [hs] at hg
              rcases List.mem_cons.1 hg with rfl | hg
              · simp [Wit] at hw'
              · exact ⟨g, List.mem_cons_of_mem _ (List.mem_cons_of_mem _ hg), hw'⟩
            · right
              intro g hg hw'
              exact h1 ⟨g, hg, hw'⟩
    | dep q x =>
      simp only [stepF] at hn
      have hok' := fun f hf => h.ok t f (by rw [hs]; exact List.mem_cons_of_mem _ hf)
      split at hn
      · next hq =>
        cases hn
        refine h.local t _ fs s.held ht hsh.tail hok' ?_ ?_ ?_
        · intro p hp
          have : ¬ q = p := by omega
          rw [hs]; simp [ws, w, this]
        · rw [hs]; simp [ws, w, hq]
        · intro p hp hh
          by_cases h1 : ∃ g ∈ s.stk t, Wit p g
          · left
            obtain ⟨g, hg, hw'⟩ := h1
            rw [hs] at hg
            rcases List.mem_cons.1 hg with rfl | hg
            · simp [Wit] at hw'
            · exact ⟨g, hg, hw'⟩
          · right
            intro g hg hw'
            exact h1 ⟨g, hg, hw'⟩
      next hq =>
      have hq1 : q ≤ root d := hf
      have hq' : q < root d := by omega
      have hlt := lt_par d q hq'
      cases x with
      | none => cases hn; exact h.go ht hs hsh.dep hq1 (fun p _ => rfl) (fun p _ _ hw => hw.elim)
      | some x =>
        simp only at hn
        split at hn
        swap
        · cases hn; exact h.go ht hs hsh.dep hq1 (fun p _ => rfl) (fun p _ _ hw => hw.elim)
        next hv =>
        have hle := h.le q
        have hb := h.bal q hq'
        have h1 := ws_le_sumW d n s.stk q t ht
        rw [hs, ws_cons] at h1
        have h2 : w d q (.dep q (some x)) = 1 := by simp [w]
        have h3 : ¬ (s.val q).cnt = half := by
          intro hh
          rcases (h.half_only hq' hh).2.2 t _ _ ht hs with h4 | h4
          · omega
          · exact h4
        rw [hv] at hb hle h3
        have h4 : x.cnt = -128 ∨ 1 ≤ x.cnt := by
          have : 1 ≤ vl x.cnt := by omega
          unfold vl at this
          rw [if_neg h3] at this
          split at this
          · left; assumption
          · right; exact this
        have hdec : (dec x.cnt = 127 ∧ x.cnt = -128) ∨ (dec x.cnt = x.cnt - 1 ∧ 1 ≤ x.cnt) := by unfold dec; split <;> omega
        have e3 : vl (dec x.cnt) - vl x.cnt = -1 := by
          unfold vl half
          repeat' split
          all_goals omega
        have hnh : dec x.cnt ≠ half := by unfold half; omega
        cases hn
        by_cases h5 : x.cnt = 1
        · rw [if_pos h5]
          refine h.swap (st := [Snzi.depart (par d q)]) ht hq' hs hsh.dep ?_ (by simp) (Or.inl (by rw [hv])) ?_ (fun hh => absurd hh hnh)
            (fun p _ hw => hw) (by simp only; omega)
          · intro g hg; rw [List.mem_singleton.1 hg]; exact hlt.2
          · intro p hp
            have h6 : dec 1 = 0 := by decide
            have e1 : eng 0 = 0 := by decide
            have e2 : eng 1 = 1 := by decide
            have e4 : vl 0 - vl 1 = -1 := by decide
            rw [hv]
            simp only [h6, h5, e, e1, e2, e4, ws, w, Snzi.depart, hq', true_and]
            by_cases hpq : q = p
            · subst hpq
              have : ¬ par d q = q := by omega
              simp [this]
            · have : ¬ p = q := fun hh => hpq hh.symm
              simp only [this, hpq, if_false]
              split <;> simp
        · rw [if_neg h5]
          refine h.swap (st := []) ht hq' hs hsh.tail (by simp) (by simp) (Or.inl (by rw [hv])) ?_ (fun hh => absurd hh hnh)
            (fun p _ hw => hw) (by simp only; omega)
          intro p hp
          have e1 : eng (dec x.cnt) = 1 := by unfold eng half; rw [if_neg]; omega
          have e2 : eng x.cnt = 1 := by unfold eng half; rw [if_neg]; omega
          rw [hv]
          simp only [e, e1, e2, e3, ws, w]
          by_cases hpq : q = p
          · subst hpq; simp
          · simp [hpq, Ne.symm hpq]

theorem inv_reach {d n : Nat} {s : State} (h : Reach (next d n) start s) : Inv d n s :=
  Reach.inv (Inv d n) (inv_start d n) (fun _ _ _ hi hn => inv_next hi hn) h

/-! ### The indicator -/

/-- Something counted at a node other than a claim in progress. -/
theorem Inv.eng_of {d n : Nat} {s : State} (h : Inv d n s) {p : Nat} (hp : p < root d) (hh : 0 < s.held p + sumE d s.val p) :
    eng (s.val p).cnt = 1 := by
  have hb := h.bal p hp
  have h1 : ¬ (s.val p).cnt = half := fun hc => by
    have := h.half_only hp hc
    omega
  have h2 : ¬ (s.val p).cnt = 0 := fun hc => by
    rw [hc, show vl 0 = 0 by decide] at hb
    omega
  simp [eng, h1, h2]

theorem Inv.up {d n : Nat} {s : State} (h : Inv d n s) : ∀ k p, root d - p ≤ k → p ≤ root d → 0 < s.held p + sumE d s.val p → 0 < s.all := by
  intro k
  induction k with
  | zero =>
    intro p h1 h2 h3
    have : p = root d := by omega
    subst this
    have := h.balR
    omega
  | succ k ih =>
    intro p h1 h2 h3
    by_cases hp : p < root d
    · have h4 := h.eng_of hp h3
      have h5 := lt_par d p hp
      have h6 := e_le_sumE d s.val (par d p) p
      rw [e, if_pos ⟨hp, rfl⟩, h4] at h6
      exact ih (par d p) (by omega) h5.2 (by omega)
    · exact ih p (by omega) h2 h3

theorem Inv.quiet {d n : Nat} {s : State} (h : Inv d n s) (hs : ∀ t, t < n → s.stk t = []) (hh : ∀ p, s.held p = 0) : s.all = 0 := by
  have hw : ∀ p, sumW d n s.stk p = 0 := by
    intro p
    refine Finset.sum_eq_zero fun t ht => ?_
    rw [hs t (Finset.mem_range.1 ht)]; rfl
  have hz : ∀ p, p < root d → (s.val p).cnt = 0 := by
    intro p
    induction p using Nat.strong_induction_on with
    | _ p ih =>
      intro hp
      have hb := h.bal p hp
      have he : sumE d s.val p = 0 := by
        refine Finset.sum_eq_zero fun q hq => ?_
        unfold e
        split
        · next hc =>
          have := lt_par d q hc.1
          rw [ih q (by omega) hc.1]; rfl
        · rfl
      rw [hh, he, hw] at hb
      unfold vl at hb
      split at hb
      · simp at hb
      · split at hb
        · simp at hb
        · simpa using hb
  have he : sumE d s.val (root d) = 0 := by
    refine Finset.sum_eq_zero fun q hq => ?_
    unfold e
    split
    · next hc => rw [hz q hc.1]; rfl
    · rfl
  have := h.balR
  rw [hh, he, hw] at this
  simpa using this

end Verif.Snzi
