import Verif.Spec.ArithRes
/-! Facts about the tables, for all kinds. -/
namespace Verif.Arith
open Verif Verif.Cost

theorem mem_kinds (k : Kind) : k ∈ kinds := by cases k <;> decide

theorem forall1 {p : Kind → Bool} (h : kinds.all p = true) (a : Kind) : p a = true := List.all_eq_true.1 h a (mem_kinds a)
theorem forall2 {p : Kind → Kind → Bool} (h : (kinds.all fun a => kinds.all fun b => p a b) = true) (a b : Kind) : p a b = true := forall1 (forall1 h a) b

/-- The cost of a conversion above `zero`. -/
def wt (a k : Kind) : Nat := (conversionCost a (some k)).all - 0xff00

/-- Shape of the cost of a conversion. -/
def convOk (a b : Kind) : Bool :=
  let n := (conversionCost a (some b)).all
  (if costAt a b < 0 then n == 2 ^ 56 + 0xff00 else n == (n / 2 ^ 24) * 2 ^ 24 + 0xff00 && n / 2 ^ 24 ≤ 2 ^ 13) && ((n == 0xff00) == (a == b))

theorem convOk_all (a b : Kind) : convOk a b = true := by
  refine forall2 (p := convOk) ?_ a b
  decide +kernel

/-- The common type is offered, both types widen to it, it is the least such and strictly the cheapest. -/
def chk (l : List Kind) (a b : Kind) : Bool :=
  let k := common a b
  l.contains k && decide (SafeTo a k) && decide (SafeTo b k) &&
    l.all fun k' => k' == k || (decide (wt a k + wt b k < wt a k' + wt b k') && (! decide (SafeTo a k') || ! decide (SafeTo b k') || decide (SafeTo k k')))

/-- The four sets of types operators are declared for. -/
def classes : List (List Kind) := [declared ⟨true, false, false⟩, declared ⟨false, false, false⟩, declared ⟨true, true, false⟩, Kind.bool :: declared ⟨true, false, false⟩]

theorem class1 (op : Op1) : overloads1 op ∈ classes := by cases op <;> decide +kernel
theorem class2 (op : Op2) : overloads2 op ∈ classes := by cases op <;> decide +kernel

def fitsB (l : List Kind) (a b : Kind) : Bool := (l.contains a || a == .bool) && (l.contains b || b == .bool) && (l.contains a || l.contains b)

theorem chk_classes : (classes.all fun l => kinds.all fun a => kinds.all fun b => ! fitsB l a b || chk l a b) = true := by decide +kernel

theorem chk_all {l : List Kind} (hl : l ∈ classes) {a b : Kind} (h : fitsB l a b = true) : chk l a b = true := by
  have := forall2 (List.all_eq_true.1 chk_classes l hl) a b
  rw [h] at this
  simpa using this

/-- In the set of all types. -/
theorem chk_kinds : (kinds.all fun a => kinds.all fun b =>
    let k := common a b
    decide (SafeTo a k) && decide (SafeTo b k) && kinds.all fun k' => ! decide (SafeTo a k') || ! decide (SafeTo b k') || decide (SafeTo k k')) = true := by decide +kernel

theorem antisymm {a b : Kind} (h : SafeTo a b) (h' : SafeTo b a) : a = b := by
  have := forall2 (p := fun a b => ! decide (SafeTo a b) || ! decide (SafeTo b a) || a == b) (by decide +kernel) a b
  simpa [h, h'] using this

theorem nearest_unique {l : List Kind} {a b k k' : Kind} (h : Nearest l a b k) (h' : Nearest l a b k') : k = k' :=
  antisymm (h.least k' h'.offered h'.left h'.right) (h'.least k h.offered h.left h.right)

theorem nearest_of_chk {l : List Kind} {a b : Kind} (h : chk l a b = true) : Nearest l a b (common a b) := by
  simp only [chk, Bool.and_eq_true, decide_eq_true_eq] at h
  obtain ⟨⟨⟨h1, h2⟩, h3⟩, h4⟩ := h
  refine ⟨by simpa using h1, h2, h3, fun k' hk ha hb => ?_⟩
  have := List.all_eq_true.1 h4 k' hk
  simp only [ha, hb, Bool.or_eq_true, Bool.and_eq_true, decide_eq_true_eq, beq_iff_eq, decide_true, Bool.not_true, Bool.or_false, Bool.false_or] at this
  rcases this with h | ⟨_, h⟩
  · subst h
    have := forall1 (p := fun k => decide (SafeTo k k)) (by decide +kernel) (common a b)
    simpa using this
  · exact h

theorem cheapest_of_chk {l : List Kind} {a b k' : Kind} (h : chk l a b = true) (hk : k' ∈ l) (hne : k' ≠ common a b) :
    wt a (common a b) + wt b (common a b) < wt a k' + wt b k' := by
  simp only [chk, Bool.and_eq_true, decide_eq_true_eq] at h
  have := List.all_eq_true.1 h.2 k' hk
  simp only [Bool.or_eq_true, Bool.and_eq_true, decide_eq_true_eq, beq_iff_eq] at this
  rcases this with h | ⟨h, _⟩
  · exact absurd h hne
  · exact h

theorem nearest_kinds (a b : Kind) : Nearest kinds a b (common a b) := by
  have := forall2 chk_kinds a b
  simp only [Bool.and_eq_true, decide_eq_true_eq] at this
  obtain ⟨⟨h2, h3⟩, h4⟩ := this
  refine ⟨mem_kinds _, h2, h3, fun k' hk ha hb => ?_⟩
  have := List.all_eq_true.1 h4 k' hk
  simpa [ha, hb] using this

theorem nodup_classes {l : List Kind} (h : l ∈ classes) : l.Nodup := by
  have : ∀ l ∈ classes, l.Nodup := by decide +kernel
  exact this l h

/-- The types of the operators and of conditionals have operators. -/
theorem hasOps_result {l : List Kind} (hl : l ∈ classes) {k : Kind} (h : k ∈ l) : HasOps k := by
  have : ∀ l ∈ classes, ∀ k ∈ l, HasOps k := by decide +kernel
  exact this l hl k h

theorem hasOps_common {a b : Kind} (ha : HasOps a) (hb : HasOps b) : HasOps (common a b) := by
  have := forall2 (p := fun a b => ! decide (HasOps a) || ! decide (HasOps b) || decide (HasOps (common a b))) (by decide +kernel) a b
  simpa [ha, hb] using this

end Verif.Arith
