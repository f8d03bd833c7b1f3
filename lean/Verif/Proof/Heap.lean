import Verif.Model.Heap
import Mathlib.Data.List.Basic
import Mathlib.Data.List.Nodup
/-! Lemmas about linked chains. -/
namespace Verif

@[simp] theorem upd_same {α : Type u} (f : Nat → α) (a : Nat) (v : α) : upd f a v a = v := by simp [upd]
theorem upd_ne {α : Type u} (f : Nat → α) {a x : Nat} (v : α) (h : x ≠ a) : upd f a v x = f x := by simp [upd, h]
theorem upd_apply {α : Type u} (f : Nat → α) (a x : Nat) (v : α) : upd f a v x = if x = a then v else f x := rfl

@[simp] theorem links_nil (next : Nat → Nat) (t : Nat) : Links next [] t := trivial
@[simp] theorem links_cons (next : Nat → Nat) (a : Nat) (l : List Nat) (t : Nat) :
    Links next (a :: l) t ↔ next a = l.headD t ∧ Links next l t := Iff.rfl

theorem headD_append (l1 l2 : List Nat) (t : Nat) : (l1 ++ l2).headD t = l1.headD (l2.headD t) := by
  cases l1 <;> simp

theorem links_append (next : Nat → Nat) (l1 l2 : List Nat) (t : Nat) :
    Links next (l1 ++ l2) t ↔ Links next l1 (l2.headD t) ∧ Links next l2 t := by
  induction l1 with
  | nil => simp
  | cons a l1 ih => rw [List.cons_append, links_cons, ih, headD_append, links_cons, and_assoc]

theorem links_congr (f g : Nat → Nat) (l : List Nat) (t : Nat) (h : ∀ a ∈ l, f a = g a) : Links f l t ↔ Links g l t := by
  induction l with
  | nil => simp
  | cons a l ih =>
    rw [links_cons, links_cons, h a (by simp), ih (fun b hb => h b (by simp [hb]))]

theorem links_upd (next : Nat → Nat) (a v : Nat) (l : List Nat) (t : Nat) (h : a ∉ l) :
    Links (upd next a v) l t ↔ Links next l t :=
  links_congr _ _ _ _ (fun b hb => upd_ne _ _ (fun e => h (e ▸ hb)))

theorem getLastD_append_singleton (l : List Nat) (a d : Nat) : (l ++ [a]).getLastD d = a := by simp

theorem getLastD_append_cons (l1 l2 : List Nat) (b d : Nat) : (l1 ++ b :: l2).getLastD d = (b :: l2).getLastD d := by
  induction l1 generalizing d with
  | nil => rfl
  | cons a l1 ih => rw [List.cons_append, List.getLastD_cons, ih, List.getLastD_cons, List.getLastD_cons]

theorem headD_mem {l : List Nat} (h : l ≠ []) (d : Nat) : l.headD d ∈ l := by
  cases l with
  | nil => exact absurd rfl h
  | cons a l => simp

theorem getLastD_mem {l : List Nat} (h : l ≠ []) (d : Nat) : l.getLastD d ∈ l := by
  cases l with
  | nil => exact absurd rfl h
  | cons a l =>
    rw [List.getLastD_cons]
    induction l generalizing a with
    | nil => simp
    | cons b l ih => rw [List.getLastD_cons]; exact List.mem_cons_of_mem _ (ih b (by simp))

/-- Redirecting the last element of a chain. -/
theorem links_retarget (next : Nat → Nat) (l : List Nat) (a t v : Nat) (h : Links next (l ++ [a]) t) (hn : (l ++ [a]).Nodup) :
    Links (upd next a v) (l ++ [a]) v := by
  rw [links_append] at h ⊢
  refine ⟨?_, by simp⟩
  rw [links_upd]
  · exact h.1
  · rw [List.nodup_append] at hn
    intro ha; exact hn.2.2 a ha a (by simp) rfl

theorem exists_concat {l : List Nat} (h : l ≠ []) : ∃ i a, l = i ++ [a] :=
  ⟨l.dropLast, l.getLast h, (List.dropLast_concat_getLast h).symm⟩

end Verif
