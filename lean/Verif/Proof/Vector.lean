import Verif.Model.Vector
import Mathlib.Data.List.Basic
/-! Invariant and step lemmas for `vector`. -/
namespace Verif.Vector
open Verif
variable {α : Type}

/-- The first cells hold the elements, the others nothing; the size fits 64 bits. -/
structure Inv (v : Vec α) (l : List α) (g : List α) : Prop where
  cells : ∃ k, v.cells = l.map some ++ List.replicate k none
  size : v.size = l.length
  fits : l.length < 2 ^ 64
  gone : v.gone = g

theorem realloc_eq (l : List α) (k n : Nat) (h : l.length + k ≤ n) :
    realloc (l.map some ++ List.replicate k none) n = l.map some ++ List.replicate (n - l.length) none := by
  unfold realloc
  rw [List.take_of_length_le (by simp; omega), List.append_assoc, ← List.replicate_add]
  congr 2
  simp; omega

theorem reallocStorage_eq (l : List α) (k n : Nat) :
    ∃ k', reallocStorage (l.map some ++ List.replicate k none) n = l.map some ++ List.replicate k' none ∧ n ≤ l.length + k' := by
  unfold reallocStorage
  split
  · next h =>
    simp at h
    rw [realloc_eq _ _ _ (by omega)]
    exact ⟨_, rfl, by omega⟩
  · next h => simp at h; exact ⟨k, rfl, by omega⟩

theorem rd_eq (l : List α) (k i : Nat) (h : i < l.length) : rd (l.map some ++ List.replicate k none) i = .ret l[i] := by
  unfold rd
  rw [List.getElem?_append_left (by simpa using h)]
  simp [h]

theorem pushBack_spec {v : Vec α} {l g : List α} (h : Inv v l g) (x : α) (hf : l.length + 1 < 2 ^ 64) :
    ∃ v', pushBack v x = .ret v' ∧ Inv v' (l ++ [x]) g := by
  obtain ⟨k, hk⟩ := h.cells
  obtain ⟨k', h1, h2⟩ := reallocStorage_eq l k (v.size + 1)
  have hs := h.size
  refine ⟨⟨(l.map some ++ List.replicate k' none).set l.length (some x), v.size + 1, v.gone⟩, ?_, ?_, ?_, ?_, h.gone⟩
  · have : l.length < l.length + k' := by omega
    rw [hs] at h1
    simp [pushBack, hk, hs, h1, wr, this]
  · obtain ⟨m, rfl⟩ : ∃ m, k' = m + 1 := ⟨k' - 1, by omega⟩
    refine ⟨m, ?_⟩
    rw [List.set_append_right _ _ (by simp)]
    simp [List.replicate_succ]
  · simp [hs]
  · simpa using hf

theorem popBack_spec {v : Vec α} {l g : List α} {x : α} (h : Inv v (l ++ [x]) g) (triv : Bool) :
    ∃ v', popBack triv v = .ret v' ∧ Inv v' l (g ++ [x]) := by
  obtain ⟨k, hk⟩ := h.cells
  have hs := h.size
  have hf := h.fits
  simp at hs hf
  have e : (v.size + (2 ^ 64 - 1)) % 2 ^ 64 = l.length := by rw [hs]; omega
  refine ⟨⟨v.cells.set l.length none, l.length, v.gone ++ [x]⟩, ?_, ⟨k + 1, ?_⟩, rfl, by omega, by rw [h.gone]⟩
  · have : v.cells[l.length]? = some (some x) := by rw [hk]; simp [List.getElem?_append]
    simp only [popBack, e, destroy, this]
  · rw [hk]
    simp only [List.map_append, List.map_cons, List.map_nil, List.append_assoc]
    rw [List.set_append_right _ _ (by simp)]
    simp [List.replicate_succ]

end Verif.Vector
