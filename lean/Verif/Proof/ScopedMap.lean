import Verif.Model.ScopedMap
/-!
Lemmas for C63 and C64.
-/
namespace Verif.ScopedMap
open Verif

variable {K V : Type} [LinearOrder K]

/-- What a map has for a key. -/
def mget (m : Map K V) (k : K) : Option V := (m.find? (fun e => e.1 = k)).map (fun e => e.2)

/-- Keys in increasing order. -/
def Sorted (m : Map K V) : Prop := m.Pairwise (fun a b => a.1 < b.1)

theorem mget_nil (k : K) : mget ([] : Map K V) k = none := rfl

theorem mget_cons (e : K × V) (m : Map K V) (k : K) : mget (e :: m) k = if e.1 = k then some e.2 else mget m k := by
  by_cases h : e.1 = k <;> simp [mget, List.find?_cons, h]

theorem mfind_cons (e : K × V) (m : Map K V) (k : K) : mfind (e :: m) k = if e.1 = k then 0 else mfind m k + 1 := by
  by_cases h : e.1 = k <;> simp [mfind, List.findIdx_cons, h]

theorem mget_none {m : Map K V} {k : K} (h : ∀ e ∈ m, e.1 ≠ k) : mget m k = none := by
  induction m with
  | nil => rfl
  | cons e m ih => rw [mget_cons, if_neg (h e List.mem_cons_self)]; exact ih fun e he => h e (List.mem_cons_of_mem _ he)

theorem mget_mem {m : Map K V} (hs : Sorted m) {k : K} {v : V} : mget m k = some v ↔ (k, v) ∈ m := by
  induction m with
  | nil => simp [mget_nil]
  | cons e m ih =>
    rw [Sorted, List.pairwise_cons] at hs
    rw [mget_cons, List.mem_cons]
    by_cases h : e.1 = k
    · subst h
      simp only [if_true, Option.some.injEq]
      constructor
      · rintro rfl; exact .inl rfl
      · rintro (h | h)
        · rw [← h]
        · exact absurd (hs.1 _ h) (lt_irrefl _)
    · simp only [h, if_false, ih hs.2]
      constructor
      · exact .inr
      · rintro (h' | h')
        · exact absurd (by rw [← h']) h
        · exact h'

theorem mfind_le (m : Map K V) (k : K) : mfind m k ≤ m.length := List.findIdx_le_length

theorem mfind_len {m : Map K V} {k : K} : mfind m k = m.length ↔ mget m k = none := by
  induction m with
  | nil => simp [mfind, mget_nil]
  | cons e m ih => rw [mfind_cons, mget_cons]; by_cases h : e.1 = k <;> simp [h, ih]

theorem mfind_get {m : Map K V} {k : K} {v : V} (h : mget m k = some v) : m[mfind m k]? = some (k, v) := by
  induction m with
  | nil => simp [mget_nil] at h
  | cons e m ih =>
    rw [mget_cons] at h
    rw [mfind_cons]
    by_cases he : e.1 = k
    · subst he; simp at h; subst h; simp
    · simp only [he, if_false] at h ⊢; simpa using ih h

theorem minsert_mem {m : Map K V} {k : K} {v : V} {e : K × V} (h : e ∈ (minsert m k v).1) : e = (k, v) ∨ e ∈ m := by
  induction m with
  | nil => simpa [minsert] using h
  | cons a m ih =>
    simp only [minsert] at h
    split at h
    · simpa using h
    · split at h
      · exact .inr h
      · simp only [List.mem_cons] at h ⊢
        rcases h with h | h
        · exact .inr (.inl h)
        · rcases ih h with h | h
          · exact .inl h
          · exact .inr (.inr h)

theorem minsert_sorted {m : Map K V} {k : K} {v : V} (hs : Sorted m) : Sorted (minsert m k v).1 := by
  induction m with
  | nil => simp [minsert, Sorted]
  | cons a m ih =>
    have hs' := hs
    rw [Sorted, List.pairwise_cons] at hs
    simp only [minsert]
    split
    · next h =>
      rw [Sorted, List.pairwise_cons]
      refine ⟨fun e he => ?_, hs'⟩
      rcases List.mem_cons.1 he with rfl | he
      · exact h
      · exact lt_trans h (hs.1 e he)
    · split
      · exact hs'
      · next h1 h2 =>
        rw [Sorted, List.pairwise_cons]
        refine ⟨fun e he => ?_, ih hs.2⟩
        rcases minsert_mem he with rfl | he
        · exact lt_of_le_of_ne (not_lt.1 h1) h2
        · exact hs.1 e he

theorem minsert_get {m : Map K V} {k : K} {v : V} (hs : Sorted m) (x : K) :
    mget (minsert m k v).1 x = if x = k ∧ mget m k = none then some v else mget m x := by
  induction m with
  | nil => 
    simp only [minsert, mget_cons, mget_nil]
    by_cases h : x = k
    · simp [h]
    · simp [h, Ne.symm h]
  | cons a m ih =>
    rw [Sorted, List.pairwise_cons] at hs
    simp only [minsert]
    split
    · next h =>
      have hn : mget (a :: m) k = none := mget_none fun e he => by
        rcases List.mem_cons.1 he with rfl | he
        · exact ne_of_gt h
        · exact ne_of_gt (lt_trans h (hs.1 e he))
      rw [mget_cons, hn]
      by_cases hx : x = k
      · simp [hx]
      · simp [hx, Ne.symm hx]
    · split
      · next h1 h2 => subst h2; simp [mget_cons]
      · next h1 h2 =>
        simp only [mget_cons, ih hs.2, h2, if_false]
        by_cases hx : x = k
        · subst hx; simp [h2]
        · simp [hx]

theorem minsert_flag {m : Map K V} {k : K} {v : V} (hs : Sorted m) : (minsert m k v).2 = (mget m k).isNone := by
  induction m with
  | nil => rfl
  | cons a m ih =>
    rw [Sorted, List.pairwise_cons] at hs
    simp only [minsert]
    split
    · next h =>
      have hn : mget (a :: m) k = none := mget_none fun e he => by
        rcases List.mem_cons.1 he with rfl | he
        · exact ne_of_gt h
        · exact ne_of_gt (lt_trans h (hs.1 e he))
      rw [hn]; rfl
    · split
      · next h1 h2 => simp [mget_cons, h2]
      · next h1 h2 => simp [mget_cons, h2, ih hs.2]

theorem merase_sorted {m : Map K V} {k : K} (hs : Sorted m) : Sorted (merase m k).1 := by
  unfold merase
  split
  · exact hs
  · exact hs.sublist (List.eraseIdx_sublist _ _)

theorem merase_get {m : Map K V} {k : K} (hs : Sorted m) (x : K) : mget (merase m k).1 x = if x = k then none else mget m x := by
  have key : ∀ {m : Map K V}, Sorted m → mget (m.eraseIdx (mfind m k)) x = if x = k then none else mget m x := by
    intro m hs
    induction m with
    | nil => simp [mget_nil]
    | cons a m ih =>
      rw [Sorted, List.pairwise_cons] at hs
      rw [mfind_cons]
      by_cases h : a.1 = k
      · subst h
        simp only [if_true, List.eraseIdx_zero, List.tail_cons, mget_cons]
        by_cases hx : x = a.1
        · subst hx; simp only [if_true]; exact mget_none fun e he => ne_of_gt (hs.1 e he)
        · simp [hx, Ne.symm hx]
      · simp only [h, if_false, List.eraseIdx_cons_succ, mget_cons, ih hs.2]
        by_cases hx : x = k
        · subst hx; simp [h]
        · simp [hx]
  unfold merase
  split
  · next h =>
    by_cases hx : x = k
    · subst hx; simp [mfind_len.1 h]
    · simp [hx]
  · exact key hs

theorem merase_count (m : Map K V) (k : K) : (merase m k).2 = if mget m k = none then 0 else 1 := by
  unfold merase
  by_cases h : mget m k = none <;> simp [mfind_len, h]

theorem mset_sorted {m : Map K V} {p : Nat} {v : V} (hs : Sorted m) : Sorted (mset m p v) := by
  unfold mset
  induction m generalizing p with
  | nil => simpa using hs
  | cons a m ih =>
    rw [Sorted, List.pairwise_cons] at hs
    cases p with
    | zero => simp only [List.modify_zero_cons]; rw [Sorted, List.pairwise_cons]; exact hs
    | succ p =>
      rw [List.modify_succ_cons, Sorted, List.pairwise_cons]
      refine ⟨fun e he => ?_, ih hs.2⟩
      obtain ⟨j, hj, rfl⟩ := List.getElem_of_mem he
      have hj' : j < m.length := by simpa using hj
      rw [List.getElem_modify]
      split
      · exact hs.1 m[j] (List.getElem_mem _)
      · exact hs.1 m[j] (List.getElem_mem _)

theorem mset_get {m : Map K V} {k : K} {v : V} (h : mget m k ≠ none) (x : K) : mget (mset m (mfind m k) v) x = if x = k then some v else mget m x := by
  unfold mset
  induction m with
  | nil => simp [mget_nil] at h
  | cons a m ih =>
    rw [mfind_cons]
    rw [mget_cons] at h
    by_cases he : a.1 = k
    · subst he
      simp only [if_true, List.modify_zero_cons, mget_cons]
      by_cases hx : x = a.1
      · simp [hx]
      · simp [hx, Ne.symm hx]
    · simp only [he, if_false, List.modify_succ_cons, mget_cons] at h ⊢
      rw [ih h]
      by_cases hx : x = k
      · subst hx; simp [he]
      · simp [hx]

theorem mset_len (m : Map K V) (p : Nat) (v : V) : (mset m p v).length = m.length := by simp [mset]

/-- Every scope is in order, and there is one. -/
structure Ok (s : Scopes K V) : Prop where
  sorted : ∀ m ∈ s, Sorted m
  ne : s ≠ []

theorem Ok.at {s : Scopes K V} (h : Ok s) (i : Nat) : Sorted (at' s i) := by
  unfold at'
  rw [List.getD_eq_getElem?_getD]
  cases hi : s[i]? with
  | none => exact List.Pairwise.nil
  | some m => exact h.sorted m (List.mem_of_getElem? hi)

theorem Ok.set {s : Scopes K V} (h : Ok s) {i : Nat} {m : Map K V} (hm : Sorted m) : Ok (s.set i m) :=
  ⟨fun x hx => by
    rcases List.mem_or_eq_of_mem_set hx with hx | rfl
    · exact h.sorted x hx
    · exact hm, by simp [h.ne]⟩

end Verif.ScopedMap
