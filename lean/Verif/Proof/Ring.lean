import Verif.Proof.Heap
/-! Doubly linked segments and rings. -/
namespace Verif

/-- A doubly linked segment: from `a` through the nodes of `l` to `b`. -/
def Seg (nx bk : Nat → Nat) : Nat → List Nat → Nat → Prop
  | a, [], b => nx a = b ∧ bk b = a
  | a, x :: l, b => nx a = x ∧ bk x = a ∧ Seg nx bk x l b

/-- A circular doubly linked list. -/
def Ring (nx bk : Nat → Nat) : List Nat → Prop
  | [] => True
  | x :: l => Seg nx bk x l x

theorem seg_append {nx bk : Nat → Nat} {l1 l2 : List Nat} {a x b : Nat} :
    Seg nx bk a (l1 ++ x :: l2) b ↔ Seg nx bk a l1 x ∧ Seg nx bk x l2 b := by
  induction l1 generalizing a with
  | nil => simp [Seg, and_assoc]
  | cons y l1 ih => simp [Seg, ih, and_assoc]

theorem ring_rotate {nx bk : Nat → Nat} {l1 l2 : List Nat} : Ring nx bk (l1 ++ l2) ↔ Ring nx bk (l2 ++ l1) := by
  cases l1 with
  | nil => simp
  | cons a l1 =>
    cases l2 with
    | nil => simp
    | cons b l2 =>
      simp only [Ring, List.cons_append, seg_append]
      exact And.comm

theorem seg_congr {nx bk nx' bk' : Nat → Nat} {l : List Nat} {a b : Nat} (h : Seg nx bk a l b)
    (hn : ∀ c, c = a ∨ c ∈ l → nx' c = nx c) (hb : ∀ c, c = b ∨ c ∈ l → bk' c = bk c) : Seg nx' bk' a l b := by
  induction l generalizing a with
  | nil => exact ⟨by rw [hn a (Or.inl rfl)]; exact h.1, by rw [hb b (Or.inl rfl)]; exact h.2⟩
  | cons x l ih =>
    refine ⟨by rw [hn a (Or.inl rfl)]; exact h.1, by rw [hb x (Or.inr (by simp))]; exact h.2.1, ih h.2.2 ?_ ?_⟩
    · rintro c (rfl | hc)
      · exact hn _ (Or.inr (by simp))
      · exact hn _ (Or.inr (by simp [hc]))
    · rintro c (rfl | hc)
      · exact hb _ (Or.inl rfl)
      · exact hb _ (Or.inr (by simp [hc]))

theorem ring_congr {nx bk nx' bk' : Nat → Nat} {l : List Nat} (h : Ring nx bk l)
    (hn : ∀ c, c ∈ l → nx' c = nx c) (hb : ∀ c, c ∈ l → bk' c = bk c) : Ring nx' bk' l := by
  cases l with
  | nil => trivial
  | cons x l =>
    exact seg_congr h (fun c hc => hn c (by rcases hc with rfl | hc <;> simp [*]))
      (fun c hc => hb c (by rcases hc with rfl | hc <;> simp [*]))

/-- The last node of a segment is made to point to another node. -/
theorem seg_retarget {nx bk nx' bk' : Nat → Nat} {l : List Nat} {a t t' : Nat} (h : Seg nx bk a l t)
    (hn : ∀ c, c = a ∨ c ∈ l → c ≠ l.getLastD a → nx' c = nx c) (hp : nx' (l.getLastD a) = t')
    (hb : ∀ c ∈ l, bk' c = bk c) (ht : bk' t' = l.getLastD a) (hnd : (a :: l).Nodup) : Seg nx' bk' a l t' := by
  induction l generalizing a with
  | nil => exact ⟨hp, ht⟩
  | cons x l ih =>
    rw [List.getLastD_cons] at hn hp ht
    have hx : a ≠ l.getLastD x := by
      intro e
      have : l.getLastD x ∈ x :: l := by
        have := getLastD_mem (List.cons_ne_nil x l) 0
        rwa [List.getLastD_cons] at this
      rw [← e] at this
      exact (List.nodup_cons.1 hnd).1 this
    refine ⟨by rw [hn a (Or.inl rfl) hx]; exact h.1, by rw [hb x (by simp)]; exact h.2.1, ih h.2.2 ?_ hp ?_ ht (List.nodup_cons.1 hnd).2⟩
    · rintro c (rfl | hc) hne
      · exact hn _ (Or.inr (by simp)) hne
      · exact hn _ (Or.inr (by simp [hc])) hne
    · intro c hc; exact hb c (by simp [hc])

theorem seg_last {nx bk : Nat → Nat} {l : List Nat} {a t : Nat} (h : Seg nx bk a l t) :
    nx (l.getLastD a) = t ∧ bk t = l.getLastD a := by
  induction l generalizing a with
  | nil => exact h
  | cons x l ih => rw [List.getLastD_cons]; exact ih h.2.2

theorem seg_first {nx bk : Nat → Nat} {l : List Nat} {a t : Nat} (h : Seg nx bk a l t) :
    nx a = l.headD t := by
  cases l with
  | nil => exact h.1
  | cons x l => exact h.1

theorem seg_next_mem {nx bk : Nat → Nat} {l : List Nat} {a t c : Nat} (h : Seg nx bk a l t) (hc : c = a ∨ c ∈ l) :
    nx c = t ∨ nx c ∈ l := by
  induction l generalizing a with
  | nil =>
    rcases hc with rfl | hc
    · exact Or.inl h.1
    · exact absurd hc (by simp)
  | cons x l ih =>
    rcases hc with rfl | hc
    · right; rw [h.1]; simp
    · rcases ih h.2.2 (List.mem_cons.1 hc) with e | e
      · exact Or.inl e
      · right; simp [e]

theorem ring_next_mem {nx bk : Nat → Nat} {l : List Nat} {c : Nat} (h : Ring nx bk l) (hc : c ∈ l) : nx c ∈ l := by
  cases l with
  | nil => exact absurd hc (by simp)
  | cons x l =>
    rcases seg_next_mem h (List.mem_cons.1 hc) with e | e
    · rw [e]; simp
    · simp [e]

theorem getLastD_mem_cons (a : Nat) (l : List Nat) : l.getLastD a = a ∨ l.getLastD a ∈ l := by
  cases l with
  | nil => exact Or.inl rfl
  | cons b l => exact Or.inr (getLastD_mem (List.cons_ne_nil _ _) _)

/-- Linking `n` between the last and the first node of a ring. -/
theorem ring_insert {nx bk nx' bk' : Nat → Nat} {l : List Nat} {b n : Nat} (h : Ring nx bk (b :: l))
    (hnd : (b :: l).Nodup) (hnl : n ∉ b :: l)
    (h1 : nx' n = b) (h2 : bk' n = l.getLastD b) (h3 : bk' b = n) (h4 : nx' (l.getLastD b) = n)
    (hn : ∀ c, c ≠ n → c ≠ l.getLastD b → nx' c = nx c) (hb : ∀ c, c ≠ n → c ≠ b → bk' c = bk c) :
    Ring nx' bk' (b :: l ++ [n]) := by
  show Seg nx' bk' b (l ++ [n]) b
  rw [seg_append]
  refine ⟨seg_retarget h ?_ h4 ?_ h2 hnd, h1, h3⟩
  · intro c hc hne
    exact hn c (fun e => hnl (e ▸ List.mem_cons.2 hc)) hne
  · intro c hc
    refine hb c (fun e => hnl (by subst e; simp [hc])) (fun e => ?_)
    subst e; exact (List.nodup_cons.1 hnd).1 hc

/-- Unlinking the first node of a ring. -/
theorem ring_remove {nx bk nx' bk' : Nat → Nat} {l : List Nat} {n m : Nat} (h : Ring nx bk (n :: m :: l))
    (hnd : (n :: m :: l).Nodup) (h3 : bk' m = l.getLastD m) (h4 : nx' (l.getLastD m) = m)
    (hn : ∀ c, c ≠ n → c ≠ l.getLastD m → nx' c = nx c) (hb : ∀ c, c ≠ n → c ≠ m → bk' c = bk c) :
    Ring nx' bk' (m :: l) := by
  show Seg nx' bk' m l m
  have hnd' := List.nodup_cons.1 hnd
  refine seg_retarget h.2.2 ?_ h4 ?_ h3 hnd'.2
  · intro c hc hne
    exact hn c (fun e => hnd'.1 (e ▸ List.mem_cons.2 hc)) hne
  · intro c hc
    refine hb c (fun e => hnd'.1 (by subst e; simp [hc])) (fun e => ?_)
    subst e; exact (List.nodup_cons.1 hnd'.2).1 hc

/-- Splicing two rings into one, and back: exchanging the targets of the two last nodes. -/
theorem ring_join {nx bk nx' bk' : Nat → Nat} {l m : List Nat} {a b : Nat} (h1 : Ring nx bk (a :: l)) (h2 : Ring nx bk (b :: m))
    (hnd : (a :: l ++ b :: m).Nodup)
    (e1 : nx' (l.getLastD a) = b) (e2 : bk' b = l.getLastD a) (e3 : nx' (m.getLastD b) = a) (e4 : bk' a = m.getLastD b)
    (hn : ∀ c, c ≠ l.getLastD a → c ≠ m.getLastD b → nx' c = nx c) (hb : ∀ c, c ≠ a → c ≠ b → bk' c = bk c) :
    Ring nx' bk' (a :: l ++ b :: m) := by
  show Seg nx' bk' a (l ++ b :: m) a
  rw [seg_append]
  obtain ⟨n1, n2, n3⟩ := List.nodup_append.1 hnd
  have ml : l.getLastD a ∈ a :: l := List.mem_cons.2 (getLastD_mem_cons a l)
  have mm : m.getLastD b ∈ b :: m := List.mem_cons.2 (getLastD_mem_cons b m)
  constructor
  · refine seg_retarget h1 ?_ e1 ?_ e2 n1
    · intro c hc hne
      have hc' : c ∈ a :: l := List.mem_cons.2 hc
      exact hn c hne (n3 c hc' _ mm)
    · intro c hc
      exact hb c (fun e => (List.nodup_cons.1 n1).1 (e ▸ hc)) (n3 c (by simp [hc]) b (by simp))
  · refine seg_retarget h2 ?_ e3 ?_ e4 n2
    · intro c hc hne
      have hc' : c ∈ b :: m := List.mem_cons.2 hc
      exact hn c (fun e => n3 _ ml c hc' e.symm) hne
    · intro c hc
      exact hb c (fun e => n3 a (by simp) c (by simp [hc]) e.symm) (fun e => (List.nodup_cons.1 n2).1 (e ▸ hc))

theorem ring_cut {nx bk nx' bk' : Nat → Nat} {l m : List Nat} {a b : Nat} (h : Ring nx bk (a :: l ++ b :: m))
    (hnd : (a :: l ++ b :: m).Nodup)
    (e1 : nx' (l.getLastD a) = a) (e2 : bk' a = l.getLastD a) (e3 : nx' (m.getLastD b) = b) (e4 : bk' b = m.getLastD b)
    (hn : ∀ c, c ≠ l.getLastD a → c ≠ m.getLastD b → nx' c = nx c) (hb : ∀ c, c ≠ a → c ≠ b → bk' c = bk c) :
    Ring nx' bk' (a :: l) ∧ Ring nx' bk' (b :: m) := by
  obtain ⟨h1, h2⟩ := seg_append.1 (show Seg nx bk a (l ++ b :: m) a from h)
  obtain ⟨n1, n2, n3⟩ := List.nodup_append.1 hnd
  have ml : l.getLastD a ∈ a :: l := List.mem_cons.2 (getLastD_mem_cons a l)
  have mm : m.getLastD b ∈ b :: m := List.mem_cons.2 (getLastD_mem_cons b m)
  constructor
  · refine seg_retarget h1 ?_ e1 ?_ e2 n1
    · intro c hc hne
      have hc' : c ∈ a :: l := List.mem_cons.2 hc
      exact hn c hne (n3 c hc' _ mm)
    · intro c hc
      exact hb c (fun e => (List.nodup_cons.1 n1).1 (e ▸ hc)) (n3 c (by simp [hc]) b (by simp))
  · refine seg_retarget h2 ?_ e3 ?_ e4 n2
    · intro c hc hne
      have hc' : c ∈ b :: m := List.mem_cons.2 hc
      exact hn c (fun e => n3 _ ml c hc' e.symm) hne
    · intro c hc
      exact hb c (fun e => n3 a (by simp) c (by simp [hc]) e.symm) (fun e => (List.nodup_cons.1 n2).1 (e ▸ hc))

/-- Family of disjoint lists of nodes, each a ring, described by its root pointers; `next` is null exactly off the lists. -/
structure Rings (nx bk root : Nat → Nat) (A : Nat → List Nat) : Prop where
  root : ∀ q, root q = (A q).headD 0
  ring : ∀ q, Ring nx bk (A q)
  nodup : ∀ q, (A q).Nodup
  disj : ∀ q q' n, q ≠ q' → n ∈ A q → n ∉ A q'
  off : ∀ n, (∀ q, n ∉ A q) → nx n = 0
  nz : ∀ q, 0 ∉ A q

namespace Rings
variable {nx bk root : Nat → Nat} {A : Nat → List Nat}

theorem ne0 (h : Rings nx bk root A) {q n : Nat} (hn : n ∈ A q) : n ≠ 0 := fun e => h.nz q (e ▸ hn)

theorem next_ne0 (h : Rings nx bk root A) {q n : Nat} (hn : n ∈ A q) : nx n ≠ 0 := h.ne0 (ring_next_mem (h.ring q) hn)

theorem listed (h : Rings nx bk root A) (n : Nat) : nx n ≠ 0 ↔ ∃ q, n ∈ A q := by
  constructor
  · intro hn
    by_contra hc
    exact hn (h.off n (fun q hq => hc ⟨q, hq⟩))
  · rintro ⟨q, hq⟩; exact h.next_ne0 hq

theorem root_eq0 (h : Rings nx bk root A) (q : Nat) : root q = 0 ↔ A q = [] := by
  rw [h.root]
  constructor
  · intro e
    by_contra hne
    exact h.ne0 (headD_mem hne 0) e
  · intro e; rw [e]; rfl

/-- One list changes. -/
theorem set {nx' bk' : Nat → Nat} (h : Rings nx bk root A) {q : Nat} {l : List Nat}
    (hl : ∀ m ∈ l, m ∈ A q ∨ ∀ q', m ∉ A q') (hnd : l.Nodup) (h0 : 0 ∉ l) (hr : Ring nx' bk' l)
    (hn : ∀ m, m ∉ A q → m ∉ l → nx' m = nx m) (hb : ∀ m, m ∉ A q → m ∉ l → bk' m = bk m)
    (hoff : ∀ m ∈ A q, m ∉ l → nx' m = 0) : Rings nx' bk' (upd root q (l.headD 0)) (upd A q l) := by
  have hother : ∀ q' m, q' ≠ q → m ∈ A q' → m ∉ A q ∧ m ∉ l := by
    intro q' m hq' hm
    refine ⟨h.disj q' q m hq' hm, fun hm' => ?_⟩
    rcases hl m hm' with e | e
    · exact h.disj q' q m hq' hm e
    · exact e q' hm
  constructor
  · intro q'; simp only [upd_apply]; split
    · rfl
    · exact h.root q'
  · intro q'; rw [upd_apply]; split
    · exact hr
    · next e =>
      exact ring_congr (h.ring q') (fun c hc => hn c (hother q' c e hc).1 (hother q' c e hc).2)
        (fun c hc => hb c (hother q' c e hc).1 (hother q' c e hc).2)
  · intro q'; rw [upd_apply]; split
    · exact hnd
    · exact h.nodup q'
  · intro q1 q2 m hne h1 h2
    rw [upd_apply] at h1 h2
    split at h1 <;> split at h2
    · omega
    · next e1 e2 => exact (hother q2 m e2 h2).2 h1
    · next e1 e2 => exact (hother q1 m e1 h1).2 h2
    · exact h.disj q1 q2 m hne h1 h2
  · intro m hm
    have hml : m ∉ l := by have := hm q; rwa [upd_same] at this
    by_cases hq : m ∈ A q
    · exact hoff m hq hml
    · rw [hn m hq hml]
      apply h.off
      intro q' hq'
      have := hm q'
      rw [upd_apply] at this; split at this
      · next e => exact hq (e ▸ hq')
      · exact this hq'
  · intro q'; rw [upd_apply]; split
    · exact h0
    · exact h.nz q'

/-- Two lists exchange nodes. -/
theorem set2 {nx' bk' : Nat → Nat} (h : Rings nx bk root A) {q f : Nat} (hqf : q ≠ f) {l m : List Nat}
    (hlm : ∀ c, (c ∈ l ∨ c ∈ m) ↔ (c ∈ A q ∨ c ∈ A f)) (hnd : (l ++ m).Nodup)
    (hrl : Ring nx' bk' l) (hrm : Ring nx' bk' m)
    (hn : ∀ c, c ∉ A q → c ∉ A f → nx' c = nx c) (hb : ∀ c, c ∉ A q → c ∉ A f → bk' c = bk c) :
    Rings nx' bk' (upd (upd root q (l.headD 0)) f (m.headD 0)) (upd (upd A q l) f m) := by
  obtain ⟨n1, n2, n3⟩ := List.nodup_append.1 hnd
  have hother : ∀ q' c, q' ≠ q → q' ≠ f → c ∈ A q' → c ∉ A q ∧ c ∉ A f :=
    fun q' c e1 e2 hc => ⟨h.disj q' q c e1 hc, h.disj q' f c e2 hc⟩
  have hcase : ∀ q' c, c ∈ upd (upd A q l) f m q' →
      (q' = f ∧ c ∈ m) ∨ (q' = q ∧ c ∈ l) ∨ (q' ≠ q ∧ q' ≠ f ∧ c ∈ A q') := by
    intro q' c hc
    simp only [upd_apply] at hc
    split at hc
    · next e => exact Or.inl ⟨e, hc⟩
    · split at hc
      · next e => exact Or.inr (Or.inl ⟨e, hc⟩)
      · next e1 e2 => exact Or.inr (Or.inr ⟨e2, e1, hc⟩)
  constructor
  · intro q'; simp only [upd_apply]; split
    · rfl
    · split
      · rfl
      · exact h.root q'
  · intro q'; simp only [upd_apply]; split
    · exact hrm
    · split
      · exact hrl
      · next e1 e2 =>
        exact ring_congr (h.ring q') (fun c hc => hn c (hother q' c e2 e1 hc).1 (hother q' c e2 e1 hc).2)
          (fun c hc => hb c (hother q' c e2 e1 hc).1 (hother q' c e2 e1 hc).2)
  · intro q'; simp only [upd_apply]; split
    · exact n2
    · split
      · exact n1
      · exact h.nodup q'
  · intro q1 q2 c hne h1 h2
    rcases hcase q1 c h1 with ⟨e1, h1⟩ | ⟨e1, h1⟩ | ⟨e1, e1', h1⟩ <;>
      rcases hcase q2 c h2 with ⟨e2, h2⟩ | ⟨e2, h2⟩ | ⟨e2, e2', h2⟩
    · exact hne (e1.trans e2.symm)
    · exact n3 c h2 c h1 rfl
    · rcases (hlm c).1 (Or.inr h1) with e | e
      · exact (hother q2 c e2 e2' h2).1 e
      · exact (hother q2 c e2 e2' h2).2 e
    · exact n3 c h1 c h2 rfl
    · exact hne (e1.trans e2.symm)
    · rcases (hlm c).1 (Or.inl h1) with e | e
      · exact (hother q2 c e2 e2' h2).1 e
      · exact (hother q2 c e2 e2' h2).2 e
    · rcases (hlm c).1 (Or.inr h2) with e | e
      · exact (hother q1 c e1 e1' h1).1 e
      · exact (hother q1 c e1 e1' h1).2 e
    · rcases (hlm c).1 (Or.inl h2) with e | e
      · exact (hother q1 c e1 e1' h1).1 e
      · exact (hother q1 c e1 e1' h1).2 e
    · exact h.disj q1 q2 c hne h1 h2
  · intro c hc
    have hcf : c ∉ m := by have := hc f; rwa [upd_same] at this
    have hcq : c ∉ l := by have := hc q; rwa [upd_ne _ _ hqf, upd_same] at this
    have hcq' : c ∉ A q := fun e => by rcases (hlm c).2 (Or.inl e) with e | e <;> contradiction
    have hcf' : c ∉ A f := fun e => by rcases (hlm c).2 (Or.inr e) with e | e <;> contradiction
    rw [hn c hcq' hcf']
    apply h.off
    intro q' hq'
    have := hc q'
    simp only [upd_apply] at this; split at this
    · next e => exact hcf' (e ▸ hq')
    · split at this
      · next e => exact hcq' (e ▸ hq')
      · exact this hq'
  · intro q'; simp only [upd_apply]; split
    · intro e; rcases (hlm 0).1 (Or.inr e) with e | e
      · exact h.nz q e
      · exact h.nz f e
    · split
      · intro e; rcases (hlm 0).1 (Or.inl e) with e | e
        · exact h.nz q e
        · exact h.nz f e
      · exact h.nz q'

end Rings
end Verif
