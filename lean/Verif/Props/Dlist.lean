import Verif.Proof.Dlist
/-!
C21 (dlist refines a list) and C22 (dlist traversal).

Specification: `H` says which addresses hold list headers, `A q` is the list of elements of the list whose header is at
`q`. `Spec H A op A' r` says what a call does and returns; its premises are the preconditions. Null is 0.
-/
namespace Verif.Dlist
open Verif

/-- Headers are at even addresses, not at null; any number of them. -/
def Headers (H : Nat → Bool) : Prop := ∀ q, H q = true → q % 2 = 0 ∧ q ≠ 0

/-- An address usable for an element that is on no list. -/
def Unlisted (H : Nat → Bool) (A : Nat → List Nat) (n : Nat) : Prop :=
  n ≠ 0 ∧ n % 2 = 0 ∧ H n = false ∧ ∀ q, n ∉ A q

inductive Spec (H : Nat → Bool) (A : Nat → List Nat) : Op → (Nat → List Nat) → Res → Prop
  | insertFirst (q n) : H q = true → Unlisted H A n → Spec H A (.insertFirst q n) (upd A q (n :: A q)) .unit
  | insertLast (q n) : H q = true → Unlisted H A n → Spec H A (.insertLast q n) (upd A q (A q ++ [n])) .unit
  | insertBefore (q n b l1 l2) : Unlisted H A n → A q = l1 ++ b :: l2 →
      Spec H A (.insertBefore b n) (upd A q (l1 ++ n :: b :: l2)) .unit
  | insertAfter (q n a l1 l2) : Unlisted H A n → A q = l1 ++ a :: l2 →
      Spec H A (.insertAfter a n) (upd A q (l1 ++ a :: n :: l2)) .unit
  | remove (q n l1 l2) : A q = l1 ++ n :: l2 → Spec H A (.remove n) (upd A q (l1 ++ l2)) (.node n)
  | removeFirst (q) : H q = true → Spec H A (.removeFirst q) (upd A q (A q).tail) (.node ((A q).headD 0))
  | removeLast (q) : H q = true → Spec H A (.removeLast q) (upd A q (A q).dropLast) (.node ((A q).getLastD 0))
  | empty (q) : H q = true → Spec H A (.empty q) A (.bool (A q).isEmpty)
  | first (q) : H q = true → Spec H A (.first q) A (.node ((A q).headD 0))
  | last (q) : H q = true → Spec H A (.last q) A (.node ((A q).getLastD 0))
  | listed_yes (q n) : n ∈ A q → Spec H A (.listed n) A (.bool true)
  | listed_no (n) : Unlisted H A n → Spec H A (.listed n) A (.bool false)
  | next (q n l1 l2) : A q = l1 ++ n :: l2 → Spec H A (.next n) A (.node (l2.headD 0))
  | prev (q n l1 l2) : A q = l1 ++ n :: l2 → Spec H A (.prev n) A (.node (l1.getLastD 0))
  | foreach (q) : H q = true → Spec H A (.foreach q) A (.nodes (A q))
  | foreachRev (q) : H q = true → Spec H A (.foreachRev q) A (.nodes (A q).reverse)
  | validate (q) : H q = true → Spec H A (.validate q) A (.bool true)

inductive SpecRun (H : Nat → Bool) : (Nat → List Nat) → List Op → (Nat → List Nat) → List Res → Prop
  | nil (A) : SpecRun H A [] A []
  | cons (A o A' r os A'' rs) : Spec H A o A' r → SpecRun H A' os A'' rs → SpecRun H A (o :: os) A'' (r :: rs)

theorem Unlisted.free {H : Nat → Bool} {A : Nat → List Nat} {n : Nat} (h : Unlisted H A n) : Free H A n :=
  ⟨h.1, h.2.1, h.2.2.1, h.2.2.2⟩

theorem upd_self {α : Type} (f : Nat → α) (q : Nat) (v : α) (h : f q = v) : upd f q v = f := by
  funext x; rw [upd_apply]; split
  · next e => rw [e, h]
  · rfl

theorem step_spec {H : Nat → Bool} (hk : HOk H) {A A' : Nat → List Nat} {o : Op} {r : Res} (hs : Spec H A o A' r) :
    ∃ F, ∀ s nx bk, Inv H s A nx bk → ∀ dbg fuel, F ≤ fuel →
      ∃ s' nx' bk', step dbg fuel s o = .ret (s', r) ∧ Inv H s' A' nx' bk' := by
  cases hs with
  | insertFirst q n hq hu =>
    refine ⟨0, fun s nx bk h dbg fuel _ => ?_⟩
    obtain ⟨s', nx', bk', h1, h2⟩ := insertFirst_spec hk h hq hu.free dbg
    exact ⟨s', nx', bk', by simp [step, h1], h2⟩
  | insertLast q n hq hu =>
    refine ⟨0, fun s nx bk h dbg fuel _ => ?_⟩
    obtain ⟨s', nx', bk', h1, h2⟩ := insertLast_spec hk h hq hu.free dbg
    exact ⟨s', nx', bk', by simp [step, h1], h2⟩
  | insertBefore q n b l1 l2 hu hA =>
    refine ⟨0, fun s nx bk h dbg fuel _ => ?_⟩
    obtain ⟨s', nx', bk', h1, h2⟩ := insertBefore_spec hk h hu.free hA dbg
    exact ⟨s', nx', bk', by simp [step, h1], h2⟩
  | insertAfter q n a l1 l2 hu hA =>
    refine ⟨0, fun s nx bk h dbg fuel _ => ?_⟩
    obtain ⟨s', nx', bk', h1, h2⟩ := insertAfter_spec hk h hu.free hA dbg
    exact ⟨s', nx', bk', by simp [step, h1], h2⟩
  | remove q n l1 l2 hA =>
    refine ⟨0, fun s nx bk h dbg fuel _ => ?_⟩
    obtain ⟨s', nx', bk', h1, h2⟩ := remove_spec hk h hA dbg
    exact ⟨s', nx', bk', by simp [step, h1], h2⟩
  | removeFirst q hq =>
    refine ⟨0, fun s nx bk h dbg fuel _ => ?_⟩
    cases hA : A q with
    | nil =>
      refine ⟨s, nx, bk, ?_, by rw [List.tail_nil, upd_self _ _ _ hA]; exact h⟩
      simp [step, removeFirst, first_spec hk h hq, hA]
    | cons a l =>
      have ha := (untag hk h hq (x := a) (by rw [hA]; simp)).2.2.1
      obtain ⟨s', nx', bk', h1, h2⟩ := remove_spec hk h (l1 := []) hA dbg
      exact ⟨s', nx', bk', by simp [step, removeFirst, first_spec hk h hq, hA, ha, h1], h2⟩
  | removeLast q hq =>
    refine ⟨0, fun s nx bk h dbg fuel _ => ?_⟩
    rcases List.eq_nil_or_concat (A q) with hA | ⟨l, a, hA⟩
    · refine ⟨s, nx, bk, ?_, by rw [hA, List.dropLast_nil, upd_self _ _ _ hA]; exact h⟩
      simp [step, removeLast, last_spec hk h hq, hA]
    · have ha := (untag hk h hq (x := a) (by rw [hA]; simp)).2.2.1
      obtain ⟨s', nx', bk', h1, h2⟩ := remove_spec hk h (l1 := l) (n := a) (l2 := []) (by rw [hA, List.concat_eq_append]) dbg
      refine ⟨s', nx', bk', ?_, by rw [hA]; simpa using h2⟩
      simp [step, removeLast, last_spec hk h hq, hA, ha, h1]
  | empty q hq =>
    exact ⟨0, fun s nx bk h dbg fuel _ => ⟨s, nx, bk, by simp [step, empty_spec hk h hq], h⟩⟩
  | first q hq =>
    exact ⟨0, fun s nx bk h dbg fuel _ => ⟨s, nx, bk, by simp [step, first_spec hk h hq], h⟩⟩
  | last q hq =>
    exact ⟨0, fun s nx bk h dbg fuel _ => ⟨s, nx, bk, by simp [step, last_spec hk h hq], h⟩⟩
  | listed_yes q n hn =>
    refine ⟨0, fun s nx bk h dbg fuel _ => ⟨s, nx, bk, ?_, h⟩⟩
    obtain ⟨hq, hH, he⟩ := h.mem q n hn
    obtain ⟨_, _, hn0, _⟩ := untag hk h hq hn
    have hf : n ∈ full H A q := by rw [full_eq hq]; simp [hn]
    have hx := h.rings.next_ne0 hf
    have : s.next n ≠ 0 := by rw [h.sn]; unfold raw; split <;> omega
    simp [step, listed, verify, rdPrev, rdNext, hn0, this]
  | listed_no n hu =>
    refine ⟨0, fun s nx bk h dbg fuel _ => ⟨s, nx, bk, ?_, h⟩⟩
    have hf := hu.free
    simp [step, listed, verify, rdPrev, rdNext, hf.ne0, hf.next hk h, hf.prev hk h]
  | next q n l1 l2 hA =>
    refine ⟨0, fun s nx bk h dbg fuel _ => ⟨s, nx, bk, ?_, h⟩⟩
    have hm : n ∈ A q := by rw [hA]; simp
    have hq := (h.mem q n hm).1
    obtain ⟨_, _, hn0, hc⟩ := untag hk h hq hm
    have := advance_spec hk h hq hc hn0 (next_of h hA).1 (by intro x hx; rw [hA]; simp [hx])
    cases l2 <;> simp [step, nextNode, this, arrive]
  | prev q n l1 l2 hA =>
    refine ⟨0, fun s nx bk h dbg fuel _ => ⟨s, nx, bk, ?_, h⟩⟩
    have hm : n ∈ A q := by rw [hA]; simp
    have hq := (h.mem q n hm).1
    obtain ⟨_, _, hn0, hc⟩ := untag hk h hq hm
    have := recede_spec hk h (l := l1.reverse) hq hc hn0 (by rw [headD_reverse]; exact (next_of h hA).2)
      (by intro x hx; rw [hA]; simp [List.mem_reverse.1 hx])
    rcases List.eq_nil_or_concat l1 with e | ⟨l, a, e⟩
    · subst e; simp [step, prevNode, this, arrive]
    · subst e; simp [step, prevNode, this, arrive]
  | foreach q hq =>
    refine ⟨(A q).length + 1, fun s nx bk h dbg fuel hf => ⟨s, nx, bk, ?_, h⟩⟩
    have := foreach_spec hk h hq (A q) q (iter q) fuel (clear_iter (hk q hq).1) (hk q hq).2 (seg_of h hq) (fun _ hx => hx) hf
    simp [step, this]
  | foreachRev q hq =>
    refine ⟨(A q).length + 1, fun s nx bk h dbg fuel hf => ⟨s, nx, bk, ?_, h⟩⟩
    have := foreachRev_spec hk h hq (A q).reverse q (iter q) fuel (clear_iter (hk q hq).1) (hk q hq).2
      (seg_reverse (seg_of h hq)) (fun _ hx => List.mem_reverse.1 hx) (by rw [List.length_reverse]; exact hf)
    simp [step, this]
  | validate q hq =>
    refine ⟨(A q).length + 1, fun s nx bk h dbg fuel hf => ⟨s, nx, bk, ?_, h⟩⟩
    simp [step, validate_spec hk h hq hf]

theorem run_spec {H : Nat → Bool} (hk : HOk H) {A A' : Nat → List Nat} {os : List Op} {rs : List Res}
    (h : SpecRun H A os A' rs) : ∃ F, ∀ s nx bk, Inv H s A nx bk → ∀ dbg fuel, F ≤ fuel →
      ∃ s' nx' bk', run dbg fuel s os = .ret (s', rs) ∧ Inv H s' A' nx' bk' := by
  induction h with
  | nil A => exact ⟨0, fun s nx bk h dbg fuel _ => ⟨s, nx, bk, rfl, h⟩⟩
  | cons A o A' r os A'' rs h1 _ ih =>
    obtain ⟨F1, hF1⟩ := step_spec hk h1
    obtain ⟨F2, hF2⟩ := ih
    refine ⟨max F1 F2, fun s nx bk h dbg fuel hf => ?_⟩
    obtain ⟨s', nx', bk', h2, h3⟩ := hF1 s nx bk h dbg fuel (by omega)
    obtain ⟨s'', nx'', bk'', h4, h5⟩ := hF2 s' nx' bk' h3 dbg fuel (by omega)
    exact ⟨s'', nx'', bk'', by simp [run, h2, h4], h5⟩

/-- Every history of calls respecting the preconditions, on any number of lists, returns what the same calls return on
    lists; no check fails with the checks compiled in, and the structural validator always accepts. -/
theorem C21_dlist_is_list (H : Nat → Bool) (hH : Headers H) (os : List Op) (A : Nat → List Nat) (rs : List Res)
    (h : SpecRun H (fun _ => []) os A rs) :
    ∃ F, ∀ dbg fuel, F ≤ fuel → ∃ s, run dbg fuel (init H) os = .ret (s, rs) := by
  obtain ⟨F, hF⟩ := run_spec hH h
  obtain ⟨nx, bk, hi⟩ := init_inv hH
  refine ⟨F, fun dbg fuel hf => ?_⟩
  obtain ⟨s, _, _, h1, _⟩ := hF _ _ _ hi dbg fuel hf
  exact ⟨s, h1⟩

/-- After any history: no element is on two lists or twice on one, and `listed` holds exactly of the elements of lists. -/
theorem C21_membership (H : Nat → Bool) (hH : Headers H) (os : List Op) (A : Nat → List Nat) (rs : List Res)
    (h : SpecRun H (fun _ => []) os A rs) :
    (∀ q, (A q).Nodup) ∧ (∀ q q' n, n ∈ A q → n ∈ A q' → q = q') ∧
    ∃ F, ∀ dbg fuel, F ≤ fuel → ∃ s, run dbg fuel (init H) os = .ret (s, rs) ∧
      ∀ n, n ≠ 0 → n % 2 = 0 → H n = false → ∃ b, listed dbg s n = .ret b ∧ (b = true ↔ ∃ q, n ∈ A q) := by
  obtain ⟨F, hF⟩ := run_spec hH h
  obtain ⟨nx, bk, hi⟩ := init_inv hH
  have hall : ∀ s nx bk, Inv H s A nx bk → (∀ q, (A q).Nodup) ∧ (∀ q q' n, n ∈ A q → n ∈ A q' → q = q') := by
    intro s nx bk h
    constructor
    · intro q
      cases hq : H q with
      | false => rw [nil_of_not h hq]; simp
      | true => have := h.rings.nodup q; rw [full_eq hq] at this; exact (List.nodup_cons.1 this).2
    · intro q q' n h1 h2
      by_contra hne
      refine h.rings.disj q q' n hne ?_ ?_
      · rw [full_eq (h.mem q n h1).1]; simp [h1]
      · rw [full_eq (h.mem q' n h2).1]; simp [h2]
  obtain ⟨s0, nx0, bk0, _, hi0⟩ := hF _ _ _ hi true F (Nat.le_refl _)
  refine ⟨(hall _ _ _ hi0).1, (hall _ _ _ hi0).2, F, fun dbg fuel hf => ?_⟩
  obtain ⟨s, nx', bk', h1, hi'⟩ := hF _ _ _ hi dbg fuel hf
  refine ⟨s, h1, fun n hn0 hne hnH => ?_⟩
  by_cases hm : ∃ q, n ∈ A q
  · obtain ⟨q, hq⟩ := hm
    obtain ⟨F', hF'⟩ := step_spec hH (Spec.listed_yes (H := H) (A := A) q n hq)
    obtain ⟨_, _, _, e, _⟩ := hF' s nx' bk' hi' dbg F' (Nat.le_refl _)
    refine ⟨true, ?_, by simp; exact ⟨q, hq⟩⟩
    cases hl : listed dbg s n <;> simp [step, hl] at e
    rw [e.2]
  · have hu : Unlisted H A n := ⟨hn0, hne, hnH, fun q hq => hm ⟨q, hq⟩⟩
    obtain ⟨F', hF'⟩ := step_spec hH (Spec.listed_no (H := H) (A := A) n hu)
    obtain ⟨_, _, _, e, _⟩ := hF' s nx' bk' hi' dbg F' (Nat.le_refl _)
    refine ⟨false, ?_, by simpa using hm⟩
    cases hl : listed dbg s n <;> simp [step, hl] at e
    rw [e.2]

/-- With the checks compiled in, inserting an element that is on a list aborts, in every state a history reaches. -/
theorem C21_double_insert_aborts (H : Nat → Bool) (hH : Headers H) (os : List Op) (A : Nat → List Nat) (rs : List Res)
    (h : SpecRun H (fun _ => []) os A rs) :
    ∃ F, ∀ fuel, F ≤ fuel → ∃ s, run true fuel (init H) os = .ret (s, rs) ∧
      ∀ q n, n ∈ A q → (∀ b, b ≠ 0 → insertBefore true s b n = .abort ∧ insertAfter true s b n = .abort) ∧
        ∀ q', insertFirst true s q' n = .abort ∧ insertLast true s q' n = .abort := by
  obtain ⟨F, hF⟩ := run_spec hH h
  obtain ⟨nx, bk, hi⟩ := init_inv hH
  refine ⟨F, fun fuel hf => ?_⟩
  obtain ⟨s, nx', bk', h1, h⟩ := hF _ _ _ hi true fuel hf
  refine ⟨s, h1, fun q n hn => ?_⟩
  obtain ⟨hq, hH', he⟩ := h.mem q n hn
  obtain ⟨_, _, hn0, _⟩ := untag hH h hq hn
  have hf : n ∈ full H A q := by rw [full_eq hq]; simp [hn]
  have hx := h.rings.next_ne0 hf
  have hnx : s.next n ≠ 0 := by rw [h.sn]; unfold raw; split <;> omega
  have key : ∀ b, b ≠ 0 → insertBefore true s b n = .abort ∧ insertAfter true s b n = .abort := by
    intro b hb
    refine ⟨by simp [insertBefore, verify, rdNext, rdPrev, hn0, hb, hnx], ?_⟩
    by_cases hp : s.prev n = 0
    · simp [insertAfter, verify, rdNext, rdPrev, hn0, hb, hnx, hp]
    · simp [insertAfter, verify, rdNext, rdPrev, hn0, hb, hp]
  have hit : ∀ q', iter q' ≠ 0 := by intro q'; unfold iter tagSet; omega
  exact ⟨key, fun q' => ⟨(key _ (hit q')).2, (key _ (hit q')).1⟩⟩

/-- A history on two lists with headers at 2 and 4. -/
example : ∃ A, SpecRun (fun q => q == 2 || q == 4) (fun _ => [])
    [.insertLast 2 10, .insertFirst 2 12, .insertAfter 12 14, .insertBefore 12 16, .foreach 2, .remove 14, .insertLast 4 14,
     .foreachRev 2, .validate 2, .removeLast 2, .next 16, .listed 10, .listed 14, .removeFirst 4, .empty 4] A
    [.unit, .unit, .unit, .unit, .nodes [16, 12, 14, 10], .node 14, .unit, .nodes [10, 12, 16], .bool true, .node 10,
     .node 12, .bool false, .bool true, .node 14, .bool true] :=
  ⟨_, .cons _ _ _ _ _ _ _ (.insertLast 2 10 (by decide) ⟨by decide, by decide, by decide, by simp⟩) <|
    .cons _ _ _ _ _ _ _ (.insertFirst 2 12 (by decide) ⟨by decide, by decide, by decide, by intro q; simp only [upd_apply]; split <;> simp⟩) <|
    .cons _ _ _ _ _ _ _ (.insertAfter 2 14 12 [] [10] ⟨by decide, by decide, by decide, by intro q; simp only [upd_apply]; split <;> simp⟩ (by simp [upd])) <|
    .cons _ _ _ _ _ _ _ (.insertBefore 2 16 12 [] [14, 10] ⟨by decide, by decide, by decide, by intro q; simp only [upd_apply]; split <;> simp⟩ (by simp [upd])) <|
    .cons _ _ _ _ _ _ _ (.foreach 2 (by decide)) <|
    .cons _ _ _ _ _ _ _ (.remove 2 14 [16, 12] [10] (by simp [upd])) <|
    .cons _ _ _ _ _ _ _ (.insertLast 4 14 (by decide) ⟨by decide, by decide, by decide, by intro q; simp only [upd_apply]; split <;> simp⟩) <|
    .cons _ _ _ _ _ _ _ (.foreachRev 2 (by decide)) <|
    .cons _ _ _ _ _ _ _ (.validate 2 (by decide)) <|
    .cons _ _ _ _ _ _ _ (.removeLast 2 (by decide)) <|
    .cons _ _ _ _ _ _ _ (.next 2 16 [] [12] (by simp [upd])) <|
    .cons _ _ _ _ _ _ _ (.listed_no 10 ⟨by decide, by decide, by decide, by intro q; simp only [upd_apply]; split <;> (try split) <;> simp⟩) <|
    .cons _ _ _ _ _ _ _ (.listed_yes 4 14 (by simp [upd])) <|
    .cons _ _ _ _ _ _ _ (.removeFirst 4 (by decide)) <|
    .cons _ _ _ _ _ _ _ (.empty 4 (by decide)) <| .nil _⟩

example : Headers (fun q => q == 2 || q == 4) := by
  intro q hq; simp at hq; omega

/-! ## C22 -/

/-- After any history, for any list `q`: `advance`, repeated from the iterator, visits the elements in order and then
    reports false at the origin; `recede` visits them in reverse and stops at the origin; from an element each reports
    whether there is a neighbour, and moves to it. Missing: `first`/`last` of a node, which are inverted (next theorem). -/
theorem C22_traversal_partial (H : Nat → Bool) (hH : Headers H) (os : List Op) (A : Nat → List Nat) (rs : List Res)
    (h : SpecRun H (fun _ => []) os A rs) :
    ∃ F, ∀ dbg fuel, F ≤ fuel → ∃ s, run dbg fuel (init H) os = .ret (s, rs) ∧
      (∀ q, H q = true → ∀ k, (A q).length < k →
        foreach s k (iter q) = .ret (A q, iter q) ∧ foreachRev s k (iter q) = .ret ((A q).reverse, iter q)) ∧
      (∀ q n l1 l2 m, A q = l1 ++ n :: m :: l2 → advance s n = .ret (m, true) ∧ recede s m = .ret (n, true)) ∧
      (∀ q n l, A q = l ++ [n] → advance s n = .ret (iter q, false)) ∧
      (∀ q n l, A q = n :: l → recede s n = .ret (iter q, false)) := by
  obtain ⟨F, hF⟩ := run_spec hH h
  obtain ⟨nx, bk, hi⟩ := init_inv hH
  refine ⟨F, fun dbg fuel hf => ?_⟩
  obtain ⟨s, nx', bk', h1, h⟩ := hF _ _ _ hi dbg fuel hf
  have adv : ∀ q n l1 l2, A q = l1 ++ n :: l2 → advance s n = .ret (arrive H q l2) ∧ recede s n = .ret (arrive H q l1.reverse) := by
    intro q n l1 l2 hA
    have hm : n ∈ A q := by rw [hA]; simp
    have hq := (h.mem q n hm).1
    obtain ⟨_, _, hn0, hc⟩ := untag hH h hq hm
    exact ⟨advance_spec hH h hq hc hn0 (next_of h hA).1 (by intro x hx; rw [hA]; simp [hx]),
      recede_spec hH h (l := l1.reverse) hq hc hn0 (by rw [headD_reverse]; exact (next_of h hA).2)
      (by intro x hx; rw [hA]; simp [List.mem_reverse.1 hx])⟩
  refine ⟨s, h1, ?_, ?_, ?_, ?_⟩
  · intro q hq k hk
    rw [foreach_spec hH h hq (A q) q (iter q) k (clear_iter (hH q hq).1) (hH q hq).2 (seg_of h hq) (fun _ hx => hx) hk,
      foreachRev_spec hH h hq (A q).reverse q (iter q) k (clear_iter (hH q hq).1) (hH q hq).2
      (seg_reverse (seg_of h hq)) (fun _ hx => List.mem_reverse.1 hx) (by rw [List.length_reverse]; exact hk),
      iter_eq hH hq]
    exact ⟨rfl, rfl⟩
  · intro q n l1 l2 m hA
    refine ⟨(adv q n l1 (m :: l2) hA).1, ?_⟩
    have := (adv q m (l1 ++ [n]) l2 (by rw [hA]; simp)).2
    simpa [arrive] using this
  · intro q n l hA
    have hq := (h.mem q n (by rw [hA]; simp)).1
    rw [(adv q n l [] hA).1, iter_eq hH hq]; rfl
  · intro q n l hA
    have hq := (h.mem q n (by rw [hA]; simp)).1
    rw [(adv q n [] l hA).2, iter_eq hH hq]; rfl

/-- `first(node)` and `last(node)` answer the opposite of what they should: for every element of every reachable list,
    `first` returns true exactly when the element is not the first one, `last` exactly when it is not the last one. -/
theorem C22_first_last_violated (H : Nat → Bool) (hH : Headers H) (os : List Op) (A : Nat → List Nat) (rs : List Res)
    (h : SpecRun H (fun _ => []) os A rs) :
    ∃ F, ∀ dbg fuel, F ≤ fuel → ∃ s, run dbg fuel (init H) os = .ret (s, rs) ∧
      ∀ q n l1 l2, A q = l1 ++ n :: l2 →
        firstNode s n = .ret (decide (l1 ≠ [])) ∧ lastNode s n = .ret (decide (l2 ≠ [])) := by
  obtain ⟨F, hF⟩ := C22_traversal_partial H hH os A rs h
  refine ⟨F, fun dbg fuel hf => ?_⟩
  obtain ⟨s, h1, _, h3, h4, h5⟩ := hF dbg fuel hf
  refine ⟨s, h1, fun q n l1 l2 hA => ⟨?_, ?_⟩⟩
  · rcases List.eq_nil_or_concat l1 with e | ⟨l, a, e⟩
    · subst e; simp [firstNode, h5 q n l2 hA]
    · subst e; simp [firstNode, (h3 q a l l2 n (by rw [hA]; simp)).2]
  · cases l2 with
    | nil => simp [lastNode, h4 q n l1 hA]
    | cons b l => simp [lastNode, (h3 q n l1 l b hA).1]

end Verif.Dlist
