import Verif.Model.FilterCombos
/-!
C65: the combinations `filterCombos` returns.
-/
namespace Verif.FilterCombos
open Verif

variable {α : Type}

/-! ### Specification -/

/-- All combinations, one candidate per position, in lexicographic order of the positions of the candidates. -/
def combos : List (List α) → List (List α)
  | [] => [[]]
  | q :: qs => q.flatMap fun x => (combos qs).map fun c => x :: c

/-- The filter accepts every non-empty prefix. -/
def Accepted (ok : List α → Bool) (c : List α) : Prop := ∀ n, n < c.length → ok (c.take (n + 1)) = true

instance (ok : List α → Bool) : DecidablePred (Accepted ok) := fun c => Nat.decidableBallLT c.length (fun n _ => ok (c.take (n + 1)) = true)

/-! ### Proof -/

/-- The accepted extensions of a prefix. -/
def ext (ok : List α → Bool) (cur : List α) : List (List α) → List (List α)
  | [] => [cur]
  | q :: qs => q.flatMap fun x => if ok (cur ++ [x]) then ext ok (cur ++ [x]) qs else []

theorem ext_spec (ok : List α → Bool) : ∀ (qs : List (List α)) (cur : List α), Accepted ok cur →
    ext ok cur qs = ((combos qs).map (cur ++ ·)).filter (fun c => Accepted ok c)
  | [], cur, h => by simp [ext, combos, h]
  | q :: qs, cur, h => by
    simp only [ext, combos, List.map_flatMap, List.filter_flatMap]
    congr 1; funext x
    split
    · next hx =>
      rw [ext_spec ok qs (cur ++ [x])]
      · simp [List.map_map, Function.comp_def]
      · intro n hn
        by_cases hn' : n < cur.length
        · rw [List.take_append_of_le_length (by omega)]; exact h n hn'
        · have : n = cur.length := by simp at hn; omega
          subst this; rw [List.take_of_length_le (by simp)]; exact hx
    · next hx =>
      symm
      rw [List.filter_eq_nil_iff]
      intro c hc
      simp only [List.mem_map] at hc
      obtain ⟨c', ⟨c'', -, rfl⟩, rfl⟩ := hc
      simp only [decide_eq_true_eq]
      intro ha
      have := ha cur.length (by simp)
      rw [show (cur ++ x :: c'').take (cur.length + 1) = cur ++ [x] by rw [List.take_append, List.take_of_length_le (by omega)]; simp] at this
      exact hx this

/-- Where the loop goes on after the candidates at a position are exhausted. -/
def resume (ok : List α → Bool) (qs : List (List α)) (fuel : Nat) (b : List Nat × List α) (out : List (List α)) : Outcome (List (List α)) :=
  if b.1.isEmpty then .ret out else loop ok qs fuel ⟨b.1, b.2, out⟩

theorem level (ok : List α → Bool) (qs : List (List α)) (hne : ∀ q ∈ qs, q ≠ []) : ∀ (r : Nat) (rs : List (List α)) (js : List Nat), rs.length = r → qs.drop js.length = rs → rs ≠ [] →
    ∀ (m : Nat) (q : List α) (rs' : List (List α)) (j : Nat) (cur : List α) (out : List (List α)), rs = q :: rs' → q.length - j = m → j < q.length →
    ∃ N, ∀ fuel, loop ok qs (N + fuel) ⟨j :: js, cur, out⟩ =
      resume ok qs fuel (back qs js cur) (out ++ (q.drop j).flatMap fun x => if ok (cur ++ [x]) then ext ok (cur ++ [x]) rs' else []) := by
  intro r
  induction r with
  | zero => intro rs js hr _ hn; cases rs <;> simp_all
  | succ r ihr =>
    intro rs js hr hd hn m
    induction m with
    | zero => intro q rs' j cur out _ h1 h2; omega
    | succ m ihm =>
      intro q rs' j cur out hq hm hj
      subst hq
      have hlen : js.length < qs.length := by
        have := congrArg List.length hd
        simp at this; omega
      have hget : qs[js.length]? = some q := by
        have := congrArg (fun l => l[0]?) hd
        simpa using this
      have hgetD : qs.getD js.length [] = q := by simp [List.getD, hget]
      have hd' : qs.drop (js.length + 1) = rs' := by
        have := congrArg List.tail hd
        simpa using this
      have hlr : js.length + 1 + rs'.length = qs.length := by
        have := congrArg List.length hd
        simp at this; omega
      have hx : q[j]? = some q[j] := by simp [hj]
      rw [List.drop_eq_getElem_cons hj, List.flatMap_cons]
      generalize hxx : q[j] = x at *
      -- the state after candidate `j` is done
      have after : ∀ out', ∃ N, ∀ fuel, (if j + 1 < q.length then loop ok qs (N + fuel) ⟨(j + 1) :: js, cur, out'⟩ else
            resume ok qs (N + fuel) (back qs js cur) out') =
          resume ok qs fuel (back qs js cur) (out' ++ (q.drop (j + 1)).flatMap fun x => if ok (cur ++ [x]) then ext ok (cur ++ [x]) rs' else []) := by
        intro out'
        by_cases hj' : j + 1 < q.length
        · obtain ⟨N, hN⟩ := ihm q rs' (j + 1) cur out' rfl (by omega) hj'
          exact ⟨N, fun fuel => by rw [if_pos hj', hN]⟩
        · refine ⟨0, fun fuel => ?_⟩
          rw [if_neg hj', List.drop_eq_nil_of_le (by omega)]
          simp
      by_cases hok : ok (cur ++ [x]) = true
      · cases rs' with
        | nil =>
          obtain ⟨N, hN⟩ := after (out ++ [cur ++ [x]])
          refine ⟨N + 1, fun fuel => ?_⟩
          rw [show N + 1 + fuel = (N + fuel) + 1 by omega]
          simp only [loop, hget, Option.bind_some, hx, hok, Bool.true_and, if_true]
          have : decide (js.length + 1 ≠ qs.length) = false := by simp at hlr; simp [hlr]
          simp only [this, Bool.false_eq_true, if_false, hgetD]
          have := hN fuel
          simp only [resume, ext, List.append_assoc, hok, if_true] at this ⊢
          exact this
        | cons q2 rs2 =>
          have hq2 : q2 ≠ [] := hne q2 (by
            have : q2 ∈ qs.drop (js.length + 1) := by rw [hd']; exact List.mem_cons_self
            exact List.mem_of_mem_drop this)
          have hq2' : 0 < q2.length := List.length_pos_iff.2 hq2
          obtain ⟨N1, hN1⟩ := ihr (q2 :: rs2) (j :: js) (by simp at hr ⊢; omega) (by simpa using hd') (by simp) q2.length q2 rs2 0 (cur ++ [x]) out rfl (by omega) hq2'
          obtain ⟨N2, hN2⟩ := after (out ++ ext ok (cur ++ [x]) (q2 :: rs2))
          refine ⟨1 + N1 + N2, fun fuel => ?_⟩
          rw [show 1 + N1 + N2 + fuel = (N1 + (N2 + fuel)) + 1 by omega]
          simp only [loop, hget, Option.bind_some, hx, hok, Bool.true_and]
          have : decide (js.length + 1 ≠ qs.length) = true := by simp at hlr; simp; omega
          simp only [this, if_true]
          rw [hN1 (N2 + fuel), List.drop_zero]
          show resume ok qs (N2 + fuel) (back qs (j :: js) (cur ++ [x])) (out ++ ext ok (cur ++ [x]) (q2 :: rs2)) = _
          rw [← List.append_assoc, ← hN2 fuel]
          simp only [back, hgetD, List.dropLast_concat]
          by_cases hj' : j + 1 < q.length
          · simp only [hj', if_true, resume, List.isEmpty_cons, Bool.false_eq_true, if_false]
          · simp only [hj', if_false]
      · obtain ⟨N, hN⟩ := after out
        refine ⟨N + 1, fun fuel => ?_⟩
        rw [show N + 1 + fuel = (N + fuel) + 1 by omega]
        simp only [loop, hget, Option.bind_some, hx, hok, Bool.false_and, if_false, Bool.false_eq_true, hgetD, List.nil_append]
        have := hN fuel
        simp only [resume] at this ⊢
        exact this

/-! ### C65 -/

/-- C65: for every list of positions, each with its candidates, and every filter, the loop ends and returns exactly the combinations all of whose prefixes the filter
    accepts, in lexicographic order and each as often as it is a combination. The list of positions must not be empty. -/
theorem C65_combinations (ok : List α → Bool) (qs : List (List α)) (hqs : qs ≠ []) :
    ∃ F, ∀ fuel, F ≤ fuel → filterCombos ok fuel qs = .ret ((combos qs).filter fun c => Accepted ok c) := by
  by_cases he : qs.any List.isEmpty = true
  · refine ⟨0, fun fuel _ => ?_⟩
    rw [filterCombos, if_pos he]
    congr 1
    have : combos qs = [] := by
      clear hqs
      induction qs with
      | nil => simp at he
      | cons q qs ih =>
        simp only [List.any_cons, Bool.or_eq_true, List.isEmpty_iff] at he
        rcases he with he | he
        · simp [combos, he]
        · simp [combos, ih he]
    simp [this]
  · have hne : ∀ q ∈ qs, q ≠ [] := by
      intro q hq e
      exact he (List.any_eq_true.2 ⟨q, hq, by simp [e]⟩)
    obtain ⟨q, rs, rfl⟩ : ∃ q rs, qs = q :: rs := by cases qs <;> simp_all
    have hq := List.length_pos_iff.2 (hne q List.mem_cons_self)
    obtain ⟨N, hN⟩ := level ok (q :: rs) hne _ (q :: rs) [] rfl rfl (by simp) q.length q rs 0 [] [] rfl (by omega) hq
    refine ⟨N, fun fuel hf => ?_⟩
    obtain ⟨k, rfl⟩ := Nat.exists_eq_add_of_le hf
    rw [filterCombos, if_neg he, hN k]
    simp only [resume, back, List.isEmpty_nil, if_true, List.drop_zero, List.nil_append]
    have := ext_spec ok (q :: rs) [] (fun n hn => by simp at hn)
    simp only [ext, List.nil_append, List.map_id'] at this
    rw [this]

/-- Candidates 1 2 3 at the first two positions, 4 5 at the third, increasing sums only up to 8. -/
example : filterCombos (fun c => decide (c.sum ≤ 8) && decide (c ≠ [2])) 100 [[1, 2, 3], [1, 2, 3], [4, 5]] =
    .ret [[1, 1, 4], [1, 1, 5], [1, 2, 4], [1, 2, 5], [1, 3, 4], [3, 1, 4]] := by decide +kernel

/-- C65: distinct candidates give distinct combinations. -/
theorem C65_distinct (ok : List α → Bool) (qs : List (List α)) (h : ∀ q ∈ qs, q.Nodup) : ((combos qs).filter fun c => Accepted ok c).Nodup := by
  refine List.Pairwise.filter _ ?_
  show (combos qs).Nodup
  induction qs with
  | nil => simp [combos]
  | cons q qs ih =>
    have ih := ih fun x hx => h x (List.mem_cons_of_mem _ hx)
    have hq := h q List.mem_cons_self
    simp only [combos]
    clear h
    induction q with
    | nil => simp
    | cons x q ihq =>
      rw [List.nodup_cons] at hq
      rw [List.flatMap_cons, List.nodup_append]
      refine ⟨?_, ihq hq.2, ?_⟩
      · rw [List.Nodup, List.pairwise_map]; exact ih.imp fun hab e => hab (by simpa using e)
      · intro a ha b hb e
        obtain ⟨c, -, rfl⟩ := List.mem_map.1 ha
        obtain ⟨y, hy, hb⟩ := List.mem_flatMap.1 hb
        obtain ⟨c', -, rfl⟩ := List.mem_map.1 hb
        simp only [List.cons.injEq] at e
        exact hq.1 (e.1 ▸ hy)

/-- C65: with no position at all the first access is outside the vector. -/
theorem C65_empty_undefined (ok : List α → Bool) (fuel : Nat) : filterCombos ok fuel [] = .undef := by
  cases fuel <;> simp [filterCombos, loop]

end Verif.FilterCombos
