import Verif.Model.WaitforAgg
import Verif.Proof.MonitorReach
/-! C55: the monitors of a `waitfor`. -/
namespace Verif.WaitforAgg
open Verif

theorem scan_spec {v k : Nat} (hv : v ≠ 0) : ∀ (suf pre : List Nat),
    scan (pre ++ suf ++ List.replicate (k + 1) 0) v (suf.length + 1) pre.length = .ret (decide (v ∈ suf))
  | [], pre => by
    have : (pre ++ [] ++ List.replicate (k + 1) 0)[pre.length]? = some 0 := by simp
    simp only [List.length_nil, scan, this]
    rw [if_neg (Ne.symm hv)]
    simp
  | x :: suf, pre => by
    have : (pre ++ x :: suf ++ List.replicate (k + 1) 0)[pre.length]? = some x := by simp
    rw [List.length_cons, scan, this]
    simp only
    by_cases h : x = v
    · rw [if_pos h]; simp [h]
    · rw [if_neg h]
      have := scan_spec (k := k) hv suf (pre ++ [x])
      simp only [List.append_assoc, List.singleton_append, List.length_append, List.length_singleton, List.cons_append, List.nil_append] at this ⊢
      rw [this]
      congr 1
      simp [Ne.symm h]

theorem insertUnique_spec {l : List Nat} {v k : Nat} (hv : v ≠ 0) :
    insertUnique (l ++ List.replicate (k + 1) 0) l.length v =
      .ret (if v ∈ l then (l ++ List.replicate (k + 1) 0, l.length) else (l ++ [v] ++ List.replicate k 0, l.length + 1)) := by
  have h := scan_spec (k := k) hv l []
  simp only [List.nil_append, List.length_nil] at h
  unfold insertUnique
  rw [if_neg hv, h, Outcome.bind_ret]
  by_cases hm : v ∈ l
  · simp [hm]
  · simp only [hm, decide_false, Bool.false_eq_true, if_false]
    rw [if_pos (by simp)]
    congr 2
    rw [List.replicate_succ, List.set_append_right _ _ (Nat.le_refl _)]
    simp

/-- Insertion of `vs` into storage with `k` free places. -/
theorem insertAll_spec : ∀ (vs l : List Nat) (k : Nat), l.Nodup → vs.length ≤ k → ∃ l' k',
    insertAll (l ++ List.replicate k 0) l.length vs = .ret (l' ++ List.replicate k' 0, l'.length) ∧ l'.Nodup ∧
    l'.length + k' = l.length + k ∧ k ≤ k' + vs.length ∧ ∀ x, x ∈ l' ↔ x ∈ l ∨ (x ∈ vs ∧ x ≠ 0)
  | [], l, k, hn, hk => ⟨l, k, rfl, hn, rfl, by simp, by simp⟩
  | v :: vs, l, k, hn, hk => by
    obtain ⟨j, rfl⟩ : ∃ j, k = j + 1 := ⟨k - 1, by simp at hk; omega⟩
    simp only [List.length_cons, Nat.add_le_add_iff_right] at hk
    simp only [insertAll]
    by_cases hv : v = 0
    · have : insertUnique (l ++ List.replicate (j + 1) 0) l.length v = .ret (l ++ List.replicate (j + 1) 0, l.length) := by
        unfold insertUnique; rw [if_pos hv]
      rw [this, Outcome.bind_ret]
      obtain ⟨l', k', h1, h2, h3, h4, h5⟩ := insertAll_spec vs l (j + 1) hn (by omega)
      refine ⟨l', k', h1, h2, h3, by simp; omega, fun x => ?_⟩
      rw [h5]; simp only [List.mem_cons]
      constructor
      · rintro (h | h)
        · exact Or.inl h
        · exact Or.inr ⟨Or.inr h.1, h.2⟩
      · rintro (h | ⟨h | h, h'⟩)
        · exact Or.inl h
        · exact (h' (h.trans hv)).elim
        · exact Or.inr ⟨h, h'⟩
    · rw [insertUnique_spec hv, Outcome.bind_ret]
      by_cases hm : v ∈ l
      · rw [if_pos hm]
        obtain ⟨l', k', h1, h2, h3, h4, h5⟩ := insertAll_spec vs l (j + 1) hn (by omega)
        refine ⟨l', k', h1, h2, h3, by simp; omega, fun x => ?_⟩
        rw [h5]; simp only [List.mem_cons]
        constructor
        · rintro (h | h)
          · exact Or.inl h
          · exact Or.inr ⟨Or.inr h.1, h.2⟩
        · rintro (h | ⟨h | h, h'⟩)
          · exact Or.inl h
          · rw [h]; exact Or.inl hm
          · exact Or.inr ⟨h, h'⟩
      · rw [if_neg hm]
        have hn' : (l ++ [v]).Nodup := by
          rw [List.nodup_append]; refine ⟨hn, by simp, ?_⟩
          rintro a ha b hb rfl
          simp only [List.mem_singleton] at hb; exact hm (hb ▸ ha)
        obtain ⟨l', k', h1, h2, h3, h4, h5⟩ := insertAll_spec vs (l ++ [v]) j hn' hk
        simp only [List.length_append, List.length_singleton] at h1 h3
        refine ⟨l', k', h1, h2, by omega, by simp; omega, fun x => ?_⟩
        rw [h5]; simp only [List.mem_append, List.mem_cons, List.not_mem_nil, or_false]
        constructor
        · rintro ((h | h) | h)
          · exact Or.inl h
          · exact Or.inr ⟨Or.inl h, h ▸ hv⟩
          · exact Or.inr ⟨Or.inr h.1, h.2⟩
        · rintro (h | ⟨h | h, h'⟩)
          · exact Or.inl (Or.inl h)
          · exact Or.inl (Or.inr h)
          · exact Or.inr ⟨h, h'⟩

/-- The clauses of a `waitfor` after `aggregate`: each one is sorted. -/
def SortedClauses (before after : List (List Nat)) : Prop :=
  List.Forall₂ (fun c c' => c'.Perm c ∧ c'.Pairwise (· ≤ ·)) before after

theorem gather_spec : ∀ (cs : List (List Nat)) (l : List Nat) (k : Nat), l.Nodup → (cs.map List.length).sum ≤ k → ∃ l' k' cs',
    gather (l ++ List.replicate k 0) l.length cs = .ret (l' ++ List.replicate k' 0, l'.length, cs') ∧ l'.Nodup ∧
    l'.length + k' = l.length + k ∧ SortedClauses cs cs' ∧ ∀ x, x ∈ l' ↔ x ∈ l ∨ (∃ c ∈ cs, x ∈ c) ∧ x ≠ 0
  | [], l, k, hn, hk => ⟨l, k, [], rfl, hn, rfl, List.Forall₂.nil, by simp⟩
  | c :: cs, l, k, hn, hk => by
    simp only [List.map_cons, List.sum_cons] at hk
    obtain ⟨r, hr, hp, hs⟩ := Sort.C15_sort c
    simp only [gather, hr, Outcome.bind_ret]
    obtain ⟨l1, k1, h1, h2, h3, h4, h5⟩ := insertAll_spec r l k hn (by rw [hp.length_eq]; omega)
    rw [hp.length_eq] at h4
    rw [h1, Outcome.bind_ret]
    obtain ⟨l2, k2, cs', g1, g2, g3, g4, g5⟩ := gather_spec cs l1 k1 h2 (by omega)
    rw [g1, Outcome.bind_ret]
    refine ⟨l2, k2, r :: cs', rfl, g2, by omega, List.Forall₂.cons ⟨hp, hs⟩ g4, fun x => ?_⟩
    rw [g5, h5, hp.mem_iff]
    simp only [List.mem_cons, exists_eq_or_imp]
    tauto

theorem countMax_eq (cs : List (List Nat)) : countMax cs = (cs.map List.length).sum := by
  have : ∀ (cs : List (List Nat)) (n : Nat), cs.foldl (fun m c => m + c.length) n = n + (cs.map List.length).sum := by
    intro cs
    induction cs with
    | nil => intro n; simp
    | cons c cs ih => intro n; rw [List.foldl_cons, ih]; simp; omega
  rw [countMax, this]; omega

/-- The monitors that a `waitfor` blocks: every access to the storage, which has one place for each monitor of each clause, is inside of
    it, and the monitors in it afterwards are sorted, without duplicates, and exactly those of the clauses. -/
theorem C55_aggregate (clauses : List (List Nat)) (hnull : ∀ c ∈ clauses, 0 ∉ c) :
    ∃ st n clauses', waitforMonitors clauses = .ret (st, n, clauses') ∧ st.length = (clauses.map List.length).sum ∧ n ≤ st.length ∧
      (st.take n).Pairwise (· < ·) ∧ (∀ m, m ∈ st.take n ↔ ∃ c ∈ clauses, m ∈ c) ∧ SortedClauses clauses clauses' := by
  obtain ⟨l, k, cs', h1, h2, h3, h4, h5⟩ := gather_spec clauses [] (countMax clauses) List.nodup_nil (by rw [countMax_eq]; exact Nat.le_refl _)
  simp only [List.nil_append, List.length_nil] at h1 h3
  obtain ⟨r, hr, hp, hs⟩ := Sort.C15_sort l
  refine ⟨r ++ List.replicate k 0, l.length, cs', ?_, ?_, ?_, ?_, ?_, h4⟩
  · simp only [waitforMonitors, aggregate, h1, Outcome.bind_ret, List.take_left, hr, List.drop_left]
  · rw [List.length_append, List.length_replicate, hp.length_eq, ← countMax_eq]; omega
  · simp [hp.length_eq]
  · rw [← hp.length_eq, List.take_left]
    have hnd : r.Nodup := hp.nodup_iff.2 h2
    exact (hs.and hnd).imp (fun {a b} h => Nat.lt_of_le_of_ne h.1 h.2)
  · intro m
    rw [← hp.length_eq, List.take_left, hp.mem_iff, h5]
    constructor
    · rintro (h | h)
      · cases h
      · exact h.1
    · rintro ⟨c, hc, hm⟩
      exact Or.inr ⟨⟨c, hc, hm⟩, by rintro rfl; exact hnull c hc hm⟩

/-- The model of `waitfor` in Model/Monitor.lean uses exactly these monitors. -/
theorem C55_model (cl : List Monitor.Group) (hnull : ∀ g ∈ cl, 0 ∉ g.mons) :
    ∃ st n cs, waitforMonitors (cl.map (·.mons)) = .ret (st, n, cs) ∧
      (∀ m, m ∈ st.take n ↔ m ∈ Monitor.aggregate cl) ∧ cs = cl.map (fun g => Monitor.sortMons g.mons) := by
  obtain ⟨st, n, cs, h1, h2, h3, h4, h5, h6⟩ := C55_aggregate (cl.map (·.mons)) (by simpa using hnull)
  refine ⟨st, n, cs, h1, fun m => ?_, ?_⟩
  · rw [h5, Monitor.mem_aggregate]; simp
  · clear h1 h2 h3 h4 h5
    induction cl generalizing cs with
    | nil => cases h6; rfl
    | cons g gs ih =>
      cases h6 with
      | cons h6 h7 =>
        rw [List.map_cons, ← ih (fun g hg => hnull g (List.mem_cons_of_mem _ hg)) _ h7]
        congr 1
        exact (h6.1.trans (Monitor.sortMons_perm g.mons).symm).eq_of_pairwise
          (fun x y _ _ h1 h2 => Nat.le_antisymm h1 h2) h6.2 (Monitor.sortMons_sorted _)

/-- The threads that a `wait` with several monitors wakes: each new owner once, and no access outside of the storage with one place for
    each monitor. -/
theorem C55_wait_threads (owners : List Nat) :
    ∃ st n, waitThreads owners = .ret (st, n) ∧ st.length = owners.length ∧ n ≤ st.length ∧ (st.take n).Nodup ∧
      ∀ t, t ∈ st.take n ↔ t ∈ owners ∧ t ≠ 0 := by
  obtain ⟨l, k, h1, h2, h3, _, h5⟩ := insertAll_spec owners [] owners.length List.nodup_nil (Nat.le_refl _)
  simp only [List.nil_append, List.length_nil] at h1 h3
  refine ⟨_, _, h1, by simp; omega, by simp, by rw [List.take_left]; exact h2, fun t => ?_⟩
  rw [List.take_left, h5]; simp

/-! Witnesses. -/

example : waitforMonitors [[7, 3], [3], [9, 7, 1]] = .ret ([1, 3, 7, 9, 0, 0], 4, [[3, 7], [3], [1, 7, 9]]) := by decide +kernel
example : ∀ c ∈ [[7, 3], [3], [9, 7, 1]], 0 ∉ c := by decide
example : waitThreads [4, 0, 4, 6] = .ret ([4, 6, 0, 0], 2) := by decide +kernel

end Verif.WaitforAgg
