import Verif.Proof.CpuMap

/-!
# C118: the map from processors to last-level caches
-/

namespace Verif.CpuMap
open Verif.CpuList

/-- Four processors; 0 and 2 share a cache, and so do 1 and 3. -/
def sample (i : Nat) : List Char := if i % 2 = 0 then "0,2".toList else "1,3".toList

theorem sample_system : System sample 4 := by
  refine ⟨by decide, ?_⟩
  have h0 : Num ['0'] := ⟨by simp, by decide, by decide⟩
  have h1 : Num ['1'] := ⟨by simp, by decide, by decide⟩
  have h2 : Num ['2'] := ⟨by simp, by decide, by decide⟩
  have h3 : Num ['3'] := ⟨by simp, by decide, by decide⟩
  have mem : ∀ k a b : Nat, k ∈ ([a, b] : List Nat) ↔ k = a ∨ k = b := by simp
  have ev : ∀ i k : Nat, sample k = sample i ↔ k % 2 = i % 2 := by
    intro i k
    unfold sample
    rcases Nat.mod_two_eq_zero_or_one i with hi | hi <;> rcases Nat.mod_two_eq_zero_or_one k with hk | hk <;>
      simp [hi, hk]
  intro i hi
  rcases Nat.mod_two_eq_zero_or_one i with h | h
  · refine ⟨[.one ['0'], .one ['2']], by simp, ?_, by simp [sample, h, text, Item.text], by decide, ?_⟩
    · intro x hx
      simp only [List.mem_cons, List.not_mem_nil, or_false] at hx
      rcases hx with rfl | rfl
      · exact h0
      · exact h2
    · intro k
      rw [show cpus [.one ['0'], .one ['2']] = [0, 2] by decide, mem, ev]
      omega
  · refine ⟨[.one ['1'], .one ['3']], by simp, ?_, by simp [sample, h, text, Item.text], by decide, ?_⟩
    · intro x hx
      simp only [List.mem_cons, List.not_mem_nil, or_false] at hx
      rcases hx with rfl | rfl
      · exact h1
      · exact h3
    · intro k
      rw [show cpus [.one ['1'], .one ['3']] = [1, 3] by decide, mem, ev]
      omega

/-- The pairings of the sample, sorted. -/
def sampleSorted : List Pairing := [⟨2, 0⟩, ⟨0, 0⟩, ⟨1, 1⟩, ⟨3, 1⟩]

theorem sample_sorted : Sorted sample 4 sampleSorted := by
  refine ⟨?_, by decide⟩
  rw [show pairings sample 4 = [⟨0, 0⟩, ⟨1, 1⟩, ⟨2, 0⟩, ⟨3, 1⟩] by decide +kernel]
  decide

example : entries sample 4 sampleSorted =
    [⟨2, 0, 0, 2, 0⟩, ⟨0, 1, 0, 2, 0⟩, ⟨1, 2, 2, 2, 1⟩, ⟨3, 3, 2, 2, 1⟩] := by decide +kernel

/-- C118, places: each processor gets one entry, and the places of the entries are the numbers from 0 to
n-1, each once, whatever order the sort gives to the processors of a cache. -/
theorem C118_places (shared : Nat → List Char) (n : Nat) (hsys : System shared n) (ps : List Pairing)
    (hs : Sorted shared n ps) :
    ((entries shared n ps).map (·.cpu)).Perm (List.range n) ∧ (entries shared n ps).map (·.self) = List.range n := by
  have hw := fun p hp => width_count shared n hsys ps hs.1 p hp
  have hlen : ps.length = n := by rw [hs.1.length_eq]; simp [pairings]
  constructor
  · unfold entries
    simp only [fill_cpu]
    refine (hs.1.map _).trans (List.Perm.of_eq ?_)
    rw [pairings, List.map_map]
    exact List.map_id _
  · have := fill_self (cacheWidth shared n) (starts (cacheWidth shared n) ps) ps hs.2
      (fun p hp => starts_eq _ ps hs.2 hw p hp) ps [] rfl (fun _ => 0) (by simp)
    unfold entries
    rw [this, hlen, List.length_nil, List.range_eq_range']

/-- The entry of a processor, by what is before it in the sorted list. -/
theorem entry_mem (shared : Nat → List Char) (n : Nat) (hsys : System shared n) (ps : List Pairing)
    (hs : Sorted shared n ps) (e : Entry) (he : e ∈ entries shared n ps) :
    e.cpu < n ∧ e.cache = (distinct shared n).idxOf (shared e.cpu) ∧ shared e.cpu ∈ distinct shared n ∧
    e.start = (ps.map (·.id)).countP (fun z => decide (z < e.cache)) ∧
    e.count = (ps.map (·.id)).count e.cache ∧ e.start ≤ e.self ∧ e.self < e.start + e.count := by
  have hw := fun p hp => width_count shared n hsys ps hs.1 p hp
  obtain ⟨A, p, B, ea, rfl⟩ := fill_mem (cacheWidth shared n) (starts (cacheWidth shared n) ps) ps ps [] rfl
    (fun _ => 0) (by simp) e he
  have hp : p ∈ ps := by rw [ea]; simp
  obtain ⟨h1, h2, h3⟩ := pairing_mem shared n p (hs.1.mem_iff.1 hp)
  have hc : (A.map (·.id)).count p.id < (ps.map (·.id)).count p.id := by
    rw [ea]
    simp only [List.map_append, List.map_cons, List.count_append, List.count_cons_self]
    omega
  simp only [starts_eq _ ps hs.2 hw p hp, Option.getD_some, hw p hp]
  exact ⟨h1, h2, h3, trivial, trivial, by omega, by omega⟩

/-- C118, caches: two processors have the same cache number if and only if their lists are the same, and
the numbers are those from 0 to one less than the count of the caches, each of them for some processor. -/
theorem C118_caches (shared : Nat → List Char) (n : Nat) (hsys : System shared n) (ps : List Pairing)
    (hs : Sorted shared n ps) :
    (∀ e ∈ entries shared n ps, ∀ e' ∈ entries shared n ps,
      (e.cache = e'.cache ↔ shared e.cpu = shared e'.cpu) ∧ e.cache < (distinct shared n).length) ∧
    ∀ j < (distinct shared n).length, ∃ e ∈ entries shared n ps, e.cache = j := by
  constructor
  · intro e he e' he'
    obtain ⟨_, h2, h3, _⟩ := entry_mem shared n hsys ps hs e he
    obtain ⟨_, g2, _⟩ := entry_mem shared n hsys ps hs e' he'
    rw [h2, g2]
    exact ⟨idx_inj _ _ _ h3, List.idxOf_lt_length_iff.2 h3⟩
  · intro j hj
    obtain ⟨i, hi, ei⟩ := (distinct_mem shared n _).1 (List.getElem_mem hj)
    have : i ∈ (entries shared n ps).map (·.cpu) := (C118_places shared n hsys ps hs).1.mem_iff.2 (List.mem_range.2 hi)
    obtain ⟨e, he, rfl⟩ := List.mem_map.1 this
    refine ⟨e, he, ?_⟩
    rw [(entry_mem shared n hsys ps hs e he).2.1, ei]
    exact (distinct_nodup shared n).idxOf_getElem j hj

/-- C118, groups: the places from the start of an entry on, as many as its count, are those of the
processors that share its cache, and of no others. -/
theorem C118_groups (shared : Nat → List Char) (n : Nat) (hsys : System shared n) (ps : List Pairing)
    (hs : Sorted shared n ps) (e e' : Entry) (he : e ∈ entries shared n ps) (he' : e' ∈ entries shared n ps) :
    (e.start ≤ e'.self ∧ e'.self < e.start + e.count) ↔ shared e'.cpu = shared e.cpu := by
  rw [← ((C118_caches shared n hsys ps hs).1 e' he' e he).1]
  obtain ⟨_, _, _, h1, h2, _, _⟩ := entry_mem shared n hsys ps hs e he
  obtain ⟨_, _, _, g1, g2, g3, g4⟩ := entry_mem shared n hsys ps hs e' he'
  constructor
  · rintro ⟨a, b⟩
    by_contra hne
    rcases Nat.lt_or_gt_of_ne hne with hlt | hlt
    · have := countP_split (ps.map (·.id)) _ _ hlt
      omega
    · have := countP_split (ps.map (·.id)) _ _ hlt
      omega
  · intro hc
    rw [hc] at g1 g2
    omega

/-- C118, the whole map for the order of the processors: the sort is free to keep or to change it. -/
example : entries sample 4 [⟨0, 0⟩, ⟨2, 0⟩, ⟨3, 1⟩, ⟨1, 1⟩] =
    [⟨0, 0, 0, 2, 0⟩, ⟨2, 1, 0, 2, 0⟩, ⟨3, 2, 2, 2, 1⟩, ⟨1, 3, 2, 2, 1⟩] := by decide +kernel

/-- C118, the files: a list that is shorter than 32 characters is kept as it is. -/
theorem C118_cut_partial (t : List Char) (h : t.length < 32) : cut (t ++ ['\n']) = t := by
  unfold cut
  rw [List.take_of_length_le (by simp; omega), List.dropLast_concat]

/-- The files of n processors of which the even ones share a cache, and the odd ones another. -/
def interleaved (n i : Nat) : List Char :=
  text (((List.range n).filter (fun k => k % 2 == i % 2)).map fun k => .one (Nat.toDigits 10 k)) ++ ['\n']

example : interleaved 6 3 = "1,3,5\n".toList ∧ cut (interleaved 6 3) = "1,3,5".toList := by decide +kernel

/-- C118 fails: of a list of more than 31 characters the rest is dropped, and the width of the cache is that
of what is kept. With 36 processors of which the even ones share a cache, and the odd ones another, each
cache has 18 of them but the count is 13, and the places of the two groups overlap. -/
theorem C118_width_violated :
    let shared := fun i => cut (interleaved 36 i)
    let ps := (pairings shared 36).filter (fun p => p.id == 0) ++ (pairings shared 36).filter (fun p => p.id == 1)
    Sorted shared 36 ps ∧ (∀ e ∈ entries shared 36 ps, e.count = 13) ∧
    ((entries shared 36 ps).filter (fun e => e.cache == 0)).length = 18 ∧
    ∃ e ∈ entries shared 36 ps, ∃ e' ∈ entries shared 36 ps, e.cache ≠ e'.cache ∧ e.self = e'.self := by
  refine ⟨⟨?_, by decide +kernel⟩, by decide +kernel, by decide +kernel, by decide +kernel⟩
  decide +kernel

end Verif.CpuMap
