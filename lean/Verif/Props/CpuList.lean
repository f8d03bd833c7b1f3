import Verif.Proof.CpuList

/-!
# C117: lists of processors
-/

namespace Verif.CpuList

/-- C117, iteration: over a list that is not empty, a loop on the iterator is run for exactly the numbers
of its items, in their order, and then ends. -/
theorem C117_visit_partial (is : List Item) (hne : is ≠ []) (h : ∀ i ∈ is, i.Ok) :
    visit (text is) = ((cpus is).map (fun n : Nat => (n : Int)), true) := by
  unfold visit
  rw [iter_text is hne h _ (Nat.lt_succ_self _)]
  simp only [Prod.mk.injEq, and_true]
  have := List.takeWhile_append_of_pos (p := fun v : Int => decide (0 ≤ v)) (l₁ := (cpus is).map (fun n : Nat => (n : Int)))
    (l₂ := []) (by
      intro v hv
      obtain ⟨n, _, rfl⟩ := List.mem_map.1 hv
      exact decide_eq_true (Int.natCast_nonneg n))
  simpa only [List.append_nil, List.takeWhile_nil] using this

/-- The list `0-1,4,10-11`. -/
def sample : List Item := [.range ['0'] ['1'], .one ['4'], .range ['1', '0'] ['1', '1']]

theorem sample_ok : ∀ i ∈ sample, i.Ok := by
  intro i hi
  simp only [sample, List.mem_cons, List.not_mem_nil, or_false] at hi
  rcases hi with rfl | rfl | rfl
  · exact ⟨⟨by simp, by decide, by decide⟩, ⟨by simp, by decide, by decide⟩, by decide⟩
  · exact ⟨by simp, by decide, by decide⟩
  · exact ⟨⟨by simp, by decide, by decide⟩, ⟨by simp, by decide, by decide⟩, by decide⟩

example : text sample = "0-1,4,10-11".toList ∧ visit (text sample) = ([0, 1, 4, 10, 11], true) := by
  decide +kernel

/-- C117 fails: over the empty list, or after a comma at the end, the program is ended. -/
theorem C117_empty_violated :
    visit (text []) = ([], false) ∧
    ∀ is, is ≠ [] → (∀ i ∈ is, i.Ok) → ∀ f, (iter f (text is ++ [','])).2 = false := by
  refine ⟨by decide, ?_⟩
  intro is
  induction is with
  | nil => intro h; exact absurd rfl h
  | cons i is ih =>
    intro _ h f
    cases f with
    | zero => rfl
    | succ f =>
      have hi := h i (by simp)
      have last : ∀ g, (iter g [',']).2 = false := by
        intro g
        match g with
        | 0 => rfl
        | 1 => decide
        | g + 2 => rw [iter_comma]; rfl
      cases is with
      | nil =>
        simp only [text]
        rw [iter_item i hi _ (Or.inr ⟨_, rfl⟩) f, if_neg (by simp)]
        exact last f
      | cons j is =>
        rw [text_cons, List.append_assoc, List.cons_append, iter_item i hi _ (Or.inr ⟨_, rfl⟩) f, if_neg (by simp)]
        cases f with
        | zero => rfl
        | succ f =>
          rw [iter_comma]
          exact ih (by simp) (fun x hx => h x (by simp [hx])) f

/-- C117, width: the width of a list is the number of its processors, if an `unsigned` can hold it. -/
theorem C117_width_partial (is : List Item) (hne : is ≠ []) (h : ∀ i ∈ is, i.Ok) (hl : (cpus is).length < 2 ^ 32) :
    width ((text is).length + 1) (text is) = (cpus is).length := by
  rw [width_text is hne h _ (Nat.lt_succ_self _), Nat.mod_eq_of_lt hl]

example : width 12 "0-1,4,10-11".toList = 5 := by decide +kernel

theorem kept_line (t : List Char) (h : t.length < 128) : kept (t ++ ['\n']) = t := by
  unfold kept
  rw [List.take_of_length_le (by simp; omega), List.dropLast_concat]

/-- C117, the file of the system: if its line is shorter than 128 characters, the processors that are
counted and those whose entries are written are those of the line. -/
theorem C117_file_partial (is : List Item) (hne : is ≠ []) (h : ∀ i ∈ is, i.Ok) (hl : (cpus is).length < 2 ^ 32)
    (hs : (text is).length < 128) :
    countCpus (text is ++ ['\n']) = (cpus is).length ∧
    written (text is ++ ['\n']) = (cpus is).map (fun n : Nat => (n : Int)) := by
  unfold countCpus written
  rw [kept_line _ hs, C117_width_partial is hne h hl, C117_visit_partial is hne h]
  exact ⟨rfl, rfl⟩

example : countCpus "0-1,4,10-11\n".toList = 5 ∧ written "0-1,4,10-11\n".toList = [0, 1, 4, 10, 11] := by
  decide +kernel

/-- The even numbers below 2n. -/
def evens (n : Nat) : List Item := (List.range n).map fun k => .one (Nat.toDigits 10 (2 * k))

/-- C117 fails: of a longer line only 127 characters are kept. With the 50 even processors below 100, 45 are
counted, and the iteration over them ends the program at the comma where the line is cut; with 60 even
numbers from 1000 on, the last of those that are counted is a part of a number. -/
theorem C117_long_violated :
    (cpus (evens 50)).length = 50 ∧ countCpus (text (evens 50) ++ ['\n']) = 45 ∧
    (visit (kept (text (evens 50) ++ ['\n']))).2 = false ∧
    (let line := (evens 560).drop 500
     1050 ∈ cpus line ∧ (1050 : Int) ∉ written (text line ++ ['\n']) ∧
     10 ∉ cpus line ∧ (10 : Int) ∈ written (text line ++ ['\n'])) := by
  decide +kernel

/-- C117, the table: the entries that are written are inside of the table if and only if no processor is
missing below another one of the list. -/
theorem C117_table (is : List Item) (hne : is ≠ []) (h : ∀ i ∈ is, i.Ok) (hl : (cpus is).length < 2 ^ 32)
    (hs : (text is).length < 128) (hd : (cpus is).Nodup) :
    (∀ i ∈ written (text is ++ ['\n']), 0 ≤ i ∧ i < countCpus (text is ++ ['\n'])) ↔
      ∀ m ∈ cpus is, ∀ k < m, k ∈ cpus is := by
  obtain ⟨e1, e2⟩ := C117_file_partial is hne h hl hs
  rw [e1, e2, ← below_iff _ hd]
  constructor
  · intro hb i hi
    have := (hb (i : Int) (List.mem_map.2 ⟨i, hi, rfl⟩)).2
    omega
  · intro hb i hi
    obtain ⟨n, hn, rfl⟩ := List.mem_map.1 hi
    have := hb n hn
    exact ⟨by omega, by omega⟩

example : (cpus [.range ['0'] ['7']]).Nodup ∧ (∀ m ∈ cpus [.range ['0'] ['7']], ∀ k < m, k ∈ cpus [.range ['0'] ['7']]) ∧
    written "0-7\n".toList = [0, 1, 2, 3, 4, 5, 6, 7] ∧ countCpus "0-7\n".toList = 8 := by decide +kernel

/-- C117 fails: if a processor below another one is off-line, the start of the run-time writes an entry
behind the end of its table. -/
theorem C117_gap_violated (is : List Item) (hne : is ≠ []) (h : ∀ i ∈ is, i.Ok) (hl : (cpus is).length < 2 ^ 32)
    (hs : (text is).length < 128) (hd : (cpus is).Nodup) (m k : Nat) (hm : m ∈ cpus is) (hk : k < m)
    (hg : k ∉ cpus is) :
    ∃ i ∈ written (text is ++ ['\n']), (countCpus (text is ++ ['\n']) : Int) ≤ i := by
  by_contra hc
  have hb : ∀ i ∈ written (text is ++ ['\n']), 0 ≤ i ∧ i < countCpus (text is ++ ['\n']) := by
    intro i hi
    refine ⟨?_, ?_⟩
    · rw [(C117_file_partial is hne h hl hs).2] at hi
      obtain ⟨n, _, rfl⟩ := List.mem_map.1 hi
      omega
    · by_contra hlt
      exact hc ⟨i, hi, by omega⟩
  exact hg ((C117_table is hne h hl hs hd).1 hb m hm k hk)

example : written "0,2-3\n".toList = [0, 2, 3] ∧ countCpus "0,2-3\n".toList = 3 := by decide +kernel

end Verif.CpuList
