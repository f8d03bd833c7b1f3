import Verif.Spec.StrStream

namespace Verif.StrStream

theorem overwrite_length {mem s : List Char} {off : Nat} (h : off + s.length ≤ mem.length) :
    (overwrite mem off s).length = mem.length := by
  unfold overwrite
  simp
  omega

theorem overwrite_get {mem s : List Char} {off : Nat} (h : off + s.length ≤ mem.length) (i : Nat) :
    (overwrite mem off s)[i]? =
      if off ≤ i ∧ i < off + s.length then s[i - off]? else mem[i]? := by
  unfold overwrite
  have hl : (mem.take off).length = off := by rw [List.length_take]; omega
  by_cases h1 : i < off
  · rw [if_neg (by omega), List.append_assoc, List.getElem?_append_left (by omega),
      List.getElem?_take_of_lt h1]
  · by_cases h2 : i < off + s.length
    · rw [if_pos (by omega), List.append_assoc, List.getElem?_append_right (by omega), hl,
        List.getElem?_append_left (by omega)]
    · rw [if_neg (by omega), List.getElem?_append_right (by simp; omega), List.getElem?_drop]
      congr 1
      simp
      omega

/-- The state of a stream that has not aborted. -/
structure OInv (mem0 : List Char) (size : Nat) (o : Os) (text out : List Char) : Prop where
  alive : o.dead = false
  room : o.size = size
  cursor : o.cursor = text.length
  fits : text = [] ∨ text.length < size
  mem : ∀ i < text.length, o.mem[i]? = text[i]?
  file : o.out = out

/-- The memory past the buffer. -/
structure OFrame (mem0 : List Char) (size : Nat) (o : Os) : Prop where
  len : o.mem.length = mem0.length
  past : ∀ i, size ≤ i → o.mem[i]? = mem0[i]?

theorem take_text {mem text : List Char} (h : ∀ i < text.length, mem[i]? = text[i]?) :
    mem.take text.length = text := by
  apply List.ext_getElem?
  intro i
  rw [List.getElem?_take]
  split
  · exact h i (by assumption)
  · rw [List.getElem?_eq_none (by omega)]

theorem vsn_frame {mem : List Char} {off size : Nat} (s : List Char) (hs : size ≤ mem.length) :
    (vsnprintf mem off (size - off) s).length = mem.length ∧
    (∀ i, size ≤ i → (vsnprintf mem off (size - off) s)[i]? = mem[i]?) ∧
    (∀ i < off, (vsnprintf mem off (size - off) s)[i]? = mem[i]?) := by
  unfold vsnprintf
  split
  · exact ⟨rfl, fun _ _ => rfl, fun _ _ => rfl⟩
  · have hl : (s.take (size - off - 1) ++ ['\x00']).length ≤ size - off := by simp; omega
    have hb : off + (s.take (size - off - 1) ++ ['\x00']).length ≤ mem.length := by omega
    refine ⟨overwrite_length hb, ?_, ?_⟩
    · intro i hi
      rw [overwrite_get hb, if_neg (by omega)]
    · intro i hi
      rw [overwrite_get hb, if_neg (by omega)]

theorem vsn_text {mem : List Char} {off size : Nat} {s : List Char} (hs : size ≤ mem.length)
    (hf : off + s.length < size) :
    (∀ i < s.length, (vsnprintf mem off (size - off) s)[off + i]? = s[i]?) ∧
    (vsnprintf mem off (size - off) s)[off + s.length]? = some '\x00' := by
  unfold vsnprintf
  rw [if_neg (by omega), List.take_of_length_le (by omega)]
  have hb : off + (s ++ ['\x00']).length ≤ mem.length := by simp; omega
  constructor
  · intro i hi
    rw [overwrite_get hb, if_pos (by simp; omega), show off + i - off = i by omega,
      List.getElem?_append_left hi]
  · rw [overwrite_get hb, if_pos (by simp), show off + s.length - off = s.length by omega]
    simp

theorem ostep_frame {mem0 : List Char} {o : Os} (hs : o.size ≤ mem0.length)
    (h : OFrame mem0 o.size o) (a : OAct) :
    OFrame mem0 o.size (ostep o a) ∧ (ostep o a).size = o.size := by
  unfold ostep
  split
  · exact ⟨h, rfl⟩
  · cases a with
    | fmt s =>
      obtain ⟨h1, h2, _⟩ := vsn_frame (off := o.cursor) s (Nat.le_trans hs (Nat.le_of_eq h.len.symm))
      exact ⟨⟨h1.trans h.len, fun i hi => (h2 i hi).trans (h.past i hi)⟩, rfl⟩
    | write => exact ⟨⟨h.len, h.past⟩, rfl⟩
    | clear => exact ⟨⟨h.len, h.past⟩, rfl⟩

theorem ostep_alive {mem0 : List Char} {size : Nat} {o : Os} {text out : List Char}
    (hs : size ≤ o.mem.length) (h : OInv mem0 size o text out) (a : OAct) :
    match expect size (some (text, out)) a with
    | none => (ostep o a).dead = true ∧ (ostep o a).out = out
    | some (text', out') => OInv mem0 size (ostep o a) text' out' := by
  have hd := h.alive
  cases a with
  | fmt s =>
    unfold expect ostep
    simp only [hd, Bool.false_eq_true, if_false]
    by_cases hf : (text ++ s).length + 1 ≤ size
    · rw [if_pos hf]
      simp only [List.length_append] at hf
      have hc : o.cursor + s.length < size := by rw [h.cursor]; omega
      have hs' := hs
      obtain ⟨h1, _⟩ := vsn_text (off := o.cursor) hs hc
      obtain ⟨_, _, h3⟩ := vsn_frame (mem := o.mem) (off := o.cursor) s hs
      refine ⟨?_, h.room, ?_, Or.inr ?_, ?_, h.file⟩
      · simp only [h.room]; simpa using hc
      · simp only [List.length_append, h.cursor]
      · simp only [List.length_append]; omega
      · intro i hi
        simp only [h.room]
        simp only [List.length_append] at hi
        by_cases hit : i < text.length
        · rw [h3 i (by rw [h.cursor]; exact hit), h.mem i hit, List.getElem?_append_left hit]
        · have := h1 (i - text.length) (by omega)
          rw [h.cursor, show text.length + (i - text.length) = i by omega] at this
          rw [h.cursor, this, List.getElem?_append_right (by omega)]
    · rw [if_neg hf]
      simp only [List.length_append] at hf
      refine ⟨?_, h.file⟩
      simp only [h.room, h.cursor, ge_iff_le, decide_eq_true_eq]
      omega
  | write =>
    unfold expect ostep
    simp only [hd, Bool.false_eq_true, if_false]
    refine ⟨rfl, h.room, rfl, Or.inl rfl, (fun i hi => absurd hi (Nat.not_lt_zero i)), ?_⟩
    simp only [h.cursor, take_text h.mem, h.file]
  | clear =>
    unfold expect ostep
    simp only [hd, Bool.false_eq_true, if_false]
    exact ⟨rfl, h.room, rfl, Or.inl rfl, (fun i hi => absurd hi (Nat.not_lt_zero i)), h.file⟩

/-! ## Input -/

theorem word_spaces {w : List Char} (h : IsWord w) : ∀ c ∈ w, isSpace c = false ∧
    (c == ' ' || c == '\t') = false := by
  intro c hc
  obtain ⟨h1, h2, h3, h4, h5, h6⟩ := h.2 c hc
  unfold isSpace
  simp [h1, h2, h3, h4, h5, h6]

theorem scan_word {w : List Char} (h : IsWord w) {d : Char} {rest : List Char}
    (hd : d = ' ' ∨ d = '\t') : scanWord (w ++ d :: rest) = some w := by
  have hw := word_spaces h
  have hds : isSpace d = true := by rcases hd with rfl | rfl <;> decide
  cases w with
  | nil => exact absurd rfl h.1
  | cons c w =>
    unfold scanWord
    rw [List.cons_append, List.dropWhile_cons_of_neg (by simp [(hw c (by simp)).1])]
    simp only
    rw [← List.cons_append, List.takeWhile_append_of_pos (by
      intro x hx; simp [(hw x hx).1]), List.takeWhile_cons_of_neg (by simp [hds]), List.append_nil]

theorem scan_last {w : List Char} (h : IsWord w) : scanWord w = some w := by
  have hw := word_spaces h
  cases w with
  | nil => exact absurd rfl h.1
  | cons c w =>
    unfold scanWord
    rw [List.dropWhile_cons_of_neg (by simp [(hw c (by simp)).1])]
    simp only
    congr 1
    have : ∀ xs : List Char, (∀ x ∈ xs, isSpace x = false) → xs.takeWhile (fun c => !isSpace c) = xs := by
      intro xs hx
      induction xs with
      | nil => rfl
      | cons x xs ih =>
        rw [List.takeWhile_cons_of_pos (by simp [hx x (by simp)]), ih fun y hy => hx y (by simp [hy])]
    exact this _ fun x hx => (hw x hx).1

theorem skip_word {w : List Char} (h : IsWord w) {d : Char} {rest : List Char}
    (hd : d = ' ' ∨ d = '\t') : skip (w ++ d :: rest) = rest := by
  have hw := word_spaces h
  unfold skip
  rw [List.dropWhile_append_of_pos (by intro x hx; simp only [(hw x hx).2, Bool.not_false])]
  rw [List.dropWhile_cons_of_neg (by rcases hd with rfl | rfl <;> decide)]

theorem skip_last {w : List Char} (h : IsWord w) : skip w = [] := by
  have hw := word_spaces h
  unfold skip
  have : w.dropWhile (fun c => !(c == ' ' || c == '\t')) = [] := by
    have := List.dropWhile_append_of_pos (p := fun c => !(c == ' ' || c == '\t')) (l₁ := w) (l₂ := [])
      (by intro x hx; simp only [(hw x hx).2, Bool.not_false])
    simpa using this
  rw [this]

end Verif.StrStream
