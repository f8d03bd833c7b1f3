import Verif.Spec.InitLength

/-!
Counting the characters of string literals.
-/
namespace Verif.InitLength

theorem isOctal_iff (c : Char) : isOctal c = true ↔ Octal c := by
  unfold isOctal Octal
  simp only [Bool.and_eq_true, decide_eq_true_eq, Char.le_def, UInt32.le_iff_toNat_le]
  rfl

theorem isHex_iff (c : Char) : isHex c = true ↔ Hex c := by
  unfold isHex Hex
  simp only [Bool.or_eq_true, Bool.and_eq_true, decide_eq_true_eq, Char.le_def, UInt32.le_iff_toNat_le, or_assoc]
  rfl

theorem octal_not_escape (c : Char) (h : isOctal c = true) : c ∉ escapes := by
  intro hc
  simp only [escapes, List.mem_cons, List.not_mem_nil, or_false] at hc
  rcases hc with rfl | rfl | rfl | rfl | rfl | rfl | rfl | rfl | rfl | rfl | rfl | rfl <;>
    exact absurd h (by decide)

theorem quote_hex : isHex '"' = false := by decide
theorem quote_octal : isOctal '"' = false := by decide

theorem headD_eq (l : List Char) : l.headD '\x00' = l.getD 0 '\x00' := by cases l <;> rfl

/-- The length of a well-written character. -/
theorem seqLen_tok (t : Tok) (r : List Char) (h : t.Ok (r.headD '\x00')) :
    seqLen (t.text ++ r) = some t.text.length := by
  cases t with
  | plain c =>
    simp only [Tok.Ok] at h
    simp [seqLen, Tok.text, h.2]
  | simple c =>
    have hc : c ∈ escapes := h
    simp [seqLen, Tok.text, hc]
  | octal ds =>
    obtain ⟨h1, h2, h3, h4⟩ := h
    have h3' : ∀ c ∈ ds, isOctal c = true := fun c hc => (isOctal_iff c).2 (h3 c hc)
    rw [← isOctal_iff, headD_eq, Bool.not_eq_true] at h4
    match ds, h1, h2 with
    | [a], _, _ =>
      have ha := h3' a (by simp)
      simp at h4
      simp [seqLen, Tok.text, octal_not_escape a ha, ha]
      cases r <;> simp_all
    | [a, b], _, _ =>
      have ha := h3' a (by simp)
      have hb := h3' b (by simp)
      simp at h4
      simp [seqLen, Tok.text, octal_not_escape a ha, ha, hb]
      cases r <;> simp_all
    | [a, b, c], _, _ =>
      have ha := h3' a (by simp)
      have hb := h3' b (by simp)
      have hc := h3' c (by simp)
      simp [seqLen, Tok.text, octal_not_escape a ha, ha, hb, hc]
  | hex ds =>
    obtain ⟨h1, h2, h3⟩ := h
    have h2' : ∀ c ∈ ds, isHex c = true := fun c hc => (isHex_iff c).2 (h2 c hc)
    rw [← isHex_iff, Bool.not_eq_true] at h3
    have hx : ('x' : Char) ∉ escapes := by decide
    have hx' : isOctal 'x' = false := by decide
    have hr : r.takeWhile isHex = [] := by
      cases r with
      | nil => rfl
      | cons a r => simp at h3; simp [h3]
    have ht : (ds ++ r).takeWhile isHex = ds := by
      rw [List.takeWhile_append_of_pos h2', hr, List.append_nil]
    simp [seqLen, Tok.text, hx, hx', ht]
    omega

theorem text_cons (t : Tok) (n : Char) (h : t.Ok n) : ∃ a l, t.text = a :: l ∧ a ≠ '"' := by
  cases t with
  | plain c => exact ⟨c, [], rfl, h.1⟩
  | simple c => exact ⟨_, _, rfl, by decide⟩
  | octal ds => exact ⟨_, _, rfl, by decide⟩
  | hex ds => exact ⟨_, _, rfl, by decide⟩

theorem body_cons (t : Tok) (ts : List Tok) : body (t :: ts) = t.text ++ body ts := by
  simp [body]

theorem body_ne (ts : List Tok) : body ts ≠ [] := by simp [body]

theorem head_append (l r : List Char) (h : l ≠ []) : (l ++ r).headD '\x00' = l.headD '\x00' := by
  cases l with
  | nil => exact absurd rfl h
  | cons => rfl

/-- The characters of one literal. -/
theorem count_body (rest : List Char) : ∀ (ts : List Tok) (f : Nat), Written ts →
    (body ts ++ rest).length ≤ f → ∃ f', rest.length + 1 ≤ f' ∧
      count f (body ts ++ rest) = (count f' ('"' :: rest)).map (· + ts.length) := by
  intro ts
  induction ts with
  | nil =>
    intro f _ hf
    refine ⟨f, by simpa [body] using hf, ?_⟩
    simp [body]
  | cons t ts ih =>
    intro f hw hf
    obtain ⟨h1, h2⟩ := hw
    obtain ⟨a, l, e, ha⟩ := text_cons t _ h1
    rw [body_cons, List.append_assoc] at hf ⊢
    have hs := seqLen_tok t (body ts ++ rest) (by rw [head_append _ _ (body_ne ts)]; exact h1)
    have hlen : 1 ≤ t.text.length := by rw [e]; simp
    have hb : 1 ≤ (body ts ++ rest).length := by simp [body]; omega
    rw [List.length_append] at hf
    obtain ⟨f0, rfl⟩ : ∃ f0, f = f0 + 1 := ⟨f - 1, by omega⟩
    obtain ⟨f', hf', hc⟩ := ih f0 h2 (by omega)
    refine ⟨f', hf', ?_⟩
    have h0 : ¬ (t.text ++ (body ts ++ rest)).length ≤ 1 := by rw [List.length_append]; omega
    have hq : ¬ (t.text ++ (body ts ++ rest)).getD 0 '\x00' = '"' := by rw [e]; simpa using ha
    simp only [count]
    rw [if_neg h0, if_neg hq, hs]
    simp only [Option.bind_some, List.drop_left, hc, Option.map_map]
    congr 1

/-- The literals that follow. -/
def more (ls : List (List Tok)) : List Char := ls.flatMap fun ts => ' ' :: source ts

theorem count_more : ∀ (ls : List (List Tok)) (f : Nat), (∀ ts ∈ ls, Written ts) →
    (more ls).length + 1 ≤ f → count f ('"' :: more ls) = some (ls.map List.length).sum := by
  intro ls
  induction ls with
  | nil =>
    intro f _ hf
    cases f <;> simp [count, more]
  | cons ts ls ih =>
    intro f hw hf
    have e : more (ts :: ls) = ' ' :: '"' :: (body ts ++ more ls) := by simp [more, source]
    rw [e] at hf ⊢
    obtain ⟨f0, rfl⟩ : ∃ f0, f = f0 + 1 := ⟨f - 1, by omega⟩
    simp only [List.length_cons] at hf
    obtain ⟨f', hf', hc⟩ := count_body (more ls) ts f0 (hw ts (by simp)) (by omega)
    have hd : (' ' :: '"' :: (body ts ++ more ls)).dropWhile (fun c => c != '"') =
        '"' :: (body ts ++ more ls) := by
      rw [List.dropWhile_cons_of_pos (by decide), List.dropWhile_cons_of_neg (by decide)]
    have hs : seqLen ('"' :: (body ts ++ more ls)) = some 1 := by simp [seqLen]
    simp only [count]
    rw [if_neg (by simp), if_pos (by simp), List.tail_cons, hd, hs]
    simp only [Option.bind_some, List.drop_succ_cons, List.drop_zero, hc]
    rw [ih f' (fun x hx => hw x (by simp [hx])) hf']
    simp
    omega

theorem append_sources (ls : List (List Tok)) : ∀ s, (ls.map source).foldlM appendStr s = some (s ++ more ls) := by
  induction ls with
  | nil => intro s; simp [more]
  | cons ts ls ih =>
    intro s
    rw [List.map_cons, List.foldlM_cons]
    have : appendStr s (source ts) = some (s ++ ' ' :: source ts) := by simp [appendStr, source]
    rw [this]
    simp only [Option.bind_eq_bind, Option.bind_some, ih]
    simp [more]

theorem sep_end (s u : List Char) (hu : '"' ∉ u) : sepString (s ++ '"' :: u) '"' = (s ++ ['"'], u) := by
  have hu' : ∀ c ∈ u.reverse, (c != '"') = true := fun c hc => by
    simp only [bne_iff_ne]; rintro rfl; exact hu (by simpa using hc)
  unfold sepString
  rw [show (s ++ '"' :: u).reverse = u.reverse ++ '"' :: s.reverse by simp]
  rw [List.dropWhile_append_of_pos hu', List.takeWhile_append_of_pos hu',
    List.dropWhile_cons_of_neg (by decide), List.takeWhile_cons_of_neg (by decide)]
  simp

theorem ends_quote (ts : List Tok) (ls : List (List Tok)) : ∃ s, source ts ++ more ls = s ++ ['"'] := by
  rcases List.eq_nil_or_concat ls with rfl | ⟨l, b, rfl⟩
  · exact ⟨'"' :: ts.flatMap Tok.text, by simp [more, source, body]⟩
  · exact ⟨source ts ++ more l ++ ' ' :: '"' :: b.flatMap Tok.text, by simp [more, source, body]⟩

end Verif.InitLength
