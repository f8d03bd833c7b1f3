import Verif.Spec.Args
import Mathlib.Data.List.Nodup
import Mathlib.Data.List.Induction
import Mathlib.Tactic.IntervalCases

namespace Verif.Args

/-! ## Numbers -/

theorem digit_of_table : ∀ p ∈ digitTable, digitVal p.1 = p.2 := by decide

theorem char_of_toNat {c : Char} {n : Nat} (h : c.toNat = n) : c = Char.ofNat n := by
  rw [← h, Char.ofNat_toNat]

theorem table_of_digit {c : Char} (h : digitVal c < 16) : (c, digitVal c) ∈ digitTable := by
  by_cases h1 : 48 ≤ c.toNat ∧ c.toNat ≤ 57
  · obtain ⟨a, b⟩ := h1
    generalize hn : c.toNat = n at a b
    have hc := char_of_toNat hn
    interval_cases n <;> subst hc <;> decide
  · by_cases h2 : 97 ≤ c.toNat ∧ c.toNat ≤ 102
    · obtain ⟨a, b⟩ := h2
      generalize hn : c.toNat = n at a b
      have hc := char_of_toNat hn
      interval_cases n <;> subst hc <;> decide
    · by_cases h3 : 65 ≤ c.toNat ∧ c.toNat ≤ 70
      · obtain ⟨a, b⟩ := h3
        generalize hn : c.toNat = n at a b
        have hc := char_of_toNat hn
        interval_cases n <;> subst hc <;> decide
      · exfalso
        unfold digitVal at h
        rw [if_neg h1, if_neg h2, if_neg h3] at h
        omega

theorem value_snoc (b : Nat) (s : Str) (c : Char) :
    value b (s ++ [c]) = value b s * b + digitVal c := by
  simp [value, List.foldl_append]

theorem digits_iff {b : Nat} (hb : b ≤ 16) {s : Str} {n : Nat} :
    Digits b s n ↔ (∀ c ∈ s, digitVal c < b) ∧ n = value b s := by
  constructor
  · intro h
    induction h with
    | nil => exact ⟨(fun c h => by cases h), rfl⟩
    | snoc hs hc hd ih =>
      have hv := digit_of_table _ hc
      simp only at hv
      refine ⟨?_, by rw [value_snoc, hv, ← ih.2]⟩
      intro c hm
      rcases List.mem_append.1 hm with hm | hm
      · exact ih.1 c hm
      · rw [List.mem_singleton.1 hm, hv]; exact hd
  · rintro ⟨h, rfl⟩
    induction s using List.reverseRecOn with
    | nil => exact .nil
    | append_singleton s c ih =>
      rw [value_snoc]
      have hc := h c (by simp)
      exact .snoc (ih fun d hd => h d (by simp [hd])) (table_of_digit (by omega)) hc

theorem takeWhile_id {α : Type} {p : α → Bool} {s : List α} (h : ∀ c ∈ s, p c = true) :
    s.takeWhile p = s := by
  induction s with
  | nil => rfl
  | cons a s ih =>
    rw [List.takeWhile_cons, if_pos (h a (by simp)), ih fun c hc => h c (by simp [hc])]

theorem dropWhile_nil_of {α : Type} {p : α → Bool} {s : List α} (h : ∀ c ∈ s, p c = true) :
    s.dropWhile p = [] := by
  induction s with
  | nil => rfl
  | cons a s ih =>
    rw [List.dropWhile_cons, if_pos (h a (by simp)), ih fun c hc => h c (by simp [hc])]

theorem all_of_dropWhile {α : Type} {p : α → Bool} {s : List α} (h : s.dropWhile p = []) :
    ∀ c ∈ s, p c = true := by
  induction s with
  | nil => intro c hc; cases hc
  | cons a s ih =>
    rw [List.dropWhile_cons] at h
    split at h
    · intro c hc
      rcases List.mem_cons.1 hc with rfl | hc
      · assumption
      · exact ih h c hc
    · cases h

theorem x_not_digit {x : Char} (hx : x = 'x' ∨ x = 'X') : ¬ digitVal x < 16 := by
  rcases hx with rfl | rfl <;> decide

theorem numeral_of {s : Str} {n : Nat} (h : Number s n) :
    ∃ b ds, numeral s = (b, ds, []) ∧ ds ≠ [] ∧ value b ds = n := by
  cases h with
  | dec h hne h0 =>
    obtain ⟨ha, rfl⟩ := (digits_iff (by omega)).1 h
    have ha' : ∀ c ∈ s, (fun c => decide (digitVal c < 10)) c = true := by simpa using ha
    refine ⟨10, s, ?_, hne, rfl⟩
    unfold numeral
    split
    · simp at h0
    · simp at h0
    · rw [takeWhile_id ha', dropWhile_nil_of ha']
  | oct h =>
    rename_i s
    obtain ⟨ha, rfl⟩ := (digits_iff (by omega)).1 h
    have ha' : ∀ c ∈ '0' :: s, (fun c => decide (digitVal c < 8)) c = true := by
      intro c hc
      rcases List.mem_cons.1 hc with rfl | hc
      · decide
      · simpa using ha c hc
    refine ⟨8, '0' :: s, ?_, by simp, by simp [value, digitVal]⟩
    unfold numeral
    split
    · rename_i x d t heq
      injection heq with _ heq
      rw [if_neg]
      · rw [takeWhile_id ha', dropWhile_nil_of ha']
      · rintro ⟨hx, _⟩
        have := ha x (by rw [heq]; simp)
        exact x_not_digit hx (by omega)
    · rw [takeWhile_id ha', dropWhile_nil_of ha']
    · rename_i hno
      exact absurd rfl (hno s)
  | hex hx h hne =>
    rename_i s x
    obtain ⟨ha, rfl⟩ := (digits_iff (by omega)).1 h
    cases s with
    | nil => exact absurd rfl hne
    | cons d t =>
      have ha' : ∀ c ∈ d :: t, (fun c => decide (digitVal c < 16)) c = true := by simpa using ha
      refine ⟨16, d :: t, ?_, by simp, rfl⟩
      unfold numeral
      simp only
      rw [if_pos ⟨hx, ha d (by simp)⟩, takeWhile_id ha', dropWhile_nil_of ha']

theorem number_of {s : Str} {b : Nat} {ds : Str} (h : numeral s = (b, ds, [])) (hne : ds ≠ []) :
    Number s (value b ds) := by
  unfold numeral at h
  have hoct : ∀ t, ('0' :: t).dropWhile (fun c => decide (digitVal c < 8)) = [] →
      Number ('0' :: t) (value 8 (('0' :: t).takeWhile (fun c => decide (digitVal c < 8)))) := by
    intro t ht
    have ha := all_of_dropWhile ht
    rw [takeWhile_id ha]
    have : value 8 ('0' :: t) = value 8 t := by simp [value, digitVal]
    rw [this]
    exact .oct ((digits_iff (by omega)).2 ⟨fun c hc => by simpa using ha c (by simp [hc]), rfl⟩)
  split at h
  · rename_i x d t
    split at h
    · rename_i hx
      simp only [Prod.mk.injEq] at h
      obtain ⟨rfl, rfl, h⟩ := h
      have ha := all_of_dropWhile h
      rw [takeWhile_id ha]
      exact .hex hx.1 ((digits_iff (by omega)).2 ⟨fun c hc => by simpa using ha c hc, rfl⟩) (by simp)
    · simp only [Prod.mk.injEq] at h
      obtain ⟨rfl, rfl, h⟩ := h
      exact hoct _ h
  · simp only [Prod.mk.injEq] at h
    obtain ⟨rfl, rfl, h⟩ := h
    exact hoct _ h
  · rename_i hno
    simp only [Prod.mk.injEq] at h
    obtain ⟨rfl, rfl, h⟩ := h
    have ha := all_of_dropWhile h
    rw [takeWhile_id ha] at hne ⊢
    refine .dec ((digits_iff (by omega)).2 ⟨fun c hc => by simpa using ha c hc, rfl⟩) hne ?_
    intro h0
    cases s with
    | nil => cases h0
    | cons a t => injection h0 with h0; subst h0; exact hno t rfl

theorem number_head {s : Str} {n : Nat} (h : Number s n) :
    ∃ c t, s = c :: t ∧ digitVal c < 10 := by
  cases h with
  | dec h hne h0 =>
    obtain ⟨ha, rfl⟩ := (digits_iff (by omega)).1 h
    cases s with
    | nil => exact absurd rfl hne
    | cons a t => exact ⟨a, t, rfl, ha a (by simp)⟩
  | oct h => exact ⟨_, _, rfl, by decide⟩
  | hex hx h hne => exact ⟨_, _, rfl, by decide⟩

theorem space_iff {c : Char} : isSpace c = true ↔ c ∈ whites := by
  unfold isSpace whites
  simp only [Bool.or_eq_true, beq_iff_eq, List.mem_cons, List.not_mem_nil, or_false, or_assoc]

theorem digit_not_space {c : Char} (h : digitVal c < 10) : isSpace c = false := by
  cases hs : isSpace c with
  | false => rfl
  | true =>
    exfalso
    have h2 : ∀ c ∈ whites, ¬ digitVal c < 10 := by decide
    exact h2 c (space_iff.1 hs) h

theorem skip_spaces {sp s : Str} {c : Char} (hsp : ∀ c ∈ sp, c ∈ whites) (hc : isSpace c = false) :
    (sp ++ c :: s).dropWhile isSpace = c :: s := by
  induction sp with
  | nil => simp [List.dropWhile_cons, hc]
  | cons a sp ih =>
    rw [List.cons_append, List.dropWhile_cons, if_pos (space_iff.2 (hsp a (by simp)))]
    exact ih fun c h => hsp c (by simp [h])

theorem split_spaces (arg : Str) :
    ∃ sp, (∀ c ∈ sp, c ∈ whites) ∧ arg = sp ++ arg.dropWhile isSpace := by
  refine ⟨arg.takeWhile isSpace, ?_, (List.takeWhile_append_dropWhile).symm⟩
  induction arg with
  | nil => intro c h; cases h
  | cons a s ih =>
    intro c h
    rw [List.takeWhile_cons] at h
    split at h
    · rcases List.mem_cons.1 h with rfl | h
      · exact space_iff.1 (by assumption)
      · exact ih c h
    · cases h

theorem strto_pos {sp s : Str} {n : Nat} (hsp : ∀ c ∈ sp, c ∈ whites) (h : Number s n) :
    strto (sp ++ s) = (false, n, []) := by
  obtain ⟨b, ds, hn, hne, hv⟩ := numeral_of h
  obtain ⟨c, t, rfl, hc⟩ := number_head h
  have hsg : sign (c :: t) = (false, c :: t) := by
    unfold sign
    split
    · rename_i heq; injection heq with heq _; subst heq; exact absurd hc (by decide)
    · rename_i heq; injection heq with heq _; subst heq; exact absurd hc (by decide)
    · rfl
  unfold strto
  rw [skip_spaces hsp (digit_not_space hc), hsg]
  simp only [hn]
  rw [if_neg hne, hv]

theorem strto_plus {sp s : Str} {n : Nat} (hsp : ∀ c ∈ sp, c ∈ whites) (h : Number s n) :
    strto (sp ++ '+' :: s) = (false, n, []) := by
  obtain ⟨b, ds, hn, hne, hv⟩ := numeral_of h
  unfold strto
  rw [skip_spaces hsp (by decide)]
  simp only [sign, hn]
  rw [if_neg hne, hv]

theorem strto_minus {sp s : Str} {n : Nat} (hsp : ∀ c ∈ sp, c ∈ whites) (h : Number s n) :
    strto (sp ++ '-' :: s) = (true, n, []) := by
  obtain ⟨b, ds, hn, hne, hv⟩ := numeral_of h
  unfold strto
  rw [skip_spaces hsp (by decide)]
  simp only [sign, hn]
  rw [if_neg hne, hv]

theorem of_strto {arg : Str} (hr : (strto arg).2.2 = []) (hne : arg ≠ []) :
    SignedNumber arg (signed (strto arg).1 (strto arg).2.1) := by
  obtain ⟨sp, hsp, harg⟩ := split_spaces arg
  unfold strto at hr ⊢
  generalize hd : arg.dropWhile isSpace = s at *
  by_cases hds : (numeral (sign s).2).2.1 = []
  · simp only [hds, if_true] at hr
    exact absurd hr hne
  · simp only [if_neg hds] at hr ⊢
    have hnum : Number (sign s).2 (value (numeral (sign s).2).1 (numeral (sign s).2).2.1) :=
      number_of (by rw [← hr]) hds
    rw [harg]
    generalize value (numeral (sign s).2).1 (numeral (sign s).2).2.1 = n at *
    unfold sign at hnum ⊢
    split at hnum
    · simp only [signed, if_true]; exact .minus hsp hnum
    · simp only [signed, Bool.false_eq_true, if_false]; exact .plus hsp hnum
    · simp only [signed, Bool.false_eq_true, if_false]; exact .pos hsp hnum

theorem strto_signed {arg : Str} {n : Int} (h : SignedNumber arg n) :
    (strto arg).2.2 = [] ∧ signed (strto arg).1 (strto arg).2.1 = n ∧ arg ≠ [] := by
  cases h with
  | pos hsp h =>
    rw [strto_pos hsp h]
    refine ⟨rfl, rfl, ?_⟩
    obtain ⟨c, t, rfl, _⟩ := number_head h
    simp
  | plus hsp h => rw [strto_plus hsp h]; exact ⟨rfl, rfl, by simp⟩
  | minus hsp h => rw [strto_minus hsp h]; exact ⟨rfl, rfl, by simp⟩

theorem parseInt_iff {arg : Str} {n : Int} (hne : arg ≠ []) :
    parseInt arg = some n ↔ SignedNumber arg n ∧ -2147483648 ≤ n ∧ n ≤ 2147483647 := by
  unfold parseInt
  constructor
  · intro h
    simp only at h
    split at h
    · cases h
    · split at h
      · cases h
      · rename_i hr
        have hr : (strto arg).2.2 = [] := by simpa using hr
        split at h
        · cases h
        · split at h
          · cases h
          · injection h with h
            subst h
            exact ⟨of_strto hr hne, by omega, by omega⟩
  · rintro ⟨h, h1, h2⟩
    obtain ⟨hr, hv, _⟩ := strto_signed h
    simp only [hv]
    rw [if_neg (by omega), if_neg (by simp [hr]), if_neg (by omega), if_neg (by omega)]

/-- The unsigned parsers. -/
theorem parseUnsigned_iff {arg : Str} {n maxVal : Nat} (hm : maxVal ≤ 18446744073709551615) :
    parseUnsigned maxVal arg = some n ↔
      (∃ sp s, arg = sp ++ s ∧ (∀ c ∈ sp, c ∈ whites) ∧ Number s n) ∧ n ≤ maxVal := by
  unfold parseUnsigned strictStrtoull
  constructor
  · intro h
    obtain ⟨sp, hsp, harg⟩ := split_spaces arg
    cases hd : arg.dropWhile isSpace with
    | nil => rw [hd] at h; simp only at h; cases h
    | cons c t =>
      rw [hd] at h harg
      simp only at h
      by_cases hdig : isDigit c = false
      · rw [if_pos hdig] at h; cases h
      · rw [if_neg hdig] at h
        by_cases hr : (strto arg).2.2 = []
        · rw [if_neg (by simp [hr])] at h
          by_cases hb : 18446744073709551615 < (strto arg).2.1
          · rw [if_pos hb] at h; cases h
          · rw [if_neg hb] at h
            simp only at h
            split at h
            · cases h
            · injection h with h
              rename_i hle
              have hdig : digitVal c < 10 := by
                unfold isDigit at hdig; simpa using hdig
              refine ⟨⟨sp, c :: t, harg, hsp, ?_⟩, by omega⟩
              subst h
              have hsg : sign (c :: t) = (false, c :: t) := by
                unfold sign
                split
                · rename_i heq; injection heq with heq _; subst heq; exact absurd hdig (by decide)
                · rename_i heq; injection heq with heq _; subst heq; exact absurd hdig (by decide)
                · rfl
              unfold strto at hr ⊢
              rw [hd, hsg] at hr ⊢
              simp only at hr ⊢
              by_cases hds : (numeral (c :: t)).2.1 = []
              · rw [if_pos hds] at hr
                simp only at hr
                rw [harg] at hr
                simp at hr
              · rw [if_neg hds] at hr ⊢
                exact number_of (by rw [← hr]) hds
        · rw [if_pos (by simp [hr])] at h; cases h
  · rintro ⟨⟨sp, s, rfl, hsp, h⟩, hle⟩
    have hst := strto_pos hsp h
    obtain ⟨c, t, rfl, hc⟩ := number_head h
    rw [skip_spaces hsp (digit_not_space hc)]
    simp only [hst]
    rw [if_neg (by unfold isDigit; simp [hc]), if_neg (by simp), if_neg (by omega)]
    simp only
    rw [if_neg (by omega)]

/-! ## Options -/

variable {V : Type}

theorem lookup_short {tl : List (Char × Bool)} : ∀ {os : List (Opt V)} {i : Nat} {o : Opt V} {c : Char},
    (os.filterMap Opt.short).Nodup → os[i]? = some o → o.short = some c →
    (os.filterMap (fun o => o.short.map fun c => (c, !o.isFlag)) ++ tl).lookup c = some (!o.isFlag) := by
  intro os
  induction os with
  | nil => intro i o c _ h; simp at h
  | cons a os ih =>
    intro i o c hn hi hc
    cases i with
    | zero =>
      simp only [List.getElem?_cons_zero, Option.some.injEq] at hi
      subst hi
      simp [hc]
    | succ i =>
      simp only [List.getElem?_cons_succ] at hi
      cases ha : a.short with
      | none =>
        rw [List.filterMap_cons_none ha] at hn
        rw [List.filterMap_cons_none (by simp [ha])]
        exact ih hn hi hc
      | some d =>
        rw [List.filterMap_cons_some ha, List.nodup_cons] at hn
        rw [List.filterMap_cons_some (b := (d, !a.isFlag)) (by simp [ha])]
        have hcd : c ≠ d := by
          rintro rfl
          exact hn.1 (List.mem_filterMap.2 ⟨o, List.mem_of_getElem? hi, hc⟩)
        rw [List.cons_append, List.lookup_cons]
        have : (c == d) = false := by simpa using hcd
        rw [this]
        exact ih hn.2 hi hc

theorem find_long {tl : List (Str × Bool × Nat)} : ∀ {os : List (Opt V)} {vs : List Nat} {i : Nat}
    {o : Opt V} {n : Str} {v : Nat},
    (os.filterMap Opt.long).Nodup → os[i]? = some o → vs[i]? = some v → o.long = some n →
    ((os.zip vs).filterMap (fun p => p.1.long.map fun n => (n, !p.1.isFlag, p.2)) ++ tl).find?
      (fun e => e.1 = n) = some (n, !o.isFlag, v) := by
  intro os
  induction os with
  | nil => intro vs i o n v _ h; simp at h
  | cons a os ih =>
    intro vs i o n v hn hi hv hc
    cases vs with
    | nil => simp at hv
    | cons u vs =>
      rw [List.zip_cons_cons]
      cases i with
      | zero =>
        simp only [List.getElem?_cons_zero, Option.some.injEq] at hi hv
        subst hi; subst hv
        simp [hc]
      | succ i =>
        simp only [List.getElem?_cons_succ] at hi hv
        cases ha : a.long with
        | none =>
          rw [List.filterMap_cons_none ha] at hn
          rw [List.filterMap_cons_none (by simp [ha])]
          exact ih hn hi hv hc
        | some d =>
          rw [List.filterMap_cons_some ha, List.nodup_cons] at hn
          rw [List.filterMap_cons_some (b := (d, !a.isFlag, u)) (by simp [ha])]
          have hcd : d ≠ n := by
            rintro rfl
            exact hn.1 (List.mem_filterMap.2 ⟨o, List.mem_of_getElem? hi, hc⟩)
          rw [List.cons_append, List.find?_cons]
          simp only [hcd, decide_false]
          exact ih hn.2 hi hv hc

theorem vals_length : ∀ (os : List (Opt V)) (m : Nat), (vals m os).length = os.length := by
  intro os
  induction os with
  | nil => intro m; rfl
  | cons o os ih =>
    intro m
    unfold vals
    split
    · simp [ih]
    · split <;> simp [ih]

theorem vals_spec : ∀ (os : List (Opt V)) (m i : Nat) (o : Opt V) (v : Nat),
    (∀ o ∈ os, o.long ≠ none) → os[i]? = some o → (vals m os)[i]? = some v →
    (∀ c, o.short = some c → v = c.toNat) ∧ (o.short = none → m < v) := by
  intro os
  induction os with
  | nil => intro m i o v _ h; simp at h
  | cons a os ih =>
    intro m i o v hl hi hv
    have hl' : ∀ o ∈ os, o.long ≠ none := fun o h => hl o (by simp [h])
    unfold vals at hv
    cases ha : a.long with
    | none => exact absurd ha (hl a (by simp))
    | some n =>
      rw [ha] at hv
      simp only at hv
      cases hs : a.short with
      | none =>
        rw [hs] at hv
        simp only at hv
        cases i with
        | zero =>
          simp only [List.getElem?_cons_zero, Option.some.injEq] at hi hv
          subst hi; subst hv
          exact ⟨fun c hc => (by rw [hs] at hc; cases hc), fun _ => Nat.lt_succ_self _⟩
        | succ i =>
          simp only [List.getElem?_cons_succ] at hi hv
          obtain ⟨h1, h2⟩ := ih (m + 1) i o v hl' hi hv
          exact ⟨h1, fun h => by have := h2 h; omega⟩
      | some c =>
        rw [hs] at hv
        simp only at hv
        cases i with
        | zero =>
          simp only [List.getElem?_cons_zero, Option.some.injEq] at hi hv
          subst hi; subst hv
          exact ⟨fun d hd => (by rw [hs] at hd; injection hd with hd; rw [hd]),
            fun h => (by rw [hs] at h; cases h)⟩
        | succ i =>
          simp only [List.getElem?_cons_succ] at hi hv
          exact ih m i o v hl' hi hv

/-- The values are those of the short names, or larger. -/
theorem mem_vals {os : List (Opt V)} {m v : Nat} (hl : ∀ o ∈ os, o.long ≠ none)
    (h : v ∈ vals m os) : (∃ c ∈ os.filterMap Opt.short, v = c.toNat) ∨ m < v := by
  obtain ⟨i, hi⟩ := List.mem_iff_getElem?.1 h
  have hlt : i < os.length := by
    rw [← vals_length os m]
    by_contra hc
    rw [List.getElem?_eq_none (by omega)] at hi
    cases hi
  have ho : os[i]? = some os[i] := by simp [hlt]
  obtain ⟨h1, h2⟩ := vals_spec os m i os[i] v hl ho hi
  cases hs : os[i].short with
  | none => exact Or.inr (h2 hs)
  | some c => exact Or.inl ⟨c, List.mem_filterMap.2 ⟨_, List.mem_of_getElem? ho, hs⟩, h1 c hs⟩

theorem toNat_inj {c d : Char} (h : c.toNat = d.toNat) : c = d := by
  rw [← Char.ofNat_toNat c, h, Char.ofNat_toNat]

theorem vals_nodup : ∀ (os : List (Opt V)) (m : Nat), (∀ o ∈ os, o.long ≠ none) →
    (os.filterMap Opt.short).Nodup → (∀ c ∈ os.filterMap Opt.short, c.toNat ≤ m) →
    (vals m os).Nodup := by
  intro os
  induction os with
  | nil => intro m _ _ _; exact List.nodup_nil
  | cons a os ih =>
    intro m hl hn hm
    have hl' : ∀ o ∈ os, o.long ≠ none := fun o h => hl o (by simp [h])
    unfold vals
    cases ha : a.long with
    | none => exact absurd ha (hl a (by simp))
    | some n =>
      simp only
      cases hs : a.short with
      | none =>
        rw [List.filterMap_cons_none hs] at hn hm
        simp only
        rw [List.nodup_cons]
        refine ⟨?_, ih (m + 1) hl' hn fun c hc => by have := hm c hc; omega⟩
        intro h
        rcases mem_vals hl' h with ⟨c, hc, h⟩ | h
        · have := hm c hc; omega
        · omega
      | some c =>
        rw [List.filterMap_cons_some hs] at hn hm
        rw [List.nodup_cons] at hn
        simp only
        rw [List.nodup_cons]
        refine ⟨?_, ih m hl' hn.2 fun d hd => hm d (by simp [hd])⟩
        intro h
        rcases mem_vals hl' h with ⟨d, hd, h⟩ | h
        · rw [toNat_inj h] at hn; exact hn.1 hd
        · have := hm c (by simp); omega

theorem maxShort_from : ∀ (os : List (Opt V)) (m : Nat),
    m ≤ os.foldl (fun m o => match o.short with | some c => max c.toNat m | none => m) m ∧
    ∀ c ∈ os.filterMap Opt.short,
      c.toNat ≤ os.foldl (fun m o => match o.short with | some c => max c.toNat m | none => m) m := by
  intro os
  induction os with
  | nil => intro m; exact ⟨Nat.le_refl _, fun c h => by cases h⟩
  | cons a os ih =>
    intro m
    rw [List.foldl_cons]
    cases hs : a.short with
    | none =>
      rw [List.filterMap_cons_none hs]
      exact ih m
    | some d =>
      rw [List.filterMap_cons_some hs]
      simp only
      obtain ⟨h1, h2⟩ := ih (max d.toNat m)
      refine ⟨by omega, ?_⟩
      intro c hc
      rcases List.mem_cons.1 hc with rfl | hc
      · omega
      · exact h2 c hc

/-- The value of each option. -/
theorem val_of {os : List (Opt V)} (hok : OptsOk os) {i : Nat} {o : Opt V} (hi : os[i]? = some o) :
    ∃ v, (vals (maxShort os) os)[i]? = some v ∧ v ≠ 104 ∧ v ≠ 63 ∧
      (vals (maxShort os) os).findIdx? (fun u => u = v) = some i ∧
      (∀ c, o.short = some c → v = c.toNat) := by
  have hmx := maxShort_from os 104
  have hnd := vals_nodup os (maxShort os) hok.named hok.shorts hmx.2
  have hlt : i < (vals (maxShort os) os).length := by
    rw [vals_length]
    by_contra hc
    rw [List.getElem?_eq_none (by omega)] at hi
    cases hi
  refine ⟨(vals (maxShort os) os)[i], by simp [hlt], ?_⟩
  generalize hv : (vals (maxShort os) os)[i] = v
  have hiv : (vals (maxShort os) os)[i]? = some v := by simp [hlt, hv]
  obtain ⟨h1, h2⟩ := vals_spec os _ i o v hok.named hi hiv
  have h104 : 104 ≤ maxShort os := hmx.1
  have hne : v ≠ 104 ∧ v ≠ 63 := by
    cases hs : o.short with
    | none => have := h2 hs; omega
    | some c =>
      have hc := hok.letters c (List.mem_filterMap.2 ⟨o, List.mem_of_getElem? hi, hs⟩)
      have := h1 c hs
      subst this
      constructor
      · intro h; exact hc (by rw [char_of_toNat h]; decide)
      · intro h; exact hc (by rw [char_of_toNat h]; decide)
  refine ⟨hne.1, hne.2, ?_, h1⟩
  rw [List.findIdx?_eq_some_iff_getElem]
  refine ⟨hlt, by simp [hv], ?_⟩
  intro j hj
  have hjl : j < (vals (maxShort os) os).length := by omega
  simp only [decide_eq_true_eq]
  intro he
  have := (List.Nodup.getElem_inj_iff hnd (hi := hjl) (hj := hlt)).1 (he.trans hv.symm)
  omega

theorem argument_some {a : Str} (h : a.head? ≠ some '=') : argument (some a) = a := by
  unfold argument
  simp only [Option.getD_some]
  split
  · simp at h
  · rfl

/-- One event of an option. -/
theorem handle_option {os : List (Opt V)} (hok : OptsOk os) {i : Nat} {o : Opt V}
    (hi : os[i]? = some o) {v : Nat} (hv : (vals (maxShort os) os)[i]? = some v) (a : Option Str)
    (left : List Str) (es : List Event) (x : Nat → V) :
    handle os (vals (maxShort os) os) left ((v, a) :: es) x =
      if (o.parse (argument a) (x i)).1 = true then
        handle os (vals (maxShort os) os) left es (setVar x i (o.parse (argument a) (x i)).2)
      else .exited 1 := by
  obtain ⟨u, hu, h1, h2, h3, _⟩ := val_of hok hi
  rw [hv] at hu; injection hu with hu; subst hu
  conv => lhs; unfold handle
  rw [if_neg h1, if_neg h2, h3]
  simp only [hi]

theorem getopt_operand {st : List (Char × Bool)} {lt : List (Str × Bool × Nat)} {f : Nat} {w : Str}
    {ws : List Str} (h : w = ['-'] ∨ w.head? ≠ some '-') :
    getopt st lt (f + 1) (w :: ws) = ((getopt st lt f ws).1, w :: (getopt st lt f ws).2) := by
  rcases h with rfl | h
  · rfl
  · conv => lhs; unfold getopt
    split
    · simp at h
    · simp at h
    · simp at h
    · rfl

theorem getopt_letters {st : List (Char × Bool)} {lt : List (Str × Bool × Nat)} {f : Nat} {c : Char}
    {cs : Str} {ws : List Str} (hc : c ≠ '-') :
    getopt st lt (f + 1) (('-' :: c :: cs) :: ws) =
      ((letters st ws.head? (c :: cs)).1 ++
        (getopt st lt f (if (letters st ws.head? (c :: cs)).2 then ws.tail else ws)).1,
       (getopt st lt f (if (letters st ws.head? (c :: cs)).2 then ws.tail else ws)).2) := by
  conv => lhs; unfold getopt
  split
  · rename_i heq; injection heq with _ heq; injection heq with heq _; exact absurd heq hc
  · rename_i heq; injection heq with _ heq; injection heq with heq _; exact absurd heq hc
  · rename_i heq; injection heq with _ heq; injection heq with h1 h2; subst h1; subst h2; rfl
  · rename_i h; exact absurd rfl (h c cs)

theorem getopt_long {st : List (Char × Bool)} {lt : List (Str × Bool × Nat)} {f : Nat} {n : Str}
    {ws : List Str} (hn : n ≠ []) :
    getopt st lt (f + 1) (('-' :: '-' :: n) :: ws) =
      ((longWord lt ws.head? n).1 ::
        (getopt st lt f (if (longWord lt ws.head? n).2 then ws.tail else ws)).1,
       (getopt st lt f (if (longWord lt ws.head? n).2 then ws.tail else ws)).2) := by
  conv => lhs; unfold getopt
  split
  · rename_i heq; injection heq with _ heq; injection heq with _ heq; exact absurd heq hn
  · rename_i heq; injection heq with _ heq; injection heq with _ heq; subst heq; rfl
  · rename_i h1 heq; injection heq with _ heq; injection heq with heq1 heq2
    subst heq1; exact (h1 rfl).elim
  · rename_i h _; exact absurd rfl (h n)

theorem name_take {n t : Str} (h : '=' ∉ n) :
    ((n ++ t).takeWhile fun c => c != '=') = n ++ (t.takeWhile fun c => c != '=') ∧
    ((n ++ t).dropWhile fun c => c != '=') = (t.dropWhile fun c => c != '=') := by
  induction n with
  | nil => exact ⟨rfl, rfl⟩
  | cons a n ih =>
    have ha : (a != '=') = true := by
      have : a ≠ '=' := fun e => h (by rw [e]; simp)
      simpa using this
    obtain ⟨h1, h2⟩ := ih fun hm => h (by simp [hm])
    rw [List.cons_append, List.takeWhile_cons, List.dropWhile_cons, if_pos ha, if_pos ha, h1, h2]
    exact ⟨rfl, rfl⟩

/-- An item that is a use of option `i`: `getopt` gives one event for it. -/
def OptionItem (os : List (Opt V)) (it : Item) (i : Nat) (arg : Str) : Prop :=
  ∃ v a, (vals (maxShort os) os)[i]? = some v ∧ argument a = arg ∧ it.words os ≠ [] ∧
    ∀ f ws, getopt (shortTable os) (longTable os (vals (maxShort os) os)) (f + 1)
        (it.words os ++ ws) =
      ((v, a) :: (getopt (shortTable os) (longTable os (vals (maxShort os) os)) f ws).1,
        (getopt (shortTable os) (longTable os (vals (maxShort os) os)) f ws).2)

theorem short_item {os : List (Opt V)} (hok : OptsOk os) {i : Nat} {arg : Str} {att : Bool}
    (h : (Item.short i arg att).Ok os) : OptionItem os (.short i arg att) i arg := by
  obtain ⟨o, hi, hs, hfl, hatt, heq⟩ := h
  obtain ⟨v, hv, _, _, _, hvc⟩ := val_of hok hi
  obtain ⟨sh, lo, fl, pa⟩ := o
  simp only at hs hfl hatt hvc
  cases sh with
  | none => exact absurd rfl hs
  | some c =>
    have hv' := hvc c rfl
    subst hv'
    have hc : c ≠ '-' := by
      rintro rfl
      exact hok.letters '-' (List.mem_filterMap.2 ⟨_, List.mem_of_getElem? hi, rfl⟩) (by decide)
    have hlook : (shortTable os).lookup c = some (!fl) := lookup_short hok.shorts hi rfl
    cases fl with
    | true =>
      refine ⟨c.toNat, none, hv, (hfl rfl).symm, by simp [Item.words, hi], ?_⟩
      intro f ws
      simp only [Item.words, hi, List.cons_append, List.nil_append]
      rw [getopt_letters hc]
      have hlet : letters (shortTable os) ws.head? [c] = ([(c.toNat, none)], false) := by
        simp [letters, hlook]
      rw [hlet]
      rfl
    | false =>
      refine ⟨c.toNat, some arg, hv, argument_some heq, ?_, ?_⟩
      · simp only [Item.words, hi]; split <;> simp
      intro f ws
      simp only [Item.words, hi]
      cases att with
      | true =>
        simp only [if_true, List.cons_append, List.nil_append]
        rw [getopt_letters hc]
        have hlet : letters (shortTable os) ws.head? (c :: arg) = ([(c.toNat, some arg)], false) := by
          cases arg with
          | nil => exact absurd rfl (hatt rfl rfl)
          | cons d t => simp [letters, hlook]
        rw [hlet]
        rfl
      | false =>
        simp only [Bool.false_eq_true, if_false, List.cons_append, List.nil_append]
        rw [getopt_letters hc]
        have hlet : letters (shortTable os) (arg :: ws).head? [c] = ([(c.toNat, some arg)], true) := by
          simp [letters, hlook]
        rw [hlet]
        rfl

theorem shortEq_item {os : List (Opt V)} (hok : OptsOk os) {i : Nat} {arg : Str}
    (h : (Item.shortEq i arg).Ok os) : OptionItem os (.shortEq i arg) i arg := by
  obtain ⟨o, hi, hs, hfl⟩ := h
  obtain ⟨v, hv, _, _, _, hvc⟩ := val_of hok hi
  obtain ⟨sh, lo, fl, pa⟩ := o
  simp only at hs hfl hvc
  subst hfl
  cases sh with
  | none => exact absurd rfl hs
  | some c =>
    have hv' := hvc c rfl
    subst hv'
    have hc : c ≠ '-' := by
      rintro rfl
      exact hok.letters '-' (List.mem_filterMap.2 ⟨_, List.mem_of_getElem? hi, rfl⟩) (by decide)
    have hlook : (shortTable os).lookup c = some true := lookup_short hok.shorts hi rfl
    refine ⟨c.toNat, some ('=' :: arg), hv, rfl, by simp [Item.words, hi], ?_⟩
    intro f ws
    simp only [Item.words, hi, List.cons_append, List.nil_append]
    rw [getopt_letters hc]
    have hlet : letters (shortTable os) ws.head? (c :: '=' :: arg) =
        ([(c.toNat, some ('=' :: arg))], false) := by
      simp [letters, hlook]
    rw [hlet]
    rfl

theorem long_item {os : List (Opt V)} (hok : OptsOk os) {i : Nat} {arg : Str} {att : Bool}
    (h : (Item.long i arg att).Ok os) : OptionItem os (.long i arg att) i arg := by
  obtain ⟨o, hi, hs, hfl, heq⟩ := h
  obtain ⟨v, hv, _, _, _, _⟩ := val_of hok hi
  obtain ⟨sh, lo, fl, pa⟩ := o
  simp only at hs hfl
  cases lo with
  | none => exact absurd rfl hs
  | some n =>
    obtain ⟨hn0, _, hne⟩ := hok.names n (List.mem_filterMap.2 ⟨_, List.mem_of_getElem? hi, rfl⟩)
    have hfind : (longTable os (vals (maxShort os) os)).find? (fun e => e.1 = n) =
        some (n, !fl, v) := find_long hok.longs hi hv rfl
    have hn1 := name_take (t := []) hne
    simp only [List.append_nil, List.takeWhile_nil, List.dropWhile_nil] at hn1
    cases fl with
    | true =>
      refine ⟨v, none, hv, (hfl rfl).symm, by simp [Item.words, hi], ?_⟩
      intro f ws
      simp only [Item.words, hi, List.cons_append, List.nil_append]
      rw [getopt_long hn0]
      have hlw : longWord (longTable os (vals (maxShort os) os)) ws.head? n = ((v, none), false) := by
        unfold longWord
        simp only [hn1.1, hn1.2]
        rw [hfind]
        rfl
      rw [hlw]
      rfl
    | false =>
      refine ⟨v, some arg, hv, argument_some heq, ?_, ?_⟩
      · simp only [Item.words, hi]; split <;> simp
      intro f ws
      simp only [Item.words, hi]
      cases att with
      | true =>
        simp only [if_true, List.cons_append, List.nil_append]
        rw [getopt_long (by simp)]
        have hn2 := name_take (t := '=' :: arg) hne
        have hlw : longWord (longTable os (vals (maxShort os) os)) ws.head? (n ++ '=' :: arg) =
            ((v, some arg), false) := by
          unfold longWord
          simp only [hn2.1, hn2.2]
          have e1 : (('=' :: arg).takeWhile fun c => c != '=') = [] := by
            simp [List.takeWhile_cons]
          have e2 : (('=' :: arg).dropWhile fun c => c != '=') = '=' :: arg := by
            simp [List.dropWhile_cons]
          rw [e1, e2, List.append_nil, hfind]
          rfl
        rw [hlw]
        rfl
      | false =>
        simp only [Bool.false_eq_true, if_false, List.cons_append, List.nil_append]
        rw [getopt_long hn0]
        have hlw : longWord (longTable os (vals (maxShort os) os)) (arg :: ws).head? n =
            ((v, some arg), true) := by
          unfold longWord
          simp only [hn1.1, hn1.2]
          rw [hfind]
          rfl
        rw [hlw]
        rfl

/-- What the words of items become. -/
theorem items_run {os : List (Opt V)} (hok : OptsOk os) : ∀ (items : List Item),
    (∀ it ∈ items, it.Ok os) → ∀ (tl : List Str) (f : Nat),
    (items.flatMap (Item.words os) ++ tl).length < f →
    ∃ f' evs, tl.length < f' ∧
      getopt (shortTable os) (longTable os (vals (maxShort os) os)) f
          (items.flatMap (Item.words os) ++ tl) =
        (evs ++ (getopt (shortTable os) (longTable os (vals (maxShort os) os)) f' tl).1,
          operands items ++ (getopt (shortTable os) (longTable os (vals (maxShort os) os)) f' tl).2) ∧
      ∀ left es x, handle os (vals (maxShort os) os) left (evs ++ es) x =
        match effect os items x with
        | some y => handle os (vals (maxShort os) os) left es y
        | none => .exited 1 := by
  intro items
  induction items with
  | nil =>
    intro _ tl f hf
    exact ⟨f, [], by simpa using hf, rfl, fun left es x => rfl⟩
  | cons it items ih =>
    intro hit tl f hf
    have ih := ih (fun i h => hit i (by simp [h])) tl
    have hi := hit it (by simp)
    have hopt : ∀ i arg o, os[i]? = some o → OptionItem os it i arg →
        operands (it :: items) = operands items →
        (∀ x, effect os (it :: items) x = if (o.parse arg (x i)).1 = true then
          effect os items (setVar x i (o.parse arg (x i)).2) else none) →
        ∃ f' evs, tl.length < f' ∧
          getopt (shortTable os) (longTable os (vals (maxShort os) os)) f
              ((it :: items).flatMap (Item.words os) ++ tl) =
            (evs ++ (getopt (shortTable os) (longTable os (vals (maxShort os) os)) f' tl).1,
              operands (it :: items) ++
                (getopt (shortTable os) (longTable os (vals (maxShort os) os)) f' tl).2) ∧
          ∀ left es x, handle os (vals (maxShort os) os) left (evs ++ es) x =
            match effect os (it :: items) x with
            | some y => handle os (vals (maxShort os) os) left es y
            | none => .exited 1 := by
      intro i arg o ho hoi hops heff
      obtain ⟨v, a, hv, harg, hwne, hget⟩ := hoi
      obtain ⟨g, rfl⟩ : ∃ g, f = g + 1 := ⟨f - 1, by omega⟩
      rw [List.flatMap_cons, List.append_assoc] at hf ⊢
      have hpos : 0 < (it.words os).length := List.length_pos_iff.2 hwne
      rw [List.length_append] at hf
      obtain ⟨f', evs, h1, h2, h3⟩ := ih g (by omega)
      refine ⟨f', (v, a) :: evs, h1, ?_, ?_⟩
      · rw [hget, h2, hops]
        rfl
      · intro left es x
        rw [List.cons_append, handle_option hok ho hv, harg, heff]
        by_cases hp : (o.parse arg (x i)).1 = true
        · rw [if_pos hp, if_pos hp, h3]
        · rw [if_neg hp, if_neg hp]
    cases it with
    | operand w =>
      obtain ⟨g, rfl⟩ : ∃ g, f = g + 1 := ⟨f - 1, by omega⟩
      simp only [List.flatMap_cons, Item.words, List.cons_append, List.nil_append,
        List.length_cons] at hf ⊢
      obtain ⟨f', evs, h1, h2, h3⟩ := ih g (by omega)
      refine ⟨f', evs, h1, ?_, h3⟩
      rw [getopt_operand hi, h2]
      rfl
    | short i arg att =>
      obtain ⟨o, ho, _⟩ := id hi
      refine hopt i arg o ho (short_item hok hi) rfl ?_
      intro x
      simp only [effect, ho]
      rfl
    | shortEq i arg =>
      obtain ⟨o, ho, _⟩ := id hi
      refine hopt i arg o ho (shortEq_item hok hi) rfl ?_
      intro x
      simp only [effect, ho]
      rfl
    | long i arg att =>
      obtain ⟨o, ho, _⟩ := id hi
      refine hopt i arg o ho (long_item hok hi) rfl ?_
      intro x
      simp only [effect, ho]
      rfl

theorem lookup_absent {tl : List (Char × Bool)} {c : Char} : ∀ {os : List (Opt V)},
    c ∉ os.filterMap Opt.short →
    (os.filterMap (fun o => o.short.map fun c => (c, !o.isFlag)) ++ tl).lookup c = tl.lookup c := by
  intro os
  induction os with
  | nil => intro _; rfl
  | cons a os ih =>
    intro h
    cases ha : a.short with
    | none =>
      rw [List.filterMap_cons_none ha] at h
      rw [List.filterMap_cons_none (by simp [ha])]
      exact ih h
    | some d =>
      rw [List.filterMap_cons_some ha] at h
      rw [List.filterMap_cons_some (b := (d, !a.isFlag)) (by simp [ha]), List.cons_append,
        List.lookup_cons]
      have : (c == d) = false := by
        have : c ≠ d := fun e => h (by rw [e]; simp)
        simpa using this
      rw [this]
      exact ih fun hm => h (by simp [hm])

theorem find_absent {tl : List (Str × Bool × Nat)} {n : Str} : ∀ {os : List (Opt V)} {vs : List Nat},
    n ∉ os.filterMap Opt.long →
    ((os.zip vs).filterMap (fun p => p.1.long.map fun n => (n, !p.1.isFlag, p.2)) ++ tl).find?
      (fun e => e.1 = n) = tl.find? (fun e => e.1 = n) := by
  intro os
  induction os with
  | nil => intro vs _; rfl
  | cons a os ih =>
    intro vs h
    cases vs with
    | nil => rfl
    | cons u vs =>
      rw [List.zip_cons_cons]
      cases ha : a.long with
      | none =>
        rw [List.filterMap_cons_none ha] at h
        rw [List.filterMap_cons_none (by simp [ha])]
        exact ih h
      | some d =>
        rw [List.filterMap_cons_some ha] at h
        rw [List.filterMap_cons_some (b := (d, !a.isFlag, u)) (by simp [ha]), List.cons_append,
          List.find?_cons]
        have : d ≠ n := fun e => h (by rw [e]; simp)
        simp only [this, decide_false]
        exact ih fun hm => h (by simp [hm])

/-! ## Text -/

theorem take_before_newline {s : Str} {k : Nat} (hk : k ≤ (s.takeWhile fun c => c != '\n').length) :
    '\n' ∉ s.take k := by
  induction s generalizing k with
  | nil => simp
  | cons a s ih =>
    rw [List.takeWhile_cons] at hk
    cases k with
    | zero => simp
    | succ k =>
      split at hk
      · rename_i ha
        rw [List.take_succ_cons]
        intro hm
        rcases List.mem_cons.1 hm with h | h
        · subst h; simp at ha
        · exact ih (by simpa using hk) h
      · simp at hk

theorem drop_at_newline {s : Str} (h : '\n' ∈ s) :
    s.drop (s.takeWhile fun c => c != '\n').length =
      '\n' :: (s.drop (s.takeWhile fun c => c != '\n').length).tail := by
  induction s with
  | nil => cases h
  | cons a s ih =>
    rw [List.takeWhile_cons]
    by_cases ha : a = '\n'
    · subst ha; simp
    · rw [if_pos (by simpa using ha)]
      rcases List.mem_cons.1 h with h | h
      · exact absurd h.symm ha
      · simpa using ih h

theorem head_drop {s : Str} {k : Nat} (hk : k < (s.takeWhile fun c => c != '\n').length) :
    (s.drop k).head? ≠ some '\n' := by
  induction s generalizing k with
  | nil => simp
  | cons a s ih =>
    rw [List.takeWhile_cons] at hk
    split at hk
    · rename_i ha
      cases k with
      | zero =>
        intro h
        simp only [List.drop_zero, List.head?_cons, Option.some.injEq] at h
        subst h; simp at ha
      | succ k => rw [List.drop_succ_cons]; exact ih (by simpa using hk)
    · simp at hk

theorem wrap_pieces {hw : Nat} (hpos : 0 < hw) : ∀ (f : Nat) (s : Str), s ≠ [] → s.length ≤ f →
    s.length < 2147483647 → ∃ ps, wrap hw f s = some ps ∧ Pieces hw ps s := by
  intro f
  induction f with
  | zero =>
    intro s hne hl _
    cases s with
    | nil => exact absurd rfl hne
    | cons a s => simp at hl
  | succ f ih =>
    intro s hne hl hmax
    have hlen : 0 < s.length := List.length_pos_iff.2 hne
    unfold wrap
    simp only
    by_cases hnl : '\n' ∈ s
    · have hn : nextNewline s = (s.takeWhile fun c => c != '\n').length := by
        unfold nextNewline; rw [if_pos hnl]
      generalize hk : (s.takeWhile fun c => c != '\n').length = k at hn
      have hks : k < s.length := by
        have := drop_at_newline hnl
        rw [hk] at this
        by_contra hc
        rw [List.drop_eq_nil_of_le (by omega)] at this
        cases this
      rw [hn]
      by_cases hkw : k ≤ hw
      · have hreal : min (min s.length hw) k = k := by omega
        rw [hreal, if_pos rfl]
        have hs : s = s.take k ++ '\n' :: (s.drop k).tail := by
          have := drop_at_newline hnl
          rw [hk] at this
          rw [← this, List.take_append_drop]
        have hno : '\n' ∉ s.take k := take_before_newline (by omega)
        have htk : (s.take k).length ≤ hw := by simp; omega
        by_cases hr : (s.drop k).tail = []
        · rw [if_pos hr]
          refine ⟨_, rfl, ?_⟩
          rw [hr] at hs
          have : Pieces hw [s.take k] (s.take k ++ ['\n']) := .lastNewline hno htk
          rwa [← hs] at this
        · rw [if_neg hr]
          obtain ⟨ps, h1, h2⟩ := ih (s.drop k).tail hr (by simp; omega) (by simp; omega)
          rw [h1]
          refine ⟨_, rfl, ?_⟩
          have : Pieces hw (s.take k :: ps) (s.take k ++ '\n' :: (s.drop k).tail) :=
            .line hno htk hr h2
          rwa [← hs] at this
      · have hreal : min (min s.length hw) k = hw := by omega
        rw [hreal, if_neg (show ¬ k = hw by omega)]
        have hr : s.drop hw ≠ [] := by
          intro h
          have := congrArg List.length h
          simp at this
          omega
        rw [if_neg hr]
        obtain ⟨ps, h1, h2⟩ := ih (s.drop hw) hr (by simp; omega) (by simp; omega)
        rw [h1]
        refine ⟨_, rfl, ?_⟩
        have : Pieces hw (s.take hw :: ps) (s.take hw ++ s.drop hw) :=
          .full (take_before_newline (by omega)) (by simp; omega) hr (head_drop (by omega)) h2
        rwa [List.take_append_drop] at this
    · have hn : nextNewline s = 2147483647 := by unfold nextNewline; rw [if_neg hnl]
      rw [hn]
      have hno : ∀ k, '\n' ∉ s.take k := fun k h => hnl (List.mem_of_mem_take h)
      by_cases hsw : s.length ≤ hw
      · have hreal : min (min s.length hw) 2147483647 = s.length := by omega
        rw [hreal, if_neg (show ¬ 2147483647 = s.length by omega), if_pos (show s.drop s.length = [] by simp)]
        refine ⟨_, rfl, ?_⟩
        rw [List.take_length]
        exact .last hnl hsw
      · have hreal : min (min s.length hw) 2147483647 = hw := by omega
        rw [hreal, if_neg (show ¬ 2147483647 = hw by omega)]
        have hr : s.drop hw ≠ [] := by
          intro h
          have := congrArg List.length h
          simp at this
          omega
        rw [if_neg hr]
        obtain ⟨ps, h1, h2⟩ := ih (s.drop hw) hr (by simp; omega) (by simp; omega)
        rw [h1]
        refine ⟨_, rfl, ?_⟩
        have hh : (s.drop hw).head? ≠ some '\n' := by
          intro h
          exact hnl (List.mem_of_mem_drop (List.mem_of_mem_head? h))
        have : Pieces hw (s.take hw :: ps) (s.take hw ++ s.drop hw) :=
          .full (hno hw) (by simp; omega) hr hh h2
        rwa [List.take_append_drop] at this

theorem wrap_never {s : Str} (hne : s ≠ []) (hh : s.head? ≠ some '\n') : ∀ f, wrap 0 f s = none := by
  intro f
  induction f with
  | zero => rfl
  | succ f ih =>
    have hnl : nextNewline s ≠ 0 := by
      unfold nextNewline
      split
      · cases s with
        | nil => exact absurd rfl hne
        | cons a t =>
          have ha : (a != '\n') = true := by
            have : a ≠ '\n' := fun e => hh (by rw [e]; rfl)
            simpa using this
          simp [List.takeWhile_cons, ha]
      · omega
    unfold wrap
    simp only [Nat.min_zero, Nat.zero_min, if_neg hnl, List.drop_zero, if_neg hne, ih]
    rfl

end Verif.Args
