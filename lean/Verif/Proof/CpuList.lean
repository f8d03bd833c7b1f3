import Verif.Spec.CpuList
import Mathlib.Data.Finset.Range
import Mathlib.Data.Finset.Card
import Mathlib.Tactic.Ring

/-!
Reading lists of processors.
-/
namespace Verif.CpuList

theorem digit_iff (c : Char) : isDigit c = true ↔ '0' ≤ c ∧ c ≤ '9' := by
  unfold isDigit
  simp only [Bool.and_eq_true, decide_eq_true_eq, Char.le_def, UInt32.le_iff_toNat_le]
  rfl

theorem Num.digits {ds : List Char} (h : Num ds) : ∀ c ∈ ds, isDigit c = true :=
  fun c hc => (digit_iff c).2 (h.2.1 c hc)

theorem digit_plain (c : Char) (h : isDigit c = true) :
    isSpace c = false ∧ c ≠ '-' ∧ c ≠ '+' ∧ c ≠ ',' := by
  simp only [isDigit, Bool.and_eq_true, decide_eq_true_eq] at h
  have hne : ∀ x : Char, x.toNat < 48 → c ≠ x := by rintro x hx rfl; omega
  refine ⟨?_, hne _ (by decide), hne _ (by decide), hne _ (by decide)⟩
  simp only [isSpace, Bool.or_eq_false_iff, beq_eq_false_iff_ne, Bool.and_eq_false_iff, decide_eq_false_iff_not]
  exact ⟨hne _ (by decide), Or.inr (by omega)⟩

theorem number_value (ds : List Char) : number ds = value ds := by
  have gen : ∀ (ds : List Char) (v : Nat),
      ds.foldl (fun v c => v * 10 + (c.toNat - 48)) v = v * 10 ^ ds.length + value ds := by
    intro ds
    induction ds with
    | nil => intro v; simp [value]
    | cons c ds ih =>
      intro v
      rw [List.foldl_cons, ih, value, List.length_cons, Nat.pow_succ, show '0'.toNat = 48 from rfl]
      ring
  simpa [number] using gen ds 0

/-- A text that does not go on with a digit. -/
def Stops (s : List Char) : Prop := ∀ c t, s = c :: t → isDigit c = false

theorem take_digits {ds : List Char} (h : ∀ c ∈ ds, isDigit c = true) {r : List Char} (hr : Stops r) :
    (ds ++ r).takeWhile isDigit = ds ∧ (ds ++ r).dropWhile isDigit = r := by
  have h1 : r.takeWhile isDigit = [] ∧ r.dropWhile isDigit = r := by
    cases r with
    | nil => exact ⟨rfl, rfl⟩
    | cons c t => have := hr c t rfl; simp [this]
  rw [List.takeWhile_append_of_pos h, List.dropWhile_append_of_pos h, h1.1, h1.2, List.append_nil]
  exact ⟨rfl, rfl⟩

theorem convU_num {ds : List Char} (h : Num ds) {r : List Char} (hr : Stops r) :
    convU (ds ++ r) = .ok (value ds) r := by
  obtain ⟨t1, t2⟩ := take_digits h.digits hr
  obtain ⟨c, t, rfl⟩ : ∃ c t, ds = c :: t := by
    cases ds with
    | nil => exact absurd rfl h.1
    | cons c t => exact ⟨c, t, rfl⟩
  obtain ⟨p1, p2, p3, p4⟩ := digit_plain c (h.digits c (by simp))
  have hlt := h.2.2
  have hv : min (number (c :: t)) (2 ^ 64 - 1) % 2 ^ 32 = value (c :: t) := by rw [number_value]; omega
  unfold convU
  rw [List.cons_append, List.dropWhile_cons_of_neg (by simp [p1])]
  simp only [p2, p3, or_self, if_false]
  rw [← List.cons_append, t1, t2, if_neg (List.cons_ne_nil c t), hv]

theorem toInt_num {n : Nat} (h : n < 2 ^ 31 - 1) : toInt n = n :=
  Int.bmod_eq_of_le (by omega) (by omega)

theorem readValue_num {ds : List Char} (h : Num ds) : readValue ds = value ds := by
  have := (take_digits h.digits (r := []) (by intro c t e; cases e)).1
  rw [List.append_nil] at this
  have hlt := h.2.2
  unfold readValue
  rw [this, number_value]
  omega

/-- The end of an item, where the list ends or a comma comes. -/
def Next (r : List Char) : Prop := r = [] ∨ ∃ t, r = ',' :: t

theorem Next.stops {r : List Char} (h : Next r) : Stops r := by
  rintro c t rfl
  rcases h with h | ⟨t', h⟩
  · cases h
  · cases h; decide

theorem iter_item (i : Item) (hi : i.Ok) (r : List Char) (hr : Next r) (f : Nat) :
    iter (f + 1) (i.text ++ r) =
      if r = [] then (i.cpus.map (fun n : Nat => (n : Int)), true)
      else (i.cpus.map (fun n : Nat => (n : Int)) ++ (iter f r).1, (iter f r).2) := by
  cases i with
  | one a =>
    have ha : Num a := hi
    simp only [iter, Item.text]
    rw [convU_num ha hr.stops]
    have hlt := ha.2.2
    simp only [toInt_num hlt, Item.cpus, List.map_cons, List.map_nil]
    rcases hr with rfl | ⟨t, rfl⟩
    · simp
    · simp
  | range a b =>
    obtain ⟨ha, hb, hab⟩ := hi
    have h1 := ha.2.2
    have h2 := hb.2.2
    simp only [iter, Item.text, List.append_assoc, List.cons_append]
    rw [convU_num ha (r := '-' :: (b ++ r)) (by intro c t e; cases e; decide)]
    simp only
    rw [convU_num hb hr.stops]
    simp only [toInt_num h1, toInt_num h2]
    rw [if_neg (by omega)]
    have e : (List.range ((value b : Int) - value a + 1).toNat).map (fun k : Nat => (value a : Int) + (k : Int)) =
        (Item.range a b).cpus.map (fun n : Nat => (n : Int)) := by
      rw [Item.cpus, List.map_map, show ((value b : Int) - value a + 1).toNat = value b + 1 - value a by omega]
      apply List.map_congr_left
      intro k _
      simp
    rw [e]

theorem iter_comma (s : List Char) (f : Nat) : iter (f + 1) (',' :: s) = iter f s := by
  have : convU (',' :: s) = .fail := by
    unfold convU
    rw [List.dropWhile_cons_of_neg (by decide)]
    simp only [show ¬ ((',' : Char) = '-' ∨ (',' : Char) = '+') by decide, if_false]
    rw [List.takeWhile_cons_of_neg (by decide)]
    rfl
  simp only [iter, this]
  rfl

theorem text_ne (i : Item) (h : i.Ok) : i.text ≠ [] := by
  cases i with
  | one a => exact h.1
  | range a b => simp [Item.text]

theorem text_cons (i j : Item) (is : List Item) : text (i :: j :: is) = i.text ++ ',' :: text (j :: is) := rfl

theorem iter_text : ∀ (is : List Item), is ≠ [] → (∀ i ∈ is, i.Ok) → ∀ f, (text is).length < f →
    iter f (text is) = ((cpus is).map (fun n : Nat => (n : Int)), true) := by
  intro is
  induction is with
  | nil => intro h; exact absurd rfl h
  | cons i is ih =>
    intro _ h f hf
    obtain ⟨g, rfl⟩ : ∃ g, f = g + 1 := ⟨f - 1, by omega⟩
    have hi := h i (by simp)
    cases is with
    | nil =>
      have := iter_item i hi [] (Or.inl rfl) g
      rw [List.append_nil] at this
      simp only [text]
      rw [this]
      simp [cpus]
    | cons j is =>
      rw [text_cons] at hf ⊢
      rw [iter_item i hi _ (Or.inr ⟨_, rfl⟩) g, if_neg (by simp)]
      rw [List.length_append, List.length_cons] at hf
      have hl : 1 ≤ i.text.length := List.length_pos_of_ne_nil (text_ne i hi)
      obtain ⟨g', rfl⟩ : ∃ g', g = g' + 1 := ⟨g - 1, by omega⟩
      rw [iter_comma, ih (by simp) (fun x hx => h x (by simp [hx])) g' (by omega)]
      simp [cpus]

theorem nocomma (i : Item) (h : i.Ok) : ∀ c ∈ i.text, (c != ',') = true := by
  have num : ∀ a, Num a → ∀ c ∈ a, (c != ',') = true := fun a ha c hc => by
    simpa using (digit_plain c (ha.digits c hc)).2.2.2
  cases i with
  | one a => exact num a h
  | range a b =>
    intro c hc
    simp only [Item.text, List.mem_append, List.mem_cons] at hc
    rcases hc with hc | rfl | hc
    · exact num a h.1 c hc
    · decide
    · exact num b h.2.1 c hc

theorem widthPart_item (i : Item) (h : i.Ok) : widthPart i.text = i.cpus.length := by
  have nodash : ∀ a, Num a → ∀ c ∈ a, (c != '-') = true := fun a ha c hc => by
    simpa using (digit_plain c (ha.digits c hc)).2.1
  cases i with
  | one a =>
    have ha : Num a := h
    have : '-' ∉ a := fun hh => by have := nodash a ha _ hh; simp at this
    simp [widthPart, Item.text, this, Item.cpus]
  | range a b =>
    obtain ⟨ha, hb, hab⟩ := h
    have h1 := ha.2.2
    have h2 := hb.2.2
    have e : (Item.range a b).text = a ++ '-' :: b := rfl
    rw [e]
    unfold widthPart
    rw [if_pos (by simp), List.takeWhile_append_of_pos (nodash a ha), List.dropWhile_append_of_pos (nodash a ha),
      List.takeWhile_cons_of_neg (by decide), List.dropWhile_cons_of_neg (by decide), List.append_nil, List.tail_cons,
      readValue_num ha, readValue_num hb]
    simp only [Item.cpus, List.length_map, List.length_range]
    omega

theorem width_text : ∀ (is : List Item), is ≠ [] → (∀ i ∈ is, i.Ok) → ∀ f, (text is).length < f →
    width f (text is) = (cpus is).length % 2 ^ 32 := by
  intro is
  induction is with
  | nil => intro h; exact absurd rfl h
  | cons i is ih =>
    intro _ h f hf
    obtain ⟨g, rfl⟩ : ∃ g, f = g + 1 := ⟨f - 1, by omega⟩
    have hi := h i (by simp)
    have hc := nocomma i hi
    have hw := widthPart_item i hi
    cases is with
    | nil =>
      have hn : ',' ∉ i.text := fun hh => by have := hc _ hh; simp at this
      have hle : i.cpus.length < 2 ^ 32 := by
        cases i with
        | one a => simp [Item.cpus]
        | range a b => have := hi.2.1.2.2; simp only [Item.cpus, List.length_map, List.length_range]; omega
      simp only [text, width, hn, if_false, hw, cpus, List.flatMap_cons, List.flatMap_nil, List.append_nil]
      exact (Nat.mod_eq_of_lt hle).symm
    | cons j is =>
      rw [text_cons] at hf ⊢
      rw [List.length_append, List.length_cons] at hf
      simp only [width]
      rw [if_pos (by simp), List.takeWhile_append_of_pos hc, List.dropWhile_append_of_pos hc,
        List.takeWhile_cons_of_neg (by decide), List.dropWhile_cons_of_neg (by decide), List.append_nil, List.tail_cons,
        hw, ih (by simp) (fun x hx => h x (by simp [hx])) g (by omega)]
      simp only [cpus, List.flatMap_cons, List.length_append]
      omega

/-- A list of different numbers has only numbers below its length if and only if it has no gap. -/
theorem below_iff (l : List Nat) (h : l.Nodup) :
    (∀ i ∈ l, i < l.length) ↔ ∀ m ∈ l, ∀ k < m, k ∈ l := by
  have hcard : l.toFinset.card = l.length := List.toFinset_card_of_nodup h
  constructor
  · intro hb m hm k hk
    have hsub : l.toFinset ⊆ Finset.range l.length := fun x hx => by
      rw [Finset.mem_range]; exact hb x (List.mem_toFinset.1 hx)
    have heq := Finset.eq_of_subset_of_card_le hsub (by rw [Finset.card_range, hcard])
    have : k ∈ Finset.range l.length := by
      rw [Finset.mem_range]; have := hb m hm; omega
    rw [← heq] at this
    exact List.mem_toFinset.1 this
  · intro hc i hi
    have hsub : Finset.range (i + 1) ⊆ l.toFinset := fun x hx => by
      rw [Finset.mem_range] at hx
      rw [List.mem_toFinset]
      by_cases e : x = i
      · rw [e]; exact hi
      · exact hc i hi x (by omega)
    have := Finset.card_le_card hsub
    rw [Finset.card_range, hcard] at this
    omega

end Verif.CpuList
