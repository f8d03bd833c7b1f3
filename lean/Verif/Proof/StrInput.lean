import Verif.Spec.StrInput

/-!
# Reading strings: proofs
-/

namespace Verif.StrInput

theorem isSpace_iff (c : Char) : isSpace c = true ↔ White c := by
  simp [isSpace, White, or_assoc]

theorem isSpace_false (c : Char) : isSpace c = false ↔ ¬ White c := by
  rw [← isSpace_iff]; simp

theorem scanN_fit (p : Char → Bool) (l rest : List Char) (hl : ∀ c ∈ l, p c = true)
    (hr : Ends (fun c => p c = false) rest) : ∀ w, l.length < w →
    scanN p w (l ++ rest) = ⟨l, rest, rest.isEmpty⟩ := by
  induction l with
  | nil =>
    intro w hw
    obtain ⟨w, rfl⟩ : ∃ k, w = k + 1 := ⟨w - 1, by simp at hw; omega⟩
    rcases hr with rfl | ⟨c, s, rfl, hc⟩
    · rfl
    · simp [scanN, hc]
  | cons c l ih =>
    intro w hw
    obtain ⟨w, rfl⟩ : ∃ k, w = k + 1 := ⟨w - 1, by simp at hw; omega⟩
    simp only [List.length_cons] at hw
    simp only [List.cons_append, scanN, hl c (by simp), if_true]
    rw [ih (fun x hx => hl x (by simp [hx])) w (by omega)]

theorem scanN_full (p : Char → Bool) (l rest : List Char) (hl : ∀ c ∈ l, p c = true) :
    ∀ w, w ≤ l.length → scanN p w (l ++ rest) = ⟨l.take w, l.drop w ++ rest, false⟩ := by
  induction l with
  | nil => intro w hw; simp at hw; subst hw; rfl
  | cons c l ih =>
    intro w hw
    cases w with
    | zero => rfl
    | succ w =>
      simp only [List.length_cons] at hw
      simp only [List.cons_append, scanN, hl c (by simp), if_true]
      rw [ih (fun x hx => hl x (by simp [hx])) w (by omega)]
      rfl

theorem scan_none (p : Char → Bool) (l rest : List Char) (hl : ∀ c ∈ l, p c = true)
    (hr : Ends (fun c => p c = false) rest) : scan p none (l ++ rest) = ⟨l, rest, rest.isEmpty⟩ :=
  scanN_fit p l rest hl hr _ (by simp; omega)

theorem scanN_le (p : Char → Bool) : ∀ w s, (scanN p w s).read.length ≤ w := by
  intro w
  induction w with
  | zero => intro s; simp [scanN]
  | succ w ih =>
    intro s
    cases s with
    | nil => simp [scanN]
    | cons c s =>
      unfold scanN
      split
      · simpa using ih s
      · simp

theorem store_append (mem x : List Char) : store mem (x ++ ['\x00']) =
    x ++ '\x00' :: mem.drop (x.length + 1) := by
  simp [store]

/-! ## Bounds -/

theorem store_bounds {mem x : List Char} {n : Nat} (hx : x.length ≤ n) (hn : n ≤ mem.length) :
    (store mem x).length = mem.length ∧ (store mem x).drop n = mem.drop n := by
  constructor
  · simp [store]; omega
  · unfold store
    rw [List.drop_append, List.drop_of_length_le hx, List.drop_drop]
    simp only [List.nil_append]
    congr 1
    omega

/-- What the memory can be after reading. -/
def Wrote (n : Nat) (ignore : Bool) (mem mem' : List Char) : Prop :=
  mem' = mem ∨ (ignore = false ∧ ∃ x, x.length ≤ n ∧ mem' = store mem x)

theorem wrote_if {n : Nat} {ig : Bool} {mem x : List Char} (hx : x.length ≤ n) :
    Wrote n ig mem (if ig = true then mem else store mem x) := by
  cases ig
  · exact Or.inr ⟨rfl, x, hx, rfl⟩
  · exact Or.inl rfl

theorem finish_mem (a : Int) (m i : List Char) (e : Bool) : (finish a m i e).mem = m := rfl

theorem readStr_wrote (f : Fmt) (n : Nat) (mem : List Char) (st : In)
    (hw : ∀ w, f.wd = some w → (if f.rwd = true then w else w - 1) + 1 ≤ n)
    (hi : f.wd = none → f.ignore = true) : Wrote n f.ignore mem (readStr f mem st).mem := by
  have key : ∀ p s, Wrote n f.ignore mem (if f.ignore = true then mem else
      store mem ((scan p (f.wd.map fun w => if f.rwd then w else w - 1) s).read ++ ['\x00'])) := by
    intro p s
    cases h : f.wd with
    | none => rw [hi h]; exact Or.inl rfl
    | some w =>
      apply wrote_if
      have := scanN_le p (if f.rwd = true then w else w - 1) s
      have := hw w h
      simp only [scan, Option.map_some, Option.getD_some, List.length_append, List.length_singleton]
      omega
  have key' : ∀ p s, Wrote n f.ignore mem (if f.ignore = true then mem else
      store mem (scan p (f.wd.map fun w => if f.rwd then w else w - 1) s).read) := by
    intro p s
    cases h : f.wd with
    | none => rw [hi h]; exact Or.inl rfl
    | some w =>
      apply wrote_if
      have := scanN_le p (if f.rwd = true then w else w - 1) s
      have := hw w h
      simp only [scan, Option.map_some, Option.getD_some]
      omega
  unfold readStr
  split
  · exact Or.inl rfl
  · cases f.kind with
    | word =>
      simp only
      generalize Option.map (fun w => if f.rwd = true then w else w - 1) f.wd = rwd at key key' ⊢
      split
      · exact Or.inl rfl
      · split
        · split
          · exact key _ _
          · split <;> exact key _ _
        · exact key _ _
    | line d =>
      simp only
      generalize Option.map (fun w => if f.rwd = true then w else w - 1) f.wd = rwd at key key' ⊢
      split
      · exact Or.inl rfl
      · split
        · split
          · exact key _ _
          · split <;> exact key _ _
        · exact key _ _
    | chr =>
      simp only
      generalize Option.map (fun w => if f.rwd = true then w else w - 1) f.wd = rwd at key key' ⊢
      split
      · exact Or.inl rfl
      · exact key' _ _
    | set inex set =>
      simp only
      generalize Option.map (fun w => if f.rwd = true then w else w - 1) f.wd = rwd at key key' ⊢
      split
      · exact Or.inl rfl
      · split
        · split
          · exact key _ _
          · split <;> exact key _ _
        · exact key _ _

/-! ## Enumerators -/

theorem prefix_snoc {u l : List Char} {ch : Char} :
    u ++ [ch] <+: l ↔ u <+: l ∧ l[u.length]? = some ch := by
  constructor
  · rintro ⟨t, rfl⟩
    exact ⟨⟨ch :: t, by simp⟩, by simp⟩
  · rintro ⟨⟨t, rfl⟩, h⟩
    simp only [Nat.le_refl, List.getElem?_append_right, Nat.sub_self] at h
    cases t with
    | nil => cases h
    | cons a t => simp at h; subst h; exact ⟨t, by simp⟩

/-- The lengths at the start of a column. -/
def lensAt (labels : List (List Char)) (u : List Char) (r : Nat) : Nat :=
  if u <+: labels.getD r [] then (labels.getD r []).length else 0

/-- The exact match at the start of a column. -/
structure ExactAt (labels : List (List Char)) (u : List Char) (x : Option Nat) : Prop where
  some : ∀ r, x = some r → r < labels.length ∧ labels.getD r [] = u
  none : x = none → ∀ r, r < labels.length → labels.getD r [] ≠ u

/-- Part of a column is done. -/
structure ColInv (labels : List (List Char)) (u : List Char) (ch : Char) (x0 : Option Nat) (k : Nat)
    (x : Col) : Prop where
  done : ∀ r, r < k → x.lens r = lensAt labels (u ++ [ch]) r
  todo : ∀ r, k ≤ r → x.lens r = lensAt labels u r
  found : x.found = true ↔ ∃ r, r < k ∧ u ++ [ch] <+: labels.getD r []
  exact : (∃ r, r < k ∧ labels.getD r [] = u ++ [ch] ∧ x.exact = some r) ∨
    ((∀ r, r < k → labels.getD r [] ≠ u ++ [ch]) ∧ x.found = true ∧ x.exact = none) ∨
    (x.found = false ∧ x.exact = x0)

theorem nodup_getD {labels : List (List Char)} (h : labels.Nodup) {i j : Nat} (hi : i < labels.length)
    (hj : j < labels.length) (e : labels.getD i [] = labels.getD j []) : i = j := by
  simp only [List.getD_eq_getElem?_getD, List.getElem?_eq_getElem hi, List.getElem?_eq_getElem hj,
    Option.getD_some] at e
  have hp := List.pairwise_iff_getElem.1 h
  rcases Nat.lt_trichotomy i j with hij | hij | hij
  · exact absurd e (hp i j hi hj hij)
  · exact hij
  · exact absurd e.symm (hp j i hj hi hij)

theorem colStep_inv {labels : List (List Char)} (hN : labels.Nodup) {u : List Char} {ch : Char}
    {x0 : Option Nat} (h0 : ExactAt labels u x0) {k : Nat} (hk : k < labels.length) {x : Col}
    (h : ColInv labels u ch x0 k x) : ColInv labels u ch x0 (k + 1) (colStep labels u.length ch x k) := by
  have hlk : x.lens k = lensAt labels u k := h.todo k (Nat.le_refl _)
  have hcond : (x.lens k > u.length ∧ (labels.getD k [])[u.length]? = some ch) ↔
      u ++ [ch] <+: labels.getD k [] := by
    rw [hlk, prefix_snoc]
    unfold lensAt
    constructor
    · rintro ⟨h1, h2⟩
      split at h1
      · exact ⟨by assumption, h2⟩
      · omega
    · rintro ⟨h1, h2⟩
      rw [if_pos h1]
      exact ⟨(List.getElem?_eq_some_iff.1 h2).1, h2⟩
  unfold colStep
  by_cases hp : u ++ [ch] <+: labels.getD k []
  · rw [if_pos (hcond.2 hp)]
    have hlen : x.lens k = (labels.getD k []).length := by
      rw [hlk]; unfold lensAt; rw [if_pos (prefix_snoc.1 hp).1]
    have hge := hp.length_le
    simp only [List.length_append, List.length_singleton] at hge
    refine ⟨?_, ?_, ?_, ?_⟩
    · intro r hr
      simp only
      by_cases hrk : r = k
      · subst hrk; rw [hlen]; unfold lensAt; rw [if_pos hp]
      · exact h.done r (by omega)
    · intro r hr; exact h.todo r (by omega)
    · simp only [true_iff]; exact ⟨k, by omega, hp⟩
    · simp only
      by_cases he : x.lens k - 1 = u.length
      · rw [if_pos he]
        refine Or.inl ⟨k, by omega, ?_, rfl⟩
        exact (hp.eq_of_length (by
          rw [List.length_append, List.length_singleton]; omega)).symm
      · rw [if_neg he]
        have hne : labels.getD k [] ≠ u ++ [ch] := by
          intro e
          rw [hlen, e] at he
          simp at he
        rcases h.exact with ⟨r, hr, e1, e2⟩ | ⟨e1, e2, e3⟩ | ⟨e1, e2⟩
        · refine Or.inl ⟨r, by omega, e1, ?_⟩
          rw [e2]
          simp only
          rw [if_neg]
          rw [h.done r hr]
          unfold lensAt
          rw [e1, if_pos (List.prefix_refl _)]
          simp
        · refine Or.inr (Or.inl ⟨?_, trivial, ?_⟩)
          · intro r hr
            by_cases hrk : r = k
            · subst hrk; exact hne
            · exact e1 r (by omega)
          · rw [e3]
        · refine Or.inr (Or.inl ⟨?_, trivial, ?_⟩)
          · intro r hr e
            by_cases hrk : r = k
            · subst hrk; exact hne e
            · have : x.found = true := h.found.2 ⟨r, by omega, by rw [e]; exact List.prefix_refl _⟩
              rw [e1] at this
              cases this
          · rw [e2]
            cases hx : x0 with
            | none => rfl
            | some e =>
              obtain ⟨_, h2⟩ := h0.some e hx
              simp only
              rw [if_pos]
              by_cases hek : e < k
              · rw [h.done e hek]
                unfold lensAt
                rw [h2, if_neg]
                · omega
                · intro hh; have := hh.length_le; rw [List.length_append, List.length_singleton] at this; omega
              · rw [h.todo e (by omega)]
                unfold lensAt
                rw [h2, if_pos (List.prefix_refl _)]
                exact Nat.le_refl _
  · rw [if_neg (fun hh => hp (hcond.1 hh))]
    refine ⟨?_, ?_, ?_, ?_⟩
    · intro r hr
      simp only
      by_cases hrk : r = k
      · subst hrk; rw [if_pos rfl]; unfold lensAt; rw [if_neg hp]
      · rw [if_neg hrk]; exact h.done r (by omega)
    · intro r hr
      simp only
      rw [if_neg (by omega)]
      exact h.todo r (by omega)
    · simp only
      rw [h.found]
      constructor
      · rintro ⟨r, hr, e⟩; exact ⟨r, by omega, e⟩
      · rintro ⟨r, hr, e⟩
        by_cases hrk : r = k
        · subst hrk; exact absurd e hp
        · exact ⟨r, by omega, e⟩
    · simp only
      rcases h.exact with ⟨r, hr, e1, e2⟩ | ⟨e1, e2, e3⟩ | e
      · exact Or.inl ⟨r, by omega, e1, e2⟩
      · refine Or.inr (Or.inl ⟨?_, e2, e3⟩)
        intro r hr
        by_cases hrk : r = k
        · subst hrk; intro e; exact hp (by rw [e]; exact List.prefix_refl _)
        · exact e1 r (by omega)
      · exact Or.inr (Or.inr e)

/-- A column. -/
theorem col_inv {labels : List (List Char)} (hN : labels.Nodup) {u : List Char} {ch : Char}
    {x0 : Option Nat} (h0 : ExactAt labels u x0) {lens : Nat → Nat}
    (hl : ∀ r, lens r = lensAt labels u r) : ∀ k, k ≤ labels.length →
    ColInv labels u ch x0 k ((List.range k).foldl (colStep labels u.length ch) ⟨lens, x0, false⟩) := by
  intro k
  induction k with
  | zero =>
    intro _
    exact ⟨fun r hr => absurd hr (Nat.not_lt_zero r), fun r _ => hl r, by simp,
      Or.inr (Or.inr ⟨rfl, rfl⟩)⟩
  | succ k ih =>
    intro hk
    rw [List.range_succ, List.foldl_append]
    exact colStep_inv hN h0 (by omega) (ih (by omega))

theorem lensAt_out {labels : List (List Char)} {u : List Char} {r : Nat} (h : labels.length ≤ r) :
    lensAt labels u r = 0 := by
  unfold lensAt
  rw [List.getD_eq_getElem?_getD, List.getElem?_eq_none h]
  split <;> rfl

/-- A column in which something matches. -/
theorem col_found {labels : List (List Char)} (hN : labels.Nodup) {u : List Char} {ch : Char}
    {x0 : Option Nat} (h0 : ExactAt labels u x0) {lens : Nat → Nat}
    (hl : ∀ r, lens r = lensAt labels u r) {i : Nat} (hi : i < labels.length)
    (hp : u ++ [ch] <+: labels.getD i []) :
    let x := (List.range labels.length).foldl (colStep labels u.length ch) ⟨lens, x0, false⟩
    x.found = true ∧ (∀ r, x.lens r = lensAt labels (u ++ [ch]) r) ∧
      ExactAt labels (u ++ [ch]) x.exact := by
  have h := col_inv (ch := ch) hN h0 hl labels.length (Nat.le_refl _)
  simp only
  generalize (List.range labels.length).foldl (colStep labels u.length ch) ⟨lens, x0, false⟩ = x at *
  have hf := h.found.2 ⟨i, hi, hp⟩
  refine ⟨hf, ?_, ?_⟩
  · intro r
    by_cases hr : r < labels.length
    · exact h.done r hr
    · rw [h.todo r (by omega), lensAt_out (by omega), lensAt_out (by omega)]
  · rcases h.exact with ⟨r, hr, e1, e2⟩ | ⟨e1, e2, e3⟩ | ⟨e1, e2⟩
    · rw [e2]
      exact ⟨fun r' h' => by cases h'; exact ⟨hr, e1⟩, fun h' => by cases h'⟩
    · rw [e3]
      exact ⟨fun r' h' => (by cases h'), fun _ => e1⟩
    · rw [hf] at e1; cases e1

/-- A column in which nothing matches. -/
theorem col_not {labels : List (List Char)} (hN : labels.Nodup) {u : List Char} {ch : Char}
    {x0 : Option Nat} (h0 : ExactAt labels u x0) {lens : Nat → Nat}
    (hl : ∀ r, lens r = lensAt labels u r) (hp : ∀ l ∈ labels, ¬ u ++ [ch] <+: l) :
    let x := (List.range labels.length).foldl (colStep labels u.length ch) ⟨lens, x0, false⟩
    x.found = false ∧ x.exact = x0 := by
  have h := col_inv (ch := ch) hN h0 hl labels.length (Nat.le_refl _)
  simp only
  generalize (List.range labels.length).foldl (colStep labels u.length ch) ⟨lens, x0, false⟩ = x at *
  have hm : ∀ r, r < labels.length → labels.getD r [] ∈ labels := by
    intro r hr
    rw [List.getD_eq_getElem?_getD, List.getElem?_eq_getElem hr]
    exact List.getElem_mem hr
  have hf : x.found = false := by
    cases hx : x.found with
    | false => rfl
    | true =>
      obtain ⟨r, hr, e⟩ := h.found.1 hx
      exact absurd e (hp _ (hm r hr))
  refine ⟨hf, ?_⟩
  rcases h.exact with ⟨r, hr, e1, e2⟩ | ⟨e1, e2, e3⟩ | ⟨e1, e2⟩
  · exact absurd (by rw [e1]; exact List.prefix_refl _) (hp _ (hm r hr))
  · rw [hf] at e2; cases e2
  · exact e2

theorem maxLen_ge (labels : List (List Char)) : ∀ l ∈ labels, l.length ≤ maxLen labels := by
  have : ∀ (ls : List (List Char)) m, m ≤ ls.foldl (fun m l => max m l.length) m ∧
      ∀ l ∈ ls, l.length ≤ ls.foldl (fun m l => max m l.length) m := by
    intro ls
    induction ls with
    | nil => intro m; simp
    | cons a ls ih =>
      intro m
      obtain ⟨h1, h2⟩ := ih (max m a.length)
      refine ⟨Nat.le_trans (Nat.le_max_left _ _) h1, ?_⟩
      intro l hl
      rcases List.mem_cons.1 hl with rfl | hl
      · exact Nat.le_trans (Nat.le_max_right _ _) h1
      · exact h2 l hl
  exact (this labels 0).2

/-- What is left after a label. -/
def leftAfter (labels : List (List Char)) (w tail : List Char) : List Char :=
  if w.length < maxLen labels then
    match tail with
    | [] => []
    | c :: s => if isSpace c then s else c :: s
  else tail

theorem enumLoop_label {labels : List (List Char)} (hL : Labels labels) {i : Nat}
    (hi : i < labels.length) (tail : List Char)
    (ht : Ends (fun c => White c ∨ ∀ l ∈ labels, ¬ labels.getD i [] ++ [c] <+: l) tail) :
    ∀ (v u : List Char) (k : Nat) (lens : Nat → Nat) (x : Option Nat), u ++ v = labels.getD i [] →
    u.length + k = maxLen labels → (∀ r, lens r = lensAt labels u r) → ExactAt labels u x →
    (enumLoop labels k u.length lens x (v ++ tail)).val = .ok i ∧
    (enumLoop labels k u.length lens x (v ++ tail)).st.inp =
      leftAfter labels (labels.getD i []) tail := by
  have hmem : labels.getD i [] ∈ labels := by
    rw [List.getD_eq_getElem?_getD, List.getElem?_eq_getElem hi]
    exact List.getElem_mem hi
  intro v
  induction v with
  | nil =>
    intro u k lens x hu hk hl hx
    rw [List.append_nil] at hu
    have hxi : x = some i := by
      cases hx' : x with
      | none => exact absurd hu.symm (hx.none hx' i hi)
      | some r =>
        obtain ⟨h1, h2⟩ := hx.some r hx'
        rw [nodup_getD hL.1 h1 hi (by rw [h2, hu])]
    subst hxi
    rw [List.nil_append]
    cases k with
    | zero =>
      simp only [enumLoop, leftAfter, ← hu]
      rw [if_neg (by omega)]
      constructor <;> first | trivial | rfl
    | succ k =>
      unfold leftAfter
      rw [← hu, if_pos (by omega)]
      cases tail with
      | nil => constructor <;> first | trivial | rfl
      | cons c s =>
        simp only [enumLoop]
        by_cases hc : isSpace c = true
        · rw [if_pos hc, if_pos hc]; constructor <;> first | trivial | rfl
        · rw [if_neg hc, if_neg hc]
          rcases ht with ht | ⟨c', s', e, ht⟩
          · cases ht
          · cases e
            rcases ht with ht | ht
            · exact absurd ((isSpace_iff c).2 ht) hc
            · rw [← hu] at ht
              obtain ⟨h1, h2⟩ := col_not hL.1 hx hl ht
              simp only [h1, h2, Bool.false_eq_true, if_false]
              constructor <;> first | trivial | rfl
  | cons c v ih =>
    intro u k lens x hu hk hl hx
    have hlen := maxLen_ge labels _ hmem
    rw [← hu] at hlen
    simp only [List.length_append, List.length_cons] at hlen
    obtain ⟨k, rfl⟩ : ∃ j, k = j + 1 := ⟨k - 1, by omega⟩
    have hu' : (u ++ [c]) ++ v = labels.getD i [] := by rw [← hu]; simp
    have hc : isSpace c = false := (isSpace_false c).2 ((hL.2 _ hmem).2 c (by rw [← hu]; simp))
    obtain ⟨h1, h2, h3⟩ := col_found (ch := c) hL.1 hx hl hi ⟨v, hu'⟩
    rw [List.cons_append]
    simp only [enumLoop, hc, Bool.false_eq_true, if_false, h1, if_true]
    have := ih (u ++ [c]) k _ _ hu' (by simp; omega) h2 h3
    simpa using this

theorem enumLoop_sound {labels : List (List Char)} (hL : Labels labels) :
    ∀ (k : Nat) (u s : List Char) (lens : Nat → Nat) (x : Option Nat),
    (∀ r, lens r = lensAt labels u r) → ExactAt labels u x → ∀ i,
    (enumLoop labels k u.length lens x s).val = .ok i →
    i < labels.length ∧ labels.getD i [] <+: u ++ s := by
  intro k
  have fin : ∀ (u s : List Char) (x : Option Nat), ExactAt labels u x → ∀ i, x = some i →
      i < labels.length ∧ labels.getD i [] <+: u ++ s := by
    intro u s x hx i h
    obtain ⟨h1, h2⟩ := hx.some i h
    exact ⟨h1, by rw [h2]; exact ⟨s, rfl⟩⟩
  induction k with
  | zero =>
    intro u s lens x hl hx i h
    unfold enumLoop at h
    cases hx' : x with
    | none => rw [hx'] at h; cases h
    | some r => rw [hx'] at h; cases h; exact fin u s x hx i hx'
  | succ k ih =>
    intro u s lens x hl hx i h
    cases s with
    | nil =>
      unfold enumLoop at h
      cases hx' : x with
      | none => rw [hx'] at h; cases h
      | some r => rw [hx'] at h; cases h; exact fin u _ x hx i hx'
    | cons c s =>
      unfold enumLoop at h
      by_cases hc : isSpace c = true
      · rw [if_pos hc] at h
        cases hx' : x with
        | none => rw [hx'] at h; cases h
        | some r => rw [hx'] at h; cases h; exact fin u _ x hx i hx'
      · rw [if_neg hc] at h
        by_cases hp : ∃ i, i < labels.length ∧ u ++ [c] <+: labels.getD i []
        · obtain ⟨j, hj, hp⟩ := hp
          obtain ⟨h1, h2, h3⟩ := col_found (ch := c) hL.1 hx hl hj hp
          simp only [h1, if_true] at h
          have := ih (u ++ [c]) s _ _ h2 h3 i (by simpa using h)
          simpa using this
        · have hp' : ∀ l ∈ labels, ¬ u ++ [c] <+: l := by
            intro l hm hh
            obtain ⟨j, hj, rfl⟩ := List.getElem_of_mem hm
            exact hp ⟨j, hj, by
              rw [List.getD_eq_getElem?_getD, List.getElem?_eq_getElem hj]; exact hh⟩
          obtain ⟨h1, h2⟩ := col_not (ch := c) hL.1 hx hl hp'
          simp only [h1, h2, Bool.false_eq_true, if_false] at h
          cases hx' : x with
          | none => rw [hx'] at h; cases h
          | some r => rw [hx'] at h; cases h; exact fin u _ x hx i hx'

theorem lens_init (labels : List (List Char)) (r : Nat) :
    (labels.getD r []).length = lensAt labels [] r := by
  unfold lensAt
  rw [if_pos List.nil_prefix]

theorem exact_init {labels : List (List Char)} (hL : Labels labels) : ExactAt labels [] none := by
  refine ⟨fun r h => (by cases h), fun _ r hr e => ?_⟩
  rw [List.getD_eq_getElem?_getD, List.getElem?_eq_getElem hr] at e
  exact (hL.2 _ (List.getElem_mem hr)).1 e

end Verif.StrInput
