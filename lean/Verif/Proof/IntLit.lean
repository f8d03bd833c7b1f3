import Verif.Spec.IntLit
/-! Proofs for C98. -/
namespace Verif.IntLit
open Verif.Arith (Kind rangeOf toInt)

/-! ### Characters -/

theorem digitVal_of {ch : Char} {d : Nat} (h : digitOf ch = some d) : digitVal ch = d ∧ d < 16 := by
  unfold digitOf at h
  split at h <;> first | (simp only [Option.some.injEq] at h; subst h; decide) | simp at h

/-- Not a letter of a suffix. -/
def notSuf (ch : Char) : Bool := ! ("uUlLpPzZhHnN".toList.contains ch)

theorem notSuf_digit {ch : Char} {d : Nat} (h : digitOf ch = some d) : notSuf ch = true ∧ ch ≠ 'x' ∧ ch ≠ 'X' := by
  unfold digitOf at h
  split at h <;> first | decide | simp at h

theorem not_b {ch : Char} {d : Nat} (h : digitOf ch = some d) (hd : d < 10) : ch ≠ 'b' ∧ ch ≠ 'B' := by
  constructor <;> intro e <;> subst e <;> simp [digitOf] at h <;> omega

theorem zero_of {ch : Char} (h : digitOf ch = some 0) : ch = '0' := by
  unfold digitOf at h
  split at h <;> simp_all

/-! ### The suffix -/

theorem at_append (b s : Str) (i : Nat) : at' (b ++ s) (b.length + i) = at' s i := by
  rw [at', at', List.getD_eq_getElem?_getD, List.getD_eq_getElem?_getD, List.getElem?_append_right (by omega), Nat.add_sub_cancel_left]

theorem findLastOf_append {p : Char → Bool} {b : Str} (h : ∀ c ∈ b, p c = false) (s : Str) : findLastOf p (b ++ s) = (findLastOf p s).map (b.length + ·) := by
  induction b with
  | nil => cases h : findLastOf p s <;> simp [h]
  | cons c b ih =>
    have := ih fun c hc => h c (List.mem_cons_of_mem _ hc)
    have hc := h c (List.mem_cons_self ..)
    rw [List.cons_append, findLastOf, this]
    cases hs : findLastOf p s with
    | none => simp [hc]
    | some i => simp; omega

theorem rfind2_append {a : Char} {b : Str} (h : ∀ c ∈ b, c ≠ a) (s : Str) : rfind2 a (b ++ s) = (rfind2 a s).map (b.length + ·) := by
  induction b with
  | nil => cases h : rfind2 a s <;> simp [h]
  | cons c b ih =>
    have := ih fun c hc => h c (List.mem_cons_of_mem _ hc)
    have hc := h c (List.mem_cons_self ..)
    rw [List.cons_append, rfind2, this]
    cases hs : rfind2 a s with
    | none => simp [hc]
    | some i => simp; omega

theorem erase_append (b s : Str) (i n : Nat) : erase (b ++ s) (b.length + i) n = b ++ erase s i n := by
  unfold erase
  rw [List.take_length_add_append, Nat.add_assoc, List.drop_length_add_append, List.append_assoc]

theorem last_append (b : Str) {s : Str} (h : s ≠ []) : at' (b ++ s) ((b ++ s).length - 1) = at' s (s.length - 1) := by
  have : 0 < s.length := List.length_pos_iff.2 h
  rw [List.length_append, show b.length + s.length - 1 = b.length + (s.length - 1) by omega, at_append]

/-- Keep what precedes a suffix. -/
def pre (b : Str) (x : Suf) : Suf := { x with str := b ++ x.str }

theorem at_last_ne {b : Str} {a : Char} (h : ∀ c ∈ b, c ≠ a) (ha : a ≠ '\x00') : at' b (b.length - 1) ≠ a := by
  unfold at'
  rw [List.getD_eq_getElem?_getD]
  cases hg : b[b.length - 1]? with
  | none => simpa using fun e => ha e.symm
  | some c => exact h c (List.mem_of_getElem? hg)

theorem lnthSuffix_append {b s : Str} (hb : ∀ c ∈ b, notSuf c = true) (hs : s ≠ []) (t l : Int) :
    lnthSuffix (b ++ s) t l = (b ++ (lnthSuffix s t l).1, (lnthSuffix s t l).2) := by
  have hl : ∀ c ∈ b, (c == 'l' || c == 'L') = false := fun c hc => by
    have := hb c hc; simp [notSuf] at this; simp [this]
  have hu : ∀ c ∈ b, c ≠ 'u' := fun c hc e => by have := hb c hc; subst e; simp [notSuf] at this
  have hU : ∀ c ∈ b, c ≠ 'U' := fun c hc e => by have := hb c hc; subst e; simp [notSuf] at this
  have hpos : 0 < s.length := List.length_pos_iff.2 hs
  unfold lnthSuffix
  rw [findLastOf_append hl]
  cases hf : findLastOf (fun c => c == 'l' || c == 'L') s with
  | none => rfl
  | some i =>
    simp only [Option.map_some]
    rw [last_append b hs, Nat.add_assoc, at_append, Nat.add_assoc, at_append, List.take_length_add_append]
    by_cases hi : i = s.length - 1
    · rw [if_pos (by simp; omega), if_pos hi]
    · rw [if_neg (by simp; omega), if_neg hi]
      simp only [Nat.add_assoc]
      generalize (if at' s (i + 1) = '3' then ((2, 2) : Int × Int) else _) = tl
      by_cases h5 : tl.1 = 5
      · rw [if_pos h5, if_pos h5]
        by_cases hn : s.take i = []
        · rw [hn, List.append_nil, if_neg (by
            rintro (e | e)
            · exact at_last_ne hu (by decide) e
            · exact at_last_ne hU (by decide) e), if_neg (by decide), List.append_nil]
        · rw [last_append b hn]
          have : 0 < (s.take i).length := List.length_pos_iff.2 hn
          by_cases hc : at' (s.take i) ((s.take i).length - 1) = 'u' ∨ at' (s.take i) ((s.take i).length - 1) = 'U'
          · rw [if_pos hc, if_pos hc, List.length_append, show b.length + (s.take i).length - 1 = b.length + ((s.take i).length - 1) by omega, List.take_length_add_append]
          · rw [if_neg hc, if_neg hc]
      · rw [if_neg h5, if_neg h5, List.append_assoc]

theorem suffix_append {b s : Str} (hb : ∀ c ∈ b, notSuf c = true) (hs : s ≠ []) : suffix (b ++ s) = pre b (suffix s) := by
  have ne : ∀ a : Char, notSuf a = false → ∀ c ∈ b, c ≠ a := fun a ha c hc e => by have := hb c hc; subst e; simp_all
  have two : ∀ a a' : Char, notSuf a = false → notSuf a' = false → ∀ c ∈ b, (c == a || c == a') = false := fun a a' h h' c hc => by
    simp [ne a h c hc, ne a' h' c hc]
  unfold suffix
  rw [last_append b hs, lnthSuffix_append hb hs, findLastOf_append (two 'u' 'U' (by decide) (by decide)), findLastOf_append (two 'p' 'P' (by decide) (by decide)),
    findLastOf_append (two 'z' 'Z' (by decide) (by decide)), findLastOf_append (two 'h' 'H' (by decide) (by decide)), findLastOf_append (two 'n' 'N' (by decide) (by decide)),
    rfind2_append (ne 'h' (by decide)), rfind2_append (ne 'H' (by decide)), rfind2_append (ne 'l' (by decide)), rfind2_append (ne 'L' (by decide))]
  simp only [Option.isSome_map]
  by_cases hd : (at' s (s.length - 1)).isDigit = true
  · rw [if_pos hd, if_pos hd]; rfl
  · rw [if_neg hd, if_neg hd]
    cases h1 : findLastOf (fun c => c == 'p' || c == 'P') s with
    | some i => simp only [Option.map_some, erase_append]; rfl
    | none =>
    cases h2 : findLastOf (fun c => c == 'z' || c == 'Z') s with
    | some i => simp only [Option.map_some, Option.map_none, erase_append]; rfl
    | none =>
    cases h3 : rfind2 'h' s with
    | some i => simp only [Option.map_some, Option.map_none, erase_append]; rfl
    | none =>
    cases h4 : rfind2 'H' s with
    | some i => simp only [Option.map_some, Option.map_none, erase_append]; rfl
    | none =>
    cases h5 : findLastOf (fun c => c == 'h' || c == 'H') s with
    | some i => simp only [Option.map_some, Option.map_none, erase_append]; rfl
    | none =>
    cases h6 : findLastOf (fun c => c == 'n' || c == 'N') s with
    | some i => simp only [Option.map_some, Option.map_none, erase_append]; rfl
    | none =>
      simp only [Option.map_none]
      by_cases h7 : ((rfind2 'l' s).isSome || (rfind2 'L' s).isSome) = true
      · rw [if_pos h7, if_pos h7]; rfl
      · rw [if_neg h7, if_neg h7]; rfl

theorem findLastOf_none {p : Char → Bool} {b : Str} (h : ∀ c ∈ b, p c = false) : findLastOf p b = none := by
  have := findLastOf_append h []
  simpa [findLastOf] using this

theorem rfind2_none {a : Char} {b : Str} (h : ∀ c ∈ b, c ≠ a) : rfind2 a b = none := by
  have := rfind2_append h []
  simpa [rfind2] using this

theorem suffix_nil {b : Str} (hb : ∀ c ∈ b, notSuf c = true) : suffix b = ⟨b, false, -1, -1⟩ := by
  have ne : ∀ a : Char, notSuf a = false → ∀ c ∈ b, c ≠ a := fun a ha c hc e => by have := hb c hc; subst e; simp_all
  have two : ∀ a a' : Char, notSuf a = false → notSuf a' = false → ∀ c ∈ b, (c == a || c == a') = false := fun a a' h h' c hc => by
    simp [ne a h c hc, ne a' h' c hc]
  unfold suffix lnthSuffix
  rw [findLastOf_none (two 'u' 'U' (by decide) (by decide)), findLastOf_none (two 'p' 'P' (by decide) (by decide)), findLastOf_none (two 'l' 'L' (by decide) (by decide)),
    findLastOf_none (two 'z' 'Z' (by decide) (by decide)), findLastOf_none (two 'h' 'H' (by decide) (by decide)), findLastOf_none (two 'n' 'N' (by decide) (by decide)),
    rfind2_none (ne 'h' (by decide)), rfind2_none (ne 'H' (by decide)), rfind2_none (ne 'l' (by decide)), rfind2_none (ne 'L' (by decide))]
  simp

/-! ### Numbers -/

/-- Every character is a digit below `r`. -/
def Digs (r : Nat) (ds : Str) : Prop := ∀ ch ∈ ds, ∃ d, digitOf ch = some d ∧ d < r

/-- What may follow the digits: nothing, or a letter of a suffix C knows. -/
def Tail (t : Str) : Prop := ∀ ch ∈ t.head?, ch = 'u' ∨ ch = 'U' ∨ ch = 'l' ∨ ch = 'L'

def numFrom (r acc : Nat) (ds : Str) : Nat := ds.foldl (fun n ch => n * r + (digitOf ch).getD 0) acc

theorem numFrom_eq (r acc : Nat) (ds : Str) : numFrom r acc ds = acc * r ^ ds.length + number r ds := by
  induction ds generalizing acc with
  | nil => simp [numFrom, number]
  | cons c ds ih =>
    show numFrom r (acc * r + (digitOf c).getD 0) ds = acc * r ^ (ds.length + 1) + numFrom r (0 * r + (digitOf c).getD 0) ds
    rw [ih, ih (0 * r + _), Nat.pow_succ, Nat.zero_mul, Nat.zero_add, Nat.add_mul, Nat.mul_assoc, Nat.mul_comm r, Nat.add_assoc]

theorem number_cons (r : Nat) (c : Char) (ds : Str) : number r (c :: ds) = (digitOf c).getD 0 * r ^ ds.length + number r ds := by
  show numFrom r (0 * r + (digitOf c).getD 0) ds = _
  rw [numFrom_eq, Nat.zero_mul, Nat.zero_add]

theorem number_append (r : Nat) (a b : Str) : number r (a ++ b) = number r a * r ^ b.length + number r b := by
  show numFrom r 0 (a ++ b) = _
  rw [numFrom, List.foldl_append]
  exact numFrom_eq r (number r a) b

theorem Digs.tail {r : Nat} {c : Char} {ds : Str} (h : Digs r (c :: ds)) : Digs r ds := fun ch hc => h ch (List.mem_cons_of_mem _ hc)
theorem Digs.head {r : Nat} {c : Char} {ds : Str} (h : Digs r (c :: ds)) : ∃ d, digitOf c = some d ∧ d < r := h c (List.mem_cons_self ..)
theorem Digs.take {r : Nat} {ds : Str} (h : Digs r ds) (n : Nat) : Digs r (ds.take n) := fun ch hc => h ch (List.mem_of_mem_take hc)
theorem Digs.drop {r : Nat} {ds : Str} (h : Digs r ds) (n : Nat) : Digs r (ds.drop n) := fun ch hc => h ch (List.mem_of_mem_drop hc)
theorem Digs.left {r : Nat} {a b : Str} (h : Digs r (a ++ b)) : Digs r a := fun ch hc => h ch (List.mem_append_left _ hc)
theorem Digs.right {r : Nat} {a b : Str} (h : Digs r (a ++ b)) : Digs r b := fun ch hc => h ch (List.mem_append_right _ hc)

theorem number_lt {r : Nat} {ds : Str} (h : Digs r ds) : number r ds < r ^ ds.length := by
  induction ds with
  | nil => simp [number]
  | cons c ds ih =>
    obtain ⟨d, hd, hr⟩ := h.head
    have := ih h.tail
    rw [number_cons, hd, Option.getD_some, List.length_cons, Nat.pow_succ]
    calc d * r ^ ds.length + number r ds < d * r ^ ds.length + r ^ ds.length := by omega
      _ = (d + 1) * r ^ ds.length := by rw [Nat.add_mul, Nat.one_mul]
      _ ≤ r * r ^ ds.length := Nat.mul_le_mul_right _ hr
      _ = _ := Nat.mul_comm ..

theorem tail_facts {c : Char} (h : c = 'u' ∨ c = 'U' ∨ c = 'l' ∨ c = 'L') : digitVal c = 99 ∧ digitOf c = none ∧ c ≠ 'x' ∧ c ≠ 'X' ∧ c ≠ 'b' ∧ c ≠ 'B' ∧ c ≠ '0' ∧ c ≠ '1' := by
  rcases h with rfl | rfl | rfl | rfl <;> decide

theorem digitsFrom_tail {r acc : Nat} {t : Str} (hr : r ≤ 16) (ht : Tail t) : digitsFrom r acc t = acc := by
  cases t with
  | nil => rfl
  | cons c t =>
    have := (tail_facts (ht c rfl)).1
    rw [digitsFrom, if_neg (by omega)]

theorem digitsFrom_append {r : Nat} {ds t : Str} (hr : r ≤ 16) (h : Digs r ds) (ht : Tail t) (acc : Nat) : digitsFrom r acc (ds ++ t) = numFrom r acc ds := by
  induction ds generalizing acc with
  | nil => exact digitsFrom_tail hr ht
  | cons c ds ih =>
    obtain ⟨d, hd, hlt⟩ := h.head
    rw [List.cons_append, digitsFrom, (digitVal_of hd).1, if_pos hlt, ih h.tail]
    simp [numFrom, hd]

theorem scan_append {r : Nat} {ds t : Str} (hr : r ≤ 16) (h : Digs r ds) (ht : Tail t) : scan r (ds ++ t) = min (number r ds) (2 ^ 64 - 1) := by
  rw [scan, digitsFrom_append hr h ht]; rfl

theorem tail_nil : Tail [] := fun _ h => by simp at h

theorem scan_eq {r : Nat} {ds : Str} (hr : r ≤ 16) (h : Digs r ds) (hv : number r ds < 2 ^ 64) : scan r ds = number r ds := by
  have := scan_append hr h tail_nil
  rw [List.append_nil] at this
  rw [this]; omega

theorem leading_append {r : Nat} {ds t : Str} (h : Digs r ds) (ht : Tail t) : leading r (ds ++ t) = number r ds := by
  unfold leading
  congr 1
  induction ds with
  | nil =>
    cases t with
    | nil => rfl
    | cons c t => rw [List.nil_append, List.takeWhile_cons, (tail_facts (ht c rfl)).2.1]; rfl
  | cons c ds ih =>
    obtain ⟨d, hd, hlt⟩ := h.head
    rw [List.cons_append, List.takeWhile_cons, hd]
    simp only [hlt, decide_true, if_true]
    rw [ih h.tail]

theorem number_zero_cons (r : Nat) (ds : Str) : number r ('0' :: ds) = number r ds := by
  rw [number_cons]; simp [digitOf]

theorem digs_zero_cons {r : Nat} {ds : Str} (hr : 0 < r) (h : Digs r ds) : Digs r ('0' :: ds) := by
  intro ch hc
  rcases List.mem_cons.1 hc with rfl | hc
  · exact ⟨0, rfl, hr⟩
  · exact h ch hc

/-! ### Binary constants -/

theorem bin_char {ch : Char} {d : Nat} (h : digitOf ch = some d) (hd : d < 2) : (ch = '0' ∧ d = 0) ∨ (ch = '1' ∧ d = 1) := by
  unfold digitOf at h
  split at h <;> simp_all <;> omega

theorem or_one (w : Nat) : 2 * w ||| 1 = 2 * w + 1 := by
  have := Nat.two_pow_add_eq_or_of_lt (i := 1) (b := 1) (by decide) w
  simpa using this.symm

theorem numFrom_ge (acc : Nat) (ds : Str) : acc * 2 ^ ds.length ≤ numFrom 2 acc ds := by rw [numFrom_eq]; omega

/-- The number of digits `scanbin` reads: all, or all but the last two or the last one. -/
def readBits (last i n : Nat) : Nat := if i < last - 1 ∧ last - 1 < i + n then last - 1 - i else n

theorem scanbinGo_eq {last : Nat} {t : Str} (ht : Tail t) : ∀ (ds : Str) (i w : Nat), ds ≠ [] → Digs 2 ds → numFrom 2 w ds < 2 ^ 64 →
    scanbinGo last i (2 * w) (ds ++ t) = numFrom 2 w (ds.take (readBits last i ds.length)) := by
  intro ds
  induction ds with
  | nil => intro i w h; exact absurd rfl h
  | cons c ds ih =>
    intro i w _ hd hw
    obtain ⟨d, hc, h2⟩ := hd.head
    have hv : (if c = '1' then 2 * w ||| 1 else 2 * w) = 2 * w + d := by
      rcases bin_char hc h2 with ⟨rfl, rfl⟩ | ⟨rfl, rfl⟩
      · rfl
      · rw [if_pos rfl, or_one]
    have hn : numFrom 2 w (c :: ds) = numFrom 2 (2 * w + d) ds := by simp [numFrom, hc, Nat.mul_comm]
    rw [List.cons_append, scanbinGo]
    simp only [hv]
    cases hds : ds with
    | nil =>
      subst hds
      rw [if_pos (Or.inr ?_)]
      · rw [readBits, if_neg (by simp only [List.length_singleton]; omega)]
        simp [numFrom, hc, Nat.mul_comm]
      · rw [List.nil_append]
        cases t with
        | nil => decide
        | cons a t => exact ⟨(tail_facts (ht a rfl)).2.2.2.2.2.2.1, (tail_facts (ht a rfl)).2.2.2.2.2.2.2⟩
    | cons a ds' =>
      obtain ⟨e, ha, he⟩ := (hds ▸ hd.tail : Digs 2 (a :: ds')).head
      have hne : ds ≠ [] := by simp [hds]
      have hhd : ¬ (at' (a :: ds' ++ t) 0 ≠ '0' ∧ at' (a :: ds' ++ t) 0 ≠ '1') := by
        show ¬ (a ≠ '0' ∧ a ≠ '1')
        rcases bin_char ha he with ⟨rfl, -⟩ | ⟨rfl, -⟩ <;> decide
      have hlen : ds.length = ds'.length + 1 := by rw [hds]; rfl
      by_cases hs : i + 1 = last - 1
      · rw [if_pos (Or.inl hs), readBits, if_pos (by simp only [List.length_cons]; omega), show last - 1 - i = 0 + 1 by omega]
        simp [numFrom, hc, Nat.mul_comm]
      · rw [if_neg (by simp only [hhd, or_false]; exact hs), ← hds]
        have hb := numFrom_ge (2 * w + d) ds
        have hp : 2 ≤ 2 ^ ds.length := by
          rw [hlen, Nat.pow_succ]
          have := Nat.two_pow_pos ds'.length
          omega
        have hlt : (2 * w + d) * 2 < 2 ^ 64 := by
          have := Nat.mul_le_mul_left (2 * w + d) hp
          omega
        rw [Nat.mod_eq_of_lt hlt, Nat.mul_comm _ 2, ih (i + 1) (2 * w + d) hne hd.tail (by omega)]
        have hr : readBits last i (c :: ds).length = readBits last (i + 1) ds.length + 1 := by
          unfold readBits
          rw [List.length_cons]
          by_cases h : i + 1 < last - 1 ∧ last - 1 < i + 1 + ds.length
          · rw [if_pos h, if_pos (by omega)]; omega
          · rw [if_neg h, if_neg (by omega)]
        rw [hr, List.take_succ_cons]
        simp [numFrom, hc, Nat.mul_comm]

/-- The bits `scanbin` reads of the constant with `n` digits and a tail of `k` characters. -/
def bits (n k : Nat) : Nat := if 2 < n + k ∧ k < 2 then n + k - 2 else n

theorem scanbin_eq {ds t : Str} {b : Char} (hne : ds ≠ []) (h : Digs 2 ds) (ht : Tail t) (hv : number 2 ds < 2 ^ 64) :
    scanbin ('0' :: b :: (ds ++ t)) = number 2 (ds.take (bits ds.length t.length)) := by
  unfold scanbin
  have := scanbinGo_eq (last := ('0' :: b :: (ds ++ t)).length - 1) ht ds 2 0 hne h hv
  show scanbinGo _ 2 (2 * 0) (ds ++ t) = _
  rw [this]
  show number 2 _ = _
  congr 2
  simp only [readBits, bits, List.length_cons, List.length_append]
  have : 0 < ds.length := List.length_pos_iff.2 hne
  split <;> split <;> omega

theorem number_take_le (r : Nat) (ds : Str) (n : Nat) (hr : 0 < r) : number r (ds.take n) * r ^ (ds.length - n) ≤ number r ds := by
  have := number_append r (ds.take n) (ds.drop n)
  rw [List.take_append_drop, List.length_drop] at this
  omega

theorem scanbin_le {ds t : Str} {b : Char} (hne : ds ≠ []) (h : Digs 2 ds) (ht : Tail t) (hv : number 2 ds < 2 ^ 64) : scanbin ('0' :: b :: (ds ++ t)) ≤ number 2 ds := by
  rw [scanbin_eq hne h ht hv]
  have := number_take_le 2 ds (bits ds.length t.length) (by decide)
  have hp := Nat.two_pow_pos (ds.length - bits ds.length t.length)
  exact Nat.le_trans (Nat.le_mul_of_pos_right _ hp) this

/-! ### Constants without 128 bits -/

theorem digs_of {c : Lit} (hv : c.Valid) : Digs c.base.radix c.digits := hv.digits

theorem body_notSuf {c : Lit} (hv : c.Valid) : ∀ ch ∈ c.prefix ++ c.digits, notSuf ch = true := by
  intro ch hc
  rcases List.mem_append.1 hc with hc | hc
  · unfold Lit.prefix at hc
    split at hc
    · simp at hc
    · simp at hc; subst hc; decide
    all_goals
      cases hu : c.up <;> simp [letter, hu] at hc <;> rcases hc with rfl | rfl <;> decide
  · obtain ⟨d, hd, -⟩ := hv.digits ch hc
    exact (notSuf_digit hd).1

theorem suffix_text {c : Lit} (hv : c.Valid) : suffix c.text = pre (c.prefix ++ c.digits) (suffix c.suffix.text) := by
  unfold Lit.text
  by_cases hs : c.suffix.text = []
  · rw [hs, List.append_nil, suffix_nil (body_notSuf hv)]
    have : suffix [] = ⟨[], false, -1, -1⟩ := by decide
    rw [this, pre, List.append_nil]
  · exact suffix_append (body_notSuf hv) hs

theorem at0 (c : Char) (s : Str) : at' (c :: s) 0 = c := rfl
theorem at1 (a b : Char) (s : Str) : at' (a :: b :: s) 1 = b := rfl

theorem at_zero_append {a b : Str} (h : a ≠ []) : at' (a ++ b) 0 = at' a 0 := by
  cases a with
  | nil => exact absurd rfl h
  | cons c a => rfl

/-- What follows the `0` of an octal constant. -/
theorem oct_next {ds t : Str} (h : Digs 8 ds) (ht : Tail t) : ∀ ch ∈ (ds ++ t).head?, ch ≠ 'x' ∧ ch ≠ 'X' ∧ ch ≠ 'b' ∧ ch ≠ 'B' := by
  intro ch hc
  cases ds with
  | nil => have := tail_facts (ht ch hc); exact ⟨this.2.2.1, this.2.2.2.1, this.2.2.2.2.1, this.2.2.2.2.2.1⟩
  | cons a ds =>
    have : a = ch := by simpa using hc
    subst this
    obtain ⟨d, hd, hlt⟩ := h.head
    have := notSuf_digit hd
    have h' := not_b hd (by omega)
    exact ⟨this.2.1, this.2.2, h'.1, h'.2⟩

theorem cNumber_oct {t : Str} (h : ∀ ch ∈ t.head?, ch ≠ 'x' ∧ ch ≠ 'X' ∧ ch ≠ 'b' ∧ ch ≠ 'B') : cNumber ('0' :: t) = leading 8 t := by
  cases t with
  | nil => rfl
  | cons a t =>
    have := h a rfl
    unfold cNumber
    split <;> simp_all

theorem cNumber_dec {t : Str} (h : t.head? ≠ some '0') : cNumber t = leading 10 t := by
  unfold cNumber
  split <;> simp_all

/-- A C compiler reads the digits as they were written. -/
theorem cNumber_body {c : Lit} (hv : c.Valid) {t : Str} (ht : Tail t) : cNumber (c.prefix ++ c.digits ++ t) = c.value := by
  have hd := digs_of hv
  unfold Lit.prefix Lit.value
  cases hb : c.base with
  | dec =>
    rw [hb] at hd
    change Digs 10 c.digits at hd
    rw [List.nil_append, cNumber_dec, leading_append hd ht]
    · rfl
    · have h1 := hv.dec hb
      have h2 := hv.nonempty (by rw [hb]; decide)
      cases hc : c.digits with
      | nil => exact absurd hc h2
      | cons a l => rw [hc] at h1; exact h1
  | oct =>
    rw [hb] at hd
    change Digs 8 c.digits at hd
    show cNumber ('0' :: (c.digits ++ t)) = _
    rw [cNumber_oct (oct_next hd ht), leading_append hd ht]; rfl
  | hex =>
    rw [hb] at hd
    change Digs 16 c.digits at hd
    have : cNumber (['0', letter 'x' 'X' c.up] ++ c.digits ++ t) = leading 16 (c.digits ++ t) := by cases c.up <;> rfl
    rw [this, leading_append hd ht]; rfl
  | bin =>
    rw [hb] at hd
    change Digs 2 c.digits at hd
    have : cNumber (['0', letter 'b' 'B' c.up] ++ c.digits ++ t) = leading 2 (c.digits ++ t) := by cases c.up <;> rfl
    rw [this, leading_append hd ht]; rfl

theorem body_dec {c : Lit} (hv : c.Valid) (t : Str) : decide (at' (c.prefix ++ c.digits ++ t) 0 ≠ '0') = (c.base == .dec) := by
  unfold Lit.prefix
  cases hb : c.base with
  | dec =>
    have h1 := hv.dec hb
    have h2 := hv.nonempty (by rw [hb]; decide)
    cases hc : c.digits with
    | nil => exact absurd hc h2
    | cons a l => rw [hc] at h1; simpa [at'] using h1
  | oct => rfl
  | hex => rfl
  | bin => rfl

/-- The value read by the compiler. -/
theorem parts_small {c : Lit} (hv : c.Valid) {x : Suf} (h5 : x.type < 5) (ht : Tail x.str) : ∃ v,
    parts (pre (c.prefix ++ c.digits) x) = some (one' (c.prefix ++ c.digits ++ x.str) v) ∧
    (c.value < 2 ^ 64 → (c.base ≠ .bin → v = c.value) ∧ (c.base = .bin → v = number 2 (c.digits.take (bits c.digits.length x.str.length)))) := by
  have hd := digs_of hv
  have h5' : ¬ x.type = 5 := by omega
  unfold parts pre
  have hdec := body_dec hv x.str
  simp only
  cases hb : c.base with
  | dec =>
    rw [hb] at hd hdec
    change Digs 10 c.digits at hd
    rw [if_neg (by simpa using hdec), decParts, if_pos h5]
    refine ⟨_, rfl, fun hlt => ⟨fun _ => ?_, fun h => by simp at h⟩⟩
    have : c.prefix = [] := by rw [Lit.prefix, hb]
    rw [this, List.nil_append, scan_append (by decide) hd ht]
    rw [Lit.value, hb, Base.radix] at hlt ⊢
    omega
  | oct =>
    rw [hb] at hd hdec
    change Digs 8 c.digits at hd
    have hp : c.prefix ++ c.digits ++ x.str = '0' :: (c.digits ++ x.str) := by rw [Lit.prefix, hb]; rfl
    have hx := oct_next hd ht
    have h1 : ∀ q : Char, q ≠ '\x00' → (∀ ch ∈ (c.digits ++ x.str).head?, ch ≠ q) → at' ('0' :: (c.digits ++ x.str)) 1 ≠ q := by
      intro q hq h
      cases hl : c.digits ++ x.str with
      | nil => exact fun e => hq e.symm
      | cons a l => rw [hl] at h; exact h a rfl
    rw [hp, at0, if_pos rfl,
      if_neg (fun e => e.elim (h1 _ (by decide) (fun ch hc => (hx ch hc).1)) (h1 _ (by decide) (fun ch hc => (hx ch hc).2.1))),
      if_neg (fun e => e.elim (h1 _ (by decide) (fun ch hc => (hx ch hc).2.2.1)) (h1 _ (by decide) (fun ch hc => (hx ch hc).2.2.2))), octParts, if_pos h5]
    refine ⟨_, rfl, fun hlt => ⟨fun _ => ?_, fun h => by simp at h⟩⟩
    rw [← List.cons_append, scan_append (by decide) (digs_zero_cons (by decide) hd) ht, number_zero_cons]
    rw [Lit.value, hb, Base.radix] at hlt ⊢
    omega
  | hex =>
    rw [hb] at hd hdec
    change Digs 16 c.digits at hd
    have hp : c.prefix ++ c.digits ++ x.str = '0' :: letter 'x' 'X' c.up :: (c.digits ++ x.str) := by rw [Lit.prefix, hb]; rfl
    rw [hp, at0, if_pos rfl, at1, if_pos (show letter 'x' 'X' c.up = 'x' ∨ letter 'x' 'X' c.up = 'X' by cases c.up <;> decide), hexParts, if_pos h5]
    refine ⟨_, rfl, fun hlt => ⟨fun _ => ?_, fun h => by simp at h⟩⟩
    have : scanHex ('0' :: letter 'x' 'X' c.up :: (c.digits ++ x.str)) = scan 16 (c.digits ++ x.str) := by cases c.up <;> rfl
    rw [this, scan_append (by decide) hd ht]
    rw [Lit.value, hb, Base.radix] at hlt ⊢
    omega
  | bin =>
    rw [hb] at hd hdec
    change Digs 2 c.digits at hd
    have hp : c.prefix ++ c.digits ++ x.str = '0' :: letter 'b' 'B' c.up :: (c.digits ++ x.str) := by rw [Lit.prefix, hb]; rfl
    rw [hp, at0, if_pos rfl, at1, if_neg (show ¬ (letter 'b' 'B' c.up = 'x' ∨ letter 'b' 'B' c.up = 'X') by cases c.up <;> decide),
      if_pos (show letter 'b' 'B' c.up = 'b' ∨ letter 'b' 'B' c.up = 'B' by cases c.up <;> decide), binParts, if_neg (by simp [h5'])]
    refine ⟨_, rfl, fun hlt => ⟨fun h => absurd rfl h, fun _ => ?_⟩⟩
    rw [Lit.value, hb] at hlt
    exact scanbin_eq (hv.nonempty (by rw [hb]; decide)) hd ht hlt

theorem build_small {c : Lit} (hv : c.Valid) (h0 : c.text ≠ ['0']) (h1 : c.text ≠ ['1']) {x : Suf} (hx : suffix c.suffix.text = x) (h5 : x.type < 5) (ht : Tail x.str) :
    ∃ str v, build c.text = some (finish (c.base == .dec) ⟨str, x.uns, x.type, x.ltype⟩ (one' str v)) ∧ cNumber str = c.value ∧
      (c.value < 2 ^ 64 → (c.base ≠ .bin → v = c.value) ∧ (c.base = .bin → v = number 2 (c.digits.take (bits c.digits.length x.str.length)))) := by
  obtain ⟨v, hp, hval⟩ := parts_small hv h5 ht
  refine ⟨c.prefix ++ c.digits ++ x.str, v, ?_, cNumber_body hv ht, hval⟩
  rw [build, if_neg h0, if_neg h1]
  simp only [suffix_text hv, hx, hp, Option.map_some]
  rw [show (pre (c.prefix ++ c.digits) x).str = c.prefix ++ c.digits ++ x.str from rfl, body_dec hv]
  rfl

theorem toInt_id {k : Kind} {v : Nat} {r : Int × Int} (hr : rangeOf k = some r) (h : (v : Int) ≤ r.2) : toInt k v = v := by
  cases k <;> simp [rangeOf, Verif.Arith.intOf] at hr <;> subst hr <;> simp [toInt, Verif.Arith.intOf] at h ⊢ <;> omega

theorem firstFit_cons {v : Nat} {k : Kind} {l : List Kind} {r : Int × Int} (hr : rangeOf k = some r) : firstFit v (k :: l) = if (v : Int) ≤ r.2 then some k else firstFit v l := by
  unfold firstFit
  rw [List.find?_cons, hr]
  by_cases h : (v : Int) ≤ r.2
  · simp [h]
  · simp [h]

theorem firstFit_nil {v : Nat} : firstFit v [] = none := rfl

theorem r_sc : rangeOf .signedChar = some (-128, 127) := by decide
theorem r_uc : rangeOf .unsignedChar = some (0, 255) := by decide
theorem r_ss : rangeOf .shortSignedInt = some (-32768, 32767) := by decide
theorem r_us : rangeOf .shortUnsignedInt = some (0, 65535) := by decide
theorem r_si : rangeOf .signedInt = some (-2147483648, 2147483647) := by decide
theorem r_ui : rangeOf .unsignedInt = some (0, 4294967295) := by decide
theorem r_sl : rangeOf .longSignedInt = some (-9223372036854775808, 9223372036854775807) := by decide
theorem r_ul : rangeOf .longUnsignedInt = some (0, 18446744073709551615) := by decide
theorem r_sll : rangeOf .longLongSignedInt = some (-9223372036854775808, 9223372036854775807) := by decide
theorem r_ull : rangeOf .longLongUnsignedInt = some (0, 18446744073709551615) := by decide
theorem r_u128 : rangeOf .unsignedInt128 = some (0, 340282366920938463463374607431768211455) := by decide

def sizeTypes : Size → Int × Int | .s8 => (1, 1) | .s16 => (0, 0) | .s32 => (2, 2) | .s64 => (3, 3) | .s128 => (5, 6)

/-- What each suffix says. -/
def tab : Suffix → Suf
  | .none => ⟨[], false, -1, -1⟩
  | .u a => ⟨[letter 'u' 'U' a], true, -1, -1⟩
  | .len b .l => ⟨[letter 'l' 'L' b], false, 3, -1⟩
  | .len b .ll => ⟨[letter 'l' 'L' b, letter 'l' 'L' b], false, 4, -1⟩
  | .len _ .h => ⟨[], false, 0, -1⟩
  | .len _ .hh => ⟨[], false, 1, -1⟩
  | .len _ .n => ⟨[], false, 2, -1⟩
  | .len _ (.sized s) => ⟨[], false, (sizeTypes s).1, (sizeTypes s).2⟩
  | .uLen a b .l => ⟨[letter 'u' 'U' a, letter 'l' 'L' b], true, 3, -1⟩
  | .uLen a b .ll => ⟨[letter 'u' 'U' a, letter 'l' 'L' b, letter 'l' 'L' b], true, 4, -1⟩
  | .lenU a _ .l => ⟨[letter 'u' 'U' a], true, -1, -1⟩
  | .lenU a b .ll => ⟨[letter 'l' 'L' b, letter 'l' 'L' b, letter 'u' 'U' a], true, 4, -1⟩
  | .uLen a _ .h | .lenU a _ .h => ⟨[letter 'u' 'U' a], true, 0, -1⟩
  | .uLen a _ .hh | .lenU a _ .hh => ⟨[letter 'u' 'U' a], true, 1, -1⟩
  | .uLen a _ .n | .lenU a _ .n => ⟨[letter 'u' 'U' a], true, 2, -1⟩
  | .uLen _ _ (.sized .s128) | .lenU _ _ (.sized .s128) => ⟨[], true, 5, 6⟩
  | .uLen a _ (.sized s) | .lenU a _ (.sized s) => ⟨[letter 'u' 'U' a], true, (sizeTypes s).1, (sizeTypes s).2⟩
  | .z _ => ⟨[], true, 2, 4⟩
  | .p _ => ⟨[], false, -1, 5⟩

theorem tab_eq (s : Suffix) : suffix s.text = tab s := by
  rcases s with _ | ⟨_ | _⟩ | ⟨_ | _, _ | ⟨_ | _ | _ | _ | _⟩ | _ | _ | _ | _⟩ | ⟨_ | _, _ | _, _ | ⟨_ | _ | _ | _ | _⟩ | _ | _ | _ | _⟩ |
    ⟨_ | _, _ | _, _ | ⟨_ | _ | _ | _ | _⟩ | _ | _ | _ | _⟩ | ⟨_ | _⟩ | ⟨_ | _⟩ <;> decide +kernel

theorem tab_tail (s : Suffix) : Tail (tab s).str := by
  have key : ∀ s, ((tab s).str.head?).all (fun ch => ch == 'u' || ch == 'U' || ch == 'l' || ch == 'L') = true := by
    intro s
    rcases s with _ | ⟨_ | _⟩ | ⟨_ | _, _ | ⟨_ | _ | _ | _ | _⟩ | _ | _ | _ | _⟩ | ⟨_ | _, _ | _, _ | ⟨_ | _ | _ | _ | _⟩ | _ | _ | _ | _⟩ |
      ⟨_ | _, _ | _, _ | ⟨_ | _ | _ | _ | _⟩ | _ | _ | _ | _⟩ | ⟨_ | _⟩ | ⟨_ | _⟩ <;> decide +kernel
  intro ch hc
  have := key s
  rw [Option.mem_def.1 hc] at this
  simpa [or_assoc] using this

theorem tab_type (s : Suffix) (h : s.Is128 = false) : (tab s).type < 5 := by
  rcases s with _ | _ | ⟨_, _ | ⟨_ | _ | _ | _ | _⟩ | _ | _ | _ | _⟩ | ⟨_, _, _ | ⟨_ | _ | _ | _ | _⟩ | _ | _ | _ | _⟩ |
    ⟨_, _, _ | ⟨_ | _ | _ | _ | _⟩ | _ | _ | _ | _⟩ | _ | _ <;> first | (simp [tab, sizeTypes]; done) | (simp [Suffix.Is128] at h; done)

theorem tab_128 (s : Suffix) (h : s.Is128 = true) : tab s = ⟨[], s.HasU, 5, 6⟩ := by
  rcases s with _ | _ | ⟨_, _ | ⟨_ | _ | _ | _ | _⟩ | _ | _ | _ | _⟩ | ⟨_, _, _ | ⟨_ | _ | _ | _ | _⟩ | _ | _ | _ | _⟩ |
    ⟨_, _, _ | ⟨_ | _ | _ | _ | _⟩ | _ | _ | _ | _⟩ | _ | _ <;> first | rfl | (simp [Suffix.Is128] at h)

theorem zero_value {c : Lit} (hv : c.Valid) (h : c.text = ['0']) : c.value = 0 := by
  have hl : c.prefix.length + c.digits.length + c.suffix.text.length = 1 := by simpa [Lit.text, Nat.add_assoc] using congrArg List.length h
  unfold Lit.text at h
  cases hb : c.base with
  | dec =>
    have h1 := hv.dec hb
    have h2 := hv.nonempty (by rw [hb]; decide)
    rw [Lit.prefix, hb, List.nil_append] at h
    cases hd : c.digits with
    | nil => exact absurd hd h2
    | cons a l => rw [hd] at h h1; simp at h h1; exact absurd h.1 h1
  | oct =>
    rw [Lit.prefix, hb] at hl
    have : c.digits = [] := List.length_eq_zero_iff.1 (by simp at hl; omega)
    rw [Lit.value, this]; rfl
  | hex => rw [Lit.prefix, hb] at hl; simp at hl; omega
  | bin => rw [Lit.prefix, hb] at hl; simp at hl; omega

theorem one_value {c : Lit} (hv : c.Valid) (h : c.text = ['1']) : c.value = 1 := by
  have hl : c.prefix.length + c.digits.length + c.suffix.text.length = 1 := by simpa [Lit.text, Nat.add_assoc] using congrArg List.length h
  unfold Lit.text at h
  cases hb : c.base with
  | dec =>
    have h2 := hv.nonempty (by rw [hb]; decide)
    rw [Lit.prefix, hb, List.nil_append] at h
    cases hd : c.digits with
    | nil => exact absurd hd h2
    | cons a l =>
      rw [hd] at h; simp at h
      rw [Lit.value, hb, hd, h.1, h.2.1]; rfl
  | oct => rw [Lit.prefix, hb] at h; simp at h
  | hex => rw [Lit.prefix, hb] at h; simp at h
  | bin => rw [Lit.prefix, hb] at h; simp at h

theorem plain_128 {c : Lit} (hp : c.Plain) : c.suffix.Is128 = false := by
  have := hp.small
  cases hs : c.suffix with
  | len a l => cases l with
    | sized z => cases z <;> first | rfl | exact absurd hs (this a a).1
    | _ => rfl
  | uLen a b l => cases l with
    | sized z => cases z <;> first | rfl | exact absurd hs (this a b).2.1
    | _ => rfl
  | lenU a b l => cases l with
    | sized z => cases z <;> first | rfl | exact absurd hs (this a b).2.2
    | _ => rfl
  | _ => rfl

/-- An expression of a basic type has a value in its range. -/
theorem value_basic {r : Res} {k : Kind} {v : Nat} {g : Int × Int} (ht : r.type = .basic k) (hr : r.raw = v) (hg : rangeOf k = some g) (h : (v : Int) ≤ g.2) : r.value = v := by
  rw [Res.value, ht]
  simp only [hr]
  exact toInt_id hg h

theorem valueToType_1 {v : Nat} {d u : Bool} (h : v ≤ 2147483647) : valueToType v d u = (2, u) := by rw [valueToType, if_pos (by omega)]
theorem valueToType_2 {v : Nat} {u : Bool} (h : ¬ v ≤ 2147483647) (h' : v ≤ 4294967295) : valueToType v false u = (2, true) := by
  rw [valueToType, if_neg (by omega), if_pos ⟨by omega, rfl⟩]
theorem valueToType_3 {v : Nat} {d u : Bool} (h : ¬ v ≤ 2147483647) (h1 : d = true ∨ ¬ v ≤ 4294967295) (h2 : v ≤ 9223372036854775807) : valueToType v d u = (3, u) := by
  rw [valueToType, if_neg (by omega), if_neg (fun ⟨a, b⟩ => h1.elim (fun h1 => by rw [h1] at b; cases b) (fun h1 => by omega)), if_pos (by omega)]
theorem valueToType_4 {v : Nat} {d u : Bool} (h1 : ¬ v ≤ 9223372036854775807) (h2 : v ≤ 18446744073709551615) : valueToType v d u = (3, true) := by
  rw [valueToType, if_neg (by omega), if_neg (by omega), if_neg (by omega), if_pos (by omega)]

theorem valueToType_ge (v : Nat) (d u : Bool) : ¬ (valueToType v d u).1 < 2 ∧ (valueToType v d u).1 ≠ -1 := by
  unfold valueToType
  repeat' split
  all_goals simp

theorem finish_open (d u : Bool) (str : Str) (v : Nat) : finish d ⟨str, u, -1, -1⟩ (one' str v) = .const (kindTab (valueToType v d u).2 (valueToType v d u).1) str v := by
  have := (valueToType_ge v d u).1
  unfold finish
  simp [this, one']

theorem finish_pointer (d : Bool) (str : Str) (v : Nat) : ∃ t, t.kind = .longUnsignedInt ∧ finish d ⟨str, false, -1, 5⟩ (one' str v) =
    .pointer (.castTo t (.const (kindTab (valueToType v d false).2 (valueToType v d false).1) str v)) := by
  have := (valueToType_ge v d false).1
  refine ⟨lnthTab (valueToType v d false).2 5, ?_, ?_⟩
  · cases (valueToType v d false).2 <;> rfl
  · unfold finish
    simp [this, one']

theorem typed {c : Lit} (hv : c.Valid) (hp : c.Plain) {T : Ty} (hT : c.type = some T) : ∃ r, build c.text = some r ∧ r.type = T ∧ r.value = c.value := by
  by_cases h0 : c.text = ['0']
  · rw [Lit.type, if_pos h0] at hT
    cases hT
    exact ⟨.zero, by rw [build, if_pos h0], rfl, by rw [zero_value hv h0]; rfl⟩
  by_cases h1 : c.text = ['1']
  · rw [Lit.type, if_neg h0, if_pos h1] at hT
    cases hT
    exact ⟨.one, by rw [build, if_neg h0, if_pos h1], rfl, by rw [one_value hv h1]; rfl⟩
  rw [Lit.type, if_neg h0, if_neg h1] at hT
  obtain ⟨str, v, hb, hn, hval⟩ := build_small hv h0 h1 (tab_eq c.suffix) (tab_type _ (plain_128 hp)) (tab_tail _)
  refine ⟨_, hb, ?_⟩
  have hle : c.value < 2 ^ 64 → v ≤ c.value := by
    intro hlt
    obtain ⟨e1, e2⟩ := hval hlt
    by_cases hbin : c.base = .bin
    · rw [e2 hbin]
      have := number_take_le 2 c.digits (bits c.digits.length (tab c.suffix).str.length) (by decide)
      have hp := Nat.two_pow_pos (c.digits.length - bits c.digits.length (tab c.suffix).str.length)
      rw [Lit.value, hbin]
      exact Nat.le_trans (Nat.le_mul_of_pos_right _ hp) this
    · rw [e1 hbin]; exact Nat.le_refl _
  generalize hV : c.value = V at *
  -- the types fixed by the suffix
  have fixed : ∀ (k : Kind) (g : Int × Int) (r : Res), rangeOf k = some g → (firstFit V [k]).map Ty.basic = some T → r.type = .basic k → ((V : Int) ≤ g.2 → r.raw = V) →
      r.type = T ∧ r.value = V := by
    intro k g r hg hT ht hr
    rw [firstFit_cons hg, firstFit_nil] at hT
    by_cases h : (V : Int) ≤ g.2
    · rw [if_pos h] at hT
      cases hT
      exact ⟨ht, value_basic ht (hr h) hg h⟩
    · rw [if_neg h] at hT; simp at hT
  have fixed' : ∀ (k : Kind) (g : Int × Int) (l : List Kind) (r : Res), rangeOf k = some g → (V : Int) ≤ g.2 → (firstFit V (k :: l)).map Ty.basic = some T → r.type = .basic k → r.raw = V →
      r.type = T ∧ r.value = V := by
    intro k g l r hg h hT ht hr
    rw [firstFit_cons hg, if_pos h] at hT
    cases hT
    exact ⟨ht, value_basic ht hr hg h⟩
  have long : ∀ (k k' : Kind) (r : Res), rangeOf k = some (0, 18446744073709551615) → rangeOf k' = some (0, 18446744073709551615) →
      (firstFit V [k, k']).map Ty.basic = some T → r.type = .basic k → r.raw = V → r.type = T ∧ r.value = V := by
    intro k k' r hg hg' hT ht hr
    by_cases h : (V : Int) ≤ 18446744073709551615
    · exact fixed' k _ _ r hg h hT ht hr
    · rw [firstFit_cons hg, firstFit_cons hg', if_neg h, if_neg h] at hT
      simp [firstFit_nil] at hT
  have hraw : ∀ k, (Res.const k str v).raw = V := fun k => by rw [Res.raw, hn]
  have hcast : ∀ (k k' : Kind) (g : Int × Int), rangeOf k = some g → (V : Int) ≤ g.2 → (Res.cast k (.const k' str v)).raw = V := fun k k' g hg h => by
    rw [Res.raw, hraw, toInt_id hg h]
  have hcastTo : ∀ (t : Lnth) (k' : Kind) (g : Int × Int), rangeOf t.kind = some g → (V : Int) ≤ g.2 → (Res.castTo t (.const k' str v)).raw = V := fun k k' g hg h => by
    rw [Res.raw, hraw, toInt_id hg h]
  have hL := hp.l
  have hU := hp.u
  have hB := hp.bin
  have hLU := hp.lu
  have h128 := plain_128 hp
  rw [hV] at hB
  simp only [hV] at hL hU
  have nb : c.base ≠ .bin → V < 2 ^ 64 → v = V := fun h1 h2 => (hval h2).1 h1
  generalize c.suffix = s at *
  cases s with
  | none =>
    rw [show tab .none = ⟨[], false, -1, -1⟩ from rfl, finish_open]
    cases hd : (c.base == .dec) with
    | true =>
      have hne : c.base ≠ .bin := by intro e; rw [e] at hd; cases hd
      simp only [Suffix.types, hd, if_true, firstFit_cons r_si, firstFit_cons r_sl, firstFit_cons r_sll, firstFit_nil] at hT
      by_cases g1 : (V : Int) ≤ 2147483647
      · rw [if_pos g1] at hT
        cases hT
        rw [valueToType_1 (by have := hle (by omega); omega)]
        exact ⟨rfl, value_basic rfl (hraw _) r_si g1⟩
      · rw [if_neg g1] at hT
        by_cases g2 : (V : Int) ≤ 9223372036854775807
        · rw [if_pos g2] at hT
          cases hT
          have := nb hne (by omega)
          rw [valueToType_3 (by omega) (Or.inl rfl) (by omega)]
          exact ⟨rfl, value_basic rfl (hraw _) r_sl g2⟩
        · simp [g2] at hT
    | false =>
      simp only [Suffix.types, hd, Bool.false_eq_true, if_false, firstFit_cons r_si, firstFit_cons r_ui, firstFit_cons r_sl, firstFit_cons r_ul, firstFit_cons r_sll, firstFit_cons r_ull,
        firstFit_nil] at hT
      by_cases g1 : (V : Int) ≤ 2147483647
      · rw [if_pos g1] at hT
        cases hT
        rw [valueToType_1 (by have := hle (by omega); omega)]
        exact ⟨rfl, value_basic rfl (hraw _) r_si g1⟩
      · have hne : c.base ≠ .bin := fun e => by have := hB e rfl; omega
        rw [if_neg g1] at hT
        by_cases g2 : (V : Int) ≤ 4294967295
        · rw [if_pos g2] at hT
          cases hT
          have := nb hne (by omega)
          rw [valueToType_2 (by omega) (by omega)]
          exact ⟨rfl, value_basic rfl (hraw _) r_ui g2⟩
        · rw [if_neg g2] at hT
          by_cases g3 : (V : Int) ≤ 9223372036854775807
          · rw [if_pos g3] at hT
            cases hT
            have := nb hne (by omega)
            rw [valueToType_3 (by omega) (Or.inr (by omega)) (by omega)]
            exact ⟨rfl, value_basic rfl (hraw _) r_sl g3⟩
          · rw [if_neg g3] at hT
            by_cases g4 : (V : Int) ≤ 18446744073709551615
            · rw [if_pos g4] at hT
              cases hT
              have := nb hne (by omega)
              rw [valueToType_4 (by omega) (by omega)]
              exact ⟨rfl, value_basic rfl (hraw _) r_ul g4⟩
            · simp [g3, g4] at hT
  | u a =>
    rw [show tab (.u a) = ⟨[letter 'u' 'U' a], true, -1, -1⟩ from rfl]
    simp only [finish_open]
    simp only [Suffix.types, firstFit_cons r_ui, firstFit_cons r_ul, firstFit_cons r_ull, firstFit_nil] at hT
    by_cases g1 : (V : Int) ≤ 4294967295
    · rw [if_pos g1] at hT
      cases hT
      have hr := hle (by omega)
      by_cases g0 : v ≤ 2147483647
      · rw [valueToType_1 g0]
        exact ⟨rfl, value_basic rfl (hraw _) r_ui g1⟩
      · have hne : c.base ≠ .bin := fun e => by have := hB e rfl; omega
        have hnd : (c.base == .dec) = false := by
          cases hd : (c.base == .dec) with
          | false => rfl
          | true => have := hU a rfl (by simpa using hd); omega
        rw [hnd, valueToType_2 g0 (by omega)]
        exact ⟨rfl, value_basic rfl (hraw _) r_ui g1⟩
    · have hne : c.base ≠ .bin := fun e => by have := hB e rfl; omega
      rw [if_neg g1] at hT
      by_cases g2 : (V : Int) ≤ 18446744073709551615
      · rw [if_pos g2] at hT
        cases hT
        have := nb hne (by omega)
        by_cases g3 : v ≤ 9223372036854775807
        · rw [valueToType_3 (by omega) (Or.inr (by omega)) g3]
          exact ⟨rfl, value_basic rfl (hraw _) r_ul g2⟩
        · rw [valueToType_4 g3 (by omega)]
          exact ⟨rfl, value_basic rfl (hraw _) r_ul g2⟩
      · simp [g2] at hT
  | len a l =>
    cases l with
    | l =>
      have h := hL a (Or.inl rfl)
      cases hd : (c.base == .dec) <;> simp only [Suffix.types, hd] at hT <;> exact fixed' _ _ _ _ r_sl (by simp; omega) hT rfl (hraw _)
    | ll =>
      have h := hL a (Or.inr rfl)
      cases hd : (c.base == .dec) <;> simp only [Suffix.types, hd] at hT <;> exact fixed' _ _ _ _ r_sll (by simp; omega) hT rfl (hraw _)
    | h => exact fixed _ _ _ r_ss hT rfl fun _ => hraw _
    | hh => exact fixed _ _ _ r_sc hT rfl fun _ => hraw _
    | n => exact fixed _ _ _ r_si hT rfl fun _ => hraw _
    | sized z =>
      cases z with
      | s8 => exact fixed _ _ _ r_sc hT rfl (hcastTo .int8_t _ _ r_sc)
      | s16 => exact fixed _ _ _ r_ss hT rfl (hcastTo .int16_t _ _ r_ss)
      | s32 => exact fixed _ _ _ r_si hT rfl (hcastTo .int32_t _ _ r_si)
      | s64 => exact fixed _ _ _ r_sl hT rfl (hcastTo .int64_t _ _ r_sl)
      | s128 => simp [Suffix.Is128] at h128
  | uLen a b l =>
    cases l with
    | l => exact long _ _ _ r_ul r_ull hT rfl (hraw _)
    | ll => exact fixed _ _ _ r_ull hT rfl fun _ => hraw _
    | h => exact fixed _ _ _ r_us hT rfl (hcast _ _ _ r_us)
    | hh => exact fixed _ _ _ r_uc hT rfl (hcast _ _ _ r_uc)
    | n => exact fixed _ _ _ r_ui hT rfl fun _ => hraw _
    | sized z =>
      cases z with
      | s8 => exact fixed _ _ _ r_uc hT rfl (hcast _ _ _ r_uc)
      | s16 => exact fixed _ _ _ r_us hT rfl (hcast _ _ _ r_us)
      | s32 => exact fixed _ _ _ r_ui hT rfl (hcastTo .uint32_t _ _ r_ui)
      | s64 => exact fixed _ _ _ r_ul hT rfl (hcastTo .uint64_t _ _ r_ul)
      | s128 => simp [Suffix.Is128] at h128
  | lenU a b l =>
    cases l with
    | l => exact absurd rfl (hLU a b)
    | ll => exact fixed _ _ _ r_ull hT rfl fun _ => hraw _
    | h => exact fixed _ _ _ r_us hT rfl (hcast _ _ _ r_us)
    | hh => exact fixed _ _ _ r_uc hT rfl (hcast _ _ _ r_uc)
    | n => exact fixed _ _ _ r_ui hT rfl fun _ => hraw _
    | sized z =>
      cases z with
      | s8 => exact fixed _ _ _ r_uc hT rfl (hcast _ _ _ r_uc)
      | s16 => exact fixed _ _ _ r_us hT rfl (hcast _ _ _ r_us)
      | s32 => exact fixed _ _ _ r_ui hT rfl (hcastTo .uint32_t _ _ r_ui)
      | s64 => exact fixed _ _ _ r_ul hT rfl (hcastTo .uint64_t _ _ r_ul)
      | s128 => simp [Suffix.Is128] at h128
  | z a => exact fixed _ _ _ r_ul hT rfl (hcastTo .size_t _ _ r_ul)
  | p a =>
    obtain ⟨t, tk, e⟩ := finish_pointer (c.base == .dec) str v
    rw [show tab (.p a) = ⟨[], false, -1, 5⟩ from rfl, e]
    by_cases h : V < 2 ^ 64
    · simp only [hV, h, if_true] at hT
      cases hT
      have hg : (V : Int) ≤ 18446744073709551615 := by omega
      refine ⟨rfl, ?_⟩
      show toInt .longUnsignedInt (toInt t.kind (Res.const _ str v).raw) = V
      rw [hraw, tk, toInt_id r_ul hg, toInt_id r_ul hg]
    · simp [hV, h] at hT

/-- The value the compiler knows: all the digits, but for binary constants. -/
theorem known {c : Lit} (hv : c.Valid) (h128 : c.suffix.Is128 = false) (hq : ∀ a, c.suffix ≠ .p a) (hlt : c.value < 2 ^ 64) :
    ∃ r, build c.text = some r ∧ r.known = some (if c.base = .bin then number 2 (c.digits.take (bits c.digits.length (tab c.suffix).str.length)) else c.value) := by
  by_cases h0 : c.text = ['0']
  · refine ⟨.zero, by rw [build, if_pos h0], ?_⟩
    have hb : c.base ≠ .bin := by
      intro hb
      have hl : c.prefix.length + c.digits.length + c.suffix.text.length = 1 := by simpa [Lit.text, Nat.add_assoc] using congrArg List.length h0
      rw [Lit.prefix, hb] at hl; simp at hl; omega
    rw [if_neg hb, zero_value hv h0]; rfl
  by_cases h1 : c.text = ['1']
  · refine ⟨.one, by rw [build, if_neg h0, if_pos h1], ?_⟩
    have hb : c.base ≠ .bin := by
      intro hb
      have hl : c.prefix.length + c.digits.length + c.suffix.text.length = 1 := by simpa [Lit.text, Nat.add_assoc] using congrArg List.length h1
      rw [Lit.prefix, hb] at hl; simp at hl; omega
    rw [if_neg hb, one_value hv h1]; rfl
  obtain ⟨str, v, hb, hn, hval⟩ := build_small hv h0 h1 (tab_eq c.suffix) (tab_type _ h128) (tab_tail _)
  refine ⟨_, hb, ?_⟩
  have : v = if c.base = .bin then number 2 (c.digits.take (bits c.digits.length (tab c.suffix).str.length)) else c.value := by
    by_cases hbin : c.base = .bin
    · rw [if_pos hbin, (hval hlt).2 hbin]
    · rw [if_neg hbin, (hval hlt).1 hbin]
  rw [← this]
  have h6 : (tab c.suffix).ltype ≠ 6 ∧ (tab c.suffix).ltype ≠ 5 := by
    generalize c.suffix = s at *
    rcases s with _ | _ | ⟨_, _ | ⟨_ | _ | _ | _ | _⟩ | _ | _ | _ | _⟩ | ⟨_, _, _ | ⟨_ | _ | _ | _ | _⟩ | _ | _ | _ | _⟩ |
      ⟨_, _, _ | ⟨_ | _ | _ | _ | _⟩ | _ | _ | _ | _⟩ | _ | a <;> first | (simp [tab, sizeTypes]; done) | (simp [Suffix.Is128] at h128; done) | exact absurd rfl (hq a)
  unfold finish
  simp only [one', h6.1, h6.2, if_false]
  repeat' split
  all_goals rfl

/-! ### Constants of 128 bits -/

theorem digitOf_hexDigit {n : Nat} (h : n < 16) : digitOf (hexDigit n) = some n := by
  have : ∀ d : Fin 16, digitOf (hexDigit d.val) = some d.val := by decide
  exact this ⟨n, h⟩

theorem hexGo_eq : ∀ (f n : Nat) (acc : Str), n < 16 ^ f → Digs 16 acc → Digs 16 (hexGo f n acc) ∧ number 16 (hexGo f n acc) = n * 16 ^ acc.length + number 16 acc := by
  intro f
  induction f with
  | zero => intro n acc hn h; rw [hexGo]; simp at hn; subst hn; simpa using h
  | succ f ih =>
    intro n acc hn h
    rw [hexGo]
    by_cases h0 : n = 0
    · rw [if_pos h0, h0]; simpa using h
    · rw [if_neg h0]
      have hm : n % 16 < 16 := Nat.mod_lt _ (by decide)
      have hd : Digs 16 (hexDigit (n % 16) :: acc) := by
        intro ch hc
        rcases List.mem_cons.1 hc with rfl | hc
        · exact ⟨_, digitOf_hexDigit hm, hm⟩
        · exact h ch hc
      have := ih (n / 16) _ (by rw [Nat.pow_succ] at hn; omega) hd
      refine ⟨this.1, ?_⟩
      rw [this.2, number_cons, digitOf_hexDigit hm, Option.getD_some, List.length_cons, Nat.pow_succ]
      have e : n = n / 16 * 16 + n % 16 := by omega
      conv => rhs; rw [e]
      rw [Nat.add_mul, Nat.mul_assoc (n / 16), Nat.mul_comm 16]
      omega

theorem cNumber_printHex {n : Nat} (h : n < 2 ^ 64) : cNumber (printHex n) = n := by
  unfold printHex
  by_cases h0 : n = 0
  · rw [if_pos h0, h0]; decide
  · rw [if_neg h0]
    have := hexGo_eq 16 n [] (by omega) (fun _ h => by simp at h)
    show leading 16 _ = _
    have hl := leading_append this.1 tail_nil
    rw [List.append_nil] at hl
    rw [hl, this.2]; simp [number]

theorem finish128 (d u : Bool) (s : Str) (p : Parts) : finish d ⟨s, u, 5, 6⟩ p =
    if p.v2 = 0 then .int128 (.const .longLongSignedInt p.str2 p.v2) (.const (kindTab u 5) p.str p.v) else .int128 (.const (kindTab u 5) p.str p.v) (.const .longLongSignedInt p.str2 p.v2) := by
  unfold finish
  simp

theorem value128 {h l : Res} {a b : Nat} (ha : h.raw = a) (hb : l.raw = b) (la : a < 2 ^ 64) (lb : b < 2 ^ 64) : (Res.int128 h l).value = (a * 2 ^ 64 + b : Nat) := by
  have e : (Res.int128 h l).raw = (a * 2 ^ 64 + b : Nat) := by
    rw [Res.raw, ha, hb, toInt_id r_ul (by simp only; omega), toInt_id r_ul (by simp only; omega)]
    have := toInt_id (v := a * 2 ^ 64 + b) r_u128 (by simp only; omega)
    rw [← this]; congr 1
  exact value_basic rfl e r_u128 (by simp only; omega)

/-- The halves are put together in the right order. -/
theorem halves {d u : Bool} {s : Str} {p : Parts} {hi lo V : Nat} (h1 : cNumber p.str = hi) (h2 : cNumber p.str2 = lo) (lhi : hi < 2 ^ 64) (llo : lo < 2 ^ 64)
    (hV : (if p.v2 = 0 then lo * 2 ^ 64 + hi else hi * 2 ^ 64 + lo) = V) :
    (finish d ⟨s, u, 5, 6⟩ p).type = .basic .unsignedInt128 ∧ (finish d ⟨s, u, 5, 6⟩ p).value = V := by
  rw [finish128]
  have r1 : ∀ k v, (Res.const k p.str v).raw = hi := fun k v => by rw [Res.raw, h1]
  have r2 : ∀ k v, (Res.const k p.str2 v).raw = lo := fun k v => by rw [Res.raw, h2]
  by_cases h : p.v2 = 0
  · rw [if_pos h] at hV ⊢
    exact ⟨rfl, by rw [value128 (r2 _ _) (r1 _ _) llo lhi, hV]⟩
  · rw [if_neg h] at hV ⊢
    exact ⟨rfl, by rw [value128 (r1 _ _) (r2 _ _) lhi llo, hV]⟩

theorem tail_app_nil {r : Nat} {ds : Str} (h : Digs r ds) : leading r ds = number r ds := by
  have := leading_append h tail_nil
  rwa [List.append_nil] at this

theorem number_split (r : Nat) (ds : Str) (n : Nat) : number r ds = number r (ds.take n) * r ^ (ds.length - n) + number r (ds.drop n) := by
  have := number_append r (ds.take n) (ds.drop n)
  rwa [List.take_append_drop, List.length_drop] at this

/-- The halves of a number. -/
theorem order {V hi lo v2 : Nat} (e : V = hi * 2 ^ 64 + lo) (hlo : lo < 2 ^ 64) (hl : V < 2 ^ 64 ∨ V % 2 ^ 64 ≠ 0) (h2 : v2 = 0 → lo = 0) : (if v2 = 0 then lo * 2 ^ 64 + hi else hi * 2 ^ 64 + lo) = V := by
  by_cases h : v2 = 0
  · rw [if_pos h]
    have := h2 h
    omega
  · rw [if_neg h, e]

theorem hex128 {c : Lit} (hv : c.Valid) (hb : c.base = .hex) (hf : c.Fits128) : ∃ p hi lo, hexParts (c.prefix ++ c.digits) 5 = some p ∧ cNumber p.str = hi ∧ cNumber p.str2 = lo ∧
    hi < 2 ^ 64 ∧ lo < 2 ^ 64 ∧ (if p.v2 = 0 then lo * 2 ^ 64 + hi else hi * 2 ^ 64 + lo) = c.value := by
  have hd : Digs 16 c.digits := by have := digs_of hv; rw [hb] at this; exact this
  have hs := hf.size
  rw [hb] at hs
  change c.digits.length ≤ 32 at hs
  have hp : c.prefix ++ c.digits = '0' :: letter 'x' 'X' c.up :: c.digits := by rw [Lit.prefix, hb]; rfl
  have hval : c.value = number 16 c.digits := by rw [Lit.value, hb]; rfl
  have hc : ∀ t : Str, cNumber ('0' :: letter 'x' 'X' c.up :: t) = leading 16 t := fun t => by cases c.up <;> rfl
  rw [hp, hexParts, if_neg (by decide), if_neg (by simp only [List.length_cons]; omega)]
  by_cases h : c.digits.length ≤ 16
  · rw [if_neg (by simp only [List.length_cons]; omega)]
    have := number_lt hd
    have hlt : 16 ^ c.digits.length ≤ 16 ^ 16 := Nat.pow_le_pow_right (by decide) h
    refine ⟨_, number 16 c.digits, 0, rfl, by rw [one', hc, tail_app_nil hd], (show cNumber ['0', 'x', '0'] = 0 by decide), by omega, by decide, ?_⟩
    rw [one', if_pos rfl, hval]; omega
  · rw [if_pos (by simp only [List.length_cons]; omega)]
    obtain ⟨n, hn⟩ : ∃ n, c.digits.length = n + 16 := ⟨c.digits.length - 16, by omega⟩
    have e1 : ('0' :: letter 'x' 'X' c.up :: c.digits).length - 16 = n + 1 + 1 := by simp only [List.length_cons]; omega
    rw [e1]
    simp only [List.take_succ_cons, List.drop_succ_cons]
    have d1 := hd.take n
    have d2 := hd.drop n
    have l1 : (c.digits.take n).length = n := by rw [List.length_take]; omega
    have l2 : (c.digits.drop n).length = 16 := by rw [List.length_drop]; omega
    have b1 := number_lt d1
    have b2 := number_lt d2
    rw [l1] at b1
    rw [l2] at b2
    have hpow : 16 ^ n ≤ 16 ^ 16 := Nat.pow_le_pow_right (by decide) (by omega)
    have sp := number_split 16 c.digits n
    rw [show c.digits.length - n = 16 by omega] at sp
    refine ⟨_, number 16 (c.digits.take n), number 16 (c.digits.drop n), rfl, by rw [hc, tail_app_nil d1], ?_, by omega, by omega, ?_⟩
    · show leading 16 _ = _
      rw [tail_app_nil d2]
    · refine order (by rw [hval, sp]) (by omega) hf.low ?_
      have : scanHex ('0' :: 'x' :: c.digits.drop n) = number 16 (c.digits.drop n) := by
        show scan 16 _ = _
        exact scan_eq (by decide) d2 (by omega)
      rw [this]; exact id

theorem bin128 {c : Lit} (hv : c.Valid) (hb : c.base = .bin) (hf : c.Fits128) : ∃ p hi lo, binParts (c.prefix ++ c.digits) 5 = some p ∧ cNumber p.str = hi ∧ cNumber p.str2 = lo ∧
    hi < 2 ^ 64 ∧ lo < 2 ^ 64 ∧ (if p.v2 = 0 then lo * 2 ^ 64 + hi else hi * 2 ^ 64 + lo) = c.value := by
  have hd : Digs 2 c.digits := by have := digs_of hv; rw [hb] at this; exact this
  have hs := hf.size
  rw [hb] at hs
  change c.digits.length ≤ 128 at hs
  have hp : c.prefix ++ c.digits = '0' :: letter 'b' 'B' c.up :: c.digits := by rw [Lit.prefix, hb]; rfl
  have hval : c.value = number 2 c.digits := by rw [Lit.value, hb]; rfl
  have hc : ∀ t : Str, cNumber ('0' :: letter 'b' 'B' c.up :: t) = leading 2 t := fun t => by cases c.up <;> rfl
  rw [hp, binParts]
  by_cases h : c.digits.length ≤ 64
  · rw [if_neg (by simp only [List.length_cons]; omega)]
    have := number_lt hd
    have hlt : 2 ^ c.digits.length ≤ 2 ^ 64 := Nat.pow_le_pow_right (by decide) h
    refine ⟨_, number 2 c.digits, 0, rfl, by rw [one', hc, tail_app_nil hd], (show cNumber ['0', 'x', '0'] = 0 by decide), by omega, by decide, ?_⟩
    rw [one', if_pos rfl, hval]; omega
  · rw [if_pos ⟨rfl, by simp only [List.length_cons]; omega⟩, if_neg (by simp only [List.length_cons]; omega)]
    obtain ⟨n, hn⟩ : ∃ n, c.digits.length = n + 64 := ⟨c.digits.length - 64, by omega⟩
    have e1 : ('0' :: letter 'b' 'B' c.up :: c.digits).length - 64 = n + 1 + 1 := by simp only [List.length_cons]; omega
    rw [e1]
    simp only [List.take_succ_cons, List.drop_succ_cons]
    have d1 := hd.take n
    have d2 := hd.drop n
    have l1 : (c.digits.take n).length = n := by rw [List.length_take]; omega
    have l2 : (c.digits.drop n).length = 64 := by rw [List.length_drop]; omega
    have b1 := number_lt d1
    have b2 := number_lt d2
    rw [l1] at b1
    rw [l2] at b2
    have hpow : 2 ^ n ≤ 2 ^ 64 := Nat.pow_le_pow_right (by decide) (by omega)
    have sp := number_split 2 c.digits n
    rw [show c.digits.length - n = 64 by omega] at sp
    refine ⟨_, number 2 (c.digits.take n), number 2 (c.digits.drop n), rfl, by rw [hc, tail_app_nil d1], ?_, by omega, by omega, ?_⟩
    · show leading 2 _ = _
      rw [tail_app_nil d2]
    · refine order (by rw [hval, sp]) b2 hf.low ?_
      have hsc := scanbin_eq (b := 'b') (t := []) (by intro e; rw [e] at l2; cases l2) d2 tail_nil (by omega)
      rw [List.append_nil, l2, List.length_nil, show bits 64 0 = 62 by decide] at hsc
      rw [hsc]
      have sp2 := number_split 2 (c.digits.drop n) 62
      rw [l2] at sp2
      have b3 := number_lt (d2.drop 62)
      rw [List.length_drop, l2] at b3
      have := hf.bin hb
      intro h0
      simp only at h0
      rw [hval] at this
      omega

theorem or_split {i D r : Nat} (h : r < 2 ^ i) : (D * 2 ^ i + r) ||| D * 2 ^ i = D * 2 ^ i + r := by
  have := Nat.two_pow_add_eq_or_of_lt h D
  rw [Nat.mul_comm] at this
  rw [this, Nat.or_comm, ← Nat.or_assoc, Nat.or_self]

theorem or_add {i D r : Nat} (h : r < 2 ^ i) : r ||| D * 2 ^ i = D * 2 ^ i + r := by
  have := Nat.two_pow_add_eq_or_of_lt h D
  rw [Nat.mul_comm] at this
  rw [this, Nat.or_comm]

theorem hexParts128 {V : Nat} (h : V < 2 ^ 128) (hl : V < 2 ^ 64 ∨ V % 2 ^ 64 ≠ 0) :
    cNumber (printHex (V / 2 ^ 64)) = V / 2 ^ 64 ∧ cNumber (printHex (V % 2 ^ 64)) = V % 2 ^ 64 ∧ V / 2 ^ 64 < 2 ^ 64 ∧ V % 2 ^ 64 < 2 ^ 64 ∧
      (if V % 2 ^ 64 = 0 then V % 2 ^ 64 * 2 ^ 64 + V / 2 ^ 64 else V / 2 ^ 64 * 2 ^ 64 + V % 2 ^ 64) = V := by
  have h1 : V / 2 ^ 64 < 2 ^ 64 := by omega
  have h2 : V % 2 ^ 64 < 2 ^ 64 := by omega
  exact ⟨cNumber_printHex h1, cNumber_printHex h2, h1, h2, order (by omega) h2 hl id⟩

theorem oct128 {c : Lit} (hv : c.Valid) (hb : c.base = .oct) (hf : c.Fits128) : ∃ p hi lo, octParts (c.prefix ++ c.digits) 5 = some p ∧ cNumber p.str = hi ∧ cNumber p.str2 = lo ∧
    hi < 2 ^ 64 ∧ lo < 2 ^ 64 ∧ (if p.v2 = 0 then lo * 2 ^ 64 + hi else hi * 2 ^ 64 + lo) = c.value := by
  have hd : Digs 8 c.digits := by have := digs_of hv; rw [hb] at this; exact this
  have hs := hf.size
  rw [hb] at hs
  change c.digits.length ≤ 43 at hs
  have hp : c.prefix ++ c.digits = '0' :: c.digits := by rw [Lit.prefix, hb]; rfl
  have hval : c.value = number 8 c.digits := by rw [Lit.value, hb]; rfl
  have hlim := hf.oct hb
  rw [hp]
  unfold octParts
  simp only
  rw [if_neg (by decide), if_neg (by
    rintro (h | h)
    · simp only [List.length_cons] at h; omega
    · exact absurd h.2 (by rw [at0]; decide))]
  by_cases h : c.digits.length ≤ 21
  · rw [if_pos (by simp only [List.length_cons]; omega)]
    have := number_lt hd
    have hlt : 8 ^ c.digits.length ≤ 8 ^ 21 := Nat.pow_le_pow_right (by decide) h
    have e : scan 8 ('0' :: c.digits) = number 8 c.digits := by
      rw [scan_eq (by decide) (digs_zero_cons (by decide) hd) (by rw [number_zero_cons]; omega), number_zero_cons]
    rw [e]
    refine ⟨_, number 8 c.digits, 0, rfl, by rw [one', cNumber_printHex (by omega)], (show cNumber ['0', 'x', '0'] = 0 by decide), by omega, by decide, ?_⟩
    rw [one', if_pos rfl, hval]; omega
  · rw [if_neg (by simp only [List.length_cons]; omega)]
    obtain ⟨n, hn⟩ : ∃ n, c.digits.length = n + 21 := ⟨c.digits.length - 21, by omega⟩
    have hlen : ('0' :: c.digits).length = n + 22 := by simp only [List.length_cons]; omega
    rw [hlen, show n + 22 - 21 = n + 1 by omega, show ('0' :: c.digits).take (n + 1) = '0' :: c.digits.take n from rfl, show ('0' :: c.digits).drop (n + 1) = c.digits.drop n from rfl]
    have d1 := hd.take n
    have d2 := hd.drop n
    have l2 : (c.digits.drop n).length = 21 := by rw [List.length_drop]; omega
    have b2 := number_lt d2
    rw [l2] at b2
    have sp := number_split 8 c.digits n
    rw [show c.digits.length - n = 21 by omega] at sp
    rw [hval] at hlim
    have b1 : number 8 (c.digits.take n) < 2 ^ 64 := by omega
    have s2 : scan 8 (c.digits.drop n) = number 8 (c.digits.drop n) := scan_eq (by decide) d2 (by omega)
    have s1 : scan 8 (List.drop (if n + 22 = 43 then 1 else 0) ('0' :: c.digits.take n)) = number 8 (c.digits.take n) := by
      split
      · exact scan_eq (by decide) d1 b1
      · rw [List.drop_zero, scan_eq (by decide) (digs_zero_cons (by decide) d1) (by rw [number_zero_cons]; exact b1), number_zero_cons]
    rw [s1, s2]
    have e1 : number 8 (c.digits.drop n) ||| number 8 (c.digits.take n) * 2 ^ 63 % 2 ^ 128 = number 8 c.digits := by
      rw [Nat.mod_eq_of_lt (by omega), or_add (by omega), sp]
    rw [e1]
    have e2 : (if n + 22 = 1 + 43 then number 8 c.digits ||| scan 8 (List.drop 1 (List.take 2 ('0' :: c.digits))) * 2 ^ 126 % 2 ^ 128 else number 8 c.digits) = number 8 c.digits := by
      split
      · rename_i h44
        have d3 := hd.take 1
        have b3 := number_lt d3
        rw [List.length_take, show min 1 c.digits.length = 1 by omega] at b3
        rw [show List.drop 1 (List.take 2 ('0' :: c.digits)) = c.digits.take 1 from rfl, scan_eq (by decide) d3 (by omega)]
        have sp3 := number_split 8 c.digits 1
        rw [show c.digits.length - 1 = 42 by omega] at sp3
        have b4 := number_lt (hd.drop 1)
        rw [List.length_drop, show c.digits.length - 1 = 42 by omega] at b4
        rw [Nat.mod_eq_of_lt (by omega), sp3, show (8 : Nat) ^ 42 = 2 ^ 126 by decide]
        exact or_split (by rw [show (2 : Nat) ^ 126 = 8 ^ 42 by decide]; exact b4)
      · rfl
    rw [e2]
    obtain ⟨a1, a2, a3, a4, a5⟩ := hexParts128 (V := number 8 c.digits) (by omega) (by rw [← hval]; exact hf.low)
    exact ⟨_, _, _, rfl, a1, a2, a3, a4, by rw [hval]; exact a5⟩

theorem dec_char {ch : Char} {d : Nat} (h : digitOf ch = some d) (hd : d < 10) : ch.toNat = 48 + d := by
  unfold digitOf at h
  split at h <;> first | (simp only [Option.some.injEq] at h; subst h; first | rfl | omega) | simp at h

theorem gtStr_lt : ∀ (a b : Str), a.length = b.length → Digs 10 a → Digs 10 b → gtStr a b = true → number 10 b < number 10 a := by
  intro a
  induction a with
  | nil => intro b hl _ _ h; cases b <;> simp [gtStr] at h
  | cons x a ih =>
    intro b hl ha hb h
    cases b with
    | nil => simp at hl
    | cons y b =>
      have hl' : a.length = b.length := by simpa using hl
      obtain ⟨dx, ex, lx⟩ := ha.head
      obtain ⟨dy, ey, ly⟩ := hb.head
      rw [number_cons, number_cons, ex, ey, Option.getD_some, Option.getD_some, hl']
      rw [gtStr] at h
      by_cases hxy : x = y
      · rw [if_pos hxy] at h
        have := ih b hl' ha.tail hb.tail h
        subst hxy
        rw [ex] at ey
        cases ey
        omega
      · rw [if_neg hxy] at h
        have hlt : y < x := by simpa using h
        have : y.toNat < x.toNat := hlt
        rw [dec_char ex lx, dec_char ey ly] at this
        have nb := number_lt hb.tail
        have : (dy + 1) * 10 ^ b.length ≤ dx * 10 ^ b.length := Nat.mul_le_mul_right _ (by omega)
        rw [Nat.add_mul, Nat.one_mul] at this
        omega

theorem limit_facts (u : Bool) : Digs 10 (if u then "340282366920938463463374607431768211455".toList else "170141183460469231731687303715884105727".toList) ∧
    (if u then "340282366920938463463374607431768211455".toList else "170141183460469231731687303715884105727".toList).length = 39 ∧
    number 10 (if u then "340282366920938463463374607431768211455".toList else "170141183460469231731687303715884105727".toList) + 1 = if u then 2 ^ 128 else 2 ^ 127 := by
  have key : ∀ s : Str, (s.all fun ch => match digitOf ch with | some d => decide (d < 10) | none => false) = true → Digs 10 s := by
    intro s h ch hc
    have := List.all_eq_true.1 h ch hc
    cases hd : digitOf ch with
    | none => rw [hd] at this; simp at this
    | some d => rw [hd] at this; exact ⟨d, rfl, by simpa using this⟩
  cases u <;> exact ⟨key _ (by decide +kernel), by decide +kernel, by decide +kernel⟩

theorem dec128 {c : Lit} (hv : c.Valid) (hb : c.base = .dec) (hf : c.Fits128) : ∃ p hi lo, decParts (c.prefix ++ c.digits) 5 c.suffix.HasU = some p ∧ cNumber p.str = hi ∧ cNumber p.str2 = lo ∧
    hi < 2 ^ 64 ∧ lo < 2 ^ 64 ∧ (if p.v2 = 0 then lo * 2 ^ 64 + hi else hi * 2 ^ 64 + lo) = c.value := by
  have hd : Digs 10 c.digits := by have := digs_of hv; rw [hb] at this; exact this
  have hs := hf.size
  rw [hb] at hs
  change c.digits.length ≤ 39 at hs
  have hp : c.prefix ++ c.digits = c.digits := by rw [Lit.prefix, hb]; rfl
  have hval : c.value = number 10 c.digits := by rw [Lit.value, hb]; rfl
  have hlim := hf.dec hb
  rw [hval] at hlim
  have hlim' : number 10 c.digits < 2 ^ 128 := by
    revert hlim; cases c.suffix.HasU <;> simp <;> omega
  rw [hp]
  unfold decParts
  simp only
  rw [if_neg (by decide), if_neg (by
    rintro ⟨h, g⟩
    obtain ⟨f1, f2, f3⟩ := limit_facts c.suffix.HasU
    have := gtStr_lt _ _ (by rw [h, f2]) hd f1 g
    omega)]
  by_cases h : c.digits.length ≤ 19
  · rw [if_pos h]
    have := number_lt hd
    have hlt : 10 ^ c.digits.length ≤ 10 ^ 19 := Nat.pow_le_pow_right (by decide) h
    have e : scan 10 c.digits = number 10 c.digits := scan_eq (by decide) hd (by omega)
    rw [e]
    refine ⟨_, number 10 c.digits, 0, rfl, by rw [one', cNumber_printHex (by omega)], (show cNumber ['0', 'x', '0'] = 0 by decide), by omega, by decide, ?_⟩
    rw [one', if_pos rfl, hval]; omega
  · rw [if_neg h]
    obtain ⟨n, hn⟩ : ∃ n, c.digits.length = n + 19 := ⟨c.digits.length - 19, by omega⟩
    rw [hn, show n + 19 - 19 = n by omega]
    have d2 := hd.drop n
    have l2 : (c.digits.drop n).length = 19 := by rw [List.length_drop]; omega
    have b2 := number_lt d2
    rw [l2] at b2
    have sp := number_split 10 c.digits n
    rw [show c.digits.length - n = 19 by omega] at sp
    have s2 : scan 10 (c.digits.drop n) = number 10 (c.digits.drop n) := scan_eq (by decide) d2 (by omega)
    rw [s2]
    have fin : ∀ val, val = number 10 c.digits → ∃ p hi lo, some (⟨printHex (val / 2 ^ 64), val / 2 ^ 64, printHex (val % 2 ^ 64), val % 2 ^ 64⟩ : Parts) = some p ∧ cNumber p.str = hi ∧
        cNumber p.str2 = lo ∧ hi < 2 ^ 64 ∧ lo < 2 ^ 64 ∧ (if p.v2 = 0 then lo * 2 ^ 64 + hi else hi * 2 ^ 64 + lo) = c.value := by
      intro val e
      subst e
      obtain ⟨a1, a2, a3, a4, a5⟩ := hexParts128 hlim' (by rw [← hval]; exact hf.low)
      exact ⟨_, _, _, rfl, a1, a2, a3, a4, by rw [hval]; exact a5⟩
    apply fin
    by_cases h39 : n + 19 = 39
    · rw [if_pos h39, if_pos h39]
      have d3 := (hd.take n).drop 1
      have l3 : ((c.digits.take n).drop 1).length = 19 := by rw [List.length_drop, List.length_take]; omega
      have b3 := number_lt d3
      rw [l3] at b3
      have d4 := hd.take 1
      have b4 := number_lt d4
      rw [List.length_take, show min 1 c.digits.length = 1 by omega] at b4
      have sp3 := number_split 10 (c.digits.take n) 1
      rw [List.take_take, show min 1 n = 1 by omega, List.length_take, show min n c.digits.length - 1 = 19 by omega] at sp3
      rw [scan_eq (by decide) d3 (by omega), scan_eq (by decide) d4 (by omega)]
      have e1 : (number 10 (c.digits.drop n) + number 10 ((c.digits.take n).drop 1) * 10 ^ 19) % 2 ^ 128 = number 10 (c.digits.drop n) + number 10 ((c.digits.take n).drop 1) * 10 ^ 19 :=
        Nat.mod_eq_of_lt (by omega)
      rw [e1, Nat.mod_eq_of_lt (by omega)]
      omega
    · rw [if_neg h39, if_neg h39, List.drop_zero]
      have b1 := number_lt (hd.take n)
      rw [List.length_take, show min n c.digits.length = n by omega] at b1
      have hpow : 10 ^ n ≤ 10 ^ 19 := Nat.pow_le_pow_right (by decide) (by omega)
      rw [scan_eq (by decide) (hd.take n) (by omega), Nat.mod_eq_of_lt (by omega)]
      omega

theorem int128 {c : Lit} (hv : c.Valid) (h128 : c.suffix.Is128 = true) (hf : c.Fits128) :
    ∃ r, build c.text = some r ∧ r.type = .basic .unsignedInt128 ∧ r.value = c.value := by
  have htab := tab_128 _ h128
  have hsuf : suffix c.text = ⟨c.prefix ++ c.digits, c.suffix.HasU, 5, 6⟩ := by rw [suffix_text hv, tab_eq, htab, pre, List.append_nil]
  have hlen : 4 ≤ c.text.length := by
    have : 4 ≤ c.suffix.text.length := by
      generalize c.suffix = s at *
      rcases s with _ | _ | ⟨_, _ | ⟨_ | _ | _ | _ | _⟩ | _ | _ | _ | _⟩ | ⟨_, _, _ | ⟨_ | _ | _ | _ | _⟩ | _ | _ | _ | _⟩ |
        ⟨_, _, _ | ⟨_ | _ | _ | _ | _⟩ | _ | _ | _ | _⟩ | _ | a <;> first | (simp [Suffix.Is128] at h128; done) | (simp [Suffix.text, Len.text, Size.text]; done)
    rw [Lit.text, List.length_append]; omega
  have h0 : c.text ≠ ['0'] := fun e => by rw [e] at hlen; simp at hlen
  have h1 : c.text ≠ ['1'] := fun e => by rw [e] at hlen; simp at hlen
  have hpar : ∃ p hi lo, parts ⟨c.prefix ++ c.digits, c.suffix.HasU, 5, 6⟩ = some p ∧ cNumber p.str = hi ∧ cNumber p.str2 = lo ∧
      hi < 2 ^ 64 ∧ lo < 2 ^ 64 ∧ (if p.v2 = 0 then lo * 2 ^ 64 + hi else hi * 2 ^ 64 + lo) = c.value := by
    have hd := digs_of hv
    have hdec := body_dec hv []
    rw [List.append_nil] at hdec
    unfold parts
    simp only
    cases hb : c.base with
    | dec =>
      rw [hb] at hdec
      rw [if_neg (by simpa using hdec)]
      exact dec128 hv hb hf
    | oct =>
      rw [hb] at hd
      have hp : c.prefix ++ c.digits = '0' :: c.digits := by rw [Lit.prefix, hb]; rfl
      have hx := oct_next hd tail_nil
      rw [List.append_nil] at hx
      have h1 : ∀ q : Char, q ≠ '\x00' → (∀ ch ∈ c.digits.head?, ch ≠ q) → at' ('0' :: c.digits) 1 ≠ q := by
        intro q hq h
        cases hl : c.digits with
        | nil => exact fun e => hq e.symm
        | cons a l => rw [hl] at h; exact h a rfl
      have := oct128 hv hb hf
      rw [hp] at this ⊢
      rw [at0, if_pos rfl, if_neg (fun e => e.elim (h1 _ (by decide) (fun ch hc => (hx ch hc).1)) (h1 _ (by decide) (fun ch hc => (hx ch hc).2.1))),
        if_neg (fun e => e.elim (h1 _ (by decide) (fun ch hc => (hx ch hc).2.2.1)) (h1 _ (by decide) (fun ch hc => (hx ch hc).2.2.2)))]
      exact this
    | hex =>
      have hp : c.prefix ++ c.digits = '0' :: letter 'x' 'X' c.up :: c.digits := by rw [Lit.prefix, hb]; rfl
      have := hex128 hv hb hf
      rw [hp] at this ⊢
      rw [at0, if_pos rfl, at1, if_pos (show letter 'x' 'X' c.up = 'x' ∨ letter 'x' 'X' c.up = 'X' by cases c.up <;> decide)]
      exact this
    | bin =>
      have hp : c.prefix ++ c.digits = '0' :: letter 'b' 'B' c.up :: c.digits := by rw [Lit.prefix, hb]; rfl
      have := bin128 hv hb hf
      rw [hp] at this ⊢
      rw [at0, if_pos rfl, at1, if_neg (show ¬ (letter 'b' 'B' c.up = 'x' ∨ letter 'b' 'B' c.up = 'X') by cases c.up <;> decide),
        if_pos (show letter 'b' 'B' c.up = 'b' ∨ letter 'b' 'B' c.up = 'B' by cases c.up <;> decide)]
      exact this
  obtain ⟨p, hi, lo, e, e1, e2, l1, l2, e3⟩ := hpar
  refine ⟨_, by rw [build, if_neg h0, if_neg h1]; simp only [hsuf, e, Option.map_some]; rfl, ?_⟩
  exact halves e1 e2 l1 l2 e3

theorem lt_gtStr : ∀ (a b : Str), a.length = b.length → Digs 10 a → Digs 10 b → number 10 b < number 10 a → gtStr a b = true := by
  intro a
  induction a with
  | nil => intro b hl _ _ h; cases b with
    | nil => omega
    | cons y b => simp at hl
  | cons x a ih =>
    intro b hl ha hb h
    cases b with
    | nil => simp at hl
    | cons y b =>
      have hl' : a.length = b.length := by simpa using hl
      obtain ⟨dx, ex, lx⟩ := ha.head
      obtain ⟨dy, ey, ly⟩ := hb.head
      rw [number_cons, number_cons, ex, ey, Option.getD_some, Option.getD_some, hl'] at h
      rw [gtStr]
      by_cases hxy : x = y
      · rw [if_pos hxy]
        subst hxy
        rw [ex] at ey
        cases ey
        exact ih b hl' ha.tail hb.tail (by omega)
      · rw [if_neg hxy, decide_eq_true_eq]
        show y.toNat < x.toNat
        rw [dec_char ex lx, dec_char ey ly]
        apply Nat.lt_of_not_le
        intro hle
        rcases Nat.lt_or_eq_of_le hle with hlt | heq
        · have na := number_lt ha.tail
          rw [hl'] at na
          have : (dx + 1) * 10 ^ b.length ≤ dy * 10 ^ b.length := Nat.mul_le_mul_right _ (by omega)
          rw [Nat.add_mul, Nat.one_mul] at this
          omega
        · apply hxy
          have : x.toNat = y.toNat := by rw [dec_char ex lx, dec_char ey ly]; omega
          exact Char.toNat_inj.1 this

/-- Constants of 128 bits with too many digits, and decimal ones of 39 digits past the limit, are rejected. -/
theorem rejected {c : Lit} (hv : c.Valid) (h128 : c.suffix.Is128 = true) (h : (c.base ≠ .dec ∧ c.base.most < c.digits.length) ∨
    (c.base = .dec ∧ c.digits.length = 39 ∧ (if c.suffix.HasU then 2 ^ 128 else 2 ^ 127) ≤ c.value)) : build c.text = none := by
  have htab := tab_128 _ h128
  have hsuf : suffix c.text = ⟨c.prefix ++ c.digits, c.suffix.HasU, 5, 6⟩ := by rw [suffix_text hv, tab_eq, htab, pre, List.append_nil]
  have hlen : 4 ≤ c.text.length := by
    have : 4 ≤ c.suffix.text.length := by
      generalize c.suffix = s at *
      rcases s with _ | _ | ⟨_, _ | ⟨_ | _ | _ | _ | _⟩ | _ | _ | _ | _⟩ | ⟨_, _, _ | ⟨_ | _ | _ | _ | _⟩ | _ | _ | _ | _⟩ |
        ⟨_, _, _ | ⟨_ | _ | _ | _ | _⟩ | _ | _ | _ | _⟩ | _ | a <;> first | (simp [Suffix.Is128] at h128; done) | (simp [Suffix.text, Len.text, Size.text]; done)
    rw [Lit.text, List.length_append]; omega
  have h0 : c.text ≠ ['0'] := fun e => by rw [e] at hlen; simp at hlen
  have h1 : c.text ≠ ['1'] := fun e => by rw [e] at hlen; simp at hlen
  rw [build, if_neg h0, if_neg h1]
  simp only [hsuf]
  suffices hpar : parts ⟨c.prefix ++ c.digits, c.suffix.HasU, 5, 6⟩ = none by rw [hpar]; rfl
  have hd := digs_of hv
  have hdec := body_dec hv []
  rw [List.append_nil] at hdec
  unfold parts
  simp only
  cases hb : c.base with
  | dec =>
    rw [hb] at hdec hd
    have ⟨h39, hbig⟩ : c.digits.length = 39 ∧ (if c.suffix.HasU then 2 ^ 128 else 2 ^ 127) ≤ c.value := by
      rcases h with h | h
      · exact absurd hb h.1
      · exact h.2
    rw [if_neg (by simpa using hdec)]
    have hp : c.prefix ++ c.digits = c.digits := by rw [Lit.prefix, hb]; rfl
    rw [hp]
    unfold decParts
    simp only
    obtain ⟨f1, f2, f3⟩ := limit_facts c.suffix.HasU
    have hval : c.value = number 10 c.digits := by rw [Lit.value, hb]; rfl
    rw [if_neg (by decide), if_pos ⟨h39, lt_gtStr _ _ (by rw [h39, f2]) hd f1 (by omega)⟩]
  | oct =>
    rw [hb] at hd h
    have hl : 43 < c.digits.length := by rcases h with h | h; exact h.2; exact absurd h.1 (by decide)
    have hp : c.prefix ++ c.digits = '0' :: c.digits := by rw [Lit.prefix, hb]; rfl
    have hx := oct_next hd tail_nil
    rw [List.append_nil] at hx
    have h1 : ∀ q : Char, q ≠ '\x00' → (∀ ch ∈ c.digits.head?, ch ≠ q) → at' ('0' :: c.digits) 1 ≠ q := by
      intro q hq h
      cases hl : c.digits with
      | nil => exact fun e => hq e.symm
      | cons a l => rw [hl] at h; exact h a rfl
    rw [hp, at0, if_pos rfl, if_neg (fun e => e.elim (h1 _ (by decide) (fun ch hc => (hx ch hc).1)) (h1 _ (by decide) (fun ch hc => (hx ch hc).2.1))),
      if_neg (fun e => e.elim (h1 _ (by decide) (fun ch hc => (hx ch hc).2.2.1)) (h1 _ (by decide) (fun ch hc => (hx ch hc).2.2.2)))]
    unfold octParts
    simp only
    rw [if_neg (by decide), if_pos (Or.inl (by simp only [List.length_cons]; omega))]
  | hex =>
    rw [hb] at h
    have hl : 32 < c.digits.length := by rcases h with h | h; exact h.2; exact absurd h.1 (by decide)
    have hp : c.prefix ++ c.digits = '0' :: letter 'x' 'X' c.up :: c.digits := by rw [Lit.prefix, hb]; rfl
    rw [hp, at0, if_pos rfl, at1, if_pos (show letter 'x' 'X' c.up = 'x' ∨ letter 'x' 'X' c.up = 'X' by cases c.up <;> decide)]
    rw [hexParts, if_neg (by decide), if_pos (by simp only [List.length_cons]; omega)]
  | bin =>
    rw [hb] at h
    have hl : 128 < c.digits.length := by rcases h with h | h; exact h.2; exact absurd h.1 (by decide)
    have hp : c.prefix ++ c.digits = '0' :: letter 'b' 'B' c.up :: c.digits := by rw [Lit.prefix, hb]; rfl
    rw [hp, at0, if_pos rfl, at1, if_neg (show ¬ (letter 'b' 'B' c.up = 'x' ∨ letter 'b' 'B' c.up = 'X') by cases c.up <;> decide),
      if_pos (show letter 'b' 'B' c.up = 'b' ∨ letter 'b' 'B' c.up = 'B' by cases c.up <;> decide)]
    rw [binParts, if_pos ⟨rfl, by simp only [List.length_cons]; omega⟩, if_pos (by simp only [List.length_cons]; omega)]

/-- A literal is valid, to be evaluated. -/
def Lit.validB (c : Lit) : Bool :=
  (c.digits.all fun ch => match digitOf ch with | some d => decide (d < c.base.radix) | none => false) && (c.base != .dec || c.digits.head? != some '0') && (c.base == .oct || ! c.digits.isEmpty)

theorem valid_of {c : Lit} (h : c.validB = true) : c.Valid := by
  simp only [Lit.validB, Bool.and_eq_true] at h
  obtain ⟨⟨h1, h2⟩, h3⟩ := h
  refine ⟨fun ch hc => ?_, fun hb => ?_, fun hb => ?_⟩
  · have := List.all_eq_true.1 h1 ch hc
    cases hd : digitOf ch with
    | none => rw [hd] at this; simp at this
    | some d => rw [hd] at this; exact ⟨d, hd, by simpa using this⟩
  · rw [hb] at h2; simpa using h2
  · intro e; rw [e] at h3; simp at h3; exact hb h3

end Verif.IntLit
