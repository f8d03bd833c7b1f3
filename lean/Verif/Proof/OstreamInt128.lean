import Verif.Proof.OstreamInt

/-! # Printing 128-bit integers: proofs -/

namespace Verif.OstreamInt

open Verif.Ostream Spec

theorem Base.radix_ge (b : Base) : 2 ≤ b.radix := by cases b <;> decide
theorem Base.radix_le (b : Base) : b.radix ≤ 16 := by cases b <;> decide

/-! ## Layouts of a number split after its first digits -/

/-- `R'` asks for the digits of `R` but the last `L`, in the same way. -/
structure Cut (R R' : Req) (L : Nat) : Prop where
  base : R'.base = R.base
  upper : R'.upper = R.upper
  neg : R'.neg = R.neg
  left : R'.left = R.left
  nobase : R'.nobase = R.nobase
  plus : R'.plus = R.plus
  pad0 : R'.pad0 = R.pad0
  big : R.base.radix ^ L ≤ R.mag
  mag : R'.mag = R.mag / R.base.radix ^ L
  pc : R'.pc.getD 0 = R.pc.getD 0 - L

theorem body_split {R R' : Req} {L : Nat} (C : Cut R R' L) :
    R.body = R'.body ++ fixed R.upper R.base.radix L R.mag := by
  have hb := Base.radix_ge R.base
  have hb' := Base.radix_le R.base
  have hs : 0 < R.mag / R.base.radix ^ L := Nat.div_pos C.big (Nat.pow_pos (by omega))
  unfold Req.body
  rw [C.mag, C.base, C.upper, C.nobase, C.pc]
  simp only
  rw [numeral_split R.upper hb L R.mag C.big]
  have hne := numeral_ne_nil R.upper hb (R.mag / R.base.radix ^ L)
  generalize numeral R.upper R.base.radix (R.mag / R.base.radix ^ L) = N at *
  have hF := fixed_length R.upper R.base.radix L R.mag
  generalize fixed R.upper R.base.radix L R.mag = F at *
  have hk : R.pc.getD 0 - (N ++ F).length = R.pc.getD 0 - L - N.length := by
    rw [List.length_append, hF]; omega
  rw [hk]
  generalize R.pc.getD 0 - L - N.length = k
  have hh : (List.replicate k '0' ++ (N ++ F)).head? = (List.replicate k '0' ++ N).head? := by
    cases k with
    | zero =>
      cases N with
      | nil => exact absurd rfl hne
      | cons c cs => rfl
    | succ k => rfl
  rw [hh]
  split <;> simp

theorem body_length (R : Req) : 1 ≤ R.body.length := by
  have h := numeral_length_pos R.upper (Base.radix_ge R.base) R.mag
  unfold Req.body
  simp only
  split <;> simp only [List.length_cons, List.length_append, List.length_replicate] <;> omega

theorem front_eq {R R' : Req} {L : Nat} (C : Cut R R' L) : R'.front = R.front := by
  unfold Req.front
  rw [C.base, C.upper, C.nobase, C.plus, C.neg]

theorem layout_right {R R' : Req} {L : Nat} (C : Cut R R' L) (hl : R.left = false)
    (hp0 : R.pad0 = true → R.pc = none) (hpn : R.pc = none → R'.pc = none)
    (hwd : R'.wd - 1 = (R.wd - L) - 1) :
    R.layout = R'.layout ++ fixed R.upper R.base.radix L R.mag := by
  have hlen := body_length R'
  unfold Req.layout
  rw [body_split C, front_eq C, C.left, C.pad0]
  simp only [hl, Bool.false_eq_true, if_false]
  have hF := fixed_length R.upper R.base.radix L R.mag
  generalize fixed R.upper R.base.radix L R.mag = F at *
  have hpad : R.wd - (R.front.length + (R'.body ++ F).length) =
      R'.wd - (R.front.length + R'.body.length) := by
    rw [List.length_append, hF]; omega
  rw [hpad]
  by_cases hp : R.pad0 = true
  · have h1 := hp0 hp
    have h2 := hpn h1
    simp [hp, h1, h2]
  · simp [hp]

theorem layout_left {R R' : Req} {L : Nat} (C : Cut R R' L) (hl : R.left = true)
    (hwd : R'.wd = 1) :
    R.layout = R'.layout ++ (fixed R.upper R.base.radix L R.mag ++
        List.replicate (R.wd - ((R.front.length + R'.body.length) + L)) ' ') := by
  have hlen := body_length R'
  unfold Req.layout
  rw [body_split C, front_eq C, C.left, hwd]
  simp only [hl, if_true]
  have hF := fixed_length R.upper R.base.radix L R.mag
  generalize fixed R.upper R.base.radix L R.mag = F at *
  have h1 : 1 - (R.front.length + R'.body.length) = 0 := by omega
  have h2 : R.wd - (R.front.length + (R'.body ++ F).length) =
      R.wd - ((R.front.length + R'.body.length) + L) := by
    rw [List.length_append, hF]; omega
  rw [h1, h2]
  simp

/-- A precision of zero digits is no precision. -/
theorem layout_pc0 (R : Req) (h : R.pc = some 0) (hp : R.pad0 = true → R.left = true) :
    R.layout = ({ R with pc := none } : Req).layout := by
  unfold Req.layout Req.front Req.body
  simp only [h, Option.getD_some, Option.getD_none]
  cases hl : R.left
  · cases hp0 : R.pad0
    · simp
    · rw [hp hp0] at hl; cases hl
  · simp

/-! ## Chunks -/

/-- The four ways `base_128` is called. -/
structure Par (c : Char) (m bits : Nat) : Prop where
  conv : c ∈ convs
  mpos : 1 ≤ m
  pow : (baseOf c).radix ^ m ≤ 2 ^ 64
  bin : baseOf c = .bin → m = 64
  radix : baseOf c ≠ .dec → 1 ≤ bits ∧ (baseOf c).radix = 2 ^ bits
  hex : baseOf c = .hex → 2 ≤ m

/-- `r` can be printed by the 64-bit conversion `c` as a non-negative number. -/
def Fits (c : Char) (r : Nat) : Prop := r < 2 ^ 64 ∧ (c = 'd' → r < 2 ^ 63)

theorem Fits.neg {c : Char} {r : Nat} (h : Fits c r) : negOf 64 c r = false := by
  by_cases hc : c = 'd'
  · have := h.2 hc
    simp [negOf, hc]; omega
  · simp [negOf, hc]

theorem Fits.mag {c : Char} {r : Nat} (h : Fits c r) : magOf 64 c r = r := by
  simp [magOf, h.neg]

theorem len64 {r : Nat} (h : r < 2 ^ 64) : (numeral false 2 r).length ≤ 64 := by
  rcases Nat.eq_zero_or_pos r with h0 | h0
  · subst h0; decide
  · obtain ⟨_, h2⟩ := numeral_length false (b := 2) (by omega) r
    have h3 : (numeral false 2 r).length - 1 < 64 :=
      (Nat.pow_lt_pow_iff_right (by omega)).1 (Nat.lt_of_le_of_lt (h2 h0) h)
    omega

/-- A chunk after the first, justified to the right, is printed with exactly `m` digits. -/
theorem chunk_right {f : Manip} {m bits : Nat} (P : Par f.base m bits) (os : Os)
    (hl : f.left = false) (hp0 : f.pad0 = true) (hpc : f.pcF = false) (hwd : f.wd = m)
    (hs : f.sign = false) (hn : f.nobsdp = true) (hpc0 : 0 ≤ f.pc)
    (hr : f.val < (baseOf f.base).radix ^ m) (hf : Fits f.base f.val) :
    print64 os f =
      wrote os (fixed (f.base == 'B' || f.base == 'X') (baseOf f.base).radix m f.val) := by
  have ok : Ok64 f := by
    refine ⟨P.conv, hf.1, by omega, hpc0, by simp [hpc], by simp [hpc], by simp [hn]⟩
  rw [print64_eq ok, hf.neg, hf.mag]
  congr 1
  have hb := Base.radix_ge (baseOf f.base)
  rw [fixed_eq _ hb m f.val P.mpos hr]
  unfold Req.layout Req.front Req.body reqOf
  simp [hl, hp0, hpc, hs, hn, hwd]

/-- A chunk after the first, justified to the left, is printed with exactly `m` digits, and blanks
    up to the width. -/
theorem chunk_left {f : Manip} {m bits : Nat} (P : Par f.base m bits) (os : Os)
    (hl : f.left = true) (hpcF : f.pcF = true) (hpc : f.pc = m) (hwd : 0 ≤ f.wd)
    (hs : f.sign = false) (hn : f.nobsdp = true)
    (hr : f.val < (baseOf f.base).radix ^ m) (hf : Fits f.base f.val) :
    print64 os f =
      wrote os (fixed (f.base == 'B' || f.base == 'X') (baseOf f.base).radix m f.val ++
        List.replicate (f.wd.toNat - m) ' ') := by
  have hm := P.mpos
  have ok : Ok64 f := by
    refine ⟨P.conv, hf.1, hwd, by omega, by omega, ?_, by simp [hn]⟩
    intro h1 _
    have := len64 hf.1
    have := P.bin h1
    omega
  rw [print64_eq ok, hf.neg, hf.mag]
  congr 1
  have hb := Base.radix_ge (baseOf f.base)
  have hF := fixed_length (f.base == 'B' || f.base == 'X') (baseOf f.base).radix m f.val
  unfold Req.layout Req.front Req.body reqOf
  simp only [hl, hs, hn, hpcF, hpc, if_true, Bool.false_and, Bool.not_true,
    Bool.false_eq_true, false_and, and_false, if_false, Option.getD_some, Int.toNat_natCast,
    List.nil_append, List.append_nil, List.length_nil, Nat.zero_add]
  rw [← fixed_eq _ hb m f.val P.mpos hr, hF]

theorem wrote_nosep (os : Os) (a b : List Char) :
    wrote (nosep (wrote os a)) b = wrote os (a ++ b) := by
  simp [wrote, nosep]

/-! ## The start chunk -/

theorem ceilLog10From_eq {v l : Nat} (h1 : ∀ j, j < l → 10 ^ j < v) (h2 : v ≤ 10 ^ l) :
    ∀ fuel d, d ≤ l → l - d ≤ fuel → ceilLog10From v fuel d = l := by
  intro fuel
  induction fuel with
  | zero => intro d hd hf; simp only [ceilLog10From]; omega
  | succ k ih =>
    intro d hd hf
    rw [ceilLog10From]
    split
    · next h =>
      rcases Nat.lt_or_ge d l with h3 | h3
      · have := h1 d h3; omega
      · omega
    · next h =>
      have : d ≠ l := by rintro rfl; exact h h2
      exact ih (d + 1) (by omega) (by omega)

theorem ceilLog10_eq (u : Bool) {v : Nat} (h0 : 0 < v) (h : v < 2 ^ 64) (hp : ∀ k, v ≠ 10 ^ k) :
    ceilLog10 v = (numeral u 10 v).length := by
  obtain ⟨h1, h2⟩ := numeral_length u (b := 10) (by omega) v
  have h3 := h2 h0
  have h4 := numeral_length_pos u (b := 10) (by omega) v
  refine ceilLog10From_eq ?_ (Nat.le_of_lt h1) 20 0 (by omega) ?_
  · intro j hj
    have h5 : 10 ^ j ≤ v := Nat.le_trans (Nat.pow_le_pow_right (by omega) (by omega)) h3
    have h6 := hp j
    omega
  · have h5 : 10 ^ ((numeral u 10 v).length - 1) < 10 ^ 20 := by
      refine Nat.lt_of_le_of_lt h3 (Nat.lt_trans h (by decide))
    have h6 := (Nat.pow_lt_pow_iff_right (a := 10) (by omega)).1 h5
    omega

theorem high1_digits (u : Bool) {v bits : Nat} (h0 : 0 < v) (hb : 1 ≤ bits) :
    (high1 v + (bits - 1)) / bits = (numeral u (2 ^ bits) v).length := by
  rw [high1_pos h0]
  have h1 : (v.log2 + 1 + (bits - 1)) / bits = v.log2 / bits + 1 := by
    rw [show v.log2 + 1 + (bits - 1) = v.log2 + bits by omega, Nat.add_div_right _ (by omega)]
  rw [h1]
  symm
  have h2 : 2 ≤ 2 ^ bits := by
    calc 2 = 2 ^ 1 := rfl
      _ ≤ 2 ^ bits := Nat.pow_le_pow_right (by omega) hb
  refine numeral_length_eq u h2 ?_ ?_
  · rw [← Nat.pow_mul]
    exact Nat.le_trans (Nat.pow_le_pow_right (by omega) (Nat.mul_div_le _ _))
      (Nat.log2_self_le (by omega))
  · rw [← Nat.pow_mul]
    refine Nat.lt_of_lt_of_le Nat.lt_log2_self (Nat.pow_le_pow_right (by omega) ?_)
    have := Nat.lt_mul_div_succ v.log2 (b := bits) (by omega)
    omega

/-- `v` can be printed by the 64-bit conversion `c`, as a negative number if `neg`. -/
def FitsS (c : Char) (neg : Bool) (v : Nat) : Prop :=
  if neg then c = 'd' ∧ 1 ≤ v ∧ v ≤ 2 ^ 63 else Fits c v

theorem FitsS.lt {c : Char} {neg : Bool} {v : Nat} (h : FitsS c neg v) : v < 2 ^ 64 := by
  unfold FitsS at h
  split at h
  · omega
  · exact h.1

/-- Printing the magnitude in `f`, negated if `f.neg`. -/
theorem print_startNeg {f : Manip} (ok : Ok64 f) (hf : FitsS f.base f.neg f.val) (os : Os) :
    print64 os (startNeg f) = wrote os (reqOf f f.neg f.val).layout := by
  unfold startNeg
  cases hn : f.neg
  · simp only [FitsS, hn, Bool.false_eq_true, if_false] at hf ⊢
    rw [print64_eq ok, hf.neg, hf.mag]
  · simp only [FitsS, hn, if_true] at hf ⊢
    obtain ⟨hd, h1, h2⟩ := hf
    have hv : (2 ^ 64 - f.val) % 2 ^ 64 = 2 ^ 64 - f.val := Nat.mod_eq_of_lt (by omega)
    have ok' : Ok64 { f with val := (2 ^ 64 - f.val) % 2 ^ 64 } := by
      refine ⟨ok.conv, ?_, ok.wd, ok.pc, ?_, ?_, ?_⟩
      · exact Nat.mod_lt _ (by decide)
      · intro _ _; simp only; omega
      · intro h; simp [hd, baseOf] at h
      · intro h; simp [hd, baseOf] at h
    rw [hn] at ok'
    rw [print64_eq ok']
    have hneg : negOf 64 f.base ((2 ^ 64 - f.val) % 2 ^ 64) = true := by
      simp [negOf, hd]; omega
    have hmag : magOf 64 f.base ((2 ^ 64 - f.val) % 2 ^ 64) = f.val := by
      simp only [magOf, hneg, if_true]; omega
    simp only [hneg, hmag]
    rfl

/-- What is asked of the manipulator and of the start chunk `s` of a number. -/
structure OkStart (f : Manip) (m s cnt : Nat) : Prop where
  wd : 0 ≤ f.wd
  pc : 0 ≤ f.pc
  pos : cnt ≠ 0 → 1 ≤ s
  fits : FitsS f.base f.neg s
  zero : f.pcF = true → f.pc = 0 → s ≠ 0
  pad0 : f.pcF = true → f.pad0 = true → f.left = true
  bin : baseOf f.base = .bin → f.pcF = true →
    ((numeral false 2 s).length : Int) + (m * cnt : Nat) ≤ f.pc
  hex : baseOf f.base = .hex → f.nobsdp = false → s = 0 → f.left = false →
    (f.pad0 = true ∧ f.pcF = false) ∨ f.wd ≤ 2 + (if f.pcF then f.pc else 1)

/-- The manipulator with which the start chunk is printed, before negation. -/
def startF (f : Manip) (m bits s cnt : Nat) : Manip :=
  (startWd (startPc s f m cnt) m bits cnt).2

theorem startF_same (f : Manip) (m bits s cnt : Nat) :
    (startF f m bits s cnt).base = f.base ∧ (startF f m bits s cnt).neg = f.neg ∧
    (startF f m bits s cnt).left = f.left ∧ (startF f m bits s cnt).nobsdp = f.nobsdp ∧
    (startF f m bits s cnt).sign = f.sign ∧ (startF f m bits s cnt).pad0 = f.pad0 ∧
    (startF f m bits s cnt).val = s % 2 ^ 64 := by
  unfold startF startWd startPc
  simp only
  split <;> (try split) <;> split <;> simp_all

theorem startF_pc (f : Manip) (m bits s cnt : Nat) :
    ((startF f m bits s cnt).pcF = true ∧ f.pcF = true ∧ f.pc > (m * cnt : Nat) ∧
      (startF f m bits s cnt).pc = f.pc - (m * cnt : Nat)) ∨
    ((startF f m bits s cnt).pcF = false ∧ (startF f m bits s cnt).pc = 0 ∧
      (f.pcF = true → f.pc ≤ (m * cnt : Nat))) := by
  unfold startF startWd startPc
  simp only
  split <;> (try split) <;> split <;> simp_all

theorem startF_wd (f : Manip) (m bits s cnt : Nat) :
    (f.left = false → (startF f m bits s cnt).wd =
      if f.wd - (m * cnt : Nat) < 0 then 1 else f.wd - (m * cnt : Nat)) ∧
    (f.left = true → cnt ≠ 0 → (startF f m bits s cnt).wd = 1) ∧
    (f.left = true → cnt = 0 → (startF f m bits s cnt).wd = f.wd) := by
  unfold startF startWd startPc
  simp only
  cases hl : f.left <;> by_cases hc : cnt = 0 <;> split <;> simp_all

theorem startF_ok {f : Manip} {m bits s cnt : Nat} (P : Par f.base m bits)
    (ok : OkStart f m s cnt) : Ok64 (startF f m bits s cnt) := by
  obtain ⟨e1, e2, e3, e4, e5, e6, e7⟩ := startF_same f m bits s cnt
  obtain ⟨w1, w2, w3⟩ := startF_wd f m bits s cnt
  have hp := startF_pc f m bits s cnt
  have hs : s % 2 ^ 64 = s := Nat.mod_eq_of_lt ok.fits.lt
  have okwd := ok.wd
  have okpc := ok.pc
  rw [hs] at e7
  refine ⟨by rw [e1]; exact P.conv, by rw [e7]; exact ok.fits.lt, ?_, ?_, ?_, ?_, ?_⟩
  · cases hl : f.left
    · rw [w1 hl]; split <;> omega
    · by_cases hc : cnt = 0
      · rw [w3 hl hc]; exact okwd
      · rw [w2 hl hc]; omega
  · rcases hp with ⟨_, _, h, h'⟩ | ⟨_, h, _⟩ <;> omega
  · intro h1 h2
    rcases hp with ⟨_, _, h, h'⟩ | ⟨h, _, _⟩
    · omega
    · rw [h] at h1; cases h1
  · intro h1 h2
    rw [e1] at h1
    rcases hp with ⟨_, h, h3, h'⟩ | ⟨h, _, _⟩
    · have := ok.bin h1 h
      rw [e7, h']; omega
    · rw [h] at h2; cases h2
  · intro h1 h2 h3 h4
    rw [e1] at h1; rw [e4] at h2; rw [e7] at h3; rw [e3] at h4
    have hc : cnt = 0 := by
      rcases Nat.eq_zero_or_pos cnt with h | h
      · exact h
      · have := ok.pos (by omega); omega
    subst hc
    rw [w1 h4, e6]
    simp only [Nat.mul_zero, Int.natCast_zero, Int.sub_zero] at hp ⊢
    rw [if_neg (by omega)]
    rcases ok.hex h1 h2 h3 h4 with ⟨h5, h6⟩ | h5
    · left
      refine ⟨h5, ?_⟩
      rcases hp with ⟨_, h, _⟩ | ⟨h, _⟩
      · rw [h6] at h; cases h
      · exact h
    · rcases hp with ⟨h7, h8, _, h9⟩ | ⟨h7, h8, h9⟩
      · right
        rw [h8] at h5
        simp only [h7, h9, if_true] at h5 ⊢
        omega
      · right
        simp only [h7, Bool.false_eq_true, if_false]
        cases hpF : f.pcF
        · simpa [hpF] using h5
        · have := h9 hpF
          have h10 := ok.zero hpF (by omega)
          exact absurd h3 h10

/-- The start chunk, as printed. -/
theorem startChunk_eq {f : Manip} {m bits s cnt : Nat} (P : Par f.base m bits)
    (ok : OkStart f m s cnt) (os : Os) :
    (startChunk os s f m bits cnt).1 =
      if cnt ≠ 0 then nosep (wrote os (reqOf (startF f m bits s cnt) f.neg s).layout)
      else wrote os (reqOf (startF f m bits s cnt) f.neg s).layout := by
  obtain ⟨e1, e2, e3, e4, e5, e6, e7⟩ := startF_same f m bits s cnt
  have hs : s % 2 ^ 64 = s := Nat.mod_eq_of_lt ok.fits.lt
  rw [hs] at e7
  have h := print_startNeg (startF_ok P ok) (by rw [e1, e2, e7]; exact ok.fits) os
  rw [e2, e7] at h
  unfold startChunk
  simp only
  change (if cnt ≠ 0 then nosep (print64 os (startNeg (startF f m bits s cnt)))
    else print64 os (startNeg (startF f m bits s cnt))) = _
  rw [h]

theorem cut_start {f : Manip} {m bits V cnt : Nat} (hpc0 : 0 ≤ f.pc)
    (hb : (baseOf f.base).radix ^ (m * cnt) ≤ V) :
    Cut (reqOf f f.neg V)
      (reqOf (startF f m bits (V / (baseOf f.base).radix ^ (m * cnt)) cnt) f.neg
        (V / (baseOf f.base).radix ^ (m * cnt))) (m * cnt) := by
  generalize hs : V / (baseOf f.base).radix ^ (m * cnt) = s
  obtain ⟨e1, e2, e3, e4, e5, e6, e7⟩ := startF_same f m bits s cnt
  have hp := startF_pc f m bits s cnt
  refine ⟨?_, ?_, rfl, e3, e4, ?_, e6, hb, hs.symm, ?_⟩
  · simp only [reqOf, e1]
  · simp only [reqOf, e1]
  · simp only [reqOf, e1, e5]
  · simp only [reqOf]
    rcases hp with ⟨h1, h2, h3, h4⟩ | ⟨h1, h2, h3⟩
    · simp only [h1, h2, h4, if_true, Option.getD_some]
      omega
    · simp only [h1, Bool.false_eq_true, if_false, Option.getD_none]
      cases h : f.pcF
      · simp
      · have := h3 h
        simp only [if_true, Option.getD_some]
        omega

/-- The start chunk, followed by all the other digits, is the whole number: to the right. -/
theorem start_right {f : Manip} {m bits V cnt : Nat} (hpc0 : 0 ≤ f.pc) (hwd : 0 ≤ f.wd)
    (hb : (baseOf f.base).radix ^ (m * cnt) ≤ V) (hl : f.left = false)
    (hpad : f.pcF = true → f.pad0 = true → f.left = true) :
    (reqOf f f.neg V).layout =
      (reqOf (startF f m bits (V / (baseOf f.base).radix ^ (m * cnt)) cnt) f.neg
        (V / (baseOf f.base).radix ^ (m * cnt))).layout ++
      fixed (f.base == 'B' || f.base == 'X') (baseOf f.base).radix (m * cnt) V := by
  refine layout_right (cut_start hpc0 hb) hl ?_ ?_ ?_
  · intro h
    cases hp : f.pcF
    · simp [reqOf, hp]
    · have h' := hpad hp h
      rw [hl] at h'
      cases h'
  · intro h
    cases hp : f.pcF
    · rcases startF_pc f m bits (V / (baseOf f.base).radix ^ (m * cnt)) cnt with h1 | h1
      · rw [hp] at h1; simp at h1
      · simp only [reqOf, h1.1, Bool.false_eq_true, if_false]
    · simp [reqOf, hp] at h
  · have h1 := (startF_wd f m bits (V / (baseOf f.base).radix ^ (m * cnt)) cnt).1 hl
    simp only [reqOf, h1]
    split <;> omega

/-- The size computed for the start chunk is its size. -/
theorem startSize_eq {f : Manip} {m bits s cnt : Nat} (P : Par f.base m bits)
    (hs : 1 ≤ s) (hs' : s < 2 ^ 64) (hpc0 : 0 ≤ f.pc) (hneg : f.neg = true → f.base = 'd')
    (hdec : baseOf f.base = .dec → ∀ k, s ≠ 10 ^ k) :
    startSize (startPc s f m cnt) bits =
      (((reqOf (startF f m bits s cnt) f.neg s).front.length +
        (reqOf (startF f m bits s cnt) f.neg s).body.length : Nat) : Int) := by
  obtain ⟨e1, e2, e3, e4, e5, e6, e7⟩ := startF_same f m bits s cnt
  have hp := startF_pc f m bits s cnt
  have g : (startPc s f m cnt).base = f.base ∧ (startPc s f m cnt).neg = f.neg ∧
      (startPc s f m cnt).nobsdp = f.nobsdp ∧ (startPc s f m cnt).sign = f.sign ∧
      (startPc s f m cnt).val = s ∧
      (startPc s f m cnt).pc = (startF f m bits s cnt).pc := by
    have hm : s % 2 ^ 64 = s := Nat.mod_eq_of_lt hs'
    unfold startF startWd startPc
    simp only [hm]
    split <;> (try split) <;> split <;> simp_all
  obtain ⟨g1, g2, g3, g4, g5, g6⟩ := g
  have hbody : ∀ n : Nat, n = ((reqOf (startF f m bits s cnt) f.neg s).pc.getD 0) →
      (n : Int) = (startF f m bits s cnt).pc := by
    rintro n rfl
    simp only [reqOf]
    rcases hp with ⟨h1, h2, h3, h4⟩ | ⟨h1, h2, h3⟩
    · simp only [h1, if_true, Option.getD_some]; omega
    · simp only [h1, h2]; simp
  have hb := hbody _ rfl
  unfold startSize
  simp only [g1, g2, g3, g4, g5, g6, ← hb]
  generalize hpc : (reqOf (startF f m bits s cnt) f.neg s).pc.getD 0 = pc
  have hnum := numeral_length_pos (f.base == 'B' || f.base == 'X')
    (Base.radix_ge (baseOf f.base)) s
  have hhead := numeral_head (f.base == 'B' || f.base == 'X') (Base.radix_ge (baseOf f.base))
    (Base.radix_le (baseOf f.base)) s hs
  have hdig : (if f.base = 'd' ∨ f.base = 'u' then ceilLog10 s
      else (high1 s + (bits - 1)) / bits) =
      (numeral (f.base == 'B' || f.base == 'X') (baseOf f.base).radix s).length := by
    by_cases hd : baseOf f.base = .dec
    · have hc : f.base = 'd' ∨ f.base = 'u' := by
        have := P.conv
        simp only [convs, List.mem_cons, List.not_mem_nil, or_false] at this
        rcases this with h | h | h | h | h | h | h <;> simp [h, baseOf] at hd ⊢
      rw [if_pos hc, hd]
      exact ceilLog10_eq _ hs hs' (hdec hd)
    · have hc : ¬ (f.base = 'd' ∨ f.base = 'u') := by
        rintro (h | h) <;> simp [h, baseOf] at hd
      obtain ⟨r1, r2⟩ := P.radix hd
      rw [if_neg hc, r2]
      exact high1_digits _ hs r1
  rw [hdig]
  unfold Req.front Req.body
  simp only [hpc]
  simp only [reqOf, e1, e4, e5]
  generalize hds : numeral (f.base == 'B' || f.base == 'X') (baseOf f.base).radix s = ds at *
  have hc := P.conv
  simp only [convs, List.mem_cons, List.not_mem_nil, or_false] at hc
  have hh : (List.replicate (pc - ds.length) '0' ++ ds).head? ≠ some '0' ↔ pc ≤ ds.length := by
    constructor
    · intro h
      rcases Nat.lt_or_ge ds.length pc with h1 | h1
      · obtain ⟨k, hk⟩ : ∃ k, pc - ds.length = k + 1 := ⟨pc - ds.length - 1, by omega⟩
        rw [hk] at h
        exact absurd rfl h
      · exact h1
    · intro h
      rw [show pc - ds.length = 0 by omega]
      exact hhead
  have hmax : (if (pc : Int) > (ds.length : Int) then (pc : Int) else (ds.length : Int)) =
      ((List.replicate (pc - ds.length) '0' ++ ds).length : Nat) := by
    simp only [List.length_append, List.length_replicate]
    split <;> omega
  rw [hmax]
  generalize List.replicate (pc - ds.length) '0' ++ ds = body at *
  rcases hc with h | h | h | h | h | h | h <;>
    cases hn : f.nobsdp <;> cases hs2 : f.sign <;> cases hg : f.neg <;>
    simp [h, hg] at hneg <;>
    simp [h, baseOf] <;> (try split) <;> (try split) <;> simp_all <;> omega

/-- The manipulator left by the start chunk. -/
theorem rest_same (os : Os) (f : Manip) (m bits s cnt : Nat) :
    (startChunk os s f m bits cnt).2.base = f.base ∧
    (startChunk os s f m bits cnt).2.left = f.left ∧
    (startChunk os s f m bits cnt).2.sign = false ∧
    (startChunk os s f m bits cnt).2.nobsdp = true := by
  obtain ⟨e1, e2, e3, e4, e5, e6, e7⟩ := startF_same f m bits s cnt
  unfold startChunk
  simp only
  change (startRest (startNeg (startF f m bits s cnt)) _ m).base = f.base ∧ _
  unfold startRest startNeg
  rw [← e1, ← e3]
  split <;> split <;> simp_all [startF]

theorem rest_right (os : Os) {f : Manip} (m bits s cnt : Nat) (hpc : 0 ≤ f.pc)
    (hl : f.left = false) :
    (startChunk os s f m bits cnt).2.pad0 = true ∧
    (startChunk os s f m bits cnt).2.pcF = false ∧
    (startChunk os s f m bits cnt).2.wd = m ∧
    0 ≤ (startChunk os s f m bits cnt).2.pc := by
  obtain ⟨e1, e2, e3, e4, e5, e6, e7⟩ := startF_same f m bits s cnt
  have hp := startF_pc f m bits s cnt
  have hw : (startWd (startPc s f m cnt) m bits cnt).1 = m := by
    unfold startWd startPc
    split <;> simp [hl]
  have hneg : (startNeg (startF f m bits s cnt)).left = false ∧
      (startNeg (startF f m bits s cnt)).pc = (startF f m bits s cnt).pc := by
    unfold startNeg
    split <;> simp [e3, hl]
  unfold startChunk
  simp only [hw]
  change (startRest (startNeg (startF f m bits s cnt)) _ m).pad0 = true ∧
    (startRest (startNeg (startF f m bits s cnt)) _ m).pcF = false ∧
    (startRest (startNeg (startF f m bits s cnt)) _ m).wd = m ∧
    0 ≤ (startRest (startNeg (startF f m bits s cnt)) _ m).pc
  unfold startRest
  simp only [hneg.1, Bool.not_false, if_true, hneg.2, true_and]
  rcases hp with ⟨_, _, h, h'⟩ | ⟨_, h, _⟩ <;> omega

theorem rest_left (os : Os) {f : Manip} (m bits s cnt : Nat) (hl : f.left = true) (hc : cnt ≠ 0) :
    (startChunk os s f m bits cnt).2.pc = m ∧
    (startChunk os s f m bits cnt).2.pcF = true ∧
    (startChunk os s f m bits cnt).2.wd =
      if f.wd - startSize (startPc s f m cnt) bits < 0 then 1
      else f.wd - startSize (startPc s f m cnt) bits := by
  obtain ⟨e1, e2, e3, e4, e5, e6, e7⟩ := startF_same f m bits s cnt
  have hw : (startWd (startPc s f m cnt) m bits cnt).1 =
      if f.wd - startSize (startPc s f m cnt) bits < 0 then 1
      else f.wd - startSize (startPc s f m cnt) bits := by
    have h1 : (startPc s f m cnt).left = true := by unfold startPc; split <;> simp [hl]
    have h2 : (startPc s f m cnt).wd = f.wd := by unfold startPc; split <;> rfl
    unfold startWd
    simp only [h1, Bool.not_true, Bool.false_eq_true, if_false, hc, ne_eq, not_false_eq_true,
      if_true, h2]
  have hneg : (startNeg (startF f m bits s cnt)).left = true := by
    unfold startNeg
    split <;> simp [e3, hl]
  unfold startChunk
  simp only [hw]
  change (startRest (startNeg (startF f m bits s cnt)) _ m).pc = m ∧
    (startRest (startNeg (startF f m bits s cnt)) _ m).pcF = true ∧
    (startRest (startNeg (startF f m bits s cnt)) _ m).wd = _
  unfold startRest
  simp only [hneg, Bool.not_true, Bool.false_eq_true, if_false, true_and]

/-! ## The whole number -/

/-- What is asked of the manipulator and of the number, for the power `p`. -/
structure OkAll (f : Manip) (m p V : Nat) : Prop where
  wd : 0 ≤ f.wd
  pc : 0 ≤ f.pc
  neg : f.neg = true → f.base = 'd'
  zero : f.pcF = true → f.pc = 0 → V ≠ 0
  pad0 : f.pcF = true → f.pad0 = true → f.left = true
  bin : baseOf f.base = .bin → f.pcF = true → ((numeral false 2 V).length : Int) ≤ f.pc
  hex : baseOf f.base = .hex → f.nobsdp = false → V = 0 → f.left = false →
    (f.pad0 = true ∧ f.pcF = false) ∨ f.wd ≤ 2 + (if f.pcF then f.pc else 1)
  one : V ≤ p → FitsS f.base f.neg V
  last : p < V → Fits f.base (V % p)
  two : p < V → V / p ≤ p → FitsS f.base f.neg (V / p)
  three : p < V / p → Fits f.base (V / p % p) ∧ FitsS f.base f.neg (V / p / p) ∧ V / p / p ≤ p
  left2 : f.left = true → baseOf f.base = .dec → p < V → V / p ≤ p → ∀ k, V / p ≠ 10 ^ k
  left3 : f.left = true → baseOf f.base = .dec → p < V / p → ∀ k, V / p / p ≠ 10 ^ k

theorem OkAll.start {f : Manip} {m p V cnt : Nat} (ok : OkAll f m p V)
    (hp : p = (baseOf f.base).radix ^ m)
    (hb : (baseOf f.base).radix ^ (m * cnt) ≤ V ∨ cnt = 0)
    (hf : FitsS f.base f.neg (V / (baseOf f.base).radix ^ (m * cnt))) :
    OkStart f m (V / (baseOf f.base).radix ^ (m * cnt)) cnt := by
  have hr := Base.radix_ge (baseOf f.base)
  have hpos : 0 < (baseOf f.base).radix ^ (m * cnt) := Nat.pow_pos (by omega)
  have h1 : cnt ≠ 0 → 1 ≤ V / (baseOf f.base).radix ^ (m * cnt) := by
    intro h
    exact Nat.div_pos (hb.resolve_right h) hpos
  have h2 : V / (baseOf f.base).radix ^ (m * cnt) = 0 → V = 0 := by
    intro h
    by_cases hc : cnt = 0
    · subst hc; simpa using h
    · have := h1 hc; omega
  refine ⟨ok.wd, ok.pc, h1, hf, ?_, ok.pad0, ?_, ?_⟩
  · intro h3 h4 h5
    exact ok.zero h3 h4 (h2 h5)
  · intro h3 h4
    have h5 := ok.bin h3 h4
    by_cases hc : cnt = 0
    · subst hc; simpa using h5
    · have h6 := hb.resolve_right hc
      rw [h3] at h6 ⊢
      simp only [Base.radix] at h6 ⊢
      rw [numeral_split false (by omega) _ _ h6, List.length_append, fixed_length] at h5
      omega
  · intro h3 h4 h5 h6
    exact ok.hex h3 h4 (h2 h5) h6

/-- The manipulator between chunks: `w` is the width left. -/
structure Mid (f g : Manip) (m : Nat) (w : Int) : Prop where
  base : g.base = f.base
  left : g.left = f.left
  sign : g.sign = false
  nobsdp : g.nobsdp = true
  pc : 0 ≤ g.pc
  right : f.left = false → g.pad0 = true ∧ g.pcF = false ∧ g.wd = m
  left' : f.left = true → g.pcF = true ∧ g.pc = m ∧ g.wd = w
  w : 0 ≤ w

/-- The blanks after the last chunk. -/
def tail (f : Manip) (m : Nat) (w : Int) : List Char :=
  if f.left then List.replicate (w.toNat - m) ' ' else []

theorem end_eq {f : Manip} {r : Os × Manip} {m bits : Nat} {w : Int} (P : Par f.base m bits)
    (M : Mid f r.2 m w)
    {p V : Nat} (hp : p = (baseOf f.base).radix ^ m) (hf : Fits f.base (V % p)) :
    (nextChunk p m r V 0).1 =
      wrote r.1 (fixed (f.base == 'B' || f.base == 'X') (baseOf f.base).radix m (V % p) ++
        tail f m w) := by
  have hpos : 0 < p := by
    rw [hp]; exact Nat.pow_pos (by have := Base.radix_ge (baseOf f.base); omega)
  have hmod : V % p % 2 ^ 64 = V % p := Nat.mod_eq_of_lt hf.1
  have hrng : V % p < (baseOf f.base).radix ^ m := by rw [← hp]; exact Nat.mod_lt _ hpos
  unfold nextChunk
  simp only [Nat.zero_ne_one, if_false, hmod]
  cases hl : f.left
  · obtain ⟨q1, q2, q3⟩ := M.right hl
    rw [chunk_right (f := { r.2 with val := V % p }) (m := m) (bits := bits)
      (by simp only [M.base]; exact P) r.1 (by rw [← hl]; exact M.left) q1 q2 q3 M.sign M.nobsdp M.pc
      (by simp only [M.base]; exact hrng) (by simp only [M.base]; exact hf)]
    simp [tail, hl, M.base]
  · obtain ⟨q1, q2, q3⟩ := M.left' hl
    rw [chunk_left (f := { r.2 with val := V % p }) (m := m) (bits := bits)
      (by simp only [M.base]; exact P) r.1 (by rw [← hl]; exact M.left) q1 q2
      (by simp only [q3]; exact M.w) M.sign M.nobsdp
      (by simp only [M.base]; exact hrng) (by simp only [M.base]; exact hf)]
    simp [tail, hl, M.base, q3]

theorem mid_eq {f : Manip} {r : Os × Manip} {m bits : Nat} {w : Int} (P : Par f.base m bits)
    (M : Mid f r.2 m w)
    {p V : Nat} (hp : p = (baseOf f.base).radix ^ m) (hf : Fits f.base (V % p)) :
    (nextChunk p m r V 1).1 =
      nosep (wrote r.1 (fixed (f.base == 'B' || f.base == 'X') (baseOf f.base).radix m (V % p))) ∧
    Mid f (nextChunk p m r V 1).2 m (if w - m < 0 then 1 else w - m) := by
  have hpos : 0 < p := by
    rw [hp]; exact Nat.pow_pos (by have := Base.radix_ge (baseOf f.base); omega)
  have hmod : V % p % 2 ^ 64 = V % p := Nat.mod_eq_of_lt hf.1
  have hrng : V % p < (baseOf f.base).radix ^ m := by rw [← hp]; exact Nat.mod_lt _ hpos
  have hw := M.w
  have hML := M.left
  unfold nextChunk
  simp only [if_true, hmod]
  cases hl : f.left
  · obtain ⟨q1, q2, q3⟩ := M.right hl
    rw [hl] at hML
    rw [if_neg (by rw [hML]; decide)]
    constructor
    · rw [chunk_right (f := { r.2 with val := V % p }) (m := m) (bits := bits)
        (by simp only [M.base]; exact P) r.1 hML q1 q2 q3 M.sign M.nobsdp M.pc
        (by simp only [M.base]; exact hrng) (by simp only [M.base]; exact hf)]
      simp [M.base]
    · refine ⟨M.base, M.left, M.sign, M.nobsdp, M.pc, fun _ => ⟨q1, q2, q3⟩, ?_, ?_⟩
      · intro h; rw [hl] at h; cases h
      · split <;> omega
  · obtain ⟨q1, q2, q3⟩ := M.left' hl
    rw [hl] at hML
    rw [if_pos hML]
    constructor
    · rw [chunk_left (f := { r.2 with val := V % p, wd := m }) (m := m) (bits := bits)
        (by simp only [M.base]; exact P) r.1 hML q1 q2
        (by simp only; omega) M.sign M.nobsdp
        (by simp only [M.base]; exact hrng) (by simp only [M.base]; exact hf)]
      simp [M.base]
    · refine ⟨M.base, M.left, M.sign, M.nobsdp, M.pc, ?_, fun _ => ⟨q1, q2, ?_⟩, ?_⟩
      · intro h; rw [hl] at h; cases h
      · simp only [q3]
      · split <;> omega

/-- The number of characters of the start chunk. -/
def size (f : Manip) (m bits s cnt : Nat) : Nat :=
  (reqOf (startF f m bits s cnt) f.neg s).front.length +
    (reqOf (startF f m bits s cnt) f.neg s).body.length

/-- A width that is not negative. -/
def clamp (w : Int) : Int := if w < 0 then 1 else w

theorem clamp_nonneg (w : Int) : 0 ≤ clamp w := by unfold clamp; split <;> omega

/-- After the start chunk. -/
theorem start_mid {f : Manip} {m bits s cnt : Nat} (P : Par f.base m bits)
    (hpc : 0 ≤ f.pc) (hc : cnt ≠ 0) (hs : 1 ≤ s)
    (hs' : s < 2 ^ 64) (hneg : f.neg = true → f.base = 'd')
    (hdec : f.left = true → baseOf f.base = .dec → ∀ k, s ≠ 10 ^ k) (os : Os) :
    Mid f (startChunk os s f m bits cnt).2 m (clamp (f.wd - size f m bits s cnt)) := by
  obtain ⟨r1, r2, r3, r4⟩ := rest_same os f m bits s cnt
  refine ⟨r1, r2, r3, r4, ?_, ?_, ?_, clamp_nonneg _⟩
  · cases hl : f.left
    · exact (rest_right os m bits s cnt hpc hl).2.2.2
    · rw [(rest_left os m bits s cnt hl hc).1]; omega
  · intro hl
    obtain ⟨q1, q2, q3, q4⟩ := rest_right os m bits s cnt hpc hl
    exact ⟨q1, q2, q3⟩
  · intro hl
    obtain ⟨q1, q2, q3⟩ := rest_left os m bits s cnt hl hc
    rw [startSize_eq P hs hs' hpc hneg (hdec hl)] at q3
    exact ⟨q2, q1, q3⟩

/-- The start chunk, the other digits and the blanks are the whole number. -/
theorem whole {f : Manip} {m bits V s cnt : Nat} (hpc0 : 0 ≤ f.pc) (hwd : 0 ≤ f.wd)
    (hb : (baseOf f.base).radix ^ (m * cnt) ≤ V) (hc : cnt ≠ 0)
    (hs : V / (baseOf f.base).radix ^ (m * cnt) = s)
    (hpad : f.pcF = true → f.pad0 = true → f.left = true) {w : Int}
    (hw : w.toNat - m = f.wd.toNat - (size f m bits s cnt + m * cnt)) :
    (reqOf f f.neg V).layout =
      (reqOf (startF f m bits s cnt) f.neg s).layout ++
      (fixed (f.base == 'B' || f.base == 'X') (baseOf f.base).radix (m * cnt) V ++
        tail f m w) := by
  subst hs
  cases hl : f.left
  · rw [start_right (bits := bits) hpc0 hwd hb hl hpad]
    simp [tail, hl]
  · have C := cut_start (bits := bits) hpc0 hb
    have h1 := (startF_wd f m bits (V / (baseOf f.base).radix ^ (m * cnt)) cnt).2.1 hl hc
    rw [layout_left C hl (by simp only [reqOf, h1]; rfl)]
    simp only [tail, hl, if_true]
    rw [hw, ← front_eq C]
    rfl

theorem base128_eq {f : Manip} {m bits p V : Nat} (P : Par f.base m bits)
    (hp : p = (baseOf f.base).radix ^ m) (ok : OkAll f m p V) (os : Os) :
    (base128 p m bits 4 os V f 0).1 = wrote os (reqOf f f.neg V).layout := by
  have hr := Base.radix_ge (baseOf f.base)
  have hm := P.mpos
  have hpos : 0 < p := by rw [hp]; exact Nat.pow_pos (by omega)
  have hpc := ok.pc
  have hwd := ok.wd
  by_cases h0 : V > p
  · have hlast := ok.last h0
    by_cases h1 : V / p > p
    · -- three chunks
      obtain ⟨f2, f3, h3⟩ := ok.three h1
      have e : base128 p m bits 4 os V f 0 =
          nextChunk p m (nextChunk p m (startChunk os (V / p / p) f m bits 2) (V / p) 1) V 0 := by
        have h3' : ¬ (V / p / p > p) := Nat.not_lt.2 h3
        simp only [base128, h0, h1, h3', if_true, if_false, Nat.reduceAdd]
      rw [e]
      have hpow : (baseOf f.base).radix ^ (m * 2) = p * p := by
        rw [Nat.mul_two, Nat.pow_add, ← hp]
      have hV : V / (baseOf f.base).radix ^ (m * 2) = V / p / p := by
        rw [hpow, Nat.div_div_eq_div_mul]
      have hbig : (baseOf f.base).radix ^ (m * 2) ≤ V := by
        rw [hpow]
        have h4 : p * p ≤ V / p * p := Nat.mul_le_mul_right p (Nat.le_of_lt h1)
        exact Nat.le_trans h4 (Nat.div_mul_le_self V p)
      have okS : OkStart f m (V / p / p) 2 := by
        have := ok.start (cnt := 2) hp (Or.inl hbig) (by rw [hV]; exact f3)
        rwa [hV] at this
      have hfix : fixed (f.base == 'B' || f.base == 'X') (baseOf f.base).radix (m * 2) V =
          fixed (f.base == 'B' || f.base == 'X') (baseOf f.base).radix m (V / p % p) ++
          fixed (f.base == 'B' || f.base == 'X') (baseOf f.base).radix m (V % p) := by
        rw [Nat.mul_two, fixed_add, hp, fixed_mod, fixed_mod]
      have hst := startChunk_eq P okS os
      rw [if_pos (by decide)] at hst
      have M := start_mid P hpc (by decide : (2 : Nat) ≠ 0) (okS.pos (by decide)) f3.lt ok.neg
        (fun hl hd => ok.left3 hl hd h1) os
      obtain ⟨m1, m2⟩ := mid_eq P M hp f2
      rw [end_eq P m2 hp hlast, m1, hst, wrote_nosep, wrote_nosep]
      congr 1
      rw [whole (bits := bits) (w := clamp (clamp (f.wd - size f m bits (V / p / p) 2) - m)) hpc hwd hbig
        (by decide) hV ok.pad0 (by unfold clamp; split <;> split <;> omega), hfix]
      simp only [List.append_assoc]
      rfl
    · -- two chunks
      have h3 : V / p ≤ p := Nat.le_of_not_lt h1
      have f3 := ok.two h0 h3
      have e : base128 p m bits 4 os V f 0 =
          nextChunk p m (startChunk os (V / p) f m bits 1) V 0 := by
        simp only [base128, h0, h1, if_true, if_false, Nat.reduceAdd]
      rw [e]
      have hpow : (baseOf f.base).radix ^ (m * 1) = p := by rw [Nat.mul_one, ← hp]
      have hV : V / (baseOf f.base).radix ^ (m * 1) = V / p := by rw [hpow]
      have hbig : (baseOf f.base).radix ^ (m * 1) ≤ V := by rw [hpow]; exact Nat.le_of_lt h0
      have okS : OkStart f m (V / p) 1 := by
        have := ok.start (cnt := 1) hp (Or.inl hbig) (by rw [hV]; exact f3)
        rwa [hV] at this
      have hfix : fixed (f.base == 'B' || f.base == 'X') (baseOf f.base).radix (m * 1) V =
          fixed (f.base == 'B' || f.base == 'X') (baseOf f.base).radix m (V % p) := by
        rw [Nat.mul_one, hp, fixed_mod]
      have hst := startChunk_eq P okS os
      rw [if_pos (by decide)] at hst
      have M := start_mid P hpc (by decide : (1 : Nat) ≠ 0) (okS.pos (by decide)) f3.lt ok.neg
        (fun hl hd => ok.left2 hl hd h0 h3) os
      rw [end_eq P M hp hlast, hst, wrote_nosep]
      congr 1
      rw [whole (bits := bits) (w := clamp (f.wd - size f m bits (V / p) 1)) hpc hwd hbig
        (by decide) hV ok.pad0 (by unfold clamp; split <;> omega), hfix]
  · -- one chunk
    have e : base128 p m bits 4 os V f 0 = startChunk os V f m bits 0 := by
      simp only [base128, h0, if_false]
    have okS : OkStart f m V 0 := by
      have := ok.start (cnt := 0) hp (Or.inr rfl) (by simpa using ok.one (Nat.le_of_not_lt h0))
      simpa using this
    have hst := startChunk_eq P okS os
    rw [if_neg (by decide)] at hst
    rw [e, hst]
    congr 1
    obtain ⟨e1, e2, e3, e4, e5, e6, e7⟩ := startF_same f m bits V 0
    obtain ⟨w1, w2, w3⟩ := startF_wd f m bits V 0
    have hp := startF_pc f m bits V 0
    simp only [Nat.mul_zero, Int.natCast_zero, Int.sub_zero] at w1 hp
    have hw : (startF f m bits V 0).wd = f.wd := by
      cases hl : f.left
      · rw [w1 hl, if_neg (by omega)]
      · exact w3 hl rfl
    rcases hp with ⟨p1, p2, p3, p4⟩ | ⟨p1, p2, p3⟩
    · simp only [reqOf, e1, e3, e4, e5, e6, hw, p1, p2, p4]
    · cases hpF : f.pcF
      · simp only [reqOf, e1, e3, e4, e5, e6, hw, p1, hpF, Bool.false_eq_true, if_false]
      · have h4 := p3 hpF
        have h5 : f.pc = 0 := by omega
        rw [layout_pc0 (reqOf f f.neg V) (by simp [reqOf, hpF, h5]) (ok.pad0 hpF)]
        simp only [reqOf, e1, e3, e4, e5, e6, hw, p1, Bool.false_eq_true, if_false]

/-! ## The output operators -/

theorem conv_dec {c : Char} (h : c ∈ convs) (hd : baseOf c = .dec) : c = 'd' ∨ c = 'u' := by
  simp only [convs, List.mem_cons, List.not_mem_nil, or_false] at h
  rcases h with h | h | h | h | h | h | h <;> simp [h, baseOf] at hd ⊢

theorem mag_lt {c : Char} {v : Nat} (h : v < 2 ^ 128) : magOf 128 c v < 2 ^ 128 := by
  unfold magOf
  split
  · next h1 =>
    have : 2 ^ 127 ≤ v := by
      simp only [negOf, Bool.and_eq_true, decide_eq_true_eq] at h1
      exact h1.2
    omega
  · exact h

theorem print128_eq {signed : Bool} {val : Nat} {f : Manip} {V : Nat}
    (ok : Ok128 signed val f V) (os : Os) :
    print128 os signed val f = wrote os (reqOf f (negOf 128 f.base val) V).layout := by
  have hV : V < 2 ^ 128 := by rw [ok.mag]; exact mag_lt ok.val
  have hfn := ok.neg
  have hnd : ∀ {c : Char}, c ≠ 'd' → negOf 128 c val = false ∧ magOf 128 c val = val := by
    intro c h
    have : negOf 128 c val = false := by simp [negOf, h]
    exact ⟨this, by simp [magOf, this]⟩
  unfold print128
  split
  · next hb =>
    have hne : f.base ≠ 'd' := by rcases hb with h | h <;> rw [h] <;> decide
    have hbase : baseOf f.base = .bin := by simp [baseOf, hb]
    obtain ⟨h1, h2⟩ := hnd hne
    have hm := ok.mag
    rw [h2] at hm
    subst hm
    have hpow := ok.power (Or.inl hbase)
    have P : Par f.base 64 1 := ⟨ok.conv, by decide, by rw [hbase]; decide, fun _ => rfl,
      fun _ => by rw [hbase]; decide, fun h => absurd (hbase.symm.trans h) (by decide)⟩
    have hFits : ∀ r, r < 2 ^ 64 → Fits f.base r := fun r h => ⟨h, fun h' => absurd h' hne⟩
    have okA : OkAll f 64 (2 ^ 64) V := by
      refine ⟨ok.wd, ok.pc, by simp [hfn], ok.zero, ok.pad0, ok.bin, ok.hex, ?_, ?_, ?_, ?_, ?_, ?_⟩
      · intro h; simp only [FitsS, hfn, Bool.false_eq_true, if_false]; exact hFits _ (by omega)
      · intro _; exact hFits _ (Nat.mod_lt _ (by decide))
      · intro _ _; simp only [FitsS, hfn, Bool.false_eq_true, if_false]; exact hFits _ (by omega)
      · intro h; omega
      · intro _ h; rw [hbase] at h; cases h
      · intro _ h; rw [hbase] at h; cases h
    rw [base128_eq P (by rw [hbase]; rfl) okA, hfn, h1]
  · next hb =>
    split
    · next ho =>
      have hne : f.base ≠ 'd' := by rw [ho]; decide
      have hbase : baseOf f.base = .oct := by simp [baseOf, ho]
      obtain ⟨h1, h2⟩ := hnd hne
      have hm := ok.mag
      rw [h2] at hm
      subst hm
      have P : Par f.base 21 3 := ⟨ok.conv, by decide, by rw [hbase]; decide,
        fun h => absurd (hbase.symm.trans h) (by decide),
        fun _ => by rw [hbase]; decide, fun h => absurd (hbase.symm.trans h) (by decide)⟩
      have hFits : ∀ r, r < 2 ^ 64 → Fits f.base r := fun r h => ⟨h, fun h' => absurd h' hne⟩
      have okA : OkAll f 21 (2 ^ 63) V := by
        refine ⟨ok.wd, ok.pc, by simp [hfn], ok.zero, ok.pad0, ok.bin, ok.hex,
          ?_, ?_, ?_, ?_, ?_, ?_⟩
        · intro h; simp only [FitsS, hfn, Bool.false_eq_true, if_false]; exact hFits _ (by omega)
        · intro _; exact hFits _ (by omega)
        · intro _ _; simp only [FitsS, hfn, Bool.false_eq_true, if_false]; exact hFits _ (by omega)
        · intro h
          simp only [FitsS, hfn, Bool.false_eq_true, if_false]
          exact ⟨hFits _ (by omega), hFits _ (by omega), by omega⟩
        · intro _ h; rw [hbase] at h; cases h
        · intro _ h; rw [hbase] at h; cases h
      rw [base128_eq P (by rw [hbase]; rfl) okA, hfn, h1]
    · next ho =>
      split
      · next hd =>
        have hbase : baseOf f.base = .dec := by
          rcases hd with h | h <;> simp [h, baseOf]
        have P : Par f.base 19 0 := ⟨ok.conv, by decide, by rw [hbase]; decide,
          fun h => absurd (hbase.symm.trans h) (by decide),
          fun h => absurd hbase h, fun h => absurd (hbase.symm.trans h) (by decide)⟩
        have hneg : (f.base == 'd' && signed && decide (2 ^ 127 ≤ val)) = negOf 128 f.base val := by
          by_cases h : f.base = 'd'
          · simp [negOf, h, ok.signed h]
          · have h' : (f.base == 'd') = false := by simpa using h
            simp [negOf, h']
        simp only [hneg, hfn, Bool.false_or]
        have hmag : (if negOf 128 f.base val = true then (2 ^ 128 - val) % 2 ^ 128 else val) = V := by
          rw [ok.mag]
          unfold magOf
          split
          · next h =>
            simp only [negOf, Bool.and_eq_true, decide_eq_true_eq] at h
            have := ok.val
            omega
          · rfl
        rw [hmag]
        have hnegpos : negOf 128 f.base val = true → f.base = 'd' ∧ 1 ≤ V := by
          intro h
          have h' := h
          simp only [negOf, Bool.and_eq_true, decide_eq_true_eq, beq_iff_eq] at h'
          refine ⟨h'.1, ?_⟩
          rw [ok.mag]
          unfold magOf
          rw [if_pos h]
          have := ok.val
          omega
        have hS : ∀ r, r < 2 ^ 64 → (f.base = 'd' → r < 2 ^ 63) → (1 ≤ V → 1 ≤ r) →
            FitsS f.base (negOf 128 f.base val) r := by
          intro r h1 h2 h3
          cases hn : negOf 128 f.base val
          · exact ⟨h1, h2⟩
          · obtain ⟨h4, h5⟩ := hnegpos hn
            refine ⟨h4, h3 h5, ?_⟩
            have := h2 h4
            omega
        have hdec := ok.dec
        have okA : OkAll { f with neg := negOf 128 f.base val } 19 10000000000000000000 V := by
          refine ⟨ok.wd, ok.pc, fun h => (hnegpos h).1, ok.zero, ok.pad0, ok.bin, ok.hex,
            ?_, ?_, ?_, ?_, ?_, ?_⟩
          · intro h
            refine hS _ (by omega) ?_ id
            intro hd'
            obtain ⟨d1, d2, d3, d4⟩ := hdec hd'
            omega
          · intro h
            exact ⟨by omega, fun hd' => by have := hdec hd'; omega⟩
          · intro h h'
            refine hS _ (by omega) ?_ (fun _ => by omega)
            intro hd'
            obtain ⟨d1, d2, d3, d4⟩ := hdec hd'
            omega
          · intro h
            refine ⟨⟨by omega, fun hd' => ?_⟩, hS _ (by omega) (fun _ => by omega)
              (fun _ => by omega), by omega⟩
            obtain ⟨d1, d2, d3, d4⟩ := hdec hd'
            omega
          · intro h1 h2 h3 h4 k
            have := ok.left h1 h2 (by omega) k
            rwa [if_pos (by omega)] at this
          · intro h1 h2 h3 k
            have := ok.left h1 h2 (by omega) k
            rwa [if_neg (by omega)] at this
        rw [base128_eq (f := { f with neg := negOf 128 f.base val }) P
          (by simp only [hbase]; rfl) okA]
        rfl
      · next hd =>
        have hne : f.base ≠ 'd' := fun h => hd (Or.inl h)
        have hbase : baseOf f.base = .hex := by
          have := ok.conv
          simp only [convs, List.mem_cons, List.not_mem_nil, or_false] at this
          rcases this with h | h | h | h | h | h | h <;> simp [h, baseOf] at hb ho hd ⊢
        obtain ⟨h1, h2⟩ := hnd hne
        have hm := ok.mag
        rw [h2] at hm
        subst hm
        have hpow := ok.power (Or.inr hbase)
        have P : Par f.base 16 4 := ⟨ok.conv, by decide, by rw [hbase]; decide,
          fun h => absurd (hbase.symm.trans h) (by decide),
          fun _ => by rw [hbase]; decide, fun _ => by decide⟩
        have hFits : ∀ r, r < 2 ^ 64 → Fits f.base r := fun r h => ⟨h, fun h' => absurd h' hne⟩
        have okA : OkAll f 16 (2 ^ 64) V := by
          refine ⟨ok.wd, ok.pc, by simp [hfn], ok.zero, ok.pad0, ok.bin, ok.hex,
            ?_, ?_, ?_, ?_, ?_, ?_⟩
          · intro h; simp only [FitsS, hfn, Bool.false_eq_true, if_false]; exact hFits _ (by omega)
          · intro _; exact hFits _ (Nat.mod_lt _ (by decide))
          · intro _ _
            simp only [FitsS, hfn, Bool.false_eq_true, if_false]; exact hFits _ (by omega)
          · intro h; omega
          · intro _ h; rw [hbase] at h; cases h
          · intro _ h; rw [hbase] at h; cases h
        rw [base128_eq P (by rw [hbase]; rfl) okA, hfn, h1]

/-! ## Plain output -/

theorem base10u_eq : ∀ fuel val os, 1 ≤ fuel → val < (10 ^ 19) ^ fuel →
    base10u os fuel val = fmt os (numeral false 10 val) := by
  intro fuel
  induction fuel with
  | zero => intro val os h; omega
  | succ k ih =>
    intro val os _ hv
    have hcond : (val >>> 64 ≠ 0 ∨ val % 2 ^ 64 > 10000000000000000000) ↔ val > 10 ^ 19 := by
      rw [Nat.shiftRight_eq_div_pow]; omega
    have e19 : (10000000000000000000 : Nat) = 10 ^ 19 := by decide
    rw [base10u]
    by_cases h : val > 10 ^ 19
    · rw [if_pos (hcond.2 h)]
      have hk : 1 ≤ k := by
        rcases Nat.eq_zero_or_pos k with h0 | h0
        · subst h0; simp at hv; omega
        · exact h0
      have hq : val / 10 ^ 19 < (10 ^ 19) ^ k := by
        rw [Nat.div_lt_iff_lt_mul (by decide)]
        rw [Nat.pow_succ] at hv
        exact hv
      have hr : val % 10 ^ 19 % 2 ^ 64 = val % 10 ^ 19 := by omega
      have hl : val % 10 ^ 19 < 10 ^ 19 := Nat.mod_lt _ (by decide)
      have hs := numeral_split false (b := 10) (by omega) 19 val (by omega)
      have hf := fixed_eq false (b := 10) (by omega) 19 (val % 10 ^ 19) (by omega) hl
      rw [e19]
      simp only [hr]
      have hi := ih _ os hk hq
      rw [hi, fmt_fmt, hs, ← fixed_mod, hf]
      unfold rep
      generalize hlen : (numeral false 10 (val % 10 ^ 19)).length = l
      have : ((19 : Int) - (l : Int)).toNat = 19 - l := by omega
      rw [this]
    · rw [if_neg (fun h' => h (hcond.1 h'))]
      have : val % 2 ^ 64 = val := Nat.mod_eq_of_lt (by omega)
      rw [this]

theorem printU128_eq {val : Nat} (h : val < 2 ^ 128) (os : Os) :
    printU128 os val = wrote os (numeral false 10 val) := by
  unfold printU128
  rw [base10u_eq 4 val _ (by omega) (Nat.lt_trans h (by decide)), fmt_sepBefore]

theorem printS128_eq {val : Nat} (h : val < 2 ^ 128) (os : Os) :
    printS128 os val = wrote os ((if negOf 128 'd' val then ['-'] else []) ++
      numeral false 10 (magOf 128 'd' val)) := by
  unfold printS128 base10s
  by_cases hn : 2 ^ 127 ≤ val
  · have h1 : negOf 128 'd' val = true := by simp [negOf]; omega
    have h2 : (2 ^ 128 - val) % 2 ^ 128 = magOf 128 'd' val := by
      simp only [magOf, h1, if_true]; omega
    rw [if_pos hn, h2, base10u_eq 4 _ _ (by omega)
      (Nat.lt_trans (mag_lt h) (by decide)), fmt_fmt, fmt_sepBefore, h1]
    rfl
  · have h1 : negOf 128 'd' val = false := by simp [negOf]; omega
    have h2 : magOf 128 'd' val = val := by simp [magOf, h1]
    rw [if_neg hn, h2, base10u_eq 4 _ _ (by omega) (Nat.lt_trans h (by decide)), fmt_sepBefore, h1]
    rfl

/-! ## Layouts denote numbers -/

theorem body_value (r : Req) : valueOf r.base.radix r.body = r.mag := by
  unfold Req.body
  simp only
  have h1 := valueOf_numeral r.upper (Base.radix_ge r.base) (Base.radix_le r.base) r.mag
  have h2 : ∀ cs, valueOf r.base.radix ('0' :: cs) = valueOf r.base.radix cs :=
    fun cs => valueOf_zeros r.base.radix 1 cs
  split
  · rw [h2, valueOf_zeros, h1]
  · rw [valueOf_zeros, h1]

theorem body_precision (r : Req) : r.pc.getD 1 ≤ r.body.length := by
  have h := body_length r
  cases hp : r.pc
  · simpa using h
  · unfold Req.body
    simp only [hp, Option.getD_some]
    split <;> simp only [List.length_cons, List.length_append, List.length_replicate] <;> omega

end Verif.OstreamInt
