import Verif.Spec.OstreamManip
import Verif.Proof.OstreamNumeral

/-! # Printing integers: proofs -/

namespace Verif.OstreamInt

open Verif.Ostream Spec

theorem fmt_fmt (os : Os) (a b : List Char) : fmt (fmt os a) b = fmt os (a ++ b) := by
  simp [fmt]

theorem rep_neg {n : Int} (h : n ≤ 0) (c : Char) : rep n c = [] := by
  simp [rep, Int.toNat_of_nonpos h]

theorem fmt_padIf (os : Os) (n : Int) (c : Char) (t : List Char) :
    fmt (padIf os n c) t = fmt os (rep n c ++ t) := by
  unfold padIf
  split
  · rw [fmt_fmt]
  · rw [rep_neg (by omega)]; rfl

theorem padIf_fmt (os : Os) (n : Int) (c : Char) (t : List Char) :
    padIf (fmt os t) n c = fmt os (t ++ rep n c) := by
  unfold padIf
  split
  · rw [fmt_fmt]
  · rw [rep_neg (by omega)]; simp

/-- The text of `binPrefix`. -/
def bpre (f : Manip) : List Char := if f.nobsdp then [] else ['0', f.base]

theorem fmt_binPrefix (os : Os) (f : Manip) (t : List Char) :
    fmt (binPrefix os f) t = fmt os (bpre f ++ t) := by
  unfold binPrefix bpre
  split
  · rfl
  · rw [fmt_fmt]

theorem fmt_sepBefore (os : Os) (t : List Char) : fmt (sepBefore os) t = wrote os t := by
  cases h : os.sepOnOff <;> simp [sepBefore, wrote, sepPrt, fmt, clearNL, h]

theorem longbin_eq (u : Bool) {d : Nat} (h : d < 16) : longbin.getD d [] = fixed u 2 4 d := by
  have : d = 0 ∨ d = 1 ∨ d = 2 ∨ d = 3 ∨ d = 4 ∨ d = 5 ∨ d = 6 ∨ d = 7 ∨ d = 8 ∨ d = 9 ∨ d = 10 ∨
      d = 11 ∨ d = 12 ∨ d = 13 ∨ d = 14 ∨ d = 15 := by omega
  rcases this with h | h | h | h | h | h | h | h | h | h | h | h | h | h | h | h <;> subst h <;>
    cases u <;> decide

theorem shortbin_eq (u : Bool) {d : Nat} (h : d < 16) : shortbin.getD d [] = numeral u 2 d := by
  have : d = 0 ∨ d = 1 ∨ d = 2 ∨ d = 3 ∨ d = 4 ∨ d = 5 ∨ d = 6 ∨ d = 7 ∨ d = 8 ∨ d = 9 ∨ d = 10 ∨
      d = 11 ∨ d = 12 ∨ d = 13 ∨ d = 14 ∨ d = 15 := by omega
  rcases this with h | h | h | h | h | h | h | h | h | h | h | h | h | h | h | h <;> subst h <;>
    cases u <;> decide

theorem binLoop_eq (u : Bool) (val : Nat) :
    ∀ k os t, binLoop (fmt os t) val k = fmt os (t ++ fixed u 2 (4 * k) val) := by
  intro k
  induction k with
  | zero => intro os t; simp [binLoop, fixed]
  | succ k ih =>
    intro os t
    rw [binLoop, fmt_fmt, ih, longbin_eq u (Nat.mod_lt _ (by omega)), List.append_assoc]
    congr 2
    rw [show 4 * (k + 1) = 4 + 4 * k by omega, fixed_add, Nat.shiftRight_eq_div_pow]
    congr 1
    exact fixed_mod u 4 _

theorem high1_pos {n : Nat} (h : 0 < n) : high1 n = Nat.log2 n + 1 := by
  simp [high1]; omega

theorem high1_length (u : Bool) {n : Nat} (h : 0 < n) : (numeral u 2 n).length = high1 n := by
  rw [high1_pos h]
  exact numeral_length_eq u (by omega) (Nat.log2_self_le (by omega)) Nat.lt_log2_self

/-- `bits`, the number of binary digits. -/
theorem bits_length (u : Bool) (n : Nat) :
    (if high1 n = 0 then 1 else high1 n) = (numeral u 2 n).length := by
  rcases Nat.eq_zero_or_pos n with h | h
  · subst h; cases u <;> rfl
  · rw [high1_length u h, if_neg]; rw [high1_pos h]; omega

theorem binDigits_eq (u : Bool) (os : Os) (val : Nat) :
    binDigits os val (numeral u 2 val).length = fmt os (numeral u 2 val) := by
  unfold binDigits
  simp only
  rw [binLoop_eq u, Nat.shiftRight_eq_div_pow]
  congr 1
  obtain ⟨h1, h2⟩ := numeral_length u (b := 2) (by omega) val
  have h3 := numeral_length_pos u (b := 2) (by omega) val
  generalize hk : ((numeral u 2 val).length - 1) / 4 = k
  have h4 : (numeral u 2 val).length ≤ 4 * k + 4 := by omega
  have h5 : val < 2 ^ (4 * k + 4) := Nat.lt_of_lt_of_le h1 (Nat.pow_le_pow_right (by omega) h4)
  have h6 : val / 2 ^ (4 * k) < 16 := by
    rw [Nat.div_lt_iff_lt_mul (Nat.pow_pos (by omega))]
    rw [Nat.pow_add, Nat.mul_comm] at h5; exact h5
  rw [Nat.mod_eq_of_lt h6, shortbin_eq u h6]
  rcases Nat.eq_zero_or_pos val with h | h
  · subst h
    have : k = 0 := by rw [← hk]; cases u <;> rfl
    subst this; cases u <;> rfl
  · refine (numeral_split u (by omega) (4 * k) val ?_).symm
    exact Nat.le_trans (Nat.pow_le_pow_right (by omega) (by omega)) (h2 h)

theorem binUpper (u v : Bool) : ∀ n, numeral u 2 n = numeral v 2 n := by
  intro n
  have hd : ∀ d, d < 2 → digit u d = digit v d := by
    intro d h
    have : d = 0 ∨ d = 1 := by omega
    rcases this with h | h <;> subst h <;> cases u <;> cases v <;> rfl
  induction n using Nat.strongRecOn with
  | ind n ih =>
    by_cases h : n < 2
    · rw [numeral_lt u h, numeral_lt v h, hd n h]
    · have h' : 2 ≤ n := by omega
      rw [numeral_ge u (by omega) h', numeral_ge v (by omega) h',
        ih _ (by omega), hd _ (Nat.mod_lt _ (by omega))]

theorem printBin_eq {f : Manip} (ok : Ok64 f) (hb : f.base = 'b' ∨ f.base = 'B') (os : Os) :
    printBin os f = fmt os (reqOf f false f.val).layout := by
  have hbase : baseOf f.base = .bin := by simp [baseOf, hb]
  have hup : (f.base == 'B' || f.base == 'X') = decide (f.base = 'B') := by
    rcases hb with h | h <;> rw [h] <;> decide
  have hbd : (f.base == 'd') = false := by rcases hb with h | h <;> rw [h] <;> decide
  have hbc : (if decide (f.base = 'B') = true then 'B' else 'b') = f.base := by
    rcases hb with h | h <;> rw [h] <;> decide
  have hbin := ok.bin hbase
  rw [binUpper false (f.base == 'B' || f.base == 'X')] at hbin
  have hp := ok.pc
  have hw := ok.wd
  unfold printBin
  rw [bits_length (f.base == 'B' || f.base == 'X')]
  simp only [binDigits_eq, padIf_fmt]
  have hpos := numeral_length_pos (f.base == 'B' || f.base == 'X') (b := 2) (by omega) f.val
  unfold Req.layout Req.front Req.body reqOf
  simp only [hbase, hbd, Base.radix, Bool.and_false]
  rw [hup] at *
  rw [hbc]
  generalize numeral (decide (f.base = 'B')) 2 f.val = ds at *
  cases hl : f.left <;> cases hpc : f.pcF <;> cases hn : f.nobsdp <;> cases hz : f.pad0 <;>
    simp only [hpc, forall_const, reduceCtorEq] at hbin <;>
    simp [fmt_padIf, fmt_binPrefix, bpre, rep, hn, List.length_replicate] <;>
    (first | done | (congr 1; repeat (first | omega | congr 1)))

theorem rep_sub {w : Int} (n : Nat) (c : Char) :
    rep (w - n) c = List.replicate (w.toNat - n) c := by
  unfold rep; congr 1; omega

theorem printf_eq {f : Manip} (ok : Ok64 f) (hb : ¬ (f.base = 'b' ∨ f.base = 'B'))
    (hz : ¬ ((f.base = 'x' ∨ f.base = 'X') ∧ !f.nobsdp ∧ f.val = 0)) :
    printf (!f.nobsdp) f.left f.sign (f.pad0 && !f.pcF) f.wd
      (if f.pcF then some f.pc else none) f.base f.val =
    (reqOf f (negOf 64 f.base f.val) (magOf 64 f.base f.val)).layout := by
  have hmag : f.pcF = true → f.pc = 0 → magOf 64 f.base f.val ≠ 0 := by
    intro h1 h2
    have h3 := ok.zero h1 h2
    have h4 := ok.val
    unfold magOf; split <;> omega
  have hp := ok.pc
  have hw := ok.wd
  have hc := ok.conv
  have hneg : (f.base == 'd' && decide (2 ^ 63 ≤ f.val)) = negOf 64 f.base f.val := rfl
  have hm : (if negOf 64 f.base f.val = true then 2 ^ 64 - f.val else f.val) =
      magOf 64 f.base f.val := rfl
  have hm0 : magOf 64 f.base f.val = 0 → f.val = 0 := by
    have h4 := ok.val
    unfold magOf; split <;> omega
  unfold printf Req.layout Req.front Req.body reqOf
  simp only [hneg, hm]
  have hcond : ¬ ((if f.pcF = true then some f.pc else none) = some 0 ∧
      magOf 64 f.base f.val = 0) := by
    rintro ⟨h1, h2⟩
    cases h : f.pcF <;> simp [h] at h1
    exact hmag h h1 h2
  rw [if_neg hcond]
  generalize negOf 64 f.base f.val = neg at *
  generalize magOf 64 f.base f.val = mag at *
  simp only [convs, List.mem_cons, List.not_mem_nil, or_false] at hc
  rcases hc with h | h | h | h | h | h | h
  · exact absurd (Or.inl h) hb
  · exact absurd (Or.inr h) hb
  all_goals
    rw [h]
    simp only [h, baseOf, Char.reduceEq, or_self, or_true, true_or, if_true, if_false,
      Char.reduceBEq, Base.radix, reduceCtorEq, false_and, true_and,
      Bool.and_false, Bool.and_true, Bool.or_false, Bool.or_true, Bool.false_or,
      Bool.false_eq_true] at *
    generalize hds : numeral _ _ mag = ds at *
    rw [show rep ((if f.pcF = true then some f.pc else none).getD 0 - (ds.length : Int)) '0' =
        List.replicate ((if f.pcF = true then some f.pc.toNat else none).getD 0 - ds.length) '0' by
      cases f.pcF
      · exact rep_sub _ _
      · exact rep_sub _ _]
    generalize hbody : List.replicate ((if f.pcF = true then some f.pc.toNat else none).getD 0 -
      ds.length) '0' ++ ds = body at *
    simp only [← Int.natCast_add, rep_sub]
    cases f.left <;> cases f.pcF <;> cases hn : f.nobsdp <;> cases f.pad0 <;>
      cases neg <;> cases f.sign <;> simp_all

theorem numeral_zero (u : Bool) : numeral u 16 0 = ['0'] := by cases u <;> rfl

theorem printf_zero {f : Manip} (ok : Ok64 f) (hb : f.base = 'x' ∨ f.base = 'X')
    (hn : f.nobsdp = false) (hv : f.val = 0) :
    (if f.base = 'x' then ['0', 'x'] else ['0', 'X']) ++
    printf (!f.nobsdp) f.left f.sign (f.pad0 && !f.pcF) (if f.wd - 2 < 0 then 1 else f.wd - 2)
      (if f.pcF then some f.pc else none) f.base f.val =
    (reqOf f (negOf 64 f.base f.val) (magOf 64 f.base f.val)).layout := by
  have hz := ok.zero
  have hp := ok.pc
  have hw := ok.wd
  have hx : baseOf f.base = .hex := by rcases hb with h | h <;> simp [h, baseOf]
  have hh := ok.hex hx hn hv
  have hd : (f.base == 'd') = false := by rcases hb with h | h <;> simp [h]
  have ho : (f.base == 'o') = false := by rcases hb with h | h <;> simp [h]
  have hx' : (f.base == 'x' || f.base == 'X') = true := by rcases hb with h | h <;> simp [h]
  have hneg : negOf 64 f.base f.val = false := by simp [negOf, hd]
  have hmag : magOf 64 f.base f.val = 0 := by simp only [magOf, hneg]; simpa using hv
  have hcond : ¬ ((if f.pcF = true then some f.pc else none) = some 0 ∧ True) := by
    rintro ⟨h1, _⟩
    cases h : f.pcF <;> simp [h] at h1
    exact hz h h1 hv
  rw [hneg, hmag]
  unfold printf Req.layout Req.front Req.body reqOf
  simp only [hd, ho, hx, hx', hv, hn, Bool.false_and, Bool.and_false, Bool.false_eq_true, if_false,
    if_true, if_neg hcond, numeral_zero, Base.radix, reduceCtorEq, false_and]
  rw [show rep ((if f.pcF = true then some f.pc else none).getD 0 - (['0'].length : Int)) '0' =
      List.replicate ((if f.pcF = true then some f.pc.toNat else none).getD 0 - ['0'].length) '0' by
    cases f.pcF
    · exact rep_sub _ _
    · exact rep_sub _ _]
  have hlen : (List.replicate ((if f.pcF = true then some f.pc.toNat else none).getD 0 -
      ['0'].length) '0' ++ ['0']).length = max 1 (if f.pcF = true then f.pc.toNat else 0) := by
    cases f.pcF <;> simp <;> omega
  generalize List.replicate ((if f.pcF = true then some f.pc.toNat else none).getD 0 -
      ['0'].length) '0' ++ ['0'] = body at *
  have hpad : (if f.wd - 2 < 0 then 1 else f.wd - 2 : Int).toNat - body.length =
      f.wd.toNat - (2 + body.length) := by
    have : 1 ≤ body.length := by rw [hlen]; omega
    split <;> omega
  have hblank : f.left = false → ¬ (f.pad0 = true ∧ f.pcF = false) →
      f.wd.toNat - (2 + body.length) = 0 := by
    intro h1 h2
    have h3 := (hh h1).resolve_left h2
    rw [hlen]
    cases hpc : f.pcF <;> simp [hpc] at h3 ⊢ <;> omega
  have hrep : ∀ c, rep ((if f.wd - 2 < 0 then 1 else f.wd - 2) - (body.length : Int)) c =
      List.replicate (f.wd.toNat - (2 + body.length)) c := by
    intro c; rw [rep_sub, hpad]
  clear hh hlen hpad hz hcond
  generalize (if f.wd - 2 < 0 then 1 else f.wd - 2 : Int) = W at *
  have hlen2 : ∀ c : Char, f.wd.toNat - (([] ++ ['0', c]).length + body.length) =
      f.wd.toNat - (2 + body.length) := fun _ => rfl
  rcases hb with h | h <;>
  cases hl : f.left <;> cases hpc : f.pcF <;> cases hz0 : f.pad0 <;>
    simp_all

theorem print64_eq {f : Manip} (ok : Ok64 f) (os : Os) :
    print64 os f =
      wrote os (reqOf f (negOf 64 f.base f.val) (magOf 64 f.base f.val)).layout := by
  unfold print64
  simp only
  split
  · next hb =>
    have hd : negOf 64 f.base f.val = false := by
      rcases hb with h | h <;> simp [h, negOf]
    rw [printBin_eq ok hb, fmt_sepBefore, hd]
    simp [magOf, hd]
  · next hb =>
    split
    · next hz =>
      rw [fmt_fmt, fmt_sepBefore, printf_zero ok hz.1 (by simpa using hz.2.1) hz.2.2]
    · next hz => rw [fmt_sepBefore, printf_eq ok hb hz]

end Verif.OstreamInt
