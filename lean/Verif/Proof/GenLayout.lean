import Verif.Model.GenLayout
import Verif.Proof.Heap
import Mathlib.Data.Nat.Basic
import Mathlib.Tactic.Linarith
/-! Proofs about the layout of generic types. -/
namespace GenLayout
open Verif

/-! ## Arithmetic -/

theorem leastMul_dvd (a x : Nat) : a ∣ leastMul a x := ⟨_, Nat.mul_comm _ _⟩

theorem le_leastMul {a : Nat} (x : Nat) (h : 0 < a) : x ≤ leastMul a x := by
  unfold leastMul
  have h1 := Nat.div_add_mod (x + a - 1) a
  have h2 := Nat.mod_lt (x + a - 1) h
  rw [Nat.mul_comm] at h1
  omega

theorem leastMul_le {a x n : Nat} (h : 0 < a) (hd : a ∣ n) (hx : x ≤ n) :
    leastMul a x ≤ n := by
  obtain ⟨c, rfl⟩ := hd
  unfold leastMul
  have : (x + a - 1) / a ≤ c := by
    have : x + a - 1 ≤ a * c + (a - 1) := by omega
    calc (x + a - 1) / a ≤ (a * c + (a - 1)) / a := Nat.div_le_div_right this
      _ = c + (a - 1) / a := by rw [Nat.mul_add_div h]
      _ = c := by rw [Nat.div_eq_of_lt (by omega)]; rfl
  rw [Nat.mul_comm a c]
  exact Nat.mul_le_mul_right _ this

theorem leastMul_zero {a : Nat} (h : 0 < a) : leastMul a 0 = 0 := by
  have := leastMul_le (x := 0) h (Nat.dvd_zero a) (Nat.le_refl 0)
  omega

theorem leastMul_eight (a x : Nat) (h : 0 < a) : leastMul (8 * a) (8 * x) = 8 * leastMul a x := by
  unfold leastMul
  have h1 : 8 * x + 8 * a - 1 = 8 * (x + a - 1) + 7 := by omega
  rw [h1, ← Nat.div_div_eq_div_mul]
  have h2 : (8 * (x + a - 1) + 7) / 8 = x + a - 1 := by omega
  rw [h2, Nat.mul_left_comm]

theorem alignTo_eq {a : Nat} (x : Nat) (h : ∃ m, a = 2 ^ m) : alignTo x a = leastMul a x := by
  obtain ⟨m, rfl⟩ := h
  have hp : 0 < 2 ^ m := Nat.two_pow_pos m
  unfold alignTo
  rw [Nat.and_two_pow_sub_one_eq_mod]
  have h1 := Nat.div_add_mod x (2 ^ m)
  have h2 := Nat.mod_lt x hp
  apply Nat.le_antisymm
  · have hx := le_leastMul x hp
    obtain ⟨c, hc⟩ := leastMul_dvd (2 ^ m) x
    rw [hc] at hx ⊢
    split
    · have : x / 2 ^ m < c := by
        rw [Nat.div_lt_iff_lt_mul hp]
        rcases Nat.lt_or_eq_of_le hx with h | h
        · rwa [Nat.mul_comm]
        · exfalso
          rename_i hne
          apply hne
          rw [h, Nat.mul_mod_right]
      have : 2 ^ m * (x / 2 ^ m + 1) ≤ 2 ^ m * c := Nat.mul_le_mul_left _ this
      rw [Nat.mul_add] at this
      omega
    · exact hx
  · split
    · apply leastMul_le hp
      · exact ⟨x / 2 ^ m + 1, by rw [Nat.mul_add]; omega⟩
      · omega
    · rename_i h0
      apply leastMul_le hp _ (Nat.le_refl _)
      exact Nat.dvd_of_mod_eq_zero (by omega)

theorem assignMax_eq (a b : Nat) : assignMax a b = max a b := by
  unfold assignMax
  split <;> omega

theorem pow2_max {a b : Nat} (ha : ∃ m, a = 2 ^ m) (hb : ∃ m, b = 2 ^ m) :
    ∃ m, max a b = 2 ^ m := by
  rcases Nat.le_total a b with h | h
  · rw [Nat.max_eq_right h]; exact hb
  · rw [Nat.max_eq_left h]; exact ha

theorem pow2_pos {a : Nat} (ha : ∃ m, a = 2 ^ m) : 0 < a := by
  obtain ⟨m, rfl⟩ := ha
  exact Nat.two_pow_pos m

/-! ## C types -/

mutual
theorem align_pow2 : ∀ g : G, Good g → ∃ m, cAlign g = 2 ^ m
  | .base s a, h => by simp only [Good] at h; simpa only [cAlign] using h.2
  | .arr g n, h => by
    simp only [Good] at h
    simpa only [cAlign] using align_pow2 g h.1
  | .agg u ms, h => by
    simp only [Good] at h
    simpa only [cAlign] using aligns_pow2 ms h.2
theorem aligns_pow2 : ∀ ms : GMs, Goods ms → ∃ m, cAligns ms = 2 ^ m
  | .nil, _ => ⟨0, rfl⟩
  | .cons g b al ms, h => by
    simp only [Goods] at h
    simp only [cAligns]
    exact pow2_max (pow2_max (align_pow2 g h.1) ⟨0, h.2.2.1⟩) (aligns_pow2 ms h.2.2.2)
end

/-- Layouts of the members. -/
def mlays : GMs → List Lay
  | .nil => []
  | .cons g _ _ ms => cLay g :: mlays ms

theorem cEnd_eight : ∀ (ms : GMs) (x : Nat), Goods ms → 8 ∣ cEnd (8 * x) ms
  | .nil, x, _ => ⟨x, rfl⟩
  | .cons g b al ms, x, h => by
    simp only [Goods] at h
    obtain ⟨hg, rfl, rfl, hm⟩ := h
    simp only [cEnd]
    have hp := pow2_pos (align_pow2 g hg)
    rw [leastMul_eight _ _ (by omega), ← Nat.mul_add]
    exact cEnd_eight ms _ hm

theorem cEnd_mono : ∀ (ms : GMs) (x : Nat), Goods ms → 8 * x ≤ cEnd (8 * x) ms
  | .nil, x, _ => Nat.le_refl _
  | .cons g b al ms, x, h => by
    simp only [Goods] at h
    obtain ⟨hg, rfl, rfl, hm⟩ := h
    simp only [cEnd]
    have hp := pow2_pos (align_pow2 g hg)
    have hpm : 0 < max (cAlign g) 1 := by omega
    rw [leastMul_eight _ _ hpm, ← Nat.mul_add]
    have h1 := cEnd_mono ms (leastMul (max (cAlign g) 1) x + cSize g) hm
    have h2 := le_leastMul x hpm
    omega

mutual
theorem size_pos : ∀ g : G, Good g → 0 < cSize g
  | .base s a, h => by simp only [Good] at h; simpa only [cSize] using h.1
  | .arr g n, h => by
    simp only [Good] at h
    simp only [cSize]
    exact Nat.mul_pos (size_pos g h.1) h.2
  | .agg true ms, h => by
    simp only [Good] at h
    simp only [cSize, if_true]
    have h1 := max_pos ms h.2 h.1
    have h2 := le_leastMul (cMax ms) (pow2_pos (aligns_pow2 ms h.2))
    omega
  | .agg false ms, h => by
    simp only [Good] at h
    simp only [cSize, Bool.false_eq_true, if_false]
    have h1 := end_pos ms 0 h.2 h.1
    have h2 := le_leastMul ((cEnd 0 ms + 7) / 8) (pow2_pos (aligns_pow2 ms h.2))
    omega
theorem max_pos : ∀ ms : GMs, Goods ms → ms ≠ .nil → 0 < cMax ms
  | .nil, _, hn => absurd rfl hn
  | .cons g b al ms, h, _ => by
    simp only [Goods] at h
    simp only [cMax]
    have := size_pos g h.1
    omega
theorem end_pos : ∀ (ms : GMs) (x : Nat), Goods ms → ms ≠ .nil → 0 < cEnd x ms
  | .nil, _, _, hn => absurd rfl hn
  | .cons g b al .nil, x, h, _ => by
    simp only [Goods] at h
    obtain ⟨hg, rfl, rfl, -⟩ := h
    simp only [cEnd]
    have := size_pos g hg
    omega
  | .cons g b al (.cons g' b' al' ms), x, h, _ => by
    have hb : b = none := by simp only [Goods] at h; exact h.2.1
    have h' : Goods (.cons g' b' al' ms) := by simp only [Goods] at h ⊢; exact h.2.2.2
    subst hb
    rw [cEnd]
    exact end_pos _ _ h' (by simp)
end

theorem structLoop_eq : ∀ (ms : GMs) (sz al : Nat) (offs : List Nat), Goods ms →
    structLoop true ⟨⟨sz, al⟩, offs⟩ (mlays ms) =
      ⟨⟨cEnd (8 * sz) ms / 8, max al (cAligns ms)⟩, offs ++ cOffs (8 * sz) ms⟩
      ∨ al = 0
  | .nil, sz, al, offs, _ => by
    by_cases h : al = 0
    · exact .inr h
    · left
      simp only [mlays, structLoop, cEnd, cAligns, cOffs, List.append_nil]
      congr 2 <;> omega
  | .cons g b a ms, sz, al, offs, h => by
    by_cases h0 : al = 0
    · exact .inr h0
    simp only [Goods] at h
    obtain ⟨hg, rfl, rfl, hm⟩ := h
    have hp2 := align_pow2 g hg
    have hp := pow2_pos hp2
    left
    have hmx : max (cAlign g) 1 = cAlign g := by omega
    simp only [mlays, structLoop, if_true, cLay, cEnd, cAligns, cOffs, hmx]
    rw [leastMul_eight _ _ hp, ← Nat.mul_add, alignTo_eq _ hp2, assignMax_eq]
    rcases structLoop_eq ms (leastMul (cAlign g) sz + cSize g) (max al (cAlign g))
      (offs ++ [leastMul (cAlign g) sz]) hm with h | h
    · rw [h, Nat.max_assoc, List.append_assoc, Nat.mul_div_cancel_left _ (by omega)]
      rfl
    · omega

theorem structLayout_eq (ms : GMs) (h : Goods ms) :
    structLayout (mlays ms) = ⟨cLay (.agg false ms), cOffsets (.agg false ms)⟩ := by
  have h1 : structLoop false ⟨⟨0, 1⟩, []⟩ (mlays ms) = structLoop true ⟨⟨0, 1⟩, []⟩ (mlays ms) := by
    cases ms with
    | nil => rfl
    | cons g b a ms =>
      simp only [Goods] at h
      have hp2 := align_pow2 g h.1
      simp only [mlays, structLoop, cLay, alignTo_eq _ hp2, leastMul_zero (pow2_pos hp2)]
      rfl
  have hp2 := aligns_pow2 ms h
  have hp := pow2_pos hp2
  have hm : max 1 (cAligns ms) = cAligns ms := by omega
  rcases structLoop_eq ms 0 1 [] h with h2 | h2
  · unfold structLayout
    rw [h1, h2]
    simp only [hm, List.nil_append, Nat.mul_zero, cOffsets, cLay, cSize, cAlign,
      Bool.false_eq_true, if_false]
    rw [alignTo_eq _ hp2]
    obtain ⟨c, hc⟩ := cEnd_eight ms 0 h
    rw [Nat.mul_zero] at hc
    rw [hc]
    congr 3
    omega
  · omega

theorem unionLoop_eq : ∀ (ms : GMs) (sz al : Nat), 0 < al →
    Goods ms → unionLoop ⟨sz, al⟩ (mlays ms) = ⟨max sz (cMax ms), max al (cAligns ms)⟩
  | .nil, sz, al, h0, _ => by
    simp only [mlays, unionLoop, cMax, cAligns]
    congr 1 <;> omega
  | .cons g b a ms, sz, al, h0, h => by
    simp only [Goods] at h
    obtain ⟨hg, rfl, rfl, hm⟩ := h
    have hp := pow2_pos (align_pow2 g hg)
    simp only [mlays, unionLoop, cLay, assignMax_eq, cMax, cAligns]
    rw [unionLoop_eq ms _ _ (by omega) hm]
    congr 1 <;> omega

theorem zeros_mlays : ∀ ms : GMs, (mlays ms).map (fun _ => 0) = cOffsets.zeros ms
  | .nil => rfl
  | .cons _ _ _ ms => by
    simp only [mlays, List.map_cons, cOffsets.zeros, zeros_mlays ms]

theorem unionLayout_eq (ms : GMs) (h : Goods ms) (hn : ms ≠ .nil) :
    unionLayout (mlays ms) = ⟨cLay (.agg true ms), cOffsets (.agg true ms)⟩ := by
  have hp2 := aligns_pow2 ms h
  have hp := pow2_pos hp2
  have hm : max 1 (cAligns ms) = cAligns ms := by omega
  have hs : max 1 (cMax ms) = cMax ms := by have := max_pos ms h hn; omega
  unfold unionLayout
  rw [unionLoop_eq ms 1 1 (by omega) h, hm, hs, zeros_mlays]
  simp only [alignTo_eq _ hp2, cLay, cSize, cAlign, if_true, cOffsets]

/-! ## Instances -/

/-- What is known of the first `n` generic types. -/
structure Tab (D : Nat → Decl) (n : Nat) (U : Nat → List G → G) : Prop where
  /-- only the complete arguments matter -/
  indep : ∀ j < n, ∀ gs gs' : List G,
    (∀ i : Nat, (D j).params[i]? = some true → gs[i]? = gs'[i]?) → U j gs = U j gs'
  good : ∀ j < n, ∀ gs : List G,
    (∀ i : Nat, (D j).params[i]? = some true → ∃ g, gs[i]? = some g ∧ Good g) → Good (U j gs)

mutual
theorem inst_congr {D n U} (T : Tab D n U) (vs : Nat → Prop) (σ σ' : Nat → G)
    (h : ∀ i, vs i → σ i = σ' i) : ∀ t : Ty, OkTy D n vs t → inst U σ t = inst U σ' t
  | .var i, ok => by simp only [OkTy] at ok; simpa only [inst] using h i ok
  | .base _ _, _ => by simp only [inst]
  | .arr t k, ok => by
    simp only [OkTy] at ok
    simp only [inst, inst_congr T vs σ σ' h t ok.1]
  | .agg j args, ok => by
    simp only [OkTy] at ok
    simp only [inst]
    exact T.indep j ok.1 _ _ (instArgs_congr T vs σ σ' h _ args ok.2)
theorem instArgs_congr {D n U} (T : Tab D n U) (vs : Nat → Prop) (σ σ' : Nat → G)
    (h : ∀ i, vs i → σ i = σ' i) : ∀ (bs : List Bool) (ts : Tys), OkArgs D n vs bs ts →
      ∀ i : Nat, bs[i]? = some true → (instArgs U σ ts)[i]? = (instArgs U σ' ts)[i]?
  | bs, .nil, _, i, _ => by simp only [instArgs]
  | [], .cons _ _, ok, _, _ => by simp only [OkArgs] at ok
  | b :: bs, .cons t ts, ok, 0, hb => by
    simp only [OkArgs] at ok
    simp only [List.getElem?_cons_zero, Option.some.injEq] at hb
    simp only [instArgs, List.getElem?_cons_zero, inst_congr T vs σ σ' h t (ok.1 hb).1]
  | b :: bs, .cons t ts, ok, i + 1, hb => by
    simp only [OkArgs] at ok
    simp only [List.getElem?_cons_succ] at hb
    simp only [instArgs, List.getElem?_cons_succ]
    exact instArgs_congr T vs σ σ' h bs ts ok.2 i hb
end

mutual
theorem inst_good {D n U} (T : Tab D n U) (vs : Nat → Prop) (σ : Nat → G)
    (h : ∀ i, vs i → Good (σ i)) : ∀ t : Ty, OkTy D n vs t → Good (inst U σ t)
  | .var i, ok => by simp only [OkTy] at ok; simpa only [inst] using h i ok
  | .base _ _, ok => by simpa only [inst, OkTy, Good] using ok
  | .arr t k, ok => by
    simp only [OkTy] at ok
    simp only [inst, Good]
    exact ⟨inst_good T vs σ h t ok.1, ok.2⟩
  | .agg j args, ok => by
    simp only [OkTy] at ok
    simp only [inst]
    exact T.good j ok.1 _ (instArgs_good T vs σ h _ args ok.2)
theorem instArgs_good {D n U} (T : Tab D n U) (vs : Nat → Prop) (σ : Nat → G)
    (h : ∀ i, vs i → Good (σ i)) : ∀ (bs : List Bool) (ts : Tys), OkArgs D n vs bs ts →
      ∀ i : Nat, bs[i]? = some true → ∃ g, (instArgs U σ ts)[i]? = some g ∧ Good g
  | [], .nil, _, i, hb => by simp at hb
  | _ :: _, .nil, ok, _, _ => by simp only [OkArgs] at ok
  | [], .cons _ _, ok, _, _ => by simp only [OkArgs] at ok
  | b :: bs, .cons t ts, ok, 0, hb => by
    simp only [OkArgs] at ok
    simp only [List.getElem?_cons_zero, Option.some.injEq] at hb
    simp only [instArgs, List.getElem?_cons_zero]
    exact ⟨_, rfl, inst_good T vs σ h t (ok.1 hb).1⟩
  | b :: bs, .cons t ts, ok, i + 1, hb => by
    simp only [OkArgs] at ok
    simp only [List.getElem?_cons_succ] at hb
    simp only [instArgs, List.getElem?_cons_succ]
    exact instArgs_good T vs σ h bs ts ok.2 i hb
end

mutual
theorem ok_static (D : Nat → Decl) (n : Nat) (vs : Nat → Prop) : ∀ t : Ty, OkTy D n vs t →
    dyn D t = false → OkTy D n (fun _ => False) t
  | .var i, _, h => by simp only [dyn, Bool.true_eq_false] at h
  | .base _ _, ok, _ => by simpa only [OkTy] using ok
  | .arr t k, ok, h => by
    simp only [OkTy, dyn] at ok h ⊢
    exact ⟨ok_static D n vs t ok.1 h, ok.2⟩
  | .agg j args, ok, h => by
    simp only [OkTy, dyn] at ok h ⊢
    exact ⟨ok.1, okArgs_static D n vs _ args ok.2 h⟩
theorem okArgs_static (D : Nat → Decl) (n : Nat) (vs : Nat → Prop) :
    ∀ (bs : List Bool) (ts : Tys), OkArgs D n vs bs ts →
    dynArgs D bs ts = false → OkArgs D n (fun _ => False) bs ts
  | [], .nil, _, _ => by simp only [OkArgs]
  | _ :: _, .nil, ok, _ => by simp only [OkArgs] at ok
  | [], .cons _ _, ok, _ => by simp only [OkArgs] at ok
  | b :: bs, .cons t ts, ok, h => by
    simp only [OkArgs, dynArgs, Bool.or_eq_false_iff] at ok h ⊢
    refine ⟨fun hb => ?_, okArgs_static D n vs bs ts ok.2 h.2⟩
    have h1 := h.1
    rw [hb, Bool.true_and] at h1
    exact ⟨ok_static D n vs t (ok.1 hb).1 h1, by rw [h1, Bool.and_false]⟩
end

theorem inst_static {D n U} (T : Tab D n U) (vs : Nat → Prop) (σ σ' : Nat → G) (t : Ty)
    (ok : OkTy D n vs t) (h : dyn D t = false) : inst U σ t = inst U σ' t :=
  inst_congr T (fun _ => False) σ σ' (fun _ h => h.elim) t (ok_static D n vs t ok h)

/-! ## The layout functions -/

/-- Layouts of the complete arguments. -/
def pick : List Bool → List G → List Lay
  | b :: bs, g :: gs => if b then cLay g :: pick bs gs else pick bs gs
  | _, _ => []

theorem bind_pick : ∀ (bs : List Bool) (gs : List G) (k i : Nat) (g : G),
    bs[i]? = some true → gs[i]? = some g →
    bindParams (sizedParams k bs) (pick bs gs) (k + i) = some (cLay g)
  | [], _, _, i, _, hb, _ => by simp at hb
  | _ :: _, [], _, i, _, _, hg => by simp at hg
  | b :: bs, g' :: gs, k, 0, g, hb, hg => by
    simp only [List.getElem?_cons_zero, Option.some.injEq] at hb hg
    subst hb hg
    simp only [sizedParams, pick, if_true, bindParams, Nat.add_zero]
  | b :: bs, g' :: gs, k, i + 1, g, hb, hg => by
    simp only [List.getElem?_cons_succ] at hb hg
    have ih := bind_pick bs gs (k + 1) i g hb hg
    rw [show k + (i + 1) = k + 1 + i by omega]
    cases b with
    | false => simpa only [sizedParams, pick, Bool.false_eq_true, if_false] using ih
    | true =>
      simp only [sizedParams, pick, if_true, bindParams]
      rw [if_neg (by omega)]
      exact ih

/-- What is known of the first `n` layout functions. -/
structure FTab (D : Nat → Decl) (n : Nat) (U : Nat → List G → G)
    (F : Nat → List Lay → Option Res) : Prop where
  members : ∀ j < n, (D j).members ≠ []
  call : ∀ j < n, ∀ gs : List G,
    (∀ i : Nat, (D j).params[i]? = some true → ∃ g, gs[i]? = some g ∧ Good g) →
    F j (pick (D j).params gs) = some ⟨cLay (U j gs), cOffsets (U j gs)⟩

mutual
theorem lay_eq {D n U F} (T : Tab D n U) (TF : FTab D n U F) (C : Ty → Lay)
    (hC : ∀ t, C t = cLay (inst U (fun _ => void) t)) (vs : Nat → Prop) (σ : Nat → G)
    (env : Nat → Option Lay)
    (hg : ∀ i, vs i → Good (σ i)) (he : ∀ i, vs i → env i = some (cLay (σ i))) :
    ∀ t : Ty, OkTy D n vs t → lay D F C env t = some (cLay (inst U σ t))
  | .var i, ok => by simp only [OkTy] at ok; simpa only [lay, inst] using he i ok
  | .base s a, _ => by simp only [lay, inst, cLay, cSize, cAlign]
  | .arr t k, ok => by
    have ok' := ok
    simp only [OkTy] at ok
    simp only [lay]
    split
    · rw [lay_eq T TF C hC vs σ env hg he t ok.1]
      simp only [Option.map_some, inst, cLay, cSize, cAlign]
    · rename_i hd
      rw [hC, inst_static T vs (fun _ => void) σ (.arr t k) ok' (by simpa only [dyn, Bool.not_eq_true] using hd)]
  | .agg j args, ok => by
    have ok' := ok
    simp only [OkTy] at ok
    simp only [lay]
    split
    · have hm : (D j).members.isEmpty = false := by
        have := TF.members j ok.1
        cases h : (D j).members <;> simp_all
      rw [hm, layArgs_eq T TF C hC vs σ env hg he _ args ok.2]
      simp only [Bool.false_eq_true, if_false, Option.bind_some]
      rw [TF.call j ok.1 _ (instArgs_good T vs σ hg _ args ok.2)]
      simp only [Option.map_some, inst]
    · rename_i hd
      rw [hC, inst_static T vs (fun _ => void) σ (.agg j args) ok' (by simpa only [dyn, Bool.not_eq_true] using hd)]
theorem layArgs_eq {D n U F} (T : Tab D n U) (TF : FTab D n U F) (C : Ty → Lay)
    (hC : ∀ t, C t = cLay (inst U (fun _ => void) t)) (vs : Nat → Prop) (σ : Nat → G)
    (env : Nat → Option Lay)
    (hg : ∀ i, vs i → Good (σ i)) (he : ∀ i, vs i → env i = some (cLay (σ i))) :
    ∀ (bs : List Bool) (ts : Tys), OkArgs D n vs bs ts →
      layArgs D F C env bs ts = some (pick bs (instArgs U σ ts))
  | [], .nil, _ => by simp only [layArgs, instArgs, pick]
  | _ :: _, .nil, ok => by simp only [OkArgs] at ok
  | [], .cons _ _, ok => by simp only [OkArgs] at ok
  | false :: bs, .cons t ts, ok => by
    simp only [OkArgs] at ok
    simp only [layArgs, instArgs, pick, Bool.false_eq_true, if_false]
    exact layArgs_eq T TF C hC vs σ env hg he bs ts ok.2
  | true :: bs, .cons t ts, ok => by
    simp only [OkArgs, forall_const] at ok
    simp only [layArgs, instArgs, pick, if_true, ok.1.2, Bool.false_eq_true, if_false,
      lay_eq T TF C hC vs σ env hg he t ok.1.1, Option.bind_some,
      layArgs_eq T TF C hC vs σ env hg he bs ts ok.2, Option.map_some]
end

theorem layMembers_eq {D n U F} (T : Tab D n U) (TF : FTab D n U F) (C : Ty → Lay)
    (hC : ∀ t, C t = cLay (inst U (fun _ => void) t)) (vs : Nat → Prop) (σ : Nat → G)
    (env : Nat → Option Lay)
    (hg : ∀ i, vs i → Good (σ i)) (he : ∀ i, vs i → env i = some (cLay (σ i))) :
    ∀ ms : List Member, (∀ m ∈ ms, OkTy D n vs m.ty) →
      layMembers D F C env ms = some (mlays (instMembers U σ ms))
  | [], _ => rfl
  | m :: ms, ok => by
    simp only [layMembers, instMembers, mlays,
      lay_eq T TF C hC vs σ env hg he m.ty (ok m (by simp)), Option.bind_some,
      layMembers_eq T TF C hC vs σ env hg he ms (fun m' h => ok m' (by simp [h])),
      Option.map_some]

theorem instMembers_congr {D n U} (T : Tab D n U) (vs : Nat → Prop) (σ σ' : Nat → G)
    (h : ∀ i, vs i → σ i = σ' i) : ∀ ms : List Member, (∀ m ∈ ms, OkTy D n vs m.ty) →
      instMembers U σ ms = instMembers U σ' ms
  | [], _ => rfl
  | m :: ms, ok => by
    simp only [instMembers, inst_congr T vs σ σ' h m.ty (ok m (by simp)),
      instMembers_congr T vs σ σ' h ms (fun m' h => ok m' (by simp [h]))]

theorem instMembers_good {D n U} (T : Tab D n U) (vs : Nat → Prop) (σ : Nat → G)
    (h : ∀ i, vs i → Good (σ i)) : ∀ ms : List Member,
      (∀ m ∈ ms, m.bits = none ∧ m.aligned = 1 ∧ OkTy D n vs m.ty) →
      Goods (instMembers U σ ms)
  | [], _ => by simp only [instMembers, Goods]
  | m :: ms, ok => by
    have := ok m (by simp)
    simp only [instMembers, Goods]
    exact ⟨inst_good T vs σ h m.ty this.2.2, this.1, this.2.1,
      instMembers_good T vs σ h ms (fun m' h => ok m' (by simp [h]))⟩

theorem concrete_good {D n U} (T : Tab D n U) (ok : OkDecl D n) (gs : List G)
    (h : ∀ i : Nat, (D n).params[i]? = some true → ∃ g, gs[i]? = some g ∧ Good g) :
    Good (concrete U (D n) gs) := by
  unfold concrete
  simp only [Good]
  refine ⟨?_, instMembers_good T _ _ ?_ _ ok.2⟩
  · have := ok.1
    cases h : (D n).members <;> simp_all [instMembers]
  · intro i hi
    obtain ⟨g, h1, h2⟩ := h i hi
    simpa only [h1, Option.getD_some] using h2

/-- The table extended by the next declaration. -/
theorem tabs (D : Nat → Decl) : ∀ n, OkProg D n →
    Tab D n (instances D n) ∧ FTab D n (instances D n) (layoutFns D n)
  | 0, _ => ⟨⟨fun j hj => by omega, fun j hj => by omega⟩,
      ⟨fun j hj => by omega, fun j hj => by omega⟩⟩
  | n + 1, ok => by
    obtain ⟨T, TF⟩ := tabs D n (fun k hk => ok k (by omega))
    have okn := ok n (by omega)
    have hmty : ∀ m ∈ (D n).members, OkTy D n (fun i => (D n).params[i]? = some true) m.ty :=
      fun m hm => (okn.2 m hm).2.2
    refine ⟨⟨?_, ?_⟩, ⟨?_, ?_⟩⟩
    · intro j hj gs gs' h
      by_cases e : j = n
      · subst e
        simp only [instances, upd_same, concrete]
        congr 1
        refine instMembers_congr T _ _ _ ?_ _ hmty
        intro i hi
        rw [h i hi]
      · simp only [instances, upd_ne _ _ e]
        exact T.indep j (by omega) gs gs' h
    · intro j hj gs h
      by_cases e : j = n
      · subst e
        simp only [instances, upd_same]
        exact concrete_good T okn gs h
      · simp only [instances, upd_ne _ _ e]
        exact T.good j (by omega) gs h
    · intro j hj
      exact (ok j hj).1
    · intro j hj gs h
      by_cases e : j = n
      · subst e
        have hgood := concrete_good T okn gs h
        simp only [instances, layoutFns, upd_same]
        unfold layoutFn
        rw [layMembers_eq T TF (cCompiler D j) (fun _ => rfl) _ (fun i => gs[i]?.getD void) _ ?_ ?_ _ hmty]
        · unfold concrete at hgood ⊢
          simp only [Good] at hgood
          rw [Option.map_some]
          cases hu : (D j).union with
          | true => simp only [if_true, unionLayout_eq _ hgood.2 hgood.1]
          | false => simp only [Bool.false_eq_true, if_false, structLayout_eq _ hgood.2]
        · intro i hi
          obtain ⟨g, h1, h2⟩ := h i hi
          simpa only [h1, Option.getD_some] using h2
        · intro i hi
          obtain ⟨g, h1, h2⟩ := h i hi
          have := bind_pick (D j).params gs 0 i g hi h1
          rw [Nat.zero_add] at this
          rw [this, h1, Option.getD_some]
      · simp only [instances, layoutFns, upd_ne _ _ e]
        exact TF.call j (by omega) gs h

/-! ## Members -/

/-- Members with their offsets (in bytes) are in order, aligned, disjoint and
below `e`. -/
def Placed (lo e : Nat) : List Nat → GMs → Prop
  | [], .nil => lo ≤ e
  | o :: os, .cons g _ _ ms => lo ≤ o ∧ cAlign g ∣ o ∧ Placed (o + cSize g) e os ms
  | _, _ => False

theorem placed_cOffs : ∀ (ms : GMs) (x e : Nat), Goods ms → cEnd (8 * x) ms ≤ 8 * e →
    Placed x e (cOffs (8 * x) ms) ms
  | .nil, x, e, _, h => by simp only [cEnd, cOffs, Placed] at h ⊢; omega
  | .cons g b al ms, x, e, hg, h => by
    simp only [Goods] at hg
    obtain ⟨hg, rfl, rfl, hm⟩ := hg
    have hp := pow2_pos (align_pow2 g hg)
    have hmx : max (cAlign g) 1 = cAlign g := by omega
    simp only [cEnd, cOffs, hmx, leastMul_eight _ _ hp, ← Nat.mul_add] at h ⊢
    rw [Nat.mul_div_cancel_left _ (by omega)]
    simp only [Placed]
    exact ⟨le_leastMul x hp, leastMul_dvd _ _, placed_cOffs ms _ e hm h⟩

/-- Sizes and alignments of the members in order. -/
theorem placed_get : ∀ (os : List Nat) (ms : GMs) (lo e : Nat), Placed lo e os ms →
    (mlays ms).length = os.length ∧
    (∀ (i : Nat) (l : Lay) (o : Nat), (mlays ms)[i]? = some l → os[i]? = some o →
      lo ≤ o ∧ l.align ∣ o ∧ o + l.size ≤ e ∧
      ∀ (k o' : Nat), i < k → os[k]? = some o' → o + l.size ≤ o') ∧ lo ≤ e
  | [], .nil, lo, e, h => by
    simp only [Placed] at h
    exact ⟨rfl, by intro i l o h; simp [mlays] at h, h⟩
  | [], .cons _ _ _ _, _, _, h => by simp only [Placed] at h
  | _ :: _, .nil, _, _, h => by simp only [Placed] at h
  | o :: os, .cons g _ _ ms, lo, e, h => by
    simp only [Placed] at h
    obtain ⟨h1, h2, h3⟩ := h
    obtain ⟨i1, i2, i3⟩ := placed_get os ms _ e h3
    refine ⟨by simp only [mlays, List.length_cons, i1], ?_, by omega⟩
    intro i l o1 hl ho
    cases i with
    | zero =>
      simp only [mlays, List.getElem?_cons_zero, Option.some.injEq] at hl ho
      subst hl ho
      refine ⟨h1, h2, i3, ?_⟩
      intro k o' hk ho'
      cases k with
      | zero => omega
      | succ k =>
        simp only [List.getElem?_cons_succ] at ho'
        have hlt : k < (mlays ms).length := by
          rw [i1]
          exact (List.getElem?_eq_some_iff.mp ho').1
        exact (i2 k _ o' (List.getElem?_eq_getElem hlt) ho').1
    | succ i =>
      simp only [mlays, List.getElem?_cons_succ] at hl ho
      obtain ⟨j1, j2, j3, j4⟩ := i2 i l o1 hl ho
      refine ⟨by omega, j2, j3, ?_⟩
      intro k o' hk ho'
      cases k with
      | zero => omega
      | succ k =>
        simp only [List.getElem?_cons_succ] at ho'
        exact j4 k o' (by omega) ho'

/-- Each member of a union fits. -/
theorem union_get : ∀ (ms : GMs) (i : Nat) (l : Lay), (mlays ms)[i]? = some l →
    l.size ≤ cMax ms
  | .nil, i, l, h => by simp [mlays] at h
  | .cons g _ _ ms, 0, l, h => by
    simp only [mlays, List.getElem?_cons_zero, Option.some.injEq] at h
    subst h
    simp only [cMax, cLay]
    omega
  | .cons g _ _ ms, i + 1, l, h => by
    simp only [mlays, List.getElem?_cons_succ] at h
    have := union_get ms i l h
    simp only [cMax]
    omega

/-- Alignments are powers of two, so that of an aggregate is a multiple of
that of each member. -/
theorem align_get : ∀ (ms : GMs) (i : Nat) (l : Lay), Goods ms → (mlays ms)[i]? = some l →
    l.align ∣ cAligns ms
  | .nil, i, l, _, h => by simp [mlays] at h
  | .cons g b al ms, 0, l, hg, h => by
    have hall := aligns_pow2 _ hg
    simp only [Goods] at hg
    have h1 := align_pow2 g hg.1
    simp only [mlays, List.getElem?_cons_zero, Option.some.injEq] at h
    subst h
    exact pow2_dvd h1 hall (by simp only [cAligns, cLay]; omega)
  | .cons g b al ms, i + 1, l, hg, h => by
    have hall := aligns_pow2 _ hg
    simp only [Goods] at hg
    simp only [mlays, List.getElem?_cons_succ] at h
    refine Nat.dvd_trans (align_get ms i l hg.2.2.2 h) (pow2_dvd (aligns_pow2 ms hg.2.2.2) hall ?_)
    simp only [cAligns]; omega
where
  pow2_dvd {a b : Nat} (ha : ∃ m, a = 2 ^ m) (hb : ∃ m, b = 2 ^ m) (h : a ≤ b) : a ∣ b := by
    obtain ⟨m, rfl⟩ := ha
    obtain ⟨k, rfl⟩ := hb
    exact Nat.pow_dvd_pow 2 ((Nat.pow_le_pow_iff_right (by omega)).mp h)

end GenLayout
