import Verif.Model.HeapAlloc
import Verif.Proof.Heap
/-! Words in memory, buckets and addresses of the allocator. -/
namespace Verif.HeapAlloc

/-! ### Words -/

theorem load_congr {m m' : Mem} {a : Nat} (h : ∀ x, a ≤ x → x < a + 8 → m' x = m x) : load m' a = load m a := by
  unfold load
  rw [h a (by omega) (by omega), h (a + 1) (by omega) (by omega), h (a + 2) (by omega) (by omega),
    h (a + 3) (by omega) (by omega), h (a + 4) (by omega) (by omega), h (a + 5) (by omega) (by omega),
    h (a + 6) (by omega) (by omega), h (a + 7) (by omega) (by omega)]

theorem load_store {m : Mem} {a v : Nat} (hv : v < W) : load (store m a v) a = v := by
  unfold W at hv
  have e : ∀ k, k < 8 → store m a v (a + k) = v / 2 ^ (8 * k) % 256 := by
    intro k hk
    unfold store
    rw [if_pos (by omega), show a + k - a = k by omega]
  have e0 := e 0 (by omega)
  simp only [Nat.add_zero] at e0
  unfold load
  rw [e0, e 1 (by omega), e 2 (by omega), e 3 (by omega), e 4 (by omega), e 5 (by omega), e 6 (by omega), e 7 (by omega)]
  simp only [Nat.reduceMul, Nat.reducePow]
  omega

theorem store_out {m : Mem} {a v x : Nat} (h : x < a ∨ a + 8 ≤ x) : store m a v x = m x := by
  unfold store
  rw [if_neg (by omega)]

theorem load_store_ne {m : Mem} {a b v : Nat} (h : a + 8 ≤ b ∨ b + 8 ≤ a) : load (store m b v) a = load m a :=
  load_congr fun x h1 h2 => store_out (by omega)

theorem memset_out {m : Mem} {a v n x : Nat} (h : x < a ∨ a + n ≤ x) : memset m a v n x = m x := by
  unfold memset
  rw [if_neg (by omega)]

theorem memset_in {m : Mem} {a v n x : Nat} (h : a ≤ x) (h2 : x < a + n) : memset m a v n x = v := by
  unfold memset
  rw [if_pos ⟨h, h2⟩]

theorem memcpy_out {m : Mem} {a b n x : Nat} (h : x < a ∨ a + n ≤ x) : memcpy m a b n x = m x := by
  unfold memcpy
  rw [if_neg (by omega)]

theorem memcpy_in {m : Mem} {a b n i : Nat} (h : i < n) : memcpy m a b n (a + i) = m (b + i) := by
  unfold memcpy
  rw [if_pos (by omega), show a + i - a = i by omega]

/-! ### Buckets -/

theorem bs_table : ∀ b : Fin 91, bs b % 16 = 0 ∧ 32 ≤ bs b ∧ bs b ≤ 4194320 ∧ (b.val < 90 → bs b.val < bs (b.val + 1)) := by
  decide +kernel

theorem bs_facts {b : Nat} (h : b ≤ 90) : bs b % 16 = 0 ∧ 32 ≤ bs b ∧ bs b ≤ 4194320 := by
  have := bs_table ⟨b, by omega⟩
  exact ⟨this.1, this.2.1, this.2.2.1⟩

theorem bs_succ {b : Nat} (h : b < 90) : bs b < bs (b + 1) := (bs_table ⟨b, by omega⟩).2.2.2 h

theorem bs_mono {b c : Nat} (h : b < c) (hc : c ≤ 90) : bs b < bs c := by
  induction c with
  | zero => omega
  | succ c ih =>
    have := bs_succ (b := c) (by omega)
    rcases Nat.lt_or_ge b c with h' | h'
    · have := ih h' (by omega); omega
    · have : b = c := by omega
      subst this; assumption

theorem bs_le {b c : Nat} (h : b ≤ c) (hc : c ≤ 90) : bs b ≤ bs c := by
  rcases Nat.lt_or_ge b c with h' | h'
  · exact Nat.le_of_lt (bs_mono h' hc)
  · have : b = c := by omega
    subst this; exact Nat.le_refl _

/-- The loop of the search finds the first bucket of the range that is large enough, or the end of the range. -/
theorem bsearchLoop_spec (key : Nat) : ∀ (f l h : Nat), h - l < f → l ≤ h → h ≤ 91 → (∀ b, b < l → bs b < key) →
    l ≤ bsearchLoop f key l h ∧ bsearchLoop f key l h ≤ h ∧ (∀ b, b < bsearchLoop f key l h → bs b < key) ∧
      (bsearchLoop f key l h < h → key ≤ bs (bsearchLoop f key l h)) := by
  intro f
  induction f with
  | zero => intro l h hf; omega
  | succ f ih =>
    intro l h hf hl hh hlow
    unfold bsearchLoop
    by_cases hlt : l < h
    · rw [if_pos hlt]
      by_cases hk : bs ((l + h) / 2) < key
      · rw [if_pos hk]
        have := ih ((l + h) / 2 + 1) h (by omega) (by omega) hh (by
          intro b hb
          rcases Nat.lt_or_ge b ((l + h) / 2) with h' | h'
          · exact Nat.lt_trans (bs_mono h' (by omega)) hk
          · have : b = (l + h) / 2 := by omega
            rw [this]; exact hk)
        exact ⟨by omega, this.2.1, this.2.2.1, this.2.2.2⟩
      · rw [if_neg hk]
        have := ih l ((l + h) / 2) (by omega) (by omega) (by omega) hlow
        refine ⟨this.1, by omega, this.2.2.1, fun _ => ?_⟩
        rcases Nat.lt_or_ge (bsearchLoop f key l ((l + h) / 2)) ((l + h) / 2) with h' | h'
        · exact this.2.2.2 h'
        · have : bsearchLoop f key l ((l + h) / 2) = (l + h) / 2 := by omega
          rw [this]; omega
    · rw [if_neg hlt]
      exact ⟨Nat.le_refl _, hl, hlow, fun h' => absurd h' hlt⟩

theorem bsearchl_spec {key dim : Nat} (hk : key < 2 ^ 32) (hd : dim ≤ 91) :
    bsearchl key dim ≤ dim ∧ (∀ b, b < bsearchl key dim → bs b < key) ∧ (bsearchl key dim < dim → key ≤ bs (bsearchl key dim)) := by
  unfold bsearchl
  rw [Nat.mod_eq_of_lt hk]
  have := bsearchLoop_spec key (dim + 1) 0 dim (by omega) (by omega) hd (by intro b hb; omega)
  exact this.2

theorem lookup_spec : ∀ i, i ≤ bs 90 → lookup i ≤ 90 ∧ i ≤ bs (lookup i) ∧ (∀ b, b < lookup i → bs b < i) := by
  intro i
  induction i with
  | zero => intro _; simp [lookup]
  | succ i ih =>
    intro hi
    obtain ⟨h1, h2, h3⟩ := ih (by omega)
    unfold lookup
    by_cases hgt : i + 1 > bs (lookup i)
    · rw [if_pos hgt]
      have hlt : lookup i < 90 := by
        rcases Nat.lt_or_ge (lookup i) 90 with h | h
        · exact h
        · have : lookup i = 90 := by omega
          rw [this] at hgt; omega
      have := bs_succ hlt
      refine ⟨by omega, by omega, fun b hb => ?_⟩
      rcases Nat.lt_or_ge b (lookup i) with h | h
      · have := h3 b h; omega
      · have : b = lookup i := by omega
        rw [this]; omega
    · rw [if_neg hgt]
      exact ⟨h1, by omega, fun b hb => by have := h3 b hb; omega⟩

/-- The bucket chosen for a small request is the first that is large enough. -/
theorem bucketFor_spec {s : St} {n : Nat} (hm : s.maxB ≤ 90) (hs : s.mmapStart ≤ bs s.maxB) (hn : n < s.mmapStart) :
    bucketFor s n ≤ 90 ∧ n ≤ bs (bucketFor s n) ∧ ∀ b, b < bucketFor s n → bs b < n := by
  have hb := bs_facts hm
  have h90 : bs s.maxB ≤ bs 90 := bs_le hm (by omega)
  unfold bucketFor
  split
  · exact lookup_spec n (by omega)
  · have := bsearchl_spec (key := n) (dim := s.maxB) (by omega) (by omega)
    refine ⟨by omega, ?_, this.2.1⟩
    rcases Nat.lt_or_ge (bsearchl n s.maxB) s.maxB with h | h
    · exact this.2.2 h
    · have : bsearchl n s.maxB = s.maxB := by omega
      rw [this]; omega

theorem maxB_spec {v : Nat} (hv : v ≤ bs 90) : bsearchl v 91 ≤ 90 ∧ v ≤ bs (bsearchl v 91) := by
  have h90 := bs_facts (Nat.le_refl 90)
  have := bsearchl_spec (key := v) (dim := 91) (by omega) (by omega)
  rcases Nat.lt_or_ge (bsearchl v 91) 91 with h | h
  · exact ⟨by omega, this.2.2 h⟩
  · have h' := this.2.1 90 (by omega); omega

/-! ### Addresses -/

theorem homeAddr_facts {h b : Nat} (hb : b ≤ 90) (hh : h < 2 ^ 40) :
    homeAddr h b % 64 = 0 ∧ homeHeap (homeAddr h b) = h ∧ homeBucket (homeAddr h b) = b ∧ homeAddr h b + 8 < W := by
  unfold homeAddr homeHeap homeBucket W
  refine ⟨by omega, ?_, ?_, by omega⟩
  · rw [Nat.mul_div_cancel_left _ (by omega)]; omega
  · rw [Nat.mul_div_cancel_left _ (by omega)]; omega

theorem pow2_mod {n : Nat} (h : goodAlign n = true) : 16 ≤ n ∧ n % 16 = 0 := by
  unfold goodAlign isPow2 at h
  simp only [Bool.and_eq_true, decide_eq_true_eq, beq_iff_eq] at h
  obtain ⟨h1, h2, h3⟩ := h
  refine ⟨h1, ?_⟩
  rcases Nat.eq_zero_or_pos (n % 16) with h | h
  · exact h
  · exfalso
    have e : (n &&& (n - 1)) >>> 4 = 0 := by rw [h3]; rfl
    rw [Nat.shiftRight_and_distrib, Nat.shiftRight_eq_div_pow, Nat.shiftRight_eq_div_pow] at e
    have : (n - 1) / 2 ^ 4 = n / 2 ^ 4 := by omega
    rw [this, Nat.and_self] at e
    omega

theorem ceiling2_spec {n al : Nat} (ha : 0 < al) (hn : n + al ≤ W) :
    n ≤ ceiling2 n al ∧ ceiling2 n al < n + al ∧ ceiling2 n al % al = 0 := by
  unfold ceiling2
  have h1 := Nat.div_add_mod (n + (al - 1)) al
  have h2 := Nat.mod_lt (n + (al - 1)) ha
  have h3 : (n + (al - 1)) / al * al = al * ((n + (al - 1)) / al) := Nat.mul_comm _ _
  have h4 : (n + (al - 1)) / al * al < W := by omega
  rw [Nat.mod_eq_of_lt h4]
  refine ⟨by omega, by omega, ?_⟩
  rw [Nat.mul_mod_left]

/-- A number below a multiple, at a multiple of 16, rounds up by at most `al - 16`. -/
theorem ceiling2_16 {n al : Nat} (ha : al % 16 = 0) (h0 : 0 < al) (hn16 : n % 16 = 0) (hn : n + al ≤ W) :
    n ≤ ceiling2 n al ∧ ceiling2 n al + 16 ≤ n + al ∧ ceiling2 n al % al = 0 ∧ ceiling2 n al % 16 = 0 := by
  obtain ⟨h1, h2, h3⟩ := ceiling2_spec h0 hn
  have h4 : ceiling2 n al % 16 = 0 := by
    obtain ⟨k, hk⟩ := Nat.dvd_of_mod_eq_zero ha
    obtain ⟨j, hj⟩ := Nat.dvd_of_mod_eq_zero h3
    rw [hj, hk, Nat.mul_assoc]
    exact Nat.mul_mod_right _ _
  exact ⟨h1, by omega, h3, h4⟩

end Verif.HeapAlloc
