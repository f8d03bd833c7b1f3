import Verif.Model.Alloc
namespace Verif.Alloc

theorem write_ok {b : Block} {i : Nat} {src : List Byte} (h : i + src.length ≤ b.length) :
    ∃ b', write b i src = .ret b' ∧ b'.length = b.length ∧
      ∀ j, b'[j]? = if i ≤ j ∧ j < i + src.length then some (src[j - i]?) else b[j]? := by
  refine ⟨_, by rw [write, if_pos h], ?_, ?_⟩
  · simp; omega
  · intro j
    rw [List.getElem?_append, List.getElem?_append]
    simp only [List.length_append, List.length_take, List.length_map, List.getElem?_take, List.getElem?_drop]
    have hm : min i b.length = i := by omega
    rw [hm]
    by_cases h1 : j < i
    · rw [if_pos (by omega), if_pos h1, if_pos h1, if_neg (by omega)]
    · by_cases h2 : j < i + src.length
      · rw [if_pos h2, if_neg h1, if_pos ⟨by omega, h2⟩]
        have : j - i < src.length := by omega
        simp [this]
      · rw [if_neg h2, if_neg (by omega)]
        congr 1
        omega

theorem fillLoop_ok {t : List Byte} (ht : 0 < t.length) : ∀ (m n : Nat) (b : Block) (i : Nat), m ≤ n →
    i + m * t.length = b.length →
    ∃ b', fillLoop n b i t = .ret b' ∧ b'.length = b.length ∧
      ∀ j, j < b.length → b'[j]? = if i ≤ j then some (t[(j - i) % t.length]?) else b[j]? := by
  intro m
  induction m with
  | zero =>
    intro n b i _ hi
    refine ⟨b, ?_, rfl, ?_⟩
    · cases n with
      | zero => rfl
      | succ n => rw [fillLoop, if_neg (by omega)]
    · intro j hj
      rw [if_neg (by omega)]
  | succ m ih =>
    intro n b i hn hi
    obtain ⟨n, rfl⟩ : ∃ k, n = k + 1 := ⟨n - 1, by omega⟩
    have hm : (m + 1) * t.length = m * t.length + t.length := by rw [Nat.add_mul]; omega
    obtain ⟨b1, w1, w2, w3⟩ := write_ok (b := b) (i := i) (src := t) (by omega)
    obtain ⟨b2, f1, f2, f3⟩ := ih n b1 (i + t.length) (by omega) (by omega)
    refine ⟨b2, ?_, by omega, ?_⟩
    · rw [fillLoop, if_pos (by omega), w1]
      exact f1
    · intro j hj
      rw [f3 j (by omega), w3]
      by_cases h1 : i ≤ j
      · rw [if_pos h1]
        by_cases h2 : i + t.length ≤ j
        · rw [if_pos h2]
          have : (j - i) = (j - (i + t.length)) + t.length := by omega
          rw [this, Nat.add_mod_right]
        · rw [if_neg h2, if_pos (by omega)]
          rw [Nat.mod_eq_of_lt (by omega)]
      · rw [if_neg h1, if_neg (by omega), if_neg (by omega)]

theorem fillLoop_undef {t : List Byte} (ht : 0 < t.length) : ∀ (n : Nat) (b : Block) (i : Nat), b.length < n + i →
    i ≤ b.length → (b.length - i) % t.length ≠ 0 → fillLoop n b i t = .undef := by
  intro n
  induction n with
  | zero => intro b i h1 h2; omega
  | succ n ih =>
    intro b i h1 h2 h3
    have hlt : i < b.length := by
      rcases Nat.lt_or_ge i b.length with h | h
      · exact h
      · have : b.length - i = 0 := by omega
        rw [this] at h3; simp at h3
    rw [fillLoop, if_pos hlt]
    by_cases h : i + t.length ≤ b.length
    · obtain ⟨b1, w1, w2, _⟩ := write_ok h
      rw [w1]
      show fillLoop n b1 (i + t.length) t = .undef
      refine ih _ _ (by omega) (by omega) ?_
      have : b.length - i = (b1.length - (i + t.length)) + t.length := by omega
      rwa [this, Nat.add_mod_right] at h3
    · rw [write, if_neg h]
      rfl

theorem downFrom_eq : ∀ n, downFrom n = (List.range (n + 1)).reverse
  | 0 => rfl
  | n + 1 => by rw [downFrom, downFrom_eq n, List.range_succ (n := n + 1)]; simp

end Verif.Alloc
