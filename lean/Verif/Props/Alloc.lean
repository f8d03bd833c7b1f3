import Verif.Proof.Alloc
/-
  C59.  alloc(dim, ...`fill) initialises exactly the newly obtained part of the block with the fill pattern and
  writes nothing outside the block, also when combined with `realloc.
  False for a whole-array fill with `realloc (`C59_whole_array_violated`), and for a value fill with `realloc when
  the old size is not a multiple of the size of an element (`C59_value_violated`).

  C75.  anew and adelete.  False above 2^31 elements (`C75_large_violated`).

  C76.  Typed allocation asks for enough storage.  False for reallocarray (`C76_reallocarray_violated`).
-/
namespace Verif.Alloc

/-! ### C59 -/

/-- The bytes the block keeps from the old one. -/
def kept : From → Block
  | .realloc old => old
  | _ => []

/-- What byte `i` of the new block must be. -/
def expected (tsize : Nat) (src : From) (fill : Fill) (i : Nat) : Option Byte :=
  if h : i < (kept src).length then (kept src)[i]
  else match fill with
    | .no => none
    | .char c => some c
    | .value t => t[i % tsize]?
    | .some_ a n => if i - (kept src).length < n then a[i - (kept src).length]? else none
    | .all a => a[i]?

/-- When the fill makes sense, and the code copes with it.  The last two parts exclude the cases where it does
not. -/
def Fillable (tsize dim : Nat) (src : From) : Fill → Prop
  | .no => True
  | .char _ => True
  | .value t => t.length = tsize ∧ (tsize ∣ (kept src).length ∨ dim * tsize ≤ (kept src).length)
  | .some_ a n => n ≤ a.length
  | .all a => dim * tsize ≤ a.length ∧ (kept src = [] ∨ dim * tsize = 0)

theorem C59_fill_partial {tsize dim : Nat} (src : From) (fill : Fill) (hsz : dim * tsize < 2 ^ 64)
    (hf : Fillable tsize dim src fill) :
    ∃ b, alloc tsize dim src fill = .ret b ∧ b.length = dim * tsize ∧
      ∀ i, i < dim * tsize → b[i]? = some (expected tsize src fill i) := by
  generalize hT : dim * tsize = T at *
  have hmod : T % 2 ^ 64 = T := Nat.mod_eq_of_lt hsz
  have hblk : (startBlock T src).length = T ∧
      ∀ i, i < T → (startBlock T src)[i]? = if i < (kept src).length then (kept src)[i]? else some none := by
    cases src with
    | fresh => exact ⟨by simp [startBlock], fun i hi => by simp [kept, startBlock, hi]⟩
    | resize old => exact ⟨by simp [startBlock], fun i hi => by simp [kept, startBlock, hi]⟩
    | realloc old =>
      refine ⟨by simp [startBlock]; omega, fun i hi => ?_⟩
      show (old.take T ++ List.replicate (T - old.length) none)[i]? = if i < old.length then old[i]? else some none
      rw [List.getElem?_append, List.length_take]
      by_cases h : i < old.length
      · rw [if_pos (by omega), if_pos h, List.getElem?_take, if_pos hi]
      · rw [if_neg (by omega), if_neg h, List.getElem?_replicate, if_pos (by omega)]
  have hce : fill ≠ .no → copyEnd T src fill = min (kept src).length T := by
    intro hne
    cases src <;> simp [copyEnd, kept, hne]
  obtain ⟨blk, hb0⟩ : ∃ blk, startBlock T src = blk := ⟨_, rfl⟩
  rw [hb0] at hblk
  obtain ⟨hbl, hbi⟩ := hblk
  have hexp : ∀ i, i < (kept src).length → (kept src)[i]? = some (expected tsize src fill i) := by
    intro i hi
    simp [expected, hi]
  unfold alloc
  simp only [hT, hmod, hb0]
  cases fill with
  | no =>
    refine ⟨blk, rfl, hbl, ?_⟩
    intro i hi
    rw [hbi i hi]
    by_cases h : i < (kept src).length
    · rw [if_pos h]; exact hexp i h
    · rw [if_neg h]; simp [expected, h]
  | char c =>
    have hce := hce (by simp)
    simp only [hce]
    obtain ⟨b, w1, w2, w3⟩ := write_ok (b := blk) (i := min (kept src).length T)
      (src := List.replicate (T - min (kept src).length T) c) (by simp; omega)
    refine ⟨b, w1, by omega, ?_⟩
    intro i hi
    rw [w3]
    simp only [List.length_replicate]
    by_cases h : i < (kept src).length
    · rw [if_neg (by omega), hbi i hi, if_pos h]; exact hexp i h
    · rw [if_pos (by omega), List.getElem?_replicate, if_pos (by omega)]
      simp [expected, h]
  | value t =>
    have hce := hce (by simp)
    simp only [hce]
    obtain ⟨ht, hdiv⟩ := hf
    rcases Nat.eq_zero_or_pos tsize with h0 | hpos
    · have : T = 0 := by rw [← hT, h0]; rfl
      subst this
      exact ⟨blk, rfl, hbl, by omega⟩
    · -- a whole number of elements is new
      have hm : ∃ m, min (kept src).length T + m * t.length = blk.length := by
        rcases hdiv with ⟨k, hk⟩ | hge
        · rcases Nat.le_total T (kept src).length with h | h
          · exact ⟨0, by omega⟩
          · refine ⟨dim - k, ?_⟩
            rw [Nat.min_eq_left h, hbl, ht, hk, ← hT, Nat.sub_mul, Nat.mul_comm tsize k]
            have : k * tsize ≤ dim * tsize := by rw [hT, Nat.mul_comm, ← hk]; exact h
            omega
        · exact ⟨0, by omega⟩
      obtain ⟨m, hm⟩ := hm
      have hmT : m ≤ T := by
        have : m * 1 ≤ m * t.length := Nat.mul_le_mul_left m (by omega)
        omega
      obtain ⟨b, f1, f2, f3⟩ := fillLoop_ok (t := t) (by omega) m T blk (min (kept src).length T) hmT hm
      refine ⟨b, f1, by omega, ?_⟩
      intro i hi
      rw [f3 i (by omega)]
      by_cases h : i < (kept src).length
      · rw [if_neg (by omega), hbi i hi, if_pos h]; exact hexp i h
      · rw [if_pos (by omega)]
        simp only [expected, h, dite_false, ht]
        rcases hdiv with ⟨k, hk⟩ | hge
        · rw [Nat.min_eq_left (by omega)]
          congr 2
          have hi' : i = (i - (kept src).length) + tsize * k := by omega
          conv => rhs; rw [hi']
          rw [Nat.add_mul_mod_self_left]
        · omega
  | some_ a n =>
    have hce := hce (by simp)
    simp only [hce]
    simp only [Fillable] at hf
    obtain ⟨b, w1, w2, w3⟩ := write_ok (b := blk) (i := min (kept src).length T)
      (src := a.take (min (T - min (kept src).length T) n)) (by simp; omega)
    refine ⟨b, by rw [memcpy, if_pos (by omega)]; exact w1, by omega, ?_⟩
    intro i hi
    rw [w3]
    simp only [List.length_take, List.getElem?_take]
    by_cases h : i < (kept src).length
    · rw [if_neg (by omega), hbi i hi, if_pos h]; exact hexp i h
    · by_cases h2 : i - (kept src).length < n
      · rw [if_pos (by omega), if_pos (by omega)]
        simp only [expected, h, dite_false, h2, if_true]
        congr 2
        omega
      · rw [if_neg (by omega), hbi i hi, if_neg h]
        simp [expected, h, h2]
  | all a =>
    have hce := hce (by simp)
    simp only [hce]
    obtain ⟨h1, h2⟩ := hf
    rw [hT] at h1 h2
    rcases h2 with hk | h0
    · have hk0 : min (kept src).length T = 0 := by rw [hk]; simp
      rw [hk0]
      obtain ⟨b, w1, w2, w3⟩ := write_ok (b := blk) (i := 0) (src := a.take T) (by simp; omega)
      refine ⟨b, by rw [memcpy, if_pos h1]; exact w1, by omega, ?_⟩
      intro i hi
      rw [w3]
      simp only [List.length_take, List.getElem?_take]
      rw [if_pos (by omega), if_pos (by omega)]
      simp [expected, hk]
    · subst h0
      rw [Nat.min_zero]
      obtain ⟨b, w1, w2, w3⟩ := write_ok (b := blk) (i := 0) (src := a.take 0) (by simp)
      exact ⟨b, by rw [memcpy, if_pos (by omega)]; exact w1, by omega, by omega⟩

/-- The fill with `nelem` elements of an array: the new part of the block starts with the bytes of exactly those
elements, `nelem * tsize` of them or as many as there is room for, and the bytes after them are not written. -/
theorem C59_some_elements {tsize dim nelem : Nat} (src : From) (a : List Byte) (hsz : dim * tsize < 2 ^ 64)
    (ha : nelem * tsize ≤ a.length) :
    ∃ b, alloc tsize dim src (fillSome tsize a nelem) = .ret b ∧ b.length = dim * tsize ∧
      (∀ i, i < dim * tsize → i < (kept src).length → b[i]? = (kept src)[i]?) ∧
      (∀ k, (kept src).length + k < dim * tsize → k < nelem * tsize → b[(kept src).length + k]? = some a[k]?) ∧
      (∀ k, (kept src).length + k < dim * tsize → nelem * tsize ≤ k → b[(kept src).length + k]? = some none) := by
  obtain ⟨b, h1, h2, h3⟩ := C59_fill_partial (tsize := tsize) (dim := dim) src (fillSome tsize a nelem) hsz ha
  refine ⟨b, h1, h2, fun i hi hk => ?_, fun k hk hn => ?_, fun k hk hn => ?_⟩
  · rw [h3 i hi]; simp [expected, hk]
  · rw [h3 _ hk]; simp [expected, fillSome, hn]; omega
  · rw [h3 _ hk]; simp [expected, fillSome, show ¬ k < nelem * tsize by omega]; omega

/-- Two elements of two bytes in a block of three whose first element is kept. -/
example : ∃ b, alloc 2 3 (.realloc [some 1, some 2]) (fillSome 2 [3, 4, 5, 6] 2) = .ret b ∧ b.length = 3 * 2 :=
  let ⟨b, h, l, _⟩ := C59_some_elements (tsize := 2) (dim := 3) (nelem := 2) (.realloc [some 1, some 2]) [3, 4, 5, 6]
    (by decide) (by decide)
  ⟨b, h, l⟩

/-- The fill of a whole array, combined with `realloc of a block that is not empty, always writes outside the new
block: the length is not reduced by the part that is kept. -/
theorem C59_whole_array_violated {tsize dim : Nat} (old : Block) (a : List Byte) (hold : old ≠ [])
    (hsz : dim * tsize < 2 ^ 64) (hpos : 0 < dim * tsize) (ha : dim * tsize ≤ a.length) :
    alloc tsize dim (.realloc old) (.all a) = .undef := by
  generalize hT : dim * tsize = T at *
  have hmod : T % 2 ^ 64 = T := Nat.mod_eq_of_lt hsz
  have : 0 < old.length := List.length_pos_iff.2 hold
  unfold alloc
  simp only [hT, hmod, memcpy, if_pos ha, write, startBlock, copyEnd]
  rw [if_neg]
  simp
  omega

/-- The fill with a value, combined with `realloc of a block whose size is not a multiple of the size of an element,
always writes past the end of the new block. -/
theorem C59_value_violated {tsize dim : Nat} (old : Block) (t : List Byte) (ht : t.length = tsize)
    (hpos : 0 < tsize) (hsz : dim * tsize < 2 ^ 64) (hlt : old.length < dim * tsize) (hold : ¬ tsize ∣ old.length) :
    alloc tsize dim (.realloc old) (.value t) = .undef := by
  generalize hT : dim * tsize = T at *
  have hmod : T % 2 ^ 64 = T := Nat.mod_eq_of_lt hsz
  have h0 : 0 < old.length := by
    rcases Nat.eq_zero_or_pos old.length with h | h
    · exact absurd (h ▸ Nat.dvd_zero tsize) hold
    · exact h
  unfold alloc
  simp only [hT, hmod, startBlock, copyEnd, ne_eq, reduceCtorEq, not_false_eq_true, if_true]
  rw [Nat.min_eq_left (by omega)]
  have hl : (List.take T old ++ List.replicate (T - old.length) (none : Option Byte)).length = T := by simp; omega
  apply fillLoop_undef (by omega)
  · omega
  · omega
  · rw [hl, ht]
    intro h
    apply hold
    have h1 : tsize ∣ T - old.length := Nat.dvd_of_mod_eq_zero h
    have h2 : tsize ∣ T := ⟨dim, by rw [← hT, Nat.mul_comm]⟩
    have := Nat.dvd_sub h2 h1
    rwa [show T - (T - old.length) = old.length by omega] at this

/-- The size is computed without checking for overflow, so that the block can be smaller than its elements. -/
theorem C59_size_overflow_violated : ∃ tsize dim b, alloc tsize dim .fresh .no = .ret b ∧ b.length < dim * tsize :=
  ⟨2, 2 ^ 63, [], by decide +kernel, by decide⟩

/-- A growing `realloc with each kind of fill. -/
example : alloc 2 3 (.realloc [some 1, some 2]) (.char 9) = .ret [some 1, some 2, some 9, some 9, some 9, some 9] ∧
    alloc 2 3 (.realloc [some 1, some 2]) (.value [7, 8]) = .ret [some 1, some 2, some 7, some 8, some 7, some 8] ∧
    alloc 2 3 (.realloc [some 1, some 2]) (fillSome 2 [7, 8, 9, 9] 1) = .ret [some 1, some 2, some 7, some 8, none, none] ∧
    alloc 2 3 .fresh (.all [1, 2, 3, 4, 5, 6]) = .ret [some 1, some 2, some 3, some 4, some 5, some 6] := by
  decide +kernel

example : Fillable 2 3 (.realloc [some 1, some 2]) (.value [7, 8]) := by
  refine ⟨rfl, Or.inl ⟨1, rfl⟩⟩

/-- 5 bytes enlarged to 2 elements of 4 bytes. -/
example : alloc 4 2 (.realloc [some 0, some 0, some 0, some 0, some 0]) (.value [1, 2, 3, 4]) = .undef := by
  decide +kernel

/-! ### C75 -/

/-- `adelete` destroys exactly what `anew` constructed, in the opposite order.  Missing: more than 2^31 elements. -/
theorem C75_partial (tsize dim : Nat) (h : dim ≤ 2 ^ 31) :
    anew dim = List.range dim ∧ adelete tsize dim = (anew dim).reverse := by
  refine ⟨rfl, ?_⟩
  have hd : (if tsize = 0 then dim else dim * tsize / tsize) = dim := by
    split
    · rfl
    · rename_i h0
      exact Nat.mul_div_cancel dim (by omega)
  simp only [adelete, hd, anew]
  cases dim with
  | zero => decide
  | succ n =>
    have h1 : (n + 1 + 2 ^ 64 - 1) % 2 ^ 64 = n := by omega
    have h2 : toInt32 n = n := by simp only [toInt32]; rw [if_pos (by omega)]; omega
    rw [h1, h2, if_pos (by omega), downFrom_eq]
    rfl

/-- The index of the loop is an `int`: with more than 2^31 elements, no destructor is run. -/
theorem C75_large_violated (tsize dim : Nat) (h1 : 2 ^ 31 < dim) (h2 : dim ≤ 2 ^ 32) :
    adelete tsize dim = [] ∧ anew dim ≠ [] := by
  have hd : (if tsize = 0 then dim else dim * tsize / tsize) = dim := by
    split
    · rfl
    · rename_i h0
      exact Nat.mul_div_cancel dim (by omega)
  constructor
  · simp only [adelete, hd]
    have h3 : (dim + 2 ^ 64 - 1) % 2 ^ 64 = dim - 1 := by omega
    rw [h3, if_neg]
    simp only [toInt32]
    rw [if_neg (by omega)]
    omega
  · rw [anew, Ne, List.range_eq_nil]
    omega

example : adelete 8 3 = [2, 1, 0] ∧ adelete 0 3 = [2, 1, 0] ∧ adelete 8 0 = [] := by decide

/-! ### C76 -/

/-- A request is large enough and aligned for `dim` objects of a type. -/
def Enough (t : Elem) (dim : Nat) (r : Request) : Prop :=
  r.size = dim * t.size ∧ (libAlign < t.align → r.align = t.align)

theorem C76_default_alignment (t : Elem) (dim : Nat) :
    Enough t 1 (mallocT t) ∧ Enough t dim (aallocT t dim) ∧ Enough t dim (reallocT t (dim * t.size)) := by
  refine ⟨?_, ?_, ?_⟩
  · unfold Enough mallocT; split <;> simp <;> omega
  · unfold Enough aallocT; split <;> simp <;> omega
  · unfold Enough reallocT; split <;> simp <;> omega

theorem C76_given_alignment (t : Elem) (align dim : Nat) :
    memalignT t align = ⟨align, 1 * t.size⟩ ∧ amemalignT t align dim = ⟨align, dim * t.size⟩ := by
  simp [memalignT, amemalignT]

/-- `reallocarray` is right for a type with an ordinary alignment. -/
theorem C76_reallocarray_partial (t : Elem) (dim : Nat) (h : t.align ≤ libAlign) : Enough t dim (reallocarrayT t dim) := by
  unfold Enough reallocarrayT
  rw [if_pos h]
  exact ⟨rfl, by omega⟩

/-- `reallocarray` of a type with a larger alignment passes the alignment where the dimension is expected and the
dimension where the element size is expected: the block is not aligned, and holds `dim` elements only
if their size is their alignment. -/
theorem C76_reallocarray_violated (t : Elem) (dim : Nat) (h : libAlign < t.align) :
    ¬ Enough t dim (reallocarrayT t dim) ∧ (t.align < t.size → 0 < dim → (reallocarrayT t dim).size < dim * t.size) := by
  unfold Enough reallocarrayT
  rw [if_neg (by omega)]
  refine ⟨fun ⟨_, h2⟩ => ?_, fun h1 h2 => ?_⟩
  · have := h2 h
    simp only [reallocarrayC] at this
    omega
  · simp only [reallocarrayC]
    rw [Nat.mul_comm dim]
    exact Nat.mul_lt_mul_of_pos_right h1 h2

/-- The version with an alignment ignores the size of the elements. -/
theorem C76_reallocarray_align_violated : ∃ t : Elem, ∃ align dim,
    (reallocarrayAlignT t align dim).size < dim * t.size ∧ (reallocarrayAlignT t align dim).align ≠ align :=
  ⟨⟨128, 16⟩, 64, 10, by decide, by decide⟩

example : Enough ⟨128, 64⟩ 10 (aallocT ⟨128, 64⟩ 10) := by
  exact ⟨by decide, fun _ => by decide⟩

example : (reallocarrayT ⟨128, 64⟩ 10).size = 640 := by decide

end Verif.Alloc
