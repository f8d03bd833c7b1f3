import Verif.Proof.StrDocs
/-!
C30 and C33: strings of the shared heap have the usual meaning, and share-edit strings follow each other's edits, for every history
whose requests fit in the initial area (so no garbage collection happens; see `StrGc` for collections).
-/
namespace Verif.StrHeap
open Verif

theorem step_spec {low : Int → Nat → Bool} {A B : Docs} {h : Heap} {o : Op} {r : List Nat} (v : Inv A h) (s : Spec A o B r) :
    Inv B (step low h o).1 ∧ (step low h o).2 = r := by
  have c := v.core
  have hvr := v.room
  have below : ∀ j n, A.live j → (Buf.heap (h.s j) (min (h.ln j) n)).below h.ee := by
    intro j n hj
    have := c.bound j hj
    simp only [Buf.below]; omega
  have rd : ∀ j n, A.live j → (Buf.heap (h.s j) (min (h.ln j) n)).read h.mem = (A.value j).take n := by
    intro j n hj
    rw [← c.text hj]
    simp only [Buf.read, text]
    apply List.ext_getElem
    · simp [Nat.min_comm]
    · intro k h1 h2
      rw [bytes_get, List.getElem_take, bytes_get]
  have sz : ∀ j n, A.live j → (Buf.heap (h.s j) (min (h.ln j) n)).size = ((A.value j).take n).length := by
    intro j n hj; rw [← rd j n hj, Buf.read_length]
  have le : ∀ j n, A.live j → (Buf.heap (h.s j) (min (h.ln j) n)).size ≤ A.len j := by
    intro j n hj; rw [← c.ln j hj]; simp only [Buf.size]; omega
  cases s with
  | newEmpty i g hi h0 hg =>
    refine ⟨?_, rfl⟩
    have := v.new (h' := newEmpty h i) (room := A.room) (t := []) hi hg h0 (fun _ _ => rfl)
      (fun j hj => upd_ne _ _ (fun e => hi (e ▸ hj))) (fun j hj => upd_ne _ _ (fun e => hi (e ▸ hj)))
      (Nat.le_refl _) (by simp [newEmpty]) (by simp [text, newEmpty, bytes]) rfl rfl hvr
      (List.nodup_append.2 ⟨v.nodup, by simp, fun a ha b hb e => hi ((v.order i).1 (by
        simp only [List.mem_singleton] at hb; rw [← hb, ← e]; exact ha))⟩)
      (fun j => by simp only [newEmpty, List.mem_append, List.mem_singleton]; exact Or.comm)
    exact this
  | newBytes i g bs hi h0 hg hr =>
    refine ⟨?_, rfl⟩
    simp only [step]
    rw [newBuf_room (by simp only [Buf.size]; omega)]
    refine v.new (t := bs) hi hg h0 (fun a ha => by dsimp only; exact Buf.copy_out _ _ _ _ (Or.inl ha))
      (fun j hj => upd_ne _ _ (fun e => hi (e ▸ hj))) (fun j hj => upd_ne _ _ (fun e => hi (e ▸ hj)))
      (by dsimp only; omega) (by simp) ?_ rfl rfl (by simp only [Buf.size]; omega)
      (List.nodup_append.2 ⟨v.nodup, by simp, fun a ha b hb e => hi ((v.order i).1 (by
        simp only [List.mem_singleton] at hb; rw [← hb, ← e]; exact ha))⟩)
      (fun j => by simp only [List.mem_append, List.mem_singleton]; exact Or.comm)
    simp only [text, upd_same]
    exact Buf.copy_bytes (.bytes bs) _ _
  | copy i g j st n hi h0 hg hj hn =>
    refine ⟨?_, rfl⟩
    rw [value_length c hj] at hn
    have := v.new (h' := copy h i j st n) (room := A.room) (t := ((A.value j).drop st).take n) hi hg h0 (fun _ _ => rfl)
      (fun j hj => upd_ne _ _ (fun e => hi (e ▸ hj))) (fun j hj => upd_ne _ _ (fun e => hi (e ▸ hj)))
      (Nat.le_refl _) (by
        have := c.bound j hj; have := c.ln j hj
        simp only [copy, upd_same]; omega)
      (by
        rw [← c.text hj]
        have := c.ln j hj
        simp only [copy, text, upd_same]
        apply List.ext_getElem
        · simp; omega
        · intro k h1 h2
          rw [bytes_get, List.getElem_take, List.getElem_drop, bytes_get, Nat.add_assoc])
      rfl rfl hvr
      (nodup_addAfter ((v.order j).2 hj) (fun e => hi ((v.order i).1 e)) v.nodup)
      (fun k => mem_addAfter ((v.order j).2 hj))
    exact this
  | share i j st n hi h0 hj hn => exact ⟨v.share hi h0 hj hn, rfl⟩
  | destroy i hi => exact ⟨v.destroy hi, rfl⟩
  | appendBytes i bs hi hs hr => exact ⟨v.append (b := .bytes bs) hi hs trivial hr, rfl⟩
  | appendStr i j n hi hj hs hr =>
    refine ⟨?_, rfl⟩
    have := v.append (low := low) (b := .heap (h.s j) (min (h.ln j) n)) hi hs (below j n hj) (by have := le j n hj; omega)
    rw [rd j n hj, sz j n hj] at this
    exact this
  | assignBytes i bs hi hr => exact ⟨v.assign (low := low) (b := .bytes bs) (src := none) hi trivial (fun _ e => by simp at e) hr, rfl⟩
  | assignStr i j hi hj hr =>
    refine ⟨?_, rfl⟩
    have e : (Buf.heap (h.s j) (h.ln j)) = Buf.heap (h.s j) (min (h.ln j) (h.ln j)) := by rw [Nat.min_self]
    have := v.assign (low := low) (b := .heap (h.s j) (h.ln j)) (src := some j) hi (by rw [e]; exact below j _ hj)
      (fun k hk => by cases hk; exact ⟨hj, rfl⟩) (by rw [e]; have := le j (h.ln j) hj; omega)
    have e2 : (Buf.heap (h.s j) (h.ln j)).read h.mem = A.value j := c.text hj
    have e3 : (Buf.heap (h.s j) (h.ln j)).size = (A.value j).length := by rw [← e2, Buf.read_length]
    rw [e2, e3] at this
    exact this
  | assignPart i j n hi hj hr =>
    refine ⟨?_, rfl⟩
    have := v.assign (low := low) (b := .heap (h.s j) (min (h.ln j) n)) (src := none) hi (below j n hj)
      (fun k hk => by simp at hk) (by have := le j n hj; omega)
    rw [rd j n hj, sz j n hj] at this
    exact this
  | read i hi => exact ⟨v, c.text hi⟩

theorem run_spec {low : Int → Nat → Bool} {A B : Docs} {os : List Op} {rs : List (List Nat)} (s : SpecRun A os B rs) :
    ∀ {h : Heap}, Inv A h → Inv B (run low h os).1 ∧ (run low h os).2 = rs := by
  induction s with
  | nil A => exact fun v => ⟨v, rfl⟩
  | cons A B C o os r rs h1 _ ih =>
    intro h v
    obtain ⟨v', e⟩ := step_spec (low := low) v h1
    obtain ⟨v'', e'⟩ := ih v'
    exact ⟨v'', by simp only [run]; rw [e, e']⟩

theorem inv_make (addr size gap : Nat) : Inv (Docs.empty size) (make addr size gap) where
  room := Nat.le_refl _
  zero := id
  core := ⟨fun _ h => h.elim, fun _ h => h.elim, fun _ h => h.elim, fun _ _ h => h.elim, fun _ _ h => h.elim⟩
  ring := fun _ => ⟨[], trivial, by simp, fun j => by simp [Docs.empty]⟩
  nodup := by simp [make]
  order := fun j => by simp [make, Docs.empty]

/-- C30 (histories that fit in the initial area): reading strings gives the characters that construction, copying, concatenation,
    assignment and shared edits define on documents. Missing: histories with a garbage collection (see `StrGc`), and appending to a
    string that shares edits (see `C33_append_shared_violated`). -/
theorem C30_strings_are_sequences_partial (low : Int → Nat → Bool) (addr size gap : Nat) (os : List Op) (A : Docs) (rs : List (List Nat))
    (s : SpecRun (Docs.empty size) os A rs) : (run low (make addr size gap) os).2 = rs :=
  (run_spec s (inv_make addr size gap)).2

/-- After any such history, every string holds the characters of its range. -/
theorem C30_values_partial (low : Int → Nat → Bool) (addr size gap : Nat) (os : List Op) (A : Docs) (rs : List (List Nat))
    (s : SpecRun (Docs.empty size) os A rs) (i : Nat) (hi : A.live i) : text (run low (make addr size gap) os).1 i = A.value i :=
  (run_spec s (inv_make addr size gap)).1.core.text hi

/-- Characters `[a, b)` of a document. -/
def range (T : List Nat) (a b : Nat) : List Nat := (T.take b).drop a

theorem range_eq (T : List Nat) (a n : Nat) : (T.drop a).take n = range T a (a + n) := by
  unfold range; rw [List.drop_take]; congr 1; omega

theorem range_length (T : List Nat) (a b : Nat) : (range T a b).length = min b T.length - a := by simp [range]

theorem range_getD (T : List Nat) (a b k : Nat) (h : a + k < b) : (range T a b).getD k 0 = T.getD (a + k) 0 := by
  simp only [range, List.getD_eq_getElem?_getD, List.getElem?_drop, List.getElem?_take, if_pos h]

/-- Two lists of the same length with the same characters. -/
theorem ext_getD {l m : List Nat} (h : l.length = m.length) (h' : ∀ k < l.length, l.getD k 0 = m.getD k 0) : l = m := by
  apply List.ext_getElem h
  intro k h1 h2
  have := h' k h1
  rwa [List.getD_eq_getElem _ _ h1, List.getD_eq_getElem _ _ h2] at this

/-- C33: after an assignment to a string that denotes `[x, y)` of a document, the string holds the new characters, and a peer that
    denotes `[a, b)` holds: its old characters when its range is before or after the edit; otherwise what it had before `x`, the new
    characters if its range contained the whole edited range, and what it had after `y`. Other strings are unchanged. -/
theorem C33_edit (low : Int → Nat → Bool) (addr size gap : Nat) (os : List Op) (A : Docs) (rs : List (List Nat))
    (s : SpecRun (Docs.empty size) os A rs) (i : Nat) (t : List Nat) (hi : A.live i)
    (hr : (A.T (A.grp i)).length + t.length ≤ A.room) :
    let h := (run low (make addr size gap) (os ++ [.assignBytes i t])).1
    let x := A.lo i
    let y := A.lo i + A.len i
    let T := A.T (A.grp i)
    text h i = t ∧
    (∀ p, A.live p → A.grp p ≠ A.grp i → text h p = A.value p) ∧
    ∀ p, A.live p → A.grp p = A.grp i → p ≠ i →
      let a := A.lo p
      let b := A.lo p + A.len p
      text h p = if b ≤ x ∨ y ≤ a then range T a b
        else range T a x ++ (if a ≤ x ∧ y ≤ b then t else []) ++ range T y b := by
  intro h x y T
  have hrun : ∀ (h0 : Heap) (os : List Op) (o : Op), (run low h0 (os ++ [o])).1 = (step low (run low h0 os).1 o).1 := by
    intro h0 os o
    induction os generalizing h0 with
    | nil => simp [run]
    | cons a os ih => simp only [List.cons_append, run]; exact ih _
  obtain ⟨v, -⟩ := run_spec (low := low) s (inv_make addr size gap)
  have c0 := v.core
  have w := (step_spec (low := low) v (.assignBytes i t hi hr)).1.core
  have hh : h = (step low (run low (make addr size gap) os).1 (.assignBytes i t)).1 := hrun _ _ _
  rw [← hh] at w
  have hri := c0.rng i hi
  have iT : (A.assign i t).T (A.grp i) = T.take x ++ t ++ T.drop y := upd_same _ _ _
  refine ⟨?_, ?_, ?_⟩
  · rw [w.text (i := i) hi]
    have e1 : (A.assign i t).lo i = x := by simp [Docs.assign, Docs.edit, x]
    have e2 : (A.assign i t).len i = t.length := by simp [Docs.assign, Docs.edit]
    show (((A.assign i t).T (A.grp i)).drop ((A.assign i t).lo i)).take ((A.assign i t).len i) = t
    rw [iT, e1, e2, List.append_assoc, List.drop_append_of_le_length (by simp only [List.length_take, T]; omega), List.drop_take]
    simp
  · intro p hp e
    rw [w.text (i := p) hp]
    have e1 : (A.assign i t).lo p = A.lo p := by
      simp only [Docs.assign, Docs.edit]; rw [if_neg (fun q => e (by rw [q])), if_neg e]
    have e2 : (A.assign i t).len p = A.len p := by
      simp only [Docs.assign, Docs.edit]; rw [if_neg (fun q => e (by rw [q])), if_neg e]
    have e3 : (A.assign i t).T (A.grp p) = A.T (A.grp p) := upd_ne _ _ e
    show (((A.assign i t).T (A.grp p)).drop ((A.assign i t).lo p)).take ((A.assign i t).len p) = _
    rw [e1, e2, e3]; rfl
  · intro p hp e hpi a b
    rw [w.text (i := p) hp]
    have e1 : (A.assign i t).lo p = editLo x y t.length a (A.len p) := by
      simp only [Docs.assign, Docs.edit]; rw [if_neg hpi, if_pos e]
    have e2 : (A.assign i t).len p = editLen x y t.length a (A.len p) := by
      simp only [Docs.assign, Docs.edit]; rw [if_neg hpi, if_pos e]
    show (((A.assign i t).T (A.grp p)).drop ((A.assign i t).lo p)).take ((A.assign i t).len p) = _
    rw [e, iT, e1, e2, range_eq]
    have hrp := c0.rng p hp
    rw [e] at hrp
    have hxy : x ≤ y := by simp only [x, y]; omega
    have hyT : y ≤ T.length := hri
    have hb : b = a + A.len p := rfl
    have hbT : b ≤ T.length := hrp
    clear_value x y T a b
    generalize A.len p = n at *
    have hlen : (T.take x ++ t ++ T.drop y).length = x + t.length + (T.length - y) := by simp; omega
    have key := edit_le (x := x) (y := y) (n := t.length) (lo := a) (len := n) (M := T.length) (by omega) hyT hxy
    apply ext_getD
    · rw [range_length, hlen]
      unfold editLo editLen at *
      split_ifs at * <;> simp only [List.length_append, range_length, List.length_nil] <;> omega
    · intro k hk
      rw [range_length, hlen] at hk
      rw [range_getD _ _ _ _ (by omega), edit_text_get (by omega)]
      have gk : ∀ u w k, u + k < w → (range T u w).getD k 0 = T.getD (u + k) 0 := fun u w k h => range_getD T u w k h
      by_cases h1 : b ≤ x ∨ y ≤ a
      · rw [if_pos h1]
        unfold editLo editLen at *
        split_ifs at * <;> first | omega | (rw [gk _ _ _ (by omega)]; done) | (rw [gk _ _ _ (by omega)]; congr 1; omega)
      · rw [if_neg h1]
        by_cases h2 : a ≤ x
        · have el : editLo x y t.length a n = a := by unfold editLo; rw [if_neg (by omega), if_pos h2]
          rw [el] at hk ⊢
          by_cases h3 : y ≤ b
          · have en : editLen x y t.length a n = n - (y - x) + t.length := by
              unfold editLen; rw [if_neg (by omega), if_pos h2, if_neg (by omega), if_neg (by omega)]
            rw [en] at hk
            rw [if_pos (show a ≤ x ∧ y ≤ b from ⟨h2, h3⟩)]
            by_cases k1 : a + k < x
            · rw [if_pos k1, List.append_assoc, List.getD_append _ _ _ _ (by rw [range_length]; omega), gk _ _ _ k1]
            · rw [if_neg k1, List.append_assoc, List.getD_append_right _ _ _ _ (by rw [range_length]; omega), range_length]
              by_cases k2 : a + k < x + t.length
              · rw [if_pos k2, List.getD_append _ _ _ _ (by omega)]; congr 1; omega
              · rw [if_neg k2, List.getD_append_right _ _ _ _ (by omega), gk _ _ _ (by omega)]; congr 1; omega
          · have en : editLen x y t.length a n = x - a := by
              unfold editLen; rw [if_neg (by omega), if_pos h2, if_neg (by omega), if_pos (by omega)]
            rw [en] at hk
            rw [if_pos (show a + k < x by omega), if_neg (show ¬ (a ≤ x ∧ y ≤ b) by omega), List.append_nil, List.getD_append _ _ _ _ (by rw [range_length]; omega), gk _ _ _ (by omega)]
        · have h3 : ¬ (a ≤ x ∧ y ≤ b) := by omega
          have r0 : range T a x = [] := by apply List.eq_nil_of_length_eq_zero; rw [range_length]; omega
          rw [if_neg h3, r0, List.append_nil, List.nil_append]
          by_cases h4 : b < y
          · have en : editLen x y t.length a n = 0 := by
              unfold editLen; rw [if_neg (by omega), if_neg h2, if_pos (by omega)]
            rw [en] at hk; omega
          · have en : editLen x y t.length a n = a + n - y := by
              unfold editLen; rw [if_neg (by omega), if_neg h2, if_neg (by omega)]
            have el : editLo x y t.length a n = x + t.length := by
              unfold editLo; rw [if_neg (by omega), if_neg h2, if_neg (by omega)]
            rw [en, el] at hk
            rw [el, if_neg (by omega), if_neg (by omega), gk _ _ _ (by omega)]; congr 1; omega

/-- The hypotheses are met: `x = "abcd"; y` shares `"bc"` of `x`; `z = x`; `y = "QRS"`; `x` is then `"aQRSd"` and `z` still `"abcd"`. -/
example : ∃ A, SpecRun (Docs.empty 1000)
    [.newBytes 1 [97, 98, 99, 100], .share 2 1 1 2, .copy 3 1 0 4, .assignBytes 2 [81, 82, 83], .read 1, .read 2, .read 3,
      .appendStr 3 1 2, .destroy 1, .read 3] A
    [[], [], [], [], [97, 81, 82, 83, 100], [81, 82, 83], [97, 98, 99, 100], [], [], [97, 98, 99, 100, 97, 81]] := by
  refine ⟨_, .cons _ _ _ _ _ _ _ (.newBytes 1 1 _ ?_ (by decide) ?_ (by decide)) <|
    .cons _ _ _ _ _ _ _ (.share 2 1 1 2 ?_ (by decide) ?_ (by decide)) <|
    .cons _ _ _ _ _ _ _ (.copy 3 3 1 0 4 ?_ (by decide) ?_ ?_ (by decide)) <|
    .cons _ _ _ _ _ _ _ (.assignBytes 2 _ ?_ (by decide)) <|
    .cons _ _ _ _ _ _ _ (.read 1 ?_) <| .cons _ _ _ _ _ _ _ (.read 2 ?_) <| .cons _ _ _ _ _ _ _ (.read 3 ?_) <|
    .cons _ _ _ _ _ _ _ (.appendStr 3 1 2 ?_ ?_ ?_ (by decide)) <|
    .cons _ _ _ _ _ _ _ (.destroy 1 ?_) <| .cons _ _ _ _ _ _ _ (.read 3 ?_) <| .nil _⟩
  all_goals simp only [Docs.fresh, Docs.solo, Docs.new, Docs.place, Docs.empty, Docs.assign, Docs.edit, Docs.append, upd]
  · simp
  · simp
  · simp
  · simp
  · simp
  · intro j; split_ifs <;> simp
  · simp
  · simp
  · simp
  · simp
  · simp
  · simp
  · simp
  · intro j; split_ifs <;> simp_all
  · simp
  · simp

/-- C33 fails when one appends to a string that shares edits: after `x = "abcd"; y` shares `"bc"` of `x`; another string is made;
    `x += "e"`; `y = "Q"`, string `x` is still `"abcde"` instead of `"aQde"`: appending moved it away from its peer. -/
theorem C33_append_shared_violated :
    let h := (run (fun _ _ => false) (make 4096 1000 0)
      [.newBytes 1 [97, 98, 99, 100], .share 2 1 1 2, .newBytes 3 [122], .appendBytes 1 [101], .assignBytes 2 [81]]).1
    text h 1 = [97, 98, 99, 100, 101] ∧ text h 2 = [81] := by decide +kernel

theorem lex_cons (x y : Nat) (a b : List Nat) :
    List.Lex (· < ·) (x :: a) (y :: b) ↔ x < y ∨ x = y ∧ List.Lex (· < ·) a b := by
  constructor
  · intro h
    cases h with
    | rel h => exact Or.inl h
    | cons h => exact Or.inr ⟨rfl, h⟩
  · rintro (h | ⟨rfl, h⟩)
    · exact .rel h
    · exact .cons h

/-- C30: comparison is the lexicographic order of the characters. -/
theorem C30_compare (a b : List Nat) : (strcmp a b = 0 ↔ a = b) ∧ (strcmp a b < 0 ↔ List.Lex (· < ·) a b) ∧
    (strcmp a b > 0 ↔ List.Lex (· < ·) b a) := by
  induction a generalizing b with
  | nil =>
    cases b with
    | nil => simp [strcmp]
    | cons y b => simp [strcmp]; omega
  | cons x a ih =>
    cases b with
    | nil => simp [strcmp]; omega
    | cons y b =>
      obtain ⟨h1, h2, h3⟩ := ih b
      simp only [strcmp, lex_cons]
      by_cases e : x = y
      · subst e; simp [h1, h2, h3]
      · rw [if_neg e]
        by_cases l : x < y
        · rw [if_pos l]
          refine ⟨by simp [e], by simp [l], ?_⟩
          simp only [gt_iff_lt, Int.reduceNeg, Int.reduceLT, false_iff, not_or, not_and]
          exact ⟨by omega, fun q => absurd q.symm e⟩
        · rw [if_neg l]
          refine ⟨by simp [e], by simp [l, e], ?_⟩
          simp only [gt_iff_lt, Int.reduceLT, true_iff]
          exact Or.inl (by omega)

example : strcmp [97, 98] [97, 98, 99] < 0 := by decide

end Verif.StrHeap
