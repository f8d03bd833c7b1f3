import Verif.Spec.Config
import Mathlib.Data.List.Nodup

namespace Verif.Config

theorem white_eq : white = isSpace := by
  funext c
  unfold white isSpace
  simp only [List.contains_cons, List.contains_nil, Bool.or_false, Bool.or_assoc]

theorem dropWhile_all {α : Type} {p : α → Bool} {s t : List α} (h : ∀ c ∈ s, p c = true) :
    (s ++ t).dropWhile p = t.dropWhile p := by
  induction s with
  | nil => rfl
  | cons a s ih =>
    have ha := h a (by simp)
    simp only [List.cons_append, List.dropWhile_cons, ha, if_true]
    exact ih fun c hc => h c (by simp [hc])

theorem takeWhile_all {α : Type} {p : α → Bool} {s t : List α} (h : ∀ c ∈ s, p c = true)
    (ht : ∀ c, t.head? = some c → p c = false) : (s ++ t).takeWhile p = s := by
  induction s with
  | nil =>
    cases t with
    | nil => rfl
    | cons a t => simp [List.takeWhile_cons, ht a rfl]
  | cons a s ih =>
    have ha := h a (by simp)
    simp only [List.cons_append, List.takeWhile_cons, ha, if_true]
    rw [ih fun c hc => h c (by simp [hc])]

theorem mem_takeWhile {α : Type} {p : α → Bool} {s : List α} {c : α} (h : c ∈ s.takeWhile p) :
    p c = true := by
  induction s with
  | nil => cases h
  | cons a s ih =>
    rw [List.takeWhile_cons] at h
    split at h
    · rcases List.mem_cons.1 h with rfl | h
      · assumption
      · exact ih h
    · cases h

theorem readWord_word {n : Nat} {sp w r : Str} (hs : ∀ c ∈ sp, isSpace c = true)
    (hw : Word n w) (hr : ∀ c, r.head? = some c → isSpace c = true) :
    readWord (n + 1) (sp ++ (w ++ r)) = .ok (w, r) := by
  obtain ⟨hne, hl, hc⟩ := hw
  rw [white_eq] at hc
  have ht : ((w ++ r).takeWhile fun d => !isSpace d) = w :=
    takeWhile_all (fun c h => by simp [hc c h]) (fun c h => by simp [hr c h])
  unfold readWord
  rw [dropWhile_all hs]
  cases w with
  | nil => exact absurd rfl hne
  | cons a w =>
    have ha := hc a (by simp)
    have e : List.dropWhile isSpace (a :: w ++ r) = a :: (w ++ r) := by
      simp [List.dropWhile_cons, ha]
    rw [e]
    simp only [List.cons_append] at ht
    simp only [ht, Nat.add_sub_cancel]
    rw [List.take_of_length_le hl]
    have e2 : List.drop (a :: w).length (a :: (w ++ r)) = r := by simp
    rw [e2]
    split
    · rename_i h
      exfalso
      obtain ⟨_, h⟩ := h
      cases r with
      | nil => simp at h
      | cons b r => simp [hr b rfl] at h
    · rfl

theorem readWord_eof {n : Nat} {sp : Str} (hs : ∀ c ∈ sp, isSpace c = true) :
    readWord n sp = .error .endOfFile := by
  unfold readWord
  have : sp.dropWhile isSpace = [] := by
    have := dropWhile_all (t := []) hs
    simpa using this
  rw [this]

theorem skipLine_line {a t : Str} (h : OneLine a) : skipLine (a ++ '\n' :: t) = t := by
  unfold skipLine
  rw [dropWhile_all (fun c hc => by simp [h c hc])]
  simp [List.dropWhile_cons]

theorem skipLine_end {a : Str} (h : OneLine a) : skipLine a = [] := by
  unfold skipLine
  have := dropWhile_all (t := []) (p := fun c => c != '\n') (s := a) (fun c hc => by simp [h c hc])
  simp only [List.append_nil, List.dropWhile_nil] at this
  rw [this]; rfl

theorem readLoop_blank {f : Nat} {sp : Str} (hs : ∀ c ∈ sp, isSpace c = true) :
    readLoop f sp = .ok [] := by
  cases f with
  | zero => rfl
  | succ f => unfold readLoop; rw [readWord_eof hs]

theorem gap_space {s : Str} (h : Gap s) : ∀ c ∈ s, isSpace c = true :=
  fun c hc => by rw [← white_eq]; exact (h c hc).1

/-- One comment, in front of whatever follows its line. -/
theorem readLoop_comment {f : Nat} {sp t r : Str} (hs : ∀ c ∈ sp, isSpace c = true)
    (ho : OneLine t) (hl : (t.takeWhile fun c => !white c).length ≤ 62)
    (hr : r = [] ∨ ∃ u, r = '\n' :: u) :
    readLoop (f + 1) (sp ++ ('#' :: t ++ r)) = readLoop f r.tail := by
  rw [white_eq] at hl
  have e : '#' :: t ++ r = ('#' :: t.takeWhile fun c => !isSpace c) ++
      ((t.dropWhile fun c => !isSpace c) ++ r) := by
    rw [← List.append_assoc]
    simp [List.takeWhile_append_dropWhile]
  have hd : OneLine (t.dropWhile fun c => !isSpace c) :=
    fun c hc => ho c ((List.dropWhile_suffix _).subset hc)
  have hw : Word 63 ('#' :: t.takeWhile fun c => !isSpace c) := by
    refine ⟨by simp, by simp; omega, ?_⟩
    rw [white_eq]
    intro c hc
    rcases List.mem_cons.1 hc with rfl | hc
    · rfl
    · have := mem_takeWhile hc
      simpa using this
  have hh : ∀ c, ((t.dropWhile fun c => !isSpace c) ++ r).head? = some c → isSpace c = true := by
    intro c hc
    cases hdw : (t.dropWhile fun c => !isSpace c) with
    | nil =>
      rw [hdw] at hc
      rcases hr with rfl | ⟨u, rfl⟩
      · simp at hc
      · simp at hc; subst hc; rfl
    | cons a l =>
      rw [hdw] at hc
      simp at hc
      subst hc
      have := List.head?_dropWhile_not (p := fun c => !isSpace c) t
      rw [hdw] at this
      simpa using this
  have hread := readWord_word (n := 63) hs hw hh
  rw [e]
  conv => lhs; unfold readLoop
  rw [hread]
  simp only [List.head?_cons, if_true]
  congr 1
  rcases hr with rfl | ⟨u, rfl⟩
  · simpa using skipLine_end hd
  · exact skipLine_line hd

/-- One pair, in front of whatever follows its line. -/
theorem readLoop_pair {f : Nat} {sp k sp' v rest r : Str} (hs : ∀ c ∈ sp, isSpace c = true)
    (hk : Word 63 k) (hk' : k.head? ≠ some '#') (hs' : Gap sp') (hne : sp' ≠ [])
    (hv : Word 255 v) (ho : OneLine rest) (hh : ∀ c, rest.head? = some c → white c = true)
    (hr : r = [] ∨ ∃ u, r = '\n' :: u) :
    readLoop (f + 1) (sp ++ (k ++ (sp' ++ (v ++ (rest ++ r))))) =
      (match readLoop f r.tail with
      | .error e => .error e
      | .ok ps => .ok ((k, v) :: ps)) := by
  have h1 := readWord_word (n := 63) (r := sp' ++ (v ++ (rest ++ r))) hs hk (by
    intro c hc
    cases sp' with
    | nil => exact absurd rfl hne
    | cons a l => simp at hc; subst hc; exact gap_space hs' a (by simp))
  have h2 := readWord_word (n := 255) (r := rest ++ r) (gap_space hs') hv (by
    intro c hc
    cases rest with
    | nil =>
      rcases hr with rfl | ⟨u, rfl⟩
      · simp at hc
      · simp at hc; subst hc; rfl
    | cons a l => simp at hc; subst hc; rw [← white_eq]; exact hh a rfl)
  have h3 : skipLine (rest ++ r) = r.tail := by
    rcases hr with rfl | ⟨u, rfl⟩
    · simpa using skipLine_end ho
    · exact skipLine_line ho
  conv => lhs; unfold readLoop
  rw [h1]
  simp only [if_neg hk', h2, h3]
  rfl

theorem spaces_append {a b : Str} (ha : ∀ c ∈ a, isSpace c = true) (hb : ∀ c ∈ b, isSpace c = true) :
    ∀ c ∈ a ++ b, isSpace c = true := by
  intro c hc
  rcases List.mem_append.1 hc with h | h
  · exact ha c h
  · exact hb c h

theorem readLoop_last {f : Nat} {pre : Str} {l : Line} (hp : ∀ c ∈ pre, isSpace c = true)
    (hl : l.Ok) (hf : 0 < f) : readLoop f (pre ++ l.text) = .ok l.says := by
  obtain ⟨f, rfl⟩ : ∃ g, f = g + 1 := ⟨f - 1, by omega⟩
  cases l with
  | blank sp => exact readLoop_blank (spaces_append hp (gap_space hl))
  | comment sp t =>
    have := readLoop_comment (f := f) (r := []) (spaces_append hp (gap_space hl.1)) hl.2.1 hl.2.2
      (Or.inl rfl)
    simp only [Line.text, Line.says]
    simp only [List.append_nil, List.append_assoc, List.tail_nil] at this
    rw [this]
    exact readLoop_blank (by simp)
  | pair sp k sp' v r =>
    obtain ⟨h1, h2, h3, h4, h5, h6, h7, h8⟩ := hl
    have := readLoop_pair (f := f) (r := []) (spaces_append hp (gap_space h1)) h2 h3 h4 h5 h6 h7 h8
      (Or.inl rfl)
    simp only [Line.text, Line.says]
    simp only [List.append_nil, List.append_assoc, List.tail_nil] at this ⊢
    rw [this, readLoop_blank (by simp)]

theorem readLoop_file {ls : List Line} {last : Option Line} (hl : ∀ l ∈ ls, l.Ok)
    (hlast : ∀ l, last = some l → l.Ok) :
    ∀ (f : Nat) (pre : Str), (∀ c ∈ pre, isSpace c = true) →
      (pre ++ fileText ls last).length < f →
      readLoop f (pre ++ fileText ls last) = .ok (fileSays ls last) := by
  induction ls with
  | nil =>
    intro f pre hp hf
    cases last with
    | none =>
      simp only [fileText, fileSays, List.flatMap_nil, Option.map_none, Option.getD_none,
        List.append_nil]
      exact readLoop_blank hp
    | some l =>
      simp only [fileText, fileSays, List.flatMap_nil, Option.map_some, Option.getD_some,
        List.nil_append]
      exact readLoop_last hp (hlast l rfl) (by omega)
  | cons l ls ih =>
    intro f pre hp hf
    have ih := ih (fun l h => hl l (by simp [h]))
    have hl := hl l (by simp)
    have et : fileText (l :: ls) last = l.text ++ '\n' :: fileText ls last := by
      simp [fileText, List.flatMap_cons]
    have es : fileSays (l :: ls) last = l.says ++ fileSays ls last := by
      simp [fileSays, List.flatMap_cons]
    rw [et] at hf ⊢
    rw [es]
    cases l with
    | blank sp =>
      have := ih f (pre ++ (sp ++ ['\n'])) (spaces_append hp (spaces_append (gap_space hl)
        (by simp [isSpace]))) (by simp [Line.text] at hf ⊢; omega)
      simp only [Line.text, Line.says, List.nil_append]
      simpa using this
    | comment sp t =>
      obtain ⟨f, rfl⟩ : ∃ g, f = g + 1 := ⟨f - 1, by omega⟩
      have := readLoop_comment (f := f) (r := '\n' :: fileText ls last)
        (spaces_append hp (gap_space hl.1)) hl.2.1 hl.2.2 (Or.inr ⟨_, rfl⟩)
      simp only [Line.text, Line.says, List.nil_append]
      simp only [List.append_assoc, List.tail_cons] at this ⊢
      rw [this]
      exact ih f [] (by simp) (by simp [Line.text] at hf ⊢; omega)
    | pair sp k sp' v r =>
      obtain ⟨f, rfl⟩ : ∃ g, f = g + 1 := ⟨f - 1, by omega⟩
      obtain ⟨h1, h2, h3, h4, h5, h6, h7, h8⟩ := hl
      have := readLoop_pair (f := f) (r := '\n' :: fileText ls last)
        (spaces_append hp (gap_space h1)) h2 h3 h4 h5 h6 h7 h8 (Or.inr ⟨_, rfl⟩)
      simp only [Line.text, Line.says]
      simp only [List.append_assoc, List.tail_cons] at this ⊢
      rw [this]
      have := ih f [] (by simp) (by simp [Line.text] at hf ⊢; omega)
      simp only [List.nil_append] at this
      rw [this]
      rfl

/-! ## `parse_config` -/

variable {V : Type}

/-- The number of entries whose key is one of these. -/
def cnt (es : List (Entry V)) (seen : List Str) : Nat := es.countP fun e => decide (e.key ∈ seen)

theorem cnt_le (es : List (Entry V)) (seen : List Str) : cnt es seen ≤ es.length :=
  List.countP_le_length

theorem cnt_mono {es : List (Entry V)} {a b : List Str} (h : ∀ k ∈ a, k ∈ b) : cnt es a ≤ cnt es b :=
  List.countP_mono_left fun e _ he => by simp at he ⊢; exact h _ he

theorem cnt_full {es : List (Entry V)} {seen : List Str} (h : cnt es seen = es.length) :
    ∀ e ∈ es, e.key ∈ seen := by
  intro e he
  have := List.countP_eq_length.1 h e he
  simpa using this

theorem cnt_absent {es : List (Entry V)} {seen : List Str} {k : Str} (h : ∀ e ∈ es, e.key ≠ k) :
    cnt es (k :: seen) = cnt es seen := by
  refine List.countP_congr fun e he => ?_
  simp [h e he]

theorem cnt_present {es : List (Entry V)} {seen : List Str} {k : Str}
    (hn : (es.map Entry.key).Nodup) (hk : k ∉ seen) (h : ∃ e ∈ es, e.key = k) :
    cnt es (k :: seen) = cnt es seen + 1 := by
  induction es with
  | nil => obtain ⟨e, he, _⟩ := h; cases he
  | cons a es ih =>
    rw [List.map_cons, List.nodup_cons] at hn
    by_cases ha : a.key = k
    · have habs : ∀ e ∈ es, e.key ≠ k := by
        intro e he hek
        exact hn.1 (List.mem_map.2 ⟨e, he, hek.trans ha.symm⟩)
      have := cnt_absent (seen := seen) habs
      unfold cnt at this ⊢
      rw [List.countP_cons, List.countP_cons, this]
      simp [ha, hk]
    · have hex : ∃ e ∈ es, e.key = k := by
        obtain ⟨e, he, hek⟩ := h
        rcases List.mem_cons.1 he with rfl | he
        · exact absurd hek ha
        · exact ⟨e, he, hek⟩
      have := ih hn.2 hex
      unfold cnt at this ⊢
      rw [List.countP_cons, List.countP_cons, this]
      simp only [List.mem_cons, ha, false_or]
      omega

theorem go_full {es : List (Entry V)} {ps : List (Str × CStr)} {x : Nat → V} :
    go es ps es.length x = (.ok, x) := by
  cases ps with
  | nil => simp [go]
  | cons p ps => obtain ⟨k, v⟩ := p; simp [go]

theorem find_none {es : List (Entry V)} {k : Str}
    (h : es.findIdx? (fun e => e.key = k) = none) : ∀ e ∈ es, e.key ≠ k := by
  intro e he
  have := (List.findIdx?_eq_none_iff.1 h) e he
  simpa using this

theorem find_some {es : List (Entry V)} {k : Str} {j : Nat}
    (h : es.findIdx? (fun e => e.key = k) = some j) :
    ∃ e, es[j]? = some e ∧ e.key = k := by
  obtain ⟨hlt, he, _⟩ := List.findIdx?_eq_some_iff_getElem.1 h
  exact ⟨es[j], by simp [hlt], by simpa using he⟩

theorem nodup_index {es : List (Entry V)} (hn : (es.map Entry.key).Nodup) {i j : Nat}
    {a b : Entry V} (hi : es[i]? = some a) (hj : es[j]? = some b) (h : a.key = b.key) : i = j := by
  have h1 : (es.map Entry.key)[i]? = some a.key := by simp [hi]
  have h2 : (es.map Entry.key)[j]? = some a.key := by simp [hj, h]
  have hl : i < (es.map Entry.key).length := by
    by_contra hc
    rw [List.getElem?_eq_none (by omega)] at h1
    cases h1
  exact (List.getElem?_inj hl hn).1 (h1.trans h2.symm)

theorem find_is {es : List (Entry V)} (hn : (es.map Entry.key).Nodup) {j : Nat} {e : Entry V}
    (hj : es[j]? = some e) : es.findIdx? (fun a => a.key = e.key) = some j := by
  cases h : es.findIdx? (fun a => a.key = e.key) with
  | none => exact absurd rfl (find_none h e (List.mem_of_getElem? hj))
  | some i =>
    obtain ⟨a, ha, hk⟩ := find_some h
    rw [nodup_index hn ha hj hk]

/-- Pairs that are accepted are passed, whatever follows. -/
theorem go_prefix {es : List (Entry V)} (hn : (es.map Entry.key).Nodup) {x₀ : Nat → V}
    {rest : List (Str × CStr)} :
    ∀ (ps : List (Str × CStr)) (seen : List Str) (x : Nat → V),
      (ps.map Prod.fst).Nodup → (∀ k ∈ ps.map Prod.fst, k ∉ seen) →
      AllAccepted es ps x₀ →
      (∀ (j : Nat) (e : Entry V), es[j]? = some e → e.key ∉ seen → x j = x₀ j) →
      ∃ x', go es (ps ++ rest) (cnt es seen) x = go es rest (cnt es (ps.map Prod.fst ++ seen)) x' ∧
        (∀ (j : Nat) (e : Entry V) (v : CStr), es[j]? = some e → (e.key, v) ∈ ps →
          x' j = (e.parse v (x₀ j)).2) ∧
        (∀ j : Nat, (∀ e : Entry V, es[j]? = some e → e.key ∉ ps.map Prod.fst) → x' j = x j) := by
  intro ps
  induction ps with
  | nil =>
    intro seen x _ _ _ _
    exact ⟨x, by simp, (fun j e v _ h => by cases h), fun j _ => rfl⟩
  | cons p ps ih =>
    intro seen x hnd hdis hacc hx
    obtain ⟨k, v⟩ := p
    rw [List.map_cons, List.nodup_cons] at hnd
    by_cases hfull : cnt es seen = es.length
    · have hf2 : cnt es ((((k, v) :: ps).map Prod.fst) ++ seen) = es.length := by
        have h1 := cnt_mono (es := es) (a := seen)
          (b := (((k, v) :: ps).map Prod.fst) ++ seen) (fun k hk => List.mem_append_right _ hk)
        have h2 := cnt_le es ((((k, v) :: ps).map Prod.fst) ++ seen)
        omega
      refine ⟨x, by rw [hfull, hf2, go_full, go_full], ?_, fun j _ => rfl⟩
      intro j e w hj hm
      exact absurd (cnt_full hfull e (List.mem_of_getElem? hj))
        (hdis e.key (List.mem_map.2 ⟨_, hm, rfl⟩))
    · have hk : k ∉ seen := hdis k (by simp)
      have hdis' : ∀ k' ∈ ps.map Prod.fst, k' ∉ k :: seen := by
        intro k' hk' hm
        rcases List.mem_cons.1 hm with rfl | hm
        · exact hnd.1 hk'
        · exact hdis k' (List.mem_cons_of_mem _ hk') hm
      have hacc' : AllAccepted es ps x₀ := fun p hp => hacc p (List.mem_cons_of_mem _ hp)
      have hperm : cnt es (ps.map Prod.fst ++ k :: seen) =
          cnt es ((((k, v) :: ps).map Prod.fst) ++ seen) := by
        apply Nat.le_antisymm <;> refine cnt_mono fun a ha => ?_ <;>
          simp only [List.mem_append, List.map_cons, List.mem_cons, List.cons_append] at ha ⊢ <;>
          exact or_left_comm.1 ha
      cases hfind : es.findIdx? (fun e => e.key = k) with
      | none =>
        have habs := find_none hfind
        obtain ⟨x', h1, h2, h3⟩ := ih (k :: seen) x hnd.2 hdis' hacc' (by
          intro j e hj he
          exact hx j e hj fun hm => he (List.mem_cons_of_mem _ hm))
        refine ⟨x', ?_, ?_, ?_⟩
        · rw [List.cons_append, go, if_neg hfull, hfind]
          simp only
          rw [← cnt_absent habs, h1, hperm]
        · intro j e w hj hm
          rcases List.mem_cons.1 hm with hm | hm
          · injection hm with hm _
            exact absurd hm (habs e (List.mem_of_getElem? hj))
          · exact h2 j e w hj hm
        · intro j hj
          exact h3 j fun e he hm => hj e he (List.mem_cons_of_mem _ hm)
      | some i =>
        obtain ⟨e, hi, hek⟩ := find_some hfind
        have hxi : x i = x₀ i := hx i e hi (by rw [hek]; exact hk)
        obtain ⟨hp, hv⟩ := hacc (k, v) (by simp) i e hi hek
        simp only at hp hv
        obtain ⟨x', h1, h2, h3⟩ := ih (k :: seen) (setVar x i (e.parse v (x i)).2) hnd.2 hdis' hacc'
          (by
            intro j a hj ha
            have hji : j ≠ i := by
              rintro rfl
              rw [hi] at hj; injection hj with hj; subst hj
              exact ha (by simp [hek])
            simp only [setVar, if_neg hji]
            exact hx j a hj fun hm => ha (List.mem_cons_of_mem _ hm))
        refine ⟨x', ?_, ?_, ?_⟩
        · rw [List.cons_append, go, if_neg hfull, hfind]
          simp only [hi]
          rw [hxi] at h1 ⊢
          rw [if_neg (by rw [hp]; simp), if_neg (by rw [hv]; simp),
            ← cnt_present hn hk ⟨e, List.mem_of_getElem? hi, hek⟩, h1, hperm]
        · intro j a w hj hm
          rcases List.mem_cons.1 hm with hm | hm
          · injection hm with hkey hw
            subst hw
            have hji : j = i := nodup_index hn hj hi (hkey.trans hek.symm)
            subst hji
            rw [hi] at hj; injection hj with hj; subst hj
            rw [h3 j (by
              intro b hb
              rw [hi] at hb; injection hb with hb; subst hb
              rw [hek]; exact hnd.1)]
            simp [setVar, hxi]
          · exact h2 j a w hj hm
        · intro j hj
          rw [h3 j fun e he hm => hj e he (List.mem_cons_of_mem _ hm)]
          have hji : j ≠ i := by
            rintro rfl
            exact hj e hi (by simp [hek])
          simp [setVar, hji]

theorem missing_eq {es : List (Entry V)} {ps : List (Str × CStr)} :
    missingCount es ps + cnt es (ps.map Prod.fst) = es.length := by
  unfold missingCount cnt
  induction es with
  | nil => rfl
  | cons e es ih =>
    rw [List.countP_cons, List.countP_cons, List.length_cons]
    by_cases h : e.key ∈ ps.map Prod.fst
    · simp only [h, not_true, decide_false, decide_true, Bool.false_eq_true, if_false, if_true]
      omega
    · simp only [h, not_false_eq_true, decide_false, decide_true, Bool.false_eq_true, if_false,
        if_true]
      omega

/-- With distinct keys and accepted values. -/
theorem go_accepted {es : List (Entry V)} {ps : List (Str × CStr)} {x : Nat → V}
    (hn : (es.map Entry.key).Nodup) (hp : (ps.map Prod.fst).Nodup) (ha : AllAccepted es ps x) :
    (go es ps 0 x).1 = (if missingCount es ps = 0 then .ok else .missing (missingCount es ps)) ∧
    (∀ (j : Nat) (e : Entry V) (v : CStr), es[j]? = some e → (e.key, v) ∈ ps →
      (go es ps 0 x).2 j = (e.parse v (x j)).2) ∧
    (∀ j : Nat, (∀ e : Entry V, es[j]? = some e → e.key ∉ ps.map Prod.fst) →
      (go es ps 0 x).2 j = x j) := by
  obtain ⟨x', h1, h2, h3⟩ := go_prefix (rest := []) hn ps [] x hp (by simp) ha (fun _ _ _ _ => rfl)
  have h0 : cnt es [] = 0 := by simp [cnt]
  rw [h0, List.append_nil, List.append_nil] at h1
  have hm := missing_eq (es := es) (ps := ps)
  rw [h1]
  refine ⟨?_, h2, h3⟩
  simp only [go]
  by_cases h : missingCount es ps = 0
  · rw [if_pos h, if_neg (by omega)]
  · rw [if_neg h, if_pos (by omega)]
    congr 1; omega

/-- With distinct keys and a value that is not accepted. -/
theorem go_refused {es : List (Entry V)} {ps qs : List (Str × CStr)} {k : Str} {v : CStr}
    {x : Nat → V} {j : Nat} {e : Entry V}
    (hn : (es.map Entry.key).Nodup) (hp : ((ps ++ (k, v) :: qs).map Prod.fst).Nodup)
    (ha : AllAccepted es ps x) (hj : es[j]? = some e) (hk : e.key = k) (hb : ¬ e.Accepts v (x j)) :
    (go es (ps ++ (k, v) :: qs) 0 x).1 =
      (if (e.parse v (x j)).1 = true then .validationFailure k v.2 else .parseFailure k v.2) ∧
    (go es (ps ++ (k, v) :: qs) 0 x).2 j = (e.parse v (x j)).2 ∧
    (∀ (i : Nat) (a : Entry V) (w : CStr), es[i]? = some a → (a.key, w) ∈ ps →
      (go es (ps ++ (k, v) :: qs) 0 x).2 i = (a.parse w (x i)).2) ∧
    (∀ i : Nat, i ≠ j → (∀ a : Entry V, es[i]? = some a → a.key ∉ ps.map Prod.fst) →
      (go es (ps ++ (k, v) :: qs) 0 x).2 i = x i) := by
  rw [List.map_append, List.nodup_append] at hp
  obtain ⟨hp1, _, hp2⟩ := hp
  have hkp : k ∉ ps.map Prod.fst := fun h => hp2 k h k (by simp) rfl
  obtain ⟨x', h1, h2, h3⟩ :=
    go_prefix (rest := (k, v) :: qs) hn ps [] x hp1 (by simp) ha (fun _ _ _ _ => rfl)
  have h0 : cnt es [] = 0 := by simp [cnt]
  rw [h0, List.append_nil] at h1
  have hfull : cnt es (ps.map Prod.fst) ≠ es.length := by
    intro h
    exact hkp (hk ▸ cnt_full h e (List.mem_of_getElem? hj))
  have hxj : x' j = x j := h3 j (by
    intro a haj
    rw [hj] at haj; injection haj with haj; subst haj
    rw [hk]; exact hkp)
  have hne : ∀ (i : Nat) (a : Entry V) (w : CStr), es[i]? = some a → (a.key, w) ∈ ps → i ≠ j := by
    rintro i a w hi hm rfl
    rw [hj] at hi; injection hi with hi; subst hi
    exact hkp (List.mem_map.2 ⟨_, hm, hk⟩)
  have hfind := find_is hn hj
  rw [hk] at hfind
  have hgo : go es (ps ++ (k, v) :: qs) 0 x =
      ((if (e.parse v (x j)).1 = true then .validationFailure k v.2 else .parseFailure k v.2),
        setVar x' j (e.parse v (x j)).2) := by
    rw [h1, go, if_neg hfull, hfind]
    simp only [hj, hxj]
    by_cases hb1 : (e.parse v (x j)).1 = true
    · have hb2 : e.validate (e.parse v (x j)).2 = false := by
        cases h : e.validate (e.parse v (x j)).2 with
        | false => rfl
        | true => exact absurd ⟨hb1, h⟩ hb
      simp [hb1, hb2]
    · simp [hb1]
  rw [hgo]
  refine ⟨rfl, by simp [setVar], ?_, ?_⟩
  · intro i a w hi hm
    simp only [setVar, if_neg (hne i a w hi hm)]
    exact h2 i a w hi hm
  · intro i hij hi
    simp only [setVar, if_neg hij]
    exact h3 i hi

/-- After a normal return no variable has a value that fails its validation, unless it is untouched. -/
theorem go_validated {es : List (Entry V)} {x₀ : Nat → V} :
    ∀ (ps : List (Str × CStr)) (n : Nat) (x : Nat → V),
      (∀ (j : Nat) (e : Entry V), es[j]? = some e → x j = x₀ j ∨ e.validate (x j) = true) →
      (∀ k w, (go es ps n x).1 ≠ .parseFailure k w) →
      (∀ k w, (go es ps n x).1 ≠ .validationFailure k w) →
      ∀ (j : Nat) (e : Entry V), es[j]? = some e →
        (go es ps n x).2 j = x₀ j ∨ e.validate ((go es ps n x).2 j) = true := by
  intro ps
  induction ps with
  | nil => intro n x hx _ _; simpa [go] using hx
  | cons p ps ih =>
    intro n x hx h1 h2
    obtain ⟨k, v⟩ := p
    by_cases hf : n = es.length
    · rw [go, if_pos hf]; exact hx
    · rw [go, if_neg hf] at h1 h2 ⊢
      cases hfind : es.findIdx? (fun e => e.key = k) with
      | none => simp only [hfind] at h1 h2 ⊢; exact ih n x hx h1 h2
      | some i =>
        obtain ⟨e, hi, hek⟩ := find_some hfind
        simp only [hfind, hi] at h1 h2 ⊢
        by_cases hp : (e.parse v (x i)).1 = false
        · rw [if_pos hp] at h1; exact absurd rfl (h1 _ _)
        · rw [if_neg hp] at h1 h2 ⊢
          by_cases hv : e.validate (e.parse v (x i)).2 = false
          · rw [if_pos hv] at h2; exact absurd rfl (h2 _ _)
          · rw [if_neg hv] at h1 h2 ⊢
            refine ih _ _ ?_ h1 h2
            intro j a hj
            by_cases hji : j = i
            · subst hji
              rw [hi] at hj; injection hj with hj; subst hj
              right
              simpa [setVar] using hv
            · simpa [setVar, hji] using hx j a hj

/-- The table after a number of additions. -/
def Table.adds : Nat → Table → Table
  | 0, t => t
  | n + 1, t => Table.adds n t.add.1

theorem add_ok {t : Table} (h : t.size ≤ t.maxSize) :
    t.add.2 < t.add.1.maxSize ∧ t.add.1.size ≤ t.add.1.maxSize ∧ t.add.1.size = t.size + 1 ∧
      t.add.2 = t.size := by
  unfold Table.add Table.grow
  by_cases h0 : t.maxSize = 0
  · rw [if_pos h0]
    refine ⟨?_, ?_, rfl, rfl⟩ <;> simp only <;> omega
  · rw [if_neg h0]
    by_cases h1 : t.size = t.maxSize
    · rw [if_pos h1]
      refine ⟨?_, ?_, rfl, rfl⟩ <;> simp only <;> omega
    · rw [if_neg h1]
      refine ⟨?_, ?_, rfl, rfl⟩ <;> simp only <;> omega

theorem adds_ok : ∀ (n : Nat) {t : Table}, t.size ≤ t.maxSize →
    (Table.adds n t).size ≤ (Table.adds n t).maxSize ∧ (Table.adds n t).size = t.size + n := by
  intro n
  induction n with
  | zero => intro t h; exact ⟨h, rfl⟩
  | succ n ih =>
    intro t h
    obtain ⟨_, h2, h3, _⟩ := add_ok h
    obtain ⟨h4, h5⟩ := ih h2
    exact ⟨h4, by simp only [Table.adds]; omega⟩

end Verif.Config
