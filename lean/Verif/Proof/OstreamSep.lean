import Verif.Spec.OstreamSep

/-! # Output statements: proofs -/

namespace Verif.OstreamSep

open Verif.Ostream Spec

/-- What the newline flag records. -/
def flag : List Ev → Bool
  | [] => false
  | .print (.val _) _ :: _ => false
  | .print (.chr c) _ :: h => c == '\n' || flag h
  | .print .nul _ :: h => flag h
  | .print (.str s) _ :: h => if s.isEmpty then flag h else s.getLast? == some '\n'
  | _ :: h => flag h

theorem mask_before (c : Char) :
    (decide (mask c ≠ .close) && decide (mask c ≠ .openClose)) =
      !(closing.contains c || quoting.contains c) := by
  unfold mask
  split
  · next h =>
    simp only [List.mem_cons, List.not_mem_nil, or_false] at h
    rcases h with h | h | h | h | h | h | h | h | h | h <;> subst h <;> decide
  · next h1 =>
    split
    · next h =>
      have : closing.contains c = true := by
        rw [List.contains_iff_mem]; exact h
      rw [this]; rfl
    · next h2 =>
      have h2' : closing.contains c = false := by
        rw [← Bool.not_eq_true, List.contains_iff_mem]; exact h2
      split
      · next h =>
        have : quoting.contains c = true := by
          rw [List.contains_iff_mem]; exact h
        rw [this, h2']; rfl
      · next h =>
        have : quoting.contains c = false := by
          rw [← Bool.not_eq_true, List.contains_iff_mem]; exact h
        rw [this, h2']; rfl

theorem mask_after (c : Char) :
    (decide (mask c ≠ .open) && decide (mask c ≠ .openClose)) =
      !(opening.contains c || quoting.contains c) := by
  unfold mask
  split
  · next h =>
    have : opening.contains c = true := by
      rw [List.contains_iff_mem]; exact h
    rw [this]; rfl
  · next h1 =>
    have h1' : opening.contains c = false := by
      rw [← Bool.not_eq_true, List.contains_iff_mem]; exact h1
    split
    · next h =>
      have : quoting.contains c = false := by
        simp only [List.mem_cons, List.not_mem_nil, or_false] at h
        rcases h with h | h | h | h | h | h | h | h | h | h | h <;> subst h <;> decide
      rw [this, h1']; rfl
    · split
      · next h =>
        have : quoting.contains c = true := by
          rw [List.contains_iff_mem]; exact h
        rw [this, h1']; rfl
      · next h =>
        have : quoting.contains c = false := by
          rw [← Bool.not_eq_true, List.contains_iff_mem]; exact h
        rw [this, h1']; rfl

theorem mask_nl : mask '\n' = .openClose := by decide

/-- The line after a text with something appended. -/
theorem lineStart_append {t u : List Char} (hu : u ≠ []) :
    lineStart (t ++ u) = (u.getLast? == some '\n') := by
  unfold lineStart
  have h1 : (t ++ u).isEmpty = false := by simp [hu]
  rw [h1, Bool.false_or, List.getLast?_append]
  cases h : u.getLast? with
  | none => exact absurd (List.getLast?_eq_none_iff.1 h) hu
  | some c => simp

/-- The stream reflects the events. -/
structure Rel (again : Bool) (h : List Ev) (b : Bool) (os : Os) : Prop where
  out : os.out = text h
  on : os.sepDefault = isOn h
  auto : os.nlOnOff = autoNl h
  sepr : os.separator = separator h
  tup : os.tupleSeparator = tupleSeparator h
  cur : os.cur = if again then .tuple else .regular
  due : os.sepOnOff = (wanted h && !lineStart (text h))
  saw : os.sawNL = flag h
  prt : os.prt = b

theorem Rel.getCur {again b : Bool} {h : List Ev} {os : Os} (r : Rel again h b os) :
    sepGetCur os = if again then tupleSeparator h else separator h := by
  unfold sepGetCur
  rw [r.cur]
  cases again
  · exact r.sepr
  · exact r.tup

theorem text_print (a : Atom) (again : Bool) (h : List Ev) :
    text (.print a again :: h) = text h ++
    (if wanted h && !lineStart (text h) && before a then
      (if again then tupleSeparator h else separator h) else []) ++ chars a := rfl

theorem text_empty (again : Bool) (h : List Ev) :
    text (.print (.str []) again :: h) = text h := by
  simp [text, before, chars]

theorem text_ne {a : Atom} (again : Bool) (h : List Ev) (hc : chars a ≠ []) :
    decide (text (.print a again :: h) ≠ text h) = true := by
  rw [decide_eq_true_eq, text_print]
  intro h'
  have := congrArg List.length h'
  simp only [List.length_append] at this
  have : 0 < (chars a).length := List.length_pos_iff.2 hc
  omega

theorem wanted_print (a : Atom) (again : Bool) (h : List Ev) :
    wanted (.print a again :: h) = (isOn h && after a) := rfl

theorem lineStart_print {a : Atom} (again : Bool) (h : List Ev) (hc : chars a ≠ []) :
    lineStart (text (.print a again :: h)) = ((chars a).getLast? == some '\n') := by
  rw [text_print]; exact lineStart_append hc

theorem sepBefore_eq (os : Os) :
    sepBefore os = { (if os.sepOnOff then fmt os (sepGetCur os) else os) with sawNL := false } := by
  unfold sepBefore sepPrt clearNL
  split <;> rfl

theorem printStr_aux (os : Os) (x : Bool) (txt sc : List Char) (m n : Bool) :
    (let os1 := if x then fmt (clearNL os) sc else clearNL os
     let os2 := fmt (sepReset os1) txt
     let os4 := if os2.sepOnOff && m then sep (clearNL os2) else nosep (clearNL os2)
     if n then { os4 with sawNL := true } else os4) =
    { os with
      out := os.out ++ (if x then sc else []) ++ txt
      sepOnOff := os.sepDefault && m
      sawNL := n
      prt := true } := by
  cases x <;> cases n <;> cases m <;> cases hd : os.sepDefault <;>
    simp [fmt, clearNL, sepReset, sep, nosep, hd]

theorem Rel.atom {again b : Bool} {h : List Ev} {os : Os} (r : Rel again h b os) (a : Atom)
    (ht : Treated (.print a again :: h)) :
    Rel again (.print a again :: h) (b || decide (text (.print a again :: h) ≠ text h))
      (printAtom os a) := by
  have hg := r.getCur
  cases a with
  | val t =>
    obtain ⟨⟨t1, t2⟩, _⟩ := ht
    have hne : chars (.val t) ≠ [] := t1
    have hl : ((chars (.val t)).getLast? == some '\n') = false := by
      simpa [chars] using t2
    have ho : (printAtom os (.val t)).out = text (.print (.val t) again :: h) := by
      rw [text_print, ← r.out, ← hg]
      unfold printAtom
      rw [sepBefore_eq, r.due, ← r.out]
      simp only [before, Bool.and_true]
      split <;> simp [fmt, chars]
    rw [text_ne again h hne, Bool.or_true]
    refine ⟨ho, ?_, ?_, ?_, ?_, ?_, ?_, ?_, ?_⟩
    · show _ = isOn h; rw [← r.on]; simp only [printAtom, sepBefore_eq]; split <;> rfl
    · show _ = autoNl h; rw [← r.auto]; simp only [printAtom, sepBefore_eq]; split <;> rfl
    · show _ = separator h; rw [← r.sepr]; simp only [printAtom, sepBefore_eq]; split <;> rfl
    · show _ = tupleSeparator h; rw [← r.tup]; simp only [printAtom, sepBefore_eq]; split <;> rfl
    · rw [← r.cur]; simp only [printAtom, sepBefore_eq]; split <;> rfl
    · rw [wanted_print, lineStart_print again h hne, hl, ← r.on]
      simp only [printAtom, sepBefore_eq, after, Bool.and_true, Bool.not_false]; split <;> rfl
    · show _ = false; simp only [printAtom, sepBefore_eq]; rfl
    · rfl
  | nul =>
    obtain ⟨t1, _⟩ := ht
    have hne : chars .nul ≠ [] := by simp [chars]
    have hd : (wanted h && !lineStart (text h)) = false := by
      rcases t1 with h | h <;> simp [h]
    rw [text_ne again h hne, Bool.or_true]
    refine ⟨?_, r.on, r.auto, r.sepr, r.tup, r.cur, ?_, r.saw, rfl⟩
    · rw [text_print, hd, ← r.out]; simp [printAtom, fmt, chars]
    · rw [wanted_print, lineStart_print again h hne, ← r.on]
      simp [printAtom, fmt, after, chars]
  | chr c =>
    have hne : chars (.chr c) ≠ [] := by simp [chars]
    rw [text_ne again h hne, Bool.or_true]
    refine ⟨?_, ?_, ?_, ?_, ?_, ?_, ?_, ?_, ?_⟩
    · rw [text_print, ← r.out]; simp only [printAtom, before, Bool.and_false, nosep]
      split <;> simp [fmt, chars]
    · show _ = isOn h; rw [← r.on]; simp only [printAtom, nosep]; split <;> rfl
    · show _ = autoNl h; rw [← r.auto]; simp only [printAtom, nosep]; split <;> rfl
    · show _ = separator h; rw [← r.sepr]; simp only [printAtom, nosep]; split <;> rfl
    · show _ = tupleSeparator h; rw [← r.tup]; simp only [printAtom, nosep]; split <;> rfl
    · rw [← r.cur]; simp only [printAtom, nosep]; split <;> rfl
    · rw [wanted_print]; simp [printAtom, nosep, after]
    · show _ = (c == '\n' || flag h)
      rw [← r.saw]; simp only [printAtom, nosep]
      split
      · next hc => simp [hc]
      · next hc => simp [hc, fmt]
    · simp only [printAtom, nosep]; split <;> rfl
  | str s =>
    cases s with
    | nil =>
      have he := text_empty again h
      rw [he]
      simp only [ne_eq, not_true_eq_false, decide_false, Bool.or_false]
      refine ⟨?_, r.on, r.auto, r.sepr, r.tup, r.cur, ?_, r.saw, r.prt⟩
      · rw [he, ← r.out]; rfl
      · rw [wanted_print]; simp [printAtom, nosep, after]
    | cons c s =>
      have hne : chars (.str (c :: s)) ≠ [] := by simp [chars]
      rw [text_ne again h hne, Bool.or_true]
      have hlast : (c :: s).getLast? = some ((c :: s).getLast (List.cons_ne_nil c s)) :=
        List.getLast?_eq_some_getLast _
      generalize hch : (c :: s).getLast (List.cons_ne_nil c s) = ch at hlast
      have hb : before (.str (c :: s)) =
          (decide (mask c ≠ .close) && decide (mask c ≠ .openClose)) := by
        rw [mask_before]; rfl
      have ha : after (.str (c :: s)) =
          (decide (mask ch ≠ .open) && decide (mask ch ≠ .openClose)) := by
        rw [mask_after]; simp only [after, hlast]
      have hprint : printAtom os (.str (c :: s)) =
          { os with
            out := os.out ++ (if os.sepOnOff && before (.str (c :: s)) then sepGetCur os else []) ++
              (c :: s)
            sepOnOff := os.sepDefault && after (.str (c :: s))
            sawNL := ch == '\n'
            prt := true } := by
        simp only [printAtom, printStr, sepPrt, hch, hb, ha, Bool.and_assoc]
        have e := printStr_aux os (os.sepOnOff && (decide (mask c ≠ Mask.close) &&
          decide (mask c ≠ Mask.openClose))) (c :: s) (sepGetCur os)
          (decide (mask ch ≠ Mask.open) && decide (mask ch ≠ Mask.openClose)) (decide (ch = '\n'))
        simp only [decide_eq_true_eq] at e
        refine Eq.trans e ?_
        congr 1
      rw [hprint]
      refine ⟨?_, r.on, r.auto, r.sepr, r.tup, r.cur, ?_, ?_, rfl⟩
      · rw [text_print, ← hg, ← r.due, ← r.out]; rfl
      · rw [wanted_print, lineStart_print again h hne]
        simp only [chars, hlast, r.on]
        by_cases hn : ch = '\n'
        · have : after (.str (c :: s)) = false := by rw [ha, hn, mask_nl]; decide
          simp [this]
        · simp [hn]
      · show _ = ((c :: s).getLast? == some '\n')
        rw [hlast]; rfl

theorem treated_tail {e : Ev} {h : List Ev} (t : Treated (e :: h)) : Treated h := by
  cases e with
  | print a again => cases a <;> first | exact t.2 | exact t
  | sep => exact t.2
  | sepOn => exact t.2
  | _ => exact t

theorem treated_append : ∀ {g h : List Ev}, Treated (g ++ h) → Treated h
  | [], _, t => t
  | _ :: g, _, t => treated_append (g := g) (treated_tail t)

theorem flag_begun : ∀ h, Treated h →
    (begun h = true → flag h = false ∧ lineStart (text h) = false) ∧
    ((text h).getLast? = some '\n' → flag h = true) := by
  intro h
  induction h with
  | nil => intro _; exact ⟨by simp [begun], by simp [text]⟩
  | cons e h ih =>
    intro t
    have ih := ih (treated_tail t)
    cases e with
    | print a again =>
      have hlast : chars a ≠ [] → (text (.print a again :: h)).getLast? = (chars a).getLast? := by
        intro hc
        rw [text_print, List.getLast?_append]
        cases h' : (chars a).getLast? with
        | none => exact absurd (List.getLast?_eq_none_iff.1 h') hc
        | some c => rfl
      cases a with
      | val t' =>
        obtain ⟨⟨t1, t2⟩, _⟩ := t
        have hne : chars (.val t') ≠ [] := t1
        refine ⟨fun _ => ⟨rfl, ?_⟩, ?_⟩
        · rw [lineStart_print again h hne]; simpa [chars] using t2
        · rw [hlast hne]; intro h'; exact absurd h' t2
      | nul =>
        have hne : chars .nul ≠ [] := by simp [chars]
        refine ⟨fun hb => ⟨(ih.1 hb).1, ?_⟩, ?_⟩
        · rw [lineStart_print again h hne]; simp [chars]
        · rw [hlast hne]; intro h'; simp [chars] at h'
      | chr c =>
        have hne : chars (.chr c) ≠ [] := by simp [chars]
        refine ⟨?_, ?_⟩
        · intro hb
          simp only [begun, Bool.and_eq_true, bne_iff_ne, ne_eq] at hb
          refine ⟨?_, ?_⟩
          · simp [flag, hb.1, (ih.1 hb.2).1]
          · rw [lineStart_print again h hne]; simpa [chars] using hb.1
        · rw [hlast hne]; intro h'
          simp only [chars, List.getLast?_singleton, Option.some.injEq] at h'
          simp [flag, h']
      | str s =>
        cases s with
        | nil =>
          rw [text_empty]
          simpa [begun, flag] using ih
        | cons c s =>
          have hne : chars (.str (c :: s)) ≠ [] := by simp [chars]
          refine ⟨?_, ?_⟩
          · intro hb
            simp only [begun, List.isEmpty_cons, Bool.false_eq_true, if_false, bne_iff_ne,
              ne_eq] at hb
            refine ⟨?_, ?_⟩
            · simp [flag, hb]
            · rw [lineStart_print again h hne]; simpa [chars] using hb
          · rw [hlast hne]; intro h'
            simp only [chars] at h'
            simp [flag, h']
    | _ => exact ih

theorem text_grows : ∀ (g h : List Ev), ∃ x, text (g ++ h) = text h ++ x
  | [], h => ⟨[], by simp⟩
  | e :: g, h => by
    obtain ⟨x, hx⟩ := text_grows g h
    cases e with
    | print a again =>
      exact ⟨_, by rw [List.cons_append, text_print, hx, List.append_assoc, List.append_assoc]⟩
    | _ => exact ⟨x, hx⟩

theorem text_grew (f g h : List Ev) :
    decide (text (f ++ (g ++ h)) ≠ text h) =
      (decide (text (g ++ h) ≠ text h) || decide (text (f ++ (g ++ h)) ≠ text (g ++ h))) := by
  obtain ⟨x, hx⟩ := text_grows g h
  obtain ⟨y, hy⟩ := text_grows f (g ++ h)
  rw [hy, hx, List.append_assoc]
  cases x <;> cases y <;> simp

theorem printTuple_rel : ∀ {rest : List Atom} {again b : Bool} {h : List Ev} {os : Os} {a : Atom},
    Rel again h b os →
    Treated ((rest.map fun b => Ev.print b true).reverse ++ .print a again :: h) →
    let h' := (rest.map fun b => Ev.print b true).reverse ++ .print a again :: h
    ∃ b', (b' = (b || decide (text h' ≠ text h))) ∧
    Rel (again && rest.isEmpty) h' b' (printTuple os a rest) := by
  intro rest
  induction rest with
  | nil =>
    intro again b h os a r t
    refine ⟨_, rfl, ?_⟩
    simpa [printTuple] using r.atom a t
  | cons c rest ih =>
    intro again b h os a r t
    simp only [List.map_cons, List.reverse_cons, List.append_assoc, List.singleton_append] at t ⊢
    have r1 := r.atom a (treated_tail (treated_append t))
    have r2 : Rel true (.print a again :: h)
        (b || decide (text (.print a again :: h) ≠ text h))
        { printAtom os a with cur := .tuple } :=
      ⟨r1.out, r1.on, r1.auto, r1.sepr, r1.tup, rfl, r1.due, r1.saw, r1.prt⟩
    obtain ⟨b', hb', r3⟩ := ih r2 t
    refine ⟨b', ?_, ?_⟩
    · rw [hb', Bool.or_assoc]
      congr 1
      have := text_grew ((rest.map fun b => Ev.print b true).reverse ++ [.print c true])
        [.print a again] h
      simpa only [List.append_assoc, List.singleton_append] using this.symm
    · simp only [List.isEmpty_cons, Bool.and_false]
      exact ⟨r3.out, r3.on, r3.auto, r3.sepr, r3.tup, rfl, r3.due, r3.saw, r3.prt⟩

theorem operand_rel {b : Bool} {h : List Ev} {os : Os} (r : Rel false h b os) (x : Operand)
    (t : Treated (operandEvs h x)) :
    Rel false (operandEvs h x) (pending h b x) (operand os x) := by
  have hst := text_print
  cases x with
  | atom a => exact r.atom a t
  | tuple a rest =>
    obtain ⟨b', hb', r'⟩ := printTuple_rel r t
    subst hb'
    simp only [Bool.false_and] at r'
    exact r'
  | ctl c =>
    have same : ∀ e : Ev, text (e :: h) = text h → (b || decide (text (e :: h) ≠ text h)) = b := by
      intro e he; simp [he]
    cases c with
    | nl =>
      have := r.atom (.chr '\n') t
      refine ⟨this.out, this.on, this.auto, this.sepr, this.tup, this.cur, ?_, ?_, rfl⟩
      · exact Eq.trans (by rfl : _ = (printAtom os (.chr '\n')).sepOnOff) this.due
      · exact Eq.trans (by rfl) (by simp [flag, operandEvs] : true = flag _)
    | nonl => exact ⟨r.out, r.on, r.auto, r.sepr, r.tup, r.cur, r.due, r.saw, rfl⟩
    | nlOn =>
      exact ⟨r.out, r.on, rfl, r.sepr, r.tup, r.cur, r.due, r.saw, r.prt.trans (same _ rfl).symm⟩
    | nlOff =>
      exact ⟨r.out, r.on, rfl, r.sepr, r.tup, r.cur, r.due, r.saw, r.prt.trans (same _ rfl).symm⟩
    | sepVal =>
      have := r.atom (.str (separator h)) t
      have e : operand os (.ctl .sepVal) = printAtom os (.str (separator h)) := by
        simp only [operand, control, r.sepr]
      rw [e]
      exact this
    | sepTupleVal =>
      have := r.atom (.str (tupleSeparator h)) t
      have e : operand os (.ctl .sepTupleVal) = printAtom os (.str (tupleSeparator h)) := by
        simp only [operand, control, r.tup]
      rw [e]
      exact this
    | sep =>
      refine ⟨r.out, r.on, r.auto, r.sepr, r.tup, r.cur, ?_, r.saw, r.prt.trans (same _ rfl).symm⟩
      have hf := flag_begun h t.2
      show (!os.sawNL) = (true && !lineStart (text h))
      rw [r.saw, Bool.true_and]
      rcases t.1 with h1 | h1
      · rw [(hf.1 h1).1, (hf.1 h1).2]
      · rw [hf.2 h1]; simp [lineStart, h1]
    | nosep =>
      exact ⟨r.out, r.on, r.auto, r.sepr, r.tup, r.cur, rfl, r.saw, r.prt.trans (same _ rfl).symm⟩
    | sepOff =>
      exact ⟨r.out, rfl, r.auto, r.sepr, r.tup, r.cur, rfl, r.saw, r.prt.trans (same _ rfl).symm⟩
    | sepOn =>
      have e : operand os (.ctl .sepOn) = { os with sepDefault := true } := by
        simp only [operand, control, sepOn, sepReset]
        split
        · next h => simp [h]
        · rfl
      rw [e]
      refine ⟨r.out, rfl, r.auto, r.sepr, r.tup, r.cur, ?_, r.saw, r.prt.trans (same _ rfl).symm⟩
      show os.sepOnOff = ((request h).getD (true && lastAllows h) && !lineStart (text h))
      rw [r.due]
      unfold wanted
      rcases t.1 with h1 | h1 | h1 | h1
      · rw [h1]
      · cases hr : request h with
        | none => exact absurd hr h1
        | some v => rfl
      · rw [h1]; simp
      · rw [h1]; simp

theorem treated_operand {h : List Ev} {x : Operand} (t : Treated (operandEvs h x)) :
    Treated h := by
  cases x with
  | atom a => exact treated_tail t
  | tuple a rest => exact treated_tail (treated_append t)
  | ctl c => cases c <;> first | exact t | exact treated_tail t

theorem treated_init : ∀ {xs : List Operand} {h : List Ev} {b : Bool},
    Treated (initEvs h b xs).1 → Treated h
  | [], _, _, t => t
  | _ :: xs, _, _, t => treated_operand (treated_init (xs := xs) t)

theorem init_rel : ∀ {xs : List Operand} {h : List Ev} {b : Bool} {os : Os}, Rel false h b os →
    Treated (initEvs h b xs).1 →
    Rel false (initEvs h b xs).1 (initEvs h b xs).2 (xs.foldl operand os)
  | [], _, _, _, r, _ => r
  | x :: xs, _, _, _, r, t =>
    init_rel (xs := xs) (operand_rel r x (treated_init (xs := xs) t)) t

theorem nl_rel {b : Bool} {h : List Ev} {os : Os} (r : Rel false h b os)
    (t : Treated (.print (.chr '\n') false :: h)) :
    Rel false (.print (.chr '\n') false :: h) false (nl os) :=
  operand_rel r (.ctl .nl) t

theorem ends_rel {b : Bool} {h : List Ev} {os : Os} (r : Rel false h b os)
    (t : Treated h) :
    Rel false (if autoNl h then .print (.chr '\n') false :: h else h) false (ends os) := by
  unfold ends
  by_cases ha : autoNl h = true
  · rw [if_pos (r.auto.trans ha), if_pos ha]
    exact nl_rel r t
  · rw [if_neg ha, if_neg (fun h' => ha (r.auto.symm.trans h'))]
    exact ⟨r.out, r.on, r.auto, r.sepr, r.tup, r.cur, r.due, r.saw, rfl⟩

theorem step_rel {h : List Ev} {os : Os} (r : Rel false h false os) (s : Step)
    (t : Treated (stepEvs h s)) : Rel false (stepEvs h s) false (step os s) := by
  cases s with
  | sepSet s => exact ⟨r.out, r.on, r.auto, rfl, r.tup, r.cur, r.due, r.saw, r.prt⟩
  | sepSetTuple s => exact ⟨r.out, r.on, r.auto, r.sepr, rfl, r.cur, r.due, r.saw, r.prt⟩
  | print init last =>
    have t1 : Treated (operandEvs (initEvs h false init).1 last) := by
      unfold stepEvs at t
      simp only at t
      split at t
      · exact treated_tail t
      · exact t
    have r1 := init_rel r (treated_operand t1)
    have r2 := operand_rel r1 last t1
    have r3 := ends_rel r2 t1
    unfold stepEvs step lastOperand
    simp only
    cases last with
    | atom a => exact r3
    | tuple a rest => exact r3
    | ctl c =>
      by_cases hp : pending (initEvs h false init).1 (initEvs h false init).2 (.ctl c) = true
      · have e : endsLine (initEvs h false init).1 (initEvs h false init).2 (.ctl c) =
            autoNl (operandEvs (initEvs h false init).1 (.ctl c)) := by
          simp only [endsLine, hp, Bool.and_true]
        rw [e, if_pos (r2.prt.trans hp)]
        exact ⟨r3.out, r3.on, r3.auto, r3.sepr, r3.tup, r3.cur, r3.due, r3.saw, rfl⟩
      · have e : endsLine (initEvs h false init).1 (initEvs h false init).2 (.ctl c) = false := by
          simp [endsLine, hp]
        have e2 : ¬ (operand (init.foldl operand os) (.ctl c)).prt = true :=
          fun h' => hp (r2.prt.symm.trans h')
        rw [e, if_neg e2, if_neg (by simp)]
        exact ⟨r2.out, r2.on, r2.auto, r2.sepr, r2.tup, r2.cur, r2.due, r2.saw, rfl⟩

theorem treated_step {h : List Ev} {s : Step} (t : Treated (stepEvs h s)) : Treated h := by
  cases s with
  | sepSet s => exact t
  | sepSetTuple s => exact t
  | print init last =>
    unfold stepEvs at t
    simp only at t
    split at t
    · exact treated_init (treated_operand (treated_tail t))
    · exact treated_init (treated_operand t)

theorem treated_steps : ∀ {p : List Step} {h : List Ev}, Treated (p.foldl stepEvs h) → Treated h
  | [], _, t => t
  | _ :: p, _, t => treated_step (treated_steps (p := p) t)

theorem steps_rel : ∀ {p : List Step} {h : List Ev} {os : Os}, Rel false h false os →
    Treated (p.foldl stepEvs h) → Rel false (p.foldl stepEvs h) false (p.foldl step os)
  | [], _, _, r, _ => r
  | s :: p, _, _, r, t => steps_rel (p := p) (step_rel r s (treated_steps (p := p) t)) t

theorem open_rel : Rel false [] false Os.open := ⟨rfl, rfl, rfl, rfl, rfl, rfl, rfl, rfl, rfl⟩

theorem run_rel {p : List Step} (t : Treated (events p)) : Rel false (events p) false (run p) :=
  steps_rel open_rel t

/-! ## Sequences of values -/

/-- The events of printing values. -/
def vals (again : Bool) (xs : List (List Char)) : List Ev :=
  (xs.map fun y => Ev.print (.val y) again).reverse

theorem vals_cons (again : Bool) (x : List Char) (xs : List (List Char)) (h : List Ev) :
    vals again (x :: xs) ++ h = vals again xs ++ .print (.val x) again :: h := by
  simp [vals]

theorem autoNl_vals (again : Bool) : ∀ xs h, autoNl (vals again xs ++ h) = autoNl h
  | [], _ => rfl
  | x :: xs, h => by rw [vals_cons, autoNl_vals again xs]; rfl

theorem treated_vals (again : Bool) : ∀ xs h, Treated h →
    (∀ y ∈ xs, y ≠ [] ∧ y.getLast? ≠ some '\n') → Treated (vals again xs ++ h)
  | [], _, t, _ => t
  | x :: xs, h, t, hx => by
    rw [vals_cons]
    exact treated_vals again xs _ ⟨hx x List.mem_cons_self, t⟩
      (fun y hy => hx y (List.mem_cons_of_mem _ hy))

theorem text_vals (again : Bool) : ∀ (xs : List (List Char)) (h : List Ev) (x : List Char) (a : Bool),
    isOn h = true → x ≠ [] → x.getLast? ≠ some '\n' →
    (∀ y ∈ xs, y ≠ [] ∧ y.getLast? ≠ some '\n') →
    text (vals again xs ++ .print (.val x) a :: h) = text (.print (.val x) a :: h) ++
      (xs.map fun y => (if again then tupleSeparator h else separator h) ++ y).flatten
  | [], _, _, _, _, _, _, _ => by simp [vals]
  | y :: ys, h, x, a, ho, hx, hl, hys => by
    have hy := hys y List.mem_cons_self
    rw [vals_cons, text_vals again ys (.print (.val x) a :: h) y again ho hy.1 hy.2
      (fun z hz => hys z (List.mem_cons_of_mem _ hz)), text_print]
    have e : lineStart (text (.print (.val x) a :: h)) = false := by
      rw [lineStart_print a h (by exact hx)]
      simpa [chars] using hl
    rw [wanted_print, ho, e]
    simp only [after, before, Bool.and_true, Bool.not_false, if_true, chars, List.map_cons,
      List.flatten_cons, List.append_assoc]
    rfl

/-- From the beginning of a line. -/
theorem text_joined (again : Bool) (xs : List (List Char)) (h : List Ev) (x : List Char) (a : Bool)
    (ho : isOn h = true) (hs : lineStart (text h) = true)
    (hx : ∀ y ∈ x :: xs, y ≠ [] ∧ y.getLast? ≠ some '\n') :
    text (.print (.chr '\n') false :: (vals again xs ++ .print (.val x) a :: h)) = text h ++
      joined (if again then tupleSeparator h else separator h) (x :: xs) ++ ['\n'] := by
  have h1 := hx x List.mem_cons_self
  rw [text_print, text_vals again xs h x a ho h1.1 h1.2 (fun y hy => hx y (List.mem_cons_of_mem _ hy)),
    text_print, hs]
  simp [before, chars, joined]

theorem init_vals : ∀ (ys : List (List Char)) (h : List Ev) (b : Bool),
    (initEvs h b (ys.map fun y => Operand.atom (.val y))).1 = vals false ys ++ h
  | [], _, _ => rfl
  | y :: ys, h, b => by
    rw [vals_cons]
    exact init_vals ys (.print (.val y) false :: h) _

theorem events_snoc (p : List Step) (s : Step) : events (p ++ [s]) = stepEvs (events p) s := by
  simp [events]

end Verif.OstreamSep
