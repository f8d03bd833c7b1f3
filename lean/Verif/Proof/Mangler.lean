import Verif.Spec.Mangler
/-
  Proof of unique readability of mangled names.
-/
namespace Verif.Mangler

/-! ### The written form of an erased type -/

def QTok.code : QTok → List Char
  | .const => ['K']
  | .volatile => ['V']
  | .atomic => ['D', 'A']
  | .mutex => ['X']

mutual
def enc : Erased → List Char
  | .qual k t => k.code ++ enc t
  | .poly d f v as t =>
    'Q' :: (dec d ++ '_' :: (dec f ++ '_' :: (dec v ++ '_' :: (dec as.len ++ '_' ::
      (encAs as ++ '_' :: enc t)))))
  | .void => ['v']
  | .basic k => basicCode k
  | .ptr t => 'P' :: enc t
  | .arr t => 'A' :: '0' :: enc t
  | .fn rs ps => 'F' :: (encs rs ++ '_' :: (encs ps ++ ['_']))
  | .agg tag n ps =>
    tag.code :: (dec n.length ++ (n ++ (if ps.len = 0 then [] else '_' :: (encs ps ++ ['_']))))
  | .tyvar k => k.code ++ dec 0
  | .tuple ts => 'T' :: (dec ts.len ++ encs ts)
  | .zero => ['Z']
  | .one => ['O']
def encs : ErasedTys → List Char
  | .nil => []
  | .cons t r => enc t ++ encs r
def encAs : ErasedAsserts → List Char
  | .nil => []
  | .cons n l t r =>
    '_' :: 'X' :: (dec (outName n).length ++ (outName n ++ (enc t ++ (l.code ++ encAs r))))
end

/-! ### Numbers -/

/-- Does not start with a digit. -/
def ND (r : List Char) : Prop := ∀ c t, r = c :: t → c.isDigit = false

theorem ND_nil : ND [] := by intro c t h; cases h
theorem ND_cons {c : Char} {t : List Char} (h : c.isDigit = false) : ND (c :: t) := by
  intro c' t' e; cases e; exact h

theorem dec_digits (n : Nat) : ∀ c ∈ dec n, c.isDigit = true := fun _ h =>
  Nat.isDigit_of_mem_toDigits (by decide) (by decide) h

theorem takeWhile_dec (n : Nat) (r : List Char) (h : ND r) :
    (dec n ++ r).takeWhile Char.isDigit = dec n := by
  rw [List.takeWhile_append_of_pos (dec_digits n)]
  cases r with
  | nil => simp
  | cons c t => simp [List.takeWhile_cons, h c t rfl]

theorem dec_inj {n m : Nat} {r s : List Char} (hr : ND r) (hs : ND s) (h : dec n ++ r = dec m ++ s) :
    n = m ∧ r = s := by
  have e : dec n = dec m := by
    rw [← takeWhile_dec n r hr, h, takeWhile_dec m s hs]
  have e2 : n = m := by
    have h1 := Nat.ofDigitChars_toDigits (b := 10) (n := n) (by decide) (by decide)
    have h2 := Nat.ofDigitChars_toDigits (b := 10) (n := m) (by decide) (by decide)
    unfold dec at e
    rw [← h1, ← h2, e]
  subst e2
  exact ⟨rfl, List.append_cancel_left h⟩

/-- A name with its length in front. -/
theorem name_inj {n m r s : List Char} (hn : Ident n) (hm : Ident m)
    (h : dec n.length ++ (n ++ r) = dec m.length ++ (m ++ s)) : n = m ∧ r = s := by
  obtain ⟨c, n', rfl, hc⟩ := hn
  obtain ⟨c', m', rfl, hc'⟩ := hm
  obtain ⟨h1, h2⟩ := dec_inj (ND_cons hc) (ND_cons hc') h
  exact List.append_inj h2 h1

/-! ### First characters -/

theorem basicCode_ne : ∀ k : Fin 36, ∃ c l, basicCode k = c :: l ∧ c.isAlpha = true ∧
    (c = 'D' → ∃ c2 l2, l = c2 :: l2 ∧ c2 ≠ 'A') ∧
    c ≠ 'K' ∧ c ≠ 'V' ∧ c ≠ 'X' ∧ c ≠ 'Q' ∧ c ≠ 'v' ∧ c ≠ 'P' ∧ c ≠ 'A' ∧ c ≠ 'F' ∧ c ≠ 'S' ∧ c ≠ 'U' ∧
    c ≠ 'M' ∧ c ≠ 'Y' ∧ c ≠ 'B' ∧ c ≠ 'T' ∧ c ≠ 'Z' ∧ c ≠ 'O' := by
  intro k
  have key : ∀ k : Fin 36, (match basicCode k with
    | [] => false
    | c :: l => c.isAlpha && (c != 'D' || (match l with | [] => false | c2 :: _ => c2 != 'A')) &&
      !(['K','V','X','Q','v','P','A','F','S','U','M','Y','B','T','Z','O'].contains c)) = true := by
    decide +kernel
  have hk := key k
  split at hk
  · cases hk
  · rename_i c l e
    refine ⟨c, l, e, ?_⟩
    simp only [Bool.and_eq_true] at hk
    obtain ⟨⟨ha, hd⟩, hc⟩ := hk
    refine ⟨ha, ?_, ?_⟩
    · intro hcD
      subst hcD
      simp at hd
      split at hd
      · cases hd
      · rename_i c2 l2
        exact ⟨c2, l2, rfl, by simpa using hd⟩
    · simp at hc
      simp [hc]

theorem basicCode_prefix : ∀ i j : Fin 36, basicCode i <+: basicCode j → i = j := by
  have : ∀ i j : Fin 36, (basicCode i).isPrefixOf (basicCode j) = true → i = j := by decide +kernel
  intro i j h
  exact this i j (by simpa using h)

theorem basicCode_inj {i j : Fin 36} {r s : List Char} (h : basicCode i ++ r = basicCode j ++ s) :
    i = j ∧ r = s := by
  have : i = j := by
    have h1 : basicCode i <+: basicCode j ++ s := ⟨r, h⟩
    have h2 : basicCode j <+: basicCode j ++ s := ⟨s, rfl⟩
    rcases List.prefix_or_prefix_of_prefix h1 h2 with h | h
    · exact basicCode_prefix i j h
    · exact (basicCode_prefix j i h).symm
  subst this
  exact ⟨rfl, List.append_cancel_left h⟩

theorem enc_head (t : Erased) : ∃ c l, enc t = c :: l ∧ c.isAlpha = true := by
  cases t with
  | qual k t => cases k <;> simp [enc, QTok.code] <;> decide
  | basic k =>
    obtain ⟨c, l, h, ha, _⟩ := basicCode_ne k
    exact ⟨c, l, by simpa [enc] using h, ha⟩
  | agg tag n ps => cases tag <;> simp [enc, Tag.code] <;> decide
  | tyvar k => cases k <;> simp [enc, Kind.code] <;> decide
  | _ => simp [enc] <;> decide

theorem alpha_not_digit {c : Char} (h : c.isAlpha = true) : c.isDigit = false := by
  simp only [Char.isAlpha, Char.isUpper, Char.isLower, Char.isDigit] at *
  simp only [Bool.or_eq_true, Bool.and_eq_true, decide_eq_true_eq, Bool.and_eq_false_iff,
    decide_eq_false_iff_not, ge_iff_le, UInt32.le_iff_toNat_le] at *
  simp at *
  omega

theorem alpha_ne_us {c : Char} (h : c.isAlpha = true) : c ≠ '_' := by
  intro e; subst e; revert h; decide

theorem enc_ND (t : Erased) (r : List Char) : ND (enc t ++ r) := by
  obtain ⟨c, l, h, ha⟩ := enc_head t
  rw [h]
  exact ND_cons (alpha_not_digit ha)

theorem encs_ND (ts : ErasedTys) (r : List Char) (hr : ND r) : ND (encs ts ++ r) := by
  cases ts with
  | nil => simpa [encs] using hr
  | cons t ts => simp only [encs, List.append_assoc]; exact enc_ND t _

/-- The constructor, read off the first characters. -/
def headTag : List Char → Nat
  | [] => 20
  | c :: l =>
    if c = 'K' then 0 else if c = 'V' then 1 else if c = 'D' ∧ l.head? = some 'A' then 2 else
    if c = 'X' then 3 else if c = 'Q' then 4 else if c = 'v' then 5 else if c = 'P' then 6 else
    if c = 'A' then 7 else if c = 'F' then 8 else if c = 'S' then 9 else if c = 'U' then 10 else
    if c = 'M' then 11 else if c = 'Y' then 12 else if c = 'B' ∧ l.head? = some 'D' then 13 else
    if c = 'B' ∧ l.head? = some 'F' then 14 else if c = 'B' ∧ l.head? = some 'T' then 15 else
    if c = 'T' then 16 else if c = 'Z' then 17 else if c = 'O' then 18 else 19

def tag : Erased → Nat
  | .qual .const _ => 0 | .qual .volatile _ => 1 | .qual .atomic _ => 2 | .qual .mutex _ => 3
  | .poly .. => 4 | .void => 5 | .ptr _ => 6 | .arr _ => 7 | .fn .. => 8
  | .agg .struct .. => 9 | .agg .union .. => 10 | .agg .enum .. => 11 | .agg .type .. => 12
  | .tyvar .dtype => 13 | .tyvar .ftype => 14 | .tyvar .ttype => 15
  | .tuple _ => 16 | .zero => 17 | .one => 18 | .basic _ => 19

theorem headTag_enc (t : Erased) (r : List Char) : headTag (enc t ++ r) = tag t := by
  cases t with
  | qual k t => cases k <;> simp [enc, QTok.code, headTag, tag]
  | basic k =>
    obtain ⟨c, l, h, ha, hd, h1, h2, h3, h4, h5, h6, h7, h8, h9, h10, h11, h12, h13, h14, h15, h16⟩ :=
      basicCode_ne k
    simp only [enc, h, List.cons_append, tag, headTag, h1, h2, h3, h4, h5, h6, h7, h8, h9, h10, h11, h12, h13,
      h14, h15, h16, if_false, false_and]
    by_cases hc : c = 'D'
    · obtain ⟨c2, l2, rfl, hne⟩ := hd hc
      simp [hne]
    · simp [hc]
  | agg tag n ps => cases tag <;> simp [enc, Tag.code, headTag, Mangler.tag]
  | tyvar k => cases k <;> simp [enc, Kind.code, headTag, tag]
  | _ => simp [enc, headTag, tag]

/-- The constructor alone. -/
def ctor : Erased → Nat
  | .qual .. => 0 | .poly .. => 1 | .void => 2 | .ptr _ => 3 | .arr _ => 4 | .fn .. => 5
  | .agg .. => 6 | .tyvar _ => 7 | .tuple _ => 8 | .zero => 9 | .one => 10 | .basic _ => 11

def cls (n : Nat) : Nat :=
  if n < 4 then 0 else if n < 9 then n - 3 else if n < 13 then 6 else if n < 16 then 7 else n - 8

theorem ctor_cls (t : Erased) : ctor t = cls (tag t) := by
  cases t with
  | qual k t => cases k <;> rfl
  | agg tg n ps => cases tg <;> rfl
  | tyvar k => cases k <;> rfl
  | _ => rfl

/-! ### Names of declarations -/

theorem table_keys : (operatorTable.map Prod.fst).Nodup := by decide +kernel
theorem table_vals : (operatorTable.map Prod.snd).Nodup := by decide +kernel

theorem outName_op {n : Name} (h : n ∈ operatorTable.map Prod.fst) :
    (n, outName n) ∈ operatorTable := by
  have key : ∀ p ∈ operatorTable, (p.1, outName p.1) ∈ operatorTable := by decide +kernel
  obtain ⟨p, hp, rfl⟩ := List.mem_map.1 h
  exact key p hp

theorem outName_id {n : Name} (h : '?' ∉ n) : outName n = n := by simp [outName, h]

theorem outName_ident {n : Name} (h : DeclName n) : Ident (outName n) := by
  rcases h with h | ⟨h, hq, _⟩
  · have key : ∀ p ∈ operatorTable, (match p.2 with | [] => false | c :: _ => !c.isDigit) = true := by
      decide +kernel
    have := key _ (outName_op h)
    generalize outName n = m at this
    cases m with
    | nil => simp at this
    | cons c r => exact ⟨c, r, rfl, by simpa using this⟩
  · rw [outName_id hq]; exact h

theorem pair_inj {n m o : Name} (h1 : (n, o) ∈ operatorTable) (h2 : (m, o) ∈ operatorTable) : n = m := by
  have key : ∀ p ∈ operatorTable, ∀ q ∈ operatorTable, p.2 = q.2 → p.1 = q.1 := by decide +kernel
  exact key _ h1 _ h2 rfl

theorem outName_inj {n m : Name} (hn : DeclName n) (hm : DeclName m) (h : outName n = outName m) : n = m := by
  rcases hn with hn | ⟨hn, hq, ho⟩ <;> rcases hm with hm | ⟨hm, hq', ho'⟩
  · have := outName_op hn
    rw [h] at this
    exact pair_inj this (outName_op hm)
  · rw [outName_id hq'] at h
    exact absurd (List.mem_map.2 ⟨_, outName_op hn, rfl⟩) (h ▸ ho')
  · rw [outName_id hq] at h
    exact absurd (List.mem_map.2 ⟨_, outName_op hm, rfl⟩) (h ▸ ho)
  · rwa [outName_id hq, outName_id hq'] at h

theorem link_inj {a b : Linkage} {r s : List Char} (hr : r = [] ∨ ∃ t, r = '_' :: t)
    (hs : s = [] ∨ ∃ t, s = '_' :: t) (h : a.code ++ r = b.code ++ s) : a = b ∧ r = s := by
  rcases hr with rfl | ⟨r, rfl⟩ <;> rcases hs with rfl | ⟨s, rfl⟩ <;> cases a <;> cases b <;>
    simp_all [Linkage.code]

theorem link_ND (a : Linkage) (r : List Char) (hr : r = [] ∨ ∃ t, r = '_' :: t) : ND (a.code ++ r) := by
  rcases hr with rfl | ⟨r, rfl⟩ <;> cases a <;> simp [Linkage.code] <;>
    first | exact ND_nil | exact ND_cons (by decide)

theorem encAs_us (as : ErasedAsserts) (r : List Char) : ∃ t, encAs as ++ '_' :: r = '_' :: t := by
  cases as <;> simp [encAs]

/-! ### Well-formed erased types -/

mutual
def EOk (generic : Tag → Name → Bool) : Erased → Prop
  | .qual _ t => EOk generic t
  | .poly _ _ _ as t => EOkAs generic as ∧ EOk generic t
  | .void => True
  | .basic _ => True
  | .ptr t => EOk generic t
  | .arr t => EOk generic t
  | .fn rs ps => EOks generic rs ∧ EOks generic ps
  | .agg tag n ps => Ident n ∧ (generic tag n = true ↔ ps.len ≠ 0) ∧ EOks generic ps
  | .tyvar _ => True
  | .tuple ts => EOks generic ts
  | .zero => True
  | .one => True
def EOks (generic : Tag → Name → Bool) : ErasedTys → Prop
  | .nil => True
  | .cons t r => EOk generic t ∧ EOks generic r
def EOkAs (generic : Tag → Name → Bool) : ErasedAsserts → Prop
  | .nil => True
  | .cons n _ t r => DeclName n ∧ EOk generic t ∧ EOkAs generic r
end

theorem us_ND (l : List Char) : ND ('_' :: l) := ND_cons (by decide)

/-! ### Unique readability -/

mutual
theorem enc_inj (g : Tag → Name → Bool) (x : Erased) : ∀ (y : Erased) (r s : List Char),
    EOk g x → EOk g y → ND r → ND s → enc x ++ r = enc y ++ s → x = y ∧ r = s := by
  intro y r s hx hy hr hs h
  have ht : tag x = tag y := by rw [← headTag_enc x r, h, headTag_enc]
  have hc : ctor x = ctor y := by rw [ctor_cls, ctor_cls, ht]
  cases x with
  | qual k t =>
    cases y <;> try (simp [ctor] at hc; done)
    case qual k' t' =>
      have hk : k = k' := by cases k <;> cases k' <;> simp_all [tag]
      subst hk
      simp only [enc, List.append_assoc, List.append_cancel_left_eq] at h
      obtain ⟨rfl, rfl⟩ := enc_inj g t t' r s hx hy hr hs h
      exact ⟨rfl, rfl⟩
  | poly d f v as t =>
    cases y <;> try (simp [ctor] at hc; done)
    case poly d' f' v' as' t' =>
      simp only [enc, List.cons_append, List.append_assoc, List.cons.injEq, true_and] at h
      obtain ⟨rfl, h1_⟩ := dec_inj (us_ND _) (us_ND _) h
      simp only [List.cons.injEq, true_and] at h1_
      obtain ⟨rfl, h2_⟩ := dec_inj (us_ND _) (us_ND _) h1_
      simp only [List.cons.injEq, true_and] at h2_
      obtain ⟨rfl, h3_⟩ := dec_inj (us_ND _) (us_ND _) h2_
      simp only [List.cons.injEq, true_and] at h3_
      obtain ⟨hl, h4_⟩ := dec_inj (us_ND _) (us_ND _) h3_
      simp only [List.cons.injEq, true_and] at h4_
      obtain ⟨rfl, h5_⟩ := encAs_inj g as as' _ _ hx.1 hy.1 hl h4_
      obtain ⟨rfl, rfl⟩ := enc_inj g t t' r s hx.2 hy.2 hr hs h5_
      exact ⟨rfl, rfl⟩
  | void =>
    cases y <;> try (simp [ctor] at hc; done)
    case void => simpa [enc] using h
  | zero =>
    cases y <;> try (simp [ctor] at hc; done)
    case zero => simpa [enc] using h
  | one =>
    cases y <;> try (simp [ctor] at hc; done)
    case one => simpa [enc] using h
  | basic k =>
    cases y <;> try (simp [ctor] at hc; done)
    case basic k' =>
      simp only [enc] at h
      obtain ⟨rfl, rfl⟩ := basicCode_inj h
      exact ⟨rfl, rfl⟩
  | ptr t =>
    cases y <;> try (simp [ctor] at hc; done)
    case ptr t' =>
      simp only [enc, List.cons_append, List.cons.injEq, true_and] at h
      obtain ⟨rfl, rfl⟩ := enc_inj g t t' r s hx hy hr hs h
      exact ⟨rfl, rfl⟩
  | arr t =>
    cases y <;> try (simp [ctor] at hc; done)
    case arr t' =>
      simp only [enc, List.cons_append, List.cons.injEq, true_and] at h
      obtain ⟨rfl, rfl⟩ := enc_inj g t t' r s hx hy hr hs h
      exact ⟨rfl, rfl⟩
  | fn rs ps =>
    cases y <;> try (simp [ctor] at hc; done)
    case fn rs' ps' =>
      simp only [enc, List.cons_append, List.append_assoc, List.cons.injEq, true_and, List.nil_append] at h
      obtain ⟨rfl, h6_⟩ := encs_inj g rs rs' _ _ hx.1 hy.1 h
      obtain ⟨rfl, h7_⟩ := encs_inj g ps ps' _ _ hx.2 hy.2 h6_
      exact ⟨rfl, h7_⟩
  | agg tg n ps =>
    cases y <;> try (simp [ctor] at hc; done)
    case agg tg' n' ps' =>
      have hk : tg = tg' := by cases tg <;> cases tg' <;> simp_all [tag]
      subst hk
      simp only [enc, List.cons_append, List.append_assoc, List.cons.injEq, true_and] at h
      obtain ⟨rfl, h8_⟩ := name_inj hx.1 hy.1 h
      have hz : ps.len = 0 ↔ ps'.len = 0 := by
        have h1 := hx.2.1; have h2 := hy.2.1
        have h3 := h1.symm.trans h2
        constructor
        · intro e; exact Classical.byContradiction fun c => h3.2 c e
        · intro e; exact Classical.byContradiction fun c => h3.1 c e
      by_cases hp : ps.len = 0
      · have hp' := hz.1 hp
        simp only [hp, hp', if_true, List.nil_append] at h8_
        cases ps with
        | cons t r => simp [ErasedTys.len] at hp
        | nil =>
          cases ps' with
          | cons t r => simp [ErasedTys.len] at hp'
          | nil => exact ⟨rfl, h8_⟩
      · have hp' : ¬ ps'.len = 0 := fun e => hp (hz.2 e)
        simp only [hp, hp', if_false, List.cons_append, List.append_assoc, List.cons.injEq, true_and,
          List.nil_append] at h8_
        obtain ⟨rfl, h9_⟩ := encs_inj g ps ps' _ _ hx.2.2 hy.2.2 h8_
        exact ⟨rfl, h9_⟩
  | tyvar k =>
    cases y <;> try (simp [ctor] at hc; done)
    case tyvar k' =>
      have hk : k = k' := by cases k <;> cases k' <;> simp_all [tag]
      subst hk
      simp only [enc, List.append_assoc, List.append_cancel_left_eq] at h
      exact ⟨rfl, h⟩
  | tuple ts =>
    cases y <;> try (simp [ctor] at hc; done)
    case tuple ts' =>
      simp only [enc, List.cons_append, List.append_assoc, List.cons.injEq, true_and] at h
      obtain ⟨hl, h10_⟩ := dec_inj (encs_ND _ _ hr) (encs_ND _ _ hs) h
      obtain ⟨rfl, rfl⟩ := encs_len_inj g ts ts' r s hx hy hr hs hl h10_
      exact ⟨rfl, rfl⟩
theorem encs_inj (g : Tag → Name → Bool) (xs : ErasedTys) : ∀ (ys : ErasedTys) (r s : List Char),
    EOks g xs → EOks g ys → encs xs ++ '_' :: r = encs ys ++ '_' :: s → xs = ys ∧ r = s := by
  intro ys r s hx hy h
  cases xs with
  | nil =>
    cases ys with
    | nil => simpa [encs] using h
    | cons t ts =>
      exfalso
      obtain ⟨c, l, e, ha⟩ := enc_head t
      simp only [encs, e, List.nil_append, List.cons_append, List.cons.injEq] at h
      exact alpha_ne_us ha h.1.symm
  | cons t ts =>
    cases ys with
    | nil =>
      exfalso
      obtain ⟨c, l, e, ha⟩ := enc_head t
      simp only [encs, e, List.nil_append, List.cons_append, List.cons.injEq] at h
      exact alpha_ne_us ha h.1
    | cons t' ts' =>
      simp only [encs, List.append_assoc] at h
      obtain ⟨rfl, h11_⟩ := enc_inj g t t' _ _ hx.1 hy.1 (encs_ND _ _ (us_ND _)) (encs_ND _ _ (us_ND _)) h
      obtain ⟨rfl, rfl⟩ := encs_inj g ts ts' r s hx.2 hy.2 h11_
      exact ⟨rfl, rfl⟩
theorem encs_len_inj (g : Tag → Name → Bool) (xs : ErasedTys) : ∀ (ys : ErasedTys) (r s : List Char),
    EOks g xs → EOks g ys → ND r → ND s → xs.len = ys.len → encs xs ++ r = encs ys ++ s →
    xs = ys ∧ r = s := by
  intro ys r s hx hy hr hs hl h
  cases xs with
  | nil =>
    cases ys with
    | nil => exact ⟨rfl, by simpa [encs] using h⟩
    | cons t ts => simp [ErasedTys.len] at hl
  | cons t ts =>
    cases ys with
    | nil => simp [ErasedTys.len] at hl
    | cons t' ts' =>
      simp only [encs, List.append_assoc] at h
      obtain ⟨rfl, h12_⟩ := enc_inj g t t' _ _ hx.1 hy.1 (encs_ND _ _ hr) (encs_ND _ _ hs) h
      obtain ⟨rfl, rfl⟩ := encs_len_inj g ts ts' r s hx.2 hy.2 hr hs (by simpa [ErasedTys.len] using hl) h12_
      exact ⟨rfl, rfl⟩
theorem encAs_inj (g : Tag → Name → Bool) (xs : ErasedAsserts) : ∀ (ys : ErasedAsserts) (r s : List Char),
    EOkAs g xs → EOkAs g ys → xs.len = ys.len → encAs xs ++ '_' :: r = encAs ys ++ '_' :: s →
    xs = ys ∧ r = s := by
  intro ys r s hx hy hl h
  cases xs with
  | nil =>
    cases ys with
    | nil => exact ⟨rfl, by simpa [encAs] using h⟩
    | cons n l t ts => simp [ErasedAsserts.len] at hl
  | cons n l t ts =>
    cases ys with
    | nil => simp [ErasedAsserts.len] at hl
    | cons n' l' t' ts' =>
      simp only [encAs, List.append_assoc, List.cons_append, List.cons.injEq, true_and] at h
      obtain ⟨hn, h13_⟩ := name_inj (outName_ident hx.1) (outName_ident hy.1) h
      have := outName_inj hx.1 hy.1 hn
      subst this
      obtain ⟨rfl, h14_⟩ := enc_inj g t t' _ _ hx.2.1 hy.2.1 (link_ND _ _ (Or.inr (encAs_us _ _))) (link_ND _ _ (Or.inr (encAs_us _ _))) h13_
      obtain ⟨rfl, h15_⟩ := link_inj (Or.inr (encAs_us _ _)) (Or.inr (encAs_us _ _)) h14_
      obtain ⟨rfl, rfl⟩ := encAs_inj g ts ts' r s hx.2.2 hy.2.2 (by simpa [ErasedAsserts.len] using hl) h15_
      exact ⟨rfl, rfl⟩
end

/-! ### The mangler writes the written form of the erased type -/

/-- The mangler's variable map for the variables in scope: every number is 0. -/
def numbered (vars : List (Name × Kind)) : List (Name × (Nat × Kind)) :=
  vars.map (fun p => (p.1, (0, p.2)))

theorem numbered_lookup (vars : List (Name × Kind)) (n : Name) :
    (numbered vars).lookup n = (vars.lookup n).map (fun k => (0, k)) := by
  induction vars with
  | nil => rfl
  | cons p r ih =>
    obtain ⟨m, k⟩ := p
    simp only [numbered, List.map_cons, List.lookup_cons] at *
    split <;> simp_all

theorem addVars_eq (fa vars : List (Name × Kind)) (o : List Char) :
    addVars fa ⟨o, numbered vars, 0⟩ = ⟨o, numbered (fa.reverse ++ vars), 0⟩ := by
  induction fa generalizing vars with
  | nil => rfl
  | cons p r ih =>
    have := ih ((p.1, p.2) :: vars)
    simp only [addVars, numbered, List.map_cons] at *
    rw [this]
    simp [List.append_assoc]

theorem putQuals_eq (b : Bool) (q : Quals) (o : List Char) (vs : List (Name × (Nat × Kind))) (e : Erased) :
    ∃ o', putQuals b q ⟨o, vs, 0⟩ = ⟨o', vs, 0⟩ ∧ o' ++ enc e = o ++ enc (withQuals b q e) := by
  obtain ⟨c, v, a, m⟩ := q
  cases b <;> cases c <;> cases v <;> cases a <;> cases m <;>
    simp [putQuals, St.put, withQuals, enc, QTok.code]

theorem eraseTys_len (b : Bool) : ∀ (ts : Tys) vars, (eraseTys b vars ts).1.len = ts.len
  | .nil, vars => by simp [eraseTys, ErasedTys.len, Tys.len]
  | .cons t r, vars => by simp [eraseTys, ErasedTys.len, Tys.len, eraseTys_len b r]

theorem eraseAsserts_len : ∀ (as : Asserts) vars, (eraseAsserts vars as).len = as.len
  | .nil, vars => by simp [eraseAsserts, ErasedAsserts.len, Asserts.len]
  | .cons n l t r, vars => by simp [eraseAsserts, ErasedAsserts.len, Asserts.len, eraseAsserts_len r]

theorem putQuals_vars (b : Bool) (q : Quals) (s : St) :
    (putQuals b q s).varNums = s.varNums ∧ (putQuals b q s).nextVarNum = s.nextVarNum := by
  obtain ⟨c, v, a, m⟩ := q
  cases b <;> cases c <;> cases v <;> cases a <;> cases m <;> simp [putQuals, St.put]

mutual
theorem mangleTy_eq (b : Bool) (t : Ty) : ∀ (o : List Char) (vars : List (Name × Kind)),
    mangleTy b t ⟨o, numbered vars, 0⟩ =
      ⟨o ++ enc (erase b vars t).1, numbered (erase b vars t).2, 0⟩ := by
  intro o vars
  cases t with
  | void q =>
    obtain ⟨o', h1, h2⟩ := putQuals_eq b q o (numbered vars) .void
    simp only [mangleTy, erase, h1, St.put, ← h2, enc]
  | basic q k =>
    obtain ⟨o', h1, h2⟩ := putQuals_eq b q o (numbered vars) (.basic k)
    simp only [mangleTy, erase, h1, St.put, ← h2, enc]
  | ptr q base =>
    by_cases hf : isFn base = true
    · obtain ⟨o', h1, h2⟩ := putQuals_eq b q o (numbered vars) (erase false vars base).1
      simp only [mangleTy, erase, h1, hf, if_true, mangleTy_eq false base, h2]
    · obtain ⟨o', h1, h2⟩ := putQuals_eq b q o (numbered vars) (.ptr (erase false vars base).1)
      simp only [mangleTy, erase, h1, hf, St.put, if_false, Bool.false_eq_true, ← h2, enc]
      rw [mangleTy_eq false base]
      simp
  | array q d base =>
    obtain ⟨o', h1, h2⟩ := putQuals_eq b q o (numbered vars) (.arr (erase false vars base).1)
    simp only [mangleTy, erase, h1, St.put, mangleTy_eq false base, ← h2, enc]
    simp
  | ref q base =>
    obtain ⟨o', h1, h2⟩ := putQuals_eq true q o (numbered vars) (erase false vars base).1
    simp only [mangleTy, erase, h1, mangleTy_eq false base, ← h2]
  | fn q fa as rets params =>
    by_cases hp : fa = [] ∧ as.len = 0
    · obtain ⟨rfl, ha⟩ := hp
      simp only [mangleTy, erase, ha, and_self, if_true, List.reverse_nil, List.nil_append]
      by_cases hr : rets.len = 0
      · cases rets with
        | cons t r => simp [Tys.len] at hr
        | nil =>
          obtain ⟨o', h1, h2⟩ := putQuals_eq b q o (numbered vars)
            (.fn (.cons .void .nil) (eraseTys true vars params).1)
          simp only [h1, St.put, Tys.len, if_true, mangleTys_eq true params, eraseTys, ErasedTys.len, ← h2,
            enc, encs]
          simp
      · obtain ⟨o', h1, h2⟩ := putQuals_eq b q o (numbered vars)
            (.fn (eraseTys true vars rets).1 (eraseTys true (eraseTys true vars rets).2 params).1)
        simp only [h1, St.put, hr, if_false, mangleTys_eq true rets, mangleTys_eq true params, eraseTys_len,
          ← h2, enc, encs]
        simp
    · simp only [mangleTy, erase, hp, if_false, St.put, addVars_eq, mangleAsserts_eq as, enc, eraseAsserts_len]
      by_cases hr : rets.len = 0
      · cases rets with
        | cons t r => simp [Tys.len] at hr
        | nil =>
          generalize ho : o ++ ['Q'] ++ _ ++ _ ++ ['_'] = o1
          obtain ⟨o', h1, h2⟩ := putQuals_eq b q o1 (numbered (fa.reverse ++ vars))
            (.fn (.cons .void .nil) (eraseTys true (fa.reverse ++ vars) params).1)
          simp only [h1, St.put, Tys.len, if_true, mangleTys_eq true params, eraseTys, ErasedTys.len]
          simp only [St.mk.injEq, and_true]
          have : o' ++ enc (.fn (.cons .void .nil) (eraseTys true (fa.reverse ++ vars) params).1) =
            o' ++ ['F'] ++ ['v'] ++ ['_'] ++ encs (eraseTys true (fa.reverse ++ vars) params).1 ++ ['_'] := by
            simp [enc, encs]
          rw [← this, h2, ← ho]
          simp
      · generalize ho : o ++ ['Q'] ++ _ ++ _ ++ ['_'] = o1
        obtain ⟨o', h1, h2⟩ := putQuals_eq b q o1 (numbered (fa.reverse ++ vars))
            (.fn (eraseTys true (fa.reverse ++ vars) rets).1
              (eraseTys true (eraseTys true (fa.reverse ++ vars) rets).2 params).1)
        simp only [h1, St.put, hr, if_false, mangleTys_eq true rets, mangleTys_eq true params, eraseTys_len]
        simp only [St.mk.injEq, and_true]
        rw [enc] at h2
        have h3 : o' ++ ['F'] ++ encs (eraseTys true (fa.reverse ++ vars) rets).1 ++ ['_'] ++
          encs (eraseTys true (eraseTys true (fa.reverse ++ vars) rets).2 params).1 ++ ['_'] =
          o' ++ 'F' :: (encs (eraseTys true (fa.reverse ++ vars) rets).1 ++ '_' ::
          (encs (eraseTys true (eraseTys true (fa.reverse ++ vars) rets).2 params).1 ++ ['_'])) := by simp
        rw [h3, h2, ← ho]
        simp
  | agg q tg n ps =>
    obtain ⟨o', h1, h2⟩ := putQuals_eq b q o (numbered vars) (.agg tg n (eraseTys false vars ps).1)
    simp only [mangleTy, erase, h1, St.put, ← h2, enc, eraseTys_len]
    by_cases hp : ps.len = 0
    · cases ps with
      | cons t r => simp [Tys.len] at hp
      | nil => simp [Tys.len, eraseTys]
    · simp [hp, mangleTys_eq false ps]
  | inst q n ps =>
    simp only [mangleTy, erase, numbered_lookup]
    cases hl : vars.lookup n with
    | none =>
      obtain ⟨o', h1, h2⟩ := putQuals_eq b q o (numbered vars) (.agg .type n (eraseTys false vars ps).1)
      simp only [Option.map_none, h1, St.put, ← h2, enc, eraseTys_len]
      by_cases hp : ps.len = 0
      · cases ps with
        | cons t r => simp [Tys.len] at hp
        | nil => simp [Tys.len, eraseTys]
      · simp [hp, mangleTys_eq false ps]
    | some k =>
      obtain ⟨o', h1, h2⟩ := putQuals_eq b q o (numbered vars) (.tyvar k)
      simp only [Option.map_some, h1, St.put, ← h2, enc]
  | tuple q ts =>
    obtain ⟨o', h1, h2⟩ := putQuals_eq b q o (numbered vars) (.tuple (eraseTys false vars ts).1)
    simp only [mangleTy, erase, h1, St.put, ← h2, enc, eraseTys_len, mangleTys_eq false ts]
    simp
  | varargs q =>
    obtain ⟨o', h1, h2⟩ := putQuals_eq b q o (numbered vars) (.agg .type vaList .nil)
    simp only [mangleTy, erase, h1, St.put, ← h2, enc, ErasedTys.len]
    simp
  | zero q => simp [mangleTy, erase, St.put, enc]
  | one q => simp [mangleTy, erase, St.put, enc]
theorem mangleTys_eq (b : Bool) (ts : Tys) : ∀ (o : List Char) (vars : List (Name × Kind)),
    mangleTys b ts ⟨o, numbered vars, 0⟩ =
      ⟨o ++ encs (eraseTys b vars ts).1, numbered (eraseTys b vars ts).2, 0⟩ := by
  intro o vars
  cases ts with
  | nil => simp [mangleTys, eraseTys, encs]
  | cons t r =>
    simp only [mangleTys, eraseTys, encs, mangleTy_eq b t, mangleTys_eq b r]
    simp
theorem mangleAsserts_eq (as : Asserts) : ∀ (vars : List (Name × Kind)),
    mangleAsserts as (numbered vars) 0 = encAs (eraseAsserts vars as) := by
  intro vars
  cases as with
  | nil => simp [mangleAsserts, eraseAsserts, encAs]
  | cons n l t r =>
    simp only [mangleAsserts, eraseAsserts, encAs, St.put, mangleTy_eq false t, mangleAsserts_eq r]
    simp
end

theorem withQuals_ok (g : Tag → Name → Bool) (b : Bool) (q : Quals) (e : Erased) (h : EOk g e) :
    EOk g (withQuals b q e) := by
  obtain ⟨c, v, a, m⟩ := q
  cases b <;> cases c <;> cases v <;> cases a <;> cases m <;> simpa [withQuals, EOk] using h

mutual
theorem erase_ok (g : Tag → Name → Bool) (b : Bool) (t : Ty) : ∀ vars, Ok g t → EOk g (erase b vars t).1 := by
  intro vars h
  cases t with
  | void q => exact withQuals_ok g b q _ trivial
  | basic q k => exact withQuals_ok g b q _ trivial
  | ptr q base =>
    have := erase_ok g false base vars h
    simp only [erase]
    apply withQuals_ok
    split
    · exact this
    · exact this
  | array q d base =>
    exact withQuals_ok g b q _ (erase_ok g false base vars h)
  | ref q base =>
    exact withQuals_ok g true q _ (erase_ok g false base vars h)
  | fn q fa as rets params =>
    obtain ⟨h1, h2, h3⟩ := h
    have h4 := eraseAsserts_ok g as (fa.reverse ++ vars) h1
    have h5 := eraseTys_ok g true rets (fa.reverse ++ vars) h2
    have h6 := eraseTys_ok g true params (eraseTys true (fa.reverse ++ vars) rets).2 h3
    simp only [erase]
    have h7 : EOk g (withQuals b q (.fn
        (if (eraseTys true (fa.reverse ++ vars) rets).1.len = 0 then .cons .void .nil
          else (eraseTys true (fa.reverse ++ vars) rets).1)
        (eraseTys true (eraseTys true (fa.reverse ++ vars) rets).2 params).1)) := by
      apply withQuals_ok
      refine ⟨?_, h6⟩
      split
      · simp [EOks, EOk]
      · exact h5
    split
    · exact h7
    · exact ⟨h4, h7⟩
  | agg q tg n ps =>
    obtain ⟨h1, h2, h3⟩ := h
    apply withQuals_ok
    refine ⟨h1, ?_, eraseTys_ok g false ps vars h3⟩
    rw [h2, eraseTys_len]
  | inst q n ps =>
    obtain ⟨h1, h2, h3⟩ := h
    simp only [erase]
    split
    · apply withQuals_ok
      refine ⟨h1, ?_, eraseTys_ok g false ps vars h3⟩
      rw [h2, eraseTys_len]
    · exact withQuals_ok _ _ _ _ trivial
  | tuple q ts => exact withQuals_ok g b q _ (eraseTys_ok g false ts vars h)
  | varargs q =>
    apply withQuals_ok
    refine ⟨⟨'_', "_builtin_va_list".toList, by decide, by decide⟩, ?_, trivial⟩
    simp only [Ok] at h
    simp [h, ErasedTys.len]
  | zero q => trivial
  | one q => trivial
theorem eraseTys_ok (g : Tag → Name → Bool) (b : Bool) (ts : Tys) : ∀ vars, OkTys g ts →
    EOks g (eraseTys b vars ts).1 := by
  intro vars h
  cases ts with
  | nil => trivial
  | cons t r => exact ⟨erase_ok g b t vars h.1, eraseTys_ok g b r _ h.2⟩
theorem eraseAsserts_ok (g : Tag → Name → Bool) (as : Asserts) : ∀ vars, OkAsserts g as →
    EOkAs g (eraseAsserts vars as) := by
  intro vars h
  cases as with
  | nil => trivial
  | cons n l t r => exact ⟨h.1, erase_ok g false t vars h.2.1, eraseAsserts_ok g r vars h.2.2⟩
end

theorem mangle_eq (d : Decl) :
    mangle d = '_' :: 'X' :: (dec (outName d.name).length ++ (outName d.name ++
      (enc (erase false [] d.ty).1 ++ d.link.code))) := by
  have h := mangleTy_eq false d.ty ('_' :: 'X' :: (dec (outName d.name).length ++ outName d.name)) []
  simp only [numbered, List.map_nil] at h
  simp [mangle, St.put, h]

end Verif.Mangler
