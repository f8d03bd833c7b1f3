import Verif.Spec.InitCursor
/-! Proofs for C94. -/
namespace InitCursor

theorem coveredM_get : ∀ {ms : Mems} {i m t}, coveredM ms = true → ms.get? i = some (m, t) →
    m = .field ∧ covered t = true
  | .nil, _, _, _, _, h => by simp [Mems.get?] at h
  | .cons m' t' ms, i, m, t, hc, h => by
    simp only [coveredM, Bool.and_eq_true, beq_iff_eq] at hc
    cases i with
    | zero =>
      simp only [Mems.get?, Option.some.injEq, Prod.mk.injEq] at h
      obtain ⟨rfl, rfl⟩ := h
      exact hc.1
    | succ i => exact coveredM_get hc.2 (by simpa only [Mems.get?] using h)

theorem covered_agg {k ms} (h : covered (.agg k ms) = true) :
    k ≠ .tuple ∧ 0 < ms.len ∧ coveredM ms = true := by
  cases k <;> cases ms <;> simp_all [covered, coveredM, Mems.len]

theorem get_some : ∀ {ms : Mems} {i}, i < ms.len → ∃ x, ms.get? i = some x
  | .nil, _, h => by simp [Mems.len] at h
  | .cons m t ms, 0, _ => ⟨_, rfl⟩
  | .cons m t ms, i + 1, h => by
    simp only [Mems.get?]
    exact get_some (by simp only [Mems.len] at h; omega)

theorem get_lt : ∀ {ms : Mems} {i x}, ms.get? i = some x → i < ms.len
  | .nil, _, _, h => by simp [Mems.get?] at h
  | .cons m t ms, 0, _, _ => by simp [Mems.len]
  | .cons m t ms, i + 1, x, h => by
    have := get_lt (ms := ms) (i := i) (x := x) (by simpa only [Mems.get?] using h)
    simp only [Mems.len]; omega

/-- Members of covered aggregates. -/
theorem sub1_agg {k ms i u} (hc : covered (.agg k ms) = true) :
    sub1 (.agg k ms) i = some u ↔ ms.get? i = some (.field, u) := by
  have h := covered_agg hc
  simp only [sub1]
  cases e : ms.get? i with
  | none => simp
  | some x =>
    obtain ⟨m, t⟩ := x
    obtain ⟨rfl, -⟩ := coveredM_get h.2.2 e
    simp

theorem sub1_covered {t i u} (hc : covered t = true) (h : sub1 t i = some u) : covered u = true := by
  cases t with
  | sc a => simp [sub1] at h
  | arr n t =>
    simp only [sub1, Option.ite_none_right_eq_some, Option.some.injEq] at h
    simp only [covered, Bool.and_eq_true] at hc
    rw [← h.2]; exact hc.2
  | agg k ms =>
    exact (coveredM_get (covered_agg hc).2.2 ((sub1_agg hc).mp h)).2

theorem sub_covered : ∀ {p t u}, covered t = true → sub t p = some u → covered u = true
  | [], t, u, hc, h => by simp only [sub, Option.some.injEq] at h; rw [← h]; exact hc
  | i :: p, t, u, hc, h => by
    simp only [sub, Option.bind_eq_some_iff] at h
    obtain ⟨v, h1, h2⟩ := h
    exact sub_covered (sub1_covered hc h1) h2

theorem sub_append : ∀ {p q t}, sub t (p ++ q) = (sub t p).bind fun u => sub u q
  | [], q, t => by simp [sub]
  | i :: p, q, t => by
    simp only [List.cons_append, sub]
    cases sub1 t i with
    | none => rfl
    | some u => simp only [Option.bind_some]; exact sub_append

/-! ## The iterator at a path -/

def mk : Ty → Path → Iter
  | t, [] => create t
  | .sc a, _ :: _ => .simple (some (.sc a))
  | .arr n t, i :: p => .array t n i (mk t p)
  | .agg k ms, i :: p =>
    match ms.get? i with
    | some (_, t) => .agg k ms i (i == 0 && p.isEmpty) (mk t p)
    | none => .null

theorem mk_nil (t : Ty) : mk t [] = create t := by cases t <;> simp only [mk]

/-- Is it an iterator for the type? -/
def IsFor : Ty → Iter → Prop
  | .sc _, .simple _ => True
  | .arr n t, .array t' n' _ _ => t' = t ∧ n' = n
  | .agg k ms, .agg k' ms' _ _ _ => k' = k ∧ ms' = ms
  | _, _ => False

theorem create_ok : ∀ {t}, covered t = true → (create t).ok = true
  | .sc a, _ => rfl
  | .arr n t, h => by
    simp only [covered, Bool.and_eq_true, decide_eq_true_eq] at h
    simp [create, Iter.ok, h.1]
  | .agg k .nil, h => by simpa [Mems.len] using (covered_agg h).2.1
  | .agg .tuple _, h => by simp [covered] at h
  | .agg .struct (.cons m t ms), h => by simp [create, Iter.ok, Mems.len]
  | .agg .union (.cons m t ms), h => by
    simp only [covered, Bool.and_eq_true, beq_iff_eq] at h
    obtain ⟨⟨rfl, h⟩, _⟩ := h
    simp only [create, createHead, Iter.ok]
    exact create_ok h

theorem mk_ok : ∀ {p t u}, covered t = true → sub t p = some u → (mk t p).ok = true
  | [], t, u, hc, h => by rw [mk_nil]; exact create_ok hc
  | i :: p, .sc a, u, hc, h => by simp [sub, sub1] at h
  | i :: p, .arr n t, u, hc, h => by
    simp only [sub, sub1, Option.bind_eq_some_iff, Option.ite_none_right_eq_some] at h
    obtain ⟨v, h1, h2⟩ := h
    simp [mk, Iter.ok, h1.1]
  | i :: p, .agg k ms, u, hc, h => by
    simp only [sub, Option.bind_eq_some_iff] at h
    obtain ⟨v, h1, h2⟩ := h
    have hv := sub1_covered hc h1
    rw [sub1_agg hc] at h1
    have hk := (covered_agg hc).1
    simp only [mk, h1]
    cases k with
    | tuple => exact absurd rfl hk
    | struct => simp [Iter.ok, get_lt h1]
    | union => simp only [Iter.ok]; exact mk_ok hv h2

theorem mk_isFor : ∀ {p t u}, covered t = true → sub t p = some u → IsFor t (mk t p)
  | [], .sc a, u, _, h => by simp [mk, create, IsFor]
  | [], .arr n t, u, _, h => by simp [mk, create, IsFor]
  | [], .agg k ms, u, _, h => by simp [mk, create, IsFor]
  | i :: p, .sc a, u, hc, h => by simp [sub, sub1] at h
  | i :: p, .arr n t, u, hc, h => by simp [mk, IsFor]
  | i :: p, .agg k ms, u, hc, h => by
    simp only [sub, Option.bind_eq_some_iff] at h
    obtain ⟨v, h1, h2⟩ := h
    rw [sub1_agg hc] at h1
    simp [mk, h1, IsFor]

/-- The beginning is at the first member. -/
theorem mk_start {t p} (hc : covered t = true) (h : start t = some p) : create t = mk t p := by
  cases t with
  | sc a => simp only [start, Option.some.injEq] at h; subst h; rw [mk_nil]
  | arr n t =>
    simp only [start, Option.ite_none_right_eq_some, Option.some.injEq] at h
    obtain ⟨_, rfl⟩ := h
    simp only [create, mk, mk_nil]
  | agg k ms =>
    have hk := covered_agg hc
    cases ms with
    | nil => simp [Mems.len] at hk
    | cons m t ms =>
      obtain ⟨hm, -, hcm⟩ := hk
      simp only [coveredM, Bool.and_eq_true, beq_iff_eq] at hcm
      obtain ⟨⟨rfl, _⟩, _⟩ := hcm
      simp only [start, firstField, Option.map_some, Option.some.injEq] at h
      subst h
      simp [create, createHead, mk, Mems.get?, mk_nil]

/-! ## Designators -/

theorem setPos_create : ∀ {q t u}, covered t = true → sub t q = some u →
    (create t).setPos q = some (mk t q)
  | [], t, u, hc, h => by cases t <;> simp [create, Iter.setPos, mk]
  | i :: q, .sc a, u, hc, h => by simp [sub, sub1] at h
  | i :: q, .arr n t, u, hc, h => by
    simp only [sub, sub1, Option.bind_eq_some_iff, Option.ite_none_right_eq_some, Option.some.injEq] at h
    obtain ⟨v, ⟨_, rfl⟩, h2⟩ := h
    simp only [covered, Bool.and_eq_true] at hc
    simp only [create, Iter.setPos, mk]
    rw [setPos_create hc.2 h2]
    rfl
  | i :: q, .agg k ms, u, hc, h => by
    simp only [sub, Option.bind_eq_some_iff] at h
    obtain ⟨v, h1, h2⟩ := h
    have hv := sub1_covered hc h1
    rw [sub1_agg hc] at h1
    have hk := (covered_agg hc).1
    cases k with
    | tuple => exact absurd rfl hk
    | struct => simp only [create, Iter.setPos, mk, h1]; rw [setPos_create hv h2]; rfl
    | union => simp only [create, Iter.setPos, mk, h1]; rw [setPos_create hv h2]; rfl

theorem setPos_agg {k ms it i q u} (hc : covered (.agg k ms) = true) (hi : IsFor (.agg k ms) it)
    (h : sub (.agg k ms) (i :: q) = some u) : it.setPos (i :: q) = some (mk (.agg k ms) (i :: q)) := by
  have h0 := setPos_create hc h
  cases it with
  | agg k' ms' c a m =>
    simp only [IsFor] at hi
    obtain ⟨rfl, rfl⟩ := hi
    have hk := (covered_agg hc).1
    cases k' with
    | tuple => exact absurd rfl hk
    | struct => rw [← h0]; simp only [create, Iter.setPos]
    | union => rw [← h0]; simp only [create, Iter.setPos]
  | _ => simp [IsFor] at hi

theorem setPos_seek : ∀ {d p t u v}, covered t = true → sub t p = some v → sub t d = some u →
    seek t p d = true → (mk t p).setPos d = some (mk t d)
  | [], p, t, u, v, hc, _, hd, hs => by
    have : p = [] := by
      cases p with
      | nil => rfl
      | cons i p => cases t <;> simp [seek] at hs
    subst this
    rw [mk_nil]
    have := setPos_create hc hd
    rwa [mk_nil] at this
  | j :: d, p, .sc a, u, v, hc, hp, hd, hs => by simp [sub, sub1] at hd
  | j :: d, [], .arr n t, u, v, hc, hp, hd, hs => by rw [mk_nil]; exact setPos_create hc hd
  | j :: d, i :: p, .arr n t, u, v, hc, hp, hd, hs => by
    simp only [seek] at hs
    simp only [sub, sub1, Option.bind_eq_some_iff, Option.ite_none_right_eq_some, Option.some.injEq] at hd hp
    obtain ⟨_, ⟨_, rfl⟩, h2⟩ := hd
    obtain ⟨_, ⟨_, rfl⟩, h3⟩ := hp
    simp only [covered, Bool.and_eq_true] at hc
    simp only [mk, Iter.setPos]
    rw [setPos_seek hc.2 h3 h2 hs]
    rfl
  | j :: d, p, .agg k ms, u, v, hc, hp, hd, hs => setPos_agg hc (mk_isFor hc hp) hd

theorem seek_append : ∀ {p r t u}, sub t (p ++ r) = some u → seek t p (p ++ r) = true
  | [], [], t, u, h => by cases t <;> simp [seek]
  | [], j :: r, .sc a, u, h => by simp [sub, sub1] at h
  | [], j :: r, .arr n t, u, h => by simp [seek]
  | [], j :: r, .agg k ms, u, h => by simp [seek]
  | i :: p, r, .sc a, u, h => by simp [sub, sub1] at h
  | i :: p, r, .arr n t, u, h => by
    simp only [List.cons_append, sub, sub1, Option.bind_eq_some_iff, Option.ite_none_right_eq_some,
      Option.some.injEq] at h
    obtain ⟨_, ⟨_, rfl⟩, h2⟩ := h
    simp only [List.cons_append, seek]
    exact seek_append h2
  | i :: p, r, .agg k ms, u, h => by simp [seek]

theorem designates_of_sub : ∀ {d t u}, covered t = true → sub t d = some u → designates t d = true
  | [], t, u, _, _ => by cases t <;> simp [designates]
  | i :: d, .sc a, u, hc, h => by simp [sub, sub1] at h
  | i :: d, .arr n t, u, hc, h => by
    simp only [sub, sub1, Option.bind_eq_some_iff, Option.ite_none_right_eq_some, Option.some.injEq] at h
    obtain ⟨v, ⟨_, rfl⟩, h2⟩ := h
    simp only [covered, Bool.and_eq_true] at hc
    simp only [designates]
    exact designates_of_sub hc.2 h2
  | i :: d, .agg k ms, u, hc, h => by
    simp only [sub, Option.bind_eq_some_iff] at h
    obtain ⟨v, h1, h2⟩ := h
    have hv := sub1_covered hc h1
    rw [sub1_agg hc] at h1
    have hk := (covered_agg hc).1
    cases k with
    | tuple => exact absurd rfl hk
    | struct => simp only [designates, h1]; exact designates_of_sub hv h2
    | union => simp only [designates, h1]; exact designates_of_sub hv h2

/-! ## Options -/

theorem chain_first : ∀ {t}, covered t = true → (create t).first = chain t
  | .sc a, _ => by simp [create, Iter.first, chain]
  | .arr n t, h => by
    simp only [covered, Bool.and_eq_true, decide_eq_true_eq] at h
    simp only [create, Iter.first, chain, create_ok h.2, if_true, chain_first h.2]
  | .agg k .nil, h => by simpa [Mems.len] using (covered_agg h).2.1
  | .agg .tuple _, h => by simp [covered] at h
  | .agg .struct (.cons m t ms), h => by
    simp only [covered, Bool.and_eq_true, beq_iff_eq] at h
    obtain ⟨⟨rfl, h⟩, _⟩ := h
    simp only [create, createHead, Iter.first, chain, chainHead, create_ok h, if_true, chain_first h,
      List.singleton_append]
  | .agg .union (.cons m t ms), h => by
    simp only [covered, Bool.and_eq_true, beq_iff_eq] at h
    obtain ⟨⟨rfl, h⟩, _⟩ := h
    simp only [create, createHead, Iter.first, chain, chainHead, create_ok h, if_true, chain_first h,
      List.singleton_append]

theorem cands_nil (t : Ty) : cands t [] = chain t := by
  simp [cands, sub]

theorem cands_cons {t i u p} (h : sub1 t i = some u) :
    cands t (i :: p) = (cands u p).map fun o => (i :: o.1, o.2) := by
  simp only [cands, sub, h, Option.bind_some]
  cases sub u p <;> simp

theorem first_mk : ∀ {p t u}, covered t = true → sub t p = some u → fine t p = true →
    (mk t p).first = cands t p
  | [], t, u, hc, h, hf => by rw [mk_nil, cands_nil, chain_first hc]
  | i :: p, .sc a, u, hc, h, hf => by simp [sub, sub1] at h
  | i :: p, .arr n t, u, hc, h, hf => by
    simp only [sub, Option.bind_eq_some_iff] at h
    obtain ⟨v, h1, h2⟩ := h
    rw [cands_cons h1]
    simp only [sub1, Option.ite_none_right_eq_some, Option.some.injEq] at h1
    obtain ⟨_, rfl⟩ := h1
    simp only [covered, Bool.and_eq_true] at hc
    simp only [fine] at hf
    simp only [mk, Iter.first, mk_ok hc.2 h2, if_true, first_mk hc.2 h2 hf]
  | i :: p, .agg k ms, u, hc, h, hf => by
    simp only [sub, Option.bind_eq_some_iff] at h
    obtain ⟨v, h1, h2⟩ := h
    rw [cands_cons h1]
    simp only [fine, h1, Bool.and_eq_true, Bool.not_eq_true'] at hf
    have hv := sub1_covered hc h1
    rw [sub1_agg hc] at h1
    have hk := (covered_agg hc).1
    simp only [mk, h1, hf.1]
    cases k with
    | tuple => exact absurd rfl hk
    | struct => simp [Iter.first, mk_ok hv h2, first_mk hv h2 hf.2]
    | union => simp [Iter.first, mk_ok hv h2, first_mk hv h2 hf.2]

/-- At every position the options are those of C. -/
theorem options_mk {t p u} (hc : covered t = true) (h : sub t p = some u) (hf : fineTop t p = true)
    (hp : p = [] → ∃ a, t = .sc a) : (mk t p).options = cands t p := by
  cases p with
  | nil =>
    obtain ⟨a, rfl⟩ := hp rfl
    simp [mk, create, Iter.options, Iter.first, cands, sub, chain]
  | cons i p =>
    simp only [sub, Option.bind_eq_some_iff] at h
    obtain ⟨v, h1, h2⟩ := h
    rw [cands_cons h1]
    simp only [fineTop, h1] at hf
    have hv := sub1_covered hc h1
    cases t with
    | sc a => simp [sub1] at h1
    | arr n t =>
      simp only [sub1, Option.ite_none_right_eq_some, Option.some.injEq] at h1
      obtain ⟨_, rfl⟩ := h1
      simp only [mk, Iter.options, Iter.first, mk_ok hv h2, if_true, first_mk hv h2 hf]
    | agg k ms =>
      have hk := (covered_agg hc).1
      rw [sub1_agg hc] at h1
      simp only [mk, h1]
      cases k with
      | tuple => exact absurd rfl hk
      | struct => simp only [Iter.options, mk_ok hv h2, if_true, first_mk hv h2 hf]
      | union => simp only [Iter.options, mk_ok hv h2, if_true, first_mk hv h2 hf]

/-! ## Going on -/

theorem scan_covered : ∀ {ms k}, coveredM ms = true → k ≤ ms.len → scan ms k = k
  | .nil, k, _, h => by simp only [Mems.len] at h; simp only [scan]; omega
  | .cons m t ms, 0, hc, _ => by
    simp only [coveredM, Bool.and_eq_true, beq_iff_eq] at hc
    obtain ⟨⟨rfl, _⟩, _⟩ := hc
    simp only [scan]
  | .cons m t ms, k + 1, hc, h => by
    simp only [coveredM, Bool.and_eq_true, beq_iff_eq] at hc
    obtain ⟨⟨rfl, _⟩, hc⟩ := hc
    simp only [scan, Mems.len] at h ⊢
    rw [scan_covered hc (by omega)]

theorem firstField_covered : ∀ {ms k}, coveredM ms = true →
    firstField ms k = if k < ms.len then some k else none
  | .nil, k, _ => by simp [firstField, Mems.len]
  | .cons m t ms, 0, hc => by
    simp only [coveredM, Bool.and_eq_true, beq_iff_eq] at hc
    obtain ⟨⟨rfl, _⟩, _⟩ := hc
    simp [firstField, Mems.len]
  | .cons m t ms, k + 1, hc => by
    simp only [coveredM, Bool.and_eq_true, beq_iff_eq] at hc
    obtain ⟨⟨rfl, _⟩, hc⟩ := hc
    simp only [firstField, Mems.len, firstField_covered hc]
    split <;> simp_all

/-- One big step. -/
theorem big_mk {t i p u j} (hc : covered t = true) (h : sub t (i :: p) = some u) (hj : after t i = some j) :
    (mk t (i :: p)).big = mk t [j] ∧ (∃ v, sub t [j] = some v) ∧ 0 < j := by
  simp only [sub, Option.bind_eq_some_iff] at h
  obtain ⟨v, h1, h2⟩ := h
  cases t with
  | sc a => simp [sub1] at h1
  | arr n t =>
    simp only [after, Option.ite_none_right_eq_some, Option.some.injEq] at hj
    obtain ⟨hlt, rfl⟩ := hj
    simp [mk, Iter.big, hlt, mk_nil, sub, sub1]
  | agg k ms =>
    have hk := covered_agg hc
    rw [sub1_agg hc] at h1
    cases k with
    | tuple => exact absurd rfl hk.1
    | union => simp [after] at hj
    | struct =>
      simp only [after, firstField_covered hk.2.2, Option.ite_none_right_eq_some, Option.some.injEq] at hj
      obtain ⟨hlt, rfl⟩ := hj
      obtain ⟨⟨m, w⟩, hw⟩ := get_some hlt
      obtain ⟨rfl, -⟩ := coveredM_get hk.2.2 hw
      refine ⟨?_, ⟨w, by simp [sub, sub1, hw]⟩, by omega⟩
      simp [mk, h1, Iter.big, scan_covered hk.2.2 (Nat.le_of_lt hlt), createAt, hw, mk_nil]

theorem big_isFor {t it} (h : IsFor t it) : IsFor t it.big := by
  cases t <;> cases it <;> simp only [IsFor] at h ⊢ <;> try contradiction
  · simp [Iter.big]
  · obtain ⟨rfl, rfl⟩ := h; simp [Iter.big]
  · obtain ⟨rfl, rfl⟩ := h
    rename_i k ms cur a m
    cases k <;> simp [Iter.big]

theorem small_isFor {t it} (h : IsFor t it) : IsFor t it.small := by
  cases t with
  | sc a => cases it <;> simp only [IsFor] at h; simp [Iter.small, IsFor]
  | arr n t =>
    cases it <;> simp only [IsFor] at h
    simp only [Iter.small]
    split
    · exact h
    · exact big_isFor (by exact h)
  | agg k ms =>
    cases it with
    | agg k' ms' cur a m =>
      cases k' <;> simp only [Iter.small] <;> (try split) <;> first | exact h | exact big_isFor h
    | _ => simp only [IsFor] at h

theorem big_end {t i p u} (hc : covered t = true) (h : sub t (i :: p) = some u) (hj : after t i = none) :
    (mk t (i :: p)).big.ok = false := by
  simp only [sub, Option.bind_eq_some_iff] at h
  obtain ⟨v, h1, h2⟩ := h
  cases t with
  | sc a => simp [sub1] at h1
  | arr n t =>
    simp only [after, ite_eq_right_iff, reduceCtorEq, imp_false] at hj
    simp [mk, Iter.big, hj, Iter.ok]
  | agg k ms =>
    have hk := covered_agg hc
    rw [sub1_agg hc] at h1
    cases k with
    | tuple => exact absurd rfl hk.1
    | union => simp [mk, h1, Iter.big, Iter.ok]
    | struct =>
      simp only [after, firstField_covered hk.2.2, ite_eq_right_iff, reduceCtorEq, imp_false] at hj
      have hlt := get_lt h1
      have e : i + 1 = ms.len := by omega
      have hn : ms.get? ms.len = none := by
        cases e : ms.get? ms.len with
        | none => rfl
        | some x => exact absurd (get_lt e) (Nat.lt_irrefl _)
      simp [mk, h1, Iter.big, Iter.ok, e, scan_covered hk.2.2 (Nat.le_refl _), createAt, hn]

theorem fine_cons_of {t i u p} (h : sub1 t i = some u) (hp : p ≠ []) (hf : fine u p = true) :
    fine t (i :: p) = true := by
  cases t with
  | sc a => simp [sub1] at h
  | arr n t =>
    simp only [sub1, Option.ite_none_right_eq_some, Option.some.injEq] at h
    rw [h.2]; simpa [fine] using hf
  | agg k ms =>
    have : p.isEmpty = false := by cases p <;> simp_all
    simp [fine, h, this, hf]

theorem fine_one {t j} (h : 0 < j) : fine t [j] = true := by
  cases t with
  | sc a => rfl
  | arr n t => simp [fine]
  | agg k ms =>
    have : ¬ j = 0 := by omega
    simp only [fine, List.isEmpty_nil, Bool.and_true, Bool.and_eq_true, Bool.not_eq_true', beq_eq_false_iff_ne]
    refine ⟨this, ?_⟩
    split <;> rfl

/-- A small step from a scalar: the next subobject, or the end. -/
theorem small_mk : ∀ {p t a}, covered t = true → sub t p = some (.sc a) →
    (∀ q, succ t p = some q → (mk t p).small = mk t q ∧ (∃ v, sub t q = some v) ∧ fine t q = true ∧ q ≠ []) ∧
    (succ t p = none → (mk t p).small.ok = false)
  | [], t, a, hc, h => by
    simp only [sub, Option.some.injEq] at h
    subst h
    simp [succ, mk, create, Iter.small, Iter.ok]
  | i :: p, t, a, hc, h => by
    have h0 := h
    simp only [sub, Option.bind_eq_some_iff] at h
    obtain ⟨v, h1, h2⟩ := h
    have hv := sub1_covered hc h1
    obtain ⟨ih1, ih2⟩ := small_mk hv h2
    -- one step of the iterator in terms of the inner one
    have hstep : (mk t (i :: p)).small = if (mk v p).small.ok then
        (match t with
         | .arr n u => Iter.array u n i (mk v p).small
         | .agg k ms => Iter.agg k ms i false (mk v p).small
         | .sc _ => .null) else (mk t (i :: p)).big := by
      cases t with
      | sc a => simp [sub1] at h1
      | arr n t =>
        simp only [sub1, Option.ite_none_right_eq_some, Option.some.injEq] at h1
        obtain ⟨_, rfl⟩ := h1
        simp only [mk, Iter.small]
      | agg k ms =>
        have hk := (covered_agg hc).1
        have h1' := (sub1_agg hc).mp h1
        cases k with
        | tuple => exact absurd rfl hk
        | struct => simp only [mk, h1', Iter.small]
        | union => simp only [mk, h1', Iter.small]
    simp only [succ, h1, Option.bind_some]
    cases e : succ v p with
    | some p' =>
      obtain ⟨s1, ⟨w, s2⟩, s3, s4⟩ := ih1 p' e
      refine ⟨?_, by simp⟩
      intro q hq
      simp only [Option.some.injEq] at hq
      subst hq
      refine ⟨?_, ⟨w, by simp [sub, h1, s2]⟩, fine_cons_of h1 s4 s3, by simp⟩
      rw [hstep, s1, if_pos (mk_ok hv s2)]
      cases t with
      | sc a => simp [sub1] at h1
      | arr n t =>
        simp only [sub1, Option.ite_none_right_eq_some, Option.some.injEq] at h1
        obtain ⟨_, rfl⟩ := h1
        simp only [mk]
      | agg k ms =>
        rw [sub1_agg hc] at h1
        have : p'.isEmpty = false := by cases p' <;> simp_all
        simp [mk, h1, this]
    | none =>
      rw [hstep, ih2 e]
      simp only [Bool.false_eq_true, if_false]
      refine ⟨?_, ?_⟩
      · intro q hq
        simp only [Option.map_eq_some_iff] at hq
        obtain ⟨j, hj, rfl⟩ := hq
        obtain ⟨b1, b2, b3⟩ := big_mk hc h0 hj
        exact ⟨b1, b2, fine_one b3, by simp⟩
      · intro hn
        simp only [Option.map_eq_none_iff] at hn
        exact big_end hc h0 hn

/-! ## Whole initializers -/

theorem chain_sub : ∀ {t q u}, covered t = true → (q, u) ∈ chain t → sub t q = some u
  | .sc a, q, u, hc, h => by
    simp only [chain, List.mem_singleton, Prod.mk.injEq] at h
    obtain ⟨rfl, rfl⟩ := h
    rfl
  | .arr n t, q, u, hc, h => by
    simp only [chain, List.mem_map, Prod.mk.injEq, Prod.exists] at h
    obtain ⟨q', u', h, rfl, rfl⟩ := h
    simp only [covered, Bool.and_eq_true, decide_eq_true_eq] at hc
    simp [sub, sub1, hc.1, chain_sub hc.2 h]
  | .agg k .nil, q, u, hc, h => by simpa [Mems.len] using (covered_agg hc).2.1
  | .agg k (.cons m t ms), q, u, hc, h => by
    obtain ⟨-, -, hcm⟩ := covered_agg hc
    simp only [coveredM, Bool.and_eq_true, beq_iff_eq] at hcm
    obtain ⟨⟨rfl, ht⟩, _⟩ := hcm
    simp only [chain, chainHead, List.mem_cons, Prod.mk.injEq, List.mem_map, Prod.exists] at h
    rcases h with ⟨rfl, rfl⟩ | ⟨q', u', h, rfl, rfl⟩
    · rfl
    · simp [sub, sub1, Mems.get?, chain_sub ht h]

theorem cands_sub {t p} {k : Nat} {q u} (hc : covered t = true) (h : (cands t p)[k]? = some (q, u)) :
    (∃ r, q = p ++ r) ∧ sub t q = some u := by
  simp only [cands] at h
  cases e : sub t p with
  | none => simp [e] at h
  | some v =>
    rw [e] at h
    have hm := List.mem_of_getElem? h
    simp only [List.mem_map, Prod.mk.injEq, Prod.exists] at hm
    obtain ⟨r, u', h1, rfl, rfl⟩ := hm
    refine ⟨⟨r, rfl⟩, ?_⟩
    rw [sub_append, e]
    exact chain_sub (sub_covered hc e) h1

/-- The iterator and the position of C. -/
def Sync (t : Ty) (it : Iter) (pos : Option Path) (lost : Bool) : Prop :=
  IsFor t it ∧ (lost = false → ∀ p, pos = some p →
    it = mk t p ∧ (∃ u, sub t p = some u) ∧ fineTop t p = true ∧ (p = [] → ∃ a, t = .sc a))

theorem fineTop_of_fine {t p} (h : fine t p = true) : fineTop t p = true := by
  cases p with
  | nil => rfl
  | cons i p =>
    simp only [fineTop]
    split
    · next u hu =>
      cases t with
      | sc a => simp [sub1] at hu
      | arr n t =>
        simp only [sub1, Option.ite_none_right_eq_some, Option.some.injEq] at hu
        rw [← hu.2]; simpa [fine] using h
      | agg k ms => simp only [fine, hu, Bool.and_eq_true] at h; exact h.2
    · rfl

theorem sync_start {t} (hc : covered t = true) : Sync t (create t) (start t) false := by
  refine ⟨?_, ?_⟩
  · have := mk_isFor (p := []) hc rfl
    rwa [mk_nil] at this
  · intro _ p hp
    refine ⟨mk_start hc hp, ?_⟩
    cases t with
    | sc a => simp only [start, Option.some.injEq] at hp; subst hp; exact ⟨⟨_, rfl⟩, rfl, fun _ => ⟨a, rfl⟩⟩
    | arr n t =>
      simp only [start, Option.ite_none_right_eq_some, Option.some.injEq] at hp
      obtain ⟨h0, rfl⟩ := hp
      exact ⟨⟨t, by simp [sub, sub1, h0]⟩, by simp [fineTop, sub1, h0, fine], by simp⟩
    | agg k ms =>
      have hk := covered_agg hc
      simp only [start, firstField_covered hk.2.2, if_pos hk.2.1, Option.map_some, Option.some.injEq] at hp
      subst hp
      obtain ⟨⟨m, w⟩, hw⟩ := get_some hk.2.1
      obtain ⟨rfl, -⟩ := coveredM_get hk.2.2 hw
      refine ⟨⟨w, by simp [sub, sub1, hw]⟩, ?_, by simp⟩
      simp only [fineTop, sub1, hw]
      cases w <;> rfl

theorem after_lt {t i j} (hc : covered t = true) (h : after t i = some j) : 0 < j := by
  cases t with
  | sc a => simp [after] at h
  | arr n t => simp only [after, Option.ite_none_right_eq_some, Option.some.injEq] at h; omega
  | agg k ms =>
    have hk := covered_agg hc
    cases k with
    | tuple => exact absurd rfl hk.1
    | union => simp [after] at h
    | struct =>
      simp only [after, firstField_covered hk.2.2, Option.ite_none_right_eq_some, Option.some.injEq] at h
      omega

/-- After an expression. -/
theorem sync_expr {t it pos} {k : Nat} {q u p} (hc : covered t = true) (hs : Sync t it pos false) (hp : pos = some p)
    (hq : (cands t p)[k]? = some (q, u)) :
    it.options = cands t p ∧ it.setPos q = some (mk t q) ∧
      Sync t (mk t q).small (succ t q) (!isScalar u) := by
  obtain ⟨rfl, ⟨v, hv⟩, hf, h0⟩ := hs.2 rfl p hp
  obtain ⟨⟨r, rfl⟩, hu⟩ := cands_sub hc hq
  refine ⟨options_mk hc hv hf h0, setPos_seek hc hv hu (seek_append hu), small_isFor (mk_isFor hc hu), ?_⟩
  intro hl p' hp'
  cases u with
  | sc a =>
    obtain ⟨s1, s2, s3, s4⟩ := (small_mk hc hu).1 p' hp'
    exact ⟨s1, s2, fineTop_of_fine s3, fun e => absurd e s4⟩
  | arr n t => simp [isScalar] at hl
  | agg k ms => simp [isScalar] at hl

/-- A braced list. -/
theorem sync_list {t it pos p u} (hc : covered t = true) (hs : Sync t it pos false) (hp : pos = some p)
    (hsh : short p = true) (hu : sub t p = some u) :
    it.getNext = some u ∧ Sync t it.big (succ t p) false := by
  obtain ⟨rfl, _, hf, h0⟩ := hs.2 rfl p hp
  match p, hsh with
  | [], _ =>
    obtain ⟨a, rfl⟩ := h0 rfl
    simp only [sub, Option.some.injEq] at hu
    subst hu
    refine ⟨by simp [mk, create, Iter.getNext], ?_, ?_⟩
    · simp [mk, create, Iter.big, IsFor]
    · simp [succ]
  | [i], _ =>
    have h1 : sub1 t i = some u := by
      simp only [sub] at hu
      cases e : sub1 t i with
      | none => simp [e] at hu
      | some w => simpa [e] using hu
    refine ⟨?_, big_isFor (mk_isFor hc hu), ?_⟩
    · have hcu := sub1_covered hc h1
      cases t with
      | sc a => simp [sub1] at h1
      | arr n t =>
        simp only [sub1, Option.ite_none_right_eq_some, Option.some.injEq] at h1
        simp [mk, Iter.getNext, h1.2]
      | agg k ms =>
        rw [sub1_agg hc] at h1
        simp only [mk, h1, Iter.getNext, mk_nil, create_ok hcu, if_true]
        cases u <;> simp [create, Iter.getType]
    · intro _ p' hp'
      simp only [succ, h1, Option.bind_some] at hp'
      simp only [Option.map_eq_some_iff] at hp'
      obtain ⟨j, hj, rfl⟩ := hp'
      obtain ⟨b1, b2, b3⟩ := big_mk hc hu hj
      exact ⟨b1, b2, fineTop_of_fine (fine_one b3), by simp⟩
  | _ :: _ :: _, h => simp [short] at h

theorem getType_isFor {t it} (h : IsFor t it) : it.getType = some t ∨ (∃ a, t = .sc a) := by
  cases t with
  | sc a => exact .inr ⟨a, rfl⟩
  | arr n t =>
    cases it <;> simp only [IsFor] at h
    obtain ⟨rfl, rfl⟩ := h
    exact .inl rfl
  | agg k ms =>
    cases it <;> simp only [IsFor] at h
    obtain ⟨rfl, rfl⟩ := h
    exact .inl rfl

/-- A designation. -/
theorem sync_desig {t it pos lost d u} (hc : covered t = true) (hs : Sync t it pos lost) (hd : d ≠ [])
    (hu : sub t d = some u) (hf : fineTop t d = true)
    (ht : jump t pos lost d = true) :
    findNext it d = some (mk t d) ∧ Sync t (mk t d) (some d) false := by
  have hsync : Sync t (mk t d) (some d) false := by
    refine ⟨mk_isFor hc hu, fun _ p hp => ?_⟩
    simp only [Option.some.injEq] at hp
    subst hp
    exact ⟨rfl, ⟨u, hu⟩, hf, fun e => absurd e hd⟩
  refine ⟨?_, hsync⟩
  have hsome : it.getType = some t := by
    rcases getType_isFor hs.1 with h | ⟨a, rfl⟩
    · exact h
    · cases d with
      | nil => exact absurd rfl hd
      | cons i d => simp [sub, sub1] at hu
  simp only [findNext, hsome, designates_of_sub hc hu, if_true]
  cases t with
  | sc a =>
    cases d with
    | nil => exact absurd rfl hd
    | cons i d => simp [sub, sub1] at hu
  | arr n t =>
    cases pos with
    | none => simp [jump] at ht
    | some p =>
      simp only [jump, Bool.and_eq_true, Bool.not_eq_true'] at ht
      obtain ⟨rfl, ht⟩ := ht
      obtain ⟨rfl, ⟨v, hv⟩, _⟩ := hs.2 rfl p rfl
      exact setPos_seek hc hv hu ht
  | agg k ms =>
    cases d with
    | nil => exact absurd rfl hd
    | cons i d => exact setPos_agg hc hs.1 hu

theorem findNext_nil {t it} (h : IsFor t it) : findNext it [] = some it := by
  have : it.setPos [] = some it := by
    cases it with
    | null => cases t <;> simp [IsFor] at h
    | agg k _ _ _ _ => cases k <;> simp [Iter.setPos]
    | _ => simp [Iter.setPos]
  unfold findNext
  split
  · next t' _ => cases t' <;> simp [designates, this]
  · simp [this]

mutual
theorem run_sync : ∀ {i t it pos lost pos' obs}, covered t = true → Sync t it pos lost →
    tame t pos lost i = true → spec t pos i = some (pos', obs) →
    ∃ it', run it i = some (it', obs) ∧
      Sync t it' pos' (match i with
        | .expr k => (match pos with
          | some p => (match (cands t p)[k]? with | some (_, u) => !isScalar u | none => false)
          | none => false)
        | .list _ => false)
  | .expr k, t, it, pos, lost, pos', obs, hc, hs, ht, h => by
    simp only [tame, Bool.not_eq_true'] at ht
    subst ht
    simp only [spec] at h
    cases pos with
    | none => simp at h
    | some p =>
      simp only at h
      cases e : (cands t p)[k]? with
      | none => simp [e] at h
      | some qu =>
        obtain ⟨q, u⟩ := qu
        simp only [e, Option.some.injEq, Prod.mk.injEq] at h
        obtain ⟨rfl, rfl⟩ := h
        obtain ⟨s1, s2, s3⟩ := sync_expr hc hs rfl e
        refine ⟨(mk t q).small, ?_, ?_⟩
        · simp only [run, s1, e, s2]
        · simp only [e]; exact s3
  | .list is, t, it, pos, lost, pos', obs, hc, hs, ht, h => by
    simp only [tame, Bool.and_eq_true, Bool.not_eq_true'] at ht
    obtain ⟨rfl, ht⟩ := ht
    simp only [spec] at h
    cases pos with
    | none => simp at h
    | some p =>
      simp only [Bool.and_eq_true] at h ht
      cases e : sub t p with
      | none => simp [e] at h
      | some u =>
        simp only [e, Option.map_eq_some_iff, Prod.mk.injEq] at h ht
        obtain ⟨obs', h, rfl, rfl⟩ := h
        obtain ⟨s1, s2⟩ := sync_list hc hs rfl ht.1 e
        have hcu := sub_covered hc e
        have := runs_sync hcu (sync_start hcu) ht.2 h
        exact ⟨it.big, by simp only [run, s1, this], s2⟩
theorem runs_sync : ∀ {is t it pos lost obs}, covered t = true → Sync t it pos lost →
    tames t pos lost is = true → specs t pos is = some obs → runs it is = some obs
  | .nil, t, it, pos, lost, obs, hc, hs, ht, h => by
    simp only [specs, Option.some.injEq] at h
    subst h
    simp only [runs]
  | .cons d i is, t, it, pos, lost, obs, hc, hs, ht, h => by
    simp only [tames, Bool.and_eq_true] at ht
    obtain ⟨⟨ht1, ht2⟩, ht3⟩ := ht
    simp only [specs] at h
    -- the designation
    obtain ⟨it1, hf, hs1⟩ : ∃ it1, findNext it d = some it1 ∧
        Sync t it1 (if d.isEmpty then pos else if (sub t d).isSome then some d else none) (lost && d.isEmpty) := by
      cases d with
      | nil => exact ⟨it, findNext_nil hs.1, by simpa using hs⟩
      | cons j d =>
        simp only [List.isEmpty_cons, Bool.false_or, Bool.and_eq_true, Bool.false_eq_true, if_false,
          Bool.and_false] at ht1 h ⊢
        cases e : sub t (j :: d) with
        | none =>
          simp only [e, Option.isSome_none, Bool.false_eq_true, if_false] at h
          exfalso
          cases i <;> simp [spec] at h
        | some u =>
          obtain ⟨d1, d2⟩ := sync_desig hc hs (by simp) e ht1.1 ht1.2
          exact ⟨_, d1, by simpa using d2⟩
    generalize (if d.isEmpty then pos else if (sub t d).isSome then some d else none) = pos1 at h ht2 ht3 hs1
    cases e : spec t pos1 i with
    | none => simp [e] at h
    | some x =>
      obtain ⟨pos2, obs1⟩ := x
      simp only [e, Option.map_eq_some_iff] at h
      obtain ⟨obs2, h, rfl⟩ := h
      obtain ⟨it2, r1, r2⟩ := run_sync hc hs1 ht2 e
      simp only [runs, hf, r1, Option.map_eq_some_iff]
      refine ⟨obs2, ?_, rfl⟩
      cases i with
      | expr k =>
        simp only [spec] at e
        cases pos1 with
        | none => simp at e
        | some p =>
          simp only at e r2 ht3
          cases e2 : (cands t p)[k]? with
          | none => simp [e2] at e
          | some qu =>
            obtain ⟨q, u⟩ := qu
            simp only [e2, Option.some.injEq, Prod.mk.injEq] at e r2 ht3
            obtain ⟨rfl, rfl⟩ := e
            exact runs_sync hc r2 ht3 h
      | list is' =>
        simp only [spec] at e
        cases pos1 with
        | none => simp at e
        | some p =>
          simp only at e r2 ht3
          cases e2 : sub t p with
          | none => simp [e2] at e
          | some u =>
            simp only [e2, Option.map_eq_some_iff, Prod.mk.injEq] at e
            obtain ⟨_, _, rfl, rfl⟩ := e
            exact runs_sync hc r2 ht3 h
end

theorem resolve_sync {t i obs} (hc : covered t = true) (ht : tameDecl t i = true)
    (h : specDecl t i = some obs) : resolve t i = some obs := by
  cases i with
  | expr k =>
    simp only [specDecl, Option.ite_none_right_eq_some, Option.some.injEq] at h
    obtain ⟨rfl, rfl⟩ := h
    simp [resolve, run, Iter.options, Iter.first, Iter.setPos]
  | list is =>
    simp only [specDecl, Option.map_eq_some_iff] at h
    obtain ⟨obs', h, rfl⟩ := h
    have := runs_sync hc (sync_start hc) ht h
    simp [resolve, run, Iter.getNext, this]

end InitCursor
