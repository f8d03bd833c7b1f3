import Mathlib.Data.List.Induction
import Verif.Proof.Symbols
import Verif.Spec.Special
/-! Proofs for C100: the functions of one kind for one key. -/
namespace Verif.Symbols

theorem specialKind_iff (n : String) (s : SKind) : specialKind n = some s ↔ n = s.name := by
  unfold specialKind SKind.name
  constructor
  · repeat' split
    all_goals simp_all
  · intro h; subst h; cases s <;> decide

/-- The functions of kind `s` with key `key` in the table. -/
def SymTab.group (T : SymTab) (s : SKind) (key : String) : Map IdData := ((T.cur.t.special s).find key).getD []

theorem apply_eq {T T' : SymTab} {o : Out} (h : apply T o = some T') :
    T'.cur.scope = T.cur.scope ∧ ((o = .same ∧ T' = T) ∨ ∃ t, o = .put t ∧ T'.cur.t = t) := by
  cases o with
  | error => simp [apply] at h
  | same => simp [apply] at h; subst h; simp
  | put t =>
    simp only [apply, Option.some.injEq] at h
    subst h
    refine ⟨?_, .inr ⟨t, rfl, rfl⟩⟩
    unfold lazyInitScope
    split <;> rfl

/-- What the declaration of one of these functions does to them. -/
inductive Added (k : Nat) (m : Map IdData) (d : IdD) : Map IdData → Prop where
  | same (e : IdData) : m.find d.mangled = some e → e.id.user → (d.deleted = true ↔ e.deleter.isSome = true) → Added k m d m
  | drop : (∀ e, m.find d.mangled = some e → e.scope = k → e.id.given) → removeSpecialOverrides ⟨d, none, if d.deleted then some d.id else none, k⟩ m = none → Added k m d m
  | put (data : IdData) (m1 : Map IdData) : (∀ e, m.find d.mangled = some e → e.scope = k → e.id.given) →
      removeSpecialOverrides ⟨d, none, if d.deleted then some d.id else none, k⟩ m = some (data, m1) → Added k m d (m1.set d.mangled data)

theorem group_setTable (t : Tables) (s s' : SKind) (key key' : String) (m : Map IdData) :
    (((setTable t ((tableOf t (some s')).set key' m) (some s')).special s).find key).getD [] =
      if s = s' ∧ key = key' then m else ((t.special s).find key).getD [] := by
  unfold setTable tableOf
  by_cases hs : s = s'
  · subst hs
    by_cases hk : key = key'
    · subst hk; simp [find_set]
    · simp [find_set, hk]
  · simp [hs]

theorem step_here {E : Env} (hE : E.strict = true) {T T' : SymTab} {d : IdD} {s : SKind} {key : String} (h : step E T (.id d) = some T') (hs : specialKind d.name = some s) (hk : d.key = key) :
    T'.cur.scope = T.cur.scope ∧ Added T.cur.scope (T.group s key) d (T'.group s key) := by
  obtain ⟨h1, h2⟩ := apply_eq h
  refine ⟨h1, ?_⟩
  have hne : d.name ≠ "" := by
    intro he; rw [he] at hs; simp [specialKind] at hs
  clear h h1
  subst hk
  have hg : ∀ T : SymTab, ((tableOf T.cur.t (some s)).find d.key).getD [] = T.group s d.key := fun _ => rfl
  generalize hdel : (if d.deleted then some d.id else none) = del at *
  have hdel' : del.isSome = d.deleted := by
    rw [← hdel]; cases d.deleted <;> rfl
  have hnew : ∀ o : Out, (o = .same ∧ T' = T ∨ ∃ t, o = .put t ∧ T'.cur.t = t) →
      (o = (match removeSpecialOverrides ⟨d, none, del, T.cur.scope⟩ (T.group s d.key) with
        | none => .put T.cur.t
        | some (data, m) => .put (setTable T.cur.t ((tableOf T.cur.t (some s)).set d.key (m.set d.mangled data)) (some s)))) →
      (∀ e, (T.group s d.key).find d.mangled = some e → e.scope = T.cur.scope → e.id.given) →
      Added T.cur.scope (T.group s d.key) d (T'.group s d.key) := by
    intro o ho ho' hu
    cases hr : removeSpecialOverrides ⟨d, none, del, T.cur.scope⟩ (T.group s d.key) with
    | none =>
      rw [hr] at ho'
      simp only at ho'
      subst ho'
      rcases ho with ⟨h, _⟩ | ⟨t, h, h'⟩
      · simp at h
      · have : T'.group s d.key = T.group s d.key := by
          unfold SymTab.group
          rw [h', ← Out.put.inj h]
        rw [this]
        exact .drop hu (by rw [hdel]; exact hr)
    | some p =>
      obtain ⟨data, m⟩ := p
      rw [hr] at ho'
      simp only at ho'
      subst ho'
      rcases ho with ⟨h, _⟩ | ⟨t, h, h'⟩
      · simp at h
      · have : T'.group s d.key = m.set d.mangled data := by
          unfold SymTab.group
          rw [h', ← Out.put.inj h, group_setTable, if_pos ⟨rfl, rfl⟩]
        rw [this]
        exact .put data m hu (by rw [hdel]; exact hr)
  unfold addId addIdToTable at h2
  simp only [hs, hdel, Option.isNone_some, Bool.false_eq_true, if_false, hne, hg] at h2
  split at h2
  · simp at h2
  · split at h2
    · simp at h2
    · cases hf : (T.group s d.key).find d.mangled with
      | none =>
        rw [hf] at h2
        exact hnew _ h2 rfl (by intro e he; rw [hf] at he; simp at he)
      | some e =>
        rw [hf] at h2
        simp only at h2
        by_cases hsc : e.scope = T.cur.scope
        · rw [if_pos hsc] at h2
          unfold addedIdConflicts at h2
          simp only [hE, Option.isNone_none, Bool.and_self, if_true] at h2
          by_cases ho : e.id.linkage.overrideable = true
          · simp only [ho, if_true] at h2
            refine hnew _ h2 rfl ?_
            intro e' he'
            rw [hf] at he'
            rw [← Option.some.inj he']
            intro _; exact ho
          · simp only [ho, Bool.false_eq_true, if_false] at h2
            have hsame : T' = T ∧ (d.deleted = true ↔ e.deleter.isSome = true) := by
              rw [← hdel']
              revert h2
              cases del <;> cases e.deleter <;> simp <;> repeat' split <;> simp_all
            rw [hsame.1]
            exact .same e hf (by unfold IdD.user; simpa using ho) hsame.2
        · rw [if_neg hsc] at h2
          refine hnew _ h2 rfl ?_
          intro e' he' hsc'
          rw [hf] at he'
          rw [← Option.some.inj he'] at hsc'
          exact absurd hsc' hsc

/-- An operation that declares none of these functions. -/
def other (s : SKind) (key : String) : Op → Prop
  | .type _ => True
  | .tag _ _ => True
  | .id d => ¬ (specialKind d.name = some s ∧ d.key = key)
  | _ => False

theorem step_other {E : Env} {T T' : SymTab} {op : Op} {s : SKind} {key : String} (h : step E T op = some T')
    (hop : other s key op) :
    T'.cur.scope = T.cur.scope ∧ T'.group s key = T.group s key := by
  have keep : ∀ o : Out, apply T o = some T' → (∀ t, o = .put t → ((t.special s).find key).getD [] = ((T.cur.t.special s).find key).getD []) →
      T'.cur.scope = T.cur.scope ∧ T'.group s key = T.group s key := by
    intro o ho hp
    obtain ⟨h1, h2⟩ := apply_eq ho
    refine ⟨h1, ?_⟩
    rcases h2 with ⟨_, h2⟩ | ⟨t, h2, h3⟩
    · rw [h2]
    · unfold SymTab.group
      rw [h3]; exact hp t h2
  cases op with
  | enter => exact hop.elim
  | leave => exact hop.elim
  | withs _ _ => exact hop.elim
  | type d =>
    refine keep _ h ?_
    intro t ht
    unfold addType at ht
    simp only at ht
    repeat' split at ht
    all_goals (first | (injection ht with ht; subst ht; rfl) | simp at ht)
  | tag kind d =>
    refine keep _ h ?_
    intro t ht
    unfold addTag at ht
    simp only at ht
    repeat' split at ht
    all_goals (first | (injection ht with ht; subst ht; rfl) | simp at ht)
  | id d =>
    refine keep _ h ?_
    intro t ht
    have hset : ∀ m key', (key' = if (specialKind d.name).isNone then d.name else d.key) →
        (((setTable T.cur.t ((tableOf T.cur.t (specialKind d.name)).set key' m) (specialKind d.name)).special s).find key).getD [] = ((T.cur.t.special s).find key).getD [] := by
      intro m key' hk'
      subst hk'
      cases hk : specialKind d.name with
      | none => rfl
      | some s' =>
        rw [other, hk] at hop
        simp only [Option.isNone_some, Bool.false_eq_true, if_false]
        rw [group_setTable, if_neg]
        rintro ⟨a, b⟩
        exact hop ⟨by rw [a], b.symm⟩
    unfold addId at ht
    generalize (if d.deleted then some d.id else none) = del at ht
    unfold addIdToTable at ht
    simp only at ht
    repeat' split at ht
    all_goals (first | (injection ht with ht; subst ht; first | rfl | exact hset _ _ (by simp_all)) | simp at ht)

/-! ### The invariant -/

structure SInv (k : Nat) (ds : List IdD) (m : Map IdData) : Prop where
  mem : ∀ q ∈ m, q.2.id ∈ ds ∧ q.1 = q.2.id.mangled ∧ q.2.scope = k
  keys : Keys m
  user : ∀ d ∈ ds, d.user → ∃ q ∈ m, q.1 = d.mangled ∧ q.2.id.user ∧ (q.2.deleter.isSome = true ↔ d.deleted = true)
  gen : ∀ q ∈ m, q.2.id.given → ((q.2.deleter.isSome = true ↔ Withdrawn ds q.2.id) ∧ (q.2.id.copy = true → ¬ Withdrawn ds q.2.id))
  has : ∀ d ∈ ds, d.given → (∀ u ∈ ds, u.user → u.mangled ≠ d.mangled) → (d.copy = true → ¬ Withdrawn ds d) → ∃ q ∈ m, q.1 = d.mangled ∧ q.2.id.given

theorem Keys.uniq {α : Type} {m : Map α} (h : Keys m) {p q : String × α} (hp : p ∈ m) (hq : q ∈ m) (he : p.1 = q.1) : p = q := by
  obtain ⟨a, b⟩ := p
  obtain ⟨c, e⟩ := q
  simp only at he
  subst he
  have h1 := (h.mem a b).1 hp
  have h2 := (h.mem a e).1 hq
  rw [h1] at h2
  rw [Option.some.inj h2]

theorem user_or_given (d : IdD) : d.user ∨ d.given := by
  unfold IdD.user IdD.given; cases d.linkage.overrideable <;> simp

theorem not_both {d : IdD} (h : d.user) (h' : d.given) : False := by
  unfold IdD.user at h; unfold IdD.given at h'; rw [h] at h'; simp at h'

theorem withdrawn_append (ds : List IdD) (d x : IdD) :
    Withdrawn (ds ++ [d]) x ↔ Withdrawn ds x ∨ (x.linkage.intrinsic = false ∧ d.user ∧ d.otype = x.otype ∧ (x.copy = true → d.copy = true)) := by
  unfold Withdrawn
  constructor
  · rintro ⟨h0, u, hu, h⟩
    rcases List.mem_append.1 hu with hu | hu
    · exact .inl ⟨h0, u, hu, h⟩
    · rw [List.mem_singleton] at hu; subst hu; exact .inr ⟨h0, h⟩
  · rintro (⟨h0, u, hu, h⟩ | ⟨h0, h⟩)
    · exact ⟨h0, u, List.mem_append_left _ hu, h⟩
    · exact ⟨h0, d, by simp, h⟩

theorem withdrawn_congr {ds : List IdD} {x y : IdD} (h1 : x.otype = y.otype) (h2 : x.copy = y.copy) (h3 : x.linkage.intrinsic = y.linkage.intrinsic) : Withdrawn ds x ↔ Withdrawn ds y := by
  unfold Withdrawn; rw [h1, h2, h3]

theorem mem_set {α : Type} (m : Map α) (k : String) (v : α) (q : String × α) : q ∈ m.set k v ↔ q = (k, v) ∨ (q ∈ m ∧ q.1 ≠ k) := by
  unfold Map.set
  simp

/-- A declaration that is added to the ones that are left. -/
theorem SInv.put {k : Nat} {ds : List IdD} {m m1 : Map IdData} {d : IdD} {data : IdData} (h : SInv k ds m) (hw : WellMade (ds ++ [d]))
    (hno : ∀ q ∈ m, q.1 = d.mangled → q.2.id.given)
    (hd : data.id = d ∧ data.scope = k) (hdu : d.user → (data.deleter.isSome = true ↔ d.deleted = true))
    (hdg : d.given → ((data.deleter.isSome = true ↔ Withdrawn (ds ++ [d]) d) ∧ (d.copy = true → ¬ Withdrawn (ds ++ [d]) d)))
    (hk : Keys m1)
    (hm1 : ∀ q ∈ m1, ∃ q0 ∈ m, q0.1 = q.1 ∧ q0.2.id = q.2.id ∧ q0.2.scope = q.2.scope ∧
      (q.2.id.given → ((q.2.deleter.isSome = true ↔ Withdrawn (ds ++ [d]) q.2.id) ∧ (q.2.id.copy = true → ¬ Withdrawn (ds ++ [d]) q.2.id))))
    (hmu : ∀ q ∈ m, q.2.id.user → q ∈ m1)
    (hmg : ∀ q ∈ m, q.2.id.given → (q.2.id.copy = true → ¬ Withdrawn (ds ++ [d]) q.2.id) → ∃ q' ∈ m1, q'.1 = q.1 ∧ q'.2.id = q.2.id) :
    SInv k (ds ++ [d]) (m1.set d.mangled data) where
  mem := by
    intro q hq
    rcases (mem_set _ _ _ _).1 hq with hq | ⟨hq, _⟩
    · subst hq; simp [hd.1, hd.2]
    · obtain ⟨q0, h0, e1, e2, e3, _⟩ := hm1 q hq
      obtain ⟨a, b, c⟩ := h.mem q0 h0
      rw [← e1, ← e2, ← e3]
      exact ⟨List.mem_append_left _ a, b, c⟩
  keys := hk.set _ _
  user := by
    intro u hu huu
    by_cases hx : u.mangled = d.mangled
    · rcases user_or_given d with hdu' | hdg'
      · refine ⟨_, (mem_set _ _ _ _).2 (.inl rfl), hx.symm, by rw [hd.1]; exact hdu', ?_⟩
        rcases List.mem_append.1 hu with hu | hu
        · obtain ⟨q, hq, e1, e2, e3⟩ := h.user u hu huu
          exact (not_both e2 (hno q hq (by rw [e1, hx]))).elim
        · rw [List.mem_singleton] at hu; subst hu; exact hdu hdu'
      · rcases List.mem_append.1 hu with hu | hu
        · obtain ⟨q, hq, e1, e2, e3⟩ := h.user u hu huu
          exact (not_both e2 (hno q hq (by rw [e1, hx]))).elim
        · rw [List.mem_singleton] at hu; subst hu; exact (not_both huu hdg').elim
    · rcases List.mem_append.1 hu with hu | hu
      · obtain ⟨q, hq, e1, e2, e3⟩ := h.user u hu huu
        exact ⟨q, (mem_set _ _ _ _).2 (.inr ⟨hmu q hq e2, by rw [e1]; exact hx⟩), e1, e2, e3⟩
      · rw [List.mem_singleton] at hu; subst hu; exact absurd rfl hx
  gen := by
    intro q hq hg
    rcases (mem_set _ _ _ _).1 hq with hq | ⟨hq, _⟩
    · subst hq
      simp only [hd.1] at hg ⊢
      exact hdg hg
    · obtain ⟨q0, _, _, _, _, e⟩ := hm1 q hq
      exact e hg
  has := by
    intro x hx hxg hxu hxc
    by_cases he : x.mangled = d.mangled
    · rcases user_or_given d with hdu' | hdg'
      · exact absurd he.symm (hxu d (by simp) hdu')
      · exact ⟨_, (mem_set _ _ _ _).2 (.inl rfl), he.symm, by rw [hd.1]; exact hdg'⟩
    · rcases List.mem_append.1 hx with hx | hx
      · obtain ⟨q, hq, e1, e2⟩ := h.has x hx hxg (fun u hu => hxu u (List.mem_append_left _ hu)) (fun hc hw' => hxc hc ((withdrawn_append _ _ _).2 (.inl hw')))
        obtain ⟨e3, e4, _⟩ := h.mem q hq
        obtain ⟨s1, s2, s3⟩ := hw.same q.2.id (List.mem_append_left _ e3) x (List.mem_append_left _ hx) (by rw [← e4, e1])
        obtain ⟨q', hq', f1, f2⟩ := hmg q hq e2 (by rw [s2, withdrawn_congr s1 s2 (s3 e2 hxg)]; exact hxc)
        exact ⟨q', (mem_set _ _ _ _).2 (.inr ⟨hq', by rw [f1, e1]; exact he⟩), by rw [f1, e1], by rw [f2]; exact e2⟩
      · rw [List.mem_singleton] at hx; subst hx; exact absurd rfl he

theorem keys_map_snd {m : Map IdData} (h : Keys m) (f : IdData → IdData) (p : IdData → Bool) : Keys (List.map (fun q => if p q.2 then (q.1, f q.2) else q) m) := by
  unfold Keys at *
  rw [List.map_map]
  have : (Prod.fst ∘ fun q : String × IdData => if p q.2 then (q.1, f q.2) else q) = Prod.fst := by
    funext q; simp only [Function.comp]; split <;> rfl
  rw [this]; exact h

theorem keys_filter {m : Map IdData} (h : Keys m) (p : String × IdData → Bool) : Keys (List.filter p m) :=
  List.Sublist.nodup (List.Sublist.map _ List.filter_sublist) h

theorem keys_deleteWhere {m : Map IdData} (h : Keys m) (p : IdData → Bool) (b : Nat) : Keys (deleteWhere m p b) := keys_map_snd h (fun e => { e with deleter := some b }) p

theorem mem_deleteWhere {m : Map IdData} {p : IdData → Bool} {b : Nat} {q : String × IdData} :
    q ∈ deleteWhere m p b ↔ ∃ q0 ∈ m, q = if p q0.2 then (q0.1, { q0.2 with deleter := some b }) else q0 := by
  unfold deleteWhere
  simp only [List.mem_map]
  constructor
  · rintro ⟨a, b, c⟩; exact ⟨a, b, c.symm⟩
  · rintro ⟨a, b, c⟩; exact ⟨a, b, c.symm⟩

theorem withdrawn_same {ds : List IdD} {d : IdD} (h : d.user → ∃ u ∈ ds, u.user ∧ u.otype = d.otype ∧ (d.copy = true → u.copy = true)) (x : IdD) : Withdrawn (ds ++ [d]) x ↔ Withdrawn ds x := by
  rw [withdrawn_append]
  constructor
  · rintro (h' | ⟨a, b, c, e⟩)
    · exact h'
    · obtain ⟨u, hu, h1, h2, h3⟩ := h b
      exact ⟨a, u, hu, h1, by rw [h2, c], fun hx => h3 (e hx)⟩
  · exact .inl

/-- Nothing is changed: the declaration repeats one, or is left out. -/
theorem SInv.unchanged {k : Nat} {ds : List IdD} {m : Map IdData} {d : IdD} (h : SInv k ds m)
    (hs : d.user → ∃ u ∈ ds, u.user ∧ u.otype = d.otype ∧ (d.copy = true → u.copy = true))
    (hu : d.user → ∃ q ∈ m, q.1 = d.mangled ∧ q.2.id.user ∧ (q.2.deleter.isSome = true ↔ d.deleted = true))
    (hg : d.given → (∀ u ∈ ds, u.user → u.mangled ≠ d.mangled) → (d.copy = true → ¬ Withdrawn ds d) → ∃ q ∈ m, q.1 = d.mangled ∧ q.2.id.given) : SInv k (ds ++ [d]) m where
  mem := fun q hq => ⟨List.mem_append_left _ (h.mem q hq).1, (h.mem q hq).2⟩
  keys := h.keys
  user := by
    intro u hu' huu
    rcases List.mem_append.1 hu' with hu' | hu'
    · exact h.user u hu' huu
    · rw [List.mem_singleton] at hu'; subst hu'; exact hu huu
  gen := by
    intro q hq hg'
    rw [withdrawn_same hs]
    exact h.gen q hq hg'
  has := by
    intro x hx hxg hxu hxc
    rw [withdrawn_same hs] at hxc
    rcases List.mem_append.1 hx with hx | hx
    · exact h.has x hx hxg (fun u hu => hxu u (List.mem_append_left _ hu)) hxc
    · rw [List.mem_singleton] at hx; subst hx
      exact hg hxg (fun u hu => hxu u (List.mem_append_left _ hu)) hxc

/-- The map is left as it is and the declaration is put into it. -/
theorem SInv.put_only {k : Nat} {ds : List IdD} {m : Map IdData} {d : IdD} {data : IdData} (h : SInv k ds m) (hw : WellMade (ds ++ [d]))
    (hno : ∀ q ∈ m, q.1 = d.mangled → q.2.id.given)
    (hd : data.id = d ∧ data.scope = k) (hdu : d.user → (data.deleter.isSome = true ↔ d.deleted = true))
    (hdg : d.given → ((data.deleter.isSome = true ↔ Withdrawn ds d) ∧ (d.copy = true → ¬ Withdrawn ds d)))
    (hs : ∀ q ∈ m, q.2.id.given → (Withdrawn (ds ++ [d]) q.2.id ↔ Withdrawn ds q.2.id)) :
    SInv k (ds ++ [d]) (m.set d.mangled data) := by
  refine h.put hw hno hd hdu ?_ h.keys ?_ (fun q hq _ => hq) (fun q hq _ _ => ⟨q, hq, rfl, rfl⟩)
  · intro hg
    rw [withdrawn_same (fun hu => (not_both hu hg).elim)]
    exact hdg hg
  · intro q hq
    refine ⟨q, hq, rfl, rfl, rfl, ?_⟩
    intro hg
    rw [hs q hq hg]
    exact h.gen q hq hg

theorem here_iff {m : Map IdData} {o : String} {p : IdData → Bool} :
    m.any (fun q => isFor o q.2 && p q.2) = true ↔ ∃ q ∈ m, q.2.id.func = true ∧ q.2.id.otype = o ∧ p q.2 = true := by
  simp only [List.any_eq_true, isFor, Bool.and_eq_true, beq_iff_eq, and_assoc]

theorem SInv.step {k : Nat} {ds : List IdD} {m m' : Map IdData} {d : IdD} (h : SInv k ds m) (hw : WellMade (ds ++ [d])) (hb : NoCopyOfBuiltin (ds ++ [d])) (ha : Added k m d m') :
    SInv k (ds ++ [d]) m' := by
  have hdm : d ∈ ds ++ [d] := by simp
  have hfunc : ∀ q ∈ m, q.2.id.func = true := fun q hq => hw.func _ (List.mem_append_left _ (h.mem q hq).1)
  have hno : (∀ e, m.find d.mangled = some e → e.scope = k → e.id.given) → ∀ q ∈ m, q.1 = d.mangled → q.2.id.given := by
    intro hn q hq he
    refine hn q.2 ?_ (h.mem q hq).2.2
    rw [← he]
    exact (h.keys.mem q.1 q.2).1 hq
  have hanyU : m.any (fun q => isFor d.otype q.2 && !q.2.id.linkage.overrideable) = true → ∃ u ∈ ds, u.user ∧ u.otype = d.otype := by
    intro h'
    obtain ⟨q, hq, _, b, c⟩ := here_iff (p := fun e => !e.id.linkage.overrideable).1 h'
    exact ⟨q.2.id, (h.mem q hq).1, by simpa [IdD.user] using c, b⟩
  have hanyU' : ∀ u ∈ ds, u.user → u.otype = d.otype → ∃ q ∈ m, isFor d.otype q.2 = true ∧ q.2.id.linkage.overrideable = false ∧ q.2.id.copy = u.copy := by
    intro u hu huu huo
    obtain ⟨q, hq, a, b, _⟩ := h.user u hu huu
    obtain ⟨c1, c2, _⟩ := h.mem q hq
    obtain ⟨s1, s2, _⟩ := hw.same q.2.id (List.mem_append_left _ c1) u (List.mem_append_left _ hu) (by rw [← c2, a])
    exact ⟨q, hq, by simp [isFor, hfunc q hq, s1, huo], b, s2⟩
  have hdel : ∀ (data : IdData), data = ⟨d, none, if d.deleted then some d.id else none, k⟩ → (data.deleter.isSome = true ↔ d.deleted = true) := by
    intro data hd; subst hd; cases d.deleted <;> simp
  cases ha with
  | same e he hu hc =>
    have hq : (d.mangled, e) ∈ m := (h.keys.mem _ _).2 he
    obtain ⟨c1, c2, _⟩ := h.mem _ hq
    obtain ⟨s1, s2, _⟩ := hw.same e.id (List.mem_append_left _ c1) d hdm c2.symm
    refine h.unchanged (fun _ => ⟨e.id, c1, hu, s1, by rw [s2]; exact id⟩) (fun _ => ⟨_, hq, rfl, hu, hc.symm⟩) ?_
    intro _ hx _
    exact absurd c2.symm (hx _ c1 hu)
  | drop hn hr =>
    unfold removeSpecialOverrides at hr
    simp only [hw.func d hdm, Bool.true_eq_false, if_false] at hr
    have hx : d.given ∧ d.linkage.intrinsic = false ∧ d.copy = true ∧ m.any (fun q => isFor d.otype q.2 && !q.2.id.linkage.overrideable && q.2.id.copy) = true := by
      revert hr
      unfold IdD.given
      cases d.linkage.overrideable <;> cases d.linkage.intrinsic <;> cases d.copy <;> simp <;> repeat' split
      all_goals (first | (intro a b c e f g; exact ⟨a, b, c, ⟨e, f⟩, g⟩) | simp_all)
    obtain ⟨hg, hi, hcp, hany⟩ := hx
    refine h.unchanged (fun hu => (not_both hu hg).elim) (fun hu => (not_both hu hg).elim) ?_
    intro _ _ hxc
    refine absurd ?_ (hxc hcp)
    simp only [Bool.and_assoc] at hany
    obtain ⟨q, hq, _, b, c⟩ := here_iff (p := fun e => !e.id.linkage.overrideable && e.id.copy).1 hany
    simp only [Bool.and_eq_true, Bool.not_eq_true'] at c
    exact ⟨hi, q.2.id, (h.mem q hq).1, c.1, b, fun _ => c.2⟩
  | put data m1 hn hr =>
    have hno := hno hn
    unfold removeSpecialOverrides at hr
    simp only [hw.func d hdm, Bool.true_eq_false, if_false] at hr
    by_cases hu : d.linkage.overrideable = false
    · have hng : ¬ d.given := fun hg => not_both hu hg
      simp only [hu, Bool.not_false, Bool.true_and] at hr
      by_cases hcp : d.copy = true
      · rw [if_pos hcp] at hr
        by_cases h1 : m.any (fun q => isFor d.otype q.2 && !q.2.id.linkage.overrideable && q.2.id.copy) = true
        · rw [if_pos h1] at hr
          injection hr with hr; injection hr with hr1 hr2
          subst hr1 hr2
          simp only [Bool.and_assoc] at h1
          obtain ⟨q, hq, _, b, c⟩ := here_iff (p := fun e => !e.id.linkage.overrideable && e.id.copy).1 h1
          simp only [Bool.and_eq_true, Bool.not_eq_true'] at c
          refine h.put_only hw hno ⟨rfl, rfl⟩ (fun _ => hdel _ rfl) (fun hg => absurd hg hng) ?_
          intro q' _ _
          exact withdrawn_same (fun _ => ⟨q.2.id, (h.mem q hq).1, c.1, b, fun _ => c.2⟩) _
        · rw [if_neg h1] at hr
          -- what is left after the copy functions of the type are removed
          have hW : ∀ q ∈ m, q.2.id.given → q.2.id.otype = d.otype → Withdrawn (ds ++ [d]) q.2.id := by
            intro q hq hg ho
            refine ⟨?_, d, hdm, hu, ho.symm, fun _ => hcp⟩
            cases hi : q.2.id.linkage.intrinsic
            · rfl
            · exact absurd ho.symm (hb q.2.id (List.mem_append_left _ (h.mem q hq).1) hg hi d hdm hu hcp)
          have hW' : ∀ q ∈ m, q.2.id.otype ≠ d.otype → (Withdrawn (ds ++ [d]) q.2.id ↔ Withdrawn ds q.2.id) := by
            intro q hq ho
            rw [withdrawn_append]
            constructor
            · rintro (a | ⟨_, _, a, _⟩)
              · exact a
              · exact absurd a.symm ho
            · exact .inl
          have hrest : ∀ q, q ∈ List.filter (fun q => !(isFor d.otype q.2 && !!q.2.id.linkage.overrideable && q.2.id.copy)) m ↔
              q ∈ m ∧ ¬ (q.2.id.otype = d.otype ∧ q.2.id.given ∧ q.2.id.copy = true) := by
            intro q
            rw [List.mem_filter]
            constructor
            · rintro ⟨a, b⟩
              refine ⟨a, ?_⟩
              rintro ⟨c1, c2, c3⟩
              unfold IdD.given at c2
              simp [isFor, hfunc q a, c1, c2, c3] at b
            · rintro ⟨a, b⟩
              refine ⟨a, ?_⟩
              simp only [Bool.not_not, Bool.not_eq_true', Bool.and_eq_false_iff]
              by_cases c1 : q.2.id.otype = d.otype
              · by_cases c2 : q.2.id.linkage.overrideable = true
                · by_cases c3 : q.2.id.copy = true
                  · exact absurd ⟨c1, c2, c3⟩ b
                  · right; simpa using c3
                · left; right; simpa using c2
              · left; left; simp [isFor, c1]
          have hkr := keys_filter h.keys (fun q => !(isFor d.otype q.2 && !!q.2.id.linkage.overrideable && q.2.id.copy))
          by_cases h2 : m.any (fun q => isFor d.otype q.2 && !q.2.id.linkage.overrideable) = true
          · rw [if_pos h2] at hr
            injection hr with hr; injection hr with hr1 hr2
            subst hr1 hr2
            obtain ⟨u, hu1, hu2, hu3⟩ := hanyU h2
            refine h.put hw hno ⟨rfl, rfl⟩ (fun _ => hdel _ rfl) (fun hg => absurd hg hng) hkr ?_ ?_ ?_
            · intro q hq
              obtain ⟨hq1, hq2⟩ := (hrest q).1 hq
              refine ⟨q, hq1, rfl, rfl, rfl, ?_⟩
              intro hg
              by_cases ho : q.2.id.otype = d.otype
              · have hnc : q.2.id.copy = false := by
                  cases hc : q.2.id.copy
                  · rfl
                  · exact absurd ⟨ho, hg, hc⟩ hq2
                have hw1 := hW q hq1 hg ho
                have hw2 : Withdrawn ds q.2.id := ⟨hw1.1, u, hu1, hu2, by rw [hu3, ho], by rw [hnc]; simp⟩
                exact ⟨⟨fun _ => hw1, fun _ => (h.gen q hq1 hg).1.2 hw2⟩, by rw [hnc]; simp⟩
              · rw [hW' q hq1 ho]; exact h.gen q hq1 hg
            · intro q hq hqu
              exact (hrest q).2 ⟨hq, fun ⟨_, hg, _⟩ => not_both hqu hg⟩
            · intro q hq hg hc
              refine ⟨q, (hrest q).2 ⟨hq, ?_⟩, rfl, rfl⟩
              rintro ⟨c1, _, c3⟩
              exact hc c3 (hW q hq hg c1)
          · rw [if_neg h2] at hr
            injection hr with hr; injection hr with hr1 hr2
            subst hr1 hr2
            refine h.put hw hno ⟨rfl, rfl⟩ (fun _ => hdel _ rfl) (fun hg => absurd hg hng) (keys_deleteWhere hkr _ _) ?_ ?_ ?_
            · intro q hq
              obtain ⟨q0, hq0, he⟩ := mem_deleteWhere.1 hq
              obtain ⟨hq1, hq2⟩ := (hrest q0).1 hq0
              by_cases hp : (isFor d.otype q0.2 && !!q0.2.id.linkage.overrideable && !q0.2.id.copy) = true
              · rw [if_pos hp] at he
                subst he
                simp only [isFor, Bool.and_eq_true, beq_iff_eq, Bool.not_not, Bool.not_eq_true'] at hp
                refine ⟨q0, hq1, rfl, rfl, rfl, ?_⟩
                intro hg
                exact ⟨by simpa using hW q0 hq1 hg hp.1.1.2, by simp [hp.2]⟩
              · rw [if_neg hp] at he
                subst he
                refine ⟨q, hq1, rfl, rfl, rfl, ?_⟩
                intro hg
                have ho : q.2.id.otype ≠ d.otype := by
                  intro ho
                  unfold IdD.given at hg
                  cases hc : q.2.id.copy
                  · simp [isFor, hfunc q hq1, ho, hg, hc] at hp
                  · exact hq2 ⟨ho, hg, hc⟩
                rw [hW' q hq1 ho]; exact h.gen q hq1 hg
            · intro q hq hqu
              refine mem_deleteWhere.2 ⟨q, (hrest q).2 ⟨hq, fun ⟨_, hg, _⟩ => not_both hqu hg⟩, ?_⟩
              unfold IdD.user at hqu
              simp [hqu]
            · intro q hq hg hc
              refine ⟨_, mem_deleteWhere.2 ⟨q, (hrest q).2 ⟨hq, ?_⟩, rfl⟩, ?_, ?_⟩
              · rintro ⟨c1, _, c3⟩
                exact hc c3 (hW q hq hg c1)
              · split <;> rfl
              · split <;> rfl
      · rw [if_neg hcp] at hr
        have hcp' : d.copy = false := by simpa using hcp
        simp only [if_true] at hr
        by_cases h2 : m.any (fun q => isFor d.otype q.2 && !q.2.id.linkage.overrideable) = true
        · rw [if_pos h2] at hr
          injection hr with hr; injection hr with hr1 hr2
          subst hr1 hr2
          obtain ⟨u, hu1, hu2, hu3⟩ := hanyU h2
          refine h.put_only hw hno ⟨rfl, rfl⟩ (fun _ => hdel _ rfl) (fun hg => absurd hg hng) ?_
          intro q _ _
          exact withdrawn_same (fun _ => ⟨u, hu1, hu2, hu3, by rw [hcp']; simp⟩) _
        · rw [if_neg h2] at hr
          injection hr with hr; injection hr with hr1 hr2
          subst hr1 hr2
          refine h.put hw hno ⟨rfl, rfl⟩ (fun _ => hdel _ rfl) (fun hg => absurd hg hng) (keys_deleteWhere h.keys _ _) ?_ ?_ ?_
          · intro q hq
            obtain ⟨q0, hq0, he⟩ := mem_deleteWhere.1 hq
            by_cases hp : (isFor d.otype q0.2 && !!q0.2.id.linkage.overrideable && !q0.2.id.linkage.intrinsic && !q0.2.id.copy) = true
            · rw [if_pos hp] at he
              subst he
              simp only [isFor, Bool.and_eq_true, beq_iff_eq, Bool.not_not, Bool.not_eq_true'] at hp
              refine ⟨q0, hq0, rfl, rfl, rfl, ?_⟩
              intro hg
              refine ⟨⟨fun _ => ⟨hp.1.2, d, hdm, hu, hp.1.1.1.2.symm, by simp [hp.2]⟩, fun _ => rfl⟩, by simp [hp.2]⟩
            · rw [if_neg hp] at he
              subst he
              refine ⟨q, hq0, rfl, rfl, rfl, ?_⟩
              intro hg
              have : Withdrawn (ds ++ [d]) q.2.id ↔ Withdrawn ds q.2.id := by
                rw [withdrawn_append]
                constructor
                · rintro (a | ⟨a, _, b, c⟩)
                  · exact a
                  · unfold IdD.given at hg
                    rw [hcp'] at c
                    have hqc : q.2.id.copy = false := by
                      cases hc : q.2.id.copy
                      · rfl
                      · exact absurd (c hc) (by simp)
                    simp [isFor, hfunc q hq0, b, hg, a, hqc] at hp
                · exact .inl
              rw [this]; exact h.gen q hq0 hg
          · intro q hq hqu
            refine mem_deleteWhere.2 ⟨q, hq, ?_⟩
            unfold IdD.user at hqu
            simp [hqu]
          · intro q hq _ _
            refine ⟨_, mem_deleteWhere.2 ⟨q, hq, rfl⟩, ?_, ?_⟩ <;> (split <;> rfl)
    · have hg : d.given := by unfold IdD.given; simpa using hu
      have hnu : ¬ d.user := hu
      have hws : ∀ x, Withdrawn (ds ++ [d]) x ↔ Withdrawn ds x := withdrawn_same (fun hu' => absurd hu' hnu)
      have hdd : d.deleted = false := hw.given d hdm hg
      have hov : d.linkage.overrideable = true := hg
      simp only [hov, Bool.not_true, Bool.false_and, Bool.false_eq_true, if_false, hdd] at hr
      by_cases hi : d.linkage.intrinsic = false
      · rw [if_pos hi] at hr
        by_cases hcp : d.copy = true
        · rw [if_pos hcp] at hr
          by_cases h1 : m.any (fun q => isFor d.otype q.2 && !q.2.id.linkage.overrideable && q.2.id.copy) = true
          · rw [if_pos h1] at hr; simp at hr
          · rw [if_neg h1] at hr
            injection hr with hr; injection hr with hr1 hr2
            subst hr1 hr2
            have hnw : ¬ Withdrawn ds d := by
              rintro ⟨_, u, hu1, hu2, hu3, hu4⟩
              obtain ⟨q, hq, a, b, c⟩ := hanyU' u hu1 hu2 hu3
              exact h1 (List.any_eq_true.2 ⟨q, hq, by simp [a, b, c, hu4 hcp]⟩)
            exact h.put_only hw hno ⟨rfl, rfl⟩ (fun hu' => absurd hu' hnu) (fun _ => ⟨by simp [hnw], fun _ => hnw⟩) (fun q _ _ => hws _)
        · rw [if_neg hcp] at hr
          have hcp' : d.copy = false := by simpa using hcp
          cases hf : m.find? (fun q => isFor d.otype q.2 && !q.2.id.linkage.overrideable) with
          | some q =>
            rw [hf] at hr
            simp only at hr
            injection hr with hr; injection hr with hr1 hr2
            subst hr1 hr2
            have h2 := List.find?_some hf
            have hq := List.mem_of_find?_eq_some hf
            simp only [isFor, Bool.and_eq_true, beq_iff_eq, Bool.not_eq_true'] at h2
            have hwd : Withdrawn ds d := ⟨hi, q.2.id, (h.mem q hq).1, h2.2, h2.1.2, by simp [hcp']⟩
            exact h.put_only hw hno ⟨rfl, rfl⟩ (fun hu' => absurd hu' hnu) (fun _ => ⟨by simp [hwd], by simp [hcp']⟩) (fun q _ _ => hws _)
          | none =>
            rw [hf] at hr
            simp only at hr
            injection hr with hr; injection hr with hr1 hr2
            subst hr1 hr2
            have hnw : ¬ Withdrawn ds d := by
              rintro ⟨_, u, hu1, hu2, hu3, hu4⟩
              obtain ⟨q, hq, a, b, c⟩ := hanyU' u hu1 hu2 hu3
              have := List.find?_eq_none.1 hf q hq
              simp [a, b] at this
            exact h.put_only hw hno ⟨rfl, rfl⟩ (fun hu' => absurd hu' hnu) (fun _ => ⟨by simp [hnw], by simp [hcp']⟩) (fun q _ _ => hws _)
      · rw [if_neg hi] at hr
        injection hr with hr; injection hr with hr1 hr2
        subst hr1 hr2
        have hnw : ¬ Withdrawn ds d := fun hw' => hi hw'.1
        exact h.put_only hw hno ⟨rfl, rfl⟩ (fun hu' => absurd hu' hnu) (fun _ => ⟨by simp [hnw], fun _ => hnw⟩) (fun q _ _ => hws _)

theorem WellMade.init {ds : List IdD} {d : IdD} (h : WellMade (ds ++ [d])) : WellMade ds where
  func := fun x hx => h.func x (List.mem_append_left _ hx)
  same := fun x hx y hy => h.same x (List.mem_append_left _ hx) y (List.mem_append_left _ hy)
  given := fun x hx => h.given x (List.mem_append_left _ hx)

theorem run_append (E : Env) (T : SymTab) (a b : List Op) : run E T (a ++ b) = (run E T a).bind fun T => run E T b := by
  induction a generalizing T with
  | nil => rfl
  | cons op a ih =>
    rw [List.cons_append, run, run]
    cases step E T op with
    | none => rfl
    | some T1 => exact ih T1

theorem run_SInv {E : Env} (hE : E.strict = true) {s : SKind} {key : String} {T : SymTab} (h0 : T.specialLookupId s key = []) (ops : List Op) (hf : flat ops) :
    ∀ T', run E T ops = some T' → WellMade (declaredFor s key ops) → NoCopyOfBuiltin (declaredFor s key ops) → T'.cur.scope = T.cur.scope ∧ SInv T.cur.scope (declaredFor s key ops) (T'.group s key) := by
  induction ops using List.reverseRecOn with
  | nil =>
    intro T' hr _ _
    rw [run] at hr
    rw [← Option.some.inj hr]
    refine ⟨rfl, ?_⟩
    have : T.group s key = [] := by
      unfold SymTab.specialLookupId at h0
      exact List.map_eq_nil_iff.1 h0
    rw [this]
    exact ⟨by simp, List.nodup_nil, by simp [declaredFor], by simp, by simp [declaredFor]⟩
  | append_singleton ops op ih =>
    intro T' hr hw hb
    rw [run_append] at hr
    cases h1 : run E T ops with
    | none => rw [h1] at hr; simp at hr
    | some T1 =>
      rw [h1, Option.bind_some, run] at hr
      have hst : step E T1 op = some T' := by
        cases h2 : step E T1 op with
        | none => rw [h2] at hr; simp at hr
        | some T2 => rw [h2, Option.bind_some, run] at hr; rw [Option.some.inj hr]
      have hf' : flat ops := fun o ho => hf o (List.mem_append_left _ ho)
      have hfo := hf op (by simp)
      by_cases hop : other s key op
      · have hd : declaredFor s key (ops ++ [op]) = declaredFor s key ops := by
          unfold declaredFor
          rw [List.filterMap_append]
          cases op with
          | id d => rw [other, specialKind_iff] at hop; simp [hop]
          | type d => simp
          | tag k d => simp
          | enter => simp
          | leave => simp
          | withs a b => simp
        rw [hd] at hw hb ⊢
        obtain ⟨a, b⟩ := ih hf' T1 h1 hw hb
        obtain ⟨c, e⟩ := step_other hst hop
        rw [e, c]
        exact ⟨a, b⟩
      · cases op with
        | id d =>
          rw [other, not_not] at hop
          have hd : declaredFor s key (ops ++ [.id d]) = declaredFor s key ops ++ [d] := by
            unfold declaredFor
            rw [List.filterMap_append]
            have := (specialKind_iff _ _).1 hop.1
            simp [this, hop.2]
          rw [hd] at hw hb ⊢
          obtain ⟨a, b⟩ := ih hf' T1 h1 hw.init (fun x hx h2 h3 u hu => hb x (List.mem_append_left _ hx) h2 h3 u (List.mem_append_left _ hu))
          obtain ⟨c, e⟩ := step_here hE hst hop.1 hop.2
          rw [a] at e c
          exact ⟨c, b.step hw hb e⟩
        | type d => exact absurd trivial hop
        | tag k d => exact absurd trivial hop
        | enter => exact hfo.elim
        | leave => exact hfo.elim
        | withs a b => exact hfo.elim

theorem SInv.usable {k : Nat} {ds : List IdD} {m : Map IdData} (h : SInv k ds m) (hw : WellMade ds) (x : String) :
    (∃ e ∈ m.map (·.2), e.deleter = none ∧ e.id.mangled = x) ↔ Usable ds x := by
  constructor
  · rintro ⟨e, he, hd, hx⟩
    obtain ⟨q, hq, rfl⟩ := List.mem_map.1 he
    obtain ⟨a, b, _⟩ := h.mem q hq
    rcases user_or_given q.2.id with hu | hg
    · left
      obtain ⟨q', hq', c, _, f⟩ := h.user _ a hu
      have : q' = q := h.keys.uniq hq' hq (by rw [c, b])
      subst this
      rw [hd] at f
      refine ⟨q'.2.id, a, hu, hx, ?_⟩
      simpa using f
    · right
      constructor
      · intro u hu1 hu2 hu3
        obtain ⟨q', hq', c, f, _⟩ := h.user _ hu1 hu2
        have : q' = q := h.keys.uniq hq' hq (by rw [c, b, hu3, hx])
        subst this
        exact not_both f hg
      · refine ⟨q.2.id, a, hg, hx, ?_⟩
        intro hwd
        have := (h.gen q hq hg).1.2 hwd
        rw [hd] at this; simp at this
  · rintro (⟨u, hu1, hu2, hu3, hu4⟩ | ⟨hn, d, hd, hg, hx, hnw⟩)
    · obtain ⟨q, hq, c, f, g⟩ := h.user _ hu1 hu2
      refine ⟨q.2, List.mem_map_of_mem hq, ?_, by rw [← (h.mem q hq).2.1, c, hu3]⟩
      rw [hu4] at g
      simpa using g
    · obtain ⟨q, hq, c, f⟩ := h.has d hd hg (fun u hu hu' => by rw [hx]; exact hn u hu hu') (fun _ => hnw)
      obtain ⟨a, b, _⟩ := h.mem q hq
      refine ⟨q.2, List.mem_map_of_mem hq, ?_, by rw [← b, c, hx]⟩
      obtain ⟨s1, s2, s3⟩ := hw.same _ a d hd (by rw [← b, c])
      have := (h.gen q hq f).1
      rw [withdrawn_congr s1 s2 (s3 f hg)] at this
      simpa using mt this.1 hnw

end Verif.Symbols
