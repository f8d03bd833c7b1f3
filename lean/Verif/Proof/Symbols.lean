import Verif.Spec.Symbols
/-!
Proofs for C99.
-/
namespace Verif.Symbols

/-! ### Maps -/

theorem find_set {α : Type} (m : Map α) (k k' : String) (v : α) : (m.set k v).find k' = if k' = k then some v else m.find k' := by
  unfold Map.find Map.set
  by_cases h : k' = k
  · subst h; simp [List.lookup]
  · rw [if_neg h]
    have hb : (k' == k) = false := by simp [h]
    rw [List.lookup, hb]
    simp only
    induction m with
    | nil => rfl
    | cons p m ih =>
      by_cases hp : p.1 = k
      · rw [List.filter_cons_of_neg (by simp [hp]), ih]
        obtain ⟨a, b⟩ := p
        simp only at hp
        subst hp
        rw [List.lookup, hb]
      · rw [List.filter_cons_of_pos (by simp [hp])]
        obtain ⟨a, b⟩ := p
        rw [List.lookup, List.lookup]
        split
        · rfl
        · exact ih

/-- No key occurs twice. -/
def Keys {α : Type} (m : Map α) : Prop := (List.map Prod.fst m).Nodup

theorem Keys.set {α : Type} {m : Map α} (h : Keys m) (k : String) (v : α) : Keys (m.set k v) := by
  unfold Keys Map.set at *
  rw [List.map_cons, List.nodup_cons]
  constructor
  · intro hm
    obtain ⟨p, hp, he⟩ := List.mem_map.1 hm
    have := (List.mem_filter.1 hp).2
    simp at this
    exact this he
  · exact List.Sublist.nodup (List.Sublist.map _ List.filter_sublist) h

theorem Keys.mem {α : Type} {m : Map α} (h : Keys m) (k : String) (v : α) : (k, v) ∈ m ↔ m.find k = some v := by
  unfold Keys Map.find at *
  induction m with
  | nil => simp
  | cons p m ih =>
    obtain ⟨a, b⟩ := p
    rw [List.map_cons, List.nodup_cons] at h
    rw [List.lookup]
    by_cases hk : k = a
    · subst hk
      simp only [List.mem_cons, Prod.mk.injEq, true_and, beq_self_eq_true, Option.some.injEq]
      constructor
      · rintro (e | e)
        · exact e.symm
        · exact absurd (List.mem_map_of_mem (f := Prod.fst) e) h.1
      · intro e; exact Or.inl e.symm
    · have hb : (k == a) = false := by simp [hk]
      rw [hb]
      simp only [List.mem_cons, Prod.mk.injEq, hk, false_and, false_or]
      exact ih h.2

/-! ### The chain of saved tables is a stack with one table for each scope -/

def Good : Snap → List Snap → Prop
  | s, [] => s.rep = 0
  | s, p :: rest => s.rep ≤ s.scope ∧ p.scope = s.rep ∧ p.rep < s.rep ∧ Good p rest

def expand : Snap → List Snap → List Tables
  | s, [] => List.replicate (s.scope + 1 - s.rep) s.t
  | s, p :: rest => List.replicate (s.scope + 1 - s.rep) s.t ++ (expand p rest).tail

theorem Good.le {s : Snap} {l : List Snap} (h : Good s l) : s.rep ≤ s.scope := by
  cases l with
  | nil => rw [Good] at h; omega
  | cons p rest => exact h.1

theorem expand_length {s : Snap} {l : List Snap} (h : Good s l) : (expand s l).length = s.scope + 1 := by
  induction l generalizing s with
  | nil => rw [Good] at h; simp [expand, h]
  | cons p rest ih =>
    obtain ⟨h1, h2, h3, h4⟩ := h
    rw [expand, List.length_append, List.length_replicate, List.length_tail, ih h4]; omega

theorem expand_cons {s : Snap} {l : List Snap} (h : Good s l) : ∃ ts, expand s l = s.t :: ts := by
  have := h.le
  obtain ⟨n, hn⟩ : ∃ n, s.scope + 1 - s.rep = n + 1 := ⟨s.scope - s.rep, by omega⟩
  cases l with
  | nil => exact ⟨_, by rw [expand, hn, List.replicate_succ]⟩
  | cons p rest => exact ⟨_, by rw [expand, hn, List.replicate_succ, List.cons_append]⟩

theorem expand_head {s : Snap} {l : List Snap} (h : Good s l) : expand s l = s.t :: (expand s l).tail := by
  obtain ⟨ts, e⟩ := expand_cons h
  rw [e]; rfl

theorem enter_good {s : Snap} {l : List Snap} (h : Good s l) :
    Good { s with scope := s.scope + 1 } l ∧ expand { s with scope := s.scope + 1 } l = s.t :: expand s l := by
  have := h.le
  have e : s.scope + 1 + 1 - s.rep = (s.scope + 1 - s.rep) + 1 := by omega
  cases l with
  | nil => exact ⟨h, by simp only [expand]; rw [e, List.replicate_succ]⟩
  | cons p rest =>
    obtain ⟨h1, h2, h3, h4⟩ := h
    exact ⟨⟨by simp only; omega, h2, h3, h4⟩, by simp only [expand]; rw [e, List.replicate_succ, List.cons_append]⟩

theorem drop_good {s : Snap} {l : List Snap} (h : Good s l) (hlt : s.rep < s.scope) :
    Good { s with scope := s.scope - 1 } l ∧ expand { s with scope := s.scope - 1 } l = (expand s l).tail := by
  have e : s.scope + 1 - s.rep = (s.scope - 1 + 1 - s.rep) + 1 := by omega
  cases l with
  | nil => exact ⟨h, by simp only [expand]; rw [e, List.replicate_succ]; rfl⟩
  | cons p rest =>
    obtain ⟨h1, h2, h3, h4⟩ := h
    exact ⟨⟨by simp only; omega, h2, h3, h4⟩, by simp only [expand]; rw [e, List.replicate_succ, List.cons_append]; rfl⟩

theorem leave_good {T T' : SymTab} (h : Good T.cur T.prev) (e : leaveScope T = some T') :
    Good T'.cur T'.prev ∧ expand T'.cur T'.prev = (expand T.cur T.prev).tail := by
  rw [leaveScope] at e
  split at e
  · rename_i he
    obtain ⟨c, prev⟩ := T
    simp only at *
    cases prev with
    | nil => cases e
    | cons p rest =>
      cases e
      obtain ⟨h1, h2, h3, h4⟩ := h
      obtain ⟨a, b⟩ := drop_good h4 (by omega)
      refine ⟨a, ?_⟩
      rw [b, expand]
      have : c.scope + 1 - c.rep = 1 := by omega
      rw [this]; rfl
  · rename_i he
    cases e
    exact drop_good h (by have := h.le; omega)

theorem leave_some {T : SymTab} (h : Good T.cur T.prev) (hs : T.cur.scope ≠ 0) : ∃ T', leaveScope T = some T' := by
  rw [leaveScope]
  split
  · rename_i he
    obtain ⟨c, prev⟩ := T
    cases prev with
    | nil => rw [Good] at h; simp only at *; omega
    | cons p rest => exact ⟨_, rfl⟩
  · exact ⟨_, rfl⟩

theorem apply_good {T T' : SymTab} {t : Tables} (h : Good T.cur T.prev) (e : apply T (.put t) = some T') :
    Good T'.cur T'.prev ∧ expand T'.cur T'.prev = t :: (expand T.cur T.prev).tail ∧ T'.cur.scope = T.cur.scope := by
  simp only [apply, lazyInitScope] at e
  have hl := h.le
  by_cases hr : T.cur.rep = T.cur.scope
  · rw [if_pos hr] at e
    cases e
    obtain ⟨c, prev⟩ := T
    simp only at *
    have e1 : c.scope + 1 - c.rep = 1 := by omega
    cases prev with
    | nil => exact ⟨h, by simp only [expand]; rw [e1]; rfl, trivial⟩
    | cons p rest => exact ⟨⟨h.1, h.2.1, h.2.2.1, h.2.2.2⟩, by simp only [expand]; rw [e1]; rfl, trivial⟩
  · rw [if_neg hr] at e
    cases e
    refine ⟨⟨Nat.le_refl _, rfl, by simp only; omega, h⟩, ?_, rfl⟩
    simp only [expand]
    rw [show T.cur.scope + 1 - T.cur.scope = 1 by omega]; rfl

theorem atScope_zero {s : Snap} {l : List Snap} (h : Good s l) : ∃ s', atScope 0 s l = some s' ∧ (expand s l).getLast? = some s'.t := by
  induction l generalizing s with
  | nil =>
    rw [Good] at h
    exact ⟨s, by rw [atScope, if_neg (by omega)], by rw [expand, h, Nat.sub_zero, List.replicate_succ', List.getLast?_concat]⟩
  | cons p rest ih =>
    obtain ⟨h1, h2, h3, h4⟩ := h
    obtain ⟨s', a1, a2⟩ := ih h4
    refine ⟨s', by rw [atScope, if_pos (by omega), a1], ?_⟩
    rw [← a2, expand]
    obtain ⟨ts, e⟩ := expand_cons h4
    have hl := expand_length h4
    rw [e] at hl ⊢
    simp only [List.length_cons] at hl
    have : ts ≠ [] := by intro hn; subst hn; simp at hl; omega
    rw [List.tail_cons]
    cases ts with
    | nil => exact absurd rfl this
    | cons a b => simp [List.getLast?_append, List.getLast?_cons]

/-! ### What a table says, and what the scopes say -/

/-- The answer of the innermost scope that has one, with the number of the scope. -/
def located {α : Type} (look : Frame → Option α) : List Frame → Option (Scoped α)
  | [] => none
  | f :: fs => match look f with | some d => some ⟨d, fs.length⟩ | none => located look fs

theorem located_innermost {α : Type} (look : Frame → Option α) (fs : List Frame) : (located look fs).map (·.decl) = innermost look fs := by
  induction fs with
  | nil => rfl
  | cons f fs ih =>
    rw [located, innermost]
    cases look f with
    | none => simpa using ih
    | some d => rfl

theorem located_lt {α : Type} {look : Frame → Option α} {fs : List Frame} {e : Scoped α} (h : located look fs = some e) : e.scope < fs.length := by
  induction fs with
  | nil => cases h
  | cons f fs ih =>
    rw [located] at h
    split at h
    · cases h; simp
    · have := ih h; simp only [List.length_cons]; omega

def view (e : IdData) : Scoped Seen := ⟨⟨e.id, e.base, e.deleter.isSome⟩, e.scope⟩

/-- The table of the types of a name. -/
def Tables.of (t : Tables) (n : String) : Map IdData := (t.ids.find n).getD []

structure Agree (t : Tables) (fs : List Frame) : Prop where
  types : ∀ n, t.types.find n = located (typeIn n) fs
  tags : ∀ k n, (t.tags k).find n = located (tagIn k n) fs
  ids : ∀ n m, specialKind n = none → n ≠ "" → ((t.of n).find m).map view = located (idIn n m) fs
  keys : ∀ n, Keys (t.of n)

def AgreeAll : List Tables → List Frame → Prop
  | [], [] => True
  | t :: ts, f :: fs => Agree t (f :: fs) ∧ AgreeAll ts fs
  | _, _ => False

theorem AgreeAll.length : {ts : List Tables} → {fs : List Frame} → AgreeAll ts fs → ts.length = fs.length
  | [], [], _ => rfl
  | _ :: _, _ :: _, h => by simp [AgreeAll.length h.2]
  | [], _ :: _, h => h.elim
  | _ :: _, [], h => h.elim

/-! ### The first definition, or else the last declaration -/

def pick {α : Type} (p : α → Bool) (l : List α) : Option α := (l.find? p).or l.getLast?

theorem pick_concat {α : Type} (p : α → Bool) (l : List α) (d : α) :
    pick p (l ++ [d]) = some (match pick p l with | some e => if p e then e else d | none => d) := by
  unfold pick
  rw [List.find?_append, List.getLast?_concat]
  cases h : l.find? p with
  | some e =>
    have := List.find?_some h
    simp [this]
  | none =>
    simp only [Option.none_or]
    have hd : (List.find? p [d]).or (some d) = some d := by by_cases hp : p d <;> simp [List.find?, hp]
    rw [hd]
    cases hg : l.getLast? with
    | none => rfl
    | some e =>
      have hm := List.mem_of_getLast? hg
      have := List.find?_eq_none.1 h e hm
      simp [this]

/-- What a list of declarations of an identifier says. -/
def seen (l : List (IdD × Option Base)) : Option Seen :=
  match l.dropWhile fun p => p.1.linkage.overrideable with
  | p :: later => some ⟨p.1, p.2, (p.2.isNone && p.1.deleted) || later.any fun q => q.2.isSome⟩
  | [] => l.getLast?.map fun p => ⟨p.1, p.2, p.2.isNone && p.1.deleted⟩

def fresh (x : IdD × Option Base) : Seen := ⟨x.1, x.2, x.2.isNone && x.1.deleted⟩

theorem dropWhile_concat {α : Type} (p : α → Bool) (l : List α) (x : α) :
    (l ++ [x]).dropWhile p = match l.dropWhile p with | a :: b => a :: b ++ [x] | [] => if p x then [] else [x] := by
  induction l with
  | nil => simp only [List.nil_append, List.dropWhile_nil]; rw [List.dropWhile_cons, List.dropWhile_nil]
  | cons a l ih =>
    rw [List.cons_append, List.dropWhile_cons, List.dropWhile_cons]
    by_cases h : p a
    · rw [if_pos h, if_pos h, ih]
    · rw [if_neg h, if_neg h]; rfl

theorem seen_concat (l : List (IdD × Option Base)) (x : IdD × Option Base) :
    seen (l ++ [x]) = some (match seen l with
      | some s => if s.decl.linkage.overrideable then fresh x else { s with deleted := s.deleted || x.2.isSome }
      | none => fresh x) := by
  unfold seen
  rw [dropWhile_concat]
  cases h : l.dropWhile fun p => p.1.linkage.overrideable with
  | cons p later =>
    have hp : p.1.linkage.overrideable = false := by
      have := List.head_dropWhile_not (fun p : IdD × Option Base => p.1.linkage.overrideable) (l := l) (by rw [h]; simp)
      simpa [h] using this
    simp only [List.cons_append, List.any_append, List.any_cons, List.any_nil, Bool.or_false, hp, Bool.false_eq_true, if_false, Bool.or_assoc]
  | nil =>
    simp only
    have hall : ∀ q ∈ l, q.1.linkage.overrideable = true := by
      intro q hq
      induction l with
      | nil => cases hq
      | cons a l ih =>
        rw [List.dropWhile_cons] at h
        split at h
        · rename_i ha
          rcases List.mem_cons.1 hq with e | e
          · rw [e]; exact ha
          · exact ih h e
        · cases h
    by_cases hx : x.1.linkage.overrideable
    · rw [if_pos hx]
      simp only [List.getLast?_concat, Option.map_some, fresh]
      cases hg : l.getLast? with
      | none => rfl
      | some q => simp only [Option.map_some]; rw [if_pos (hall q (List.mem_of_getLast? hg))]
    · rw [if_neg hx]
      simp only [List.any_nil, Bool.or_false, fresh]
      cases hg : l.getLast? with
      | none => rfl
      | some q => simp only [Option.map_some]; rw [if_pos (hall q (List.mem_of_getLast? hg))]

theorem idIn_eq (n m : String) (f : Frame) : idIn n m f = seen (f.ids n m) := rfl
theorem typeIn_eq (n : String) (f : Frame) : typeIn n f = pick (fun d => d.base.isSome) (f.types n) := rfl
theorem tagIn_eq (k : TagKind) (n : String) (f : Frame) : tagIn k n f = pick (fun d => d.body) (f.tags k n) := rfl

theorem located_some {α : Type} {look : Frame → Option α} {f : Frame} {fs : List Frame} {w : α} (h : look f = some w) : located look (f :: fs) = some ⟨w, fs.length⟩ := by
  rw [located, h]

theorem located_congr {α : Type} {look : Frame → Option α} {f f' : Frame} (fs : List Frame) (h : look f' = look f) : located look (f' :: fs) = located look (f :: fs) := by
  rw [located, located, h]

theorem look_of_located {α : Type} {look : Frame → Option α} {f : Frame} {fs : List Frame} {e : Scoped α} (h : located look (f :: fs) = some e) :
    (e.scope = fs.length → look f = some e.decl) ∧ (e.scope ≠ fs.length → look f = none) := by
  rw [located] at h
  cases hl : look f with
  | some d => rw [hl] at h; cases h; exact ⟨fun _ => rfl, fun h => absurd rfl h⟩
  | none =>
    rw [hl] at h
    have := located_lt h
    exact ⟨fun h => by omega, fun _ => rfl⟩

theorem look_of_none {α : Type} {look : Frame → Option α} {f : Frame} {fs : List Frame} (h : located look (f :: fs) = none) : look f = none := by
  rw [located] at h
  cases hl : look f with
  | some d => rw [hl] at h; cases h
  | none => rfl

/-! ### Frames with one declaration more -/

theorem types_type (f : Frame) (d : TypeD) (n : String) : Frame.types (f ++ [.type d]) n = f.types n ++ (if d.name = n then [d] else []) := by
  unfold Frame.types; rw [List.filterMap_append]; congr 1; by_cases h : d.name = n <;> simp [h]

theorem types_tag (f : Frame) (k : TagKind) (d : AggrD) (n : String) : Frame.types (f ++ [.tag k d]) n = f.types n := by
  unfold Frame.types; rw [List.filterMap_append]; simp

theorem types_id (f : Frame) (d : IdD) (b : Option Base) (n : String) : Frame.types (f ++ [.id d b]) n = f.types n := by
  unfold Frame.types; rw [List.filterMap_append]; simp

theorem tags_type (f : Frame) (d : TypeD) (k : TagKind) (n : String) : Frame.tags (f ++ [.type d]) k n = f.tags k n := by
  unfold Frame.tags; rw [List.filterMap_append]; simp

theorem tags_id (f : Frame) (d : IdD) (b : Option Base) (k : TagKind) (n : String) : Frame.tags (f ++ [.id d b]) k n = f.tags k n := by
  unfold Frame.tags; rw [List.filterMap_append]; simp

theorem tags_tag (f : Frame) (k' : TagKind) (d : AggrD) (k : TagKind) (n : String) : Frame.tags (f ++ [.tag k' d]) k n = f.tags k n ++ (if k' = k ∧ d.name = n then [d] else []) := by
  unfold Frame.tags; rw [List.filterMap_append]; congr 1; by_cases h : k' = k ∧ d.name = n <;> simp [h]

theorem ids_type (f : Frame) (d : TypeD) (n m : String) : Frame.ids (f ++ [.type d]) n m = f.ids n m := by
  unfold Frame.ids; rw [List.filterMap_append]; simp

theorem ids_tag (f : Frame) (k : TagKind) (d : AggrD) (n m : String) : Frame.ids (f ++ [.tag k d]) n m = f.ids n m := by
  unfold Frame.ids; rw [List.filterMap_append]; simp

theorem ids_id (f : Frame) (d : IdD) (b : Option Base) (n m : String) :
    Frame.ids (f ++ [.id d b]) n m = f.ids n m ++ (if d.name = n ∧ d.mangled = m then [(d, b)] else []) := by
  unfold Frame.ids; rw [List.filterMap_append]; congr 1; by_cases h : d.name = n ∧ d.mangled = m <;> simp [h]

/-- The tables after an addition; `none` when there is an error. -/
def Out.tables (t : Tables) : Out → Option Tables
  | .error => none
  | .same => some t
  | .put t' => some t'

theorem addType_agree {E : Env} {t t' : Tables} {f : Frame} {fs : List Frame} {d : TypeD} (h : Agree t (f :: fs)) (ho : (addType E fs.length t d).tables t = some t') :
    Agree t' ((f ++ [.type d]) :: fs) := by
  have hother : ∀ n, n ≠ d.name → located (typeIn n) ((f ++ [.type d]) :: fs) = located (typeIn n) (f :: fs) := by
    intro n hn
    apply located_congr
    rw [typeIn_eq, typeIn_eq, types_type, if_neg (fun h => hn h.symm), List.append_nil]
  have htags : ∀ k n, located (tagIn k n) ((f ++ [.type d]) :: fs) = located (tagIn k n) (f :: fs) := fun k n => located_congr _ (by rw [tagIn_eq, tagIn_eq, tags_type])
  have hids : ∀ n m, located (idIn n m) ((f ++ [.type d]) :: fs) = located (idIn n m) (f :: fs) := fun n m => located_congr _ (by rw [idIn_eq, idIn_eq, ids_type])
  have hp := pick_concat (fun d : TypeD => d.base.isSome) (f.types d.name) d
  have hself : typeIn d.name (f ++ [.type d]) = pick (fun d => d.base.isSome) (f.types d.name ++ [d]) := by rw [typeIn_eq, types_type, if_pos rfl]
  have hnew : (∀ e, typeIn d.name f = some e → e.base = none) → Agree { t with types := t.types.set d.name ⟨d, fs.length⟩ } ((f ++ [.type d]) :: fs) := by
    intro hc
    refine ⟨fun n => ?_, fun k n => by rw [htags]; exact h.tags k n, fun n m hs hne => by rw [hids]; exact h.ids n m hs hne, h.keys⟩
    simp only [find_set]
    by_cases hn : n = d.name
    · subst hn
      rw [if_pos rfl]
      symm
      apply located_some
      rw [hself, hp, ← typeIn_eq]
      cases ht : typeIn d.name f with
      | none => rfl
      | some e => simp [hc e ht]
    · rw [if_neg hn, hother n hn]; exact h.types n
  have hsame : (∀ e, typeIn d.name f = some e → e.base.isSome) → (∃ e, typeIn d.name f = some e) → Agree t ((f ++ [.type d]) :: fs) := by
    rintro hc ⟨e, he⟩
    refine ⟨fun n => ?_, fun k n => by rw [htags]; exact h.tags k n, fun n m hs hne => by rw [hids]; exact h.ids n m hs hne, h.keys⟩
    by_cases hn : n = d.name
    · subst hn
      rw [h.types, located_some he]
      symm
      apply located_some
      rw [hself, hp, ← typeIn_eq, he]
      simp [hc e he]
    · rw [hother n hn]; exact h.types n
  have hf := h.types d.name
  rw [addType] at ho
  cases hfind : t.types.find d.name with
  | none =>
    rw [hfind] at ho hf
    cases ho
    exact hnew fun e he => by rw [look_of_none hf.symm] at he; cases he
  | some e =>
    rw [hfind] at ho hf
    obtain ⟨l1, l2⟩ := look_of_located hf.symm
    simp only at ho
    by_cases hs : e.scope = fs.length
    · rw [if_pos hs, addedTypeConflicts] at ho
      have l1 := l1 hs
      cases hb : e.decl.base with
      | none =>
        rw [hb] at ho; cases ho
        exact hnew fun e' he' => by rw [l1] at he'; cases he'; exact hb
      | some b =>
        have hss : Agree t ((f ++ [.type d]) :: fs) := hsame (fun e' he' => by rw [l1] at he'; cases he'; rw [hb]; rfl) ⟨_, l1⟩
        rw [hb] at ho
        cases ha : d.base with
        | none => rw [ha] at ho; cases ho; exact hss
        | some a =>
          rw [ha] at ho
          simp only at ho
          by_cases hc : E.compat b a = true
          · rw [if_pos hc] at ho; cases ho; exact hss
          · rw [if_neg hc] at ho
            by_cases hst : E.strict = true
            · rw [if_pos hst] at ho; cases ho
            · rw [if_neg hst] at ho; cases ho; exact hss
    · rw [if_neg hs] at ho
      cases ho
      exact hnew fun e' he' => by rw [l2 hs] at he'; cases he'

theorem addTag_agree {E : Env} {t t' : Tables} {f : Frame} {fs : List Frame} {k : TagKind} {d : AggrD} (h : Agree t (f :: fs)) (ho : (addTag E fs.length t k d).tables t = some t') :
    Agree t' ((f ++ [.tag k d]) :: fs) := by
  have hother : ∀ k' n, ¬(k = k' ∧ d.name = n) → located (tagIn k' n) ((f ++ [.tag k d]) :: fs) = located (tagIn k' n) (f :: fs) := by
    intro k' n hn
    apply located_congr
    rw [tagIn_eq, tagIn_eq, tags_tag, if_neg hn, List.append_nil]
  have htypes : ∀ n, located (typeIn n) ((f ++ [.tag k d]) :: fs) = located (typeIn n) (f :: fs) := fun n => located_congr _ (by rw [typeIn_eq, typeIn_eq, types_tag])
  have hids : ∀ n m, located (idIn n m) ((f ++ [.tag k d]) :: fs) = located (idIn n m) (f :: fs) := fun n m => located_congr _ (by rw [idIn_eq, idIn_eq, ids_tag])
  have hp := pick_concat (fun d : AggrD => d.body) (f.tags k d.name) d
  have hself : tagIn k d.name (f ++ [.tag k d]) = pick (fun d => d.body) (f.tags k d.name ++ [d]) := by rw [tagIn_eq, tags_tag, if_pos ⟨rfl, rfl⟩]
  have hnew : (∀ e, tagIn k d.name f = some e → e.body = false) →
      Agree { t with tags := fun j => if j = k then (t.tags k).set d.name ⟨d, fs.length⟩ else t.tags j } ((f ++ [.tag k d]) :: fs) := by
    intro hc
    refine ⟨fun n => by rw [htypes]; exact h.types n, fun k' n => ?_, fun n m hs hne => by rw [hids]; exact h.ids n m hs hne, h.keys⟩
    simp only
    by_cases hk : k' = k
    · subst hk
      rw [if_pos rfl, find_set]
      by_cases hn : n = d.name
      · subst hn
        rw [if_pos rfl]
        symm
        apply located_some
        rw [hself, hp, ← tagIn_eq]
        cases ht : tagIn k' d.name f with
        | none => rfl
        | some e => simp [hc e ht]
      · rw [if_neg hn, hother k' n (fun h => hn h.2.symm)]; exact h.tags k' n
    · rw [if_neg hk, hother k' n (fun h => hk h.1.symm)]; exact h.tags k' n
  have hsame : (∃ e, tagIn k d.name f = some e ∧ e.body = true) → Agree t ((f ++ [.tag k d]) :: fs) := by
    rintro ⟨e, he, hb⟩
    refine ⟨fun n => by rw [htypes]; exact h.types n, fun k' n => ?_, fun n m hs hne => by rw [hids]; exact h.ids n m hs hne, h.keys⟩
    by_cases hn : k = k' ∧ d.name = n
    · obtain ⟨rfl, rfl⟩ := hn
      rw [h.tags, located_some he]
      symm
      apply located_some
      rw [hself, hp, ← tagIn_eq, he]
      simp [hb]
    · rw [hother k' n hn]; exact h.tags k' n
  have hf := h.tags k d.name
  rw [addTag] at ho
  cases hfind : (t.tags k).find d.name with
  | none =>
    rw [hfind] at ho hf
    cases ho
    exact hnew fun e he => by rw [look_of_none hf.symm] at he; cases he
  | some e =>
    rw [hfind] at ho hf
    obtain ⟨l1, l2⟩ := look_of_located hf.symm
    simp only at ho
    by_cases hs : e.scope = fs.length
    · rw [if_pos hs, addedDeclConflicts] at ho
      have l1 := l1 hs
      by_cases hb : e.decl.body = false
      · rw [if_pos hb] at ho; cases ho
        exact hnew fun e' he' => by rw [l1] at he'; cases he'; exact hb
      · have hss := hsame ⟨_, l1, by simpa using hb⟩
        rw [if_neg hb] at ho
        by_cases ha : d.body = true
        · rw [if_pos ha] at ho
          by_cases hst : E.strict = true
          · rw [if_pos hst] at ho; cases ho
          · rw [if_neg hst] at ho; cases ho; exact hss
        · rw [if_neg ha] at ho; cases ho; exact hss
    · rw [if_neg hs] at ho
      cases ho
      exact hnew fun e' he' => by rw [l2 hs] at he'; cases he'

/-! ### Identifiers -/

/-- The base, the mode and the deleter that go together: a declaration, or a member in a `with` clause. -/
def Call (d : IdD) (mode : Option Nat) (base : Option Base) (deleter : Option Nat) : Prop :=
  (mode = none ∧ base = none ∧ deleter = if d.deleted then some d.id else none) ∨ (mode.isSome ∧ base.isSome ∧ deleter = none)

theorem Call.mode {d : IdD} {mode : Option Nat} {base : Option Base} {deleter : Option Nat} (h : Call d mode base deleter) : mode.isSome = base.isSome := by
  rcases h with ⟨rfl, rfl, -⟩ | ⟨h1, h2, -⟩
  · rfl
  · rw [h1, h2]

theorem Call.deleter {d : IdD} {mode : Option Nat} {base : Option Base} {deleter : Option Nat} (h : Call d mode base deleter) : deleter.isSome = (base.isNone && d.deleted) := by
  rcases h with ⟨rfl, rfl, rfl⟩ | ⟨h1, h2, rfl⟩
  · cases d.deleted <;> rfl
  · cases base with
    | none => cases h2
    | some b => rfl

/-- What is inserted in the table. -/
def idData (d : IdD) (base : Option Base) (deleter : Option Nat) (k : Nat) : IdData := ⟨d, base, deleter, k⟩

/-- For names other than those of constructors, destructors and assignments. -/
theorem addIdToTable_plain (E : Env) (k : Nat) (t : Tables) (d : IdD) (mode : Option Nat) (base : Option Base) (deleter : Option Nat) (hs : specialKind d.name = none) (hne : d.name ≠ "") :
    addIdToTable E k t d mode base deleter =
      if d.linkage.overloadable && hasCompatibleCDecl k t d.name d.mangled && E.strict then .error
      else if !d.linkage.overloadable && hasIncompatibleCDecl k t d.name d.mangled && E.strict then .error
      else
        match (t.of d.name).find d.mangled with
        | none => .put { t with ids := t.ids.set d.name ((t.of d.name).set d.mangled (idData d base deleter k)) }
        | some e =>
          if e.scope = k then
            match addedIdConflicts E e d mode deleter with
            | none => .error
            | some false => .put { t with ids := t.ids.set d.name ((t.of d.name).set d.mangled (idData d base deleter k)) }
            | some true =>
              match mode with
              | some w => .put { t with ids := t.ids.set d.name ((t.of d.name).set d.mangled { e with deleter := some w }) }
              | none => .same
          else .put { t with ids := t.ids.set d.name ((t.of d.name).set d.mangled (idData d base deleter k)) } := by
  rw [addIdToTable, hs]
  simp only [Option.isNone_none, if_true, tableOf, setTable, if_neg hne]
  rfl

theorem of_set (t : Tables) (name n : String) (M : Map IdData) : Tables.of { t with ids := t.ids.set name M } n = if n = name then M else t.of n := by
  unfold Tables.of
  simp only [find_set]
  by_cases h : n = name
  · rw [if_pos h, if_pos h]; rfl
  · rw [if_neg h, if_neg h]

theorem id_agree_put {t : Tables} {f : Frame} {fs : List Frame} {d : IdD} {base : Option Base} {e : IdData} (h : Agree t (f :: fs))
    (he : ∀ s, seen (f.ids d.name d.mangled ++ [(d, base)]) = some s → view e = ⟨s, fs.length⟩) :
    Agree { t with ids := t.ids.set d.name ((t.of d.name).set d.mangled e) } ((f ++ [.id d base]) :: fs) := by
  refine ⟨fun n => ?_, fun k n => ?_, fun n m hs hne => ?_, fun n => ?_⟩
  · rw [located_congr fs (f := f) (by rw [typeIn_eq, typeIn_eq, types_id])]; exact h.types n
  · rw [located_congr fs (f := f) (by rw [tagIn_eq, tagIn_eq, tags_id])]; exact h.tags k n
  · rw [of_set]
    by_cases hn : n = d.name
    · subst hn
      rw [if_pos rfl, find_set]
      by_cases hm : m = d.mangled
      · subst hm
        rw [if_pos rfl, Option.map_some]
        symm
        have hc := seen_concat (f.ids d.name d.mangled) (d, base)
        rw [he _ hc]
        apply located_some
        rw [idIn_eq, ids_id, if_pos ⟨rfl, rfl⟩, hc]
      · rw [if_neg hm, located_congr fs (f := f)]
        · exact h.ids _ m hs hne
        · rw [idIn_eq, idIn_eq, ids_id, if_neg (fun h => hm h.2.symm), List.append_nil]
    · rw [if_neg hn, located_congr fs (f := f)]
      · exact h.ids n m hs hne
      · rw [idIn_eq, idIn_eq, ids_id, if_neg (fun h => hn h.1.symm), List.append_nil]
  · rw [of_set]
    by_cases hn : n = d.name
    · rw [if_pos hn]; exact (h.keys _).set _ _
    · rw [if_neg hn]; exact h.keys n

theorem id_agree_same {t t' : Tables} {f : Frame} {fs : List Frame} {d : IdD} {base : Option Base} (h : Agree t (f :: fs)) (ht : t'.types = t.types ∧ t'.tags = t.tags ∧ t'.ids = t.ids)
    (he : specialKind d.name = none → d.name ≠ "" → idIn d.name d.mangled (f ++ [.id d base]) = idIn d.name d.mangled f) : Agree t' ((f ++ [.id d base]) :: fs) := by
  obtain ⟨h1, h2, h3⟩ := ht
  have hof : ∀ n, t'.of n = t.of n := fun n => by unfold Tables.of; rw [h3]
  refine ⟨fun n => ?_, fun k n => ?_, fun n m hs hne => ?_, fun n => by rw [hof]; exact h.keys n⟩
  · rw [h1, located_congr fs (f := f) (by rw [typeIn_eq, typeIn_eq, types_id])]; exact h.types n
  · rw [h2, located_congr fs (f := f) (by rw [tagIn_eq, tagIn_eq, tags_id])]; exact h.tags k n
  · rw [hof, h.ids n m hs hne]
    apply located_congr
    by_cases hn : d.name = n ∧ d.mangled = m
    · obtain ⟨rfl, rfl⟩ := hn
      exact (he hs hne).symm
    · rw [idIn_eq, idIn_eq, ids_id, if_neg hn, List.append_nil]

theorem addedIdConflicts_false {E : Env} {e : IdData} {d : IdD} {mode del : Option Nat} (h : addedIdConflicts E e d mode del = some false) : e.id.linkage.overrideable = true := by
  rw [addedIdConflicts] at h
  by_cases ho : e.id.linkage.overrideable = true
  · exact ho
  · simp only [ho, if_false, Bool.false_eq_true] at h
    repeat' split at h
    all_goals simp_all

theorem addedIdConflicts_true {E : Env} {e : IdData} {d : IdD} {mode del : Option Nat} (h : addedIdConflicts E e d mode del = some true) : e.id.linkage.overrideable = false := by
  rw [addedIdConflicts] at h
  by_cases ho : e.id.linkage.overrideable = true
  · simp [ho] at h
  · simpa using ho

theorem addId_agree {E : Env} {t t' : Tables} {f : Frame} {fs : List Frame} {d : IdD} {mode : Option Nat} {base : Option Base} {del : Option Nat} (h : Agree t (f :: fs)) (hc : Call d mode base del)
    (ho : (addIdToTable E fs.length t d mode base del).tables t = some t') : Agree t' ((f ++ [.id d base]) :: fs) := by
  by_cases hne : d.name = ""
  · rw [addIdToTable, if_pos hne] at ho
    cases ho
    exact id_agree_same h ⟨rfl, rfl, rfl⟩ fun _ hn => absurd hne hn
  cases hs : specialKind d.name with
  | some s =>
    refine id_agree_same h ?_ fun hn => by rw [hs] at hn; cases hn
    rw [addIdToTable, hs] at ho
    simp only [Option.isNone_some, Bool.false_eq_true, if_false, if_neg hne] at ho
    repeat' split at ho
    all_goals first
      | (cases ho; done)
      | (cases ho; exact ⟨rfl, rfl, rfl⟩)
  | none =>
    rw [addIdToTable_plain E _ t d mode base del hs hne] at ho
    have hl := h.ids d.name d.mangled hs hne
    have hcat := seen_concat (f.ids d.name d.mangled) (d, base)
    have hnew : (∀ s, seen (f.ids d.name d.mangled) = some s → s.decl.linkage.overrideable = true) →
        Agree { t with ids := t.ids.set d.name ((t.of d.name).set d.mangled (idData d base del fs.length)) } ((f ++ [.id d base]) :: fs) := by
      intro hov
      apply id_agree_put h
      intro s e
      rw [hcat] at e
      cases e
      cases hse : seen (f.ids d.name d.mangled) with
      | none => simp [view, idData, fresh, hc.deleter]
      | some s => simp [view, idData, fresh, hc.deleter, hov s hse]
    split at ho
    · cases ho
    split at ho
    · cases ho
    cases hfind : (t.of d.name).find d.mangled with
    | none =>
      rw [hfind] at ho hl
      cases ho
      refine hnew fun s e => ?_
      rw [← idIn_eq, look_of_none hl.symm] at e; cases e
    | some e =>
      rw [hfind] at ho hl
      rw [Option.map_some] at hl
      obtain ⟨l1, l2⟩ := look_of_located hl.symm
      simp only at ho
      by_cases hsc : e.scope = fs.length
      · rw [if_pos hsc] at ho
        have l1 := l1 hsc
        have hseen : seen (f.ids d.name d.mangled) = some (view e).decl := by rw [← idIn_eq]; exact l1
        rw [hseen] at hcat
        cases hcf : addedIdConflicts E e d mode del with
        | none => rw [hcf] at ho; cases ho
        | some b =>
          rw [hcf] at ho
          cases b with
          | false =>
            cases ho
            refine hnew fun s es => ?_
            rw [hseen] at es; cases es; exact addedIdConflicts_false hcf
          | true =>
            have hov := addedIdConflicts_true hcf
            simp only [view, hov, Bool.false_eq_true, if_false] at hcat
            have hm := hc.mode
            cases mode with
            | none =>
              cases ho
              apply id_agree_same h ⟨rfl, rfl, rfl⟩
              intro _ _
              rw [idIn_eq, idIn_eq, ids_id, if_pos ⟨rfl, rfl⟩, hcat, hseen, ← hm]
              simp [view]
            | some w =>
              cases ho
              apply id_agree_put h
              intro s es
              rw [hcat] at es
              cases es
              simp [view, ← hm, hsc]
      · rw [if_neg hsc] at ho
        cases ho
        refine hnew fun s es => ?_
        rw [← idIn_eq, l2 hsc] at es; cases es

/-! ### Histories -/

/-- The whole invariant. -/
structure Inv (T : SymTab) (fs : List Frame) : Prop where
  good : Good T.cur T.prev
  agree : AgreeAll (expand T.cur T.prev) fs

theorem Inv.scope {T : SymTab} {f : Frame} {fs : List Frame} (h : Inv T (f :: fs)) : T.cur.scope = fs.length := by
  have h1 := expand_length h.good
  have h2 := h.agree.length
  simp only [List.length_cons] at h2
  omega

theorem Inv.cur {T : SymTab} {f : Frame} {fs : List Frame} (h : Inv T (f :: fs)) : Agree T.cur.t (f :: fs) := by
  have := h.agree
  rw [expand_head h.good] at this
  exact this.1

theorem apply_inv {T T' : SymTab} {f f' : Frame} {fs : List Frame} {o : Out} (h : Inv T (f :: fs)) (ha : ∀ t', o.tables T.cur.t = some t' → Agree t' (f' :: fs)) (e : apply T o = some T') :
    Inv T' (f' :: fs) := by
  have hag := h.agree
  rw [expand_head h.good] at hag
  cases o with
  | error => cases e
  | same =>
    cases e
    refine ⟨h.good, ?_⟩
    rw [expand_head h.good]
    exact ⟨ha _ rfl, hag.2⟩
  | put t =>
    obtain ⟨g1, g2, g3⟩ := apply_good h.good e
    refine ⟨g1, ?_⟩
    rw [g2]
    exact ⟨ha _ rfl, hag.2⟩

theorem members_eq (path : List Nat) (i : Nat) (m : Mems) : members path i m = (m.named i).map fun p => (path ++ p.1, p.2) := by
  induction m generalizing path i with
  | nil => rfl
  | field d rest ih => rw [members, Mems.named, List.map_cons, ih]; simp
  | anon inner rest ih1 ih2 => rw [members, Mems.named, List.map_append, ih1, ih2, List.map_map]; simp [Function.comp_def]

theorem withIds_eq (j : Nat) (es : List Mems) : (withIds j es).map (fun p => Entry.id p.2 (some p.1)) = (es.zipIdx j).flatMap fun (m, j) => (m.named 0).map fun p => .id p.2 (some (j, p.1)) := by
  induction es generalizing j with
  | nil => rfl
  | cons m es ih =>
    rw [withIds, List.map_append, ih, List.zipIdx_cons, List.flatMap_cons, members_eq, List.map_map, List.map_map]
    simp [Function.comp_def]

theorem addAll_inv {E : Env} {stmt : Nat} {fs : List Frame} (l : List (Base × IdD)) : ∀ {T T' : SymTab} {f : Frame}, Inv T (f :: fs) → addAll E stmt T l = some T' →
    Inv T' ((f ++ l.map fun p => Entry.id p.2 (some p.1)) :: fs) := by
  induction l with
  | nil => intro T T' f h e; cases e; simpa using h
  | cons p l ih =>
    intro T T' f h e
    rw [addAll] at e
    obtain ⟨T1, e1, e2⟩ := Option.bind_eq_some_iff.1 e
    have h1 : Inv T1 ((f ++ [.id p.2 (some p.1)]) :: fs) := by
      refine apply_inv h (fun t' ht => ?_) e1
      rw [h.scope] at ht
      exact addId_agree h.cur (Or.inr ⟨rfl, rfl, rfl⟩) ht
    have := ih h1 e2
    simpa using this

theorem step_inv {E : Env} {T T' : SymTab} {op : Op} {fs fs' : List Frame} (h : Inv T fs) (hf : advance fs op = some fs') (e : step E T op = some T') : Inv T' fs' := by
  have hlen := h.agree.length
  rw [expand_length h.good] at hlen
  obtain ⟨f, rest, rfl⟩ : ∃ f rest, fs = f :: rest := by
    cases fs with
    | nil => simp at hlen
    | cons f rest => exact ⟨f, rest, rfl⟩
  cases op with
  | enter =>
    cases hf; cases e
    obtain ⟨g1, g2⟩ := enter_good h.good
    refine ⟨g1, ?_⟩
    have : expand (enterScope T).cur (enterScope T).prev = T.cur.t :: expand T.cur T.prev := g2
    rw [this]
    refine ⟨?_, h.agree⟩
    have hc := h.cur
    exact ⟨hc.types, hc.tags, hc.ids, hc.keys⟩
  | leave =>
    obtain ⟨g1, g2⟩ := leave_good h.good e
    refine ⟨g1, ?_⟩
    rw [g2]
    have hag := h.agree
    rw [expand_head h.good] at hag
    cases rest with
    | nil => cases hf
    | cons g rest => cases hf; exact hag.2
  | type d => cases hf; exact apply_inv h (fun t' ht => addType_agree h.cur (by rw [h.scope] at ht; exact ht)) e
  | tag k d => cases hf; exact apply_inv h (fun t' ht => addTag_agree h.cur (by rw [h.scope] at ht; exact ht)) e
  | id d => cases hf; exact apply_inv h (fun t' ht => addId_agree h.cur (Or.inl ⟨rfl, rfl, rfl⟩) (by rw [h.scope] at ht; exact ht)) e
  | withs stmt es =>
    cases hf
    have := addAll_inv _ h e
    rw [withIds_eq] at this
    exact this

theorem run_inv {E : Env} (ops : List Op) : ∀ {T T' : SymTab} {fs fs' : List Frame}, Inv T fs → frames fs ops = some fs' → run E T ops = some T' → Inv T' fs' := by
  induction ops with
  | nil => intro T T' fs fs' h hf e; cases hf; cases e; exact h
  | cons op ops ih =>
    intro T T' fs fs' h hf e
    rw [frames] at hf
    rw [run] at e
    obtain ⟨f1, hf1, hf2⟩ := Option.bind_eq_some_iff.1 hf
    obtain ⟨T1, e1, e2⟩ := Option.bind_eq_some_iff.1 e
    exact ih (step_inv h hf1 e1) hf2 e2

theorem inv_empty : Inv SymTab.empty [[]] := by
  refine ⟨rfl, ?_, trivial⟩
  exact ⟨fun _ => rfl, fun _ _ => rfl, fun _ _ _ _ => rfl, fun _ => List.nodup_nil⟩

/-! ### Closed scopes -/

theorem apply_tail {T T' : SymTab} {o : Out} (h : Good T.cur T.prev) (e : apply T o = some T') : Good T'.cur T'.prev ∧ (expand T'.cur T'.prev).tail = (expand T.cur T.prev).tail := by
  cases o with
  | error => cases e
  | same => cases e; exact ⟨h, rfl⟩
  | put t => obtain ⟨g1, g2, -⟩ := apply_good h e; exact ⟨g1, by rw [g2]; rfl⟩

theorem addAll_tail {E : Env} {stmt : Nat} (l : List (Base × IdD)) : ∀ {T T' : SymTab}, Good T.cur T.prev → addAll E stmt T l = some T' →
    Good T'.cur T'.prev ∧ (expand T'.cur T'.prev).tail = (expand T.cur T.prev).tail := by
  induction l with
  | nil => intro T T' h e; cases e; exact ⟨h, rfl⟩
  | cons p l ih =>
    intro T T' h e
    rw [addAll] at e
    obtain ⟨T1, e1, e2⟩ := Option.bind_eq_some_iff.1 e
    obtain ⟨g1, g2⟩ := apply_tail h e1
    obtain ⟨g3, g4⟩ := ih g1 e2
    exact ⟨g3, g4.trans g2⟩

theorem drop_tail {α : Type} (l : List α) (n : Nat) : l.tail.drop n = l.drop (n + 1) := by cases l <;> simp

theorem run_tail {E : Env} (body : List Op) : ∀ (n : Nat) {T T' : SymTab}, Good T.cur T.prev → balanced n body = true → run E T body = some T' →
    Good T'.cur T'.prev ∧ (expand T'.cur T'.prev).tail = (expand T.cur T.prev).drop (n + 1) := by
  induction body with
  | nil =>
    intro n T T' h hb e
    cases e
    have : n = 0 := by simpa [balanced] using hb
    subst this
    exact ⟨h, by rw [← drop_tail]; rfl⟩
  | cons op body ih =>
    intro n T T' h hb e
    rw [run] at e
    obtain ⟨T1, e1, e2⟩ := Option.bind_eq_some_iff.1 e
    have hadd : (Good T1.cur T1.prev ∧ (expand T1.cur T1.prev).tail = (expand T.cur T.prev).tail) → balanced n body = true →
        Good T'.cur T'.prev ∧ (expand T'.cur T'.prev).tail = (expand T.cur T.prev).drop (n + 1) := by
      rintro ⟨g1, g2⟩ hb
      obtain ⟨g3, g4⟩ := ih n g1 hb e2
      exact ⟨g3, by rw [g4, ← drop_tail, g2, drop_tail]⟩
    cases op with
    | enter =>
      cases e1
      obtain ⟨g1, g2⟩ := enter_good h
      obtain ⟨g3, g4⟩ := ih (n + 1) g1 (by rw [balanced] at hb; exact hb) e2
      refine ⟨g3, ?_⟩
      rw [g4]
      have : expand (enterScope T).cur (enterScope T).prev = T.cur.t :: expand T.cur T.prev := g2
      rw [this]; rfl
    | leave =>
      cases n with
      | zero => simp [balanced] at hb
      | succ n =>
        obtain ⟨g1, g2⟩ := leave_good h e1
        obtain ⟨g3, g4⟩ := ih n g1 (by rw [balanced] at hb; exact hb) e2
        exact ⟨g3, by rw [g4, g2, drop_tail]⟩
    | type d => exact hadd (apply_tail h e1) (by rw [balanced] at hb <;> simp_all)
    | tag k d => exact hadd (apply_tail h e1) (by rw [balanced] at hb <;> simp_all)
    | id d => exact hadd (apply_tail h e1) (by rw [balanced] at hb <;> simp_all)
    | withs s es => exact hadd (addAll_tail _ h e1) (by rw [balanced] at hb <;> simp_all)

theorem restored {E : Env} {T T' : SymTab} {body : List Op} (h : Good T.cur T.prev) (hb : balanced 0 body = true) (e : run E (enterScope T) body = some T') :
    ∃ T'', leaveScope T' = some T'' ∧ T''.cur.t = T.cur.t ∧ expand T''.cur T''.prev = expand T.cur T.prev ∧ Good T''.cur T''.prev := by
  obtain ⟨g1, g2⟩ := enter_good h
  obtain ⟨g3, g4⟩ := run_tail body 0 g1 hb e
  have g2' : expand (enterScope T).cur (enterScope T).prev = T.cur.t :: expand T.cur T.prev := g2
  rw [g2'] at g4
  simp only [Nat.zero_add, List.drop_one, List.tail_cons] at g4
  have hl := expand_length g3
  have hl' := expand_length h
  have hs : T'.cur.scope ≠ 0 := by
    have := congrArg List.length g4
    rw [List.length_tail, hl, hl'] at this
    omega
  obtain ⟨T'', e''⟩ := leave_some g3 hs
  obtain ⟨g5, g6⟩ := leave_good g3 e''
  refine ⟨T'', e'', ?_, by rw [g6, g4], g5⟩
  have h1 := expand_head g5
  have h2 := expand_head h
  rw [g6, g4, h2] at h1
  exact (List.cons.inj h1).1.symm

/-! ### Rejected declarations -/

theorem apply_none {T : SymTab} {o : Out} : apply T o = none ↔ o = .error := by
  cases o <;> simp [apply]

theorem tag_rejected {E : Env} {t : Tables} {f : Frame} {fs : List Frame} {k : TagKind} {d : AggrD} (hs : E.strict = true) (h : Agree t (f :: fs)) :
    addTag E fs.length t k d = .error ↔ d.body = true ∧ ∃ e ∈ f.tags k d.name, e.body = true := by
  have hw : (∃ e ∈ f.tags k d.name, e.body = true) ↔ ∃ e, tagIn k d.name f = some e ∧ e.body = true := by
    rw [tagIn_eq, pick]
    constructor
    · rintro ⟨e, he, hb⟩
      cases hf : (f.tags k d.name).find? (fun d => d.body) with
      | none => have := List.find?_eq_none.1 hf e he; simp [hb] at this
      | some x => exact ⟨x, rfl, List.find?_some hf⟩
    · rintro ⟨e, he, hb⟩
      cases hf : (f.tags k d.name).find? (fun d => d.body) with
      | some x => exact ⟨x, List.mem_of_find?_eq_some hf, List.find?_some hf⟩
      | none =>
        rw [hf] at he
        exact ⟨e, List.mem_of_getLast? (by simpa using he), hb⟩
  rw [hw, addTag]
  have hf := h.tags k d.name
  cases hfind : (t.tags k).find d.name with
  | none =>
    rw [hfind] at hf
    simp [look_of_none hf.symm]
  | some e =>
    rw [hfind] at hf
    obtain ⟨l1, l2⟩ := look_of_located hf.symm
    by_cases hsc : e.scope = fs.length
    · simp only [hsc, if_true, addedDeclConflicts, hs, l1 hsc, Option.some.injEq, exists_eq_left']
      cases hb : e.decl.body <;> cases hd : d.body <;> simp
    · simp [hsc, l2 hsc]

theorem type_rejected {E : Env} {t : Tables} {f : Frame} {fs : List Frame} {d : TypeD} (hs : E.strict = true) (h : Agree t (f :: fs)) :
    addType E fs.length t d = .error ↔ ∃ e a b, typeIn d.name f = some e ∧ e.base = some b ∧ d.base = some a ∧ E.compat b a = false := by
  rw [addType]
  have hf := h.types d.name
  cases hfind : t.types.find d.name with
  | none =>
    rw [hfind] at hf
    simp [look_of_none hf.symm]
  | some e =>
    rw [hfind] at hf
    obtain ⟨l1, l2⟩ := look_of_located hf.symm
    by_cases hsc : e.scope = fs.length
    · simp only [hsc, if_true, addedTypeConflicts, hs, l1 hsc, Option.some.injEq, exists_eq_left']
      cases hb : e.decl.base with
      | none => simp [hb]
      | some b =>
        cases hd : d.base with
        | none => simp
        | some a => cases hc : E.compat b a <;> simp [hb, hc]
    · simp [hsc, l2 hsc]

theorem mem_ids {f : Frame} {n m : String} {p : IdD × Option Base} : p ∈ f.ids n m ↔ Entry.id p.1 p.2 ∈ f ∧ p.1.name = n ∧ p.1.mangled = m := by
  unfold Frame.ids
  rw [List.mem_filterMap]
  constructor
  · rintro ⟨x, hx, e⟩
    cases x with
    | type d => cases e
    | tag k d => cases e
    | id d b =>
      simp only at e
      split at e
      · rename_i hc; cases e; exact ⟨hx, hc⟩
      · cases e
  · rintro ⟨h1, h2⟩
    exact ⟨_, h1, by simp [h2]⟩

theorem idIn_mem {f : Frame} {n m : String} {s : Seen} (h : idIn n m f = some s) : (s.decl, s.base) ∈ f.ids n m := by
  rw [idIn] at h
  split at h
  · rename_i p later hd
    cases h
    exact (List.dropWhile_sublist _).subset (by rw [hd]; exact List.mem_cons_self)
  · cases hl : (f.ids n m).getLast? with
    | none => rw [hl] at h; cases h
    | some q =>
      rw [hl] at h; cases h
      exact List.mem_of_getLast? hl

theorem idIn_noWith {f : Frame} (hw : noWith f) {n m : String} {s : Seen} (h : idIn n m f = some s) : s.deleted = s.decl.deleted := by
  have hb : ∀ p ∈ f.ids n m, p.2 = none := fun p hp => hw _ _ (mem_ids.1 hp).1
  rw [idIn] at h
  split at h
  · rename_i p later hd
    have hsub : ∀ q ∈ p :: later, q ∈ f.ids n m := fun q hq => (List.dropWhile_sublist _).subset (by rw [hd]; exact hq)
    cases h
    have h1 := hb p (hsub p List.mem_cons_self)
    have h2 : later.any (fun q => q.2.isSome) = false := by
      rw [List.any_eq_false]
      intro q hq
      rw [hb q (hsub q (List.mem_cons_of_mem _ hq))]; simp
    simp [h1, h2]
  · cases hl : (f.ids n m).getLast? with
    | none => rw [hl] at h; cases h
    | some q =>
      rw [hl] at h; cases h
      simp [hb q (List.mem_of_getLast? hl)]

/-- The entries of the current scope, and what the scope says. -/
theorem entry_iff {t : Tables} {f : Frame} {fs : List Frame} (h : Agree t (f :: fs)) {n m : String} (hs : specialKind n = none) (hne : n ≠ "") {s : Seen} :
    (∃ e, (t.of n).find m = some e ∧ e.scope = fs.length ∧ view e = ⟨s, fs.length⟩) ↔ idIn n m f = some s := by
  have hl := h.ids n m hs hne
  constructor
  · rintro ⟨e, he, hsc, hv⟩
    rw [he, Option.map_some] at hl
    have := (look_of_located hl.symm).1 hsc
    rw [hv] at this
    exact this
  · intro hi
    rw [located_some hi] at hl
    cases hf : (t.of n).find m with
    | none => rw [hf] at hl; cases hl
    | some e =>
      rw [hf, Option.map_some, Option.some.injEq] at hl
      exact ⟨e, rfl, by rw [show e.scope = (view e).scope from rfl, hl], hl⟩

theorem any_iff {t : Tables} {f : Frame} {fs : List Frame} (h : Agree t (f :: fs)) {n : String} (hs : specialKind n = none) (hne : n ≠ "") (q : String → Bool) :
    ((t.of n).any fun p => p.2.scope == fs.length && !p.2.id.linkage.overloadable && q p.1) = true ↔ ∃ m s, idIn n m f = some s ∧ s.decl.linkage.overloadable = false ∧ q m = true := by
  rw [List.any_eq_true]
  constructor
  · rintro ⟨⟨m, e⟩, hp, hc⟩
    simp only [Bool.and_eq_true, beq_iff_eq, Bool.not_eq_true'] at hc
    obtain ⟨⟨h1, h2⟩, h3⟩ := hc
    have hf := ((h.keys n).mem m e).1 hp
    refine ⟨m, (view e).decl, (entry_iff h hs hne).1 ⟨e, hf, h1, ?_⟩, h2, h3⟩
    rw [← h1]; rfl
  · rintro ⟨m, s, hi, h2, h3⟩
    obtain ⟨e, hf, hsc, hv⟩ := (entry_iff h hs hne).2 hi
    refine ⟨(m, e), ((h.keys n).mem m e).2 hf, ?_⟩
    have : e.id = s.decl := by have := congrArg (fun x => x.decl.decl) hv; exact this
    simp [hsc, this, h2, h3]

theorem hasCompatible_of (k : Nat) (t : Tables) (n m : String) : hasCompatibleCDecl k t n m = (t.of n).any fun p => p.2.scope == k && !p.2.id.linkage.overloadable && p.1 == m := by
  unfold hasCompatibleCDecl Tables.of
  cases t.ids.find n <;> rfl

theorem hasIncompatible_of (k : Nat) (t : Tables) (n m : String) : hasIncompatibleCDecl k t n m = (t.of n).any fun p => p.2.scope == k && !p.2.id.linkage.overloadable && p.1 != m := by
  unfold hasIncompatibleCDecl Tables.of
  cases t.ids.find n <;> rfl

theorem id_rejected {E : Env} {t : Tables} {f : Frame} {fs : List Frame} {d : IdD} (hst : E.strict = true) (h : Agree t (f :: fs)) (hw : noWith f) (hs : specialKind d.name = none) (hne : d.name ≠ "") :
    addId E fs.length t d = .error ↔ ∃ e, denoted f e ∧ clash E.compat e d := by
  rw [addId, addIdToTable_plain E _ t d none none _ hs hne, hasCompatible_of, hasIncompatible_of]
  have c1 := any_iff h hs hne (fun p => p == d.mangled)
  have c2 := any_iff h hs hne (fun p => p != d.mangled)
  have key : ∀ m s, idIn d.name m f = some s → denoted f s.decl ∧ s.decl.name = d.name ∧ s.decl.mangled = m ∧ s.deleted = s.decl.deleted := by
    intro m s hi
    obtain ⟨-, e1, e2⟩ := mem_ids.1 (idIn_mem hi)
    simp only at e1 e2
    exact ⟨⟨s, by rw [e1, e2]; exact hi, rfl⟩, e1, e2, idIn_noWith hw hi⟩
  have hr : (∃ e, denoted f e ∧ clash E.compat e d) ↔ ∃ m s, idIn d.name m f = some s ∧ clash E.compat s.decl d := by
    constructor
    · rintro ⟨e, ⟨s, hi, rfl⟩, hc⟩
      exact ⟨_, s, by rw [← hc.1]; exact hi, hc⟩
    · rintro ⟨m, s, hi, hc⟩
      exact ⟨_, (key m s hi).1, hc⟩
  rw [hr]
  have P1 : ((d.linkage.overloadable && ((t.of d.name).any fun p => p.2.scope == fs.length && !p.2.id.linkage.overloadable && p.1 == d.mangled) && E.strict) = true) ↔
      d.linkage.overloadable = true ∧ ∃ s, idIn d.name d.mangled f = some s ∧ s.decl.linkage.overloadable = false := by
    rw [hst, Bool.and_true, Bool.and_eq_true, c1]
    constructor
    · rintro ⟨h1, m, s, h2, h3, h4⟩
      have hm : m = d.mangled := by simpa using h4
      subst hm
      exact ⟨h1, s, h2, h3⟩
    · rintro ⟨h1, s, h2, h3⟩
      exact ⟨h1, d.mangled, s, h2, h3, by simp⟩
  have P2 : ((!d.linkage.overloadable && ((t.of d.name).any fun p => p.2.scope == fs.length && !p.2.id.linkage.overloadable && p.1 != d.mangled) && E.strict) = true) ↔
      d.linkage.overloadable = false ∧ ∃ m s, idIn d.name m f = some s ∧ s.decl.linkage.overloadable = false ∧ m ≠ d.mangled := by
    rw [hst, Bool.and_true, Bool.and_eq_true, c2]
    simp
  have hclash : ∀ m s, idIn d.name m f = some s → (clash E.compat s.decl d ↔
      if m ≠ d.mangled then s.decl.linkage.overloadable = false ∧ d.linkage.overloadable = false
      else (s.decl.linkage.overloadable = false ∧ d.linkage.overloadable = true) ∨
        (s.decl.linkage.overrideable = false ∧ (s.decl.deleted ≠ d.deleted ∨ (s.decl.defn = true ∧ d.defn = true) ∨ (s.decl.linkage.overloadable = false ∧ E.compat d.type s.decl.type = false)))) := by
    intro m s hi
    obtain ⟨-, k2, k3, -⟩ := key m s hi
    rw [clash, k3]
    simp only [k2, true_and]
  split
  · rename_i p1
    obtain ⟨h1, s, h2, h3⟩ := P1.1 p1
    refine iff_of_true rfl ⟨_, s, h2, ?_⟩
    rw [hclash _ s h2, if_neg (by simp)]
    exact Or.inl ⟨h3, h1⟩
  · rename_i p1
    split
    · rename_i p2
      obtain ⟨h1, m, s, h2, h3, h4⟩ := P2.1 p2
      refine iff_of_true rfl ⟨_, s, h2, ?_⟩
      rw [hclash _ s h2, if_pos h4]
      exact ⟨h3, h1⟩
    · rename_i p2
      have red : (∃ m s, idIn d.name m f = some s ∧ clash E.compat s.decl d) ↔ ∃ s, idIn d.name d.mangled f = some s ∧
          s.decl.linkage.overrideable = false ∧ (s.decl.deleted ≠ d.deleted ∨ (s.decl.defn = true ∧ d.defn = true) ∨ (s.decl.linkage.overloadable = false ∧ E.compat d.type s.decl.type = false)) := by
        constructor
        · rintro ⟨m, s, hi, hc⟩
          rw [hclash m s hi] at hc
          by_cases hm : m ≠ d.mangled
          · rw [if_pos hm] at hc
            exact absurd (P2.2 ⟨hc.2, m, s, hi, hc.1, hm⟩) p2
          · rw [if_neg hm] at hc
            have hm : m = d.mangled := by simpa using hm
            subst hm
            rcases hc with ⟨x1, x2⟩ | x
            · exact absurd (P1.2 ⟨x2, s, hi, x1⟩) p1
            · exact ⟨s, hi, x⟩
        · rintro ⟨s, hi, hc⟩
          refine ⟨_, s, hi, ?_⟩
          rw [hclash _ s hi, if_neg (by simp)]
          exact Or.inr hc
      rw [red]
      have hl := h.ids d.name d.mangled hs hne
      cases hfind : (t.of d.name).find d.mangled with
      | none =>
        rw [hfind] at hl
        have := look_of_none hl.symm
        simp [this]
      | some e =>
        by_cases hsc : e.scope = fs.length
        · have hi : idIn d.name d.mangled f = some (view e).decl := (entry_iff h hs hne).1 ⟨e, hfind, hsc, by rw [← hsc]; rfl⟩
          obtain ⟨-, -, -, k4⟩ := key _ _ hi
          have k4 : e.deleter.isSome = e.id.deleted := k4
          rw [hi]
          simp only [hsc, if_true, Option.some.injEq, exists_eq_left']
          have hd : (if d.deleted = true then some d.id else none).isSome = d.deleted := by cases d.deleted <;> rfl
          have hd' : (if d.deleted = true then some d.id else none).isNone = !d.deleted := by cases d.deleted <;> rfl
          have k5 : e.deleter.isNone = !e.id.deleted := by rw [← k4]; cases e.deleter <;> rfl
          simp only [addedIdConflicts, hst, Option.isNone_none, Bool.true_and, if_true, hd, hd', k4, k5, view]
          cases e.id.linkage.overrideable <;> cases e.id.linkage.overloadable <;> cases E.compat d.type e.id.type <;> cases d.deleted <;> cases e.id.deleted <;> cases d.defn <;> cases e.id.defn <;> simp
        · have hi : idIn d.name d.mangled f = none := by
            rw [hfind, Option.map_some] at hl
            exact (look_of_located hl.symm).2 hsc
          simp [hsc, hi]

/-! ### `with` clauses are not rejected -/

/-- Every identifier of the scope can be overloaded. -/
def Overloadable (f : Frame) : Prop := ∀ d b, Entry.id d b ∈ f → d.linkage.overloadable = true

theorem with_accepted {E : Env} {stmt : Nat} {fs : List Frame} (l : List (Base × IdD)) (hl : ∀ p ∈ l, p.2.linkage.overloadable = true ∧ specialKind p.2.name = none) : ∀ {T : SymTab} {f : Frame},
    Inv T (f :: fs) → Overloadable f → ∃ T', addAll E stmt T l = some T' := by
  induction l with
  | nil => intro T f _ _; exact ⟨T, rfl⟩
  | cons p l ih =>
    intro T f h ho
    have hp := hl p List.mem_cons_self
    have hne : addIdToTable E T.cur.scope T.cur.t p.2 (some stmt) (some p.1) none ≠ .error := by
      by_cases hn : p.2.name = ""
      · rw [addIdToTable, if_pos hn]; simp
      rw [h.scope, addIdToTable_plain E _ _ p.2 _ _ _ hp.2 hn, hasCompatible_of]
      have c1 := any_iff h.cur hp.2 hn (fun q => q == p.2.mangled)
      rw [if_neg]
      · rw [if_neg (by simp [hp.1])]
        split
        · simp
        · split
          · split
            · rename_i hc
              rw [addedIdConflicts] at hc
              simp only [Option.isNone_some, Bool.false_and, Bool.false_eq_true, if_false] at hc
              repeat' split at hc
              all_goals cases hc
            · simp
            · simp
          · simp
      · intro hc
        simp only [Bool.and_eq_true] at hc
        obtain ⟨m, s, h1, h2, -⟩ := c1.1 hc.1.2
        have := ho _ _ (mem_ids.1 (idIn_mem h1)).1
        simp only at this
        rw [h2] at this
        cases this
    obtain ⟨T1, e1⟩ : ∃ T1, apply T (addIdToTable E T.cur.scope T.cur.t p.2 (some stmt) (some p.1) none) = some T1 := by
      cases hc : apply T (addIdToTable E T.cur.scope T.cur.t p.2 (some stmt) (some p.1) none) with
      | some T1 => exact ⟨T1, rfl⟩
      | none => exact absurd (apply_none.1 hc) hne
    have h1 : Inv T1 ((f ++ [.id p.2 (some p.1)]) :: fs) := by
      refine apply_inv h (fun t' ht => ?_) e1
      rw [h.scope] at ht
      exact addId_agree h.cur (Or.inr ⟨rfl, rfl, rfl⟩) ht
    obtain ⟨T2, e2⟩ := ih (fun q hq => hl q (List.mem_cons_of_mem _ hq)) h1 (by
      intro d b hm
      rcases List.mem_append.1 hm with hm | hm
      · exact ho d b hm
      · rw [List.mem_singleton] at hm; cases hm; exact hp.1)
    exact ⟨T2, by rw [addAll, e1]; exact e2⟩

end Verif.Symbols
