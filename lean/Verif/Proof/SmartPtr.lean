import Verif.Spec.SmartPtr
import Verif.Proof.Heap

namespace Verif.SmartPtr

/-! ## Counting -/

/-- How many numbers below `n` satisfy `p`. -/
def num (p : Nat → Bool) (n : Nat) : Nat := ((List.range n).filter p).length

theorem num_succ (p : Nat → Bool) (n : Nat) : num p (n + 1) = num p n + if p n then 1 else 0 := by
  simp only [num, List.range_succ, List.filter_append, List.length_append]
  cases h : p n <;> simp [h]

theorem num_congr {p q : Nat → Bool} : ∀ {n : Nat}, (∀ i, i < n → p i = q i) → num p n = num q n
  | 0, _ => rfl
  | n + 1, h => by rw [num_succ, num_succ, num_congr (n := n) fun i hi => h i (by omega), h n (by omega)]

theorem num_change {p q : Nat → Bool} {s : Nat} : ∀ {n : Nat}, s < n → (∀ i, i ≠ s → p i = q i) → num p n + (if q s then 1 else 0) = num q n + if p s then 1 else 0
  | 0, h, _ => by omega
  | n + 1, hs, h => by
    rw [num_succ, num_succ]
    by_cases he : s = n
    · subst he; rw [num_congr (p := p) (q := q) fun i hi => h i (by omega)]; omega
    · have := num_change (n := n) (p := p) (q := q) (s := s) (by omega) h
      rw [h n (by omega)]; omega

theorem num_pos {p : Nat → Bool} {s : Nat} : ∀ {n : Nat}, s < n → p s = true → 0 < num p n
  | 0, h, _ => by omega
  | n + 1, hs, h => by
    rw [num_succ]
    by_cases he : s = n
    · subst he; simp [h]
    · have := num_pos (n := n) (p := p) (s := s) (by omega) h; omega

theorem num_le (p : Nat → Bool) : ∀ n, num p n ≤ n
  | 0 => Nat.le_refl _
  | n + 1 => by rw [num_succ]; have := num_le p n; split <;> omega

theorem num_mono {p q : Nat → Bool} : ∀ {n : Nat}, (∀ i, p i = true → q i = true) → num p n ≤ num q n
  | 0, _ => Nat.le_refl _
  | n + 1, h => by
    rw [num_succ, num_succ]
    have h1 := num_mono (n := n) h
    have h2 := h n
    by_cases e : p n = true
    · rw [if_pos e, if_pos (h2 e)]; omega
    · rw [if_neg e]; omega

theorem num_exists {p : Nat → Bool} : ∀ {n : Nat}, num p n ≠ 0 → ∃ s, s < n ∧ p s = true
  | 0, h => absurd rfl h
  | n + 1, h => by
    by_cases hp : p n = true
    · exact ⟨n, by omega, hp⟩
    · rw [num_succ, if_neg hp] at h
      obtain ⟨s, h1, h2⟩ := num_exists h
      exact ⟨s, by omega, h2⟩

theorem num_grow {p : Nat → Bool} {n : Nat} : ∀ {k : Nat}, (∀ i, n ≤ i → i < n + k → p i = false) → num p (n + k) = num p n
  | 0, _ => rfl
  | k + 1, h => by
    rw [← Nat.add_assoc, num_succ, h (n + k) (by omega) (by omega), num_grow fun i h1 h2 => h i h1 (by omega)]; simp

/-- How many pointers other than `ex` point to `a`. -/
def cnt (st : St) (ex a : Nat) : Nat := num (fun s => s ≠ ex ∧ st.slot s = some a) st.fresh

/-- How much there is to be destroyed. -/
def size (st : St) : Nat := num (fun s => (st.slot s).isSome) st.fresh + num (fun a => (st.obj a).isSome) st.fresh

/-! ## The invariant while objects are deleted -/

/-- A pointer that no item destroys. -/
def Root (st : St) (items : List Item) (s : Nat) : Prop := Var st s ∧ Item.slot s ∉ items

/-- `items` are to be done, and the pointer `ex` has given up its object. -/
structure Inv (ex : Nat) (items : List Item) (st : St) : Prop where
  fpos : 0 < st.fresh
  sbound : ∀ s, st.fresh ≤ s → st.slot s = none
  obound : ∀ a, st.fresh ≤ a → st.obj a = none
  szero : st.slot 0 = none
  ozero : st.obj 0 = none
  val : ∀ s v, s ≠ ex → st.slot s = some v → v ≠ 0 → (st.obj v).isSome
  count : ∀ a o, st.obj a = some o → o.count = cnt st ex a
  few : ∀ a, a ≠ 0 → cnt st ex a < 2 ^ 32
  nodup : items.Nodup
  islot : ∀ s, Item.slot s ∈ items → (st.slot s).isSome ∧ s ≠ ex
  ifree : ∀ a, Item.free a ∈ items → ∃ o, st.obj a = some o ∧ o.count = 0
  dead : ∀ a o, st.obj a = some o → o.count = 0 → Item.free a ∈ items
  mems : ∀ a o, st.obj a = some o → o.count ≠ 0 → o.mems.Nodup ∧ ∀ s ∈ o.mems, (st.slot s).isSome ∧ Item.slot s ∉ items
  disj : ∀ a b o o' s, st.obj a = some o → st.obj b = some o' → o.count ≠ 0 → o'.count ≠ 0 → s ∈ o.mems → s ∈ o'.mems → a = b
  once : st.log.Nodup
  logdead : ∀ a o, a ∈ st.log → st.obj a = some o → o.count = 0
  zerolog : ∀ a o, st.obj a = some o → o.count = 0 → a ∈ st.log
  logmade : ∀ a, a ∈ st.log → a ∈ st.made
  madelog : ∀ a, a ∈ st.made → st.obj a = none → a ∈ st.log
  objmade : ∀ a o, st.obj a = some o → a ∈ st.made
  madebound : ∀ a, a ∈ st.made → a < st.fresh
  exlive : ex ≠ 0 → (st.slot ex).isSome ∧ (Root st items ex ∨ ∃ b o, Held st (Root st items) ex b ∧ st.obj b = some o ∧ ex ∈ o.mems)

theorem Inv.lt {ex : Nat} {items : List Item} {st : St} (h : Inv ex items st) {s v : Nat} (hs : st.slot s = some v) : s < st.fresh :=
  Nat.lt_of_not_le fun g => by rw [h.sbound s g] at hs; cases hs

theorem Inv.olt {ex : Nat} {items : List Item} {st : St} (h : Inv ex items st) {a : Nat} {o : Obj} (hs : st.obj a = some o) : a < st.fresh :=
  Nat.lt_of_not_le fun g => by rw [h.obound a g] at hs; cases hs

theorem Inv.pos {ex : Nat} {items : List Item} {st : St} (h : Inv ex items st) {s v : Nat} (hs : st.slot s = some v) (he : s ≠ ex) : 0 < cnt st ex v :=
  num_pos (h.lt hs) (by simp [he, hs])

/-- An object that is held is not being deleted. -/
theorem Inv.held {ex : Nat} {items : List Item} {st : St} (h : Inv ex items st) {R : Nat → Prop} {b : Nat} (hb : Held st R ex b) : ∃ o, st.obj b = some o ∧ o.count ≠ 0 := by
  have key : ∀ s, s ≠ ex → st.slot s = some b → b ≠ 0 → ∃ o, st.obj b = some o ∧ o.count ≠ 0 := by
    intro s h1 h2 h3
    obtain ⟨o, ho⟩ := Option.isSome_iff_exists.1 (h.val s b h1 h2 h3)
    exact ⟨o, ho, by rw [h.count b o ho]; have := h.pos h2 h1; omega⟩
  cases hb with
  | var _ h1 h2 h3 => exact key _ h1 h2 h3
  | mem _ _ _ h1 h2 h3 => exact key _ h1 h2 h3

theorem Inv.held_slot {ex : Nat} {items : List Item} {st : St} (h : Inv ex items st) {b : Nat} (hb : Held st (Root st items) ex b) : ∃ s, s ≠ ex ∧ st.slot s = some b ∧ Item.slot s ∉ items := by
  cases hb with
  | var h1 h2 h3 _ => exact ⟨_, h2, h3, h1.2⟩
  | mem hb ho hm h1 h2 _ =>
    obtain ⟨o', ho', hc⟩ := h.held hb
    rw [ho] at ho'; cases ho'
    exact ⟨_, h1, h2, ((h.mems _ _ ho hc).2 _ hm).2⟩

/-- What stays while items are done. -/
structure Kept (items : List Item) (st st' : St) : Prop where
  fresh : st'.fresh = st.fresh
  made : st'.made = st.made
  same : ∀ r v, st'.slot r = some v → st.slot r = some v
  mems : ∀ a o, st'.obj a = some o → ∃ o', st.obj a = some o' ∧ o'.mems = o.mems
  root : ∀ r, Root st items r → st'.slot r = st.slot r
  held : ∀ ex b o, Inv ex items st → Held st (Root st items) ex b → st.obj b = some o → ∃ o', st'.obj b = some o' ∧ o'.mems = o.mems ∧ ∀ r ∈ o.mems, st'.slot r = st.slot r

/-- Held objects stay held if the pointers that no item destroys stay. -/
theorem Held.keep {ex : Nat} {items items' : List Item} {st st' : St} (h : Inv ex items st)
    (hs : ∀ s, Item.slot s ∉ items → st'.slot s = st.slot s) (ho : ∀ b o, st.obj b = some o → o.count ≠ 0 → Held st (Root st items) ex b → ∃ o', st'.obj b = some o' ∧ o'.mems = o.mems)
    (hr : ∀ s, Root st items s → Root st' items' s) {a : Nat} (ha : Held st (Root st items) ex a) : Held st' (Root st' items') ex a := by
  induction ha with
  | var h1 h2 h3 h4 => exact .var (hr _ h1) h2 (by rw [hs _ h1.2]; exact h3) h4
  | mem hb hob hm h1 h2 h3 ih =>
    obtain ⟨o', ho', hc⟩ := h.held hb
    rw [hob] at ho'; cases ho'
    obtain ⟨o2, ho2, he⟩ := ho _ _ hob hc hb
    exact .mem ih ho2 (by rw [he]; exact hm) h1 (by rw [hs _ ((h.mems _ _ hob hc).2 _ hm).2]; exact h2) h3

theorem step_free {ex a : Nat} {is : List Item} {st : St} (h : Inv ex (.free a :: is) st) : ∃ o, st.obj a = some o ∧ Inv ex is { st with obj := upd st.obj a none } ∧
    Kept (.free a :: is) st { st with obj := upd st.obj a none } ∧ (∀ r, Root st (.free a :: is) r → Root { st with obj := upd st.obj a none } is r) ∧
    (∀ b, Held st (Root st (.free a :: is)) ex b → Held { st with obj := upd st.obj a none } (Root { st with obj := upd st.obj a none } is) ex b) ∧
    size { st with obj := upd st.obj a none } < size st := by
  obtain ⟨o, ho, hc⟩ := h.ifree a (List.mem_cons_self ..)
  have hnd := List.nodup_cons.1 h.nodup
  have sub : ∀ b o', (upd st.obj a none) b = some o' → b ≠ a ∧ st.obj b = some o' := by
    intro b o' hb
    by_cases e : b = a
    · subst e; simp at hb
    · rw [upd_ne _ _ e] at hb; exact ⟨e, hb⟩
  have hroot : ∀ r, Root st (.free a :: is) r → Root { st with obj := upd st.obj a none } is r := fun r hr =>
    ⟨⟨hr.1.1, fun b o' hb => hr.1.2 b o' (sub b o' hb).2⟩, fun hm => hr.2 (List.mem_cons_of_mem _ hm)⟩
  have hne : ∀ b o', st.obj b = some o' → o'.count ≠ 0 → upd st.obj a none b = some o' := by
    intro b o' h1 h2
    rw [upd_ne _ _ (by rintro rfl; rw [ho] at h1; cases h1; exact h2 hc)]; exact h1
  have keep : ∀ b, Held st (Root st (.free a :: is)) ex b → Held { st with obj := upd st.obj a none } (Root { st with obj := upd st.obj a none } is) ex b := fun b hb =>
    Held.keep (st' := { st with obj := upd st.obj a none }) h (fun _ _ => rfl) (fun b o' h1 h2 _ => ⟨o', hne b o' h1 h2, rfl⟩) hroot hb
  refine ⟨o, ho, ?_, ⟨rfl, rfl, fun _ _ h => h, fun b o' hb => ⟨o', (sub b o' hb).2, rfl⟩, fun _ _ => rfl, fun ex' b o' h' hb hob => ?_⟩, hroot, keep, ?_⟩
  · constructor
    case fpos => exact h.fpos
    case sbound => exact h.sbound
    case obound => intro b hb; by_cases e : b = a <;> simp [upd, e]; exact h.obound b hb
    case szero => exact h.szero
    case ozero => simp only [upd]; split <;> first | rfl | exact h.ozero
    case val =>
      intro s v h1 h2 h3
      have hv := h.val s v h1 h2 h3
      rw [show ({ st with obj := upd st.obj a none } : St).obj v = st.obj v from upd_ne _ _ (by
        rintro rfl
        have := h.count _ _ ho
        have := h.pos h2 h1
        omega)]
      exact hv
    case count => intro b o' hb; exact h.count b o' (sub b o' hb).2
    case few => exact h.few
    case nodup => exact hnd.2
    case islot => intro s hs; exact h.islot s (List.mem_cons_of_mem _ hs)
    case ifree =>
      intro b hb
      obtain ⟨o', h1, h2⟩ := h.ifree b (List.mem_cons_of_mem _ hb)
      exact ⟨o', by show upd st.obj a none b = _; rw [upd_ne _ _ (by rintro rfl; exact hnd.1 hb)]; exact h1, h2⟩
    case dead =>
      intro b o' hb hz
      obtain ⟨e, hb⟩ := sub b o' hb
      rcases List.mem_cons.1 (h.dead b o' hb hz) with g | g
      · cases g; exact absurd rfl e
      · exact g
    case mems =>
      intro b o' hb hz
      obtain ⟨h1, h2⟩ := h.mems b o' (sub b o' hb).2 hz
      exact ⟨h1, fun s hs => ⟨(h2 s hs).1, fun g => (h2 s hs).2 (List.mem_cons_of_mem _ g)⟩⟩
    case disj => intro b c o1 o2 s h1 h2; exact h.disj b c o1 o2 s (sub _ _ h1).2 (sub _ _ h2).2
    case once => exact h.once
    case logdead => intro b o' hb ho'; exact h.logdead b o' hb (sub _ _ ho').2
    case zerolog => intro b o' ho'; exact h.zerolog b o' (sub _ _ ho').2
    case logmade => exact h.logmade
    case madelog =>
      intro b hb hn
      by_cases e : b = a
      · subst e; exact h.zerolog _ _ ho hc
      · exact h.madelog b hb (by rw [show ({ st with obj := upd st.obj a none } : St).obj b = st.obj b from upd_ne _ _ e] at hn; exact hn)
    case objmade => intro b o' ho'; exact h.objmade b o' (sub _ _ ho').2
    case madebound => exact h.madebound
    case exlive =>
      intro he
      obtain ⟨h1, h2⟩ := h.exlive he
      refine ⟨h1, h2.imp (hroot _) ?_⟩
      rintro ⟨b, o', hb, hob, hm⟩
      obtain ⟨o2, ho2, hz⟩ := h.held hb
      rw [hob] at ho2; cases ho2
      exact ⟨b, o', keep b hb, hne _ _ hob hz, hm⟩
  · obtain ⟨o2, ho2, hz⟩ := h'.held hb
    rw [hob] at ho2; cases ho2
    exact ⟨o', hne b o' hob hz, rfl, fun _ _ => rfl⟩
  · have := num_change (p := fun b => ((upd st.obj a none) b).isSome) (q := fun b => (st.obj b).isSome) (h.olt ho) (fun i hi => by simp [upd, hi])
    simp only [ho, upd_same, Option.isSome_some, Option.isSome_none, if_true] at this
    simp only [size]; simp at this; omega

theorem step_slot_gen {ex s v : Nat} {is js : List Item} {st st' : St} (h : Inv ex (.slot s :: is) st) (hv : st.slot s = some v)
    (h1 : st'.slot = upd st.slot s none) (h2 : st'.fresh = st.fresh) (h3 : st'.made = st.made)
    (hcnt : ∀ b o', st'.obj b = some o' → o'.count = cnt st' ex b)
    (hback : ∀ b o', st'.obj b = some o' → ∃ o, st.obj b = some o ∧ o'.mems = o.mems ∧ (o.count = 0 → o'.count = 0))
    (hfor : ∀ b o, st.obj b = some o → ∃ o', st'.obj b = some o' ∧ o'.mems = o.mems)
    (hjs : (js = [] ∧ st'.log = st.log ∧ ∀ b o o', st.obj b = some o → st'.obj b = some o' → o'.count = 0 → o.count = 0) ∨
      ∃ o, st.obj v = some o ∧ o.count ≠ 0 ∧ js = o.mems.map .slot ++ [.free v] ∧ st'.log = v :: st.log ∧ (∀ o', st'.obj v = some o' → o'.count = 0) ∧
        ∀ b o o', b ≠ v → st.obj b = some o → st'.obj b = some o' → o'.count = 0 → o.count = 0) :
    Inv ex (js ++ is) st' ∧ Kept (.slot s :: is) st st' ∧ (∀ r, Root st (.slot s :: is) r → Root st' (js ++ is) r) ∧
      (∀ b, Held st (Root st (.slot s :: is)) ex b → Held st' (Root st' (js ++ is)) ex b) ∧ size st' < size st := by
  have hnd := List.nodup_cons.1 h.nodup
  have hse : s ≠ ex := (h.islot s (List.mem_cons_self ..)).2
  have hslt := h.lt hv
  have slot_ne : ∀ r, r ≠ s → st'.slot r = st.slot r := fun r hr => by rw [h1, upd_ne _ _ hr]
  have slot_sub : ∀ r w, st'.slot r = some w → r ≠ s ∧ st.slot r = some w := by
    intro r w hr
    have : r ≠ s := by rintro rfl; rw [h1] at hr; simp at hr
    exact ⟨this, by rw [← slot_ne r this]; exact hr⟩
  have none_back : ∀ b, st'.obj b = none → st.obj b = none := by
    intro b hb
    cases e : st.obj b with
    | none => rfl
    | some o => obtain ⟨o', ho', -⟩ := hfor b o e; rw [hb] at ho'; cases ho'
  have none_for : ∀ b, st.obj b = none → st'.obj b = none := by
    intro b hb
    cases e : st'.obj b with
    | none => rfl
    | some o => obtain ⟨o', ho', -⟩ := hback b o e; rw [hb] at ho'; cases ho'
  have js_slot : ∀ r, Item.slot r ∈ js → ∃ o, st.obj v = some o ∧ o.count ≠ 0 ∧ r ∈ o.mems ∧ (∀ o', st'.obj v = some o' → o'.count = 0) := by
    intro r hr
    rcases hjs with ⟨rfl, -⟩ | ⟨o, ho, hc, rfl, -, hz, -⟩
    · simp at hr
    · simp at hr; exact ⟨o, ho, hc, hr, hz⟩
  have hroot : ∀ r, Root st (.slot s :: is) r → Root st' (js ++ is) r := by
    intro r hr
    have hrs : r ≠ s := by rintro rfl; exact hr.2 (List.mem_cons_self ..)
    refine ⟨⟨by rw [slot_ne r hrs]; exact hr.1.1, fun b o' hb hm => ?_⟩, fun hm => ?_⟩
    · obtain ⟨o, ho, he, -⟩ := hback b o' hb
      exact hr.1.2 b o ho (he ▸ hm)
    · rcases List.mem_append.1 hm with g | g
      · obtain ⟨o, ho, -, hmem, -⟩ := js_slot r g
        exact hr.1.2 v o ho hmem
      · exact hr.2 (List.mem_cons_of_mem _ g)
  have keep : ∀ {b}, Held st (Root st (.slot s :: is)) ex b → Held st' (Root st' (js ++ is)) ex b := fun hb =>
    Held.keep h (fun r hr => slot_ne r (by rintro rfl; exact hr (List.mem_cons_self ..))) (fun b o ho _ _ => hfor b o ho) hroot hb
  have heldcount : ∀ {b o'}, Held st (Root st (.slot s :: is)) ex b → st'.obj b = some o' → o'.count ≠ 0 := by
    intro b o' hb ho'
    obtain ⟨r, hr1, hr2, hr3⟩ := h.held_slot hb
    have hrs : r ≠ s := by rintro rfl; exact hr3 (List.mem_cons_self ..)
    rw [hcnt b o' ho']
    have : 0 < cnt st' ex b := by
      refine num_pos (s := r) (by rw [h2]; exact h.lt hr2) ?_
      simp only [slot_ne r hrs, hr2]; simp [hr1]
    omega
  have exnot : ∀ {r}, Item.slot r ∈ js → r ≠ ex := by
    rintro r hr rfl
    obtain ⟨o, ho, hc, hm, hz⟩ := js_slot r hr
    have hr0 : r ≠ 0 := by
      rintro rfl
      have := ((h.mems v o ho hc).2 0 hm).1
      rw [h.szero] at this; cases this
    rcases (h.exlive hr0).2 with g | ⟨b, ob, hb, hob, hmb⟩
    · exact g.1.2 v o ho hm
    · obtain ⟨ob', hob', hcb⟩ := h.held hb
      rw [hob] at hob'; cases hob'
      have := h.disj v b o ob r ho hob hc hcb hm hmb
      subst this
      obtain ⟨o', ho', -⟩ := hfor v o ho
      exact heldcount hb ho' (hz o' ho')
  have hcntle : ∀ a, cnt st' ex a ≤ cnt st ex a := by
    intro a
    have := num_change (p := fun r => decide (r ≠ ex ∧ st'.slot r = some a)) (q := fun r => decide (r ≠ ex ∧ st.slot r = some a)) hslt (fun i hi => by simp only [slot_ne i hi])
    simp only [cnt, h2]
    have e : decide (s ≠ ex ∧ st'.slot s = some a) = false := by simp [h1]
    rw [e] at this
    simp only [Bool.false_eq_true, if_false] at this
    omega
  refine ⟨?_, ⟨h2, h3, fun r w hr => (slot_sub r w hr).2, fun b o' hb => ?_, fun r hr => slot_ne r (by rintro rfl; exact hr.2 (List.mem_cons_self ..)),
    fun ex' b o h' hb ho => ?_⟩, hroot, fun b hb => keep hb, ?_⟩
  · constructor
    case fpos => rw [h2]; exact h.fpos
    case sbound => intro r hr; rw [h1, h2] at *; by_cases e : r = s <;> simp [upd, e]; exact h.sbound r hr
    case obound => intro b hb; rw [h2] at hb; exact none_for b (h.obound b hb)
    case szero => rw [h1]; simp only [upd]; split <;> first | rfl | exact h.szero
    case ozero => exact none_for 0 h.ozero
    case val =>
      intro r w hr hw hne
      obtain ⟨o, ho⟩ := Option.isSome_iff_exists.1 (h.val r w hr (slot_sub r w hw).2 hne)
      obtain ⟨o', ho', -⟩ := hfor w o ho
      rw [ho']; rfl
    case count => exact hcnt
    case few => intro a ha; exact Nat.lt_of_le_of_lt (hcntle a) (h.few a ha)
    case nodup =>
      rcases hjs with ⟨rfl, -⟩ | ⟨o, ho, hc, rfl, -, -⟩
      · exact hnd.2
      · obtain ⟨m1, m2⟩ := h.mems v o ho hc
        have hfv : Item.free v ∉ is := by
          intro hm
          obtain ⟨o', ho', hz⟩ := h.ifree v (List.mem_cons_of_mem _ hm)
          rw [ho] at ho'; cases ho'; exact hc hz
        rw [List.append_assoc, List.nodup_append]
        refine ⟨?_, ?_, ?_⟩
        · exact List.Nodup.map (f := Item.slot) (fun a b h => by cases h; rfl) m1
        · exact List.nodup_cons.2 ⟨hfv, hnd.2⟩
        · rintro x hx y hy rfl
          obtain ⟨r, hr, rfl⟩ := List.mem_map.1 hx
          rcases List.mem_cons.1 hy with g | g
          · cases g
          · exact (m2 r hr).2 (List.mem_cons_of_mem _ g)
    case islot =>
      intro r hr
      rcases List.mem_append.1 hr with g | g
      · obtain ⟨o, ho, hc, hm, -⟩ := js_slot r g
        obtain ⟨g1, g2⟩ := (h.mems v o ho hc).2 r hm
        refine ⟨?_, exnot g⟩
        rw [slot_ne r (by rintro rfl; exact g2 (List.mem_cons_self ..))]; exact g1
      · obtain ⟨g1, g2⟩ := h.islot r (List.mem_cons_of_mem _ g)
        exact ⟨by rw [slot_ne r (by rintro rfl; exact hnd.1 g)]; exact g1, g2⟩
    case ifree =>
      intro b hb
      rcases List.mem_append.1 hb with g | g
      · rcases hjs with ⟨rfl, -⟩ | ⟨o, ho, hc, rfl, -, hz, -⟩
        · simp at g
        · simp at g; subst g
          obtain ⟨o', ho', -⟩ := hfor b o ho
          exact ⟨o', ho', hz o' ho'⟩
      · obtain ⟨o, ho, hz⟩ := h.ifree b (List.mem_cons_of_mem _ g)
        obtain ⟨o', ho', -⟩ := hfor b o ho
        obtain ⟨o2, ho2, -, hi⟩ := hback b o' ho'
        rw [ho] at ho2; cases ho2
        exact ⟨o', ho', hi hz⟩
    case dead =>
      intro b o' hb hz
      obtain ⟨o, ho, -⟩ := hback b o' hb
      have old : o.count = 0 → Item.free b ∈ js ++ is := by
        intro g
        rcases List.mem_cons.1 (h.dead b o ho g) with g | g
        · cases g
        · exact List.mem_append_right _ g
      rcases hjs with ⟨rfl, -, hn⟩ | ⟨o2, ho2, hc, rfl, -, -, hn⟩
      · exact old (hn b o o' ho hb hz)
      · by_cases e : b = v
        · subst e; simp
        · exact old (hn b o o' e ho hb hz)
    case mems =>
      intro b o' hb hz
      obtain ⟨o, ho, he, hi⟩ := hback b o' hb
      have hoc : o.count ≠ 0 := fun g => hz (hi g)
      obtain ⟨g1, g2⟩ := h.mems b o ho hoc
      refine ⟨he ▸ g1, fun r hr => ?_⟩
      obtain ⟨k1, k2⟩ := g2 r (he ▸ hr)
      refine ⟨by rw [slot_ne r (by rintro rfl; exact k2 (List.mem_cons_self ..))]; exact k1, fun hm => ?_⟩
      rcases List.mem_append.1 hm with g | g
      · obtain ⟨o2, ho2, hc2, hm2, hz2⟩ := js_slot r g
        have := h.disj b v o o2 r ho ho2 hoc hc2 (he ▸ hr) hm2
        subst this
        exact hz (hz2 o' hb)
      · exact k2 (List.mem_cons_of_mem _ g)
    case disj =>
      intro a b o o' r ha hb hca hcb hra hrb
      obtain ⟨p, hp, ep, ip⟩ := hback a o ha
      obtain ⟨q, hq, eq, iq⟩ := hback b o' hb
      exact h.disj a b p q r hp hq (fun g => hca (ip g)) (fun g => hcb (iq g)) (ep ▸ hra) (eq ▸ hrb)
    case once =>
      rcases hjs with ⟨-, hl, -⟩ | ⟨o, ho, hc, -, hl, -⟩
      · rw [hl]; exact h.once
      · rw [hl]; exact List.nodup_cons.2 ⟨fun hm => hc (h.logdead v o hm ho), h.once⟩
    case logdead =>
      intro b o' hb ho'
      obtain ⟨o, ho, -, hi⟩ := hback b o' ho'
      rcases hjs with ⟨-, hl, -⟩ | ⟨o2, ho2, hc, -, hl, hz, -⟩
      · rw [hl] at hb; exact hi (h.logdead b o hb ho)
      · rw [hl] at hb
        rcases List.mem_cons.1 hb with rfl | g
        · exact hz o' ho'
        · exact hi (h.logdead b o g ho)
    case zerolog =>
      intro b o' ho' hz
      obtain ⟨o, ho, -⟩ := hback b o' ho'
      rcases hjs with ⟨-, hl, hn⟩ | ⟨o2, ho2, hc, -, hl, -, hn⟩
      · rw [hl]; exact h.zerolog b o ho (hn b o o' ho ho' hz)
      · rw [hl]
        by_cases e : b = v
        · subst e; exact List.mem_cons_self ..
        · exact List.mem_cons_of_mem _ (h.zerolog b o ho (hn b o o' e ho ho' hz))
    case logmade =>
      intro b hb
      rw [h3]
      rcases hjs with ⟨-, hl, -⟩ | ⟨o, ho, hc, -, hl, -⟩
      · rw [hl] at hb; exact h.logmade b hb
      · rw [hl] at hb
        rcases List.mem_cons.1 hb with rfl | g
        · exact h.objmade _ _ ho
        · exact h.logmade b g
    case madelog =>
      intro b hb hn
      rw [h3] at hb
      have := h.madelog b hb (none_back b hn)
      rcases hjs with ⟨-, hl, -⟩ | ⟨o, ho, hc, -, hl, -⟩
      · rw [hl]; exact this
      · rw [hl]; exact List.mem_cons_of_mem _ this
    case objmade => intro b o' hb; rw [h3]; obtain ⟨o, ho, -⟩ := hback b o' hb; exact h.objmade b o ho
    case madebound => intro b hb; rw [h3] at hb; rw [h2]; exact h.madebound b hb
    case exlive =>
      intro he
      obtain ⟨g1, g2⟩ := h.exlive he
      refine ⟨by rw [slot_ne ex (Ne.symm hse)]; exact g1, g2.imp (hroot _) ?_⟩
      rintro ⟨b, o, hb, ho, hm⟩
      obtain ⟨o', ho', e⟩ := hfor b o ho
      exact ⟨b, o', keep hb, ho', e ▸ hm⟩
  · obtain ⟨o, ho, e, -⟩ := hback b o' hb
    exact ⟨o, ho, e.symm⟩
  · obtain ⟨o', ho', e⟩ := hfor b o ho
    obtain ⟨o2, ho2, hc⟩ := h'.held hb
    rw [ho] at ho2; cases ho2
    exact ⟨o', ho', e, fun r hr => slot_ne r (by rintro rfl; exact ((h'.mems b o ho hc).2 _ hr).2 (List.mem_cons_self ..))⟩
  · have := num_change (p := fun r => (st'.slot r).isSome) (q := fun r => (st.slot r).isSome) hslt (fun i hi => by simp only [slot_ne i hi])
    have e : num (fun a => (st'.obj a).isSome) st.fresh = num (fun a => (st.obj a).isSome) st.fresh := by
      refine num_congr fun i _ => ?_
      cases g : st.obj i with
      | none => rw [none_for i g]
      | some o => obtain ⟨o', ho', -⟩ := hfor i o g; rw [ho']; rfl
    simp only [size, h2, e]
    rw [hv, h1] at this
    simp only [upd_same, Option.isSome_some, Option.isSome_none, if_true] at this
    rw [h1]; simp at this; omega

/-- The counter after a decrement. -/
theorem dec_count {c : Nat} (h : 0 < c) (h2 : c < 2 ^ 32) : (c + 2 ^ 32 - 1) % 2 ^ 32 = c - 1 := by omega

/-- What `decrement` does if the counter is right before. -/
theorem decrement_eq {v : Nat} {st : St} {o : Obj} (hv : v ≠ 0) (ho : st.obj v = some o) (h : 0 < o.count) (h2 : o.count < 2 ^ 32) :
    decrement v st = if o.count = 1 then some (delete v o { st with obj := upd st.obj v (some { o with count := 0 }) })
      else some ({ st with obj := upd st.obj v (some { o with count := o.count - 1 }) }, []) := by
  simp only [decrement, if_neg hv, ho, dec_count h h2]
  by_cases h1 : o.count = 1
  · simp [h1]
  · rw [if_neg (by omega), if_neg h1]

/-- The facts about the objects after `decrement` that the two steps below share. -/
structure Dec (ex v : Nat) (js : List Item) (st st' : St) : Prop where
  fresh : st'.fresh = st.fresh
  made : st'.made = st.made
  slot : st'.slot = st.slot
  cnt : ∀ b o o', st.obj b = some o → st'.obj b = some o' → o'.count + (if b = v then 1 else 0) = o.count
  back : ∀ b o', st'.obj b = some o' → ∃ o, st.obj b = some o ∧ o'.mems = o.mems ∧ (o.count = 0 → o'.count = 0)
  for_ : ∀ b o, st.obj b = some o → ∃ o', st'.obj b = some o' ∧ o'.mems = o.mems
  js : (js = [] ∧ st'.log = st.log ∧ ∀ b o o', st.obj b = some o → st'.obj b = some o' → o'.count = 0 → o.count = 0) ∨
    ∃ o, st.obj v = some o ∧ o.count ≠ 0 ∧ js = o.mems.map .slot ++ [.free v] ∧ st'.log = v :: st.log ∧ (∀ o', st'.obj v = some o' → o'.count = 0) ∧
      ∀ b o o', b ≠ v → st.obj b = some o → st'.obj b = some o' → o'.count = 0 → o.count = 0

theorem decrement_dec {ex v : Nat} {st : St} (h0 : st.obj 0 = none) (hv : v ≠ 0 → ∃ o, st.obj v = some o ∧ 0 < o.count ∧ o.count < 2 ^ 32) :
    ∃ st' js, decrement v st = some (st', js) ∧ Dec ex v js st st' := by
  by_cases e : v = 0
  · subst e
    refine ⟨st, [], by simp [decrement], rfl, rfl, rfl, ?_, fun b o hb => ⟨o, hb, rfl, id⟩, fun b o hb => ⟨o, hb, rfl⟩, .inl ⟨rfl, rfl, ?_⟩⟩
    · intro b o o' h1 h2
      rw [h1] at h2; cases h2
      rw [if_neg (by rintro rfl; rw [h0] at h1; cases h1)]; rfl
    · intro b o o' h1 h2 h3; rw [h1] at h2; cases h2; exact h3
  · obtain ⟨o, ho, hp, hl⟩ := hv e
    rw [decrement_eq e ho hp hl]
    by_cases h1 : o.count = 1
    · rw [if_pos h1]
      refine ⟨_, _, rfl, rfl, rfl, rfl, ?_, ?_, ?_, .inr ⟨o, ho, by omega, rfl, rfl, ?_, ?_⟩⟩
      · intro b p p' hb hb'
        simp only [delete] at hb'
        by_cases g : b = v
        · subst g; rw [ho] at hb; cases hb; simp at hb'; subst hb'; simp [h1]
        · rw [upd_ne _ _ g, hb] at hb'; cases hb'; simp [g]
      · intro b p' hb'
        simp only [delete] at hb'
        by_cases g : b = v
        · subst g; simp at hb'; subst hb'; exact ⟨o, ho, rfl, fun _ => rfl⟩
        · rw [upd_ne _ _ g] at hb'; exact ⟨p', hb', rfl, id⟩
      · intro b p hb
        simp only [delete]
        by_cases g : b = v
        · subst g; rw [ho] at hb; cases hb; exact ⟨_, upd_same .., rfl⟩
        · exact ⟨p, by rw [upd_ne _ _ g]; exact hb, rfl⟩
      · intro p' hb'; simp [delete] at hb'; subst hb'; rfl
      · intro b p p' g hb hb' hz
        simp only [delete] at hb'
        rw [upd_ne _ _ g, hb] at hb'; cases hb'; exact hz
    · rw [if_neg h1]
      refine ⟨_, _, rfl, rfl, rfl, rfl, ?_, ?_, ?_, .inl ⟨rfl, rfl, ?_⟩⟩
      · intro b p p' hb hb'
        simp only at hb'
        by_cases g : b = v
        · subst g; rw [ho] at hb; cases hb; simp at hb'; subst hb'; simp; omega
        · rw [upd_ne _ _ g, hb] at hb'; cases hb'; simp [g]
      · intro b p' hb'
        simp only at hb'
        by_cases g : b = v
        · subst g; simp at hb'; subst hb'; exact ⟨o, ho, rfl, fun h => by simp only; omega⟩
        · rw [upd_ne _ _ g] at hb'; exact ⟨p', hb', rfl, id⟩
      · intro b p hb
        simp only
        by_cases g : b = v
        · subst g; rw [ho] at hb; cases hb; exact ⟨_, upd_same .., rfl⟩
        · exact ⟨p, by rw [upd_ne _ _ g]; exact hb, rfl⟩
      · intro b p p' hb hb' hz
        simp only at hb'
        by_cases g : b = v
        · subst g; simp at hb'; subst hb'; simp only at hz; omega
        · rw [upd_ne _ _ g, hb] at hb'; cases hb'; exact hz

theorem step_slot {ex s : Nat} {is : List Item} {st : St} (h : Inv ex (.slot s :: is) st) : ∃ v st' js, st.slot s = some v ∧
    decrement v { st with slot := upd st.slot s none } = some (st', js) ∧
    Inv ex (js ++ is) st' ∧ Kept (.slot s :: is) st st' ∧ (∀ r, Root st (.slot s :: is) r → Root st' (js ++ is) r) ∧
      (∀ b, Held st (Root st (.slot s :: is)) ex b → Held st' (Root st' (js ++ is)) ex b) ∧ size st' < size st := by
  obtain ⟨hs, hse⟩ := h.islot s (List.mem_cons_self ..)
  obtain ⟨v, hv⟩ := Option.isSome_iff_exists.1 hs
  have hd : v ≠ 0 → ∃ o, st.obj v = some o ∧ 0 < o.count ∧ o.count < 2 ^ 32 := by
    intro h0
    obtain ⟨o, ho⟩ := Option.isSome_iff_exists.1 (h.val s v hse hv h0)
    exact ⟨o, ho, by rw [h.count v o ho]; exact h.pos hv hse, by rw [h.count v o ho]; exact h.few v h0⟩
  obtain ⟨st', js, e, d⟩ := decrement_dec (ex := ex) (v := v) (st := { st with slot := upd st.slot s none }) h.ozero hd
  refine ⟨v, st', js, hv, e, step_slot_gen h hv d.slot d.fresh d.made ?_ d.back d.for_ d.js⟩
  intro b o' hb
  obtain ⟨o, ho, -⟩ := d.back b o' hb
  have h1 := d.cnt b o o' ho hb
  have h2 := h.count b o ho
  have h3 := num_change (p := fun r => decide (r ≠ ex ∧ st'.slot r = some b)) (q := fun r => decide (r ≠ ex ∧ st.slot r = some b)) (h.lt hv) (fun i hi => by simp only [d.slot, upd_ne _ _ hi])
  simp only [cnt] at h2 ⊢
  rw [d.fresh]
  simp only [d.slot, upd_same, hv] at h3
  simp only [d.slot]
  have h4 : (if b = v then 1 else 0) = if decide (s ≠ ex ∧ some v = some b) = true then 1 else 0 := by
    by_cases g : b = v
    · subst g; simp [hse]
    · simp [g, Ne.symm g, hse]
  simp at h3 h4 ⊢
  simp at h2
  omega

theorem run_inv {ex : Nat} : ∀ (n : Nat) (items : List Item) (st : St), Inv ex items st → size st ≤ n → ∃ st', run decrement n items st = .ok st' ∧ Inv ex [] st' ∧ Kept items st st'
  | n, [], st, h, _ => ⟨st, by cases n <;> rfl, h, rfl, rfl, fun _ _ h => h, fun _ o h => ⟨o, h, rfl⟩, fun _ _ => rfl, fun _ b o _ _ ho => ⟨o, ho, rfl, fun _ _ => rfl⟩⟩
  | 0, .slot s :: is, st, h, hn => by obtain ⟨_, _, _, _, _, _, _, _, _, hlt⟩ := step_slot h; omega
  | 0, .free a :: is, st, h, hn => by obtain ⟨_, _, _, _, _, _, hlt⟩ := step_free h; omega
  | n + 1, .slot s :: is, st, h, hn => by
    obtain ⟨v, st1, js, hv, hd, hi, k, hr, hh, hlt⟩ := step_slot h
    obtain ⟨st2, h1, h2, k2⟩ := run_inv n (js ++ is) st1 hi (by omega)
    refine ⟨st2, by simp only [run, hv, hd]; exact h1, h2, k2.fresh.trans k.fresh, k2.made.trans k.made, fun r w g => k.same r w (k2.same r w g), ?_, ?_, ?_⟩
    · intro a o ho
      obtain ⟨o1, ho1, e1⟩ := k2.mems a o ho
      obtain ⟨o0, ho0, e0⟩ := k.mems a o1 ho1
      exact ⟨o0, ho0, e0.trans e1⟩
    · intro r g; rw [k2.root r (hr r g), k.root r g]
    · intro ex' b o h' hb ho
      obtain ⟨o1, ho1, e1, g1⟩ := k.held ex' b o h' hb ho
      have hx : Inv ex' (js ++ is) st1 ∧ Held st1 (Root st1 (js ++ is)) ex' b := by
        obtain ⟨v', st1', js', hv', hd', hi', -, -, hh', -⟩ := step_slot h'
        rw [hv] at hv'; cases hv'
        rw [hd] at hd'; cases hd'
        exact ⟨hi', hh' b hb⟩
      obtain ⟨o2, ho2, e2, g2⟩ := k2.held ex' b o1 hx.1 hx.2 ho1
      exact ⟨o2, ho2, e2.trans e1, fun r hr => by rw [g2 r (e1 ▸ hr), g1 r hr]⟩
  | n + 1, .free a :: is, st, h, hn => by
    obtain ⟨o, ho, hi, k, hr, hh, hlt⟩ := step_free h
    obtain ⟨st2, h1, h2, k2⟩ := run_inv n is _ hi (by omega)
    refine ⟨st2, by simp only [run, ho]; exact h1, h2, k2.fresh.trans k.fresh, k2.made.trans k.made, fun r w g => k.same r w (k2.same r w g), ?_, ?_, ?_⟩
    · intro a o ho
      obtain ⟨o1, ho1, e1⟩ := k2.mems a o ho
      obtain ⟨o0, ho0, e0⟩ := k.mems a o1 ho1
      exact ⟨o0, ho0, e0.trans e1⟩
    · intro r g; rw [k2.root r (hr r g), k.root r g]
    · intro ex' b o h' hb ho
      obtain ⟨o1, ho1, e1, g1⟩ := k.held ex' b o h' hb ho
      obtain ⟨-, -, hi', -, -, hh', -⟩ := step_free h'
      obtain ⟨o2, ho2, e2, g2⟩ := k2.held ex' b o1 hi' (hh' b hb) ho1
      exact ⟨o2, ho2, e2.trans e1, fun r hr => by rw [g2 r (e1 ▸ hr), g1 r hr]⟩

theorem size_le (st : St) : size st ≤ 2 * st.fresh := by
  have := num_le (fun s => (st.slot s).isSome) st.fresh
  have := num_le (fun a => (st.obj a).isSome) st.fresh
  simp only [size]; omega

/-! ## A pointer gives up its object -/

theorem Held.mono {st st' : St} {R R' : Nat → Prop} {ex a : Nat} (hs : ∀ r, Held st R ex a → r ≠ ex → ∀ v, st.slot r = some v → st'.slot r = some v)
    (ho : ∀ b o, st.obj b = some o → ∃ o', st'.obj b = some o' ∧ o'.mems = o.mems) (hR : ∀ r, R r → R' r) (hb : Held st R ex a) : Held st' R' ex a := by
  have hs' : ∀ r, r ≠ ex → ∀ v, st.slot r = some v → st'.slot r = some v := fun r => hs r hb
  clear hs
  induction hb with
  | var h1 h2 h3 h4 => exact .var (hR _ h1) h2 (hs' _ h2 _ h3) h4
  | mem _ hob hm h1 h2 h3 ih =>
    obtain ⟨o', ho', e⟩ := ho _ _ hob
    exact .mem ih ho' (e ▸ hm) h1 (hs' _ h1 _ h2) h3

theorem Inv.ne0 {ex : Nat} {items : List Item} {st : St} (h : Inv ex items st) {s v : Nat} (hs : st.slot s = some v) : s ≠ 0 := by
  rintro rfl; rw [h.szero] at hs; cases hs

theorem Inv.alive {ex : Nat} {st : St} (h : Inv ex [] st) {a : Nat} {o : Obj} (ho : st.obj a = some o) : o.count ≠ 0 := fun g => by
  have := h.dead a o ho g; simp at this

theorem Inv.held' {st : St} (h : Inv 0 [] st) {R : Nat → Prop} {ex b : Nat} (hb : Held st R ex b) : ∃ r, r ≠ ex ∧ st.slot r = some b := by
  cases hb with
  | var _ h1 h2 _ => exact ⟨_, h1, h2⟩
  | mem _ _ _ h1 h2 _ => exact ⟨_, h1, h2⟩

theorem give_start {s v : Nat} {js : List Item} {st st' : St} (h : Inv 0 [] st) (hv : st.slot s = some v) (ha : Access st s s) (d : Dec 0 v js st st') :
    Inv s js st' ∧ (∀ r, Var st r → Root st' js r) ∧ (∀ b, Held st (Var st) s b → Held st' (Root st' js) s b) := by
  have hs0 := h.ne0 hv
  have hslt := h.lt hv
  have none_back : ∀ b, st'.obj b = none → st.obj b = none := by
    intro b hb
    cases e : st.obj b with
    | none => rfl
    | some o => obtain ⟨o', ho', -⟩ := d.for_ b o e; rw [hb] at ho'; cases ho'
  have none_for : ∀ b, st.obj b = none → st'.obj b = none := by
    intro b hb
    cases e : st'.obj b with
    | none => rfl
    | some o => obtain ⟨o', ho', -⟩ := d.back b o e; rw [hb] at ho'; cases ho'
  have js_slot : ∀ r, Item.slot r ∈ js → ∃ o, st.obj v = some o ∧ o.count ≠ 0 ∧ r ∈ o.mems ∧ (∀ o', st'.obj v = some o' → o'.count = 0) := by
    intro r hr
    rcases d.js with ⟨rfl, -⟩ | ⟨o, ho, hc, rfl, -, hz, -⟩
    · simp at hr
    · simp at hr; exact ⟨o, ho, hc, hr, hz⟩
  have hroot : ∀ r, Var st r → Root st' js r := by
    intro r hr
    refine ⟨⟨by rw [d.slot]; exact hr.1, fun b o' hb hm => ?_⟩, fun hm => ?_⟩
    · obtain ⟨o, ho, he, -⟩ := d.back b o' hb
      exact hr.2 b o ho (he ▸ hm)
    · obtain ⟨o, ho, -, hmem, -⟩ := js_slot r hm
      exact hr.2 v o ho hmem
  have keep : ∀ b, Held st (Var st) s b → Held st' (Root st' js) s b := fun b hb =>
    Held.mono (fun r _ _ w hw => by rw [d.slot]; exact hw) d.for_ hroot hb
  have hcc : ∀ b, cnt st' s b + (if st.slot s = some b then 1 else 0) = cnt st 0 b := by
    intro b
    have := num_change (p := fun r => decide (r ≠ s ∧ st.slot r = some b)) (q := fun r => decide (r ≠ 0 ∧ st.slot r = some b)) hslt (fun i hi => by
      by_cases e : i = 0
      · subst e; simp [h.szero]
      · simp [hi, e])
    simp only [cnt, d.slot, d.fresh]
    simp [hs0] at this ⊢
    omega
  have hcnt : ∀ b o', st'.obj b = some o' → o'.count = cnt st' s b := by
    intro b o' hb
    obtain ⟨o, ho, -⟩ := d.back b o' hb
    have h1 := d.cnt b o o' ho hb
    have h2 := h.count b o ho
    have h3 := hcc b
    have h4 : (if b = v then 1 else 0) = if st.slot s = some b then 1 else 0 := by
      rw [hv]
      by_cases g : b = v
      · subst g; simp
      · simp [g, Ne.symm g]
    omega
  have heldcount : ∀ {b o'}, Held st (Var st) s b → st'.obj b = some o' → o'.count ≠ 0 := by
    intro b o' hb ho'
    obtain ⟨r, hr1, hr2⟩ := h.held' hb
    rw [hcnt b o' ho']
    have : 0 < cnt st' s b := num_pos (s := r) (by rw [d.fresh]; exact h.lt hr2) (by simp [d.slot, hr2, hr1])
    omega
  have exnot : ∀ {r}, Item.slot r ∈ js → r ≠ s := by
    rintro r hr rfl
    obtain ⟨o, ho, hc, hm, hz⟩ := js_slot r hr
    rcases ha with g | ⟨b, ob, hb, hob, hmb⟩
    · exact g.2 v o ho hm
    · have := h.disj v b o ob r ho hob hc (h.alive hob) hm hmb
      subst this
      obtain ⟨o', ho', -⟩ := d.for_ v o ho
      exact heldcount hb ho' (hz o' ho')
  refine ⟨?_, hroot, keep⟩
  constructor
  case fpos => rw [d.fresh]; exact h.fpos
  case sbound => intro r hr; rw [d.slot]; rw [d.fresh] at hr; exact h.sbound r hr
  case obound => intro b hb; rw [d.fresh] at hb; exact none_for b (h.obound b hb)
  case szero => rw [d.slot]; exact h.szero
  case ozero => exact none_for 0 h.ozero
  case val =>
    intro r w hr hw hne
    rw [d.slot] at hw
    obtain ⟨o, ho⟩ := Option.isSome_iff_exists.1 (h.val r w (h.ne0 hw) hw hne)
    obtain ⟨o', ho', -⟩ := d.for_ w o ho
    rw [ho']; rfl
  case count => exact hcnt
  case few => intro a g; have := hcc a; have := h.few a g; omega
  case nodup =>
    rcases d.js with ⟨rfl, -⟩ | ⟨o, ho, hc, rfl, -, -⟩
    · exact List.nodup_nil
    · obtain ⟨m1, m2⟩ := h.mems v o ho hc
      rw [List.nodup_append]
      refine ⟨List.Nodup.map (f := Item.slot) (fun a b h => by cases h; rfl) m1, by simp, ?_⟩
      rintro x hx y hy rfl
      obtain ⟨r, hr, rfl⟩ := List.mem_map.1 hx
      simp at hy
  case islot =>
    intro r hr
    obtain ⟨o, ho, hc, hm, -⟩ := js_slot r hr
    exact ⟨by rw [d.slot]; exact ((h.mems v o ho hc).2 r hm).1, exnot hr⟩
  case ifree =>
    intro b hb
    rcases d.js with ⟨rfl, -⟩ | ⟨o, ho, hc, rfl, -, hz, -⟩
    · simp at hb
    · simp at hb; subst hb
      obtain ⟨o', ho', -⟩ := d.for_ b o ho
      exact ⟨o', ho', hz o' ho'⟩
  case dead =>
    intro b o' hb hz
    obtain ⟨o, ho, -⟩ := d.back b o' hb
    rcases d.js with ⟨rfl, -, hn⟩ | ⟨o2, ho2, hc, rfl, -, -, hn⟩
    · exact absurd (hn b o o' ho hb hz) (h.alive ho)
    · by_cases e : b = v
      · subst e; simp
      · exact absurd (hn b o o' e ho hb hz) (h.alive ho)
  case mems =>
    intro b o' hb hz
    obtain ⟨o, ho, he, hi⟩ := d.back b o' hb
    obtain ⟨g1, g2⟩ := h.mems b o ho (h.alive ho)
    refine ⟨he ▸ g1, fun r hr => ?_⟩
    refine ⟨by rw [d.slot]; exact (g2 r (he ▸ hr)).1, fun hm => ?_⟩
    obtain ⟨o2, ho2, hc2, hm2, hz2⟩ := js_slot r hm
    have := h.disj b v o o2 r ho ho2 (h.alive ho) hc2 (he ▸ hr) hm2
    subst this
    exact hz (hz2 o' hb)
  case disj =>
    intro a b o o' r ha hb hca hcb hra hrb
    obtain ⟨p, hp, ep, ip⟩ := d.back a o ha
    obtain ⟨q, hq, eq, iq⟩ := d.back b o' hb
    exact h.disj a b p q r hp hq (h.alive hp) (h.alive hq) (ep ▸ hra) (eq ▸ hrb)
  case once =>
    rcases d.js with ⟨-, hl, -⟩ | ⟨o, ho, hc, -, hl, -⟩
    · rw [hl]; exact h.once
    · rw [hl]; exact List.nodup_cons.2 ⟨fun hm => hc (h.logdead v o hm ho), h.once⟩
  case logdead =>
    intro b o' hb ho'
    obtain ⟨o, ho, -, hi⟩ := d.back b o' ho'
    rcases d.js with ⟨-, hl, -⟩ | ⟨o2, ho2, hc, -, hl, hz, -⟩
    · rw [hl] at hb; exact hi (h.logdead b o hb ho)
    · rw [hl] at hb
      rcases List.mem_cons.1 hb with rfl | g
      · exact hz o' ho'
      · exact hi (h.logdead b o g ho)
  case zerolog =>
    intro b o' ho' hz
    obtain ⟨o, ho, -⟩ := d.back b o' ho'
    rcases d.js with ⟨-, hl, hn⟩ | ⟨o2, ho2, hc, -, hl, -, hn⟩
    · exact absurd (hn b o o' ho ho' hz) (h.alive ho)
    · rw [hl]
      by_cases e : b = v
      · subst e; exact List.mem_cons_self ..
      · exact absurd (hn b o o' e ho ho' hz) (h.alive ho)
  case logmade =>
    intro b hb
    rw [d.made]
    rcases d.js with ⟨-, hl, -⟩ | ⟨o, ho, hc, -, hl, -⟩
    · rw [hl] at hb; exact h.logmade b hb
    · rw [hl] at hb
      rcases List.mem_cons.1 hb with rfl | g
      · exact h.objmade _ _ ho
      · exact h.logmade b g
  case madelog =>
    intro b hb hn
    rw [d.made] at hb
    have := h.madelog b hb (none_back b hn)
    rcases d.js with ⟨-, hl, -⟩ | ⟨o, ho, hc, -, hl, -⟩
    · rw [hl]; exact this
    · rw [hl]; exact List.mem_cons_of_mem _ this
  case objmade => intro b o' hb; rw [d.made]; obtain ⟨o, ho, -⟩ := d.back b o' hb; exact h.objmade b o ho
  case madebound => intro b hb; rw [d.made] at hb; rw [d.fresh]; exact h.madebound b hb
  case exlive =>
    intro _
    refine ⟨by rw [d.slot, hv]; rfl, ha.imp (hroot _) ?_⟩
    rintro ⟨b, o, hb, ho, hm⟩
    obtain ⟨o', ho', e⟩ := d.for_ b o ho
    exact ⟨b, o', keep b hb, ho', e ▸ hm⟩

/-- What `give` does. -/
structure Gave (s : Nat) (st st' : St) : Prop where
  inv : Inv s [] st'
  fresh : st'.fresh = st.fresh
  same : ∀ r v, st'.slot r = some v → st.slot r = some v
  mems : ∀ a o, st'.obj a = some o → ∃ o', st.obj a = some o' ∧ o'.mems = o.mems
  acc : ∀ r, Access st s r → st'.slot r = st.slot r
  held : ∀ b o, Held st (Var st) s b → st.obj b = some o → ∃ o', st'.obj b = some o' ∧ o'.mems = o.mems

theorem give_inv {s : Nat} {st : St} (h : Inv 0 [] st) (ha : Access st s s) : ∃ st', give decrement s st = .ok st' ∧ Gave s st st' := by
  have hs : (st.slot s).isSome := by
    rcases ha with g | ⟨b, o, hb, ho, hm⟩
    · exact g.1
    · exact ((h.mems b o ho (h.alive ho)).2 s hm).1
  obtain ⟨v, hv⟩ := Option.isSome_iff_exists.1 hs
  have hd : v ≠ 0 → ∃ o, st.obj v = some o ∧ 0 < o.count ∧ o.count < 2 ^ 32 := by
    intro h0
    obtain ⟨o, ho⟩ := Option.isSome_iff_exists.1 (h.val s v (h.ne0 hv) hv h0)
    exact ⟨o, ho, by rw [h.count v o ho]; exact h.pos hv (h.ne0 hv), by rw [h.count v o ho]; exact h.few v h0⟩
  obtain ⟨st1, js, e, d⟩ := decrement_dec (ex := 0) (v := v) (st := st) h.ozero hd
  obtain ⟨hi, hr, hh⟩ := give_start h hv ha d
  obtain ⟨st2, e2, h2, k⟩ := run_inv (2 * st1.fresh) js st1 hi (size_le _)
  refine ⟨st2, by simp only [give, hv, e]; exact e2, h2, k.fresh.trans d.fresh, fun r w hw => by rw [← d.slot]; exact k.same r w hw, ?_, ?_, ?_⟩
  · intro a o ho
    obtain ⟨o1, ho1, e1⟩ := k.mems a o ho
    obtain ⟨o0, ho0, e0, -⟩ := d.back a o1 ho1
    exact ⟨o0, ho0, e0.symm.trans e1⟩
  · rintro r (g | ⟨b, o, hb, ho, hm⟩)
    · rw [k.root r (hr r g), d.slot]
    · obtain ⟨o1, ho1, e1⟩ := d.for_ b o ho
      obtain ⟨o2, -, -, g⟩ := k.held s b o1 hi (hh b hb) ho1
      rw [g r (e1 ▸ hm), d.slot]
  · intro b o hb ho
    obtain ⟨o1, ho1, e1⟩ := d.for_ b o ho
    obtain ⟨o2, ho2, e2, -⟩ := k.held s b o1 hi (hh b hb) ho1
    exact ⟨o2, ho2, e2.trans e1⟩

/-- What is held stays held. -/
theorem Gave.keep {s : Nat} {st st' : St} (g : Gave s st st') {R : Nat → Prop} (hR : ∀ r, R r → Var st r) {b : Nat} (hb : Held st R s b) : Held st' R s b ∧ Held st (Var st) s b := by
  induction hb with
  | var h1 h2 h3 h4 => exact ⟨.var h1 h2 (by rw [g.acc _ (.inl (hR _ h1))]; exact h3) h4, .var (hR _ h1) h2 h3 h4⟩
  | mem _ ho hm h1 h2 h3 ih =>
    obtain ⟨o', ho', e⟩ := g.held _ _ ih.2 ho
    exact ⟨.mem ih.1 ho' (e ▸ hm) h1 (by rw [g.acc _ (.inr ⟨_, _, ih.2, ho, hm⟩)]; exact h2) h3, .mem ih.2 ho hm h1 h2 h3⟩

theorem slot_item {s : Nat} {st : St} (h : Inv 0 [] st) (hs : Var st s) : Inv 0 [.slot s] st := by
  obtain ⟨v, hv⟩ := Option.isSome_iff_exists.1 hs.1
  exact { h with
    nodup := by simp
    islot := by intro r hr; simp at hr; subst hr; exact ⟨hs.1, h.ne0 hv⟩
    ifree := by intro a ha; simp at ha
    dead := fun a o ho g => absurd g (h.alive ho)
    mems := fun a o ho hc => ⟨(h.mems a o ho hc).1, fun r hr => ⟨((h.mems a o ho hc).2 r hr).1, by simp; rintro rfl; exact hs.2 a o ho hr⟩⟩
    exlive := fun g => absurd rfl g }

theorem Held.ex0 {s b : Nat} {st : St} {R R' : Nat → Prop} (h : Inv 0 [] st) (hR : ∀ r, R r → R' r) (hb : Held st R s b) : Held st R' 0 b := by
  induction hb with
  | var h1 _ h3 h4 => exact .var (hR _ h1) (h.ne0 h3) h3 h4
  | mem _ ho hm _ h2 h3 ih => exact .mem ih ho hm (h.ne0 h2) h2 h3

theorem destroy_inv {s : Nat} {st : St} (h : Inv 0 [] st) (hs : Var st s) : ∃ st', destroy decrement s st = .ok st' ∧ Inv 0 [] st' ∧ Kept [.slot s] st st' ∧ st'.slot s = none := by
  have hi := slot_item h hs
  obtain ⟨st2, e2, h2, k⟩ := run_inv (2 * st.fresh) _ st hi (size_le _)
  refine ⟨st2, e2, h2, k, ?_⟩
  obtain ⟨v, st1, js, hv, hd, hi1, k1, -⟩ := step_slot hi
  have hn : 2 * st.fresh ≠ 0 := by have := h.lt hv; omega
  obtain ⟨n, hn⟩ := Nat.exists_eq_succ_of_ne_zero hn
  have e3 := e2
  rw [hn] at e3
  simp only [run, hv, hd] at e3
  obtain ⟨st3, e4, -, k4⟩ := run_inv n _ st1 hi1 (by
    obtain ⟨_, _, _, hv', hd', -, -, -, -, hlt⟩ := step_slot hi
    rw [hv] at hv'; cases hv'
    rw [hd] at hd'; cases hd'
    have := size_le st
    omega)
  rw [e4] at e3; cases e3
  have h1 : st1.slot s = none := by
    obtain ⟨st1', js', e', d'⟩ := decrement_dec (ex := 0) (v := v) (st := { st with slot := upd st.slot s none }) h.ozero (by
      intro h0
      obtain ⟨o, ho⟩ := Option.isSome_iff_exists.1 (h.val s v (h.ne0 hv) hv h0)
      exact ⟨o, ho, by rw [h.count v o ho]; exact h.pos hv (h.ne0 hv), by rw [h.count v o ho]; exact h.few v h0⟩)
    rw [hd] at e'; cases e'
    rw [d'.slot]; exact upd_same ..
  cases g : st2.slot s with
  | none => rfl
  | some w => rw [k4.same s w g] at h1; cases h1

/-! ## The operations -/

theorem Inv.of_change {ex : Nat} {st st' : St} (h : Inv ex [] st) (hf : st.fresh ≤ st'.fresh) (hsb : ∀ s, st'.fresh ≤ s → st'.slot s = none) (hz : st'.slot 0 = none)
    (hss : ∀ s, (st.slot s).isSome → (st'.slot s).isSome) (hm : st'.made = st.made) (hl : st'.log = st.log)
    (hb : ∀ b o', st'.obj b = some o' → ∃ o, st.obj b = some o ∧ o'.mems = o.mems) (hfo : ∀ b o, st.obj b = some o → ∃ o', st'.obj b = some o' ∧ o'.mems = o.mems)
    (hval : ∀ s v, st'.slot s = some v → v ≠ 0 → (st'.obj v).isSome) (hcount : ∀ a o, st'.obj a = some o → o.count = cnt st' 0 a ∧ o.count ≠ 0) (hfew : ∀ a, a ≠ 0 → cnt st' 0 a < 2 ^ 32) :
    Inv 0 [] st' := by
  have none_back : ∀ b, st'.obj b = none → st.obj b = none := by
    intro b hb
    cases e : st.obj b with
    | none => rfl
    | some o => obtain ⟨o', ho', -⟩ := hfo b o e; rw [hb] at ho'; cases ho'
  have none_for : ∀ b, st.obj b = none → st'.obj b = none := by
    intro b hn
    cases e : st'.obj b with
    | none => rfl
    | some o => obtain ⟨o', ho', -⟩ := hb b o e; rw [hn] at ho'; cases ho'
  constructor
  case fpos => have := h.fpos; omega
  case sbound => exact hsb
  case obound => intro b hb; exact none_for b (h.obound b (by omega))
  case szero => exact hz
  case ozero => exact none_for 0 h.ozero
  case val => exact fun s v _ => hval s v
  case count => exact fun a o ho => (hcount a o ho).1
  case few => exact hfew
  case nodup => exact List.nodup_nil
  case islot => simp
  case ifree => simp
  case dead => exact fun a o ho g => absurd g (hcount a o ho).2
  case mems =>
    intro a o ho _
    obtain ⟨o', ho', e⟩ := hb a o ho
    obtain ⟨h1, h2⟩ := h.mems a o' ho' (h.alive ho')
    exact ⟨e ▸ h1, fun s hs => ⟨hss s (h2 s (e ▸ hs)).1, by simp⟩⟩
  case disj =>
    intro a b o o' r ha hb' _ _ hra hrb
    obtain ⟨p, hp, ep⟩ := hb a o ha
    obtain ⟨q, hq, eq⟩ := hb b o' hb'
    exact h.disj a b p q r hp hq (h.alive hp) (h.alive hq) (ep ▸ hra) (eq ▸ hrb)
  case once => rw [hl]; exact h.once
  case logdead => intro a o ha ho; obtain ⟨p, hp, -⟩ := hb a o ho; exact absurd (h.logdead a p (hl ▸ ha) hp) (h.alive hp)
  case zerolog => exact fun a o ho g => absurd g (hcount a o ho).2
  case logmade => rw [hl, hm]; exact h.logmade
  case madelog => rw [hl, hm]; exact fun a ha hn => h.madelog a ha (none_back a hn)
  case objmade => rw [hm]; intro a o ho; obtain ⟨p, hp, -⟩ := hb a o ho; exact h.objmade a p hp
  case madebound => rw [hm]; intro a ha; have := h.madebound a ha; omega
  case exlive => exact fun g => absurd rfl g

/-- What an operation that only writes pointers and counters does to the objects. -/
structure Same (st st' : St) : Prop where
  made : st'.made = st.made
  log : st'.log = st.log
  back : ∀ b o', st'.obj b = some o' → ∃ o, st.obj b = some o ∧ o'.mems = o.mems
  for_ : ∀ b o, st.obj b = some o → ∃ o', st'.obj b = some o' ∧ o'.mems = o.mems

theorem incr_inv {ex w : Nat} {st st1 : St} (h : Inv ex [] st) (hf : st.fresh ≤ st1.fresh) (hsb : ∀ s, st1.fresh ≤ s → st1.slot s = none) (hz : st1.slot 0 = none)
    (hss : ∀ s, (st.slot s).isSome → (st1.slot s).isSome) (hm : st1.made = st.made) (hl : st1.log = st.log) (ho : st1.obj = st.obj)
    (hval : ∀ s v, st1.slot s = some v → v ≠ 0 → (st.obj v).isSome) (hw : w ≠ 0 → (st.obj w).isSome) (hfew : w ≠ 0 → cnt st ex w + 1 < 2 ^ 32)
    (hcc : ∀ b, b ≠ 0 → cnt st1 0 b = cnt st ex b + if w = b then 1 else 0) :
    ∃ st', increment w st1 = .ok st' ∧ Inv 0 [] st' ∧ st'.slot = st1.slot ∧ st'.fresh = st1.fresh ∧ Same st st' := by
  by_cases e : w = 0
  · subst e
    refine ⟨st1, by simp [increment], ?_, rfl, rfl, hm, hl, fun b o g => ⟨o, ho ▸ g, rfl⟩, fun b o g => ⟨o, ho ▸ g, rfl⟩⟩
    refine Inv.of_change h hf hsb hz hss hm hl (fun b o g => ⟨o, ho ▸ g, rfl⟩) (fun b o g => ⟨o, ho ▸ g, rfl⟩) (ho ▸ hval) ?_ ?_
    · intro a o hao
      rw [ho] at hao
      have ha : a ≠ 0 := by rintro rfl; rw [h.ozero] at hao; cases hao
      rw [hcc a ha, if_neg (Ne.symm ha)]
      exact ⟨h.count a o hao, h.alive hao⟩
    · intro a ha
      rw [hcc a ha, if_neg (Ne.symm ha)]
      exact h.few a ha
  · obtain ⟨o, how⟩ := Option.isSome_iff_exists.1 (hw e)
    have hc := h.count w o how
    have hl' := hfew e
    have hb : ∀ b p', upd st1.obj w (some { o with count := o.count + 1 }) b = some p' → ∃ p, st.obj b = some p ∧ p'.mems = p.mems ∧ p'.count = p.count + if w = b then 1 else 0 := by
      intro b p' hp
      by_cases g : b = w
      · subst g; simp at hp; subst hp; exact ⟨o, how, rfl, by simp⟩
      · rw [upd_ne _ _ g, ho] at hp; exact ⟨p', hp, rfl, by simp [Ne.symm g]⟩
    have hfo : ∀ b p, st.obj b = some p → ∃ p', upd st1.obj w (some { o with count := o.count + 1 }) b = some p' ∧ p'.mems = p.mems := by
      intro b p hp
      by_cases g : b = w
      · subst g; rw [how] at hp; cases hp; exact ⟨_, upd_same .., rfl⟩
      · exact ⟨p, by rw [upd_ne _ _ g, ho]; exact hp, rfl⟩
    refine ⟨{ st1 with obj := upd st1.obj w (some { o with count := o.count + 1 }) }, ?_, ?_, rfl, rfl, hm, hl,
      fun b p hp => (hb b p hp).imp fun _ g => ⟨g.1, g.2.1⟩, hfo⟩
    · simp only [increment, if_neg e, ho, how]
      rw [Nat.mod_eq_of_lt (by omega)]
    · refine Inv.of_change (st' := { st1 with obj := upd st1.obj w (some { o with count := o.count + 1 }) }) h hf hsb hz hss hm hl
        (fun b p hp => (hb b p hp).imp fun _ g => ⟨g.1, g.2.1⟩) hfo ?_ ?_ ?_
      · intro r u hr hu
        obtain ⟨p, hp⟩ := Option.isSome_iff_exists.1 (hval r u hr hu)
        obtain ⟨p', hp', -⟩ := hfo u p hp
        exact Option.isSome_iff_exists.2 ⟨p', hp'⟩
      · intro a p' hp'
        obtain ⟨p, hp, -, hpc⟩ := hb a p' hp'
        have ha : a ≠ 0 := by rintro rfl; rw [h.ozero] at hp; cases hp
        have hx : cnt { st1 with obj := upd st1.obj w (some { o with count := o.count + 1 }) } 0 a = cnt st ex a + if w = a then 1 else 0 := hcc a ha
        rw [hx, hpc, h.count a p hp]
        exact ⟨rfl, by have := h.alive hp; rw [h.count a p hp] at this; omega⟩
      · intro a ha
        have hx : cnt { st1 with obj := upd st1.obj w (some { o with count := o.count + 1 }) } 0 a = cnt st ex a + if w = a then 1 else 0 := hcc a ha
        rw [hx]
        by_cases g : w = a
        · subst g; rw [if_pos rfl]; exact hl'
        · rw [if_neg g]; exact h.few a ha

/-- A pointer that has given up its object gets another one. -/
theorem settle {s w : Nat} {st : St} (h : Inv s [] st) (hs : s ≠ 0) (hw : w ≠ 0 → (st.obj w).isSome) (hf : w ≠ 0 → cnt st s w + 1 < 2 ^ 32) :
    ∃ st', (write s w st).bind (increment w) = .ok st' ∧ Inv 0 [] st' ∧ st'.slot = upd st.slot s (some w) ∧ st'.fresh = st.fresh ∧ Same st st' := by
  obtain ⟨v, hv⟩ := Option.isSome_iff_exists.1 (h.exlive hs).1
  have hlt := h.lt hv
  simp only [write, hv, Out.bind]
  refine incr_inv (st1 := { st with slot := upd st.slot s (some w) }) h (Nat.le_refl _) ?_ ?_ ?_ rfl rfl rfl ?_ hw hf ?_
  · intro r hr
    show upd _ _ _ _ = _
    rw [upd_ne _ _ (by simp only at hr; omega)]; exact h.sbound r hr
  · show upd _ _ _ _ = _
    rw [upd_ne _ _ (Ne.symm hs)]; exact h.szero
  · intro r hr; simp only [upd]; split <;> first | rfl | exact hr
  · intro r u hr hu
    by_cases e : r = s
    · subst e; simp at hr; subst hr; exact hw hu
    · simp only [upd_ne _ _ e] at hr; exact h.val r u e hr hu
  · intro b _
    have := num_change (p := fun r => decide (r ≠ s ∧ st.slot r = some b)) (q := fun r => decide (r ≠ 0 ∧ upd st.slot s (some w) r = some b)) hlt (fun i hi => by
      by_cases e : i = 0
      · subst e; simp [h.szero, upd_ne _ _ hi]
      · simp [hi, e, upd_ne _ _ hi])
    simp only [cnt]
    simp [hs] at this ⊢
    omega

theorem cnt_new {v b : Nat} {st : St} (h : Inv 0 [] st) : cnt { st with slot := upd st.slot st.fresh (some v), fresh := st.fresh + 1 } 0 b = cnt st 0 b + if v = b then 1 else 0 := by
  have := h.fpos
  simp only [cnt, num_succ, upd_same]
  congr 1
  · refine num_congr fun i hi => ?_
    simp only [upd_ne _ _ (show i ≠ st.fresh by omega)]
  · simp [show st.fresh ≠ 0 by omega]

/-- A new pointer `st.fresh` to an object or null. -/
theorem newptr {v : Nat} {st : St} (h : Inv 0 [] st) (hv : v ≠ 0 → (st.obj v).isSome) (hf : v ≠ 0 → cnt st 0 v + 1 < 2 ^ 32) :
    ∃ st', increment v { st with slot := upd st.slot st.fresh (some v), fresh := st.fresh + 1 } = .ok st' ∧ Inv 0 [] st' ∧ st'.slot = upd st.slot st.fresh (some v) ∧ st'.fresh = st.fresh + 1 ∧ Same st st' := by
  have hfr := h.fpos
  refine incr_inv (st1 := { st with slot := upd st.slot st.fresh (some v), fresh := st.fresh + 1 }) h (Nat.le_succ _) ?_ ?_ ?_ rfl rfl rfl ?_ hv hf fun b _ => cnt_new h
  · intro r hr
    show upd _ _ _ _ = _
    simp only at hr
    rw [upd_ne _ _ (by omega)]; exact h.sbound r (by omega)
  · show upd _ _ _ _ = _
    rw [upd_ne _ _ (by omega)]; exact h.szero
  · intro r hr; simp only [upd]; split <;> first | rfl | exact hr
  · intro r u hr hu
    by_cases e : r = st.fresh
    · subst e; simp at hr; subst hr; exact hv hu
    · simp only [upd_ne _ _ e] at hr; exact h.val r u (h.ne0 hr) hr hu

theorem newNull_inv {st : St} (h : Inv 0 [] st) : Inv 0 [] (newNull st) := by
  obtain ⟨st', e, hi, -⟩ := newptr (v := 0) h (fun g => absurd rfl g) (fun g => absurd rfl g)
  simp only [increment, if_true] at e
  cases e; exact hi

theorem cnt_ptrs {st : St} (h : Inv 0 [] st) (a : Nat) : cnt st 0 a = ptrs st a := by
  refine num_congr fun i _ => ?_
  by_cases e : i = 0
  · subst e; simp [h.szero]
  · simp [e]

theorem copy_inv {t : Nat} {st : St} (h : Inv 0 [] st) (ht : (st.slot t).isSome) (hf : ∀ a, a ≠ 0 → cnt st 0 a + 1 < 2 ^ 32) :
    ∃ st' v, copy t st = .ok st' ∧ st.slot t = some v ∧ Inv 0 [] st' ∧ st'.slot = upd st.slot st.fresh (some v) ∧ st'.fresh = st.fresh + 1 ∧ Same st st' := by
  obtain ⟨v, hv⟩ := Option.isSome_iff_exists.1 ht
  obtain ⟨st', h1, h2⟩ := newptr (v := v) h (h.val t v (h.ne0 hv) hv) (hf v)
  exact ⟨st', v, by simp only [copy, hv]; exact h1, hv, h2⟩

/-- Access is kept when a pointer is added. -/
theorem Access.grow {st st' : St} {s r w : Nat} (h : Inv 0 [] st) (hs : st'.slot = upd st.slot st.fresh (some w)) (k : Same st st') (ha : Access st s r) : Access st' s r := by
  have hslot : ∀ i v, st.slot i = some v → st'.slot i = some v := fun i v hi => by rw [hs, upd_ne _ _ (by have := h.lt hi; omega)]; exact hi
  have hvar : ∀ i, Var st i → Var st' i := by
    intro i hi
    obtain ⟨v, hv⟩ := Option.isSome_iff_exists.1 hi.1
    refine ⟨by rw [hslot i v hv]; rfl, fun a o ho hm => ?_⟩
    obtain ⟨o', ho', e⟩ := k.back a o ho
    exact hi.2 a o' ho' (e ▸ hm)
  rcases ha with g | ⟨b, o, hb, ho, hm⟩
  · exact .inl (hvar r g)
  · obtain ⟨o', ho', e⟩ := k.for_ b o ho
    exact .inr ⟨b, o', Held.mono (fun i _ _ v hv => hslot i v hv) k.for_ hvar hb, ho', e ▸ hm⟩

theorem fresh_var {st st' : St} {w : Nat} (h : Inv 0 [] st) (hs : st'.slot = upd st.slot st.fresh (some w)) (k : Same st st') : Var st' st.fresh := by
  refine ⟨by rw [hs]; simp, fun a o ho hm => ?_⟩
  obtain ⟨o', ho', e⟩ := k.back a o ho
  obtain ⟨v, hv⟩ := Option.isSome_iff_exists.1 ((h.mems a o' ho' (h.alive ho')).2 _ (e ▸ hm)).1
  have := h.lt hv; omega

theorem assign_inv {s t : Nat} {st : St} (h : Inv 0 [] st) (ha : Access st s s) (ht : (st.slot t).isSome) (hf : ∀ a, a ≠ 0 → cnt st 0 a + 2 < 2 ^ 32) :
    ∃ st', assign s t st = .ok st' ∧ Inv 0 [] st' ∧ st'.slot s = st.slot t ∧ Frame s st st' := by
  obtain ⟨st1, w, e1, hw, h1, s1, f1, k1⟩ := copy_inv h ht (fun a g => by have := hf a g; omega)
  have hc1 : ∀ b, cnt st1 0 b = cnt st 0 b + if w = b then 1 else 0 := by
    intro b; rw [← cnt_new h]; simp only [cnt, s1, f1]
  have ha1 := ha.grow h s1 k1
  have hv1 := fresh_var h s1 k1
  have hsl : ∀ v, st1.slot s = some v → s < st.fresh := by
    intro v hv
    have : (st.slot s).isSome := by
      rcases ha with g | ⟨b, o, hb, ho, hm⟩
      · exact g.1
      · exact ((h.mems b o ho (h.alive ho)).2 s hm).1
    obtain ⟨u, hu⟩ := Option.isSome_iff_exists.1 this
    exact h.lt hu
  have hs1 : (st1.slot s).isSome := by
    rcases ha1 with g | ⟨b, o, hb, ho, hm⟩
    · exact g.1
    · exact ((h1.mems b o ho (h1.alive ho)).2 s hm).1
  obtain ⟨v, hv⟩ := Option.isSome_iff_exists.1 hs1
  have hslt := hsl v hv
  have hvs : st.slot s = some v := by rw [s1, upd_ne _ _ (by omega)] at hv; exact hv
  have hthat : st1.slot st.fresh = some w := by rw [s1]; exact upd_same ..
  have hvar : ∀ i, Var st i → Var st1 i := fun i hi => by
    obtain ⟨u, hu⟩ := Option.isSome_iff_exists.1 hi.1
    refine ⟨by rw [s1, upd_ne _ _ (by have := h.lt hu; omega)]; exact hi.1, fun a o ho hm => ?_⟩
    obtain ⟨o', ho', e⟩ := k1.back a o ho
    exact hi.2 a o' ho' (e ▸ hm)
  -- the state before `that` is destroyed
  have key : ∃ st3, (match st1.slot s, st1.slot st.fresh with
      | some v, some w => if v = w then Out.ok st1 else (give decrement s st1).bind fun st2 => (write s w st2).bind (increment w)
      | _, _ => .bad) = .ok st3 ∧ Inv 0 [] st3 ∧ st3.slot s = some w ∧ Var st3 st.fresh ∧ st3.fresh = st1.fresh ∧
      (∀ r u, r ≠ s → st3.slot r = some u → st1.slot r = some u) ∧ (∀ r, r ≠ s → Var st1 r → st3.slot r = st1.slot r) ∧
      (∀ a o, st3.obj a = some o → ∃ o', st1.obj a = some o' ∧ o'.mems = o.mems) ∧
      (∀ b, Held st1 (Var st) s b → Held st3 (Var st) s b) ∧ (∀ b o, Held st1 (Var st) s b → st1.obj b = some o → ∃ o', st3.obj b = some o' ∧ o'.mems = o.mems) := by
    rw [hv, hthat]
    by_cases e : v = w
    · exact ⟨st1, by simp [e], h1, by rw [hv, e], hv1, rfl, fun _ _ _ h => h, fun _ _ _ => rfl, fun a o ho => ⟨o, ho, rfl⟩, fun _ h => h, fun b o _ ho => ⟨o, ho, rfl⟩⟩
    · obtain ⟨st2, e2, g⟩ := give_inv h1 ha1
      have g2 : st2.slot st.fresh = some w := by rw [g.acc _ (.inl hv1)]; exact hthat
      have hcnt2 : ∀ b, cnt st2 s b ≤ cnt st1 0 b := by
        intro b
        simp only [cnt, g.fresh]
        refine num_mono fun i hi => ?_
        simp only [decide_eq_true_eq] at hi ⊢
        have := g.same i b hi.2
        exact ⟨h1.ne0 this, this⟩
      obtain ⟨st3, e3, h3, s3, f3, k3⟩ := settle (w := w) g.inv (h.ne0 hvs) (g.inv.val _ w (by omega) g2) (fun g => by
        have := hcnt2 w; rw [hc1, if_pos rfl] at this; have := hf w g; omega)
      refine ⟨st3, ?_, h3, by rw [s3]; exact upd_same .., ⟨?_, ?_⟩, f3.trans g.fresh, ?_, ?_, ?_, ?_, ?_⟩
      · simp only [if_neg e, e2]; exact e3
      · rw [s3, upd_ne _ _ (by omega), g2]; rfl
      · intro a o ho hm
        obtain ⟨o2, ho2, e2⟩ := k3.back a o ho
        obtain ⟨o1, ho1, e1⟩ := g.mems a o2 ho2
        exact hv1.2 a o1 ho1 (e1 ▸ e2 ▸ hm)
      · intro r u hr hu
        rw [s3, upd_ne _ _ hr] at hu
        exact g.same r u hu
      · intro r hr hvr
        rw [s3, upd_ne _ _ hr, g.acc r (.inl hvr)]
      · intro a o ho
        obtain ⟨o2, ho2, e2⟩ := k3.back a o ho
        obtain ⟨o1, ho1, e1⟩ := g.mems a o2 ho2
        exact ⟨o1, ho1, e1.trans e2.symm⟩
      · intro b hb
        exact Held.mono (fun r _ hr u hu => by rw [s3, upd_ne _ _ hr]; exact hu) k3.for_ (fun _ h => h) (g.keep hvar hb).1
      · intro b o hb ho
        obtain ⟨o2, ho2, e2⟩ := g.held b o (g.keep hvar hb).2 ho
        obtain ⟨o3, ho3, e3⟩ := k3.for_ b o2 ho2
        exact ⟨o3, ho3, e3.trans e2⟩
  obtain ⟨st3, e3, h3, hs3, hv3, f3, same3, vars3, mems3, held3, hobj3⟩ := key
  obtain ⟨st4, e4, h4, k4, -⟩ := destroy_inv h3 hv3
  have hroot3 : ∀ r, Var st r → Root st3 [.slot st.fresh] r := by
    intro r hr
    obtain ⟨u, hu⟩ := Option.isSome_iff_exists.1 hr.1
    refine ⟨⟨?_, fun a o ho hm => ?_⟩, ?_⟩
    · by_cases e : r = s
      · subst e; rw [hs3]; rfl
      · rw [vars3 r e (hvar r hr)]; exact (hvar r hr).1
    · obtain ⟨o', ho', e⟩ := mems3 a o ho
      exact (hvar r hr).2 a o' ho' (e ▸ hm)
    · have := h.lt hu; simp; omega
  have hi3 : Inv 0 [.slot st.fresh] st3 := slot_item h3 hv3
  have hs4 : st4.slot s = some w := by
    rcases ha with g | ⟨b, o, hb, ho, hm⟩
    · rw [k4.root s (hroot3 s g), hs3]
    · obtain ⟨o1, ho1, e1⟩ := k1.for_ b o ho
      have hb1 : Held st1 (Var st) s b := Held.mono (fun r _ _ u hu => by rw [s1, upd_ne _ _ (by have := h.lt hu; omega)]; exact hu) k1.for_ (fun _ h => h) hb
      obtain ⟨o3, ho3, e3⟩ := hobj3 b o1 hb1 ho1
      obtain ⟨o4, -, -, g⟩ := k4.held 0 b o3 hi3 ((held3 b hb1).ex0 h3 hroot3) ho3
      rw [g s (by rw [e3, e1]; exact hm), hs3]
  refine ⟨st4, ?_, h4, by rw [hs4, hw], ?_, ?_, ?_⟩
  · rw [assign, e1]
    exact (congrArg (Out.bind (destroy decrement st.fresh)) e3).trans e4
  · intro r u hr hrl hu
    have := same3 r u hr (k4.same r u hu)
    rw [s1, upd_ne _ _ (by omega)] at this; exact this
  · intro r hr hvr
    obtain ⟨u, hu⟩ := Option.isSome_iff_exists.1 hvr.1
    rw [k4.root r (hroot3 r hvr), vars3 r hr (hvar r hvr), s1, upd_ne _ _ (by have := h.lt hu; omega)]
  · intro a o _ ho
    obtain ⟨o3, ho3, e3⟩ := k4.mems a o ho
    obtain ⟨o1, ho1, e1⟩ := mems3 a o3 ho3
    obtain ⟨o0, ho0, e0⟩ := k1.back a o1 ho1
    exact ⟨o0, ho0, e0.symm.trans (e1.trans e3)⟩

theorem zero_inv {s : Nat} {st : St} (h : Inv 0 [] st) (ha : Access st s s) :
    ∃ st', assignZero decrement s st = .ok st' ∧ Inv 0 [] st' ∧ st'.slot s = some 0 ∧ Frame s st st' ∧ st'.fresh = st.fresh := by
  obtain ⟨st1, e1, g⟩ := give_inv h ha
  have hs : s ≠ 0 := by
    have : (st.slot s).isSome := by
      rcases ha with g | ⟨b, o, hb, ho, hm⟩
      · exact g.1
      · exact ((h.mems b o ho (h.alive ho)).2 s hm).1
    obtain ⟨u, hu⟩ := Option.isSome_iff_exists.1 this
    exact h.ne0 hu
  obtain ⟨st2, e2, h2, s2, f2, k2⟩ := settle (w := 0) g.inv hs (fun g => absurd rfl g) (fun g => absurd rfl g)
  refine ⟨st2, ?_, h2, by rw [s2]; exact upd_same .., ⟨?_, ?_, ?_⟩, f2.trans g.fresh⟩
  · obtain ⟨v, hv⟩ := Option.isSome_iff_exists.1 (g.inv.exlive hs).1
    simp only [write, hv, Out.bind, increment, if_true] at e2
    simp only [assignZero, e1, Out.bind, write, hv]; exact e2
  · intro r v hr _ hv
    rw [s2, upd_ne _ _ hr] at hv; exact g.same r v hv
  · intro r hr hv
    rw [s2, upd_ne _ _ hr, g.acc r (.inl hv)]
  · intro a o _ ho
    obtain ⟨o1, ho1, e1⟩ := k2.back a o ho
    obtain ⟨o0, ho0, e0⟩ := g.mems a o1 ho1
    exact ⟨o0, ho0, e0.trans e1.symm⟩

theorem cnt_newObj {st : St} (k : Nat) (h : Inv 0 [] st) {b : Nat} (hb : b ≠ 0) : cnt (newObj k st) 0 b = cnt st 0 b + if st.fresh = b then 1 else 0 := by
  have hfp := h.fpos
  have low : ∀ i, i < st.fresh → (newObj k st).slot i = st.slot i := fun i hi => by
    simp only [newObj]; rw [if_neg (by omega), if_neg (by omega)]
  have mid : ∀ i, st.fresh ≤ i → i < st.fresh + (k + 1) → (newObj k st).slot i ≠ some b := fun i h1 h2 => by
    simp only [newObj]
    by_cases e : st.fresh < i
    · rw [if_pos ⟨e, by omega⟩]; simp [Ne.symm hb]
    · have : i = st.fresh := by omega
      subst this
      rw [if_neg (by omega), if_neg (by omega), h.sbound _ (Nat.le_refl _)]; simp
  have top : (newObj k st).slot (st.fresh + (k + 1)) = some st.fresh := by
    simp only [newObj]; rw [if_neg (by omega), if_pos (by omega)]
  simp only [cnt]
  rw [show (newObj k st).fresh = (st.fresh + (k + 1)) + 1 from rfl, num_succ, num_grow (k := k + 1) (n := st.fresh) (fun i h1 h2 => by simp [mid i h1 h2])]
  congr 1
  · exact num_congr fun i hi => by simp only [low i hi]
  · simp [top]

theorem cnt_fresh {st : St} (h : Inv 0 [] st) : cnt st 0 st.fresh = 0 := by
  have hfp := h.fpos
  simp only [cnt]
  by_cases e : num (fun s => decide (s ≠ 0 ∧ st.slot s = some st.fresh)) st.fresh = 0
  · exact e
  · obtain ⟨s, hs, hp⟩ := num_exists e
    simp at hp
    have := h.val s _ hp.1 hp.2 (by omega)
    rw [h.obound _ (Nat.le_refl _)] at this; cases this

theorem newObj_inv {st : St} (k : Nat) (h : Inv 0 [] st) : Inv 0 [] (newObj k st) := by
  have hfp := h.fpos
  have hslot : ∀ r v, st.slot r = some v → (newObj k st).slot r = some v := by
    intro r v hr
    have := h.lt hr
    simp only [newObj]
    rw [if_neg (by omega), if_neg (by omega)]; exact hr
  have hback : ∀ r v, (newObj k st).slot r = some v → v = 0 ∨ v = st.fresh ∨ st.slot r = some v := by
    intro r v hr
    simp only [newObj] at hr
    split at hr
    · cases hr; exact .inl rfl
    · split at hr
      · cases hr; exact .inr (.inl rfl)
      · exact .inr (.inr hr)
  have hobj : ∀ b o, (newObj k st).obj b = some o → (b = st.fresh ∧ o = ⟨1, (List.range k).map (st.fresh + 1 + ·)⟩) ∨ (b ≠ st.fresh ∧ st.obj b = some o) := by
    intro b o hb
    simp only [newObj] at hb
    by_cases e : b = st.fresh
    · subst e; simp at hb; exact .inl ⟨rfl, hb.symm⟩
    · rw [upd_ne _ _ e] at hb; exact .inr ⟨e, hb⟩
  have hc := fun b hb => cnt_newObj k h (b := b) hb
  have hc0 := cnt_fresh h
  have hmb : ∀ a o r, st.obj a = some o → r ∈ o.mems → r < st.fresh := by
    intro a o r ho hr
    obtain ⟨v, hv⟩ := Option.isSome_iff_exists.1 ((h.mems a o ho (h.alive ho)).2 r hr).1
    exact h.lt hv
  constructor
  case fpos => simp only [newObj]; omega
  case sbound =>
    intro s hs
    simp only [newObj] at hs ⊢
    rw [if_neg (by omega), if_neg (by omega)]; exact h.sbound s (by omega)
  case obound =>
    intro b hb
    simp only [newObj] at hb ⊢
    rw [upd_ne _ _ (by omega)]; exact h.obound b (by omega)
  case szero => simp only [newObj]; rw [if_neg (by omega), if_neg (by omega)]; exact h.szero
  case ozero => simp only [newObj]; rw [upd_ne _ _ (by omega)]; exact h.ozero
  case val =>
    intro s v _ hv hne
    rcases hback s v hv with g | g | g
    · exact absurd g hne
    · subst g; simp [newObj]
    · have := h.val s v (h.ne0 g) g hne
      obtain ⟨o, ho⟩ := Option.isSome_iff_exists.1 this
      simp only [newObj]
      rw [upd_ne _ _ (by have := h.olt ho; omega)]; exact this
  case count =>
    intro a o ho
    rcases hobj a o ho with ⟨rfl, rfl⟩ | ⟨e, ho⟩
    · rw [hc _ (by omega), hc0]; simp
    · rw [hc _ (by rintro rfl; rw [h.ozero] at ho; cases ho), if_neg (Ne.symm e)]; exact h.count a o ho
  case few =>
    intro a ha
    rw [hc a ha]
    split
    · rename_i e; subst e; rw [hc0]; omega
    · exact h.few a ha
  case nodup => exact List.nodup_nil
  case islot => simp
  case ifree => simp
  case dead =>
    intro a o ho hz
    rcases hobj a o ho with ⟨rfl, rfl⟩ | ⟨e, ho⟩
    · simp at hz
    · exact absurd hz (h.alive ho)
  case mems =>
    intro a o ho _
    rcases hobj a o ho with ⟨rfl, rfl⟩ | ⟨e, ho⟩
    · refine ⟨List.Nodup.map (fun a b h => by have h : st.fresh + 1 + a = st.fresh + 1 + b := h; omega) List.nodup_range, fun s hs => ⟨?_, by simp⟩⟩
      simp at hs
      obtain ⟨i, hi, rfl⟩ := hs
      simp only [newObj]
      rw [if_pos (by omega)]; rfl
    · obtain ⟨h1, h2⟩ := h.mems a o ho (h.alive ho)
      refine ⟨h1, fun s hs => ⟨?_, by simp⟩⟩
      obtain ⟨v, hv⟩ := Option.isSome_iff_exists.1 (h2 s hs).1
      rw [hslot s v hv]; rfl
  case disj =>
    intro a b o o' r ha hb _ _ hra hrb
    rcases hobj a o ha with ⟨rfl, rfl⟩ | ⟨e, ha⟩
    · rcases hobj b o' hb with ⟨rfl, rfl⟩ | ⟨e', hb⟩
      · rfl
      · simp at hra
        have := hmb b o' r hb hrb
        omega
    · rcases hobj b o' hb with ⟨rfl, rfl⟩ | ⟨e', hb⟩
      · simp at hrb
        have := hmb a o r ha hra
        omega
      · exact h.disj a b o o' r ha hb (h.alive ha) (h.alive hb) hra hrb
  case once => exact h.once
  case logdead =>
    intro a o ha ho
    have hl : a ∈ st.log := ha
    have := h.madebound a (h.logmade a hl)
    rcases hobj a o ho with ⟨rfl, rfl⟩ | ⟨e, ho⟩
    · omega
    · exact h.logdead a o hl ho
  case zerolog =>
    intro a o ho hz
    rcases hobj a o ho with ⟨rfl, rfl⟩ | ⟨e, ho⟩
    · simp at hz
    · exact absurd hz (h.alive ho)
  case logmade => intro a ha; exact List.mem_cons_of_mem _ (h.logmade a ha)
  case madelog =>
    intro a ha hn
    rcases List.mem_cons.1 ha with rfl | g
    · simp [newObj] at hn
    · exact h.madelog a g (by simp only [newObj] at hn; rw [upd_ne _ _ (by have := h.madebound a g; omega)] at hn; exact hn)
  case objmade =>
    intro a o ho
    rcases hobj a o ho with ⟨rfl, rfl⟩ | ⟨e, ho⟩
    · exact List.mem_cons_self ..
    · exact List.mem_cons_of_mem _ (h.objmade a o ho)
  case madebound =>
    intro a ha
    simp only [newObj]
    rcases List.mem_cons.1 ha with rfl | g
    · omega
    · have := h.madebound a g; omega
  case exlive => exact fun g => absurd rfl g

/-! ## `unique_ptr` -/

/-- If every object has one pointer, deleting it is giving up that pointer. -/
theorem deleteUnique_eq {v : Nat} {st : St} (hv : v ≠ 0 → ∃ o, st.obj v = some o ∧ o.count = 1) : deleteUnique v st = decrement v st := by
  by_cases e : v = 0
  · simp [deleteUnique, decrement, e]
  · obtain ⟨o, ho, hc⟩ := hv e
    rw [decrement_eq e ho (by omega) (by omega), if_pos hc]
    simp only [deleteUnique, if_neg e, ho]

theorem run_unique {ex : Nat} (n : Nat) : ∀ (items : List Item) (st : St), Inv ex items st → (∀ a, a ≠ 0 → cnt st ex a ≤ 1) → run deleteUnique n items st = run decrement n items st := by
  induction n with
  | zero => intro items st _ _; cases items <;> simp only [run]
  | succ n ih =>
    intro items st h hu
    match items, h with
    | [], _ => simp only [run]
    | .slot s :: is, h =>
      obtain ⟨v, st1, js, hv, hd, hi, k, -⟩ := step_slot h
      have hse := (h.islot s (List.mem_cons_self ..)).2
      have e : deleteUnique v { st with slot := upd st.slot s none } = some (st1, js) := by
        rw [deleteUnique_eq, hd]
        intro h0
        obtain ⟨o, ho⟩ := Option.isSome_iff_exists.1 (h.val s v hse hv h0)
        refine ⟨o, ho, ?_⟩
        have h1 := h.count v o ho
        have h2 := h.pos hv hse
        have h3 := hu v h0
        omega
      simp only [run, hv, hd, e]
      refine ih _ st1 hi fun a ha => Nat.le_trans ?_ (hu a ha)
      simp only [cnt, k.fresh]
      refine num_mono fun i hi => ?_
      simp only [decide_eq_true_eq] at hi ⊢
      exact ⟨hi.1, k.same i a hi.2⟩
    | .free a :: is, h =>
      obtain ⟨o, ho, hi, -⟩ := step_free h
      simp only [run, ho]
      exact ih _ _ hi hu

/-- The invariant of `unique_ptr`. -/
def UInv (st : St) : Prop := Inv 0 [] st ∧ ∀ a, a ≠ 0 → cnt st 0 a ≤ 1

theorem give_unique {s : Nat} {st : St} (h : UInv st) (ha : Access st s s) : give deleteUnique s st = give decrement s st := by
  obtain ⟨h, hu⟩ := h
  have hs : (st.slot s).isSome := by
    rcases ha with g | ⟨b, o, hb, ho, hm⟩
    · exact g.1
    · exact ((h.mems b o ho (h.alive ho)).2 s hm).1
  obtain ⟨v, hv⟩ := Option.isSome_iff_exists.1 hs
  have hd : v ≠ 0 → ∃ o, st.obj v = some o ∧ o.count = 1 := by
    intro h0
    obtain ⟨o, ho⟩ := Option.isSome_iff_exists.1 (h.val s v (h.ne0 hv) hv h0)
    refine ⟨o, ho, ?_⟩
    have h1 := h.count v o ho
    have h2 := h.pos hv (h.ne0 hv)
    have h3 := hu v h0
    omega
  obtain ⟨st1, js, e, d⟩ := decrement_dec (ex := 0) (v := v) (st := st) h.ozero (fun g => (hd g).imp fun _ x => ⟨x.1, by omega, by omega⟩)
  simp only [give, hv, deleteUnique_eq hd, e]
  refine run_unique (ex := s) _ _ _ (give_start h hv ha d).1 fun a ha => Nat.le_trans ?_ (hu a ha)
  simp only [cnt, d.fresh, d.slot]
  refine num_mono fun i hi => ?_
  simp only [decide_eq_true_eq] at hi ⊢
  exact ⟨h.ne0 hi.2, hi.2⟩

theorem cnt_le {st st' : St} (h : Inv 0 [] st) (hf : st'.fresh = st.fresh) (a : Nat) (hs : ∀ r, st'.slot r = some a → st.slot r = some a) : cnt st' 0 a ≤ cnt st 0 a := by
  simp only [cnt, hf]
  refine num_mono fun i hi => ?_
  simp only [decide_eq_true_eq] at hi ⊢
  exact ⟨hi.1, hs i hi.2⟩

theorem destroy_unique {s : Nat} {st : St} (h : UInv st) (hs : Var st s) : destroy deleteUnique s st = destroy decrement s st :=
  run_unique _ _ _ (slot_item h.1 hs) h.2

theorem move_inv {s t : Nat} {st : St} (h : UInv st) (hne : s ≠ t) (hs : Access st s s) (ht : Access st s t) :
    ∃ st', move s t st = .ok st' ∧ UInv st' ∧ st'.slot s = st.slot t ∧ st'.slot t = some 0 ∧ (∀ r, r ≠ s → r ≠ t → Var st r → st'.slot r = st.slot r) := by
  obtain ⟨st1, e1, g⟩ := give_inv h.1 hs
  have isSome : ∀ r, Access st s r → (st.slot r).isSome := by
    intro r hr
    rcases hr with g | ⟨b, o, hb, ho, hm⟩
    · exact g.1
    · exact ((h.1.mems b o ho (h.1.alive ho)).2 r hm).1
  obtain ⟨v, hv⟩ := Option.isSome_iff_exists.1 (isSome s hs)
  obtain ⟨w, hw⟩ := Option.isSome_iff_exists.1 (isSome t ht)
  have hv1 : st1.slot s = some v := by rw [g.acc s hs]; exact hv
  have hw1 : st1.slot t = some w := by rw [g.acc t ht]; exact hw
  have hs0 := h.1.ne0 hv
  have ht0 := h.1.ne0 hw
  have hslt := g.inv.lt hv1
  have htlt := g.inv.lt hw1
  have hc : ∀ b, b ≠ 0 → num (fun r => decide (r ≠ 0 ∧ upd (upd st1.slot s (some w)) t (some 0) r = some b)) st1.fresh = cnt st1 s b := by
    intro b hb
    have h1 := num_change (p := fun r => decide (r ≠ s ∧ st1.slot r = some b)) (q := fun r => decide (r ≠ 0 ∧ upd st1.slot s (some w) r = some b)) hslt (fun i hi => by
      by_cases e : i = 0
      · subst e; simp [g.inv.szero, upd_ne _ _ hi]
      · simp [hi, e, upd_ne _ _ hi])
    have h2 := num_change (p := fun r => decide (r ≠ 0 ∧ upd st1.slot s (some w) r = some b)) (q := fun r => decide (r ≠ 0 ∧ upd (upd st1.slot s (some w)) t (some 0) r = some b)) htlt (fun i hi => by
      simp [upd_ne _ _ hi])
    simp only [upd_same, upd_ne _ _ (Ne.symm hne), hw1] at h1 h2
    simp only [cnt]
    simp [hs0, ht0, Ne.symm hb] at h1 h2 ⊢
    omega
  refine ⟨{ st1 with slot := upd (upd st1.slot s (some w)) t (some 0) }, ?_, ⟨?_, ?_⟩, ?_, ?_, ?_⟩
  · simp only [move, give_unique h hs, e1, Out.bind, hw1, write, hv1, upd_ne _ _ (Ne.symm hne)]
  · refine Inv.of_change (st' := { st1 with slot := upd (upd st1.slot s (some w)) t (some 0) }) g.inv (Nat.le_refl _) ?_ ?_ ?_ rfl rfl (fun b o ho => ⟨o, ho, rfl⟩) (fun b o ho => ⟨o, ho, rfl⟩) ?_ ?_ ?_
    · intro r hr
      simp only at hr ⊢
      rw [upd_ne _ _ (by omega), upd_ne _ _ (by omega)]; exact g.inv.sbound r hr
    · simp only
      rw [upd_ne _ _ (Ne.symm ht0), upd_ne _ _ (Ne.symm hs0)]; exact g.inv.szero
    · intro r hr
      simp only [upd]; split
      · rfl
      · split <;> first | rfl | exact hr
    · intro r u hr hu
      simp only at hr ⊢
      by_cases e : r = t
      · subst e; simp at hr; exact absurd hr.symm hu
      · rw [upd_ne _ _ e] at hr
        by_cases e2 : r = s
        · subst e2; simp at hr; subst hr; exact g.inv.val t _ (Ne.symm hne) hw1 hu
        · rw [upd_ne _ _ e2] at hr; exact g.inv.val r u e2 hr hu
    · intro a o ho
      have ha : a ≠ 0 := by rintro rfl; rw [show st1.obj 0 = none from g.inv.ozero] at ho; cases ho
      exact ⟨(g.inv.count a o ho).trans (hc a ha).symm, g.inv.alive ho⟩
    · intro a ha
      have := g.inv.few a ha
      rw [← hc a ha] at this; exact this
  · intro a ha
    refine Nat.le_trans (Nat.le_of_eq (hc a ha)) (Nat.le_trans ?_ (h.2 a ha))
    simp only [cnt, g.fresh]
    refine num_mono fun i hi => ?_
    simp only [decide_eq_true_eq] at hi ⊢
    have := g.same i a hi.2
    exact ⟨h.1.ne0 this, this⟩
  · simp only
    rw [upd_ne _ _ hne, upd_same, hw]
  · exact upd_same ..
  · intro r h1 h2 h3
    simp only
    rw [upd_ne _ _ h2, upd_ne _ _ h1, g.acc r (.inl h3)]

theorem release_inv {s : Nat} {st : St} (h : UInv st) (hs : (st.slot s).isSome) :
    ∃ st', release s st = .ok st' ∧ UInv st' ∧ UEffect st st' (.release s) := by
  obtain ⟨v, hv⟩ := Option.isSome_iff_exists.1 hs
  have hs0 := h.1.ne0 hv
  have hlt := h.1.lt hv
  have hc : ∀ b, b ≠ 0 → cnt { st with slot := upd (upd st.slot s (some 0)) st.fresh (some v), fresh := st.fresh + 1 } 0 b = cnt st 0 b := by
    intro b hb
    have h1 := num_change (p := fun r => decide (r ≠ 0 ∧ upd st.slot s (some 0) r = some b)) (q := fun r => decide (r ≠ 0 ∧ st.slot r = some b)) hlt (fun i hi => by simp [upd_ne _ _ hi])
    simp only [cnt, num_succ, upd_same]
    have h2 : num (fun r => decide (r ≠ 0 ∧ upd (upd st.slot s (some 0)) st.fresh (some v) r = some b)) st.fresh = num (fun r => decide (r ≠ 0 ∧ upd st.slot s (some 0) r = some b)) st.fresh :=
      num_congr fun i hi => by simp only [upd_ne _ _ (show i ≠ st.fresh by omega)]
    rw [h2]
    simp only [upd_same, hv] at h1
    simp [hs0, Ne.symm hb, show st.fresh ≠ 0 by omega] at h1 ⊢
    exact h1
  refine ⟨{ st with slot := upd (upd st.slot s (some 0)) st.fresh (some v), fresh := st.fresh + 1 }, by simp only [release, hv], ⟨?_, fun a ha => by rw [hc a ha]; exact h.2 a ha⟩, ?_, ?_, rfl, rfl, ?_⟩
  · refine Inv.of_change (st' := { st with slot := upd (upd st.slot s (some 0)) st.fresh (some v), fresh := st.fresh + 1 }) h.1 (Nat.le_succ _) ?_ ?_ ?_ rfl rfl (fun b o ho => ⟨o, ho, rfl⟩) (fun b o ho => ⟨o, ho, rfl⟩) ?_ ?_ ?_
    · intro r hr
      simp only at hr ⊢
      rw [upd_ne _ _ (by omega), upd_ne _ _ (by omega)]; exact h.1.sbound r (by omega)
    · simp only
      rw [upd_ne _ _ (by omega), upd_ne _ _ (Ne.symm hs0)]; exact h.1.szero
    · intro r hr
      simp only [upd]; split
      · rfl
      · split <;> first | rfl | exact hr
    · intro r u hr hu
      simp only at hr ⊢
      by_cases e : r = st.fresh
      · subst e; simp at hr; subst hr; exact h.1.val s _ hs0 hv hu
      · rw [upd_ne _ _ e] at hr
        by_cases e2 : r = s
        · subst e2; simp at hr; exact absurd hr.symm hu
        · rw [upd_ne _ _ e2] at hr; exact h.1.val r u (h.1.ne0 hr) hr hu
    · intro a o ho
      have ha : a ≠ 0 := by rintro rfl; rw [show st.obj 0 = none from h.1.ozero] at ho; cases ho
      exact ⟨(h.1.count a o ho).trans (hc a ha).symm, h.1.alive ho⟩
    · intro a ha
      rw [hc a ha]; exact h.1.few a ha
  · simp only; rw [upd_same, hv]
  · simp only; rw [upd_ne _ _ (by omega), upd_same]
  · intro r h1 h2
    simp only; rw [upd_ne _ _ (by omega), upd_ne _ _ h1]

/-! ## The invariant gives the properties -/

theorem init_inv : Inv 0 [] init := by
  constructor <;> simp [init, cnt, num]

theorem Inv.good {st : St} (h : Inv 0 [] st) : Good st where
  points := fun s v hv h0 => h.val s v (h.ne0 hv) hv h0
  owned := by
    intro a ha
    obtain ⟨o, ho⟩ := Option.isSome_iff_exists.1 ha
    have h1 := h.alive ho
    rw [h.count a o ho] at h1
    obtain ⟨s, -, hs⟩ := num_exists h1
    simp at hs
    exact ⟨s, hs.2⟩
  made := by
    intro a ha
    obtain ⟨o, ho⟩ := Option.isSome_iff_exists.1 ha
    exact h.objmade a o ho
  once := h.once
  destroyed := by
    intro a
    refine ⟨fun ha => ⟨h.logmade a ha, ?_⟩, fun ha => h.madelog a ha.1 ha.2⟩
    cases e : st.obj a with
    | none => rfl
    | some o => exact absurd (h.logdead a o ha e) (h.alive e)

theorem exec_inv {st : St} {op : Op} (h : Inv 0 [] st) (hl : Legal st op) (hf : Few st) : ∃ st', exec op st = .ok st' ∧ Inv 0 [] st' ∧ Effect st st' op := by
  have hf : ∀ a, a ≠ 0 → cnt st 0 a + 2 < 2 ^ 32 := fun a ha => by rw [cnt_ptrs h]; exact hf a ha
  cases op with
  | null => exact ⟨_, rfl, newNull_inv h, rfl⟩
  | new k => exact ⟨_, rfl, newObj_inv k h, rfl⟩
  | copy t =>
    obtain ⟨st', v, e, hv, hi, s', f', k⟩ := copy_inv h hl (fun a ha => by have := hf a ha; omega)
    refine ⟨st', e, hi, by rw [s', upd_same, hv], ⟨?_, ?_, ?_⟩, k.log⟩
    · intro r u hr _ hu; rw [s', upd_ne _ _ hr] at hu; exact hu
    · intro r hr _; rw [s', upd_ne _ _ hr]
    · intro a o _ ho
      obtain ⟨o', ho', e⟩ := k.back a o ho
      exact ⟨o', ho', e.symm⟩
  | assign s t => obtain ⟨st', e, hi, h1, h2⟩ := assign_inv h hl.1 hl.2 hf; exact ⟨st', e, hi, h1, h2⟩
  | zero s => obtain ⟨st', e, hi, h1, h2, -⟩ := zero_inv h hl; exact ⟨st', e, hi, h1, h2⟩
  | destroy s =>
    obtain ⟨st', e, hi, k, h1⟩ := destroy_inv h hl
    refine ⟨st', e, hi, h1, ⟨fun r v _ _ hv => k.same r v hv, fun r hr hv => k.root r ⟨hv, by simpa using hr⟩, fun a o _ ho => k.mems a o ho⟩⟩

theorem hist_inv {st : St} (h : Hist Few st) : Inv 0 [] st := by
  induction h with
  | init => exact init_inv
  | step _ hl hf he ih =>
    obtain ⟨st', e, hi, -⟩ := exec_inv ih hl hf
    rw [he] at e; cases e; exact hi

theorem uexec_inv {st : St} {op : UOp} (h : UInv st) (hl : ULegal st op) : ∃ st', uexec op st = .ok st' ∧ UInv st' ∧ UEffect st st' op := by
  cases op with
  | null => exact ⟨_, rfl, ⟨newNull_inv h.1, fun a ha => by
      have : cnt (newNull st) 0 a = _ := cnt_new (v := 0) h.1
      rw [this, if_neg (Ne.symm ha)]; exact h.2 a ha⟩, rfl⟩
  | new k => exact ⟨_, rfl, ⟨newObj_inv k h.1, fun a ha => by
      rw [cnt_newObj k h.1 ha]
      split
      · rename_i e; subst e; rw [cnt_fresh h.1]; omega
      · exact h.2 a ha⟩, rfl⟩
  | move s t => obtain ⟨st', e, hi, h1, h2, h3⟩ := move_inv h hl.1 hl.2.1 hl.2.2; exact ⟨st', e, hi, h1, h2, h3⟩
  | zero s =>
    obtain ⟨st', e, hi, h1, h2, hf⟩ := zero_inv h.1 hl
    refine ⟨st', ?_, ⟨hi, fun a ha => Nat.le_trans (cnt_le h.1 hf a fun r hr => ?_) (h.2 a ha)⟩, h1, h2⟩
    · simp only [uexec, assignZero, give_unique h hl]; exact e
    · by_cases g : r = s
      · subst g; rw [h1] at hr; cases hr; exact absurd rfl ha
      · exact h2.same r a g (by rw [← hf]; exact hi.lt hr) hr
  | release s => exact release_inv h hl
  | destroy s =>
    obtain ⟨st', e, hi, k, h1⟩ := destroy_inv h.1 hl
    refine ⟨st', ?_, ⟨hi, fun a ha => Nat.le_trans (cnt_le h.1 k.fresh a fun r hr => k.same r a hr) (h.2 a ha)⟩, h1, ⟨fun r v _ _ hv => k.same r v hv, fun r hr hv => k.root r ⟨hv, by simpa using hr⟩, fun a o _ ho => k.mems a o ho⟩⟩
    simp only [uexec, destroy_unique h hl]; exact e

theorem uhist_inv {st : St} (h : UHist st) : UInv st := by
  induction h with
  | init => exact ⟨init_inv, fun a _ => by simp [init, cnt, num]⟩
  | step _ hl he ih =>
    obtain ⟨st', e, hi, -⟩ := uexec_inv ih hl
    rw [he] at e; cases e; exact hi

theorem num_two {p : Nat → Bool} {n s r : Nat} (hs : s < n) (hr : r < n) (h : s ≠ r) (ps : p s = true) (pr : p r = true) : 2 ≤ num p n := by
  have h1 := num_change (p := fun i => if i = s then false else p i) (q := p) hs (fun i hi => by simp [hi])
  have h2 := num_pos (p := fun i => if i = s then false else p i) hr (by simp [Ne.symm h, pr])
  simp only [ps, if_true, Bool.false_eq_true, if_false] at h1
  omega

theorem UInv.unique {st : St} (h : UInv st) {a s r : Nat} (ha : a ≠ 0) (hs : st.slot s = some a) (hr : st.slot r = some a) : s = r := by
  by_cases e : s = r
  · exact e
  · have h1 := num_two (p := fun i => decide (i ≠ 0 ∧ st.slot i = some a)) (h.1.lt hs) (h.1.lt hr) e (by simp [h.1.ne0 hs, hs]) (by simp [h.1.ne0 hr, hr])
    have h2 := h.2 a ha
    simp only [cnt] at h2
    omega

/-! ## The counter wraps -/

/-- An object without pointers in it, and `n + 1` pointers to it. -/
def many (n : Nat) : St where
  slot := fun s => if 2 ≤ s ∧ s < n + 3 then some 1 else none
  obj := fun a => if a = 1 then some ⟨(n + 1) % 2 ^ 32, []⟩ else none
  fresh := n + 3
  made := [1]
  log := []

theorem many_slot (n s : Nat) : (many n).slot s = if 2 ≤ s ∧ s < n + 3 then some 1 else none := rfl

theorem many_obj (n a : Nat) : (many n).obj a = if a = 1 then some ⟨(n + 1) % 2 ^ 32, []⟩ else none := rfl

theorem St.eq {st st' : St} (h1 : ∀ s, st.slot s = st'.slot s) (h2 : ∀ a, st.obj a = st'.obj a) (h3 : st.fresh = st'.fresh) (h4 : st.made = st'.made) (h5 : st.log = st'.log) : st = st' := by
  cases st; cases st'
  simp only at h1 h2 h3 h4 h5
  rw [show _ = _ from funext h1, show _ = _ from funext h2, h3, h4, h5]

theorem many_zero : newObj 0 init = many 0 := by
  refine St.eq (fun s => ?_) (fun a => ?_) rfl rfl rfl
  · rw [many_slot]
    show (if 1 < s ∧ s ≤ 1 + 0 then some 0 else if s = 1 + 0 + 1 then some 1 else none) = _
    by_cases e : s = 2
    · subst e; simp
    · rw [if_neg (by omega), if_neg (by omega), if_neg (by omega)]
  · rw [many_obj]
    show upd _ 1 _ a = _
    by_cases e : a = 1
    · subst e; simp
    · rw [upd_ne _ _ e, if_neg e]; rfl

theorem many_succ (n : Nat) : copy 2 (many n) = .ok (many (n + 1)) := by
  have h2 : (many n).slot 2 = some 1 := by rw [many_slot, if_pos (by omega)]
  have h1 : (many n).obj 1 = some ⟨(n + 1) % 2 ^ 32, []⟩ := by rw [many_obj, if_pos rfl]
  simp only [copy, h2, increment, if_neg Nat.one_ne_zero, h1]
  refine congrArg Out.ok (St.eq (fun s => ?_) (fun a => ?_) rfl rfl rfl)
  · simp only
    rw [many_slot, show (many n).fresh = n + 3 from rfl]
    by_cases e : s = n + 3
    · subst e; rw [upd_same, if_pos (by omega)]
    · rw [upd_ne _ _ e, many_slot]
      by_cases g : 2 ≤ s ∧ s < n + 3
      · rw [if_pos g, if_pos (by omega)]
      · rw [if_neg g, if_neg (by omega)]
  · simp only
    rw [many_obj]
    by_cases e : a = 1
    · subst e
      rw [upd_same, if_pos rfl, show ((n + 1) % 2 ^ 32 + 1) % 2 ^ 32 = (n + 1 + 1) % 2 ^ 32 by omega]
    · rw [upd_ne _ _ e, if_neg e, many_obj, if_neg e]

theorem many_var (n : Nat) : Var (many n) 2 := by
  refine ⟨by rw [many_slot, if_pos (by omega)]; rfl, fun a o ho => ?_⟩
  rw [many_obj] at ho
  split at ho
  · cases ho; simp
  · cases ho

theorem many_hist : ∀ n, Hist (fun _ => True) (many n)
  | 0 => .step .init (op := .new 0) trivial trivial (by simp only [exec, many_zero])
  | n + 1 => .step (many_hist n) (op := .copy 2) (many_var n).1 trivial (many_succ n)

theorem run_slot {drop : Nat → St → Option (St × List Item)} {n s v : Nat} {is js : List Item} {st st' : St} (h : st.slot s = some v) (hd : drop v { st with slot := upd st.slot s none } = some (st', js)) :
    run drop (n + 1) (.slot s :: is) st = run drop n (js ++ is) st' := by
  simp only [run, h, hd]

theorem run_free {drop : Nat → St → Option (St × List Item)} {n a : Nat} {is : List Item} {st : St} {o : Obj} (h : st.obj a = some o) :
    run drop (n + 1) (.free a :: is) st = run drop n is { st with obj := upd st.obj a none } := by
  simp only [run, h]

theorem run_nil {drop : Nat → St → Option (St × List Item)} {n : Nat} {st : St} : run drop n [] st = .ok st := by cases n <;> rfl

theorem many_destroy {n : Nat} (hn : (n + 1) % 2 ^ 32 = 1) : ∃ st', destroy decrement 2 (many n) = .ok st' ∧ st'.obj 1 = none ∧ ∀ s, s ≠ 2 → st'.slot s = (many n).slot s := by
  have h2 : (many n).slot 2 = some 1 := by rw [many_slot, if_pos (by omega)]
  have h1 : (many n).obj 1 = some ⟨1, []⟩ := by rw [many_obj, if_pos rfl, hn]
  have hf : (many n).fresh = n + 3 := rfl
  generalize many n = st at *
  obtain ⟨m, hm⟩ : ∃ m, 2 * st.fresh = m + 2 := ⟨2 * st.fresh - 2, by omega⟩
  have e := decrement_eq (v := 1) (st := { st with slot := upd st.slot 2 none }) (by omega) h1 (by simp) (by simp)
  rw [if_pos rfl] at e
  simp only [delete, List.map_nil, List.nil_append] at e
  rw [destroy, hm, run_slot h2 e, List.cons_append, List.nil_append, run_free (o := ⟨0, []⟩) (by simp only [upd_same]), run_nil]
  exact ⟨_, rfl, by simp only [upd_same], fun s hs => upd_ne _ _ hs⟩

end Verif.SmartPtr
