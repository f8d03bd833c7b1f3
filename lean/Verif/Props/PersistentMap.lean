import Verif.Model.PersistentMap
import Verif.Proof.Heap
/-!
C62: persistent maps. The specification is a client that holds immutable maps: each version it holds has its own contents, which no operation changes.
-/
namespace Verif.PersistentMap
open Verif

variable {K V : Type} [DecidableEq K]

/-! ### Specification -/

/-- The contents of a version: the value of each key, and the number of keys. -/
structure View (K V : Type) where
  val : K → Option V
  size : Nat

def View.empty : View K V := ⟨fun _ => none, 0⟩
def View.set (m : View K V) (k : K) (v : V) : View K V :=
  ⟨fun x => if x = k then some v else m.val x, if (m.val k).isSome then m.size else m.size + 1⟩
def View.erase (m : View K V) (k : K) : View K V :=
  ⟨fun x => if x = k then none else m.val x, if (m.val k).isSome then m.size - 1 else m.size⟩

/-- One operation on immutable maps: a new version is added at the end, the others stay as they are. `none`: the operation is not allowed (there is no such
    version; `get` of a key that is not present). -/
def specStep (h : List (View K V)) : Op K V → Option (Res V × List (View K V))
  | .new => some (.version, h ++ [.empty])
  | .set w k v => h[w]?.map fun m => (.version, h ++ [m.set k v])
  | .erase w k => h[w]?.map fun m => (.version, h ++ [m.erase k])
  | .empty w => h[w]?.map fun m => (.bool (m.size = 0), h)
  | .size w => h[w]?.map fun m => (.nat m.size, h)
  | .count w k => h[w]?.map fun m => (.nat (if (m.val k).isSome then 1 else 0), h)
  | .get w k => h[w]?.bind fun m => (m.val k).map fun v => (.val v, h)
  | .getOrDefault w k d => h[w]?.map fun m => (.val ((m.val k).getD d), h)

def specRun (h : List (View K V)) : List (Op K V) → Option (List (Res V))
  | [] => some []
  | o :: os => (specStep h o).bind fun (r, h) => (specRun h os).map fun rs => r :: rs

/-! ### Proof -/

/-- The contents of a table. -/
def tabView (m : Tab K V) : View K V := ⟨find m, m.length⟩

def Uniq (m : Tab K V) : Prop := (m.map (fun e => e.1)).Nodup

theorem find_nil (k : K) : find ([] : Tab K V) k = none := rfl

theorem find_cons (e : K × V) (m : Tab K V) (k : K) : find (e :: m) k = if e.1 = k then some e.2 else find m k := by
  by_cases h : e.1 = k <;> simp [find, List.find?_cons, h]

theorem find_none {m : Tab K V} {k : K} : find m k = none ↔ k ∉ m.map (fun e => e.1) := by
  induction m with
  | nil => simp [find_nil]
  | cons e m ih => 
    rw [find_cons]
    by_cases h : e.1 = k
    · simp [h]
    · simp [h, ih, Ne.symm h]

theorem find_del (m : Tab K V) (k x : K) : find (del m k) x = if x = k then none else find m x := by
  induction m with
  | nil => simp [del, find_nil]
  | cons e m ih =>
    simp only [del, List.filter_cons] at *
    by_cases h : e.1 = k
    · simp only [h, ne_eq, not_true, decide_false, Bool.false_eq_true, if_false, ih, find_cons]
      by_cases hx : x = k
      · simp [hx]
      · simp [hx, Ne.symm hx]
    · simp only [ne_eq, h, not_false_iff, decide_true, if_true, find_cons, ih]
      by_cases hx : x = k
      · subst hx; simp [h]
      · simp [hx]

theorem del_len {m : Tab K V} {k : K} (hu : Uniq m) : (del m k).length = if (find m k).isSome then m.length - 1 else m.length := by
  induction m with
  | nil => simp [del, find_nil]
  | cons e m ih =>
    simp only [Uniq, List.map_cons, List.nodup_cons] at hu
    have ih := ih hu.2
    simp only [del, List.filter_cons, find_cons] at *
    by_cases h : e.1 = k
    · have : find m k = none := find_none.2 (by rw [← h]; exact hu.1)
      simp only [this] at ih
      simp [h] at *
      exact ih
    · simp only [ne_eq, h, not_false_iff, decide_true, if_true, if_false, List.length_cons] at *
      rw [ih]
      split
      · next hs =>
        have : m ≠ [] := by rintro rfl; simp [find_nil] at hs
        have := List.length_pos_iff.2 this
        omega
      · rfl

theorem uniq_del {m : Tab K V} {k : K} (hu : Uniq m) : Uniq (del m k) := by
  unfold Uniq at *
  exact hu.sublist ((List.filter_sublist).map _)

theorem find_assign (m : Tab K V) (k x : K) (v : V) : find (assign m k v) x = if x = k ∧ (find m k).isSome then some v else find m x := by
  induction m with
  | nil => simp [assign, find_nil]
  | cons e m ih =>
    simp only [assign, List.map_cons, find_cons] at *
    by_cases h : e.1 = k
    · by_cases hx : x = k
      · subst hx; simp [h]
      · simp [h, hx, Ne.symm hx, ih]
    · by_cases hx : x = k
      · subst hx; simp [h, ih]
      · simp [h, hx, ih]

theorem assign_len (m : Tab K V) (k : K) (v : V) : (assign m k v).length = m.length := by simp [assign]

theorem uniq_assign {m : Tab K V} {k : K} {v : V} (hu : Uniq m) : Uniq (assign m k v) := by
  unfold Uniq at *
  have : (assign m k v).map (fun e => e.1) = m.map (fun e => e.1) := by
    simp only [assign, List.map_map]
    refine List.map_congr_left fun e _ => ?_
    by_cases h : e.1 = k <;> simp [h]
  rw [this]; exact hu

theorem uniq_emplace {m : Tab K V} {k : K} {v : V} (hu : Uniq m) : Uniq (emplace m k v) := by
  unfold emplace
  split
  · exact hu
  · next h =>
    simp only [Bool.not_eq_true, Option.isSome_eq_false_iff, Option.isNone_iff_eq_none] at h
    simp only [Uniq, List.map_cons, List.nodup_cons] at *
    exact ⟨find_none.1 h, hu⟩

theorem view_del {m : Tab K V} {k : K} (hu : Uniq m) : tabView (del m k) = (tabView m).erase k := by
  simp only [tabView, View.erase, View.mk.injEq]
  exact ⟨funext fun x => find_del m k x, del_len hu⟩

theorem view_emplace {m : Tab K V} {k : K} {v : V} (h : find m k = none) : tabView (emplace m k v) = (tabView m).set k v := by
  simp only [tabView, View.set, View.mk.injEq, emplace, h]
  refine ⟨funext fun x => ?_, by simp⟩
  simp only [Option.isSome_none, Bool.false_eq_true, if_false, find_cons]
  by_cases hx : x = k
  · simp [hx]
  · simp [hx, Ne.symm hx]

theorem view_assign {m : Tab K V} {k : K} {v : V} (h : (find m k).isSome) : tabView (assign m k v) = (tabView m).set k v := by
  simp only [tabView, View.set, View.mk.injEq]
  refine ⟨funext fun x => ?_, by simp [h, assign_len]⟩
  rw [find_assign]; simp [h]

theorem erase_set {m : View K V} {k : K} {v : V} (h : m.val k = none) : (m.set k v).erase k = m := by
  cases m with
  | mk f n =>
    simp only at h
    simp only [View.set, View.erase, View.mk.injEq, h]
    refine ⟨funext fun x => ?_, by simp⟩
    by_cases hx : x = k <;> simp [hx, h]

theorem set_erase {m : View K V} {k : K} {v : V} (h : m.val k = some v) (hn : 0 < m.size) : (m.erase k).set k v = m := by
  cases m with
  | mk f n =>
    simp only at h hn
    simp only [View.set, View.erase, View.mk.injEq, h]
    refine ⟨funext fun x => ?_, by simp; omega⟩
    by_cases hx : x = k <;> simp [hx, h]

theorem set_set {m : View K V} {k : K} {v v0 : V} (h : m.val k = some v0) : (m.set k v).set k v0 = m := by
  cases m with
  | mk f n =>
    simp only at h
    simp only [View.set, View.mk.injEq, h]
    refine ⟨funext fun x => ?_, by simp⟩
    by_cases hx : x = k <;> simp [hx, h]

theorem tab_pos {m : Tab K V} {k : K} {v : V} (h : find m k = some v) : 0 < (tabView m).size := by
  cases m with
  | nil => simp [find_nil] at h
  | cons e m => simp [tabView]

/-- Node `i`, at distance `d` from the root, stands for the contents `m`. -/
inductive Den (nd : Nat → Node K V) : Nat → Nat → View K V → Prop
  | base {i m} : nd i = .base m → Uniq m → Den nd 0 i (tabView m)
  | rem {i b k d m} : nd i = .rem b k → Den nd d b m → (m.val k).isSome → Den nd (d + 1) i (m.erase k)
  | ins {i b k v d m} : nd i = .ins b k v → Den nd d b m → m.val k = none → Den nd (d + 1) i (m.set k v)
  | upd {i b k v d m} : nd i = .upd b k v → Den nd d b m → (m.val k).isSome → Den nd (d + 1) i (m.set k v)

theorem Den.det {nd : Nat → Node K V} {d e i : Nat} {m m' : View K V} (h : Den nd d i m) (h' : Den nd e i m') : d = e ∧ m = m' := by
  induction h generalizing e m' with
  | base h1 h2 => cases h' with
    | base h3 h4 => rw [h1] at h3; cases h3; exact ⟨rfl, rfl⟩
    | _ h3 => rw [h1] at h3; cases h3
  | rem h1 h2 _ ih => cases h' with
    | rem h3 h4 => rw [h1] at h3; cases h3; obtain ⟨rfl, rfl⟩ := ih h4; exact ⟨rfl, rfl⟩
    | _ h3 => rw [h1] at h3; cases h3
  | ins h1 h2 _ ih => cases h' with
    | ins h3 h4 => rw [h1] at h3; cases h3; obtain ⟨rfl, rfl⟩ := ih h4; exact ⟨rfl, rfl⟩
    | _ h3 => rw [h1] at h3; cases h3
  | upd h1 h2 _ ih => cases h' with
    | upd h3 h4 => rw [h1] at h3; cases h3; obtain ⟨rfl, rfl⟩ := ih h4; exact ⟨rfl, rfl⟩
    | _ h3 => rw [h1] at h3; cases h3

/-- The contents of a node. -/
def Has (nd : Nat → Node K V) (i : Nat) (m : View K V) : Prop := ∃ d, Den nd d i m

/-- The node a node refers to. -/
def Node.ref : Node K V → Option Nat
  | .base _ => none
  | .rem b _ => some b
  | .ins b _ _ => some b
  | .upd b _ _ => some b

/-- When each changed node keeps its contents, every node does. -/
theorem keep {nd nd' : Nat → Node K V} (P : Nat → Prop) (hP : ∀ j b, P j → (nd j).ref = some b → P b)
    (hC : ∀ j, P j → nd' j = nd j ∨ ∀ w, Has nd j w → Has nd' j w) {j : Nat} {w : View K V} (hj : P j) (h : Has nd j w) : Has nd' j w := by
  obtain ⟨d, h⟩ := h
  induction h with
  | @base j t h1 h2 =>
    rcases hC j hj with e | e
    · exact ⟨0, .base (by rw [e]; exact h1) h2⟩
    · exact e _ ⟨_, .base h1 h2⟩
  | @rem j b' k d mm h1 h2 h3 ih =>
    rcases hC j hj with e | e
    · obtain ⟨d', ih⟩ := ih (hP j b' hj (by rw [h1]; rfl)); exact ⟨d' + 1, .rem (by rw [e]; exact h1) ih h3⟩
    · exact e _ ⟨_, .rem h1 h2 h3⟩
  | @ins j b' k v d mm h1 h2 h3 ih =>
    rcases hC j hj with e | e
    · obtain ⟨d', ih⟩ := ih (hP j b' hj (by rw [h1]; rfl)); exact ⟨d' + 1, .ins (by rw [e]; exact h1) ih h3⟩
    · exact e _ ⟨_, .ins h1 h2 h3⟩
  | @upd j b' k v d mm h1 h2 h3 ih =>
    rcases hC j hj with e | e
    · obtain ⟨d', ih⟩ := ih (hP j b' hj (by rw [h1]; rfl)); exact ⟨d' + 1, .upd (by rw [e]; exact h1) ih h3⟩
    · exact e _ ⟨_, .upd h1 h2 h3⟩

theorem Has.det {nd : Nat → Node K V} {i : Nat} {m m' : View K V} : Has nd i m → Has nd i m' → m = m'
  | ⟨_, h⟩, ⟨_, h'⟩ => (Den.det h h').2

/-- The last step of `reroot`: the table moves from `b` to `i`; every node keeps its contents. -/
theorem flip {nd nd' : Nat → Node K V} {i b : Nat} {l l' : Tab K V} {m : View K V} (hb : nd b = .base l) (hu : Uniq l) (hu' : Uniq l')
    (hi : Has nd i m) (hl : tabView l' = m) (hn : ∀ j, j ≠ i → j ≠ b → nd' j = nd j) (hi' : nd' i = .base l')
    (hb' : Has nd' i m → Has nd' b (tabView l)) (j : Nat) (w : View K V) (h : Has nd j w) : Has nd' j w := by
  have hm : Has nd' i m := ⟨0, hl ▸ Den.base hi' hu'⟩
  refine keep (fun _ => True) (fun _ _ _ _ => trivial) (fun j _ => ?_) trivial h
  by_cases e1 : j = i
  · subst e1; exact .inr fun w h => Has.det hi h ▸ hm
  · by_cases e2 : j = b
    · subst e2; exact .inr fun w h => Has.det ⟨0, .base hb hu⟩ h ▸ hb' hm
    · exact .inl (hn j e1 e2)

/-- Nodes refer only to nodes that exist. -/
def Closed (s : Store K V) : Prop := ∀ i < s.n, ∀ b, (s.node i).ref = some b → b < s.n

/-- What `reroot` does: `i` becomes the root, every node keeps its contents, and no node farther from the root than `i` was is touched. -/
structure Rerooted (s s' : Store K V) (d i : Nat) (m : View K V) : Prop where
  root : ∃ l, s'.node i = .base l ∧ Uniq l ∧ tabView l = m
  keep : ∀ j w, Has s.node j w → Has s'.node j w
  n : s'.n = s.n
  frame : ∀ j e w, Den s.node e j w → d < e → s'.node j = s.node j
  closed : Closed s → i < s.n → Closed s'

theorem reroot_ok {s : Store K V} {d i : Nat} {m : View K V} (h : Den s.node d i m) : ∃ s', Rerooted s s' d i m ∧ ∀ fuel, d < fuel → reroot fuel s i = .ret s' := by
  induction h with
  | @base i t h1 h2 =>
    refine ⟨s, ⟨⟨t, h1, h2, rfl⟩, fun j w h => h, rfl, fun _ _ _ _ _ => rfl, fun h _ => h⟩, fun fuel hf => ?_⟩
    obtain ⟨fuel, rfl⟩ : ∃ f, fuel = f + 1 := ⟨fuel - 1, by omega⟩
    simp [reroot, h1]
  | @rem i b k d m h1 h2 h3 ih =>
    obtain ⟨s1, r, e1⟩ := ih
    obtain ⟨l, hl, hu, hv⟩ := r.root
    subst hv
    have hD : Den s.node (d + 1) i ((tabView l).erase k) := .rem h1 h2 h3
    have hi1 : s1.node i = .rem b k := by rw [r.frame i _ _ hD (by omega)]; exact h1
    have hib : i ≠ b := by rintro rfl; rw [hi1] at hl; cases hl
    obtain ⟨v, hf⟩ := Option.isSome_iff_exists.1 h3
    have hf' : find l k = some v := hf
    refine ⟨{ s1 with node := Verif.upd (upd s1.node b (.ins i k v)) i (.base (del l k)) }, ⟨⟨_, upd_same _ _ _, uniq_del hu, view_del hu⟩, ?_, r.n, ?_, ?_⟩, fun fuel hf => ?_⟩
    rotate_right
    · obtain ⟨fuel, rfl⟩ : ∃ f, fuel = f + 1 := ⟨fuel - 1, by omega⟩
      simp only [reroot, h1, e1 fuel (by omega), Outcome.bind_ret, hl, hf']
    · intro j w hj
      refine flip hl hu (uniq_del hu) (r.keep _ _ ⟨_, hD⟩) (view_del hu) ?_ (upd_same _ _ _) ?_ j w (r.keep _ _ hj)
      · intro j h4 h5
        show upd (upd s1.node b _) i _ j = _
        rw [upd_ne _ _ h4, upd_ne _ _ h5]
      · rintro ⟨d', h⟩
        have : (tabView l : View K V) = ((tabView l).erase k).set k v := (set_erase hf (tab_pos hf')).symm
        rw [this]
        exact ⟨d' + 1, .ins (by show upd (upd s1.node b _) i _ b = _; rw [upd_ne _ _ (Ne.symm hib), upd_same]) h (by simp [View.erase])⟩
    · intro j e w hj he
      have h4 : j ≠ i := by rintro rfl; have := (Den.det hj hD).1; omega
      have h5 : j ≠ b := by rintro rfl; have := (Den.det hj h2).1; omega
      show upd (upd s1.node b _) i _ j = _
      rw [upd_ne _ _ h4, upd_ne _ _ h5]
      exact r.frame j e w hj (by omega)
    · intro hc hi j hj x hx
      have hb := hc i hi b (by rw [h1]; rfl)
      have hn := r.n
      simp only [upd_apply] at hx hj ⊢
      split at hx
      · cases hx
      · split at hx
        · simp only [Node.ref, Option.some.injEq] at hx; omega
        · exact r.closed hc hb j hj x hx
  | @ins i b k v d m h1 h2 h3 ih =>
    obtain ⟨s1, r, e1⟩ := ih
    obtain ⟨l, hl, hu, hv⟩ := r.root
    subst hv
    have hD : Den s.node (d + 1) i ((tabView l).set k v) := .ins h1 h2 h3
    have hi1 : s1.node i = .ins b k v := by rw [r.frame i _ _ hD (by omega)]; exact h1
    have hib : i ≠ b := by rintro rfl; rw [hi1] at hl; cases hl
    have hf' : find l k = none := h3
    refine ⟨{ s1 with node := Verif.upd (upd s1.node b (.rem i k)) i (.base (emplace l k v)) }, ⟨⟨_, upd_same _ _ _, uniq_emplace hu, view_emplace hf'⟩, ?_, r.n, ?_, ?_⟩, fun fuel hf => ?_⟩
    rotate_right
    · obtain ⟨fuel, rfl⟩ : ∃ f, fuel = f + 1 := ⟨fuel - 1, by omega⟩
      simp only [reroot, h1, e1 fuel (by omega), Outcome.bind_ret, hl]
    · intro j w hj
      refine flip hl hu (uniq_emplace hu) (r.keep _ _ ⟨_, hD⟩) (view_emplace hf') ?_ (upd_same _ _ _) ?_ j w (r.keep _ _ hj)
      · intro j h4 h5
        show upd (upd s1.node b _) i _ j = _
        rw [upd_ne _ _ h4, upd_ne _ _ h5]
      · rintro ⟨d', h⟩
        have : (tabView l : View K V) = ((tabView l).set k v).erase k := (erase_set h3).symm
        rw [this]
        exact ⟨d' + 1, .rem (by show upd (upd s1.node b _) i _ b = _; rw [upd_ne _ _ (Ne.symm hib), upd_same]) h (by simp [View.set])⟩
    · intro j e w hj he
      have h4 : j ≠ i := by rintro rfl; have := (Den.det hj hD).1; omega
      have h5 : j ≠ b := by rintro rfl; have := (Den.det hj h2).1; omega
      show upd (upd s1.node b _) i _ j = _
      rw [upd_ne _ _ h4, upd_ne _ _ h5]
      exact r.frame j e w hj (by omega)
    · intro hc hi j hj x hx
      have hb := hc i hi b (by rw [h1]; rfl)
      have hn := r.n
      simp only [upd_apply] at hx hj ⊢
      split at hx
      · cases hx
      · split at hx
        · simp only [Node.ref, Option.some.injEq] at hx; omega
        · exact r.closed hc hb j hj x hx
  | @upd i b k v d m h1 h2 h3 ih =>
    obtain ⟨s1, r, e1⟩ := ih
    obtain ⟨l, hl, hu, hv⟩ := r.root
    subst hv
    have hD : Den s.node (d + 1) i ((tabView l).set k v) := .upd h1 h2 h3
    have hi1 : s1.node i = .upd b k v := by rw [r.frame i _ _ hD (by omega)]; exact h1
    have hib : i ≠ b := by rintro rfl; rw [hi1] at hl; cases hl
    obtain ⟨v0, hf⟩ := Option.isSome_iff_exists.1 h3
    have hf' : find l k = some v0 := hf
    have hf2 : (find l k).isSome = true := h3
    refine ⟨{ s1 with node := Verif.upd (Verif.upd s1.node b (.upd i k v0)) i (.base (assign l k v)) }, ⟨⟨_, upd_same _ _ _, uniq_assign hu, view_assign hf2⟩, ?_, r.n, ?_, ?_⟩, fun fuel hf => ?_⟩
    rotate_right
    · obtain ⟨fuel, rfl⟩ : ∃ f, fuel = f + 1 := ⟨fuel - 1, by omega⟩
      simp only [reroot, h1, e1 fuel (by omega), Outcome.bind_ret, hl, hf']
    · intro j w hj
      refine flip hl hu (uniq_assign hu) (r.keep _ _ ⟨_, hD⟩) (view_assign hf2) ?_ (upd_same _ _ _) ?_ j w (r.keep _ _ hj)
      · intro j h4 h5
        show Verif.upd (Verif.upd s1.node b _) i _ j = _
        rw [upd_ne _ _ h4, upd_ne _ _ h5]
      · rintro ⟨d', h⟩
        have : (tabView l : View K V) = ((tabView l).set k v).set k v0 := (set_set hf).symm
        rw [this]
        exact ⟨d' + 1, .upd (by show Verif.upd (Verif.upd s1.node b _) i _ b = _; rw [upd_ne _ _ (Ne.symm hib), upd_same]) h (by simp [View.set])⟩
    · intro j e w hj he
      have h4 : j ≠ i := by rintro rfl; have := (Den.det hj hD).1; omega
      have h5 : j ≠ b := by rintro rfl; have := (Den.det hj h2).1; omega
      show Verif.upd (Verif.upd s1.node b _) i _ j = _
      rw [upd_ne _ _ h4, upd_ne _ _ h5]
      exact r.frame j e w hj (by omega)
    · intro hc hi j hj x hx
      have hb := hc i hi b (by rw [h1]; rfl)
      have hn := r.n
      simp only [upd_apply] at hx hj ⊢
      split at hx
      · cases hx
      · split at hx
        · simp only [Node.ref, Option.some.injEq] at hx; omega
        · exact r.closed hc hb j hj x hx

theorem rerooted_ok {s : Store K V} {d i : Nat} {m : View K V} (h : Den s.node d i m) :
    ∃ l s', (∀ fuel, d < fuel → rerooted fuel s i = .ret (l, s')) ∧ Rerooted s s' d i m ∧ s'.node i = .base l ∧ Uniq l ∧ tabView l = m := by
  obtain ⟨s', r, e⟩ := reroot_ok h
  obtain ⟨l, h1, h2, h3⟩ := r.root
  exact ⟨l, s', fun fuel hf => by simp only [rerooted, e fuel hf, Outcome.bind_ret, h1], r, h1, h2, h3⟩

/-- The versions `h` of the client stand for the maps `H`. -/
structure Match (s : Store K V) (h : List Nat) (H : List (View K V)) : Prop where
  closed : Closed s
  len : h.length = H.length
  lt : ∀ w (hw : w < h.length), h[w] < s.n
  has : ∀ w (hw : w < h.length), Has s.node h[w] (H[w]'(len ▸ hw))

theorem Match.snoc {s s' : Store K V} {h : List Nat} {H : List (View K V)} {i : Nat} {m : View K V} (hm : Match s h H) (hn : s.n ≤ s'.n) (hc : Closed s')
    (hk : ∀ j w, j < s.n → Has s.node j w → Has s'.node j w) (hi : i < s'.n) (hh : Has s'.node i m) : Match s' (h ++ [i]) (H ++ [m]) := by
  have hlen := hm.len
  refine ⟨hc, by simp [hlen], fun w hw => ?_, fun w hw => ?_⟩
  · by_cases e : w < h.length
    · rw [List.getElem_append_left e]; exact Nat.lt_of_lt_of_le (hm.lt w e) hn
    · have : w = h.length := by simp at hw; omega
      subst this; simpa using hi
  · by_cases e : w < h.length
    · rw [List.getElem_append_left e, List.getElem_append_left (hlen ▸ e)]; exact hk _ _ (hm.lt w e) (hm.has w e)
    · have : w = h.length := by simp at hw; omega
      subst this; simpa [hlen] using hh

theorem Match.same {s s' : Store K V} {h : List Nat} {H : List (View K V)} (hm : Match s h H) (hn : s'.n = s.n) (hc : Closed s')
    (hk : ∀ j w, Has s.node j w → Has s'.node j w) : Match s' h H :=
  ⟨hc, hm.len, fun w hw => hn ▸ hm.lt w hw, fun w hw => hk _ _ (hm.has w hw)⟩

/-- `set` and `erase` put the table in a new node, and a change in the old root. -/
theorem graft {s : Store K V} {i : Nat} {nd : Node K V} {l l' : Tab K V} (hc : Closed s) (hi : i < s.n) (h : s.node i = .base l) (hu : Uniq l) (hu' : Uniq l')
    (hr : nd.ref = some s.n)
    (hnd : ∀ f : Nat → Node K V, f i = nd → Has f s.n (tabView l') → Has f i (tabView l)) :
    let s' : Store K V := { node := upd (upd s.node s.n (.base l')) i nd, n := s.n + 1 }
    Closed s' ∧ Has s'.node s.n (tabView l') ∧ ∀ j w, j < s.n → Has s.node j w → Has s'.node j w := by
  intro s'
  have hne : s.n ≠ i := by omega
  have h1 : Has s'.node s.n (tabView l') := ⟨0, .base (by show upd _ _ _ _ = _; rw [upd_ne _ _ hne, upd_same]) hu'⟩
  refine ⟨fun j hj b hb => ?_, h1, fun j w hj hw => ?_⟩
  · simp only [s', upd_apply] at hb hj ⊢
    split at hb
    · rw [hr] at hb; cases hb; omega
    · split at hb
      · cases hb
      · have := hc j (by omega) b hb; omega
  · refine keep (fun j => j < s.n) (fun j b hj hb => hc j hj b hb) (fun j hj => ?_) hj hw
    by_cases e : j = i
    · subst e
      exact .inr fun w hw => Has.det ⟨0, .base h hu⟩ hw ▸ hnd s'.node (upd_same _ _ _) h1
    · left
      show upd _ _ _ _ = _
      rw [upd_ne _ _ e, upd_ne _ _ (by omega)]

/-- One operation. -/
theorem step_ok {s : Store K V} {h : List Nat} {H H' : List (View K V)} {o : Op K V} {r : Res V} (hm : Match s h H) (ho : specStep H o = some (r, H')) :
    ∃ F s' h', Match s' h' H' ∧ ∀ fuel, F < fuel → step fuel s h o = .ret (r, s', h') := by
  have key : ∀ w m, H[w]? = some m → ∃ F l s', (∀ fuel, F < fuel → rerooted fuel s (h.getD w 0) = .ret (l, s')) ∧
      s'.node (h.getD w 0) = .base l ∧ Uniq l ∧ tabView l = m ∧ Match s' h H ∧ h.getD w 0 < s'.n := by
    intro w m hw
    obtain ⟨hw', e⟩ := List.getElem?_eq_some_iff.1 hw
    have hwl : w < h.length := by rw [hm.len]; exact hw'
    have hgd : h.getD w 0 = h[w] := by simp [List.getD, hwl]
    obtain ⟨d, hD⟩ := hm.has w hwl
    rw [e] at hD
    rw [hgd]
    obtain ⟨l, s', e1, r1, e2, e3, e4⟩ := rerooted_ok hD
    exact ⟨d, l, s', e1, e2, e3, e4, hm.same r1.n (r1.closed hm.closed (hm.lt w hwl)) r1.keep, by rw [r1.n]; exact hm.lt w hwl⟩
  cases o with
  | new =>
    simp only [specStep, Option.some.injEq, Prod.mk.injEq] at ho
    obtain ⟨rfl, rfl⟩ := ho
    have hc := hm.closed
    refine ⟨0, _, _, hm.snoc (s' := (newPtr s).2) (i := s.n) (Nat.le_succ _) ?_ ?_ (Nat.lt_succ_self _) ?_, fun fuel _ => rfl⟩
    · intro j hj b hb
      simp only [newPtr, upd_apply] at hb hj ⊢
      split at hb
      · cases hb
      · have := hc j (by omega) b hb; omega
    · intro j w hj hw
      refine keep (fun j => j < s.n) (fun j b hj hb => hc j hj b hb) (fun j hj => .inl ?_) hj hw
      exact upd_ne _ _ (by omega)
    · exact ⟨0, .base (upd_same _ _ _) List.nodup_nil⟩
  | set w k v =>
    simp only [specStep, Option.map_eq_some_iff, Prod.mk.injEq] at ho
    obtain ⟨m, hw, rfl, rfl⟩ := ho
    obtain ⟨F, l, s1, e1, e2, e3, rfl, hM, hi⟩ := key w m hw
    cases hf : find l k with
    | none =>
      obtain ⟨g1, g2, g3⟩ := graft (nd := .rem s1.n k) hM.closed hi e2 e3 (uniq_emplace (k := k) (v := v) e3) rfl (by
        rintro f hfi ⟨d, hd⟩
        rw [view_emplace hf] at hd
        have := Den.rem hfi hd (by simp [View.set])
        rw [erase_set (show (tabView l).val k = none from hf)] at this
        exact ⟨_, this⟩)
      rw [view_emplace hf] at g2
      exact ⟨F, _, _, hM.snoc (Nat.le_succ _) g1 g3 (Nat.lt_succ_self _) g2, fun fuel hF => by simp only [step, set, e1 fuel hF, Outcome.bind_ret, hf]⟩
    | some v0 =>
      have hf2 : (find l k).isSome := by rw [hf]; rfl
      obtain ⟨g1, g2, g3⟩ := graft (nd := .upd s1.n k v0) hM.closed hi e2 e3 (uniq_assign (k := k) (v := v) e3) rfl (by
        rintro f hfi ⟨d, hd⟩
        rw [view_assign hf2] at hd
        have := Den.upd hfi hd (by simp [View.set])
        rw [set_set (show (tabView l).val k = some v0 from hf)] at this
        exact ⟨_, this⟩)
      rw [view_assign hf2] at g2
      exact ⟨F, _, _, hM.snoc (Nat.le_succ _) g1 g3 (Nat.lt_succ_self _) g2, fun fuel hF => by simp only [step, set, e1 fuel hF, Outcome.bind_ret, hf]⟩
  | erase w k =>
    simp only [specStep, Option.map_eq_some_iff, Prod.mk.injEq] at ho
    obtain ⟨m, hw, rfl, rfl⟩ := ho
    obtain ⟨F, l, s1, e1, e2, e3, rfl, hM, hi⟩ := key w m hw
    cases hf : find l k with
    | none =>
      have : (tabView l).erase k = tabView l := by
        rw [← view_del e3]
        simp only [tabView, View.mk.injEq]
        refine ⟨funext fun x => ?_, by rw [del_len e3, hf]; rfl⟩
        rw [find_del]
        split
        · next h => rw [h, hf]
        · rfl
      refine ⟨F, s1, _, hM.snoc (Nat.le_refl _) hM.closed (fun _ _ _ h => h) hi ?_, fun fuel hF => by simp only [step, erase, e1 fuel hF, Outcome.bind_ret, hf]⟩
      rw [this]; exact ⟨0, .base e2 e3⟩
    | some v0 =>
      obtain ⟨g1, g2, g3⟩ := graft (nd := .ins s1.n k v0) hM.closed hi e2 e3 (uniq_del (k := k) e3) rfl (by
        rintro f hfi ⟨d, hd⟩
        rw [view_del e3] at hd
        have := Den.ins (v := v0) hfi hd (by simp [View.erase])
        rw [set_erase (show (tabView l).val k = some v0 from hf) (tab_pos hf)] at this
        exact ⟨_, this⟩)
      rw [view_del e3] at g2
      exact ⟨F, _, _, hM.snoc (Nat.le_succ _) g1 g3 (Nat.lt_succ_self _) g2, fun fuel hF => by simp only [step, erase, e1 fuel hF, Outcome.bind_ret, hf]⟩
  | empty w =>
    simp only [specStep, Option.map_eq_some_iff, Prod.mk.injEq] at ho
    obtain ⟨m, hw, rfl, rfl⟩ := ho
    obtain ⟨F, l, s1, e1, e2, e3, rfl, hM, hi⟩ := key w m hw
    refine ⟨F, s1, h, hM, fun fuel hF => ?_⟩
    simp only [step, empty, e1 fuel hF, Outcome.bind_ret, tabView]
    cases l <;> simp
  | size w =>
    simp only [specStep, Option.map_eq_some_iff, Prod.mk.injEq] at ho
    obtain ⟨m, hw, rfl, rfl⟩ := ho
    obtain ⟨F, l, s1, e1, e2, e3, rfl, hM, hi⟩ := key w m hw
    exact ⟨F, s1, h, hM, fun fuel hF => by simp only [step, size, e1 fuel hF, Outcome.bind_ret, tabView]⟩
  | count w k =>
    simp only [specStep, Option.map_eq_some_iff, Prod.mk.injEq] at ho
    obtain ⟨m, hw, rfl, rfl⟩ := ho
    obtain ⟨F, l, s1, e1, e2, e3, rfl, hM, hi⟩ := key w m hw
    exact ⟨F, s1, h, hM, fun fuel hF => by simp only [step, count, e1 fuel hF, Outcome.bind_ret, tabView]; congr⟩
  | get w k =>
    simp only [specStep, Option.bind_eq_some_iff, Option.map_eq_some_iff, Prod.mk.injEq] at ho
    obtain ⟨m, hw, v, hv, rfl, rfl⟩ := ho
    obtain ⟨F, l, s1, e1, e2, e3, rfl, hM, hi⟩ := key w m hw
    have hv' : find l k = some v := hv
    exact ⟨F, s1, h, hM, fun fuel hF => by simp only [step, get, e1 fuel hF, Outcome.bind_ret, hv']⟩
  | getOrDefault w k d =>
    simp only [specStep, Option.map_eq_some_iff, Prod.mk.injEq] at ho
    obtain ⟨m, hw, rfl, rfl⟩ := ho
    obtain ⟨F, l, s1, e1, e2, e3, rfl, hM, hi⟩ := key w m hw
    exact ⟨F, s1, h, hM, fun fuel hF => by simp only [step, getOrDefault, e1 fuel hF, Outcome.bind_ret, tabView]⟩

theorem run_ok {os : List (Op K V)} : ∀ {s : Store K V} {h : List Nat} {H : List (View K V)} {rs : List (Res V)}, Match s h H → specRun H os = some rs →
    ∃ F, ∀ fuel, F < fuel → run fuel s h os = .ret rs := by
  induction os with
  | nil => intro s h H rs _ hr; simp only [specRun, Option.some.injEq] at hr; subst hr; exact ⟨0, fun _ _ => rfl⟩
  | cons o os ih =>
    intro s h H rs hm hr
    simp only [specRun, Option.bind_eq_some_iff, Option.map_eq_some_iff] at hr
    obtain ⟨⟨r, H'⟩, h1, rs', h2, rfl⟩ := hr
    obtain ⟨F, s', h', hM, e⟩ := step_ok hm h1
    obtain ⟨F', e'⟩ := ih hM h2
    refine ⟨max F F', fun fuel hf => ?_⟩
    simp only [run, e fuel (by omega), Outcome.bind_ret, e' fuel (by omega)]

/-! ### C62 -/

/-- C62: whatever sequence of operations a client makes, on whatever versions, every answer is the one immutable maps would give: no version is changed by a later
    operation on it or on another version. `specRun` starts with no versions; `fuel` is the depth of recursion available to the program, which is finite. -/
theorem C62_persistent (os : List (Op K V)) (rs : List (Res V)) (h : specRun [] os = some rs) : ∃ F, ∀ fuel, F < fuel → run fuel start [] os = .ret rs :=
  run_ok ⟨fun _ h => absurd h (Nat.not_lt_zero _), rfl, fun _ h => absurd h (Nat.not_lt_zero _), fun _ h => absurd h (Nat.not_lt_zero _)⟩ h

/-- A history with branching versions: version 0 empty, 1 = {5 ↦ 50}, 2 = {5 ↦ 51}, 3 = 1 without 5, 4 = 1 with 6; then reads of the old versions in between. -/
def demo : List (Op Nat Nat) :=
  [.new, .set 0 5 50, .set 1 5 51, .get 1 5, .erase 1 5, .set 1 6 60, .size 4, .get 2 5, .get 1 5, .count 3 5, .empty 0, .getOrDefault 1 6 7, .get 4 6, .size 1]

example : specRun [] demo = some [.version, .version, .version, .val 50, .version, .version, .nat 2, .val 51, .val 50, .nat 0, .bool true, .val 7, .val 60, .nat 1] := by
  decide +kernel

example : run 20 start [] demo = .ret [.version, .version, .version, .val 50, .version, .version, .nat 2, .val 51, .val 50, .nat 0, .bool true, .val 7, .val 60, .nat 1] := by
  decide +kernel

/-- C62: asking for a key a version does not have is undefined behaviour, not an answer. -/
theorem C62_get_absent (v : Nat) : ∃ F, ∀ fuel, F < fuel → run (K := Nat) (V := Nat) fuel start [] [.new, .get 0 v] = .undef := by
  refine ⟨0, fun fuel hf => ?_⟩
  obtain ⟨fuel, rfl⟩ : ∃ f, fuel = f + 1 := ⟨fuel - 1, by omega⟩
  simp [run, step, newPtr, get, rerooted, reroot, start, upd_same, find_nil]

end Verif.PersistentMap
