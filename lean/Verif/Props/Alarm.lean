import Verif.Proof.Alarm
/-!
C24: the alarm list stays sorted by deadline and fires what has expired.

Specification: the pending alarms `P` in the order in which they were registered (a periodic alarm that fires counts as
registered again), with deadlines `dl` and periods `per`. `InOrder dl P L` says that `L` is `P` sorted by deadline, equal
deadlines in the order of registration.
-/
namespace Verif.Alarm
open Verif

def InOrder (dl : Nat → Int) (P L : List Nat) : Prop :=
  L.Perm P ∧ L.Pairwise (fun a b => dl a ≤ dl b) ∧
  ∀ t, L.filter (fun x => decide (dl x = t)) = P.filter (fun x => decide (dl x = t))

/-- The order is unique, so this determines what is returned. -/
theorem InOrder_unique {dl : Nat → Int} {P L M : List Nat} (h1 : InOrder dl P L) (h2 : InOrder dl P M) : L = M :=
  Sorted.unique ⟨h1.1, h1.2.1, h1.2.2⟩ ⟨h2.1, h2.2.1, h2.2.2⟩

/-- Address usable for a node. -/
def NodeAddr (n : Nat) : Prop := n ≠ 0 ∧ n % 2 = 0 ∧ n ≠ 2

instance (n : Nat) : Decidable (NodeAddr n) := by unfold NodeAddr; infer_instance

inductive Spec : Abs → Op → Abs → Res → Prop
  | create (P dl per n d p) : n ∉ P → 0 ≤ p → Spec ⟨P, dl, per⟩ (.create n d p) ⟨P, upd dl n d, upd per n p⟩ .unit
  | register (P dl per n) : NodeAddr n → n ∉ P → 0 ≤ per n → Spec ⟨P, dl, per⟩ (.register n) ⟨P ++ [n], dl, per⟩ .unit
  | unregister (P dl per n) : Spec ⟨P, dl, per⟩ (.unregister n) ⟨P.filter (fun x => decide (x ≠ n)), dl, per⟩ .unit
  | tick (P dl per now fired) : InOrder dl (P.filter (fun n => decide (dl n < now))) fired →
      Spec ⟨P, dl, per⟩ (.tick now)
        ⟨P.filter (fun n => decide (now ≤ dl n)) ++ fired.filter (fun n => decide (0 < per n)),
          fun n => if n ∈ fired ∧ 0 < per n then now + per n else dl n, per⟩ (.nodes fired)
  | pending (P dl per L) : InOrder dl P L → Spec ⟨P, dl, per⟩ .pending ⟨P, dl, per⟩ (.nodes L)

inductive SpecRun : Abs → List Op → Abs → List Res → Prop
  | nil (σ) : SpecRun σ [] σ []
  | cons (σ o σ' r os σ'' rs) : Spec σ o σ' r → SpecRun σ' os σ'' rs → SpecRun σ (o :: os) σ'' (r :: rs)

theorem step_spec {σ σ' : Abs} {o : Op} {r : Res} (hs : Spec σ o σ' r) :
    ∃ F, ∀ s L, Inv s σ L → ∀ dbg fuel, F ≤ fuel → ∃ s' L', step dbg fuel s o = .ret (s', r) ∧ Inv s' σ' L' := by
  cases hs with
  | create P dl per n d p hn hp =>
    refine ⟨0, fun s L h dbg fuel _ => ⟨_, L, rfl, h.rep, ?_, ?_, ?_, ?_, ?_⟩⟩
    · exact h.srt.congr (fun m hm => upd_ne _ _ (fun e : m = n => hn (e ▸ hm)))
    · simp only [create]; rw [h.hdl]
    · simp only [create]; rw [h.hper]
    · intro m
      simp only [create, upd_apply]
      split
      · next e => rw [e]; simp [hn]
      · exact h.hset m
    · intro m hm
      simp only [upd_apply]
      split
      · exact hp
      · exact h.pos m hm
  | register P dl per n ha hn hp =>
    refine ⟨P.length + 2, fun s L h dbg fuel hf => ?_⟩
    have := h.length
    obtain ⟨s', L', h1, h2⟩ := register_spec h ha hn hp (dbg := dbg) (fuel := fuel) (by simp only at this; omega)
    exact ⟨s', L', by simp [step, h1], h2⟩
  | unregister P dl per n =>
    refine ⟨P.length + 2, fun s L h dbg fuel hf => ?_⟩
    have := h.length
    obtain ⟨s', L', h1, h2⟩ := unregister_spec h n (dbg := dbg) (fuel := fuel) (by simp only at this; omega)
    exact ⟨s', L', by simp [step, h1], h2⟩
  | tick P dl per now fired hfired =>
    refine ⟨P.length + 2, fun s L h dbg fuel hf => ?_⟩
    have hlen := h.length
    simp only at hlen
    have hle := List.length_filter_le (fun n => decide (dl n < now)) L
    obtain ⟨s', L', h1, h2⟩ := tick_spec now (dbg := dbg) (fuel := fuel) fuel s _ L h (by omega) (by simp only; omega)
    have hf := h.srt.filter (fun n => decide (dl n < now))
    have e := InOrder_unique hfired ⟨hf.perm, hf.sorted, hf.stable⟩
    simp only at h1 h2
    rw [← e] at h1 h2
    exact ⟨s', L', by simp [step, h1], h2⟩
  | pending P dl per L' hL' =>
    refine ⟨P.length + 2, fun s L h dbg fuel hf => ⟨s, L, ?_, h⟩⟩
    have hlen := h.length
    simp only at hlen
    have e := InOrder_unique hL' ⟨h.srt.perm, h.srt.sorted, h.srt.stable⟩
    obtain ⟨nx, bk, hi⟩ := h.rep
    have hseg := Dlist.seg_of hi HQ
    rw [AL_Q] at hseg
    have := Dlist.foreach_spec hok hi HQ L Q (Dlist.iter Q) fuel (Dlist.clear_iter (by decide)) (by decide) hseg
      (by intro x hx; rw [AL_Q]; exact hx) (by omega)
    simp [step, this, e]

/-- Every history of constructions, registrations, cancellations and expiry passes: the pending alarms are in order of
    deadline and, for equal deadlines, of registration; a pass at time `now` fires exactly the alarms whose deadline is
    before `now`, in that order, forgets the one-shot ones and re-arms the periodic ones one period after `now`. The
    list checks hold throughout. -/
theorem C24_alarm_list (os : List Op) (σ : Abs) (rs : List Res) (h : SpecRun ⟨[], fun _ => 0, fun _ => 0⟩ os σ rs) :
    ∃ F, ∀ dbg fuel, F ≤ fuel → ∃ s, run dbg fuel init os = .ret (s, rs) := by
  have gen : ∀ (σ0 σ1 : Abs) (os : List Op) (rs : List Res), SpecRun σ0 os σ1 rs → ∃ F, ∀ s L, Inv s σ0 L →
      ∀ dbg fuel, F ≤ fuel → ∃ s', run dbg fuel s os = .ret (s', rs) := by
    intro σ0 σ1 os rs h
    induction h with
    | nil σ => exact ⟨0, fun s _ _ _ _ _ => ⟨s, rfl⟩⟩
    | cons σ o σ' r os σ'' rs h1 _ ih =>
      obtain ⟨F1, hF1⟩ := step_spec h1
      obtain ⟨F2, hF2⟩ := ih
      refine ⟨max F1 F2, fun s L hs dbg fuel hf => ?_⟩
      obtain ⟨s', L', h2, h3⟩ := hF1 s L hs dbg fuel (by omega)
      obtain ⟨s'', h4⟩ := hF2 s' L' h3 dbg fuel (by omega)
      exact ⟨s'', by simp [run, h2, h4]⟩
  obtain ⟨F, hF⟩ := gen _ _ _ _ h
  refine ⟨F, fun dbg fuel hf => hF init [] ?_ dbg fuel hf⟩
  obtain ⟨nx, bk, hi⟩ := Dlist.init_inv hok
  refine ⟨⟨nx, bk, ?_⟩, ⟨List.Perm.refl _, List.Pairwise.nil, fun _ => rfl⟩, rfl, rfl, by simp [init], by simp⟩
  have : AL [] = fun _ => [] := by funext x; simp only [AL, upd_apply]; split <;> rfl
  rw [this]; exact hi

/-- Every possible call sequence that respects the preconditions has such a description: from any abstract state an
    expiry pass and a traversal are always possible (the order exists). -/
theorem C24_order_exists (dl : Nat → Int) (P : List Nat) : ∃ L, InOrder dl P L := by
  have gen : ∀ (R P0 L : List Nat), Sorted dl P0 L → ∃ L', Sorted dl (P0 ++ R) L' := by
    intro R
    induction R with
    | nil => intro P0 L h; exact ⟨L, by rw [List.append_nil]; exact h⟩
    | cons a R ih =>
      intro P0 L h
      obtain ⟨L', h'⟩ := ih _ _ (h.ins a)
      exact ⟨L', by rw [List.append_assoc] at h'; exact h'⟩
  obtain ⟨L, h⟩ := gen P [] [] ⟨List.Perm.refl _, List.Pairwise.nil, fun _ => rfl⟩
  rw [List.nil_append] at h
  exact ⟨L, h.perm, h.sorted, h.stable⟩

/-- Alarms 10 and 14 have the same deadline; 12 is periodic and fires first. -/
example : ∃ σ, SpecRun ⟨[], fun _ => 0, fun _ => 0⟩
    [.create 10 50 0, .register 10, .create 12 30 25, .register 12, .create 14 50 0, .register 14, .create 16 90 0,
      .register 16, .pending, .tick 51, .pending, .unregister 16, .pending] σ
    [.unit, .unit, .unit, .unit, .unit, .unit, .unit, .unit, .nodes [12, 10, 14, 16], .nodes [12, 10, 14],
      .nodes [12, 16], .unit, .nodes [12]] :=
  ⟨_, .cons _ _ _ _ _ _ _ (.create _ _ _ 10 50 0 (by simp) (by decide)) <|
    .cons _ _ _ _ _ _ _ (.register _ _ _ 10 (by decide) (by simp) (by simp)) <|
    .cons _ _ _ _ _ _ _ (.create _ _ _ 12 30 25 (by simp) (by decide)) <|
    .cons _ _ _ _ _ _ _ (.register _ _ _ 12 (by decide) (by simp) (by simp)) <|
    .cons _ _ _ _ _ _ _ (.create _ _ _ 14 50 0 (by simp) (by decide)) <|
    .cons _ _ _ _ _ _ _ (.register _ _ _ 14 (by decide) (by simp) (by simp)) <|
    .cons _ _ _ _ _ _ _ (.create _ _ _ 16 90 0 (by simp) (by decide)) <|
    .cons _ _ _ _ _ _ _ (.register _ _ _ 16 (by decide) (by simp) (by simp)) <|
    .cons _ _ _ _ _ _ _ (.pending _ _ _ [12, 10, 14, 16] ⟨by decide, by simp [upd], by
      intro t; simp only [List.nil_append, List.cons_append, List.filter_cons, List.filter_nil, upd_apply]
      by_cases h : t = 50 <;> by_cases h2 : t = 30 <;> by_cases h3 : t = 90 <;> simp_all [eq_comm]⟩) <|
    .cons _ _ _ _ _ _ _ (.tick _ _ _ 51 [12, 10, 14] ⟨by simp [upd]; decide, by simp [upd], by
      intro t; simp [upd, List.filter_cons]
      by_cases h : t = 50 <;> by_cases h2 : t = 30 <;> by_cases h3 : t = 90 <;> simp_all [eq_comm]⟩) <|
    .cons _ _ _ _ _ _ _ (.pending _ _ _ [12, 16] ⟨by simp [upd]; decide, by simp [upd], by
      intro t; simp [upd, List.filter_cons]
      by_cases h : t = 76 <;> by_cases h3 : t = 90 <;> simp_all [eq_comm]⟩) <|
    .cons _ _ _ _ _ _ _ (.unregister _ _ _ 16) <|
    .cons _ _ _ _ _ _ _ (.pending _ _ _ [12] ⟨by simp [upd], by simp, by intro t; simp [upd]⟩) <|
    .nil _⟩

end Verif.Alarm
