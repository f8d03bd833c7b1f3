import Verif.Model.Alarm
import Verif.Proof.Dlist
/-! Invariant and step lemmas for the alarm list. -/
namespace Verif.Alarm
open Verif

theorem hok : Dlist.HOk H := by
  intro q hq; simp [H, Q] at hq; subst hq; decide

theorem HQ : H Q = true := by simp [H]

def AL (L : List Nat) : Nat → List Nat := upd (fun _ => []) Q L

theorem AL_Q (L : List Nat) : AL L Q = L := upd_same _ _ _

theorem AL_upd (L L' : List Nat) : upd (AL L) Q L' = AL L' := by
  funext x; simp only [AL, upd_apply]; split <;> rfl

theorem mem_AL {L : List Nat} {q n : Nat} (h : n ∈ AL L q) : n ∈ L := by
  simp only [AL, upd_apply] at h; split at h
  · exact h
  · simp at h

/-- Address of an alarm node. -/
def Addr (n : Nat) : Prop := n ≠ 0 ∧ n % 2 = 0 ∧ n ≠ Q

theorem Addr.free {L : List Nat} {n : Nat} (h : Addr n) (hn : n ∉ L) : Dlist.Free H (AL L) n :=
  ⟨h.1, h.2.1, by simp [H, h.2.2], fun _ hm => hn (mem_AL hm)⟩

/-- The list `L` of nodes is what the header leads to. -/
def Rep (s : St) (L : List Nat) : Prop := ∃ nx bk, Dlist.Inv H s.d (AL L) nx bk

theorem Rep.check {s : St} {L : List Nat} (h : Rep s L) {dbg : Bool} {fuel : Nat} (hf : L.length < fuel) :
    check dbg fuel s = .ret () := by
  obtain ⟨nx, bk, h⟩ := h
  cases dbg
  · rfl
  · simp [Alarm.check, Dlist.validate_spec hok h HQ (by rw [AL_Q]; exact hf), Dlist.verify]

theorem Rep.first {s : St} {L : List Nat} (h : Rep s L) : Dlist.first s.d Q = .ret (L.headD 0) := by
  obtain ⟨nx, bk, h⟩ := h
  rw [Dlist.first_spec hok h HQ, AL_Q]

theorem Rep.mem {s : St} {L : List Nat} (h : Rep s L) {n : Nat} (hn : n ∈ L) : Addr n := by
  obtain ⟨nx, bk, h⟩ := h
  have hm : n ∈ AL L Q := by rw [AL_Q]; exact hn
  obtain ⟨_, h2, h3⟩ := h.mem Q n hm
  exact ⟨(Dlist.untag hok h HQ hm).2.2.1, h3, by intro e; subst e; simp [H] at h2⟩

theorem Rep.nodup {s : St} {L : List Nat} (h : Rep s L) : L.Nodup := by
  obtain ⟨nx, bk, h⟩ := h
  have := h.rings.nodup Q
  rw [Dlist.full_eq HQ, AL_Q] at this
  exact (List.nodup_cons.1 this).2

theorem Rep.remove {s : St} {l1 l2 : List Nat} {n : Nat} (h : Rep s (l1 ++ n :: l2)) (dbg : Bool) :
    ∃ d, Dlist.remove dbg s.d n = .ret d ∧ ∀ dl p st, Rep ⟨d, dl, p, st⟩ (l1 ++ l2) := by
  obtain ⟨nx, bk, h⟩ := h
  obtain ⟨d, nx', bk', h1, h2⟩ := Dlist.remove_spec hok h (q := Q) (AL_Q _) dbg
  rw [AL_upd] at h2
  exact ⟨d, h1, fun _ _ _ => ⟨nx', bk', h2⟩⟩

/-- Insertion position by deadline. -/
def ins (dl : Nat → Int) (n : Nat) (L : List Nat) : List Nat :=
  L.takeWhile (fun x => decide (dl x ≤ dl n)) ++ n :: L.dropWhile (fun x => decide (dl x ≤ dl n))

theorem insertLoop_spec {s : St} {L : List Nat} {nx bk : Nat → Nat} (h : Dlist.Inv H s.d (AL L) nx bk) (n : Nat) :
    ∀ (l : List Nat) (a p fuel : Nat), Dlist.tagClear p = a → a ≠ 0 → Seg nx bk a l Q → (∀ x ∈ l, x ∈ L) → l.length < fuel →
      insertLoop s n fuel p = .ret (Dlist.arrive H Q (l.dropWhile (fun x => decide (s.deadline x ≤ s.deadline n)))).1 := by
  intro l
  induction l with
  | nil =>
    intro a p fuel hp ha hs hl hf
    obtain ⟨f, rfl⟩ : ∃ f, fuel = f + 1 := ⟨fuel - 1, by simp at hf; omega⟩
    have hadv := Dlist.advance_spec hok h (l := []) HQ hp ha hs.1 (by simp)
    simp [insertLoop, hadv, Dlist.arrive]
  | cons x l ih =>
    intro a p fuel hp ha hs hl hf
    obtain ⟨f, rfl⟩ : ∃ f, fuel = f + 1 := ⟨fuel - 1, by simp at hf; omega⟩
    have hx : x ∈ AL L Q := by rw [AL_Q]; exact hl x (by simp)
    obtain ⟨_, _, e3, e4⟩ := Dlist.untag hok h HQ hx
    have hadv := Dlist.advance_spec hok h (l := x :: l) HQ hp ha hs.1 (by intro y hy; rw [AL_Q]; exact hl y hy)
    have := ih x x f e4 e3 hs.2.2 (fun y hy => hl y (by simp [hy])) (by simp at hf; omega)
    by_cases hle : s.deadline x ≤ s.deadline n
    · simp [insertLoop, hadv, Dlist.arrive, hle, this]
    · simp [insertLoop, hadv, Dlist.arrive, hle]

theorem insert_spec {s : St} {L : List Nat} (h : Rep s L) {n : Nat} (hn : Addr n) (hu : n ∉ L) {dbg : Bool} {fuel : Nat}
    (hf : L.length + 1 < fuel) :
    ∃ d, insert dbg fuel s n = .ret { s with d := d } ∧ ∀ dl p st, Rep ⟨d, dl, p, st⟩ (ins s.deadline n L) := by
  obtain ⟨nx, bk, h⟩ := h
  have hseg := Dlist.seg_of h HQ
  rw [AL_Q] at hseg
  have hq0 : Q ≠ 0 := by decide
  have hloop := insertLoop_spec h n L Q (Dlist.iter Q) fuel (Dlist.clear_iter (by decide)) hq0 hseg (fun _ hx => hx) (by omega)
  have key : ∃ d nx' bk', Dlist.insertBefore dbg s.d
      (Dlist.arrive H Q (L.dropWhile (fun x => decide (s.deadline x ≤ s.deadline n)))).1 n = .ret d ∧
      Dlist.Inv H d (AL (ins s.deadline n L)) nx' bk' := by
    have htd := List.takeWhile_append_dropWhile (p := fun x => decide (s.deadline x ≤ s.deadline n)) (l := L)
    cases hd : L.dropWhile (fun x => decide (s.deadline x ≤ s.deadline n)) with
    | nil =>
      obtain ⟨d, nx', bk', h1, h2⟩ := Dlist.insertLast_spec hok h HQ (hn.free hu) dbg
      rw [AL_upd, AL_Q] at h2
      refine ⟨d, nx', bk', ?_, ?_⟩
      · simp only [Dlist.arrive]; rw [← Dlist.iter_eq hok HQ]; exact h1
      · rw [hd, List.append_nil] at htd
        unfold ins; rw [hd, htd]; exact h2
    | cons b l2 =>
      rw [hd] at htd
      obtain ⟨d, nx', bk', h1, h2⟩ := Dlist.insertBefore_spec hok h (q := Q) (b := b) (hn.free hu)
        (by rw [AL_Q]; exact htd.symm) dbg
      rw [AL_upd] at h2
      exact ⟨d, nx', bk', h1, by unfold ins; rw [hd]; exact h2⟩
  obtain ⟨d, nx', bk', h1, h2⟩ := key
  have hrep : ∀ dl p st, Rep ⟨d, dl, p, st⟩ (ins s.deadline n L) := fun _ _ _ => ⟨nx', bk', h2⟩
  refine ⟨d, ?_, hrep⟩
  have hlen : (ins s.deadline n L).length < fuel := by
    have := congrArg List.length (List.takeWhile_append_dropWhile (p := fun x => decide (s.deadline x ≤ s.deadline n)) (l := L))
    rw [List.length_append] at this
    simp only [ins, List.length_append, List.length_cons]; omega
  simp [insert, hloop, h1, Rep.check (hrep _ _ _) hlen]

theorem pop_spec {s : St} {a : Nat} {L : List Nat} (h : Rep s (a :: L)) {dbg : Bool} {fuel : Nat} (hf : L.length + 1 < fuel) :
    ∃ d, pop dbg fuel s = .ret ({ s with d := d }, a) ∧ ∀ dl p st, Rep ⟨d, dl, p, st⟩ L := by
  obtain ⟨d, h1, h2⟩ := Rep.remove (l1 := []) h dbg
  simp only [List.nil_append] at h2
  have ha := (h.mem (n := a) (by simp)).1
  refine ⟨d, ?_, h2⟩
  simp [pop, h.check (dbg := dbg) (fuel := fuel) (by simp; omega), h.first, ha, h1, (h2 s.deadline s.period s.set).check (dbg := dbg) (fuel := fuel) (by omega)]

/-! Sorting. -/

/-- `L` is `P` sorted by deadline, equal deadlines in the order of `P`. -/
structure Sorted (dl : Nat → Int) (P L : List Nat) : Prop where
  perm : L.Perm P
  sorted : L.Pairwise (fun a b => dl a ≤ dl b)
  stable : ∀ t, L.filter (fun x => decide (dl x = t)) = P.filter (fun x => decide (dl x = t))

theorem sorted_unique {dl : Nat → Int} : ∀ {L M : List Nat}, L.Perm M → L.Pairwise (fun a b => dl a ≤ dl b) →
    M.Pairwise (fun a b => dl a ≤ dl b) →
    (∀ t, L.filter (fun x => decide (dl x = t)) = M.filter (fun x => decide (dl x = t))) → L = M := by
  intro L
  induction L with
  | nil => intro M hp _ _ _; exact (List.nil_perm.1 hp).symm
  | cons a l ih =>
    intro M hp h1 h2 h3
    cases M with
    | nil => exact absurd (List.perm_nil.1 hp) (by simp)
    | cons b m =>
      rw [List.pairwise_cons] at h1 h2
      have hba : dl b ≤ dl a := by
        rcases List.mem_cons.1 (hp.mem_iff.1 (List.mem_cons_self)) with e | e
        · rw [e]; exact Int.le_refl _
        · exact h2.1 a e
      have hab : dl a ≤ dl b := by
        rcases List.mem_cons.1 (hp.mem_iff.2 (List.mem_cons_self)) with e | e
        · rw [e]; exact Int.le_refl _
        · exact h1.1 b e
      have he : dl a = dl b := by omega
      have := h3 (dl a)
      simp only [List.filter_cons, he, decide_true, if_true] at this
      have hab : a = b := (List.cons.inj this).1
      subst hab
      rw [ih (List.Perm.cons_inv hp) h1.2 h2.2]
      intro t
      have := h3 t
      simp only [List.filter_cons] at this
      split at this
      · exact (List.cons.inj this).2
      · exact this

theorem Sorted.unique {dl : Nat → Int} {P L M : List Nat} (h1 : Sorted dl P L) (h2 : Sorted dl P M) : L = M :=
  sorted_unique (h1.perm.trans h2.perm.symm) h1.sorted h2.sorted (fun t => (h1.stable t).trans (h2.stable t).symm)

theorem Sorted.congr {dl dl' : Nat → Int} {P L : List Nat} (h : Sorted dl P L) (he : ∀ n ∈ P, dl' n = dl n) : Sorted dl' P L := by
  refine ⟨h.perm, ?_, fun t => ?_⟩
  · exact h.sorted.imp_of_mem (fun ha hb hab => by rw [he _ (h.perm.mem_iff.1 ha), he _ (h.perm.mem_iff.1 hb)]; exact hab)
  · rw [List.filter_congr (q := fun x => decide (dl x = t)) (fun x hx => by rw [he x (h.perm.mem_iff.1 hx)]),
      List.filter_congr (l := P) (q := fun x => decide (dl x = t)) (fun x hx => by rw [he x hx])]
    exact h.stable t

theorem Sorted.filter {dl : Nat → Int} {P L : List Nat} (h : Sorted dl P L) (p : Nat → Bool) : Sorted dl (P.filter p) (L.filter p) := by
  refine ⟨h.perm.filter p, h.sorted.filter _, fun t => ?_⟩
  simp only [List.filter_filter]
  have e : ∀ l : List Nat, l.filter (fun a => decide (dl a = t) && p a) = (l.filter (fun a => decide (dl a = t))).filter p := by
    intro l; rw [List.filter_filter]; apply List.filter_congr; intro x _; rw [Bool.and_comm]
  rw [e, e, h.stable]

theorem dropWhile_gt {dl : Nat → Int} {L : List Nat} (h : L.Pairwise (fun a b => dl a ≤ dl b)) (t : Int) :
    ∀ x ∈ L.dropWhile (fun x => decide (dl x ≤ t)), t < dl x := by
  induction L with
  | nil => simp
  | cons a l ih =>
    rw [List.pairwise_cons] at h
    intro x hx
    by_cases ha : dl a ≤ t
    · rw [List.dropWhile_cons_of_pos (by simpa using ha)] at hx
      exact ih h.2 x hx
    · rw [List.dropWhile_cons_of_neg (by simpa using ha)] at hx
      rcases List.mem_cons.1 hx with e | e
      · rw [e]; omega
      · have := h.1 x e; omega

theorem takeWhile_le {dl : Nat → Int} (L : List Nat) (t : Int) : ∀ x ∈ L.takeWhile (fun x => decide (dl x ≤ t)), dl x ≤ t := by
  induction L with
  | nil => simp
  | cons a l ih =>
    intro x hx
    rw [List.takeWhile_cons] at hx
    split at hx
    · next ha =>
      rcases List.mem_cons.1 hx with e | e
      · rw [e]; simpa using ha
      · exact ih x e
    · simp at hx

theorem Sorted.ins {dl : Nat → Int} {P L : List Nat} (h : Sorted dl P L) (n : Nat) : Sorted dl (P ++ [n]) (ins dl n L) := by
  have htd := List.takeWhile_append_dropWhile (p := fun x => decide (dl x ≤ dl n)) (l := L)
  have h1 := takeWhile_le (dl := dl) L (dl n)
  have h2 := dropWhile_gt h.sorted (dl n)
  unfold Alarm.ins
  generalize List.takeWhile _ L = l1 at *
  generalize List.dropWhile _ L = l2 at *
  subst htd
  refine ⟨?_, ?_, fun t => ?_⟩
  · refine List.perm_middle.trans ?_
    exact (h.perm.cons n).trans (List.perm_append_comm (l₁ := [n]) (l₂ := P))
  · have hs := List.pairwise_append.1 h.sorted
    rw [List.pairwise_append]
    refine ⟨hs.1, List.pairwise_cons.2 ⟨fun x hx => Int.le_of_lt (h2 x hx), hs.2.1⟩, ?_⟩
    intro a ha b hb
    rcases List.mem_cons.1 hb with e | e
    · rw [e]; exact h1 a ha
    · exact hs.2.2 a ha b e
  · have hst := h.stable t
    rw [List.filter_append, List.filter_append, ← hst, List.filter_append, List.filter_cons]
    by_cases ht : dl n = t
    · have : l2.filter (fun x => decide (dl x = t)) = [] := by
        rw [List.filter_eq_nil_iff]
        intro x hx
        have := h2 x hx
        simp; omega
      simp [this, ht]
    · simp [ht]

theorem Sorted.tail {dl : Nat → Int} {P L : List Nat} {a : Nat} (h : Sorted dl P (a :: L)) (hn : P.Nodup) :
    Sorted dl (P.filter (fun x => decide (x ≠ a))) L := by
  have := h.filter (fun x => decide (x ≠ a))
  have hnd : (a :: L).Nodup := h.perm.nodup_iff.2 hn
  have e : (a :: L).filter (fun x => decide (x ≠ a)) = L := by
    rw [List.filter_cons]
    simp only [ne_eq, not_true_eq_false, decide_false, Bool.false_eq_true, if_false]
    rw [List.filter_eq_self]
    intro x hx
    have : x ≠ a := fun e => (List.nodup_cons.1 hnd).1 (e ▸ hx)
    simpa using this
  rwa [e] at this

/-- Abstract state: the pending alarms in the order of their registration, deadlines and periods. -/
structure Abs where
  P : List Nat
  dl : Nat → Int
  per : Nat → Int

structure Inv (s : St) (σ : Abs) (L : List Nat) : Prop where
  rep : Rep s L
  srt : Sorted σ.dl σ.P L
  hdl : s.deadline = σ.dl
  hper : s.period = σ.per
  hset : ∀ n, s.set n = decide (n ∈ σ.P)
  pos : ∀ n ∈ σ.P, 0 ≤ σ.per n

theorem Inv.nodup {s : St} {σ : Abs} {L : List Nat} (h : Inv s σ L) : σ.P.Nodup := h.srt.perm.nodup_iff.1 h.rep.nodup

theorem Inv.length {s : St} {σ : Abs} {L : List Nat} (h : Inv s σ L) : L.length = σ.P.length := h.srt.perm.length_eq

theorem register_spec {s : St} {σ : Abs} {L : List Nat} (h : Inv s σ L) {n : Nat} (hn : Addr n) (hu : n ∉ σ.P)
    (hp : 0 ≤ σ.per n) {dbg : Bool} {fuel : Nat} (hf : L.length + 1 < fuel) :
    ∃ s' L', register dbg fuel s n = .ret s' ∧ Inv s' ⟨σ.P ++ [n], σ.dl, σ.per⟩ L' := by
  obtain ⟨d, h1, h2⟩ := insert_spec h.rep hn (fun e => hu (h.srt.perm.mem_iff.1 e)) (dbg := dbg) hf
  refine ⟨⟨d, s.deadline, s.period, upd s.set n true⟩, _, ?_, h2 _ _ _, ?_, h.hdl, h.hper, ?_, ?_⟩
  · simp [register, h.rep.check (dbg := dbg) (fuel := fuel) (by omega), h1]
  · rw [h.hdl]; exact h.srt.ins n
  · intro m
    simp only [upd_apply]
    split
    · next e => simp [e]
    · next e => rw [h.hset]; simp [e]
  · intro m hm
    rcases List.mem_append.1 hm with e | e
    · exact h.pos m e
    · simp at e; rw [e]; exact hp

theorem unregister_spec {s : St} {σ : Abs} {L : List Nat} (h : Inv s σ L) (n : Nat) {dbg : Bool} {fuel : Nat}
    (hf : L.length < fuel) :
    ∃ s' L', unregister dbg fuel s n = .ret s' ∧ Inv s' ⟨σ.P.filter (fun x => decide (x ≠ n)), σ.dl, σ.per⟩ L' := by
  have hset : ∀ m, upd s.set n false m = decide (m ∈ σ.P.filter (fun x => decide (x ≠ n))) := by
    intro m
    simp only [upd_apply]
    split
    · next e => simp [e]
    · next e => rw [h.hset]; simp [e]
  have hpos : ∀ m ∈ σ.P.filter (fun x => decide (x ≠ n)), 0 ≤ σ.per m := fun m hm => h.pos m (List.mem_filter.1 hm).1
  have hsrt := h.srt.filter (fun x => decide (x ≠ n))
  by_cases hn : n ∈ σ.P
  · obtain ⟨l1, l2, e⟩ := List.append_of_mem (h.srt.perm.mem_iff.2 hn)
    have hrep := h.rep
    have hnd := hrep.nodup
    rw [e] at hrep hnd hsrt
    obtain ⟨d, h1, h2⟩ := Rep.remove hrep dbg
    refine ⟨⟨d, s.deadline, s.period, upd s.set n false⟩, l1 ++ l2, ?_, h2 _ _ _, ?_, h.hdl, h.hper, hset, hpos⟩
    · simp [unregister, h.rep.check (dbg := dbg) hf, h.hset, hn, h1]
    · rw [List.nodup_middle, List.nodup_cons] at hnd
      have e' : (l1 ++ n :: l2).filter (fun x => decide (x ≠ n)) = l1 ++ l2 := by
        rw [List.filter_append, List.filter_cons]
        simp only [ne_eq, not_true_eq_false, decide_false, Bool.false_eq_true, if_false]
        rw [← List.filter_append, List.filter_eq_self]
        intro x hx
        have : x ≠ n := fun e => hnd.1 (e ▸ hx)
        simpa using this
      rwa [e'] at hsrt
  · refine ⟨⟨s.d, s.deadline, s.period, upd s.set n false⟩, L, ?_, h.rep, ?_, h.hdl, h.hper, hset, hpos⟩
    · simp [unregister, h.rep.check (dbg := dbg) hf, h.hset, hn]
    · have e : L.filter (fun x => decide (x ≠ n)) = L := by
        rw [List.filter_eq_self]
        intro x hx
        have : x ≠ n := fun e => hn (h.srt.perm.mem_iff.1 (e ▸ hx))
        simpa using this
      rwa [e] at hsrt

theorem filter_ins (dl : Nat → Int) (n : Nat) (L : List Nat) (p : Nat → Bool) (hp : p n = false) : (ins dl n L).filter p = L.filter p := by
  unfold ins
  rw [List.filter_append, List.filter_cons, hp]
  simp only [Bool.false_eq_true, if_false]
  rw [← List.filter_append, List.takeWhile_append_dropWhile]

/-- What an expiry pass does to the abstract state, given the alarms fired. -/
def Abs.after (σ : Abs) (now : Int) (fired : List Nat) : Abs :=
  ⟨σ.P.filter (fun n => decide (now ≤ σ.dl n)) ++ fired.filter (fun n => decide (0 < σ.per n)),
    fun n => if n ∈ fired ∧ 0 < σ.per n then now + σ.per n else σ.dl n, σ.per⟩

theorem filter_ne_expired {P : List Nat} {a : Nat} {q : Nat → Bool} (ha : q a = false) :
    (P.filter (fun x => decide (x ≠ a))).filter q = P.filter q := by
  rw [List.filter_filter]
  apply List.filter_congr
  intro x _
  by_cases e : x = a
  · rw [e, ha]; simp
  · simp [e]

theorem tick_spec (now : Int) {dbg : Bool} {fuel : Nat} : ∀ (k : Nat) (s : St) (σ : Abs) (L : List Nat), Inv s σ L →
    L.length + 1 < fuel → (L.filter (fun n => decide (σ.dl n < now))).length < k →
    ∃ s' L', tick dbg fuel now k s = .ret (s', L.filter (fun n => decide (σ.dl n < now))) ∧
      Inv s' (σ.after now (L.filter (fun n => decide (σ.dl n < now)))) L' := by
  intro k
  induction k with
  | zero => intro s σ L _ _ hk; exact absurd hk (by omega)
  | succ k ih =>
    intro s σ L h hf hk
    have hstop : L.filter (fun n => decide (σ.dl n < now)) = [] → getExpired dbg fuel s now = .ret (s, 0) →
        ∃ s' L', tick dbg fuel now (k + 1) s = .ret (s', L.filter (fun n => decide (σ.dl n < now))) ∧
          Inv s' (σ.after now (L.filter (fun n => decide (σ.dl n < now)))) L' := by
      intro he hg
      refine ⟨s, L, by simp [tick, hg, he], ?_⟩
      rw [he]
      have e : σ.P.filter (fun n => decide (now ≤ σ.dl n)) = σ.P := by
        rw [List.filter_eq_self]
        intro x hx
        have := List.filter_eq_nil_iff.1 he x (h.srt.perm.mem_iff.2 hx)
        simp at this ⊢; omega
      have e2 : σ.after now [] = σ := by
        unfold Abs.after; rw [e]; simp
      rw [e2]; exact h
    cases L with
    | nil => exact hstop rfl (by simp [getExpired, h.rep.first])
    | cons a l =>
      have ha0 := (h.rep.mem (n := a) (by simp))
      have hsa := List.pairwise_cons.1 h.srt.sorted
      by_cases hexp : σ.dl a < now
      · obtain ⟨d, h1, h2⟩ := pop_spec h.rep (dbg := dbg) (fuel := fuel) (by simp at hf; omega)
        have hg : getExpired dbg fuel s now = .ret ({ s with d := d }, a) := by
          have : ¬ (s.deadline a ≥ now) := by rw [h.hdl]; omega
          simp [getExpired, h.rep.first, ha0.1, this, h1]
        have haP : a ∈ σ.P := h.srt.perm.mem_iff.1 (by simp)
        have hnd := h.nodup
        have hal : a ∉ l := (List.nodup_cons.1 h.rep.nodup).1
        have hper := h.pos a haP
        have hfa : (a :: l).filter (fun n => decide (σ.dl n < now)) = a :: l.filter (fun n => decide (σ.dl n < now)) := by
          rw [List.filter_cons, if_pos (by simpa using hexp)]
        rw [hfa] at hk ⊢
        simp only [List.length_cons] at hk hf
        have htail := h.srt.tail hnd
        by_cases hp0 : σ.per a = 0
        · -- one-shot
          obtain ⟨s', L', g1, g2⟩ := ih ⟨d, s.deadline, s.period, upd s.set a false⟩
            ⟨σ.P.filter (fun x => decide (x ≠ a)), σ.dl, σ.per⟩ l
            ⟨h2 _ _ _, htail, h.hdl, h.hper, by
              intro m; simp only [upd_apply]; split
              · next e => simp [e]
              · next e => rw [h.hset]; simp [e], fun m hm => h.pos m (List.mem_filter.1 hm).1⟩ (by omega) (by simpa using Nat.lt_of_succ_lt_succ hk)
          refine ⟨s', L', ?_, ?_⟩
          · have e1 : s.period a = 0 := by rw [h.hper]; exact hp0
            simp only [tick, hg, Outcome.bind_ret, ha0.1, if_false, e1, if_true, Int.lt_irrefl, gt_iff_lt, Outcome.pure_eq, g1]
          · have e2 : σ.after now (a :: l.filter (fun n => decide (σ.dl n < now))) =
                Abs.after ⟨σ.P.filter (fun x => decide (x ≠ a)), σ.dl, σ.per⟩ now (l.filter (fun n => decide (σ.dl n < now))) := by
              unfold Abs.after
              rw [List.filter_cons, if_neg (by simp [hp0])]
              simp only
              rw [filter_ne_expired (by simpa using hexp)]
              congr 1
              funext m
              by_cases e : m = a
              · subst e; simp [hp0]
              · simp [e]
            rw [e2]; exact g2
        · -- periodic
          have hpp : 0 < σ.per a := by omega
          have hnl : a ∉ l := hal
          obtain ⟨d2, i1, i2⟩ := insert_spec (h2 (upd s.deadline a (now + s.period a)) s.period s.set) ha0 hnl (dbg := dbg) (fuel := fuel) (by omega)
          simp only at i1 i2
          have hdl' : upd s.deadline a (now + s.period a) = upd σ.dl a (now + σ.per a) := by rw [h.hdl, h.hper]
          have hsrt : Sorted (upd σ.dl a (now + σ.per a)) (σ.P.filter (fun x => decide (x ≠ a)) ++ [a])
              (ins (upd σ.dl a (now + σ.per a)) a l) := by
            refine Sorted.ins (htail.congr ?_) a
            intro n hn
            have := (List.mem_filter.1 hn).2
            exact upd_ne _ _ (by simpa using this)
          have hlen : (ins (upd σ.dl a (now + σ.per a)) a l).length = l.length + 1 := by
            rw [hsrt.perm.length_eq, List.length_append, ← htail.perm.length_eq]; rfl
          have hfl : (ins (upd σ.dl a (now + σ.per a)) a l).filter (fun n => decide (upd σ.dl a (now + σ.per a) n < now)) =
              l.filter (fun n => decide (σ.dl n < now)) := by
            rw [filter_ins _ _ _ _ (by simp; omega)]
            apply List.filter_congr
            intro x hx
            rw [upd_ne _ _ (fun e : x = a => hal (e ▸ hx))]
          obtain ⟨s', L', g1, g2⟩ := ih ⟨d2, upd s.deadline a (now + s.period a), s.period, s.set⟩
            ⟨σ.P.filter (fun x => decide (x ≠ a)) ++ [a], upd σ.dl a (now + σ.per a), σ.per⟩ (ins (upd σ.dl a (now + σ.per a)) a l)
            ⟨by rw [hdl'] at i2 ⊢; exact i2 _ _ _, hsrt, hdl', h.hper, by
              intro m; rw [h.hset]
              by_cases e : m = a
              · simp [e, haP]
              · simp [e], by
              intro m hm
              rcases List.mem_append.1 hm with e | e
              · exact h.pos m (List.mem_filter.1 e).1
              · simp at e; rw [e]; exact hper⟩ (by omega) (by simp only [hfl]; omega)
          simp only [hfl] at g1 g2
          refine ⟨s', L', ?_, ?_⟩
          · have e1 : s.period a ≠ 0 := by rw [h.hper]; omega
            have e2 : s.period a > 0 := by rw [h.hper]; omega
            simp only [tick, hg, Outcome.bind_ret, ha0.1, if_false, e1, e2, if_true, Outcome.pure_eq, i1, g1]
          · have e2 : σ.after now (a :: l.filter (fun n => decide (σ.dl n < now))) =
                Abs.after ⟨σ.P.filter (fun x => decide (x ≠ a)) ++ [a], upd σ.dl a (now + σ.per a), σ.per⟩ now
                  (l.filter (fun n => decide (σ.dl n < now))) := by
              unfold Abs.after
              rw [List.filter_cons, if_pos (by simpa using hpp)]
              have e3 : (σ.P.filter (fun x => decide (x ≠ a)) ++ [a]).filter
                  (fun n => decide (now ≤ upd σ.dl a (now + σ.per a) n)) =
                  σ.P.filter (fun n => decide (now ≤ σ.dl n)) ++ [a] := by
                rw [List.filter_append]
                congr 1
                · rw [← filter_ne_expired (P := σ.P) (a := a) (q := fun n => decide (now ≤ σ.dl n)) (by simpa using hexp)]
                  apply List.filter_congr
                  intro x hx
                  have := (List.mem_filter.1 hx).2
                  rw [upd_ne _ _ (by simpa using this)]
                · rw [List.filter_cons, if_pos (by simp; omega)]; rfl
              simp only [e3, List.append_assoc, List.singleton_append]
              congr 1
              funext m
              by_cases e : m = a
              · subst e; simp [hpp, hal]
              · simp [e, upd_ne]
            rw [e2]; exact g2
      · have he : (a :: l).filter (fun n => decide (σ.dl n < now)) = [] := by
          rw [List.filter_eq_nil_iff]
          intro x hx
          rcases List.mem_cons.1 hx with e | e
          · rw [e]; simpa using hexp
          · have := hsa.1 x e; simp; omega
        refine hstop he ?_
        have : s.deadline a ≥ now := by rw [h.hdl]; omega
        simp [getExpired, h.rep.first, this]

end Verif.Alarm
