import Verif.Model.Collections
import Verif.Proof.Ring
/-! Refinement of the runtime's queue, stack and doubly linked list by lists (C20, C73). -/
namespace Verif.Collections
open Verif

/-- The location holding the pointer that follows the nodes `l` of queue `q`. -/
def lastLoc (q : Nat) (l : List Nat) : Loc := if l = [] then .head q else .next (l.getLastD 0)

/-- The pointers represent the queues `A`. -/
structure QInv (s : QSt) (A : Nat → List Nat) : Prop where
  head : ∀ q, s.head q = (A q).headD 1
  links : ∀ q, Links s.next (A q) 1
  tail : ∀ q, s.tail q = lastLoc q (A q)
  nodup : ∀ q, (A q).Nodup
  disj : ∀ q q' n, q ≠ q' → n ∈ A q → n ∉ A q'
  off : ∀ n, (∀ q, n ∉ A q) → s.next n = 0
  real : ∀ q n, n ∈ A q → 2 ≤ n

theorem links_last {next : Nat → Nat} {l : List Nat} {t : Nat} (h : Links next l t) (hl : l ≠ []) : next (l.getLastD 0) = t := by
  obtain ⟨i, a, rfl⟩ := exists_concat hl
  rw [getLastD_append_singleton]
  rw [links_append] at h
  simpa using h.2

theorem lastLoc_concat (q : Nat) (l : List Nat) (a : Nat) : lastLoc q (l ++ [a]) = .next a := by
  rw [lastLoc, if_neg (by simp), getLastD_append_singleton]

theorem QInv.rd_tail {s : QSt} {A : Nat → List Nat} (h : QInv s A) (q : Nat) : rd s (s.tail q) = .ret 1 := by
  rw [h.tail, lastLoc]
  by_cases hA : A q = []
  · rw [if_pos hA, rd, h.head, hA]; rfl
  · rw [if_neg hA, rd]
    have := h.real q _ (getLastD_mem hA 0)
    rw [if_neg (by omega), links_last (h.links q) hA]

/-- One queue changes. -/
theorem QInv.set {s : QSt} {A : Nat → List Nat} (h : QInv s A) {q : Nat} {l : List Nat} {nx : Nat → Nat}
    (hl : ∀ m ∈ l, m ∈ A q ∨ ∀ q', m ∉ A q') (hnd : l.Nodup) (h0 : ∀ m ∈ l, 2 ≤ m) (hr : Links nx l 1)
    (hn : ∀ m, m ∉ A q → m ∉ l → nx m = s.next m) (hoff : ∀ m ∈ A q, m ∉ l → nx m = 0) :
    QInv ⟨upd s.head q (l.headD 1), nx, upd s.tail q (lastLoc q l)⟩ (upd A q l) := by
  have hother : ∀ q' m, q' ≠ q → m ∈ A q' → m ∉ A q ∧ m ∉ l := by
    intro q' m hq' hm
    refine ⟨h.disj q' q m hq' hm, fun hm' => ?_⟩
    rcases hl m hm' with e | e
    · exact h.disj q' q m hq' hm e
    · exact e q' hm
  constructor
  · intro q'; simp only [upd_apply]; split
    · rfl
    · exact h.head q'
  · intro q'; simp only [upd_apply]; split
    · exact hr
    · next e =>
      rw [links_congr nx s.next]
      · exact h.links q'
      · exact fun c hc => hn c (hother q' c e hc).1 (hother q' c e hc).2
  · intro q'; simp only [upd_apply]; split
    · next e => rw [e]
    · exact h.tail q'
  · intro q'; rw [upd_apply]; split
    · exact hnd
    · exact h.nodup q'
  · intro q1 q2 m hne h1 h2
    rw [upd_apply] at h1 h2
    split at h1 <;> split at h2
    · omega
    · next e1 e2 => exact (hother q2 m e2 h2).2 h1
    · next e1 e2 => exact (hother q1 m e1 h1).2 h2
    · exact h.disj q1 q2 m hne h1 h2
  · intro m hm
    have hml : m ∉ l := by have := hm q; rwa [upd_same] at this
    by_cases hq : m ∈ A q
    · exact hoff m hq hml
    · show nx m = 0
      rw [hn m hq hml]
      apply h.off
      intro q' hq'
      have := hm q'
      rw [upd_apply] at this; split at this
      · next e => exact hq (e ▸ hq')
      · exact this hq'
  · intro q' m; rw [upd_apply]; split
    · exact h0 m
    · exact h.real q' m

theorem upd_same_fun {α : Type} (f : Nat → α) (q : Nat) (v : α) (h : f q = v) : upd f q v = f := by
  funext x; rw [upd_apply]; split
  · next e => rw [e, h]
  · rfl

theorem append_spec {s : QSt} {A : Nat → List Nat} (h : QInv s A) {q n : Nat} (hn : 2 ≤ n) (hu : ∀ q', n ∉ A q') :
    ∃ s', append s q n = .ret s' ∧ QInv s' (upd A q (A q ++ [n])) := by
  have hn1 : ¬ n ≤ 1 := by omega
  have key : ∀ nx, Links nx (A q) n → nx n = 1 → (∀ m, m ∉ A q → m ≠ n → nx m = s.next m) →
      QInv ⟨upd s.head q ((A q ++ [n]).headD 1), nx, upd s.tail q (.next n)⟩ (upd A q (A q ++ [n])) := by
    intro nx h1 h2 h3
    have := h.set (q := q) (l := A q ++ [n]) (nx := nx)
      (by
        intro m hm
        rcases List.mem_append.1 hm with hm | hm
        · exact Or.inl hm
        · rw [List.mem_singleton] at hm; subst hm; exact Or.inr hu)
      (by
        rw [List.nodup_append]
        exact ⟨h.nodup q, by simp, fun a ha b hb e => by
          rw [List.mem_singleton] at hb; subst hb; subst e; exact hu q ha⟩)
      (by
        intro m hm
        rcases List.mem_append.1 hm with hm | hm
        · exact h.real q m hm
        · rw [List.mem_singleton] at hm; subst hm; exact hn)
      (by rw [links_append]; exact ⟨h1, by simpa using h2⟩)
      (by intro m h4 h5; exact h3 m h4 (fun e => h5 (by simp [e])))
      (by intro m h4 h5; exact absurd (List.mem_append_left _ h4) h5)
    rw [lastLoc_concat] at this
    exact this
  unfold append
  rw [h.rd_tail q]
  simp only [rd, hn1, if_false, Outcome.bind_ret, verify, h.off n hu, decide_true, if_true, upd_same]
  rw [h.tail, lastLoc]
  by_cases hA : A q = []
  · simp only [hA, if_true, wr, Outcome.bind_ret, hn1, if_false]
    refine ⟨_, rfl, ?_⟩
    have := key (upd s.next n 1) (by rw [hA]; trivial) (upd_same _ _ _) (fun m _ h => upd_ne _ _ h)
    rw [hA] at this
    exact this
  · obtain ⟨i, a, hia⟩ := exists_concat hA
    have ham : a ∈ A q := by rw [hia]; simp
    have ha := h.real q a ham
    have ha1 : ¬ a ≤ 1 := by omega
    have han : a ≠ n := fun e => hu q (e ▸ ham)
    have hlast : (A q).getLastD 0 = a := by rw [hia, getLastD_append_singleton]
    rw [if_neg hA]
    simp only [hlast, wr, ha1, if_false, Outcome.bind_ret, hn1]
    refine ⟨_, rfl, ?_⟩
    have := key (upd (upd s.next a n) n 1)
      (by
        rw [links_upd _ _ _ _ _ (hu q), hia]
        apply links_retarget (t := 1)
        · rw [← hia]; exact h.links q
        · rw [← hia]; exact h.nodup q)
      (upd_same _ _ _)
      (fun m h1 h2 => by rw [upd_ne _ _ h2, upd_ne _ _ (fun e : m = a => h1 (e ▸ ham))])
    have e : upd s.head q ((A q ++ [n]).headD 1) = s.head := upd_same_fun _ _ _ (by rw [h.head, hia]; cases i <;> rfl)
    rw [e] at this
    exact this

theorem peek_spec {s : QSt} {A : Nat → List Nat} (h : QInv s A) (q : Nat) : peek s q = .ret ((A q).headD 0) := by
  unfold peek
  rw [h.rd_tail q]
  simp only [Outcome.bind_ret, verify, decide_true, if_true, h.head]
  cases hA : A q with
  | nil => rfl
  | cons a l =>
    have := h.real q a (by rw [hA]; simp)
    have h1 : a ≠ 1 := by omega
    simp [h1]

/-- The location that points to the node after `l1`. -/
theorem remove_spec {s : QSt} {A : Nat → List Nat} (h : QInv s A) {q n : Nat} {l1 l2 : List Nat} (hA : A q = l1 ++ n :: l2) :
    ∃ s', remove s q (lastLoc q l1) = .ret (s', n) ∧ QInv s' (upd A q (l1 ++ l2)) := by
  have hn : n ∈ A q := by rw [hA]; simp
  have hn2 := h.real q n hn
  have hn1 : ¬ n ≤ 1 := by omega
  have hn0 : n ≠ 0 := by omega
  have hlk := h.links q
  have hnd := h.nodup q
  rw [hA, links_append, links_cons] at hlk
  rw [hA, List.nodup_middle, List.nodup_cons] at hnd
  have hmem : ∀ m, m ∈ A q ↔ m = n ∨ m ∈ l1 ++ l2 := by
    intro m; rw [hA]; simp only [List.mem_append, List.mem_cons]
    constructor
    · rintro (h | h | h) <;> simp [h]
    · rintro (h | h | h) <;> simp [h]
  have hx : s.next n = l2.headD 1 := hlk.2.1
  have hrd : rd s (lastLoc q l1) = .ret n := by
    rw [lastLoc]
    by_cases hl : l1 = []
    · subst hl; rw [if_pos rfl, rd, h.head, hA]; rfl
    · rw [if_neg hl, rd]
      have hm : l1.getLastD 0 ∈ A q := by rw [hA]; exact List.mem_append_left _ (getLastD_mem hl 0)
      have := h.real q _ hm
      rw [if_neg (by omega), links_last hlk.1 hl]; rfl
  have htail : s.tail q = .next n ↔ l2 = [] := by
    rw [h.tail, lastLoc, if_neg (by rw [hA]; simp), hA, getLastD_append_cons]
    constructor
    · intro e
      injection e with e
      cases l2 with
      | nil => rfl
      | cons b l2 =>
        rw [List.getLastD_cons] at e
        have hm := getLastD_mem (List.cons_ne_nil b l2) n
        rw [e] at hm
        exact absurd (List.mem_append_right _ hm) hnd.1
    · intro e; subst e; rfl
  have key : ∀ nx, Links nx (l1 ++ l2) 1 → nx n = 0 → (∀ m, m ∉ A q → nx m = s.next m) →
      QInv ⟨upd s.head q ((l1 ++ l2).headD 1), nx, upd s.tail q (lastLoc q (l1 ++ l2))⟩ (upd A q (l1 ++ l2)) := by
    intro nx h1 h2 h3
    apply h.set
    · intro m hm; exact Or.inl ((hmem m).2 (Or.inr hm))
    · exact hnd.2
    · intro m hm; exact h.real q m ((hmem m).2 (Or.inr hm))
    · exact h1
    · intro m hm _; exact h3 m hm
    · intro m hm hml
      rcases (hmem m).1 hm with e | e
      · rw [e]; exact h2
      · exact absurd e hml
  have hl2nd : n ∉ l2 := fun e => hnd.1 (List.mem_append_right _ e)
  have hl1nd : n ∉ l1 := fun e => hnd.1 (List.mem_append_left _ e)
  -- the state after the two writes and the tail update
  have main : ∃ s1 s2 s3 : QSt, wr s (l2.headD 1) (lastLoc q l1) = .ret s1 ∧
      s2 = (if s1.tail q = .next n then { s1 with tail := upd s1.tail q (lastLoc q l1) } else s1) ∧
      wr s2 0 (.next n) = .ret s3 ∧ QInv s3 (upd A q (l1 ++ l2)) := by
    by_cases hl : l1 = []
    · subst hl
      refine ⟨⟨upd s.head q (l2.headD 1), s.next, s.tail⟩, _,
        ⟨upd s.head q (l2.headD 1), upd s.next n 0, upd s.tail q (lastLoc q l2)⟩, ?_, rfl, ?_, ?_⟩
      · rw [lastLoc, if_pos rfl]; rfl
      · simp only [wr, hn1, if_false, htail]
        by_cases h2 : l2 = []
        · subst h2; simp
        · simp only [h2, if_false]
          congr 2
          refine (upd_same_fun _ _ _ ?_).symm
          rw [h.tail, hA, lastLoc, lastLoc, if_neg (by simp), if_neg h2, List.nil_append]
          obtain ⟨i, b, rfl⟩ := exists_concat h2
          rw [← List.cons_append, getLastD_append_singleton, getLastD_append_singleton]
      · refine key (upd s.next n 0) ?_ (upd_same _ _ _) (fun m hm => upd_ne _ _ (fun e => hm (e ▸ hn)))
        rw [List.nil_append, links_upd _ _ _ _ _ hl2nd]
        exact hlk.2.2
    · obtain ⟨i, p, hip⟩ := exists_concat hl
      have hp : p ∈ A q := by rw [hA, hip]; simp
      have hp2 := h.real q p hp
      have hp1 : ¬ p ≤ 1 := by omega
      have hpn : p ≠ n := fun e => hl1nd (by rw [hip, ← e]; simp)
      have hll : lastLoc q l1 = .next p := by rw [hip, lastLoc_concat]
      refine ⟨⟨s.head, upd s.next p (l2.headD 1), s.tail⟩, _, ⟨s.head, upd (upd s.next p (l2.headD 1)) n 0, upd s.tail q (lastLoc q (l1 ++ l2))⟩, ?_, rfl, ?_, ?_⟩
      · rw [hll, wr, if_neg hp1]
      · simp only [wr, hn1, if_false, htail]
        by_cases h2 : l2 = []
        · subst h2; simp
        · simp only [h2, if_false]
          congr 2
          refine (upd_same_fun _ _ _ ?_).symm
          rw [h.tail, hA, lastLoc, lastLoc, if_neg (by simp), if_neg (by simp [h2])]
          obtain ⟨j, b, rfl⟩ := exists_concat h2
          rw [← List.cons_append, ← List.append_assoc, ← List.append_assoc, getLastD_append_singleton,
            getLastD_append_singleton]
      · have := key (upd (upd s.next p (l2.headD 1)) n 0)
          (by
            rw [links_upd _ _ _ _ _ hnd.1, links_append]
            constructor
            · rw [hip]
              apply links_retarget (t := (n :: l2).headD 1)
              · rw [← hip]; exact hlk.1
              · rw [← hip]; exact (List.nodup_append.1 hnd.2).1
            · rw [links_upd]
              · exact hlk.2.2
              · intro hm
                exact (List.nodup_append.1 hnd.2).2.2 p (by rw [hip]; simp) p hm rfl)
          (upd_same _ _ _)
          (fun m hm => by rw [upd_ne _ _ (fun e : m = n => hm (e ▸ hn)), upd_ne _ _ (fun e : m = p => hm (e ▸ hp))])
        have e : upd s.head q ((l1 ++ l2).headD 1) = s.head := by
          refine upd_same_fun _ _ _ ?_
          rw [h.head, hA]
          cases l1 with
          | nil => exact absurd rfl hl
          | cons a l1 => rfl
        rw [e] at this
        exact this
  obtain ⟨s1, s2, s3, e1, e2, e3, e4⟩ := main
  refine ⟨s3, ?_, e4⟩
  have hv1 : (decide (s3.head q = 1) == decide (s3.tail q = .head q)) = true := by
    rw [e4.head, e4.tail, upd_same, lastLoc]
    by_cases hl : l1 ++ l2 = []
    · simp [hl]
    · have : (l1 ++ l2).headD 1 ≠ 1 := by
        have := e4.real q ((l1 ++ l2).headD 1) (by rw [upd_same]; exact headD_mem hl 1)
        omega
      rw [if_neg hl]
      simp only [this, decide_false]
      simp
  unfold remove
  rw [hrd]
  simp only [Outcome.bind_ret, verify, hn0, ne_eq, not_false_eq_true, decide_true, if_true]
  have : rd s (.next n) = .ret (l2.headD 1) := by rw [rd, if_neg hn1, hx]
  rw [this, Outcome.bind_ret, e1, Outcome.bind_ret, ← e2, e3, Outcome.bind_ret]
  simp only [hv1, if_true, Outcome.bind_ret, e4.rd_tail q, decide_true, Outcome.pure_eq]

theorem popHead_spec {s : QSt} {A : Nat → List Nat} (h : QInv s A) (q : Nat) :
    ∃ s', popHead s q = .ret (s', (A q).headD 0) ∧ QInv s' (upd A q (A q).tail) := by
  unfold popHead
  rw [h.rd_tail q]
  simp only [Outcome.bind_ret, verify, decide_true, if_true, h.head]
  cases hA : A q with
  | nil => exact ⟨s, rfl, by rw [upd_same_fun A q _ (by rw [hA]; rfl)]; exact h⟩
  | cons n l =>
    have hn : n ∈ A q := by rw [hA]; simp
    have hn2 := h.real q n hn
    have hn1 : ¬ n ≤ 1 := by omega
    have hne : n ≠ 1 := by omega
    have hlk := h.links q
    have hnd := h.nodup q
    rw [hA, links_cons] at hlk
    rw [hA, List.nodup_cons] at hnd
    have hmem : ∀ m, m ∈ A q ↔ m = n ∨ m ∈ l := by intro m; rw [hA]; simp
    have key : QInv ⟨upd s.head q (l.headD 1), upd s.next n 0, upd s.tail q (lastLoc q l)⟩ (upd A q l) := by
      apply h.set
      · intro m hm; exact Or.inl ((hmem m).2 (Or.inr hm))
      · exact hnd.2
      · intro m hm; exact h.real q m ((hmem m).2 (Or.inr hm))
      · rw [links_upd _ _ _ _ _ hnd.1]; exact hlk.2
      · intro m hm _; exact upd_ne _ _ (fun e => hm (e ▸ hn))
      · intro m hm hml
        rcases (hmem m).1 hm with e | e
        · rw [e, upd_same]
        · exact absurd e hml
    have ht : (if l.headD 1 = 1 then ({ head := upd s.head q (l.headD 1), next := s.next, tail := upd s.tail q (.head q) } : QSt)
        else ⟨upd s.head q (l.headD 1), s.next, s.tail⟩) = ⟨upd s.head q (l.headD 1), s.next, upd s.tail q (lastLoc q l)⟩ := by
      cases l with
      | nil => rfl
      | cons b l =>
        have hb : 2 ≤ b := h.real q b (by rw [hA]; simp)
        have hb1 : b ≠ 1 := by omega
        rw [List.headD_cons, if_neg hb1]
        congr 1
        refine (upd_same_fun _ _ _ ?_).symm
        rw [h.tail, hA, lastLoc, lastLoc, if_neg (by simp), if_neg (by simp), List.getLastD_cons, List.getLastD_cons,
          List.getLastD_cons]
    have hrt := key.rd_tail q
    simp only [List.headD_cons, hne, ne_eq, not_false_eq_true, if_true, rd, hn1, if_false, Outcome.bind_ret, hlk.1,
      List.tail_cons]
    rw [ht]
    simp only [wr, hn1, if_false, Outcome.bind_ret]
    simp only [rd] at hrt
    rw [hrt]
    simp only [Outcome.bind_ret, decide_true, if_true, Outcome.pure_eq]
    exact ⟨_, rfl, key⟩

/-! ### Stack -/

/-- The pointers represent the stacks `A`, top first. -/
structure SInv (s : SSt) (A : Nat → List Nat) : Prop where
  top : ∀ q, s.top q = (A q).headD 0
  links : ∀ q, Links s.next (A q) 0
  nodup : ∀ q, (A q).Nodup
  disj : ∀ q q' n, q ≠ q' → n ∈ A q → n ∉ A q'
  off : ∀ n, (∀ q, n ∉ A q) → s.next n = 0
  nz : ∀ q, 0 ∉ A q

theorem SInv.set {s : SSt} {A : Nat → List Nat} (h : SInv s A) {q : Nat} {l : List Nat} {nx : Nat → Nat}
    (hl : ∀ m ∈ l, m ∈ A q ∨ ∀ q', m ∉ A q') (hnd : l.Nodup) (h0 : 0 ∉ l) (hr : Links nx l 0)
    (hn : ∀ m, m ∉ A q → m ∉ l → nx m = s.next m) (hoff : ∀ m ∈ A q, m ∉ l → nx m = 0) :
    SInv ⟨upd s.top q (l.headD 0), nx⟩ (upd A q l) := by
  have hother : ∀ q' m, q' ≠ q → m ∈ A q' → m ∉ A q ∧ m ∉ l := by
    intro q' m hq' hm
    refine ⟨h.disj q' q m hq' hm, fun hm' => ?_⟩
    rcases hl m hm' with e | e
    · exact h.disj q' q m hq' hm e
    · exact e q' hm
  constructor
  · intro q'; simp only [upd_apply]; split
    · rfl
    · exact h.top q'
  · intro q'; simp only [upd_apply]; split
    · exact hr
    · next e =>
      rw [links_congr nx s.next]
      · exact h.links q'
      · exact fun c hc => hn c (hother q' c e hc).1 (hother q' c e hc).2
  · intro q'; rw [upd_apply]; split
    · exact hnd
    · exact h.nodup q'
  · intro q1 q2 m hne h1 h2
    rw [upd_apply] at h1 h2
    split at h1 <;> split at h2
    · omega
    · next e1 e2 => exact (hother q2 m e2 h2).2 h1
    · next e1 e2 => exact (hother q1 m e1 h1).2 h2
    · exact h.disj q1 q2 m hne h1 h2
  · intro m hm
    have hml : m ∉ l := by have := hm q; rwa [upd_same] at this
    by_cases hq : m ∈ A q
    · exact hoff m hq hml
    · show nx m = 0
      rw [hn m hq hml]
      apply h.off
      intro q' hq'
      have := hm q'
      rw [upd_apply] at this; split at this
      · next e => exact hq (e ▸ hq')
      · exact this hq'
  · intro q'; rw [upd_apply]; split
    · exact h0
    · exact h.nz q'

theorem spush_spec {s : SSt} {A : Nat → List Nat} (h : SInv s A) {q n : Nat} (hn : n ≠ 0) (hu : ∀ q', n ∉ A q') :
    ∃ s', spush s q n = .ret s' ∧ SInv s' (upd A q (n :: A q)) := by
  unfold spush
  simp only [hn, if_false, h.off n hu, ne_eq, not_true_eq_false, h.top]
  refine ⟨_, rfl, ?_⟩
  have := h.set (q := q) (l := n :: A q) (nx := upd s.next n ((A q).headD 0))
    (by
      intro m hm
      rcases List.mem_cons.1 hm with e | hm
      · subst e; exact Or.inr hu
      · exact Or.inl hm)
    (List.nodup_cons.2 ⟨hu q, h.nodup q⟩)
    (by
      intro h0
      rcases List.mem_cons.1 h0 with e | e
      · exact hn e.symm
      · exact h.nz q e)
    (by
      rw [links_cons]
      exact ⟨upd_same _ _ _, by rw [links_upd _ _ _ _ _ (hu q)]; exact h.links q⟩)
    (fun m _ h2 => upd_ne _ _ (fun e => h2 (by simp [e])))
    (fun m h1 h2 => absurd (List.mem_cons_of_mem _ h1) h2)
  exact this

theorem spop_spec {s : SSt} {A : Nat → List Nat} (h : SInv s A) (q : Nat) :
    ∃ s', spop s q = .ret (s', (A q).headD 0) ∧ SInv s' (upd A q (A q).tail) := by
  unfold spop
  rw [h.top]
  cases hA : A q with
  | nil => exact ⟨s, rfl, by rw [upd_same_fun A q _ (by rw [hA]; rfl)]; exact h⟩
  | cons n l =>
    have hn : n ∈ A q := by rw [hA]; simp
    have hn0 : n ≠ 0 := fun e => h.nz q (e ▸ hn)
    have hlk := h.links q
    have hnd := h.nodup q
    rw [hA, links_cons] at hlk
    rw [hA, List.nodup_cons] at hnd
    have hmem : ∀ m, m ∈ A q ↔ m = n ∨ m ∈ l := by intro m; rw [hA]; simp
    simp only [List.headD_cons, hn0, ne_eq, not_false_eq_true, if_true, hlk.1, List.tail_cons]
    refine ⟨_, rfl, ?_⟩
    apply h.set
    · intro m hm; exact Or.inl ((hmem m).2 (Or.inr hm))
    · exact hnd.2
    · intro h0; exact h.nz q ((hmem 0).2 (Or.inr h0))
    · rw [links_upd _ _ _ _ _ hnd.1]; exact hlk.2
    · intro m hm _; exact upd_ne _ _ (fun e => hm (e ▸ hn))
    · intro m hm hml
      rcases (hmem m).1 hm with e | e
      · rw [e, upd_same]
      · exact absurd e hml

/-! ### Doubly linked list -/

abbrev DInv (s : DSt) (A : Nat → List Nat) : Prop := Rings s.next s.prev s.head A

theorem pushFront_spec {s : DSt} {A : Nat → List Nat} (h : DInv s A) {q n : Nat} (hn : n ≠ 0) (hu : ∀ q', n ∉ A q') :
    ∃ s', pushFront s q n = .ret s' ∧ DInv s' (upd A q (n :: A q)) := by
  have key : ∀ nx bk, Ring nx bk (n :: A q) → (∀ c, c ≠ n → c ∉ A q → nx c = s.next c) →
      (∀ c, c ≠ n → c ∉ A q → bk c = s.prev c) → DInv ⟨nx, bk, upd s.head q n⟩ (upd A q (n :: A q)) := by
    intro nx bk hr h1 h2
    have hmem : ∀ m, m ∈ n :: A q ↔ m = n ∨ m ∈ A q := by intro m; rw [List.mem_cons]
    refine Rings.set h (l := n :: A q) ?_ (List.nodup_cons.2 ⟨hu q, h.nodup q⟩) ?_ hr ?_ ?_ ?_
    · intro m hm
      rcases (hmem m).1 hm with e | hm
      · subst e; exact Or.inr hu
      · exact Or.inl hm
    · intro h0
      rcases (hmem 0).1 h0 with e | e
      · exact hn e.symm
      · exact h.nz q e
    · intro m hm hml; exact h1 m (fun e => hml ((hmem m).2 (Or.inl e))) hm
    · intro m hm hml; exact h2 m (fun e => hml ((hmem m).2 (Or.inl e))) hm
    · intro m hm hml; exact absurd ((hmem m).2 (Or.inr hm)) hml
  unfold pushFront
  cases hA : A q with
  | nil =>
    have hr := (h.root_eq0 q).2 hA
    simp only [hr, ne_eq, not_true_eq_false, if_false, dwrN, hn, Outcome.bind_ret, dwrP, Outcome.pure_eq]
    refine ⟨_, rfl, ?_⟩
    rw [← hA]
    exact key _ _ (by rw [hA]; exact ⟨upd_same _ _ _, upd_same _ _ _⟩) (fun c hc _ => upd_ne _ _ hc)
      (fun c hc _ => upd_ne _ _ hc)
  | cons b l =>
    have hb : s.head q = b := by rw [h.root, hA]; rfl
    have hbm : b ∈ A q := by rw [hA]; simp
    have hb0 := h.ne0 hbm
    have hring := h.ring q
    have hnd := h.nodup q
    have hnl := hu q
    rw [hA] at hring hnd hnl
    have hbk : s.prev b = l.getLastD b := (seg_last hring).2
    have hm : l.getLastD b ∈ A q := by rw [hA]; exact List.mem_cons.2 (getLastD_mem_cons b l)
    have hp0 := h.ne0 hm
    have hpn : l.getLastD b ≠ n := fun e => hu q (e ▸ hm)
    have hbn : b ≠ n := fun e => hu q (e ▸ hbm)
    generalize hp : l.getLastD b = p at *
    have hdo : (do
        let s ← dwrN s n b
        let p ← drdP s b
        let s ← dwrP s n p
        let s ← dwrP s b n
        let p ← drdP s n
        dwrN s p n : Outcome DSt) = .ret ⟨upd (upd s.next n b) p n, upd (upd s.prev n p) b n, s.head⟩ := by
      simp [dwrN, dwrP, drdP, hn, hb0, hbk, upd_apply, hbn.symm, hp0]
    have hfull : (if s.head q ≠ 0 then do
        let s ← dwrN s n (s.head q)
        let p ← drdP s (s.head q)
        let s ← dwrP s n p
        let s ← dwrP s (s.head q) n
        let p ← drdP s n
        dwrN s p n
      else do
        let s ← dwrN s n n
        dwrP s n n : Outcome DSt) = .ret ⟨upd (upd s.next n b) p n, upd (upd s.prev n p) b n, s.head⟩ := by
      rw [if_pos (by rw [hb]; exact hb0)]
      simp [dwrN, dwrP, drdP, hn, hb, hb0, hbk, upd_apply, hbn.symm, hp0]
    rw [hfull, Outcome.bind_ret]
    refine ⟨_, rfl, ?_⟩
    rw [← hA]
    apply key
    · have : Ring (upd (upd s.next n b) p n) (upd (upd s.prev n p) b n) (b :: l ++ [n]) := by
        apply ring_insert hring hnd hnl
        · rw [upd_ne _ _ (Ne.symm hpn), upd_same]
        · rw [upd_ne _ _ hbn.symm, upd_same, hp]
        · rw [upd_same]
        · rw [hp, upd_same]
        · intro c h1 h2; rw [hp] at h2; rw [upd_ne _ _ h2, upd_ne _ _ h1]
        · intro c h1 h2; rw [upd_ne _ _ h2, upd_ne _ _ h1]
      rw [ring_rotate] at this
      rw [hA]; exact this
    · intro c h1 h2; dsimp only; rw [upd_ne _ _ (fun e : c = p => h2 (e ▸ hm)), upd_ne _ _ h1]
    · intro c h1 h2; dsimp only; rw [upd_ne _ _ (fun e : c = b => h2 (e ▸ hbm)), upd_ne _ _ h1]

theorem dremove_spec {s : DSt} {A : Nat → List Nat} (h : DInv s A) {q n : Nat} {l1 l2 : List Nat}
    (hA : A q = l1 ++ n :: l2) : ∃ s', dremove s q n = .ret s' ∧ DInv s' (upd A q (l1 ++ l2)) := by
  unfold dremove
  have hnm : n ∈ A q := by rw [hA]; simp
  have hn0 := h.ne0 hnm
  have hnd := h.nodup q
  have hnd' := hnd
  rw [hA, List.nodup_middle, List.nodup_cons] at hnd'
  have hring := h.ring q
  rw [hA, ring_rotate, List.cons_append] at hring
  have hmem : ∀ m, m ∈ A q ↔ m = n ∨ m ∈ l1 ++ l2 := by
    intro m; rw [hA]; simp only [List.mem_append, List.mem_cons]
    constructor
    · rintro (h | h | h) <;> simp [h]
    · rintro (h | h | h) <;> simp [h]
  have hroot : dremoveHead s q n = .ret ⟨s.next, s.prev, upd s.head q ((l1 ++ l2).headD 0)⟩ := by
    unfold dremoveHead
    cases l1 with
    | nil =>
      have hr : s.head q = n := by rw [h.root, hA]; rfl
      simp only [hr, if_true, drdN, hn0, if_false, Outcome.bind_ret]
      have hf : s.next n = (l2 ++ []).headD n := seg_first hring
      cases l2 with
      | nil =>
        simp at hf
        simp [hf]
      | cons b l2 =>
        simp at hf
        have hbn : b ≠ n := fun e => hnd'.1 (by simp [e])
        simp [hf, hbn]
    | cons a l1 =>
      have hr : s.head q = a := by rw [h.root, hA]; rfl
      have han : ¬ n = a := fun e => hnd'.1 (by simp [e])
      rw [hr, if_neg han, upd_same_fun _ _ _ (by rw [hr]; rfl)]
  rw [hroot, Outcome.bind_ret]
  have key : ∀ nx bk, Ring nx bk (l1 ++ l2) → nx n = 0 → (∀ m, m ∉ A q → nx m = s.next m) →
      (∀ m, m ∉ A q → bk m = s.prev m) → DInv ⟨nx, bk, upd s.head q ((l1 ++ l2).headD 0)⟩ (upd A q (l1 ++ l2)) := by
    intro nx bk hr h0 h1 h2
    refine Rings.set h (fun m hm => Or.inl ((hmem m).2 (Or.inr hm))) hnd'.2 (fun hm => h.nz q ((hmem 0).2 (Or.inr hm))) hr
      (fun m hm _ => h1 m hm) (fun m hm _ => h2 m hm) ?_
    intro m hm hml
    rcases (hmem m).1 hm with e | e
    · rw [e]; exact h0
    · exact absurd e hml
  simp only [drdN, hn0, if_false, Outcome.bind_ret, drdP]
  cases hl : l2 ++ l1 with
  | nil =>
    rw [hl] at hring
    have hx : s.next n = n := hring.1
    have hy : s.prev n = n := hring.2
    simp only [hx, hy, dwrP, hn0, if_false, Outcome.bind_ret, upd_same, dwrN]
    refine ⟨_, rfl, ?_⟩
    have h1 : l1 = [] := by cases l1 with
      | nil => rfl
      | cons a l => simp at hl
    have h2 : l2 = [] := by cases l2 with
      | nil => rfl
      | cons a l => simp at hl
    subst h1 h2
    apply key
    · trivial
    · rw [upd_same]
    · intro m hm
      have : m ≠ n := fun e => hm (e ▸ hnm)
      rw [upd_ne _ _ this, upd_ne _ _ this]
    · intro m hm
      have : m ≠ n := fun e => hm (e ▸ hnm)
      rw [upd_ne _ _ this, upd_ne _ _ this]
  | cons m l =>
    rw [hl] at hring
    have hp : (m :: l).Perm (l1 ++ l2) := by rw [← hl]; exact List.perm_append_comm
    have hnd2 : (n :: m :: l).Nodup := List.nodup_cons.2 ⟨fun hm => hnd'.1 (hp.mem_iff.1 hm), hp.nodup_iff.2 hnd'.2⟩
    have hmm : m ∈ A q := (hmem m).2 (Or.inr (hp.mem_iff.1 (by simp)))
    have hpm : l.getLastD m ∈ m :: l := List.mem_cons.2 (getLastD_mem_cons m l)
    have hpA : l.getLastD m ∈ A q := (hmem _).2 (Or.inr (hp.mem_iff.1 hpm))
    have hx : s.next n = m := hring.1
    have hy : s.prev n = l.getLastD m := by
      have := (seg_last hring).2
      rwa [List.getLastD_cons] at this
    have hmn : m ≠ n := fun e => (List.nodup_cons.1 hnd2).1 (by simp [e])
    have hpn : l.getLastD m ≠ n := fun e => (List.nodup_cons.1 hnd2).1 (e ▸ hpm)
    have hm0 := h.ne0 hmm
    have hp0 := h.ne0 hpA
    generalize hpe : l.getLastD m = p at *
    simp only [hx, hy, dwrP, hm0, if_false, Outcome.bind_ret, upd_ne s.prev _ hmn.symm, dwrN, hp0, hn0]
    refine ⟨_, rfl, ?_⟩
    apply key
    · have : Ring (upd (upd s.next p m) n 0) (upd (upd s.prev m p) n 0) (m :: l) := by
        apply ring_remove hring hnd2
        · rw [upd_ne _ _ hmn, upd_same, hpe]
        · rw [hpe, upd_ne _ _ hpn, upd_same]
        · intro c h1 h2; rw [hpe] at h2; rw [upd_ne _ _ h1, upd_ne _ _ h2]
        · intro c h1 h2; rw [upd_ne _ _ h1, upd_ne _ _ h2]
      rw [← hl, ring_rotate] at this
      exact this
    · rw [upd_same]
    · intro c hc
      rw [upd_ne _ _ (fun e : c = n => hc (e ▸ hnm)), upd_ne _ _ (fun e : c = p => hc (e ▸ hpA))]
    · intro c hc
      rw [upd_ne _ _ (fun e : c = n => hc (e ▸ hnm)), upd_ne _ _ (fun e : c = m => hc (e ▸ hmm))]

theorem moveToFront_spec {s : DSt} {A : Nat → List Nat} (h : DInv s A) {q r n : Nat} {l1 l2 : List Nat}
    (hA : A q = l1 ++ n :: l2) :
    ∃ s', moveToFront s q r n = .ret s' ∧ DInv s' (upd (upd A q (l1 ++ l2)) r (n :: upd A q (l1 ++ l2) r)) := by
  have hnm : n ∈ A q := by rw [hA]; simp
  obtain ⟨s1, h1, h2⟩ := dremove_spec h hA
  have hnd := h.nodup q
  rw [hA, List.nodup_middle, List.nodup_cons] at hnd
  obtain ⟨s2, h3, h4⟩ := pushFront_spec h2 (q := r) (n := n) (h.ne0 hnm) (by
    intro q'
    rw [upd_apply]; split
    · exact hnd.1
    · next e => exact h.disj q q' n (Ne.symm e) hnm)
  exact ⟨s2, by simp [moveToFront, h1, h3], h4⟩

end Verif.Collections
