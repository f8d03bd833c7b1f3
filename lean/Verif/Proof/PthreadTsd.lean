import Verif.Spec.PthreadTsd
import Mathlib.Data.List.Nodup
import Mathlib.Tactic.Tauto

namespace Verif.Proof.PthreadTsd

open Verif.Model.PthreadTsd
open Verif.Spec.PthreadTsd

abbrev upd := @Verif.Model.PthreadTsd.set

theorem upd_self (f : Nat → α) (i : Nat) (v : α) : upd f i v i = v := if_pos rfl

theorem upd_ne (f : Nat → α) {i k : Nat} (v : α) (h : k ≠ i) : upd f i v k = f k := if_neg h

/-- The entry of a thread. -/
def ent (s : Sys) (t k : Nat) : Val :=
  match s.thr t with
  | some th => (th.pthreadData.getD fun _ => ⟨0, false⟩) k
  | none => ⟨0, false⟩

def enderOf (s : Sys) (t : Nat) : Option Ender := (s.thr t).bind Thr.ender

/-! ### What a call leaves as it is -/

/-- A step that is neither a change of keys or values, nor a join, nor a call of a destructor. -/
structure Quiet (x : Op × Res) : Prop where
  live : ∀ tr k, live (x :: tr) k = live tr k
  held : ∀ tr t k, held (x :: tr) t k = held tr t k
  joins : ∀ t, joins x t = false
  deletes : deletes x = false
  called : ∀ t k d v j, x ≠ (Op.tick t, Res.called k d v j)

theorem joined_cons {x : Op × Res} {tr : Trace} : joined (x :: tr) t ↔ joins x t = true ∨ joined tr t := by
  simp [joined]

theorem called_cons {x : Op × Res} {tr : Trace} : called (x :: tr) t k d v ↔
    (∃ j, x = (Op.tick t, Res.called k d v j)) ∨ called tr t k d v := by
  simp only [called, List.mem_cons]
  constructor
  · rintro ⟨j, h | h⟩
    · exact Or.inl ⟨j, h.symm⟩
    · exact Or.inr ⟨j, h⟩
  · rintro (⟨j, h⟩ | ⟨j, h⟩)
    · exact ⟨j, Or.inl h.symm⟩
    · exact ⟨j, Or.inr h⟩

/-! ### The invariant -/

structure Ends (tr : Trace) (t : Nat) (E : Nat → Val) (e : Ender) : Prop where
  use : ∀ k, (E k).in_use = true → (E k).value = held (atJoin tr t) t k ∧ e.attempts = 0 ∧
    (if e.phase = .scan then e.i ≤ k else e.i < k)
  calling : e.phase = .calling → e.attempts = 0 ∧ (E e.i).value = held (atJoin tr t) t e.i ∧
    (E e.i).value ≠ 0
  once : ∀ k d v, called tr t k d v → 0 < e.attempts ∨ k < e.i ∨ (k = e.i ∧ e.phase = .inside)

structure Inv (N : Nat) (keys : Nat → Key) (E : Nat → Nat → Val) (D : Nat → Option Ender)
    (tr : Trace) : Prop where
  keyv : ∀ k, live tr k = if (keys k).in_use then some (keys k).destructor else none
  hi : ∀ k, N ≤ k → (keys k).in_use = false
  dn : ∀ k, (keys k).in_use = false → (keys k).destructor = none
  list : ∀ k t, t ∈ (keys k).threads ↔ (E t k).in_use = true
  nodup : ∀ k, (keys k).threads.Nodup
  uses : ∀ t k, (E t k).in_use = true → (keys k).in_use = true
  vals : ∀ t, ¬ joined tr t → ∀ k, held tr t k = if (E t k).in_use then (E t k).value else 0
  idle : ∀ t, ¬ joined tr t → D t = none
  nocall : ∀ t k d v, ¬ joined tr t → ¬ called tr t k d v
  over : ∀ t, joined tr t → D t = none → ∀ k, (E t k).in_use = false
  ends : ∀ t e, joined tr t → D t = some e → Ends tr t (E t) e
  lv : ∀ t, joined tr t → noDelete tr t → ∀ k d, live (atJoin tr t) k = some d → live tr k = some d
  cl : ∀ t e, joined tr t → noDelete tr t → D t = some e → e.phase = .calling →
    ∃ d, live tr e.i = some (some d)
  pend : ∀ t k d, joined tr t → noDelete tr t → live (atJoin tr t) k = some (some d) →
    held (atJoin tr t) t k ≠ 0 →
    called tr t k d (held (atJoin tr t) t k) ∨ (E t k).in_use = true ∨
      (∃ e, D t = some e ∧ e.phase = .calling ∧ e.i = k)
  jl : ∀ t k, joined tr t → held (atJoin tr t) t k ≠ 0 → live (atJoin tr t) k ≠ none

theorem inv_init : Inv N init.keys (fun t => ent init t) (fun t => enderOf init t) [] := by
  have hj : ∀ t, ¬ joined [] t := by intro t h; simp [joined] at h
  refine ⟨fun k => rfl, fun k _ => rfl, fun k _ => rfl, ?_, ?_, ?_, ?_, fun _ _ => rfl, ?_, ?_, ?_,
    ?_, ?_, ?_, fun t _ h => absurd h (hj t)⟩
  · intro k t; simp [init, ent]
  · intro k; simp [init]
  · intro t k h; simp [init, ent] at h
  · intro t _ k; simp [init, ent, held]
  · intro t k d v _ h; simp [called] at h
  · intro t h; exact absurd h (hj t)
  · intro t _ h; exact absurd h (hj t)
  · intro t h; exact absurd h (hj t)
  · intro t _ h; exact absurd h (hj t)
  · intro t _ _ h; exact absurd h (hj t)

section
variable {N : Nat} {keys : Nat → Key} {E : Nat → Nat → Val} {D : Nat → Option Ender} {tr : Trace}

theorem Quiet.joined {x : Op × Res} (q : Quiet x) {t : Nat} : joined (x :: tr) t ↔ joined tr t := by
  rw [joined_cons, q.joins t]; simp

theorem Quiet.atJoin {x : Op × Res} (q : Quiet x) {t : Nat} : atJoin (x :: tr) t = atJoin tr t := by
  simp [Verif.Spec.PthreadTsd.atJoin, q.joins t]

theorem Quiet.noDelete {x : Op × Res} (q : Quiet x) {t : Nat} :
    noDelete (x :: tr) t ↔ noDelete tr t := by
  simp [Verif.Spec.PthreadTsd.noDelete, q.joins t, q.deletes]

theorem Quiet.calledIff {x : Op × Res} (q : Quiet x) {t k d v : Nat} :
    Verif.Spec.PthreadTsd.called (x :: tr) t k d v ↔ Verif.Spec.PthreadTsd.called tr t k d v := by
  rw [called_cons]
  constructor
  · rintro (⟨j, h⟩ | h)
    · exact absurd h (q.called _ _ _ _ _)
    · exact h
  · exact Or.inr

theorem inv_quiet (H : Inv N keys E D tr) {x : Op × Res} (q : Quiet x) : Inv N keys E D (x :: tr) := by
  refine ⟨?_, H.hi, H.dn, H.list, H.nodup, H.uses, ?_, ?_, ?_, ?_, ?_, ?_, ?_, ?_,
    by intro t k h; rw [q.atJoin]; exact H.jl t k (q.joined.mp h)⟩
  · intro k; rw [q.live]; exact H.keyv k
  · intro t h k; rw [q.held]; exact H.vals t (fun h' => h (q.joined.mpr h')) k
  · intro t h; exact H.idle t (fun h' => h (q.joined.mpr h'))
  · intro t k d v h; rw [q.calledIff]; exact H.nocall t k d v (fun h' => h (q.joined.mpr h'))
  · intro t h; exact H.over t (q.joined.mp h)
  · intro t e h hd
    have := H.ends t e (q.joined.mp h) hd
    refine ⟨?_, ?_, ?_⟩
    · rw [q.atJoin]; exact this.use
    · rw [q.atJoin]; exact this.calling
    · intro k d v hc; exact this.once k d v (q.calledIff.mp hc)
  · intro t h hn k d hl
    rw [q.atJoin] at hl
    rw [q.live]; exact H.lv t (q.joined.mp h) (q.noDelete.mp hn) k d hl
  · intro t e h hn hd hp
    obtain ⟨d, h1⟩ := H.cl t e (q.joined.mp h) (q.noDelete.mp hn) hd hp
    exact ⟨d, by rw [q.live]; exact h1⟩
  · intro t k d h hn hl hh
    rw [q.atJoin] at hl hh ⊢
    rw [q.calledIff]
    exact H.pend t k d (q.joined.mp h) (q.noDelete.mp hn) hl hh

/-! ### Keys are made and deleted -/

theorem inv_create (H : Inv N keys E D tr) {i : Nat} (hi : i < N) (hu : (keys i).in_use = false)
    (d : Option Nat) :
    Inv N (upd keys i { keys i with in_use := true, destructor := d }) E D
      ((.create d, .key i) :: tr) := by
  have hl0 : live tr i = none := by rw [H.keyv, hu]; rfl
  have hE : ∀ t, (E t i).in_use = false := by
    intro t
    cases hb : (E t i).in_use with
    | false => rfl
    | true => have := H.uses t i hb; rw [hu] at this; cases this
  have hlv : ∀ k, live ((.create d, .key i) :: tr) k = if k = i then some d else live tr k := fun k => rfl
  have hhd : ∀ t k, held ((.create d, .key i) :: tr) t k = if k = i then 0 else held tr t k :=
    fun t k => rfl
  have hj : ∀ t, joined ((.create d, .key i) :: tr) t ↔ joined tr t := by
    intro t; rw [joined_cons]; simp [joins]
  have ha : ∀ t, atJoin ((.create d, .key i) :: tr) t = atJoin tr t := fun t => rfl
  have hn : ∀ t, noDelete ((.create d, .key i) :: tr) t ↔ noDelete tr t := by
    intro t; simp [noDelete, joins, deletes]
  have hc : ∀ t k d' v, called ((.create d, .key i) :: tr) t k d' v ↔ called tr t k d' v := by
    intro t k d' v; rw [called_cons]; simp
  have hth : ∀ k, (upd keys i { keys i with in_use := true, destructor := d } k).threads =
      (keys k).threads := by
    intro k
    by_cases h : k = i
    · subst h; rw [upd_self]
    · rw [upd_ne _ _ h]
  refine ⟨?_, ?_, ?_, ?_, ?_, ?_, ?_, ?_, ?_, ?_, ?_, ?_, ?_, ?_,
    fun t k h => H.jl t k ((hj t).mp h)⟩
  · intro k
    rw [hlv]
    by_cases h : k = i
    · subst h; rw [upd_self, if_pos rfl]; rfl
    · rw [upd_ne _ _ h, if_neg h]; exact H.keyv k
  · intro k hk
    rw [upd_ne _ _ (by omega)]; exact H.hi k hk
  · intro k
    by_cases h : k = i
    · subst h; rw [upd_self]; intro h; cases h
    · rw [upd_ne _ _ h]; exact H.dn k
  · intro k t; rw [hth]; exact H.list k t
  · intro k; rw [hth]; exact H.nodup k
  · intro t k h
    by_cases hki : k = i
    · subst hki; rw [upd_self]
    · rw [upd_ne _ _ hki]; exact H.uses t k h
  · intro t h k
    rw [hhd]
    by_cases hki : k = i
    · subst hki; rw [if_pos rfl, hE]; rfl
    · rw [if_neg hki]; exact H.vals t (fun h' => h ((hj t).mpr h')) k
  · intro t h; exact H.idle t (fun h' => h ((hj t).mpr h'))
  · intro t k d' v h; rw [hc]; exact H.nocall t k d' v (fun h' => h ((hj t).mpr h'))
  · intro t h; exact H.over t ((hj t).mp h)
  · intro t e h hd
    have := H.ends t e ((hj t).mp h) hd
    exact ⟨this.use, this.calling, fun k d' v h' => this.once k d' v ((hc _ _ _ _).mp h')⟩
  · intro t h hnd k d' hl
    rw [ha] at hl
    have := H.lv t ((hj t).mp h) ((hn t).mp hnd) k d' hl
    rw [hlv]
    by_cases hki : k = i
    · subst hki; rw [hl0] at this; cases this
    · rw [if_neg hki]; exact this
  · intro t e h hnd hd hp
    obtain ⟨d', h1⟩ := H.cl t e ((hj t).mp h) ((hn t).mp hnd) hd hp
    refine ⟨d', ?_⟩
    rw [hlv]
    by_cases hki : e.i = i
    · rw [hki, hl0] at h1; cases h1
    · rw [if_neg hki]; exact h1
  · intro t k d' h hnd hl hh
    rw [ha] at hl hh ⊢
    rw [hc]
    exact H.pend t k d' ((hj t).mp h) ((hn t).mp hnd) hl hh

theorem inv_delete (H : Inv N keys E D tr) (k0 : Nat) {E' : Nat → Nat → Val}
    (hE : ∀ t k, E' t k = if k = k0 then { E t k with in_use := false } else E t k) :
    Inv N (upd keys k0 { in_use := false, destructor := none, threads := [] }) E' D
      ((.delete k0, .code 0) :: tr) := by
  have hlv : ∀ k, live ((.delete k0, .code 0) :: tr) k = if k = k0 then none else live tr k := fun k => rfl
  have hhd : ∀ t k, held ((.delete k0, .code 0) :: tr) t k = if k = k0 then 0 else held tr t k :=
    fun t k => rfl
  have hj : ∀ t, joined ((.delete k0, .code 0) :: tr) t ↔ joined tr t := by
    intro t; rw [joined_cons]; simp [joins]
  have hn : ∀ t, ¬ noDelete ((.delete k0, .code 0) :: tr) t := by
    intro t; simp [noDelete, joins, deletes]
  have hc : ∀ t k d' v, called ((.delete k0, .code 0) :: tr) t k d' v ↔ called tr t k d' v := by
    intro t k d' v; rw [called_cons]; simp
  have hu : ∀ t k, (E' t k).in_use = true → k ≠ k0 ∧ E' t k = E t k := by
    intro t k h
    rw [hE] at h ⊢
    by_cases hk : k = k0
    · rw [if_pos hk] at h; cases h
    · rw [if_neg hk]; exact ⟨hk, rfl⟩
  have hval : ∀ t k, (E' t k).value = (E t k).value := by
    intro t k; rw [hE]; split <;> rfl
  refine ⟨?_, ?_, ?_, ?_, ?_, ?_, ?_, ?_, ?_, ?_, ?_, ?_, ?_, ?_,
    fun t k h => H.jl t k ((hj t).mp h)⟩
  · intro k
    rw [hlv]
    by_cases h : k = k0
    · subst h; rw [upd_self, if_pos rfl]; rfl
    · rw [upd_ne _ _ h, if_neg h]; exact H.keyv k
  · intro k hk
    by_cases h : k = k0
    · subst h; rw [upd_self]
    · rw [upd_ne _ _ h]; exact H.hi k hk
  · intro k
    by_cases h : k = k0
    · subst h; rw [upd_self]; intro _; rfl
    · rw [upd_ne _ _ h]; exact H.dn k
  · intro k t
    by_cases h : k = k0
    · subst h; rw [upd_self, hE, if_pos rfl]; simp
    · rw [upd_ne _ _ h, hE, if_neg h]; exact H.list k t
  · intro k
    by_cases h : k = k0
    · subst h; rw [upd_self]; exact List.nodup_nil
    · rw [upd_ne _ _ h]; exact H.nodup k
  · intro t k h
    obtain ⟨h1, h2⟩ := hu t k h
    rw [upd_ne _ _ h1]; rw [h2] at h; exact H.uses t k h
  · intro t h k
    rw [hhd]
    by_cases hki : k = k0
    · subst hki; rw [if_pos rfl, hE, if_pos rfl]; rfl
    · rw [if_neg hki, hE, if_neg hki]; exact H.vals t (fun h' => h ((hj t).mpr h')) k
  · intro t h; exact H.idle t (fun h' => h ((hj t).mpr h'))
  · intro t k d' v h; rw [hc]; exact H.nocall t k d' v (fun h' => h ((hj t).mpr h'))
  · intro t h hd k
    have := H.over t ((hj t).mp h) hd k
    rw [hE]; split
    · rfl
    · exact this
  · intro t e h hd
    have := H.ends t e ((hj t).mp h) hd
    refine ⟨?_, ?_, fun k d' v h' => this.once k d' v ((hc _ _ _ _).mp h')⟩
    · intro k hk
      have h2 := (hu t k hk).2
      rw [h2] at hk ⊢
      exact this.use k hk
    · intro hp
      rw [hval]; exact this.calling hp
  · intro t h hnd; exact absurd hnd (hn t)
  · intro t e h hnd; exact absurd hnd (hn t)
  · intro t k d' h hnd; exact absurd hnd (hn t)

/-! ### A value is set -/

theorem inv_set (H : Inv N keys E D tr) {t0 k0 v : Nat} (hj0 : ¬ joined tr t0)
    (hk : (keys k0).in_use = true) {keys' : Nat → Key} {E' : Nat → Nat → Val}
    (hkeys : keys' = if (E t0 k0).in_use then keys
      else upd keys k0 { keys k0 with threads := (keys k0).threads ++ [t0] })
    (hE : ∀ t k, E' t k = if t = t0 ∧ k = k0 then ⟨v, true⟩ else E t k) :
    Inv N keys' E' D ((.set t0 k0 v, .code 0) :: tr) := by
  have hhd : ∀ t k, held ((.set t0 k0 v, .code 0) :: tr) t k =
    if t = t0 ∧ k = k0 then v else held tr t k := fun t k => rfl
  have hj : ∀ t, joined ((.set t0 k0 v, .code 0) :: tr) t ↔ joined tr t := by
    intro t; rw [joined_cons]; simp [joins]
  have hn : ∀ t, noDelete ((.set t0 k0 v, .code 0) :: tr) t ↔ noDelete tr t := by
    intro t; simp [noDelete, joins, deletes]
  have hc : ∀ t k d' v', called ((.set t0 k0 v, .code 0) :: tr) t k d' v' ↔ called tr t k d' v' := by
    intro t k d' v'; rw [called_cons]; simp
  have hku : ∀ k, (keys' k).in_use = (keys k).in_use ∧ (keys' k).destructor = (keys k).destructor := by
    intro k
    rw [hkeys]
    split
    · exact ⟨rfl, rfl⟩
    · by_cases h : k = k0
      · subst h; rw [upd_self]; exact ⟨rfl, rfl⟩
      · rw [upd_ne _ _ h]; exact ⟨rfl, rfl⟩
  have hEj : ∀ t, joined tr t → E' t = E t := by
    intro t h
    funext k
    rw [hE, if_neg]
    rintro ⟨rfl, -⟩
    exact hj0 h
  refine ⟨?_, ?_, ?_, ?_, ?_, ?_, ?_, ?_, ?_, ?_, ?_, ?_, ?_, ?_,
    fun t k h => H.jl t k ((hj t).mp h)⟩
  · intro k
    rw [(hku k).1, (hku k).2]; exact H.keyv k
  · intro k h; rw [(hku k).1]; exact H.hi k h
  · intro k; rw [(hku k).1, (hku k).2]; exact H.dn k
  · intro k t
    rw [hE, hkeys]
    by_cases hu : (E t0 k0).in_use = true
    · rw [if_pos hu, H.list]
      by_cases h : t = t0 ∧ k = k0
      · obtain ⟨rfl, rfl⟩ := h
        simp [hu]
      · rw [if_neg h]
    · rw [if_neg hu]
      by_cases h : k = k0
      · subst h
        rw [upd_self]
        by_cases ht : t = t0
        · subst ht; simp
        · rw [if_neg (fun h => ht h.1)]
          simp only [List.mem_append, List.mem_singleton, ht, or_false]
          exact H.list k t
      · rw [upd_ne _ _ h, if_neg (fun h' => h h'.2)]; exact H.list k t
  · intro k
    rw [hkeys]
    by_cases hu : (E t0 k0).in_use = true
    · rw [if_pos hu]; exact H.nodup k
    · rw [if_neg hu]
      by_cases h : k = k0
      · subst h
        rw [upd_self]
        refine List.nodup_append.mpr ⟨H.nodup k, by simp, ?_⟩
        intro a ha b hb hab
        rw [List.mem_singleton] at hb
        subst hb; subst hab
        exact hu ((H.list k _).mp ha)
      · rw [upd_ne _ _ h]; exact H.nodup k
  · intro t k h
    rw [(hku k).1]
    rw [hE] at h
    by_cases h' : t = t0 ∧ k = k0
    · rw [h'.2]; exact hk
    · rw [if_neg h'] at h; exact H.uses t k h
  · intro t h k
    rw [hhd, hE]
    by_cases h' : t = t0 ∧ k = k0
    · rw [if_pos h', if_pos h']; rfl
    · rw [if_neg h', if_neg h']; exact H.vals t (fun h'' => h ((hj t).mpr h'')) k
  · intro t h; exact H.idle t (fun h' => h ((hj t).mpr h'))
  · intro t k d' v h; rw [hc]; exact H.nocall t k d' v (fun h' => h ((hj t).mpr h'))
  · intro t h hd k
    rw [hEj t ((hj t).mp h)]; exact H.over t ((hj t).mp h) hd k
  · intro t e h hd
    have := H.ends t e ((hj t).mp h) hd
    rw [hEj t ((hj t).mp h)]
    exact ⟨this.use, this.calling, fun k d' v h' => this.once k d' v ((hc _ _ _ _).mp h')⟩
  · intro t h hnd k d' hl
    exact H.lv t ((hj t).mp h) ((hn t).mp hnd) k d' hl
  · intro t e h hnd hd hp
    exact H.cl t e ((hj t).mp h) ((hn t).mp hnd) hd hp
  · intro t k d' h hnd hl hh
    rw [hc, hEj t ((hj t).mp h)]
    exact H.pend t k d' ((hj t).mp h) ((hn t).mp hnd) hl hh

/-! ### A thread is joined -/

theorem inv_join (H : Inv N keys E D tr) {t0 j : Nat} (hj0 : ¬ joined tr t0) {x : Op × Res}
    (hx : ∀ t, joins x t = decide (t = t0)) (hlv : ∀ k, live (x :: tr) k = live tr k)
    (hhd : ∀ t k, held (x :: tr) t k = held tr t k) (hdel : deletes x = false)
    (hcl : ∀ t k d v j, x ≠ (Op.tick t, Res.called k d v j)) {D' : Nat → Option Ender}
    (hD : ∀ t, t ≠ t0 → D' t = D t)
    (hD0 : (D' t0 = none ∧ ∀ k, (E t0 k).in_use = false) ∨ D' t0 = some ⟨j, 0, false, 0, .scan⟩) :
    Inv N keys E D' (x :: tr) := by
  have hj : ∀ t, t ≠ t0 → (joined (x :: tr) t ↔ joined tr t) := by
    intro t h; rw [joined_cons, hx]; simp [h]
  have hjt : ∀ t, ¬ joined (x :: tr) t → t ≠ t0 ∧ ¬ joined tr t := by
    intro t h
    rw [joined_cons, hx] at h
    simp only [decide_eq_true_eq, not_or] at h
    exact h
  have ha : ∀ t, t ≠ t0 → atJoin (x :: tr) t = atJoin tr t := by
    intro t h; simp [atJoin, hx, h]
  have ha0 : atJoin (x :: tr) t0 = tr := by simp [atJoin, hx]
  have hn : ∀ t, t ≠ t0 → (noDelete (x :: tr) t ↔ noDelete tr t) := by
    intro t h; simp [noDelete, hx, h, hdel]
  have hc : ∀ t k d v, called (x :: tr) t k d v ↔ called tr t k d v := by
    intro t k d v; rw [called_cons]
    constructor
    · rintro (⟨j, h⟩ | h)
      · exact absurd h (hcl _ _ _ _ _)
      · exact h
    · exact Or.inr
  have hv := H.vals t0 hj0
  refine ⟨?_, H.hi, H.dn, H.list, H.nodup, H.uses, ?_, ?_, ?_, ?_, ?_, ?_, ?_, ?_, ?_⟩
  · intro k; rw [hlv]; exact H.keyv k
  · intro t h k; rw [hhd]; exact H.vals t (hjt t h).2 k
  · intro t h; rw [hD t (hjt t h).1]; exact H.idle t (hjt t h).2
  · intro t k d v h; rw [hc]; exact H.nocall t k d v (hjt t h).2
  · intro t h hd k
    by_cases ht : t = t0
    · subst ht
      rcases hD0 with h1 | h1
      · exact h1.2 k
      · rw [h1] at hd; cases hd
    · rw [hD t ht] at hd; exact H.over t ((hj t ht).mp h) hd k
  · intro t e h hd
    by_cases ht : t = t0
    · subst ht
      rcases hD0 with h1 | h1
      · rw [h1.1] at hd; cases hd
      · rw [h1] at hd; cases hd
        refine ⟨?_, (by intro h; cases h), ?_⟩
        · intro k hk
          refine ⟨?_, rfl, ?_⟩
          · rw [ha0, hv k, if_pos hk]
          · rw [if_pos rfl]; exact Nat.zero_le _
        · intro k d v h'
          exact absurd ((hc _ _ _ _).mp h') (H.nocall t k d v hj0)
    · rw [hD t ht] at hd
      have := H.ends t e ((hj t ht).mp h) hd
      exact ⟨by rw [ha t ht]; exact this.use, by rw [ha t ht]; exact this.calling,
        fun k d v h' => this.once k d v ((hc _ _ _ _).mp h')⟩
  · intro t h hnd k d hl
    rw [hlv]
    by_cases ht : t = t0
    · subst ht; rw [ha0] at hl; exact hl
    · rw [ha t ht] at hl; exact H.lv t ((hj t ht).mp h) ((hn t ht).mp hnd) k d hl
  · intro t e h hnd hd hp
    by_cases ht : t = t0
    · subst ht
      rcases hD0 with h1 | h1
      · rw [h1.1] at hd; cases hd
      · rw [h1] at hd; cases hd; cases hp
    · rw [hD t ht] at hd
      obtain ⟨d, h1⟩ := H.cl t e ((hj t ht).mp h) ((hn t ht).mp hnd) hd hp
      exact ⟨d, by rw [hlv]; exact h1⟩
  · intro t k d h hnd hl hh
    rw [hc]
    by_cases ht : t = t0
    · subst ht
      rw [ha0] at hl hh
      right; left
      have := hv k
      by_cases hu : (E t k).in_use = true
      · exact hu
      · rw [if_neg hu] at this; exact absurd this hh
    · rw [ha t ht] at hl hh ⊢
      rw [hD t ht]
      exact H.pend t k d ((hj t ht).mp h) ((hn t ht).mp hnd) hl hh
  · intro t k h hh
    by_cases ht : t = t0
    · subst ht
      rw [ha0] at hh ⊢
      rw [hv k] at hh
      by_cases hu : (E t k).in_use = true
      · rw [H.keyv, H.uses t k hu]; simp
      · rw [if_neg hu] at hh; exact absurd rfl hh
    · rw [ha t ht] at hh ⊢; exact H.jl t k ((hj t ht).mp h) hh

/-! ### A thread's data is deleted -/

/-- A tick without a call changes the thread that ends only. -/
theorem inv_tick (H : Inv N keys E D tr) {t0 : Nat} {x : Op × Res} (q : Quiet x)
    (hj0 : joined tr t0) {keys' : Nat → Key} {E' : Nat → Nat → Val} {D' : Nat → Option Ender}
    (hku : ∀ k, (keys' k).in_use = (keys k).in_use ∧ (keys' k).destructor = (keys k).destructor)
    (hlist : ∀ k t, t ∈ (keys' k).threads ↔ (E' t k).in_use = true)
    (hnod : ∀ k, (keys' k).threads.Nodup)
    (hE : ∀ t, t ≠ t0 → E' t = E t) (hD : ∀ t, t ≠ t0 → D' t = D t)
    (hsub : ∀ k, (E' t0 k).in_use = true → (E t0 k).in_use = true)
    (hover : D' t0 = none → ∀ k, (E' t0 k).in_use = false)
    (hends : ∀ e, D' t0 = some e → Ends tr t0 (E' t0) e)
    (hcl : ∀ e, noDelete tr t0 → D' t0 = some e → e.phase = .calling →
      ∃ d, live tr e.i = some (some d))
    (hpend : ∀ k d, noDelete tr t0 → live (atJoin tr t0) k = some (some d) →
      held (atJoin tr t0) t0 k ≠ 0 →
      called tr t0 k d (held (atJoin tr t0) t0 k) ∨ (E' t0 k).in_use = true ∨
        (∃ e, D' t0 = some e ∧ e.phase = .calling ∧ e.i = k)) :
    Inv N keys' E' D' (x :: tr) := by
  have key : Inv N keys' E' D' tr := by
    refine ⟨?_, ?_, ?_, hlist, hnod, ?_, ?_, ?_, H.nocall, ?_, ?_, H.lv, ?_, ?_, H.jl⟩
    · intro k; rw [(hku k).1, (hku k).2]; exact H.keyv k
    · intro k h; rw [(hku k).1]; exact H.hi k h
    · intro k; rw [(hku k).1, (hku k).2]; exact H.dn k
    · intro t k h
      rw [(hku k).1]
      by_cases ht : t = t0
      · subst ht; exact H.uses t k (hsub k h)
      · rw [hE t ht] at h; exact H.uses t k h
    · intro t h k
      have ht : t ≠ t0 := fun ht => h (ht ▸ hj0)
      rw [hE t ht]; exact H.vals t h k
    · intro t h
      have ht : t ≠ t0 := fun ht => h (ht ▸ hj0)
      rw [hD t ht]; exact H.idle t h
    · intro t h hd k
      by_cases ht : t = t0
      · subst ht; exact hover hd k
      · rw [hE t ht]; rw [hD t ht] at hd; exact H.over t h hd k
    · intro t e h hd
      by_cases ht : t = t0
      · subst ht; exact hends e hd
      · rw [hE t ht]; rw [hD t ht] at hd; exact H.ends t e h hd
    · intro t e h hnd hd hp
      by_cases ht : t = t0
      · subst ht; exact hcl e hnd hd hp
      · rw [hD t ht] at hd; exact H.cl t e h hnd hd hp
    · intro t k d h hnd hl hh
      by_cases ht : t = t0
      · subst ht; exact hpend k d hnd hl hh
      · rw [hE t ht, hD t ht]; exact H.pend t k d h hnd hl hh
  exact inv_quiet key q

/-- The call of a destructor. -/
theorem inv_call (H : Inv N keys E D tr) {t0 d v : Nat} {e : Ender} (hj0 : joined tr t0)
    (he : D t0 = some e) (hp : e.phase = .calling) (hl : (keys e.i).destructor = some d)
    (hv : v = (E t0 e.i).value)
    {D' : Nat → Option Ender}
    (hD : ∀ t, D' t = if t = t0 then some { e with phase := .inside } else D t) :
    Inv N keys E D' ((Op.tick t0, Res.called e.i d v e.runner) :: tr) := by
  have hj : ∀ t, joined ((Op.tick t0, Res.called e.i d v e.runner) :: tr) t ↔ joined tr t := by
    intro t; rw [joined_cons]; simp [joins]
  have ha : ∀ t, atJoin ((Op.tick t0, Res.called e.i d v e.runner) :: tr) t = atJoin tr t :=
    fun t => rfl
  have hn : ∀ t, noDelete ((Op.tick t0, Res.called e.i d v e.runner) :: tr) t ↔ noDelete tr t := by
    intro t; simp [noDelete, joins, deletes]
  have hE0 := H.ends t0 e hj0 he
  refine ⟨H.keyv, H.hi, H.dn, H.list, H.nodup, H.uses, ?_, ?_, ?_, ?_, ?_, ?_, ?_, ?_,
    fun t k h => H.jl t k ((hj t).mp h)⟩
  · intro t h k; exact H.vals t (fun h' => h ((hj t).mpr h')) k
  · intro t h
    have ht : t ≠ t0 := fun ht => h ((hj t).mpr (ht ▸ hj0))
    rw [hD, if_neg ht]; exact H.idle t (fun h' => h ((hj t).mpr h'))
  · intro t k d' v' h hc
    have ht : t ≠ t0 := fun ht => h ((hj t).mpr (ht ▸ hj0))
    rw [called_cons] at hc
    rcases hc with ⟨j, hc⟩ | hc
    · cases hc; exact ht rfl
    · exact H.nocall t k d' v' (fun h' => h ((hj t).mpr h')) hc
  · intro t h hd k
    rw [hD] at hd
    by_cases ht : t = t0
    · rw [if_pos ht] at hd; cases hd
    · rw [if_neg ht] at hd; exact H.over t ((hj t).mp h) hd k
  · intro t e' h hd
    rw [hD] at hd
    by_cases ht : t = t0
    · rw [if_pos ht] at hd
      cases hd
      subst ht
      refine ⟨?_, (by intro h; cases h), ?_⟩
      · intro k hk
        obtain ⟨h1, h2, h3⟩ := hE0.use k hk
        refine ⟨h1, h2, ?_⟩
        rw [hp] at h3
        exact h3
      · intro k d' v' hc
        rw [called_cons] at hc
        rcases hc with ⟨j, hc⟩ | hc
        · cases hc; exact Or.inr (Or.inr ⟨rfl, rfl⟩)
        · rcases hE0.once k d' v' hc with h | h | h
          · exact Or.inl h
          · exact Or.inr (Or.inl h)
          · rw [hp] at h; cases h.2
    · rw [if_neg ht] at hd
      have := H.ends t e' ((hj t).mp h) hd
      refine ⟨this.use, this.calling, ?_⟩
      intro k d' v' hc
      rw [called_cons] at hc
      rcases hc with ⟨j, hc⟩ | hc
      · cases hc; exact absurd rfl ht
      · exact this.once k d' v' hc
  · intro t h hnd k d' hl'
    exact H.lv t ((hj t).mp h) ((hn t).mp hnd) k d' hl'
  · intro t e' h hnd hd hp'
    rw [hD] at hd
    by_cases ht : t = t0
    · rw [if_pos ht] at hd; cases hd; cases hp'
    · rw [if_neg ht] at hd; exact H.cl t e' ((hj t).mp h) ((hn t).mp hnd) hd hp'
  · intro t k d' h hnd hl' hh
    rw [ha] at hl' hh ⊢
    rw [called_cons]
    rcases H.pend t k d' ((hj t).mp h) ((hn t).mp hnd) hl' hh with h1 | h1 | ⟨e', h1, h2, h3⟩
    · exact Or.inl (Or.inr h1)
    · exact Or.inr (Or.inl h1)
    · by_cases ht : t = t0
      · subst ht
        rw [he] at h1; cases h1
        left; left
        have h4 := H.lv t ((hj t).mp h) ((hn t).mp hnd) k d' hl'
        rw [H.keyv, ← h3] at h4
        split at h4
        · have h5 : (keys e.i).destructor = some d' := Option.some.inj h4
          rw [hl] at h5
          cases h5
          refine ⟨e.runner, ?_⟩
          subst h3
          rw [hv, (hE0.calling hp).2.1]
        · cases h4
      · right; right
        exact ⟨e', by rw [hD, if_neg ht]; exact h1, h2, h3⟩

end

/-! ### The life of a thread -/

def coreOf (th : Thr) : Bool × Nat := (th.ended, th.joinval)

structure Life (C : Nat → Option (Bool × Nat)) (tr : Trace) : Prop where
  spn : ∀ t, C t ≠ none ↔ ∃ b r, (Op.spawn t b, r) ∈ tr
  exd : ∀ t v, C t = some (true, v) → exited tr t ∧ v = result tr t
  jx : ∀ t, joined tr t → exited tr t

theorem exited_cons {x : Op × Res} {tr : Trace} : exited (x :: tr) t ↔
    (∃ v c r, x = (Op.exit t v c, r)) ∨ exited tr t := by
  simp only [exited, List.mem_cons]
  constructor
  · rintro ⟨v, c, r, h | h⟩
    · exact Or.inl ⟨v, c, r, h.symm⟩
    · exact Or.inr ⟨v, c, r, h⟩
  · rintro (⟨v, c, r, h⟩ | ⟨v, c, r, h⟩)
    · exact ⟨v, c, r, Or.inl h.symm⟩
    · exact ⟨v, c, r, Or.inr h⟩

/-- Whatever neither makes nor ends a thread. -/
theorem life_keep {C : Nat → Option (Bool × Nat)} {tr : Trace} (H : Life C tr) {op : Op} {r : Res}
    (h1 : ∀ t b, op ≠ .spawn t b) (h2 : ∀ t v c, op ≠ .exit t v c)
    (h3 : ∀ t, joins (op, r) t = true → exited tr t) : Life C ((op, r) :: tr) := by
  have hx : ∀ t, exited ((op, r) :: tr) t ↔ exited tr t := by
    intro t
    rw [exited_cons]
    constructor
    · rintro (⟨v, c, r', h⟩ | h)
      · exact absurd (congrArg Prod.fst h) (h2 t v c)
      · exact h
    · exact Or.inr
  have hr : ∀ t, result ((op, r) :: tr) t = result tr t := by
    intro t
    cases op with
    | exit t' v c => exact absurd rfl (h2 t' v c)
    | _ => rfl
  refine ⟨?_, ?_, ?_⟩
  · intro t
    rw [H.spn]
    constructor
    · rintro ⟨b, r', h⟩; exact ⟨b, r', List.mem_cons_of_mem _ h⟩
    · rintro ⟨b, r', h⟩
      rcases List.mem_cons.mp h with h | h
      · exact absurd (congrArg Prod.fst h).symm (h1 t b)
      · exact ⟨b, r', h⟩
  · intro t v h; rw [hx, hr]; exact H.exd t v h
  · intro t h
    rw [hx]
    rcases joined_cons.mp h with h | h
    · exact h3 t h
    · exact H.jx t h

/-! ### The views of a state -/

theorem ent_upd (keys : Nat → Key) (thr : Nat → Option Thr) (t : Nat) (th : Thr) (u k : Nat) :
    ent ⟨keys, upd thr t (some th)⟩ u k =
      if u = t then (th.pthreadData.getD fun _ => ⟨0, false⟩) k else ent ⟨keys, thr⟩ u k := by
  unfold ent
  dsimp only
  by_cases h : u = t
  · subst h; rw [upd_self, if_pos rfl]
  · rw [upd_ne _ _ h, if_neg h]

theorem ender_upd (keys : Nat → Key) (thr : Nat → Option Thr) (t : Nat) (th : Thr) (u : Nat) :
    enderOf ⟨keys, upd thr t (some th)⟩ u = if u = t then th.ender else enderOf ⟨keys, thr⟩ u := by
  unfold enderOf
  dsimp only
  by_cases h : u = t
  · subst h; rw [upd_self, if_pos rfl]; rfl
  · rw [upd_ne _ _ h, if_neg h]

theorem core_upd (thr : Nat → Option Thr) (t : Nat) (th : Thr) (u : Nat) :
    (upd thr t (some th) u).map coreOf = if u = t then some (coreOf th) else (thr u).map coreOf := by
  by_cases h : u = t
  · subst h; rw [upd_self, if_pos rfl]; rfl
  · rw [upd_ne _ _ h, if_neg h]

theorem ent_clear (keys keys' : Nat → Key) (thr : Nat → Option Thr) (k0 t u k : Nat) :
    ent ⟨keys, clearUse thr k0 t⟩ u k =
      if u = t ∧ k = k0 then { ent ⟨keys', thr⟩ u k with in_use := false } else ent ⟨keys', thr⟩ u k := by
  unfold clearUse
  cases hth : thr t with
  | none =>
    dsimp only
    split
    · rename_i h
      obtain ⟨rfl, -⟩ := h
      simp [ent, hth]
    · rfl
  | some th =>
    dsimp only
    cases hd : th.pthreadData with
    | none =>
      dsimp only
      split
      · rename_i h
        obtain ⟨rfl, -⟩ := h
        simp [ent, hth, hd]
      · rfl
    | some f =>
      dsimp only
      have := ent_upd keys thr t { th with pthreadData := some (upd f k0 { f k0 with in_use := false }) } u k
      refine this.trans ?_
      by_cases h : u = t
      · subst h
        rw [if_pos rfl]
        by_cases hk : k = k0
        · subst hk
          rw [if_pos ⟨rfl, rfl⟩]
          simp [ent, hth, hd, upd_self]
        · rw [if_neg (fun h => hk h.2)]
          simp [ent, hth, hd, upd_ne _ _ hk]
      · rw [if_neg h, if_neg (fun h' => h h'.1)]; rfl

theorem clear_keeps (thr : Nat → Option Thr) (k0 t u : Nat) (g : Thr → α)
    (hg : ∀ th f, g { th with pthreadData := f } = g th) :
    (clearUse thr k0 t u).map g = (thr u).map g := by
  unfold clearUse
  cases hth : thr t with
  | none => rfl
  | some th =>
    dsimp only
    cases hd : th.pthreadData with
    | none => rfl
    | some f =>
      dsimp only
      by_cases h : u = t
      · subst h
        have := upd_self thr u (some { th with pthreadData := some (upd f k0 { f k0 with in_use := false }) })
        refine (congrArg (Option.map g) this).trans ?_
        rw [hth]; exact congrArg some (hg th _)
      · exact congrArg (Option.map g) (upd_ne thr _ h)

theorem fold_keeps (L : List Nat) (thr : Nat → Option Thr) (k0 u : Nat) (g : Thr → α)
    (hg : ∀ th f, g { th with pthreadData := f } = g th) :
    (L.foldl (fun thr t => clearUse thr k0 t) thr u).map g = (thr u).map g := by
  induction L generalizing thr with
  | nil => rfl
  | cons a L ih => rw [List.foldl_cons, ih, clear_keeps thr k0 a u g hg]

theorem ent_fold (L : List Nat) (keys keys' : Nat → Key) (thr : Nat → Option Thr) (k0 u k : Nat) :
    ent ⟨keys, L.foldl (fun thr t => clearUse thr k0 t) thr⟩ u k =
      if u ∈ L ∧ k = k0 then { ent ⟨keys', thr⟩ u k with in_use := false } else ent ⟨keys', thr⟩ u k := by
  induction L generalizing thr with
  | nil => rfl
  | cons a L ih =>
    rw [List.foldl_cons, ih, ent_clear keys' keys' thr k0 a u k]
    by_cases hk : k = k0
    · by_cases h1 : u ∈ L <;> by_cases h2 : u = a <;> simp [hk, h1, h2]
    · simp [hk]

theorem map_ender (s : Sys) (t : Nat) : enderOf s t = ((s.thr t).map Thr.ender).join := by
  unfold enderOf
  cases s.thr t <;> rfl

/-! ### One step -/

/-- What an answer must be. -/
structure Good (N : Nat) (tr : Trace) (op : Op) (r : Res) : Prop where
  right : Right N tr op r
  join : ∀ t v, ((∃ j, op = .join j t) ∨ (∃ j, op = .tryjoin j t)) → r = .joined v →
    exited tr t ∧ v = result tr t
  called : ∀ t k d v j, op = .tick t → r = .called k d v j →
    joined tr t ∧ v = held (atJoin tr t) t k ∧ v ≠ 0 ∧ live tr k = some (some d) ∧
    (∀ d' v', ¬ Verif.Spec.PthreadTsd.called tr t k d' v') ∧
    (noDelete tr t → live (atJoin tr t) k = some (some d))
  done : ∀ t, op = .tick t → r = .done → joined tr t ∧
    (noDelete tr t → ∀ k d, live (atJoin tr t) k = some (some d) →
      held (atJoin tr t) t k ≠ 0 →
      Verif.Spec.PthreadTsd.called tr t k d (held (atJoin tr t) t k))

abbrev SInv (N : Nat) (s : Sys) (tr : Trace) : Prop :=
  Inv N s.keys (fun t => ent s t) (fun t => enderOf s t) tr

abbrev SLife (s : Sys) (tr : Trace) : Prop := Life (fun t => (s.thr t).map coreOf) tr

theorem inv_congr {N : Nat} {keys keys' : Nat → Key} {E E' : Nat → Nat → Val}
    {D D' : Nat → Option Ender} {tr : Trace} (H : Inv N keys E D tr) (h1 : keys' = keys)
    (h2 : ∀ t k, E' t k = E t k) (h3 : ∀ t, D' t = D t) : Inv N keys' E' D' tr := by
  have h2' : E' = E := by funext t k; exact h2 t k
  have h3' : D' = D := by funext t; exact h3 t
  rw [h1, h2', h3']; exact H

theorem life_congr {C C' : Nat → Option (Bool × Nat)} {tr : Trace} (H : Life C tr)
    (h : ∀ t, C' t = C t) : Life C' tr := by
  have : C' = C := by funext t; exact h t
  rw [this]; exact H

theorem quiet_of {op : Op} {r : Res} (h1 : ∀ d k, op = .create d → r ≠ .key k)
    (h2 : ∀ k, op = .delete k → r ≠ .code 0) (h3 : ∀ t k v, op = .set t k v → r ≠ .code 0)
    (h4 : ∀ v, r ≠ .joined v) (h5 : ∀ k d v j, r ≠ .called k d v j) : Quiet (op, r) := by
  refine ⟨?_, ?_, ?_, ?_, ?_⟩
  · intro tr k
    apply live.eq_4
    · intro d k' h; cases h; exact absurd rfl (h1 _ _ rfl)
    · intro k' h; cases h; exact absurd rfl (h2 _ rfl)
  · intro tr t k
    apply held.eq_5
    · intro d k' h; cases h; exact absurd rfl (h1 _ _ rfl)
    · intro k' h; cases h; exact absurd rfl (h2 _ rfl)
    · intro t' k' v h; cases h; exact absurd rfl (h3 _ _ _ rfl)
  · intro t
    unfold joins
    split
    · rename_i h; cases h; exact absurd rfl (h4 _)
    · rename_i h; cases h; exact absurd rfl (h4 _)
    · rfl
  · unfold deletes
    split
    · rename_i h; cases h; exact absurd rfl (h2 _ rfl)
    · rfl
  · intro t k d v j h
    cases h
    exact absurd rfl (h5 _ _ _ _)

theorem Quiet.noJoin {x : Op × Res} (q : Quiet x) {P : Nat → Prop} :
    ∀ t, Verif.Spec.PthreadTsd.joins x t = true → P t := by
  intro t h; rw [q.joins t] at h; cases h

section
variable {N : Nat} {s s' : Sys} {tr : Trace} {r : Res}

theorem step_spawn (H : SInv N s tr) (L : SLife s tr) (ha : ∀ b r, (Op.spawn t b, r) ∉ tr) :
    SInv N (spawn s t b) ((.spawn t b, .nothing) :: tr) ∧
    SLife (spawn s t b) ((.spawn t b, .nothing) :: tr) := by
  have ht : s.thr t = none := by
    by_contra h
    have h' : (fun t => (s.thr t).map coreOf) t ≠ none := by
      cases hs : s.thr t with
      | none => exact absurd hs h
      | some th => simp [hs]
    obtain ⟨b, r, h1⟩ := (L.spn t).mp h'
    exact ha b r h1
  have q : Quiet (Op.spawn t b, Res.nothing) :=
    quiet_of (by simp) (by simp) (by simp) (by simp) (by simp)
  refine ⟨inv_quiet (inv_congr H rfl ?_ ?_) q, ?_⟩
  · intro u k
    refine (ent_upd s.keys s.thr t _ u k).trans ?_
    by_cases h : u = t
    · subst h; rw [if_pos rfl]; simp [ent, ht]
    · rw [if_neg h]
  · intro u
    refine (ender_upd s.keys s.thr t _ u).trans ?_
    by_cases h : u = t
    · subst h; rw [if_pos rfl]; simp [enderOf, ht]
    · rw [if_neg h]
  · have hC : ∀ u, ((spawn s t b).thr u).map coreOf =
        if u = t then some (false, 0) else (s.thr u).map coreOf := fun u => core_upd s.thr t _ u
    refine ⟨?_, ?_, ?_⟩
    · intro u
      rw [hC]
      by_cases h : u = t
      · subst h
        rw [if_pos rfl]
        exact ⟨fun _ => ⟨b, .nothing, List.mem_cons_self⟩, fun _ => by simp⟩
      · rw [if_neg h]
        refine (L.spn u).trans ?_
        constructor
        · rintro ⟨b', r, h'⟩; exact ⟨b', r, List.mem_cons_of_mem _ h'⟩
        · rintro ⟨b', r, h'⟩
          rcases List.mem_cons.mp h' with h' | h'
          · cases h'; exact absurd rfl h
          · exact ⟨b', r, h'⟩
    · intro u v h
      rw [hC] at h
      by_cases hu : u = t
      · rw [if_pos hu] at h; cases h
      · rw [if_neg hu] at h
        have := L.exd u v h
        exact ⟨exited_cons.mpr (Or.inr this.1), this.2⟩
    · intro u h
      rw [q.joined] at h
      exact exited_cons.mpr (Or.inr (L.jx u h))

theorem step_exit (H : SInv N s tr) (L : SLife s tr) (ha : ¬ exited tr t) :
    SInv N (exit s t v c) ((.exit t v c, .nothing) :: tr) ∧
    SLife (exit s t v c) ((.exit t v c, .nothing) :: tr) := by
  have q : Quiet (Op.exit t v c, Res.nothing) :=
    quiet_of (by simp) (by simp) (by simp) (by simp) (by simp)
  have hsp : ∀ u, (∃ b r, (Op.spawn u b, r) ∈ tr) ↔
      ∃ b r, (Op.spawn u b, r) ∈ (Op.exit t v c, Res.nothing) :: tr := by
    intro u; simp
  have hres : ∀ u, u ≠ t → result ((Op.exit t v c, Res.nothing) :: tr) u = result tr u := by
    intro u h; exact if_neg h
  cases hth : s.thr t with
  | none =>
    have he : exit s t v c = s := by unfold exit; rw [hth]
    rw [he]
    refine ⟨inv_quiet H q, fun u => (L.spn u).trans (hsp u), ?_, ?_⟩
    · intro u w h
      have hu : u ≠ t := by
        rintro rfl
        rw [hth] at h; cases h
      rw [hres u hu]
      exact ⟨exited_cons.mpr (Or.inr (L.exd u w h).1), (L.exd u w h).2⟩
    · intro u h
      rw [q.joined] at h
      exact exited_cons.mpr (Or.inr (L.jx u h))
  | some th =>
    have he : exit s t v c = { s with thr := upd s.thr t (some { th with
      joinval := v, isTerminated := true, ended := true, cancelled := c }) } := by
      unfold exit; rw [hth]
    rw [he]
    refine ⟨inv_quiet (inv_congr H rfl ?_ ?_) q, ?_⟩
    · intro u k
      refine (ent_upd s.keys s.thr t _ u k).trans ?_
      by_cases h : u = t
      · subst h; rw [if_pos rfl]; simp [ent, hth]
      · rw [if_neg h]
    · intro u
      refine (ender_upd s.keys s.thr t _ u).trans ?_
      by_cases h : u = t
      · subst h; rw [if_pos rfl]; simp [enderOf, hth]
      · rw [if_neg h]
    · refine ⟨?_, ?_, ?_⟩
      · intro u
        dsimp only
        rw [core_upd, ← hsp, ← L.spn u]
        by_cases h : u = t
        · subst h; rw [if_pos rfl]; rw [hth]; simp
        · rw [if_neg h]
      · intro u w h
        dsimp only at h
        rw [core_upd] at h
        by_cases hu : u = t
        · subst hu
          rw [if_pos rfl] at h
          cases h
          exact ⟨exited_cons.mpr (Or.inl ⟨_, _, _, rfl⟩), (if_pos rfl).symm⟩
        · rw [if_neg hu] at h
          rw [hres u hu]
          exact ⟨exited_cons.mpr (Or.inr (L.exd u w h).1), (L.exd u w h).2⟩
      · intro u h
        rw [q.joined] at h
        exact exited_cons.mpr (Or.inr (L.jx u h))

theorem live_none (H : SInv N s tr) (k : Nat) : live tr k = none ↔ (k ≥ N ∨ (s.keys k).in_use = false) := by
  rw [H.keyv]
  cases hu : (s.keys k).in_use with
  | false => simp
  | true =>
    have : ¬ k ≥ N := by intro h; have := H.hi k h; rw [hu] at this; cases this
    simp [this]

theorem step_create (H : SInv N s tr) (L : SLife s tr) (h : keyCreate N s d = (s', r)) :
    SInv N s' ((.create d, r) :: tr) ∧ SLife s' ((.create d, r) :: tr) ∧ Right N tr (.create d) r := by
  unfold keyCreate at h
  cases hf : (List.range N).find? (fun i => !(s.keys i).in_use) with
  | none =>
    rw [hf] at h
    dsimp only at h
    cases h
    have q : Quiet (Op.create d, Res.code EAGAIN) :=
      quiet_of (by simp) (by simp) (by simp) (by simp) (by simp)
    refine ⟨inv_quiet H q, life_keep L (by simp) (by simp) q.noJoin, Or.inr ⟨rfl, ?_⟩⟩
    intro k hk hl
    rw [live_none H] at hl
    have := List.find?_eq_none.mp hf k (List.mem_range.mpr hk)
    simp only [Bool.not_eq_true', Bool.not_eq_false] at this
    rcases hl with hl | hl
    · omega
    · rw [this] at hl; cases hl
  | some i =>
    rw [hf] at h
    dsimp only at h
    cases h
    have hi := List.mem_range.mp (List.mem_of_find?_eq_some hf)
    have hu : (s.keys i).in_use = false := by simpa using List.find?_some hf
    refine ⟨inv_congr (inv_create H hi hu d) rfl (fun _ _ => rfl) (fun _ => rfl), ?_, ?_⟩
    · exact life_keep L (by simp) (by simp) (by intro t h; simp [joins] at h)
    · exact Or.inl ⟨i, rfl, hi, (live_none H i).mpr (Or.inr hu)⟩

theorem step_delete (H : SInv N s tr) (L : SLife s tr) (h : keyDelete N s k = (s', r)) :
    SInv N s' ((.delete k, r) :: tr) ∧ SLife s' ((.delete k, r) :: tr) ∧ Right N tr (.delete k) r := by
  unfold keyDelete at h
  by_cases hk : k ≥ N ∨ (s.keys k).in_use = false
  · rw [if_pos hk] at h
    cases h
    have q : Quiet (Op.delete k, Res.code EINVAL) :=
      quiet_of (by simp) (by simp [EINVAL]) (by simp) (by simp) (by simp)
    refine ⟨inv_quiet H q, life_keep L (by simp) (by simp) q.noJoin, ?_⟩
    show Res.code EINVAL = _
    rw [if_pos ((live_none H k).mpr hk)]
  · rw [if_neg hk] at h
    cases h
    refine ⟨inv_congr (inv_delete H k (E' := ent _) ?_) rfl (fun _ _ => rfl) ?_, ?_, ?_⟩
    · intro t k'
      refine (ent_fold _ _ s.keys s.thr k t k').trans ?_
      by_cases hkk : k' = k
      · subst hkk
        rw [if_pos rfl]
        by_cases hm : t ∈ (s.keys k').threads
        · rw [if_pos ⟨hm, rfl⟩]
        · rw [if_neg (fun h => hm h.1)]
          have : (ent s t k').in_use = false := by
            cases hb : (ent s t k').in_use with
            | false => rfl
            | true => exact absurd ((H.list k' t).mpr hb) hm
          show ent s t k' = { ent s t k' with in_use := false }
          rw [← this]
      · rw [if_neg hkk, if_neg (fun h => hkk h.2)]
    · intro t
      rw [map_ender, map_ender]
      exact congrArg Option.join (fold_keeps _ s.thr k t Thr.ender (fun _ _ => rfl))
    · refine life_congr (life_keep L (by simp) (by simp) (by intro t h; simp [joins] at h)) ?_
      intro t
      exact fold_keeps _ s.thr k t coreOf (fun _ _ => rfl)
    · show Res.code 0 = _
      rw [if_neg (fun h => hk ((live_none H k).mp h))]

theorem step_set (H : SInv N s tr) (L : SLife s tr) (ha : ¬ exited tr t)
    (h : setspecific N s t k v = some (s', r)) :
    SInv N s' ((.set t k v, r) :: tr) ∧ SLife s' ((.set t k v, r) :: tr) ∧
      Right N tr (.set t k v) r := by
  unfold setspecific at h
  cases hth : s.thr t with
  | none => rw [hth] at h; cases h
  | some th =>
    rw [hth] at h
    dsimp only at h
    have hent : ∀ k, ent s t k = (th.pthreadData.getD fun _ => ⟨0, false⟩) k := by
      intro k; simp [ent, hth]
    have hend : enderOf s t = th.ender := by simp [enderOf, hth]
    by_cases hk : k ≥ N ∨ (s.keys k).in_use = false
    · rw [if_pos hk] at h
      cases h
      have q : Quiet (Op.set t k v, Res.code EINVAL) :=
        quiet_of (by simp) (by simp) (by simp [EINVAL]) (by simp) (by simp)
      refine ⟨inv_quiet (inv_congr H rfl ?_ ?_) q,
        life_keep (life_congr L ?_) (by simp) (by simp) q.noJoin, ?_⟩
      · intro u k'
        refine (ent_upd s.keys s.thr t _ u k').trans ?_
        by_cases h : u = t
        · subst h; rw [if_pos rfl]; rw [hent]; rfl
        · rw [if_neg h]
      · intro u
        refine (ender_upd s.keys s.thr t _ u).trans ?_
        by_cases h : u = t
        · subst h; rw [if_pos rfl]; exact hend.symm
        · rw [if_neg h]
      · intro u
        refine (core_upd s.thr t _ u).trans ?_
        by_cases h : u = t
        · subst h; rw [if_pos rfl, hth]; rfl
        · rw [if_neg h]
      · show Res.code EINVAL = _
        rw [if_pos ((live_none H k).mpr hk)]
    · rw [if_neg hk] at h
      cases h
      have hku : (s.keys k).in_use = true := by
        cases hb : (s.keys k).in_use with
        | true => rfl
        | false => exact absurd (Or.inr hb) hk
      have hnj : ¬ joined tr t := fun hj => ha (L.jx t hj)
      refine ⟨inv_congr (inv_set (v := v) (E' := ent _) H hnj hku rfl ?_) ?_ (fun _ _ => rfl) ?_,
        life_keep (life_congr L ?_) (by simp) (by simp) (by intro t h; simp [joins] at h), ?_⟩
      · intro u k'
        refine (ent_upd _ s.thr t _ u k').trans ?_
        by_cases h : u = t
        · subst h
          rw [if_pos rfl]
          by_cases hkk : k' = k
          · subst hkk; rw [if_pos ⟨rfl, rfl⟩]; exact upd_self _ _ _
          · rw [if_neg (fun h => hkk h.2)]
            refine (upd_ne _ _ hkk).trans ?_
            exact (hent k').symm
        · rw [if_neg h, if_neg (fun h' : u = t ∧ k' = k => h h'.1)]; rfl
      · dsimp only
        rw [hent]
      · intro u
        refine (ender_upd _ s.thr t _ u).trans ?_
        by_cases h : u = t
        · subst h; rw [if_pos rfl]; exact hend.symm
        · rw [if_neg h]; rfl
      · intro u
        refine (core_upd s.thr t _ u).trans ?_
        by_cases h : u = t
        · subst h; rw [if_pos rfl, hth]; rfl
        · rw [if_neg h]
      · show Res.code 0 = _
        rw [if_neg (fun h => hk ((live_none H k).mp h))]

theorem step_get (H : SInv N s tr) (L : SLife s tr) (ha : ¬ exited tr t)
    (h : getspecific N s t k = some (s', r)) :
    SInv N s' ((.get t k, r) :: tr) ∧ SLife s' ((.get t k, r) :: tr) ∧ Right N tr (.get t k) r := by
  have hnj : ¬ joined tr t := fun hj => ha (L.jx t hj)
  have hv := H.vals t hnj k
  suffices h' : s' = s ∧ r = .val (held tr t k) by
    obtain ⟨rfl, rfl⟩ := h'
    have q : Quiet (Op.get t k, Res.val (held tr t k)) :=
      quiet_of (by simp) (by simp) (by simp) (by simp) (by simp)
    exact ⟨inv_quiet H q, life_keep L (by simp) (by simp) q.noJoin, rfl⟩
  unfold getspecific at h
  by_cases hk : k ≥ N ∨ (s.keys k).in_use = false
  · rw [if_pos hk] at h
    cases h
    refine ⟨rfl, ?_⟩
    rw [hv, if_neg]
    intro hu
    have := H.uses t k hu
    rcases hk with hk | hk
    · rw [H.hi k hk] at this; cases this
    · rw [hk] at this; cases this
  · rw [if_neg hk] at h
    cases hth : s.thr t with
    | none => rw [hth] at h; cases h
    | some th =>
      rw [hth] at h
      dsimp only at h
      have hent : ent s t k = (th.pthreadData.getD fun _ => ⟨0, false⟩) k := by simp [ent, hth]
      cases hd : th.pthreadData with
      | none =>
        rw [hd] at h hent
        cases h
        refine ⟨rfl, ?_⟩
        rw [hv, hent]; rfl
      | some f =>
        rw [hd] at h hent
        cases h
        refine ⟨rfl, ?_⟩
        rw [hv, hent]; rfl

theorem step_startEnd (H : SInv N s tr) (L : SLife s tr) (hj : ¬ joined tr t)
    (hth : s.thr t = some th) (he : th.ended = true) {op : Op}
    (hop : op = .join j t ∨ op = .tryjoin j t) (h : startEnd s j t th = (s', r)) :
    SInv N s' ((op, r) :: tr) ∧ SLife s' ((op, r) :: tr) ∧
      (∀ v, r = .joined v → exited tr t ∧ v = result tr t) := by
  unfold startEnd at h
  cases h
  have hx := L.exd t th.joinval (by rw [hth]; simp [coreOf, he])
  have hjn : ∀ u, joins (op, Res.joined th.joinval) u = decide (u = t) := by
    intro u
    rcases hop with rfl | rfl <;> rfl
  have hent : ∀ k, ent s t k = (th.pthreadData.getD fun _ => ⟨0, false⟩) k := by
    intro k; simp [ent, hth]
  refine ⟨inv_congr (inv_join (j := j) (x := (op, Res.joined th.joinval)) (D' := enderOf _) H hj hjn
      ?_ ?_ ?_ ?_ ?_ ?_) rfl ?_ (fun _ => rfl), ?_, ?_⟩
  · rcases hop with rfl | rfl <;> exact fun k => rfl
  · rcases hop with rfl | rfl <;> exact fun t k => rfl
  · rcases hop with rfl | rfl <;> rfl
  · intro t k d v j h; cases h
  · intro u hu
    refine (ender_upd s.keys s.thr t _ u).trans ?_
    rw [if_neg hu]
  · have h1 := ender_upd s.keys s.thr t { th with
      ender := th.pthreadData.map fun _ => ⟨j, 0, false, 0, .scan⟩ } t
    rw [if_pos rfl] at h1
    cases hd : th.pthreadData with
    | none =>
      rw [hd] at h1
      left
      refine ⟨h1, ?_⟩
      intro k
      show (ent s t k).in_use = false
      rw [hent, hd]; rfl
    | some f =>
      rw [hd] at h1
      right
      exact h1
  · intro u k
    refine (ent_upd s.keys s.thr t _ u k).trans ?_
    by_cases h : u = t
    · subst h; rw [if_pos rfl]; exact (hent k).symm
    · rw [if_neg h]
  · refine life_keep (life_congr L ?_) (by rcases hop with rfl | rfl <;> simp)
      (by rcases hop with rfl | rfl <;> simp) ?_
    · intro u
      refine (core_upd s.thr t _ u).trans ?_
      by_cases h : u = t
      · subst h; rw [if_pos rfl, hth]; rfl
      · rw [if_neg h]
    · intro u hu
      rw [hjn] at hu
      rw [of_decide_eq_true hu]; exact hx.1
  · intro v hv
    cases hv
    exact hx

theorem joined_of_ender (H : SInv N s tr) (h : enderOf s t = some e) : joined tr t := by
  by_contra hj
  have h1 := H.idle t hj
  rw [h] at h1; cases h1

theorem step_tick (H : SInv N s tr) (L : SLife s tr) (h : tick N s t = some (s', r)) :
    SInv N s' ((.tick t, r) :: tr) ∧ SLife s' ((.tick t, r) :: tr) ∧ Good N tr (.tick t) r := by
  have hlk : ∀ (keys' : Nat → Key) (th th' : Thr) (r : Res), s.thr t = some th →
      coreOf th' = coreOf th →
      SLife ⟨keys', upd s.thr t (some th')⟩ ((.tick t, r) :: tr) := by
    intro keys' th th' r hth hc
    refine life_keep (life_congr L ?_) (by simp) (by simp) (by intro u hu; simp [joins] at hu)
    intro u
    refine (core_upd s.thr t _ u).trans ?_
    by_cases h : u = t
    · subst h; rw [if_pos rfl, hth, hc]; rfl
    · rw [if_neg h]
  have q : Quiet (Op.tick t, Res.nothing) :=
    quiet_of (by simp) (by simp) (by simp) (by simp) (by simp)
  have g : Good N tr (.tick t) .nothing :=
    ⟨trivial, by simp, by simp, by simp⟩
  have hsame : s' = s → r = .nothing → SInv N s' ((.tick t, r) :: tr) ∧
      SLife s' ((.tick t, r) :: tr) ∧ Good N tr (.tick t) r := by
    rintro rfl rfl
    exact ⟨inv_quiet H q, life_keep L (by simp) (by simp) q.noJoin, g⟩
  unfold tick at h
  cases hth : s.thr t with
  | none =>
    rw [hth] at h
    cases h
    exact hsame rfl rfl
  | some th =>
  rw [hth] at h
  dsimp only at h
  cases he : th.ender with
  | none =>
    rw [he] at h
    cases h
    exact hsame rfl rfl
  | some e =>
  cases hf : th.pthreadData with
  | none =>
    rw [he, hf] at h
    cases h
    exact hsame rfl rfl
  | some f =>
  rw [he, hf] at h
  dsimp only at h
  have hent : ∀ k, ent s t k = f k := by intro k; simp [ent, hth, hf]
  have hentf : ent s t = f := funext hent
  have hend : enderOf s t = some e := by simp [enderOf, hth, he]
  have hj := joined_of_ender H hend
  have hE := H.ends t e hj hend
  have huse := hE.use
  have hcal := hE.calling
  rw [hentf] at huse hcal
  have hpend := H.pend t
  rw [hentf, hend] at hpend
  -- the state a step leaves
  have key : ∀ (keys' : Nat → Key) (f' : Nat → Val) (e' : Ender),
      (∀ k, (keys' k).in_use = (s.keys k).in_use ∧ (keys' k).destructor = (s.keys k).destructor) →
      (∀ k u, u ∈ (keys' k).threads ↔ (if u = t then f' k else ent s u k).in_use = true) →
      (∀ k, (keys' k).threads.Nodup) →
      (∀ k, (f' k).in_use = true → (f k).in_use = true) →
      Ends tr t f' e' →
      (noDelete tr t → e'.phase = .calling → ∃ d, live tr e'.i = some (some d)) →
      (∀ k d, noDelete tr t → live (atJoin tr t) k = some (some d) →
        held (atJoin tr t) t k ≠ 0 →
        called tr t k d (held (atJoin tr t) t k) ∨ (f' k).in_use = true ∨
          (e'.phase = .calling ∧ e'.i = k)) →
      SInv N ⟨keys', upd s.thr t (some { th with pthreadData := some f', ender := some e' })⟩
        ((.tick t, .nothing) :: tr) := by
    intro keys' f' e' h1 h2 h3 h4 h5 h6 h7
    have hE' : ∀ u k, ent ⟨keys', upd s.thr t (some { th with pthreadData := some f', ender := some e' })⟩ u k
        = if u = t then f' k else ent s u k := by
      intro u k; exact ent_upd keys' s.thr t _ u k
    have hD' : ∀ u, enderOf ⟨keys', upd s.thr t (some { th with pthreadData := some f', ender := some e' })⟩ u
        = if u = t then some e' else enderOf s u := by
      intro u; exact ender_upd keys' s.thr t _ u
    have hEt : ent ⟨keys', upd s.thr t (some { th with pthreadData := some f', ender := some e' })⟩ t = f' := by
      funext k; rw [hE', if_pos rfl]
    refine inv_tick H q hj h1 ?_ h3 ?_ ?_ ?_ ?_ ?_ ?_ ?_
    · intro k u; rw [hE']; exact h2 k u
    · intro u hu; funext k; rw [hE', if_neg hu]
    · intro u hu; rw [hD', if_neg hu]
    · rw [hEt, hentf]; exact h4
    · rw [hD', if_pos rfl]; intro h; cases h
    · rw [hD', if_pos rfl, hEt]; intro e'' h; cases h; exact h5
    · rw [hD', if_pos rfl]; intro e'' hn h; cases h; exact h6 hn
    · rw [hD', if_pos rfl, hEt]
      intro k d hn hl hh
      rcases h7 k d hn hl hh with h | h | h
      · exact Or.inl h
      · exact Or.inr (Or.inl h)
      · exact Or.inr (Or.inr ⟨e', rfl, h⟩)
  have hlist0 : ∀ k u, u ∈ (s.keys k).threads ↔ (if u = t then f k else ent s u k).in_use = true := by
    intro k u
    rw [H.list]
    by_cases hu : u = t
    · subst hu; rw [if_pos rfl, ← hent]
    · rw [if_neg hu]
  cases hp : e.phase with
  | scan =>
    rw [hp] at h
    dsimp only at h
    by_cases hi : e.i ≥ N
    · rw [if_pos hi] at h
      have hno : ∀ k, (f k).in_use = false := by
        intro k
        cases hb : (f k).in_use with
        | false => rfl
        | true =>
          have h1 := (huse k hb).2.2
          rw [hp, if_pos rfl] at h1
          have h2 := H.uses t k (by rw [hent]; exact hb)
          rw [H.hi k (by omega)] at h2; cases h2
      by_cases ha : e.attempts + 1 < ITERATIONS ∧ e.destcalled
      · rw [if_pos ha] at h
        cases h
        refine ⟨key _ _ _ (fun k => ⟨rfl, rfl⟩) hlist0 H.nodup (fun k h => h) ?_ ?_ ?_,
          hlk _ th _ _ hth rfl, g⟩
        · refine ⟨?_, ?_, ?_⟩
          · intro k hk; rw [hno k] at hk; cases hk
          · intro h; cases h
          · intro k d v hc; exact Or.inl (Nat.succ_pos _)
        · intro hn h; cases h
        · intro k d hn hl hh
          rcases hpend k d hj hn hl hh with h | h | ⟨e', h1, h2, h3⟩
          · exact Or.inl h
          · exact Or.inr (Or.inl h)
          · cases h1; rw [hp] at h2; cases h2
      · rw [if_neg ha] at h
        cases h
        have q' : Quiet (Op.tick t, Res.done) :=
          quiet_of (by simp) (by simp) (by simp) (by simp) (by simp)
        have hall : noDelete tr t → ∀ k d, live (atJoin tr t) k = some (some d) →
            held (atJoin tr t) t k ≠ 0 → called tr t k d (held (atJoin tr t) t k) := by
          intro hn k d hl hh
          rcases hpend k d hj hn hl hh with h | h | ⟨e', h1, h2, h3⟩
          · exact h
          · rw [hno k] at h; cases h
          · cases h1; rw [hp] at h2; cases h2
        have hE' : ∀ u k, ent ⟨s.keys, upd s.thr t (some { th with pthreadData := none, ender := none })⟩ u k
            = if u = t then ⟨0, false⟩ else ent s u k := by
          intro u k; exact ent_upd s.keys s.thr t _ u k
        have hD' : ∀ u, enderOf ⟨s.keys, upd s.thr t (some { th with pthreadData := none, ender := none })⟩ u
            = if u = t then none else enderOf s u := by
          intro u; exact ender_upd s.keys s.thr t _ u
        refine ⟨inv_tick (t0 := t) (E' := ent ⟨s.keys, upd s.thr t (some { th with pthreadData := none, ender := none })⟩)
          (D' := enderOf ⟨s.keys, upd s.thr t (some { th with pthreadData := none, ender := none })⟩)
          H q' hj (fun k => ⟨rfl, rfl⟩) ?_ H.nodup ?_ ?_ ?_ ?_ ?_ ?_ ?_,
          hlk _ th _ _ hth rfl, ⟨trivial, by simp, by simp, ?_⟩⟩
        · intro k u
          rw [hE', hlist0]
          by_cases hu : u = t
          · subst hu; rw [if_pos rfl, if_pos rfl, hno]
          · rw [if_neg hu, if_neg hu]
        · intro u hu; funext k; rw [hE', if_neg hu]
        · intro u hu; rw [hD', if_neg hu]
        · intro k hk; rw [hE', if_pos rfl] at hk; cases hk
        · intro _ k; rw [hE', if_pos rfl]
        · intro e' he'; rw [hD', if_pos rfl] at he'; cases he'
        · intro e' _ he'; rw [hD', if_pos rfl] at he'; cases he'
        · intro k d hn hl hh; exact Or.inl (hall hn k d hl hh)
        · intro u hu _; cases hu; exact ⟨hj, hall⟩
    · rw [if_neg hi] at h
      have hatt : ∀ k d v, called tr t k d v → 0 < e.attempts ∨ k < e.i := by
        intro k d v hc
        rcases hE.once k d v hc with h | h | h
        · exact Or.inl h
        · exact Or.inr h
        · rw [hp] at h; cases h.2
      by_cases hu : (f e.i).in_use = true
      · rw [if_pos hu] at h
        obtain ⟨hv1, hv2, -⟩ := huse e.i hu
        -- the entry is unlinked
        have hk1 : ∀ k, (upd s.keys e.i { s.keys e.i with threads := (s.keys e.i).threads.erase t } k).in_use
            = (s.keys k).in_use ∧
            (upd s.keys e.i { s.keys e.i with threads := (s.keys e.i).threads.erase t } k).destructor
            = (s.keys k).destructor := by
          intro k
          by_cases hk : k = e.i
          · rw [hk, upd_self]; exact ⟨rfl, rfl⟩
          · rw [upd_ne _ _ hk]; exact ⟨rfl, rfl⟩
        have hk2 : ∀ (w : Val), w.in_use = false → ∀ k u,
            u ∈ (upd s.keys e.i { s.keys e.i with threads := (s.keys e.i).threads.erase t } k).threads ↔
            (if u = t then upd f e.i w k else ent s u k).in_use = true := by
          intro w hw k u
          by_cases hk : k = e.i
          · subst hk
            rw [upd_self, upd_self]
            dsimp only
            rw [List.Nodup.mem_erase_iff (H.nodup e.i), hlist0]
            by_cases hut : u = t
            · simp [hut, hw]
            · simp [hut]
          · rw [upd_ne _ _ hk, upd_ne _ _ hk]; exact hlist0 k u
        have hk3 : ∀ k, (upd s.keys e.i { s.keys e.i with threads := (s.keys e.i).threads.erase t } k).threads.Nodup := by
          intro k
          by_cases hk : k = e.i
          · rw [hk, upd_self]; exact (H.nodup e.i).erase t
          · rw [upd_ne _ _ hk]; exact H.nodup k
        have hk4 : ∀ (w : Val), w.in_use = false → ∀ k, (upd f e.i w k).in_use = true →
            k ≠ e.i ∧ upd f e.i w k = f k := by
          intro w hw k hk
          by_cases hki : k = e.i
          · rw [hki, upd_self, hw] at hk; cases hk
          · exact ⟨hki, upd_ne _ _ hki⟩
        by_cases hc : (f e.i).value ≠ 0 ∧ (s.keys e.i).destructor ≠ none
        · rw [if_pos hc] at h
          cases h
          refine ⟨key _ _ _ hk1 (hk2 _ rfl) hk3 ?_ ?_ ?_ ?_, hlk _ th _ _ hth rfl, g⟩
          · intro k hk; have := (hk4 _ rfl k hk).2; rw [← this]; exact hk
          · refine ⟨?_, ?_, ?_⟩
            · intro k hk
              obtain ⟨h1, h2⟩ := hk4 _ rfl k hk
              have h2' : (upd f e.i { f e.i with in_use := false }) k = f k := h2
              show ((upd f e.i { f e.i with in_use := false }) k).value = _ ∧ _
              rw [h2']
              have hk' : (f k).in_use = true := by rw [← h2']; exact hk
              obtain ⟨h3, h4, h5⟩ := huse k hk'
              rw [hp, if_pos rfl] at h5
              refine ⟨h3, h4, ?_⟩
              rw [if_neg (by simp)]
              show e.i < k
              omega
            · intro _
              refine ⟨hv2, ?_⟩
              show ((upd f e.i { f e.i with in_use := false }) e.i).value = _ ∧
                ((upd f e.i { f e.i with in_use := false }) e.i).value ≠ 0
              rw [upd_self]
              exact ⟨hv1, hc.1⟩
            · intro k d v hcl
              rcases hatt k d v hcl with h | h
              · exact Or.inl h
              · exact Or.inr (Or.inl h)
          · intro _ _
            have := H.keyv e.i
            have h2 := H.uses t e.i (by rw [hent]; exact hu)
            rw [h2, if_pos rfl] at this
            cases hd : (s.keys e.i).destructor with
            | none => exact absurd hd hc.2
            | some d => exact ⟨d, by rw [← hd]; exact this⟩
          · intro k d hn hl hh
            rcases hpend k d hj hn hl hh with h | h | ⟨e', h1, h2, h3⟩
            · exact Or.inl h
            · by_cases hki : k = e.i
              · exact Or.inr (Or.inr ⟨rfl, hki.symm⟩)
              · right; left
                show ((upd f e.i { f e.i with in_use := false }) k).in_use = true
                rw [upd_ne _ _ hki]; exact h
            · cases h1; rw [hp] at h2; cases h2
        · rw [if_neg hc] at h
          cases h
          refine ⟨key _ _ _ hk1 (hk2 _ rfl) hk3 ?_ ?_ ?_ ?_, hlk _ th _ _ hth rfl, g⟩
          · intro k hk; have := (hk4 _ rfl k hk).2; rw [← this]; exact hk
          · refine ⟨?_, ?_, ?_⟩
            · intro k hk
              obtain ⟨h1, h2⟩ := hk4 _ rfl k hk
              have h2' : (upd f e.i ⟨0, false⟩) k = f k := h2
              show ((upd f e.i ⟨0, false⟩) k).value = _ ∧ _
              rw [h2']
              have hk' : (f k).in_use = true := by rw [← h2']; exact hk
              obtain ⟨h3, h4, h5⟩ := huse k hk'
              rw [hp, if_pos rfl] at h5
              refine ⟨h3, h4, ?_⟩
              rw [if_pos rfl]
              dsimp only
              omega
            · intro h; cases h
            · intro k d v hcl
              rcases hatt k d v hcl with h | h
              · exact Or.inl h
              · exact Or.inr (Or.inl (Nat.lt_succ_of_lt h))
          · intro hn h; cases h
          · intro k d hn hl hh
            rcases hpend k d hj hn hl hh with h | h | ⟨e', h1, h2, h3⟩
            · exact Or.inl h
            · by_cases hki : k = e.i
              · exfalso
                subst hki
                apply hc
                refine ⟨by rw [hv1]; exact hh, ?_⟩
                have h1 := H.lv t hj hn e.i _ hl
                rw [H.keyv] at h1
                split at h1
                · rw [Option.some.inj h1]; simp
                · cases h1
              · right; left
                show ((upd f e.i ⟨0, false⟩) k).in_use = true
                rw [upd_ne _ _ hki]; exact h
            · cases h1; rw [hp] at h2; cases h2
      · rw [if_neg hu] at h
        cases h
        refine ⟨key _ _ _ (fun k => ⟨rfl, rfl⟩) hlist0 H.nodup (fun k h => h) ?_ ?_ ?_,
          hlk _ th _ _ hth rfl, g⟩
        · refine ⟨?_, ?_, ?_⟩
          · intro k hk
            obtain ⟨h3, h4, h5⟩ := huse k hk
            rw [hp, if_pos rfl] at h5
            refine ⟨h3, h4, ?_⟩
            rw [if_pos rfl]
            dsimp only
            have : k ≠ e.i := by rintro rfl; exact hu hk
            omega
          · intro h; cases h
          · intro k d v hcl
            rcases hatt k d v hcl with h | h
            · exact Or.inl h
            · exact Or.inr (Or.inl (Nat.lt_succ_of_lt h))
        · intro hn h; cases h
        · intro k d hn hl hh
          rcases hpend k d hj hn hl hh with h | h | ⟨e', h1, h2, h3⟩
          · exact Or.inl h
          · exact Or.inr (Or.inl h)
          · cases h1; rw [hp] at h2; cases h2
  | calling =>
    rw [hp] at h
    dsimp only at h
    obtain ⟨hc1, hc2, hc3⟩ := hcal hp
    cases hd : (s.keys e.i).destructor with
    | none => rw [hd] at h; cases h
    | some d =>
      rw [hd] at h
      cases h
      have hku : (s.keys e.i).in_use = true := by
        cases hb : (s.keys e.i).in_use with
        | true => rfl
        | false => have := H.dn e.i hb; rw [hd] at this; cases this
      have hlive : live tr e.i = some (some d) := by rw [H.keyv, hku, hd]; rfl
      have hsE : ∀ u k, ent ⟨s.keys, upd s.thr t (some { th with pthreadData := some f, ender := some { e with phase := .inside } })⟩ u k
          = ent s u k := by
        intro u k
        refine (ent_upd s.keys s.thr t _ u k).trans ?_
        by_cases hu : u = t
        · subst hu; rw [if_pos rfl]; exact (hent k).symm
        · rw [if_neg hu]
      refine ⟨inv_congr (inv_call (D' := enderOf _) H hj hend hp hd ?_ ?_) rfl hsE (fun _ => rfl),
        hlk _ th _ _ hth rfl, ⟨trivial, by simp, ?_, by simp⟩⟩
      · show (f e.i).value = (ent s t e.i).value
        rw [hent]
      · intro u; exact ender_upd s.keys s.thr t _ u
      · intro t' k d' v j ht hr
        cases ht
        cases hr
        refine ⟨hj, hc2, hc3, hlive, ?_, ?_⟩
        · intro d' v' hcl
          rcases hE.once e.i d' v' hcl with h | h | h
          · omega
          · exact absurd h (Nat.lt_irrefl _)
          · rw [hp] at h; cases h.2
        · intro hn
          have h1 := H.jl t e.i hj (by rw [← hc2]; exact hc3)
          cases h2 : live (atJoin tr t) e.i with
          | none => exact absurd h2 h1
          | some d'' =>
            have := H.lv t hj hn e.i d'' h2
            rw [hlive] at this
            exact this.symm
  | inside =>
    rw [hp] at h
    dsimp only at h
    cases h
    have hne : ∀ k, (f k).in_use = true → k ≠ e.i := by
      intro k hk hki
      have h5 := (huse k hk).2.2
      rw [hp, if_neg (by simp)] at h5
      omega
    have hf' : ∀ k, ((upd f e.i { f e.i with value := 0 }) k).in_use = (f k).in_use := by
      intro k
      by_cases hk : k = e.i
      · rw [hk, upd_self]
      · rw [upd_ne _ _ hk]
    refine ⟨key _ _ _ (fun k => ⟨rfl, rfl⟩) ?_ H.nodup ?_ ?_ ?_ ?_, hlk _ th _ _ hth rfl, g⟩
    · intro k u
      rw [hlist0]
      by_cases hu : u = t
      · rw [if_pos hu, if_pos hu]
        exact (Bool.eq_iff_iff.mp (hf' k)).symm
      · rw [if_neg hu, if_neg hu]
    · intro k hk; rw [← hf' k]; exact hk
    · refine ⟨?_, (by intro h; cases h), ?_⟩
      · intro k hk
        have hk' : (f k).in_use = true := by rw [← hf' k]; exact hk
        obtain ⟨h3, h4, h5⟩ := huse k hk'
        rw [hp, if_neg (by simp)] at h5
        refine ⟨?_, h4, ?_⟩
        · show ((upd f e.i { f e.i with value := 0 }) k).value = _
          rw [upd_ne _ _ (hne k hk')]; exact h3
        · rw [if_pos rfl]; exact h5
      · intro k d v hcl
        rcases hE.once k d v hcl with h | h | h
        · exact Or.inl h
        · exact Or.inr (Or.inl (Nat.lt_succ_of_lt h))
        · right; left; dsimp only; omega
    · intro hn h; cases h
    · intro k d hn hl hh
      rcases hpend k d hj hn hl hh with h | h | ⟨e', h1, h2, h3⟩
      · exact Or.inl h
      · right; left
        exact (hf' k).trans h
      · cases h1; rw [hp] at h2; cases h2

theorem step_good (H : SInv N s tr) (L : SLife s tr) {op : Op} (ha : allowed tr op)
    (h : step N s op = some (s', r)) :
    SInv N s' ((op, r) :: tr) ∧ SLife s' ((op, r) :: tr) ∧ Good N tr op r := by
  have hplain : Right N tr op r → (∀ j t, op ≠ .join j t) → (∀ j t, op ≠ .tryjoin j t) →
      (∀ t, op ≠ .tick t) → Good N tr op r := by
    intro h1 h2 h3 h4
    refine ⟨h1, ?_, ?_, ?_⟩
    · rintro t v (⟨j, h⟩ | ⟨j, h⟩)
      · exact absurd h (h2 j t)
      · exact absurd h (h3 j t)
    · intro t k d v j h; exact absurd h (h4 t)
    · intro t h; exact absurd h (h4 t)
  cases op with
  | spawn t b =>
    cases h
    have := step_spawn (b := b) H L ha
    exact ⟨this.1, this.2, hplain trivial (by simp) (by simp) (by simp)⟩
  | exit t v c =>
    cases h
    have := step_exit (v := v) (c := c) H L ha
    exact ⟨this.1, this.2, hplain trivial (by simp) (by simp) (by simp)⟩
  | create d =>
    have := step_create H L (Option.some.inj h)
    exact ⟨this.1, this.2.1, hplain this.2.2 (by simp) (by simp) (by simp)⟩
  | delete k =>
    have := step_delete H L (Option.some.inj h)
    exact ⟨this.1, this.2.1, hplain this.2.2 (by simp) (by simp) (by simp)⟩
  | set t k v =>
    have := step_set H L ha h
    exact ⟨this.1, this.2.1, hplain this.2.2 (by simp) (by simp) (by simp)⟩
  | get t k =>
    have := step_get H L ha h
    exact ⟨this.1, this.2.1, hplain this.2.2 (by simp) (by simp) (by simp)⟩
  | tick t => exact step_tick H L h
  | join j t =>
    change join s j t = some (s', r) at h
    unfold join at h
    cases hth : s.thr t with
    | none => rw [hth] at h; cases h
    | some th =>
      rw [hth] at h
      dsimp only at h
      have h := Option.some.inj h
      by_cases he : th.ended = true
      · rw [if_pos he] at h
        have := step_startEnd H L ha hth he (Or.inl rfl) h
        refine ⟨this.1, this.2.1, trivial, ?_, by simp, by simp⟩
        rintro t' v (⟨j', h'⟩ | ⟨j', h'⟩) hr
        · cases h'; exact this.2.2 v hr
        · cases h'
      · rw [if_neg he] at h
        cases h
        have q : Quiet (Op.join j t, Res.blocks) :=
          quiet_of (by simp) (by simp) (by simp) (by simp) (by simp)
        exact ⟨inv_quiet H q, life_keep L (by simp) (by simp) q.noJoin, trivial, by simp, by simp, by simp⟩
  | tryjoin j t =>
    change tryjoin s j t = some (s', r) at h
    unfold tryjoin at h
    cases hth : s.thr t with
    | none => rw [hth] at h; cases h
    | some th =>
      rw [hth] at h
      dsimp only at h
      have h := Option.some.inj h
      have hq : s' = s → (∀ v, r ≠ .joined v) → (∀ k d v j, r ≠ .called k d v j) →
          SInv N s' ((.tryjoin j t, r) :: tr) ∧ SLife s' ((.tryjoin j t, r) :: tr) ∧
          Good N tr (.tryjoin j t) r := by
        rintro rfl h1 h2
        have q : Quiet (Op.tryjoin j t, r) := quiet_of (by simp) (by simp) (by simp) h1 h2
        refine ⟨inv_quiet H q, life_keep L (by simp) (by simp) q.noJoin, trivial, ?_, by simp, by simp⟩
        intro t v _ hr
        exact absurd hr (h1 v)
      by_cases h1 : th.isTerminated = false
      · rw [if_pos h1] at h; cases h; exact hq rfl (by simp) (by simp)
      · rw [if_neg h1] at h
        by_cases h2 : th.ended = false
        · rw [if_pos h2] at h; cases h; exact hq rfl (by simp) (by simp)
        · rw [if_neg h2] at h
          by_cases h3 : th.cancelled = true
          · rw [if_pos h3] at h; cases h; exact hq rfl (by simp) (by simp)
          · rw [if_neg h3] at h
            have he : th.ended = true := by
              cases hb : th.ended with
              | true => rfl
              | false => exact absurd hb h2
            have := step_startEnd H L ha hth he (Or.inr rfl) h
            refine ⟨this.1, this.2.1, trivial, ?_, by simp, by simp⟩
            rintro t' v (⟨j', h'⟩ | ⟨j', h'⟩) hr
            · cases h'
            · cases h'; exact this.2.2 v hr

/-- What makes a step fail. -/
theorem step_none (H : SInv N s tr) (L : SLife s tr) {op : Op} (h : step N s op = none) :
    (∃ t, ((∃ k v, op = .set t k v) ∨ (∃ k, op = .get t k) ∨ (∃ j, op = .join j t) ∨
      (∃ j, op = .tryjoin j t)) ∧ ∀ b r, (Op.spawn t b, r) ∉ tr) ∨
    (∃ t, op = .tick t ∧ joined tr t ∧ ¬ noDelete tr t) := by
  have hn : ∀ t, s.thr t = none → ∀ b r, (Op.spawn t b, r) ∉ tr := by
    intro t ht b r hm
    have := (L.spn t).mpr ⟨b, r, hm⟩
    rw [ht] at this
    exact this rfl
  cases op with
  | spawn t b => cases h
  | exit t v c => cases h
  | create d => cases h
  | delete k => cases h
  | set t k v =>
    left
    refine ⟨t, Or.inl ⟨k, v, rfl⟩, hn t ?_⟩
    change setspecific N s t k v = none at h
    unfold setspecific at h
    cases hth : s.thr t with
    | none => rfl
    | some th =>
      rw [hth] at h
      dsimp only at h
      split at h <;> cases h
  | get t k =>
    left
    refine ⟨t, Or.inr (Or.inl ⟨k, rfl⟩), hn t ?_⟩
    change getspecific N s t k = none at h
    unfold getspecific at h
    cases hth : s.thr t with
    | none => rfl
    | some th =>
      rw [hth] at h
      dsimp only at h
      split at h
      · cases h
      · split at h <;> cases h
  | join j t =>
    left
    refine ⟨t, Or.inr (Or.inr (Or.inl ⟨j, rfl⟩)), hn t ?_⟩
    change join s j t = none at h
    unfold join at h
    cases hth : s.thr t with
    | none => rfl
    | some th => rw [hth] at h; cases h
  | tryjoin j t =>
    left
    refine ⟨t, Or.inr (Or.inr (Or.inr ⟨j, rfl⟩)), hn t ?_⟩
    change tryjoin s j t = none at h
    unfold tryjoin at h
    cases hth : s.thr t with
    | none => rfl
    | some th => rw [hth] at h; cases h
  | tick t =>
    right
    refine ⟨t, rfl, ?_⟩
    change tick N s t = none at h
    unfold tick at h
    cases hth : s.thr t with
    | none => rw [hth] at h; cases h
    | some th =>
    rw [hth] at h
    dsimp only at h
    cases he : th.ender with
    | none => rw [he] at h; cases h
    | some e =>
    cases hf : th.pthreadData with
    | none => rw [he, hf] at h; cases h
    | some f =>
    rw [he, hf] at h
    dsimp only at h
    have hend : enderOf s t = some e := by simp [enderOf, hth, he]
    have hj := joined_of_ender H hend
    cases hp : e.phase with
    | scan =>
      rw [hp] at h
      dsimp only at h
      split at h
      · split at h <;> cases h
      · split at h
        · split at h <;> cases h
        · cases h
    | inside => rw [hp] at h; cases h
    | calling =>
      rw [hp] at h
      dsimp only at h
      cases hd : (s.keys e.i).destructor with
      | some d => rw [hd] at h; cases h
      | none =>
        refine ⟨hj, ?_⟩
        intro hnd
        obtain ⟨d, h1⟩ := H.cl t e hj hnd hend hp
        rw [H.keyv] at h1
        split at h1
        · have := Option.some.inj h1
          rw [hd] at this; cases this
        · cases h1

end

/-! ### Runs -/

/-- Every step of a history was answered as it must be. -/
def AllGood (N : Nat) : Trace → Prop
  | [] => True
  | x :: tr => Good N tr x.1 x.2 ∧ AllGood N tr

theorem legal_of_runFrom {N : Nat} {ops : List Op} {st st' : Sys × Trace}
    (h : runFrom N st ops = some st') (hl : Legal st'.2) : Legal st.2 := by
  induction ops generalizing st with
  | nil => cases h; exact hl
  | cons op ops ih =>
    change (exec N st op).bind _ = _ at h
    cases he : exec N st op with
    | none => rw [he] at h; cases h
    | some st1 =>
      rw [he] at h
      have := ih h
      unfold exec at he
      cases hs : step N st.1 op with
      | none => rw [hs] at he; cases he
      | some y => rw [hs] at he; cases he; exact this.2

theorem runFrom_good {N : Nat} {ops : List Op} {st st' : Sys × Trace}
    (h : runFrom N st ops = some st') (hl : Legal st'.2)
    (hI : SInv N st.1 st.2 ∧ SLife st.1 st.2 ∧ AllGood N st.2) :
    SInv N st'.1 st'.2 ∧ SLife st'.1 st'.2 ∧ AllGood N st'.2 := by
  induction ops generalizing st with
  | nil => cases h; exact hI
  | cons op ops ih =>
    change (exec N st op).bind _ = _ at h
    cases he : exec N st op with
    | none => rw [he] at h; cases h
    | some st1 =>
      rw [he] at h
      refine ih h ?_
      have hl1 := legal_of_runFrom h hl
      unfold exec at he
      cases hs : step N st.1 op with
      | none => rw [hs] at he; cases he
      | some y =>
        rw [hs] at he
        cases he
        obtain ⟨h1, h2, h3⟩ := step_good hI.1 hI.2.1 hl1.1 hs
        exact ⟨h1, h2, h3, hI.2.2⟩

theorem run_good {N : Nat} {ops : List Op} {s : Sys} {tr : Trace} (h : run N ops = some (s, tr))
    (hl : Legal tr) : SInv N s tr ∧ SLife s tr ∧ AllGood N tr := by
  refine runFrom_good (st' := (s, tr)) h hl ⟨inv_init, ⟨?_, ?_, ?_⟩, trivial⟩
  · intro t; simp [init]
  · intro t v h; cases h
  · intro t h; simp [joined] at h

theorem allGood_split {N : Nat} {post pre : Trace} {x : Op × Res} (h : AllGood N (post ++ x :: pre)) :
    Good N pre x.1 x.2 := by
  induction post with
  | nil => exact h.1
  | cons y post ih => exact ih h.2

theorem run_snoc {N : Nat} {ops : List Op} {s : Sys} {tr : Trace} {op : Op}
    (h : run N ops = some (s, tr)) : run N (ops ++ [op]) = exec N (s, tr) op := by
  have : ∀ (ops : List Op) (st : Sys × Trace), runFrom N st (ops ++ [op]) =
      (runFrom N st ops).bind fun st' => exec N st' op := by
    intro ops
    induction ops with
    | nil => intro st; show (exec N st op).bind _ = exec N st op; cases exec N st op <;> rfl
    | cons a ops ih =>
      intro st
      show (exec N st a).bind _ = ((exec N st a).bind _).bind _
      cases exec N st a with
      | none => rfl
      | some st1 => exact ih st1
  unfold run at *
  rw [this, h]; rfl

end Verif.Proof.PthreadTsd
