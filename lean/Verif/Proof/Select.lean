import Verif.Model.Select
import Verif.Proof.Heap
import Mathlib.Tactic.ByContra
/-! Lemmas for C46. -/
namespace Verif.Select
open Verif

/-- Clause `i` is the one whose operation was performed. -/
def Did (prog : List Clause) (did : List (Nat × Option Nat)) (i : Nat) : Prop :=
  (prog[i]? = some .timeout ∧ did = []) ∨ ∃ c v r, prog[i]? = some (.chan c v) ∧ did = [(i, r)] ∧ r.isSome = !v.isSome

def IsChan (prog : List Clause) (i : Nat) : Prop := ∃ c v, prog[i]? = some (.chan c v)

def Calm (st : Status) (tok : Bool) (prog : List Clause) (ran : List Nat) (did : List (Nat × Option Nat)) : Prop :=
  ran = [] ∧ st ≠ .pending ∧ st ≠ .sat ∧ (tok = false → did = []) ∧ (tok = true → ∃ i, st = .node i ∧ Did prog did i)

def Busy (st : Status) (tok : Bool) (ran : List Nat) (did : List (Nat × Option Nat)) : Prop :=
  ran = [] ∧ st = .pending ∧ tok = false ∧ did = []

/-- What holds of a thread by itself. -/
def TOk (p : Pc) (st : Status) (tok : Bool) (prog : List Clause) (ran : List Nat) (did : List (Nat × Option Nat)) : Prop :=
  match p with
  | .reg _ | .park => Calm st tok prog ran did
  | .mark i | .retoggle i | .check i | .avail i => Calm st tok prog ran did ∧ IsChan prog i
  | .pend i | .toggle i | .unset i | .hand i => Busy st tok ran did ∧ IsChan prog i
  | .setSat i => ran = [] ∧ st = .pending ∧ tok = false ∧ Did prog did i ∧ IsChan prog i
  | .buffer i => ran = [] ∧ st = .node i ∧ tok = false ∧ did = [] ∧ IsChan prog i
  | .body i => ran = [] ∧ tok = false ∧ st ≠ .unsat ∧ st ≠ .pending ∧ Did prog did i
  | .unreg _ => tok = false ∧ st ≠ .unsat ∧ st ≠ .pending ∧ ∃ i, ran = [i] ∧ Did prog did i
  | _ => tok = false ∧ st ≠ .pending ∧ ((prog = [] ∧ ran = [] ∧ did = []) ∨ ∃ i, ran = [i] ∧ Did prog did i)

/-- The channel whose lock a thread at `p` holds. -/
def held (prog : List Clause) : Pc → Option Nat
  | .mark i | .pend i | .toggle i | .retoggle i | .hand i | .setSat i | .unset i | .check i | .avail i | .buffer i =>
    match prog[i]? with
    | some (.chan c _) => some c
    | _ => none
  | .insOr c _ | .insHand c _ | .remOr c | .remHand c | .refillOr c | .refill c => some c
  | _ => none

/-- Whether clause `j` may be registered. -/
def Reg : Pc → Nat → Prop
  | .reg i, j | .mark i, j | .pend i, j | .toggle i, j | .retoggle i, j | .hand i, j | .setSat i, j | .unset i, j | .check i, j
  | .avail i, j | .buffer i, j => j < i
  | .park, _ | .body _, _ => True
  | .unreg k, j => k ≤ j
  | _, _ => False

/-- The thread has won the first node of a list, and hands off. -/
def Hands (prog : List Clause) (p : Pc) (c : Nat) (b : Bool) : Prop :=
  match p with
  | .hand i => ∃ v, prog[i]? = some (.chan c v) ∧ b = !v.isSome
  | .insHand c' _ => c' = c ∧ b = false
  | .remHand c' | .refill c' => c' = c ∧ b = true
  | _ => False

/-- A thread that has registered clauses and is not otherwise engaged. -/
def Waits : Pc → Prop
  | .reg _ | .mark _ | .retoggle _ | .check _ | .avail _ | .park => True
  | _ => False

structure Inv (s : State) : Prop where
  ok : ∀ t, TOk (s.pc t) (s.status t) (s.token t) (s.prog t) (s.ran t) (s.did t)
  lock : ∀ c t, s.lock c = some t ↔ held (s.prog t) (s.pc t) = some c
  node : ∀ c b u j, (u, j) ∈ s.wait c b → (∃ v, (s.prog u)[j]? = some (.chan c v) ∧ v.isSome = b) ∧ Reg (s.pc u) j
  nodup : ∀ c b, (s.wait c b).Nodup
  hand : ∀ t c b, Hands (s.prog t) (s.pc t) c b → ∃ u j l, s.wait c b = (u, j) :: l ∧ s.status u = .node j ∧ s.token u = false ∧ Waits (s.pc u)
  lost : ∀ t i, s.status t = .node i → Waits (s.pc t) → s.token t = false →
    ∃ h c b l, Hands (s.prog h) (s.pc h) c b ∧ s.wait c b = (t, i) :: l
  armed : ∀ t i, s.armed t i = true → (s.prog t)[i]? = some .timeout ∧ Reg (s.pc t) i
  cons : ∀ c, (s.put c).Perm (s.took c ++ s.buf c)

theorem inv_start (size : Nat → Nat) : Inv (start size) := by
  constructor <;> simp [start, TOk, held, Hands, Waits]

theorem Hands.held {prog : List Clause} {p : Pc} {c : Nat} {b : Bool} (h : Hands prog p c b) : held prog p = some c := by
  cases p <;> simp only [Hands, Select.held] at h ⊢ <;> first | exact h.elim | (rw [h.1]) | skip
  obtain ⟨v, h1, _⟩ := h
  rw [h1]

theorem Hands.side {prog : List Clause} {p : Pc} {c c' : Nat} {b b' : Bool} (h : Hands prog p c b) (h' : Hands prog p c' b') : b = b' := by
  cases p <;> simp only [Hands] at h h' <;> first | exact h.elim | (rw [h.2, h'.2]) | skip
  obtain ⟨x, hx1, hx2⟩ := h
  obtain ⟨y, hy1, hy2⟩ := h'
  rw [hx1] at hy1
  cases hy1
  rw [hx2, hy2]

theorem TOk.calm {p : Pc} {st : Status} {tok : Bool} {pr : List Clause} {rn : List Nat} {dd : List (Nat × Option Nat)}
    (h : TOk p st tok pr rn dd) (hw : Waits p) : Calm st tok pr rn dd := by
  cases p <;> simp only [Waits] at hw <;> simp only [TOk] at h <;> first | exact h | exact h.1

theorem TOk.waits {p : Pc} {st st' : Status} {tok tok' : Bool} {pr : List Clause} {rn rn' : List Nat} {dd dd' : List (Nat × Option Nat)}
    (h : TOk p st tok pr rn dd) (hw : Waits p) (h' : Calm st' tok' pr rn' dd') : TOk p st' tok' pr rn' dd' := by
  cases p <;> simp only [Waits] at hw <;> simp only [TOk] at h ⊢ <;> first | exact h' | exact ⟨h', h.2⟩

/-- A registered thread whose status word is unset. -/
theorem TOk.unsat {p : Pc} {tok : Bool} {pr : List Clause} {rn : List Nat} {dd : List (Nat × Option Nat)} {j : Nat}
    (h : TOk p .unsat tok pr rn dd) (hr : Reg p j) : Waits p := by
  cases p <;> simp only [Reg] at hr <;> simp only [TOk, Busy] at h <;> simp_all [Waits]

/-- A step that changes only what belongs to one thread, locks and buffers. -/
theorem Inv.own {s : State} (iv : Inv s) {t : Nat} {p : Pc} {st : Status} {lk : Nat → Option Nat} {tok : Bool} {pr : List Clause}
    {rn : List Nat} {dd : List (Nat × Option Nat)} {ar : Nat → Bool} {B P T : Nat → List Nat}
    (hok : TOk p st tok pr rn dd)
    (hlk : ∀ c, (lk c = some t ↔ held pr p = some c) ∧ ∀ u, u ≠ t → (lk c = some u ↔ s.lock c = some u))
    (hnode : ∀ c b j, (t, j) ∈ s.wait c b → Reg p j ∧ pr = s.prog t)
    (harm : ∀ j, ar j = true → pr[j]? = some .timeout ∧ Reg p j)
    (hh : ∀ c b, ¬ Hands (s.prog t) (s.pc t) c b) (hh' : ∀ c b, ¬ Hands pr p c b)
    (hst : ∀ j, s.status t = .node j → Waits (s.pc t) → s.token t = false → st = .node j ∧ Waits p ∧ tok = false)
    (hst' : ∀ j, st = .node j → Waits p → tok = false → s.status t = .node j ∧ Waits (s.pc t) ∧ s.token t = false)
    (hcons : ∀ c, (P c).Perm (T c ++ B c)) :
    Inv { s with
      pc := upd s.pc t p, status := upd s.status t st, lock := lk, token := upd s.token t tok, prog := upd s.prog t pr
      ran := upd s.ran t rn, did := upd s.did t dd, armed := upd s.armed t ar, buf := B, put := P, took := T } := by
  constructor
  · intro u
    simp only [upd_apply]
    split
    · exact hok
    · exact iv.ok u
  · intro c u
    simp only [upd_apply]
    split
    · next h => subst h; exact (hlk c).1
    · next h => rw [(hlk c).2 u h]; exact iv.lock c u
  · intro c b u j h
    have := iv.node c b u j h
    simp only [upd_apply]
    split
    · next e => subst e; rw [(hnode c b j h).2]; exact ⟨this.1, (hnode c b j h).1⟩
    · exact this
  · exact iv.nodup
  · intro u c b h
    simp only [upd_apply] at h ⊢
    by_cases e : u = t
    · subst e; rw [if_pos rfl, if_pos rfl] at h; exact absurd h (hh' c b)
    · rw [if_neg e, if_neg e] at h
      obtain ⟨u', j, l, h1, h2, h3, h4⟩ := iv.hand u c b h
      refine ⟨u', j, l, h1, ?_⟩
      by_cases e' : u' = t
      · subst e'
        have := hst j h2 h4 h3
        simp [this]
      · simp [e', h2, h3, h4]
  · intro u i h1 h2 h3
    simp only [upd_apply] at h1 h2 h3 ⊢
    have key : s.status u = .node i ∧ Waits (s.pc u) ∧ s.token u = false := by
      by_cases e : u = t
      · subst e; rw [if_pos rfl] at h1 h2 h3; exact hst' i h1 h2 h3
      · rw [if_neg e] at h1 h2 h3; exact ⟨h1, h2, h3⟩
    obtain ⟨h, c, b, l, h4, h5⟩ := iv.lost u i key.1 key.2.1 key.2.2
    refine ⟨h, c, b, l, ?_, h5⟩
    by_cases e : h = t
    · subst e; exact absurd h4 (hh c b)
    · rw [if_neg e, if_neg e]; exact h4
  · intro u i h
    simp only [upd_apply] at h ⊢
    split at h
    · next e => subst e; simpa using harm i h
    · next e => simpa [e] using iv.armed u i h
  · exact hcons

theorem Inv.no_hands {s : State} (iv : Inv s) {c : Nat} (h : ∀ t b, s.lock c = some t → ¬ Hands (s.prog t) (s.pc t) c b) (t : Nat) (b : Bool) :
    ¬ Hands (s.prog t) (s.pc t) c b := by
  intro hh
  have := (iv.lock c t).2 hh.held
  exact h t b this hh

/-- A step that changes one list, while no thread hands off there. -/
theorem Inv.list {s : State} (iv : Inv s) {c : Nat} {b : Bool} {l : List (Nat × Nat)}
    (hn : ∀ t, ¬ Hands (s.prog t) (s.pc t) c b) (hd : l.Nodup)
    (hl : ∀ u j, (u, j) ∈ l → (∃ v, (s.prog u)[j]? = some (.chan c v) ∧ v.isSome = b) ∧ Reg (s.pc u) j) : Inv (setWait s c b l) := by
  have hw : ∀ c' b', (setWait s c b l).wait c' b' = if c' = c ∧ b' = b then l else s.wait c' b' := by
    intro c' b'
    simp only [setWait, upd_apply]
    by_cases e : c' = c
    · subst e; simp
    · simp [e]
  constructor
  · exact iv.ok
  · exact iv.lock
  · intro c' b' u j h
    rw [hw] at h
    split at h
    · next e => obtain ⟨rfl, rfl⟩ := e; exact hl u j h
    · exact iv.node c' b' u j h
  · intro c' b'
    rw [hw]
    split
    · exact hd
    · exact iv.nodup c' b'
  · intro u c' b' h
    rw [hw]
    have hne : ¬ (c' = c ∧ b' = b) := by rintro ⟨rfl, rfl⟩; exact hn u h
    rw [if_neg hne]
    exact iv.hand u c' b' h
  · intro u i h1 h2 h3
    obtain ⟨h, c', b', l', h4, h5⟩ := iv.lost u i h1 h2 h3
    refine ⟨h, c', b', l', h4, ?_⟩
    rw [hw]
    have hne : ¬ (c' = c ∧ b' = b) := by rintro ⟨rfl, rfl⟩; exact hn h h4
    rw [if_neg hne]
    exact h5
  · exact iv.armed
  · exact iv.cons

/-- A thread wins the first node of a list. -/
theorem Inv.win {s : State} (iv : Inv s) {t c : Nat} {b : Bool} {u j : Nat} {l : List (Nat × Nat)} {p : Pc}
    (hw : s.wait c b = (u, j) :: l) (hu : s.status u = .unsat) (hut : u ≠ t) (hc : held (s.prog t) (s.pc t) = some c)
    (hok : TOk p (s.status t) (s.token t) (s.prog t) (s.ran t) (s.did t))
    (hlk : held (s.prog t) p = some c)
    (hreg : ∀ j, Reg (s.pc t) j → Reg p j)
    (hh : ∀ c b, ¬ Hands (s.prog t) (s.pc t) c b) (hh' : ∀ c' b', Hands (s.prog t) p c' b' ↔ c' = c ∧ b' = b)
    (hwt : ¬ Waits (s.pc t)) (hwp : ¬ Waits p) : Inv (goto (setStatus s u (.node j)) t p) := by
  have hcl : s.lock c = some t := (iv.lock c t).2 hc
  have hun := iv.node c b u j (by rw [hw]; simp)
  have huo := iv.ok u
  rw [hu] at huo
  have hWaits : Waits (s.pc u) := huo.unsat hun.2
  have hcalm := huo.calm hWaits
  have htok : s.token u = false := by
    cases htk : s.token u with
    | false => rfl
    | true => obtain ⟨i, hi, _⟩ := hcalm.2.2.2.2 htk; exact absurd hi (by simp)
  constructor
  · intro v
    simp only [goto, setStatus, upd_apply]
    by_cases e : v = t
    · subst e; simpa [Ne.symm hut] using hok
    · rw [if_neg e]
      by_cases e' : v = u
      · subst e'
        rw [if_pos rfl]
        refine huo.waits hWaits ⟨hcalm.1, by simp, by simp, hcalm.2.2.2.1, fun h => ?_⟩
        rw [htok] at h; exact absurd h (by simp)
      · rw [if_neg e']; exact iv.ok v
  · intro c' v
    simp only [goto, setStatus, upd_apply]
    by_cases e : v = t
    · subst e
      rw [if_pos rfl, hlk, ← hc]
      exact iv.lock c' v
    · rw [if_neg e]; exact iv.lock c' v
  · intro c' b' v i h
    have := iv.node c' b' v i h
    refine ⟨this.1, ?_⟩
    simp only [goto, setStatus, upd_apply]
    split
    · next e => subst e; exact hreg i this.2
    · exact this.2
  · exact iv.nodup
  · intro v c' b' h
    simp only [goto, setStatus, upd_apply] at h ⊢
    by_cases e : v = t
    · subst e
      rw [if_pos rfl] at h
      obtain ⟨rfl, rfl⟩ := (hh' c' b').1 h
      exact ⟨u, j, l, hw, by simp, htok, by rw [if_neg hut]; exact hWaits⟩
    · rw [if_neg e] at h
      obtain ⟨u', j', l', h1, h2, h3, h4⟩ := iv.hand v c' b' h
      have e1 : u' ≠ u := by rintro rfl; rw [hu] at h2; exact absurd h2 (by simp)
      have e2 : u' ≠ t := by rintro rfl; exact hwt h4
      exact ⟨u', j', l', h1, by rw [if_neg e1]; exact h2, h3, by rw [if_neg e2]; exact h4⟩
  · intro v i h1 h2 h3
    simp only [goto, setStatus, upd_apply] at h1 h2 h3 ⊢
    by_cases e : v = t
    · subst e; rw [if_pos rfl] at h2; exact absurd h2 hwp
    rw [if_neg e] at h2
    by_cases e' : v = u
    · subst e'
      rw [if_pos rfl] at h1
      cases h1
      exact ⟨t, c, b, l, by rw [if_pos rfl]; exact (hh' c b).2 ⟨rfl, rfl⟩, hw⟩
    · rw [if_neg e'] at h1
      obtain ⟨h, c', b', l', h4, h5⟩ := iv.lost v i h1 h2 h3
      refine ⟨h, c', b', l', ?_, h5⟩
      have e2 : h ≠ t := by rintro rfl; exact hh c' b' h4
      rw [if_neg e2]; exact h4
  · intro v i h
    have := iv.armed v i h
    refine ⟨this.1, ?_⟩
    simp only [goto, setStatus, upd_apply]
    split
    · next e => subst e; exact hreg i this.2
    · exact this.2
  · exact iv.cons

/-- A thread that has won the first node of a list performs its operation and unparks its thread. -/
theorem Inv.give {s : State} (iv : Inv s) {t c : Nat} {b : Bool} {u j : Nat} {l : List (Nat × Nat)} {p : Pc} {D : Nat → List (Nat × Option Nat)}
    {lk : Nat → Option Nat} {B P T : Nat → List Nat} {r : Option Nat} {w : Nat → Bool → List (Nat × Nat)}
    (hw : s.wait c b = (u, j) :: l) (hw' : w = (setWait s c b l).wait) (hh : Hands (s.prog t) (s.pc t) c b)
    (hwt : ¬ Waits (s.pc t)) (hwp : ¬ Waits p)
    (hok : TOk p (s.status t) (s.token t) (s.prog t) (s.ran t) (D t))
    (hD : D u = s.did u ++ [(j, r)]) (hD' : ∀ v, v ≠ u → v ≠ t → D v = s.did v) (hr : r.isSome = !b)
    (hlk : ∀ c, (lk c = some t ↔ held (s.prog t) p = some c) ∧ ∀ u, u ≠ t → (lk c = some u ↔ s.lock c = some u))
    (hreg : ∀ j, Reg (s.pc t) j → Reg p j)
    (hh' : ∀ c b, ¬ Hands (s.prog t) p c b)
    (hcons : ∀ c, (P c).Perm (T c ++ B c)) :
    Inv { s with pc := upd s.pc t p, wait := w, token := upd s.token u true, did := D, lock := lk, buf := B, put := P, took := T } := by
  obtain ⟨u', j', l', h1, hu, htok, hWaits⟩ := iv.hand t c b hh
  rw [hw] at h1
  cases h1
  have hcl : s.lock c = some t := (iv.lock c t).2 hh.held
  have hun := iv.node c b u j (by rw [hw]; simp)
  have huo := iv.ok u
  have hut : u ≠ t := by rintro rfl; exact hwt hWaits
  have hwait : ∀ c' b', w c' b' = if c' = c ∧ b' = b then l else s.wait c' b' := by
    intro c' b'
    rw [hw']
    simp only [setWait, upd_apply]
    by_cases e : c' = c
    · subst e; simp
    · simp [e]
  have hmem : ∀ c' b' x, x ∈ w c' b' → x ∈ s.wait c' b' := by
    intro c' b' x hx
    rw [hwait] at hx
    split at hx
    · next e => obtain ⟨rfl, rfl⟩ := e; rw [hw]; exact List.mem_cons_of_mem _ hx
    · exact hx
  have honly : ∀ v c' b', Hands (s.prog v) (s.pc v) c' b' → v ≠ t → ¬ (c' = c ∧ b' = b) := by
    rintro v c' b' h hv ⟨rfl, rfl⟩
    have := (iv.lock c' v).2 h.held
    rw [hcl] at this
    exact hv (Option.some.inj this).symm
  constructor
  · intro v
    simp only [upd_apply]
    by_cases e : v = t
    · subst e; simpa [Ne.symm hut] using hok
    · rw [if_neg e]
      by_cases e' : v = u
      · subst e'
        rw [if_pos rfl, hu]
        rw [hu, htok] at huo
        have hcalm := huo.calm hWaits
        have hdid : s.did v = [] := hcalm.2.2.2.1 rfl
        have hDid : Did (s.prog v) (D v) j := by
          obtain ⟨⟨x, h1, h2⟩, _⟩ := hun
          exact Or.inr ⟨c, x, r, h1, by rw [hD, hdid]; rfl, by rw [hr, h2]⟩
        exact huo.waits hWaits ⟨hcalm.1, by simp, by simp, fun h => absurd h (by simp), fun _ => ⟨j, rfl, hDid⟩⟩
      · rw [if_neg e', hD' v e' e]; exact iv.ok v
  · intro c' v
    simp only [upd_apply]
    by_cases e : v = t
    · subst e; rw [if_pos rfl]; exact (hlk c').1
    · rw [if_neg e, (hlk c').2 v e]; exact iv.lock c' v
  · intro c' b' v i h
    have := iv.node c' b' v i (hmem c' b' _ h)
    refine ⟨this.1, ?_⟩
    simp only [upd_apply]
    split
    · next e => subst e; exact hreg i this.2
    · exact this.2
  · intro c' b'
    simp only [hwait]
    have := iv.nodup c' b'
    split
    · next e =>
      obtain ⟨rfl, rfl⟩ := e
      rw [hw] at this
      exact (List.nodup_cons.1 this).2
    · exact this
  · intro v c' b' h
    simp only [upd_apply, hwait] at h ⊢
    by_cases e : v = t
    · subst e; rw [if_pos rfl] at h; exact absurd h (hh' c' b')
    · rw [if_neg e] at h
      obtain ⟨u', j', l', h1, h2, h3, h4⟩ := iv.hand v c' b' h
      have hne := honly v c' b' h e
      have e1 : u' ≠ u := by
        rintro rfl
        rw [hu] at h2
        cases h2
        have := (iv.node c' b' u' j (by rw [h1]; simp)).1
        obtain ⟨x, hx1, hx2⟩ := hun.1
        obtain ⟨y, hy1, hy2⟩ := this
        rw [hx1] at hy1
        cases hy1
        exact hne ⟨rfl, by rw [← hx2, ← hy2]⟩
      have e2 : u' ≠ t := by rintro rfl; exact hwt h4
      exact ⟨u', j', l', by rw [if_neg hne]; exact h1, h2, by rw [if_neg e1]; exact h3, by rw [if_neg e2]; exact h4⟩
  · intro v i h1 h2 h3
    simp only [upd_apply, hwait] at h1 h2 h3 ⊢
    by_cases e : v = t
    · subst e; rw [if_pos rfl] at h2; exact absurd h2 hwp
    rw [if_neg e] at h2
    by_cases e' : v = u
    · subst e'; rw [if_pos rfl] at h3; exact absurd h3 (by simp)
    rw [if_neg e'] at h3
    obtain ⟨h, c', b', l', h4, h5⟩ := iv.lost v i h1 h2 h3
    have e2 : h ≠ t := by
      rintro rfl
      have hc' := h4.held
      rw [hh.held] at hc'
      cases hc'
      have : b' = b := h4.side hh
      subst this
      rw [hw] at h5
      cases h5
      exact e' rfl
    refine ⟨h, c', b', l', by rw [if_neg e2]; exact h4, ?_⟩
    rw [if_neg (honly h c' b' h4 e2)]
    exact h5
  · intro v i h
    have := iv.armed v i h
    refine ⟨this.1, ?_⟩
    simp only [upd_apply]
    split
    · next e => subst e; exact hreg i this.2
    · exact this.2
  · exact hcons

theorem upd_self {α : Type u} (f : Nat → α) (a : Nat) : upd f a (f a) = f := by
  funext x; rw [upd_apply]; split
  · next h => rw [h]
  · rfl

/-- A step that changes only the point of one thread, and perhaps its status word and locks. -/
theorem Inv.go {s : State} (iv : Inv s) {t : Nat} {q p : Pc} {st : Status} {lk : Nat → Option Nat} (hp : s.pc t = q)
    (hok : TOk p st (s.token t) (s.prog t) (s.ran t) (s.did t))
    (hlk : ∀ c, (lk c = some t ↔ held (s.prog t) p = some c) ∧ ∀ u, u ≠ t → (lk c = some u ↔ s.lock c = some u))
    (hreg : ∀ j, Reg q j → Reg p j)
    (hh : ∀ c b, ¬ Hands (s.prog t) q c b) (hh' : ∀ c b, ¬ Hands (s.prog t) p c b)
    (hst : ∀ j, s.status t = .node j → Waits q → s.token t = false → st = .node j ∧ Waits p)
    (hst' : ∀ j, st = .node j → Waits p → s.token t = false → s.status t = .node j ∧ Waits q) :
    Inv { s with pc := upd s.pc t p, status := upd s.status t st, lock := lk } := by
  subst hp
  have := iv.own (t := t) (p := p) (st := st) (lk := lk) (tok := s.token t) (pr := s.prog t) (rn := s.ran t) (dd := s.did t)
    (ar := s.armed t) (B := s.buf) (P := s.put) (T := s.took) hok hlk
    (fun c b j h => ⟨hreg j (iv.node c b t j h).2, rfl⟩)
    (fun j h => ⟨(iv.armed t j h).1, hreg j (iv.armed t j h).2⟩) hh hh'
    (fun j h1 h2 h3 => ⟨(hst j h1 h2 h3).1, (hst j h1 h2 h3).2, h3⟩)
    (fun j h1 h2 h3 => ⟨(hst' j h1 h2 h3).1, (hst' j h1 h2 h3).2, h3⟩) iv.cons
  simp only [upd_self] at this
  exact this

/-- The same when the status word does not change. -/
theorem Inv.go' {s : State} (iv : Inv s) {t : Nat} {q p : Pc} {lk : Nat → Option Nat} (hp : s.pc t = q)
    (hok : TOk p (s.status t) (s.token t) (s.prog t) (s.ran t) (s.did t))
    (hlk : ∀ c, (lk c = some t ↔ held (s.prog t) p = some c) ∧ ∀ u, u ≠ t → (lk c = some u ↔ s.lock c = some u))
    (hreg : ∀ j, Reg q j → Reg p j)
    (hh : ∀ c b, ¬ Hands (s.prog t) q c b) (hh' : ∀ c b, ¬ Hands (s.prog t) p c b)
    (hw : ∀ j, s.status t = .node j → s.token t = false → (Waits q ↔ Waits p)) :
    Inv { s with pc := upd s.pc t p, lock := lk } := by
  have := iv.go (st := s.status t) hp hok hlk hreg hh hh' (fun j h1 h2 h3 => ⟨h1, (hw j h1 h3).1 h2⟩)
    (fun j h1 h2 h3 => ⟨h1, (hw j h1 h3).2 h2⟩)
  simp only [upd_self] at this
  exact this

theorem Inv.lkFree {s : State} (iv : Inv s) {t c : Nat} {pr : List Clause} {p : Pc} (h : held (s.prog t) (s.pc t) = some c) (hp : held pr p = none)
    (c' : Nat) : (upd s.lock c none c' = some t ↔ held pr p = some c') ∧ ∀ u, u ≠ t → (upd s.lock c none c' = some u ↔ s.lock c' = some u) := by
  have h1 := (iv.lock c t).2 h
  have h2 := iv.lock c' t
  rw [h] at h2
  rw [hp, upd_apply]
  refine ⟨?_, fun u hu => ?_⟩
  · split
    · simp
    · next e => rw [h2]; simp [Ne.symm e]
  · split
    · next e => subst e; rw [h1]; simp [Ne.symm hu]
    · rfl

theorem Inv.lkTake {s : State} (iv : Inv s) {t c : Nat} {pr : List Clause} {p : Pc} (h : s.lock c = none)
    (h0 : held (s.prog t) (s.pc t) = none) (hp : held pr p = some c)
    (c' : Nat) : (upd s.lock c (some t) c' = some t ↔ held pr p = some c') ∧ ∀ u, u ≠ t → (upd s.lock c (some t) c' = some u ↔ s.lock c' = some u) := by
  have h2 := iv.lock c' t
  rw [h0] at h2
  rw [hp, upd_apply]
  refine ⟨?_, fun u hu => ?_⟩
  · split
    · next e => subst e; simp
    · next e => rw [h2]; simp [Ne.symm e]
  · split
    · next e => subst e; rw [h]; simp [Ne.symm hu]
    · rfl

theorem Inv.lkSame {s : State} (iv : Inv s) {t : Nat} {pr : List Clause} {p : Pc} (h : held pr p = held (s.prog t) (s.pc t))
    (c' : Nat) : (s.lock c' = some t ↔ held pr p = some c') ∧ ∀ u, u ≠ t → (s.lock c' = some u ↔ s.lock c' = some u) := by
  rw [h]; exact ⟨iv.lock c' t, fun _ _ => Iff.rfl⟩

theorem Calm.unsat {tok : Bool} {pr : List Clause} {rn : List Nat} {dd : List (Nat × Option Nat)} (h : Calm .unsat tok pr rn dd) :
    rn = [] ∧ tok = false ∧ dd = [] := by
  have ht : tok = false := by
    cases htk : tok with
    | false => rfl
    | true => obtain ⟨i, hi, _⟩ := h.2.2.2.2 htk; exact absurd hi (by simp)
  exact ⟨h.1, ht, h.2.2.2.1 ht⟩

theorem calm_unsat {pr : List Clause} : Calm .unsat false pr [] [] := ⟨rfl, by simp, by simp, fun _ => rfl, by simp⟩

theorem perm_hand {p q r : List Nat} {e : Nat} (h : p.Perm (q ++ r)) : (p ++ [e]).Perm ((q ++ [e]) ++ r) :=
  (h.append_right [e]).trans (by rw [List.append_assoc, List.append_assoc]; exact List.Perm.append_left _ List.perm_append_comm)

theorem perform_read {s : State} {u j c e : Nat} (h : (s.prog u)[j]? = some (.chan c none)) :
    perform s u j (some e) = record { s with did := upd s.did u (s.did u ++ [(j, some e)]) } c [] [e] := by
  simp only [perform, h]

theorem perform_write {s : State} {u j c v : Nat} (h : (s.prog u)[j]? = some (.chan c (some v))) :
    perform s u j none = record { s with did := upd s.did u (s.did u ++ [(j, none)]) } c [v] [] := by
  simp only [perform, h]

theorem Inv.writer {s : State} (iv : Inv s) {c u j : Nat} {l : List (Nat × Nat)} (h : s.wait c true = (u, j) :: l) :
    (s.prog u)[j]? = some (.chan c (some (elem s ((s.wait c true).headD (0, 0))))) := by
  obtain ⟨⟨x, h1, h2⟩, _⟩ := iv.node c true u j (by rw [h]; simp)
  cases x with
  | none => simp at h2
  | some w => rw [h1, h]; simp [elem, h1]

theorem Inv.reader {s : State} (iv : Inv s) {c u j : Nat} {l : List (Nat × Nat)} (h : s.wait c false = (u, j) :: l) :
    (s.prog u)[j]? = some (.chan c none) := by
  obtain ⟨⟨x, h1, h2⟩, _⟩ := iv.node c false u j (by rw [h]; simp)
  cases x with
  | none => exact h1
  | some w => simp at h2

/-- Steps of a thread at a clause on a channel. -/
theorem Inv.chan {s s' : State} (iv : Inv s) {t i c : Nat} {v : Option Nat} {q : Pc} (hp : s.pc t = q) (hcl : (s.prog t)[i]? = some (.chan c v))
    (hq : q = .reg i ∨ q = .mark i ∨ q = .pend i ∨ q = .toggle i ∨ q = .retoggle i ∨ q = .hand i ∨ q = .setSat i ∨ q = .unset i ∨ q = .check i
      ∨ q = .avail i ∨ q = .buffer i)
    (hn : stepChan s t i c v q = some s') : Inv s' := by
  have hic : IsChan (s.prog t) i := ⟨c, v, hcl⟩
  have hok := iv.ok t
  rw [hp] at hok
  rcases hq with rfl | rfl | rfl | rfl | rfl | rfl | rfl | rfl | rfl | rfl | rfl
  · -- reg
    simp only [stepChan] at hn
    simp only [TOk] at hok
    split at hn
    · next hl =>
      cases hn
      split
      · exact iv.go' hp ⟨hok, hic⟩ (iv.lkTake hl (by rw [hp]; rfl) (by simp only [held, hcl])) (fun j h => h) (fun _ _ h => h) (fun _ _ h => h)
          (fun _ _ _ => Iff.rfl)
      · exact iv.go' hp ⟨hok, hic⟩ (iv.lkTake hl (by rw [hp]; rfl) (by simp only [held, hcl])) (fun j h => h) (fun _ _ h => h) (fun _ _ h => h)
          (fun _ _ _ => Iff.rfl)
    · simp at hn
  all_goals have hheld : held (s.prog t) (s.pc t) = some c := by rw [hp]; simp only [held, hcl]
  · -- mark
    simp only [stepChan] at hn
    simp only [TOk] at hok
    split at hn
    · next hs =>
      cases hn
      rw [hs] at hok
      obtain ⟨h1, h2, h3⟩ := hok.1.unsat
      exact iv.go hp ⟨⟨h1, rfl, h2, h3⟩, hic⟩ (iv.lkSame (by rw [hheld]; simp only [held, hcl])) (fun j h => h) (fun _ _ h => h)
        (fun _ _ h => h) (fun j h => by rw [hs] at h; cases h) (fun j h => by cases h)
    · cases hn; exact iv
    · cases hn
      exact iv.go' hp hok.1 (iv.lkFree hheld rfl) (fun j (h : j < i) => Nat.lt_succ_of_lt h) (fun _ _ h => h)
        (fun _ _ h => h) (fun _ _ _ => Iff.rfl)
  · -- pend
    simp only [stepChan] at hn
    simp only [TOk] at hok
    have hs : s.status t = .pending := hok.1.2.1
    split at hn
    · cases hn
      exact iv.go' hp hok (iv.lkSame (by rw [hheld]; simp only [held, hcl])) (fun j h => h) (fun _ _ h => h)
        (fun _ _ h => h) (fun _ _ _ => Iff.rfl)
    · next u j l hw =>
      split at hn
      · next hu =>
        cases hn
        have hut : u ≠ t := by rintro rfl; rw [hs] at hu; cases hu
        refine iv.win hw hu hut hheld hok (by simp only [held, hcl]) (fun j h => by rw [hp] at h; exact h) (fun _ _ h => by rw [hp] at h; exact h)
          ?_ (by rw [hp]; exact fun h => h) (fun h => h)
        intro c' b'
        simp only [Hands]
        constructor
        · rintro ⟨v', h1, h2⟩
          rw [hcl] at h1
          cases h1
          exact ⟨rfl, h2⟩
        · rintro ⟨rfl, rfl⟩
          exact ⟨v, hcl, rfl⟩
      · cases hn
        exact iv.go' hp hok (iv.lkSame (by rw [hheld]; simp only [held, hcl])) (fun j h => h) (fun _ _ h => h)
          (fun _ _ h => h) (fun _ _ _ => Iff.rfl)
      · cases hn
        refine iv.list ?_ ?_ ?_
        · intro t' h
          have h1 := (iv.lock c t').2 h.held
          have h2 := (iv.lock c t).2 hheld
          rw [h1] at h2
          cases h2
          rw [hp] at h
          exact h
        · have := iv.nodup c (!v.isSome)
          rw [hw] at this
          exact (List.nodup_cons.1 this).2
        · intro u' j' h
          exact iv.node c _ u' j' (by rw [hw]; exact List.mem_cons_of_mem _ h)
  · -- toggle
    simp only [stepChan] at hn
    simp only [TOk] at hok
    cases hn
    obtain ⟨⟨h1, h2, h3, h4⟩, _⟩ := hok
    refine iv.go hp ⟨?_, hic⟩ (iv.lkSame (by rw [hheld]; simp only [held, hcl])) (fun j h => h) (fun _ _ h => h)
        (fun _ _ h => h) (fun j h => by rw [h2] at h; cases h) (fun j h => by cases h)
    rw [h1, h3, h4]; exact calm_unsat
  · -- retoggle
    simp only [stepChan] at hn
    simp only [TOk] at hok
    split at hn
    · next hs =>
      cases hn
      rw [hs] at hok
      obtain ⟨h1, h2, h3⟩ := hok.1.unsat
      exact iv.go hp ⟨⟨h1, rfl, h2, h3⟩, hic⟩ (iv.lkSame (by rw [hheld]; simp only [held, hcl])) (fun j h => h) (fun _ _ h => h)
        (fun _ _ h => h) (fun j h => by rw [hs] at h; cases h) (fun j h => by cases h)
    · cases hn
      exact iv.go' hp hok (iv.lkSame (by rw [hheld]; simp only [held, hcl])) (fun j h => h) (fun _ _ h => h)
        (fun _ _ h => h) (fun _ _ _ => Iff.rfl)
  · -- hand
    simp only [TOk] at hok
    obtain ⟨⟨h1, h2, h3, h4⟩, _⟩ := hok
    have hh : Hands (s.prog t) (s.pc t) c (!v.isSome) := by rw [hp]; exact ⟨v, hcl, rfl⟩
    obtain ⟨u, j, l, hw, hu, htok, hWaits⟩ := iv.hand t c _ hh
    have hut : t ≠ u := by rintro rfl; rw [hp] at hWaits; exact hWaits
    have hperm : ∀ (e c' : Nat), (upd s.put c (s.put c ++ [e]) c').Perm (upd s.took c (s.took c ++ [e]) c' ++ s.buf c') := by
      intro e c'
      have := iv.cons c'
      simp only [upd_apply]
      split
      · next e => subst e; exact perm_hand this
      · exact this
    cases v with
    | none =>
      simp only [stepChan] at hn
      simp only [Option.isSome_none, Bool.not_false] at hw hh
      cases hn
      have hwk : ∀ r, wake s c true r = perform { setWait s c true l with token := upd s.token u true } u j r := by
        intro r; simp only [wake, hw]
      rw [hwk, perform_write (c := c) (by exact iv.writer hw), perform_read (c := c) (by exact hcl)]
      refine iv.give (t := t) hw (w := (setWait s c true l).wait) rfl hh (by rw [hp]; exact fun h => h) (p := .setSat i) (fun h => h) ?_ ?_ ?_
        (r := none) rfl (iv.lkSame (by rw [hheld]; simp only [held, hcl])) (fun j h => by rw [hp] at h; exact h) (fun _ _ h => h)
        (fun c' => by have := hperm (elem s ((s.wait c true).headD (0, 0))) c'; simp only [upd_apply] at this; by_cases h : c' = c <;> simpa [record, setWait, upd_apply, h] using this)
      · refine ⟨h1, h2, h3, Or.inr ⟨c, none, some (elem s ((s.wait c true).headD (0, 0))), hcl, ?_, rfl⟩, hic⟩
        simp [record, setWait, upd_apply, hut, h4]
      · simp [record, setWait, upd_apply, Ne.symm hut]
      · intro x hx1 hx2
        simp [record, setWait, upd_apply, hx1, hx2]
    | some e =>
      simp only [stepChan] at hn
      simp only [Option.isSome_some, Bool.not_true] at hw hh
      cases hn
      have hwk : ∀ r, wake s c false r = perform { setWait s c false l with token := upd s.token u true } u j r := by
        intro r; simp only [wake, hw]
      rw [hwk, perform_read (c := c) (by exact iv.reader hw), perform_write (c := c) (by exact hcl)]
      refine iv.give (t := t) hw (w := (setWait s c false l).wait) rfl hh (by rw [hp]; exact fun h => h) (p := .setSat i) (fun h => h) ?_ ?_ ?_
        (r := some e) rfl (iv.lkSame (by rw [hheld]; simp only [held, hcl])) (fun j h => by rw [hp] at h; exact h) (fun _ _ h => h)
        (fun c' => by have := hperm e c'; simp only [upd_apply] at this; by_cases h : c' = c <;> simpa [record, setWait, upd_apply, h] using this)
      · refine ⟨h1, h2, h3, Or.inr ⟨c, some e, none, hcl, ?_, rfl⟩, hic⟩
        simp [record, setWait, upd_apply, hut, h4]
      · simp [record, setWait, upd_apply, Ne.symm hut]
      · intro x hx1 hx2
        simp [record, setWait, upd_apply, hx1, hx2]
  · -- setSat
    simp only [stepChan] at hn
    simp only [TOk] at hok
    cases hn
    obtain ⟨h1, h2, h3, h4, _⟩ := hok
    exact iv.go hp ⟨h1, h3, by simp, by simp, h4⟩ (iv.lkFree hheld rfl) (fun j h => trivial) (fun _ _ h => h)
        (fun _ _ h => h) (fun j h => by rw [h2] at h; cases h) (fun j h => by cases h)
  · -- unset
    simp only [stepChan] at hn
    simp only [TOk] at hok
    cases hn
    obtain ⟨⟨h1, h2, h3, h4⟩, _⟩ := hok
    refine iv.go hp ⟨?_, hic⟩ (iv.lkSame (by rw [hheld]; simp only [held, hcl])) (fun j h => h) (fun _ _ h => h)
        (fun _ _ h => h) (fun j h => by rw [h2] at h; cases h) (fun j h => by cases h)
    rw [h1, h3, h4]; exact calm_unsat
  · -- check
    unfold stepChan at hn
    simp only [TOk] at hok
    by_cases hcond : (s.buf c).length ≠ (if v.isSome then s.size c else 0) ∨ s.wait c (!v.isSome) ≠ []
    · rw [if_pos hcond] at hn
      cases hn
      exact iv.go' hp hok (iv.lkSame (by rw [hheld]; simp only [held, hcl])) (fun j h => h) (fun _ _ h => h)
        (fun _ _ h => h) (fun _ _ _ => Iff.rfl)
    · rw [if_neg hcond] at hn
      cases hn
      have iv1 : Inv (goto (unlock s c) t (.reg (i + 1))) :=
        iv.go' hp hok.1 (iv.lkFree hheld rfl) (fun j (h : j < i) => Nat.lt_succ_of_lt h) (fun _ _ h => h)
          (fun _ _ h => h) (fun _ _ _ => Iff.rfl)
      refine iv1.list (c := c) (b := v.isSome) (l := s.wait c v.isSome ++ [(t, i)]) ?_ ?_ ?_
      · intro t'
        refine iv1.no_hands (c := c) (fun t' b h => ?_) t' v.isSome
        have : (goto (unlock s c) t (.reg (i + 1))).lock c = none := by simp [goto, unlock]
        rw [this] at h; cases h
      · rw [List.nodup_append]
        refine ⟨iv.nodup _ _, by simp, ?_⟩
        rintro ⟨a, b⟩ h1 y h2 rfl
        rw [List.mem_singleton] at h2
        cases h2
        have := (iv.node _ _ _ _ h1).2
        rw [hp] at this
        exact absurd this (Nat.lt_irrefl i)
      · intro u j h
        rw [List.mem_append, List.mem_singleton] at h
        rcases h with h | h
        · exact iv1.node c v.isSome u j h
        · cases h
          exact ⟨⟨v, hcl, rfl⟩, by simp [goto, unlock, Reg]⟩
  · -- avail
    simp only [stepChan] at hn
    simp only [TOk] at hok
    split at hn
    · next hs =>
      cases hn
      rw [hs] at hok
      obtain ⟨h1, h2, h3⟩ := hok.1.unsat
      exact iv.go hp ⟨h1, rfl, h2, h3, hic⟩ (iv.lkSame (by rw [hheld]; simp only [held, hcl])) (fun j h => h) (fun _ _ h => h)
        (fun _ _ h => h) (fun j h => by rw [hs] at h; cases h) (fun j _ h => h.elim)
    · cases hn; exact iv
    · cases hn
      exact iv.go' hp hok.1 (iv.lkFree hheld rfl) (fun j (h : j < i) => Nat.lt_succ_of_lt h) (fun _ _ h => h)
        (fun _ _ h => h) (fun _ _ _ => Iff.rfl)
  · -- buffer
    simp only [stepChan] at hn
    simp only [TOk] at hok
    obtain ⟨h1, h2, h3, h4, _⟩ := hok
    split at hn
    · simp at hn
    split at hn
    · next e l hb _ =>
      rw [perform_read (c := c) (by exact hcl)] at hn
      cases hn
      have := iv.own (t := t) (p := .body i) (st := s.status t) (lk := upd s.lock c none) (tok := s.token t) (pr := s.prog t) (rn := s.ran t)
        (dd := s.did t ++ [(i, some e)]) (ar := s.armed t) (B := upd s.buf c l) (P := upd s.put c (s.put c ++ [])) (T := upd s.took c (s.took c ++ [e]))
        ⟨h1, h3, by rw [h2]; simp, by rw [h2]; simp, Or.inr ⟨c, none, some e, hcl, by rw [h4]; rfl, rfl⟩⟩ (iv.lkFree hheld rfl)
        (fun _ _ _ _ => ⟨trivial, rfl⟩) (fun j h => ⟨(iv.armed t j h).1, trivial⟩) (fun _ _ h => by rw [hp] at h; exact h)
        (fun _ _ h => h) (fun _ _ h => by rw [hp] at h; exact h.elim) (fun _ _ h => h.elim)
        (fun c' => by
          have := iv.cons c'
          simp only [upd_apply]
          split
          · next e => subst e; rw [hb] at this; simpa using this
          · exact this)
      simp only [upd_self] at this
      exact this
    · simp at hn
    · next e l =>
      rw [perform_write (c := c) (by exact hcl)] at hn
      cases hn
      have := iv.own (t := t) (p := .body i) (st := s.status t) (lk := upd s.lock c none) (tok := s.token t) (pr := s.prog t) (rn := s.ran t)
        (dd := s.did t ++ [(i, none)]) (ar := s.armed t) (B := upd s.buf c (s.buf c ++ [e])) (P := upd s.put c (s.put c ++ [e]))
        (T := upd s.took c (s.took c ++ []))
        ⟨h1, h3, by rw [h2]; simp, by rw [h2]; simp, Or.inr ⟨c, some e, none, hcl, by rw [h4]; rfl, rfl⟩⟩ (iv.lkFree hheld rfl)
        (fun _ _ _ _ => ⟨trivial, rfl⟩) (fun j h => ⟨(iv.armed t j h).1, trivial⟩) (fun _ _ h => by rw [hp] at h; exact h)
        (fun _ _ h => h) (fun _ _ h => by rw [hp] at h; exact h.elim) (fun _ _ h => h.elim)
        (fun c' => by
          have := iv.cons c'
          simp only [upd_apply]
          split
          · next e => subst e; rw [List.append_nil, ← List.append_assoc]; exact this.append_right _
          · exact this)
      simp only [upd_self] at this
      exact this

theorem Inv.clause {s s' : State} (iv : Inv s) {t i : Nat} {q : Pc} (hp : s.pc t = q)
    (hq : q = .reg i ∨ q = .mark i ∨ q = .pend i ∨ q = .toggle i ∨ q = .retoggle i ∨ q = .hand i ∨ q = .setSat i ∨ q = .unset i ∨ q = .check i
      ∨ q = .avail i ∨ q = .buffer i)
    (hn : stepClause s t i q = some s') : Inv s' := by
  unfold stepClause at hn
  have hok := iv.ok t
  rw [hp] at hok
  split at hn
  · next c v hcl => exact iv.chan hp hcl hq hn
  · next hcl =>
    cases q <;> simp only [stepTimeout] at hn <;> try (simp at hn; done)
    next k =>
    have : k = i := by rcases hq with h | h | h | h | h | h | h | h | h | h | h <;> cases h; rfl
    subst this
    cases hn
    have := iv.own (t := t) (p := .reg (k + 1)) (st := s.status t) (lk := s.lock) (tok := s.token t) (pr := s.prog t) (rn := s.ran t)
      (dd := s.did t) (ar := upd (s.armed t) k true) (B := s.buf) (P := s.put) (T := s.took)
      hok (iv.lkSame (by rw [hp]; rfl))
      (fun c b j h => ⟨by have := (iv.node c b t j h).2; rw [hp] at this; exact Nat.lt_succ_of_lt this, rfl⟩)
      (fun j h => by
        rw [upd_apply] at h
        split at h
        · next e => subst e; exact ⟨hcl, Nat.lt_succ_self j⟩
        · have := iv.armed t j h
          refine ⟨this.1, ?_⟩
          have h2 := this.2
          rw [hp] at h2
          exact Nat.lt_succ_of_lt h2)
      (fun _ _ h => by rw [hp] at h; exact h)
      (fun _ _ h => h) (fun _ h1 h2 h3 => ⟨h1, trivial, h3⟩) (fun _ h1 _ h3 => ⟨h1, by rw [hp]; trivial, h3⟩) iv.cons
    simp only [upd_self] at this
    exact this
  · cases q <;> simp only at hn <;> try (simp at hn; done)
    cases hn
    exact iv.go' hp hok (iv.lkSame (by rw [hp]; rfl)) (fun j h => trivial) (fun _ _ h => h)
        (fun _ _ h => h) (fun _ _ _ => Iff.rfl)

/-- A thread outside of `waituntil` statements tries to win the first node of a list. -/
theorem Inv.handleOr {s s' : State} (iv : Inv s) {t c : Nat} {b : Bool} {q won : Pc} {drained : State} (hp : s.pc t = q)
    (hheld : held (s.prog t) q = some c) (hok : ∀ st tok pr rn dd, TOk q st tok pr rn dd → TOk won st tok pr rn dd)
    (hlk : ∀ pr, held pr won = some c) (hreg : ∀ j, ¬ Reg q j) (hh : ∀ pr c b, ¬ Hands pr q c b)
    (hh' : ∀ pr c' b', Hands pr won c' b' ↔ c' = c ∧ b' = b) (hwq : ¬ Waits q) (hww : ¬ Waits won)
    (hd : Inv drained) (hn : handleOr s t c b won drained = some s') : Inv s' := by
  subst hp
  unfold Select.handleOr at hn
  split at hn
  · cases hn; exact hd
  · next u j l hw =>
    split at hn
    · next hu =>
      cases hn
      refine iv.win hw hu ?_ hheld (hok _ _ _ _ _ (iv.ok t)) (hlk _) (fun j h => absurd h (hreg j)) (hh _) (hh' _) hwq hww
      rintro rfl
      exact hreg j (iv.node c b u j (by rw [hw]; simp)).2
    · cases hn; exact iv
    · cases hn
      refine iv.list ?_ ?_ ?_
      · intro t' h
        have h1 := (iv.lock c t').2 h.held
        have h2 := (iv.lock c t).2 hheld
        rw [h1] at h2
        cases h2
        exact hh _ _ _ h
      · have := iv.nodup c b
        rw [hw] at this
        exact (List.nodup_cons.1 this).2
      · intro u' j' h
        exact iv.node c _ u' j' (by rw [hw]; exact List.mem_cons_of_mem _ h)

/-- A thread outside of `waituntil` statements: what it changes is its point, locks and buffers. -/
theorem Inv.out {s : State} (iv : Inv s) {t : Nat} {q p : Pc} {lk : Nat → Option Nat} {B P T : Nat → List Nat} (hp : s.pc t = q)
    (hok : TOk p (s.status t) (s.token t) (s.prog t) (s.ran t) (s.did t))
    (hlk : ∀ c, (lk c = some t ↔ held (s.prog t) p = some c) ∧ ∀ u, u ≠ t → (lk c = some u ↔ s.lock c = some u))
    (hreg : ∀ j, ¬ Reg q j) (hh : ∀ pr c b, ¬ Hands pr q c b) (hh' : ∀ pr c b, ¬ Hands pr p c b) (hwq : ¬ Waits q) (hwp : ¬ Waits p)
    (hcons : ∀ c, (P c).Perm (T c ++ B c)) : Inv { s with pc := upd s.pc t p, lock := lk, buf := B, put := P, took := T } := by
  subst hp
  have := iv.own (t := t) (p := p) (st := s.status t) (lk := lk) (tok := s.token t) (pr := s.prog t) (rn := s.ran t)
    (dd := s.did t) (ar := s.armed t) (B := B) (P := P) (T := T) hok hlk
    (fun c b j h => absurd (iv.node c b t j h).2 (hreg j)) (fun j h => absurd (iv.armed t j h).2 (hreg j))
    (hh _) (hh' _) (fun _ _ h => absurd h hwq) (fun _ _ h => absurd h hwp) hcons
  simp only [upd_self] at this
  exact this

theorem Inv.wakeW {s : State} (iv : Inv s) {t c : Nat} (h : Hands (s.prog t) (s.pc t) c true) :
    ∃ u j l, s.wait c true = (u, j) :: l ∧ wake s c true none = { s with
      wait := (setWait s c true l).wait, token := upd s.token u true, did := upd s.did u (s.did u ++ [(j, none)])
      put := upd s.put c (s.put c ++ [elem s ((s.wait c true).headD (0, 0))]), took := upd s.took c (s.took c ++ []) } := by
  obtain ⟨u, j, l, hw, _⟩ := iv.hand t c _ h
  refine ⟨u, j, l, hw, ?_⟩
  have : wake s c true none = perform { setWait s c true l with token := upd s.token u true } u j none := by simp only [wake, hw]
  rw [this, perform_write (c := c) (by exact iv.writer hw)]
  rfl

theorem Inv.wakeR {s : State} (iv : Inv s) {t c v : Nat} (h : Hands (s.prog t) (s.pc t) c false) :
    ∃ u j l, s.wait c false = (u, j) :: l ∧ wake s c false (some v) = { s with
      wait := (setWait s c false l).wait, token := upd s.token u true, did := upd s.did u (s.did u ++ [(j, some v)])
      put := upd s.put c (s.put c ++ []), took := upd s.took c (s.took c ++ [v]) } := by
  obtain ⟨u, j, l, hw, _⟩ := iv.hand t c _ h
  refine ⟨u, j, l, hw, ?_⟩
  have : wake s c false (some v) = perform { setWait s c false l with token := upd s.token u true } u j (some v) := by simp only [wake, hw]
  rw [this, perform_read (c := c) (by exact iv.reader hw)]
  rfl

/-- A thread outside of `waituntil` statements hands off to the first node of a list. -/
theorem Inv.outGive {s : State} (iv : Inv s) {t c : Nat} {b : Bool} {q : Pc} {r : Option Nat} {B P T : Nat → List Nat} (hp : s.pc t = q)
    {u j : Nat} {l : List (Nat × Nat)} (hw : s.wait c b = (u, j) :: l)
    (hok : TOk q (s.status t) (s.token t) (s.prog t) (s.ran t) (s.did t) → TOk .idle (s.status t) (s.token t) (s.prog t) (s.ran t) (s.did t))
    (hh : Hands (s.prog t) q c b) (hreg : ∀ j, ¬ Reg q j) (hwq : ¬ Waits q) (hr : r.isSome = !b)
    (hcons : ∀ c, (P c).Perm (T c ++ B c)) :
    Inv { s with
      pc := upd s.pc t .idle, wait := (setWait s c b l).wait, token := upd s.token u true, did := upd s.did u (s.did u ++ [(j, r)])
      lock := upd s.lock c none, buf := B, put := P, took := T } := by
  subst hp
  obtain ⟨u', j', l', hw', hu, htok, hWaits⟩ := iv.hand t c _ hh
  rw [hw] at hw'
  cases hw'
  have hut : t ≠ u := by rintro rfl; exact hwq hWaits
  refine iv.give (t := t) hw (w := (setWait s c b l).wait) rfl hh hwq (p := .idle) (fun h => h) ?_ ?_ ?_
    (r := r) hr (iv.lkFree hh.held rfl) (fun j h => absurd h (hreg j)) (fun _ _ h => h) hcons
  · have := hok (iv.ok t)
    simpa [upd_apply, hut] using this
  · simp [upd_apply]
  · intro x hx1 hx2
    simp [upd_apply, hx1]

theorem Inv.step' {s s' : State} (iv : Inv s) {t : Nat} (hn : step s t = some s') : Inv s' := by
  have hok := iv.ok t
  cases hp : s.pc t with
  | idle => simp [step, hp] at hn
  | reg i => exact iv.clause (i := i) hp (by simp) (by simpa [step, hp] using hn)
  | mark i => exact iv.clause (i := i) hp (by simp) (by simpa [step, hp] using hn)
  | pend i => exact iv.clause (i := i) hp (by simp) (by simpa [step, hp] using hn)
  | toggle i => exact iv.clause (i := i) hp (by simp) (by simpa [step, hp] using hn)
  | retoggle i => exact iv.clause (i := i) hp (by simp) (by simpa [step, hp] using hn)
  | hand i => exact iv.clause (i := i) hp (by simp) (by simpa [step, hp] using hn)
  | setSat i => exact iv.clause (i := i) hp (by simp) (by simpa [step, hp] using hn)
  | unset i => exact iv.clause (i := i) hp (by simp) (by simpa [step, hp] using hn)
  | check i => exact iv.clause (i := i) hp (by simp) (by simpa [step, hp] using hn)
  | avail i => exact iv.clause (i := i) hp (by simp) (by simpa [step, hp] using hn)
  | buffer i => exact iv.clause (i := i) hp (by simp) (by simpa [step, hp] using hn)
  | park =>
    simp only [step, hp] at hn
    rw [hp] at hok
    split at hn
    swap
    · simp at hn
    next htok =>
    obtain ⟨i, hs, hd⟩ := hok.2.2.2.2 htok
    rw [hs] at hn
    simp only at hn
    cases hn
    have := iv.own (t := t) (p := .body i) (st := s.status t) (lk := s.lock) (tok := false) (pr := s.prog t) (rn := s.ran t)
      (dd := s.did t) (ar := s.armed t) (B := s.buf) (P := s.put) (T := s.took)
      ⟨hok.1, rfl, by rw [hs]; simp, by rw [hs]; simp, hd⟩ (iv.lkSame (by rw [hp]; rfl)) (fun _ _ _ _ => ⟨trivial, rfl⟩)
      (fun j h => ⟨(iv.armed t j h).1, trivial⟩) (fun _ _ h => by rw [hp] at h; exact h)
      (fun _ _ h => h) (fun _ _ _ h => by rw [htok] at h; cases h) (fun _ _ h => h.elim) iv.cons
    simp only [upd_self] at this
    exact this
  | body i =>
    simp only [step, hp] at hn
    rw [hp] at hok
    cases hn
    obtain ⟨h1, h2, h3, h4, h5⟩ := hok
    have := iv.own (t := t) (p := .unreg 0) (st := s.status t) (lk := s.lock) (tok := s.token t) (pr := s.prog t) (rn := s.ran t ++ [i])
      (dd := s.did t) (ar := s.armed t) (B := s.buf) (P := s.put) (T := s.took)
      ⟨h2, h3, h4, i, by rw [h1]; rfl, h5⟩ (iv.lkSame (by rw [hp]; rfl)) (fun _ _ _ _ => ⟨Nat.zero_le _, rfl⟩)
      (fun j h => ⟨(iv.armed t j h).1, Nat.zero_le _⟩) (fun _ _ h => by rw [hp] at h; exact h)
      (fun _ _ h => h) (fun _ _ h => by rw [hp] at h; exact h.elim) (fun _ _ h => h.elim) iv.cons
    simp only [upd_self] at this
    exact this
  | unreg j =>
    simp only [step, hp] at hn
    rw [hp] at hok
    have hno : ∀ c b, ¬ Hands (s.prog t) (s.pc t) c b := fun _ _ h => by rw [hp] at h; exact h
    split at hn
    · next cl hcl =>
      cases cl with
      | timeout =>
        simp only [unregister] at hn
        cases hn
        have := iv.own (t := t) (p := .unreg (j + 1)) (st := s.status t) (lk := s.lock) (tok := s.token t) (pr := s.prog t) (rn := s.ran t)
          (dd := s.did t) (ar := upd (s.armed t) j false) (B := s.buf) (P := s.put) (T := s.took)
          hok (iv.lkSame (by rw [hp]; rfl))
          (fun c b k h => by
            have h1 := iv.node c b t k h
            rw [hp] at h1
            obtain ⟨⟨v, h2, _⟩, h3⟩ := h1
            refine ⟨?_, rfl⟩
            have h3 : j ≤ k := h3
            have : j ≠ k := by rintro rfl; rw [hcl] at h2; cases h2
            show j + 1 ≤ k
            omega)
          (fun k h => by
            rw [upd_apply] at h
            split at h
            · simp at h
            · next e =>
              have := iv.armed t k h
              rw [hp] at this
              refine ⟨this.1, ?_⟩
              have h3 : j ≤ k := this.2
              show j + 1 ≤ k
              omega)
          hno (fun _ _ h => h) (fun _ _ h => by rw [hp] at h; exact h.elim) (fun _ _ h => h.elim) iv.cons
        simp only [upd_self] at this
        exact this
      | chan c v =>
        simp only [unregister] at hn
        have key : ∀ s1 : State, Inv s1 → s1.pc t = .unreg j → (∀ c b, (t, j) ∉ s1.wait c b) → (s1.prog t)[j]? = some (.chan c v) →
            Inv (goto s1 t (.unreg (j + 1))) := by
          intro s1 iv1 hp1 hni hcl1
          have hok1 := iv1.ok t
          rw [hp1] at hok1
          have := iv1.own (t := t) (p := .unreg (j + 1)) (st := s1.status t) (lk := s1.lock) (tok := s1.token t) (pr := s1.prog t) (rn := s1.ran t)
            (dd := s1.did t) (ar := s1.armed t) (B := s1.buf) (P := s1.put) (T := s1.took)
            hok1 (iv1.lkSame (by rw [hp1]; rfl))
            (fun c b k h => by
              have h1 := (iv1.node c b t k h).2
              rw [hp1] at h1
              refine ⟨?_, rfl⟩
              have h3 : j ≤ k := h1
              have : j ≠ k := by rintro rfl; exact hni c b h
              show j + 1 ≤ k
              omega)
            (fun k h => by
              have := iv1.armed t k h
              rw [hp1] at this
              refine ⟨this.1, ?_⟩
              have h3 : j ≤ k := this.2
              have : j ≠ k := by rintro rfl; rw [hcl1] at this; cases this.1
              show j + 1 ≤ k
              omega)
            (fun _ _ h => by rw [hp1] at h; exact h) (fun _ _ h => h) (fun _ _ h => by rw [hp1] at h; exact h.elim) (fun _ _ h => h.elim) iv1.cons
          simp only [upd_self] at this
          exact this
        have hother : ∀ c' b', (t, j) ∈ s.wait c' b' → c' = c ∧ b' = v.isSome := by
          intro c' b' h
          obtain ⟨⟨v', h1, h2⟩, _⟩ := iv.node c' b' t j h
          rw [hcl] at h1
          cases h1
          exact ⟨rfl, h2.symm⟩
        split at hn
        · split at hn
          · next hl =>
            cases hn
            have iv1 : Inv (setWait s c v.isSome ((s.wait c v.isSome).erase (t, j))) := by
              refine iv.list ?_ ((iv.nodup _ _).erase _) (fun u k h => iv.node _ _ u k (List.mem_of_mem_erase h))
              intro t'
              exact iv.no_hands (fun t' b h => by rw [hl] at h; cases h) t' _
            refine key _ iv1 hp ?_ hcl
            intro c' b' h
            simp only [setWait, upd_apply] at h
            by_cases e : c' = c
            · subst e
              rw [if_pos rfl] at h
              by_cases e' : b' = v.isSome
              · rw [if_pos e'] at h
                exact (iv.nodup _ _).not_mem_erase h
              · rw [if_neg e'] at h
                exact e' (hother c' b' h).2
            · rw [if_neg e] at h
              exact e (hother c' b' h).1
          · simp at hn
        · next hni =>
          cases hn
          refine key s iv hp ?_ hcl
          intro c' b' h
          obtain ⟨rfl, rfl⟩ := hother c' b' h
          exact hni h
    · next hcl =>
      cases hn
      have hlen : (s.prog t).length ≤ j := List.getElem?_eq_none_iff.1 hcl
      have hnone : ∀ k, j ≤ k → (s.prog t)[k]? = none := fun k hk => List.getElem?_eq_none_iff.2 (by omega)
      obtain ⟨h1, h2, h3, h4⟩ := hok
      have := iv.own (t := t) (p := .idle) (st := s.status t) (lk := s.lock) (tok := s.token t) (pr := s.prog t) (rn := s.ran t)
        (dd := s.did t) (ar := s.armed t) (B := s.buf) (P := s.put) (T := s.took)
        ⟨h1, h3, Or.inr h4⟩ (iv.lkSame (by rw [hp]; rfl))
        (fun c b k h => by
          obtain ⟨⟨v, h1, _⟩, h2⟩ := iv.node c b t k h
          rw [hp] at h2
          rw [hnone k h2] at h1
          cases h1)
        (fun k h => by
          obtain ⟨h1, h2⟩ := iv.armed t k h
          rw [hp] at h2
          rw [hnone k h2] at h1
          cases h1)
        hno (fun _ _ h => h) (fun _ _ h => by rw [hp] at h; exact h.elim) (fun _ _ h => h.elim) iv.cons
      simp only [upd_self] at this
      exact this
  | ins c v =>
    simp only [step, hp] at hn
    rw [hp] at hok
    split at hn
    · next hl =>
      cases hn
      exact iv.out hp hok (iv.lkTake hl (by rw [hp]; rfl) rfl) (fun _ h => h) (fun _ _ _ h => h) (fun _ _ _ h => h) (fun h => h) (fun h => h) iv.cons
    · simp at hn
  | insOr c v =>
    simp only [step, hp] at hn
    rw [hp] at hok
    refine iv.handleOr (b := false) (won := .insHand c v) hp rfl (fun _ _ _ _ _ h => h) (fun _ => rfl) (fun _ h => h) (fun _ _ _ h => h) ?_ (fun h => h) (fun h => h) ?_ hn
    · intro pr c' b'; simp only [Hands]; exact ⟨fun h => ⟨h.1.symm, h.2⟩, fun h => ⟨h.1.symm, h.2⟩⟩
    · have hlk := iv.lkFree (t := t) (c := c) (pr := s.prog t) (p := .idle) (by rw [hp]; rfl) rfl
      split
      · exact iv.out hp hok hlk (fun _ h => h) (fun _ _ _ h => h) (fun _ _ _ h => h) (fun h => h) (fun h => h) iv.cons
      · refine iv.out (B := upd s.buf c (s.buf c ++ [v])) (P := upd s.put c (s.put c ++ [v])) (T := upd s.took c (s.took c ++ [])) hp hok hlk
          (fun _ h => h) (fun _ _ _ h => h) (fun _ _ _ h => h) (fun h => h) (fun h => h) ?_
        intro c'
        have := iv.cons c'
        simp only [upd_apply]
        split
        · next e => subst e; rw [List.append_nil, ← List.append_assoc]; exact this.append_right _
        · exact this
  | insHand c v =>
    simp only [step, hp] at hn
    have hh : Hands (s.prog t) (.insHand c v) c false := ⟨rfl, rfl⟩
    obtain ⟨u, j, l, hw, hk⟩ := iv.wakeR (t := t) (v := v) (by rw [hp]; exact hh)
    rw [hk] at hn
    cases hn
    refine iv.outGive hp hw (fun h => h) hh (fun _ h => h) (fun h => h) rfl ?_
    intro c'
    have := iv.cons c'
    by_cases e : c' = c
    · subst e; have := perm_hand (e := v) this; simpa [unlock, record] using this
    · simpa [unlock, record, upd_apply, e] using this
  | rem c =>
    simp only [step, hp] at hn
    rw [hp] at hok
    split at hn
    swap
    · simp at hn
    next hl =>
    have hsame := iv.lkSame (t := t) (pr := s.prog t) (p := .idle) (by rw [hp]; rfl)
    have htake := fun p => iv.lkTake (t := t) (pr := s.prog t) (c := c) (p := p) hl (by rw [hp]; rfl)
    split at hn
    · cases hn
      exact iv.out hp hok (htake _ rfl) (fun _ h => h) (fun _ _ _ h => h) (fun _ _ _ h => h) (fun h => h) (fun h => h) iv.cons
    · split at hn
      · cases hn
        exact iv.out hp hok hsame (fun _ h => h) (fun _ _ _ h => h) (fun _ _ _ h => h) (fun h => h) (fun h => h) iv.cons
      · next e l hb =>
        have hc : ∀ c', (upd s.put c (s.put c ++ []) c').Perm (upd s.took c (s.took c ++ [e]) c' ++ upd s.buf c l c') := by
          intro c'
          have := iv.cons c'
          simp only [upd_apply]
          split
          · next e => subst e; rw [hb] at this; simpa [unlock, record] using this
          · exact this
        split at hn
        · cases hn
          exact iv.out hp hok (htake _ rfl) (fun _ h => h) (fun _ _ _ h => h) (fun _ _ _ h => h) (fun h => h) (fun h => h) hc
        · cases hn
          exact iv.out hp hok hsame (fun _ h => h) (fun _ _ _ h => h) (fun _ _ _ h => h) (fun h => h) (fun h => h) hc
  | remOr c =>
    simp only [step, hp] at hn
    rw [hp] at hok
    refine iv.handleOr (b := true) (won := .remHand c) hp rfl (fun _ _ _ _ _ h => h) (fun _ => rfl) (fun _ h => h) (fun _ _ _ h => h) ?_ (fun h => h) (fun h => h) ?_ hn
    · intro pr c' b'; simp only [Hands]; exact ⟨fun h => ⟨h.1.symm, h.2⟩, fun h => ⟨h.1.symm, h.2⟩⟩
    · have hlk := iv.lkFree (t := t) (c := c) (pr := s.prog t) (p := .idle) (by rw [hp]; rfl) rfl
      exact iv.out hp hok hlk (fun _ h => h) (fun _ _ _ h => h) (fun _ _ _ h => h) (fun h => h) (fun h => h) iv.cons
  | remHand c =>
    simp only [step, hp] at hn
    have hh : Hands (s.prog t) (.remHand c) c true := ⟨rfl, rfl⟩
    obtain ⟨u, j, l, hw, hk⟩ := iv.wakeW (t := t) (by rw [hp]; exact hh)
    rw [hk] at hn
    cases hn
    refine iv.outGive hp hw (fun h => h) hh (fun _ h => h) (fun h => h) rfl ?_
    intro c'
    have := iv.cons c'
    by_cases e : c' = c
    · subst e; have := perm_hand (e := elem s ((s.wait c' true).headD (0, 0))) this; simpa [unlock, record] using this
    · simpa [unlock, record, upd_apply, e] using this
  | refillOr c =>
    simp only [step, hp] at hn
    rw [hp] at hok
    refine iv.handleOr (b := true) (won := .refill c) hp rfl (fun _ _ _ _ _ h => h) (fun _ => rfl) (fun _ h => h) (fun _ _ _ h => h) ?_ (fun h => h) (fun h => h) ?_ hn
    · intro pr c' b'; simp only [Hands]; exact ⟨fun h => ⟨h.1.symm, h.2⟩, fun h => ⟨h.1.symm, h.2⟩⟩
    · have hlk := iv.lkFree (t := t) (c := c) (pr := s.prog t) (p := .idle) (by rw [hp]; rfl) rfl
      exact iv.out hp hok hlk (fun _ h => h) (fun _ _ _ h => h) (fun _ _ _ h => h) (fun h => h) (fun h => h) iv.cons
  | refill c =>
    simp only [step, hp] at hn
    have hh : Hands (s.prog t) (.refill c) c true := ⟨rfl, rfl⟩
    obtain ⟨u, j, l, hw, hk⟩ := iv.wakeW (t := t) (by rw [hp]; exact hh)
    rw [hk] at hn
    cases hn
    refine iv.outGive hp hw (fun h => h) hh (fun _ h => h) (fun h => h) rfl ?_
    intro c'
    have := iv.cons c'
    by_cases e : c' = c
    · subst e
      have := this.append_right [elem s ((s.wait c' true).headD (0, 0))]
      simpa [unlock, record, List.append_assoc] using this
    · simpa [unlock, record, upd_apply, e] using this

theorem Inv.next {s s' : State} (iv : Inv s) {a : Act} (hn : Select.next s a = some s') : Inv s' := by
  cases a with
  | wait t cs =>
    simp only [Select.next] at hn
    split at hn
    swap
    · simp at hn
    next h =>
    cases hn
    have hok := iv.ok t
    have hp := h.1
    rw [hp] at hok
    have := iv.own (t := t) (p := .reg 0) (st := .unsat) (lk := s.lock) (tok := s.token t) (pr := cs) (rn := [])
      (dd := []) (ar := s.armed t) (B := s.buf) (P := s.put) (T := s.took)
      (by rw [hok.1]; exact calm_unsat) (iv.lkSame (by rw [hp]; rfl))
      (fun c b j h => by have := (iv.node c b t j h).2; rw [hp] at this; exact this.elim)
      (fun j h => by have := (iv.armed t j h).2; rw [hp] at this; exact this.elim)
      (fun _ _ h => by rw [hp] at h; exact h)
      (fun _ _ h => h) (fun _ _ h => by rw [hp] at h; exact h.elim) (fun _ h => by cases h) iv.cons
    simp only [upd_self] at this
    exact this
  | tryInsert t c v =>
    simp only [Select.next] at hn
    split at hn
    swap
    · simp at hn
    next hp =>
    cases hn
    have hok := iv.ok t
    rw [hp] at hok
    exact iv.go' hp hok (iv.lkSame (by rw [hp]; rfl)) (fun j h => h) (fun _ _ h => h) (fun _ _ h => h) (fun _ _ _ => Iff.rfl)
  | tryRemove t c =>
    simp only [Select.next] at hn
    split at hn
    swap
    · simp at hn
    next hp =>
    cases hn
    have hok := iv.ok t
    rw [hp] at hok
    exact iv.go' hp hok (iv.lkSame (by rw [hp]; rfl)) (fun j h => h) (fun _ _ h => h) (fun _ _ h => h) (fun _ _ _ => Iff.rfl)
  | step t => exact iv.step' hn
  | fire t i =>
    simp only [Select.next] at hn
    split at hn
    swap
    · simp at hn
    next h =>
    cases hn
    have hok := iv.ok t
    have ha := iv.armed t i h.1
    rw [h.2] at hok
    have hW := hok.unsat ha.2
    obtain ⟨h1, h2, h3⟩ := (hok.calm hW).unsat
    have := iv.own (t := t) (p := s.pc t) (st := .node i) (lk := s.lock) (tok := true) (pr := s.prog t) (rn := s.ran t)
      (dd := s.did t) (ar := s.armed t) (B := s.buf) (P := s.put) (T := s.took)
      (hok.waits hW ⟨h1, by simp, by simp, by simp, fun _ => ⟨i, rfl, Or.inl ⟨ha.1, h3⟩⟩⟩) (iv.lkSame rfl)
      (fun c b j h => ⟨(iv.node c b t j h).2, rfl⟩)
      (fun j h => iv.armed t j h)
      (fun _ _ hh => by cases hp : s.pc t <;> rw [hp] at hW hh <;> first | exact hW | exact hh)
      (fun _ _ hh => by cases hp : s.pc t <;> rw [hp] at hW hh <;> first | exact hW | exact hh)
      (fun _ hh => by rw [h.2] at hh; cases hh) (fun _ _ _ hh => by cases hh) iv.cons
    simp only [upd_self] at this
    exact this

theorem inv_reach {size : Nat → Nat} {s : State} (h : Reach next (start size) s) : Inv s :=
  Reach.inv Inv (inv_start size) (fun _ _ _ hi hn => hi.next hn) h

end Verif.Select
