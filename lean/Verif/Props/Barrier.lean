import Verif.Model.Barrier
import Verif.Proof.Heap
/-!
C48: barriers. `Reach next (start n) s`: `s` is reached from a new barrier of size `n` by any interleaving of any number of threads calling `block`
any number of times. The arrivals are grouped by the number of groups formed before them: the generation. `s.arrived`, `s.rets` and `s.calls` list
the arrivals, the returns of `block` and the calls of the callback.
-/
namespace Verif.Barrier
open Verif

/-- The numbers given to the arrivals of a generation, in the order of arrival. -/
def numbers (s : State) (g : Nat) : List Nat := (s.arrived.filter (fun x => x.2.1 = g)).map (fun x => x.2.2)

theorem signalAll_eq (pc : Nat → Pc) (l : List Nat) (t : Nat) :
    signalAll pc l t = if t ∈ l then (match pc t with | .waiting g a => .signalled g a | p => p) else pc t := by
  induction l with
  | nil => rfl
  | cons c l ih => simp only [signalAll, upd, ih]; grind

theorem dec_eq {n : Nat} (h : 0 < n) (h2 : n < 2 ^ 64) : dec n = n - 1 := by
  unfold dec; omega

structure Inv (n : Nat) (s : State) : Prop where
  grp : s.group = n
  pos : 0 < s.arrivals
  le : s.arrivals ≤ n
  cond : ∀ t g a, s.pc t = .waiting g a → t ∈ s.cond ∧ g = s.formed
  arrle : ∀ t g a, (t, g, a) ∈ s.arrived → g ≤ s.formed
  arrw : ∀ t g a, (t, g, a) ∈ s.arrived → g = s.formed → s.pc t = .waiting g a
  arrs : ∀ t g a, (t, g, a) ∈ s.arrived → g < s.formed → (t, g, a) ∈ s.rets ∨ s.pc t = .signalled g a
  warr : ∀ t g a, s.pc t = .waiting g a → (t, g, a) ∈ s.arrived
  sarr : ∀ t g a, s.pc t = .signalled g a → (t, g, a) ∈ s.arrived ∧ g < s.formed ∧ (t, g, a) ∉ s.rets
  ret : ∀ t g a, (t, g, a) ∈ s.rets → (t, g, a) ∈ s.arrived ∧ g < s.formed
  nd : s.rets.Nodup
  old : ∀ g, g < s.formed → numbers s g = (List.range n).reverse
  cur : numbers s s.formed = (List.range n).reverse.take (n - s.arrivals)
  callsg : s.calls.map Prod.snd = List.range s.formed
  calls0 : ∀ t g, (t, g) ∈ s.calls → (t, g, 0) ∈ s.arrived

theorem start_inv (n : Nat) (h : 0 < n) : Inv n (start n) := by
  constructor <;> simp [start, numbers, h]

theorem rev_range_get (n i : Nat) (h : i < n) : (List.range n).reverse[i]? = some (n - 1 - i) := by
  rw [List.getElem?_reverse (by simpa using h)]
  rw [List.length_range, List.getElem?_range (by omega)]

theorem step_inv {n : Nat} (h2 : n < 2 ^ 64) {s s' : State} {a : Act} (h : next s a = some s') (iv : Inv n s) : Inv n s' := by
  obtain ⟨i1, i2, i3, i4, i5, i6, i7, i8, i9, i10, i11, i12, i13, i14, i15⟩ := iv
  have hnum : ∀ (s1 : State) t g a, s1.arrived = s.arrived ++ [(t, s.formed, a)] → numbers s1 g = if g = s.formed then numbers s g ++ [a] else numbers s g := by
    intro s1 t g a h
    simp only [numbers, h, List.filter_append, List.map_append]
    split
    · next h => subst h; simp
    · next h => simp [List.filter_cons, Ne.symm h]
  have htake : numbers s s.formed ++ [s.arrivals - 1] = (List.range n).reverse.take (n - s.arrivals + 1) := by
    rw [i13, List.take_add_one, rev_range_get n _ (by omega)]
    have : n - 1 - (n - s.arrivals) = s.arrivals - 1 := by omega
    simp [this]
  cases a with
  | block t =>
    simp only [next] at h
    split at h
    swap
    · cases h
    next hpc =>
    rw [dec_eq i2 (by omega)] at h
    split at h
    · next hne =>
      cases h
      refine ⟨i1, by simp only; omega, by simp only; omega, ?_, ?_, ?_, ?_, ?_, ?_, ?_, i11, ?_, ?_, i14, ?_⟩
      · intro u g a; simp only [upd]; have := i4 u g a; grind
      · intro u g a; have := i5 u g a; grind
      · intro u g a; simp only [upd]; have := i6 u g a; grind
      · intro u g a; simp only [upd]; have := i7 u g a; grind
      · intro u g a; simp only [upd]; have := i8 u g a; grind
      · intro u g a; simp only [upd]; have := i9 u g a; grind
      · intro u g a; have := i10 u g a; grind
      · intro g hg
        rw [hnum _ t g _ rfl, if_neg (by simp only at hg; omega)]
        exact i12 g hg
      · rw [hnum _ t _ _ rfl, if_pos rfl, htake]
        simp only
        congr 1
        omega
      · intro u g; have := i15 u g; grind
    · next heq =>
      have h1 : s.arrivals = 1 := by omega
      cases h
      refine ⟨i1, by simp only; omega, by simp only; omega, ?_, ?_, ?_, ?_, ?_, ?_, ?_, ?_, ?_, ?_, ?_, ?_⟩
      · intro u g a; simp only [signalAll_eq]; have := i4 u g a; grind
      · intro u g a; have := i5 u g a; grind
      · intro u g a; have := i5 u g a; grind
      · intro u g a; simp only [signalAll_eq]; have := i4 u g a; have := i5 u g a; have := i6 u g a; have := i7 u g a; grind
      · intro u g a; simp only [signalAll_eq]; have := i4 u g a; have := i8 u g a; grind
      · intro u g a; simp only [signalAll_eq]; have := i4 u g a; have := i8 u g a; have := i9 u g a; have := i10 u g a; grind
      · intro u g a; have := i10 u g a; grind
      · refine List.nodup_append.2 ⟨i11, by simp, ?_⟩
        rintro ⟨u, g, a⟩ hx b hb
        have := i10 u g a hx
        simp only [List.mem_singleton] at hb
        subst hb
        grind
      · intro g hg
        rw [hnum _ t g _ rfl]
        split
        · next h => subst h; rw [htake, h1, List.take_of_length_le (by simp; omega)]
        · exact i12 g (by simp only at hg; omega)
      · simp only [i1, Nat.sub_self, List.take_zero]
        rw [hnum _ t _ _ rfl, if_neg (by omega)]
        simp only [numbers, List.map_eq_nil_iff, List.filter_eq_nil_iff]
        rintro ⟨u, g, a⟩ hx
        have := i5 u g a hx
        simp only [decide_eq_true_eq]
        omega
      · simp only [List.map_append, i14, List.map_cons, List.map_nil, List.range_succ]
      · intro u g; have := i15 u g; grind
  | leave t =>
    simp only [next] at h
    split at h
    swap
    · cases h
    next g0 a0 hpc =>
    cases h
    have hs := i9 t g0 a0 hpc
    refine ⟨i1, i2, i3, ?_, i5, ?_, ?_, ?_, ?_, ?_, ?_, i12, i13, i14, i15⟩
    · intro u g a; simp only [upd]; have := i4 u g a; grind
    · intro u g a; simp only [upd]; have := i6 u g a; grind
    · intro u g a; simp only [upd]; have := i7 u g a; grind
    · intro u g a; simp only [upd]; have := i8 u g a; grind
    · intro u g a; simp only [upd]; have := i9 u g a; grind
    · intro u g a; have := i10 u g a; grind
    · refine List.nodup_append.2 ⟨i11, by simp, ?_⟩
      rintro x hx b hb
      simp only [List.mem_singleton] at hb
      subst hb
      rintro rfl
      exact hs.2.2 hx

theorem reach_inv {n : Nat} (h1 : 0 < n) (h2 : n < 2 ^ 64) {s : State} (h : Reach next (start n) s) : Inv n s :=
  Reach.inv (Inv n) (start_inv n h1) (fun _ _ _ hi hn => step_inv h2 hn hi) h

/-- C48: a thread that has returned from `block` belongs to a generation of which exactly `n` threads have arrived; they are numbered from `n - 1`
    down to 0 in the order of arrival, and the thread returns its own number. -/
theorem C48_full_generation {n : Nat} (h1 : 0 < n) (h2 : n < 2 ^ 64) {s : State} (h : Reach next (start n) s) {t g a : Nat} (hr : (t, g, a) ∈ s.rets) :
    numbers s g = (List.range n).reverse ∧ (t, g, a) ∈ s.arrived :=
  have iv := reach_inv h1 h2 h
  have hx := iv.ret t g a hr
  ⟨iv.old g hx.2, hx.1⟩

/-- C48: generations do not mix: each is complete before the next one begins, and the arrivals of the current one are numbered from `n - 1` down. -/
theorem C48_generations {n : Nat} (h1 : 0 < n) (h2 : n < 2 ^ 64) {s : State} (h : Reach next (start n) s) (g : Nat) :
    (g < s.formed → numbers s g = (List.range n).reverse) ∧ (numbers s s.formed <+: (List.range n).reverse ∧ (numbers s s.formed).length < n) ∧
    (s.formed < g → numbers s g = []) := by
  have iv := reach_inv h1 h2 h
  refine ⟨iv.old g, ⟨by rw [iv.cur]; exact List.take_prefix _ _, ?_⟩, fun hg => ?_⟩
  · rw [iv.cur]
    have := iv.pos
    simp
    omega
  · simp only [numbers, List.map_eq_nil_iff, List.filter_eq_nil_iff]
    rintro ⟨u, g', a⟩ hx
    have := iv.arrle u g' a hx
    simp only [decide_eq_true_eq]
    omega

/-- C48: as soon as a generation is complete, all its threads are released: each has returned or can return at once; no thread returns twice
    for one arrival; and the threads of an incomplete generation wait. -/
theorem C48_released {n : Nat} (h1 : 0 < n) (h2 : n < 2 ^ 64) {s : State} (h : Reach next (start n) s) {t g a : Nat} (ha : (t, g, a) ∈ s.arrived) :
    s.rets.Nodup ∧ (g < s.formed → (t, g, a) ∈ s.rets ∨ (next s (.leave t)).isSome = true) ∧
    (g = s.formed → (t, g, a) ∉ s.rets ∧ next s (.leave t) = none ∧ next s (.block t) = none) := by
  have iv := reach_inv h1 h2 h
  refine ⟨iv.nd, fun hg => ?_, fun hg => ?_⟩
  · rcases iv.arrs t g a ha hg with h | h
    · exact Or.inl h
    · exact Or.inr (by simp [next, h])
  · have hw := iv.arrw t g a ha hg
    refine ⟨fun hr => ?_, by simp [next, hw], by simp [next, hw]⟩
    have := (iv.ret t g a hr).2
    omega

/-- C48: the callback is called once for each complete generation, in order, by its last thread. -/
theorem C48_callback {n : Nat} (h1 : 0 < n) (h2 : n < 2 ^ 64) {s : State} (h : Reach next (start n) s) :
    s.calls.map Prod.snd = List.range s.formed ∧ ∀ t g, (t, g) ∈ s.calls → (t, g, 0) ∈ s.arrived :=
  have iv := reach_inv h1 h2 h
  ⟨iv.callsg, iv.calls0⟩

/-- A barrier of size 2, two generations; thread 1 is in both. -/
def demo : List Act := [.block 1, .block 2, .leave 1, .block 1, .block 3]

example : let s := (exec next (start 2) demo).getD (start 2)
    Reach next (start 2) s ∧ s.rets = [(2, 0, 0), (1, 0, 1), (3, 1, 0)] ∧ s.formed = 2 ∧ s.pc 1 = .signalled 1 1 :=
  ⟨Reach.of_isSome demo (by decide +kernel), by decide +kernel, by decide +kernel, by decide +kernel⟩

end Verif.Barrier
