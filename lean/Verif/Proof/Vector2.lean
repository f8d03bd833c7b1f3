import Verif.Model.Vector2
import Verif.Proof.Heap
import Mathlib.Data.List.Basic
/-! Invariant and step lemmas for the vector with iterators. -/
namespace Verif.Vector2
open Verif
variable {α : Type}

/-- Layout: the elements fill the buffer from its start. -/
structure Lay (v : Vec α) (l : List α) (cap : Nat) : Prop where
  pos : 0 < v.bf
  cells : v.cells = l.map some ++ List.replicate (cap - l.length) none
  le : l.length ≤ cap
  ef : v.ef = if l = [] then 0 else v.bf
  ee : v.ee = if l.length = cap then v.bf else v.bf + l.length

theorem Lay.clen {v : Vec α} {l : List α} {cap : Nat} (h : Lay v l cap) : v.cells.length = cap := by
  rw [h.cells]; have := h.le; simp; omega

theorem Lay.be {v : Vec α} {l : List α} {cap : Nat} (h : Lay v l cap) : be v = v.bf + cap := by
  rw [Vector2.be, h.clen]

theorem Lay.length {v : Vec α} {l : List α} {cap : Nat} (h : Lay v l cap) : length v = l.length := by
  have hb := h.be
  have hp := h.pos
  unfold Vector2.length
  rw [h.ef, h.ee, hb]
  by_cases hl : l = []
  · subst hl; simp
  · have : 0 < l.length := List.length_pos_of_ne_nil hl
    have := h.le
    rw [if_neg hl, if_neg (by omega)]
    by_cases hc : l.length = cap
    · rw [if_pos hc, if_neg (by omega)]; omega
    · rw [if_neg hc, if_pos (by omega)]; omega

theorem reduce_le {len u : Nat} (h : u ≤ len) : reduce len u = .ret u := by
  rw [reduce, if_neg (by omega)]

theorem reduce_mod {len : Nat} (hl : 0 < len) : ∀ u, 0 < u → reduce len u = .ret ((u - 1) % len + 1) := by
  intro u
  induction u using Nat.strongRecOn with
  | _ u ih =>
    intro hu
    rw [reduce]
    split
    · next h =>
      rw [if_neg (by omega), ih (u - len) (by omega) (by omega)]
      have : u - 1 = u - len - 1 + len := by omega
      rw [this, Nat.add_mod_right]
    · next h => rw [Nat.mod_eq_of_lt (by omega)]; congr 1; omega

theorem Lay.find {v : Vec α} {l : List α} {cap : Nat} (h : Lay v l cap) (hl : l ≠ []) {i : Nat} (hi : i < cap) (hle : i ≤ l.length)
    (hf : i < 2 ^ 64) : find v i = .ret (v.bf + i) := by
  have e : ((i : Int) % 2 ^ 64).toNat = i := by omega
  unfold Vector2.find
  rw [e, h.length, reduce_le hle, Outcome.bind_ret, h.ef, if_neg hl, h.be]
  simp [hi]

theorem Lay.rd {v : Vec α} {l : List α} {cap : Nat} (h : Lay v l cap) {i : Nat} (hi : i < l.length) :
    rd v (v.bf + i) = .ret l[i] := by
  unfold Vector2.rd
  rw [if_pos (by omega)]
  have : v.cells[v.bf + i - v.bf]? = some (some l[i]) := by
    rw [Nat.add_sub_cancel_left, h.cells, List.getElem?_append_left (by simpa using hi)]
    simp [hi]
  simp only [this]

theorem Lay.rd_none {v : Vec α} {l : List α} {cap : Nat} (h : Lay v l cap) {p : Nat} (hp : v.bf + l.length ≤ p) :
    Vector2.rd v p = .undef := by
  unfold Vector2.rd
  split
  · split
    · next x e =>
      rw [h.cells, List.getElem?_append_right (by simp; omega), List.getElem?_replicate] at e
      split at e <;> simp at e
    · rfl
  · rfl

theorem Lay.wr_lt {v : Vec α} {l : List α} {cap : Nat} (h : Lay v l cap) {i : Nat} (hi : i < l.length) (x : α) :
    ∃ c, wr v (v.bf + i) x = .ret { v with cells := c } ∧ Lay { v with cells := c } (l.set i x) cap := by
  have hle := h.le
  refine ⟨v.cells.set i (some x), ?_, h.pos, ?_, by simpa using h.le, ?_, ?_⟩
  · unfold wr; rw [if_pos (by rw [h.be]; omega), Nat.add_sub_cancel_left]
  · show v.cells.set i (some x) = _
    rw [h.cells, List.set_append_left _ _ (by simpa using hi), List.map_set, List.length_set]
  · show v.ef = _
    rw [h.ef]; simp
  · show v.ee = _
    rw [h.ee]; simp

/-- The copy loop of `grow_$` copies all the elements. -/
theorem Lay.copyLoop {v : Vec α} {l : List α} {cap : Nat} (h : Lay v l cap) (hf : l.length < 2 ^ 64) (n : Nat) :
    ∀ k pos, pos + k = l.length → l.length ≤ n →
      copyLoop v k pos ((l.take pos).map some ++ List.replicate (n - pos) none) = .ret (l.map some ++ List.replicate (n - l.length) none) := by
  intro k
  induction k with
  | zero => intro pos hp _; have : pos = l.length := by omega
            subst this; simp [Vector2.copyLoop]
  | succ k ih =>
    intro pos hp hn
    have hle := h.le
    have hl : l ≠ [] := by intro e; subst e; simp at hp
    rw [Vector2.copyLoop, h.find hl (by omega) (by omega) (by omega), Outcome.bind_ret, h.rd (by omega), Outcome.bind_ret, if_pos (by simp only [List.length_append, List.length_map, List.length_take, List.length_replicate]; omega)]
    rw [← ih (pos + 1) (by omega) hn]
    congr 1
    rw [List.set_append_right _ _ (by simp; omega)]
    obtain ⟨m, hm⟩ : ∃ m, n - pos = m + 1 := ⟨n - pos - 1, by omega⟩
    have hm' : n - (pos + 1) = m := by omega
    rw [hm, hm', List.replicate_succ]
    have : l.take (pos + 1) = l.take pos ++ [l[pos]] := by rw [List.take_append_getElem]
    rw [this]
    have hmin : min pos l.length = pos := by omega
    simp only [List.length_map, List.length_take, hmin, Nat.sub_self, List.set_cons_zero, List.map_append, List.map_cons, List.map_nil, List.append_assoc, List.cons_append, List.nil_append]

/-- Permits and exits designate positions: `P i = some k` when permit `i` is at position `k`; `E i = some none` when exit `i`
    is at the origin. -/
structure Its (v : Vec α) (n : Nat) (P : Nat → Option Nat) (E : Nat → Option (Option Nat)) (nrefs : Nat) : Prop where
  permits : ∀ i, v.permits i = (P i).map (v.bf + ·)
  plt : ∀ i k, P i = some k → k < n
  exits : ∀ i, v.exits i = (E i).map fun o => match o with | none => 0 | some k => v.bf + k
  elt : ∀ i k, E i = some (some k) → k < n
  refs : v.refs = nrefs
  noExit : nrefs = 0 → ∀ i, E i = none

theorem Lay.grow {v : Vec α} {l : List α} {cap : Nat} (h : Lay v l cap) (hf : l.length < 2 ^ 64) (hfull : l.length = cap) (hc : 0 < cap)
    {P : Nat → Option Nat} {E : Nat → Option (Option Nat)} (hI : Its v l.length P E 0) {addr : Nat} (ha : 0 < addr) :
    ∃ v', grow v addr = .ret v' ∧ Lay v' l (2 * cap) ∧ Its v' l.length P E 0 := by
  have hl : l ≠ [] := by intro e; subst e; simp at hfull; omega
  have hclen := h.clen
  refine ⟨{ v with permits := fun i => (v.permits i).map (shift · addr v.bf), bf := addr, cells := l.map some ++ List.replicate (2 * cap - l.length) none, ef := addr, ee := addr + l.length }, ?_, ⟨ha, rfl, by omega, by simp [hl], ?_⟩, ⟨?_, hI.plt, ?_, hI.elt, hI.refs, hI.noExit⟩⟩
  · have hcp := h.copyLoop hf (2 * cap) l.length 0 (by omega) (by omega)
    simp at hcp
    unfold Vector2.grow
    rw [h.length, hclen]
    dsimp only
    rw [hcp, Outcome.bind_ret, if_pos]
    · rfl
    · simp only [Vector2.be]; simp; omega
  · show addr + l.length = _
    rw [if_neg (by omega)]
  · intro i
    show (v.permits i).map _ = _
    rw [hI.permits i, Option.map_map]
    congr 1
    funext k
    simp only [Function.comp, shift]
    omega
  · intro i
    show v.exits i = _
    rw [hI.exits i, hI.noExit rfl i]; rfl

theorem ensure_spec {v : Vec α} {l : List α} {cap : Nat} (h : Lay v l cap) (hf : l.length < 2 ^ 64) (hc : 0 < cap)
    {P : Nat → Option Nat} {E : Nat → Option (Option Nat)} (hI : Its v l.length P E 0) {addr : Nat} (ha : 0 < addr) :
    ∃ v', ensure v addr = .ret v' ∧ Lay v' l (if l.length = cap then 2 * cap else cap) ∧ Its v' l.length P E 0 := by
  unfold ensure
  have hr := hI.refs
  have hle := h.le
  simp only [hr, ne_eq, not_true_eq_false, if_false, capacity, h.clen, h.length]
  by_cases hfull : l.length = cap
  · obtain ⟨v', h1, h2, h3⟩ := h.grow hf hfull hc hI ha
    refine ⟨v', ?_, by simpa [hfull] using h2, h3⟩
    simp [hfull, h1]
  · refine ⟨v, ?_, by simpa [hfull] using h, hI⟩
    have : ¬ cap ≤ l.length := by omega
    simp [this]

theorem pushLast_spec {v : Vec α} {l : List α} {cap : Nat} (h : Lay v l cap) (hf : l.length < 2 ^ 64) (hc : 0 < cap)
    {P : Nat → Option Nat} {E : Nat → Option (Option Nat)} (hI : Its v l.length P E 0) {addr : Nat} (ha : 0 < addr) (x : α) :
    ∃ v', pushLast v x addr = .ret (v', l.length) ∧ Lay v' (l ++ [x]) (if l.length = cap then 2 * cap else cap) ∧
      Its v' (l.length + 1) P E 0 := by
  obtain ⟨v1, h1, h2, h3⟩ := ensure_spec h hf hc hI ha
  have hle := h.le
  generalize hcap : (if l.length = cap then 2 * cap else cap) = cap' at *
  have hlt : l.length < cap' := by rw [← hcap]; split <;> omega
  have hee : v1.ee = v1.bf + l.length := by rw [h2.ee, if_neg (by omega)]
  have hp := h2.pos
  have hbe := h2.be
  refine ⟨{ v1 with cells := v1.cells.set l.length (some x), ef := v1.bf, ee := if l.length + 1 = cap' then v1.bf else v1.bf + l.length + 1 }, ?_, ⟨hp, ?_, by simp; omega, by simp, ?_⟩, ⟨h3.permits, fun i k hk => Nat.lt_succ_of_lt (h3.plt i k hk), h3.exits, fun i k hk => Nat.lt_succ_of_lt (h3.elt i k hk), h3.refs, h3.noExit⟩⟩
  · have hw : wr v1 v1.ee x = .ret { v1 with cells := v1.cells.set l.length (some x) } := by
      unfold wr; rw [hee, hbe, if_pos (by omega), Nat.add_sub_cancel_left]
    have hef : (if v1.ef = 0 then v1.ee else v1.ef) = v1.bf := by
      rw [h2.ef, hee]
      by_cases hl : l = []
      · subst hl; simp
      · simp [hl]; omega
    unfold Vector2.pushLast
    rw [h1, Outcome.bind_ret, hw, Outcome.bind_ret, h2.length]
    dsimp only
    have e1 : (if v1.ef = 0 then ({ v1 with cells := v1.cells.set l.length (some x), ef := v1.ee } : Vec α) else { v1 with cells := v1.cells.set l.length (some x) }) = { v1 with cells := v1.cells.set l.length (some x), ef := v1.bf } := by
      rw [← hef]; split <;> rfl
    rw [e1]
    simp only [Vector2.be, List.length_set, h2.clen, hee]
    by_cases hc' : l.length + 1 = cap'
    · simp [hc', show v1.bf + cap' ≤ v1.bf + l.length + 1 from by omega]
    · simp [hc', show ¬ v1.bf + cap' ≤ v1.bf + l.length + 1 from by omega]
  · show v1.cells.set l.length (some x) = _
    rw [h2.cells, List.set_append_right _ _ (by simp)]
    obtain ⟨m, hm⟩ : ∃ m, cap' - l.length = m + 1 := ⟨cap' - l.length - 1, by omega⟩
    have hm' : cap' - (l.length + 1) = m := by omega
    simp [hm, hm', List.replicate_succ]
  · simp; rfl

/-- The bubbling loop opens a gap after `a`. -/
theorem bubble_spec : ∀ (k : Nat) (v : Vec α) (a b : List α) (g : Option α) (r : List (Option α)), b.length = k →
    v.cells = (a ++ b).map some ++ g :: r →
    ∃ g', bubble k (v.bf + a.length + k) v = .ret { v with cells := a.map some ++ g' :: (b.map some ++ r) } := by
  intro k
  induction k with
  | zero =>
    intro v a b g r hb hc
    have : b = [] := List.length_eq_zero_iff.1 hb
    subst this
    refine ⟨g, ?_⟩
    rw [bubble]
    simp at hc
    simp [← hc]
  | succ k ih =>
    intro v a b g r hb hc
    obtain ⟨b', y, rfl⟩ : ∃ b' y, b = b' ++ [y] := by
      rcases List.eq_nil_or_concat b with h | ⟨b', y, h⟩
      · subst h; simp at hb
      · exact ⟨b', y, by rw [h, List.concat_eq_append]⟩
    simp at hb
    have hr : rd v (v.bf + a.length + (k + 1) - 1) = .ret y := by
      unfold rd
      rw [if_pos (by omega)]
      have : v.cells[v.bf + a.length + (k + 1) - 1 - v.bf]? = some (some y) := by
        have e : v.bf + a.length + (k + 1) - 1 - v.bf = a.length + b'.length := by omega
        rw [e, hc, List.getElem?_append_left (by simp)]
        simp only [List.getElem?_map]
        rw [List.getElem?_append_right (by omega), List.getElem?_append_right (by omega)]
        simp
      simp only [this]
    have hw : wr v (v.bf + a.length + (k + 1)) y = .ret { v with cells := (a ++ b').map some ++ some y :: some y :: r } := by
      unfold wr be
      have hlen : v.cells.length = a.length + k + 1 + 1 + r.length := by rw [hc]; simp; omega
      rw [if_pos (by omega)]
      congr 2
      have e : v.bf + a.length + (k + 1) - v.bf = a.length + k + 1 := by omega
      rw [e, hc, List.set_append_right _ _ (by simp; omega)]
      have : a.length + k + 1 - ((a ++ (b' ++ [y])).map some).length = 0 := by simp; omega
      rw [this]
      simp
    rw [bubble, hr, Outcome.bind_ret, hw, Outcome.bind_ret]
    obtain ⟨g', h⟩ := ih { v with cells := (a ++ b').map some ++ some y :: some y :: r } a b' (some y) (some y :: r) hb rfl
    refine ⟨g', ?_⟩
    have e : v.bf + a.length + (k + 1) - 1 = v.bf + a.length + k := by omega
    rw [e]
    dsimp only at h
    rw [h]
    simp

theorem insertBefore_spec {v : Vec α} {a b : List α} {cap cap' : Nat} (h : Lay v (a ++ b) cap) (hf : (a ++ b).length < 2 ^ 64) (hc : 0 < cap)
    {P : Nat → Option Nat} {E : Nat → Option (Option Nat)} (hI : Its v (a ++ b).length P E 0) {addr : Nat} (ha : 0 < addr) (x : α)
    (hne : a ++ b ≠ []) (hcap : (if (a ++ b).length = cap then 2 * cap else cap) = cap')
    (hok : a ≠ [] ∨ (a ++ b).length + 1 ≠ cap' ∨ ∀ i, P i = none) :
    ∃ v', insertBefore v a.length x addr = .ret v' ∧ Lay v' (a ++ x :: b) cap' ∧
      Its v' ((a ++ b).length + 1) (fun i => (P i).map fun k => if a.length ≤ k then k + 1 else k) E 0 := by
  obtain ⟨v1, h1, h2, h3⟩ := ensure_spec h hf hc hI ha
  have hle := h.le
  rw [hcap] at h2
  have hlt : (a ++ b).length < cap' := by rw [← hcap]; split <;> omega
  have hlt' : a.length + b.length < cap' := by simpa using hlt
  have hf' : a.length + b.length < 2 ^ 64 := by simpa using hf
  have hee : v1.ee = v1.bf + a.length + b.length := by rw [h2.ee, if_neg (by omega)]; simp; omega
  have hp := h2.pos
  have hbe := h2.be
  have hfind : find v1 (a.length : Int) = .ret (v1.bf + a.length) := h2.find hne (by omega) (by simp) (by omega)
  obtain ⟨m, hm⟩ : ∃ m, cap' - (a ++ b).length = m + 1 := ⟨cap' - (a ++ b).length - 1, by omega⟩
  have hm1 : cap' = a.length + b.length + m + 1 := by simp at hm; omega
  have hcells := h2.cells
  rw [hm, List.replicate_succ] at hcells
  obtain ⟨g', hbub⟩ := bubble_spec b.length v1 a b none (List.replicate m none) rfl hcells
  generalize hv3 : ({ v1 with cells := a.map some ++ some x :: (b.map some ++ List.replicate m none), ee := if (a ++ b).length + 1 = cap' then v1.bf else v1.bf + (a ++ b).length + 1 } : Vec α) = v3
  have e3c : v3.cells = a.map some ++ some x :: (b.map some ++ List.replicate m none) := by rw [← hv3]
  have e3b : v3.bf = v1.bf := by rw [← hv3]
  have e3e : v3.ee = if (a ++ b).length + 1 = cap' then v1.bf else v1.bf + (a ++ b).length + 1 := by rw [← hv3]
  have e3be : be v3 = v1.bf + cap' := by rw [be, e3b, e3c]; simp; omega
  have hcomp : insertBefore v a.length x addr = .ret { v3 with permits := fun i => (v3.permits i).map (movePermit v3 (v1.bf + a.length)) } := by
    unfold Vector2.insertBefore
    rw [h1, Outcome.bind_ret, hfind, Outcome.bind_ret, if_neg (by omega)]
    have e1 : v1.ee - (v1.bf + a.length) = b.length := by omega
    rw [e1, hee, hbub, Outcome.bind_ret]
    have ebe : ∀ (e : Nat), be ({ v1 with cells := a.map some ++ g' :: (b.map some ++ List.replicate m none), ee := e } : Vec α) = v1.bf + cap' := by
      intro e; simp [be]; omega
    simp only [ebe]
    have hw : ∀ e : Nat, wr ({ v1 with cells := a.map some ++ g' :: (b.map some ++ List.replicate m none), ee := e } : Vec α) (v1.bf + a.length) x
        = .ret { v1 with cells := a.map some ++ some x :: (b.map some ++ List.replicate m none), ee := e } := by
      intro e
      unfold wr
      rw [ebe, if_pos (by dsimp only; omega)]
      congr 2
      dsimp only
      rw [Nat.add_sub_cancel_left, List.set_append_right _ _ (by simp)]
      simp
    have e2 : (v1.ee + 1 = v1.bf + cap') = ((a ++ b).length + 1 = cap') := by simp [hee]; omega
    rw [hee] at e2
    simp only [hee]
    by_cases hq : (a ++ b).length + 1 = cap'
    · rw [if_pos (by rw [e2]; exact hq)]
      rw [hw, Outcome.bind_ret, ← hv3]
      simp only [if_pos hq]; rfl
    · rw [if_neg (by rw [e2]; exact hq)]
      rw [hw, Outcome.bind_ret, ← hv3]
      simp only [if_neg hq]
      have : v1.bf + a.length + b.length + 1 = v1.bf + (a ++ b).length + 1 := by simp; omega
      rw [this]; rfl
  refine ⟨_, hcomp, ⟨by dsimp only; omega, ?_, by simp; omega, ?_, ?_⟩, ⟨?_, ?_, ?_, ?_, ?_, h3.noExit⟩⟩
  · show v3.cells = _
    rw [e3c]
    have : cap' - (a ++ x :: b).length = m := by simp; omega
    rw [this]; simp
  · show v3.ef = _
    have : v3.ef = v1.ef := by rw [← hv3]
    rw [this, h2.ef, if_neg hne, e3b]; simp
  · show v3.ee = _
    rw [e3e, e3b]
    have : (a ++ x :: b).length = (a ++ b).length + 1 := by simp; omega
    rw [this]; rfl
  · intro i
    show (v3.permits i).map _ = _
    have hpi : v3.permits i = (P i).map (v1.bf + ·) := by rw [← hv3]; exact h3.permits i
    rw [hpi, Option.map_map, Option.map_map]
    dsimp only
    rw [e3b]
    cases hP : P i with
    | none => rfl
    | some k =>
      have hk := h3.plt i k hP
      have hk' : k < a.length + b.length := by simpa using hk
      simp only [Option.map_some, Function.comp, movePermit, e3be, e3b]
      congr 1
      have hin : inRange (v1.bf + k) (v1.bf + a.length) v3.ee = decide (a.length ≤ k) := by
        unfold inRange
        rw [e3e]
        by_cases hq : (a ++ b).length + 1 = cap'
        · have hane : a ≠ [] := by
            rcases hok with h | h | h
            · exact h
            · exact absurd hq h
            · rw [h i] at hP; simp at hP
          have : 0 < a.length := List.length_pos_of_ne_nil hane
          rw [if_pos hq, if_neg (by omega), if_neg (by omega)]
          simp
          intro hh; omega
        · rw [if_neg hq, if_neg (by simp; omega), if_pos (by simp; omega)]
          have : v1.bf + k < v1.bf + (a ++ b).length + 1 := by simp; omega
          simp [this]
          intro _; omega
      rw [hin]
      by_cases hak : a.length ≤ k
      · rw [if_pos (by simpa using hak), if_neg (by omega), if_pos hak]; omega
      · rw [if_neg (by simpa using hak), if_neg hak]
  · intro i k hk
    cases hP : P i with
    | none => rw [hP] at hk; simp at hk
    | some k' =>
      have := h3.plt i k' hP
      rw [hP] at hk
      simp only [Option.map_some, Option.some.injEq] at hk
      split at hk <;> omega
  · intro i
    show v3.exits i = _
    rw [h3.noExit rfl i]
    have : v3.exits i = v1.exits i := by rw [← hv3]
    rw [this, h3.exits i, h3.noExit rfl i]; rfl
  · intro i k hk; rw [h3.noExit rfl i] at hk; simp at hk
  · show v3.refs = 0
    rw [← hv3]; exact h3.refs

end Verif.Vector2
