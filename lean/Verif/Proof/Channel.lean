import Verif.Model.Channel
import Verif.Proof.Heap
import Mathlib.Tactic.SplitIfs
namespace Verif.Channel
open Verif
variable {α : Type}

/-- What the buffer holds, oldest first. -/
def contents (s : State α) : List α := (List.range s.count).map fun i => s.buffer ((s.front + i) % s.size)

structure Inv (s : State α) : Prop where
  pos : s.front < s.size ∨ s.size = 0
  bk : 0 < s.size → s.back = (s.front + s.count) % s.size
  le : s.count ≤ s.size
  cons0 : s.cons ≠ [] → s.count = 0 ∧ s.prods = []
  prodsFull : s.prods ≠ [] → s.count = s.size
  closedE : s.closed = true → s.cons = [] ∧ s.prods = []
  consPc : ∀ t, t ∈ s.cons ↔ s.pc t = .blockedRem
  prodsPc : ∀ t e, (t, e) ∈ s.prods ↔ s.pc t = .blockedIns e
  consND : s.cons.Nodup
  prodsND : (s.prods.map Prod.fst).Nodup
  fifo : s.log = s.got.map Prod.snd ++ contents s ++ s.prods.map Prod.snd

theorem contents_length (s : State α) : (contents s).length = s.count := by simp [contents]

theorem mod_ne {f i n m : Nat} (hf : i < m) (hm : m < n) : (f + i) % n ≠ (f + m) % n := by
  intro h
  have h1 := Nat.div_add_mod (f + i) n
  have h2 := Nat.div_add_mod (f + m) n
  have h3 : n * ((f + m) / n) = n * ((f + i) / n) + (m - i) := by omega
  have h4 : n ∣ m - i := (Nat.dvd_add_right (Nat.dvd_mul_right n ((f + i) / n))).1 (h3 ▸ Nat.dvd_mul_right n _)
  exact absurd (Nat.le_of_dvd (by omega) h4) (by omega)

theorem contents_bufInsert (s : State α) (e : α) (iv : Inv s) (h : s.count < s.size) : contents (bufInsert s e) = contents s ++ [e] := by
  simp only [contents, bufInsert, List.range_succ, List.map_append, List.map_cons, List.map_nil]
  congr 1
  · apply List.map_congr_left
    intro i hi
    have hi : i < s.count := by simpa using hi
    rw [iv.bk (by omega)]
    exact upd_ne _ _ (mod_ne hi h)
  · rw [iv.bk (by omega), upd_same]

theorem mod_succ_eq {b n : Nat} (h : b < n) : (if b + 1 = n then 0 else b + 1) = (b + 1) % n := by
  split
  · next h => rw [h, Nat.mod_self]
  · rw [Nat.mod_eq_of_lt (by omega)]

theorem put_count {s s' : State α} {e : α} (h : putNow s e = some s') (iv : Inv s) : Inv s' ∧ s'.closed = s.closed ∧
    s'.log = s.log ++ [e] ∧ (∀ t, s.pc t ≠ .blockedRem → s'.pc t = s.pc t) ∧ (∀ t, s'.pc t = s.pc t ∨ s'.pc t = .run) ∧ s'.size = s.size := by
  obtain ⟨i1, i2, i3, i4, i5, i6, i7, i8, i9, i10, i11⟩ := iv
  have iv : Inv s := ⟨i1, i2, i3, i4, i5, i6, i7, i8, i9, i10, i11⟩
  simp only [putNow] at h
  split at h
  · next c l hc =>
    cases h
    obtain ⟨h0, hp⟩ := i4 (by simp [hc])
    have hcpc := (i7 c).1 (by simp [hc])
    rw [hc] at i9
    have hcon : contents s = [] := by simp [contents, h0]
    refine ⟨⟨i1, i2, i3, fun _ => ⟨h0, hp⟩, i5, ?_, ?_, ?_, (List.nodup_cons.1 i9).2, i10, ?_⟩, rfl, rfl, ?_, ?_, rfl⟩
    · intro hcl
      have := (i6 hcl).1
      simp [hc] at this
    · intro t
      have := i7 t
      rw [hc] at this
      have hn := (List.nodup_cons.1 i9).1
      simp only [consHandoff, upd]
      grind
    · intro t e'
      simp only [consHandoff, upd]
      have := i8 t e'
      simp only [hp] at this ⊢
      grind
    · show s.log ++ [e] = (s.got ++ [(c, e)]).map Prod.snd ++ contents s ++ s.prods.map Prod.snd
      rw [i11, hcon, hp]
      simp
    · intro t ht
      simp only [consHandoff, upd]
      grind
    · intro t
      simp only [consHandoff, upd]
      grind
  · next hc =>
    split at h
    · cases h
    next hne =>
    cases h
    have hlt : s.count < s.size := by omega
    have hp : s.prods = [] := by
      by_contra hp
      exact hne (i5 hp)
    have hb : s.back < s.size := by rw [i2 (by omega)]; exact Nat.mod_lt _ (by omega)
    refine ⟨⟨i1, ?_, ?_, ?_, ?_, i6, i7, i8, i9, i10, ?_⟩, rfl, rfl, fun _ _ => rfl, fun _ => Or.inl rfl, rfl⟩
    · intro _
      simp only [bufInsert]
      rw [mod_succ_eq hb, i2 (by omega)]
      rw [Nat.mod_add_mod, Nat.add_assoc]
    · simp only [bufInsert]; omega
    · intro h; exact absurd hc h
    · intro h; exact absurd hp h
    · show s.log ++ [e] = s.got.map Prod.snd ++ contents (bufInsert s e) ++ s.prods.map Prod.snd
      rw [contents_bufInsert s e iv hlt, i11, hp]
      simp

theorem contents_tail (s : State α) (iv : Inv s) (h : 0 < s.count) :
    contents s = s.buffer s.front :: contents { s with count := s.count - 1, front := (s.front + 1) % s.size } := by
  have hle := iv.le
  have hpos := iv.pos
  obtain ⟨n, hn⟩ : ∃ n, s.count = n + 1 := ⟨s.count - 1, by omega⟩
  simp only [contents, hn, List.range_succ_eq_map, List.map_cons, List.map_map, Nat.add_zero, Nat.add_sub_cancel]
  rw [Nat.mod_eq_of_lt (by omega)]
  congr 1
  apply List.map_congr_left
  intro i _
  simp only [Function.comp]
  congr 1
  rw [Nat.mod_add_mod]
  congr 1
  omega

theorem get_inv {s s' : State α} {t : Nat} (h : getNow s t = some s') (iv : Inv s) : Inv s' ∧ s'.closed = s.closed ∧
    (∃ e, s'.got = s.got ++ [(t, e)] ∧ (contents s ++ s.prods.map Prod.snd).head? = some e) ∧
    s'.log = s.log ∧ (∀ u, (∀ e, s.pc u ≠ .blockedIns e) → s'.pc u = s.pc u) ∧ (∀ u, s'.pc u = s.pc u ∨ s'.pc u = .run) ∧ s'.size = s.size := by
  obtain ⟨i1, i2, i3, i4, i5, i6, i7, i8, i9, i10, i11⟩ := iv
  have iv : Inv s := ⟨i1, i2, i3, i4, i5, i6, i7, i8, i9, i10, i11⟩
  simp only [getNow] at h
  split at h
  · next p l hz hp =>
    cases h
    have h0 : s.count = 0 := by omega
    have hc : s.cons = [] := by
      by_contra hc
      have := (i4 hc).2
      simp [this] at hp
    have hcon : contents s = [] := by simp [contents, h0]
    have hppc := (i8 p.1 p.2).1 (by simp [hp])
    rw [hp] at i10
    simp only [List.map_cons, List.nodup_cons] at i10
    refine ⟨⟨i1, i2, i3, ?_, fun _ => ?_, ?_, ?_, ?_, i9, i10.2, ?_⟩, rfl, ⟨p.2, rfl, by rw [hcon, hp]; rfl⟩, rfl, ?_, ?_, rfl⟩
    · intro h; exact absurd hc h
    · show s.count = s.size; omega
    · intro hcl
      have := (i6 hcl).2
      simp [this] at hp
    · intro u
      have := i7 u
      rw [hc] at this ⊢
      simp only [upd]
      grind
    · intro u e
      have := i8 u e
      rw [hp] at this
      have hm : (u, e) ∈ l → u ∈ l.map Prod.fst := fun h => List.mem_map.2 ⟨_, h, rfl⟩
      simp only [upd]
      grind
    · show s.log = (s.got ++ [(t, p.2)]).map Prod.snd ++ contents s ++ l.map Prod.snd
      rw [i11, hcon, hp]
      simp
    · intro u hu
      simp only [upd]
      grind
    · intro u
      simp only [upd]
      grind
  · split at h
    · cases h
    next hne =>
    cases h
    have hsz : 0 < s.size := by omega
    have hf : s.front < s.size := by omega
    have hc : s.cons = [] := by
      by_contra hc
      exact hne (i4 hc).1
    let s1 : State α := { s with got := s.got ++ [(t, s.buffer s.front)], count := s.count - 1, front := (s.front + 1) % s.size }
    have hct := contents_tail s iv (by omega)
    have hhead : (contents s ++ s.prods.map Prod.snd).head? = some (s.buffer s.front) := by rw [hct]; rfl
    have iv1 : Inv { s1 with prods := [], pc := fun u => if (s.prods.map Prod.fst).contains u then .run else s.pc u, log := s.got.map Prod.snd ++ contents s } := by
      refine ⟨Or.inl (Nat.mod_lt _ hsz), ?_, ?_, ?_, ?_, ?_, ?_, ?_, i9, List.nodup_nil, ?_⟩
      · intro _
        show s.back = ((s.front + 1) % s.size + (s.count - 1)) % s.size
        rw [i2 hsz, Nat.mod_add_mod]
        congr 1
        omega
      · show s.count - 1 ≤ s.size; omega
      · intro h; exact absurd hc h
      · intro h; exact absurd rfl h
      · intro h; exact ⟨hc, rfl⟩
      · intro u
        have := i7 u
        rw [hc] at this
        show u ∈ s.cons ↔ _
        rw [hc]
        simp only
        split <;> grind
      · intro u e
        simp only [List.not_mem_nil, false_iff]
        intro h
        split at h
        · cases h
        · next hm =>
          have := (i8 u e).2 h
          simp only [List.contains_eq_mem, decide_eq_true_eq, List.mem_map] at hm
          exact hm ⟨_, this, rfl⟩
      · show s.got.map Prod.snd ++ contents s = (s.got ++ [(t, s.buffer s.front)]).map Prod.snd ++ contents _ ++ []
        rw [hct]
        simp only [List.map_append, List.map_cons, List.map_nil, List.append_assoc, List.append_nil, List.cons_append, List.nil_append]
        rfl
    have hlog : s.log = (s.got ++ [(t, s.buffer s.front)]).map Prod.snd ++ contents s1 ++ s.prods.map Prod.snd := by
      rw [i11, hct]
      simp only [List.map_append, List.map_cons, List.map_nil, List.append_assoc, List.cons_append, List.nil_append]
      rfl
    simp only [doRemove]
    split
    · next hcnt =>
      split
      · next p l hp =>
        have hfull := i5 (by simp [hp])
        have hppc := (i8 p.1 p.2).1 (by simp [hp])
        rw [hp] at i10
        simp only [List.map_cons, List.nodup_cons] at i10
        have hcb := contents_bufInsert _ p.2 iv1 (by show s.count - 1 < s.size; omega)
        have hb : s.back < s.size := by rw [i2 (by omega)]; exact Nat.mod_lt _ (by omega)
        refine ⟨⟨Or.inl (Nat.mod_lt _ hsz), ?_, ?_, ?_, ?_, ?_, ?_, ?_, i9, i10.2, ?_⟩, rfl, ⟨_, rfl, hhead⟩, rfl, ?_, ?_, rfl⟩
        · intro _
          have := iv1.bk hsz
          simp only [bufInsert]
          rw [mod_succ_eq hb, this]
          rw [Nat.mod_add_mod, Nat.add_assoc]
        · show s.count - 1 + 1 ≤ s.size; omega
        · intro h; exact absurd hc h
        · intro _; show s.count - 1 + 1 = s.size; omega
        · intro hcl
          have := (i6 hcl).2
          simp [this] at hp
        · intro u
          have := i7 u
          show u ∈ s.cons ↔ _
          rw [hc] at this ⊢
          simp only [upd]
          grind
        · intro u e
          have := i8 u e
          rw [hp] at this
          have hm : (u, e) ∈ l → u ∈ l.map Prod.fst := fun h => List.mem_map.2 ⟨_, h, rfl⟩
          simp only [upd]
          grind
        · have h1 : contents (bufInsert s1 p.2) = contents s1 ++ [p.2] := hcb
          show s.log = (s.got ++ [(t, s.buffer s.front)]).map Prod.snd ++ contents (bufInsert s1 p.2) ++ l.map Prod.snd
          rw [h1, hlog, hp]
          simp
        · intro u hu
          simp only [upd]
          grind
        · intro u
          simp only [upd]
          grind
      · next hp =>
        have hp : s.prods = [] := hp
        refine ⟨⟨Or.inl (Nat.mod_lt _ hsz), iv1.bk, iv1.le, fun h => absurd hc h, fun h => absurd hp h, i6, i7, i8, i9, i10, hlog⟩, rfl, ⟨_, rfl, hhead⟩, rfl, fun _ _ => rfl, fun _ => Or.inl rfl, rfl⟩
    · next hcnt =>
      have hp : s.prods = [] := by
        by_contra hp
        have := i5 hp
        apply hcnt
        show s.count - 1 = s.size - 1
        omega
      refine ⟨⟨Or.inl (Nat.mod_lt _ hsz), iv1.bk, iv1.le, fun h => absurd hc h, fun h => absurd hp h, i6, i7, i8, i9, i10, hlog⟩, rfl, ⟨_, rfl, hhead⟩, rfl, fun _ _ => rfl, fun _ => Or.inl rfl, rfl⟩

/-- Changing the program counter of a thread that is not blocked, to one that is not blocked either. -/
theorem inv_pc {s : State α} {t : Nat} {v : Pc α} (iv : Inv s) (h1 : s.pc t ≠ .blockedRem) (h2 : ∀ e, s.pc t ≠ .blockedIns e)
    (h3 : v ≠ .blockedRem) (h4 : ∀ e, v ≠ .blockedIns e) : Inv { s with pc := upd s.pc t v } := by
  obtain ⟨i1, i2, i3, i4, i5, i6, i7, i8, i9, i10, i11⟩ := iv
  refine ⟨i1, i2, i3, i4, i5, i6, ?_, ?_, i9, i10, i11⟩
  · intro u; have := i7 u; simp only [upd]; grind
  · intro u e; have := i8 u e; simp only [upd]; grind

theorem wakeCons_eq (pc : Nat → Pc α) (l : List Nat) (t : Nat) : wakeCons pc l t = if t ∈ l then .closedRem else pc t := by
  induction l with
  | nil => rfl
  | cons c l ih => simp only [wakeCons, upd, ih]; grind

theorem wakeProds_eq (pc : Nat → Pc α) (l : List (Nat × α)) (h : (l.map Prod.fst).Nodup) (t : Nat) :
    (∀ e, (t, e) ∈ l → wakeProds pc l t = .closedIns e) ∧ ((∀ e, (t, e) ∉ l) → wakeProds pc l t = pc t) := by
  induction l with
  | nil => simp [wakeProds]
  | cons p l ih =>
    simp only [List.map_cons, List.nodup_cons] at h
    have hm : ∀ e, (t, e) ∈ l → t ∈ l.map Prod.fst := fun e h => List.mem_map.2 ⟨_, h, rfl⟩
    obtain ⟨a, b⟩ := ih h.2
    refine ⟨?_, ?_⟩
    · intro e he
      simp only [wakeProds, upd]
      rcases List.mem_cons.1 he with rfl | he
      · simp
      · rw [if_neg]
        · exact a e he
        · rintro rfl; exact h.1 (hm e he)
    · intro he
      simp only [wakeProds, upd]
      rw [if_neg]
      · exact b fun e h => he e (List.mem_cons_of_mem _ h)
      · rintro rfl; exact he p.2 (by simp)

theorem flush_inv (e : α) (n : Nat) (s : State α) (iv : Inv s) (hn : n = s.cons.length) : Inv (flushLoop s e n) ∧ (flushLoop s e n).cons = [] ∧
    (flushLoop s e n).got = s.got ++ s.cons.map (fun c => (c, e)) ∧ (∀ t, (flushLoop s e n).pc t = if t ∈ s.cons then .run else s.pc t) ∧
    (flushLoop s e n).closed = s.closed := by
  induction n generalizing s with
  | zero =>
    have : s.cons = [] := List.length_eq_zero_iff.1 hn.symm
    simp [flushLoop, this, iv]
  | succ n ih =>
    obtain hqq | ⟨c, l, hqq⟩ : s.cons = [] ∨ ∃ u q, s.cons = u :: q := by cases s.cons <;> simp
    · simp [hqq] at hn
    have h0 := (iv.cons0 (by simp [hqq])).1
    have hput : putNow s e = some (consHandoff s e c l) := by simp only [putNow, hqq]
    have hpi := put_count hput iv
    have hfl : flushLoop s e (n + 1) = flushLoop (consHandoff s e c l) e n := by simp only [flushLoop, hqq, h0, if_true]
    rw [hfl]
    obtain ⟨a, b, d, f, g⟩ := ih (consHandoff s e c l) hpi.1 (by simp [hqq] at hn; simpa [consHandoff] using hn)
    refine ⟨a, b, ?_, ?_, g⟩
    · rw [d, hqq]; simp [consHandoff]
    · intro t
      rw [f t, hqq]
      simp only [consHandoff, upd]
      grind

theorem start_inv (n : Nat) (b : Nat → α) : Inv (start n b) := by
  constructor <;> simp [start, contents]
  omega

theorem step_inv {s s' : State α} {a : Act α} (h : next s a = some s') (iv : Inv s) : Inv s' := by
  cases a with
  | insert t e =>
    simp only [next] at h
    split at h <;> cases h <;> (next hpc => refine inv_pc iv ?_ ?_ ?_ ?_ <;> first | (simp [hpc]; done) | (split <;> simp))
  | remove t =>
    simp only [next] at h
    split at h <;> cases h <;> (next hpc => refine inv_pc iv ?_ ?_ ?_ ?_ <;> first | (simp [hpc]; done) | (split <;> simp))
  | tryInsert t e =>
    simp only [next] at h
    split at h <;> cases h <;>
    · cases hp : putNow s e with
      | none => exact iv
      | some s1 => exact (put_count hp iv).1
  | tryRemove t =>
    simp only [next] at h
    split at h <;> cases h <;>
    · cases hp : getNow s t with
      | none => exact iv
      | some s1 => exact (get_inv hp iv).1
  | close t =>
    simp only [next] at h
    obtain ⟨i1, i2, i3, i4, i5, i6, i7, i8, i9, i10, i11⟩ := iv
    have key : Inv { s with
        closed := true, cons := [], prods := [], pc := wakeProds (wakeCons s.pc s.cons) s.prods,
        log := s.log.take (s.log.length - s.prods.length) } := by
      refine ⟨i1, i2, i3, fun h => absurd rfl h, fun h => absurd rfl h, fun _ => ⟨rfl, rfl⟩, ?_, ?_, List.nodup_nil, List.nodup_nil, ?_⟩
      · intro u
        have hw := wakeProds_eq (wakeCons s.pc s.cons) s.prods i10 u
        simp only [List.not_mem_nil, false_iff]
        by_cases hx : ∃ e, (u, e) ∈ s.prods
        · obtain ⟨e, he⟩ := hx
          rw [hw.1 e he]; simp
        · rw [hw.2 (fun e he => hx ⟨e, he⟩), wakeCons_eq]
          split
          · simp
          · next hn => exact fun h => hn ((i7 u).2 h)
      · intro u e
        have hw := wakeProds_eq (wakeCons s.pc s.cons) s.prods i10 u
        simp only [List.not_mem_nil, false_iff]
        by_cases hx : ∃ e, (u, e) ∈ s.prods
        · obtain ⟨e, he⟩ := hx
          rw [hw.1 e he]; simp
        · rw [hw.2 (fun e he => hx ⟨e, he⟩), wakeCons_eq]
          split
          · simp
          · exact fun h => hx ⟨e, (i8 u e).2 h⟩
      · show s.log.take (s.log.length - s.prods.length) = s.got.map Prod.snd ++ contents s ++ []
        rw [i11]
        have : (s.got.map Prod.snd ++ contents s ++ s.prods.map Prod.snd).length - s.prods.length = (s.got.map Prod.snd ++ contents s).length := by
          simp; omega
        rw [this, List.take_left', List.append_nil]
        rfl
    split at h <;> cases h <;> exact key
  | flush t e =>
    simp only [next] at h
    split at h <;> cases h <;> exact (flush_inv e _ s iv rfl).1
  | go t =>
    simp only [next] at h
    split at h
    · next e hpc =>
      split at h
      · cases h
        exact inv_pc iv (by simp [hpc]) (by simp [hpc]) (by simp) (by simp)
      next hcl =>
      split at h
      · next s1 hp =>
        cases h
        obtain ⟨a, -, -, b, -⟩ := put_count hp iv
        have := b t (by simp [hpc])
        exact inv_pc a (by simp [this, hpc]) (by simp [this, hpc]) (by simp) (by simp)
      · next hp =>
        cases h
        obtain ⟨i1, i2, i3, i4, i5, i6, i7, i8, i9, i10, i11⟩ := iv
        simp only [putNow] at hp
        split at hp
        · cases hp
        next hc =>
        split at hp
        swap
        · cases hp
        next hfull =>
        refine ⟨i1, i2, i3, fun h => absurd hc h, fun _ => hfull, fun h => absurd h hcl, ?_, ?_, i9, ?_, ?_⟩
        · intro u; have := i7 u; simp only [upd]; grind
        · intro u e'; have := i8 u e'; simp only [upd]; grind
        · simp only [List.map_append, List.map_cons, List.map_nil]
          refine List.nodup_append.2 ⟨i10, by simp, ?_⟩
          intro a ha b hb
          simp only [List.mem_map, Prod.exists] at ha
          obtain ⟨a', e', h1, rfl⟩ := ha
          have := (i8 a' e').1 h1
          grind
        · show s.log ++ [e] = s.got.map Prod.snd ++ contents s ++ (s.prods ++ [(t, e)]).map Prod.snd
          rw [i11]; simp
    · next hpc =>
      split at h
      · cases h
        exact inv_pc iv (by simp [hpc]) (by simp [hpc]) (by simp) (by simp)
      next hcl =>
      split at h
      · next s1 hp =>
        cases h
        obtain ⟨a, -, -, -, b, -⟩ := get_inv hp iv
        have := b t (by simp [hpc])
        exact inv_pc a (by simp [this, hpc]) (by simp [this, hpc]) (by simp) (by simp)
      · next hp =>
        cases h
        obtain ⟨i1, i2, i3, i4, i5, i6, i7, i8, i9, i10, i11⟩ := iv
        simp only [getNow] at hp
        split at hp
        · cases hp
        next hz =>
        split at hp
        swap
        · cases hp
        next hz2 hz3 h0 =>
        have hpr : s.prods = [] := by
          by_contra hpr
          have := i5 hpr
          obtain ⟨p, l, hpl⟩ := List.exists_cons_of_ne_nil hpr
          exact hz p l (by omega) hpl
        refine ⟨i1, i2, i3, fun _ => ⟨h0, hpr⟩, fun h => absurd hpr h, fun h => absurd h hcl, ?_, ?_, ?_, i10, i11⟩
        · intro u; have := i7 u; simp only [upd]; grind
        · intro u e'; have := i8 u e'; simp only [upd]; grind
        · refine List.nodup_append.2 ⟨i9, by simp, ?_⟩
          intro a ha b hb
          have := (i7 a).1 ha
          grind
    · cases h
  | retry t =>
    simp only [next] at h
    split at h
    · next e hpc =>
      split at h
      · next s1 hp =>
        cases h
        obtain ⟨a, -, -, b, -⟩ := put_count hp iv
        have := b t (by simp [hpc])
        exact inv_pc a (by simp [this, hpc]) (by simp [this, hpc]) (by simp) (by simp)
      · cases h
        exact inv_pc iv (by simp [hpc]) (by simp [hpc]) (by simp) (by simp)
    · next hpc =>
      split at h
      · next s1 hp =>
        cases h
        obtain ⟨a, -, -, -, b, -⟩ := get_inv hp iv
        have := b t (by simp [hpc])
        exact inv_pc a (by simp [this, hpc]) (by simp [this, hpc]) (by simp) (by simp)
      · cases h
        exact inv_pc iv (by simp [hpc]) (by simp [hpc]) (by simp) (by simp)
    · cases h
  | noHandler t =>
    simp only [next] at h
    split at h <;> cases h <;> (next hpc => exact inv_pc iv (by simp [hpc]) (by simp [hpc]) (by simp) (by simp))

theorem reach_inv {n : Nat} {b : Nat → α} {s : State α} (h : Reach next (start n b) s) : Inv s :=
  Reach.inv Inv (start_inv n b) (fun _ _ _ hi hn => step_inv hn hi) h

theorem reach_size {n : Nat} {b : Nat → α} {s : State α} (h : Reach next (start n b) s) : s.size = n := by
  refine Reach.inv (fun s => s.size = n) rfl ?_ h
  intro s a s' hi hn
  have hput : ∀ e s1, putNow s e = some s1 → s1.size = n := by
    intro e s1 hp
    simp only [putNow] at hp
    split at hp
    · cases hp; exact hi
    · split at hp <;> cases hp; exact hi
  have hget : ∀ t s1, getNow s t = some s1 → s1.size = n := by
    intro t s1 hp
    simp only [getNow] at hp
    split at hp
    · cases hp; exact hi
    · split at hp
      · cases hp
      · cases hp
        simp only [doRemove]
        split
        · split <;> exact hi
        · exact hi
  have hfl : ∀ (e : α) m (s1 : State α), s1.size = n → (flushLoop s1 e m).size = n := by
    intro e m
    induction m with
    | zero => intro s1 h; exact h
    | succ m ih =>
      intro s1 h
      simp only [flushLoop]
      split
      · split
        · exact ih _ h
        · exact h
      · exact h
  cases a with
  | tryInsert t e =>
    simp only [next] at hn
    split at hn <;> cases hn <;>
    · cases hp : putNow s e with
      | none => exact hi
      | some s1 => exact hput e s1 hp
  | tryRemove t =>
    simp only [next] at hn
    split at hn <;> cases hn <;>
    · cases hp : getNow s t with
      | none => exact hi
      | some s1 => exact hget t s1 hp
  | flush t e => simp only [next] at hn; split at hn <;> cases hn <;> exact hfl _ _ _ hi
  | insert t e => simp only [next] at hn; split at hn <;> cases hn <;> exact hi
  | remove t => simp only [next] at hn; split at hn <;> cases hn <;> exact hi
  | close t => simp only [next] at hn; split at hn <;> cases hn <;> exact hi
  | noHandler t => simp only [next] at hn; split at hn <;> cases hn <;> exact hi
  | go t =>
    simp only [next] at hn
    split at hn
    · split at hn
      · cases hn; exact hi
      · split at hn
        · next s1 hp => cases hn; exact hput _ s1 hp
        · cases hn; exact hi
    · split at hn
      · cases hn; exact hi
      · split at hn
        · next s1 hp => cases hn; exact hget _ s1 hp
        · cases hn; exact hi
    · cases hn
  | retry t =>
    simp only [next] at hn
    split at hn
    · split at hn
      · next s1 hp => cases hn; exact hput _ s1 hp
      · cases hn; exact hi
    · split at hn
      · next s1 hp => cases hn; exact hget _ s1 hp
      · cases hn; exact hi
    · cases hn

end Verif.Channel
