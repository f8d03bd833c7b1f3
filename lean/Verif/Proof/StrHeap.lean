import Verif.Model.StrHeap
import Verif.Proof.Ring
import Mathlib.Data.List.GetD
import Mathlib.Tactic.Tauto
/-! Lemmas about string storage. -/
namespace Verif.StrHeap
open Verif

/-- What a source holds. -/
def Buf.read (b : Buf) (mem : Nat → Nat) : List Nat :=
  match b with
  | .bytes bs => bs
  | .heap a n => StrHeap.bytes mem a n

/-- The source does not reach beyond an address. -/
def Buf.below (b : Buf) (e : Nat) : Prop :=
  match b with
  | .bytes _ => True
  | .heap a n => a + n ≤ e

@[simp] theorem bytes_length (m : Nat → Nat) (a n : Nat) : (bytes m a n).length = n := by simp [bytes]

theorem bytes_get (m : Nat → Nat) (a n k : Nat) (h : k < (bytes m a n).length) : (bytes m a n)[k] = m (a + k) := by
  simp [bytes]

theorem bytes_congr {m m' : Nat → Nat} {a a' n : Nat} (h : ∀ k < n, m (a + k) = m' (a' + k)) : bytes m a n = bytes m' a' n := by
  apply List.ext_getElem (by simp)
  intro k h1 h2
  rw [bytes_get, bytes_get]
  exact h k (by simpa using h1)

theorem bytes_eq_iff {m : Nat → Nat} {a n : Nat} {l : List Nat} (hl : l.length = n) :
    bytes m a n = l ↔ ∀ k < n, m (a + k) = l.getD k 0 := by
  constructor
  · intro e k hk
    rw [← e, List.getD_eq_getElem _ _ (by simpa using hk), bytes_get]
  · intro e
    apply List.ext_getElem (by simp [hl])
    intro k h1 h2
    rw [bytes_get, e k (by simpa using h1), List.getD_eq_getElem _ _ h2]

theorem bytes_add (m : Nat → Nat) (a n k : Nat) : bytes m a (n + k) = bytes m a n ++ bytes m (a + n) k := by
  apply List.ext_getElem (by simp)
  intro j h1 h2
  rw [bytes_get, List.getElem_append]
  split
  · rw [bytes_get]
  · rename_i hj
    rw [bytes_get]
    congr 1
    simp at hj ⊢
    omega

@[simp] theorem Buf.read_length (b : Buf) (m : Nat → Nat) : (b.read m).length = b.size := by
  cases b <;> simp [Buf.read, Buf.size]

theorem Buf.read_congr {b : Buf} {m m' : Nat → Nat} {e : Nat} (hb : b.below e) (h : ∀ a < e, m' a = m a) : b.read m' = b.read m := by
  cases b with
  | bytes bs => rfl
  | heap a n => exact bytes_congr fun k hk => h _ (by simp [Buf.below] at hb; omega)

theorem Buf.copy_at (b : Buf) (m : Nat → Nat) (dst k : Nat) (hk : k < b.size) : b.copy m dst (dst + k) = (b.read m).getD k 0 := by
  cases b with
  | bytes bs =>
    have hk' : k < bs.length := hk
    simp [Buf.copy, put, Buf.read, hk']
  | heap a n =>
    have hk' : k < n := hk
    simp only [Buf.copy, move, Buf.read]
    rw [if_pos (by omega), List.getD_eq_getElem _ _ (by simpa using hk'), bytes_get]
    congr 1; omega

theorem Buf.copy_out (b : Buf) (m : Nat → Nat) (dst a : Nat) (h : a < dst ∨ dst + b.size ≤ a) : b.copy m dst a = m a := by
  cases b with
  | bytes bs => simp only [Buf.copy, put]; rw [if_neg]; simp [Buf.size] at h; omega
  | heap x n => simp only [Buf.copy, move]; rw [if_neg]; simp [Buf.size] at h; omega

theorem Buf.copy_bytes (b : Buf) (m : Nat → Nat) (dst : Nat) : StrHeap.bytes (b.copy m dst) dst b.size = b.read m :=
  (bytes_eq_iff (by simp)).2 fun k hk => b.copy_at m dst k hk

theorem vbyteAlloc_room {low : Int → Nat → Bool} {h : Heap} {size : Nat} (hr : h.ee + size ≤ h.ext) :
    vbyteAlloc low h size = ({ h with ee := h.ee + size }, h.ee) := by
  unfold vbyteAlloc
  rw [if_neg (by omega)]

theorem newBuf_room {low : Int → Nat → Bool} {h : Heap} {i : Nat} {b : Buf} (hr : h.ee + b.size ≤ h.ext) :
    newBuf low h i b = { h with
      order := h.order ++ [i], s := upd h.s i h.ee, ln := upd h.ln i b.size, mem := b.copy h.mem h.ee, ee := h.ee + b.size
      snext := upd h.snext i i, sprev := upd h.sprev i i } := by
  unfold newBuf
  dsimp only
  rw [vbyteAlloc_room (by exact hr)]
  simp only [newEmpty]
  congr 1
  · funext x; simp only [upd]; split <;> rfl
  · funext x; simp only [upd]; split <;> rfl

/-- Appending when there is room. -/
structure AppendRes (h h' : Heap) (i : Nat) (b : Buf) : Prop where
  memEq : ∀ a < h.ee, h'.mem a = h.mem a
  eeLe : h.ee ≤ h'.ee
  eeGe : h'.ee ≤ h.ee + h.ln i + b.size
  sNe : ∀ j, j ≠ i → h'.s j = h.s j
  lnEq : h'.ln = upd h.ln i (h.ln i + b.size)
  fits : h'.s i + h'.ln i ≤ h'.ee
  txt : text h' i = text h i ++ b.read h.mem
  order : h'.order = h.order
  snext : h'.snext = h.snext
  sprev : h'.sprev = h.sprev
  ext : h'.ext = h.ext
  atEnd : h.s i + h.ln i = h.ee → h'.s i = h.s i ∧ h'.ee = h.ee + b.size

theorem append_room {low : Int → Nat → Bool} {h : Heap} {i : Nat} {b : Buf} (hi : h.s i + h.ln i ≤ h.ee)
    (hr : h.ee + b.size ≤ h.ext) (hr' : h.s i + h.ln i ≠ h.ee → h.ee + h.ln i + b.size ≤ h.ext) (hb : b.below h.ee) : AppendRes h (append low h i b) i b := by
  unfold append
  by_cases hat : b.isAt (h.s i + h.ln i) = true
  · cases b with
    | bytes bs => simp [Buf.isAt] at hat
    | heap a n =>
      simp only [Buf.isAt, beq_iff_eq] at hat
      simp only [Buf.below] at hb
      simp only [Buf.isAt, hat, beq_self_eq_true, if_true, Buf.size]
      refine ⟨fun _ _ => rfl, Nat.le_refl _, by dsimp only; omega, fun _ _ => rfl, rfl, ?_, ?_, rfl, rfl, rfl, rfl, ?_⟩
      · simp only [upd_same]; omega
      · simp only [text, upd_same, Buf.read, bytes_add, hat]
      · intro e; exact ⟨rfl, by simp only [Buf.size]; omega⟩
  · rw [if_neg hat]
    by_cases he : h.s i + h.ln i = h.ee
    · rw [if_pos he, vbyteAlloc_room (by omega)]
      refine ⟨?_, by dsimp only; omega, by dsimp only; omega, fun _ _ => rfl, rfl, ?_, ?_, rfl, rfl, rfl, rfl, fun _ => ⟨rfl, rfl⟩⟩
      · intro a ha
        exact b.copy_out _ _ _ (Or.inl (by dsimp only; omega))
      · simp only [upd_same]; omega
      · simp only [text, upd_same, bytes_add]
        congr 1
        · apply bytes_congr; intro k hk; exact b.copy_out _ _ _ (Or.inl (by omega))
        · exact b.copy_bytes _ _
    · have hr' := hr' he
      rw [if_neg he, vbyteAlloc_room (by omega)]
      have hrd : b.read (move h.mem h.ee (h.s i) (h.ln i)) = b.read h.mem := by
        refine Buf.read_congr hb fun a ha => ?_
        simp only [move]; rw [if_neg (by omega)]
      refine ⟨?_, by dsimp only; omega, by dsimp only; omega, ?_, rfl, ?_, ?_, rfl, rfl, rfl, rfl, fun e => absurd e he⟩
      · intro a ha
        dsimp only
        rw [b.copy_out _ _ _ (Or.inl (by rw [upd_same]; omega))]
        simp only [move]; rw [if_neg (by omega)]
      · intro j hj; exact upd_ne _ _ hj
      · simp only [upd_same]; omega
      · simp only [text, upd_same, bytes_add]
        congr 1
        · apply bytes_congr; intro k hk
          rw [b.copy_out _ _ _ (Or.inl (by omega))]
          simp only [move]; rw [if_pos (by omega)]; congr 1; omega
        · rw [b.copy_bytes, hrd]

/-! The handle list. -/

theorem mem_addAfter {i n x : Nat} {l : List Nat} (hn : n ∈ l) : x ∈ addAfter i n l ↔ x = i ∨ x ∈ l := by
  induction l with
  | nil => simp at hn
  | cons a r ih =>
    simp only [addAfter]
    split
    · simp only [List.mem_cons]; tauto
    · rename_i ha
      have : n ∈ r := by rcases List.mem_cons.1 hn with e | e; exact absurd e.symm ha; exact e
      simp only [List.mem_cons, ih this]; tauto

theorem nodup_addAfter {i n : Nat} {l : List Nat} (hn : n ∈ l) (hi : i ∉ l) (h : l.Nodup) : (addAfter i n l).Nodup := by
  induction l with
  | nil => simp at hn
  | cons a r ih =>
    rw [List.nodup_cons] at h
    simp only [List.mem_cons, not_or] at hi
    simp only [addAfter]
    split
    · rw [List.nodup_cons, List.nodup_cons]
      exact ⟨by simp only [List.mem_cons, not_or]; exact ⟨fun e => hi.1 e.symm, h.1⟩, hi.2, h.2⟩
    · rename_i ha
      have hr : n ∈ r := by rcases List.mem_cons.1 hn with e | e; exact absurd e.symm ha; exact e
      rw [List.nodup_cons, mem_addAfter hr]
      exact ⟨fun e => e.elim (fun e => hi.1 e.symm) h.1, ih hr hi.2 h.2⟩

theorem mem_putSorted {s : Nat → Nat} {i x : Nat} {l : List Nat} : x ∈ putSorted s i l ↔ x = i ∨ x ∈ l := by
  induction l with
  | nil => simp [putSorted]
  | cons a r ih =>
    simp only [putSorted]
    split
    · rename_i e; subst e; simp only [List.mem_cons]; tauto
    · split
      · simp only [List.mem_cons, ih]; tauto
      · simp only [List.mem_cons, List.mem_filter, decide_eq_true_eq, decide_not, Bool.not_eq_true', decide_eq_false_iff_not]
        by_cases hx : x = i <;> simp [hx]

theorem nodup_putSorted {s : Nat → Nat} {i : Nat} {l : List Nat} (h : l.Nodup) : (putSorted s i l).Nodup := by
  induction l with
  | nil => simp [putSorted]
  | cons a r ih =>
    simp only [putSorted]
    split
    · exact h
    · rename_i ha
      rw [List.nodup_cons] at h
      split
      · rw [List.nodup_cons, mem_putSorted]
        exact ⟨fun e => e.elim ha h.1, ih h.2⟩
      · rw [List.nodup_cons]
        exact ⟨by simp, (List.nodup_cons.2 h).filter _⟩

theorem split_at {n : Nat} {l : List Nat} (hn : n ∈ l) :
    ∃ r, l = l.takeWhile (· ≠ n) ++ n :: r ∧ (l.dropWhile (· ≠ n)).tail = r := by
  induction l with
  | nil => simp at hn
  | cons a l ih =>
    by_cases ha : a = n
    · subst ha; exact ⟨l, by simp, by simp⟩
    · have : n ∈ l := by rcases List.mem_cons.1 hn with e | e; exact absurd e.symm ha; exact e
      obtain ⟨r, h1, h2⟩ := ih this
      refine ⟨r, ?_, ?_⟩
      · rw [List.takeWhile_cons_of_pos (by simpa using ha)]
        exact congrArg (a :: ·) h1
      · rw [List.dropWhile_cons_of_pos (by simpa using ha)]; exact h2

theorem mem_moveAfter {s : Nat → Nat} {i n x : Nat} {l : List Nat} (hn : n ∈ l) (hi : i ∈ l) : x ∈ moveAfter s i n l ↔ x ∈ l := by
  obtain ⟨r, h1, h2⟩ := split_at hn
  unfold moveAfter
  rw [h2]
  generalize l.takeWhile (· ≠ n) = p at *
  subst h1
  simp only [List.mem_append, List.mem_filter, List.mem_cons, decide_not, Bool.not_eq_true', decide_eq_false_iff_not]
  split
  · rename_i e; subst e
    rw [mem_putSorted]
    by_cases hx : x = i <;> simp [hx]
  · simp only [List.mem_cons, mem_putSorted]
    by_cases hx : x = i
    · subst hx
      simp only [List.mem_append, List.mem_cons] at hi
      simp; tauto
    · simp [hx]

theorem nodup_moveAfter {s : Nat → Nat} {i n : Nat} {l : List Nat} (hn : n ∈ l) (h : l.Nodup) : (moveAfter s i n l).Nodup := by
  obtain ⟨r, h1, h2⟩ := split_at hn
  unfold moveAfter
  rw [h2]
  generalize l.takeWhile (· ≠ n) = p at *
  subst h1
  rw [List.nodup_append] at h
  obtain ⟨a1, a2, a3⟩ := h
  rw [List.nodup_cons] at a2
  rw [List.nodup_append]
  refine ⟨a1.filter _, ?_, ?_⟩
  · split
    · exact nodup_putSorted a2.2
    · rename_i hin
      rw [List.nodup_cons, mem_putSorted]
      exact ⟨fun e => e.elim (fun e => hin e.symm) a2.1, nodup_putSorted a2.2⟩
  · intro a ha b hb e
    subst e
    simp only [List.mem_filter, decide_not, Bool.not_eq_true', decide_eq_false_iff_not] at ha
    split at hb
    · rw [mem_putSorted] at hb
      rcases hb with e | e
      · exact ha.2 e
      · exact a3 a ha.1 a (List.mem_cons_of_mem _ e) rfl
    · rw [List.mem_cons, mem_putSorted] at hb
      rcases hb with e | e | e
      · exact a3 a ha.1 a (by simp [e]) rfl
      · exact ha.2 e
      · exact a3 a ha.1 a (List.mem_cons_of_mem _ e) rfl

/-! Share-edit rings. -/

theorem ring_insert_after {nx bk nx' bk' : Nat → Nat} {l : List Nat} {a n : Nat} (h : Ring nx bk (a :: l))
    (hnd : (a :: l).Nodup) (hnl : n ∉ a :: l)
    (h1 : nx' n = nx a) (h2 : bk' n = a) (h3 : bk' (nx a) = n) (h4 : nx' a = n)
    (hn : ∀ c, c ≠ n → c ≠ a → nx' c = nx c) (hb : ∀ c, c ≠ n → c ≠ nx a → bk' c = bk c) :
    Ring nx' bk' (a :: n :: l) := by
  cases l with
  | nil =>
    have hx : nx a = a := h.1
    rw [hx] at h1 h3
    exact ⟨h4, h2, h1, h3⟩
  | cons x l =>
    obtain ⟨e1, e2, e3⟩ := h
    rw [e1] at h1 h3 hb
    simp only [List.mem_cons, not_or] at hnl
    simp only [List.nodup_cons, List.mem_cons, not_or] at hnd
    refine ⟨h4, h2, h1, h3, seg_congr e3 ?_ ?_⟩
    · rintro c (rfl | hc)
      · exact hn _ (fun e => hnl.2.1 e.symm) (fun e => hnd.1.1 e.symm)
      · exact hn _ (fun e => hnl.2.2 (e ▸ hc)) (fun e => hnd.1.2 (e ▸ hc))
    · rintro c (rfl | hc)
      · exact hb _ (fun e => hnl.1 e.symm) hnd.1.1
      · exact hb _ (fun e => hnl.2.2 (e ▸ hc)) (fun e => hnd.2.1 (e ▸ hc))

theorem walk_ring {nx bk : Nat → Nat} {c : List Nat} {i : Nat} : ∀ {p : Nat} {k : Nat}, Seg nx bk p c i → i ∉ c → c.length < k →
    walk nx i k (nx p) = c := by
  induction c with
  | nil =>
    intro p k h _ hk
    obtain ⟨k, rfl⟩ : ∃ k', k = k' + 1 := ⟨k - 1, by omega⟩
    rw [h.1]; simp [walk]
  | cons x c ih =>
    intro p k h hi hk
    obtain ⟨k, rfl⟩ : ∃ k', k = k' + 1 := ⟨k - 1, by omega⟩
    simp only [List.mem_cons, not_or] at hi
    simp only [List.length_cons] at hk
    rw [h.1]
    simp only [walk]
    rw [if_neg (fun e => hi.1 e.symm), ih h.2.2 hi.2 (by omega)]

/-! The loop over the peers. -/

theorem peerLoop_spec (bb bl ab al ol rs rl es el pad : Nat) (ps : List Nat) (h : Heap) (hnd : ps.Nodup)
    (hpad : pad ∈ h.order) (hps : ∀ p ∈ ps, p ∈ h.order) (ho : h.order.Nodup) :
    ∃ o, peerLoop bb bl ab al ol rs rl es el pad ps h = { h with
        s := fun p => if p ∈ ps then (peer bb bl ab al ol rs rl es el (h.s p) (h.ln p)).1 else h.s p
        ln := fun p => if p ∈ ps then (peer bb bl ab al ol rs rl es el (h.s p) (h.ln p)).2 else h.ln p
        order := o } ∧ o.Nodup ∧ ∀ x, x ∈ o ↔ x ∈ h.order := by
  induction ps generalizing h with
  | nil => exact ⟨h.order, by simp [peerLoop], ho, fun _ => Iff.rfl⟩
  | cons p r ih =>
    rw [List.nodup_cons] at hnd
    simp only [peerLoop]
    have hp : p ∈ h.order := hps p (by simp)
    obtain ⟨o, e, h1, h2⟩ := ih { h with
        s := upd h.s p (peer bb bl ab al ol rs rl es el (h.s p) (h.ln p)).1
        ln := upd h.ln p (peer bb bl ab al ol rs rl es el (h.s p) (h.ln p)).2
        order := moveAfter (upd h.s p (peer bb bl ab al ol rs rl es el (h.s p) (h.ln p)).1) p pad h.order } hnd.2
      ((mem_moveAfter hpad hp).2 hpad) (fun q hq => (mem_moveAfter hpad hp).2 (hps q (by simp [hq]))) (nodup_moveAfter hpad ho)
    refine ⟨o, ?_, h1, fun x => (h2 x).trans (mem_moveAfter hpad hp)⟩
    rw [e]
    congr 1
    · funext q
      dsimp only
      by_cases hq : q = p
      · subst hq; simp [hnd.1]
      · simp [upd, hq]
    · funext q
      dsimp only
      by_cases hq : q = p
      · subst hq; simp [hnd.1]
      · simp [upd, hq]

/-- The first and last strings of a share set. -/
theorem locate_spec (h : Heap) (ps : List Nat) (sp ep : Nat) :
    let r := locate h ps (sp, ep)
    (r.1 = sp ∨ r.1 ∈ ps) ∧ (r.2 = ep ∨ r.2 ∈ ps) ∧ h.s r.1 ≤ h.s sp ∧ (∀ p ∈ ps, h.s r.1 ≤ h.s p) ∧
      h.s ep + h.ln ep ≤ h.s r.2 + h.ln r.2 ∧ ∀ p ∈ ps, h.s p + h.ln p ≤ h.s r.2 + h.ln r.2 := by
  induction ps generalizing sp ep with
  | nil => simp [locate]
  | cons p ps ih =>
    simp only [locate]
    obtain ⟨a1, a2, a3, a4, a5, a6⟩ := ih (if h.s p < h.s sp then p else sp) (if h.s ep + h.ln ep < h.s p + h.ln p then p else ep)
    generalize locate h ps _ = r at *
    refine ⟨?_, ?_, ?_, ?_, ?_, ?_⟩
    · split at a1 <;> simp only [List.mem_cons] <;> tauto
    · split at a2 <;> simp only [List.mem_cons] <;> tauto
    · split at a3 <;> omega
    · intro q hq
      rcases List.mem_cons.1 hq with rfl | hq
      · split at a3 <;> omega
      · exact a4 q hq
    · split at a5 <;> omega
    · intro q hq
      rcases List.mem_cons.1 hq with rfl | hq
      · split at a5 <;> omega
      · exact a6 q hq

theorem assignEditSet_spec (h : Heap) (i sp ep rs rl pad bsize : Nat) (ps : List Nat) (hnd : ps.Nodup) (hi : i ∉ ps)
    (hio : i ∈ h.order) (hpad : pad ∈ h.order) (hps : ∀ p ∈ ps, p ∈ h.order) (ho : h.order.Nodup) :
    let bl := h.s i - h.s sp
    let ab := h.s i + h.ln i
    let al := h.s ep + h.ln ep - ab
    ∃ o, assignEditSet h i sp ep rs rl pad bsize ps = { h with
        s := fun p => if p ∈ ps then (peer (h.s sp) bl ab al (h.ln i) rs rl (rs + bl) bsize (h.s p) (h.ln p)).1
          else upd h.s i (rs + bl) p
        ln := fun p => if p ∈ ps then (peer (h.s sp) bl ab al (h.ln i) rs rl (rs + bl) bsize (h.s p) (h.ln p)).2
          else upd h.ln i bsize p
        order := o } ∧ o.Nodup ∧ ∀ x, x ∈ o ↔ x ∈ h.order := by
  intro bl ab al
  unfold assignEditSet
  dsimp only
  obtain ⟨o, e, h1, h2⟩ := peerLoop_spec (h.s sp) bl ab al (h.ln i) rs rl (rs + bl) bsize pad ps
    { h with s := upd h.s i (rs + bl), ln := upd h.ln i bsize, order := moveAfter (upd h.s i (rs + bl)) i pad h.order } hnd
    ((mem_moveAfter hpad hio).2 hpad) (fun q hq => (mem_moveAfter hpad hio).2 (hps q hq)) (nodup_moveAfter hpad ho)
  refine ⟨o, ?_, h1, fun x => (h2 x).trans (mem_moveAfter hpad hio)⟩
  rw [e]
  have hne : ∀ q ∈ ps, q ≠ i := fun q hq e => hi (e ▸ hq)
  congr 1
  · funext q
    by_cases hq : q ∈ ps
    · simp only [if_pos hq, upd_ne _ _ (hne q hq)]
    · simp only [if_neg hq]
  · funext q
    by_cases hq : q ∈ ps
    · simp only [if_pos hq, upd_ne _ _ (hne q hq)]
    · simp only [if_neg hq]

end Verif.StrHeap
