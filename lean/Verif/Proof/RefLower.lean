import Verif.Spec.RefLower
import Mathlib.Tactic.Common

/-! # Proofs about the elimination of references -/

namespace Verif.RefLower

/-! ## Types -/

theorem depth_refs (n : Nat) (t : Ty) : (Ty.refs n t).depth = n + t.depth := by
  induction n with
  | zero => simp [Ty.refs]
  | succ n ih => simp [Ty.refs, Ty.depth, ih]; omega

theorem strip_refs (n : Nat) (t : Ty) : (Ty.refs n t).strip = t.strip := by
  induction n with
  | zero => rfl
  | succ n ih => simp [Ty.refs, Ty.strip, ih]

theorem depth_strip (t : Ty) : t.strip.depth = 0 := by
  induction t with
  | base n => rfl
  | ptr t _ => rfl
  | ref t ih => exact ih

theorem peel_depth (t : Ty) : (Ty.peel)^[t.depth] t = t.strip := by
  induction t with
  | base n => rfl
  | ptr t _ => rfl
  | ref t ih => simpa [Ty.depth, Ty.strip, Ty.peel] using ih

theorem depth_peel_ptrs (k : Nat) (T : Ty) (hT : T.depth = 0) (n : Nat) (h : n ≤ k) :
    ((Ty.peel)^[n] (Ty.ptr^[k] T)).depth = 0 := by
  induction n generalizing k with
  | zero =>
    cases k with
    | zero => exact hT
    | succ k => rw [Function.iterate_succ_apply']; rfl
  | succ n ih =>
    cases k with
    | zero => omega
    | succ k =>
      rw [Function.iterate_succ_apply' Ty.ptr, Function.iterate_succ_apply]
      exact ih k (by omega)

theorem depth_peel_n (t : Ty) (k : Nat) (T : Ty) (hT : T.depth = 0) (hs : t.strip = Ty.ptr^[k] T)
    (D : Nat) (h1 : t.depth ≤ D) (h2 : D - t.depth ≤ k) : ((Ty.peel)^[D] t).depth = 0 := by
  have : D = (D - t.depth) + t.depth := by omega
  rw [this, Function.iterate_add_apply, peel_depth, hs]
  exact depth_peel_ptrs k T hT _ h2

/-! ## Annotations through the passes -/

theorem ty_setTy (e : E) (t : Ty) : (e.setTy t).ty = t := by cases e <;> rfl

theorem ty_derefs (n : Nat) (e : E) : (derefs n e).ty = (Ty.peel)^[n] e.ty := by
  induction n generalizing e with
  | zero => rfl
  | succ n ih => rw [derefs, ih]; rfl

theorem ty_conv (ex : Bool) (t : Ty) (a : E) : (conv ex t a).ty = t := by
  unfold conv
  split
  · dsimp only; split
    · exact ty_setTy _ _
    · rfl
  · split
    · dsimp only; split
      · exact ty_setTy _ _
      · rfl
    · split
      · rfl
      · rename_i h; push Not at h; exact h.2.symm

theorem ty_rc0 (e : E) : (rc0 e).ty = e.ty := by
  cases e <;> first | rfl | exact ty_conv _ _ _

theorem ty_fia (e : E) : (fia e).ty = e.ty := by cases e <;> rfl

theorem fia_setTy (e : E) (t : Ty) : fia (e.setTy t) = (fia e).setTy t := by cases e <;> rfl

theorem out_setTy (e : E) (t : Ty) : out (e.setTy t) = out e := by cases e <;> rfl

theorem isDeref_fia (e : E) : (fia e).isDeref = e.isDeref := by cases e <;> rfl

theorem rc0_derefs (n : Nat) (e : E) : rc0 (derefs n e) = derefs n (rc0 e) := by
  induction n generalizing e with
  | zero => rfl
  | succ n ih =>
    rw [derefs, ih, derefs]
    simp [mkDeref, rc0, ty_rc0]

/-- The C of an expression after `ReferenceConversions`. -/
def Gr (e : E) : C := out (fia e)

theorem Gr_setTy (e : E) (t : Ty) : Gr (e.setTy t) = Gr e := by
  unfold Gr; rw [fia_setTy, out_setTy]

theorem Gr_derefs (n : Nat) (e : E) : Gr (derefs n e) = sDeref^[n] (Gr e) := by
  induction n generalizing e with
  | zero => rfl
  | succ n ih => rw [derefs, ih, Function.iterate_succ_apply]; rfl

theorem Gr_addrs (n : Nat) (e : E) : Gr (addrs n e) = sAddr^[n] (Gr e) := by
  induction n generalizing e with
  | zero => rfl
  | succ n ih => rw [addrs, ih, Function.iterate_succ_apply]; rfl

theorem Gr_cast (e : E) (ex : Bool) (t : Ty) : Gr (.cast e ex t) = .cast (Gr e) := rfl

/-! ## The C -/

theorem ev_lr (F : Fns) (c : C) (σ σ1 : Store) (v : Nat) (h : ev F c true σ = some (v, σ1)) :
    ev F c false σ = some (σ1 v, σ1) := by
  cases c <;> simp only [ev, reduceCtorEq] at h ⊢
  · simp only [Option.some.injEq, Prod.mk.injEq] at h; obtain ⟨rfl, rfl⟩ := h; rfl
  · simp [h]

theorem ev_sDeref_lv (F : Fns) (c : C) (σ σ1 : Store) (v : Nat)
    (h : ev F c false σ = some (v, σ1)) : ev F (sDeref c) true σ = some (v, σ1) := by
  cases c <;> first | exact h | (simpa [sDeref, ev] using h)

theorem ev_sDeref (F : Fns) (c : C) (σ σ1 : Store) (v : Nat)
    (h : ev F c false σ = some (v, σ1)) : ev F (sDeref c) false σ = some (σ1 v, σ1) :=
  ev_lr _ _ _ _ _ (ev_sDeref_lv _ _ _ _ _ h)

theorem ev_sAddr_of_lv (F : Fns) (c : C) (σ σ1 : Store) (v : Nat)
    (h : ev F c true σ = some (v, σ1)) : ev F (sAddr c) false σ = some (v, σ1) := by
  cases c <;> simp only [ev, reduceCtorEq] at h
  · simpa [sAddr, ev] using h
  · simpa [sAddr, ev] using h

theorem ev_sAddr_sDeref (F : Fns) (c : C) (σ σ1 : Store) (v : Nat)
    (h : ev F c false σ = some (v, σ1)) : ev F (sAddr (sDeref c)) false σ = some (v, σ1) :=
  ev_sAddr_of_lv _ _ _ _ _ (ev_sDeref_lv _ _ _ _ _ h)

theorem ev_under (F : Fns) (c : C) (σ : Store) :
    ev F (sAddr.under c) false σ = ev F (sAddr c) false σ := by
  cases c <;> simp [sAddr.under, sAddr, ev]

theorem ev_sAddr_cast (F : Fns) (c : C) (σ : Store) :
    ev F (sAddr (.cast c)) false σ = ev F (sAddr c) false σ := by
  simp [sAddr, ev, ev_under]

/-- No `&*`, no `*&` and no cast at the head. -/
def Clean : C → Prop
  | .addr e => (∀ x, e ≠ .deref x) ∧ Clean e
  | .deref e => (∀ x, e ≠ .addr x) ∧ Clean e
  | .cast _ => False
  | _ => True

theorem Clean.sDeref {c : C} (h : Clean c) : Clean (sDeref c) := by
  cases c with
  | addr e => exact h.2
  | cast e => exact h.elim
  | deref e => exact ⟨(fun x hx => by cases hx), h⟩
  | _ => exact ⟨(fun x hx => by cases hx), trivial⟩

theorem Clean.sAddr {c : C} (h : Clean c) : Clean (sAddr c) := by
  cases c with
  | deref e => exact h.2
  | cast e => exact h.elim
  | addr e => exact ⟨(fun x hx => by cases hx), h⟩
  | _ => exact ⟨(fun x hx => by cases hx), trivial⟩

theorem Clean.ad {c : C} (h : Clean c) : RefLower.sAddr (RefLower.sDeref c) = c := by
  cases c with
  | addr e =>
    have := h.1
    cases e <;> first | rfl | exact absurd rfl (this _) | exact absurd h.2 (by simp [Clean])
  | cast e => exact absurd h (by simp [Clean])
  | _ => rfl

theorem Clean.da {c : C} (h : Clean c) : RefLower.sDeref (RefLower.sAddr c) = c := by
  cases c with
  | deref e =>
    have := h.1
    cases e <;> first | rfl | exact absurd rfl (this _) | exact absurd h.2 (by simp [Clean])
  | cast e => exact absurd h (by simp [Clean])
  | _ => rfl

theorem Clean.sDerefs {c : C} (h : Clean c) (n : Nat) : Clean (RefLower.sDeref^[n] c) := by
  induction n generalizing c with
  | zero => exact h
  | succ n ih => rw [Function.iterate_succ_apply]; exact ih h.sDeref

theorem Clean.sAddrs {c : C} (h : Clean c) (n : Nat) : Clean (RefLower.sAddr^[n] c) := by
  induction n generalizing c with
  | zero => exact h
  | succ n ih => rw [Function.iterate_succ_apply]; exact ih h.sAddr

theorem Clean.ads {c : C} (h : Clean c) (n : Nat) :
    RefLower.sAddr^[n] (RefLower.sDeref^[n] c) = c := by
  induction n with
  | zero => rfl
  | succ n ih =>
    rw [Function.iterate_succ_apply' RefLower.sDeref, Function.iterate_succ_apply,
      (h.sDerefs n).ad, ih]

/-- `m ≤ n` address-ofs around `n` dereferences. -/
theorem Clean.ads' {c : C} (h : Clean c) (m n : Nat) (hm : m ≤ n) :
    RefLower.sAddr^[m] (RefLower.sDeref^[n] c) = RefLower.sDeref^[n - m] c := by
  have : n = m + (n - m) := by omega
  rw [this, Function.iterate_add_apply, (h.sDerefs (n - m)).ads]
  congr 1; omega

/-! ## What a piece of C represents -/

/-- The C expression has the value the expression stands for. -/
def Rep (F : Fns) (c : C) (d : Den) (σ σ1 : Store) : Prop :=
  (∀ v, d.read σ1 = some v → ev F c false σ = some (v, σ1)) ∧
  (∀ v, d = .tmp v → ev F (sDeref c) false σ = some (v, σ1))

theorem Rep.step {F : Fns} {c : C} {d : Den} {σ σ1 : Store} (h : Rep F c d σ σ1) :
    Rep F (sDeref c) (d.follow σ1) σ σ1 ∧
    ∀ a, d.follow σ1 = .place a → ev F (sAddr (sDeref c)) false σ = some (a, σ1) := by
  cases d with
  | place a =>
    have h1 := h.1 (σ1 a) rfl
    refine ⟨⟨?_, ?_⟩, ?_⟩
    · intro v hv; simp only [Den.follow, Den.read, Option.some.injEq] at hv; subst hv
      exact ev_sDeref _ _ _ _ _ h1
    · intro v hv; simp [Den.follow] at hv
    · intro b hb; simp only [Den.follow, Den.place.injEq] at hb; subst hb
      exact ev_sAddr_sDeref _ _ _ _ _ h1
  | val a =>
    have h1 := h.1 a rfl
    refine ⟨⟨?_, ?_⟩, ?_⟩
    · intro v hv; simp only [Den.follow, Den.read, Option.some.injEq] at hv; subst hv
      exact ev_sDeref _ _ _ _ _ h1
    · intro v hv; simp [Den.follow] at hv
    · intro b hb; simp only [Den.follow, Den.place.injEq] at hb; subst hb
      exact ev_sAddr_sDeref _ _ _ _ _ h1
  | tmp a =>
    have h1 := h.2 a rfl
    refine ⟨⟨?_, ?_⟩, ?_⟩
    · intro v hv; simp only [Den.follow, Den.read, Option.some.injEq] at hv; subst hv; exact h1
    · intro v hv; simp [Den.follow] at hv
    · intro b hb; simp [Den.follow] at hb

theorem Rep.steps {F : Fns} {c : C} {d : Den} {σ σ1 : Store} (h : Rep F c d σ σ1) (n : Nat) :
    Rep F (sDeref^[n] c) ((Den.follow σ1)^[n] d) σ σ1 ∧
    (0 < n → ∀ a, (Den.follow σ1)^[n] d = .place a →
      ev F (sAddr (sDeref^[n] c)) false σ = some (a, σ1)) := by
  induction n with
  | zero => exact ⟨h, fun h => absurd h (by omega)⟩
  | succ n ih =>
    rw [Function.iterate_succ_apply', Function.iterate_succ_apply']
    exact ⟨ih.1.step.1, fun _ => ih.1.step.2⟩

/-! ## `AddressRef` and `ReferenceConversions` together -/

/-- An expression on its own after `ReferenceConversions`. -/
def A (e : E) (ac : Bool) : E := rc0 (ar (fir e) true ac).1
/-- An expression inside a chain of `&`. -/
def I (e : E) (ac : Bool) : E := rc0 (ar (fir e) false ac).1
/-- The reference depth of the expression the chain is around. -/
def Dof (e : E) (ac : Bool) : Nat := (ar (fir e) false ac).2

theorem ar_na (e : E) (h : e.isAddr = false) (f ac : Bool) :
    ar (fir e) f ac = ar (fir e) true false ∧ (ar (fir e) f ac).2 = 0 ∧
      (ar (fir e) f ac).1.ty = e.ty := by
  cases e <;> first | exact ⟨rfl, rfl, rfl⟩ | simp [E.isAddr] at h

theorem A_na (e : E) (h : e.isAddr = false) (ac : Bool) : A e ac = A e false := by
  unfold A; rw [(ar_na e h true ac).1]

theorem I_na (e : E) (h : e.isAddr = false) (ac : Bool) : I e ac = A e false := by
  unfold A I; rw [(ar_na e h false ac).1]

theorem ty_A_na (e : E) (h : e.isAddr = false) (ac : Bool) : (A e ac).ty = e.ty := by
  unfold A; rw [ty_rc0]; exact (ar_na e h true ac).2.2

theorem ty_I (e : E) (ac : Bool) : (I e ac).ty = e.ty := by
  unfold I; rw [ty_rc0]
  cases e <;> rfl

theorem I_addr (e : E) (t : Ty) (ac : Bool) : I (.addr e t) ac = .addr (I e ac) t := rfl

theorem Dof_addr_na (e : E) (t : Ty) (ac : Bool) (h : e.isAddr = false) :
    Dof (.addr e t) ac = e.ty.depth := by
  have := ar_na e h false ac
  simp [Dof, fir, ar, this.2.1, this.2.2]

theorem Dof_addr_addr (e : E) (t : Ty) (ac : Bool) (h : 0 < Dof e ac) :
    Dof (.addr e t) ac = Dof e ac := by
  unfold Dof at h ⊢
  have h' : (ar (fir e) false ac).2 ≠ 0 := by omega
  simp [fir, ar, h']

theorem A_addr_cast (e : E) (t : Ty) (h : t.depth ≠ 0) :
    A (.addr e t) true = conv false t (derefs (Dof (.addr e t) true) (I (.addr e t) true)) := by
  simp only [A, Dof, I, fir, ar, wrapAddr, h, if_true, ne_eq, not_false_eq_true, and_self,
    rc0, rc0_derefs, Bool.false_eq_true, if_false]

theorem A_addr (e : E) (t : Ty) (ac : Bool) (h : ac = false ∨ t.depth = 0) :
    A (.addr e t) ac = derefs (Dof (.addr e t) ac) (I (.addr e t) ac) := by
  have h' : ¬ (ac = true ∧ t.depth ≠ 0) := by
    rintro ⟨h1, h2⟩; rcases h with h | h
    · simp [h] at h1
    · exact h2 h
  simp only [A, Dof, I, fir, ar, wrapAddr, h', if_true, rc0_derefs, if_false,
    Bool.false_eq_true, rc0]

/-- A chain of `&` around an expression of reference depth `D`. -/
theorem chain_info (e : E) (hw : WT e) (ha : e.isAddr = true) (ac : Bool) :
    e.ty.depth ≤ Dof e ac ∧
    ∃ k T, T.depth = 0 ∧ e.ty.strip = Ty.ptr^[k] T ∧ Dof e ac - e.ty.depth ≤ k := by
  induction e with
  | addr e t ih =>
    obtain ⟨hw1, hw2⟩ := hw
    by_cases hi : e.isAddr = true
    · have hlv : e.lv = false := by cases e <;> first | rfl | simp [E.isAddr] at hi
      rw [hlv] at hw2
      simp only [Bool.false_eq_true, if_false] at hw2
      obtain ⟨h1, k, T, hT, hs, hk⟩ := ih hw1 hi
      rw [Dof_addr_addr _ _ _ (by omega)]
      have ht : (E.addr e t).ty = _ := hw2.2
      simp only [ht, depth_refs, strip_refs, Ty.depth, Ty.strip, Nat.add_zero]
      refine ⟨by omega, k + 1, T, hT, ?_, by omega⟩
      rw [hs, Function.iterate_succ_apply']
    · simp only [Bool.not_eq_true] at hi
      rw [Dof_addr_na _ _ _ hi]
      by_cases hlv : e.lv = true
      · rw [if_pos hlv] at hw2
        have ht : (E.addr e t).ty = _ := hw2
        simp only [ht, depth_refs, strip_refs, Ty.depth, Ty.strip, Nat.add_zero]
        exact ⟨Nat.le_refl _, 1, e.ty.strip, depth_strip _, rfl, by omega⟩
      · rw [if_neg hlv] at hw2
        have ht : (E.addr e t).ty = _ := hw2.2
        simp only [ht, depth_refs, strip_refs, Ty.depth, Ty.strip, Nat.add_zero]
        exact ⟨by omega, 1, e.ty.strip, depth_strip _, rfl, by omega⟩
  | _ => simp [E.isAddr] at ha

theorem depth_A_addr (e : E) (t : Ty) (hw : WT (.addr e t)) (ac : Bool)
    (h : ac = false ∨ t.depth = 0) : (A (.addr e t) ac).ty.depth = 0 := by
  obtain ⟨h1, k, T, hT, hs, hk⟩ := chain_info _ hw rfl ac
  rw [A_addr e t ac h, ty_derefs, ty_I]
  exact depth_peel_n _ k T hT hs _ h1 hk

theorem ty_A_arg (e : E) (hw : WT e) : (A e true).ty.depth = e.ty.depth := by
  by_cases ha : e.isAddr = true
  · cases e with
    | addr e t =>
      by_cases ht : t.depth = 0
      · rw [depth_A_addr e t hw true (Or.inr ht)]; exact ht.symm
      · rw [A_addr_cast e t ht, ty_conv]; rfl
    | _ => simp [E.isAddr] at ha
  · rw [ty_A_na e (by simpa using ha)]

/-! ### The C of a conversion -/

theorem Gr_conv_up (ex : Bool) (t : Ty) (a : E) (h : a.ty.depth < t.depth) :
    Gr (conv ex t a) = (if a.ty = t.peel then sAddr^[t.depth - a.ty.depth] (Gr a)
      else .cast (sAddr^[t.depth - a.ty.depth] (Gr a))) := by
  unfold conv
  rw [if_pos h]
  dsimp only
  split
  · rw [Gr_setTy, Gr_addrs]
  · rw [Gr_cast, Gr_addrs]

theorem Gr_conv_down (ex : Bool) (t : Ty) (a : E) (h : t.depth < a.ty.depth) :
    Gr (conv ex t a) = (if t.strip = a.ty.strip then sDeref^[a.ty.depth - t.depth] (Gr a)
      else .cast (sDeref^[a.ty.depth - t.depth] (Gr a))) := by
  unfold conv
  rw [if_neg (by omega), if_pos h]
  dsimp only
  split
  · rw [Gr_setTy, Gr_derefs]
  · rw [Gr_cast, Gr_derefs]

theorem Gr_conv_same (ex : Bool) (t : Ty) (a : E) (h : t.depth = a.ty.depth) :
    Gr (conv ex t a) = (if ex = true ∨ t ≠ a.ty then .cast (Gr a) else Gr a) := by
  unfold conv
  rw [if_neg (by omega), if_neg (by omega)]
  split
  · rw [Gr_cast]
  · rfl

/-- A cast made of nothing but dropped levels or kept as it is has the value of what it is of. -/
theorem ev_conv (F : Fns) (ex : Bool) (t : Ty) (a : E) (σ : Store) :
    ev F (Gr (conv ex t a)) false σ =
      ev F (if a.ty.depth < t.depth then sAddr^[t.depth - a.ty.depth] (Gr a)
        else sDeref^[a.ty.depth - t.depth] (Gr a)) false σ := by
  by_cases h1 : a.ty.depth < t.depth
  · rw [Gr_conv_up _ _ _ h1, if_pos h1]
    split <;> simp [ev]
  · rw [if_neg h1]
    by_cases h2 : t.depth < a.ty.depth
    · rw [Gr_conv_down _ _ _ h2]
      split <;> simp [ev]
    · rw [Gr_conv_same _ _ _ (by omega)]
      have : a.ty.depth - t.depth = 0 := by omega
      rw [this]
      split <;> simp [ev]

theorem ev_sAddr_conv (F : Fns) (ex : Bool) (t : Ty) (a : E) (σ : Store)
    (h : ¬ a.ty.depth < t.depth) :
    ev F (sAddr (Gr (conv ex t a))) false σ =
      ev F (sAddr (sDeref^[a.ty.depth - t.depth] (Gr a))) false σ := by
  by_cases h2 : t.depth < a.ty.depth
  · rw [Gr_conv_down _ _ _ h2]
    split
    · rfl
    · rw [ev_sAddr_cast]
  · rw [Gr_conv_same _ _ _ (by omega)]
    have : a.ty.depth - t.depth = 0 := by omega
    rw [this]
    split
    · rw [ev_sAddr_cast]; rfl
    · rfl

/-! ### Clean C -/

theorem clean_all (e : E) : WT e → e.clear = true →
    (∀ ac, Clean (Gr (I e ac))) ∧
    (∀ ac, (e.isAddr = true → ac = false ∨ e.ty.depth = 0) → Clean (Gr (A e ac))) := by
  induction e with
  | num n t => exact fun _ _ => ⟨fun _ => trivial, fun _ _ => trivial⟩
  | var x t => exact fun _ _ => ⟨fun _ => trivial, fun _ _ => trivial⟩
  | assign l r t => exact fun _ _ => ⟨fun _ => trivial, fun _ _ => trivial⟩
  | plus l r t => exact fun _ _ => ⟨fun _ => trivial, fun _ _ => trivial⟩
  | call f e pr t => exact fun _ _ => ⟨fun _ => trivial, fun _ _ => trivial⟩
  | cond c a b t => exact fun _ _ => ⟨fun _ => trivial, fun _ _ => trivial⟩
  | addr e t ih =>
    intro hw hc
    have hI : ∀ ac, Clean (Gr (I (.addr e t) ac)) := fun ac => ((ih hw.1 hc).1 ac).sAddr
    refine ⟨hI, fun ac h => ?_⟩
    rw [A_addr e t ac (h rfl), Gr_derefs]
    exact (hI ac).sDerefs _
  | deref e t ih =>
    intro hw hc
    obtain ⟨hw1, T, hT, rfl⟩ := hw
    have h1 : Clean (Gr (A e true)) :=
      (ih hw1 hc).2 true (fun _ => Or.inr (by rw [hT]; rfl))
    have key : Clean (Gr (A (.deref e (.ref T)) false)) := by
      change Clean (Gr (conv false (.ref T) (.deref (A e true) T)))
      rw [Gr_conv_up _ _ _ (by simp [E.ty, Ty.depth]),
        if_pos (show (E.deref (A e true) T).ty = (Ty.ref T).peel from rfl)]
      exact Clean.sAddrs (Clean.sDeref h1) _
    exact ⟨fun ac => by rw [I_na _ rfl]; exact key, fun ac _ => by rw [A_na _ rfl]; exact key⟩
  | cast e ex t ih =>
    intro hw hc
    simp only [E.clear, Bool.and_eq_true, Bool.not_eq_true'] at hc
    obtain ⟨⟨ha, hk⟩, hcl⟩ := hc
    have h1 : Clean (Gr (A e false)) := (ih hw hcl).2 false (fun _ => Or.inl rfl)
    have hty : (A e false).ty = e.ty := ty_A_na e ha false
    have key : Clean (Gr (A (.cast e ex t) false)) := by
      change Clean (Gr (conv ex t (A e false)))
      unfold kept at hk
      by_cases h2 : e.ty.depth < t.depth
      · rw [if_pos h2] at hk
        rw [Gr_conv_up _ _ _ (by rw [hty]; exact h2), hty, if_pos (by simpa using hk)]
        exact h1.sAddrs _
      · rw [if_neg h2] at hk
        by_cases h3 : t.depth < e.ty.depth
        · rw [if_pos h3] at hk
          rw [Gr_conv_down _ _ _ (by rw [hty]; exact h3), hty, if_pos (by simpa using hk)]
          exact h1.sDerefs _
        · rw [if_neg h3] at hk
          simp only [Bool.or_eq_false_iff, decide_eq_false_iff_not, not_not] at hk
          rw [Gr_conv_same _ _ _ (by rw [hty]; omega), hty, if_neg (by simp [hk.1, hk.2])]
          exact h1
    exact ⟨fun ac => by rw [I_na _ rfl]; exact key, fun ac _ => by rw [A_na _ rfl]; exact key⟩

/-! ## No temporaries -/

theorem lv_setTy (e : E) (t : Ty) : (e.setTy t).lv = e.lv := by cases e <;> rfl

theorem lv_derefs (n : Nat) (e : E) (h : 0 < n ∨ e.lv = true) : (derefs n e).lv = true := by
  induction n generalizing e with
  | zero => rcases h with h | h
            · omega
            · exact h
  | succ n ih => exact ih _ (Or.inr rfl)

theorem lv_conv (ex : Bool) (t : Ty) (a : E) (h : ¬ a.ty.depth < t.depth)
    (h2 : t.depth < a.ty.depth ∨ a.lv = true) : (conv ex t a).lv = true := by
  unfold conv
  rw [if_neg h]
  split
  · have := lv_derefs (a.ty.depth - t.depth) a (Or.inl (by omega))
    dsimp only; split
    · rw [lv_setTy]; exact this
    · exact this
  · rename_i h3
    have := h2.resolve_left h3
    split
    · exact this
    · exact this

theorem names_lv (e : E) (h : e.names = true) : (A e false).lv = true := by
  induction e with
  | var x t => rfl
  | cast e ex t ih =>
    simp only [E.names, Bool.and_eq_true, Bool.not_eq_true', Bool.or_eq_true,
      decide_eq_true_eq] at h
    change (conv ex t (A e false)).lv = true
    have hty := ty_A_na e h.1 false
    rcases h.2 with h2 | h2
    · exact lv_conv _ _ _ (by rw [hty]; omega) (Or.inl (by rw [hty]; omega))
    · exact lv_conv _ _ _ (by rw [hty]; omega) (Or.inr (ih h2.2))
  | _ => simp [E.names] at h

/-- No temporary is made. -/
def Ok (e : E) : Prop := ∀ n, rcT e n = some (rc0 e, [], n)

theorem Ok.derefs {e : E} (h : Ok e) (k : Nat) : Ok (derefs k e) := by
  induction k generalizing e with
  | zero => exact h
  | succ k ih =>
    refine ih (e := mkDeref e) ?_
    intro n
    simp [mkDeref, rcT, rc0, h n]

theorem Ok.cast {e : E} (h : Ok e) (ex : Bool) (t : Ty)
    (h2 : ¬ ((rc0 e).ty.depth < t.depth) ∨ (rc0 e).lv = true) : Ok (.cast e ex t) := by
  intro n
  have : ¬ ((rc0 e).ty.depth < t.depth ∧ (rc0 e).lv = false) := by
    rintro ⟨h3, h4⟩
    rcases h2 with h2 | h2
    · exact h2 h3
    · rw [h4] at h2; cases h2
  simp only [rcT, h n, Option.bind_some, rc0]
  rw [if_neg this]

theorem lv_A_addr (e : E) (t : Ty) (hw : WT (.addr e t)) (ac : Bool)
    (h : ac = false ∨ t.depth = 0) (ht : 0 < t.depth) : (A (.addr e t) ac).lv = true := by
  obtain ⟨h1, _⟩ := chain_info _ hw rfl ac
  rw [A_addr e t ac h]
  refine lv_derefs _ _ (Or.inl ?_)
  have : (E.addr e t).ty.depth = t.depth := rfl
  omega

theorem ok_all (e : E) : WT e → Plain e = true →
    (∀ ac, Ok (ar (fir e) true ac).1) ∧ (∀ ac, Ok (ar (fir e) false ac).1) := by
  have na : ∀ e : E, e.isAddr = false → Ok (ar (fir e) true false).1 →
      (∀ ac, Ok (ar (fir e) true ac).1) ∧ (∀ ac, Ok (ar (fir e) false ac).1) := by
    intro e he h
    exact ⟨fun ac => by rw [(ar_na e he true ac).1]; exact h,
      fun ac => by rw [(ar_na e he false ac).1]; exact h⟩
  induction e with
  | num n t => exact fun _ _ => na _ rfl (fun _ => rfl)
  | var n t => exact fun _ _ => na _ rfl (fun _ => rfl)
  | addr e t ih =>
    intro hw hp
    simp only [Plain, Bool.and_eq_true] at hp
    have hI : ∀ ac, Ok (.addr (ar (fir e) false ac).1 t) := by
      intro ac n
      simp [rcT, rc0, (ih hw.1 hp.1).2 ac n]
    refine ⟨fun ac => ?_, fun ac => hI ac⟩
    have hD := (hI ac).derefs (Dof (.addr e t) ac)
    by_cases hc : ac = true ∧ t.depth ≠ 0
    · obtain ⟨rfl, ht⟩ := hc
      have heq : (ar (fir (.addr e t)) true true).1 =
          .cast (derefs (Dof (.addr e t) true) (.addr (ar (fir e) false true).1 t)) false t := by
        simp [fir, ar, wrapAddr, ht, Dof]
      rw [heq]
      refine hD.cast _ _ (Or.inr ?_)
      rw [rc0_derefs]
      refine lv_derefs _ _ (Or.inl ?_)
      obtain ⟨h1, _⟩ := chain_info _ hw rfl true
      have : (E.addr e t).ty.depth = t.depth := rfl
      omega
    · have heq : (ar (fir (.addr e t)) true ac).1 =
          derefs (Dof (.addr e t) ac) (.addr (ar (fir e) false ac).1 t) := by
        simp only [fir, ar, wrapAddr, hc, Dof, if_true, if_false, Bool.false_eq_true]
      rw [heq]
      exact hD
  | deref e t ih =>
    intro hw hp
    refine na _ rfl ?_
    have h1 := (ih hw.1 hp).1 true
    refine Ok.cast (e := .deref (ar (fir e) true true).1 t.peel) ?_ _ _ (Or.inr rfl)
    intro n
    simp [rcT, rc0, h1 n]
  | assign l r t ihl ihr =>
    intro hw hp
    simp only [Plain, Bool.and_eq_true] at hp
    refine na _ rfl ?_
    have h1 := (ihl hw.1 hp.1).1 true
    have h2 := (ihr hw.2.1 hp.2).1 true
    intro n
    simp [fir, ar, rcT, rc0, h1 n, h2 n]
  | plus l r t ihl ihr =>
    intro hw hp
    simp only [Plain, Bool.and_eq_true] at hp
    refine na _ rfl ?_
    have h1 := (ihl hw.1 hp.1).1 true
    have h2 := (ihr hw.2.1 hp.2).1 true
    intro n
    simp [fir, ar, rcT, rc0, h1 n, h2 n]
  | call f e pr t ih =>
    intro hw hp
    simp only [Plain, Bool.and_eq_true] at hp
    refine na _ rfl ?_
    have h1 := (ih hw.1 hp.1).1 true
    intro n
    simp [fir, ar, rcT, rc0, h1 n]
  | cast e ex t ih =>
    intro hw hp
    simp only [Plain, Bool.and_eq_true, Bool.or_eq_true, decide_eq_true_eq] at hp
    refine na _ rfl ?_
    have h1 := (ih hw hp.1).1 false
    refine Ok.cast (e := (ar (fir e) true false).1) h1 _ _ ?_
    change ¬ ((A e false).ty.depth < t.depth) ∨ (A e false).lv = true
    by_cases ha : e.isAddr = true
    · cases e with
      | addr e1 t1 =>
        have hle : t.depth ≤ t1.depth := by
          rcases hp.2 with h | h
          · exact h
          · simp [E.names] at h
        by_cases h0 : t.depth = 0
        · left; omega
        · right; exact lv_A_addr e1 t1 hw false (Or.inl rfl) (by omega)
      | _ => simp [E.isAddr] at ha
    · simp only [Bool.not_eq_true] at ha
      rw [ty_A_na e ha]
      rcases hp.2 with h | h
      · left; omega
      · right; exact names_lv e h.2
  | cond c a b t ihc iha ihb =>
    intro hw hp
    simp only [Plain, Bool.and_eq_true] at hp
    refine na _ rfl ?_
    have h1 := (ihc hw.1 hp.1.1.1.1).1 false
    have h2 := (iha hw.2.1 hp.1.1.1.2).1 false
    have h3 := (ihb hw.2.2.1 hp.1.1.2).1 false
    intro n
    simp [fir, ar, rcT, rc0, h1 n, h2 n, h3 n]

/-! ## Arguments of calls -/

theorem isDeref_setTy (e : E) (t : Ty) : (e.setTy t).isDeref = e.isDeref := by cases e <;> rfl

theorem isDeref_addrs (n : Nat) (e : E) (h : 0 < n ∨ e.isDeref = false) :
    (addrs n e).isDeref = false := by
  induction n generalizing e with
  | zero => rcases h with h | h
            · omega
            · exact h
  | succ n ih => exact ih _ (Or.inr rfl)

theorem isDeref_conv_up (ex : Bool) (t : Ty) (a : E) (h : a.ty.depth < t.depth) :
    (conv ex t a).isDeref = false := by
  unfold conv
  rw [if_pos h]
  dsimp only; split
  · rw [isDeref_setTy]; exact isDeref_addrs _ _ (Or.inl (by omega))
  · rfl

theorem isDeref_A (e : E) : WT e → e.deep = false → 0 < e.ty.depth →
    (A e true).isDeref = false := by
  induction e with
  | num n t => exact fun _ _ _ => rfl
  | var n t => exact fun _ _ _ => rfl
  | assign l r t => exact fun _ _ _ => rfl
  | plus l r t => exact fun _ _ _ => rfl
  | call f e pr t => exact fun _ _ _ => rfl
  | cond c a b t => exact fun _ _ _ => rfl
  | addr e t =>
    intro hw _ hd
    have hd' : 0 < t.depth := hd
    rw [A_addr_cast e t (by omega)]
    refine isDeref_conv_up _ _ _ ?_
    obtain ⟨h1, k, T, hT, hs, hk⟩ := chain_info _ hw rfl true
    rw [ty_derefs, ty_I, depth_peel_n _ k T hT hs _ h1 hk]
    exact hd'
  | deref e t =>
    intro hw _ _
    obtain ⟨_, T, _, rfl⟩ := hw
    change (conv false (.ref T) (.deref (A e true) T)).isDeref = false
    exact isDeref_conv_up _ _ _ (by simp [E.ty, Ty.depth])
  | cast e ex t ih =>
    intro hw hdeep hd
    have hd' : 0 < t.depth := hd
    change (conv ex t (A e false)).isDeref = false
    by_cases ha : e.isAddr = true
    · cases e with
      | addr e1 t1 =>
        refine isDeref_conv_up _ _ _ ?_
        rw [depth_A_addr e1 t1 hw false (Or.inl rfl)]
        exact hd'
      | _ => simp [E.isAddr] at ha
    · simp only [Bool.not_eq_true] at ha
      simp only [E.deep, ha, Bool.not_false, Bool.true_and, Bool.or_eq_false_iff,
        decide_eq_false_iff_not] at hdeep
      have hty := ty_A_na e ha false
      by_cases hup : e.ty.depth < t.depth
      · exact isDeref_conv_up _ _ _ (by rw [hty]; exact hup)
      · have hs : t.depth = e.ty.depth := by omega
        have hd2 : e.deep = false := by simpa [hs] using hdeep.2
        have := ih hw hd2 (by omega)
        rw [A_na e ha true] at this
        unfold conv
        rw [if_neg (by rw [hty]; omega), if_neg (by rw [hty]; omega)]
        split
        · rfl
        · exact this

/-! ## The values -/

/-- What is proved of an expression. -/
def Good (F : Fns) (e : E) : Prop :=
  ∀ σ σ1 d, sem F e σ = some (d, σ1) →
    (e.isAddr = false → Rep F (Gr (A e false)) d σ σ1 ∧ (∀ v, d ≠ .tmp v) ∧
      (e.lv = true ∨ e.names = true → ∀ a, d = .place a →
        ev F (sAddr (Gr (A e false))) false σ = some (a, σ1))) ∧
    (e.isAddr = true → ∀ ac, Rep F (sDeref^[Dof e ac - e.ty.depth] (Gr (I e ac))) d σ σ1)

theorem Good.arg {F : Fns} {e : E} (h : Good F e) (hw : WT e) (hp : Plain e = true)
    {σ σ1 : Store} {d : Den} {v : Nat} (hs : sem F e σ = some (d, σ1))
    (hv : d.read σ1 = some v) : ev F (Gr (A e true)) false σ = some (v, σ1) := by
  by_cases ha : e.isAddr = true
  · have hr := (h σ σ1 d hs).2 ha true
    cases e with
    | addr e t =>
      simp only [Plain, Bool.and_eq_true] at hp
      have hr1 := hr.1 v hv
      have hty : (E.addr e t).ty.depth = t.depth := rfl
      by_cases ht : t.depth = 0
      · rw [A_addr e t true (Or.inr ht), Gr_derefs]
        simpa [hty, ht] using hr1
      · obtain ⟨h1, k, T, hT, hst, hk⟩ := chain_info _ hw rfl true
        have hcl : Clean (Gr (I (.addr e t) true)) := ((clean_all e hw.1 hp.2).1 true).sAddr
        rw [A_addr_cast e t ht, ev_conv, ty_derefs, ty_I, depth_peel_n _ k T hT hst _ h1 hk,
          if_pos (by omega), Gr_derefs, Nat.sub_zero, hcl.ads' _ _ (by omega)]
        exact hr1
    | _ => simp [E.isAddr] at ha
  · simp only [Bool.not_eq_true] at ha
    rw [A_na e ha]
    exact ((h σ σ1 d hs).1 ha).1.1 v hv

theorem Good.plain {F : Fns} {e : E} (h : Good F e)
    (h0 : e.isAddr = true → e.ty.depth = 0)
    {σ σ1 : Store} {d : Den} {v : Nat} (hs : sem F e σ = some (d, σ1))
    (hv : d.read σ1 = some v) : ev F (Gr (A e false)) false σ = some (v, σ1) := by
  by_cases ha : e.isAddr = true
  · have hr := (h σ σ1 d hs).2 ha false
    have h0 := h0 ha
    cases e with
    | addr e t =>
      have hr1 := hr.1 v hv
      rw [A_addr e t false (Or.inl rfl), Gr_derefs]
      simpa [h0] using hr1
    | _ => simp [E.isAddr] at ha
  · simp only [Bool.not_eq_true] at ha
    exact ((h σ σ1 d hs).1 ha).1.1 v hv

theorem follow_ne_tmp (σ : Store) (d : Den) (h : ∀ v, d ≠ .tmp v) (n : Nat) :
    ∀ v, (Den.follow σ)^[n] d ≠ .tmp v := by
  induction n generalizing d with
  | zero => exact h
  | succ n ih =>
    rw [Function.iterate_succ_apply]
    apply ih
    cases d with
    | place a => intro v hv; cases hv
    | val a => intro v hv; cases hv
    | tmp a => exact absurd rfl (h a)

theorem solid_some {d d' : Den} (h : d.solid = some d') : d = d' ∧ ∀ v, d' ≠ .tmp v := by
  cases d <;> simp [Den.solid] at h <;> subst h <;> exact ⟨rfl, fun v hv => by cases hv⟩

theorem rep_of_read {F : Fns} {c : C} {d : Den} {σ σ1 : Store} (hne : ∀ v, d ≠ .tmp v)
    (h : ∀ v, d.read σ1 = some v → ev F c false σ = some (v, σ1)) : Rep F c d σ σ1 :=
  ⟨h, fun v hv => absurd hv (hne v)⟩

/-- The same for an expression that is not a `&`, whose meaning is a value. -/
theorem good_val {F : Fns} {c : C} {v : Nat} {σ σ1 : Store} (h : ev F c false σ = some (v, σ1)) :
    Rep F c (.val v) σ σ1 ∧ (∀ w, Den.val v ≠ .tmp w) :=
  ⟨rep_of_read (fun w hw => by cases hw)
    (fun w hw => by simp only [Den.read, Option.some.injEq] at hw; subst hw; exact h),
    fun w hw => by cases hw⟩

theorem good_all (F : Fns) (e : E) : WT e → Plain e = true → Good F e := by
  induction e with
  | num n t =>
    intro _ _ σ σ1 d hs
    simp only [sem, Option.some.injEq, Prod.mk.injEq] at hs
    obtain ⟨rfl, rfl⟩ := hs
    refine ⟨fun _ => ⟨(good_val rfl).1, (fun w hw => by cases hw), ?_⟩, fun h => by cases h⟩
    intro _ a ha; cases ha
  | var x t =>
    intro _ _ σ σ1 d hs
    simp only [sem, Option.some.injEq, Prod.mk.injEq] at hs
    obtain ⟨rfl, rfl⟩ := hs
    refine ⟨fun _ => ⟨rep_of_read (fun w hw => by cases hw) ?_, (fun w hw => by cases hw), ?_⟩,
      fun h => by cases h⟩
    · intro v hv; simp only [Den.read, Option.some.injEq] at hv; subst hv; rfl
    · intro _ a ha; cases ha; rfl
  | addr e t ih =>
    intro hw hp σ σ1 d hs
    simp only [Plain, Bool.and_eq_true] at hp
    have hg := ih hw.1 hp.1
    obtain ⟨hw1, hw2⟩ := hw
    refine ⟨fun h => (by cases h), fun _ ac => ?_⟩
    have hty : (E.addr e t).ty = t := rfl
    simp only [sem] at hs
    cases hse : sem F e σ with
    | none => rw [hse] at hs; simp at hs
    | some r =>
      obtain ⟨d0, σ0⟩ := r
      rw [hse] at hs
      simp only [Option.bind_some] at hs
      have hcl := clean_all e hw1 hp.2
      have hGr : Gr (I (.addr e t) ac) = sAddr (Gr (I e ac)) := rfl
      by_cases ha : e.isAddr = true
      · have hlv : e.lv = false := by cases e <;> first | rfl | simp [E.isAddr] at ha
        rw [hlv] at hs hw2
        simp only [Bool.false_eq_true, if_false] at hs hw2
        obtain ⟨h1, _⟩ := chain_info e hw1 ha ac
        have hr := (hg σ σ0 d0 hse).2 ha ac
        have hd : t.depth = e.ty.depth - 1 := by rw [hw2.2, depth_refs]; rfl
        rw [Dof_addr_addr e t ac (by omega), hty, hd, hGr]
        have : Dof e ac - (e.ty.depth - 1) = (Dof e ac - e.ty.depth) + 1 := by omega
        rw [this, Function.iterate_succ_apply, (hcl.1 ac).da]
        cases hrd : d0.read σ0 with
        | none => rw [hrd] at hs; simp at hs
        | some v =>
          rw [hrd] at hs
          simp only [Option.map_some, Option.some.injEq, Prod.mk.injEq] at hs
          obtain ⟨rfl, rfl⟩ := hs
          exact (good_val (hr.1 v hrd)).1
      · simp only [Bool.not_eq_true] at ha
        obtain ⟨hr, hnt, hpl⟩ := (hg σ σ0 d0 hse).1 ha
        rw [Dof_addr_na e t ac ha, hGr, I_na e ha, hty]
        have hcl2 := hcl.2 false (fun _ => Or.inl rfl)
        by_cases hlv : e.lv = true
        · rw [if_pos hlv] at hs hw2
          have hd : t.depth = e.ty.depth := by rw [hw2, depth_refs]; rfl
          rw [hd, Nat.sub_self]
          cases d0 with
          | place a =>
            simp only [Option.some.injEq, Prod.mk.injEq] at hs
            obtain ⟨rfl, rfl⟩ := hs
            exact (good_val (hpl (Or.inl hlv) a rfl)).1
          | val v =>
            simp only [Option.some.injEq, Prod.mk.injEq] at hs
            obtain ⟨rfl, rfl⟩ := hs
            refine ⟨fun w hw => by simp [Den.read] at hw, fun w hw => ?_⟩
            simp only [Den.tmp.injEq] at hw; subst hw
            simp only [Function.iterate_zero, id_eq]
            rw [hcl2.da]
            exact hr.1 v rfl
          | tmp v => simp at hs
        · rw [if_neg hlv] at hs hw2
          have hd : t.depth = e.ty.depth - 1 := by rw [hw2.2, depth_refs]; rfl
          rw [hd]
          have : e.ty.depth - (e.ty.depth - 1) = 1 := by omega
          rw [this, Function.iterate_one, hcl2.da]
          cases hrd : d0.read σ0 with
          | none => rw [hrd] at hs; simp at hs
          | some v =>
            rw [hrd] at hs
            simp only [Option.map_some, Option.some.injEq, Prod.mk.injEq] at hs
            obtain ⟨rfl, rfl⟩ := hs
            exact (good_val (hr.1 v hrd)).1
  | deref e t ih =>
    intro hw hp σ σ1 d hs
    obtain ⟨hw1, T, hT, rfl⟩ := hw
    refine ⟨fun _ => ?_, fun h => by cases h⟩
    simp only [sem] at hs
    cases hse : sem F e σ with
    | none => rw [hse] at hs; simp at hs
    | some r =>
      obtain ⟨d0, σ0⟩ := r
      rw [hse] at hs
      simp only [Option.bind_some] at hs
      cases hrd : d0.read σ0 with
      | none => rw [hrd] at hs; simp at hs
      | some v =>
        rw [hrd] at hs
        simp only [Option.map_some, Option.some.injEq, Prod.mk.injEq] at hs
        obtain ⟨rfl, rfl⟩ := hs
        have hx := (ih hw1 hp).arg hw1 hp hse hrd
        have key : ev F (Gr (A (.deref e (.ref T)) false)) false σ = some (v, σ0) := by
          change ev F (Gr (conv false (.ref T) (.deref (A e true) T))) false σ = _
          rw [Gr_conv_up _ _ _ (by simp [E.ty, Ty.depth]),
            if_pos (show (E.deref (A e true) T).ty = (Ty.ref T).peel from rfl)]
          have : (Ty.ref T).depth - (E.deref (A e true) T).ty.depth = 1 := by
            simp [E.ty, Ty.depth]
          rw [this, Function.iterate_one]
          exact ev_sAddr_sDeref _ _ _ _ _ hx
        exact ⟨(good_val key).1, (good_val key).2, fun _ a ha => by cases ha⟩
  | assign l r t ihl ihr =>
    intro hw hp σ σ1 d hs
    simp only [Plain, Bool.and_eq_true] at hp
    obtain ⟨hwl, hwr, ht, hlt, hrt⟩ := hw
    refine ⟨fun _ => ?_, fun h => by cases h⟩
    simp only [sem] at hs
    cases hse : sem F l σ with
    | none => rw [hse] at hs; simp at hs
    | some q =>
      obtain ⟨d0, σ0⟩ := q
      rw [hse] at hs
      simp only [Option.bind_some] at hs
      cases hrd : d0.read σ0 with
      | none => rw [hrd] at hs; simp at hs
      | some p =>
        rw [hrd] at hs
        simp only [Option.bind_some] at hs
        cases hse2 : sem F r σ0 with
        | none => rw [hse2] at hs; simp at hs
        | some q2 =>
          obtain ⟨d2, σ2⟩ := q2
          rw [hse2] at hs
          simp only [Option.bind_some] at hs
          cases hrd2 : d2.read σ2 with
          | none => rw [hrd2] at hs; simp at hs
          | some v =>
            rw [hrd2] at hs
            simp only [Option.map_some, Option.some.injEq, Prod.mk.injEq] at hs
            obtain ⟨rfl, rfl⟩ := hs
            have hl := (ihl hwl hp.1).arg hwl hp.1 hse hrd
            have hr := (ihr hwr hp.2).arg hwr hp.2 hse2 hrd2
            have hdep : (fia (A l true)).ty.depth ≠ 0 := by
              rw [ty_fia, ty_A_arg l hwl, hlt]; simp [Ty.depth]
            have hG : Gr (A (.assign l r t) false) =
                .assign (sDeref (Gr (A l true))) (Gr (A r true)) := by
              change C.assign (out (derefArg (fia (A l true)))) (Gr (A r true)) = _
              unfold derefArg
              rw [if_pos hdep]
              rfl
            have key : ev F (Gr (A (.assign l r t) false)) false σ =
                some (v, σ2.set p v) := by
              rw [hG]
              simp only [ev, ev_sDeref_lv _ _ _ _ _ hl, Option.bind_some, hr, Option.map_some]
            exact ⟨(good_val key).1, (good_val key).2, fun _ a ha => by cases ha⟩
  | plus l r t ihl ihr =>
    intro hw hp σ σ1 d hs
    simp only [Plain, Bool.and_eq_true] at hp
    obtain ⟨hwl, hwr, _⟩ := hw
    refine ⟨fun _ => ?_, fun h => by cases h⟩
    simp only [sem] at hs
    cases hse : sem F l σ with
    | none => rw [hse] at hs; simp at hs
    | some q =>
      obtain ⟨d0, σ0⟩ := q
      rw [hse] at hs
      simp only [Option.bind_some] at hs
      cases hrd : d0.read σ0 with
      | none => rw [hrd] at hs; simp at hs
      | some p =>
        rw [hrd] at hs
        simp only [Option.bind_some] at hs
        cases hse2 : sem F r σ0 with
        | none => rw [hse2] at hs; simp at hs
        | some q2 =>
          obtain ⟨d2, σ2⟩ := q2
          rw [hse2] at hs
          simp only [Option.bind_some] at hs
          cases hrd2 : d2.read σ2 with
          | none => rw [hrd2] at hs; simp at hs
          | some v =>
            rw [hrd2] at hs
            simp only [Option.map_some, Option.some.injEq, Prod.mk.injEq] at hs
            obtain ⟨rfl, rfl⟩ := hs
            have hl := (ihl hwl hp.1).arg hwl hp.1 hse hrd
            have hr := (ihr hwr hp.2).arg hwr hp.2 hse2 hrd2
            have key : ev F (Gr (A (.plus l r t) false)) false σ = some (p + v, σ2) := by
              change ev F (.plus (Gr (A l true)) (Gr (A r true))) false σ = _
              simp only [ev, hl, Option.bind_some, hr, Option.map_some]
            exact ⟨(good_val key).1, (good_val key).2, fun _ a ha => by cases ha⟩
  | call f e pr t ih =>
    intro hw hp σ σ1 d hs
    simp only [Plain, Bool.and_eq_true, Bool.not_eq_true', Bool.and_eq_false_iff] at hp
    obtain ⟨hw1, hpr⟩ := hw
    refine ⟨fun _ => ?_, fun h => by cases h⟩
    simp only [sem] at hs
    cases hse : sem F e σ with
    | none => rw [hse] at hs; simp at hs
    | some r =>
      obtain ⟨d0, σ0⟩ := r
      rw [hse] at hs
      simp only [Option.bind_some] at hs
      cases hrd : d0.read σ0 with
      | none => rw [hrd] at hs; simp at hs
      | some v =>
        rw [hrd] at hs
        simp only [Option.map_some, Option.some.injEq, Prod.mk.injEq] at hs
        obtain ⟨rfl, rfl⟩ := hs
        have hx := (ih hw1 hp.1).arg hw1 hp.1 hse hrd
        have hna : ¬ (pr = true ∧ (fia (A e true)).isDeref = true) := by
          rintro ⟨h1, h2⟩
          rw [isDeref_fia] at h2
          have hdeep : e.deep = false := by
            rcases hp.2 with h | h
            · rw [h] at h1; cases h1
            · exact h
          rw [isDeref_A e hw1 hdeep (hpr.1 h1)] at h2
          cases h2
        have hG : Gr (A (.call f e pr t) false) = .call f (Gr (A e true)) := by
          change C.call f (out (addrArg pr (fia (A e true)))) = _
          unfold addrArg
          rw [if_neg hna]
          rfl
        have key : ev F (Gr (A (.call f e pr t) false)) false σ =
            some ((F f v σ0).1, (F f v σ0).2) := by
          rw [hG]
          simp only [ev, hx, Option.map_some]
        exact ⟨(good_val key).1, (good_val key).2, fun _ a ha => by cases ha⟩
  | cast e ex t ih =>
    intro hw hp σ σ1 d hs
    simp only [Plain, Bool.and_eq_true, Bool.or_eq_true, decide_eq_true_eq] at hp
    have hg := ih hw hp.1
    refine ⟨fun _ => ?_, fun h => by cases h⟩
    change Rep F (Gr (conv ex t (A e false))) d σ σ1 ∧ (∀ v, d ≠ .tmp v) ∧
      ((E.cast e ex t).lv = true ∨ (E.cast e ex t).names = true → ∀ a, d = .place a →
        ev F (sAddr (Gr (conv ex t (A e false)))) false σ = some (a, σ1))
    simp only [sem] at hs
    cases hse : sem F e σ with
    | none => rw [hse] at hs; simp at hs
    | some r =>
      obtain ⟨d0, σ0⟩ := r
      rw [hse] at hs
      simp only [Option.bind_some] at hs
      by_cases ha : e.isAddr = true
      · cases e with
        | addr e1 t1 =>
          have hty : (E.addr e1 t1).ty.depth = t1.depth := rfl
          have hle : t.depth ≤ (E.addr e1 t1).ty.depth := by
            rcases hp.2 with h | h
            · exact h
            · simp [E.names] at h
          rw [if_pos hle] at hs
          cases hso : ((Den.follow σ0)^[(E.addr e1 t1).ty.depth - t.depth] d0).solid with
          | none => rw [hso] at hs; simp at hs
          | some d' =>
            rw [hso] at hs
            simp only [Option.map_some, Option.some.injEq, Prod.mk.injEq] at hs
            obtain ⟨rfl, rfl⟩ := hs
            obtain ⟨hd, hnt⟩ := solid_some hso
            refine ⟨rep_of_read hnt ?_, hnt, ?_⟩
            · intro v hv
              have hp1 := hp.1
              simp only [Plain, Bool.and_eq_true] at hp1
              have hr := (hg σ σ0 d0 hse).2 rfl false
              have hr2 := (hr.steps ((E.addr e1 t1).ty.depth - t.depth)).1
              rw [hd] at hr2
              have hr3 := hr2.1 v hv
              obtain ⟨h1, k, T, hT, hst, hk⟩ := chain_info (.addr e1 t1) hw rfl false
              have hcl : Clean (Gr (I (.addr e1 t1) false)) :=
                ((clean_all e1 hw.1 hp1.2).1 false).sAddr
              rw [← Function.iterate_add_apply] at hr3
              have hn : (E.addr e1 t1).ty.depth - t.depth +
                  (Dof (.addr e1 t1) false - (E.addr e1 t1).ty.depth) =
                  Dof (.addr e1 t1) false - t.depth := by omega
              rw [hn] at hr3
              rw [ev_conv, depth_A_addr e1 t1 hw false (Or.inl rfl),
                A_addr e1 t1 false (Or.inl rfl), Gr_derefs]
              by_cases h0 : 0 < t.depth
              · rw [if_pos h0, Nat.sub_zero, hcl.ads' _ _ (by omega)]
                exact hr3
              · rw [if_neg h0]
                have ht0 : t.depth = 0 := by omega
                rw [ht0] at hr3 ⊢
                exact hr3
            · intro h
              simp [E.lv, E.names, E.isAddr] at h
        | _ => simp [E.isAddr] at ha
      · simp only [Bool.not_eq_true] at ha
        obtain ⟨hr, hnt, hpl⟩ := (hg σ σ0 d0 hse).1 ha
        have hty := ty_A_na e ha false
        by_cases hle : t.depth ≤ e.ty.depth
        · rw [if_pos hle] at hs
          cases hso : ((Den.follow σ0)^[e.ty.depth - t.depth] d0).solid with
          | none => rw [hso] at hs; simp at hs
          | some d' =>
            rw [hso] at hs
            simp only [Option.map_some, Option.some.injEq, Prod.mk.injEq] at hs
            obtain ⟨rfl, rfl⟩ := hs
            obtain ⟨hd, hnt'⟩ := solid_some hso
            have hst := hr.steps (e.ty.depth - t.depth)
            rw [hd] at hst
            refine ⟨rep_of_read hnt' ?_, hnt', ?_⟩
            · intro v hv
              rw [ev_conv, hty, if_neg (by omega)]
              exact hst.1.1 v hv
            · intro h a hda
              rw [ev_sAddr_conv _ _ _ _ _ (by rw [hty]; omega), hty]
              by_cases hpos : 0 < e.ty.depth - t.depth
              · exact hst.2 hpos a hda
              · have h0 : e.ty.depth - t.depth = 0 := by omega
                rw [h0] at hd ⊢
                simp only [Function.iterate_zero, id_eq] at hd ⊢
                refine hpl ?_ a (by rw [hd]; exact hda)
                rcases h with h | h
                · left; exact h
                · right
                  simp only [E.names, Bool.and_eq_true, Bool.or_eq_true, decide_eq_true_eq] at h
                  rcases h.2 with h2 | h2
                  · omega
                  · exact h2.2
        · rw [if_neg hle] at hs
          obtain ⟨hd1, hn⟩ := hp.2.resolve_left hle
          rw [if_pos hd1] at hs
          cases d0 with
          | place a =>
            simp only [Option.some.injEq, Prod.mk.injEq] at hs
            obtain ⟨rfl, rfl⟩ := hs
            have key : ev F (Gr (conv ex t (A e false))) false σ = some (a, σ0) := by
              rw [ev_conv, hty, if_pos (by omega)]
              have : t.depth - e.ty.depth = 1 := by omega
              rw [this, Function.iterate_one]
              exact hpl (Or.inr hn) a rfl
            exact ⟨(good_val key).1, (good_val key).2, fun _ b hb => by cases hb⟩
          | val v => simp at hs
          | tmp v => simp at hs
  | cond c a b t ihc iha ihb =>
    intro hw hp σ σ1 d hs
    simp only [Plain, Bool.and_eq_true, Bool.not_eq_true', Bool.and_eq_false_iff,
      decide_eq_false_iff_not, not_not] at hp
    obtain ⟨⟨⟨⟨hpc, hpa⟩, hpb⟩, ha0⟩, hb0⟩ := hp
    obtain ⟨hwc, hwa, hwb, hc0, hat, hbt⟩ := hw
    refine ⟨fun _ => ?_, fun h => by cases h⟩
    simp only [sem] at hs
    cases hse : sem F c σ with
    | none => rw [hse] at hs; simp at hs
    | some q =>
      obtain ⟨d0, σ0⟩ := q
      rw [hse] at hs
      simp only [Option.bind_some] at hs
      cases hrd : d0.read σ0 with
      | none => rw [hrd] at hs; simp at hs
      | some p =>
        rw [hrd] at hs
        simp only [Option.bind_some] at hs
        have hcv := (ihc hwc hpc).plain (fun _ => hc0) hse hrd
        have fin : ∀ (x : E), Good F x → (x.isAddr = true → x.ty.depth = 0) →
            (sem F x σ0).bind (fun y => (y.1.read y.2).map fun w => (Den.val w, y.2)) =
              some (d, σ1) →
            ∃ v, d = .val v ∧ ev F (Gr (A x false)) false σ0 = some (v, σ1) := by
          intro x hx hx0 h
          cases hse2 : sem F x σ0 with
          | none => rw [hse2] at h; simp at h
          | some q2 =>
            obtain ⟨d2, σ2⟩ := q2
            rw [hse2] at h
            simp only [Option.bind_some] at h
            cases hrd2 : d2.read σ2 with
            | none => rw [hrd2] at h; simp at h
            | some v =>
              rw [hrd2] at h
              simp only [Option.map_some, Option.some.injEq, Prod.mk.injEq] at h
              obtain ⟨rfl, rfl⟩ := h
              exact ⟨v, rfl, hx.plain hx0 hse2 hrd2⟩
        have hG : ∀ s, ev F (Gr (A (.cond c a b t) false)) false s =
            ev F (.cond (Gr (A c false)) (Gr (A a false)) (Gr (A b false))) false s :=
          fun _ => rfl
        have : ∃ v, d = .val v ∧
            ev F (Gr (A (.cond c a b t) false)) false σ = some (v, σ1) := by
          by_cases hp0 : p ≠ 0
          · rw [if_pos hp0] at hs
            obtain ⟨v, hv, hev⟩ := fin a (iha hwa hpa)
              (fun h => ha0.resolve_left (by rw [h]; simp)) hs
            refine ⟨v, hv, ?_⟩
            rw [hG]
            simp only [ev, hcv, Option.bind_some]
            rw [if_pos hp0, hev]
          · rw [if_neg hp0] at hs
            obtain ⟨v, hv, hev⟩ := fin b (ihb hwb hpb)
              (fun h => hb0.resolve_left (by rw [h]; simp)) hs
            refine ⟨v, hv, ?_⟩
            rw [hG]
            simp only [ev, hcv, Option.bind_some]
            rw [if_neg hp0, hev]
        obtain ⟨v, rfl, hev⟩ := this
        exact ⟨(good_val hev).1, (good_val hev).2, fun _ a ha => by cases ha⟩

theorem lower_eq (ac : Bool) (tmp : Nat) (e : E) (hw : WT e) (hp : Plain e = true) :
    lower ac tmp e = some ([], Gr (A e ac)) := by
  unfold lower
  rw [(ok_all e hw hp).1 ac tmp]
  rfl

/-! ## Temporaries -/

theorem tmpRefs_names (t : Ty) (n k : Nat) : ∀ d ∈ tmpRefs t n k, n ≤ d.1 ∧ d.1 ≤ n + k := by
  induction k with
  | zero => intro d hd; simp [tmpRefs] at hd
  | succ k ih =>
    intro d hd
    simp only [tmpRefs, List.mem_append, List.mem_singleton] at hd
    rcases hd with hd | rfl
    · have := ih d hd; omega
    · exact ⟨by simp only; omega, by simp only; omega⟩

/-- The temporaries of an expression get the numbers from `n` on. -/
theorem rcT_names (e : E) : ∀ n a ds n', rcT e n = some (a, ds, n') →
    n ≤ n' ∧ ∀ d ∈ ds, n ≤ d.1 ∧ d.1 < n' := by
  have un : ∀ (e : E) (g : E → E), (∀ n a ds n', rcT e n = some (a, ds, n') →
      n ≤ n' ∧ ∀ d ∈ ds, n ≤ d.1 ∧ d.1 < n') → ∀ n a ds n',
      (rcT e n).map (fun r => (g r.1, r.2)) = some (a, ds, n') →
      n ≤ n' ∧ ∀ d ∈ ds, n ≤ d.1 ∧ d.1 < n' := by
    intro e g ih n a ds n' h
    cases he : rcT e n with
    | none => rw [he] at h; simp at h
    | some r =>
      obtain ⟨a1, ds1, n1⟩ := r
      rw [he] at h
      simp only [Option.map_some, Option.some.injEq, Prod.mk.injEq] at h
      obtain ⟨_, rfl, rfl⟩ := h
      exact ih _ _ _ _ he
  have bi : ∀ (l r : E) (g : E → E → E), (∀ n a ds n', rcT l n = some (a, ds, n') →
      n ≤ n' ∧ ∀ d ∈ ds, n ≤ d.1 ∧ d.1 < n') → (∀ n a ds n', rcT r n = some (a, ds, n') →
      n ≤ n' ∧ ∀ d ∈ ds, n ≤ d.1 ∧ d.1 < n') → ∀ n a ds n',
      ((rcT l n).bind fun a => (rcT r a.2.2).map fun b =>
        (g a.1 b.1, a.2.1 ++ b.2.1, b.2.2)) = some (a, ds, n') →
      n ≤ n' ∧ ∀ d ∈ ds, n ≤ d.1 ∧ d.1 < n' := by
    intro l r g ihl ihr n a ds n' h
    cases hl : rcT l n with
    | none => rw [hl] at h; simp at h
    | some x =>
      obtain ⟨a1, ds1, n1⟩ := x
      rw [hl] at h
      simp only [Option.bind_some] at h
      cases hr : rcT r n1 with
      | none => rw [hr] at h; simp at h
      | some y =>
        obtain ⟨a2, ds2, n2⟩ := y
        rw [hr] at h
        simp only [Option.map_some, Option.some.injEq, Prod.mk.injEq] at h
        obtain ⟨_, rfl, rfl⟩ := h
        obtain ⟨h1, h2⟩ := ihl _ _ _ _ hl
        obtain ⟨h3, h4⟩ := ihr _ _ _ _ hr
        refine ⟨by omega, fun d hd => ?_⟩
        rcases List.mem_append.1 hd with hd | hd
        · have := h2 d hd; omega
        · have := h4 d hd; omega
  induction e with
  | num k t =>
    intro n a ds n' h
    simp only [rcT, Option.some.injEq, Prod.mk.injEq] at h
    obtain ⟨_, rfl, rfl⟩ := h
    exact ⟨Nat.le_refl _, fun d hd => by simp at hd⟩
  | var k t =>
    intro n a ds n' h
    simp only [rcT, Option.some.injEq, Prod.mk.injEq] at h
    obtain ⟨_, rfl, rfl⟩ := h
    exact ⟨Nat.le_refl _, fun d hd => by simp at hd⟩
  | addr e t ih => exact un e (fun x => .addr x t) ih
  | deref e t ih => exact un e (fun x => .deref x t) ih
  | call f e pr t ih => exact un e (fun x => .call f x pr t) ih
  | assign l r t ihl ihr => exact bi l r (fun x y => .assign x y t) ihl ihr
  | plus l r t ihl ihr => exact bi l r (fun x y => .plus x y t) ihl ihr
  | cast e ex t ih =>
    intro n a ds n' h
    simp only [rcT] at h
    cases he : rcT e n with
    | none => rw [he] at h; simp at h
    | some r =>
      obtain ⟨a1, ds1, n1⟩ := r
      rw [he] at h
      simp only [Option.bind_some] at h
      obtain ⟨h1, h2⟩ := ih _ _ _ _ he
      split at h
      · rename_i hc
        split at h
        · simp only [Option.some.injEq, Prod.mk.injEq] at h
          obtain ⟨_, rfl, rfl⟩ := h
          refine ⟨by omega, fun d hd => ?_⟩
          rcases List.mem_append.1 hd with hd | hd
          · have := h2 d hd; omega
          · rcases List.mem_cons.1 hd with rfl | hd
            · exact ⟨by simp only; omega, by simp only; omega⟩
            · have := tmpRefs_names _ _ _ d hd; omega
        · cases h
      · simp only [Option.some.injEq, Prod.mk.injEq] at h
        obtain ⟨_, rfl, rfl⟩ := h
        exact ⟨h1, h2⟩
  | cond c a b t ihc iha ihb =>
    intro n x ds n' h
    simp only [rcT] at h
    cases hc : rcT c n with
    | none => rw [hc] at h; simp at h
    | some r =>
      obtain ⟨a1, ds1, n1⟩ := r
      rw [hc] at h
      simp only [Option.bind_some] at h
      cases ha : rcT a n1 with
      | none => rw [ha] at h; simp at h
      | some r2 =>
        obtain ⟨a2, ds2, n2⟩ := r2
        rw [ha] at h
        simp only [Option.bind_some] at h
        cases hb : rcT b n2 with
        | none => rw [hb] at h; simp at h
        | some r3 =>
          obtain ⟨a3, ds3, n3⟩ := r3
          rw [hb] at h
          simp only [Option.map_some, Option.some.injEq, Prod.mk.injEq] at h
          obtain ⟨_, rfl, rfl⟩ := h
          obtain ⟨h1, h2⟩ := ihc _ _ _ _ hc
          obtain ⟨h3, h4⟩ := iha _ _ _ _ ha
          obtain ⟨h5, h6⟩ := ihb _ _ _ _ hb
          refine ⟨by omega, fun d hd => ?_⟩
          rcases List.mem_append.1 hd with hd | hd
          · rcases List.mem_append.1 hd with hd | hd
            · have := h2 d hd; omega
            · have := h4 d hd; omega
          · have := h6 d hd; omega

theorem evDecls_append (F : Fns) (xs ys : List (Nat × C)) (σ : Store) :
    evDecls F (xs ++ ys) σ = (evDecls F xs σ).bind (evDecls F ys) := by
  induction xs generalizing σ with
  | nil => rfl
  | cons x xs ih =>
    simp only [List.cons_append, evDecls]
    cases ev F x.2 false σ with
    | none => rfl
    | some r => simp [ih]

/-- After the declarations each temporary holds the address of the one before. -/
theorem ev_tmpRefs (F : Fns) (t : Ty) (n k : Nat) (σ : Store) :
    ∃ σ2, evDecls F ((tmpRefs t n k).map fun d => (d.1, out (fia d.2))) σ = some σ2 ∧
      (∀ a, a ≤ n ∨ n + k < a → σ2 a = σ a) ∧ (∀ i, i < k → σ2 (n + 1 + i) = n + i) := by
  induction k with
  | zero => exact ⟨σ, rfl, fun a _ => rfl, fun i hi => absurd hi (by omega)⟩
  | succ k ih =>
    obtain ⟨σ2, h1, h2, h3⟩ := ih
    refine ⟨σ2.set (n + 1 + k) (n + k), ?_, ?_, ?_⟩
    · simp only [tmpRefs, List.map_append, List.map_cons, List.map_nil, evDecls_append, h1,
        Option.bind_some]
      rfl
    · intro a ha
      unfold Store.set
      rw [if_neg (by omega)]
      exact h2 a (by omega)
    · intro i hi
      unfold Store.set
      by_cases hik : i = k
      · subst hik; simp
      · rw [if_neg (by omega)]; exact h3 i (by omega)

theorem iter_down (σ : Store) (n k : Nat) (h : ∀ i, i < k → σ (n + 1 + i) = n + i) :
    σ^[k] (n + k) = n := by
  induction k with
  | zero => rfl
  | succ k ih =>
    rw [Function.iterate_succ_apply]
    have h1 := h k (by omega)
    rw [show n + (k + 1) = n + 1 + k by omega, h1]
    exact ih (fun i hi => h i (by omega))

theorem rcT_value (e : E) (h : e.isValue = true) (n : Nat) (a : E) (ds : List (Nat × E)) (n' : Nat)
    (hr : rcT (ar (fir e) true false).1 n = some (a, ds, n')) : a.lv = false ∧ a.ty = e.ty := by
  have un : ∀ (x : Option (E × List (Nat × E) × Nat)) (g : E → E),
      x.map (fun r => (g r.1, r.2)) = some (a, ds, n') → ∃ y, a = g y := by
    intro x g h
    cases x with
    | none => simp at h
    | some r => simp only [Option.map_some, Option.some.injEq, Prod.mk.injEq] at h
                exact ⟨_, h.1.symm⟩
  have bi : ∀ (x : Option (E × List (Nat × E) × Nat))
      (y : E × List (Nat × E) × Nat → Option (E × List (Nat × E) × Nat)) (g : E → E → E),
      (x.bind fun p => (y p).map fun b => (g p.1 b.1, p.2.1 ++ b.2.1, b.2.2)) =
        some (a, ds, n') → ∃ u v, a = g u v := by
    intro x y g h
    cases x with
    | none => simp at h
    | some p =>
      simp only [Option.bind_some] at h
      cases hy : y p with
      | none => rw [hy] at h; simp at h
      | some b => rw [hy] at h
                  simp only [Option.map_some, Option.some.injEq, Prod.mk.injEq] at h
                  exact ⟨_, _, h.1.symm⟩
  cases e with
  | num k t =>
    simp only [fir, ar, rcT, Option.some.injEq, Prod.mk.injEq] at hr
    rw [← hr.1]; exact ⟨rfl, rfl⟩
  | plus l r t =>
    obtain ⟨u, v, rfl⟩ := bi _ (fun p => rcT (ar (fir r) true true).1 p.2.2)
      (fun x y => .plus x y t) hr
    exact ⟨rfl, rfl⟩
  | assign l r t =>
    obtain ⟨u, v, rfl⟩ := bi _ (fun p => rcT (ar (fir r) true true).1 p.2.2)
      (fun x y => .assign x y t) hr
    exact ⟨rfl, rfl⟩
  | call f e pr t =>
    obtain ⟨y, rfl⟩ := un _ (fun x => .call f x pr t) hr
    exact ⟨rfl, rfl⟩
  | _ => simp [E.isValue] at h

end Verif.RefLower
