import Verif.Proof.MultiExitC
/-! Labels are found where the statements with them are executed. -/

namespace Verif.MultiExit

mutual
theorem findS_none {l : Label} : ∀ {s : Stmt} {k : Kont}, l ∉ s.labels → findS l s k = none
  | .null _, _, h | .act _ _, _, h | .ret _ _, _, h | .branch _ _ _, _, h => by simp only [Stmt.labels] at h; simp only [findS, h, if_false]
  | .block _ _, _, h => by
    simp only [Stmt.labels, List.mem_append, not_or] at h; simp only [findS, h.1, if_false]; exact findL_none h.2
  | .ite _ _ _ _, _, h => by
    simp only [Stmt.labels, List.mem_append, not_or] at h; simp only [findS, h.1, if_false, findS_none h.1.2, findO_none h.2, Option.or_none]
  | .loop _ _ _ _ _ _, _, h => by
    simp only [Stmt.labels, List.mem_append, not_or] at h; simp only [findS, h.1, if_false, findS_none h.1.2, findO_none h.2, Option.or_none]
  | .switch _ _ _, _, h => by
    simp only [Stmt.labels, List.mem_append, not_or] at h; simp only [findS, h.1, if_false]; exact findC_none h.2
theorem findO_none {l : Label} : ∀ {s : Opt} {k : Kont}, l ∉ s.labels → findO l s k = none
  | .none, _, _ => rfl
  | .some _, _, h => findS_none h
theorem findL_none {l : Label} : ∀ {s : Stmts} {k : Kont}, l ∉ s.labels → findL l s k = none
  | .nil, _, _ => rfl
  | .cons _ _, _, h => by
    simp only [Stmts.labels, List.mem_append, not_or] at h; simp only [findL, findS_none h.1, findL_none h.2, Option.or_none]
theorem findC_none {l : Label} : ∀ {s : Cases} {k : Kont}, l ∉ s.labels → findC l s k = none
  | .nil, _, _ => rfl
  | .cons _ _ _, _, h => by
    simp only [Cases.labels, List.mem_append, not_or] at h; simp only [findC, findL_none h.1, findC_none h.2, Option.or_none]
end

mutual
theorem findS_some {l : Label} : ∀ {s : Stmt} {k : Kont}, l ∈ s.labels → (findS l s k).isSome
  | .null _, _, h | .act _ _, _, h | .ret _ _, _, h | .branch _ _ _, _, h => by simp only [Stmt.labels] at h; simp [findS, h]
  | .block ls _, _, h => by
    simp only [Stmt.labels, List.mem_append] at h; simp only [findS]
    split
    · rfl
    · rename_i hl; exact findL_some (h.resolve_left hl)
  | .ite ls _ _ _, _, h => by
    simp only [Stmt.labels, List.mem_append, or_assoc] at h; simp only [findS]
    split
    · rfl
    · rename_i hl
      rcases h.resolve_left hl with h | h
      · simp [findS_some h]
      · simp [findO_some h]
  | .loop ls _ _ _ _ _, _, h => by
    simp only [Stmt.labels, List.mem_append, or_assoc] at h; simp only [findS]
    split
    · rfl
    · rename_i hl
      rcases h.resolve_left hl with h | h
      · simp [findS_some h]
      · simp [findO_some h]
  | .switch ls _ _, _, h => by
    simp only [Stmt.labels, List.mem_append] at h; simp only [findS]
    split
    · rfl
    · rename_i hl; exact findC_some (h.resolve_left hl)
theorem findO_some {l : Label} : ∀ {s : Opt} {k : Kont}, l ∈ s.labels → (findO l s k).isSome
  | .none, _, h => by simp [Opt.labels] at h
  | .some _, _, h => findS_some h
theorem findL_some {l : Label} : ∀ {s : Stmts} {k : Kont}, l ∈ s.labels → (findL l s k).isSome
  | .nil, _, h => by simp [Stmts.labels] at h
  | .cons _ _, _, h => by
    simp only [Stmts.labels, List.mem_append] at h
    rcases h with h | h
    · simp [findL, findS_some h]
    · simp [findL, findL_some h]
theorem findC_some {l : Label} : ∀ {s : Cases} {k : Kont}, l ∈ s.labels → (findC l s k).isSome
  | .nil, _, h => by simp [Cases.labels] at h
  | .cons _ _ _, _, h => by
    simp only [Cases.labels, List.mem_append] at h
    rcases h with h | h
    · simp [findC, findL_some h]
    · simp [findC, findC_some h]
end

section
variable (F : Label → Option (Stmt × Kont)) (D : Label → Prop)

/-- Something with these labels and targets is where `F` finds it. -/
structure Loc (ls ts : List Label) (f : Label → Option (Stmt × Kont)) : Prop where
  nodup : ls.Nodup
  here : ∀ l ∈ ls, F l = f l
  def' : ∀ l ∈ ts, D l

def At (s : Stmt) (k : Kont) : Prop := Loc F D s.labels s.targets (fun l => findS l s k)
def AtO (s : Opt) (k : Kont) : Prop := Loc F D s.labels s.targets (fun l => findO l s k)
def AtL (s : Stmts) (k : Kont) : Prop := Loc F D s.labels s.targets (fun l => findL l s k)
def AtC (s : Cases) (k : Kont) : Prop := Loc F D s.labels s.targets (fun l => findC l s k)

def AtK : Kont → Prop
  | .stop => True
  | .seq ss k => AtL F D ss k ∧ AtK k
  | .blk _ k | .ifK _ k | .loopE k => AtK k
  | .loopB ls post c inc body els k => At F D (.loop ls post c inc body els) k ∧ AtK k
  | .caseK cs k => AtC F D cs k ∧ AtK k
  | .swK ls cs k => AtC F D cs (.swK ls cs k) ∧ AtK k

def AtConf : Conf → Prop
  | .run s k => At F D s k ∧ AtK F D k
  | .list ss k => AtL F D ss k ∧ AtK F D k
  | .next k => AtK F D k
  | .cases cs k => AtC F D cs k ∧ AtK F D k
  | .test ls post c inc body els k => At F D (.loop ls post c inc body els) k ∧ AtK F D k
  | .halt _ => True
end

section
variable {F : Label → Option (Stmt × Kont)} {D : Label → Prop}

/-- A part. -/
theorem Loc.part {ls ts ls' ts' : List Label} {f f' : Label → Option (Stmt × Kont)} (h : Loc F D ls ts f) (hs : ls'.Sublist ls) (ht : ∀ l ∈ ts', l ∈ ts)
    (hf : ∀ l ∈ ls', f l = f' l) : Loc F D ls' ts' f' :=
  ⟨h.nodup.sublist hs, fun l hl => (h.here l (hs.subset hl)).trans (hf l hl), fun l hl => h.def' l (ht l hl)⟩

theorem At.block {ls : List Label} {ss : Stmts} {k : Kont} (h : At F D (.block ls ss) k) : AtL F D ss (.blk ls k) := by
  have nd := h.nodup
  simp only [Stmt.labels] at nd
  refine h.part (by simp [Stmt.labels]) (by simp [Stmt.targets]) fun l hl => ?_
  rw [findS, if_neg fun h => (List.nodup_append.1 nd).2.2 _ h _ hl rfl]

theorem At.ite1 {ls : List Label} {c : Nat} {t : Stmt} {e : Opt} {k : Kont} (h : At F D (.ite ls c t e) k) : At F D t (.ifK ls k) := by
  have nd := h.nodup
  simp only [Stmt.labels] at nd
  have nd1 := List.nodup_append.1 nd
  have nd2 := List.nodup_append.1 nd1.1
  refine h.part (by simp only [Stmt.labels, List.append_assoc]; exact (List.sublist_append_left _ _).trans (List.sublist_append_right _ _)) (by simp [Stmt.targets]; exact fun _ h => .inl h) fun l hl => ?_
  rw [findS, if_neg fun h => nd2.2.2 _ h _ hl rfl, findO_none (fun h => nd1.2.2 l (by simp [hl]) l h rfl), Option.or_none]

theorem At.ite2 {ls : List Label} {c : Nat} {t : Stmt} {e : Opt} {k : Kont} (h : At F D (.ite ls c t e) k) : AtO F D e (.ifK ls k) := by
  have nd := h.nodup
  simp only [Stmt.labels] at nd
  have nd1 := List.nodup_append.1 nd
  refine h.part (by simp [Stmt.labels]) (by simp [Stmt.targets]; exact fun _ h => .inr h) fun l hl => ?_
  rw [findS, if_neg (fun h => nd1.2.2 l (by simp [h]) l hl rfl), findS_none (fun h => nd1.2.2 l (by simp [h]) l hl rfl), Option.none_or]

theorem At.loop1 {ls : List Label} {post : Bool} {c : Nat} {inc : Option Nat} {body : Stmt} {els : Opt} {k : Kont} (h : At F D (.loop ls post c inc body els) k) :
    At F D body (.loopB ls post c inc body els k) := by
  have nd := h.nodup
  simp only [Stmt.labels] at nd
  have nd1 := List.nodup_append.1 nd
  have nd2 := List.nodup_append.1 nd1.1
  refine h.part (by simp only [Stmt.labels, List.append_assoc]; exact (List.sublist_append_left _ _).trans (List.sublist_append_right _ _)) (by simp [Stmt.targets]; exact fun _ h => .inl h) fun l hl => ?_
  rw [findS, if_neg fun h => nd2.2.2 _ h _ hl rfl, findO_none (fun h => nd1.2.2 l (by simp [hl]) l h rfl), Option.or_none]

theorem At.loop2 {ls : List Label} {post : Bool} {c : Nat} {inc : Option Nat} {body : Stmt} {els : Opt} {k : Kont} (h : At F D (.loop ls post c inc body els) k) :
    AtO F D els (.loopE k) := by
  have nd := h.nodup
  simp only [Stmt.labels] at nd
  have nd1 := List.nodup_append.1 nd
  refine h.part (by simp [Stmt.labels]) (by simp [Stmt.targets]; exact fun _ h => .inr h) fun l hl => ?_
  rw [findS, if_neg (fun h => nd1.2.2 l (by simp [h]) l hl rfl), findS_none (fun h => nd1.2.2 l (by simp [h]) l hl rfl), Option.none_or]

theorem At.switch {ls : List Label} {e : Nat} {cs : Cases} {k : Kont} (h : At F D (.switch ls e cs) k) : AtC F D cs (.swK ls cs k) := by
  have nd := h.nodup
  simp only [Stmt.labels] at nd
  refine h.part (by simp [Stmt.labels]) (by simp [Stmt.targets]) fun l hl => ?_
  rw [findS, if_neg fun h => (List.nodup_append.1 nd).2.2 _ h _ hl rfl]

theorem AtL.head {s : Stmt} {ss : Stmts} {k : Kont} (h : AtL F D (.cons s ss) k) : At F D s (.seq ss k) := by
  have nd := h.nodup
  simp only [Stmts.labels] at nd
  refine h.part (by simp [Stmts.labels]) (by simp [Stmts.targets]; exact fun _ h => .inl h) fun l hl => ?_
  rw [findL, findL_none (fun h => (List.nodup_append.1 nd).2.2 _ hl _ h rfl), Option.or_none]
theorem AtL.tail {s : Stmt} {ss : Stmts} {k : Kont} (h : AtL F D (.cons s ss) k) : AtL F D ss k := by
  have nd := h.nodup
  simp only [Stmts.labels] at nd
  refine h.part (by simp [Stmts.labels]) (by simp [Stmts.targets]; exact fun _ h => .inr h) fun l hl => ?_
  rw [findL, findS_none (fun h => (List.nodup_append.1 nd).2.2 _ h _ hl rfl), Option.none_or]
theorem AtC.head {v : Option Nat} {ss : Stmts} {cs : Cases} {k : Kont} (h : AtC F D (.cons v ss cs) k) : AtL F D ss (.caseK cs k) := by
  have nd := h.nodup
  simp only [Cases.labels] at nd
  refine h.part (by simp [Cases.labels]) (by simp [Cases.targets]; exact fun _ h => .inl h) fun l hl => ?_
  rw [findC, findC_none (fun h => (List.nodup_append.1 nd).2.2 _ hl _ h rfl), Option.or_none]
theorem AtC.tail {v : Option Nat} {ss : Stmts} {cs : Cases} {k : Kont} (h : AtC F D (.cons v ss cs) k) : AtC F D cs k := by
  have nd := h.nodup
  simp only [Cases.labels] at nd
  refine h.part (by simp [Cases.labels]) (by simp [Cases.targets]; exact fun _ h => .inr h) fun l hl => ?_
  rw [findC, findL_none (fun h => (List.nodup_append.1 nd).2.2 _ h _ hl rfl), Option.none_or]

theorem or_some {α : Type} {a b : Option α} {x : α} (h : a.or b = some x) : a = some x ∨ b = some x := by cases a <;> simp_all

mutual
theorem findS_at {l : Label} : ∀ {s : Stmt} {k : Kont} {s1 : Stmt} {k1 : Kont}, findS l s k = some (s1, k1) → At F D s k → AtK F D k → At F D s1 k1 ∧ AtK F D k1
  | .null _, _, _, _, h, ha, hk | .act _ _, _, _, _, h, ha, hk | .ret _ _, _, _, _, h, ha, hk | .branch _ _ _, _, _, _, h, ha, hk => by
    simp only [findS] at h
    split at h
    · cases h; exact ⟨ha, hk⟩
    · cases h
  | .block _ _, _, _, _, h, ha, hk => by
    simp only [findS] at h
    split at h
    · cases h; exact ⟨ha, hk⟩
    · exact findL_at h ha.block hk
  | .ite _ _ _ _, _, _, _, h, ha, hk => by
    simp only [findS] at h
    split at h
    · cases h; exact ⟨ha, hk⟩
    · rcases or_some h with h | h
      · exact findS_at h ha.ite1 hk
      · exact findO_at h ha.ite2 hk
  | .loop _ _ _ _ _ _, _, _, _, h, ha, hk => by
    simp only [findS] at h
    split at h
    · cases h; exact ⟨ha, hk⟩
    · rcases or_some h with h | h
      · exact findS_at h ha.loop1 ⟨ha, hk⟩
      · exact findO_at h ha.loop2 hk
  | .switch _ _ _, _, _, _, h, ha, hk => by
    simp only [findS] at h
    split at h
    · cases h; exact ⟨ha, hk⟩
    · exact findC_at h ha.switch ⟨ha.switch, hk⟩
theorem findO_at {l : Label} : ∀ {s : Opt} {k : Kont} {s1 : Stmt} {k1 : Kont}, findO l s k = some (s1, k1) → AtO F D s k → AtK F D k → At F D s1 k1 ∧ AtK F D k1
  | .none, _, _, _, h, _, _ => by cases h
  | .some _, _, _, _, h, ha, hk => findS_at h ha hk
theorem findL_at {l : Label} : ∀ {s : Stmts} {k : Kont} {s1 : Stmt} {k1 : Kont}, findL l s k = some (s1, k1) → AtL F D s k → AtK F D k → At F D s1 k1 ∧ AtK F D k1
  | .nil, _, _, _, h, _, _ => by cases h
  | .cons _ _, _, _, _, h, ha, hk => by
    simp only [findL] at h
    rcases or_some h with h | h
    · exact findS_at h ha.head ⟨ha.tail, hk⟩
    · exact findL_at h ha.tail hk
theorem findC_at {l : Label} : ∀ {s : Cases} {k : Kont} {s1 : Stmt} {k1 : Kont}, findC l s k = some (s1, k1) → AtC F D s k → AtK F D k → At F D s1 k1 ∧ AtK F D k1
  | .nil, _, _, _, h, _, _ => by cases h
  | .cons _ _ _, _, _, _, h, ha, hk => by
    simp only [findC] at h
    rcases or_some h with h | h
    · exact findL_at h ha.head ⟨ha.tail, hk⟩
    · exact findC_at h ha.tail hk
end

theorem fromDefault_at : ∀ {cs ds : Cases} {k : Kont}, fromDefault cs = some ds → AtC F D cs k → AtC F D ds k
  | .nil, _, _, h, _ => by cases h
  | .cons v ss cs, ds, k, h, ha => by
    simp only [fromDefault] at h
    split at h
    · cases h; exact ha
    · exact fromDefault_at h ha.tail
theorem fromValue_at {n : Nat} : ∀ {cs ds : Cases} {k : Kont}, fromValue n cs = some ds → AtC F D cs k → AtC F D ds k
  | .nil, _, _, h, _ => by cases h
  | .cons v ss cs, ds, k, h, ha => by
    simp only [fromValue] at h
    split at h
    · cases h; exact ha
    · exact fromValue_at h ha.tail

theorem afterBreak_at {t : Option Label} : ∀ {k k1 : Kont}, afterBreak t k = some k1 → AtK F D k → AtK F D k1
  | .stop, _, h, _ => by cases h
  | .seq _ k, _, h, ha => afterBreak_at (k := k) h ha.2
  | .caseK _ k, _, h, ha => afterBreak_at (k := k) h ha.2
  | .loopE k, _, h, ha => afterBreak_at (k := k) h ha
  | .blk _ k, _, h, ha | .ifK _ k, _, h, ha => by
    simp only [afterBreak] at h
    split at h
    · cases h; exact ha
    · exact afterBreak_at (k := k) h ha
  | .loopB _ _ _ _ _ _ k, _, h, ha | .swK _ _ k, _, h, ha => by
    simp only [afterBreak] at h
    split at h
    · cases h; exact ha.2
    · exact afterBreak_at (k := k) h ha.2

theorem afterContinue_at {t : Option Label} : ∀ {k k1 : Kont}, afterContinue t k = some k1 → AtK F D k → AtK F D k1
  | .stop, _, h, _ => by cases h
  | .seq _ k, _, h, ha => afterContinue_at (k := k) h ha.2
  | .caseK _ k, _, h, ha => afterContinue_at (k := k) h ha.2
  | .loopE k, _, h, ha => afterContinue_at (k := k) h ha
  | .blk _ k, _, h, ha | .ifK _ k, _, h, ha => by
    simp only [afterContinue] at h
    split at h
    · cases h
    · exact afterContinue_at (k := k) h ha
  | .swK _ _ k, _, h, ha => by
    simp only [afterContinue] at h
    split at h
    · cases h
    · exact afterContinue_at (k := k) h ha.2
  | .loopB _ _ _ _ _ _ k, _, h, ha => by
    simp only [afterContinue] at h
    split at h
    · cases h; exact ha
    · exact afterContinue_at (k := k) h ha.2

theorem afterFall_at : ∀ {k k1 : Kont}, afterFall k = some k1 → AtK F D k → AtK F D k1
  | .stop, _, h, _ => by cases h
  | .seq _ k, _, h, ha => afterFall_at (k := k) h ha.2
  | .caseK _ k, _, h, ha => by simp only [afterFall] at h; cases h; exact ha
  | .loopE k, _, h, ha => afterFall_at (k := k) h ha
  | .blk _ k, _, h, ha | .ifK _ k, _, h, ha => afterFall_at (k := k) h ha
  | .swK _ _ k, _, h, ha => afterFall_at (k := k) h ha.2
  | .loopB _ _ _ _ _ _ k, _, h, ha => afterFall_at (k := k) h ha.2

theorem afterFallDefault_at : ∀ {k : Kont} {ds : Cases} {k1 : Kont}, afterFallDefault k = some (ds, k1) → AtK F D k → AtC F D ds k1 ∧ AtK F D k1
  | .stop, _, _, h, _ => by cases h
  | .seq _ k, _, _, h, ha => afterFallDefault_at (k := k) h ha.2
  | .caseK _ k, _, _, h, ha => afterFallDefault_at (k := k) h ha.2
  | .loopE k, _, _, h, ha => afterFallDefault_at (k := k) h ha
  | .blk _ k, _, _, h, ha | .ifK _ k, _, _, h, ha => afterFallDefault_at (k := k) h ha
  | .loopB _ _ _ _ _ _ k, _, _, h, ha => afterFallDefault_at (k := k) h ha.2
  | .swK _ cs k, _, _, h, ha => by
    simp only [afterFallDefault, Option.map_eq_some_iff, Prod.mk.injEq] at h
    obtain ⟨ds, h1, rfl, rfl⟩ := h
    exact ⟨fromDefault_at h1 ha.1, ha⟩

theorem step_at {σ : Type} (I : Interp σ) {body : Stmt} (hF : F = fun l => findS l body .stop) (hb : At F D body .stop) {c : Conf} {m : σ} {c' : Conf} {m' : σ}
    (h : step I F (c, m) = some (c', m')) (ha : AtConf F D c) : AtConf F D c' := by
  cases c with
  | run s k =>
    obtain ⟨ha, hk⟩ := ha
    cases s with
    | null ls => cases h; exact hk
    | act ls a => cases h; exact hk
    | ret ls r => cases h; trivial
    | branch ls b t =>
      simp only [step, Option.map_eq_some_iff, Prod.mk.injEq] at h
      obtain ⟨c1, h, rfl, rfl⟩ := h
      have go : ∀ l, (F l).map (fun r => Conf.run r.1 r.2) = some c1 → AtConf F D c1 := by
        intro l q
        simp only [Option.map_eq_some_iff] at q
        obtain ⟨⟨s1, k1⟩, q, rfl⟩ := q
        rw [hF] at q
        exact findS_at q hb trivial
      cases b <;> simp only [jump] at h
      · cases t with
        | none => cases h
        | some l => exact go l h
      · simp only [Option.map_eq_some_iff] at h
        obtain ⟨k1, h, rfl⟩ := h
        exact afterBreak_at h hk
      · simp only [Option.map_eq_some_iff] at h
        obtain ⟨k1, h, rfl⟩ := h
        exact afterContinue_at h hk
      · cases t with
        | none =>
          simp only [Option.map_eq_some_iff] at h
          obtain ⟨k1, h, rfl⟩ := h
          exact afterFall_at h hk
        | some l => exact go l h
      · simp only [Option.map_eq_some_iff] at h
        obtain ⟨⟨ds, k1⟩, h, rfl⟩ := h
        exact afterFallDefault_at h hk
    | block ls ss => cases h; exact ⟨ha.block, hk⟩
    | ite ls c t e =>
      simp only [step] at h
      split at h
      · cases h; exact ⟨ha.ite1, hk⟩
      · cases h; exact hk
      · cases h; exact ⟨ha.ite2, hk⟩
    | loop ls post c inc body els =>
      simp only [step] at h
      split at h
      · cases h; exact ⟨ha.loop1, ha, hk⟩
      · cases h; exact ⟨ha, hk⟩
    | switch ls e cs =>
      simp only [step] at h
      split at h
      · cases h; exact hk
      · rename_i ds hs
        cases h
        refine ⟨?_, ha.switch, hk⟩
        rcases or_some hs with h | h
        · exact fromValue_at h ha.switch
        · exact fromDefault_at h ha.switch
  | list ss k =>
    cases ss with
    | nil => cases h; exact ha.2
    | cons s ss => cases h; exact ⟨ha.1.head, ha.1.tail, ha.2⟩
  | next k =>
    cases k with
    | stop => cases h; trivial
    | seq ss k => cases h; exact ha
    | blk ls k => cases h; exact ha
    | ifK ls k => cases h; exact ha
    | loopE k => cases h; exact ha
    | swK ls cs k => cases h; exact ha.2
    | loopB ls post c inc body els k => cases h; exact ha
    | caseK cs k => cases h; exact ha
  | cases cs k =>
    cases cs with
    | nil => cases h; exact ha.2
    | cons v ss cs => cases h; exact ⟨ha.1.head, ha.1.tail, ha.2⟩
  | test ls post c inc body els k =>
    simp only [step] at h
    split at h
    · cases h; exact ⟨ha.1.loop1, ha⟩
    · cases h; exact ha.2
    · cases h; exact ⟨ha.1.loop2, ha.2⟩
  | halt r => cases h
end

end Verif.MultiExit
