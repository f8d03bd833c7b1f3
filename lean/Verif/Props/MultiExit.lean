import Verif.Proof.MultiExitG
/-! # C88: `break`, `continue` and `fallthrough` -/

namespace Verif.MultiExit

/-- Replacing the exits of C∀ by `goto` changes no execution of the function: started with any store, and whatever the expressions do, the function that the translator
    writes goes through the same stores, returns the same result in the same cases, and never comes to a branch without a target.
    Missing: labels on the block that is the body of a control structure and on a `break`, `continue` or `fallthrough` (see `C88_body_violated`, `C88_lost_violated`). -/
theorem C88_exits_partial {fuel : Nat} {body body' : Stmt} (h : fixLabels fuel body = some body') (hp : body.plain) (hb : body.isBlock) : Same body body' := by
  obtain ⟨h1, h2, h3, h4⟩ := fixLabels_sim h hp hb
  exact h1.same h2 (fun l hl => ⟨h3 l hl, (Stmt.plain_labels hp).2 l hl⟩) h4

/-- The function that the translator writes is C: its only branches are `goto`, each to a label of the function, no label occurs twice, and the labels of the
    program are kept. Missing: as for `C88_exits_partial`. -/
theorem C88_labels_partial {fuel : Nat} {body body' : Stmt} (h : fixLabels fuel body = some body') (hp : body.plain) (hb : body.isBlock) :
    body'.isC ∧ body'.labels.Nodup ∧ (∀ l ∈ body'.targets, l ∈ body'.labels) ∧ ∀ l ∈ body.labels, l ∈ body'.labels := by
  obtain ⟨h1, -, h3, h4⟩ := fixLabels_sim h hp hb
  refine ⟨h1.isC, h4, fun l hl => ?_, fun l => h1.keeps⟩
  rcases h1.tgts hl with h | h | h | ⟨_, h, -⟩
  · exact h1.keeps (h3 l h)
  · exact h
  · cases h
  · cases h

/-- The end of a clause of `choose` is the end of the `choose`: each clause with statements ends with a `break`, and what it leaves is the `choose`, whatever its labels. -/
theorem C88_choose {σ : Type} (I : Interp σ) (find : Label → Option (Stmt × Kont)) (ls ls' : List Label) (rest after : Cases) (cs : Cases) (k : Kont) (m : σ) :
    step I find (.run (.branch [] .brk none) (.seq .nil (.blk ls' (.seq .nil (.caseK after (.swK ls cs k))))), m) = some (.next k, m) ∧
    ∀ v ls' kids r, (chooseCases (.cons v (.cons (.block ls' kids) r) rest)) = .cons v (.cons (.block ls' (kids.snoc (.branch [] .brk none))) r) (chooseCases rest) := by
  refine ⟨?_, fun _ _ _ _ => rfl⟩
  simp [step, jump, afterBreak, named]

/-! ## Examples -/

/-- Run a function for at most `n` steps. -/
def runFor {σ : Type} (I : Interp σ) (body : Stmt) : Nat → Conf × σ → Option (Option Nat × σ)
  | _, (.halt r, m) => some (r, m)
  | 0, _ => none
  | n + 1, c => (step I (fun l => findS l body .stop) c).bind (runFor I body n)

theorem runFor_returns {σ : Type} {I : Interp σ} {body : Stmt} : ∀ {n : Nat} {c : Conf × σ} {r m}, runFor I body n c = some (r, m) → ∃ k, steps I body k c = some (.halt r, m)
  | n, (.halt r', m'), r, m, h => by
    cases n <;> (simp only [runFor, Option.some.injEq, Prod.mk.injEq] at h; obtain ⟨rfl, rfl⟩ := h; exact ⟨0, rfl⟩)
  | 0, (.run .., _), _, _, h | 0, (.list .., _), _, _, h | 0, (.next .., _), _, _, h | 0, (.cases .., _), _, _, h | 0, (.test .., _), _, _, h => by simp [runFor] at h
  | n + 1, (.run .., _), _, _, h | n + 1, (.list .., _), _, _, h | n + 1, (.next .., _), _, _, h | n + 1, (.cases .., _), _, _, h | n + 1, (.test .., _), _, _, h => by
    simp only [runFor, Option.bind_eq_some_iff] at h
    obtain ⟨c', h1, h2⟩ := h
    obtain ⟨k, hk⟩ := runFor_returns h2
    exact ⟨k + 1, by simp only [steps, h1, Option.bind_some, hk]⟩

theorem runFor_begin {σ : Type} {I : Interp σ} {body : Stmt} {n : Nat} {m m' : σ} {r} (h : runFor I body n (begin body m) = some (r, m')) : Returns I body m r m' :=
  runFor_returns h

/-- A store of two numbers: a counter, and a record of what was done. -/
def exI : Interp (Nat × List Nat) where
  act a m := if a = 0 then (m.1 + 1, m.2) else (m.1, m.2 ++ [a])
  cond c m := (decide (m.1 < c), m)
  sel _ m := (m.1, m)

/-- ```
    { A: for ( ; c < 5; c += 1 ) {
         B: while ( c < 9 ) {
              switch ( c ) {
                case 0: { f(1); continue A; }
                case 1: { f(2); fallthrough; }
                case 2: { f(3); fallthrough; }
                case 3: { f(4); break B; }
                default: { f(5); break A; }
              }
         } else { f(6); break; }
         f(7);
      }
      f(8); }
    ``` -/
def ex : Stmt :=
  let call (n : Nat) (b : Stmt) : Stmts := .cons (.block [] (.cons (.act [] n) (.cons b .nil))) .nil
  .block [] (.cons (.loop [.user 0] false 5 (some 0)
    (.block [] (.cons (.loop [.user 1] false 9 none
        (.block [] (.cons (.switch [] 0
          (.cons (some 0) (call 1 (.branch [] .cont (some (.user 0))))
          (.cons (some 1) (call 2 (.branch [] .fall none))
          (.cons (some 2) (call 3 (.branch [] .fall none))
          (.cons (some 3) (call 4 (.branch [] .brk (some (.user 1))))
          (.cons none (call 5 (.branch [] .brk (some (.user 0)))) .nil)))))) .nil))
        (.some (.block [] (.cons (.act [] 6) (.cons (.branch [] .brk none) .nil))))) (.cons (.act [] 7) .nil))) .none)
    (.cons (.act [] 8) .nil))

example : ex.plain ∧ ex.isBlock ∧ (fixLabels 20 ex).isSome := by decide +kernel
example : ∃ body', fixLabels 20 ex = some body' ∧ Same ex body' ∧ body'.isC := by
  obtain ⟨b, hb⟩ := Option.isSome_iff_exists.1 (show (fixLabels 20 ex).isSome by decide +kernel)
  exact ⟨b, hb, C88_exits_partial hb (by decide +kernel) (by decide +kernel), (C88_labels_partial hb (by decide +kernel) (by decide +kernel)).1⟩
example : Returns exI ex (0, []) none (4, [1, 2, 3, 4, 7, 3, 4, 7, 4, 7, 5, 8]) := runFor_begin (n := 300) (by decide +kernel)

/-- `fallthrough default` in a loop without `else`: `while ( c < 9 ) switch ( c ) { case 1: { fallthrough default; } default: { f(5); return 0; } }` -/
def exDef (els : Opt) : Stmt :=
  .block [] (.cons (.loop [] false 9 none
    (.block [] (.cons (.switch [] 0
      (.cons (some 1) (.cons (.block [] (.cons (.branch [] .fallDefault none) .nil)) .nil)
      (.cons none (.cons (.block [] (.cons (.act [] 5) (.cons (.ret [] 0) .nil))) .nil) .nil))) .nil)) els) .nil)
example : (exDef .none).plain ∧ (fixLabels 20 (exDef .none)).isSome := by decide +kernel

/-! ## Where the translator fails -/

/-- `{ while ( c < 2 ) L: { c += 1; break L; } }` -/
def exBody : Stmt :=
  .block [] (.cons (.loop [] false 2 none (.block [.user 0] (.cons (.act [] 0) (.cons (.branch [] .brk (some (.user 0))) .nil))) .none) .nil)

/-- A `break` from a labelled block that is the body of a loop leaves the loop too: the translator accepts the function, and the C function returns
    with another store. -/
theorem C88_body_violated : ∃ body', fixLabels 20 exBody = some body' ∧ Returns exI exBody (0, []) none (2, []) ∧ Returns exI body' (0, []) none (1, []) ∧ ¬ Same exBody body' := by
  obtain ⟨b, hb⟩ := Option.isSome_iff_exists.1 (show (fixLabels 20 exBody).isSome by decide +kernel)
  have h1 : Returns exI exBody (0, []) none (2, []) := runFor_begin (n := 100) (by decide +kernel)
  have h2 := (by decide +kernel : ((fixLabels 20 exBody).all fun b => decide (runFor exI b 100 (begin b (0, [])) = some (none, (1, [])))) = true)
  rw [hb] at h2
  simp only [Option.all_some, decide_eq_true_eq] at h2
  have h2 := runFor_begin h2
  refine ⟨b, hb, h1, h2, fun hs => ?_⟩
  have := ((hs _ exI (0, [])).2.1 none (2, [])).1 h1
  have := (Returns.unique this (h2)).2
  cases this

/-- `{ goto L; while ( c < 2 ) { c += 1; L: break; } }` -/
def exLost : Stmt :=
  .block [] (.cons (.branch [] .goto (some (.user 0))) (.cons (.loop [] false 2 none (.block [] (.cons (.act [] 0) (.cons (.branch [.user 0] .brk none) .nil))) .none) .nil))

/-- A label on a `break` is lost: the translator accepts the function, but the C function has a `goto` to a label that it does not have. -/
theorem C88_lost_violated : ∃ body', fixLabels 20 exLost = some body' ∧ Returns exI exLost (0, []) none (0, []) ∧ .user 0 ∈ body'.targets ∧ .user 0 ∉ body'.labels := by
  obtain ⟨b, hb⟩ := Option.isSome_iff_exists.1 (show (fixLabels 20 exLost).isSome by decide +kernel)
  have h := (by decide +kernel : ((fixLabels 20 exLost).all fun b => decide (.user 0 ∈ b.targets) && decide (.user 0 ∉ b.labels)) = true)
  rw [hb] at h
  simp only [Option.all_some, Bool.and_eq_true, decide_eq_true_eq] at h
  exact ⟨b, hb, runFor_begin (n := 100) (by decide +kernel), h⟩

/-- `exDef` with an `else` clause -/
def exStop : Stmt := exDef (.some (.block [] (.cons (.act [] 6) .nil)))

/-- A `fallthrough default` inside a loop with an `else` clause stops the translator: the function is a valid one that returns, its labels are unique and defined, and
    the translator accepts it without the `else`. -/
theorem C88_stops_violated : (∀ fuel, fixLabels fuel exStop = none) ∧ exStop.plain ∧ exStop.isBlock ∧ exStop.labels = [] ∧ exStop.targets = [] ∧
    (∀ r m, Returns exI exStop (1, []) r m ↔ r = some 0 ∧ m = (1, [5])) ∧ (fixLabels 20 (exDef .none)).isSome := by
  refine ⟨fun n => ?_, by decide +kernel, by decide +kernel, by decide +kernel, by decide +kernel, fun r m => ?_, by decide +kernel⟩
  · match n with
    | 0 | 1 | 2 | 3 | 4 | 5 | 6 | 7 | 8 | 9 => decide +kernel
    | n + 10 => rfl
  · have h : Returns exI exStop (1, []) (some 0) (1, [5]) := runFor_begin (n := 100) (by decide +kernel)
    exact ⟨fun hr => Returns.unique hr h, fun ⟨e1, e2⟩ => e1 ▸ e2 ▸ h⟩

end Verif.MultiExit
