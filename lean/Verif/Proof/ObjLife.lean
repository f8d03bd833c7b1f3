import Verif.Spec.ObjLife
import Verif.Proof.Heap
import Mathlib.Data.List.Nodup
import Mathlib.Data.List.Infix
/-! Proofs about object lifetimes. -/
namespace ObjLife
open Verif

/-- A scope: variables with the flag `obj`, the oldest first. -/
abbrev Scope := List (Nat × Bool)

def nms (sc : Scope) : List Nat := sc.map Prod.fst
def objs (sc : Scope) : List Nat := ((sc.filter (·.2)).map Prod.fst).reverse

@[simp] theorem nms_snoc (sc : Scope) (x : Nat) (o : Bool) : nms (sc ++ [(x, o)]) = nms sc ++ [x] := by
  simp [nms]

theorem objs_snoc (sc : Scope) (x : Nat) (o : Bool) :
    objs (sc ++ [(x, o)]) = if o then x :: objs sc else objs sc := by
  cases o <;> simp [objs]

mutual
/-- Each declaration with the scope it is in. -/
def decls (sc : Scope) : S → List ((Nat × Bool) × Scope)
  | .block b => declsB sc b
  | .ite _ _ s t => decls sc s ++ decls sc t
  | .loop _ _ s => decls sc s
  | .lab _ s => decls sc s
  | _ => []
def declsB (sc : Scope) : B → List ((Nat × Bool) × Scope)
  | .nil => []
  | .decl _ x o b => ((x, o), sc) :: declsB (sc ++ [(x, o)]) b
  | .tdecl _ b => declsB sc b
  | .stmt s b => decls sc s ++ declsB sc b
end

mutual
theorem decls_names : ∀ (sc : Scope) (s : S), (decls sc s).map (fun d => d.1.1) = declared s
  | sc, .block b => by simp only [decls, declared, declsB_names sc b]
  | sc, .ite _ _ s t => by simp only [decls, declared, List.map_append, decls_names sc s, decls_names sc t]
  | sc, .loop _ _ s => by simp only [decls, declared, decls_names sc s]
  | sc, .lab _ s => by simp only [decls, declared, decls_names sc s]
  | _, .expr _ _ => by simp only [decls, declared, List.map_nil]
  | _, .eval _ _ => by simp only [decls, declared, List.map_nil]
  | _, .ctor _ => by simp only [decls, declared, List.map_nil]
  | _, .goto _ => by simp only [decls, declared, List.map_nil]
  | _, .computed _ => by simp only [decls, declared, List.map_nil]
  | _, .ret => by simp only [decls, declared, List.map_nil]
theorem declsB_names : ∀ (sc : Scope) (b : B), (declsB sc b).map (fun d => d.1.1) = declaredB b
  | _, .nil => by simp only [declsB, declaredB, List.map_nil]
  | sc, .decl _ x o b => by simp only [declsB, declaredB, List.map_cons, declsB_names (sc ++ [(x, o)]) b]
  | sc, .tdecl _ b => by simp only [declsB, declaredB, declsB_names sc b]
  | sc, .stmt s b => by simp only [declsB, declaredB, List.map_append, decls_names sc s, declsB_names sc b]
end

/-- Facts about the whole function. -/
structure Env where
  m : List (Nat × List Nat)
  ds : List ((Nat × Bool) × Scope)
  pl : List (Nat × List Nat × List Nat)
  names : List Nat
  tg : List Nat

/-- The facts hang together. -/
structure Env.Ok (E : Env) : Prop where
  uniq : ∀ y u y' u', (y, u) ∈ E.ds → (y', u') ∈ E.ds → y.1 = y'.1 → y = y' ∧ u = u'
  lab : ∀ l v, (l, v) ∈ E.m → labelVars E.m l = v
  dn : ∀ y u, (y, u) ∈ E.ds → y.1 ∈ E.names
  tg : ∀ l ∈ E.tg, ∃ v, (l, v) ∈ E.m

/-- The statement occurs in the function with scope `sc`. -/
structure WS (E : Env) (sc : Scope) (s : S) : Prop where
  cov : covered E.names s = true
  chk : check E.m (nms sc) s = true
  ds : ∀ d ∈ decls sc s, d ∈ E.ds
  lb : ∀ d ∈ labels (nms sc) s, d ∈ E.m
  pl : ∀ d ∈ places (objs sc) s, d ∈ E.pl
  tg : ∀ l ∈ targets s, l ∈ E.tg

structure WB (E : Env) (sc : Scope) (b : B) : Prop where
  cov : coveredB E.names b = true
  chk : checkB E.m (nms sc) b = true
  ds : ∀ d ∈ declsB sc b, d ∈ E.ds
  lb : ∀ d ∈ labelsB (nms sc) b, d ∈ E.m
  pl : ∀ d ∈ placesB (objs sc) b, d ∈ E.pl
  tg : ∀ l ∈ targetsB b, l ∈ E.tg

theorem WB.nil (E : Env) (sc : Scope) : WB E sc .nil :=
  ⟨by simp only [coveredB], by simp only [checkB], by simp [declsB], by simp [labelsB],
    by simp [placesB], by simp [targetsB]⟩

theorem WB.decl {E sc ls x o b} (w : WB E sc (.decl ls x o b)) :
    WB E (sc ++ [(x, o)]) b ∧ ((x, o), sc) ∈ E.ds ∧ ∀ l ∈ ls, (l, nms sc) ∈ E.m := by
  obtain ⟨w1, w2, w3, w4, w5, w6⟩ := w
  simp only [coveredB, checkB, declsB, labelsB, placesB, targetsB] at w1 w2 w3 w4 w5 w6
  refine ⟨⟨w1, by rwa [nms_snoc], fun d h => w3 d (by simp [h]), ?_, ?_, w6⟩, w3 _ (by simp), ?_⟩
  · intro d h
    rw [nms_snoc] at h
    exact w4 d (by simp [h])
  · intro d h
    rw [objs_snoc] at h
    exact w5 d h
  · intro l h
    exact w4 _ (List.mem_append_left _ (List.mem_map.mpr ⟨l, h, rfl⟩))

theorem WB.stmt {E sc s b} (w : WB E sc (.stmt s b)) : WS E sc s ∧ WB E sc b := by
  obtain ⟨w1, w2, w3, w4, w5, w6⟩ := w
  simp only [coveredB, checkB, declsB, labelsB, placesB, targetsB, Bool.and_eq_true] at w1 w2 w3 w4 w5 w6
  exact ⟨⟨w1.1, w2.1, fun d h => w3 d (by simp [h]), fun d h => w4 d (by simp [h]),
      fun d h => w5 d (by simp [h]), fun d h => w6 d (by simp [h])⟩,
    ⟨w1.2, w2.2, fun d h => w3 d (by simp [h]), fun d h => w4 d (by simp [h]),
      fun d h => w5 d (by simp [h]), fun d h => w6 d (by simp [h])⟩⟩

theorem WS.one {E sc s} (w : WS E sc s) : WB E sc (.stmt s .nil) := by
  obtain ⟨w1, w2, w3, w4, w5, w6⟩ := w
  refine ⟨?_, ?_, ?_, ?_, ?_, ?_⟩ <;>
    simp only [coveredB, checkB, declsB, labelsB, placesB, targetsB, Bool.and_true, List.append_nil] <;> assumption

theorem WS.block {E sc b} (w : WS E sc (.block b)) : WB E sc b := by
  obtain ⟨w1, w2, w3, w4, w5, w6⟩ := w
  simp only [covered, check, decls, labels, places, targets] at w1 w2 w3 w4 w5 w6
  exact ⟨w1, w2, w3, w4, w5, w6⟩

theorem WS.lab {E sc l s} (w : WS E sc (.lab l s)) : WS E sc s ∧ plain s = true ∧ (l, nms sc) ∈ E.m := by
  obtain ⟨w1, w2, w3, w4, w5, w6⟩ := w
  simp only [covered, check, decls, labels, places, targets, Bool.and_eq_true] at w1 w2 w3 w4 w5 w6
  exact ⟨⟨w1.2, w2, w3, fun d h => w4 d (by simp [h]), w5, w6⟩, w1.1, w4 _ (by simp)⟩

theorem WS.ite {E sc a ts s t} (w : WS E sc (.ite a ts s t)) :
    ts = [] ∧ WS E sc s ∧ WS E sc t ∧ (a, [], objs sc) ∈ E.pl := by
  obtain ⟨w1, w2, w3, w4, w5, w6⟩ := w
  simp only [covered, check, decls, labels, places, targets, Bool.and_eq_true, List.isEmpty_iff] at w1 w2 w3 w4 w5 w6
  obtain ⟨⟨rfl, w1⟩, w1'⟩ := w1
  exact ⟨rfl, ⟨w1, w2.1, fun d h => w3 d (by simp [h]), fun d h => w4 d (by simp [h]),
      fun d h => w5 d (by simp [h]), fun d h => w6 d (by simp [h])⟩,
    ⟨w1', w2.2, fun d h => w3 d (by simp [h]), fun d h => w4 d (by simp [h]),
      fun d h => w5 d (by simp [h]), fun d h => w6 d (by simp [h])⟩, w5 _ (by simp)⟩

theorem WS.loop {E sc a ts s} (w : WS E sc (.loop a ts s)) :
    ts = [] ∧ WS E sc s ∧ (a, [], objs sc) ∈ E.pl := by
  obtain ⟨w1, w2, w3, w4, w5, w6⟩ := w
  simp only [covered, check, decls, labels, places, targets, Bool.and_eq_true, List.isEmpty_iff] at w1 w2 w3 w4 w5 w6
  obtain ⟨rfl, w1⟩ := w1
  exact ⟨rfl, ⟨w1, w2, w3, w4, fun d h => w5 d (by simp [h]), w6⟩, w5 _ (by simp)⟩

theorem pre_nil : ∀ {E sc} {s : S}, WS E sc s → pre s = []
  | _, _, .ite _ _ _ _, w => by simp only [pre]; exact w.ite.1
  | _, _, .loop _ _ _, w => by simp only [pre]; exact w.loop.1
  | _, _, .lab _ s, w => by simp only [pre]; exact pre_nil w.lab.1
  | _, _, .expr _ _, _ => by simp only [pre]
  | _, _, .eval _ _, _ => by simp only [pre]
  | _, _, .ctor _, _ => by simp only [pre]
  | _, _, .goto _, _ => by simp only [pre]
  | _, _, .computed _, _ => by simp only [pre]
  | _, _, .ret, _ => by simp only [pre]
  | _, _, .block _, _ => by simp only [pre]

/-- The body of a loop or a branch of an `if`. -/
def sub (s : S) : S := .block (.stmt (fixS [] s) .nil)

theorem fixB_stmt {E sc s} (w : WS E sc s) (b : B) :
    fixB (.stmt s b) = .stmt (fixS [] s) (fixB b) := by
  simp only [fixB, pre_nil w, tdecls]

theorem sub_eq {E sc s} (w : WS E sc s) : sub s = .block (fixB (.stmt s .nil)) := by
  rw [fixB_stmt w]; simp only [sub, fixB]

theorem fix_ite {E sc s t} (a : Nat) (ws : WS E sc s) (wt : WS E sc t) (ls : List Nat) :
    fixS ls (.ite a [] s t) = labs ls (.ite a [] (sub s) (sub t)) := by
  simp only [fixS, pre_nil ws, pre_nil wt, tdecls, sub]

theorem fix_loop {E sc s} (a : Nat) (ws : WS E sc s) (ls : List Nat) :
    fixS ls (.loop a [] s) = labs ls (.loop a [] (sub s)) := by
  simp only [fixS, pre_nil ws, tdecls, sub]

/-! ## Frames -/

/-- The frames of a place with scope `sc`. -/
inductive VK (E : Env) : List Frame → Scope → Prop where
  | nil : VK E [] []
  | seq {k sc b} : VK E k sc → WB E sc b → VK E (.seq (fixB b) :: k) sc
  | decl {k sc x o} : VK E k sc → ((x, o), sc) ∈ E.ds → VK E (.decl x o :: k) (sc ++ [(x, o)])
  | iteT {k sc s t} : VK E k sc → WS E sc s → WS E sc t → VK E (.iteT (sub s) (sub t) :: k) sc
  | loopT {k sc a s} : VK E k sc → WS E sc s → (a, [], objs sc) ∈ E.pl →
      VK E (.loopT a [] (sub s) :: k) sc
  | loopB {k sc a s} : VK E k sc → WS E sc s → (a, [], objs sc) ∈ E.pl →
      VK E (.loopB a [] (sub s) :: k) sc

/-- The variables of the frames, the newest first. -/
def dvars : List Frame → List (Nat × Bool)
  | [] => []
  | .decl x o :: k => (x, o) :: dvars k
  | _ :: k => dvars k

theorem VK.dvars {E k sc} (v : VK E k sc) : dvars k = sc.reverse := by
  induction v with
  | nil => rfl
  | seq _ _ ih => simpa only [ObjLife.dvars] using ih
  | decl _ _ ih => simp only [ObjLife.dvars, ih, List.reverse_append, List.reverse_cons, List.reverse_nil,
      List.nil_append, List.cons_append]
  | iteT _ _ _ ih => simpa only [ObjLife.dvars] using ih
  | loopT _ _ _ ih => simpa only [ObjLife.dvars] using ih
  | loopB _ _ _ ih => simpa only [ObjLife.dvars] using ih

/-- No temporaries. -/
def noTmp : List Frame → Bool
  | [] => true
  | .tmp _ :: _ => false
  | _ :: k => noTmp k

theorem VK.noTmp {E k sc} (v : VK E k sc) : noTmp k = true := by
  induction v <;> simpa only [ObjLife.noTmp]

theorem VK.chain {E k sc} (v : VK E k sc) : ∀ u y w, sc = u ++ y :: w → (y, u) ∈ E.ds := by
  induction v with
  | nil => intro u y w h; simp at h
  | seq _ _ ih => exact ih
  | iteT _ _ _ ih => exact ih
  | loopT _ _ _ ih => exact ih
  | loopB _ _ _ ih => exact ih
  | @decl k sc x o _ h ih =>
    intro u y w e
    rcases List.eq_nil_or_concat w with rfl | ⟨w', z, rfl⟩
    · have := List.append_inj' e rfl
      rw [← this.1]
      simp only [List.cons.injEq, and_true] at this
      rw [← this.2]
      exact h
    · rw [List.concat_eq_append, ← List.cons_append, ← List.append_assoc] at e
      exact ih u y w' (List.append_inj' e rfl).1

/-- If everything in scope at one place is in scope at another, the one scope
is the beginning of the other. -/
theorem scope_prefix {E : Env} (ok : E.Ok) {k k' sc sc'} (v : VK E k sc) (v' : VK E k' sc')
    (h : ∀ x ∈ nms sc', x ∈ nms sc) : ∃ d, sc = sc' ++ d := by
  rcases List.eq_nil_or_concat sc' with rfl | ⟨a, y, rfl⟩
  · exact ⟨sc, rfl⟩
  · rw [List.concat_eq_append] at *
    have hy := h y.1 (by simp [nms])
    simp only [nms, List.mem_map] at hy
    obtain ⟨y2, hy2, e⟩ := hy
    obtain ⟨u, w, rfl⟩ := List.append_of_mem hy2
    have h1 := v.chain u y2 w rfl
    have h2 := v'.chain a y [] rfl
    obtain ⟨rfl, rfl⟩ := ok.uniq _ _ _ _ h1 h2 e
    exact ⟨w, by simp⟩

theorem fresh {E : Env} (ok : E.Ok) {k sc x o} (v : VK E k sc) (h : ((x, o), sc) ∈ E.ds) :
    x ∉ nms sc := by
  intro hx
  simp only [nms, List.mem_map] at hx
  obtain ⟨y, hy, e⟩ := hx
  obtain ⟨u, w, rfl⟩ := List.append_of_mem hy
  have h1 := v.chain u y w rfl
  have := (ok.uniq _ _ _ _ h h1 e.symm).2
  have := congrArg List.length this
  simp at this

theorem VK.nodup {E : Env} (ok : E.Ok) {k sc} (v : VK E k sc) : (nms sc).Nodup := by
  induction v with
  | nil => simp [nms]
  | seq _ _ ih => exact ih
  | iteT _ _ _ ih => exact ih
  | loopT _ _ _ ih => exact ih
  | loopB _ _ _ ih => exact ih
  | decl v h ih =>
    rw [nms_snoc]
    exact List.nodup_append.mpr ⟨ih, by simp, fun a ha b hb e => by
      simp at hb; subst hb; subst e; exact fresh ok v h ha⟩

theorem VK.names {E : Env} (ok : E.Ok) {k sc} (v : VK E k sc) : ∀ x ∈ nms sc, x ∈ E.names := by
  intro x hx
  simp only [nms, List.mem_map] at hx
  obtain ⟨y, hy, rfl⟩ := hx
  obtain ⟨u, w, rfl⟩ := List.append_of_mem hy
  exact ok.dn _ _ (v.chain u y w rfl)

theorem objs_sub (sc : Scope) : ∀ x ∈ objs sc, x ∈ nms sc := by
  intro x hx
  simp only [objs, List.mem_reverse, List.mem_map, List.mem_filter] at hx
  obtain ⟨y, hy, rfl⟩ := hx
  exact List.mem_map.mpr ⟨y, hy.1, rfl⟩

/-! ## Leaving scopes -/

/-- The objects of the frames that exist, the newest first. -/
def live (tm : Nat → T) : List Frame → List Nat
  | [] => []
  | .decl x true :: k => x :: live tm k
  | .tmp t :: k => if tm t = .set then t :: live tm k else live tm k
  | _ :: k => live tm k

/-- The temporaries of the frames. -/
def tnames : List Frame → List Nat
  | [] => []
  | .tmp t :: k => t :: tnames k
  | _ :: k => tnames k

theorem live_congr (tm tm' : Nat → T) : ∀ k : List Frame, (∀ t ∈ tnames k, tm t = tm' t) →
    live tm k = live tm' k
  | [], _ => rfl
  | .decl x true :: k, h => by
    simp only [live]; rw [live_congr tm tm' k (fun t ht => h t (by simpa only [tnames] using ht))]
  | .decl x false :: k, h => by
    simp only [live]; exact live_congr tm tm' k (fun t ht => h t (by simpa only [tnames] using ht))
  | .tmp t :: k, h => by
    simp only [live]
    rw [live_congr tm tm' k (fun u hu => h u (by simp only [tnames, List.mem_cons]; exact .inr hu)),
      h t (by simp only [tnames, List.mem_cons, true_or])]
  | .seq _ :: k, h => by
    simp only [live]; exact live_congr tm tm' k (fun t ht => h t (by simpa only [tnames] using ht))
  | .iteT _ _ :: k, h => by
    simp only [live]; exact live_congr tm tm' k (fun t ht => h t (by simpa only [tnames] using ht))
  | .loopT _ _ _ :: k, h => by
    simp only [live]; exact live_congr tm tm' k (fun t ht => h t (by simpa only [tnames] using ht))
  | .loopB _ _ _ :: k, h => by
    simp only [live]; exact live_congr tm tm' k (fun t ht => h t (by simpa only [tnames] using ht))

theorem live_noTmp (tm : Nat → T) : ∀ k : List Frame, noTmp k = true →
    live tm k = ((dvars k).filter (·.2)).map Prod.fst
  | [], _ => rfl
  | .decl x true :: k, h => by
    simp only [noTmp] at h
    simp only [live, dvars, live_noTmp tm k h, List.filter_cons, if_true, List.map_cons]
  | .decl x false :: k, h => by
    simp only [noTmp] at h
    simp only [live, dvars, live_noTmp tm k h, List.filter_cons, Bool.false_eq_true, if_false]
  | .tmp t :: k, h => by simp only [noTmp, Bool.false_eq_true] at h
  | .seq _ :: k, h => by simp only [noTmp] at h; simp only [live, dvars, live_noTmp tm k h]
  | .iteT _ _ :: k, h => by simp only [noTmp] at h; simp only [live, dvars, live_noTmp tm k h]
  | .loopT _ _ _ :: k, h => by simp only [noTmp] at h; simp only [live, dvars, live_noTmp tm k h]
  | .loopB _ _ _ :: k, h => by simp only [noTmp] at h; simp only [live, dvars, live_noTmp tm k h]

theorem VK.live {E k sc} (v : VK E k sc) (tm : Nat → T) : live tm k = objs sc := by
  rw [live_noTmp tm k v.noTmp, v.dvars, objs, List.filter_reverse, List.map_reverse]

theorem tnames_noTmp : ∀ k : List Frame, noTmp k = true → tnames k = []
  | [], _ => rfl
  | .decl _ _ :: k, h => by simp only [noTmp] at h; simp only [tnames, tnames_noTmp k h]
  | .tmp t :: k, h => by simp only [noTmp, Bool.false_eq_true] at h
  | .seq _ :: k, h => by simp only [noTmp] at h; simp only [tnames, tnames_noTmp k h]
  | .iteT _ _ :: k, h => by simp only [noTmp] at h; simp only [tnames, tnames_noTmp k h]
  | .loopT _ _ _ :: k, h => by simp only [noTmp] at h; simp only [tnames, tnames_noTmp k h]
  | .loopB _ _ _ :: k, h => by simp only [noTmp] at h; simp only [tnames, tnames_noTmp k h]

/-- Leaving scopes destroys what exists in them, and nothing else. -/
theorem leaveAll_ok : ∀ (k : List Frame) (st : St) (r : List Nat), (tnames k).Nodup →
    (∀ t ∈ tnames k, st.tmps t ≠ .uninit) → st.alive = live st.tmps k ++ r → st.bad = false →
    (leaveAll k st).alive = r ∧ (leaveAll k st).bad = false
  | [], st, r, _, _, h, hb => by simp only [leaveAll]; exact ⟨by simpa [live] using h, hb⟩
  | .decl x true :: k, st, r, hn, hu, h, hb => by
    simp only [live, List.cons_append] at h
    simp only [tnames] at hn hu
    simp only [leaveAll, leave, destroy, h, if_true]
    exact leaveAll_ok k _ r hn hu rfl hb
  | .decl x false :: k, st, r, hn, hu, h, hb => by
    simp only [live] at h
    simp only [tnames] at hn hu
    simp only [leaveAll, leave]
    exact leaveAll_ok k _ r hn hu h hb
  | .seq _ :: k, st, r, hn, hu, h, hb => by
    simp only [live] at h
    simp only [tnames] at hn hu
    simp only [leaveAll, leave]
    exact leaveAll_ok k _ r hn hu h hb
  | .iteT _ _ :: k, st, r, hn, hu, h, hb => by
    simp only [live] at h
    simp only [tnames] at hn hu
    simp only [leaveAll, leave]
    exact leaveAll_ok k _ r hn hu h hb
  | .loopT _ _ _ :: k, st, r, hn, hu, h, hb => by
    simp only [live] at h
    simp only [tnames] at hn hu
    simp only [leaveAll, leave]
    exact leaveAll_ok k _ r hn hu h hb
  | .loopB _ _ _ :: k, st, r, hn, hu, h, hb => by
    simp only [live] at h
    simp only [tnames] at hn hu
    simp only [leaveAll, leave]
    exact leaveAll_ok k _ r hn hu h hb
  | .tmp t :: k, st, r, hn, hu, h, hb => by
    simp only [tnames, List.nodup_cons] at hn
    have hne : ∀ u ∈ tnames k, u ≠ t := fun u hu' e => hn.1 (e ▸ hu')
    have hu' : ∀ u ∈ tnames k, upd st.tmps t .uninit u ≠ .uninit := by
      intro u hu'
      rw [upd_ne _ _ (hne u hu')]
      exact hu u (by simp only [tnames, List.mem_cons]; exact .inr hu')
    have hl : live st.tmps k = live (upd st.tmps t .uninit) k :=
      live_congr _ _ k (fun u hu' => by rw [upd_ne _ _ (hne u hu')])
    simp only [live] at h
    simp only [leaveAll, leave]
    cases e : st.tmps t with
    | uninit => exact absurd e (hu t (by simp only [tnames, List.mem_cons, true_or]))
    | null =>
      rw [e, if_neg (by simp), hl] at h
      exact leaveAll_ok k { st with tmps := upd st.tmps t .uninit } r hn.2 hu' h hb
    | set =>
      rw [e, if_pos rfl, hl] at h
      simp only [destroy, h, List.cons_append, if_true]
      exact leaveAll_ok k ⟨st.ctl, st.k, live (upd st.tmps t .uninit) k ++ r,
        upd st.tmps t .uninit, st.bad⟩ r hn.2 hu' rfl hb

/-! ## Jumps -/

/-- A place in the generated program between two expressions. -/
inductive Stable (E : Env) : Ctl → List Frame → Scope → Prop where
  | blk {b k sc} : WB E sc b → VK E k sc → Stable E (.blk (fixB b)) k sc
  | stm {ls s k sc} : WS E sc s → VK E k sc → (ls ≠ [] → plain s = true) → Stable E (.stm (fixS ls s)) k sc
  | ev {ls a k sc} : VK E k sc → (a, [], objs sc) ∈ E.pl → Stable E (.stm (labs ls (.eval a []))) k sc
  | evB {ls a k sc} : VK E k sc → (a, [], objs sc) ∈ E.pl →
      Stable E (.blk (.stmt (labs ls (.eval a [])) .nil)) k sc

theorem Stable.vk {E c k sc} : Stable E c k sc → VK E k sc
  | .blk _ v => v
  | .stm _ v _ => v
  | .ev v _ => v
  | .evB v _ => v

theorem find_labs (l : Nat) (k : List Frame) (s : S) : ∀ (ls : List Nat) (r : Ctl × List Frame),
    find l k (labs ls s) = some r →
    (∃ post, l ∈ ls ∧ r = (.stm (labs post s), k)) ∨ find l k s = some r
  | [], r, h => .inr h
  | l' :: ls, r, h => by
    simp only [labs, find] at h
    by_cases e : l = l'
    · rw [if_pos e] at h
      simp only [Option.some.injEq] at h
      exact .inl ⟨ls, by simp [e], h.symm⟩
    · rw [if_neg e] at h
      rcases find_labs l k s ls r h with ⟨post, h1, h2⟩ | h
      · exact .inl ⟨post, List.mem_cons_of_mem _ h1, h2⟩
      · exact .inr h

theorem findB_tdecls (l : Nat) (b : B) : ∀ (ts : List Nat) (k : List Frame),
    findB l k (tdecls ts b) = findB l ((ts.reverse.map Frame.tmp) ++ k) b
  | [], k => rfl
  | t :: ts, k => by
    simp only [tdecls, findB]
    rw [findB_tdecls l b ts]
    simp

mutual
theorem find_ok {E : Env} (l : Nat) : ∀ (s : S) (ls : List Nat) (k : List Frame) (sc : Scope) (c : Ctl) (k' : List Frame),
    WS E sc s → VK E k sc → (∀ x ∈ ls, (x, nms sc) ∈ E.m) → (ls ≠ [] → plain s = true) →
    find l k (fixS ls s) = some (c, k') → ∃ sc', (l, nms sc') ∈ E.m ∧ Stable E c k' sc'
  | .expr a ts, ls, k, sc, c, k', w, v, hl, hp, h => by
    have hpl : (a, ts, objs sc) ∈ E.pl := w.pl _ (by simp [places])
    simp only [fixS, find, findB_tdecls, findB, Option.or_none] at h
    rcases find_labs l _ _ _ _ h with ⟨post, h1, h2⟩ | h
    · have : ts = [] := by
        have := hp (List.ne_nil_of_mem h1)
        simpa only [plain, List.isEmpty_iff] using this
      subst this
      simp only [Prod.mk.injEq] at h2
      obtain ⟨rfl, rfl⟩ := h2
      refine ⟨sc, hl _ h1, .ev ?_ hpl⟩
      have := VK.seq v (WB.nil E sc)
      simpa only [fixB, List.reverse_nil, List.map_nil, List.nil_append] using this
    · simp only [find, reduceCtorEq] at h
  | .eval a ts, ls, k, sc, c, k', w, v, hl, hp, h => by
    exact absurd w.cov (by simp only [covered, Bool.false_eq_true, not_false_eq_true])
  | .ctor x, ls, k, sc, c, k', w, v, hl, hp, h => by
    exact absurd w.cov (by simp only [covered, Bool.false_eq_true, not_false_eq_true])
  | .computed x, ls, k, sc, c, k', w, v, hl, hp, h => by
    exact absurd w.cov (by simp only [covered, Bool.false_eq_true, not_false_eq_true])
  | .goto x, ls, k, sc, c, k', w, v, hl, hp, h => by
    simp only [fixS] at h
    rcases find_labs l _ _ _ _ h with ⟨post, h1, h2⟩ | h
    · simp only [Prod.mk.injEq] at h2
      obtain ⟨rfl, rfl⟩ := h2
      have := Stable.stm (ls := post) w v (fun _ => hp (List.ne_nil_of_mem h1))
      simp only [fixS] at this
      exact ⟨sc, hl _ h1, this⟩
    · simp only [find, reduceCtorEq] at h
  | .ret, ls, k, sc, c, k', w, v, hl, hp, h => by
    simp only [fixS] at h
    rcases find_labs l _ _ _ _ h with ⟨post, h1, h2⟩ | h
    · simp only [Prod.mk.injEq] at h2
      obtain ⟨rfl, rfl⟩ := h2
      have := Stable.stm (ls := post) w v (fun _ => hp (List.ne_nil_of_mem h1))
      simp only [fixS] at this
      exact ⟨sc, hl _ h1, this⟩
    · simp only [find, reduceCtorEq] at h
  | .block b, ls, k, sc, c, k', w, v, hl, hp, h => by
    simp only [fixS] at h
    rcases find_labs l _ _ _ _ h with ⟨post, h1, h2⟩ | h
    · simp only [Prod.mk.injEq] at h2
      obtain ⟨rfl, rfl⟩ := h2
      have := Stable.stm (ls := post) w v (fun _ => hp (List.ne_nil_of_mem h1))
      simp only [fixS] at this
      exact ⟨sc, hl _ h1, this⟩
    · simp only [find] at h
      exact findB_ok l b k sc c k' w.block v h
  | .ite a ts s t, ls, k, sc, c, k', w, v, hl, hp, h => by
    obtain ⟨rfl, ws, wt, _⟩ := w.ite
    rw [fix_ite a ws wt] at h
    rcases find_labs l _ _ _ _ h with ⟨post, h1, h2⟩ | h
    · simp only [Prod.mk.injEq] at h2
      obtain ⟨rfl, rfl⟩ := h2
      have := Stable.stm (ls := post) w v (fun _ => hp (List.ne_nil_of_mem h1))
      rw [fix_ite a ws wt] at this
      exact ⟨sc, hl _ h1, this⟩
    · simp only [find, sub, findB, Option.or_none, Option.or_eq_some_iff] at h
      have v' : VK E (.seq .nil :: k) sc := by
        have := VK.seq v (WB.nil E sc)
        simpa only [fixB] using this
      rcases h with h | ⟨_, h⟩
      · exact find_ok l s [] _ sc c k' ws v' (by simp) (by simp) h
      · exact find_ok l t [] _ sc c k' wt v' (by simp) (by simp) h
  | .loop a ts s, ls, k, sc, c, k', w, v, hl, hp, h => by
    obtain ⟨rfl, ws, hpl⟩ := w.loop
    rw [fix_loop a ws] at h
    rcases find_labs l _ _ _ _ h with ⟨post, h1, h2⟩ | h
    · simp only [Prod.mk.injEq] at h2
      obtain ⟨rfl, rfl⟩ := h2
      have := Stable.stm (ls := post) w v (fun _ => hp (List.ne_nil_of_mem h1))
      rw [fix_loop a ws] at this
      exact ⟨sc, hl _ h1, this⟩
    · have v' : VK E (.seq .nil :: .loopB a [] (sub s) :: k) sc := by
        have := VK.seq (VK.loopB v ws hpl) (WB.nil E sc)
        simpa only [fixB] using this
      have h' : find l (.seq .nil :: .loopB a [] (sub s) :: k) (fixS [] s) = some (c, k') := by
        simpa only [find, sub, findB, Option.or_none] using h
      exact find_ok l s [] _ sc c k' ws v' (by simp) (by simp) h'
  | .lab l' s, ls, k, sc, c, k', w, v, hl, hp, h => by
    simp only [fixS] at h
    obtain ⟨ws, pl, hm⟩ := w.lab
    refine find_ok l s (ls ++ [l']) k sc c k' ws v ?_ (fun _ => pl) h
    intro x hx
    rcases List.mem_append.mp hx with hx | hx
    · exact hl x hx
    · simp only [List.mem_singleton] at hx
      exact hx ▸ hm
theorem findB_ok {E : Env} (l : Nat) : ∀ (b : B) (k : List Frame) (sc : Scope) (c : Ctl) (k' : List Frame),
    WB E sc b → VK E k sc →
    findB l k (fixB b) = some (c, k') → ∃ sc', (l, nms sc') ∈ E.m ∧ Stable E c k' sc'
  | .nil, k, sc, c, k', w, v, h => by simp only [fixB, findB, reduceCtorEq] at h
  | .tdecl _ b, k, sc, c, k', w, v, h => by
    exact absurd w.cov (by simp only [coveredB, Bool.false_eq_true, not_false_eq_true])
  | .stmt s b, k, sc, c, k', w, v, h => by
    obtain ⟨ws, wb⟩ := w.stmt
    rw [fixB_stmt ws] at h
    simp only [findB, Option.or_eq_some_iff] at h
    rcases h with h | ⟨_, h⟩
    · exact find_ok l s [] _ sc c k' ws (VK.seq v wb) (by simp) (by simp) h
    · exact findB_ok l b k sc c k' wb v h
  | .decl ls x o b, k, sc, c, k', w, v, h => by
    obtain ⟨wb, hd, hl⟩ := w.decl
    have key : ∀ bb : B, findB l k (.decl ls x o bb) = some (c, k') →
        (l ∈ ls ∧ c = .blk (.decl [] x o bb) ∧ k' = k) ∨ findB l (.decl x o :: k) bb = some (c, k') := by
      intro bb h
      simp only [findB] at h
      split at h
      · next hc =>
        simp only [Option.some.injEq, Prod.mk.injEq] at h
        exact .inl ⟨by simpa using hc, h.1.symm, h.2.symm⟩
      · exact .inr h
    have w' : WB E sc (.decl [] x o b) := by
      obtain ⟨w1, w2, w3, w4, w5, w6⟩ := w
      simp only [coveredB, checkB, declsB, labelsB, placesB, targetsB] at w1 w2 w3 w4 w5 w6
      refine ⟨?_, ?_, ?_, ?_, ?_, ?_⟩ <;> simp only [coveredB, checkB, declsB, labelsB, placesB, targetsB] <;>
        first | assumption | (intro d h; exact w4 d (by simp at h; simp [h]))
    cases o with
    | true =>
      simp only [fixB, if_true] at h
      rcases key _ h with ⟨h1, rfl, rfl⟩ | h
      · refine ⟨sc, hl l h1, ?_⟩
        have := Stable.blk w' v
        simpa only [fixB, if_true] using this
      · simp only [findB, find, Option.none_or] at h
        exact findB_ok l b _ _ c k' wb (VK.decl v hd) h
    | false =>
      simp only [fixB, Bool.false_eq_true, if_false] at h
      rcases key _ h with ⟨h1, rfl, rfl⟩ | h
      · refine ⟨sc, hl l h1, ?_⟩
        have := Stable.blk w' v
        simpa only [fixB, Bool.false_eq_true, if_false] using this
      · exact findB_ok l b _ _ c k' wb (VK.decl v hd) h
end

theorem find_labs_some (l : Nat) (k : List Frame) (s : S) : ∀ ls : List Nat,
    l ∈ ls ∨ (find l k s).isSome = true → (find l k (labs ls s)).isSome = true
  | [], h => by simpa [labs] using h
  | l' :: ls, h => by
    simp only [labs, find]
    split
    · rfl
    · next e =>
      refine find_labs_some l k s ls ?_
      rcases h with h | h
      · rcases List.mem_cons.mp h with h | h
        · exact absurd h e
        · exact .inl h
      · exact .inr h

mutual
theorem find_some (l : Nat) : ∀ (s : S) (ls : List Nat) (k : List Frame) (cur : List Nat),
    l ∈ ls ∨ l ∈ (labels cur s).map Prod.fst → (find l k (fixS ls s)).isSome = true
  | .expr a ts, ls, k, cur, h => by
    simp only [labels, List.map_nil, List.not_mem_nil, or_false] at h
    simp only [fixS, find, findB_tdecls, findB, Option.or_none]
    exact find_labs_some l _ _ ls (.inl h)
  | .eval a ts, ls, k, cur, h => by
    simp only [labels, List.map_nil, List.not_mem_nil, or_false] at h
    simp only [fixS]
    exact find_labs_some l _ _ ls (.inl h)
  | .ctor x, ls, k, cur, h => by
    simp only [labels, List.map_nil, List.not_mem_nil, or_false] at h
    simp only [fixS]
    exact find_labs_some l _ _ ls (.inl h)
  | .goto x, ls, k, cur, h => by
    simp only [labels, List.map_nil, List.not_mem_nil, or_false] at h
    simp only [fixS]
    exact find_labs_some l _ _ ls (.inl h)
  | .computed x, ls, k, cur, h => by
    simp only [labels, List.map_nil, List.not_mem_nil, or_false] at h
    simp only [fixS]
    exact find_labs_some l _ _ ls (.inl h)
  | .ret, ls, k, cur, h => by
    simp only [labels, List.map_nil, List.not_mem_nil, or_false] at h
    simp only [fixS]
    exact find_labs_some l _ _ ls (.inl h)
  | .block b, ls, k, cur, h => by
    simp only [labels] at h
    simp only [fixS]
    refine find_labs_some l _ _ ls (h.imp id fun h => ?_)
    simp only [find]
    exact findB_some l b k cur h
  | .ite a ts s t, ls, k, cur, h => by
    simp only [labels, List.map_append, List.mem_append] at h
    simp only [fixS]
    refine find_labs_some l _ _ ls (h.imp id fun h => ?_)
    simp only [find, findB_tdecls, findB, Option.or_none, Option.isSome_or, Bool.or_eq_true]
    exact h.imp (fun h => find_some l s [] _ cur (.inr h)) (fun h => find_some l t [] _ cur (.inr h))
  | .loop a ts s, ls, k, cur, h => by
    simp only [labels] at h
    simp only [fixS]
    refine find_labs_some l _ _ ls (h.imp id fun h => ?_)
    simp only [find, findB_tdecls, findB, Option.or_none]
    exact find_some l s [] _ cur (.inr h)
  | .lab l' s, ls, k, cur, h => by
    simp only [labels, List.map_cons, List.mem_cons] at h
    simp only [fixS]
    refine find_some l s (ls ++ [l']) k cur ?_
    rcases h with h | h | h
    · exact .inl (List.mem_append_left _ h)
    · exact .inl (by simp [h])
    · exact .inr h
theorem findB_some (l : Nat) : ∀ (b : B) (k : List Frame) (cur : List Nat),
    l ∈ (labelsB cur b).map Prod.fst → (findB l k (fixB b)).isSome = true
  | .nil, k, cur, h => by simp [labelsB] at h
  | .tdecl _ b, k, cur, h => by
    simp only [labelsB] at h
    simp only [fixB, findB]
    exact findB_some l b _ cur h
  | .stmt s b, k, cur, h => by
    simp only [labelsB, List.map_append, List.mem_append] at h
    simp only [fixB, findB_tdecls, findB, Option.isSome_or, Bool.or_eq_true]
    exact h.imp (fun h => find_some l s [] _ cur (.inr h)) (fun h => findB_some l b _ cur h)
  | .decl ls x o b, k, cur, h => by
    simp only [labelsB, List.map_append, List.mem_append, List.map_map] at h
    have key : ∀ bb : B, ((findB l (.decl x o :: k) (fixB b)).isSome = true →
        (findB l (.decl x o :: k) bb).isSome = true) → (findB l k (.decl ls x o bb)).isSome = true := by
      intro bb hb
      simp only [findB]
      split
      · rfl
      · next hc =>
        refine hb (findB_some l b _ _ (h.resolve_left fun h => hc ?_))
        simpa using h
    cases o with
    | true =>
      simp only [fixB, if_true]
      exact key _ (fun h => by simpa only [findB, find, Option.none_or] using h)
    | false =>
      simp only [fixB, Bool.false_eq_true, if_false]
      exact key _ id
end

theorem objs_append (a b : Scope) : objs (a ++ b) = objs b ++ objs a := by simp [objs]

theorem isIn_decl (x : Nat) (o : Bool) : ∀ k : List Frame,
    Frame.isIn k (.decl x o) = (dvars k).any fun y => x == y.1
  | [] => rfl
  | .decl y o' :: k => by
    have := isIn_decl x o k
    simp only [Frame.isIn] at this
    simp only [Frame.isIn, dvars, List.any_cons, this]
  | .seq _ :: k => by
    have := isIn_decl x o k
    simp only [Frame.isIn] at this
    simp only [Frame.isIn, dvars, List.any_cons, this, Bool.false_or]
  | .tmp _ :: k => by
    have := isIn_decl x o k
    simp only [Frame.isIn] at this
    simp only [Frame.isIn, dvars, List.any_cons, this, Bool.false_or]
  | .iteT _ _ :: k => by
    have := isIn_decl x o k
    simp only [Frame.isIn] at this
    simp only [Frame.isIn, dvars, List.any_cons, this, Bool.false_or]
  | .loopT _ _ _ :: k => by
    have := isIn_decl x o k
    simp only [Frame.isIn] at this
    simp only [Frame.isIn, dvars, List.any_cons, this, Bool.false_or]
  | .loopB _ _ _ :: k => by
    have := isIn_decl x o k
    simp only [Frame.isIn] at this
    simp only [Frame.isIn, dvars, List.any_cons, this, Bool.false_or]

theorem dvars_filter (k' : List Frame) : ∀ k : List Frame,
    dvars (k.filter fun f => !f.isIn k') = (dvars k).filter fun y => !(dvars k').any fun z => y.1 == z.1
  | [] => rfl
  | .decl y o :: k => by
    simp only [dvars, List.filter_cons, isIn_decl]
    split <;> simp only [dvars, dvars_filter k' k]
  | .tmp y :: k => by
    simp only [dvars, List.filter_cons]
    split <;> simp only [dvars, dvars_filter k' k]
  | .seq _ :: k => by
    simp only [dvars, List.filter_cons]
    split
    · simp only [dvars, dvars_filter k' k]
    · next h => exact absurd rfl h
  | .iteT _ _ :: k => by
    simp only [dvars, List.filter_cons]
    split
    · simp only [dvars, dvars_filter k' k]
    · next h => exact absurd rfl h
  | .loopT _ _ _ :: k => by
    simp only [dvars, List.filter_cons]
    split
    · simp only [dvars, dvars_filter k' k]
    · next h => exact absurd rfl h
  | .loopB _ _ _ :: k => by
    simp only [dvars, List.filter_cons]
    split
    · simp only [dvars, dvars_filter k' k]
    · next h => exact absurd rfl h

theorem noTmp_iff : ∀ k : List Frame, noTmp k = true ↔ ∀ t, Frame.tmp t ∉ k
  | [] => by simp [noTmp]
  | .tmp t :: k => by
    simp only [noTmp, Bool.false_eq_true, List.mem_cons, false_iff, not_forall, not_not]
    exact ⟨t, .inl rfl⟩
  | .decl _ _ :: k => by simp [noTmp, noTmp_iff k]
  | .seq _ :: k => by simp [noTmp, noTmp_iff k]
  | .iteT _ _ :: k => by simp [noTmp, noTmp_iff k]
  | .loopT _ _ _ :: k => by simp [noTmp, noTmp_iff k]
  | .loopB _ _ _ :: k => by simp [noTmp, noTmp_iff k]

/-- A goto to a place whose scope is part of the current one. -/
theorem jump_leave {E : Env} (ok : E.Ok) {k k' sc sc'} (v : VK E k sc) (v' : VK E k' sc')
    (h : ∀ x ∈ nms sc', x ∈ nms sc) (st : St) (ha : st.alive = objs sc) (hb : st.bad = false) :
    (leaveAll (k.filter fun f => !f.isIn k') st).alive = objs sc' ∧
    (leaveAll (k.filter fun f => !f.isIn k') st).bad = false := by
  obtain ⟨d, rfl⟩ := scope_prefix ok v v' h
  have hn : noTmp (k.filter fun f => !f.isIn k') = true := by
    rw [noTmp_iff]
    intro t ht
    exact (noTmp_iff k).mp v.noTmp t (List.mem_filter.mp ht).1
  have hd : dvars (k.filter fun f => !f.isIn k') = d.reverse := by
    rw [dvars_filter, v.dvars, v'.dvars, List.reverse_append, List.filter_append]
    have hnd := v.nodup ok
    rw [nms, List.map_append, List.nodup_append] at hnd
    have e1 : List.filter (fun y => !(sc'.reverse).any fun z => y.1 == z.1) d.reverse = d.reverse := by
      rw [List.filter_eq_self]
      intro y hy
      simp only [Bool.not_eq_true', List.any_eq_false, List.mem_reverse, beq_iff_eq] at hy ⊢
      intro z hz e
      exact hnd.2.2 z.1 (List.mem_map_of_mem hz) y.1 (List.mem_map_of_mem hy) e.symm
    have e2 : List.filter (fun y => !(sc'.reverse).any fun z => y.1 == z.1) sc'.reverse = [] := by
      rw [List.filter_eq_nil_iff]
      intro y hy
      simp only [Bool.not_eq_true', Bool.not_eq_false, List.any_eq_true, beq_iff_eq]
      exact ⟨y, hy, rfl⟩
    rw [e1, e2, List.append_nil]
  have ht := tnames_noTmp _ hn
  refine leaveAll_ok _ st (objs sc') (by rw [ht]; simp) (by rw [ht]; simp) ?_ hb
  rw [ha, objs_append, live_noTmp _ _ hn, hd, objs, List.filter_reverse, List.map_reverse]

/-! ## The invariant -/

def isLab : S → Bool
  | .lab _ _ => true
  | _ => false

theorem unlab {E sc} : ∀ (s : S) (ls : List Nat), WS E sc s → (ls ≠ [] → plain s = true) →
    ∃ ls' s', fixS ls s = fixS ls' s' ∧ isLab s' = false ∧ WS E sc s' ∧ (ls' ≠ [] → plain s' = true)
  | .lab l s, ls, w, h => by
    simp only [fixS]
    exact unlab s (ls ++ [l]) w.lab.1 (fun _ => w.lab.2.1)
  | .expr a ts, ls, w, h => ⟨ls, _, rfl, rfl, w, h⟩
  | .eval a ts, ls, w, h => ⟨ls, _, rfl, rfl, w, h⟩
  | .ctor a, ls, w, h => ⟨ls, _, rfl, rfl, w, h⟩
  | .goto a, ls, w, h => ⟨ls, _, rfl, rfl, w, h⟩
  | .computed a, ls, w, h => ⟨ls, _, rfl, rfl, w, h⟩
  | .ret, ls, w, h => ⟨ls, _, rfl, rfl, w, h⟩
  | .block a, ls, w, h => ⟨ls, _, rfl, rfl, w, h⟩
  | .ite _ _ _ _, ls, w, h => ⟨ls, _, rfl, rfl, w, h⟩
  | .loop _ _ _, ls, w, h => ⟨ls, _, rfl, rfl, w, h⟩

/-- The states of an execution. -/
inductive Inv (E : Env) : St → Prop where
  | stable {c k sc tm} : Stable E c k sc → Inv E ⟨c, k, objs sc, tm, false⟩
  | pend1 {b x k sc tm} : VK E k sc → ((x, true), sc) ∈ E.ds → WB E (sc ++ [(x, true)]) b →
      Inv E ⟨.blk (.stmt (.ctor x) (fixB b)), .decl x true :: k, objs sc, tm, false⟩
  | pend2 {b x k sc tm} : VK E k sc → ((x, true), sc) ∈ E.ds → WB E (sc ++ [(x, true)]) b →
      Inv E ⟨.stm (.ctor x), .seq (fixB b) :: .decl x true :: k, objs sc, tm, false⟩
  | tmpA {a ts1 ts2 k sc tm} : VK E k sc → (a, ts1 ++ ts2, objs sc) ∈ E.pl → (ts1 ++ ts2).Nodup →
      (∀ t ∈ ts1 ++ ts2, t ∉ E.names) → (∀ t ∈ ts1, tm t = .null) →
      Inv E ⟨.blk (tdecls ts2 (.stmt (.eval a (ts1 ++ ts2)) .nil)), ts1.reverse.map .tmp ++ k, objs sc, tm, false⟩
  | tmpB {a ts1 ts2 k sc tm} : VK E k sc → (a, ts1 ++ ts2, objs sc) ∈ E.pl → (ts1 ++ ts2).Nodup →
      (∀ t ∈ ts1 ++ ts2, t ∉ E.names) → (∀ t ∈ ts1, tm t ≠ .uninit) → (∀ t ∈ ts2, tm t = .null) →
      Inv E ⟨.stm (.eval a ts2), .seq .nil :: ((ts1 ++ ts2).reverse.map .tmp ++ k),
        live tm (ts1.reverse.map .tmp ++ k), tm, false⟩
  | tmpC {ts : List Nat} {k sc tm} (q : Bool) : VK E k sc → ts.Nodup → (∀ t ∈ ts, tm t ≠ .uninit) →
      Inv E ⟨.blk .nil, (if q then [.seq .nil] else []) ++ (ts.map .tmp ++ k), live tm (ts.map .tmp ++ k), tm, false⟩
  | done {k tm} : Inv E ⟨.done, k, [], tm, false⟩

theorem tnames_map (ts : List Nat) (k : List Frame) : tnames (ts.map .tmp ++ k) = ts ++ tnames k := by
  induction ts with
  | nil => rfl
  | cons t ts ih => simp only [List.map_cons, List.cons_append, tnames, ih]

theorem live_null (tm : Nat → T) (k : List Frame) : ∀ ts : List Nat, (∀ t ∈ ts, tm t = .null) →
    live tm (ts.map .tmp ++ k) = live tm k
  | [], _ => rfl
  | t :: ts, h => by
    simp only [List.map_cons, List.cons_append, live]
    rw [h t (by simp), if_neg (by simp)]
    exact live_null tm k ts (fun u hu => h u (by simp [hu]))

theorem live_mem (tm : Nat → T) (k : List Frame) : ∀ ts : List Nat, ∀ x ∈ live tm (ts.map .tmp ++ k),
    x ∈ ts ∨ x ∈ live tm k
  | [], x, h => .inr h
  | t :: ts, x, h => by
    simp only [List.map_cons, List.cons_append, live] at h
    split at h
    · rcases List.mem_cons.mp h with rfl | h
      · simp
      · exact (live_mem tm k ts x h).imp (List.mem_cons_of_mem _) id
    · exact (live_mem tm k ts x h).imp (List.mem_cons_of_mem _) id

theorem exit_ok (E : Env) (st : St) (hn : (tnames st.k).Nodup)
    (hu : ∀ t ∈ tnames st.k, st.tmps t ≠ .uninit) (h : st.alive = live st.tmps st.k) (hb : st.bad = false) :
    Inv E (exit st) := by
  have := leaveAll_ok st.k st [] hn hu (by rw [h, List.append_nil]) hb
  have e : exit st = ⟨.done, [], [], (leaveAll st.k st).tmps, false⟩ := by
    simp only [exit, this.1, this.2]
  rw [e]
  exact .done

theorem exit_vk {E : Env} {st : St} {sc} (v : VK E st.k sc) (h : st.alive = objs sc) (hb : st.bad = false) :
    Inv E (exit st) := by
  have ht := tnames_noTmp _ v.noTmp
  exact exit_ok E st (by rw [ht]; simp) (by rw [ht]; simp) (by rw [h, v.live]) hb

/-- What the compiler knows about a function body. -/
def envOf (p : B) : Env := ⟨labelsB [] p, declsB [] p, placesB [] p, declaredB p, targetsB p⟩

theorem envOf_ok {p : B} (h : Legal p) : (envOf p).Ok where
  uniq := by
    intro y u y' u' h1 h2 e
    have hn : ((declsB [] p).map (fun d => d.1.1)).Nodup := by rw [declsB_names]; exact h.vars
    have := List.inj_on_of_nodup_map hn h1 h2 e
    simpa using this
  lab := by
    intro l v hv
    have hv : (l, v) ∈ labelsB [] p := hv
    have : (labelsB [] p).find? (fun q => q.1 == l) = some (l, v) := by
      cases e : (labelsB [] p).find? (fun q => q.1 == l) with
      | none =>
        have := List.find?_eq_none.mp e _ hv
        simp at this
      | some q =>
        have h1 := List.mem_of_find?_eq_some e
        have h2 := List.find?_some e
        have := List.inj_on_of_nodup_map h.labels h1 hv (by simpa using h2)
        rw [this]
    simp only [envOf, labelVars, this, Option.map_some, Option.getD_some]
  dn := by
    intro y u hy
    have : y.1 ∈ (declsB [] p).map (fun d => d.1.1) := List.mem_map.mpr ⟨_, hy, rfl⟩
    rw [declsB_names] at this
    exact this
  tg := by
    intro l hl
    have := h.gotos l hl
    obtain ⟨q, hq, rfl⟩ := List.mem_map.mp this
    exact ⟨q.2, hq⟩

theorem envOf_wb {p : B} (hc : coveredB (declaredB p) p = true) (ha : accepted p = true) :
    WB (envOf p) [] p :=
  ⟨hc, ha, fun _ h => h, fun _ h => h, fun _ h => h, fun _ h => h⟩

theorem inv_start {p : B} (hc : coveredB (declaredB p) p = true) (ha : accepted p = true) :
    Inv (envOf p) (start p) :=
  .stable (.blk (envOf_wb hc ha) .nil)

/-- A step from a labelled statement. -/
theorem step_lab {E : Env} {p : B} {a : Act} {l : Nat} {s : S} {st st' : St}
    (h : next p false st a = some st') (hc : st.ctl = .stm (.lab l s)) :
    st' = { st with ctl := .stm s } := by
  rw [next, hc] at h
  simpa using h.symm

theorem inv_step_stm {p : B} (hl : Legal p) (hc : coveredB (declaredB p) p = true) (ha : accepted p = true)
    {a : Act} {st' : St} {ls s k sc tm} (w : WS (envOf p) sc s) (v : VK (envOf p) k sc) (hlab : isLab s = false)
    (hp : ls ≠ [] → plain s = true)
    (h : next (fixB p) false ⟨.stm (fixS ls s), k, objs sc, tm, false⟩ a = some st') : Inv (envOf p) st' := by
  have ok := envOf_ok hl
  cases s with
  | lab l s => simp [isLab] at hlab
  | eval a ts => exact absurd w.cov (by simp only [covered, Bool.false_eq_true, not_false_eq_true])
  | ctor x => exact absurd w.cov (by simp only [covered, Bool.false_eq_true, not_false_eq_true])
  | computed x => exact absurd w.cov (by simp only [covered, Bool.false_eq_true, not_false_eq_true])
  | expr e ts =>
    have hpl : (e, ts, objs sc) ∈ (envOf p).pl := w.pl _ (by simp [places])
    have hcov := w.cov
    simp only [covered, Bool.and_eq_true, decide_eq_true_eq, List.all_eq_true, Bool.not_eq_true',
      List.contains_eq_mem, decide_eq_false_iff_not] at hcov
    simp only [fixS, next, Option.some.injEq] at h
    subst h
    cases ls with
    | nil =>
      simp only [labs]
      exact Inv.tmpA (ts1 := []) v hpl hcov.1 hcov.2 (by simp)
    | cons l ls =>
      have : ts = [] := by
        have := hp (by simp)
        simpa only [plain, List.isEmpty_iff] using this
      subst this
      simp only [tdecls]
      exact .stable (.evB v hpl)
  | goto l =>
    cases ls with
    | cons l' ls =>
      simp only [fixS, labs, next, Option.some.injEq] at h
      subst h
      have := Stable.stm (ls := ls) w v (fun _ => by simp only [plain])
      simp only [fixS] at this
      exact .stable this
    | nil =>
      simp only [fixS, labs, next, jump, Option.map_eq_some_iff] at h
      obtain ⟨⟨c, k'⟩, hf, rfl⟩ := h
      obtain ⟨sc', hm, hs⟩ := findB_ok l p [] [] c k' (envOf_wb hc ha) .nil hf
      have hsub : ∀ x ∈ nms sc', x ∈ nms sc := by
        have hk := w.chk
        simp only [check, ok.lab l _ hm, List.all_eq_true, List.contains_eq_mem, decide_eq_true_eq] at hk
        exact hk
      have := jump_leave ok v hs.vk hsub ⟨.stm (.goto l), k, objs sc, tm, false⟩ rfl rfl
      simp only [this.1, this.2]
      exact .stable hs
  | ret =>
    cases ls with
    | cons l' ls =>
      simp only [fixS, labs, next, Option.some.injEq] at h
      subst h
      have := Stable.stm (ls := ls) w v (fun _ => by simp only [plain])
      simp only [fixS] at this
      exact .stable this
    | nil =>
      simp only [fixS, labs, next, Option.some.injEq] at h
      subst h
      exact exit_vk v rfl rfl
  | block b =>
    cases ls with
    | cons l' ls =>
      simp only [fixS, labs, next, Option.some.injEq] at h
      subst h
      have := Stable.stm (ls := ls) w v (fun _ => by simp only [plain])
      simp only [fixS] at this
      exact .stable this
    | nil =>
      simp only [fixS, labs, next, Option.some.injEq] at h
      subst h
      exact .stable (.blk w.block v)
  | ite c ts s t =>
    obtain ⟨rfl, ws, wt, hpl⟩ := w.ite
    rw [fix_ite c ws wt] at h
    cases ls with
    | cons l' ls =>
      simp only [labs, next, Option.some.injEq] at h
      subst h
      have := Stable.stm (ls := ls) w v (fun _ => by simp only [plain])
      rw [fix_ite c ws wt] at this
      exact .stable this
    | nil =>
      simp only [labs, next, Option.some.injEq] at h
      subst h
      exact .stable (Stable.ev (ls := []) (.iteT v ws wt) hpl)
  | loop c ts s =>
    obtain ⟨rfl, ws, hpl⟩ := w.loop
    rw [fix_loop c ws] at h
    cases ls with
    | cons l' ls =>
      simp only [labs, next, Option.some.injEq] at h
      subst h
      have := Stable.stm (ls := ls) w v (fun _ => by simp only [plain])
      rw [fix_loop c ws] at this
      exact .stable this
    | nil =>
      simp only [labs, next, Option.some.injEq] at h
      subst h
      exact .stable (Stable.ev (ls := []) (.loopT v ws hpl) hpl)

theorem WS.mkLoop {E sc a s} (w : WS E sc s) (h : (a, [], objs sc) ∈ E.pl) : WS E sc (.loop a [] s) := by
  obtain ⟨w1, w2, w3, w4, w5, w6⟩ := w
  refine ⟨?_, ?_, ?_, ?_, ?_, ?_⟩ <;> simp only [covered, check, decls, labels, places, targets] <;>
    first | assumption | skip
  intro d hd
  rcases List.mem_cons.mp hd with rfl | hd
  · exact h
  · exact w5 d hd

theorem WS.mkBlock {E sc b} (w : WB E sc b) : WS E sc (.block b) := by
  obtain ⟨w1, w2, w3, w4, w5, w6⟩ := w
  refine ⟨?_, ?_, ?_, ?_, ?_, ?_⟩ <;> simp only [covered, check, decls, labels, places, targets] <;> assumption

theorem stable_sub {E sc s k} (w : WS E sc s) (v : VK E k sc) : Stable E (.stm (sub s)) k sc := by
  have := Stable.stm (ls := []) (WS.mkBlock w.one) v (by simp)
  rw [sub_eq w]
  simpa only [fixS, labs] using this

theorem inv_step_nil {E : Env} {p : B} {a : Act} {st' : St} {k sc tm} (v : VK E k sc)
    (h : next p false ⟨.blk .nil, k, objs sc, tm, false⟩ a = some st') : Inv E st' := by
  cases v with
  | nil =>
    simp only [next, Option.some.injEq] at h
    subst h
    exact .done
  | seq v w =>
    simp only [next, Option.some.injEq] at h
    subst h
    exact .stable (.blk w v)
  | @decl k sc x o v hd =>
    simp only [next, Option.some.injEq] at h
    have hb := Stable.blk (WB.nil E sc) v
    simp only [fixB] at hb
    cases o with
    | true =>
      simp only [leave, destroy, objs_snoc, if_true] at h
      subst h
      exact .stable hb
    | false =>
      simp only [leave, objs_snoc, Bool.false_eq_true, if_false] at h
      subst h
      exact .stable hb
  | iteT v ws wt =>
    simp only [next, Option.some.injEq] at h
    subst h
    split
    · exact .stable (stable_sub ws v)
    · exact .stable (stable_sub wt v)
  | loopT v ws hpl =>
    simp only [next] at h
    split at h
    · simp only [Option.some.injEq] at h
      subst h
      exact .stable (stable_sub ws (.loopB v ws hpl))
    · simp only [Option.some.injEq] at h
      subst h
      have hb := Stable.blk (WB.nil E sc) v
      simp only [fixB] at hb
      exact .stable hb
  | @loopB k _ c s v ws hpl =>
    simp only [next, Option.some.injEq] at h
    subst h
    have := Stable.stm (ls := []) (ws.mkLoop hpl) v (by simp)
    rw [fix_loop c ws] at this
    exact .stable this

theorem inv_step {p : B} (hl : Legal p) (hc : coveredB (declaredB p) p = true) (ha : accepted p = true)
    {a : Act} {st st' : St} (hi : Inv (envOf p) st)
    (h : next (fixB p) false st a = some st') : Inv (envOf p) st' := by
  have ok := envOf_ok hl
  cases hi with
  | done => simp only [next, reduceCtorEq] at h
  | @pend1 b x k sc tm v hd w =>
    simp only [next, Option.some.injEq] at h
    subst h
    exact .pend2 v hd w
  | @pend2 b x k sc tm v hd w =>
    simp only [next] at h
    split at h
    · simp at h
    · have hx : (objs sc).contains x = false := by
        simp only [List.contains_eq_mem, decide_eq_false_iff_not]
        exact fun hx => fresh ok v hd (objs_sub sc x hx)
      simp only [construct, hx, Bool.false_eq_true, if_false, Option.some.injEq] at h
      subst h
      have := Stable.blk (WB.nil (envOf p) (sc ++ [(x, true)])) (VK.seq (VK.decl v hd) w)
      have := Inv.stable (tm := tm) this
      simpa only [fixB, objs_snoc, if_true] using this
  | @tmpA e ts1 ts2 k sc tm v hpl hnd hnm hnull =>
    cases ts2 with
    | nil =>
      simp only [tdecls, next, Option.some.injEq] at h
      subst h
      have := Inv.tmpB (ts1 := []) (ts2 := ts1) (tm := tm) v (by simpa using hpl) (by simpa using hnd)
        (by simpa using hnm) (by simp) hnull
      simp only [List.reverse_nil, List.map_nil, List.nil_append, v.live] at this
      simpa only [List.append_nil] using this
    | cons t ts2 =>
      simp only [tdecls, next, Option.some.injEq] at h
      subst h
      have e1 : ts1 ++ t :: ts2 = (ts1 ++ [t]) ++ ts2 := by simp
      have := Inv.tmpA (a := e) (ts1 := ts1 ++ [t]) (ts2 := ts2) (tm := upd tm t .null) v (by rw [← e1]; exact hpl)
        (by rw [← e1]; exact hnd) (by rw [← e1]; exact hnm) (by
          intro u hu
          by_cases e : u = t
          · subst e; exact upd_same _ _ _
          · rw [upd_ne _ _ e]
            exact hnull u (by simpa [e] using hu))
      rw [← e1] at this
      simpa only [List.reverse_append, List.reverse_cons, List.reverse_nil, List.nil_append, List.cons_append,
        List.map_cons] using this
  | @tmpB e ts1 ts2 k sc tm v hpl hnd hnm hset hnull =>
    have hk : (tnames ((ts1 ++ ts2).reverse.map Frame.tmp ++ k)) = (ts1 ++ ts2).reverse := by
      rw [tnames_map, tnames_noTmp _ v.noTmp, List.append_nil]
    have hlive : live tm (ts1.reverse.map Frame.tmp ++ k) = live tm ((ts1 ++ ts2).reverse.map Frame.tmp ++ k) := by
      rw [List.reverse_append, List.map_append, List.append_assoc,
        live_null tm _ ts2.reverse (fun t ht => hnull t (List.mem_reverse.mp ht))]
    have hex : Inv (envOf p) (exit ⟨.stm (.eval e ts2), .seq .nil :: ((ts1 ++ ts2).reverse.map .tmp ++ k),
        live tm (ts1.reverse.map .tmp ++ k), tm, false⟩) := by
      refine exit_ok _ _ ?_ ?_ ?_ rfl
      · simp only [tnames, hk]; exact List.nodup_reverse.mpr hnd
      · simp only [tnames, hk]
        intro t ht
        rcases List.mem_append.mp (List.mem_reverse.mp ht) with ht | ht
        · exact hset t ht
        · rw [hnull t ht]; simp
      · simp only [live, hlive]
    cases ts2 with
    | nil =>
      simp only [next] at h
      split at h
      · simp only [Option.some.injEq] at h
        subst h
        exact hex
      · simp only [Option.some.injEq] at h
        subst h
        have := Inv.tmpC (E := envOf p) (ts := ts1.reverse) (tm := tm) true v
          (List.nodup_reverse.mpr (by simpa using hnd)) (fun t ht => hset t (List.mem_reverse.mp ht))
        simpa only [List.append_nil, if_true, List.cons_append, List.nil_append] using this
    | cons t ts2 =>
      have e1 : ts1 ++ t :: ts2 = (ts1 ++ [t]) ++ ts2 := by simp
      have ht1 : t ∉ ts1 := by
        intro ht
        exact (List.nodup_append.mp hnd).2.2 t ht t (by simp) rfl
      have ht2 : t ∉ ts2 := (List.nodup_cons.mp (List.nodup_append.mp hnd).2.1).1
      have htl : t ∉ live tm (ts1.reverse.map Frame.tmp ++ k) := by
        intro ht
        rcases live_mem tm k _ t ht with ht | ht
        · exact ht1 (List.mem_reverse.mp ht)
        · rw [v.live] at ht
          exact hnm t (by simp) (v.names ok t (objs_sub sc t ht))
      simp only [next] at h
      split at h
      · simp only [Option.some.injEq] at h
        subst h
        exact hex
      · split at h
        · have hcon : (live tm (ts1.reverse.map Frame.tmp ++ k)).contains t = false := by
            simpa using htl
          simp only [construct, hcon, Bool.false_eq_true, if_false, Option.some.injEq] at h
          subst h
          have := Inv.tmpB (a := e) (ts1 := ts1 ++ [t]) (ts2 := ts2) (tm := upd tm t .set) v
            (by rw [← e1]; exact hpl) (by rw [← e1]; exact hnd) (by rw [← e1]; exact hnm) (by
              intro u hu
              by_cases e : u = t
              · subst e; rw [upd_same]; simp
              · rw [upd_ne _ _ e]
                exact hset u (by simpa [e] using hu)) (by
              intro u hu
              have hne : u ≠ t := fun e => ht2 (e ▸ hu)
              rw [upd_ne _ _ hne]
              exact hnull u (by simp [hu]))
          rw [← e1] at this
          have el : live (upd tm t .set) ((ts1 ++ [t]).reverse.map Frame.tmp ++ k)
              = t :: live tm (ts1.reverse.map Frame.tmp ++ k) := by
            simp only [List.reverse_append, List.reverse_cons, List.reverse_nil, List.nil_append, List.cons_append,
              List.map_cons, live, upd_same, if_true, List.cons.injEq, true_and]
            refine live_congr _ _ _ ?_
            intro u hu
            rw [tnames_map, tnames_noTmp _ v.noTmp, List.append_nil] at hu
            have hne : u ≠ t := fun e => ht1 (e ▸ List.mem_reverse.mp hu)
            rw [upd_ne _ _ hne]
          rw [el] at this
          exact this
        · simp only [Option.some.injEq] at h
          subst h
          have := Inv.tmpB (a := e) (ts1 := ts1 ++ [t]) (ts2 := ts2) (tm := tm) v
            (by rw [← e1]; exact hpl) (by rw [← e1]; exact hnd) (by rw [← e1]; exact hnm) (by
              intro u hu
              rcases List.mem_append.mp hu with hu | hu
              · exact hset u hu
              · rw [List.mem_singleton.mp hu, hnull t (by simp)]; simp) (fun u hu => hnull u (by simp [hu]))
          rw [← e1] at this
          have el : live tm ((ts1 ++ [t]).reverse.map Frame.tmp ++ k)
              = live tm (ts1.reverse.map Frame.tmp ++ k) := by
            simp only [List.reverse_append, List.reverse_cons, List.reverse_nil, List.nil_append, List.cons_append,
              List.map_cons, live]
            rw [hnull t (by simp), if_neg (by simp)]
          rw [el] at this
          exact this
  | @tmpC ts k sc tm q v hnd hset =>
    cases q with
    | true =>
      simp only [next, if_true, List.cons_append, List.nil_append, Option.some.injEq] at h
      subst h
      have := Inv.tmpC (E := envOf p) (ts := ts) (tm := tm) false v hnd hset
      simpa only [Bool.false_eq_true, if_false, List.nil_append] using this
    | false =>
      cases ts with
      | nil =>
        simp only [List.map_nil, List.nil_append, Bool.false_eq_true, if_false, v.live] at h
        exact inv_step_nil v h
      | cons t ts =>
        simp only [next, Bool.false_eq_true, if_false, List.map_cons, List.cons_append, List.nil_append,
          Option.some.injEq, leave] at h
        rw [List.nodup_cons] at hnd
        have hl' : ∀ tm', (∀ u ≠ t, tm' u = tm u) → live tm (ts.map Frame.tmp ++ k) = live tm' (ts.map Frame.tmp ++ k) := by
          intro tm' htm
          refine live_congr _ _ _ ?_
          intro u hu
          rw [tnames_map, tnames_noTmp _ v.noTmp, List.append_nil] at hu
          exact (htm u (fun e => hnd.1 (e ▸ hu))).symm
        have hs' : ∀ u ∈ ts, upd tm t .uninit u ≠ .uninit := by
          intro u hu
          have hne : u ≠ t := fun e => hnd.1 (e ▸ hu)
          rw [upd_ne _ _ hne]
          exact hset u (by simp [hu])
        have := Inv.tmpC (E := envOf p) (ts := ts) (tm := upd tm t .uninit) false v hnd.2 hs'
        simp only [Bool.false_eq_true, if_false, List.nil_append] at this
        rw [← hl' _ (fun u hu => upd_ne _ _ hu)] at this
        simp only [live] at h
        cases e : tm t with
        | uninit => exact absurd e (hset t (by simp))
        | null =>
          simp only [e, reduceCtorEq, if_false] at h
          subst h
          exact this
        | set =>
          simp only [e, if_true, destroy] at h
          subst h
          exact this
  | @stable c k sc tm hs =>
    cases hs with
    | @stm ls s _ _ w v hp =>
      obtain ⟨ls', s', e, hlab, w', hp'⟩ := unlab s ls w hp
      rw [e] at h
      exact inv_step_stm hl hc ha w' v hlab hp' h
    | @ev ls e _ _ v hpl =>
      cases ls with
      | nil =>
        simp only [labs, next] at h
        split at h
        · simp only [Option.some.injEq] at h
          subst h
          exact exit_vk v rfl rfl
        · simp only [Option.some.injEq] at h
          subst h
          have := Stable.blk (WB.nil (envOf p) sc) v
          simp only [fixB] at this
          exact .stable this
      | cons l ls =>
        simp only [labs, next, Option.some.injEq] at h
        subst h
        exact .stable (.ev v hpl)
    | @evB ls e _ _ v hpl =>
      simp only [next, Option.some.injEq] at h
      subst h
      have := VK.seq v (WB.nil (envOf p) sc)
      simp only [fixB] at this
      exact .stable (.ev this hpl)
    | @blk b _ _ w v =>
      cases b with
      | nil =>
        simp only [fixB] at h
        exact inv_step_nil v h
      | tdecl t b => exact absurd w.cov (by simp only [coveredB, Bool.false_eq_true, not_false_eq_true])
      | stmt s b =>
        obtain ⟨ws, wb⟩ := w.stmt
        rw [fixB_stmt ws] at h
        simp only [next, Option.some.injEq] at h
        subst h
        exact .stable (.stm ws (.seq v wb) (by simp))
      | decl ls x o b =>
        obtain ⟨wb, hd, _⟩ := w.decl
        cases o with
        | true =>
          simp only [fixB, if_true, next, Option.some.injEq] at h
          subst h
          exact .pend1 v hd wb
        | false =>
          simp only [fixB, Bool.false_eq_true, if_false, next, Option.some.injEq] at h
          subst h
          have := Inv.stable (tm := tm) (Stable.blk wb (.decl v hd))
          simpa only [objs_snoc, Bool.false_eq_true, if_false] using this

theorem inv_exec {p : B} (hl : Legal p) (hc : coveredB (declaredB p) p = true) (ha : accepted p = true)
    {st : St} (h : Exec p false st) : Inv (envOf p) st :=
  Reach.inv (Inv (envOf p)) (inv_start hc ha) (fun _ _ _ hi hn => inv_step hl hc ha hi hn) h

/-- The temporaries that exist, the newest first. -/
theorem live_tmps (tm : Nat → T) (k : List Frame) : ∀ ts : List Nat,
    live tm (ts.map .tmp ++ k) = ts.filter (fun t => tm t = .set) ++ live tm k
  | [] => rfl
  | t :: ts => by
    simp only [List.map_cons, List.cons_append, live, List.filter_cons, live_tmps tm k ts, decide_eq_true_eq]
    split <;> rfl

/-- An execution does not get stuck. -/
theorem inv_progress {p : B} (hl : Legal p) {st : St} (hi : Inv (envOf p) st) (hd : st.ctl ≠ .done) :
    (next (fixB p) false st .go).isSome = true := by
  have ok := envOf_ok hl
  have hnil : ∀ k al tm b, (next (fixB p) false ⟨.blk .nil, k, al, tm, b⟩ .go).isSome = true := by
    intro k al tm b
    cases k with
    | nil => rfl
    | cons f k => cases f <;> rfl
  cases hi with
  | done => exact absurd rfl hd
  | pend1 => rfl
  | pend2 => rfl
  | @tmpA e ts1 ts2 => cases ts2 <;> rfl
  | @tmpB e ts1 ts2 => cases ts2 <;> rfl
  | tmpC q => exact hnil _ _ _ _
  | @stable c k sc tm hs =>
    cases hs with
    | @evB ls => rfl
    | @ev ls => cases ls <;> rfl
    | @blk b _ _ w v =>
      cases b with
      | nil => simp only [fixB]; exact hnil _ _ _ _
      | tdecl t b => exact absurd w.cov (by simp only [coveredB, Bool.false_eq_true, not_false_eq_true])
      | stmt s b => rw [fixB_stmt w.stmt.1]; rfl
      | decl ls x o b => cases o <;> simp [fixB, next]
    | @stm ls s _ _ w v hp =>
      obtain ⟨ls', s', e, hlab, w', hp'⟩ := unlab s ls w hp
      rw [e]
      cases s' with
      | lab l s => simp [isLab] at hlab
      | eval a ts => exact absurd w'.cov (by simp only [covered, Bool.false_eq_true, not_false_eq_true])
      | ctor x => exact absurd w'.cov (by simp only [covered, Bool.false_eq_true, not_false_eq_true])
      | computed x => exact absurd w'.cov (by simp only [covered, Bool.false_eq_true, not_false_eq_true])
      | expr e ts => simp only [fixS]; rfl
      | ret => cases ls' <;> simp [fixS, labs, next]
      | block b => cases ls' <;> simp [fixS, labs, next]
      | ite c ts s t => cases ls' <;> simp [fixS, labs, next]
      | loop c ts s => cases ls' <;> simp [fixS, labs, next]
      | goto l =>
        cases ls' with
        | cons _ _ => simp [fixS, labs, next]
        | nil =>
          simp only [fixS, labs, next, jump, Option.isSome_map]
          obtain ⟨v', hv'⟩ := ok.tg l (w'.tg l (by simp [targets]))
          exact findB_some l p [] [] (List.mem_map.mpr ⟨_, hv', rfl⟩)

end ObjLife
