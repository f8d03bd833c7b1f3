import Verif.Proof.GenLayout
/-!
C91: a generic structure or union has the same size, alignment and member
offsets in code that knows its type arguments, where it is an ordinary C type,
and in code that does not, where they are computed when the program runs.
-/
namespace GenLayout
open Verif

/-- `instances` does not change once a type is declared. -/
theorem instances_old (D : Nat → Decl) : ∀ n j, j < n →
    instances D n j = instances D (j + 1) j
  | 0, j, h => by omega
  | n + 1, j, h => by
    by_cases e : j = n
    · rw [e]
    · rw [instances, upd_ne _ _ e]
      exact instances_old D n j (by omega)

mutual
theorem inst_old (D : Nat → Decl) (U U' : Nat → List G → G) (k : Nat) (vs : Nat → Prop)
    (σ : Nat → G) (h : ∀ j < k, U j = U' j) (hi : Tab D k U') :
    ∀ t : Ty, OkTy D k vs t → inst U σ t = inst U' σ t
  | .var i, _ => by simp only [inst]
  | .base _ _, _ => by simp only [inst]
  | .arr t _, ok => by
    simp only [OkTy] at ok
    simp only [inst, inst_old D U U' k vs σ h hi t ok.1]
  | .agg j args, ok => by
    simp only [OkTy] at ok
    simp only [inst, h j ok.1]
    exact hi.indep j ok.1 _ _ (instArgs_old D U U' k vs σ h hi _ args ok.2)
theorem instArgs_old (D : Nat → Decl) (U U' : Nat → List G → G) (k : Nat) (vs : Nat → Prop)
    (σ : Nat → G) (h : ∀ j < k, U j = U' j) (hi : Tab D k U') :
    ∀ (bs : List Bool) (ts : Tys), OkArgs D k vs bs ts →
      ∀ i : Nat, bs[i]? = some true → (instArgs U σ ts)[i]? = (instArgs U' σ ts)[i]?
  | bs, .nil, _, i, _ => by simp only [instArgs]
  | [], .cons _ _, ok, _, _ => by simp only [OkArgs] at ok
  | b :: bs, .cons t ts, ok, 0, hb => by
    simp only [OkArgs] at ok
    simp only [List.getElem?_cons_zero, Option.some.injEq] at hb
    simp only [instArgs, List.getElem?_cons_zero, inst_old D U U' k vs σ h hi t (ok.1 hb).1]
  | b :: bs, .cons t ts, ok, i + 1, hb => by
    simp only [OkArgs] at ok
    simp only [List.getElem?_cons_succ] at hb
    simp only [instArgs, List.getElem?_cons_succ]
    exact instArgs_old D U U' k vs σ h hi bs ts ok.2 i hb
end

/-- The layout rule of C used as the specification: `leastMul a x` is the
least multiple of `a` that is not below `x`. -/
theorem C91_leastMul (a x : Nat) (h : 0 < a) :
    a ∣ leastMul a x ∧ x ≤ leastMul a x ∧ ∀ n, a ∣ n → x ≤ n → leastMul a x ≤ n :=
  ⟨leastMul_dvd a x, le_leastMul x h, fun _ => leastMul_le h⟩

/-- For any number of generic types, nested in any way, any function with type
variables `vs` called with the types `σ`, and any type `t` in it: the size and
alignment computed in the function are those the C compiler gives to the type
with the arguments filled in. Missing: bit-fields, `aligned` members, empty
aggregates, types of size 0, arithmetic overflow. -/
theorem C91_size_partial (D : Nat → Decl) (n : Nat) (ok : OkProg D n)
    (vs : Nat → Prop) (σ : Nat → G) (env : Nat → Option Lay)
    (hσ : ∀ i, vs i → Good (σ i)) (henv : ∀ i, vs i → env i = some (cLay (σ i)))
    (t : Ty) (ht : OkTy D n vs t) :
    dynLay D n env t = some (cLay (inst (instances D n) σ t)) :=
  have ⟨T, TF⟩ := tabs D n ok
  lay_eq T TF _ (fun _ => rfl) vs σ env hσ henv t ht

/-- In the same setting, for each instance of a generic structure or union:
the offsets of its members used by the function are those of the C compiler,
so a member written by code that knows the type arguments is read at the same
address by code that does not. Missing: as in C91_size_partial. -/
theorem C91_offsets_partial (D : Nat → Decl) (n : Nat) (ok : OkProg D n)
    (vs : Nat → Prop) (σ : Nat → G) (env : Nat → Option Lay)
    (hσ : ∀ i, vs i → Good (σ i)) (henv : ∀ i, vs i → env i = some (cLay (σ i)))
    (j : Nat) (args : Tys) (ht : OkTy D n vs (.agg j args)) :
    dynOffs D n env j args = some (cOffsets (inst (instances D n) σ (.agg j args))) := by
  obtain ⟨T, TF⟩ := tabs D n ok
  have ok' := ht
  simp only [OkTy] at ht
  unfold dynOffs
  split
  · rw [layArgs_eq T TF (cCompiler D n) (fun _ => rfl) vs σ env hσ henv _ args ht.2, Option.bind_some,
      TF.call j ht.1 _ (instArgs_good T vs σ hσ _ args ht.2)]
    simp only [Option.map_some, inst]
  · rename_i hd
    rw [inst_static T vs (fun _ => void) σ (.agg j args) ok'
      (by simpa only [dyn, Bool.not_eq_true] using hd)]

/-- The members of a generic structure or union, as seen by code that does not
know its type arguments: each is at a multiple of its alignment, inside the
object, and no two members of a structure overlap; the alignment of the object
is a multiple of that of the member and its size a multiple of its alignment, so
that this is so for each element of an array too. -/
theorem C91_members_partial (D : Nat → Decl) (n : Nat) (ok : OkProg D n)
    (vs : Nat → Prop) (σ : Nat → G) (env : Nat → Option Lay)
    (hσ : ∀ i, vs i → Good (σ i)) (henv : ∀ i, vs i → env i = some (cLay (σ i)))
    (j : Nat) (args : Tys) (ht : OkTy D n vs (.agg j args)) :
    ∃ (os : List Nat) (L : Lay), dynOffs D n env j args = some os ∧
      dynLay D n env (.agg j args) = some L ∧ os.length = (D j).members.length ∧
      L.align ∣ L.size ∧
      ∀ (i : Nat) (m : Member) (o : Nat), (D j).members[i]? = some m → os[i]? = some o →
        ∃ l : Lay, l = cLay (inst (instances D n)
            (fun k => (instArgs (instances D n) σ args)[k]?.getD void) m.ty) ∧
          l.align ∣ o ∧ o + l.size ≤ L.size ∧ l.align ∣ L.align ∧
          ((D j).union = false → ∀ k o', i < k → os[k]? = some o' → o + l.size ≤ o') := by
  refine ⟨_, _, C91_offsets_partial D n ok vs σ env hσ henv j args ht,
    C91_size_partial D n ok vs σ env hσ henv _ ht, ?_⟩
  obtain ⟨T, -⟩ := tabs D n ok
  simp only [OkTy] at ht
  have hgood : Good (inst (instances D n) σ (.agg j args)) :=
    inst_good T vs σ hσ (.agg j args) (by simpa only [OkTy] using ht)
  have okj := ok j ht.1
  have Tj := (tabs D j (fun k hk => ok k (by omega))).1
  have hty : inst (instances D n) σ (.agg j args) =
      concrete (instances D j) (D j) (instArgs (instances D n) σ args) := by
    simp only [inst, instances_old D n j ht.1, instances, upd_same]
  rw [hty] at hgood ⊢
  simp only [concrete, Good] at hgood ⊢
  -- a member of the declaration is a member of the C type
  have hmem : ∀ (ms : List Member) (i : Nat) (m : Member), ms[i]? = some m →
      (mlays (instMembers (instances D j)
        (fun k => (instArgs (instances D n) σ args)[k]?.getD void) ms))[i]? =
      some (cLay (inst (instances D j)
        (fun k => (instArgs (instances D n) σ args)[k]?.getD void) m.ty)) := by
    intro ms
    induction ms with
    | nil => intro i m h; simp at h
    | cons m' ms ih =>
      intro i m h
      cases i with
      | zero =>
        simp only [List.getElem?_cons_zero, Option.some.injEq] at h
        subst h
        simp only [instMembers, mlays, List.getElem?_cons_zero]
      | succ i =>
        simp only [List.getElem?_cons_succ] at h
        simp only [instMembers, mlays, List.getElem?_cons_succ]
        exact ih i m h
  have hlen : ∀ ms : List Member, (mlays (instMembers (instances D j)
        (fun k => (instArgs (instances D n) σ args)[k]?.getD void) ms)).length = ms.length := by
    intro ms
    induction ms with
    | nil => rfl
    | cons m ms ih => simp only [instMembers, mlays, List.length_cons, ih]
  have hold : ∀ m ∈ (D j).members, inst (instances D n)
      (fun k => (instArgs (instances D n) σ args)[k]?.getD void) m.ty =
      inst (instances D j) (fun k => (instArgs (instances D n) σ args)[k]?.getD void) m.ty := by
    intro m hm
    refine inst_old D _ _ j _ _ ?_ Tj m.ty (okj.2 m hm).2.2
    intro k hk
    rw [instances_old D n k (by omega), instances_old D j k hk]
  generalize hms : instMembers (instances D j)
    (fun k => (instArgs (instances D n) σ args)[k]?.getD void) (D j).members = ms at hgood ⊢
  have hp2 := aligns_pow2 ms hgood.2
  have hp := pow2_pos hp2
  cases hu : (D j).union with
  | false =>
    have hend : cEnd (8 * 0) ms ≤ 8 * ((cEnd 0 ms + 7) / 8) := by
      rw [Nat.mul_zero]; omega
    have hsz : (cEnd 0 ms + 7) / 8 ≤ cSize (.agg false ms) := by
      simp only [cSize, Bool.false_eq_true, if_false]
      exact le_leastMul _ hp
    obtain ⟨p1, p2, -⟩ := placed_get _ _ _ _
      (placed_cOffs ms 0 _ hgood.2 (Nat.le_trans hend (Nat.mul_le_mul_left 8 hsz)))
    rw [Nat.mul_zero] at p1 p2
    simp only [cOffsets, cLay]
    refine ⟨by rw [← p1, ← hms, hlen], ?_, ?_⟩
    · simp only [cAlign, cSize, Bool.false_eq_true, if_false]
      exact leastMul_dvd _ _
    · intro i m o hm ho
      have hl := hmem _ i m hm
      rw [hms] at hl
      obtain ⟨-, q2, q3, q4⟩ := p2 i _ o hl ho
      refine ⟨_, rfl, ?_⟩
      have hin : m ∈ (D j).members := List.mem_of_getElem? hm
      rw [hold m hin]
      exact ⟨q2, q3, align_get ms i _ hgood.2 hl, fun _ => q4⟩
  | true =>
    have hz : ∀ ms : GMs, (cOffsets.zeros ms).length = (mlays ms).length ∧
        ∀ i o : Nat, (cOffsets.zeros ms)[i]? = some o → o = 0 := by
      intro ms
      rw [← zeros_mlays]
      refine ⟨by simp, ?_⟩
      intro i o h
      simp only [List.getElem?_map, Option.map_eq_some_iff] at h
      obtain ⟨_, _, h⟩ := h
      exact h.symm
    simp only [cOffsets, cLay]
    refine ⟨by rw [(hz ms).1, ← hms, hlen], ?_, ?_⟩
    · simp only [cAlign, cSize, if_true]
      exact leastMul_dvd _ _
    · intro i m o hm ho
      have hl := hmem _ i m hm
      rw [hms] at hl
      refine ⟨_, rfl, ?_⟩
      have hin : m ∈ (D j).members := List.mem_of_getElem? hm
      rw [hold m hin, (hz ms).2 i o ho]
      refine ⟨Nat.dvd_zero _, ?_, align_get ms i _ hgood.2 hl, fun h => by simp at h⟩
      have h1 := union_get ms i _ hl
      have h2 := le_leastMul (cMax ms) hp
      simp only [cLay] at h1
      simp only [cSize, if_true, Nat.zero_add]
      omega

/-! A concrete program: `forall(T, U) struct Pair { T a; U b; }`,
`forall(T &, U) union Either { T * p; Pair(char, U) q[2]; U u; }`,
`forall(A) struct Node { char tag; Either(A, Pair(A, short)) e; A x; }`. -/

def char_ : Ty := .base 1 1
def short_ : Ty := .base 2 2
def exD : Nat → Decl
  | 0 => ⟨false, [true, true], [{ ty := .var 0 }, { ty := .var 1 }]⟩
  | 1 => ⟨true, [false, true], [{ ty := .base 8 8 },
      { ty := .arr (.agg 0 (.cons char_ (.cons (.var 1) .nil))) 2 }, { ty := .var 1 }]⟩
  | _ => ⟨false, [true], [{ ty := char_ },
      { ty := .agg 1 (.cons (.var 0) (.cons (.agg 0 (.cons (.var 0) (.cons short_ .nil))) .nil)) },
      { ty := .var 0 }]⟩

theorem exD_ok : OkProg exD 3 := by
  have h1 : ∃ m, 1 = 2 ^ m := ⟨0, rfl⟩
  have h2 : ∃ m, 2 = 2 ^ m := ⟨1, rfl⟩
  have h8 : ∃ m, 8 = 2 ^ m := ⟨3, rfl⟩
  intro k hk
  have : k = 0 ∨ k = 1 ∨ k = 2 := by omega
  rcases this with rfl | rfl | rfl <;>
    simp [OkDecl, exD, OkTy, OkArgs, char_, short_, h1, h2, h8, isArr]

/-- A function `forall(B)` that uses `Node(B)`, called with `double`. -/
example : dynLay exD 3 (fun _ => some ⟨8, 8⟩) (.agg 2 (.cons (.var 0) .nil)) =
    some (cLay (inst (instances exD 3) (fun _ => .base 8 8) (.agg 2 (.cons (.var 0) .nil)))) :=
  C91_size_partial exD 3 exD_ok (· = 0) (fun _ => .base 8 8) _
    (fun _ _ => by simp only [Good]; exact ⟨by omega, 3, rfl⟩) (fun _ _ => rfl) _
    (by simp [OkTy, OkArgs, exD, isArr])

example : dynLay exD 3 (fun _ => some ⟨8, 8⟩) (.agg 2 (.cons (.var 0) .nil)) = some ⟨64, 8⟩ ∧
    dynOffs exD 3 (fun _ => some ⟨8, 8⟩) 2 (.cons (.var 0) .nil) = some [0, 8, 56] := by
  decide +kernel

/-! ## Where it fails -/

/-- `forall(T) struct Tag {};  forall(T) struct S { Tag(T) tag; T val; }` -/
def tagD : Nat → Decl
  | 0 => ⟨false, [true], []⟩
  | _ => ⟨false, [true], [{ ty := .agg 0 (.cons (.var 0) .nil) }, { ty := .var 0 }]⟩

/-- C91 fails: an empty generic structure has size 1 in code that does not know
its argument and size 0 in code that does, so in `S` the member after it is at
offset 4 for the one and at 0 for the other when `T` is `int`. -/
theorem C91_empty_violated :
    dynOffs tagD 2 (fun _ => some ⟨4, 4⟩) 1 (.cons (.var 0) .nil) = some [0, 4] ∧
    cOffsets (inst (instances tagD 2) (fun _ => .base 4 4) (.agg 1 (.cons (.var 0) .nil))) =
      [0, 0] := by
  decide +kernel

/-- `forall(T) struct S { unsigned a : 4; unsigned b : 4; T val; }` -/
def bitD : Nat → Decl
  | _ => ⟨false, [true], [{ ty := .base 4 4, bits := some 4 }, { ty := .base 4 4, bits := some 4 },
      { ty := .var 0 }]⟩

/-- C91 fails: the layout function gives a bit-field the whole size of its type.
In a structure with two bit-fields of 4 bits before a `T`, the `T` is at offset 8
in code that does not know `T`, and at 4 in code that does, when `T` is `int`. -/
theorem C91_bitfield_violated :
    dynOffs bitD 1 (fun _ => some ⟨4, 4⟩) 0 (.cons (.var 0) .nil) = some [0, 4, 8] ∧
    cOffsets (inst (instances bitD 1) (fun _ => .base 4 4) (.agg 0 (.cons (.var 0) .nil))) =
      [0, 0, 4] := by
  decide +kernel

/-- `forall(T) struct S { T val; char c __attribute__(( aligned(16) )); }` -/
def alD : Nat → Decl
  | _ => ⟨false, [true], [{ ty := .var 0 }, { ty := char_, aligned := 16 }]⟩

/-- C91 fails: the layout function ignores the `aligned` attribute of a member. -/
theorem C91_aligned_violated :
    dynOffs alD 1 (fun _ => some ⟨4, 4⟩) 0 (.cons (.var 0) .nil) = some [0, 4] ∧
    cOffsets (inst (instances alD 1) (fun _ => .base 4 4) (.agg 0 (.cons (.var 0) .nil))) =
      [0, 16] := by
  decide +kernel

/-- `forall(T) union U { T a; };  forall(T) struct S { U(T) u; char c; }` -/
def unD : Nat → Decl
  | 0 => ⟨true, [true], [{ ty := .var 0 }]⟩
  | _ => ⟨false, [true], [{ ty := .agg 0 (.cons (.var 0) .nil) }, { ty := char_ }]⟩

/-- C91 fails: the layout function of a union starts with size 1, so a union whose
members all have size 0 (an empty structure in GNU C) has size 1 in code that does not
know this. -/
theorem C91_union_violated :
    dynOffs unD 2 (fun _ => some ⟨0, 1⟩) 1 (.cons (.var 0) .nil) = some [0, 1] ∧
    cOffsets (inst (instances unD 2) (fun _ => .base 0 1) (.agg 1 (.cons (.var 0) .nil))) =
      [0, 0] := by
  decide +kernel

/-- A type argument that is an array of a polymorphic type: `Pair(T[2], char)` in a
function with parameter `T`. C91 fails: the translation refers to a variable that is not
declared, so the program does not compile. -/
theorem C91_array_violated :
    dynLay exD 3 (fun _ => some ⟨4, 4⟩)
      (.agg 0 (.cons (.arr (.var 0) 2) (.cons char_ .nil))) = none ∧
    cLay (inst (instances exD 3) (fun _ => .base 4 4)
      (.agg 0 (.cons (.arr (.var 0) 2) (.cons char_ .nil)))) = ⟨12, 4⟩ := by
  decide +kernel

/-- The buffer of a local variable whose type is not known is at a multiple of its
alignment, wherever the C compiler puts the buffer, if the alignment is at most 8.
Missing: larger alignments, for which it fails. -/
theorem C91_buffer_partial (g : G) (hg : Good g) (hle : cAlign g ≤ 8) (addr : Nat)
    (h : bufferAlign ∣ addr) : cAlign g ∣ addr := by
  refine Nat.dvd_trans ?_ h
  obtain ⟨m, hm⟩ := align_pow2 g hg
  rw [hm] at hle ⊢
  have : m ≤ 3 := (Nat.pow_le_pow_iff_right (a := 2) (by omega)).mp hle
  exact Nat.pow_dvd_pow 2 this

/-- C91 fails: a local variable of a type with alignment 64 may be put at an address
that is not a multiple of 64, for its buffer only has to be at a multiple of 8. -/
theorem C91_buffer_violated : ∃ (g : G) (addr : Nat), Good g ∧ cAlign g = 64 ∧
    bufferAlign ∣ addr ∧ ¬ cAlign g ∣ addr :=
  ⟨.base 64 64, 72, by simp only [Good]; exact ⟨by omega, 6, rfl⟩, rfl, ⟨9, rfl⟩, by decide⟩

end GenLayout
