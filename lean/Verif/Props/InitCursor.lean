import Verif.Proof.InitCursor
/-!
# C94: each initializer is resolved for the subobject it initializes
-/
namespace InitCursor

/-- C94 for types without tuples, empty aggregates and unnamed bit-fields
(`covered`) and initializers (`tameDecl`) in which a braced list is for a member
or element of the current object itself, an aggregate initialized by an expression is
followed by a designation or nothing, a designated path longer than one does
not end at the first member of a structure, and an index designation comes when
the array is not at its end and the element before is complete: for every
initializer that C allows, every expression is offered exactly the subobjects
that it may initialize by the rules of C, with their types, and every braced
list is for the object that C says. -/
theorem C94_initializers_partial (t : Ty) (i : Init) (obs : List Ob) (hc : covered t = true)
    (ht : tameDecl t i = true) (h : specDecl t i = some obs) : resolve t i = some obs :=
  resolve_sync hc ht h

/-! ## Cases that meet the hypotheses -/

/-- Items without designation. -/
def plain : List Init → Items
  | [] => .nil
  | i :: is => .cons [] i (plain is)

def fields : List Ty → Mems
  | [] => .nil
  | t :: ts => .cons .field t (fields ts)

def int : Ty := .sc 0
def double : Ty := .sc 1
def pointer : Ty := .sc 2
/-- `struct A { int x; double y; }` -/
def A : Ty := .agg .struct (fields [int, double])
/-- `struct B { struct A a0, a1; }` -/
def B : Ty := .agg .struct (fields [A, A])
/-- `struct C { int arr[3]; struct B b; union { int i; struct A a; } u; }` -/
def C : Ty := .agg .struct (fields [.arr 3 int, B, .agg .union (fields [int, A])])

/-- `struct C c = { 2, 3, 4, 5, 6., { 7, 8. }, 9 }` is not tame (the list is in `b`), but this is:
`struct C c = { 2, 3, 4, { 5, 6., { 7, 8. } }, .b.a0.y = 1., 2, .u.a = a }`. -/
def cInit : Init :=
  .list (.cons [] (.expr 0) <| .cons [] (.expr 0) <| .cons [] (.expr 0) <|
    .cons [] (.list (plain [.expr 1, .expr 0, .list (plain [.expr 0, .expr 0])])) <|
    .cons [1, 0, 1] (.expr 0) <| .cons [] (.expr 1) <| .cons [2, 1] (.expr 0) .nil)

example : covered C = true ∧ tameDecl C cInit = true := ⟨rfl, rfl⟩
example : specDecl C cInit = some
    [.brace C, .expr [([0, 0], int)], .expr [([0, 1], int)], .expr [([0, 2], int)],
     .brace B, .expr [([0], A), ([0, 0], int)], .expr [([0, 1], double)],
     .brace A, .expr [([0], int)], .expr [([1], double)],
     .expr [([1, 0, 1], double)], .expr [([1, 1], A), ([1, 1, 0], int)],
     .expr [([2, 1], A), ([2, 1, 0], int)]] := rfl

/-- `int w[6] = { [1] = 1, 2, [4] = 4 }` (tests/designations.cfa). -/
example : tameDecl (.arr 6 int) (.list (.cons [1] (.expr 0) <| .cons [] (.expr 0) <| .cons [4] (.expr 0) .nil)) =
    true := rfl

/-- `struct A a[10] = { [2].y = 34., [2].x = 35, [0].x = 36 }` is like it. -/
example : tameDecl (.arr 10 A)
    (.list (.cons [2, 1] (.expr 0) <| .cons [2, 1] (.expr 0) <| .cons [0, 1] (.expr 0) .nil)) = true := rfl

/-! ## Where it fails -/

/-- C94 fails: after an expression that initializes a whole structure the
compiler continues inside that structure.  In `struct B b @= { a, a }` the second
value is offered only `a0.y`, a `double`; C says it is for `a1`. -/
theorem C94_wholeStructure_violated :
    specDecl B (.list (plain [.expr 0, .expr 0])) =
      some [.brace B, .expr [([0], A), ([0, 0], int)], .expr [([1], A), ([1, 0], int)]] ∧
    resolve B (.list (plain [.expr 0, .expr 0])) =
      some [.brace B, .expr [([0], A), ([0, 0], int)], .expr [([0, 1], double)]] :=
  ⟨rfl, rfl⟩

/-- C94 fails: an index designation keeps the iterator of the element before.
In `struct A a[3] @= { 1, [2] = v }` the designated value is offered only
`a[2].y`; C says it is for `a[2]`. -/
theorem C94_staleElement_violated :
    specDecl (.arr 3 A) (.list (.cons [] (.expr 1) (.cons [2] (.expr 0) .nil))) =
      some [.brace (.arr 3 A), .expr [([0], A), ([0, 0], int)], .expr [([2], A), ([2, 0], int)]] ∧
    resolve (.arr 3 A) (.list (.cons [] (.expr 1) (.cons [2] (.expr 0) .nil))) =
      some [.brace (.arr 3 A), .expr [([0], A), ([0, 0], int)], .expr [([2, 1], double)]] :=
  ⟨rfl, rfl⟩

/-- C94 fails: after the last element of an array there is no iterator, and an
index designation uses the null pointer: the compiler crashes for
`int a[3] @= { [2] = 1, [0] = 2 }`. -/
theorem C94_lastElement_violated :
    specDecl (.arr 3 int) (.list (.cons [2] (.expr 0) (.cons [0] (.expr 0) .nil))) =
      some [.brace (.arr 3 int), .expr [([2], int)], .expr [([0], int)]] ∧
    resolve (.arr 3 int) (.list (.cons [2] (.expr 0) (.cons [0] (.expr 0) .nil))) = none :=
  ⟨rfl, rfl⟩

/-- C94 fails: a braced list is always taken for a member of the current
object, also where the next subobject is inside of it.  In
`struct B b @= { 1, { 2. } }` the list is for `a0.y` by the rules of C; the
compiler resolves it for a `struct A`. -/
theorem C94_innerBraces_violated :
    specDecl B (.list (plain [.expr 1, .list (plain [.expr 0])])) =
      some [.brace B, .expr [([0], A), ([0, 0], int)], .brace double, .expr [([], double)]] ∧
    resolve B (.list (plain [.expr 1, .list (plain [.expr 0])])) =
      some [.brace B, .expr [([0], A), ([0, 0], int)], .brace A, .expr [([0], int)]] :=
  ⟨rfl, rfl⟩

/-- C94 fails: the same with a designation, `struct B b @= { .a1.y = { 2. } }`. -/
theorem C94_designatedBraces_violated :
    specDecl B (.list (.cons [1, 1] (.list (plain [.expr 0])) .nil)) =
      some [.brace B, .brace double, .expr [([], double)]] ∧
    resolve B (.list (.cons [1, 1] (.list (plain [.expr 0])) .nil)) =
      some [.brace B, .brace A, .expr [([0], int)]] :=
  ⟨rfl, rfl⟩

/-- C94 fails: a designation of the first member of an inner structure also
offers the whole structure: in `struct B b @= { .a1.x = v }` the value may be a
`struct A`. -/
theorem C94_firstMember_violated :
    specDecl B (.list (.cons [1, 0] (.expr 0) .nil)) = some [.brace B, .expr [([1, 0], int)]] ∧
    resolve B (.list (.cons [1, 0] (.expr 0) .nil)) = some [.brace B, .expr [([1], A), ([1, 0], int)]] :=
  ⟨rfl, rfl⟩

/-- C94 fails for structures with a member whose type is an empty structure:
`struct { struct {} e; int x; } s @= { {}, 1 }` stops the compiler. -/
theorem C94_emptyStructure_violated :
    specDecl (.agg .struct (fields [.agg .struct .nil, int])) (.list (plain [.list .nil, .expr 0])) =
      some [.brace (.agg .struct (fields [.agg .struct .nil, int])), .brace (.agg .struct .nil),
        .expr [([1], int)]] ∧
    resolve (.agg .struct (fields [.agg .struct .nil, int])) (.list (plain [.list .nil, .expr 0])) = none :=
  ⟨rfl, rfl⟩

/-- C94 fails for unnamed bit-fields, which are taken for members that are
initialized: in `struct { int a; int : 4; int * b; } s @= { 1, p }` the pointer is
offered the bit-field. -/
theorem C94_unnamedBitfield_violated :
    specDecl (.agg .struct (.cons .field int (.cons .pad int (.cons .field pointer .nil))))
      (.list (plain [.expr 0, .expr 0])) =
      some [.brace (.agg .struct (.cons .field int (.cons .pad int (.cons .field pointer .nil)))),
        .expr [([0], int)], .expr [([2], pointer)]] ∧
    resolve (.agg .struct (.cons .field int (.cons .pad int (.cons .field pointer .nil))))
      (.list (plain [.expr 0, .expr 0])) =
      some [.brace (.agg .struct (.cons .field int (.cons .pad int (.cons .field pointer .nil)))),
        .expr [([0], int)], .expr [([1], int)]] :=
  ⟨rfl, rfl⟩

/-- C94 fails for structures that begin with a declaration that is no object
(a static assertion): no subobject is offered. -/
theorem C94_firstDeclaration_violated :
    specDecl (.agg .struct (.cons .other int (.cons .field int .nil))) (.list (plain [.expr 0])) =
      some [.brace (.agg .struct (.cons .other int (.cons .field int .nil))), .expr [([1], int)]] ∧
    resolve (.agg .struct (.cons .other int (.cons .field int .nil))) (.list (plain [.expr 0])) = none :=
  ⟨rfl, rfl⟩

/-- C94 fails for tuples with aggregate components: the test for the end of the
component is the wrong way round, and after the first member of the component
the next component is taken. -/
theorem C94_tuple_violated :
    specDecl (.agg .tuple (fields [A, int])) (.list (plain [.expr 1, .expr 0])) =
      some [.brace (.agg .tuple (fields [A, int])), .expr [([0], A), ([0, 0], int)], .expr [([0, 1], double)]] ∧
    resolve (.agg .tuple (fields [A, int])) (.list (plain [.expr 1, .expr 0])) =
      some [.brace (.agg .tuple (fields [A, int])), .expr [([0], A), ([0, 0], int)], .expr [([1], int)]] :=
  ⟨rfl, rfl⟩

end InitCursor
