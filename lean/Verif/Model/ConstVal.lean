import Verif.Model.InitLength

/-!
The values that the compiler takes character constants and enumerators to have: they decide the index of
a designator and whether two array types are the same (Common/Eval.cpp 35-39, 101-110).
-/
namespace Verif.ConstVal
open Verif.InitLength

/-- `build_constantChar` (Parser/ExpressionNode.cpp 480-491): the value that is kept with the constant,
`(unsigned char)str[1]`, where `str` begins with the quote or an encoding.  A character is one byte here. -/
def charValue (str : List Char) : Nat := (str.getD 1 '\x00').toNat % 256

/-- `IndexIterator::setPosition` (ResolvExpr/CurrentObject.cpp 137-144) with a character constant: the
index of the element that is initialized. -/
def designated (str : List Char) : Nat := charValue str

/-- `tryMatchOnStaticValue` (ResolvExpr/Unify.cpp 161-172): whether two dimensions that are character
constants are the same. -/
def sameDimension (s t : List Char) : Bool := charValue s == charValue t

/-! ## Enumerators -/

/-- The initializer of an enumerator: an expression with a value, which the evaluator knows or not (as
for `sizeof`), or an earlier enumerator of the same enumeration and a constant. -/
inductive Ini where
  | val (actual : Int) (known : Bool)
  | ref (name : Nat) (plus : Int)
  deriving Repr

/-- An enumerator (AST/Decl.hpp, the members of an `EnumDecl`).  Names are numbers. -/
structure Mem where
  name : Nat
  init : Option Ini
  deriving Repr

inductive Err where
  /-- two enumerators of one name (AST/Decl.cpp 128-130) -/
  | duplicate
  /-- the calls go deeper than the bound -/
  | deep
  deriving DecidableEq, Repr

abbrev Map := List (Nat × Int)

/-- `eval` of an initializer (Common/Eval.cpp 95-110).  An enumerator calls `valueOf`, which fills the map
again if it is empty; `again` is the result of that. -/
def evalIni (again : Except Err Map) (map : Map) : Ini → Except Err (Map × Option Int)
  | .val a known => .ok (map, if known then some a else none)
  | .ref n k => do
    let map ← if map.isEmpty then again else .ok map
    .ok (map, (map.lookup n).map (· + k))

/-- The map and `crntVal` after the initializer, if there is one (AST/Decl.cpp 121-127). -/
def initStep (again : Except Err Map) (map : Map) (cur : Option Int) : Option Ini → Except Err (Map × Option Int)
  | none => .ok (map, cur)
  | some i => evalIni again map i

/-- The loop of `EnumDecl::valueOf` (AST/Decl.cpp 118-135); `cur` is `crntVal`, with no value if it is not
known.  The values are not bounded. -/
def loop (again : Except Err Map) : List Mem → Map → Option Int → Except Err Map
  | [], map, _ => .ok map
  | m :: ms, map, cur => do
    let (map, cur) ← initStep again map cur m.init
    if (map.lookup m.name).isSome then .error .duplicate else
    let map := match cur with
      | some v => map ++ [(m.name, v)]
      | none => map
    loop again ms map (cur.map (· + 1))

/-- Filling the map (AST/Decl.cpp 116-136), with calls inside of calls up to the bound. -/
def fill : Nat → List Mem → Except Err Map
  | 0, _ => .error .deep
  | f + 1, ms => loop (fill f ms) ms [] (some 0)

/-- `EnumDecl::valueOf` (AST/Decl.cpp 115-173) of an enumeration that has not been asked before. -/
def valueOf (f : Nat) (ms : List Mem) (n : Nat) : Except Err (Option Int) := do
  let map ← fill f ms
  .ok (map.lookup n)

end Verif.ConstVal
