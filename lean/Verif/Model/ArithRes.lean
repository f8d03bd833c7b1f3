import Verif.Model.Cost
/-!
Model of the tables of the basic types and of the resolution of arithmetic expressions over them: the conversion costs (src/ResolvExpr/ConversionCost.cpp), the common types
(src/ResolvExpr/CommonType.cpp), the operators the prelude declares (libcfa/prelude/prelude-gen.cc) and the choice among them (src/ResolvExpr/CandidateFinder.cpp,
src/ResolvExpr/Resolver.cpp). Costs are those of `Verif.Model.Cost`.

Simplified throughout: types have no qualifiers and no reference levels; the type environment, the open variables and the assertions are empty, as they are for these operators; the only
functions named by an operator are those of the prelude for basic types (the pointer versions do not unify with a basic type; user-defined overloads are not modelled).
-/
namespace Verif.Arith
open Verif Verif.Cost

/-- src/AST/BasicKind.hpp:24-63 -/
inductive Kind where
  | bool
  | char
  | signedChar
  | unsignedChar
  | shortSignedInt
  | shortUnsignedInt
  | signedInt
  | unsignedInt
  | longSignedInt
  | longUnsignedInt
  | longLongSignedInt
  | longLongUnsignedInt
  | signedInt128
  | unsignedInt128
  | float16
  | float16Complex
  | float32
  | float32Complex
  | float
  | floatComplex
  | float32x
  | float32xComplex
  | float64
  | float64Complex
  | double
  | doubleComplex
  | float64x
  | float64xComplex
  | float80
  | longDouble
  | longDoubleComplex
  | uuFloat128
  | float128
  | float128Complex
  | float128x
  | float128xComplex
  deriving DecidableEq, Repr

/-- src/AST/BasicKind.hpp:24-63: all kinds, in order. -/
def kinds : List Kind :=
  [.bool, .char, .signedChar, .unsignedChar, .shortSignedInt, .shortUnsignedInt, .signedInt, .unsignedInt, .longSignedInt, .longUnsignedInt, .longLongSignedInt, .longLongUnsignedInt, .signedInt128, .unsignedInt128, .float16, .float16Complex, .float32, .float32Complex, .float, .floatComplex, .float32x, .float32xComplex, .float64, .float64Complex, .double, .doubleComplex, .float64x, .float64xComplex, .float80, .longDouble, .longDoubleComplex, .uuFloat128, .float128, .float128Complex, .float128x, .float128xComplex]

/-- The position of a kind, the index into the tables. -/
def idx : Kind → Nat
  | .bool => 0
  | .char => 1
  | .signedChar => 2
  | .unsignedChar => 3
  | .shortSignedInt => 4
  | .shortUnsignedInt => 5
  | .signedInt => 6
  | .unsignedInt => 7
  | .longSignedInt => 8
  | .longUnsignedInt => 9
  | .longLongSignedInt => 10
  | .longLongUnsignedInt => 11
  | .signedInt128 => 12
  | .unsignedInt128 => 13
  | .float16 => 14
  | .float16Complex => 15
  | .float32 => 16
  | .float32Complex => 17
  | .float => 18
  | .floatComplex => 19
  | .float32x => 20
  | .float32xComplex => 21
  | .float64 => 22
  | .float64Complex => 23
  | .double => 24
  | .doubleComplex => 25
  | .float64x => 26
  | .float64xComplex => 27
  | .float80 => 28
  | .longDouble => 29
  | .longDoubleComplex => 30
  | .uuFloat128 => 31
  | .float128 => 32
  | .float128Complex => 33
  | .float128x => 34
  | .float128xComplex => 35

/-- The table entry `-1`. -/
def no : Int := -1

/-- src/ResolvExpr/ConversionCost.cpp:73-111: path length from a kind (row) to a kind (column); `-1` when the conversion is not safe. -/
def costMatrix : Kind → List Int
  | .bool => [0, 1, 1, 2, 2, 3, 3, 4, 4, 5, 5, 6, 6, 7, 7, 8, 9, 10, 11, 12, 13, 14, 15, 16, 17, 18, 19, 20, 21, 22, 23, 24, 25, 26, 27, 28]
  | .char => [no, 0, 1, 1, 1, 2, 2, 3, 3, 4, 4, 5, 5, 6, 6, 7, 8, 9, 10, 11, 12, 13, 14, 15, 16, 17, 18, 19, 20, 21, 22, 23, 24, 25, 26, 27]
  | .signedChar => [no, no, 0, 1, 1, 2, 2, 3, 3, 4, 4, 5, 5, 6, 6, 7, 8, 9, 10, 11, 12, 13, 14, 15, 16, 17, 18, 19, 20, 21, 22, 23, 24, 25, 26, 27]
  | .unsignedChar => [no, no, no, 0, 1, 1, 2, 2, 3, 3, 4, 4, 5, 5, 6, 7, 8, 9, 10, 11, 12, 13, 14, 15, 16, 17, 18, 19, 20, 21, 22, 23, 24, 25, 26, 27]
  | .shortSignedInt => [no, no, no, no, 0, 1, 1, 2, 2, 3, 3, 4, 4, 5, 5, 6, 7, 8, 9, 10, 11, 12, 13, 14, 15, 16, 17, 18, 19, 20, 21, 22, 23, 24, 25, 26]
  | .shortUnsignedInt => [no, no, no, no, no, 0, 1, 1, 2, 2, 3, 3, 4, 4, 5, 6, 7, 8, 9, 10, 11, 12, 13, 14, 15, 16, 17, 18, 19, 20, 21, 22, 23, 24, 25, 26]
  | .signedInt => [no, no, no, no, no, no, 0, 1, 1, 2, 2, 3, 3, 4, 4, 5, 6, 7, 8, 9, 10, 11, 12, 13, 14, 15, 16, 17, 18, 19, 20, 21, 22, 23, 24, 25]
  | .unsignedInt => [no, no, no, no, no, no, no, 0, 1, 1, 2, 2, 3, 3, 4, 5, 6, 7, 8, 9, 10, 11, 12, 13, 14, 15, 16, 17, 18, 19, 20, 21, 22, 23, 24, 25]
  | .longSignedInt => [no, no, no, no, no, no, no, no, 0, 1, 1, 2, 2, 3, 3, 4, 5, 6, 7, 8, 9, 10, 11, 12, 13, 14, 15, 16, 17, 18, 19, 20, 21, 22, 23, 24]
  | .longUnsignedInt => [no, no, no, no, no, no, no, no, no, 0, 1, 1, 2, 2, 3, 4, 5, 6, 7, 8, 9, 10, 11, 12, 13, 14, 15, 16, 17, 18, 19, 20, 21, 22, 23, 24]
  | .longLongSignedInt => [no, no, no, no, no, no, no, no, no, no, 0, 1, 1, 2, 2, 3, 4, 5, 6, 7, 8, 9, 10, 11, 12, 13, 14, 15, 16, 17, 18, 19, 20, 21, 22, 23]
  | .longLongUnsignedInt => [no, no, no, no, no, no, no, no, no, no, no, 0, 1, 1, 2, 3, 4, 5, 6, 7, 8, 9, 10, 11, 12, 13, 14, 15, 16, 17, 18, 19, 20, 21, 22, 23]
  | .signedInt128 => [no, no, no, no, no, no, no, no, no, no, no, no, 0, 1, 1, 2, 3, 4, 5, 6, 7, 8, 9, 10, 11, 12, 13, 14, 15, 16, 17, 18, 19, 20, 21, 22]
  | .unsignedInt128 => [no, no, no, no, no, no, no, no, no, no, no, no, no, 0, 1, 2, 3, 4, 5, 6, 7, 8, 9, 10, 11, 12, 13, 14, 15, 16, 17, 18, 19, 20, 21, 22]
  | .float16 => [no, no, no, no, no, no, no, no, no, no, no, no, no, no, 0, 1, 2, 3, 4, 5, 6, 7, 8, 9, 10, 11, 12, 13, 14, 15, 16, 17, 18, 19, 20, 21]
  | .float16Complex => [no, no, no, no, no, no, no, no, no, no, no, no, no, no, no, 0, no, 2, no, 4, no, 6, no, 8, no, 10, no, 12, no, no, 15, no, no, 18, no, 20]
  | .float32 => [no, no, no, no, no, no, no, no, no, no, no, no, no, no, no, no, 0, 1, 2, 3, 4, 5, 6, 7, 8, 9, 10, 11, 12, 13, 14, 15, 16, 17, 18, 19]
  | .float32Complex => [no, no, no, no, no, no, no, no, no, no, no, no, no, no, no, no, no, 0, no, 2, no, 4, no, 6, no, 8, no, 10, no, no, 13, no, no, 16, no, 18]
  | .float => [no, no, no, no, no, no, no, no, no, no, no, no, no, no, no, no, no, no, 0, 1, 2, 3, 4, 5, 6, 7, 8, 9, 10, 11, 12, 13, 14, 15, 16, 17]
  | .floatComplex => [no, no, no, no, no, no, no, no, no, no, no, no, no, no, no, no, no, no, no, 0, no, 2, no, 4, no, 6, no, 8, no, no, 11, no, no, 14, no, 16]
  | .float32x => [no, no, no, no, no, no, no, no, no, no, no, no, no, no, no, no, no, no, no, no, 0, 1, 2, 3, 4, 5, 6, 7, 8, 9, 10, 11, 12, 13, 14, 15]
  | .float32xComplex => [no, no, no, no, no, no, no, no, no, no, no, no, no, no, no, no, no, no, no, no, no, 0, no, 2, no, 4, no, 6, no, no, 9, no, no, 12, no, 14]
  | .float64 => [no, no, no, no, no, no, no, no, no, no, no, no, no, no, no, no, no, no, no, no, no, no, 0, 1, 2, 3, 4, 5, 6, 7, 8, 9, 10, 11, 12, 13]
  | .float64Complex => [no, no, no, no, no, no, no, no, no, no, no, no, no, no, no, no, no, no, no, no, no, no, no, 0, no, 2, no, 4, no, no, 7, no, no, 10, no, 12]
  | .double => [no, no, no, no, no, no, no, no, no, no, no, no, no, no, no, no, no, no, no, no, no, no, no, no, 0, 1, 2, 3, 4, 5, 6, 7, 8, 9, 10, 11]
  | .doubleComplex => [no, no, no, no, no, no, no, no, no, no, no, no, no, no, no, no, no, no, no, no, no, no, no, no, no, 0, no, 2, no, no, 5, no, no, 8, no, 10]
  | .float64x => [no, no, no, no, no, no, no, no, no, no, no, no, no, no, no, no, no, no, no, no, no, no, no, no, no, no, 0, 1, 2, 3, 4, 5, 6, 7, 8, 9]
  | .float64xComplex => [no, no, no, no, no, no, no, no, no, no, no, no, no, no, no, no, no, no, no, no, no, no, no, no, no, no, no, 0, no, no, 3, no, no, 6, no, 8]
  | .float80 => [no, no, no, no, no, no, no, no, no, no, no, no, no, no, no, no, no, no, no, no, no, no, no, no, no, no, no, no, 0, 1, 2, 3, 4, 5, 6, 7]
  | .longDouble => [no, no, no, no, no, no, no, no, no, no, no, no, no, no, no, no, no, no, no, no, no, no, no, no, no, no, no, no, no, 0, 1, 2, 3, 4, 5, 6]
  | .longDoubleComplex => [no, no, no, no, no, no, no, no, no, no, no, no, no, no, no, no, no, no, no, no, no, no, no, no, no, no, no, no, no, no, 0, no, no, 3, no, 5]
  | .uuFloat128 => [no, no, no, no, no, no, no, no, no, no, no, no, no, no, no, no, no, no, no, no, no, no, no, no, no, no, no, no, no, no, no, 0, 1, 2, 3, 4]
  | .float128 => [no, no, no, no, no, no, no, no, no, no, no, no, no, no, no, no, no, no, no, no, no, no, no, no, no, no, no, no, no, no, no, no, 0, 1, 2, 3]
  | .float128Complex => [no, no, no, no, no, no, no, no, no, no, no, no, no, no, no, no, no, no, no, no, no, no, no, no, no, no, no, no, no, no, no, no, no, 0, no, 2]
  | .float128x => [no, no, no, no, no, no, no, no, no, no, no, no, no, no, no, no, no, no, no, no, no, no, no, no, no, no, no, no, no, no, no, no, no, no, 0, 1]
  | .float128xComplex => [no, no, no, no, no, no, no, no, no, no, no, no, no, no, no, no, no, no, no, no, no, no, no, no, no, no, no, no, no, no, no, no, no, no, no, 0]

/-- src/ResolvExpr/ConversionCost.cpp:121-159: number of sign changes in a safe conversion. -/
def signMatrix : Kind → List Int
  | .bool => [0, 0, 0, 1, 0, 1, 0, 1, 0, 1, 0, 1, 0, 1, 0, 0, 0, 0, 0, 0, 0, 0, 0, 0, 0, 0, 0, 0, 0, 0, 0, 0, 0, 0, 0, 0]
  | .char => [no, 0, 0, 1, 0, 1, 0, 1, 0, 1, 0, 1, 0, 1, 0, 0, 0, 0, 0, 0, 0, 0, 0, 0, 0, 0, 0, 0, 0, 0, 0, 0, 0, 0, 0, 0]
  | .signedChar => [no, no, 0, 1, 0, 1, 0, 1, 0, 1, 0, 1, 0, 1, 0, 0, 0, 0, 0, 0, 0, 0, 0, 0, 0, 0, 0, 0, 0, 0, 0, 0, 0, 0, 0, 0]
  | .unsignedChar => [no, no, no, 0, 1, 0, 1, 0, 1, 0, 1, 0, 1, 0, 0, 0, 0, 0, 0, 0, 0, 0, 0, 0, 0, 0, 0, 0, 0, 0, 0, 0, 0, 0, 0, 0]
  | .shortSignedInt => [no, no, no, no, 0, 1, 0, 1, 0, 1, 0, 1, 0, 1, 0, 0, 0, 0, 0, 0, 0, 0, 0, 0, 0, 0, 0, 0, 0, 0, 0, 0, 0, 0, 0, 0]
  | .shortUnsignedInt => [no, no, no, no, no, 0, 1, 0, 1, 0, 1, 0, 1, 0, 0, 0, 0, 0, 0, 0, 0, 0, 0, 0, 0, 0, 0, 0, 0, 0, 0, 0, 0, 0, 0, 0]
  | .signedInt => [no, no, no, no, no, no, 0, 1, 0, 1, 0, 1, 0, 1, 0, 0, 0, 0, 0, 0, 0, 0, 0, 0, 0, 0, 0, 0, 0, 0, 0, 0, 0, 0, 0, 0]
  | .unsignedInt => [no, no, no, no, no, no, no, 0, 1, 0, 1, 0, 1, 0, 0, 0, 0, 0, 0, 0, 0, 0, 0, 0, 0, 0, 0, 0, 0, 0, 0, 0, 0, 0, 0, 0]
  | .longSignedInt => [no, no, no, no, no, no, no, no, 0, 1, 0, 1, 0, 1, 0, 0, 0, 0, 0, 0, 0, 0, 0, 0, 0, 0, 0, 0, 0, 0, 0, 0, 0, 0, 0, 0]
  | .longUnsignedInt => [no, no, no, no, no, no, no, no, no, 0, 1, 0, 1, 0, 0, 0, 0, 0, 0, 0, 0, 0, 0, 0, 0, 0, 0, 0, 0, 0, 0, 0, 0, 0, 0, 0]
  | .longLongSignedInt => [no, no, no, no, no, no, no, no, no, no, 0, 1, 0, 1, 0, 0, 0, 0, 0, 0, 0, 0, 0, 0, 0, 0, 0, 0, 0, 0, 0, 0, 0, 0, 0, 0]
  | .longLongUnsignedInt => [no, no, no, no, no, no, no, no, no, no, no, 0, 1, 0, 0, 0, 0, 0, 0, 0, 0, 0, 0, 0, 0, 0, 0, 0, 0, 0, 0, 0, 0, 0, 0, 0]
  | .signedInt128 => [no, no, no, no, no, no, no, no, no, no, no, no, 0, 1, 0, 0, 0, 0, 0, 0, 0, 0, 0, 0, 0, 0, 0, 0, 0, 0, 0, 0, 0, 0, 0, 0]
  | .unsignedInt128 => [no, no, no, no, no, no, no, no, no, no, no, no, no, 0, 0, 0, 0, 0, 0, 0, 0, 0, 0, 0, 0, 0, 0, 0, 0, 0, 0, 0, 0, 0, 0, 0]
  | .float16 => [no, no, no, no, no, no, no, no, no, no, no, no, no, no, 0, 0, 0, 0, 0, 0, 0, 0, 0, 0, 0, 0, 0, 0, 0, 0, 0, 0, 0, 0, 0, 0]
  | .float16Complex => [no, no, no, no, no, no, no, no, no, no, no, no, no, no, no, 0, no, 0, no, 0, no, 0, no, 0, no, 0, no, 0, no, no, 0, no, no, 0, no, 0]
  | .float32 => [no, no, no, no, no, no, no, no, no, no, no, no, no, no, no, no, 0, 0, 0, 0, 0, 0, 0, 0, 0, 0, 0, 0, 0, 0, 0, 0, 0, 0, 0, 0]
  | .float32Complex => [no, no, no, no, no, no, no, no, no, no, no, no, no, no, no, no, no, 0, no, 0, no, 0, no, 0, no, 0, no, 0, no, no, 0, no, no, 0, no, 0]
  | .float => [no, no, no, no, no, no, no, no, no, no, no, no, no, no, no, no, no, no, 0, 0, 0, 0, 0, 0, 0, 0, 0, 0, 0, 0, 0, 0, 0, 0, 0, 0]
  | .floatComplex => [no, no, no, no, no, no, no, no, no, no, no, no, no, no, no, no, no, no, no, 0, no, 0, no, 0, no, 0, no, 0, no, no, 0, no, no, 0, no, 0]
  | .float32x => [no, no, no, no, no, no, no, no, no, no, no, no, no, no, no, no, no, no, no, no, 0, 0, 0, 0, 0, 0, 0, 0, 0, 0, 0, 0, 0, 0, 0, 0]
  | .float32xComplex => [no, no, no, no, no, no, no, no, no, no, no, no, no, no, no, no, no, no, no, no, no, 0, no, 0, no, 0, no, 0, no, no, 0, no, no, 0, no, 0]
  | .float64 => [no, no, no, no, no, no, no, no, no, no, no, no, no, no, no, no, no, no, no, no, no, no, 0, 0, 0, 0, 0, 0, 0, 0, 0, 0, 0, 0, 0, 0]
  | .float64Complex => [no, no, no, no, no, no, no, no, no, no, no, no, no, no, no, no, no, no, no, no, no, no, no, 0, no, 0, no, 0, no, no, 0, no, no, 0, no, 0]
  | .double => [no, no, no, no, no, no, no, no, no, no, no, no, no, no, no, no, no, no, no, no, no, no, no, no, 0, 0, 0, 0, 0, 0, 0, 0, 0, 0, 0, 0]
  | .doubleComplex => [no, no, no, no, no, no, no, no, no, no, no, no, no, no, no, no, no, no, no, no, no, no, no, no, no, 0, no, 0, no, no, 0, no, no, 0, no, 0]
  | .float64x => [no, no, no, no, no, no, no, no, no, no, no, no, no, no, no, no, no, no, no, no, no, no, no, no, no, no, 0, 0, 0, 0, 0, 0, 0, 0, 0, 0]
  | .float64xComplex => [no, no, no, no, no, no, no, no, no, no, no, no, no, no, no, no, no, no, no, no, no, no, no, no, no, no, no, 0, no, no, 0, no, no, 0, no, 0]
  | .float80 => [no, no, no, no, no, no, no, no, no, no, no, no, no, no, no, no, no, no, no, no, no, no, no, no, no, no, no, no, 0, 0, 0, 0, 0, 0, 0, 0]
  | .longDouble => [no, no, no, no, no, no, no, no, no, no, no, no, no, no, no, no, no, no, no, no, no, no, no, no, no, no, no, no, no, 0, 0, 0, 0, 0, 0, 0]
  | .longDoubleComplex => [no, no, no, no, no, no, no, no, no, no, no, no, no, no, no, no, no, no, no, no, no, no, no, no, no, no, no, no, no, no, 0, no, no, 0, no, 0]
  | .uuFloat128 => [no, no, no, no, no, no, no, no, no, no, no, no, no, no, no, no, no, no, no, no, no, no, no, no, no, no, no, no, no, no, no, 0, 0, 0, 0, 0]
  | .float128 => [no, no, no, no, no, no, no, no, no, no, no, no, no, no, no, no, no, no, no, no, no, no, no, no, no, no, no, no, no, no, no, no, 0, 0, 0, 0]
  | .float128Complex => [no, no, no, no, no, no, no, no, no, no, no, no, no, no, no, no, no, no, no, no, no, no, no, no, no, no, no, no, no, no, no, no, no, 0, no, 0]
  | .float128x => [no, no, no, no, no, no, no, no, no, no, no, no, no, no, no, no, no, no, no, no, no, no, no, no, no, no, no, no, no, no, no, no, no, no, 0, 0]
  | .float128xComplex => [no, no, no, no, no, no, no, no, no, no, no, no, no, no, no, no, no, no, no, no, no, no, no, no, no, no, no, no, no, no, no, no, no, no, no, 0]

/-- src/ResolvExpr/CommonType.cpp:43-338 -/
def commonTypes : Kind → List Kind
  | .bool => [.bool, .char, .signedChar, .unsignedChar, .shortSignedInt, .shortUnsignedInt, .signedInt, .unsignedInt, .longSignedInt, .longUnsignedInt, .longLongSignedInt, .longLongUnsignedInt, .signedInt128, .unsignedInt128, .float16, .float16Complex, .float32, .float32Complex, .float, .floatComplex, .float32x, .float32xComplex, .float64, .float64Complex, .double, .doubleComplex, .float64x, .float64xComplex, .float80, .longDouble, .longDoubleComplex, .uuFloat128, .float128, .float128Complex, .float128x, .float128xComplex]
  | .char => [.char, .char, .signedChar, .unsignedChar, .shortSignedInt, .shortUnsignedInt, .signedInt, .unsignedInt, .longSignedInt, .longUnsignedInt, .longLongSignedInt, .longLongUnsignedInt, .signedInt128, .unsignedInt128, .float16, .float16Complex, .float32, .float32Complex, .float, .floatComplex, .float32x, .float32xComplex, .float64, .float64Complex, .double, .doubleComplex, .float64x, .float64xComplex, .float80, .longDouble, .longDoubleComplex, .uuFloat128, .float128, .float128Complex, .float128x, .float128xComplex]
  | .signedChar => [.signedChar, .signedChar, .signedChar, .unsignedChar, .shortSignedInt, .shortUnsignedInt, .signedInt, .unsignedInt, .longSignedInt, .longUnsignedInt, .longLongSignedInt, .longLongUnsignedInt, .signedInt128, .unsignedInt128, .float16, .float16Complex, .float32, .float32Complex, .float, .floatComplex, .float32x, .float32xComplex, .float64, .float64Complex, .double, .doubleComplex, .float64x, .float64xComplex, .float80, .longDouble, .longDoubleComplex, .uuFloat128, .float128, .float128Complex, .float128x, .float128xComplex]
  | .unsignedChar => [.unsignedChar, .unsignedChar, .unsignedChar, .unsignedChar, .shortSignedInt, .shortUnsignedInt, .signedInt, .unsignedInt, .longSignedInt, .longUnsignedInt, .longLongSignedInt, .longLongUnsignedInt, .signedInt128, .unsignedInt128, .float16, .float16Complex, .float32, .float32Complex, .float, .floatComplex, .float32x, .float32xComplex, .float64, .float64Complex, .double, .doubleComplex, .float64x, .float64xComplex, .float80, .longDouble, .longDoubleComplex, .uuFloat128, .float128, .float128Complex, .float128x, .float128xComplex]
  | .shortSignedInt => [.shortSignedInt, .shortSignedInt, .shortSignedInt, .shortSignedInt, .shortSignedInt, .shortUnsignedInt, .signedInt, .unsignedInt, .longSignedInt, .longUnsignedInt, .longLongSignedInt, .longLongUnsignedInt, .signedInt128, .unsignedInt128, .float16, .float16Complex, .float32, .float32Complex, .float, .floatComplex, .float32x, .float32xComplex, .float64, .float64Complex, .double, .doubleComplex, .float64x, .float64xComplex, .float80, .longDouble, .longDoubleComplex, .uuFloat128, .float128, .float128Complex, .float128x, .float128xComplex]
  | .shortUnsignedInt => [.shortUnsignedInt, .shortUnsignedInt, .shortUnsignedInt, .shortUnsignedInt, .shortUnsignedInt, .shortUnsignedInt, .signedInt, .unsignedInt, .longSignedInt, .longUnsignedInt, .longLongSignedInt, .longLongUnsignedInt, .signedInt128, .unsignedInt128, .float16, .float16Complex, .float32, .float32Complex, .float, .floatComplex, .float32x, .float32xComplex, .float64, .float64Complex, .double, .doubleComplex, .float64x, .float64xComplex, .float80, .longDouble, .longDoubleComplex, .uuFloat128, .float128, .float128Complex, .float128x, .float128xComplex]
  | .signedInt => [.signedInt, .signedInt, .signedInt, .signedInt, .signedInt, .signedInt, .signedInt, .unsignedInt, .longSignedInt, .longUnsignedInt, .longLongSignedInt, .longLongUnsignedInt, .signedInt128, .unsignedInt128, .float16, .float16Complex, .float32, .float32Complex, .float, .floatComplex, .float32x, .float32xComplex, .float64, .float64Complex, .double, .doubleComplex, .float64x, .float64xComplex, .float80, .longDouble, .longDoubleComplex, .uuFloat128, .float128, .float128Complex, .float128x, .float128xComplex]
  | .unsignedInt => [.unsignedInt, .unsignedInt, .unsignedInt, .unsignedInt, .unsignedInt, .unsignedInt, .unsignedInt, .unsignedInt, .longSignedInt, .longUnsignedInt, .longLongSignedInt, .longLongUnsignedInt, .signedInt128, .unsignedInt128, .float16, .float16Complex, .float32, .float32Complex, .float, .floatComplex, .float32x, .float32xComplex, .float64, .float64Complex, .double, .doubleComplex, .float64x, .float64xComplex, .float80, .longDouble, .longDoubleComplex, .uuFloat128, .float128, .float128Complex, .float128x, .float128xComplex]
  | .longSignedInt => [.longSignedInt, .longSignedInt, .longSignedInt, .longSignedInt, .longSignedInt, .longSignedInt, .longSignedInt, .longSignedInt, .longSignedInt, .longUnsignedInt, .longLongSignedInt, .longLongUnsignedInt, .signedInt128, .unsignedInt128, .float16, .float16Complex, .float32, .float32Complex, .float, .floatComplex, .float32x, .float32xComplex, .float64, .float64Complex, .double, .doubleComplex, .float64x, .float64xComplex, .float80, .longDouble, .longDoubleComplex, .uuFloat128, .float128, .float128Complex, .float128x, .float128xComplex]
  | .longUnsignedInt => [.longUnsignedInt, .longUnsignedInt, .longUnsignedInt, .longUnsignedInt, .longUnsignedInt, .longUnsignedInt, .longUnsignedInt, .longUnsignedInt, .longUnsignedInt, .longUnsignedInt, .longLongSignedInt, .longLongUnsignedInt, .signedInt128, .unsignedInt128, .float16, .float16Complex, .float32, .float32Complex, .float, .floatComplex, .float32x, .float32xComplex, .float64, .float64Complex, .double, .doubleComplex, .float64x, .float64xComplex, .float80, .longDouble, .longDoubleComplex, .uuFloat128, .float128, .float128Complex, .float128x, .float128xComplex]
  | .longLongSignedInt => [.longLongSignedInt, .longLongSignedInt, .longLongSignedInt, .longLongSignedInt, .longLongSignedInt, .longLongSignedInt, .longLongSignedInt, .longLongSignedInt, .longLongSignedInt, .longLongSignedInt, .longLongSignedInt, .longLongUnsignedInt, .signedInt128, .unsignedInt128, .float16, .float16Complex, .float32, .float32Complex, .float, .floatComplex, .float32x, .float32xComplex, .float64, .float64Complex, .double, .doubleComplex, .float64x, .float64xComplex, .float80, .longDouble, .longDoubleComplex, .uuFloat128, .float128, .float128Complex, .float128x, .float128xComplex]
  | .longLongUnsignedInt => [.longLongUnsignedInt, .longLongUnsignedInt, .longLongUnsignedInt, .longLongUnsignedInt, .longLongUnsignedInt, .longLongUnsignedInt, .longLongUnsignedInt, .longLongUnsignedInt, .longLongUnsignedInt, .longLongUnsignedInt, .longLongUnsignedInt, .longLongUnsignedInt, .signedInt128, .unsignedInt128, .float16, .float16Complex, .float32, .float32Complex, .float, .floatComplex, .float32x, .float32xComplex, .float64, .float64Complex, .double, .doubleComplex, .float64x, .float64xComplex, .float80, .longDouble, .longDoubleComplex, .uuFloat128, .float128, .float128Complex, .float128x, .float128xComplex]
  | .signedInt128 => [.signedInt128, .signedInt128, .signedInt128, .signedInt128, .signedInt128, .signedInt128, .signedInt128, .signedInt128, .signedInt128, .signedInt128, .signedInt128, .signedInt128, .signedInt128, .unsignedInt128, .float16, .float16Complex, .float32, .float32Complex, .float, .floatComplex, .float32x, .float32xComplex, .float64, .float64Complex, .double, .doubleComplex, .float64x, .float64xComplex, .float80, .longDouble, .longDoubleComplex, .uuFloat128, .float128, .float128Complex, .float128x, .float128xComplex]
  | .unsignedInt128 => [.unsignedInt128, .unsignedInt128, .unsignedInt128, .unsignedInt128, .unsignedInt128, .unsignedInt128, .unsignedInt128, .unsignedInt128, .unsignedInt128, .unsignedInt128, .unsignedInt128, .unsignedInt128, .unsignedInt128, .unsignedInt128, .float16, .float16Complex, .float32, .float32Complex, .float, .floatComplex, .float32x, .float32xComplex, .float64, .float64Complex, .double, .doubleComplex, .float64x, .float64xComplex, .float80, .longDouble, .longDoubleComplex, .uuFloat128, .float128, .float128Complex, .float128x, .float128xComplex]
  | .float16 => [.float16, .float16, .float16, .float16, .float16, .float16, .float16, .float16, .float16, .float16, .float16, .float16, .float16, .float16, .float16, .float16Complex, .float32, .float32Complex, .float, .floatComplex, .float32x, .float32xComplex, .float64, .float64Complex, .double, .doubleComplex, .float64x, .float64xComplex, .float80, .longDouble, .longDoubleComplex, .uuFloat128, .float128, .float128Complex, .float128x, .float128xComplex]
  | .float16Complex => [.float16Complex, .float16Complex, .float16Complex, .float16Complex, .float16Complex, .float16Complex, .float16Complex, .float16Complex, .float16Complex, .float16Complex, .float16Complex, .float16Complex, .float16Complex, .float16Complex, .float16Complex, .float16Complex, .float32Complex, .float32Complex, .floatComplex, .floatComplex, .float32xComplex, .float32xComplex, .float64Complex, .float64Complex, .doubleComplex, .doubleComplex, .float64xComplex, .float64xComplex, .longDoubleComplex, .longDoubleComplex, .longDoubleComplex, .float128Complex, .float128Complex, .float128Complex, .float128xComplex, .float128xComplex]
  | .float32 => [.float32, .float32, .float32, .float32, .float32, .float32, .float32, .float32, .float32, .float32, .float32, .float32, .float32, .float32, .float32, .float32Complex, .float32, .float32Complex, .float, .floatComplex, .float32x, .float32xComplex, .float64, .float64Complex, .double, .doubleComplex, .float64x, .float64xComplex, .float80, .longDouble, .longDoubleComplex, .uuFloat128, .float128, .float128Complex, .float128x, .float128xComplex]
  | .float32Complex => [.float32Complex, .float32Complex, .float32Complex, .float32Complex, .float32Complex, .float32Complex, .float32Complex, .float32Complex, .float32Complex, .float32Complex, .float32Complex, .float32Complex, .float32Complex, .float32Complex, .float32Complex, .float32Complex, .float32Complex, .float32Complex, .floatComplex, .floatComplex, .float32xComplex, .float32xComplex, .float64Complex, .float64Complex, .doubleComplex, .doubleComplex, .float64xComplex, .float64xComplex, .longDoubleComplex, .longDoubleComplex, .longDoubleComplex, .float128Complex, .float128Complex, .float128Complex, .float128xComplex, .float128xComplex]
  | .float => [.float, .float, .float, .float, .float, .float, .float, .float, .float, .float, .float, .float, .float, .float, .float, .floatComplex, .float, .floatComplex, .float, .floatComplex, .float32x, .float32xComplex, .float64, .float64Complex, .double, .doubleComplex, .float64x, .float64xComplex, .float80, .longDouble, .longDoubleComplex, .uuFloat128, .float128, .float128Complex, .float128x, .float128xComplex]
  | .floatComplex => [.floatComplex, .floatComplex, .floatComplex, .floatComplex, .floatComplex, .floatComplex, .floatComplex, .floatComplex, .floatComplex, .floatComplex, .floatComplex, .floatComplex, .floatComplex, .floatComplex, .floatComplex, .floatComplex, .floatComplex, .floatComplex, .floatComplex, .floatComplex, .float32xComplex, .float32xComplex, .float64Complex, .float64Complex, .doubleComplex, .doubleComplex, .float64xComplex, .float64xComplex, .longDoubleComplex, .longDoubleComplex, .longDoubleComplex, .float128Complex, .float128Complex, .float128Complex, .float128xComplex, .float128xComplex]
  | .float32x => [.float32x, .float32x, .float32x, .float32x, .float32x, .float32x, .float32x, .float32x, .float32x, .float32x, .float32x, .float32x, .float32x, .float32x, .float32x, .float32xComplex, .float32x, .float32xComplex, .float32x, .float32xComplex, .float32x, .float32xComplex, .float64, .float64Complex, .double, .doubleComplex, .float64x, .float64xComplex, .float80, .longDouble, .longDoubleComplex, .uuFloat128, .float128, .float128Complex, .float128x, .float128xComplex]
  | .float32xComplex => [.float32xComplex, .float32xComplex, .float32xComplex, .float32xComplex, .float32xComplex, .float32xComplex, .float32xComplex, .float32xComplex, .float32xComplex, .float32xComplex, .float32xComplex, .float32xComplex, .float32xComplex, .float32xComplex, .float32xComplex, .float32xComplex, .float32xComplex, .float32xComplex, .float32xComplex, .float32xComplex, .float32xComplex, .float32xComplex, .float64Complex, .float64Complex, .doubleComplex, .doubleComplex, .float64xComplex, .float64xComplex, .longDoubleComplex, .longDoubleComplex, .longDoubleComplex, .float128Complex, .float128Complex, .float128Complex, .float128xComplex, .float128xComplex]
  | .float64 => [.float64, .float64, .float64, .float64, .float64, .float64, .float64, .float64, .float64, .float64, .float64, .float64, .float64, .float64, .float64, .float64Complex, .float64, .float64Complex, .float64, .float64Complex, .float64, .float64Complex, .float64, .float64Complex, .double, .doubleComplex, .float64x, .float64xComplex, .float80, .longDouble, .longDoubleComplex, .uuFloat128, .float128, .float128Complex, .float128x, .float128xComplex]
  | .float64Complex => [.float64Complex, .float64Complex, .float64Complex, .float64Complex, .float64Complex, .float64Complex, .float64Complex, .float64Complex, .float64Complex, .float64Complex, .float64Complex, .float64Complex, .float64Complex, .float64Complex, .float64Complex, .float64Complex, .float64Complex, .float64Complex, .float64Complex, .float64Complex, .float64Complex, .float64Complex, .float64Complex, .float64Complex, .doubleComplex, .doubleComplex, .float64xComplex, .float64xComplex, .longDoubleComplex, .longDoubleComplex, .longDoubleComplex, .float128Complex, .float128Complex, .float128Complex, .float128xComplex, .float128xComplex]
  | .double => [.double, .double, .double, .double, .double, .double, .double, .double, .double, .double, .double, .double, .double, .double, .double, .doubleComplex, .double, .doubleComplex, .double, .doubleComplex, .double, .doubleComplex, .double, .doubleComplex, .double, .doubleComplex, .float64x, .float64xComplex, .float80, .longDouble, .longDoubleComplex, .uuFloat128, .float128, .float128Complex, .float128x, .float128xComplex]
  | .doubleComplex => [.doubleComplex, .doubleComplex, .doubleComplex, .doubleComplex, .doubleComplex, .doubleComplex, .doubleComplex, .doubleComplex, .doubleComplex, .doubleComplex, .doubleComplex, .doubleComplex, .doubleComplex, .doubleComplex, .doubleComplex, .doubleComplex, .doubleComplex, .doubleComplex, .doubleComplex, .doubleComplex, .doubleComplex, .doubleComplex, .doubleComplex, .doubleComplex, .doubleComplex, .doubleComplex, .float64xComplex, .float64xComplex, .longDoubleComplex, .longDoubleComplex, .longDoubleComplex, .float128Complex, .float128Complex, .float128Complex, .float128xComplex, .float128xComplex]
  | .float64x => [.float64x, .float64x, .float64x, .float64x, .float64x, .float64x, .float64x, .float64x, .float64x, .float64x, .float64x, .float64x, .float64x, .float64x, .float64x, .float64xComplex, .float64x, .float64xComplex, .float64x, .float64xComplex, .float64x, .float64xComplex, .float64x, .float64xComplex, .float64x, .float64xComplex, .float64x, .float64xComplex, .float80, .longDouble, .longDoubleComplex, .uuFloat128, .float128, .float128Complex, .float128x, .float128xComplex]
  | .float64xComplex => [.float64xComplex, .float64xComplex, .float64xComplex, .float64xComplex, .float64xComplex, .float64xComplex, .float64xComplex, .float64xComplex, .float64xComplex, .float64xComplex, .float64xComplex, .float64xComplex, .float64xComplex, .float64xComplex, .float64xComplex, .float64xComplex, .float64xComplex, .float64xComplex, .float64xComplex, .float64xComplex, .float64xComplex, .float64xComplex, .float64xComplex, .float64xComplex, .float64xComplex, .float64xComplex, .float64xComplex, .float64xComplex, .longDoubleComplex, .longDoubleComplex, .longDoubleComplex, .float128Complex, .float128Complex, .float128Complex, .float128xComplex, .float128xComplex]
  | .float80 => [.float80, .float80, .float80, .float80, .float80, .float80, .float80, .float80, .float80, .float80, .float80, .float80, .float80, .float80, .float80, .longDoubleComplex, .float80, .longDoubleComplex, .float80, .longDoubleComplex, .float80, .longDoubleComplex, .float80, .longDoubleComplex, .float80, .longDoubleComplex, .float80, .longDoubleComplex, .float80, .longDouble, .longDoubleComplex, .uuFloat128, .float128, .float128Complex, .float128x, .float128xComplex]
  | .longDouble => [.longDouble, .longDouble, .longDouble, .longDouble, .longDouble, .longDouble, .longDouble, .longDouble, .longDouble, .longDouble, .longDouble, .longDouble, .longDouble, .longDouble, .longDouble, .longDoubleComplex, .longDouble, .longDoubleComplex, .longDouble, .longDoubleComplex, .longDouble, .longDoubleComplex, .longDouble, .longDoubleComplex, .longDouble, .longDoubleComplex, .longDouble, .longDoubleComplex, .longDouble, .longDouble, .longDoubleComplex, .uuFloat128, .float128, .float128Complex, .float128x, .float128xComplex]
  | .longDoubleComplex => [.longDoubleComplex, .longDoubleComplex, .longDoubleComplex, .longDoubleComplex, .longDoubleComplex, .longDoubleComplex, .longDoubleComplex, .longDoubleComplex, .longDoubleComplex, .longDoubleComplex, .longDoubleComplex, .longDoubleComplex, .longDoubleComplex, .longDoubleComplex, .longDoubleComplex, .longDoubleComplex, .longDoubleComplex, .longDoubleComplex, .longDoubleComplex, .longDoubleComplex, .longDoubleComplex, .longDoubleComplex, .longDoubleComplex, .longDoubleComplex, .longDoubleComplex, .longDoubleComplex, .longDoubleComplex, .longDoubleComplex, .longDoubleComplex, .longDoubleComplex, .longDoubleComplex, .float128Complex, .float128Complex, .float128Complex, .float128xComplex, .float128xComplex]
  | .uuFloat128 => [.uuFloat128, .uuFloat128, .uuFloat128, .uuFloat128, .uuFloat128, .uuFloat128, .uuFloat128, .uuFloat128, .uuFloat128, .uuFloat128, .uuFloat128, .uuFloat128, .uuFloat128, .uuFloat128, .uuFloat128, .float128Complex, .uuFloat128, .float128Complex, .uuFloat128, .float128Complex, .uuFloat128, .float128Complex, .uuFloat128, .float128Complex, .uuFloat128, .float128Complex, .uuFloat128, .float128Complex, .uuFloat128, .uuFloat128, .float128Complex, .uuFloat128, .float128, .float128Complex, .float128x, .float128xComplex]
  | .float128 => [.float128, .float128, .float128, .float128, .float128, .float128, .float128, .float128, .float128, .float128, .float128, .float128, .float128, .float128, .float128, .float128Complex, .float128, .float128Complex, .float128, .float128Complex, .float128, .float128Complex, .float128, .float128Complex, .float128, .float128Complex, .float128, .float128Complex, .float128, .float128, .float128Complex, .float128, .float128, .float128Complex, .float128x, .float128xComplex]
  | .float128Complex => [.float128Complex, .float128Complex, .float128Complex, .float128Complex, .float128Complex, .float128Complex, .float128Complex, .float128Complex, .float128Complex, .float128Complex, .float128Complex, .float128Complex, .float128Complex, .float128Complex, .float128Complex, .float128Complex, .float128Complex, .float128Complex, .float128Complex, .float128Complex, .float128Complex, .float128Complex, .float128Complex, .float128Complex, .float128Complex, .float128Complex, .float128Complex, .float128Complex, .float128Complex, .float128Complex, .float128Complex, .float128Complex, .float128Complex, .float128Complex, .float128xComplex, .float128xComplex]
  | .float128x => [.float128x, .float128x, .float128x, .float128x, .float128x, .float128x, .float128x, .float128x, .float128x, .float128x, .float128x, .float128x, .float128x, .float128x, .float128x, .float128xComplex, .float128x, .float128xComplex, .float128x, .float128xComplex, .float128x, .float128xComplex, .float128x, .float128xComplex, .float128x, .float128xComplex, .float128x, .float128xComplex, .float128x, .float128x, .float128xComplex, .float128x, .float128x, .float128xComplex, .float128x, .float128xComplex]
  | .float128xComplex => [.float128xComplex, .float128xComplex, .float128xComplex, .float128xComplex, .float128xComplex, .float128xComplex, .float128xComplex, .float128xComplex, .float128xComplex, .float128xComplex, .float128xComplex, .float128xComplex, .float128xComplex, .float128xComplex, .float128xComplex, .float128xComplex, .float128xComplex, .float128xComplex, .float128xComplex, .float128xComplex, .float128xComplex, .float128xComplex, .float128xComplex, .float128xComplex, .float128xComplex, .float128xComplex, .float128xComplex, .float128xComplex, .float128xComplex, .float128xComplex, .float128xComplex, .float128xComplex, .float128xComplex, .float128xComplex, .float128xComplex, .float128xComplex]

/-- `costMatrix[ src ][ dst ]` -/
def costAt (a b : Kind) : Int := (costMatrix a).getD (idx b) no
/-- `signMatrix[ src ][ dst ]` -/
def signAt (a b : Kind) : Int := (signMatrix a).getD (idx b) no
/-- `commonTypes[ k1 ][ k2 ]` -/
def commonAt (a b : Kind) : Kind := (commonTypes a).getD (idx b) .bool

/-- An increment of a cost whose assertion holds (Cost.hpp:114-152); it holds for every entry of the tables. -/
def bump (o : Outcome Cost) : Cost := match o with | .ret c => c | _ => infinity

/-- src/ResolvExpr/ConversionCost.cpp:311-320 (`conversionCostFromBasicToBasic`) -/
def fromBasicToBasic (a b : Kind) : Cost :=
  if costAt a b = -1 then unsafeC else bump (incSign (bump (incSafe zero (costAt a b).toNat)) (signAt a b).toNat)

/-- src/ResolvExpr/ConversionCost.cpp:172-201, 322-325 (`conversionCost`), and src/ResolvExpr/CastCost.cpp:60-73, 128-181 (`castCost`), from a basic type: to a basic type, or to `void`
(`none`). -/
def conversionCost (a : Kind) : Option Kind → Cost
  | none => safe
  | some b => if a = b then zero else fromBasicToBasic a b

/-- src/ResolvExpr/Unify.cpp:623-642, 671-706 and src/ResolvExpr/CommonType.cpp:367-378 with `WidenMode{ true, true }`: two basic types always unify; their common type. -/
def common (a b : Kind) : Kind := if a = b then a else commonAt a b

/-- The unary operators on values (libcfa/prelude/prelude-gen.cc:70-73). -/
inductive Op1 where
  | plus | minus | compl | lnot
  deriving DecidableEq, Repr

/-- The binary operators on values (libcfa/prelude/prelude-gen.cc:74-89). -/
inductive Op2 where
  | mul | div | mod | add | sub | shl | shr | lt | le | gt | ge | eq | ne | band | bxor | bor
  deriving DecidableEq, Repr

/-- A row of `arithmeticOperators` (libcfa/prelude/prelude-gen.cc:59-65); `assignment` is false for the operators of the model. -/
structure OpRow where
  floatCompat : Bool
  isComparison : Bool
  isEqual : Bool
  deriving DecidableEq, Repr

/-- libcfa/prelude/prelude-gen.cc:70-73 -/
def row1 : Op1 → OpRow
  | .plus => ⟨true, false, false⟩
  | .minus => ⟨true, false, false⟩
  | .compl => ⟨false, false, false⟩
  | .lnot => ⟨true, false, true⟩

/-- libcfa/prelude/prelude-gen.cc:74-89 -/
def row2 : Op2 → OpRow
  | .mul => ⟨true, false, false⟩
  | .div => ⟨true, false, false⟩
  | .mod => ⟨false, false, false⟩
  | .add => ⟨true, false, false⟩
  | .sub => ⟨true, false, false⟩
  | .shl => ⟨false, false, false⟩
  | .shr => ⟨false, false, false⟩
  | .lt => ⟨true, true, false⟩
  | .le => ⟨true, true, true⟩
  | .gt => ⟨true, true, false⟩
  | .ge => ⟨true, true, true⟩
  | .eq => ⟨true, false, true⟩
  | .ne => ⟨true, false, true⟩
  | .band => ⟨false, false, false⟩
  | .bxor => ⟨false, false, false⟩
  | .bor => ⟨false, false, false⟩

/-- `basicTypes` (libcfa/prelude/prelude-gen.cc:22-57): the kind, `isFloat`, `hasComparison`. -/
def basicTypes : List (Kind × Bool × Bool) :=
  [(.char, false, true), (.signedChar, false, true), (.unsignedChar, false, true), (.shortSignedInt, false, true), (.shortUnsignedInt, false, true), (.signedInt, false, true),
   (.unsignedInt, false, true), (.longSignedInt, false, true), (.longUnsignedInt, false, true), (.longLongSignedInt, false, true), (.longLongUnsignedInt, false, true),
   (.float, true, true), (.double, true, true), (.longDouble, true, true), (.floatComplex, true, false), (.doubleComplex, true, false), (.longDoubleComplex, true, false),
   (.signedInt128, false, true), (.unsignedInt128, false, true), (.float80, true, true), (.uuFloat128, true, true), (.float128, true, true), (.float128Complex, true, false)]

/-- libcfa/prelude/prelude-gen.cc:173-177: the types the loop declares an operator for. -/
def declared (r : OpRow) : List Kind :=
  (basicTypes.filter fun t => ! (! r.floatCompat && t.2.1) && ! (r.isComparison && ! t.2.2)).map (·.1)

/-- libcfa/prelude/prelude-gen.cc:168-171, 173-197: the parameter types of a unary operator. -/
def overloads1 (op : Op1) : List Kind := (if op = .lnot then [Kind.bool] else []) ++ declared (row1 op)

/-- libcfa/prelude/prelude-gen.cc:168-171, 173-197: the parameter types of a binary operator; the versions for `zero_t` and `one_t` have infinite conversion cost from a basic type and are left out. -/
def overloads2 (op : Op2) : List Kind := (if op = .eq ∨ op = .ne then [Kind.bool] else []) ++ declared (row2 op)

/-- libcfa/prelude/prelude-gen.cc:189-190: the result type of an operator with parameters of type `k`. -/
def resultOf (r : OpRow) (k : Kind) : Kind := if r.isComparison || r.isEqual then .signedInt else k

/-- A source expression: a name with the types of the variables it names, an operator applied to operands, a cast, or a conditional expression (the condition is left out). -/
inductive Expr where
  | name (ks : List Kind)
  | un (op : Op1) (a : Expr)
  | bin (op : Op2) (a b : Expr)
  | cast (t : Kind) (a : Expr)
  | cond (a b : Expr)
  deriving Repr

/-- A resolved expression: every operator with the parameter type of the version chosen, every conversion as a cast (`none`: to `void`). -/
inductive TExpr where
  | var (k : Kind)
  | un (op : Op1) (k : Kind) (a : TExpr)
  | bin (op : Op2) (k : Kind) (a b : TExpr)
  | cast (t : Option Kind) (a : TExpr)
  | cond (k : Kind) (a b : TExpr)
  deriving DecidableEq, Repr

/-- `expr->result`; `none` is `void`. -/
def TExpr.kind? : TExpr → Option Kind
  | .var k => some k
  | .un op k _ => some (resultOf (row1 op) k)
  | .bin op k _ _ => some (resultOf (row2 op) k)
  | .cast t _ => t
  | .cond k _ _ => some k

/-- The type of an expression that is not `void`. -/
def TExpr.kind (t : TExpr) : Kind := t.kind?.getD .bool

/-- src/ResolvExpr/Candidate.hpp:42-48 -/
structure Cand where
  expr : TExpr
  cost : Cost
  cvtCost : Cost
  deriving DecidableEq, Repr

/-- src/ResolvExpr/CandidateFinder.cpp:84-118 (`computeExpressionConversionCost`): the argument, cast when the conversion has a cost. -/
def convertArg (k : Kind) (a : TExpr) : TExpr := if ne (conversionCost a.kind (some k)) zero then .cast (some k) a else a

/-- src/ResolvExpr/CandidateFinder.cpp:283-560 (an argument that is not a tuple), 765-826, 736-762, 121-191: the version of a unary operator with parameter type `k`, applied to one candidate. -/
def apply1 (op : Op1) (k : Kind) (a : Cand) : Cand :=
  let cvt := addAssign zero (conversionCost a.expr.kind (some k))
  ⟨.un op k (convertArg k a.expr), addAssign (addAssign zero a.cost) cvt, cvt⟩

/-- src/ResolvExpr/CandidateFinder.cpp:283-560, 765-826, 736-762, 121-191: the version of a binary operator with parameter type `k`, applied to a pair of candidates. -/
def apply2 (op : Op2) (k : Kind) (a b : Cand) : Cand :=
  let cvt := addAssign (addAssign zero (conversionCost a.expr.kind (some k))) (conversionCost b.expr.kind (some k))
  ⟨.bin op k (convertArg k a.expr) (convertArg k b.expr), addAssign (addAssign (addAssign zero b.cost) a.cost) cvt, cvt⟩

/-- src/ResolvExpr/CandidateFinder.cpp:1140-1158: one iteration of the loop that keeps only the cheapest intrinsic candidates. -/
def keepStep (st : Cost × List Cand) (w : Cand) : Cost × List Cand :=
  if w.cvtCost = infinity then st
  else
    let st := if lt w.cost st.1 then (w.cost, []) else st
    if eq w.cost st.1 then (st.1, st.2 ++ [w]) else st

/-- src/ResolvExpr/CandidateFinder.cpp:1118-1162 -/
def keepIntrinsic (found : List Cand) : List Cand := (found.foldl keepStep (infinity, [])).2

/-- src/ResolvExpr/CandidateFinder.cpp:1241-1325: the loop of a cast over the candidates of its argument. -/
def castStep (t : Option Kind) (st : Cost × List Cand) (c : Cand) : Cost × List Cand :=
  let this := conversionCost c.expr.kind t
  if this = infinity then st
  else
    let cost := addAssign c.cost this
    let st := if lt cost st.1 then (cost, []) else st
    if eq cost st.1 then (st.1, st.2 ++ [⟨.cast t c.expr, cost, zero⟩]) else st

/-- src/ResolvExpr/CandidateFinder.cpp:1210-1330 -/
def castCands (t : Option Kind) (cands : List Cand) : List Cand := (cands.foldl (castStep t) (infinity, [])).2

/-- src/ResolvExpr/CandidateFinder.cpp:1602-1642: a conditional expression. -/
def condCand (a b : Cand) : Cand :=
  let k := common a.expr.kind b.expr.kind
  ⟨.cond k (convertArg k a.expr) (convertArg k b.expr),
   addAssign (addAssign (Cost.add a.cost b.cost) (conversionCost a.expr.kind (some k))) (conversionCost b.expr.kind (some k)), zero⟩

/-- Insertion by cost. -/
def insertCost (c : Cand) : List Cand → List Cand
  | [] => [c]
  | d :: ds => if lt c.cost d.cost then c :: d :: ds else d :: insertCost c ds

/-- src/ResolvExpr/CandidateFinder.cpp:1898 (`std::sort`; the order of equal elements is unspecified there, here it is that of the list). -/
def sortCost (l : List Cand) : List Cand := l.foldl (fun acc c => insertCost c acc) []

/-- The map from types to the best candidate and its mark (src/ResolvExpr/CandidateFinder.cpp:1887-1896). -/
abbrev Selected := List (Option Kind × Cand × Bool)

/-- src/ResolvExpr/CandidateFinder.cpp:1941-1975: the entry of the type is replaced, marked ambiguous, left, or added. -/
def record (c : Cand) : Selected → Selected
  | [] => [(c.expr.kind?, c, false)]
  | (k, d, amb) :: rest =>
    if k = c.expr.kind? then
      if lt c.cost d.cost || (eq c.cost d.cost && lt c.cvtCost d.cvtCost) then (k, c, false) :: rest
      else if eq c.cost d.cost && eq c.cvtCost d.cvtCost then (k, d, true) :: rest
      else (k, d, amb) :: rest
    else (k, d, amb) :: record c rest

/-- src/ResolvExpr/CandidateFinder.cpp:1899-1990: the loop and the report of the candidates not marked. The test of lines 1908-1915 skips candidates that `record` leaves out too. -/
def prune (l : List Cand) : List Cand :=
  (((sortCost l).foldl (fun s c => record c s) []).filter fun e => ! e.2.2).map (·.2.1)

/-- src/ResolvExpr/CandidateFinder.cpp:2047-2088: candidates are pruned; an error when there are none (`none`). -/
def finish (l : List Cand) : Option (List Cand) :=
  if l = [] then none else let p := prune l; if p = [] then none else some p

/-- src/ResolvExpr/CandidateFinder.cpp:1996-2106 (`find`, with `Finder::postvisit` for the expression, lines 977-1191, 1210-1330, 1425-1474, 1578-1643): the candidates of an expression,
`none` for a compilation error. `o1` and `o2` are the versions of each operator in the order of the symbol table. -/
def find (o1 : Op1 → List Kind) (o2 : Op2 → List Kind) : Expr → Option (List Cand)
  | .name ks => if ks = [] then none else some (ks.map fun k => ⟨.var k, zero, zero⟩)
  | .un op a => do
    let ca ← find o1 o2 a
    finish (keepIntrinsic ((o1 op).flatMap fun k => ca.map fun x => apply1 op k x))
  | .bin op a b => do
    let ca ← find o1 o2 a
    let cb ← find o1 o2 b
    finish (keepIntrinsic ((o2 op).flatMap fun k => ca.flatMap fun x => cb.map fun y => apply2 op k x y))
  | .cast t a => do
    let ca ← find o1 o2 a
    finish (castCands (some t) ca)
  | .cond a b => do
    let ca ← find o1 o2 a
    let cb ← find o1 o2 b
    finish (ca.flatMap fun x => cb.map fun y => condCand x y)

/-- src/ResolvExpr/Resolver.cpp:144-171: the cheapest candidates. -/
def winStep (w : List Cand) (c : Cand) : List Cand :=
  match w with
  | [] => [c]
  | d :: _ => if compare c.cost d.cost > 0 then w else if compare c.cost d.cost < 0 then [c] else w ++ [c]

/-- src/ResolvExpr/Resolver.cpp:115-197 (`findUnfinishedKindExpression`): the single best candidate; an error when there is none or more than one. -/
def choose (l : List Cand) : Option TExpr :=
  match l.foldl winStep [] with
  | [c] => some c.expr
  | _ => none

/-- src/ResolvExpr/Resolver.cpp:286-306 (`findSingleExpression`): an expression whose type is taken as it is found. -/
def resolve (o1 : Op1 → List Kind) (o2 : Op2 → List Kind) (e : Expr) : Option TExpr := (find o1 o2 e).bind choose

/-- src/ResolvExpr/Resolver.cpp:254-271 (`resolveInVoidContext`): an expression used as a statement. -/
def resolveStmt (o1 : Op1 → List Kind) (o2 : Op2 → List Kind) (e : Expr) : Option TExpr := ((find o1 o2 e).bind fun c => finish (castCands none c)).bind choose

end Verif.Arith
