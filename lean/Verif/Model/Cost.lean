import Verif.Model.Base
/-!
Model of the resolution cost (src/ResolvExpr/Cost.hpp). A cost is its 64-bit word `all`; the eight components are its bytes (little-endian, lines 30-43).
-/
namespace Verif.Cost
open Verif

/-- Cost.hpp:28-46: the word of a cost. -/
structure Cost where
  all : Nat
  deriving DecidableEq, Repr

/-- Byte `k` of the word (byte 0 is the least significant). -/
def byte (c : Cost) (k : Nat) : Nat := c.all / 256 ^ k % 256

/-- Cost.hpp:47 -/
def correctb : Nat := 0xff
/-- Cost.hpp:48 -/
def correctw : Nat := 0xff00

/-- Cost.hpp:51-62 -/
def zero : Cost := ⟨0x000000000000ff00⟩
def infinity : Cost := ⟨0xffffffffffff00ff⟩
def unsafeC : Cost := ⟨0x010000000000ff00⟩
def implicitC : Cost := ⟨0x000100000100ff00⟩
def poly : Cost := ⟨0x000001000000ff00⟩
def safe : Cost := ⟨0x000000010000ff00⟩
def sign : Cost := ⟨0x000000000100ff00⟩
def var : Cost := ⟨0x000000000001ff00⟩
def spec : Cost := ⟨0x000000000000fe00⟩
def reference : Cost := ⟨0x000000000000ff01⟩

/-- Conversion of an `int` to `unsigned char`. -/
def uchar (x : Int) : Nat := (x % 256).toNat

/-- Cost.hpp:65-81: the parameters in the order of the constructor. -/
def mk8 (unsafeCost polyCost safeCost signCost implicitCost varCost specCost referenceCost : Int) : Cost :=
  ⟨uchar referenceCost + uchar (specCost + correctb) * 256 ^ 1 + uchar varCost * 256 ^ 2 + uchar signCost * 256 ^ 3 + uchar safeCost * 256 ^ 4 +
    uchar polyCost * 256 ^ 5 + uchar implicitCost * 256 ^ 6 + uchar unsafeCost * 256 ^ 7⟩

/-- Cost.hpp:83-90: the accessors. -/
def getUnsafe (c : Cost) : Int := byte c 7
def getImplicit (c : Cost) : Int := byte c 6
def getPoly (c : Cost) : Int := byte c 5
def getSafe (c : Cost) : Int := byte c 4
def getSign (c : Cost) : Int := byte c 3
def getVar (c : Cost) : Int := byte c 2
def getSpec (c : Cost) : Int := -((correctb : Int) - byte c 1)
def getReference (c : Cost) : Int := byte c 0

/-- Cost.hpp:95-99 -/
def compare (l r : Cost) : Int :=
  if l.all = infinity.all then 1
  else if r.all = infinity.all then -1
  else if l.all > r.all then 1 else if l.all = r.all then 0 else -1

/-- Unsigned 64-bit arithmetic. -/
def u64 (x : Int) : Nat := (x % 2 ^ 64).toNat

/-- Cost.hpp:104-112 (`operator+=`) -/
def addAssign (l r : Cost) : Cost :=
  if l.all = infinity.all then l
  else if r.all = infinity.all then infinity
  else ⟨u64 (l.all + u64 ((r.all : Int) - correctw))⟩

/-- Cost.hpp:114-152: an increment of byte `k`: aborts (assert) when the byte would exceed `UCHAR_MAX`. -/
def inc (k : Nat) (c : Cost) (i : Nat) : Outcome Cost :=
  if c.all = infinity.all then .ret c
  else if byte c k + i ≤ 255 then .ret ⟨c.all + i * 256 ^ k⟩ else .abort

/-- Cost.hpp:114-117, 119-122, 124-127, 129-132, 134-137, 139-142, 149-152 -/
def incUnsafe := inc 7
def incImplicit := inc 6
def incPoly := inc 5
def incSafe := inc 4
def incSign := inc 3
def incVar := inc 2
def incReference := inc 0

/-- Cost.hpp:144-147 -/
def decSpec (c : Cost) (d : Nat) : Outcome Cost :=
  if c.all = infinity.all then .ret c
  else if d ≤ byte c 1 then .ret ⟨c.all - d * 256⟩ else .abort

/-- Cost.hpp:157-159 -/
def eq (l r : Cost) : Bool := l.all = r.all
/-- Cost.hpp:161-163 -/
def ne (l r : Cost) : Bool := ! decide (l.all = r.all)

/-- Cost.hpp:165-169 -/
def lt (l r : Cost) : Bool :=
  if l.all = infinity.all then false
  else if r.all = infinity.all then true
  else l.all < r.all

/-- Cost.hpp:171-173 -/
def le (l r : Cost) : Bool := ! lt r l

/-- Cost.hpp:175-178 -/
def add (l r : Cost) : Cost :=
  if l.all = infinity.all ∨ r.all = infinity.all then infinity
  else ⟨u64 ((l.all + r.all : Int) - correctw)⟩

end Verif.Cost
