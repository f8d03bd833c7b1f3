import Verif.Model.ObjLife
/-!
Lifetime of objects as a programmer sees it: which objects exist where is a
matter of the text of the function alone.
-/
namespace ObjLife

mutual
/-- For each expression of a statement: its number, its temporaries and the
objects whose declarations are in scope there, the newest first. -/
def places (cur : List Nat) : S → List (Nat × List Nat × List Nat)
  | .expr a ts => [(a, ts, cur)]
  | .block b => placesB cur b
  | .ite a ts s t => (a, ts, cur) :: (places cur s ++ places cur t)
  | .loop a ts s => (a, ts, cur) :: places cur s
  | .lab _ s => places cur s
  | _ => []
def placesB (cur : List Nat) : B → List (Nat × List Nat × List Nat)
  | .nil => []
  | .decl _ x obj b => placesB (if obj then x :: cur else cur) b
  | .tdecl _ b => placesB cur b
  | .stmt s b => places cur s ++ placesB cur b
end

mutual
/-- The variables declared. -/
def declared : S → List Nat
  | .block b => declaredB b
  | .ite _ _ s t => declared s ++ declared t
  | .loop _ _ s => declared s
  | .lab _ s => declared s
  | _ => []
def declaredB : B → List Nat
  | .nil => []
  | .decl _ x _ b => x :: declaredB b
  | .tdecl _ b => declaredB b
  | .stmt s b => declared s ++ declaredB b
end

mutual
/-- The targets of gotos. -/
def targets : S → List Nat
  | .goto l => [l]
  | .block b => targetsB b
  | .ite _ _ s t => targets s ++ targets t
  | .loop _ _ s => targets s
  | .lab _ s => targets s
  | _ => []
def targetsB : B → List Nat
  | .nil => []
  | .decl _ _ _ b => targetsB b
  | .tdecl _ b => targetsB b
  | .stmt s b => targets s ++ targetsB b
end

/-- The statement is not an expression with temporaries. -/
def plain : S → Bool
  | .expr _ ts => ts.isEmpty
  | .lab _ s => plain s
  | _ => true

mutual
/-- The statements covered: no computed goto, no temporaries in conditions, none
in an expression that has a label.  (`eval`, `ctor` and `tdecl` do not occur in
source programs.)  The temporaries of an expression have names of their own. -/
def covered (names : List Nat) : S → Bool
  | .expr _ ts => decide ts.Nodup && ts.all fun t => !names.contains t
  | .eval _ _ => false
  | .ctor _ => false
  | .computed _ => false
  | .block b => coveredB names b
  | .ite _ ts s t => ts.isEmpty && covered names s && covered names t
  | .loop _ ts s => ts.isEmpty && covered names s
  | .lab _ s => plain s && covered names s
  | _ => true
def coveredB (names : List Nat) : B → Bool
  | .nil => true
  | .decl _ _ _ b => coveredB names b
  | .tdecl _ _ => false
  | .stmt s b => covered names s && coveredB names b
end

/-- A legal function body: variables have different names, labels too, every
label used is defined. -/
structure Legal (p : B) : Prop where
  vars : (declaredB p).Nodup
  labels : ((labelsB [] p).map Prod.fst).Nodup
  gotos : ∀ l ∈ targetsB p, l ∈ (labelsB [] p).map Prod.fst

end ObjLife
