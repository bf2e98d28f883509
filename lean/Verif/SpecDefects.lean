/-
Parser trees on which the known defects of this version of the library are never silent.
-/
import Verif.Spec

namespace SJ

def Shape.isUnion : Shape → Bool
  | .union _ _ _ _ => true
  | _ => false

def Shape.isArray : Shape → Bool
  | .array _ _ => true
  | _ => false

/-- `Object`, `SCustomObject`, `SAutoObject`, `Map` or `SMap`. -/
def Shape.isKeyed : Shape → Bool
  | .object _ _ _ => true
  | .map _ _ => true
  | _ => false

mutual
/-- In the tree
* the elements of an `Array` (which stores nothing) are not arrays;
* the elements of arrays are not unions;
* every union is an embedded one, and its members are objects or maps. -/
def Shape.tight : Shape → Bool
  | .value _ => true
  | .ignore => true
  | .object _ _ ms => tightMs ms
  | .union _ tm _ ms => tm == "" && ms.all (fun m => m.2.isKeyed) && tightMs ms
  | .array st e => e.tight && e.isUser && !e.isUnion && (st || !e.isArray)
  | .map _ e => e.tight
def tightMs : List (MInfo × Shape) → Bool
  | [] => true
  | (_, sh) :: ms => sh.tight && tightMs ms
end

/-- A tree whose root is not an (embedded) union, with no `Array` of arrays and no standalone unions. -/
def Shape.watertight (R : Shape) : Bool := R.tight && R.isUser && !R.isUnion

end SJ
