/-
C64: as long as there is no error the document can still be completed. Trees of which this is true.
-/
import Verif.SpecConform

namespace SJ

/-- Parsers that take the fields of a JSON object: the possible alternatives of a union. -/
def Shape.takesFields : Shape → Bool
  | .object _ _ _ => true
  | .map _ _ => true
  | .union _ _ _ _ => true
  | _ => false

mutual
/-- Trees in which nothing stands in the way of a document that is still to be completed: objects have at least one member, unions have a type member and at
least one alternative, all alternatives take the fields of an object, and the type value of the first is equal to itself (no NaN). -/
def Shape.completable : Shape → Bool
  | .value _ => true
  | .ignore => false
  | .object _ _ ms => !ms.isEmpty && completableMs ms
  | .union _ tm _ ms => tm != "" && (match ms with
      | [] => false
      | (i, _) :: _ => i.name.cppEq i.name) && ms.all (fun x => x.2.takesFields) && completableMs ms
  | .array _ e => e.completable
  | .map _ e => e.completable
def completableMs : List (MInfo × Shape) → Bool
  | [] => true
  | (_, sh) :: ms => sh.completable && completableMs ms
end

/-- The document `j` begins with the tokens `a`. -/
def BeginsWith (j : Json) (a : List Token) : Prop := ∃ b, events j = a ++ b

end SJ
