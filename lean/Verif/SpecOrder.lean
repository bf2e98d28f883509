/-
Documents that differ only by the order of the fields of the objects in them (C08).
-/
import Verif.SpecRound

namespace SJ

/-- `Reordered fixed j j'`: `j'` is `j` with the fields of any objects anywhere inside it in another order. Fields of the same name keep their order
among themselves, fields named in `fixed` keep their place. -/
inductive Reordered (fixed : List String) : Json → Json → Prop
  | refl (j) : Reordered fixed j j
  | trans {j j' j''} : Reordered fixed j j' → Reordered fixed j' j'' → Reordered fixed j j''
  /-- Two neighbouring fields trade places. -/
  | swap {pre post k v k' v'} : k ≠ k' → k ∉ fixed → k' ∉ fixed →
      Reordered fixed (.obj (pre ++ (k, v) :: (k', v') :: post)) (.obj (pre ++ (k', v') :: (k, v) :: post))
  /-- Inside an element of an array. -/
  | elem {pre post j j'} : Reordered fixed j j' → Reordered fixed (.arr (pre ++ j :: post)) (.arr (pre ++ j' :: post))
  /-- Inside the value of a field. -/
  | field {pre post k v v'} : Reordered fixed v v' → Reordered fixed (.obj (pre ++ (k, v) :: post)) (.obj (pre ++ (k, v') :: post))

mutual
/-- The names of the fields whose place matters to the parser: the type members of the unions in it, and the members of objects that are embedded
unions (the fields after it belong to the union). -/
def Shape.typeNames : Shape → List String
  | .object _ _ ms => typeNamesMs true ms
  | .union _ tm _ ms => (if tm = "" then [] else [tm]) ++ typeNamesMs false ms
  | .array _ e => e.typeNames
  | .map _ e => e.typeNames
  | _ => []
def typeNamesMs (inObject : Bool) : List (MInfo × Shape) → List String
  | [] => []
  | (i, sh) :: ms => (if inObject && sh.isEmbedded then [i.key] else []) ++ (sh.typeNames ++ typeNamesMs inObject ms)
end

mutual
/-- No map in the tree has embedded unions as its elements (there, any field can be the type field of one). -/
def Shape.plainMaps : Shape → Bool
  | .object _ _ ms => plainMapsMs ms
  | .union _ _ _ ms => plainMapsMs ms
  | .array _ e => e.plainMaps
  | .map _ e => !e.isEmbedded && e.plainMaps
  | _ => true
def plainMapsMs : List (MInfo × Shape) → Bool
  | [] => true
  | (_, sh) :: ms => sh.plainMaps && plainMapsMs ms
end

end SJ
