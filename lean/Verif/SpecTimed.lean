/-
Vocabulary for C45: at which token of a document each callback is due.
-/
import Verif.SpecCalls

namespace SJ

mutual
/-- The list `ends sh p j`, where each entry carries the position of the token at which it is due: the token that ends the value. Positions
count the tokens from `i`, the position of the first token of the value. -/
def timed (sh : Shape) (p : Path) (i : Nat) : Json → List (Nat × End)
  | .null => []
  | .sc _ =>
    match sh with
    | .value _ => [(i, .finish p)]
    | _ => []
  | .arr l =>
    match sh with
    | .array _ e => timedElems e p (i + 1) l ++ [(i + 1 + (elemEvents l).length, .finish p)]
    | _ => []
  | .obj fs => timedFields sh p (i + 1) false fs
/-- The rest of an object; `i` is the position of the next field name, or of the closing brace if there are no more fields. -/
def timedFields (sh : Shape) (p : Path) (i : Nat) (ne : Bool) : List (String × Json) → List (Nat × End)
  | [] =>
    match sh with
    | .object _ _ _ => if ne then [(i, .finish p)] else []
    | .map _ _ => [(i, .finish p)]
    | _ => []
  | (k, v) :: fs =>
    match sh with
    | .object _ _ ms =>
      match lookup (.str k) 0 ms with
      | none => timedFields sh p (i + 1 + (events v).length) true fs
      | some (n, m) =>
        match embedded m v with
        | none => timed m (.mem n :: p) (i + 1) v ++ timedFields sh p (i + 1 + (events v).length) true fs
        | some (_, _, ms', x) =>
          match lookup x 0 ms' with
          | none => []
          | some (a, alt) =>
            timedFields alt (.mem a :: .mem n :: p) (i + 2) false fs ++
              [(i + 2 + (fieldEvents fs).length, .finish (.mem n :: p)), (i + 2 + (fieldEvents fs).length, .finish p)]
    | .union _ _ _ ms =>
      match v with
      | .sc x =>
        match lookup x 0 ms with
        | none => []
        | some (a, alt) => timedFields alt (.mem a :: p) (i + 2) false fs ++ [(i + 2 + (fieldEvents fs).length, .finish p)]
      | _ => []
    | .map _ e =>
      match embedded e v with
      | none =>
        timed e (.elem :: p) (i + 1) v ++ (i + (events v).length, .element p k) :: timedFields sh p (i + 1 + (events v).length) true fs
      | some (_, _, ms', x) =>
        match lookup x 0 ms' with
        | none => []
        | some (a, alt) =>
          timedFields alt (.mem a :: .elem :: p) (i + 2) false fs ++
            [(i + 2 + (fieldEvents fs).length, .finish (.elem :: p)), (i + 2 + (fieldEvents fs).length, .element p k),
              (i + 2 + (fieldEvents fs).length, .finish p)]
    | _ => []
def timedElems (e : Shape) (p : Path) (i : Nat) : List Json → List (Nat × End)
  | [] => []
  | j :: l => timed e (.elem :: p) i j ++ timedElems e p (i + (events j).length) l
end

/-- The entries that are due at one of the tokens before position `n`. -/
def dueBefore (n : Nat) (l : List (Nat × End)) : List End := (l.filter fun x => x.1 < n).map (·.2)

/-- The entries that are due at the token at position `n`. -/
def dueAt (n : Nat) (l : List (Nat × End)) : List End := (l.filter fun x => x.1 = n).map (·.2)

end SJ
