/-
Which parsers are empty (`isEmpty()`) after a document was read. Written from the documentation of `isEmpty`
("true if the parsed value was empty (null)"), without the parser classes.
-/
import Verif.SpecObjects

namespace SJ

/-- The value is empty: null, an object without fields, an array without elements other than null. -/
def Json.blank : Json → Bool
  | .null => true
  | .sc _ => false
  | .arr l => l.all Json.isNull
  | .obj fs => fs.isEmpty

/-- The value the member `n` got from these fields: that of the last field of its name; an embedded union gets all the fields
that remain from its own on, and no other member gets them. -/
def memberGets (ms : List (MInfo × Shape)) (n : Nat) : List (String × Json) → Option Json
  | [] => none
  | (k, v) :: fs =>
    match lookup (.str k) 0 ms with
    | none => memberGets ms n fs
    | some (n', m) =>
      if (embedded m v).isSome then
        if n' = n then some (.obj ((k, v) :: fs)) else none
      else (memberGets ms n fs).or (if n' = n then some v else none)

/-- The value the element parser of a map got last. -/
def elementGets (e : Shape) : List (String × Json) → Option Json
  | [] => none
  | (k, v) :: fs =>
    if (embedded e v).isSome then some (.obj ((k, v) :: fs))
    else (elementGets e fs).or (some v)

/-- The value that the parser inside `sh` reached by one step got last while `sh` read `j`, if it got one. An alternative of a union
gets the fields after the type member. -/
def part : Shape → Json → Step → Option Json
  | .object _ _ ms, .obj fs, .mem n => memberGets ms n fs
  | .map _ e, .obj fs, .elem => elementGets e fs
  | .union _ _ _ ms, .obj ((_, .sc x) :: fs), .mem n => if (lookup x 0 ms).map (·.1) = some n then some (.obj fs) else none
  | .array _ _, .arr l, .elem => l.getLast?
  | _, _, _ => none

/-- The parsers that are emptied whenever `sh` starts a new value: all inside it but those inside maps. -/
def emptied : Shape → List Step → Bool
  | _, [] => true
  | .map _ _, _ :: _ => false
  | _, .ign :: _ => false
  | sh, st :: r =>
    match sh.child st with
    | some c => emptied c r
    | none => false

/-- Whether the parser inside `sh` that is reached by these steps (outermost first) is empty after `sh` has read `j`: it is iff the
value it got last is empty, and it is if it got none. (`none`: not said. The element parser of a map that got no element may still show the
element of an earlier map.) -/
def emptyAfter (sh : Shape) (j : Json) : List Step → Option Bool
  | [] => some j.blank
  | st :: r =>
    match part sh j st, sh.child st with
    | some v, some c => emptyAfter c v r
    | _, _ => if emptied sh (st :: r) then some true else none

/-- The parsers whose value is never empty: values, objects and unions. (An array or map may be set and empty.) -/
def Shape.fillable : Shape → Bool
  | .value _ => true
  | .object _ _ _ => true
  | .union _ _ _ _ => true
  | _ => false

end SJ
