/-
A parser used inside of another one and the same parser used alone (C71).
-/
import Verif.SpecActive

namespace SJ

/-- A call for a parser of a tree, as it is seen when this tree is inside of another one at `p`. -/
def Ev.under (p : Path) : Ev → Ev
  | .finish q d => .finish (q ++ p) d
  | .element q k d => .element (q ++ p) k d

/-- The callbacks of the parser at `p` and of those inside of it, for when this parser is used alone. They are functions of the calls so far: those `before`, and the
ones of the parser itself. -/
def Handlers.part (F : Handlers) (p : Path) (before : List Ev) : Handlers where
  onFinish q := (F.onFinish (q ++ p)).map fun f l d => f (l.map (Ev.under p) ++ before) d
  onElement q := (F.onElement (q ++ p)).map fun f l k d => f (l.map (Ev.under p) ++ before) k d
  fmtDbl := F.fmtDbl

/-- The parser `R` reads these documents one after another, all of them successfully: first in the state `s`, in the end it is in the state `t`, and in these
states after each document. -/
inductive ReadsEach (E : Env) (R : Shape) : List Json → St → List St → St → Prop
  | nil (s : St) : ReadsEach E R [] s [] s
  | cons {j : Json} {js : List Json} {s s1 t : St} {ts : List St} : run E R (events j) s = .ok () s1 → ReadsEach E R js s1.restart ts t →
      ReadsEach E R (j :: js) s (s1 :: ts) t

end SJ
