/-
Parser objects that stand at several places of a tree; histories of such a tree, with callbacks that reach everywhere.
-/
import Verif.Model.Shared
import Verif.SpecHistory
import Verif.SpecSession

namespace SJ

/-- `ob` tells which parser object stands at each place of the tree `R`. The same object has the same type wherever it stands, and the same members. -/
structure Places (R : Shape) (ob : Path → Path) : Prop where
  same : ∀ p q, ob p = ob q → R.at p = R.at q
  step : ∀ p q st, ob p = ob q → ob (st :: p) = ob (st :: q)
  name : ∀ p, ob (ob p) = ob p

/-- The parser object at `src` is also put (by reference) at the place `dst`; all the others are as before. -/
def alsoAt (src dst : Path) (ob : Path → Path) : Path → Path := fun p =>
  if dst.isSuffixOf p then ob (p.take (p.length - dst.length) ++ src) else ob p

/-- Callbacks that keep to their arguments, as callbacks that could do more: those that get a value pop nothing, those that get a parser pop parsers inside it. -/
def far (E : Env) : FarEnv where
  onFinish := fun p => (E.onFinish p).map fun cb log arg _ =>
    let out := cb log arg
    { verdict := out.verdict, acts := match arg with | .val _ => [] | .parser _ => out.pops.map fun rel => .pop (rel ++ p), newVal := out.newVal }
  onElement := fun p => (E.onElement p).map fun cb log key arg _ =>
    let out := cb log key arg
    { verdict := out.verdict, acts := out.pops.map fun rel => .pop (rel ++ .elem :: p), newVal := out.newVal }
  fmtDbl := E.fmtDbl

namespace Shd

/-- As `SJ.History`: the state `s` is reachable by using the tree `R` with the objects `ob`. -/
inductive History (ob : Path → Path) (R : Shape) : St → Prop
  | init : History ob R (init ob R)
  | tokens {E : FarEnv} {s s' : St} (ts : List Token) : History ob R s → run ob E R ts s = .ok () s' → History ob R s'
  | failed {E : FarEnv} {s s' : St} (ts : List Token) (e : Exn) : History ob R s → run ob E R ts s = .throw e s' → History ob R s'
  | restart {s : St} : History ob R s → History ob R s.restart
  | pop {s s' : St} {p : Path} {sh : Shape} {v : Val} : History ob R s → R.at p = some sh → sh.isStorage = true →
      pop' (ob p) s = .ok v s' → History ob R s'
  | reset {s : St} {p : Path} {sh : Shape} : History ob R s → R.at p = some sh → History ob R (reset' ob p sh s)

/-- As `SJ.Used`: everything a user can do with a parser whose tree is `R` with the objects `ob`. -/
inductive Used (Y : Yajl) (ob : Path → Path) (R : Shape) : PSt Y → Prop
  | init : Used Y ob R (start ob R Y)
  | parsed {E : FarEnv} {s s' : PSt Y} {m : Mem} {p : Ptr} {len : Nat} : Used Y ob R s → parse ob E R Y m p len s = .ok () s' → Used Y ob R s'
  | refused {E : FarEnv} {s s' : PSt Y} {m : Mem} {p : Ptr} {len : Nat} {x : Thrown} : Used Y ob R s → parse ob E R Y m p len s = .throw x s' → Used Y ob R s'
  | finished {E : FarEnv} {s s' : PSt Y} {m : Mem} : Used Y ob R s → finishDoc ob E R Y m s = .ok () s' → Used Y ob R s'
  | unfinished {E : FarEnv} {s s' : PSt Y} {m : Mem} {x : Thrown} : Used Y ob R s → finishDoc ob E R Y m s = .throw x s' → Used Y ob R s'
  | pop {s : PSt Y} {st : St} {p : Path} {sh : Shape} {v : Val} : Used Y ob R s → R.at p = some sh → sh.isStorage = true →
      pop' (ob p) s.st = .ok v st → Used Y ob R { s with st := st }
  | reset {s : PSt Y} {p : Path} {sh : Shape} : Used Y ob R s → R.at p = some sh → Used Y ob R { s with st := reset' ob p sh s.st }

end Shd

end SJ
