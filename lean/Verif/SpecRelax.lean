/-
C46: what it means that a parser is a relaxed version of another one, and which errors relaxing can take away.
-/
import Verif.Model.Parsers

namespace SJ

mutual
/-- `Relaxes a b`: `b` is composed of the same parsers as `a`, with the same member names, but
* unknown members may be ignored by `b` where `a` refuses them (`Reaction::Ignore` for `Reaction::Error`),
* members may be optional in `b` that are mandatory in `a`,
* members may have a default value in `b` that have none in `a`. -/
inductive Relaxes : Shape → Shape → Prop
  | value {ty} : Relaxes (.value ty) (.value ty)
  | ignore : Relaxes .ignore .ignore
  | object {kind u u' ms ms'} (hu : u' = true → u = true) (hm : RelaxesMs ms ms') : Relaxes (.object kind u ms) (.object kind u' ms')
  | union {ty tm stored ms ms'} (hm : RelaxesMs ms ms') : Relaxes (.union ty tm stored ms) (.union ty tm stored ms')
  | array {stored e e'} (he : Relaxes e e') : Relaxes (.array stored e) (.array stored e')
  | map {stored e e'} (he : Relaxes e e') : Relaxes (.map stored e) (.map stored e')
/-- The same for the members. -/
inductive RelaxesMs : List (MInfo × Shape) → List (MInfo × Shape) → Prop
  | nil : RelaxesMs [] []
  | cons {i i' sh sh' ms ms'} (hn : i'.name = i.name) (ho : i.optional = true → i'.optional = true)
      (hd : ∀ v, i.dflt = some v → i'.dflt = some v) (hs : Relaxes sh sh') (hm : RelaxesMs ms ms') :
      RelaxesMs ((i, sh) :: ms) ((i', sh') :: ms')
end

/-- The texts of the errors "there is a member nobody asked for" and "a member is missing". -/
inductive Complaint : String → Prop
  /-- internals/key_value_parser.h 243 -/
  | unknown (name : String) : Complaint ("Unexpected member " ++ name)
  /-- object.h 284, s_auto_object.h 290 -/
  | mandatory (name : String) : Complaint ("Mandatory member " ++ name ++ " is not present")
  /-- s_auto_object.h 285 -/
  | noDefault (name : String) : Complaint ("Optional member " ++ name ++ " does not have a default value")
  /-- union.h 382, s_union.h 323 -/
  | mandatoryAlt (n : Nat) : Complaint ("Mandatory member #" ++ toString n ++ " is not present")
  /-- s_union.h 317 -/
  | noDefaultAlt (n : Nat) : Complaint ("Optional member #" ++ toString n ++ " does not have a default value")
  /-- s_auto_object.h 258, s_union.h 284 -/
  | wrapped {msg : String} (h : Complaint msg) : Complaint ("Can not set value: " ++ cText msg)

/-- Such a text as `sjparserError()` shows it: up to the first zero byte. -/
def Complains (text : String) : Prop := ∃ msg, Complaint msg ∧ text = cText msg

end SJ
