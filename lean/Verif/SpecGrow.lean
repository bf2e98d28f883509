/-
C48: what it means that a parser has grown: more optional members, more alternatives.
-/
import Verif.Spec

namespace SJ

mutual
/-- The value `v'` of the grown parser is the value `v` of the old one, with the default values of the new members in the tuples. -/
inductive GrownV : Shape → Shape → Val → Val → Prop
  | scalar {ty x} : GrownV (.value ty) (.value ty) (.sc x) (.sc x)
  | arr {e e' vs vs'} (h : GrownVl e e' vs vs') : GrownV (.array true e) (.array true e') (.arr vs) (.arr vs')
  | map {e e' es es'} (h : GrownVe e e' es es') : GrownV (.map true e) (.map true e') (.map es) (.map es')
  | tup {u u' ms ms' vs vs'} (h : GrownVs ms ms' vs vs') : GrownV (.object .auto u ms) (.object .auto u' ms') (.tup vs) (.tup vs')
  | custom {u u' ms ms' v} : GrownV (.object .custom u ms) (.object .custom u' ms') v v
  | alt {ty tm ms ms' n i i' sh sh' v v'} (old : ms[n]? = some (i, sh)) (new : ms'[n]? = some (i', sh')) (h : GrownV sh sh' v v') :
      GrownV (.union ty tm true ms) (.union ty tm true ms') (.alt n v) (.alt n v')
/-- The elements of a vector. -/
inductive GrownVl : Shape → Shape → List Val → List Val → Prop
  | nil {e e'} : GrownVl e e' [] []
  | cons {e e' v v' vs vs'} (head : GrownV e e' v v') (tail : GrownVl e e' vs vs') : GrownVl e e' (v :: vs) (v' :: vs')
/-- The entries of a map: the same keys. -/
inductive GrownVe : Shape → Shape → List (String × Val) → List (String × Val) → Prop
  | nil {e e'} : GrownVe e e' [] []
  | cons {e e' k v v' es es'} (head : GrownV e e' v v') (tail : GrownVe e e' es es') : GrownVe e e' ((k, v) :: es) ((k, v') :: es')
/-- The elements of a tuple: those of the new members are their defaults. -/
inductive GrownVs : List (MInfo × Shape) → List (MInfo × Shape) → List Val → List Val → Prop
  | nil : GrownVs [] [] [] []
  | extra {i sh d ms vs} (dflt : i.dflt = some d) (tail : GrownVs [] ms [] vs) : GrownVs [] ((i, sh) :: ms) [] (d :: vs)
  | cons {i i' sh sh' ms ms' v v' vs vs'} (head : GrownV sh sh' v v') (tail : GrownVs ms ms' vs vs') :
      GrownVs ((i, sh) :: ms) ((i', sh') :: ms') (v :: vs) (v' :: vs')
end

mutual
/-- `Extends a b`: `b` is `a` but
* objects that refuse unknown members may have more members at the end, all of them optional, and with a default value in an `SAutoObject`,
* unions may have more members at the end,
* unknown members may be ignored, members may be optional or have a default, as in `Relaxes`. A default value of a member whose parser has grown
  has grown itself. -/
inductive Extends : Shape → Shape → Prop
  | value {ty} : Extends (.value ty) (.value ty)
  | array {stored e e'} (h : Extends e e') : Extends (.array stored e) (.array stored e')
  | map {stored e e'} (h : Extends e e') : Extends (.map stored e) (.map stored e')
  | object {kind u u' ms ms' more} (unknown : u' = true → u = true) (members : ExtendsMs ms ms') (refuses : more ≠ [] → u = true)
      (optional : ∀ x ∈ more, x.1.optional = true) (dflt : kind = .auto → ∀ x ∈ more, ∃ v, x.1.dflt = some v) :
      Extends (.object kind u ms) (.object kind u' (ms' ++ more))
  | union {ty tm stored ms ms' more} (members : ExtendsMs ms ms') : Extends (.union ty tm stored ms) (.union ty tm stored (ms' ++ more))
/-- Member by member. -/
inductive ExtendsMs : List (MInfo × Shape) → List (MInfo × Shape) → Prop
  | nil : ExtendsMs [] []
  | cons {i i' sh sh' ms ms'} (name : i'.name = i.name) (optional : i.optional = true → i'.optional = true)
      (dflt : ∀ v, i.dflt = some v → ∃ v', i'.dflt = some v' ∧ GrownV sh sh' v v') (parser : Extends sh sh') (rest : ExtendsMs ms ms') :
      ExtendsMs ((i, sh) :: ms) ((i', sh') :: ms')
end

mutual
/-- What the grown parser holds (`d'`) is what the old one held (`d`), and its new members hold nothing. -/
inductive GrownD : Shape → Shape → D → D → Prop
  | unset {a b} : GrownD a b .unset .unset
  | done {a b} : GrownD a b .done .done
  | val {a b v v'} (h : GrownV a b v v') : GrownD a b (.val v) (.val v')
  | obj {kind u u' ms ms' ds ds'} (h : GrownDs ms ms' ds ds') : GrownD (.object kind u ms) (.object kind u' ms') (.obj none ds) (.obj none ds')
  | custom {u u' ms ms' w ds ds'} (h : GrownDs ms ms' ds ds') :
      GrownD (.object .custom u ms) (.object .custom u' ms') (.obj (some w) ds) (.obj (some w) ds')
  | alt {ty tm stored ms ms' n i i' sh sh' d d'} (old : ms[n]? = some (i, sh)) (new : ms'[n]? = some (i', sh')) (h : GrownD sh sh' d d') :
      GrownD (.union ty tm stored ms) (.union ty tm stored ms') (.alt n d) (.alt n d')
/-- The members. -/
inductive GrownDs : List (MInfo × Shape) → List (MInfo × Shape) → List D → List D → Prop
  | nil : GrownDs [] [] [] []
  | extra {x ms ds} (tail : GrownDs [] ms [] ds) : GrownDs [] (x :: ms) [] (.unset :: ds)
  | cons {i i' sh sh' ms ms' d d' ds ds'} (head : GrownD sh sh' d d') (tail : GrownDs ms ms' ds ds') :
      GrownDs ((i, sh) :: ms) ((i', sh') :: ms') (d :: ds) (d' :: ds')
end

end SJ
