/-
C59: the order in which a hash table is enumerated. `KeyValueParser::setDispatcher` and `KeyValueParser::reset` (internals/key_value_parser.h 199-219) go through the members in the
order of `_parsers_map`, a `std::unordered_map`: it depends on the standard library, on the names, and on the history of the table. Here the order is any, each time and at each level.
-/
import Verif.SpecShared

namespace SJ

/-- The members of an object or union, with their indices: the entries of `_parsers_map`, in the order of the tuple. -/
def hashEntries (n : Nat) : List (MInfo × Shape) → List (Nat × Shape)
  | [] => []
  | (_, sh) :: ms => (n, sh) :: hashEntries (n + 1) ms

mutual
/-- `reset()` of the parser at `p` may lead from `h` to `h'`, if hash tables are enumerated in some order. The equations are those of `Shd.resetH`. -/
inductive Resets (ob : Path → Path) : Path → Shape → Heap → Heap → Prop
  | value {p ty h} : Resets ob p (.value ty) h (h.upd (ob p) Cell.baseReset)
  | ignore {p h} : Resets ob p .ignore h (h.upd (ob p) fun c => { c.baseReset with struct := [] })
  | object {p k u ms h h1 h2} (order : List (Nat × Shape)) : order.Perm (hashEntries 0 ms) → ResetsAll ob p order (h.upd (ob p) Cell.baseReset) h1 →
      Resets ob (.ign :: p) .ignore h1 h2 → Resets ob p (.object k u ms) h (match k with
        | .plain => h2
        | _ => h2.upd (ob p) fun c => { c with val := .init })
  | union {p ty tm stored ms h h1 h2} (order : List (Nat × Shape)) : order.Perm (hashEntries 0 ms) →
      ResetsAll ob p order ((h.upd (ob p) fun c => { c with curId := 0 }).upd (ob p) Cell.baseReset) h1 →
      Resets ob (.ign :: p) .ignore h1 h2 → Resets ob p (.union ty tm stored ms) h (if stored then h2.upd (ob p) fun c => { c with val := .init } else h2)
  | array {p stored e h h1} : Resets ob (.elem :: p) e (h.upd (ob p) Cell.baseReset) h1 →
      Resets ob p (.array stored e) h (if stored then h1.upd (ob p) fun c => { c with val := .arr [] } else h1)
  | map {p stored e h} :
      Resets ob p (.map stored e) h (if stored then (h.upd (ob p) Cell.baseReset).upd (ob p) fun c => { c with val := .map [] } else h.upd (ob p) Cell.baseReset)
/-- The loop over the entries. -/
inductive ResetsAll (ob : Path → Path) : Path → List (Nat × Shape) → Heap → Heap → Prop
  | nil {p h} : ResetsAll ob p [] h h
  | cons {p n sh rest h h1 h2} : Resets ob (.mem n :: p) sh h h1 → ResetsAll ob p rest h1 h2 → ResetsAll ob p ((n, sh) :: rest) h h2
end

mutual
/-- The same for `setDispatcher()`, after `Shd.setDispH`. -/
inductive Attaches (ob : Path → Path) : Path → Shape → Heap → Heap → Prop
  | value {p ty h} : Attaches ob p (.value ty) h (h.upd (ob p) fun c => { c with disp := true })
  | ignore {p h} : Attaches ob p .ignore h (h.upd (ob p) fun c => { c with disp := true })
  | array {p st e h} : Attaches ob p (.array st e) h (h.upd (ob p) fun c => { c with disp := true })
  | map {p st e h h1} : Attaches ob (.elem :: p) e (h.upd (ob p) fun c => { c with disp := true }) h1 → Attaches ob p (.map st e) h h1
  | object {p k u ms h h1 h2} (order : List (Nat × Shape)) : order.Perm (hashEntries 0 ms) → AttachesAll ob p order (h.upd (ob p) fun c => { c with disp := true }) h1 →
      Attaches ob (.ign :: p) .ignore h1 h2 → Attaches ob p (.object k u ms) h h2
  | union {p ty tm stored ms h h1 h2} (order : List (Nat × Shape)) : order.Perm (hashEntries 0 ms) → AttachesAll ob p order (h.upd (ob p) fun c => { c with disp := true }) h1 →
      Attaches ob (.ign :: p) .ignore h1 h2 → Attaches ob p (.union ty tm stored ms) h h2
inductive AttachesAll (ob : Path → Path) : Path → List (Nat × Shape) → Heap → Heap → Prop
  | nil {p h} : AttachesAll ob p [] h h
  | cons {p n sh rest h h1 h2} : Attaches ob (.mem n :: p) sh h h1 → AttachesAll ob p rest h1 h2 → AttachesAll ob p ((n, sh) :: rest) h h2
end

end SJ
