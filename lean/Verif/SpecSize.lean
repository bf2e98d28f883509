/-
How much memory a parser tree needs: sizes of values and tokens, and bounds that depend on the tree, not on the documents.
-/
import Verif.SpecShared
import Verif.Spec

namespace SJ

/-- The bytes of a string in a scalar. -/
def Scalar.bytes : Scalar → Nat
  | .str s => s.utf8ByteSize
  | _ => 0

mutual
/-- The size of a value: one unit for each (sub)value and entry, and the bytes of all strings. -/
def Val.size : Val → Nat
  | .sc x => 1 + x.bytes
  | .arr l => 1 + sizeL l
  | .tup l => 1 + sizeL l
  | .map l => 1 + sizeE l
  | .alt _ v => 1 + v.size
  | .init => 1
  | .user _ l => 1 + sizeL l
  | .moved => 1
def sizeL : List Val → Nat
  | [] => 0
  | v :: l => v.size + sizeL l
def sizeE : List (String × Val) → Nat
  | [] => 0
  | (k, v) :: l => 1 + k.utf8ByteSize + v.size + sizeE l
end

/-- The bytes of the string a token carries. -/
def Token.bytes : Token → Nat
  | .scalar x => x.bytes
  | .mapKey k => k.utf8ByteSize
  | _ => 0

/-- The size of a member's default value. -/
def MInfo.dfltSize (i : MInfo) : Nat :=
  match i.dflt with
  | some v => v.size
  | none => 0

mutual
/-- The value the parser stores has a fixed number of parts: no `SArray` or `SMap` contributes to it. -/
def Shape.flat : Shape → Bool
  | .object .auto _ ms => flatMs ms
  | .union _ _ true ms => flatMs ms
  | .array true _ => false
  | .map true _ => false
  | _ => true
def flatMs : List (MInfo × Shape) → Bool
  | [] => true
  | (_, sh) :: ms => sh.flat && flatMs ms
end

mutual
/-- The size the value of a `flat` parser can have, if no string is longer than `L` and no value assigned by a callback (to an `SCustomObject`) larger than `V`. -/
def cap (L V : Nat) : Shape → Nat
  | .value _ => 1 + L
  | .object .auto _ ms => 1 + capMs L V ms
  | .object .custom _ _ => 1 + V
  | .union _ _ true ms => 2 + capMs L V ms
  | _ => 1
def capMs (L V : Nat) : List (MInfo × Shape) → Nat
  | [] => 0
  | (i, sh) :: ms => cap L V sh + i.dfltSize + capMs L V ms
end

/-- No callback assigns a value larger than `V`. -/
def FarEnv.Modest (E : FarEnv) (V : Nat) : Prop :=
  ∀ p cb l a h v, E.onFinish p = some cb → (cb l a h).newVal = some v → v.size ≤ V

/-- No callback assigns a value larger than `V`. -/
def Env.Modest (E : Env) (V : Nat) : Prop :=
  ∀ p cb l a v, E.onFinish p = some cb → (cb l a).newVal = some v → v.size ≤ V

namespace Shd

/-- As `History`, with tokens whose strings are not longer than `L` and callbacks that assign no value larger than `V`. -/
inductive Modest (ob : Path → Path) (R : Shape) (L V : Nat) : St → Prop
  | init : Modest ob R L V (init ob R)
  | tokens {E : FarEnv} {s s' : St} (ts : List Token) : Modest ob R L V s → (∀ t ∈ ts, t.bytes ≤ L) → E.Modest V → run ob E R ts s = .ok () s' → Modest ob R L V s'
  | failed {E : FarEnv} {s s' : St} (ts : List Token) (e : Exn) : Modest ob R L V s → (∀ t ∈ ts, t.bytes ≤ L) → E.Modest V → run ob E R ts s = .throw e s' →
      Modest ob R L V s'
  | restart {s : St} : Modest ob R L V s → Modest ob R L V s.restart
  | pop {s s' : St} {p : Path} {sh : Shape} {v : Val} : Modest ob R L V s → R.at p = some sh → sh.isStorage = true →
      pop' (ob p) s = .ok v s' → Modest ob R L V s'
  | reset {s : St} {p : Path} {sh : Shape} : Modest ob R L V s → R.at p = some sh → Modest ob R L V (reset' ob p sh s)

end Shd

mutual
/-- How many arrays and objects are nested in the value. -/
def Json.nesting : Json → Nat
  | .null => 0
  | .sc _ => 0
  | .arr l => 1 + nestingL l
  | .obj fs => 1 + nestingF fs
def nestingL : List Json → Nat
  | [] => 0
  | j :: l => max j.nesting (nestingL l)
def nestingF : List (String × Json) → Nat
  | [] => 0
  | (_, j) :: fs => max j.nesting (nestingF fs)
end

/-- A parser that is fed any number of documents of any length, the first list being what is left of the current one: nested at most `D` deep, with strings and keys of at most
`L` bytes, and with callbacks that assign no value larger than `V`. Any document may be left unfinished or fail, values may be taken out and parsers reset at any time. -/
inductive Streaming (R : Shape) (L V D : Nat) : List Token → St → Prop
  | init (j : Json) : j.nesting ≤ D → (∀ t ∈ events j, t.bytes ≤ L) → Streaming R L V D (events j) (St.init R)
  | next {rest : List Token} {s : St} (j : Json) : Streaming R L V D rest s → j.nesting ≤ D → (∀ t ∈ events j, t.bytes ≤ L) → Streaming R L V D (events j) s.restart
  | token {E : Env} {t : Token} {rest : List Token} {s s' : St} : Streaming R L V D (t :: rest) s → E.Modest V → dispatch E R t s = .ok () s' → Streaming R L V D rest s'
  | failed {E : Env} {t : Token} {rest : List Token} {s s' : St} {e : Exn} : Streaming R L V D (t :: rest) s → E.Modest V → dispatch E R t s = .throw e s' →
      Streaming R L V D [] s'
  | pop {rest : List Token} {s s' : St} {p : Path} {sh : Shape} {v : Val} : Streaming R L V D rest s → R.at p = some sh → sh.isStorage = true → pop' p s = .ok v s' →
      Streaming R L V D rest s'
  | reset {rest : List Token} {s : St} {p : Path} {sh : Shape} : Streaming R L V D rest s → R.at p = some sh → Streaming R L V D rest (SJ.reset' p sh s)

/-- What a parser object holds that can vary in size: its value, the last key (maps), the open brackets (ignore parsers). -/
def Cell.held (c : Cell) : Nat := c.val.size + c.curKey.utf8ByteSize + c.struct.length

mutual
/-- What all parser objects of the tree hold. -/
def held (h : Heap) : Shape → Path → Nat
  | .value _, p => (h p).held
  | .ignore, p => (h p).held
  | .object _ _ ms, p => (h p).held + (h (.ign :: p)).held + heldMs h ms p 0
  | .union _ _ _ ms, p => (h p).held + (h (.ign :: p)).held + heldMs h ms p 0
  | .array _ e, p => (h p).held + held h e (.elem :: p)
  | .map _ e, p => (h p).held + held h e (.elem :: p)
def heldMs (h : Heap) : List (MInfo × Shape) → Path → Nat → Nat
  | [], _, _ => 0
  | (_, sh) :: ms, p, n => held h sh (.mem n :: p) + heldMs h ms p (n + 1)
end

mutual
/-- No `SArray` and no `SMap` in the tree. -/
def Shape.streams : Shape → Bool
  | .object _ _ ms => streamsMs ms
  | .union _ _ _ ms => streamsMs ms
  | .array st e => !st && e.streams
  | .map st e => !st && e.streams
  | _ => true
def streamsMs : List (MInfo × Shape) → Bool
  | [] => true
  | (_, sh) :: ms => sh.streams && streamsMs ms
end

mutual
/-- What all parser objects of the tree can hold. -/
def capacity (L V D : Nat) : Shape → Nat
  | .value ty => cap L V (.value ty) + L + D
  | .ignore => 1 + L + D
  | .object k u ms => cap L V (.object k u ms) + L + D + (1 + L + D) + capacityMs L V D ms
  | .union ty tm st ms => cap L V (.union ty tm st ms) + L + D + (1 + L + D) + capacityMs L V D ms
  | .array st e => cap L V (.array st e) + L + D + capacity L V D e
  | .map st e => cap L V (.map st e) + L + D + capacity L V D e
def capacityMs (L V D : Nat) : List (MInfo × Shape) → Nat
  | [] => 0
  | (_, sh) :: ms => capacity L V D sh + capacityMs L V D ms
end

/-! ### Sizes of documents -/

mutual
/-- The size of a document: one unit for each value and field, and the bytes of all strings. -/
def Json.size : Json → Nat
  | .null => 1
  | .sc x => 1 + x.bytes
  | .arr l => 1 + jsizeL l
  | .obj fs => 1 + jsizeF fs
def jsizeL : List Json → Nat
  | [] => 0
  | j :: l => j.size + jsizeL l
def jsizeF : List (String × Json) → Nat
  | [] => 0
  | (k, j) :: fs => 1 + k.utf8ByteSize + j.size + jsizeF fs
end

mutual
/-- The number of parsers in the tree plus the sizes of all default values. -/
def Shape.weight : Shape → Nat
  | .value _ => 1
  | .ignore => 1
  | .object _ _ ms => 1 + weightMs ms
  | .union _ _ _ ms => 1 + weightMs ms
  | .array _ e => 1 + e.weight
  | .map _ e => 1 + e.weight
def weightMs : List (MInfo × Shape) → Nat
  | [] => 0
  | (i, sh) :: ms => i.dfltSize + sh.weight + weightMs ms
end

end SJ
