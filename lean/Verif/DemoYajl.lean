/-
A small JSON reader (integers, strings without escapes, the words true, false and null) as an instance of `Yajl`, used only by the examples that accompany
the theorems about `parse()` and `finish()`; and means to evaluate these functions.
-/
import Verif.SpecSession
import Verif.Demo

namespace SJ.Demo

/-- The token being read. -/
inductive Lexeme where
  | none
  | num (neg : Bool) (acc : Nat)
  | str (cs : List Char)
  | word (rest : List UInt8) (t : Token)

/-- What may come next. -/
inductive Want where
  | value | valueOrEnd | key | keyOrEnd | colon | separator | nothing
deriving DecidableEq

structure Reader where
  lex : Lexeme := .none
  want : Want := .value
  /-- open containers, `true`: object -/
  inside : List Bool := []

def Reader.valueRead (r : Reader) : Reader :=
  { r with lex := .none, want := if r.inside = [] then .nothing else .separator }

def Reader.structural (r : Reader) (b : UInt8) : Reader × List Token × Bool :=
  if b = 32 ∨ b = 10 then (r, [], true)
  else match r.want, b with
    | .nothing, _ => (r, [], false)
    | .colon, 58 => ({ r with want := .value }, [], true)
    | .separator, 44 => ({ r with want := if r.inside.head? = some true then .key else .value }, [], true)
    | .key, 34 => ({ r with lex := .str [] }, [], true)
    | .keyOrEnd, 34 => ({ r with lex := .str [] }, [], true)
    | w, 125 =>
      if (w = .keyOrEnd ∨ w = .separator) ∧ r.inside.head? = some true then (Reader.valueRead { r with inside := r.inside.tail }, [.mapEnd], true)
      else (r, [], false)
    | w, 93 =>
      if (w = .valueOrEnd ∨ w = .separator) ∧ r.inside.head? = some false then (Reader.valueRead { r with inside := r.inside.tail }, [.arrEnd], true)
      else (r, [], false)
    | w, b =>
      if w = .value ∨ w = .valueOrEnd then
        match b with
        | 123 => ({ r with want := .keyOrEnd, inside := true :: r.inside }, [.mapStart], true)
        | 91 => ({ r with want := .valueOrEnd, inside := false :: r.inside }, [.arrStart], true)
        | 34 => ({ r with lex := .str [] }, [], true)
        | 45 => ({ r with lex := .num true 0 }, [], true)
        | 116 => ({ r with lex := .word [114, 117, 101] (.scalar (.bool true)) }, [], true)
        | 102 => ({ r with lex := .word [97, 108, 115, 101] (.scalar (.bool false)) }, [], true)
        | 110 => ({ r with lex := .word [117, 108, 108] .null }, [], true)
        | b => if 48 ≤ b ∧ b ≤ 57 then ({ r with lex := .num false (b.toNat - 48) }, [], true) else (r, [], false)
      else (r, [], false)

def Reader.step (r : Reader) (b : UInt8) : Reader × List Token × Bool :=
  match r.lex with
  | .none => r.structural b
  | .str cs =>
    if b = 34 then
      let s := String.ofList cs.reverse
      if r.want = .key ∨ r.want = .keyOrEnd then ({ r with lex := .none, want := .colon }, [.mapKey s], true)
      else (r.valueRead, [.scalar (.str s)], true)
    else ({ r with lex := .str (Char.ofNat b.toNat :: cs) }, [], true)
  | .word (x :: rest) t =>
    if b = x then
      if rest = [] then (r.valueRead, [t], true) else ({ r with lex := .word rest t }, [], true)
    else (r, [], false)
  | .word [] _ => (r, [], false)
  | .num neg acc =>
    if 48 ≤ b ∧ b ≤ 57 then ({ r with lex := .num neg (acc * 10 + (b.toNat - 48)) }, [], true)
    else
      let out := r.valueRead.structural b
      (out.1, .scalar (.int (if neg then -(acc : Int) else acc)) :: out.2.1, out.2.2)

/-- End of input: as a blank, then the document must be complete. -/
def Reader.complete (r : Reader) : Reader × List Token × Bool :=
  let out := r.step 32
  (out.1, out.2.1, out.2.2 && (out.1.want = .nothing))

def yajl : Yajl where
  H := Reader
  alloc := {}
  step := Reader.step
  complete := Reader.complete
  cancel := id
  message := fun _ bs => some ("parse error near " ++ String.ofList (bs.map fun b => Char.ofNat b.toNat))

def bytes (s : String) : List UInt8 := s.toUTF8.toList

/-- The caller's memory with a single buffer, at address 0. -/
def buffer (text : String) : Mem := fun a => if a = 0 then some (bytes text) else none

/-- The caller's memory when nothing is allocated. -/
def nowhere : Mem := fun _ => none

def chunk (text : String) : Chunk := { mem := buffer text, ptr := some 0, len := (bytes text).length }

/-- `parse(std::string(text))`: the string only lives during the call. -/
def feedText (E : Env) (R : Shape) (text : String) : P yajl Unit :=
  parse yajl E R (buffer text) (some 0) (bytes text).length

/-- The state after an operation. -/
def left {Y : Yajl} {α} (r : PRes Y α) (d : PSt Y) : PSt Y :=
  match r with
  | .ok _ s => s
  | .throw _ s => s
  | _ => d

/-- The operation returned. -/
def returned {Y : Yajl} {α} : PRes Y α → Bool
  | .ok _ _ => true
  | _ => false

/-- What the operation threw. -/
def thrown {Y : Yajl} {α} : PRes Y α → Option Thrown
  | .throw x _ => some x
  | _ => none

def undefinedBehaviour {Y : Yajl} {α} : PRes Y α → Bool
  | .ub => true
  | _ => false

theorem left_ok {Y : Yajl} {r : PRes Y Unit} {d : PSt Y} (h : returned r = true) : r = .ok () (left r d) := by
  cases r <;> simp [returned, left] at *

theorem left_throw {Y : Yajl} {r : PRes Y Unit} {d : PSt Y} {x} (h : thrown r = some x) : r = .throw x (left r d) := by
  cases r <;> simp [thrown, left] at * <;> exact h

theorem is_ub {Y : Yajl} {r : PRes Y Unit} (h : undefinedBehaviour r = true) : r = .ub := by
  cases r <;> simp [undefinedBehaviour] at *

/-- To see that a text is a document, evaluate. -/
theorem document_of {bs : List UInt8} {ts : List Token} (h1 : (yajl.scan yajl.alloc bs).2.2 = true)
    (h2 : (yajl.complete (yajl.scan yajl.alloc bs).1).2.2 = true)
    (h3 : ts = (yajl.scan yajl.alloc bs).2.1 ++ (yajl.complete (yajl.scan yajl.alloc bs).1).2.1) : yajl.Document bs ts :=
  ⟨_, _, _, _, Prod.ext rfl (Prod.ext rfl h1), Prod.ext rfl (Prod.ext rfl h2), h3⟩

/-- The JSON text of `doc`. -/
def text : String :=
  "{\"name\": \"x\", \"part\": {\"tags\": [\"a\",\"b\"], \"id\": 7}, \"limits\": {\"b\": 2, \"a\": 1}, \"more\": [1]}"

/-- The same in three pieces, one of them empty; the cuts are inside of a string and inside of a number. -/
def pieces : List Chunk :=
  [chunk "{\"na", chunk "", chunk "me\": \"x\", \"part\": {\"tags\": [\"a\",\"b\"], \"id\": 7}, \"limits\": {\"b\": 2, \"a\": 1}, \"more\": [1]}"]

end SJ.Demo
