/-
A JSON reader that works byte by byte, as YAJL does. It shows that the assumptions made of YAJL (`Yajl.ReadsJson`, `Yajl.OnlyJson`) can be met; it is no model of code of the
repository.
-/
import Verif.SpecText

namespace SJ.Read

/-- How far a number has been read. -/
inductive NumAt where
  | minus | zero | digits | point | frac | exp | expSign | expDigits
deriving DecidableEq

def NumAt.next : NumAt → UInt8 → Option NumAt
  | .minus, b => if b = 48 then some .zero else if isDigit b then some .digits else none
  | .zero, b => if b = 46 then some .point else if b = 101 ∨ b = 69 then some .exp else none
  | .digits, b => if isDigit b then some .digits else if b = 46 then some .point else if b = 101 ∨ b = 69 then some .exp else none
  | .point, b => if isDigit b then some .frac else none
  | .frac, b => if isDigit b then some .frac else if b = 101 ∨ b = 69 then some .exp else none
  | .exp, b => if isDigit b then some .expDigits else if b = 43 ∨ b = 45 then some .expSign else none
  | .expSign, b => if isDigit b then some .expDigits else none
  | .expDigits, b => if isDigit b then some .expDigits else none

/-- The integer a literal stands for. -/
def literal : List UInt8 → Int
  | [] => 0
  | b :: ds => if b = 45 then intOf [45] ds else intOf [] (b :: ds)

/-- The number that has been read. -/
def number (dbl : List UInt8 → Option Dbl) (at_ : NumAt) (raw : List UInt8) : Option Scalar :=
  match at_ with
  | .zero | .digits =>
    if -9223372036854775808 ≤ literal raw ∧ literal raw ≤ 9223372036854775807 then some (.int (literal raw)) else none
  | .frac | .expDigits => (dbl raw).map .dbl
  | _ => none

/-- What an escape sequence (so far) is. -/
inductive Esc where
  | done (out : List UInt8) | more | bad

def escape : List UInt8 → Esc
  | [92, c] => if c = 117 then .more else match simpleEscape c with | some x => .done [x] | none => .bad
  | [92, 117, a] => if (hexDigit a).isSome then .more else .bad
  | [92, 117, _, b] => if (hexDigit b).isSome then .more else .bad
  | [92, 117, _, _, c] => if (hexDigit c).isSome then .more else .bad
  | [92, 117, a, b, c, d] =>
    match hex4 a b c d with
    | some n => if isHigh n then .more else if isLow n then .bad else .done (utf8 n)
    | none => .bad
  | [92, 117, _, _, _, _, x] => if x = 92 then .more else .bad
  | [92, 117, _, _, _, _, 92, y] => if y = 117 then .more else .bad
  | [92, 117, _, _, _, _, 92, 117, a] => if (hexDigit a).isSome then .more else .bad
  | [92, 117, _, _, _, _, 92, 117, _, b] => if (hexDigit b).isSome then .more else .bad
  | [92, 117, _, _, _, _, 92, 117, _, _, c] => if (hexDigit c).isSome then .more else .bad
  | [92, 117, a, b, c, d, 92, 117, a', b', c', d'] =>
    match hex4 a b c d, hex4 a' b' c' d' with
    | some n, some m => if isHigh n && isLow m then .done (utf8 (0x10000 + 1024 * (n - 0xD800) + (m - 0xDC00))) else .bad
    | _, _ => .bad
  | _ => .bad

/-- The token being read. -/
inductive Lexeme where
  | none
  | num (at_ : NumAt) (raw : List UInt8)
  | str (out esc : List UInt8)
  | word (rest : List UInt8) (t : Token)

/-- What may come next. -/
inductive Want where
  | value | valueOrEnd | key | keyOrEnd | colon | separator | nothing
deriving DecidableEq

structure Reader where
  lex : Lexeme := .none
  want : Want := .value
  /-- open containers, `true`: object -/
  inside : List Bool := []

def Reader.valueRead (r : Reader) : Reader :=
  { r with lex := .none, want := if r.inside = [] then .nothing else .separator }

/-- A value begins. -/
def Reader.value (r : Reader) (b : UInt8) : Reader × List Token × Bool :=
  if b = 123 then ({ r with want := .keyOrEnd, inside := true :: r.inside }, [.mapStart], true)
  else if b = 91 then ({ r with want := .valueOrEnd, inside := false :: r.inside }, [.arrStart], true)
  else if b = 34 then ({ r with lex := .str [] [] }, [], true)
  else if b = 45 then ({ r with lex := .num .minus [b] }, [], true)
  else if b = 48 then ({ r with lex := .num .zero [b] }, [], true)
  else if isDigit b then ({ r with lex := .num .digits [b] }, [], true)
  else if b = 116 then ({ r with lex := .word [114, 117, 101] (.scalar (.bool true)) }, [], true)
  else if b = 102 then ({ r with lex := .word [97, 108, 115, 101] (.scalar (.bool false)) }, [], true)
  else if b = 110 then ({ r with lex := .word [117, 108, 108] .null }, [], true)
  else (r, [], false)

/-- A byte between tokens. -/
def Reader.between (r : Reader) (b : UInt8) : Reader × List Token × Bool :=
  if isBlank b then (r, [], true)
  else match r.want with
    | .nothing => (r, [], false)
    | .colon => if b = 58 then ({ r with want := .value }, [], true) else (r, [], false)
    | .separator =>
      match r.inside with
      | true :: i =>
        if b = 44 then ({ r with want := .key }, [], true)
        else if b = 125 then (Reader.valueRead { r with inside := i }, [.mapEnd], true)
        else (r, [], false)
      | false :: i =>
        if b = 44 then ({ r with want := .value }, [], true)
        else if b = 93 then (Reader.valueRead { r with inside := i }, [.arrEnd], true)
        else (r, [], false)
      | [] => (r, [], false)
    | .key => if b = 34 then ({ r with lex := .str [] [] }, [], true) else (r, [], false)
    | .keyOrEnd =>
      if b = 34 then ({ r with lex := .str [] [] }, [], true)
      else if b = 125 then (Reader.valueRead { r with inside := r.inside.tail }, [.mapEnd], true)
      else (r, [], false)
    | .value => r.value b
    | .valueOrEnd =>
      if b = 93 then (Reader.valueRead { r with inside := r.inside.tail }, [.arrEnd], true)
      else r.value b

def Reader.step (dbl : List UInt8 → Option Dbl) (r : Reader) (b : UInt8) : Reader × List Token × Bool :=
  match r.lex with
  | .none => r.between b
  | .str out [] =>
    if b = 34 then
      match String.fromUTF8? ⟨out.toArray⟩ with
      | some s =>
        if r.want = .key ∨ r.want = .keyOrEnd then ({ r with lex := .none, want := .colon }, [.mapKey s], true)
        else (r.valueRead, [.scalar (.str s)], true)
      | none => (r, [], false)
    else if b = 92 then ({ r with lex := .str out [92] }, [], true)
    else if b < 32 then (r, [], false)
    else ({ r with lex := .str (out ++ [b]) [] }, [], true)
  | .str out esc =>
    match escape (esc ++ [b]) with
    | .done x => ({ r with lex := .str (out ++ x) [] }, [], true)
    | .more => ({ r with lex := .str out (esc ++ [b]) }, [], true)
    | .bad => (r, [], false)
  | .word [x] t => if b = x then (r.valueRead, [t], true) else (r, [], false)
  | .word (x :: rest) t => if b = x then ({ r with lex := .word rest t }, [], true) else (r, [], false)
  | .word [] _ => (r, [], false)
  | .num at_ raw =>
    match at_.next b with
    | some at' => ({ r with lex := .num at' (raw ++ [b]) }, [], true)
    | none =>
      match number dbl at_ raw with
      | some x =>
        let out := r.valueRead.between b
        (out.1, .scalar x :: out.2.1, out.2.2)
      | none => (r, [], false)

/-- End of input: as a blank, then the document must be complete. -/
def Reader.complete (dbl : List UInt8 → Option Dbl) (r : Reader) : Reader × List Token × Bool :=
  let out := r.step dbl 32
  (out.1, out.2.1, out.2.2 && out.1.want = .nothing)

/-- The reader, as an instance of what is assumed of YAJL. -/
def reader (dbl : List UInt8 → Option Dbl) : Yajl where
  H := Reader
  alloc := {}
  step := Reader.step dbl
  complete := Reader.complete dbl
  cancel := id
  message := fun _ _ => some "parse error"

end SJ.Read
