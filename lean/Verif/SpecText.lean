/-
JSON texts (RFC 8259): which sequences of bytes are texts of a JSON tree. What is assumed of YAJL for the theorems about texts is stated with this
grammar; it is a specification, YAJL itself is not part of the repository.

Conversions of numbers: an integer literal has to fit into 64 bits (`yajl_integer` gets a `long long`, yajl_parser.cpp 106-108), the value of any other number literal is
given by a parameter `dbl` (`strtod`; `none`: out of range).
-/
import Verif.SpecSession
import Verif.Spec

namespace SJ

/-- Space, tab, line feed, carriage return. -/
def isBlank (b : UInt8) : Bool := b = 32 || b = 9 || b = 10 || b = 13

def Blank (bs : List UInt8) : Prop := ∀ b ∈ bs, isBlank b = true

/-! ## Numbers -/

def isDigit (b : UInt8) : Bool := 48 ≤ b && b ≤ 57

/-- At least one digit. -/
def Digits (ds : List UInt8) : Prop := ds ≠ [] ∧ ∀ d ∈ ds, isDigit d = true

/-- The digits of an integer: no zeros in front. -/
def IntDigits (ds : List UInt8) : Prop := Digits ds ∧ (ds = [48] ∨ ds.head? ≠ some 48)

def Sign (s : List UInt8) : Prop := s = [] ∨ s = [45]

/-- `.` and digits, or nothing. -/
def Fraction (f : List UInt8) : Prop := f = [] ∨ ∃ ds, f = 46 :: ds ∧ Digits ds

/-- `e` or `E`, a sign or none, and digits; or nothing. -/
def Exponent (x : List UInt8) : Prop := x = [] ∨ ∃ e s ds, x = e :: (s ++ ds) ∧ (e = 101 ∨ e = 69) ∧ (s = [] ∨ s = [43] ∨ s = [45]) ∧ Digits ds

def natOf (ds : List UInt8) : Nat := ds.foldl (fun n d => 10 * n + (d.toNat - 48)) 0

def intOf (s ds : List UInt8) : Int := if s = [] then natOf ds else -(natOf ds : Int)

/-- `long long` -/
def fits64 (i : Int) : Prop := -9223372036854775808 ≤ i ∧ i ≤ 9223372036854775807

/-! ## Strings -/

/-- `\"`, `\\`, `\/`, `\b`, `\f`, `\n`, `\r`, `\t` -/
def simpleEscape (c : UInt8) : Option UInt8 :=
  if c = 34 then some 34 else if c = 92 then some 92 else if c = 47 then some 47 else if c = 98 then some 8 else if c = 102 then some 12
  else if c = 110 then some 10 else if c = 114 then some 13 else if c = 116 then some 9 else none

def hexDigit (b : UInt8) : Option Nat :=
  if isDigit b then some (b.toNat - 48) else if 97 ≤ b && b ≤ 102 then some (b.toNat - 87) else if 65 ≤ b && b ≤ 70 then some (b.toNat - 55) else none

def hex4 (a b c d : UInt8) : Option Nat :=
  match hexDigit a, hexDigit b, hexDigit c, hexDigit d with
  | some a, some b, some c, some d => some (4096 * a + 256 * b + 16 * c + d)
  | _, _, _, _ => none

def isHigh (n : Nat) : Bool := 0xD800 ≤ n && n ≤ 0xDBFF
def isLow (n : Nat) : Bool := 0xDC00 ≤ n && n ≤ 0xDFFF

/-- UTF-8 of a code point. -/
def utf8 (n : Nat) : List UInt8 := String.utf8EncodeChar (Char.ofNat n)

/-- The characters between the quotation marks of a string, and the bytes they stand for. -/
inductive StrText : List UInt8 → List UInt8 → Prop
  | nil : StrText [] []
  | plain {b raw out} : 32 ≤ b → b ≠ 34 → b ≠ 92 → StrText raw out → StrText (b :: raw) (b :: out)
  | escape {c x raw out} : simpleEscape c = some x → StrText raw out → StrText (92 :: c :: raw) (x :: out)
  | unicode {a b c d n raw out} : hex4 a b c d = some n → isHigh n = false → isLow n = false → StrText raw out →
      StrText (92 :: 117 :: a :: b :: c :: d :: raw) (utf8 n ++ out)
  | pair {a b c d n a' b' c' d' m raw out} : hex4 a b c d = some n → isHigh n = true → hex4 a' b' c' d' = some m → isLow m = true → StrText raw out →
      StrText (92 :: 117 :: a :: b :: c :: d :: 92 :: 117 :: a' :: b' :: c' :: d' :: raw) (utf8 (0x10000 + 1024 * (n - 0xD800) + (m - 0xDC00)) ++ out)

/-- A string with its quotation marks. -/
def Quoted (s : String) (bs : List UInt8) : Prop := ∃ raw, bs = 34 :: (raw ++ [34]) ∧ StrText raw s.toUTF8.data.toList

/-! ## Values -/

def ScalarText (dbl : List UInt8 → Option Dbl) : Scalar → List UInt8 → Prop
  | .bool true, bs => bs = [116, 114, 117, 101]
  | .bool false, bs => bs = [102, 97, 108, 115, 101]
  | .int i, bs => ∃ s ds, bs = s ++ ds ∧ Sign s ∧ IntDigits ds ∧ i = intOf s ds ∧ fits64 i
  | .dbl d, bs => ∃ s ds f x, bs = s ++ ds ++ f ++ x ∧ Sign s ∧ IntDigits ds ∧ Fraction f ∧ Exponent x ∧ (f ≠ [] ∨ x ≠ []) ∧ dbl bs = some d
  | .str s, bs => Quoted s bs

mutual
/-- `bs` is a text of the value, without blanks around it. -/
def ValueText (dbl : List UInt8 → Option Dbl) : Json → List UInt8 → Prop
  | .null, bs => bs = [110, 117, 108, 108]
  | .sc x, bs => ScalarText dbl x bs
  | .arr l, bs => ∃ body, bs = 91 :: (body ++ [93]) ∧ (l = [] ∧ Blank body ∨ ElemsText dbl l body)
  | .obj fs, bs => ∃ body, bs = 123 :: (body ++ [125]) ∧ (fs = [] ∧ Blank body ∨ FieldsText dbl fs body)
/-- The elements of an array (at least one), between the brackets. -/
def ElemsText (dbl : List UInt8 → Option Dbl) : List Json → List UInt8 → Prop
  | [], _ => False
  | j :: l, bs => ∃ b v b', Blank b ∧ ValueText dbl j v ∧ Blank b' ∧
      (l = [] ∧ bs = b ++ v ++ b' ∨ ∃ rest, bs = b ++ v ++ b' ++ 44 :: rest ∧ ElemsText dbl l rest)
/-- The fields of an object (at least one), between the braces. -/
def FieldsText (dbl : List UInt8 → Option Dbl) : List (String × Json) → List UInt8 → Prop
  | [], _ => False
  | (k, j) :: fs, bs => ∃ b key b1 b2 v b', Blank b ∧ Quoted k key ∧ Blank b1 ∧ Blank b2 ∧ ValueText dbl j v ∧ Blank b' ∧
      (fs = [] ∧ bs = b ++ key ++ b1 ++ 58 :: (b2 ++ v ++ b') ∨ ∃ rest, bs = b ++ key ++ b1 ++ 58 :: (b2 ++ v ++ b') ++ 44 :: rest ∧ FieldsText dbl fs rest)
end

/-- A JSON text: a value with blanks around it. -/
def JsonText (dbl : List UInt8 → Option Dbl) (j : Json) (bs : List UInt8) : Prop :=
  ∃ b v b', bs = b ++ v ++ b' ∧ Blank b ∧ ValueText dbl j v ∧ Blank b'

/-! ## Writing -/

def hexOf (n : Nat) : UInt8 := UInt8.ofNat (if n < 10 then 48 + n else 87 + n)

/-- A byte inside of a string: quotation marks, backslashes and control characters are escaped. -/
def writeByte (b : UInt8) : List UInt8 :=
  if b = 34 then [92, 34] else if b = 92 then [92, 92] else if b < 32 then [92, 117, 48, 48, hexOf (b.toNat / 16), hexOf (b.toNat % 16)] else [b]

def writeStr (s : String) : List UInt8 := 34 :: (s.toUTF8.data.toList.flatMap writeByte ++ [34])

def writeNat (n : Nat) : List UInt8 := if n < 10 then [UInt8.ofNat (48 + n)] else writeNat (n / 10) ++ [UInt8.ofNat (48 + n % 10)]

def writeInt (i : Int) : List UInt8 := if i < 0 then 45 :: writeNat i.natAbs else writeNat i.natAbs

/-- A scalar as text; doubles are written by `w`. -/
def writeScalar (w : Dbl → List UInt8) : Scalar → List UInt8
  | .bool true => [116, 114, 117, 101]
  | .bool false => [102, 97, 108, 115, 101]
  | .int i => writeInt i
  | .dbl d => w d
  | .str s => writeStr s

mutual
/-- A JSON tree as text, without blanks. -/
def write (w : Dbl → List UInt8) : Json → List UInt8
  | .null => [110, 117, 108, 108]
  | .sc x => writeScalar w x
  | .arr l => 91 :: (writeElems w l ++ [93])
  | .obj fs => 123 :: (writeFields w fs ++ [125])
def writeElems (w : Dbl → List UInt8) : List Json → List UInt8
  | [] => []
  | j :: l => write w j ++ (match l with | [] => [] | _ => 44 :: writeElems w l)
def writeFields (w : Dbl → List UInt8) : List (String × Json) → List UInt8
  | [] => []
  | (k, j) :: fs => writeStr k ++ 58 :: (write w j ++ (match fs with | [] => [] | _ => 44 :: writeFields w fs))
end

/-- Scalars that have a text: integers fit into 64 bits, and `w` writes a number that is read as the same double. -/
def PrintableScalar (dbl : List UInt8 → Option Dbl) (w : Dbl → List UInt8) : Scalar → Prop
  | .int i => fits64 i
  | .dbl d => ScalarText dbl (.dbl d) (w d)
  | _ => True

mutual
def Printable (dbl : List UInt8 → Option Dbl) (w : Dbl → List UInt8) : Json → Prop
  | .null => True
  | .sc x => PrintableScalar dbl w x
  | .arr l => PrintableL dbl w l
  | .obj fs => PrintableF dbl w fs
def PrintableL (dbl : List UInt8 → Option Dbl) (w : Dbl → List UInt8) : List Json → Prop
  | [] => True
  | j :: l => Printable dbl w j ∧ PrintableL dbl w l
def PrintableF (dbl : List UInt8 → Option Dbl) (w : Dbl → List UInt8) : List (String × Json) → Prop
  | [] => True
  | (_, j) :: fs => Printable dbl w j ∧ PrintableF dbl w fs
end

/-! ## The underlying parser -/

/-- The reader reports the tokens of every JSON text. -/
def Yajl.ReadsJson (Y : Yajl) (dbl : List UInt8 → Option Dbl) : Prop := ∀ j bs, JsonText dbl j bs → Y.Document bs (events j)

/-- The reader accepts nothing else. -/
def Yajl.OnlyJson (Y : Yajl) (dbl : List UInt8 → Option Dbl) : Prop := ∀ bs ts, Y.Document bs ts → ∃ j, JsonText dbl j bs ∧ ts = events j

end SJ
