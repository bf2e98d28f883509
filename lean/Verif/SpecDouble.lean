/-
When two type values of a union, or two names, are the same one (C14, C32): the numbers that IEEE-754 doubles stand for.
-/
import Verif.Model.Basic

namespace SJ

/-- What a double stands for: not a number, an infinity, or a finite number, given as the integer that is 2^1074 times as large (every finite double is a
multiple of 2^-1074). -/
inductive Num where
  | nan
  | inf (negative : Bool)
  | fin (n : Int)
deriving DecidableEq, Repr

/-- The number with sign bit `s`, exponent field `e` and fraction field `f` (IEEE-754 binary64). -/
def Num.of (s e f : Nat) : Num :=
  if e = 2047 then (if f = 0 then .inf (s == 1) else .nan)
  else
    let m : Nat := if e = 0 then f else (2 ^ 52 + f) * 2 ^ (e - 1)
    .fin (if s = 1 then -(m : Int) else m)

/-- The number that a double stands for. -/
def Dbl.num (d : Dbl) : Num := .of (d.bits.toNat / 2 ^ 63) (d.bits.toNat / 2 ^ 52 % 2 ^ 11) (d.bits.toNat % 2 ^ 52)

/-- Two names or type values are the same one: the same Boolean, integer or string, or doubles that stand for the same number (NaN is never the same as
anything). -/
inductive SameScalar : Scalar → Scalar → Prop
  | bool (b : Bool) : SameScalar (.bool b) (.bool b)
  | int (i : Int) : SameScalar (.int i) (.int i)
  | str (s : String) : SameScalar (.str s) (.str s)
  | dbl {a b : Dbl} : a.num = b.num → a.num ≠ .nan → SameScalar (.dbl a) (.dbl b)

end SJ
