import Mathlib.Algebra.Order.Round
import Mathlib.Algebra.Order.Field.Rat
import Mathlib.Data.Rat.Floor
import Verif.TreeLemmas

/-!
# Functions of the library that work on rational numbers
-/

namespace Verif

/-- `numpy.remainder` on one row: the rest of division rounded down; NaN for a missing operand or a divisor
of zero. -/
def npRemainder : List (Option ℚ) → Option ℚ
  | [some x, some y] => if y = 0 then none else some (x - y * ⌊x / y⌋)
  | _ => none

/-- `numpy.maximum` on one row: NaN if an operand is. -/
def npMaximum : List (Option ℚ) → Option ℚ
  | [some x, some y] => some (max x y)
  | _ => none

/-- `numpy.minimum` on one row. -/
def npMinimum : List (Option ℚ) → Option ℚ
  | [some x, some y] => some (min x y)
  | _ => none

/-- `numpy.absolute` on one row. -/
def npAbsolute : List (Option ℚ) → Option ℚ
  | [some x] => some |x|
  | _ => none

/-- `numpy.floor` on one row. -/
def npFloor : List (Option ℚ) → Option ℚ
  | [some x] => some ⌊x⌋
  | _ => none

/-- `numpy.ceil` on one row. -/
def npCeil : List (Option ℚ) → Option ℚ
  | [some x] => some ⌈x⌉
  | _ => none

/-- `lambda x, middle=0.5: numpy.heaviside(x, middle)` on one row (calc/__init__.py 73-80). -/
def npHeaviside : List (Option ℚ) → Option ℚ
  | [some x, m] => if x < 0 then some 0 else if x = 0 then m else some 1
  | [some x] => some (if x < 0 then 0 else if x = 0 then 1 / 2 else 1)
  | _ => none

/-- `numpy.where` on one row; NaN counts as true. -/
def npWhere : List (Option ℚ) → Option ℚ
  | [c, a, b] => if truth c then a else b
  | _ => none

/-- `numpy.rint` on one row: the nearest integer, of two the even one. -/
def npRint : List (Option ℚ) → Option ℚ
  | [some x] =>
    let d := x - ⌊x⌋
    some (if d < 1 / 2 then ⌊x⌋ else if 1 / 2 < d then ⌊x⌋ + 1 else if ⌊x⌋ % 2 = 0 then ⌊x⌋ else ⌊x⌋ + 1)
  | _ => none

/-- `numpy.trunc` on one row. -/
def npTrunc : List (Option ℚ) → Option ℚ
  | [some x] => some (if x < 0 then ⌈x⌉ else ⌊x⌋)
  | _ => none

/-- `numpy.sign` on one row. -/
def npSign : List (Option ℚ) → Option ℚ
  | [some x] => some (if x < 0 then -1 else if x = 0 then 0 else 1)
  | _ => none

/-- `numpy.copysign` on one row.  Simplified: zero is positive, and NaN has no sign. -/
def npCopysign : List (Option ℚ) → Option ℚ
  | [some x, some y] => some (if y < 0 then -|x| else |x|)
  | _ => none

/-- The entries of the library that are modelled (calc/__init__.py 53-146); of two assignments to the same
key the later one counts (`fmod`, 72 and 100). -/
def libRat : More
  | "abs" => some npAbsolute
  | "fabs" => some npAbsolute
  | "ceil" => some npCeil
  | "floor" => some npFloor
  | "heaviside" => some npHeaviside
  | "max" => some npMaximum
  | "fmax" => some npMaximum
  | "min" => some npMinimum
  | "fmin" => some npMinimum
  | "mod" => some npRemainder
  | "fmod" => some npRemainder
  | "where" => some npWhere
  | "rint" => some npRint
  | "trunc" => some npTrunc
  | "sign" => some npSign
  | "copysign" => some npCopysign
  | _ => none

/-! ## Specification -/

/-- The integer part towards zero. -/
def truncQ (q : ℚ) : ℤ := if 0 ≤ q then ⌊q⌋ else ⌈q⌉

/-- C's and Python's `fmod`: the rest of division rounded towards zero. -/
def fmodSpec (x y : ℚ) : ℚ := x - y * truncQ (x / y)

/-- `fmax` as in C and NumPy: of a number and NaN the number. -/
def fmaxSpec : Option ℚ → Option ℚ → Option ℚ
  | some x, some y => some (max x y)
  | some x, none => some x
  | none, b => b

end Verif
