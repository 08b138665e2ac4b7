import Verif.Vega
import Mathlib.Data.Int.Log
import Mathlib.Data.Nat.Digits.Defs
import Mathlib.Data.Rat.Floor

/-!
# Texts of numbers in labels

Mirrors `Interval._num` (axis.py 74-75), `"{0:4g}".format(n).strip()`: Python's format `g` with its default of six significant digits.  The number is
rounded to six digits (ties to even, on the exact value of the number), and written without trailing zeros; with an exponent if that is below -4 or
above 5.  The width 4 only adds blanks in front, which `strip` takes away.  Numbers are rationals, so that there is no negative zero.
-/

namespace Verif

/-- `10 ^ k`, through powers of naturals. -/
def pow10 : ℤ → ℚ
  | .ofNat n => ((10 ^ n : ℕ) : ℚ)
  | .negSucc n => 1 / ((10 ^ (n + 1) : ℕ) : ℚ)

/-- The six significant digits of a positive number as an integer, and the exponent of the first one. -/
def sig6 (q : ℚ) : ℕ × ℤ :=
  let e := Int.log 10 q
  let m := (pyRound (q / pow10 (e - 5))).toNat
  if m = 1000000 then (100000, e + 1) else (m, e)

/-- The digits of an integer below a million. -/
def digits6 (m : ℕ) : List ℕ := [m / 100000 % 10, m / 10000 % 10, m / 1000 % 10, m / 100 % 10, m / 10 % 10, m % 10]

/-- The list without the zeros at its end. -/
def stripZeros : List ℕ → List ℕ
  | [] => []
  | d :: r => if stripZeros r = [] ∧ d = 0 then [] else d :: stripZeros r

/-- Digits before and after the point; without anything after it there is no point. -/
def pointText (before after : List ℕ) : List Char :=
  before.map Nat.digitChar ++ (if stripZeros after = [] then [] else '.' :: (stripZeros after).map Nat.digitChar)

/-- An exponent has a sign and at least two digits. -/
def expText (e : ℤ) : List Char :=
  (if e < 0 then '-' else '+') ::
    (if e.natAbs < 10 then [0, e.natAbs] else (Nat.digits 10 e.natAbs).reverse).map Nat.digitChar

/-- Format `g` of a positive number. -/
def posText (q : ℚ) : List Char :=
  let m := (sig6 q).1
  let e := (sig6 q).2
  if e < -4 ∨ 6 ≤ e then pointText ((digits6 m).take 1) ((digits6 m).drop 1) ++ 'e' :: expText e
  else if e < 0 then pointText [0] (List.replicate (-e - 1).toNat 0 ++ digits6 m)
  else pointText ((digits6 m).take (e.toNat + 1)) ((digits6 m).drop (e.toNat + 1))

/-- axis.py 74-75 `Interval._num`. -/
def numChars : Num → List Char
  | .nan => ['n', 'a', 'n']
  | .pinf => ['i', 'n', 'f']
  | .ninf => ['-', 'i', 'n', 'f']
  | .fin q => if q = 0 then ['0'] else if q < 0 then '-' :: posText (-q) else posText q

/-- The texts of numbers and keys in plots, where keys are written by `str`. -/
def pyFmt (key : Key → String) : Fmt := ⟨fun x => String.ofList (numChars x), key⟩

end Verif
