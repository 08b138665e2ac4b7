import Verif.NumText

/-!
# How a reader understands the text of a number

Decimal notation: an optional minus, digits, an optional point with digits, and an optional exponent.
-/

namespace Verif

/-- The value of a decimal digit. -/
def charVal (c : Char) : ℕ := c.toNat - 48

/-- Digits in front of a point. -/
def wholeVal (l : List Char) : ℕ := l.foldl (fun a c => 10 * a + charVal c) 0

/-- Digits after a point. -/
def fracVal : List Char → ℚ
  | [] => 0
  | c :: r => (charVal c + fracVal r) / 10

/-- An exponent after the letter `e`. -/
def exponentVal : List Char → ℤ
  | '-' :: r => -(wholeVal r : ℤ)
  | '+' :: r => wholeVal r
  | r => wholeVal r

/-- A number without sign. -/
def unsignedVal (s : List Char) : ℚ :=
  let mantissa := s.takeWhile (· ≠ 'e')
  (wholeVal (mantissa.takeWhile (· ≠ '.')) + fracVal ((mantissa.dropWhile (· ≠ '.')).tail)) * (10 : ℚ) ^ exponentVal ((s.dropWhile (· ≠ 'e')).tail)

/-- A number. -/
def decimalVal : List Char → ℚ
  | '-' :: r => -unsignedVal r
  | r => unsignedVal r

end Verif
