import Mathlib.Data.Rat.Floor
import Mathlib.Tactic.Linarith
import Mathlib.Tactic.NormNum

/-!
# Numbers

`Num` stands for a `numpy.float64`: an exact rational, an infinity or NaN.
Rounding of binary64 is not modelled (see DESIGN.md, trusted base).
-/

namespace Verif

/-- Python exceptions that the modelled code can raise (kind only, no message). -/
inductive Err
  | typeError | valueError | indexError | keyError | zeroDivision | attributeError
  | assertion | recursion | notImplemented | nameError | expression
  deriving DecidableEq, Repr

/-- A floating point number without rounding. -/
inductive Num
  | nan
  | ninf
  | pinf
  | fin (q : ℚ)
  deriving DecidableEq

namespace Num

/-- IEEE `<`: every comparison with NaN is false. -/
def lt : Num → Num → Bool
  | nan, _ => false
  | _, nan => false
  | ninf, ninf => false
  | ninf, _ => true
  | fin a, fin b => decide (a < b)
  | fin _, pinf => true
  | fin _, ninf => false
  | pinf, _ => false

/-- IEEE `<=`. -/
def le : Num → Num → Bool
  | nan, _ => false
  | _, nan => false
  | ninf, _ => true
  | fin a, fin b => decide (a ≤ b)
  | fin _, pinf => true
  | fin _, ninf => false
  | pinf, pinf => true
  | pinf, _ => false

/-- `values - c` for a finite constant `c`. -/
def subFin : Num → ℚ → Num
  | fin a, c => fin (a - c)
  | x, _ => x

/-- `values * c` for a finite constant `c` (`inf * 0` is NaN). -/
def mulFin : Num → ℚ → Num
  | fin a, c => fin (a * c)
  | nan, _ => nan
  | pinf, c => if 0 < c then pinf else if c < 0 then ninf else nan
  | ninf, c => if 0 < c then ninf else if c < 0 then pinf else nan

/-- `numpy.floor`. -/
def floor : Num → Num
  | fin a => fin (⌊a⌋ : ℤ)
  | x => x

/-- `numpy.ceil`. -/
def ceil : Num → Num
  | fin a => fin (⌈a⌉ : ℤ)
  | x => x

/-- `values + c` for a finite constant `c`. -/
def addFin : Num → ℚ → Num
  | fin a, c => fin (a + c)
  | x, _ => x

/-- `numpy.isnan`. -/
def isnan : Num → Bool
  | nan => true
  | _ => false

/-- C truncation towards zero. -/
def truncQ (q : ℚ) : ℤ := if 0 ≤ q then ⌊q⌋ else ⌈q⌉

/-- Conversion float64 → int32 as on x86-64: truncation, and `-2^31` ("integer indefinite")
for NaN, infinities and everything out of range. -/
def toI32 : Num → ℤ
  | fin q => if -2147483648 ≤ truncQ q ∧ truncQ q ≤ 2147483647 then truncQ q else -2147483648
  | _ => -2147483648

end Num

/-- Conversion int64 → int32: the low 32 bits, as a signed number. -/
def wrapI32 (z : ℤ) : ℤ := (z + 2147483648) % 4294967296 - 2147483648

theorem Num.truncQ_intCast (z : ℤ) : Num.truncQ (z : ℚ) = z := by
  unfold Num.truncQ; split <;> simp

theorem Num.toI32_intCast (z : ℤ) (h1 : -2147483648 ≤ z) (h2 : z ≤ 2147483647) :
    Num.toI32 (.fin (z : ℚ)) = z := by
  simp [Num.toI32, Num.truncQ_intCast, h1, h2]

theorem wrapI32_of_range (z : ℤ) (h1 : -2147483648 ≤ z) (h2 : z ≤ 2147483647) :
    wrapI32 z = z := by
  unfold wrapI32
  rw [Int.emod_eq_of_lt] <;> omega

end Verif
