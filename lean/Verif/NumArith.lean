import Verif.Num
import Mathlib.Algebra.Group.Defs
import Mathlib.Algebra.BigOperators.Group.List.Basic

/-!
# Floating point addition and multiplication

Sums and products of numbers that may be NaN or infinite, as IEEE 754 prescribes them, except that
finite results are exact: there is no rounding, no overflow to infinity and only one zero.
-/

namespace Verif

namespace Num

/-- IEEE `+`: NaN if an operand is NaN, and for infinities of different sign. -/
def add : Num → Num → Num
  | nan, _ => nan
  | _, nan => nan
  | fin a, fin b => fin (a + b)
  | fin _, y => y
  | x, fin _ => x
  | pinf, pinf => pinf
  | ninf, ninf => ninf
  | pinf, ninf => nan
  | ninf, pinf => nan

/-- IEEE `*`: NaN if an operand is NaN, and for zero times infinity. -/
def mul : Num → Num → Num
  | nan, _ => nan
  | _, nan => nan
  | fin a, fin b => fin (a * b)
  | fin a, pinf => mulFin pinf a
  | fin a, ninf => mulFin ninf a
  | pinf, fin b => mulFin pinf b
  | ninf, fin b => mulFin ninf b
  | pinf, pinf => pinf
  | ninf, ninf => pinf
  | pinf, ninf => ninf
  | ninf, pinf => ninf

instance : Zero Num := ⟨fin 0⟩
instance : One Num := ⟨fin 1⟩
instance : Add Num := ⟨add⟩
instance : Mul Num := ⟨mul⟩

theorem zero_def : (0 : Num) = fin 0 := rfl
theorem one_def : (1 : Num) = fin 1 := rfl
theorem add_def (a b : Num) : a + b = add a b := rfl
theorem mul_def (a b : Num) : a * b = mul a b := rfl

@[simp] theorem fin_add_fin (a b : ℚ) : fin a + fin b = fin (a + b) := rfl
@[simp] theorem fin_mul_fin (a b : ℚ) : fin a * fin b = fin (a * b) := rfl
@[simp] theorem nan_add (a : Num) : nan + a = nan := rfl
@[simp] theorem add_nan (a : Num) : a + nan = nan := by cases a <;> rfl
@[simp] theorem nan_mul (a : Num) : nan * a = nan := rfl
@[simp] theorem mul_nan (a : Num) : a * nan = nan := by cases a <;> rfl

instance : AddCommMonoid Num where
  add_assoc a b c := by
    cases a <;> cases b <;> cases c <;> simp only [add_def, add] <;> rw [add_assoc]
  zero_add a := by cases a <;> simp [add_def, zero_def, add]
  add_zero a := by cases a <;> simp [add_def, zero_def, add]
  add_comm a b := by
    cases a <;> cases b <;> simp only [add_def, add] ; rw [add_comm]
  nsmul := nsmulRec

theorem num_mul_comm (a b : Num) : a * b = b * a := by
  cases a <;> cases b <;> simp only [mul_def, mul]; rw [_root_.mul_comm]

theorem num_one_mul (a : Num) : 1 * a = a := by
  cases a <;> simp [one_def, mul_def, mul, mulFin]

theorem num_mul_one (a : Num) : a * 1 = a := by rw [num_mul_comm, num_one_mul]

/-- the square, `x * x`. -/
def sq (a : Num) : Num := a * a

@[simp] theorem sq_fin (q : ℚ) : sq (fin q) = fin (q ^ 2) := by
  simp [sq, pow_two]

/-- a number that is neither NaN nor infinite. -/
def isFin : Num → Bool
  | fin _ => true
  | _ => false

theorem isFin_add (a b : Num) : (a + b).isFin = (a.isFin && b.isFin) := by
  cases a <;> cases b <;> rfl

end Num

end Verif
