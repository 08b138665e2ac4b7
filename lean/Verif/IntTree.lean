import Verif.Tree
import Verif.Axis
import Mathlib.Data.Int.ModEq

/-!
# Integer arrays of limited width

NumPy computes sums, differences and products of two integer arrays of one type in that type, modulo a power of two; `calculate`
(`/repo/histbook/calc/__init__.py` 327-357) and the function for `intbin` (261-279) do the same, since they apply NumPy's functions to the arrays of
the user.  `Tree.lean` has numbers without width; here a row value keeps whether it comes from an integer array.

A Python integer takes the type of the array it meets.  If it does not fit, NumPy 2 raises OverflowError (here `valueError`) and NumPy 1 takes a wider type.
All integer arrays have the same type here.  Integral constants are Python integers.
-/

namespace Verif

/-- An integer type of NumPy. -/
structure IType where
  signed : Bool
  bits : ℕ
  deriving DecidableEq

/-- The smallest number of the type. -/
def IType.lo (ty : IType) : ℤ := if ty.signed then -2 ^ (ty.bits - 1) else 0

/-- The number of the type that is congruent: the result of an operation that overflows. -/
def IType.wrap (ty : IType) (z : ℤ) : ℤ := (z - ty.lo) % 2 ^ ty.bits + ty.lo

/-- The number is one of the type. -/
def IType.has (ty : IType) (z : ℤ) : Prop := ty.lo ≤ z ∧ z < ty.lo + 2 ^ ty.bits

instance IType.decHas (ty : IType) (z : ℤ) : Decidable (ty.has z) := by unfold IType.has; infer_instance

/-- A value of one row: from an integer array, a Python integer, from an array of floating point numbers (`none`: not a number), or a Python object. -/
inductive IVal
  | int (z : ℤ)
  | py (z : ℤ)
  | num (v : Option ℚ)
  | obj (c : CVal)
  deriving DecidableEq

/-- The value as a number without type. -/
def IVal.erase : IVal → RowVal
  | .int z => .num (some z)
  | .py z => .num (some z)
  | .num v => .num v
  | .obj c => .obj c

/-- An operation of NumPy that stays among integers: `numpy.add`, `numpy.subtract`, `numpy.multiply` (calc/__init__.py 37-39). -/
def onInts : String → Option (ℤ → ℤ → ℤ)
  | "numpy.add" => some fun a b => a + b
  | "numpy.subtract" => some fun a b => a - b
  | "numpy.multiply" => some fun a b => a * b
  | _ => none

/-- One function of the library; all others give floating point numbers. -/
def intFn (ty : IType) (f : String) (g : List RowVal → Except Err RowVal) (args : List IVal) : Except Err IVal :=
  match onInts f, args with
  | some h, [.int a, .int b] => .ok (.int (ty.wrap (h a b)))
  | some h, [.int a, .py b] => if ty.has b then .ok (.int (ty.wrap (h a b))) else .error .valueError
  | some h, [.py a, .int b] => if ty.has a then .ok (.int (ty.wrap (h a b))) else .error .valueError
  | some h, [.py a, .py b] => .ok (.py (h a b))
  | _, _ => (g (args.map IVal.erase)).map fun
    | .num v => .num v
    | .obj c => .obj c

/-- The library on values of integer and other arrays. -/
def intLib (ty : IType) (more : String → Option (List (Option ℚ) → Option ℚ)) : Lib IVal where
  const
    | .num q => if q.den = 1 then .py q.num else .num (some q)
    | c => .obj c
  fn f := ((rowLib more).fn f).map (intFn ty f)

/-- The fields of one row. -/
def intSymbols (field : String → ℤ) (s : String) : Except Err IVal := .ok (.int (field s))

/-- calc/__init__.py 261-279 for an element of an integer array of the type: `values + (shift - min)` in the type of the array, then to int32. -/
def IntbinAxis.indexType (a : IntbinAxis) (ty : IType) (v : ℤ) : Except Err (Option ℤ) :=
  if ty.has (b2i a.underflow - a.min) then .ok (a.clamp (wrapI32 (ty.wrap (v + (b2i a.underflow - a.min))))) else .error .valueError

/-! ## Arithmetic modulo a power of two -/

theorem IType.pow_pos (ty : IType) : (0 : ℤ) < 2 ^ ty.bits := by positivity

theorem IType.wrap_of_has {ty : IType} {z : ℤ} (h : ty.has z) : ty.wrap z = z := by
  unfold IType.wrap
  rw [Int.emod_eq_of_lt (by linarith [h.1]) (by linarith [h.2])]
  ring

theorem IType.has_wrap (ty : IType) (z : ℤ) : ty.has (ty.wrap z) := by
  have h1 := Int.emod_nonneg (z - ty.lo) ty.pow_pos.ne'
  have h2 := Int.emod_lt_of_pos (z - ty.lo) ty.pow_pos
  constructor <;> unfold IType.wrap <;> linarith

theorem IType.wrap_modEq (ty : IType) (z : ℤ) : ty.wrap z ≡ z [ZMOD 2 ^ ty.bits] := by
  have h : ty.wrap z ≡ (z - ty.lo) + ty.lo [ZMOD 2 ^ ty.bits] := (Int.mod_modEq _ _).add_right _
  simpa using h

theorem IType.wrap_eq_iff (ty : IType) (a b : ℤ) : ty.wrap a = ty.wrap b ↔ a ≡ b [ZMOD 2 ^ ty.bits] := by
  constructor
  · intro h
    exact (ty.wrap_modEq a).symm.trans (h ▸ ty.wrap_modEq b)
  · intro h
    have := h.sub_right ty.lo
    unfold IType.wrap
    rw [this]

theorem onInts_congr {f : String} {h : ℤ → ℤ → ℤ} (hf : onInts f = some h) (n a a' b b' : ℤ) (ha : a ≡ a' [ZMOD n]) (hb : b ≡ b' [ZMOD n]) :
    h a b ≡ h a' b' [ZMOD n] := by
  unfold onInts at hf
  split at hf
  · cases hf; exact ha.add hb
  · cases hf; exact ha.sub hb
  · cases hf; exact ha.mul hb
  · cases hf

end Verif
