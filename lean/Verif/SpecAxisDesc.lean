import Verif.AxisDesc

/-!
# Specification of axis descriptions
-/

namespace Verif

/-- The label (expression) of an axis. -/
def AxisX.label : AxisX → Option String
  | .groupby e | .groupbin e _ _ _ _ | .bin e _ _ _ _ _ _ _ | .intbin e _ _ _ _ | .split e _ _ _ _ _ | .cut e
  | .profile e => some e
  | .null => none

/-- How an axis divides values into bins: everything but its label. -/
inductive Binning
  | exact
  | every (width origin : Num) (nanflow closedlow : Bool)
  | uniform (numbins : ℕ) (low high : Num) (underflow overflow nanflow closedlow : Bool)
  | integers (min max : ℤ) (underflow overflow : Bool)
  | between (edges : List Num) (underflow overflow nanflow closedlow : Bool)
  | truth
  | mean
  | nothing
  deriving DecidableEq

/-- The binning of an axis. -/
def AxisX.binning : AxisX → Binning
  | .groupby _ => .exact
  | .groupbin _ w o n c => .every w o n c
  | .bin _ k lo hi u o n c => .uniform k lo hi u o n c
  | .intbin _ lo hi u o => .integers lo hi u o
  | .split _ es u o n c => .between es u o n c
  | .cut _ => .truth
  | .profile _ => .mean
  | .null => .nothing

/-- The numbers that describe an axis. -/
def AxisX.numbers : AxisX → List Num
  | .groupbin _ w o _ _ => [w, o]
  | .bin _ _ lo hi _ _ _ _ => [lo, hi]
  | .split _ es _ _ _ _ => es
  | _ => []

/-- None of the numbers is NaN. -/
def AxisX.noNaN (a : AxisX) : Prop := Num.nan ∉ a.numbers

instance (a : AxisX) : Decidable a.noNaN := by unfold AxisX.noNaN; infer_instance

/-- The axis was made by a constructor. -/
def Made (a : AxisX) : Prop := ∃ (cls : AxCls) (e : String) (args : List J), cls.call e args = .ok a

/-- A finite number. -/
def Num.fin? : Num → Option ℚ
  | .fin q => some q
  | _ => none

/-- The fixed axis of the model of filling, if all numbers are finite. -/
def AxisX.fixed? : AxisX → Option FixedAxis
  | .bin _ k lo hi u o n c => do some (.bin ⟨k, ← lo.fin?, ← hi.fin?, u, o, n, c⟩)
  | .intbin _ lo hi u o => some (.intbin ⟨lo, hi, u, o⟩)
  | .split _ es u o n c => do some (.split ⟨← es.mapM Num.fin?, u, o, n, c⟩)
  | .cut _ => some .cut
  | _ => none

/-- The group axis of the model of filling, if all numbers are finite. -/
def AxisX.group? : AxisX → Option GroupAxis
  | .groupby _ => some .groupby
  | .groupbin _ w o n c => do some (.groupbin ⟨← w.fin?, ← o.fin?, n, c⟩)
  | _ => none

/-! ## Intervals -/

/-- A published interval or the NaN bin, as a set of numbers. -/
def BinLabel.isInterval : BinLabel → Prop
  | .iv lo hi _ _ => lo ≠ .nan ∧ hi ≠ .nan
  | .nan => True
  | _ => False

end Verif
