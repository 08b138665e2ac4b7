import Verif.Spark
import Verif.SpecHist

/-!
# Specification of filling from Spark

For which axes and values the bin that Spark is told to count in is the published bin of the value.
-/

namespace Verif

/-- The axis is one that its constructor makes (with at least one regular bin). -/
def FixedAxis.Built : FixedAxis → Prop
  | .bin a => ∃ numbins low high u o n cl, 0 < numbins ∧ BinAxis.init numbins low high u o n cl = .ok a
  | .split a => ∃ edges u o n cl, SplitAxis.init edges u o n cl = .ok a
  | .intbin a => ∃ min max u o, IntbinAxis.init min max u o = .ok a
  | .cut => True

/-- The value lies below all regular bins of the axis: where its underflow bin is, or would be. -/
def FixedAxis.isUnder : FixedAxis → Val → Bool
  | .bin a, v => v.In (.iv .ninf (.fin a.low) true (!a.closedlow))
  | .split a, v => v.In (.iv .ninf (.fin (a.edges.headD 0)) true (!a.closedlow))
  | .intbin a, v => v.In (.iv .ninf (.fin a.min) true false)
  | .cut, _ => false

/-- The value lies above all regular bins of the axis: where its overflow bin is, or would be. -/
def FixedAxis.isOver : FixedAxis → Val → Bool
  | .bin a, v => v.In (.iv (.fin a.high) .pinf a.closedlow true)
  | .split a, v => v.In (.iv (.fin (a.edges.getLastD 0)) .pinf a.closedlow true)
  | .intbin a, v => v.In (.iv (.fin a.max) .pinf false true)
  | .cut, _ => false

/-- The axis has an underflow bin. -/
def FixedAxis.hasUnder : FixedAxis → Bool
  | .bin a => a.underflow
  | .split a => a.underflow
  | .intbin a => a.underflow
  | .cut => false

/-- The axis has an overflow bin. -/
def FixedAxis.hasOver : FixedAxis → Bool
  | .bin a => a.overflow
  | .split a => a.overflow
  | .intbin a => a.overflow
  | .cut => false

/-- The axis has a NaN bin. -/
def FixedAxis.hasNan : FixedAxis → Bool
  | .bin a => a.nanflow
  | .split a => a.nanflow
  | _ => false

/-- The value is not a number. -/
def Val.isNaN (v : Val) : Bool := decide (v = .num .nan)

/-- The value is a boolean. -/
def Val.isBool : Val → Bool
  | .bool _ => true
  | _ => false

/-- The value has the type that Spark needs for the axis, and is not too large: on a `bin` axis it is
less than 2^63 - 1 bins above the low edge and not `inf` (`-inf` is fine), on an `intbin` axis it is
an integer. -/
def FixedAxis.sparkFits : FixedAxis → Val → Prop
  | .bin a, v => v.isBool = false ∧ v.toNum ≠ .pinf ∧
      ∀ q, v.toNum = .fin q → (q - a.low) * (a.numbins / (a.high - a.low)) < 9223372036854775807
  | .split _, v => v.isBool = false
  | .intbin _, v => v.isBool = false ∧ ∃ i : ℤ, v.toNum = .fin i
  | .cut, v => v.isBool = true

/-- No flow bin that the axis lacks is needed in a way that Spark gets wrong: nothing lies below an
axis without underflow; nothing lies above an axis that has a NaN bin but no overflow bin, and no NaN
is given to it; nothing at all lies above an `intbin` axis. -/
def FixedAxis.sparkRight (a : FixedAxis) (v : Val) : Prop :=
  (a.hasUnder = true ∨ a.isUnder v = false) ∧
  match a with
  | .intbin _ => a.isOver v = false
  | a => a.hasOver = true ∨ a.hasNan = false ∨ (a.isOver v = false ∧ v.isNaN = false)

/-- The value has the type that Spark needs for the group axis and is not too large. -/
def GroupAxis.sparkFits : GroupAxis → GVal → Prop
  | .groupby, v => ∃ k, v.toKey = .ok k
  | .groupbin a, v => a.binwidth ≠ 0 ∧ ∃ q, v.toNum = .ok (.fin q) ∧
      -9223372036854775807 ≤ (q - a.origin) * (1 / a.binwidth) ∧ (q - a.origin) * (1 / a.binwidth) ≤ 9223372036854775807

/-- The row is one that Spark gets right in the histogram. -/
structure Row.SparkOk (H : HistDef) (r : Row) : Prop where
  groups : List.Forall₂ GroupAxis.sparkFits H.groups r.gvals
  fixed : List.Forall₂ (fun a v => FixedAxis.Built a ∧ a.sparkFits v ∧ a.sparkRight v) H.fixed r.fvals
  xs : r.xs.length = H.nprof
  weight : H.wkind = .expr → ∃ q, r.w = some q

end Verif
