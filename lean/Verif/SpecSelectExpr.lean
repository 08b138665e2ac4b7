import Verif.SpecProj
import Verif.PropsGoals
import Verif.SelectExpr

/-!
# Specification of selections with boolean expressions

The data are given as values of the fields for each row; the histogram sees the values of its expressions.
-/

namespace Verif

/-- A row of the data as the histogram sees it: the values of its expressions. -/
def HistExprs.rowOf (X : HistExprs) (env : RowEnv) : Row where
  gvals := X.groups.map fun p => .num (toNum (p.2.eval env))
  fvals := X.fixed.map fun p => p.1.valOf (p.2.eval env)
  xs := X.profs.map fun e => (e.eval env).getD 0
  w := X.weight.bind fun e => e.eval env

/-- The edges of the bins of an axis. -/
def FixedAxis.HasEdge (x : ℚ) : FixedAxis → Prop
  | .bin a => ∃ m : ℕ, m ≤ a.numbins ∧ x = a.low + m * ((a.high - a.low) / a.numbins)
  | .split a => x ∈ a.edges
  | .intbin _ => ∃ k : ℤ, x = k
  | .cut => False

/-- The edges of the groups of an axis. -/
def GroupAxis.HasEdge (x : ℚ) : GroupAxis → Prop
  | .groupby => False
  | .groupbin a => ∃ m : ℤ, x = a.origin + m * a.binwidth

/-- An axis with expression `e` has an edge at `x`. -/
def HistExprs.HasEdge (X : HistExprs) (e : E) (x : ℚ) : Prop :=
  (∃ p ∈ X.groups, p.2 = e ∧ p.1.HasEdge x) ∨ ∃ p ∈ X.fixed, p.2 = e ∧ p.1.HasEdge x

/-- The axis is one that its constructor makes, and the tolerance is at most half the width of a bin. -/
def FixedAxis.Fits (tol : ℚ) : FixedAxis → Prop
  | .bin a => a.numbins = 0 ∨ a.low < a.high ∧ 2 * tol * a.numbins ≤ a.high - a.low
  | .split a => a.edges.Pairwise (· < ·)
  | .intbin _ => 2 * tol ≤ 1
  | .cut => True

/-- The same for all axes. -/
structure HistExprs.Fits (X : HistExprs) (tol : ℚ) : Prop where
  groups : ∀ a, GroupAxis.groupbin a ∈ X.groups.map (·.1) → 0 < a.binwidth
  fixed : ∀ p ∈ X.fixed, p.1.Fits tol

mutual
/-- The names in an expression. -/
def E.names : E → List String
  | .node h p n =>
    match h with
    | .name s => [s]
    | .pred s _ => [s]
    | .const _ => []
    | .cset _ => []
    | _ => E.namesL p ++ E.namesL n
/-- The names in a list of expressions. -/
def E.namesL : List E → List String
  | [] => []
  | e :: es => e.names ++ E.namesL es
end

/-- If all names of `b` are names of constants, then these are finite numbers, and no field has such a name
with another value. -/
def ConstSide (mc : String → Option Num) (env : RowEnv) (b : E) : Prop :=
  (∀ s ∈ b.names, (mc s).isSome = true) → ∀ s ∈ b.names, ∃ q, mc s = some (.fin q) ∧ env.field s = some q

/-- A comparison of the quantity `a` with `b` on a row: if an edge of an axis with quantity `a` is within the
tolerance of `b`, then it is equal to `b`, or the row is not within the tolerance of the edge. -/
def ClearSide (X : HistExprs) (tol : ℚ) (env : RowEnv) (a b : E) : Prop :=
  ∀ q v x, a.eval env = some q → b.eval env = some v → X.HasEdge a x → |v - x| < tol → x = v ∨ tol ≤ |q - x|

/-- What is asked of a row for one condition; in a comparison neither side is an "or". -/
def Clear (mc : String → Option Num) (X : HistExprs) (tol : ℚ) (env : RowEnv) : E → Prop
  | .node (.rel op) p _ => ∃ l r, p = [l, r] ∧ l.head ≠ .lor ∧ r.head ≠ .lor ∧ ((op = .isin ∨ op = .notin) → r.setOf.isSome = true) ∧
      ConstSide mc env l ∧ ConstSide mc env r ∧ ClearSide X tol env l r ∧ ClearSide X tol env r l
  | .node (.pred s _) _ _ => env.field s = some 0 ∨ env.field s = some 1
  | .node (.name s) _ _ => env.field s = some 0 ∨ env.field s = some 1
  | _ => False

/-- What is asked of a row for one condition or an "or": an "or" of two conditions, or an "or" of any number of
"and"s if the histogram has no group axes. -/
def ClearTerm (mc : String → Option Num) (X : HistExprs) (tol : ℚ) (env : RowEnv) (c : E) : Prop :=
  Clear mc X tol env c ∨ ∃ args n, c = .node .lor args n ∧
    (X.groups = [] ∨ ∃ s t m k, args = [.node .land [s] m, .node .land [t] k] ∧ Clear mc X tol env s ∧ Clear mc X tol env t)

/-- The conditions of the cut axes are true or false in the row (the numbers 1 and 0). -/
def HistExprs.CutsDecide (X : HistExprs) (env : RowEnv) : Prop :=
  ∀ p ∈ X.fixed, p.1 = .cut → p.2.eval env = some 0 ∨ p.2.eval env = some 1

end Verif
