import Verif.SpecHist
import Verif.Proj

/-!
# Specification of projections and selections

What the result should contain, in terms of the rows.
-/

namespace Verif

/-- The row with the values of the kept axes only. -/
def Row.project (kg kf : List Bool) (r : Row) : Row := { r with gvals := pick kg r.gvals, fvals := pick kf r.fvals }

/-- The value is in some bin of the axis. -/
def FixedAxis.covers (a : FixedAxis) (v : Val) : Bool := (List.range a.totbins).any (fun i => a.holds i v)

/-- The row has a group and a bin on every axis that is *not* kept (always so with all flow bins
switched on). -/
def Row.coveredOn (H : HistDef) (kg kf : List Bool) (r : Row) : Bool :=
  (pick (kg.map not) (List.zipWith GroupAxis.key H.groups r.gvals)).all Option.isSome &&
  (pick (kf.map not) (List.zipWith FixedAxis.covers H.fixed r.fvals)).all id

/-- The rows whose value on fixed axis `j` satisfies `p`. -/
def rowsWhere (j : ℕ) (p : Val → Bool) (rows : List Row) : List Row :=
  rows.filter (fun r => p (r.fvals.getD j (.num .nan)))

/-- The published bins do not overlap at this value, and all of them are within the axis. -/
def FixedAxis.Sound (a : FixedAxis) (v : Val) : Prop :=
  (∀ i j, a.holds i v = true → a.holds j v = true → i = j) ∧ ∀ i, a.holds i v = true → i < a.totbins

/-- The row has a value for each axis. -/
structure Row.Sound (H : HistDef) (r : Row) : Prop where
  groups : r.gvals.length = H.groups.length
  fixed : List.Forall₂ FixedAxis.Sound H.fixed r.fvals

/-- The content is what the histogram should have after it was filled with these rows: proper arrays
in proper dicts, a group for every row that belongs to one, and in each bin the sum over the rows
that belong to it. -/
structure Represents (H : HistDef) (rows : List Row) (st : H.State) : Prop where
  good : H.Good st
  distinct : H.DistinctKeys st
  sound : ∀ r ∈ rows, r.Sound H
  groups : ∀ r ∈ rows, ∀ gk, inGroup H.groups r.gvals gk = true → H.has st gk
  totals : ∀ gk, gk.length = H.groups.length → ∀ idx, H.Cell idx → ∀ col, H.read st gk idx col = binTotal H rows gk idx col

/-- On each group axis that is projected away, the number of keys (next to one another) is 2, 4, 8 and
so on. -/
def PowKeys : (n : ℕ) → List Bool → Content Arr n → Prop
  | 0, _, _ => True
  | n + 1, kg, (d : List (Key × Content Arr n)) =>
    (kg.headD true = true ∨ ∃ k, d.length = 2 ^ (k + 1)) ∧ ∀ p ∈ d, PowKeys n kg.tail p.2

/-- A comparison of a value with a number, as Python makes it. -/
def Cmp.test (c : Cmp) (x y : Num) : Bool :=
  match c with
  | .lt => Num.lt x y
  | .le => Num.le x y
  | .gt => Num.lt y x
  | .ge => Num.le y x
  | .eq => !x.isnan && decide (x = y)
  | .ne => x.isnan || decide (x ≠ y)
  | .isin => false
  | .notin => false

/-- The row with axis `j` left out. -/
def Row.eraseFixed (j : ℕ) (r : Row) : Row := { r with fvals := r.fvals.eraseIdx j }

/-- Axis `a'` has those bins of `a`, in the same order, whose values satisfy `p`: only such values are
in its bins, and no such value loses its bin. -/
structure FixedAxis.Reduced (a a' : FixedAxis) (p : Val → Bool) : Prop where
  size : a'.keys.length = a'.totbins
  sub : a'.keys.Sublist a.keys
  only : ∀ v, ∀ l ∈ a'.keys, v.In l = true → p v = true
  all : ∀ v, ∀ l ∈ a.keys, v.In l = true → p v = true → l ∈ a'.keys

end Verif
