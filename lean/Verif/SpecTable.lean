import Verif.Table
import Verif.SpecProj

/-!
# Specification of tables and fractions

The statistics of a list of rows, and the widths of bins as published.
-/

namespace Verif

/-- Sum of a function over rows. -/
def rsum (rs : List Row) (f : Row → ℚ) : ℚ := (rs.map f).sum

/-- Sum of weights, of squared weights, and the weighted mean of profile `p`. -/
def sumW (k : WKind) (rs : List Row) : ℚ := rsum rs (fun r => r.weight k)
def sumW2 (k : WKind) (rs : List Row) : ℚ := rsum rs (fun r => r.weight k ^ 2)
def wmean (k : WKind) (rs : List Row) (p : ℕ) : ℚ := rsum rs (fun r => r.weight k * r.xs.getD p 0) / sumW k rs

/-- Weighted variance: the weighted mean of the squared distance from the mean. -/
def wvar (k : WKind) (rs : List Row) (p : ℕ) : ℚ :=
  rsum rs (fun r => r.weight k * (r.xs.getD p 0 - wmean k rs p) ^ 2) / sumW k rs

/-- Effective number of entries. -/
def effN (k : WKind) (rs : List Row) : ℚ := sumW k rs ^ 2 / sumW2 k rs

/-- The columns of a bin (errors squared): the sum of weights, the sum of squared weights, the effective
number of entries, and for each profile the weighted mean and the weighted variance divided by the
effective number of entries; zeros for effective number, means and their errors in bins without positive weight. -/
def tableSpec (k : WKind) (o : TableOpts) (rs : List Row) : List (Option ℚ) :=
  (if o.count then some (sumW k rs) :: (if o.error then [some (sumW2 k rs)] else []) else []) ++
  (if o.effcount then [some (if sumW k rs > 0 then effN k rs else 0)] else []) ++
  o.profs.flatMap (fun p =>
    if sumW k rs > 0 then some (wmean k rs p) :: (if o.error then [some (wvar k rs p / effN k rs)] else [])
    else some 0 :: (if o.error then [some 0] else []))

/-- The columns of a bin of a table of fractions, given all its rows and for each cut the rows that
pass: their ratio, and the squared errors `z p (1 - p) / count`. -/
def fractionSpec (k : WKind) (count : Bool) (zs : List ℚ) (all : List Row) (passing : List (List Row)) : List (Option ℚ) :=
  (if count then [some (sumW k all)] else []) ++
  passing.flatMap (fun ps =>
    if sumW k all > 0 then
      some (sumW k ps / sumW k all) :: zs.map (fun z => some (z * (sumW k ps / sumW k all * (1 - sumW k ps / sumW k all) / sumW k all)))
    else some 0 :: zs.map (fun _ => some 0))

/-- The values are in the bins number `idx` of the axes that are kept, and in some bin of each of the
others. -/
def landsOn (kf : List Bool) (fs : List FixedAxis) (vs : List Val) (idx : List ℕ) : Bool :=
  inBins' (pick kf fs) (pick kf vs) idx && (pick (kf.map not) (List.zipWith FixedAxis.covers fs vs)).all id

/-- What a user reads in a table (a dict for each group axis). -/
def tlookup : (n : ℕ) → Content Table n → List Key → Option Table
  | 0, (t : Table), _ => some t
  | n + 1, (d : List (Key × Content Table n)), gk =>
    match gk with
    | [] => none
    | k :: gk =>
      match dget d k with
      | none => none
      | some c => tlookup n c gk

/-- The width of a published bin; `none` for flow bins. -/
def BinLabel.width : BinLabel → Option ℚ
  | .iv (.fin l) (.fin h) _ _ => some (h - l)
  | .iv _ _ _ _ => none
  | .nan => none
  | .int _ => some 1
  | .bool _ => some 1

/-- The product of the widths on all axes; `none` if one of them is infinite. -/
def cellWidth : List FixedAxis → List ℕ → Option ℚ
  | [], _ => some 1
  | a :: as, is =>
    match (a.keys[is.headD 0]?).bind BinLabel.width, cellWidth as is.tail with
    | some w, some v => some (w * v)
    | _, _ => none

/-- `x / w`, zero for infinite width -/
def perWidth (x : ℚ) : Option ℚ → ℚ
  | none => 0
  | some w => x / w

/-- The columns of a bin of a normalized table: the count over the width of the bin over `total`, its squared error over the squares of both, and the
other columns as in any table. -/
def normSpec (k : WKind) (o : TableOpts) (rs : List Row) (w : Option ℚ) (total : ℚ) : List (Option ℚ) :=
  (if o.count then some (perWidth (sumW k rs) w / total) ::
    (if o.error then [some (perWidth (perWidth (sumW2 k rs) w) w / total ^ 2)] else []) else []) ++
  tableSpec k { o with count := false, normalized := false } rs

end Verif
