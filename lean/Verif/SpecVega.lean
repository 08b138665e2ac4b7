import Verif.Vega
import Verif.SpecTable
import Verif.SpecProj
import Verif.SpecSpark
import Verif.ProjLemmas

/-!
# Specification of plots

What the records of a plot are, in terms of groups, published bins and the rows of data in them.
-/

namespace Verif

/-- How a key of a group axis is written: a value, or an interval with the width of the axis. -/
def GroupAxis.legend (F : Fmt) : GroupAxis → Key → String
  | .groupby, k => F.key k
  | .groupbin a, .num q => (BinLabel.iv (.fin q) (.fin (q + a.binwidth)) a.closedlow (!a.closedlow)).text F
  | .groupbin a, .pinf => (BinLabel.iv .pinf .pinf a.closedlow (!a.closedlow)).text F
  | .groupbin a, .ninf => (BinLabel.iv .ninf .ninf a.closedlow (!a.closedlow)).text F
  | .groupbin _, .str _ => "{NaN}"

/-- The bin that is written for bin number `i` of an axis: the published one, except that a bin with one integer `n` is written as the interval from
`n - 1/2` to `n + 1/2`, and the bins below and above with it. -/
def FixedAxis.written : FixedAxis → ℕ → BinLabel
  | .intbin a, i =>
    match a.keys[i]? with
    | some (.int n) => .iv (.fin ((n : ℚ) - 1 / 2)) (.fin ((n : ℚ) + 1 / 2)) true false
    | some (.iv .ninf _ _ _) => .iv .ninf (.fin ((a.min : ℚ) - 1 / 2)) true false
    | _ => .iv (.fin ((a.max : ℚ) + 1 / 2)) .pinf true true
  | a, i => a.keys.getD i .nan

/-- The texts for a group and a bin, one for each axis. -/
def cellTexts (F : Fmt) (H : HistDef) (gk : List Key) (idx : List ℕ) : List DVal :=
  List.zipWith (fun g k => .str (GroupAxis.legend F g k)) H.groups gk ++
  List.zipWith (fun a i => .str ((FixedAxis.written a i).text F)) H.fixed idx

/-- The centre of a finite published bin. -/
def BinLabel.centre : BinLabel → Option ℚ
  | .iv (.fin lo) (.fin hi) _ _ => some ((lo + hi) / 2)
  | .int n => some n
  | _ => none

/-- The edges of a finite bin as they are written. -/
def FixedAxis.edgesAt (a : FixedAxis) (i : ℕ) : Option (ℚ × ℚ) :=
  match a.written i with
  | .iv (.fin lo) (.fin hi) _ _ => some (lo, hi)
  | _ => none

/-- A record: first the given fields, then one column for each text or position, and then the values. -/
def recordOf (pre : Datum) (var : String) (texts : List DVal) (vals : List (Option ℚ)) : Datum :=
  pre ++ List.zipWith (fun i v => (PName.col var i, v)) (List.range (texts.length + vals.length)) (texts ++ vals.map .num)

/-- The axes of `axes` among the group axes and among the fixed axes. -/
def HistDef.keptG (H : HistDef) (axes : List ℕ) : List Bool := (List.range H.groups.length).map fun i => axes.contains i
def HistDef.keptF (H : HistDef) (axes : List ℕ) : List Bool := (List.range H.fixed.length).map fun i => axes.contains (i + H.groups.length)

/-- The histogram with only the axes of a plot. -/
def HistDef.onAxes (H : HistDef) (axes : List ℕ) : HistDef := H.project (H.keptG axes) (H.keptF axes)

/-- The rows that are in some group and bin of the other axes, and in this group and bin of the axes of a plot. -/
def HistDef.rowsIn (H : HistDef) (axes : List ℕ) (rows : List Row) (c : List Key × List ℕ) : List Row :=
  ((rows.filter (Row.coveredOn H (H.keptG axes) (H.keptF axes))).map (Row.project (H.keptG axes) (H.keptF axes))).filter
    (Row.lands (H.onAxes axes) c.1 c.2)

/-- The sum over all bins of the axes of a plot of the counts over the widths. -/
def HistDef.densities (H : HistDef) (axes : List ℕ) (rows : List Row) : ℚ :=
  ((allCells ((H.onAxes axes).fixed.map FixedAxis.totbins)).map fun idx =>
    perWidth (sumW H.wkind (H.rowsIn axes rows ([], idx))) (cellWidth (H.onAxes axes).fixed idx)).sum

/-- The values of a record: the count, or the mean of a profile, of these rows, and its (squared) error.  If the plot is normalized, counts are divided by the
width of the bin and by the sum of all of these quotients. -/
def HistDef.valuesIn (H : HistDef) (P : Plot1d) (rows : List Row) (c : List Key × List ℕ) : List (Option ℚ) :=
  let o : TableOpts := { count := P.prof.isNone, error := P.error, profs := P.prof.toList }
  if P.normalized then normSpec H.wkind o (H.rowsIn P.axes rows c) (cellWidth (H.onAxes P.axes).fixed c.2) (H.densities P.axes rows)
  else tableSpec H.wkind o (H.rowsIn P.axes rows c)

/-- If the plot is normalized, it can be: it has no group axes (they raise `AttributeError`, C46), no split axis except the last one (C46), and if it is of
counts, not all of them are zero. -/
structure HistDef.Normalizable (H : HistDef) (P : Plot1d) (rows : List Row) : Prop where
  fixed : P.normalized = true → (H.onAxes P.axes).groups = []
  split : P.normalized = true → ∀ a ∈ (H.onAxes P.axes).fixed.dropLast, ∀ s, a ≠ .split s
  total : P.normalized = true → P.prof = none → H.densities P.axes rows ≠ 0

theorem HistDef.Normalizable.of {H : HistDef} {P : Plot1d} {rows : List Row} (h : P.normalized = false) : H.Normalizable P rows :=
  ⟨fun h' => by simp [h] at h', fun h' => by simp [h] at h', fun h' => by simp [h] at h'⟩

/-- All groups and bins of the axes of a plot, each once. -/
structure HistDef.PlotCells (H : HistDef) (axes : List ℕ) (st : H.State) (cells : List (List Key × List ℕ)) : Prop where
  nodup : cells.Nodup
  mem : ∀ gk idx, (gk, idx) ∈ cells ↔ (H.onAxes axes).Cell idx ∧ gk.length = (H.onAxes axes).groups.length ∧
    (gk = [] ∨ ∃ full, full.length = H.groups.length ∧ pick (H.keptG axes) full = gk ∧ H.has st full)

/-- No NaN on a `groupbin` axis. -/
def NoNanKeys (H : HistDef) (rows : List Row) : Prop :=
  ∀ (i : ℕ) (a : GroupbinAxis), H.groups[i]? = some (.groupbin a) → ∀ r ∈ rows, ∀ k,
    (List.zipWith GroupAxis.key H.groups r.gvals).getD i none = some k → k.isStr = false

/-- The value is a number greater than zero. -/
def aboveZero (vals : List (Option ℚ)) : Bool := vals.head?.join.any fun q => decide (0 < q)

/-- The points of an outline, in the order of the bins: for each bin the positions, and `true` if the value there is zero instead of that of the bin.
In the result, `none` is for zero, and `some i` for the value of bin `i`. -/
def outline (n : ℕ) (pts : ℕ → List (ℚ × Bool)) : List (ℚ × Option ℕ) :=
  (List.range n).flatMap fun i => (pts i).map fun p => (p.1, if p.2 then none else some i)

/-- The value at `x` if each point holds up to the next one. -/
def stepAt (pts : List (ℚ × Option ℕ)) (x : ℚ) : Option (Option ℕ) := ((pts.filter fun p => decide (p.1 ≤ x)).getLast?).map (·.2)

/-- The points draw the bins of the axis: from zero at the lower end of the axis, with the value of each bin from its lower edge to its upper edge (in the first
one, from a distance of `tiny` times the width of the axis on), to zero at the upper end. -/
structure Outlines (a : FixedAxis) (pts : ℕ → List (ℚ × Bool)) : Prop where
  increasing : (outline a.totbins pts).Pairwise fun p q => p.1 < q.1
  within : ∀ p ∈ outline a.totbins pts, a.range.1 ≤ p.1 ∧ p.1 ≤ a.range.2
  below : ∀ x, x < a.range.1 → stepAt (outline a.totbins pts) x = none
  start : outline a.totbins pts ≠ [] → ∀ x, a.range.1 ≤ x → x < a.range.1 + tiny * (a.range.2 - a.range.1) → stepAt (outline a.totbins pts) x = some none
  inside : ∀ i, i < a.totbins → ∀ lo hi, a.edgesAt i = some (lo, hi) → ∀ x, lo ≤ x → x < hi → a.range.1 + tiny * (a.range.2 - a.range.1) ≤ x →
    stepAt (outline a.totbins pts) x = some (some i)
  above : outline a.totbins pts ≠ [] → ∀ x, a.range.2 ≤ x → stepAt (outline a.totbins pts) x = some none

end Verif
