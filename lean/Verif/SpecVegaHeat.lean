import Verif.SpecVega
import Verif.VegaLayers

/-!
# Specification of heatmaps
-/

namespace Verif

/-- All values, if there is none missing. -/
def sequenceO {α : Type} : List (Option α) → Option (List α)
  | [] => some []
  | o :: os => o.bind fun x => (sequenceO os).map fun xs => x :: xs

/-- Where a group is drawn: at its text, or at the centre of its interval; nowhere, if it is infinite. -/
def GroupAxis.spot (F : Fmt) : GroupAxis → Key → Option DVal
  | .groupby, k => some (.str (F.key k))
  | .groupbin a, .num q => some (.num (some (q + a.binwidth / 2)))
  | .groupbin _, _ => none

/-- Where a bin is drawn: at its text for `cut`, or at the centre of the published bin; nowhere, if it is infinite. -/
def FixedAxis.spot (F : Fmt) : FixedAxis → ℕ → Option DVal
  | .cut, i => some (.str ((FixedAxis.cut.written i).text F))
  | a, i => (a.keys[i]?.bind BinLabel.centre).map fun q => .num (some q)

/-- What a record has for each group axis; those that are drawn have places instead of texts.  The axes count from `j`. -/
def spotsG (F : Fmt) (drawn : ℕ → Bool) : ℕ → List GroupAxis → List Key → List (Option DVal)
  | j, g :: gs, k :: gk => (if drawn j then g.spot F k else some (.str (g.legend F k))) :: spotsG F drawn (j + 1) gs gk
  | _, _, _ => []

/-- The same for fixed axes. -/
def spotsF (F : Fmt) (drawn : ℕ → Bool) : ℕ → List FixedAxis → List ℕ → List (Option DVal)
  | j, a :: as, i :: idx => (if drawn j then a.spot F i else some (.str ((a.written i).text F))) :: spotsF F drawn (j + 1) as idx
  | _, _, _ => []

/-- The numbers of the axes of a plot, in the order of the columns of its records. -/
def HistDef.plotted (H : HistDef) (axes : List ℕ) : List ℕ := (List.range (H.groups.length + H.fixed.length)).filter fun i => axes.contains i

/-- The columns, of a heatmap, for a group and bin, if these are finite in both directions. -/
def HistDef.heatColumns (H : HistDef) (F : Fmt) (P : Plot2d) (c : List Key × List ℕ) : Option (List DVal) :=
  let drawn := fun j => decide ((H.plotted P.axes)[j]? = some P.xaxis) || decide ((H.plotted P.axes)[j]? = some P.yaxis)
  sequenceO (spotsG F drawn 0 (H.onAxes P.axes).groups c.1 ++ spotsF F drawn (H.onAxes P.axes).groups.length (H.onAxes P.axes).fixed c.2)

/-- The value of a heatmap: the count, or the mean of a profile, of the rows in the group and bin. -/
def HistDef.heatIn (H : HistDef) (P : Plot2d) (rows : List Row) (c : List Key × List ℕ) : List (Option ℚ) :=
  tableSpec H.wkind { count := P.prof.isNone, error := false, profs := P.prof.toList } (H.rowsIn P.axes rows c)

end Verif
