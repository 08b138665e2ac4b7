import Verif.Table
import Mathlib.Analysis.Real.Sqrt
import Mathlib.Analysis.Real.Pi.Bounds

/-!
# Errors of fractions

One bin of the table that `fraction` makes, as `handlearray` in `_fraction` (`/repo/histbook/proj.py` 662-794) fills it
column after column, with the methods of computing errors.  Numbers are real here because of square roots and `pi`;
floating point rounding is not modelled.  How a bin gets its sums of weights is in `Verif.Table`.
-/

namespace Verif

/-- proj.py 709-720 `level2sigmas` if scipy is not installed. -/
noncomputable def sigmasWithoutScipy (level : ℝ) : ℝ :=
  let a3 := Real.pi / 12
  let a5 := Real.pi ^ 2 * 7 / 480
  let a7 := Real.pi ^ 3 * 127 / 40320
  let a9 := Real.pi ^ 4 * 4369 / 5806080
  let a11 := Real.pi ^ 5 * 34807 / 182476800
  (1 / 2) * √Real.pi *
    (level + a3 * level ^ 3 + a5 * level ^ 5 + a7 * level ^ 7 + a9 * level ^ 9 + a11 * level ^ 11)

/-- proj.py 754. -/
noncomputable def normalError (z p denom : ℝ) : ℝ := z * √(p * (1 - p) / denom)

/-- proj.py 760. -/
noncomputable def wilsonError (z p denom : ℝ) : ℝ :=
  (p + 1 / 2 * z ^ 2 / denom + z * √(p * (1 - p) / denom + 1 / 4 * z ^ 2 / denom ^ 2)) / (1 + z ^ 2 / denom)

/-- The methods that only raise (proj.py 749-750, 763-773). -/
def unimplemented : List String :=
  ["clopper-pearson", "agresti-coull", "feldman-cousins", "jeffrey", "bayesian-uniform"]

/-- proj.py 743-773: what is written after the fraction `p` of one cut, for the numbers of sigmas `zs`.  A method that is
none of the known ones writes nothing. -/
noncomputable def errorValues (error : Option String) (zs : List ℝ) (p denom : ℝ) : Except Err (List ℝ) :=
  match error with
  | none => .ok []
  | some m =>
    if m = "" then .ok []
    else if m ∈ unimplemented then .error .notImplemented
    else if m = "normal" then .ok (zs.map fun z => normalError z p denom)
    else if m = "wilson" then .ok (zs.map fun z => wilsonError z p denom)
    else .ok []

/-- proj.py 738-773: the loop over the cuts. -/
noncomputable def cutValues (error : Option String) (zs : List ℝ) (sumw : ℝ) : List ℝ → Except Err (List ℝ)
  | [] => .ok []
  | passed :: rest => do
    let es ← errorValues error zs (passed / sumw) sumw
    let vs ← cutValues error zs sumw rest
    .ok (passed / sumw :: es ++ vs)

/-- `if error:` (proj.py 702, 743). -/
def wantsError : Option String → Bool
  | none => false
  | some m => m ≠ ""

/-- The columns in order: their names are `count()`, the cut, or `err(cut)` with a level (proj.py 697-707). -/
inductive FrCol
  | count
  | fraction (cut : ℕ)
  | err (cut level : ℕ)
  deriving DecidableEq

/-- `columns` (proj.py 697-707), from the cut number `i` on. -/
def frColumnsFrom (error : Option String) (levels : ℕ) (i : ℕ) : ℕ → List FrCol
  | 0 => []
  | n + 1 =>
    .fraction i :: (if wantsError error then (List.range levels).map (.err i) else []) ++
      frColumnsFrom error levels (i + 1) n

/-- `columns` (proj.py 697-707). -/
def frColumns (count : Bool) (error : Option String) (levels cuts : ℕ) : List FrCol :=
  (if count then [.count] else []) ++ frColumnsFrom error levels 0 cuts

/-- The sums of weights that pass, as written in one row of `out` (proj.py 722-773): a row of zeros that is written from
the left.  Rows without positive weight are not written except for the count; the method is looked at anyway. -/
noncomputable def fractionRow (count : Bool) (error : Option String) (zs : List ℝ) (sumw : ℝ) (passed : List ℝ) :
    Except Err (List ℝ) := do
  let vs ← cutValues error zs sumw passed
  let row := (if count then [sumw] else []) ++ (if 0 < sumw then vs else vs.map fun _ => 0)
  .ok (row ++ List.replicate ((frColumns count error zs.length passed.length).length - row.length) 0)

/-- The number in a column of the row. -/
noncomputable def frColumnOf (row : List ℝ) (cols : List FrCol) (c : FrCol) : Option ℝ := row[cols.idxOf c]?

end Verif
