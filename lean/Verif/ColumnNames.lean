import Verif.Export

/-!
# Names of columns and levels (proj.py 538-548, 697-707, 615, 776; export.py 70-85, 149-156)

The texts of the axes (`str(axis.expr)`) enter as parameters; so do the texts of the confidence levels, as written with `{1:3g}`.
-/

namespace Verif

/-- `columns` of `table` (proj.py 538-548). `texts`: the texts of the profiles of the histogram. -/
def TableOpts.names (o : TableOpts) (texts : List String) : List String :=
  (if o.count then "count()" :: (if o.error then ["err(count())"] else []) else []) ++
  (if o.effcount then ["effcount()"] else []) ++
  o.profs.flatMap fun p => texts.getD p "" :: (if o.error then ["err(" ++ texts.getD p "" ++ ")"] else [])

/-- The name of a column of errors of `fraction` (proj.py 704-707); `none` is the default level. -/
def errName (cut : String) : Option String → String
  | none => "err(" ++ cut ++ ")"
  | some level => "err(" ++ cut ++ ", " ++ level ++ ")"

/-- `columns` of `fraction` (proj.py 697-707). No levels: without errors. -/
def fractionNames (count : Bool) (levels : List (Option String)) (cuts : List String) : List String :=
  (if count then ["count()"] else []) ++ cuts.flatMap fun c => c :: levels.map (errName c)

/-- There is an array in the content, so that `handlearray` is called (proj.py 617-621, 778-782). -/
def hasTable : (n : ℕ) → Content Table n → Bool
  | 0, _ => true
  | n + 1, (d : List (Key × Content Table n)) => d.any fun p => hasTable n p.2

/-- `out.view([(x, dtype) for x in columns])` (proj.py 615, 776) of every array: numpy refuses a record with no field, and one in which
a name occurs twice. -/
def recordView (names : List String) (n : ℕ) (t : Content Table n) : Except Err (List String × Content Table n) :=
  if hasTable n t && !(decide names.Nodup && !names.isEmpty) then .error .valueError else .ok (names, t)

/-- proj.py 484-630 `table` with `recarray=True`: records with names. -/
def HistDef.tableRecords (H : HistDef) (o : TableOpts) (texts : List String) (st : H.State) :
    Except Err (List String × Content Table H.groups.length) :=
  match H.table o st with
  | .error e => .error e
  | .ok t => recordView (o.names texts) H.groups.length t

/-- proj.py 632-794 `fraction` with `recarray=True`: records with names. `texts`: those of the fixed axes. -/
def HistDef.fractionRecords (H : HistDef) (hasWeight count : Bool) (levels : List (Option String × ℚ)) (texts : List String) (cuts : List ℕ)
    (st : H.State) : Except Err (List String × Content Table H.groups.length) :=
  match H.fraction hasWeight count (levels.map (·.2)) cuts st with
  | .error e => .error e
  | .ok t => recordView (fractionNames count (levels.map (·.1)) (cuts.map fun c => texts.getD c "")) H.groups.length t

/-- `record[name]`; `none`: no field of that name (`ValueError`). -/
def fieldOf (names : List String) (row : List (Option ℚ)) (name : String) : Option (Option ℚ) :=
  if name ∈ names then row[names.idxOf name]? else none

/-- How many of the fixed axes `index` (export.py 74-145) comes to: it goes on from an axis once for each of its bins. -/
def depthFixed : List FixedAxis → ℕ
  | [] => 0
  | a :: as => 1 + (if a.plabels = [] then 0 else depthFixed as)

/-- How many axes `index` (export.py 74-145) comes to: it goes on from a group axis once for each key. -/
def depthReached (fs : List FixedAxis) : (n : ℕ) → Content Table n → ℕ
  | 0, _ => depthFixed fs
  | n + 1, (d : List (Key × Content Table n)) => 1 + (d.map fun p => depthReached fs n p.2).foldr max 0

/-- `names` (export.py 70, 85): the names of the levels of the index, `None` for the axes that `index` does not come to. -/
def levelNames (fs : List FixedAxis) (n : ℕ) (t : Content Table n) (texts : List String) : List (Option String) :=
  (texts.take (depthReached fs n t)).map some ++ List.replicate (texts.length - depthReached fs n t) none

end Verif
