import Verif.PropsSpark

/-!
# Filling a histogram from a Spark DataFrame with missing values

The model of `Verif.Spark`, with null values in the columns of the axes, the profiles and the weight.

Of Spark, what the documentation of its functions says is taken over: arithmetic with null is null, `isnull` and `isnan` of null are true and
false, a condition that is null does not hold in `when`, `least` and `greatest` skip null values, `nanvl` of null is null, rows are grouped with null
as a value of its own, `sum` skips null values and is null if there is nothing else, and `count` of a struct counts every row.
-/

namespace Verif

/-- A row of a DataFrame: the values of the axes, the profiles and the weight, `none` where the value is null (a weight may also be NaN). -/
structure NullRow where
  gvals : List (Option GVal)
  fvals : List (Option Val)
  xs : List (Option ℚ)
  w : Option (Option ℚ)

/-- calc/spark.py:207-234, the index of a fixed axis: lines 213 and 228 ask for null, in line 216 `round` of null is skipped by `least` and
`greatest`, in line 231 null does not hold. -/
def FixedAxis.nullIndex : FixedAxis → Option Val → Except Err ℤ
  | a, some v => a.sparkIndex v
  | .cut, none => .ok 1
  | .bin a, none => if a.high - a.low = 0 then .error .zeroDivision else .ok ((a.numbins : ℤ) + 2)
  | .intbin a, none => .ok (max 0 (a.max - a.min + 1))
  | .split a, none => .ok ((a.edges.length : ℤ) + 1)

/-- calc/spark.py:198-205, the key of a group axis: null is the key `None` on groupby axes, and on groupbin axes too, since `nanvl` leaves it. -/
def GroupAxis.nullKey (g : GroupAxis) : Option GVal → Except Err (Option Key)
  | some v => (g.sparkKey v).map some
  | none => .ok none

/-- The loop of calc/spark.py:193-234 over the group axes. -/
def nullKeys : List GroupAxis → List (Option GVal) → Except Err (List (Option Key))
  | g :: gs, v :: vs =>
    match g.nullKey v with
    | .error e => .error e
    | .ok k =>
      match nullKeys gs vs with
      | .error e => .error e
      | .ok ks => .ok (k :: ks)
  | _, _ => .ok []

/-- The loop of calc/spark.py:193-234 over the fixed axes. -/
def nullIndexes : List FixedAxis → List (Option Val) → Except Err (List ℤ)
  | a :: as, v :: vs =>
    match a.nullIndex v with
    | .error e => .error e
    | .ok i =>
      match nullIndexes as vs with
      | .error e => .error e
      | .ok is => .ok (i :: is)
  | _, _ => .ok []

/-- calc/spark.py:241: the struct that the rows are grouped by. -/
def NullRow.index (H : HistDef) (r : NullRow) : Except Err (List (Option Key) × List ℤ) :=
  match nullKeys H.groups r.gvals with
  | .error e => .error e
  | .ok ks =>
    match nullIndexes H.fixed r.fvals with
    | .error e => .error e
    | .ok is => .ok (ks, is)

/-- The weight column (calc/spark.py:245): the constant, or the value of the expression. -/
def NullRow.weight (H : HistDef) (r : NullRow) : Option (Option ℚ) :=
  match H.wkind with
  | .none => some (some 1)
  | .const q => some (some q)
  | .expr => r.w

/-- A product of columns (`none`: null, `some none`: NaN). -/
def nmul (x y : Option (Option ℚ)) : Option (Option ℚ) := x.bind fun x => y.map fun y => omul x y

/-- calc/spark.py:246-264, the columns to sum; the number of rows is counted with `count` of the struct, which is not null. -/
def NullRow.columns (H : HistDef) (weighted : Bool) (r : NullRow) : List (Option (Option ℚ)) :=
  if weighted then
    r.xs.flatMap (fun x => [nmul (x.map some) (r.weight H), nmul (x.map fun x => some (x * x)) (r.weight H)]) ++ [r.weight H, nmul (r.weight H) (r.weight H)]
  else r.xs.flatMap (fun x => [x.map some, x.map fun x => some (x * x)]) ++ [some (some 1)]

/-- `fcns.sum` skips null values. -/
def nadd : Option (Option ℚ) → Option (Option ℚ) → Option (Option ℚ)
  | none, y => y
  | x, none => x
  | some x, some y => some (oadd x y)

/-- Column by column sum of rows of columns. -/
def nullColumns : List (List (Option (Option ℚ))) → List (Option (Option ℚ))
  | [] => []
  | [c] => c
  | c :: cs => List.zipWith nadd c (nullColumns cs)

/-- calc/spark.py:276 `content += columns`: a null (`None` in Python) cannot be added to a number. -/
def Arr.nullAdd (a : Arr) (idx : List ℕ) (cols : List (Option (Option ℚ))) : Except Err Arr :=
  match cols.mapM id with
  | none => .error .typeError
  | some cols => a.sparkAdd idx cols

/-- calc/spark.py:274-295 `recurse`.  The key `None` is not in the content, so that `getornew` raises as for every new key; lines 281-283, which
rename it, are not reached. -/
def nullRecurse (H : HistDef) : (n : ℕ) → Content Arr n → List (Option Key) → List ℤ → List (Option (Option ℚ)) → Except Err (Content Arr n)
  | 0, (a : Arr), _, is, cols =>
    match sparkPlaces H.fixed is with
    | .error e => .error e
    | .ok none => .ok a
    | .ok (some idx) => a.nullAdd idx cols
  | _ + 1, _, [], _, _ => .error .indexError
  | _ + 1, _, none :: _, _, _ => .error .attributeError
  | n + 1, (d : List (Key × Content Arr n)), some k :: ks, is, cols =>
    match dget d k with
    | none => .error .attributeError
    | some c =>
      match nullRecurse H n c ks is cols with
      | .error e => .error e
      | .ok c => .ok (dset d k c)

/-- calc/spark.py:297-301: one row of the query after another. -/
def nullLoop (H : HistDef) (c : Content Arr H.groups.length) :
    List ((List (Option Key) × List ℤ) × List (Option (Option ℚ))) → Res (Content Arr H.groups.length)
  | [] => .ok c
  | (k, cols) :: rest =>
    match nullRecurse H H.groups.length c k.1 k.2 cols with
    | .error e => .error (e, c)
    | .ok c => nullLoop H c rest

/-- calc/spark.py:297 `groupBy(...).agg(...)`: for each struct the sums over its rows. -/
def nullQuery (H : HistDef) (weighted : Bool) (rows : List (NullRow × List (Option Key) × List ℤ)) (k : List (Option Key) × List ℤ) :
    (List (Option Key) × List ℤ) × List (Option (Option ℚ)) :=
  (k, nullColumns ((rows.filter (fun p => p.2 = k)).map (fun p => p.1.columns H weighted)))

/-- hist.py:350-358 with calc/spark.py:190-303: `fill` with a DataFrame of the rows; `collect` is the order in which Spark returns the groups. -/
def HistDef.fillnull (H : HistDef) (weighted : Bool) (collect : List (List (Option Key) × List ℤ) → List (List (Option Key) × List ℤ))
    (st : H.State) (rows : List NullRow) : Res H.State :=
  match mapE (NullRow.index H) rows with
  | .error e => .error (e, st)
  | .ok is =>
    match nullLoop H (prefill H.layout st) ((collect is.dedup).map (nullQuery H weighted (rows.zip is))) with
    | .error (e, c) => .error (e, some c)
    | .ok c => .ok (some c)

end Verif
