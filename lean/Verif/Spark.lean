import Verif.Export

/-!
# Filling a histogram from a Spark DataFrame

`calc/spark.py` turns the axes into Spark columns that number the bins, lets Spark sum the weights
and the profiles over the rows with the same numbers, and adds the sums to the content.  Here the
values of the axis expressions are given for each row, as in `Verif.HistFill`.

Of Spark, what the documentation of its functions says is taken over: `floor` and `ceil` of a double
are 64-bit integers (saturating, and zero for NaN), sums of integers wrap around, `round` rounds
halves away from zero, NaN is greater than every other double in `least` and `greatest`, a sum with a
NaN in it is NaN, and the rows of a grouped query come in any order.  Null values are in `Verif.SparkNull`.
-/

namespace Verif

/-- The cast of a double without fraction to a 64-bit integer. -/
def satLong (z : ℤ) : ℤ := max (-9223372036854775808) (min 9223372036854775807 z)

/-- 64-bit integer arithmetic. -/
def wrapLong (z : ℤ) : ℤ := (z + 9223372036854775808) % 18446744073709551616 - 9223372036854775808

/-- `fcns.floor` of a double. -/
def Num.sparkFloor : Num → ℤ
  | .fin q => satLong ⌊q⌋
  | .nan => 0
  | .pinf => 9223372036854775807
  | .ninf => -9223372036854775808

/-- `fcns.ceil` of a double. -/
def Num.sparkCeil : Num → ℤ
  | .fin q => satLong ⌈q⌉
  | .nan => 0
  | .pinf => 9223372036854775807
  | .ninf => -9223372036854775808

/-- calc/spark.py:207-213, the index of `bin`: 0 below, 1 to `numbins` inside, `numbins + 1` above,
`numbins + 2` for NaN.  The division is by `high - low`, which the constructor keeps from being zero
unless there are no bins. -/
def BinAxis.sparkIndex (a : BinAxis) (v : Num) : Except Err ℤ :=
  if a.high - a.low = 0 then .error .zeroDivision
  else
    let scaled := (v.subFin a.low).mulFin ((a.numbins : ℚ) / (a.high - a.low))
    let discretized := if a.closedlow then wrapLong (scaled.sparkFloor + 1) else scaled.sparkCeil
    .ok (if v.isnan then (a.numbins : ℤ) + 2 else max 0 (min ((a.numbins : ℤ) + 1) discretized))

/-- `fcns.round` of a finite number: halves away from zero. -/
def roundHalfUp (q : ℚ) : ℤ := if 0 ≤ q then ⌊q + 1 / 2⌋ else ⌈q - 1 / 2⌉

/-- calc/spark.py:215-216, the index of `intbin`: 0 below, 1 to `max - min + 1` inside — and above. -/
def IntbinAxis.sparkIndex (a : IntbinAxis) : Num → ℤ
  | .fin q => Max.max 0 (Min.min (a.max - a.min + 1) (roundHalfUp (q - a.min + 1)))
  | .nan => Max.max 0 (a.max - a.min + 1)
  | .pinf => Max.max 0 (a.max - a.min + 1)
  | .ninf => 0

/-- calc/spark.py:218-228, the index of `split`: the first edge that the value is below, the number
of edges if there is none, one more for NaN. -/
def SplitAxis.sparkIndex (a : SplitAxis) (v : Num) : ℤ :=
  if v.isnan then (a.edges.length : ℤ) + 1
  else (a.edges.findIdx (fun e => if a.closedlow then Num.lt v (.fin e) else Num.le v (.fin e)) : ℕ)

/-- calc/spark.py:194-234 for the fixed axes.  Spark refuses a condition that is not boolean and
arithmetic with booleans (`AnalysisException`). -/
def FixedAxis.sparkIndex : FixedAxis → Val → Except Err ℤ
  | .cut, .bool b => .ok (if b then 0 else 1)
  | .cut, _ => .error .typeError
  | _, .bool _ => .error .typeError
  | .bin a, v => a.sparkIndex v.toNum
  | .intbin a, v => .ok (a.sparkIndex v.toNum)
  | .split a, v => .ok (a.sparkIndex v.toNum)

/-- calc/spark.py:198-205 for the group axes.  A `groupbin` of an infinity (a number of the order of
2^63 times the bin width) and a `groupby` of NaN are outside of the model. -/
def GroupAxis.sparkKey : GroupAxis → GVal → Except Err Key
  | .groupby, v => v.toKey
  | .groupbin a, v =>
    match v.toNum with
    | .error e => .error e
    | .ok v =>
      let scaled := (v.subFin a.origin).mulFin (1 / a.binwidth)
      match v with
      | .pinf => .error .notImplemented
      | .ninf => .error .notImplemented
      | _ =>
        let discretized := if a.closedlow then scaled.sparkFloor else wrapLong (scaled.sparkCeil - 1)
        .ok (.num ((discretized : ℚ) * a.binwidth + a.origin))

/-- The loop of calc/spark.py:193-234 over the group axes. -/
def sparkKeys : List GroupAxis → List GVal → Except Err (List Key)
  | g :: gs, v :: vs =>
    match g.sparkKey v with
    | .error e => .error e
    | .ok k =>
      match sparkKeys gs vs with
      | .error e => .error e
      | .ok ks => .ok (k :: ks)
  | _, _ => .ok []

/-- The loop of calc/spark.py:193-234 over the fixed axes. -/
def sparkIndexes : List FixedAxis → List Val → Except Err (List ℤ)
  | a :: as, v :: vs =>
    match a.sparkIndex v with
    | .error e => .error e
    | .ok i =>
      match sparkIndexes as vs with
      | .error e => .error e
      | .ok is => .ok (i :: is)
  | _, _ => .ok []

/-- calc/spark.py:241: the struct that the rows are grouped by. -/
def Row.sparkIndex (H : HistDef) (r : Row) : Except Err (List Key × List ℤ) :=
  match sparkKeys H.groups r.gvals with
  | .error e => .error e
  | .ok ks =>
    match sparkIndexes H.fixed r.fvals with
    | .error e => .error e
    | .ok is => .ok (ks, is)

/-- The weight column (calc/spark.py:245): the constant, or the value of the expression. -/
def Row.sparkWeight (H : HistDef) (r : Row) : Option ℚ :=
  match H.wkind with
  | .none => some 1
  | .const q => some q
  | .expr => r.w

/-- calc/spark.py:246-264, the columns to sum (`none`: NaN).  `weighted` says whether the histogram
was made with a `weight` (`_weightoriginal`, hist.py:208); with a `filter` and no `weight` it is
false although the histogram has weights.  `count` counts every row. -/
def Row.sparkColumns (H : HistDef) (weighted : Bool) (r : Row) : List (Option ℚ) :=
  if weighted then
    r.xs.flatMap (fun x => [omul (some x) (r.sparkWeight H), omul (some (x * x)) (r.sparkWeight H)]) ++
      [r.sparkWeight H, omul (r.sparkWeight H) (r.sparkWeight H)]
  else r.xs.flatMap (fun x => [some x, some (x * x)]) ++ [some 1]

/-- Column by column sum of rows of columns. -/
def sumColumns : List (List (Option ℚ)) → List (Option ℚ)
  | [] => []
  | [c] => c
  | c :: cs => List.zipWith oadd c (sumColumns cs)

/-- calc/spark.py:286-289: where an index goes on an axis; `none` if nowhere.  A negative number
counts from the end, as in numpy.  calc/spark.py:291-292 for `cut`. -/
def FixedAxis.sparkPlace : FixedAxis → ℤ → Except Err (Option ℕ)
  | .cut, i => .ok (some (if i = 0 then 1 else 0))
  | .bin a, i => flow a.underflow a.totbins i
  | .split a, i => flow a.underflow a.totbins i
  | .intbin a, i => flow a.underflow a.totbins.toNat i
where
  /-- calc/spark.py:287-289. -/
  flow (underflow : Bool) (totbins : ℕ) (index : ℤ) : Except Err (Option ℕ) :=
    let i := index - (if underflow then 0 else 1)
    if i < totbins then
      match normIndex totbins i with
      | none => .error .indexError
      | some j => .ok (some j)
    else .ok none

/-- calc/spark.py:286-292 for all fixed axes, from the first. -/
def sparkPlaces : List FixedAxis → List ℤ → Except Err (Option (List ℕ))
  | a :: as, i :: is =>
    match a.sparkPlace i with
    | .error e => .error e
    | .ok none => .ok none
    | .ok (some j) =>
      match sparkPlaces as is with
      | .error e => .error e
      | .ok none => .ok none
      | .ok (some js) => .ok (some (j :: js))
  | _, _ => .ok (some [])

/-- calc/spark.py:276 `content += columns` for the bin at `idx`.  The columns must be as many as
those of the content, or one.  A NaN is outside of the model of the content. -/
def Arr.sparkAdd (a : Arr) (idx : List ℕ) (cols : List (Option ℚ)) : Except Err Arr :=
  match cols.mapM id with
  | none => .error .notImplemented
  | some vs =>
    match broadcastTo a.ncols vs with
    | none => .error .valueError
    | some vs => .ok { a with get := fun i c => a.get i c + if i = idx then vs.getD c 0 else 0 }

/-- calc/spark.py:274-295 `recurse`.  A key that is not there needs `histbook.hist.COUNTTYPE`, which
does not exist (calc/spark.py:272; for the group axes before the last, the same happens one level
further down). -/
def sparkRecurse (H : HistDef) : (n : ℕ) → Content Arr n → List Key → List ℤ → List (Option ℚ) →
    Except Err (Content Arr n)
  | 0, (a : Arr), _, is, cols =>
    match sparkPlaces H.fixed is with
    | .error e => .error e
    | .ok none => .ok a
    | .ok (some idx) => a.sparkAdd idx cols
  | _ + 1, _, [], _, _ => .error .indexError
  | n + 1, (d : List (Key × Content Arr n)), k :: ks, is, cols =>
    match dget d k with
    | none => .error .attributeError
    | some c =>
      match sparkRecurse H n c ks is cols with
      | .error e => .error e
      | .ok c => .ok (dset d k c)

/-- calc/spark.py:297-301: one row of the query after another. -/
def sparkLoop (H : HistDef) (c : Content Arr H.groups.length) :
    List ((List Key × List ℤ) × List (Option ℚ)) → Res (Content Arr H.groups.length)
  | [] => .ok c
  | (k, cols) :: rest =>
    match sparkRecurse H H.groups.length c k.1 k.2 cols with
    | .error e => .error (e, c)
    | .ok c => sparkLoop H c rest

/-- calc/spark.py:297 `groupBy(...).agg(...)`: for each struct the sums over its rows. -/
def sparkQuery (H : HistDef) (weighted : Bool) (rows : List (Row × List Key × List ℤ)) (k : List Key × List ℤ) :
    (List Key × List ℤ) × List (Option ℚ) :=
  (k, sumColumns ((rows.filter (fun p => p.2 = k)).map (fun p => p.1.sparkColumns H weighted)))

/-- hist.py:350-358 with calc/spark.py:190-303: `fill` with a DataFrame of the rows; `collect` is the
order in which Spark returns the groups.  Exceptions about the types of the columns come before
`_prefill`; Spark raises them even if there are no rows, the model only at the first row. -/
def HistDef.fillspark (H : HistDef) (weighted : Bool) (collect : List (List Key × List ℤ) → List (List Key × List ℤ))
    (st : H.State) (rows : List Row) : Res H.State :=
  match mapE (Row.sparkIndex H) rows with
  | .error e => .error (e, st)
  | .ok is =>
    match sparkLoop H (prefill H.layout st) ((collect is.dedup).map (sparkQuery H weighted (rows.zip is))) with
    | .error (e, c) => .error (e, some c)
    | .ok c => .ok (some c)

end Verif
