import Verif.Export

/-!
# Plotting

Mirrors `/repo/histbook/vega.py`: the plotting chain, the records of a plot, the Vega-Lite layers that draw them, and combinations of
plots.

Axes are given by position among the group axes and the fixed axes (the lookup by expression is C32's; equal axes that occur twice are
not modelled).  Numbers are exact, so that `low += 1e-10*(high - low)` is, too.  The texts of numbers (`"{0:4g}".format`) and of keys
(`str`) are parameters.  The names of fields, such as `"b0"` and `"b0c"`, are kept as the name of the plot, the number of the column and
whether it has the `c`: names of plots are letters, so that different ones are different texts.  Titles, legends, sizes and scales are left out, except
that a logarithmic `yscale` drops records.  Truth values as keys of `groupby` axes are not modelled.
-/

namespace Verif

/-- How Python writes numbers (`Interval._num`, axis.py 74-75) and keys (`str`). -/
structure Fmt where
  num : Num → String
  key : Key → String

/-- axis.py 77-78, 139-140 `Interval.__str__`, and `str` of integers; "pass" and "fail" are vega.py 591, 811. -/
def BinLabel.text (F : Fmt) : BinLabel → String
  | .iv lo hi cl ch =>
    (if cl then "[" else "(") ++ (if lo = .ninf then " " else "") ++ F.num lo ++ ", " ++ F.num hi ++ (if ch then "]" else ")")
  | .nan => "{NaN}"
  | .int i => toString i
  | .bool b => if b then "pass" else "fail"

/-! ## channels -/

/-- vega.py 45-74: the channels before the last one. -/
inductive ChanKind
  | overlay
  | stack (order : Option (List String))
  | beside
  | below
  deriving DecidableEq

/-- A channel and the position of its axis. -/
structure Channel where
  kind : ChanKind
  axis : ℕ
  deriving DecidableEq

def ChanKind.isOverlay : ChanKind → Bool
  | .overlay => true
  | _ => false

def ChanKind.isStack : ChanKind → Bool
  | .stack _ => true
  | _ => false

def ChanKind.isBeside : ChanKind → Bool
  | .beside => true
  | _ => false

def ChanKind.isBelow : ChanKind → Bool
  | .below => true
  | _ => false

/-- The same method of the chain. -/
def ChanKind.same : ChanKind → ChanKind → Bool
  | .overlay, k => k.isOverlay
  | .stack _, k => k.isStack
  | .beside, k => k.isBeside
  | .below, k => k.isBelow

/-- vega.py 211-280 `overlay`, `stack`, `beside` and `below`: none can be called twice in a chain. -/
def addChannel (chain : List Channel) (k : ChanKind) (axis : ℕ) : Except Err (List Channel) :=
  if chain.any (fun c => k.same c.kind) then .error .typeError else .ok (chain ++ [⟨k, axis⟩])

/-- vega.py 119-137: the last channel of a plot. -/
inductive Mark
  | bar | step | area | line | marker
  deriving DecidableEq

/-- A plot of one variable: vega.py 76-91 and the chain before it. -/
structure Plot1d where
  chain : List Channel
  mark : Mark
  axis : ℕ
  prof : Option ℕ := none
  error : Bool := false
  normalized : Bool := false
  log : Bool := false
  deriving DecidableEq

/-- vega.py 195-201 `_singleaxis`: the axis that was given, or the only one. -/
def singleAxis (nax : ℕ) : Option ℕ → Except Err ℕ
  | some a => .ok a
  | none => if nax = 1 then .ok 0 else .error .typeError

/-- Only these can be drawn on top of each other (vega.py 336, 396, 427). -/
def Mark.stacks : Mark → Bool
  | .bar | .area => true
  | _ => false

/-- vega.py 282-431 `bar`, `step`, `area`, `line`, `marker`. -/
def addMark (nax : ℕ) (chain : List Channel) (m : Mark) (axis : Option ℕ) (prof : Option ℕ) (error normalized log : Bool) : Except Err Plot1d :=
  if (!m.stacks && chain.any fun c => c.kind.isStack) then .error .typeError
  else if error && chain.any (fun c => c.kind.isBeside || c.kind.isBelow) then .error .notImplemented
  else (singleAxis nax axis).map fun a => ⟨chain, m, a, prof, error, normalized, log⟩

/-- A plot of two variables: vega.py 139-176. -/
structure Plot2d where
  chain : List Channel
  xaxis : ℕ
  yaxis : ℕ
  prof : Option ℕ := none
  deriving DecidableEq

/-- vega.py 433-468 `heatmap`. -/
def addHeatmap (nax : ℕ) (chain : List Channel) (axes : Option ℕ × Option ℕ) (prof : Option ℕ) : Except Err Plot2d :=
  if chain.any (fun c => c.kind.isOverlay) then .error .typeError
  else if chain.any (fun c => c.kind.isStack) then .error .typeError
  else match axes with
    | (none, none) => if nax = 2 then .ok ⟨chain, 0, 1, prof⟩ else .error .typeError
    | (some x, some y) => .ok ⟨chain, x, y, prof⟩
    | _ => .error .typeError

/-! ## records -/

/-- Names of the fields of records: `"id"`, a column of a plot, and the centre of a bin of a plot with error bars. -/
inductive PName
  | id
  | col (var : String) (i : ℕ)
  | centre (var : String) (i : ℕ)
  deriving DecidableEq

/-- The values of the fields: numbers (`none`: NaN) and texts. -/
inductive DVal
  | num (q : Option ℚ)
  | str (s : String)
  deriving DecidableEq

/-- A record. -/
abbrev Datum := List (PName × DVal)

/-- axis.py 880-886 `intbin.bin`. -/
def IntbinAxis.toBin (a : IntbinAxis) : BinAxis :=
  ⟨(a.max - a.min + 1).toNat, (a.min : ℚ) - 1 / 2, (a.max : ℚ) + 1 / 2, a.underflow, a.overflow, false, true⟩

/-- vega.py 565-568, 799-802: the bins that are shown; those of `intbin` axes are the ones of a `bin` axis. -/
def FixedAxis.shown : FixedAxis → List BinLabel
  | .intbin a => a.toBin.keys
  | a => a.keys

/-- `low` and `high` of the axis that is shown (axis.py 608, 1088); a `cut` has none. -/
def FixedAxis.range : FixedAxis → ℚ × ℚ
  | .bin a => (a.low, a.high)
  | .intbin a => (a.toBin.low, a.toBin.high)
  | .split a => (a.edges.headD 0, a.edges.getLastD 0)
  | .cut => (0, 0)

/-- The axis is a `bin`, an `intbin` or a `split`. -/
def FixedAxis.numeric : FixedAxis → Bool
  | .cut => false
  | _ => true

/-- vega.py 522-528, 606-612: how the horizontal axis is drawn. -/
inductive XType
  | ordinal | quantitative | nominal
  deriving DecidableEq

/-- The axis number `i` of all axes. -/
def HistDef.axisAt (H : HistDef) (i : ℕ) : Option (GroupAxis ⊕ FixedAxis) :=
  (H.groups.map Sum.inl ++ H.fixed.map Sum.inr)[i]?

/-- The class of the axis is one of the three of vega.py 522. -/
def HistDef.numericAt (H : HistDef) (i : ℕ) : Bool :=
  match H.axisAt i with
  | some (.inr a) => a.numeric
  | _ => false

def HistDef.xtype (H : HistDef) (P : Plot1d) : XType :=
  if H.numericAt P.axis then (if P.mark = .bar then .ordinal else .quantitative) else .nominal

/-- vega.py 520: `step` and `area` go down to zero at both ends. -/
def Mark.baseline : Mark → Bool
  | .step | .area => true
  | _ => false

/-- `1e-10` -/
def tiny : ℚ := 1 / 10 ^ 10

/-- vega.py 569-594, the recursive calls for one bin of a fixed axis of a plot of one variable: what is added to the row, and whether the value is zero
instead of the content.  `last`: `j == lastj and xtype == "quantitative"`. -/
def fields1d (F : Fmt) (last baseline : Bool) (a : FixedAxis) (n : BinLabel) : List (DVal × Bool) :=
  match n with
  | .iv (.fin lo) (.fin hi) cl ch =>
    if last then
      (if baseline && decide (lo = a.range.1) then [(.num (some lo), true)] else []) ++
      [(.num (some (if baseline && decide (lo = a.range.1) then lo + tiny * (a.range.2 - a.range.1)
          else if baseline then lo else 1 / 2 * (lo + hi))), false)] ++
      (if baseline && decide (hi = a.range.2) then [(.num (some hi), true)] else [])
    else [(.str (n.text F), false)]
  | .iv _ _ _ _ => if last then [] else [(.str (n.text F), false)]
  | .nan => if last then [] else [(.str (n.text F), false)]
  | _ => [(.str (n.text F), false)]

/-- vega.py 803-814: the same for a plot of two variables. -/
def fields2d (F : Fmt) (last : Bool) (n : BinLabel) : List DVal :=
  match n with
  | .iv (.fin lo) (.fin hi) _ _ => if last then [.num (some (1 / 2 * (lo + hi)))] else [.str (n.text F)]
  | .iv _ _ _ _ => if last then [] else [.str (n.text F)]
  | .nan => if last then [] else [.str (n.text F)]
  | _ => [.str (n.text F)]

/-- axis.py 325-329, 521-525 `items`: the label of a key, which is the key itself, or an interval. -/
inductive GLabel
  | key (k : Key)
  | iv (l : BinLabel)
  deriving DecidableEq

/-- The label of a key; adding the width to a text is a `TypeError`. -/
def GroupAxis.item : GroupAxis → Key → Except Err GLabel
  | .groupby, k => .ok (.key k)
  | .groupbin a, .num q => .ok (.iv (.iv (.fin q) (.fin (q + a.binwidth)) a.closedlow (!a.closedlow)))
  | .groupbin a, .pinf => .ok (.iv (.iv .pinf .pinf a.closedlow (!a.closedlow)))
  | .groupbin a, .ninf => .ok (.iv (.iv .ninf .ninf a.closedlow (!a.closedlow)))
  | .groupbin _, .str _ => .error .typeError

def GLabel.text (F : Fmt) : GLabel → String
  | .key k => F.key k
  | .iv l => l.text F

/-- The recursive calls for a key of a group axis, in a plot of one variable (the type is not "quantitative") and of two. -/
def gfields1d (F : Fmt) (l : GLabel) : List DVal := [.str (l.text F)]

def gfields2d (F : Fmt) (last : Bool) : GLabel → List DVal
  | .key k => [.str (F.key k)]
  | .iv l => fields2d F last l

/-- The lists that a function gives, one after the other, stopping at the first exception. -/
def flatE {α β : Type} (f : α → Except Err (List β)) (xs : List α) : Except Err (List β) := (mapE f xs).map List.flatten

/-- What the two versions of `recurse` have in common: the rows and the values of the records. -/
abbrev PlotRows := List (List DVal × List (Option ℚ))

/-- vega.py 548-594, 785-814 `recurse` among the fixed axes: `j` counts the axes, `idx` is the place in the array.  At the end are the values, or `ncols` zeros. -/
def recFixed (fields : ℕ → FixedAxis → BinLabel → List (DVal × Bool)) (ncols : ℕ) (t : Table) :
    List FixedAxis → ℕ → List ℕ → List DVal → Bool → Except Err PlotRows
  | [], _, idx, row, base => .ok [(row, if base then List.replicate ncols (some 0) else t idx)]
  | a :: as, j, idx, row, base =>
    if a.shown.length ≠ a.totbins then .error .valueError
    else flatE (fun n : BinLabel × ℕ =>
      flatE (fun f : DVal × Bool => recFixed fields ncols t as (j + 1) (idx ++ [n.2]) (row ++ [f.1]) (base || f.2)) (fields j a n.1))
      a.shown.zipIdx

/-- `recurse` among the group axes. -/
def recGroups (gfields : ℕ → GLabel → List DVal) (fields : ℕ → FixedAxis → BinLabel → List (DVal × Bool)) (ncols : ℕ) (fs : List FixedAxis) :
    (gs : List GroupAxis) → Content Table gs.length → ℕ → List DVal → Except Err PlotRows
  | [], (t : Table), j, row => recFixed fields ncols t fs j [] row false
  | g :: gs, (d : List (Key × Content Table gs.length)), j, row =>
    match sortKeys (d.map (·.1)) with
    | .error e => .error e
    | .ok ks =>
      match mapE (fun k => (g.item k).map fun l => (l, k)) ks with
      | .error e => .error e
      | .ok items => flatE (fun lk : GLabel × Key =>
          match dget d lk.2 with
          | none => .error .keyError
          | some c => flatE (fun f => recGroups gfields fields ncols fs gs c (j + 1) (row ++ [f])) (gfields j lk.1)) items

/-- Which of `n` axes from number `k` on are among the given ones (proj.py 248-250, 288). -/
def keepAxes (axes : List ℕ) (k n : ℕ) : List Bool := (List.range n).map fun i => axes.contains (i + k)

/-- The place of an axis among those that are kept: `projectedorder.index` (vega.py 541, 780). -/
def placeOf (axes : List ℕ) (i : ℕ) : ℕ := ((List.range i).filter axes.contains).length

/-- The content of a projection as a table needs it.  Lists, and arrays with extra dimensions, that `project` leaves for some
numbers of keys (C32) are outside of the model. -/
def ofPV (dims : List ℕ) : (n : ℕ) → PV → Except Err (Content Arr n)
  | 0, .arr a => if a.shape = dims then .ok a else .error .notImplemented
  | n + 1, .dict d => mapDictE (ofPV dims n) d
  | _, _ => .error .notImplemented

def HistDef.ofPV (H : HistDef) : Option PV → Except Err H.State
  | none => .ok none
  | some pv => (Verif.ofPV (H.fixed.map FixedAxis.totbins) H.groups.length pv).map some

/-- The elements of `domains` (vega.py 563, 797). -/
inductive DKey
  | key (k : Key)
  | lab (l : BinLabel)
  deriving DecidableEq

def GLabel.dkey : GLabel → DKey
  | .key k => .key k
  | .iv l => .lab l

/-- vega.py 560-563: the keys that were seen on each group axis, from the first on, and at last whether the fixed axes were reached.  Only called where
`recurse` had no exception. -/
def seenKeys : (gs : List GroupAxis) → Content Table gs.length → List (Option (List DKey)) × Bool
  | [], _ => ([], true)
  | g :: gs, (d : List (Key × Content Table gs.length)) =>
    let below := d.map fun p => seenKeys gs p.2
    (some (d.filterMap fun p => (g.item p.1).toOption.map GLabel.dkey) ::
      (List.range gs.length).map (fun i => (below.filterMap fun b => (b.1[i]?).join).foldr (fun x acc => some (x ++ acc.getD [])) none),
     below.any (·.2))

/-- What `_data` returns: records, and the keys of each axis (`none`: the axis was not reached). -/
structure PlotData where
  data : List Datum
  domains : List (Option (List DKey))
  deriving DecidableEq

/-- `domains`, for the group axes and the fixed axes that were kept. -/
def plotDomains (gs : List GroupAxis) (fs : List FixedAxis) (t : Content Table gs.length) : List (Option (List DKey)) :=
  let s := seenKeys gs t
  s.1 ++ fs.map fun a => if s.2 then some (a.keys.map .lab) else none

/-- The part of `_data` that plots of one and of two variables have in common: `project`, `table` and `recurse`. -/
def HistDef.plotRows (H : HistDef) (axes : List ℕ) (o : TableOpts) (gfields : ℕ → GLabel → List DVal)
    (fields : ℕ → FixedAxis → BinLabel → List (DVal × Bool)) (ncols : ℕ) (st : H.State) : Except Err (PlotRows × List (Option (List DKey))) :=
  let kg := keepAxes axes 0 H.groups.length
  let kf := keepAxes axes H.groups.length H.fixed.length
  let H' := H.project kg kf
  if axes.any (fun i => decide (H.groups.length + H.fixed.length ≤ i)) then .error .indexError
  else match H.projectState kg kf st with
    | .error e => .error e
    | .ok pv =>
      match H'.ofPV pv with
      | .error e => .error e
      | .ok st' =>
        match H'.table o st' with
        | .error e => .error e
        | .ok t => (recGroups gfields fields ncols H'.fixed H'.groups t 0 []).map fun rows => (rows, plotDomains H'.groups H'.fixed t)

/-- The axes of a plot (vega.py 536, 776). -/
def Plot1d.axes (P : Plot1d) : List ℕ := P.chain.map Channel.axis ++ [P.axis]
def Plot2d.axes (P : Plot2d) : List ℕ := P.chain.map Channel.axis ++ [P.xaxis, P.yaxis]

/-- vega.py 530-538, 770-777: the options of the table. -/
def plotOpts (prof : Option ℕ) (error normalized : Bool) : TableOpts :=
  { count := prof.isNone, error := error, normalized := normalized, profs := prof.toList }

/-- `dict(prefix + tuple(zip(names, row)))` (vega.py 555, 789). -/
def mkDatum (pre : Datum) (var : String) (row : List DVal) : Datum := pre ++ row.zipIdx.map fun p => (.col var p.2, p.1)

/-- vega.py 581-582: the dict `shifts`, from the position of a record to the centre of its bin.  It is the same in every part of the table. -/
def shifts (F : Fmt) (a : FixedAxis) : List (DVal × DVal) :=
  a.shown.filterMap fun n =>
    match n with
    | .iv (.fin lo) (.fin hi) _ _ =>
      (((fields1d F true true a n).filter fun f => !f.2).head?).map fun f => (f.1, .num (some (1 / 2 * (lo + hi))))
    | _ => none

/-- `shifts.get(x, x)`: the last one that was put in. -/
def shiftOf (s : List (DVal × DVal)) (x : DVal) : DVal :=
  match s.reverse.find? (fun p => decide (p.1 = x)) with
  | some p => p.2
  | none => x

/-- vega.py 597-599. -/
def addCentre (F : Fmt) (var : String) (lastj : ℕ) (last : Option FixedAxis) (row : List DVal) (d : Datum) : Datum :=
  d ++ [(.centre var lastj, shiftOf (match last with
    | some a => shifts F a
    | none => []) (row.getD lastj (.num none)))]

/-- The first value is greater than zero (not if it is NaN). -/
def positive : List (Option ℚ) → Bool
  | some q :: _ => decide (0 < q)
  | _ => false

/-- The axis whose bins get positions: the last one, if its type is "quantitative". -/
def HistDef.positioned (H : HistDef) (P : Plot1d) : Option FixedAxis :=
  match H.axisAt P.axis, H.xtype P with
  | some (.inr a), .quantitative => some a
  | _, _ => none

/-- vega.py 518-601 `Plotable1d._data`. -/
def HistDef.data1d (H : HistDef) (F : Fmt) (P : Plot1d) (pre : Datum) (var : String) (st : H.State) : Except Err PlotData :=
  let lastj := placeOf P.axes P.axis
  let ncols := if P.error then 2 else 1
  (H.plotRows P.axes (plotOpts P.prof P.error P.normalized) (fun _ => gfields1d F)
      (fun j => fields1d F (decide (j = lastj) && decide (H.xtype P = .quantitative)) P.mark.baseline) ncols st).map fun r =>
    ⟨(r.1.filter fun x => !P.log || positive x.2).map fun x =>
        (if P.error && P.mark.baseline then addCentre F var lastj (H.positioned P) x.1 else id)
          (mkDatum pre var (x.1 ++ x.2.map .num)),
      r.2⟩

/-- vega.py 769-817 `Plotable2d._data`. -/
def HistDef.data2d (H : HistDef) (F : Fmt) (P : Plot2d) (pre : Datum) (var : String) (st : H.State) : Except Err PlotData :=
  let lastj := [placeOf P.axes P.xaxis, placeOf P.axes P.yaxis]
  (H.plotRows P.axes (plotOpts P.prof false false) (fun j => gfields2d F (lastj.contains j))
      (fun j _ n => (fields2d F (lastj.contains j) n).map fun f => (f, false)) 1 st).map fun r =>
    ⟨r.1.map fun x => mkDatum pre var (x.1 ++ x.2.map .num), r.2⟩

end Verif
