import Verif.Table

/-!
# Export to ROOT and pandas

Model of `/repo/histbook/export.py`: `root` (158-312) and `pandas` (38-156).

The objects of ROOT and pandas are described by what they are given: the calls of `TH1D`, `SetContent`, `SetError`,
`SetEntries`, `TProfile`, `SetBinEntries`, `SetBinContent`, `SetBinError`, `MultiIndex.from_arrays` and `DataFrame`.  Errors
are squared, as in `Verif.Table`.  Names, titles, the cache and column labels are left out.
-/

namespace Verif

/-! ## root -/

/-- A `TH1D`: its constructor's arguments, and the arrays given to `SetContent` and `SetError` (underflow, bins, overflow),
and the number given to `SetEntries` (`none` is NaN). -/
structure TH1 where
  nbins : ℕ
  low : ℚ
  high : ℚ
  content : List (Option ℚ)
  err2 : Option (List (Option ℚ))
  entries : Option ℚ
  deriving DecidableEq

/-- A `TProfile`: what `SetBinEntries`, `SetBinContent` and `SetBinError` (squared) are given for each bin. -/
structure TProf where
  nbins : ℕ
  low : ℚ
  high : ℚ
  entries : List (Option ℚ)
  content : List (Option ℚ)
  err2 : List (Option ℚ)
  total : Option ℚ
  deriving DecidableEq

inductive RootObj
  | th1 (h : TH1)
  | prof (p : TProf)
  deriving DecidableEq

/-- What `root` asks of its axis. -/
structure RootAxis where
  nbins : ℕ
  low : ℚ
  high : ℚ
  underflow : Bool
  overflow : Bool
  nanflow : Bool

/-- export.py 257, 260, 270: `xaxis.numbins`, `xaxis.low`, `xaxis.high`, `xaxis.underflow` and so on.  They are properties of bin
(axis.py 604-626) and split axes (axis.py 1087-1115); integer axes and cuts have no `low` (axis.py 826-870, 1310-1348). -/
def FixedAxis.rootAxis : FixedAxis → Except Err RootAxis
  | .bin a => .ok ⟨a.numbins, a.low, a.high, a.underflow, a.overflow, a.nanflow⟩
  | .split a => .ok ⟨a.edges.length - 1, a.edges.headD 0, a.edges.getLastD 0, a.underflow, a.overflow, a.nanflow⟩
  | .intbin _ => .error .attributeError
  | .cut => .error .attributeError

/-- export.py 259-260: `entries = zeros(numbins + 2)`, then
`entries[(0 if underflow else 1) : (None if overflow else -1)] = column[: (-1 if nanflow else None)]`; a numpy assignment takes an
array of the length of the slice, or one of length 1. -/
def rootPlace (x : RootAxis) (column : List (Option ℚ)) : Except Err (List (Option ℚ)) :=
  let src := if x.nanflow then column.dropLast else column
  let lo := if x.underflow then 0 else 1
  let hi := if x.overflow then 0 else 1
  let m := x.nbins + 2 - lo - hi
  if src.length = m then .ok (List.replicate lo (some 0) ++ src ++ List.replicate hi (some 0))
  else
    match src with
    | [v] => .ok (List.replicate lo (some 0) ++ List.replicate m v ++ List.replicate hi (some 0))
    | _ => .error .valueError

/-- `content[name]` for column number `c` of a table with one fixed axis. -/
def tableColumn (t : Table) (n c : ℕ) : List (Option ℚ) := (List.range n).map (fun i => (t [i]).getD c none)

/-- Arithmetic with NaN. -/
def oadd (x y : Option ℚ) : Option ℚ := x.bind fun x => y.map fun y => x + y
def omul (x y : Option ℚ) : Option ℚ := x.bind fun x => y.map fun y => x * y

/-- `entries.sum()`. -/
def osum (l : List (Option ℚ)) : Option ℚ := l.foldr oadd (some 0)

/-- export.py 256-263. -/
def rootTH1 (a : FixedAxis) (weighted : Bool) (t : Table) : Except Err TH1 :=
  match a.rootAxis with
  | .error e => .error e
  | .ok x =>
    match rootPlace x (tableColumn t a.totbins 0) with
    | .error e => .error e
    | .ok entries =>
      if weighted then
        match rootPlace x (tableColumn t a.totbins 1) with
        | .error e => .error e
        | .ok errors => .ok ⟨x.nbins, x.low, x.high, entries, some errors, osum entries⟩
      else .ok ⟨x.nbins, x.low, x.high, entries, none, osum entries⟩

/-- export.py 284: `((errors**2 * entries) + contents**2) * entries`. -/
def rootErr2 (e2 n c : Option ℚ) : Option ℚ := omul (oadd (omul e2 n) (omul c c)) n

/-- export.py 269-288. -/
def rootProf (a : FixedAxis) (t : Table) : Except Err TProf :=
  match a.rootAxis with
  | .error e => .error e
  | .ok x =>
    match rootPlace x (tableColumn t a.totbins 0) with
    | .error e => .error e
    | .ok entries =>
      match rootPlace x (tableColumn t a.totbins 2), rootPlace x (tableColumn t a.totbins 3) with
      | .error e, _ => .error e
      | _, .error e => .error e
      | .ok contents, .ok errors =>
        .ok ⟨x.nbins, x.low, x.high, entries, List.zipWith omul contents entries,
          (List.zip errors (List.zip entries contents)).map (fun p => rootErr2 p.1 p.2.1 p.2.2), osum entries⟩

/-- The axis is a `groupby`. -/
def GroupAxis.isBy : GroupAxis → Bool
  | .groupby => true
  | .groupbin _ => false

/-- export.py 212-309: the exceptions for what cannot be exported, in the order in which they are tried. -/
def rootRejects (gs : List GroupAxis) (nfixed : ℕ) (profile : Bool) : Option Err :=
  let n := gs.length + nfixed
  if n = 0 then some .typeError
  else if n ≤ 2 ∧ gs.any GroupAxis.isBy then some .notImplemented
  else if gs.any GroupAxis.isBy then some .typeError
  else if gs ≠ [] then some (if profile then .typeError else .notImplemented)
  else if n = 1 then none
  else if n ≤ 3 then some .notImplemented
  else some (if profile then .typeError else .notImplemented)

/-- The array of a projection without group axes; one that was never filled is made by `_prefill` (proj.py 614). -/
def rootArr (L : Layout) : Option PV → Except Err Arr
  | none => .ok (Arr.zeros L.dims L.ncols)
  | some (.arr a) => .ok a
  | some _ => .error .attributeError

/-- export.py 158-312 `root`, with the axes to keep and the number of the profile. -/
def HistDef.root (H : HistDef) (kg kf : List Bool) (profile : Option ℕ) (st : H.State) : Except Err RootObj :=
  if profile.any (fun p => decide (H.nprof ≤ p)) then .error .indexError
  else
    match H.projectState kg kf st with
    | .error e => .error e
    | .ok pv =>
      match rootRejects (H.project kg kf).groups (H.project kg kf).fixed.length profile.isSome with
      | some e => .error e
      | none =>
        match rootArr (H.project kg kf).layout pv, (H.project kg kf).fixed with
        | .error e, _ => .error e
        | .ok arr, [a] =>
          match profile with
          | none =>
            (rootTH1 a (H.wkind ≠ .none)
              (handlearray (H.project kg kf).layout { count := true, error := decide (H.wkind ≠ .none) } (fun _ => none) arr)).map .th1
          | some p =>
            (rootProf a
              (handlearray (H.project kg kf).layout { count := true, error := true, profs := [p] } (fun _ => none) arr)).map .prof
        | .ok _, _ => .error .assertion

/-! ## pandas -/

/-- A label of a row: a key of a `groupby`, a `pandas.Interval` closed on the left or else on the right, `"{NaN}"`, the text of an
integer, or a truth value. -/
inductive PLabel
  | key (k : Key)
  | iv (lo hi : Num) (left : Bool)
  | nan
  | int (i : ℤ)
  | bool (b : Bool)
  deriving DecidableEq

/-- The loops with `last` and `this` (export.py 106-110, 128-131). -/
def lastThis (left : Bool) : ℚ → List ℚ → List PLabel
  | _, [] => []
  | last, this :: rest => .iv (.fin last) (.fin this) left :: lastThis left this rest

/-- The labels of the bins of an axis, in the order in which `index` goes through them (export.py 102-145). -/
def FixedAxis.plabels : FixedAxis → List PLabel
  | .bin a =>
    (if a.underflow then [.iv .ninf (.fin a.low) a.closedlow] else []) ++
    lastThis a.closedlow a.low ((List.range a.numbins).map fun i => ((i + 1 : ℕ) : ℚ) / (a.numbins : ℚ) * (a.high - a.low) + a.low) ++
    (if a.overflow then [.iv (.fin a.high) .pinf a.closedlow] else []) ++
    (if a.nanflow then [.nan] else [])
  | .intbin a =>
    (if a.underflow then [.iv .ninf (.fin a.min) true] else []) ++
    (List.range (a.max + 1 - a.min).toNat).map (fun i : ℕ => .int (a.min + i)) ++
    (if a.overflow then [.iv (.fin a.max) .pinf false] else [])
  | .split a =>
    (if a.underflow then [.iv .ninf (.fin (a.edges.headD 0)) a.closedlow] else []) ++
    lastThis a.closedlow (a.edges.headD 0) a.edges.tail ++
    (if a.overflow then [.iv (.fin (a.edges.getLastD 0)) .pinf a.closedlow] else []) ++
    (if a.nanflow then [.nan] else [])
  | .cut => [.bool false, .bool true]

/-- `index` (export.py 74-145) among the fixed axes: the labels of the rows. -/
def indexFixed : List FixedAxis → List PLabel → List (List PLabel)
  | [], key => [key]
  | a :: as, key => a.plabels.flatMap fun l => indexFixed as (key ++ [l])

/-- The label of a key (export.py 86-96). -/
def GroupAxis.plabel : GroupAxis → Key → PLabel
  | .groupby, k => .key k
  | .groupbin a, .num q => .iv (.fin q) (.fin (q + a.binwidth)) a.closedlow
  | .groupbin a, .pinf => .iv .pinf .pinf a.closedlow
  | .groupbin a, .ninf => .iv .ninf .ninf a.closedlow
  | .groupbin _, .str _ => .nan

/-- Python's `<=` between keys: numbers among themselves, and texts among themselves. -/
def Key.leq : Key → Key → Bool
  | .ninf, .str _ => false
  | .ninf, _ => true
  | .num _, .ninf => false
  | .num a, .num b => decide (a ≤ b)
  | .num _, .pinf => true
  | .num _, .str _ => false
  | .pinf, .pinf => true
  | .pinf, _ => false
  | .str a, .str b => decide (a ≤ b)
  | .str _, _ => false

/-- The key is a text. -/
def Key.isStr : Key → Bool
  | .str _ => true
  | _ => false

/-- `sorted(content)` (export.py 87, 92): a text cannot be compared with a number, and any way of sorting two or more keys
of which some are texts and some are numbers has to. -/
def sortKeys (ks : List Key) : Except Err (List Key) :=
  if ks.all Key.isStr || ks.all (fun k => !k.isStr) then .ok (ks.insertionSort fun a b => a.leq b = true)
  else .error .typeError

/-- One run of a loop of `index`, and the runs after it: labels and arrays are appended. -/
def indexLoop {α β : Type} (f : α → Except Err (List β × List (List (Option ℚ)))) :
    List α → Except Err (List β × List (List (Option ℚ)))
  | [] => .ok ([], [])
  | x :: xs =>
    match f x, indexLoop f xs with
    | .error e, _ => .error e
    | _, .error e => .error e
    | .ok r, .ok s => .ok (r.1 ++ s.1, r.2 ++ s.2)

/-- `index` (export.py 74-145): the labels of the rows, and the rows themselves, which come from the arrays that are collected at the
first fixed axis, or, if the histogram (`nself`: its number of fixed axes) has none, at the end.  `fs` are the fixed axes of
the table.  An array is flattened with the last axis running fastest. -/
def indexGroups (fs : List FixedAxis) (nself : ℕ) : (gs : List GroupAxis) → Content Table gs.length → List PLabel →
    Except Err (List (List PLabel) × List (List (Option ℚ)))
  | [], (t : Table), key =>
    .ok (indexFixed fs key, if fs ≠ [] ∨ nself = 0 then (tableCells (fs.map FixedAxis.totbins)).map t else [])
  | g :: gs, (d : List (Key × Content Table gs.length)), key =>
    match sortKeys (d.map (·.1)) with
    | .error e => .error e
    | .ok ks => indexLoop (fun k =>
        match dget d k with
        | none => .error .keyError
        | some c => indexGroups fs nself gs c (key ++ [g.plabel k])) ks

/-- A data frame: the labels of its rows, and the rows (`none`: made without data, so that every entry is NaN). -/
structure PFrame where
  labels : List (List PLabel)
  rows : Option (List (List (Option ℚ)))
  deriving DecidableEq

/-- export.py 149-156: an index without levels, and data of another length than the index, are refused by pandas. -/
def mkFrame (nax : ℕ) (r : List (List PLabel) × List (List (Option ℚ))) : Except Err PFrame :=
  if nax = 0 then .error .valueError
  else if r.2 = [] then .ok ⟨r.1, none⟩
  else if r.2.length = r.1.length then .ok ⟨r.1, some r.2⟩
  else .error .valueError

/-- The table has columns. -/
def TableOpts.columns (o : TableOpts) : Bool := o.count || o.effcount || !o.profs.isEmpty

/-- export.py 38-156 `pandas` with profiles or nothing: the table.  A record array needs a column. -/
def HistDef.pandas (H : HistDef) (o : TableOpts) (st : H.State) : Except Err PFrame :=
  if o.columns then
    match H.table o st with
    | .error e => .error e
    | .ok t =>
      match indexGroups H.fixed H.fixed.length H.groups t [] with
      | .error e => .error e
      | .ok r => mkFrame (H.groups.length + H.fixed.length) r
  else .error .valueError

/-- export.py 38-156 `pandas` with cuts: the fractions; `allaxis` are the axes of the denominator, but `len(self._fixed)` is that of
the histogram (export.py 76). -/
def HistDef.pandasFraction (H : HistDef) (hasWeight count : Bool) (zs : List ℚ) (cuts : List ℕ) (st : H.State) : Except Err PFrame :=
  match H.fraction hasWeight count zs cuts st with
  | .error e => .error e
  | .ok t =>
    let fs := pick (keepUncut H.fixed.length cuts) H.fixed
    match indexGroups fs H.fixed.length H.groups t [] with
    | .error e => .error e
    | .ok r => mkFrame (H.groups.length + fs.length) r

end Verif
