import Verif.Fill

/-!
# Filling a histogram with rows

The columns that `Fillable._fill` hands to `_postfill`, as functions of the values of the axis
expressions (`Verif.Instr` is about computing the expressions), and `Hist.fill` for one and for
many batches.
-/

namespace Verif

/-- One element of the array of a fixed axis: of a float, an integer or a boolean array. -/
inductive Val
  | num (v : Num)
  | int (i : ℤ)
  | bool (b : Bool)
  deriving DecidableEq

/-- The number that numpy computes with (`True` is 1). -/
def Val.toNum : Val → Num
  | .num v => v
  | .int i => .fin i
  | .bool b => .fin (b2i b)

/-- The fixed axes of axis.py: `bin` (527), `split` (994), `intbin` (779), `cut` (1293).  The null
axis that `select` leaves behind is not here. -/
inductive FixedAxis
  | bin (a : BinAxis)
  | split (a : SplitAxis)
  | intbin (a : IntbinAxis)
  | cut
  deriving DecidableEq

/-- `totbins` of each class (axis.py:649, 866, 1118, 1343). -/
def FixedAxis.totbins : FixedAxis → ℕ
  | .bin a => a.totbins
  | .split a => a.totbins
  | .intbin a => a.totbins.toNat
  | .cut => 2

/-- `keys` of each class (axis.py:768, 988, 1286, 1380). -/
def FixedAxis.keys : FixedAxis → List BinLabel
  | .bin a => a.keys
  | .split a => a.keys
  | .intbin a => a.keys
  | .cut => [.bool false, .bool true]

/-- The function of calc/__init__.py that bins a value: 203-239, 286-306, 258-279, 325. -/
def FixedAxis.index : FixedAxis → Val → Except Err (Option ℤ)
  | .bin a, v => a.index v.toNum
  | .split a, v => .ok (a.index v.toNum)
  | .intbin a, .num v => .ok (a.indexNum v)
  | .intbin a, .int i => .ok (a.indexInt i)
  | .intbin a, .bool b => .ok (a.indexInt (b2i b))
  | .cut, .bool b => .ok (some (b2i b))
  | .cut, .int i => .ok (some (wrapI32 i))
  | .cut, .num v => .ok (some v.toI32)

/-- The group axes of axis.py: `groupby` (238) and `groupbin` (331). -/
inductive GroupAxis
  | groupby
  | groupbin (a : GroupbinAxis)
  deriving DecidableEq

/-- One element of the array of a group axis: anything hashable, or a float. -/
inductive GVal
  | key (k : Key)
  | num (v : Num)
  deriving DecidableEq

/-- The value as a dictionary key (calc/__init__.py:149-152).  A NaN is not equal to itself and makes
a new group in every fill; this is outside of the model. -/
def GVal.toKey : GVal → Except Err Key
  | .key k => .ok k
  | .num (.fin q) => .ok (.num q)
  | .num .pinf => .ok .pinf
  | .num .ninf => .ok .ninf
  | .num .nan => .error .notImplemented

/-- The value as a number; numpy cannot do arithmetic with strings. -/
def GVal.toNum : GVal → Except Err Num
  | .num v => .ok v
  | .key (.num q) => .ok (.fin q)
  | .key .pinf => .ok .pinf
  | .key .ninf => .ok .ninf
  | .key (.str _) => .error .typeError

/-- A loop that stops at the first exception. -/
def mapE {α β : Type} (f : α → Except Err β) : List α → Except Err (List β)
  | [] => .ok []
  | x :: xs =>
    match f x with
    | .error e => .error e
    | .ok y =>
      match mapE f xs with
      | .error e => .error e
      | .ok ys => .ok (y :: ys)

/-- `numpy.unique(values, return_inverse=True)`, except that the unique values are not sorted: their
order only decides in which order the groups are filled. -/
def npUnique (ks : List Key) : List Key × List ℤ :=
  (ks.dedup, ks.map (fun k => ((ks.dedup.idxOf k : ℕ) : ℤ)))

/-- `inverse[ok] = okinverse`, the other elements being `d`. -/
def scatter (d : ℤ) : List Bool → List ℤ → List ℤ
  | [], _ => []
  | false :: ok, vs => d :: scatter d ok vs
  | true :: ok, v :: vs => v :: scatter d ok vs
  | true :: ok, [] => d :: scatter d ok []

/-- calc/__init__.py:157-175: the low edge of the bin of a value, `none` for NaN. -/
def GroupbinAxis.edge (a : GroupbinAxis) (v : Num) : Option Key :=
  GroupbinAxis.key { a with nanflow := false } v

/-- calc/__init__.py:177-196 `histbook_groupbin(...).groupbin` for a whole array. -/
def GroupbinAxis.column (a : GroupbinAxis) (vs : List Num) : List Key × List ℤ :=
  let edges := vs.map a.edge
  let ok := edges.map Option.isSome
  let u := npUnique (edges.filterMap id)
  if ok.all id then u
  else if a.nanflow then (u.1 ++ [.str "NaN"], scatter (u.1.length : ℤ) ok u.2)
  else (u.1, scatter (-1) ok u.2)

/-- The column of a group axis: calc/__init__.py:149-152, 156-196. -/
def GroupAxis.column : GroupAxis → List GVal → Except Err (List Key × List ℤ)
  | .groupby, vs =>
    match mapE GVal.toKey vs with
    | .error e => .error e
    | .ok ks => .ok (npUnique ks)
  | .groupbin a, vs =>
    match mapE GVal.toNum vs with
    | .error e => .error e
    | .ok vs => .ok (a.column vs)

/-- What `Hist.__init__` (hist.py:100-265) keeps of the axes and the weight. -/
structure HistDef where
  groups : List GroupAxis
  fixed : List FixedAxis
  nprof : ℕ
  wkind : WKind
  deriving DecidableEq

/-- hist.py:166-250: `_shape` and the column numbers. -/
def HistDef.layout (H : HistDef) : Layout :=
  Layout.make H.groups.length (H.fixed.map FixedAxis.totbins) H.nprof H.wkind

/-- One entry of the data: the values of the axis expressions, the profiles and the weight
(`none`: NaN). -/
structure Row where
  gvals : List GVal
  fvals : List Val
  xs : List ℚ
  w : Option ℚ
  deriving DecidableEq

/-- the group columns, axis `k` and following. -/
def groupColumns (rows : List Row) : List GroupAxis → ℕ → Except Err (List (Option (List Key × List ℤ)))
  | [], _ => .ok []
  | a :: as, k =>
    match a.column (rows.map (fun r => r.gvals.getD k (.num .nan))) with
    | .error e => .error e
    | .ok c =>
      match groupColumns rows as (k + 1) with
      | .error e => .error e
      | .ok cs => .ok (some c :: cs)

/-- the index columns, axis `k` and following. -/
def fixedColumns (rows : List Row) : List FixedAxis → ℕ → Except Err (List (Option (List (Option ℤ))))
  | [], _ => .ok []
  | a :: as, k =>
    match mapE a.index (rows.map (fun r => r.fvals.getD k (.num .nan))) with
    | .error e => .error e
    | .ok c =>
      match fixedColumns rows as (k + 1) with
      | .error e => .error e
      | .ok cs => .ok (some c :: cs)

/-- The arrays that `_fill` (fill.py:85-162) leaves in `_destination[0]`, in the order of
hist.py:158-250. -/
def HistDef.columns (H : HistDef) (rows : List Row) : Except Err Dest :=
  match groupColumns rows H.groups 0 with
  | .error e => .error e
  | .ok gs =>
    match fixedColumns rows H.fixed 0 with
    | .error e => .error e
    | .ok fs =>
      .ok { groups := gs, fixed := fs,
            prof := (List.range H.nprof).map (fun k =>
              (some (rows.map (fun r => r.xs.getD k 0)), some (rows.map (fun r => r.xs.getD k 0 ^ 2)))),
            weight := (some (rows.map (·.w)), some (rows.map (fun r => r.w.map (· ^ 2)))) }

/-- The contents of a histogram; `none` is Python's `None` (never filled). -/
abbrev HistDef.State (H : HistDef) := Option (Content Arr H.groups.length)

/-- hist.py:336-377 `Hist.fill` with arrays of one length: `_prefill`, `_fill`, `_postfill`. -/
def HistDef.fill (H : HistDef) (st : H.State) (rows : List Row) : Res H.State :=
  let c := prefill H.layout st
  match H.columns rows with
  | .error e => .error (e, some c)
  | .ok d =>
    match postfill H.layout rows.length d c with
    | .error (e, c) => .error (e, some c)
    | .ok c => .ok (some c)

/-- A sequence of calls of `fill`. -/
def HistDef.fillAll (H : HistDef) : H.State → List (List Row) → Res H.State
  | st, [] => .ok st
  | st, rows :: rest =>
    match H.fill st rows with
    | .error e => .error e
    | .ok st => H.fillAll st rest

end Verif
