import Verif.Num
import Mathlib.Data.List.Basic
import Mathlib.Data.List.Sort
import Mathlib.Data.Rat.Defs

/-!
# Axes: construction, published bins, binning functions

Mirrors `/repo/histbook/axis.py` and the `histbook.*` functions of
`/repo/histbook/calc/__init__.py`.  The algebraic expression of an axis is not part of
these structures (see `Verif.Hist`).
-/

namespace Verif

/-- The label of one bin as returned by `keys()`: an `Interval` (axis.py:38-43), an
`IntervalNaN` (axis.py:115-118), an integer (intbin.keys, axis.py:992) or a boolean
(cut.keys, axis.py:1382). -/
inductive BinLabel
  | iv (low high : Num) (closedlow closedhigh : Bool)
  | nan
  | int (i : ℤ)
  | bool (b : Bool)
  deriving DecidableEq

/-- `b2i b` is Python's `(1 if b else 0)`. -/
def b2i (b : Bool) : ℤ := if b then 1 else 0

/-- `b2n b` is Python's `(1 if b else 0)` as a natural number. -/
def b2n (b : Bool) : ℕ := if b then 1 else 0

/-! ## bin -/

/-- axis.py:558-571 `bin.__init__`: the stored fields. -/
structure BinAxis where
  numbins : ℕ
  low : ℚ
  high : ℚ
  underflow : Bool
  overflow : Bool
  nanflow : Bool
  closedlow : Bool
  deriving DecidableEq

/-- axis.py:649-651 `bin.totbins`. -/
def BinAxis.totbins (a : BinAxis) : ℕ :=
  a.numbins + b2n a.underflow + b2n a.overflow + b2n a.nanflow

/-- axis.py:558-575 `bin.__init__` and `_checktot`; type checks of the arguments are by typing. -/
def BinAxis.init (numbins : ℕ) (low high : ℚ) (u o n cl : Bool) : Except Err BinAxis :=
  if (numbins > 0 ∧ low ≥ high) ∨ low > high then .error .valueError
  else
    let a : BinAxis := ⟨numbins, low, high, u, o, n, cl⟩
    if a.totbins = 0 then .error .valueError else .ok a

/-- axis.py:770-772 the local function `i2x` of `bin.keys`. -/
def BinAxis.i2x (a : BinAxis) (i : ℕ) : ℚ := ((i : ℚ) / (a.numbins : ℚ)) * (a.high - a.low) + a.low

/-- axis.py:768-776 `bin.keys`. -/
def BinAxis.keys (a : BinAxis) : List BinLabel :=
  (if a.underflow then [.iv .ninf (.fin a.low) true (!a.closedlow)] else []) ++
  (List.range a.numbins).map
    (fun i => .iv (.fin (a.i2x i)) (.fin (a.i2x (i + 1))) a.closedlow (!a.closedlow)) ++
  (if a.overflow then [.iv (.fin a.high) .pinf a.closedlow true] else []) ++
  (if a.nanflow then [.nan] else [])

/-- calc/__init__.py:215-221: scaled and discretised position, before the cast to int32.
`none` stands for the `ZeroDivisionError` of `float(numbins) / float(high - low)`. -/
def BinAxis.position (a : BinAxis) (v : Num) : Option Num :=
  if a.high - a.low = 0 then none
  else
    let x := (v.subFin a.low).mulFin ((a.numbins : ℚ) / (a.high - a.low))
    some (if a.closedlow then x.floor.addFin (b2i a.underflow)
          else x.ceil.addFin (b2i a.underflow - 1))

/-- calc/__init__.py:229-237: from the discretised position to the masked index
(`none` = masked).  The three masking/clamping steps in the order of the code. -/
def BinAxis.clamp (a : BinAxis) (x : Num) : Option ℤ :=
  let shift := b2i a.underflow
  let out : Option ℤ := some x.toI32
  let out := if a.underflow then out.map (max · 0)
             else out.bind (fun i => if i < 0 then none else some i)
  let out := if a.overflow then out.map (min · (shift + a.numbins))
             else out.bind (fun i => if i ≥ a.numbins + shift then none else some i)
  if x.isnan then
    (if a.nanflow then some (b2i a.underflow + b2i a.overflow + a.numbins) else none)
  else out

/-- calc/__init__.py:214-239 `histbook_bin(...).bin`, for one value of the array. -/
def BinAxis.index (a : BinAxis) (v : Num) : Except Err (Option ℤ) :=
  match a.position v with
  | none => .error .zeroDivision
  | some x => .ok (a.clamp x)

/-! ## split -/

/-- axis.py:1018-1033 `split.__init__`: the stored fields (`edges` is sorted). -/
structure SplitAxis where
  edges : List ℚ
  underflow : Bool
  overflow : Bool
  nanflow : Bool
  closedlow : Bool
  deriving DecidableEq

/-- axis.py:1114-1120 `split.numbins`, `split.totbins` (Python integers: may be computed on
an empty edge list only before validation). -/
def SplitAxis.totbins (a : SplitAxis) : ℕ :=
  a.edges.length - 1 + b2n a.underflow + b2n a.overflow + b2n a.nanflow

/-- axis.py:1018-1037 `split.__init__` and `_checktot` (edges given as an iterable; infinite
edges are not modelled). -/
def SplitAxis.init (edges : List ℚ) (u o n cl : Bool) : Except Err SplitAxis :=
  if edges.length < 1 then .error .typeError
  else
    let sorted := edges.insertionSort (· ≤ ·)
    if ¬ sorted.Nodup then .error .valueError
    else
      let a : SplitAxis := ⟨sorted, u, o, n, cl⟩
      if a.totbins = 0 then .error .valueError else .ok a

/-- axis.py:1286-1291 `split.keys`. -/
def SplitAxis.keys (a : SplitAxis) : List BinLabel :=
  (if a.underflow then [.iv .ninf (.fin (a.edges.headD 0)) true (!a.closedlow)] else []) ++
  (List.zip a.edges.dropLast a.edges.tail).map
    (fun p => .iv (.fin p.1) (.fin p.2) a.closedlow (!a.closedlow)) ++
  (if a.overflow then [.iv (.fin (a.edges.getLastD 0)) .pinf a.closedlow true] else []) ++
  (if a.nanflow then [.nan] else [])

/-- `numpy.digitize(value, edges)` for increasing edges: the number of edges `<= value`;
NaN sorts after everything. -/
def digitize (edges : List ℚ) : Num → ℕ
  | .nan => edges.length
  | v => edges.countP (fun e => Num.le (.fin e) v)

/-- `numpy.isin(value, edges)` for one value. -/
def isinEdges (edges : List ℚ) : Num → Bool
  | .fin q => edges.contains q
  | _ => false

/-- calc/__init__.py:287-304 `histbook_split(...).split`, for one value (`none` = masked). -/
def SplitAxis.index (a : SplitAxis) (v : Num) : Option ℤ :=
  let out : Option ℤ := some (digitize a.edges v : ℤ)
  let out := if a.closedlow then out
             else if isinEdges a.edges v then out.map (· - 1) else out
  let out := if a.overflow then out
             else out.bind (fun i => if i = a.edges.length then none else some i)
  let out := if v.isnan then
               (if a.nanflow then some ((a.edges.length : ℤ) + b2i a.overflow) else none)
             else out
  if a.underflow then out
  else (out.bind (fun i => if i = 0 then none else some i)).map (· - 1)

/-! ## intbin -/

/-- axis.py:800-806 `intbin.__init__`: the stored fields. -/
structure IntbinAxis where
  min : ℤ
  max : ℤ
  underflow : Bool
  overflow : Bool
  deriving DecidableEq

/-- axis.py:800-810 `intbin.__init__`, `_checktot`. -/
def IntbinAxis.init (min max : ℤ) (u o : Bool) : Except Err IntbinAxis :=
  if min > max then .error .valueError else .ok ⟨min, max, u, o⟩

/-- axis.py:862-868 `intbin.numbins`, `intbin.totbins`. -/
def IntbinAxis.numbins (a : IntbinAxis) : ℤ := a.max - a.min + 1

/-- axis.py:866-868 `intbin.totbins`. -/
def IntbinAxis.totbins (a : IntbinAxis) : ℤ := a.numbins + b2i a.underflow + b2i a.overflow

/-- axis.py:988-992 `intbin.keys`. -/
def IntbinAxis.keys (a : IntbinAxis) : List BinLabel :=
  (if a.underflow then [.iv .ninf (.fin a.min) true false] else []) ++
  (List.range a.numbins.toNat).map (fun i : ℕ => .int (a.min + i)) ++
  (if a.overflow then [.iv (.fin a.max) .pinf false true] else [])

/-- calc/__init__.py:265-279: masking and clamping part of `histbook_intbin(...).intbin`,
after the cast to int32. -/
def IntbinAxis.clamp (a : IntbinAxis) (x : ℤ) : Option ℤ :=
  let shift := b2i a.underflow
  let out : Option ℤ := some x
  let out := if a.underflow then out.map (Max.max · 0)
             else out.bind (fun i => if i < 0 then none else some i)
  if a.overflow then out.map (Min.min · (shift + 1 + a.max - a.min))
  else out.bind (fun i => if i > shift + a.max - a.min then none else some i)

/-- calc/__init__.py:264-279 for an element of an integer (int64) array: the sum wraps to
int32. -/
def IntbinAxis.indexInt (a : IntbinAxis) (v : ℤ) : Option ℤ :=
  a.clamp (wrapI32 (v + (b2i a.underflow - a.min)))

/-- calc/__init__.py:264-279 for an element of a float array: the sum is truncated to int32. -/
def IntbinAxis.indexNum (a : IntbinAxis) (v : Num) : Option ℤ :=
  a.clamp (v.addFin (b2i a.underflow - a.min)).toI32

/-! ## groupbin -/

/-- axis.py:352-359 `groupbin.__init__`: the stored fields. -/
structure GroupbinAxis where
  binwidth : ℚ
  origin : ℚ
  nanflow : Bool
  closedlow : Bool
  deriving DecidableEq

/-- axis.py:352-359 `groupbin.__init__`. -/
def GroupbinAxis.init (binwidth origin : ℚ) (n cl : Bool) : Except Err GroupbinAxis :=
  if binwidth ≤ 0 then .error .valueError else .ok ⟨binwidth, origin, n, cl⟩

/-- A key of a group dictionary: a number, an infinity, or a string such as `"NaN"`. -/
inductive Key
  | num (q : ℚ)
  | pinf
  | ninf
  | str (s : String)
  deriving DecidableEq

/-- calc/__init__.py:157-196 `histbook_groupbin(...).groupbin` for one value: the unique it is
mapped to (`none` = inverse index -1, in no group). -/
def GroupbinAxis.key (a : GroupbinAxis) (v : Num) : Option Key :=
  let x := if a.origin = 0 then v.mulFin (1 / a.binwidth)
           else (v.subFin a.origin).mulFin (1 / a.binwidth)
  let x := if a.closedlow then x.floor else x.ceil.addFin (-1)
  let x := x.mulFin a.binwidth
  let x := if a.origin = 0 then x else x.addFin a.origin
  match x with
  | .nan => if a.nanflow then some (.str "NaN") else none
  | .pinf => some .pinf
  | .ninf => some .ninf
  | .fin q => some (.num q)

/-- axis.py:522-525 `groupbin.items`: the interval published for a numeric key; adding a
number to the string `"NaN"` raises `TypeError`. -/
def GroupbinAxis.interval (a : GroupbinAxis) : Key → Except Err BinLabel
  | .num n => .ok (.iv (.fin n) (.fin (n + a.binwidth)) a.closedlow (!a.closedlow))
  | .pinf => .ok (.iv .pinf .pinf a.closedlow (!a.closedlow))
  | .ninf => .ok (.iv .ninf .ninf a.closedlow (!a.closedlow))
  | .str _ => .error .typeError

/-! ## conversions -/

/-- axis.py:661-667 `bin.split`. -/
def BinAxis.split (a : BinAxis) : Except Err SplitAxis :=
  SplitAxis.init ((List.range a.numbins).map (fun i => a.i2x i) ++ [a.high])
    a.underflow a.overflow a.nanflow a.closedlow

/-- axis.py:878-884 `intbin.bin`. -/
def IntbinAxis.bin (a : IntbinAxis) : Except Err BinAxis :=
  BinAxis.init (a.max - a.min + 1).toNat (a.min - 1/2) (a.max + 1/2)
    a.underflow a.overflow false true

end Verif
