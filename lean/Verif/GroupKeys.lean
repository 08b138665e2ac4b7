import Verif.Goals
import Verif.ArithLemmas
import Verif.Arith

/-!
# The axes of a histogram by position, expression or class; `groupkeys`; `togroup`

Mirrors `AxisTuple` of `/repo/histbook/proj.py:39-85`, `Projectable.axis` (proj.py:89-94), the sorting of the axes in
`Hist.__init__` (hist.py:155-203), `Hist.groupkeys` (hist.py:766-796), the checks of `Hist.group` (hist.py:614-628) and `Hist.togroup` (hist.py:651-688).

Simplifications.  An axis is what filling keeps of it together with its parsed expression, so two axes whose texts
differ but whose parsed expressions agree are the same axis here.  An expression given by the user is already parsed.
Null axes, which have no expression, are left out.
-/

namespace Verif

/-- An axis of any class with its parsed expression. -/
inductive AnyAxis
  | group (a : GroupAxis) (e : E)
  | fixed (a : FixedAxis) (e : E)
  | prof (e : E)

/-- `axis._parsed` (hist.py:163). -/
def AnyAxis.parsed : AnyAxis → E
  | .group _ e => e
  | .fixed _ e => e
  | .prof e => e

/-- `isinstance(new, GroupAxis)`. -/
def AnyAxis.isGroup : AnyAxis → Bool
  | .group _ _ => true
  | _ => false

/-- `isinstance(new, FixedAxis)`. -/
def AnyAxis.isFixed : AnyAxis → Bool
  | .fixed _ _ => true
  | _ => false

/-- `isinstance(new, ProfileAxis)`. -/
def AnyAxis.isProf : AnyAxis → Bool
  | .prof _ => true
  | _ => false

/-- `__eq__` of the classes (axis.py:295-296, 424-425, 679-680, 902-903, 1140-1141, 1361-1362, 1469-1470). -/
def AnyAxis.same : AnyAxis → AnyAxis → Bool
  | .group a e, .group b f => decide (a = b) && E.same e f
  | .fixed a e, .fixed b f => decide (a = b) && E.same e f
  | .prof e, .prof f => E.same e f
  | _, _ => false

/-- hist.py:176-203 and proj.py:89-94: the axes given to `Hist(...)` as `h.axis` lists them. -/
def axisTuple (given : List AnyAxis) : List AnyAxis :=
  given.filter AnyAxis.isGroup ++ given.filter AnyAxis.isFixed ++ given.filter AnyAxis.isProf

/-- What the user says of the axis. -/
inductive AxisArg
  /-- an `Axis` object -/
  | obj (a : AnyAxis)
  /-- an algebraic expression -/
  | expr (e : E)
  /-- a position -/
  | pos (i : ℤ)

/-- `tuple.__getitem__` with an integer. -/
def tupleItem {α : Type} (l : List α) (i : ℤ) : Except Err α :=
  if 0 ≤ i then
    match l[i.toNat]? with
    | some x => .ok x
    | none => .error .indexError
  else if 0 ≤ i + l.length then
    match l[(i + l.length).toNat]? with
    | some x => .ok x
    | none => .error .indexError
  else .error .indexError

/-- proj.py:45-49: the loop over the axes. -/
def firstWith (e : E) : List AnyAxis → Except Err AnyAxis
  | [] => .error .indexError
  | a :: as => if E.same e a.parsed then .ok a else firstWith e as

/-- proj.py:41-49 `AxisTuple.__getitem__`. -/
def axisItem (l : List AnyAxis) : AxisArg → Except Err AnyAxis
  | .pos i => tupleItem l i
  | .expr e => firstWith e l
  | .obj _ => .error .typeError

/-- The class that a method of `AxisTuple` looks for (proj.py:58-84). -/
inductive AxisClass
  | groupby | groupbin | bin | intbin | split | cut | profile
  deriving DecidableEq

/-- The class of an axis. -/
def AnyAxis.cls : AnyAxis → AxisClass
  | .group .groupby _ => .groupby
  | .group (.groupbin _) _ => .groupbin
  | .fixed (.bin _) _ => .bin
  | .fixed (.intbin _) _ => .intbin
  | .fixed (.split _) _ => .split
  | .fixed .cut _ => .cut
  | .prof _ => .profile

/-- A value that a keyword argument is compared with. -/
inductive AttrVal
  | num (q : ℚ)
  | bool (b : Bool)
  /-- a tuple of numbers -/
  | tuple (l : List ℚ)
  /-- a list of numbers; no list is equal to a tuple -/
  | list (l : List ℚ)
  deriving DecidableEq

/-- `getattr(axis, n)` for the arguments of the constructors: axis.py:385-403 (groupbin), 599-629 (bin),
837-851 (intbin), 1067-1085 (split); `none` is an attribute that the axis does not have.  The edges are a tuple
(axis.py:1023-1027).  Attributes that are no arguments are left out. -/
def AnyAxis.attr : AnyAxis → String → Option AttrVal
  | .group .groupby _, _ => none
  | .group (.groupbin a) _, n =>
    if n = "binwidth" then some (.num a.binwidth) else if n = "origin" then some (.num a.origin)
    else if n = "nanflow" then some (.bool a.nanflow) else if n = "closedlow" then some (.bool a.closedlow) else none
  | .fixed (.bin a) _, n =>
    if n = "numbins" then some (.num a.numbins) else if n = "low" then some (.num a.low)
    else if n = "high" then some (.num a.high) else if n = "underflow" then some (.bool a.underflow)
    else if n = "overflow" then some (.bool a.overflow) else if n = "nanflow" then some (.bool a.nanflow)
    else if n = "closedlow" then some (.bool a.closedlow) else none
  | .fixed (.intbin a) _, n =>
    if n = "min" then some (.num a.min) else if n = "max" then some (.num a.max)
    else if n = "underflow" then some (.bool a.underflow) else if n = "overflow" then some (.bool a.overflow) else none
  | .fixed (.split a) _, n =>
    if n = "edges" then some (.tuple a.edges) else if n = "underflow" then some (.bool a.underflow)
    else if n = "overflow" then some (.bool a.overflow) else if n = "nanflow" then some (.bool a.nanflow)
    else if n = "closedlow" then some (.bool a.closedlow) else none
  | .fixed .cut _, _ => none
  | .prof _, _ => none

/-- proj.py:54: the condition of the loop. -/
def AnyAxis.matches (a : AnyAxis) (e : E) (c : AxisClass) (kwargs : List (String × AttrVal)) : Bool :=
  decide (a.cls = c) && E.same a.parsed e && kwargs.all fun p => decide (a.attr p.1 = some p.2)

/-- proj.py:51-56 `_findbyclass`. -/
def findbyclass (e : E) (c : AxisClass) (kwargs : List (String × AttrVal)) : List AnyAxis → Except Err AnyAxis
  | [] => .error .indexError
  | a :: as => if a.matches e c kwargs then .ok a else findbyclass e c kwargs as

/-! ## `groupkeys` -/

/-- hist.py:781-785: the number of the group axis that is equal to the axis.  If there is none, then the message of
the exception uses the variable of the loop (hist.py:785), which has no value if there are no group axes. -/
def groupNumber (groups : List (GroupAxis × E)) (a : AnyAxis) : Except Err ℕ :=
  match groups.findIdx? fun p => AnyAxis.same (.group p.1 p.2) a with
  | some i => .ok i
  | none => if groups = [] then .error .nameError else .error .indexError

/-- hist.py:787-793 `recurse`: the keys of the dicts at depth `i`. -/
def keysAt : (n i : ℕ) → Content Arr n → Except Err (List Key)
  | 0, _, _ => .error .attributeError
  | n + 1, 0, (d : List (Key × Content Arr n)) => .ok (d.map (·.1))
  | n + 1, i + 1, (d : List (Key × Content Arr n)) => (d.mapM fun p => keysAt n i p.2).map List.flatten

/-- The axes of a histogram in the order of `h.axis` (proj.py:89-94). -/
def HistExprs.axes (X : HistExprs) : List AnyAxis :=
  X.groups.map (fun p => .group p.1 p.2) ++ X.fixed.map (fun p => .fixed p.1 p.2) ++ X.profs.map .prof

/-- hist.py:779-780: an axis object is taken as it is. -/
def HistExprs.theAxis (X : HistExprs) : AxisArg → Except Err AnyAxis
  | .obj a => .ok a
  | arg => axisItem X.axes arg

/-- hist.py:766-796 `groupkeys`; the set is a list.  `None.keys()` and `None.values()` raise `AttributeError`. -/
def HistExprs.groupkeys (X : HistExprs) (st : X.hist.State) (arg : AxisArg) : Except Err (List Key) := do
  let a ← X.theAxis arg
  let i ← groupNumber X.groups a
  match st with
  | none => .error .attributeError
  | some c => keysAt _ i c

/-! ## `Hist.group` -/

/-- `axis == x._group + x._fixed + x._profile`: lists of axes. -/
def sameAxisList : List AnyAxis → List AnyAxis → Bool
  | [], [] => true
  | a :: as, b :: bs => a.same b && sameAxisList as bs
  | _, _ => false

/-- hist.py:617-624: the axes that all histograms have; the first argument is the variable `axis`. -/
def groupAxes : Option (List AnyAxis) → List (List AnyAxis) → Except Err (Option (List AnyAxis))
  | ax, [] => .ok ax
  | none, x :: xs => groupAxes (some x) xs
  | some ax, x :: xs => if sameAxisList ax x then groupAxes (some ax) xs else .error .typeError

/-- hist.py:599-649 `Hist.group(by, ...)` of histograms with any axes; `by` is the parsed expression. -/
def groupCall {n : ℕ} (by_ : E) (hs : List (List AnyAxis × Grouped n)) :
    Except Err (Option WOrig × List (Key × Option (Content Arr n))) :=
  match groupAxes none (hs.map (·.1)) with
  | .error e => .error e
  | .ok none => .error .valueError
  | .ok (some ax) => if ax.any (AnyAxis.same (.group .groupby by_)) then .error .valueError else groupHists (hs.map (·.2))

/-! ## `togroup` -/

/-- hist.py:651 `def togroup(**hists)`: the function takes no positional argument, so that calling it on a histogram,
which passes the histogram, raises `TypeError` before the first line of the body. -/
def togroupMethod {σ τ : Type} (_self : σ) (_hists : List (String × τ)) : Except Err σ := .error .typeError

/-- hist.py:662: called on the class, the first line of the body uses the name `self`, which is not defined. -/
def togroupFunction {σ τ : Type} (_hists : List (String × τ)) : Except Err σ := .error .nameError

end Verif
