import Verif.Params
import Verif.HistFill

/-!
# From the expressions of a histogram to its filling

The quantities that the axes, profiles and weight of a histogram request, the library functions that bin
arrays, and `fill` from the arguments to the content.

Simplifications: an array holds numbers and "not a number" (`none`), or texts (`Verif.TextFields`).  Arrays of integers and
of booleans are arrays of numbers; `intbin` is computed as for floating-point numbers.  The only function that takes texts
is `groupby`; numpy has a few others (comparisons), which are outside of the model.
-/

namespace Verif

/-! ## Requested quantities -/

/-- `"U" if self._underflow else "_"` and the like. -/
def flagChar (b : Bool) (c : String) : String := if b then c else "_"

/-- `"L" if self._closedlow else "H"`. -/
def closedChar (b : Bool) : String := if b then "L" else "H"

/-- The library functions for axes (calc/__init__.py 149-325). -/
inductive AxisFn
  | groupby
  | groupbin (n c : Bool)
  | bin (u o n c : Bool)
  | intbin (u o : Bool)
  | split (u o n c : Bool)
  | cut
  deriving DecidableEq

/-- The name of the function (axis.py 289, 418, 673, 896, 1134, 1355). -/
def AxisFn.name : AxisFn → String
  | .groupby => "histbook.groupby"
  | .groupbin n c => "histbook.groupbin" ++ flagChar n "N" ++ closedChar c
  | .bin u o n c => "histbook.bin" ++ flagChar u "U" ++ flagChar o "O" ++ flagChar n "N" ++ closedChar c
  | .intbin u o => "histbook.intbin" ++ flagChar u "U" ++ flagChar o "O"
  | .split u o n c => "histbook.split" ++ flagChar u "U" ++ flagChar o "O" ++ flagChar n "N" ++ closedChar c
  | .cut => "histbook.cut"

/-- `parsed` as the argument of the axis function: a constant is made into a `BroadcastConst`
(axis.py 287-288, 416-417, 671-672, 894-895, 1132-1133, 1353-1354, 1464-1465). -/
def argOf (e : E) : Except Err Node :=
  match e.constVal, e.setOf with
  | some q, _ => .ok (.bconst none (.num q))
  | none, some l => .ok (.bconst none (.set l))
  | none, none => (totree e).map E.toT

/-- `_goals` of the fixed axes (axis.py 668-673, 891-896, 1129-1134, 1350-1355). -/
def FixedAxis.goal (arg : Node) : FixedAxis → Node
  | .bin a => .call (AxisFn.name (.bin a.underflow a.overflow a.nanflow a.closedlow))
      [arg, .const (.num a.numbins), .const (.num a.low), .const (.num a.high)]
  | .intbin a => .call (AxisFn.name (.intbin a.underflow a.overflow)) [arg, .const (.num a.min), .const (.num a.max)]
  | .split a => .call (AxisFn.name (.split a.underflow a.overflow a.nanflow a.closedlow)) [arg, .const (.tuple a.edges)]
  | .cut => .call (AxisFn.name .cut) [arg]

/-- `_goals` of the group axes (axis.py 284-289, 413-418). -/
def GroupAxis.goal (arg : Node) : GroupAxis → Node
  | .groupby => .call (AxisFn.name .groupby) [arg]
  | .groupbin a => .call (AxisFn.name (.groupbin a.nanflow a.closedlow))
      [arg, .const (.num a.binwidth), .const (.num a.origin)]

/-- The weight as a goal: a constant stays a constant. -/
def weightArg (e : E) : Except Err Node := (totree e).map E.toT

/-- The parsed expressions of a histogram (hist.py 100-250). -/
structure HistExprs where
  groups : List (GroupAxis × E)
  fixed : List (FixedAxis × E)
  profs : List E
  weight : Option E

/-- `isinstance(self._weightparsed, Const)` (hist.py 406-412). -/
def weightKind : Option E → WKind
  | none => .none
  | some e =>
    match e.constVal with
    | some q => .const q
    | none => .expr

/-- What filling keeps of the axes. -/
def HistExprs.hist (X : HistExprs) : HistDef :=
  ⟨X.groups.map (·.1), X.fixed.map (·.1), X.profs.length, weightKind X.weight⟩

/-- The goals of all axes in the order of their destinations (hist.py 158-250). -/
structure HistGoals where
  groups : List Node
  fixed : List Node
  profs : List (Node × Node)
  weight : Option (Node × Node)
  deriving DecidableEq

/-- The goals of a profile (axis.py 1461-1467) or a weight (hist.py 225-226): the quantity and its square. -/
def pairGoals (arg : Node) : Node × Node := (arg, .call "numpy.multiply" [arg, arg])

/-- The goals of the weight. -/
def weightGoals : Option E → Except Err (Option (Node × Node))
  | none => .ok none
  | some e => (weightArg e).map fun a => some (pairGoals a)

/-- All goals. -/
def HistExprs.goals (X : HistExprs) : Except Err HistGoals := do
  let gs ← mapE (fun p : GroupAxis × E => (argOf p.2).map fun a => p.1.goal a) X.groups
  let fs ← mapE (fun p : FixedAxis × E => (argOf p.2).map fun a => p.1.goal a) X.fixed
  let ps ← mapE (fun e => (argOf e).map pairGoals) X.profs
  let w ← weightGoals X.weight
  .ok ⟨gs, fs, ps, w⟩

/-- The set of goals (hist.py 152-162), in any order. -/
def HistGoals.all (G : HistGoals) : List Node :=
  G.groups ++ G.fixed ++ (G.profs.flatMap fun p => [p.1, p.2]) ++
    (match G.weight with | none => [] | some p => [p.1, p.2])

/-! ## The library on arrays -/

/-- A value during the computation: a Python constant, an array of numbers, an array of texts, a masked array of bin
numbers, or group keys with the number of the key of each row. -/
inductive Col
  | obj (c : CVal)
  | nums (l : List (Option ℚ))
  | texts (l : List String)
  | idx (l : List (Option ℤ))
  | grp (g : List Key × List ℤ)

/-- The length of an array of numbers. -/
def Col.len : Col → Option ℕ
  | .nums l => some l.length
  | _ => none

/-- The value in a row; a constant has the same value in each row. -/
def Col.row (i : ℕ) : Col → Except Err RowVal
  | .obj (.num q) => .ok (.num (some q))
  | .obj c => .ok (.obj c)
  | .nums l =>
    match l[i]? with
    | some v => .ok (.num v)
    | none => .error .valueError
  | _ => .error .typeError

/-- The number in a row of the result. -/
def RowVal.toNumE : RowVal → Except Err (Option ℚ)
  | .num v => .ok v
  | .obj _ => .error .typeError

/-- One row of a function that acts on each row. -/
def colRow (g : List RowVal → Except Err RowVal) (args : List Col) (i : ℕ) : Except Err (Option ℚ) :=
  match mapE (Col.row i) args with
  | .error e => .error e
  | .ok vs =>
    match g vs with
    | .error e => .error e
    | .ok v => v.toNumE

/-- A function that acts on each row, on arrays.  A call with constants only is never executed. -/
def colFn (g : List RowVal → Except Err RowVal) (args : List Col) : Except Err Col :=
  match args.findSome? Col.len with
  | none => .error .notImplemented
  | some n => (mapE (colRow g args) (List.range n)).map .nums

/-- A number of the model of arrays as a number of the model of bins. -/
def toNum : Option ℚ → Num
  | none => .nan
  | some q => .fin q

/-- The axis functions on arrays (calc/__init__.py 149-325). -/
def AxisFn.run : AxisFn → List Col → Except Err Col
  | .groupby, [.nums l] => (GroupAxis.column .groupby (l.map fun v => .num (toNum v))).map .grp
  | .groupby, [.texts l] => (GroupAxis.column .groupby (l.map fun s => .key (.str s))).map .grp
  | .groupbin n c, [.nums l, .obj (.num w), .obj (.num o)] =>
    (GroupAxis.column (.groupbin ⟨w, o, n, c⟩) (l.map fun v => .num (toNum v))).map .grp
  | .bin u o n c, [.nums l, .obj (.num k), .obj (.num lo), .obj (.num hi)] =>
    (mapE (FixedAxis.index (.bin ⟨k.num.toNat, lo, hi, u, o, n, c⟩)) (l.map fun v => .num (toNum v))).map .idx
  | .intbin u o, [.nums l, .obj (.num lo), .obj (.num hi)] =>
    (mapE (FixedAxis.index (.intbin ⟨lo.num, hi.num, u, o⟩)) (l.map fun v => .num (toNum v))).map .idx
  | .split u o n c, [.nums l, .obj (.tuple es)] =>
    (mapE (FixedAxis.index (.split ⟨es, u, o, n, c⟩)) (l.map fun v => .num (toNum v))).map .idx
  | .cut, [.nums l] => (mapE (FixedAxis.index .cut) (l.map fun v => .num (toNum v))).map .idx
  | _, _ => .error .typeError

/-- The table of the axis functions (calc/__init__.py 154, 198-201, 241-256, 281-284, 308-323, 325). -/
def axisTable : List (String × AxisFn) :=
  [ ("histbook.groupby", .groupby),
    ("histbook.cut", .cut),
    ("histbook.groupbinNL", .groupbin true true),
    ("histbook.groupbinNH", .groupbin true false),
    ("histbook.groupbin_L", .groupbin false true),
    ("histbook.groupbin_H", .groupbin false false),
    ("histbook.binUONL", .bin true true true true),
    ("histbook.binUONH", .bin true true true false),
    ("histbook.binUO_L", .bin true true false true),
    ("histbook.binUO_H", .bin true true false false),
    ("histbook.binU_NL", .bin true false true true),
    ("histbook.binU_NH", .bin true false true false),
    ("histbook.binU__L", .bin true false false true),
    ("histbook.binU__H", .bin true false false false),
    ("histbook.bin_ONL", .bin false true true true),
    ("histbook.bin_ONH", .bin false true true false),
    ("histbook.bin_O_L", .bin false true false true),
    ("histbook.bin_O_H", .bin false true false false),
    ("histbook.bin__NL", .bin false false true true),
    ("histbook.bin__NH", .bin false false true false),
    ("histbook.bin___L", .bin false false false true),
    ("histbook.bin___H", .bin false false false false),
    ("histbook.intbinUO", .intbin true true),
    ("histbook.intbinU_", .intbin true false),
    ("histbook.intbin_O", .intbin false true),
    ("histbook.intbin__", .intbin false false),
    ("histbook.splitUONL", .split true true true true),
    ("histbook.splitUONH", .split true true true false),
    ("histbook.splitUO_L", .split true true false true),
    ("histbook.splitUO_H", .split true true false false),
    ("histbook.splitU_NL", .split true false true true),
    ("histbook.splitU_NH", .split true false true false),
    ("histbook.splitU__L", .split true false false true),
    ("histbook.splitU__H", .split true false false false),
    ("histbook.split_ONL", .split false true true true),
    ("histbook.split_ONH", .split false true true false),
    ("histbook.split_O_L", .split false true false true),
    ("histbook.split_O_H", .split false true false false),
    ("histbook.split__NL", .split false false true true),
    ("histbook.split__NH", .split false false true false),
    ("histbook.split___L", .split false false false true),
    ("histbook.split___H", .split false false false false) ]

/-- The axis function of this name. -/
def axisFn (f : String) : Option AxisFn := (axisTable.find? fun a => a.1 = f).map (·.2)

/-- The library on arrays. -/
def colLib (more : String → Option (List (Option ℚ) → Option ℚ)) : Lib Col where
  const := .obj
  fn f :=
    match axisFn f with
    | some a => some a.run
    | none => ((rowLib more).fn f).map colFn

/-! ## `fill` -/

/-- The destination of a goal (hist.py 325-334, fill.py 151-154); `None` if it was not exported. -/
def destOf (r : List (Node × Col)) (g : Node) : Option Col := (r.find? fun p => p.1 = g).map (·.2)

/-- The destination of a fixed axis. -/
def idxOf : Option Col → Except Err (Option (List (Option ℤ)))
  | none => .ok none
  | some (.idx l) => .ok (some l)
  | some _ => .error .typeError

/-- The destination of a group axis. -/
def grpOf : Option Col → Except Err (Option (List Key × List ℤ))
  | none => .ok none
  | some (.grp g) => .ok (some g)
  | some _ => .error .typeError

/-- The destination of a weight. -/
def numsOf : Option Col → Except Err (Option (List (Option ℚ)))
  | none => .ok none
  | some (.nums l) => .ok (some l)
  | some _ => .error .typeError

/-- The destination of a profile; values that are not a number are outside of the model. -/
def profOf : Option Col → Except Err (Option (List ℚ))
  | none => .ok none
  | some (.nums l) => if l.all Option.isSome then .ok (some (l.map (·.getD 0))) else .error .notImplemented
  | some _ => .error .typeError

/-- The destination of a profile and its square. -/
def profsOf (r : List (Node × Col)) (p : Node × Node) : Except Err (Option (List ℚ) × Option (List ℚ)) := do
  let a ← profOf (destOf r p.1)
  let b ← profOf (destOf r p.2)
  .ok (a, b)

/-- The destination of the weight and its square; not used for a constant weight. -/
def weightOf (r : List (Node × Col)) : Option (Node × Node) →
    Except Err (Option (List (Option ℚ)) × Option (List (Option ℚ)))
  | none => .ok (none, none)
  | some p => do
    let a ← numsOf (destOf r p.1)
    let b ← numsOf (destOf r p.2)
    .ok (a, b)

/-- `self._destination[0]` after `_fill`. -/
def HistGoals.dest (G : HistGoals) (r : List (Node × Col)) : Except Err Dest := do
  let gs ← mapE (fun g => grpOf (destOf r g)) G.groups
  let fs ← mapE (fun g => idxOf (destOf r g)) G.fixed
  let ps ← mapE (profsOf r) G.profs
  let w ← weightOf r G.weight
  .ok ⟨gs, fs, ps, w⟩

/-- The values of constants in arrays; sets are outside of the model. -/
def numConsts (named : String → Option (Option ℚ)) : Consts (Option ℚ) where
  named := named
  value
    | .num q => some q
    | _ => none

/-- What `fill` does before `_postfill`. -/
def HistExprs.compute (X : HistExprs) (more : String → Option (List (Option ℚ) → Option ℚ))
    (named : String → Option (Option ℚ)) (get : String → Option (Given (Option ℚ)))
    (srcs : List Node) (ord : List Node → List Node) : Except Err (Dest × ℕ) := do
  let G ← X.goals
  let r ← fillFields (colLib more) .nums (numConsts named) get G.all srcs ord
  let d ← G.dest r.1
  .ok (d, r.2)

/-- `Hist.fill` (hist.py 336-377) from the arguments to the content. -/
def HistExprs.fill (X : HistExprs) (more : String → Option (List (Option ℚ) → Option ℚ))
    (named : String → Option (Option ℚ)) (get : String → Option (Given (Option ℚ)))
    (srcs : List Node) (ord : List Node → List Node) (st : X.hist.State) : Res X.hist.State :=
  let c := prefill X.hist.layout st
  match X.compute more named get srcs ord with
  | .error e => .error (e, some c)
  | .ok (d, n) =>
    match postfill X.hist.layout n d c with
    | .error (e, c) => .error (e, some c)
    | .ok c => .ok (some c)

end Verif
