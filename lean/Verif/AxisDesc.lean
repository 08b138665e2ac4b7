import Mathlib.Data.List.Sort
import Verif.HistFill

/-!
# Axis descriptions: constructors, equality, packing, JSON

Model of the constructors of the axes in `/repo/histbook/axis.py` and of everything that takes axes apart and makes
them again.  Numbers given by the user are real numbers or other objects; `float(x)` is exact (rounding is not
modelled).  Expressions are strings (lambdas are outside of the model).
-/

namespace Verif

/-- A JSON-like Python object.  Tuples and lists are not distinguished.  The keys of a dict may be numbers. -/
inductive J
  | null
  | bool (b : Bool)
  | int (i : ℤ)
  | float (v : Num)
  | str (s : String)
  | list (l : List J)
  | dict (d : List (Key × J))

/-- The seven kinds of axes, and the axis that `select` leaves behind (axis.py 1384-1419). -/
inductive AxisX
  | groupby (e : String)
  | groupbin (e : String) (width origin : Num) (n c : Bool)
  | bin (e : String) (k : ℕ) (lo hi : Num) (u o n c : Bool)
  | intbin (e : String) (lo hi : ℤ) (u o : Bool)
  | split (e : String) (edges : List Num) (u o n c : Bool)
  | cut (e : String)
  | profile (e : String)
  | null
  deriving DecidableEq

/-- `float == float`: NaN is not equal to itself. -/
def Num.eq (a b : Num) : Bool := !a.isnan && decide (a = b)

/-! ## Constructors -/

/-- `_real` (axis.py 178-183); Python's booleans and integers are real numbers. -/
def realOf : J → Except Err Num
  | .int i => .ok (.fin i)
  | .float v => .ok v
  | .bool b => .ok (.fin (b2i b))
  | _ => .error .typeError

/-- `_int` (axis.py 164-169). -/
def intOf : J → Except Err ℤ
  | .int i => .ok i
  | .bool b => .ok (b2i b)
  | _ => .error .typeError

/-- `_nonnegint` (axis.py 171-176). -/
def natOf : J → Except Err ℕ
  | .int i => if i < 0 then .error .typeError else .ok i.toNat
  | .bool b => .ok (b2n b)
  | _ => .error .typeError

/-- `_bool` (axis.py 185-190). -/
def boolOf : J → Except Err Bool
  | .bool b => .ok b
  | _ => .error .typeError

/-- The elements of `edges` (axis.py 1022-1027); anything but a number or a list has no length or no numbers in it. -/
def edgesOf : J → Except Err (List Num)
  | .list l =>
    if l.length < 1 then .error .typeError
    else (mapE realOf l).map fun l => l.insertionSort fun a b => Num.le a b = true
  | j => (realOf j).map fun v => [v]

/-- `groupbin(expr, binwidth, origin, nanflow, closedlow)` (axis.py 354-361). -/
def mkGroupbin (e : String) (w o n c : J) : Except Err AxisX := do
  let w ← realOf w
  if Num.le w (.fin 0) then .error .valueError
  else do
    let o ← realOf o
    let n ← boolOf n
    let c ← boolOf c
    .ok (.groupbin e w o n c)

/-- `bin(expr, numbins, low, high, underflow, overflow, nanflow, closedlow)` (axis.py 558-573). -/
def mkBin (e : String) (k lo hi u o n c : J) : Except Err AxisX := do
  let k ← natOf k
  let lo ← realOf lo
  let hi ← realOf hi
  if (0 < k ∧ Num.le hi lo) ∨ Num.lt hi lo then .error .valueError
  else do
    let u ← boolOf u
    let o ← boolOf o
    let n ← boolOf n
    let c ← boolOf c
    if k + b2n u + b2n o + b2n n = 0 then .error .valueError
    else .ok (.bin e k lo hi u o n c)

/-- `intbin(expr, min, max, underflow, overflow)` (axis.py 801-811). -/
def mkIntbin (e : String) (lo hi u o : J) : Except Err AxisX := do
  let lo ← intOf lo
  let hi ← intOf hi
  let u ← boolOf u
  let o ← boolOf o
  if hi < lo then .error .valueError else .ok (.intbin e lo hi u o)

/-- `split(expr, edges, underflow, overflow, nanflow, closedlow)` (axis.py 1020-1039). -/
def mkSplit (e : String) (edges u o n c : J) : Except Err AxisX := do
  let es ← edgesOf edges
  if es.dedup.length ≠ es.length then .error .valueError
  else do
    let u ← boolOf u
    let o ← boolOf o
    let n ← boolOf n
    let c ← boolOf c
    if (es.length - 1) + b2n u + b2n o + b2n n = 0 then .error .valueError
    else .ok (.split e es u o n c)

/-! ## Taking apart -/

/-- The classes. -/
inductive AxCls
  | groupby
  | groupbin
  | bin
  | intbin
  | split
  | cut
  | profile
  deriving DecidableEq

/-- Calling the class with positional arguments: `args[0](*args[1:])` (axis.py 195-197).  (Missing arguments have
defaults, which are not used here.) -/
def AxCls.call (cls : AxCls) (e : String) (args : List J) : Except Err AxisX :=
  match cls, args with
  | .groupby, [] => .ok (.groupby e)
  | .groupbin, [w, o, n, c] => mkGroupbin e w o n c
  | .bin, [k, lo, hi, u, o, n, c] => mkBin e k lo hi u o n c
  | .intbin, [lo, hi, u, o] => mkIntbin e lo hi u o
  | .split, [es, u, o, n, c] => mkSplit e es u o n c
  | .cut, [] => .ok (.cut e)
  | .profile, [] => .ok (.profile e)
  | _, _ => .error .typeError

/-- `_pack` (axis.py 258, 363-364, 575-576, 813-814, 1041-1042, 1308-1309, 1435-1436); `_nullaxis` has none. -/
def AxisX.pack : AxisX → Except Err (AxCls × String × List J)
  | .groupby e => .ok (.groupby, e, [])
  | .groupbin e w o n c => .ok (.groupbin, e, [.float w, .float o, .bool n, .bool c])
  | .bin e k lo hi u o n c => .ok (.bin, e, [.int k, .float lo, .float hi, .bool u, .bool o, .bool n, .bool c])
  | .intbin e lo hi u o => .ok (.intbin, e, [.int lo, .int hi, .bool u, .bool o])
  | .split e es u o n c => .ok (.split, e, [.list (es.map .float), .bool u, .bool o, .bool n, .bool c])
  | .cut e => .ok (.cut, e, [])
  | .profile e => .ok (.profile, e, [])
  | .null => .error .attributeError

/-- `Axis._unpack` (axis.py 195-197). -/
def unpack (p : AxCls × String × List J) : Except Err AxisX := p.1.call p.2.1 p.2.2

/-- `relabel(label)` (axis.py 281-282, 404-406, 657-659, 877-879, 1125-1127, 1328-1330, 1394-1395, 1457-1459). -/
def AxisX.relabel (l : String) : AxisX → Except Err AxisX
  | .groupby _ => .ok (.groupby l)
  | .groupbin _ w o n c => mkGroupbin l (.float w) (.float o) (.bool n) (.bool c)
  | .bin _ k lo hi u o n c => mkBin l (.int k) (.float lo) (.float hi) (.bool u) (.bool o) (.bool n) (.bool c)
  | .intbin _ lo hi u o => mkIntbin l (.int lo) (.int hi) (.bool u) (.bool o)
  | .split _ es u o n c => mkSplit l (.list (es.map .float)) (.bool u) (.bool o) (.bool n) (.bool c)
  | .cut _ => .ok (.cut l)
  | .profile _ => .ok (.profile l)
  | .null => .ok .null

/-- `copy()` (axis.py 277-279, 400-402, 653-655, 873-875, 1121-1123, 1324-1326, 1391-1392, 1453-1455). -/
def AxisX.copy : AxisX → Except Err AxisX
  | .groupby e => .ok (.groupby e)
  | .groupbin e w o n c => mkGroupbin e (.float w) (.float o) (.bool n) (.bool c)
  | .bin e k lo hi u o n c => mkBin e (.int k) (.float lo) (.float hi) (.bool u) (.bool o) (.bool n) (.bool c)
  | .intbin e lo hi u o => mkIntbin e (.int lo) (.int hi) (.bool u) (.bool o)
  | .split e es u o n c => mkSplit e (.list (es.map .float)) (.bool u) (.bool o) (.bool n) (.bool c)
  | .cut e => .ok (.cut e)
  | .profile e => .ok (.profile e)
  | .null => .ok .null

/-! ## JSON -/

/-- The dict with string keys. -/
def J.obj (l : List (String × J)) : J := .dict (l.map fun p => (.str p.1, p.2))

/-- `obj[key]`. -/
def J.get (j : J) (key : String) : Except Err J :=
  match j with
  | .dict d =>
    match d.find? fun p => p.1 = .str key with
    | some p => .ok p.2
    | none => .error .keyError
  | _ => .error .typeError

/-- A string; other expressions are outside of the model. -/
def J.strOf : J → Except Err String
  | .str s => .ok s
  | _ => .error .notImplemented

/-- `tojson()` of the axes (axis.py 264-265, 366-367, 579-580, 816-817, 1044-1045, 1311-1312, 1438-1439). -/
def AxisX.tojson : AxisX → Except Err J
  | .groupby e => .ok (.obj [("axis", .str "groupby"), ("expr", .str e)])
  | .groupbin e w o n c => .ok (.obj [("axis", .str "groupbin"), ("expr", .str e), ("binwidth", .float w),
      ("origin", .float o), ("nanflow", .bool n), ("closedlow", .bool c)])
  | .bin e k lo hi u o n c => .ok (.obj [("axis", .str "bin"), ("expr", .str e), ("numbins", .int k),
      ("low", .float lo), ("high", .float hi), ("underflow", .bool u), ("overflow", .bool o), ("nanflow", .bool n),
      ("closedlow", .bool c)])
  | .intbin e lo hi u o => .ok (.obj [("axis", .str "intbin"), ("expr", .str e), ("min", .int lo), ("max", .int hi),
      ("underflow", .bool u), ("overflow", .bool o)])
  | .split e es u o n c => .ok (.obj [("axis", .str "split"), ("expr", .str e), ("edges", .list (es.map .float)),
      ("underflow", .bool u), ("overflow", .bool o), ("nanflow", .bool n), ("closedlow", .bool c)])
  | .cut e => .ok (.obj [("axis", .str "cut"), ("expr", .str e)])
  | .profile e => .ok (.obj [("axis", .str "profile"), ("expr", .str e)])
  | .null => .error .attributeError

/-- The fields of `obj` as arguments. -/
def argsOf (j : J) (keys : List String) : Except Err (List J) := mapE j.get keys

/-- `Axis.fromjson` (axis.py 199-216) and `fromjson` of the classes (267-270, 369-372, 582-585, 819-822, 1047-1050,
1314-1317, 1441-1444). -/
def axisFromjson (j : J) : Except Err AxisX := do
  let kind ← (← j.get "axis").strOf
  let e ← (← j.get "expr").strOf
  if kind = "groupby" then AxCls.call .groupby e []
  else if kind = "groupbin" then do
    AxCls.call .groupbin e (← argsOf j ["binwidth", "origin", "nanflow", "closedlow"])
  else if kind = "bin" then do
    AxCls.call .bin e
      (← argsOf j ["numbins", "low", "high", "underflow", "overflow", "nanflow", "closedlow"])
  else if kind = "intbin" then do
    AxCls.call .intbin e (← argsOf j ["min", "max", "underflow", "overflow"])
  else if kind = "split" then do
    AxCls.call .split e (← argsOf j ["edges", "underflow", "overflow", "nanflow", "closedlow"])
  else if kind = "cut" then AxCls.call .cut e []
  else if kind = "profile" then AxCls.call .profile e []
  else .error .valueError

mutual
/-- `json.loads(json.dumps(j))`: the keys of dicts become strings.  `render` is how the module `json` writes a
key. -/
def J.text (render : Key → String) : J → J
  | .null => .null
  | .bool b => .bool b
  | .int i => .int i
  | .float v => .float v
  | .str s => .str s
  | .list l => .list (J.textL render l)
  | .dict d => .dict (J.textD render d)
/-- Each element. -/
def J.textL (render : Key → String) : List J → List J
  | [] => []
  | j :: js => j.text render :: J.textL render js
/-- Each entry. -/
def J.textD (render : Key → String) : List (Key × J) → List (Key × J)
  | [] => []
  | p :: ps => J.textP render p :: J.textD render ps
/-- One entry. -/
def J.textP (render : Key → String) : Key × J → Key × J
  | (k, j) => (.str (render k), j.text render)
end

/-! ## Comparison -/

/-- Equality of tuples of numbers.  (Python also takes a NaN as equal to the very same NaN object in a tuple; this is
not modelled.) -/
def numsEq : List Num → List Num → Bool
  | [], [] => true
  | a :: as, b :: bs => Num.eq a b && numsEq as bs
  | _, _ => false

/-- `__eq__` of the axes (axis.py 295-296, 424-425, 679-680, 902-903, 1140-1141, 1361-1362, 1408-1409, 1469-1470). -/
def AxisX.eq : AxisX → AxisX → Bool
  | .groupby e, .groupby e' => decide (e = e')
  | .groupbin e w o n c, .groupbin e' w' o' n' c' =>
    decide (e = e') && Num.eq w w' && Num.eq o o' && decide (n = n') && decide (c = c')
  | .bin e k lo hi u o n c, .bin e' k' lo' hi' u' o' n' c' =>
    decide (e = e') && decide (k = k') && Num.eq lo lo' && Num.eq hi hi' && decide (u = u') && decide (o = o') &&
      decide (n = n') && decide (c = c')
  | .intbin e lo hi u o, .intbin e' lo' hi' u' o' =>
    decide (e = e') && decide (lo = lo') && decide (hi = hi') && decide (u = u') && decide (o = o')
  | .split e es u o n c, .split e' es' u' o' n' c' =>
    decide (e = e') && numsEq es es' && decide (u = u') && decide (o = o') && decide (n = n') && decide (c = c')
  | .cut e, .cut e' => decide (e = e')
  | .profile e, .profile e' => decide (e = e')
  | .null, .null => true
  | _, _ => false

/-- `compatible` of the axes (axis.py 291-293, 420-422, 675-677, 898-900, 1136-1138, 1357-1359); `_nullaxis` and
`profile` have none. -/
def AxisX.compatible : AxisX → AxisX → Except Err Bool
  | .groupby _, b => .ok (match b with | .groupby _ => true | _ => false)
  | .groupbin _ w o n c, b => .ok (match b with
    | .groupbin _ w' o' n' c' => Num.eq w w' && Num.eq o o' && decide (n = n') && decide (c = c')
    | _ => false)
  | .bin _ k lo hi u o n c, b => .ok (match b with
    | .bin _ k' lo' hi' u' o' n' c' =>
      decide (k = k') && Num.eq lo lo' && Num.eq hi hi' && decide (u = u') && decide (o = o') && decide (n = n') &&
        decide (c = c')
    | _ => false)
  | .intbin _ lo hi u o, b => .ok (match b with
    | .intbin _ lo' hi' u' o' => decide (lo = lo') && decide (hi = hi') && decide (u = u') && decide (o = o')
    | _ => false)
  | .split _ es u o n c, b => .ok (match b with
    | .split _ es' u' o' n' c' =>
      numsEq es es' && decide (u = u') && decide (o = o') && decide (n = n') && decide (c = c')
    | _ => false)
  | .cut _, b => .ok (match b with | .cut _ => true | _ => false)
  | .profile _, _ => .error .attributeError
  | .null, _ => .error .attributeError

/-- `all(y.compatible(z) for y, z in zip(...))`. -/
def zipCompat : List AxisX → List AxisX → Except Err Bool
  | a :: as, b :: bs => do
    if ← a.compatible b then zipCompat as bs else .ok false
  | _, _ => .ok true

/-- `Hist.compatible` (hist.py 749-751) on the group and fixed axes of two histograms. -/
def histCompat (g f g' f' : List AxisX) : Except Err Bool :=
  if g.length = g'.length ∧ f.length = f'.length then zipCompat (g ++ f) (g' ++ f') else .ok false

/-! ## Intervals -/

/-- `Interval.__lt__` and `IntervalNaN.__lt__` (axis.py 83-90, 145-149).  Comparing the class of an interval with
another class raises in Python 3; a number on the left leaves the comparison to the reflected `__gt__`, which raises
as well (98-99). -/
def BinLabel.lt : BinLabel → BinLabel → Except Err Bool
  | .iv _ _ _ _, .nan => .ok true
  | .iv lo _ _ _, .iv lo' _ _ _ => .ok (Num.lt lo lo')
  | .nan, .nan => .ok true
  | .nan, .iv _ _ _ _ => .ok false
  | .int i, .int j => .ok (decide (i < j))
  | .bool b, .bool c => .ok (decide (b2i b < b2i c))
  | .int i, .bool c => .ok (decide (i < b2i c))
  | .bool b, .int j => .ok (decide (b2i b < j))
  | _, _ => .error .typeError

/-- `__eq__` (axis.py 80-81, 142-143). -/
def BinLabel.eq : BinLabel → BinLabel → Bool
  | .iv lo hi cl ch, .iv lo' hi' cl' ch' =>
    Num.eq lo lo' && Num.eq hi hi' && decide (cl = cl') && decide (ch = ch')
  | .nan, .nan => true
  | .int i, .int j => decide (i = j)
  | .bool b, .bool c => decide (b = c)
  | .int i, .bool c => decide (i = b2i c)
  | .bool b, .int j => decide (b2i b = j)
  | _, _ => false

/-- `__gt__` of intervals (axis.py 98-99). -/
def BinLabel.gt (a b : BinLabel) : Except Err Bool := (a.lt b).map fun l => !l && !a.eq b

/-- `__ge__` of intervals (axis.py 95-96). -/
def BinLabel.ge (a b : BinLabel) : Except Err Bool := (a.lt b).map fun l => !l

/-- `__le__` of intervals (axis.py 101-102). -/
def BinLabel.le (a b : BinLabel) : Except Err Bool := (a.lt b).map fun l => l || a.eq b

end Verif
