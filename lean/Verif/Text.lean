import Verif.HistJson

/-!
# The text of axes and histograms

Model of `__repr__` of the axes in `/repo/histbook/axis.py` and of `Hist` in `/repo/histbook/hist.py`.  The text is a
list of tokens: blanks and line breaks between them (`__str__` of a histogram has line breaks, hist.py 317-318) and the
characters of a single literal are not modelled.  The definitions are strings; those that are parsed expressions are
in `Verif.ExprText`.
-/

namespace Verif

/-- A token of Python. -/
inductive Tok
  | name (s : String)
  | str (s : String)
  | int (n : ℕ)
  | float (q : ℚ)
  | lpar | rpar | lbrace | rbrace | comma | colon | eq | minus
  deriving DecidableEq

/-- `", ".join(l)`. -/
def joinComma : List (List Tok) → List Tok
  | [] => []
  | [a] => a
  | a :: b :: r => a ++ .comma :: joinComma (b :: r)

/-- `repr` of an integer. -/
def reprInt (i : ℤ) : List Tok := if i < 0 then [.minus, .int i.natAbs] else [.int i.natAbs]

/-- `repr` of a float: the infinite ones and NaN are shown as names. -/
def reprFloat : Num → List Tok
  | .fin q => if q < 0 then [.minus, .float (-q)] else [.float q]
  | .pinf => [.name "inf"]
  | .ninf => [.minus, .name "inf"]
  | .nan => [.name "nan"]

/-- `repr` of a boolean. -/
def reprBool (b : Bool) : List Tok := [.name (if b then "True" else "False")]

/-- `repr` of a tuple of floats. -/
def reprTuple : List Num → List Tok
  | [x] => .lpar :: reprFloat x ++ [.comma, .rpar]
  | l => .lpar :: joinComma (l.map reprFloat) ++ [.rpar]

/-- `name={0}` (axis.py 377-382, 589-596, 827-830, 1053-1060). -/
def keyword (k : String) (v : List Tok) : List Tok := .name k :: .eq :: v

/-- An option that is shown if it `is not True`. -/
def unlessTrue (k : String) (b : Bool) : List (List Tok) := if b then [] else [keyword k (reprBool b)]

/-- `"name({0})".format(", ".join(args))`. -/
def callToks (f : String) (args : List (List Tok)) : List Tok := .name f :: .lpar :: joinComma args ++ [.rpar]

/-- `__repr__` of the axes (axis.py 260-261, 374-382, 587-597, 825-831, 1051-1061, 1319-1320, 1385-1386, 1446-1447). -/
def AxisX.toks : AxisX → List Tok
  | .groupby e => callToks "groupby" [[.str e]]
  | .groupbin e w o n c => callToks "groupbin" ([[.str e], reprFloat w] ++
      (if Num.eq o (.fin 0) then [] else [keyword "origin" (reprFloat o)]) ++ unlessTrue "nanflow" n ++
      unlessTrue "closedlow" c)
  | .bin e k lo hi u o n c => callToks "bin" ([[.str e], reprInt k, reprFloat lo, reprFloat hi] ++
      unlessTrue "underflow" u ++ unlessTrue "overflow" o ++ unlessTrue "nanflow" n ++ unlessTrue "closedlow" c)
  | .intbin e lo hi u o => callToks "intbin" ([[.str e], reprInt lo, reprInt hi] ++ unlessTrue "underflow" u ++
      unlessTrue "overflow" o)
  | .split e es u o n c => callToks "split" ([[.str e], reprTuple es] ++ unlessTrue "underflow" u ++
      unlessTrue "overflow" o ++ unlessTrue "nanflow" n ++ unlessTrue "closedlow" c)
  | .cut e => callToks "cut" [[.str e]]
  | .profile e => callToks "profile" [[.str e]]
  | .null => callToks "_nullaxis" []

/-- `repr` of a weight: `None`, a number or a string.  (Lists and dicts do not occur.) -/
def reprJ : J → List Tok
  | .null => [.name "None"]
  | .bool b => reprBool b
  | .int i => reprInt i
  | .float v => reprFloat v
  | .str s => [.str s]
  | .list _ => []
  | .dict _ => []

/-- The weight is shown unless it is `None` (hist.py 309-310). -/
def weightToks : J → List (List Tok)
  | .null => []
  | w => [keyword "weight" (reprJ w)]

/-- The filter is shown unless it is `None` (hist.py 311-312). -/
def filterToks : Option String → List (List Tok)
  | none => []
  | some f => [keyword "filter" [.str f]]

/-- `"{0}: {1}".format(repr(n), repr(x))` (hist.py 314). -/
def defToks (d : String × String) : List Tok := [.str d.1, .colon, .str d.2]

/-- The definitions are shown if there are any (hist.py 313-314). -/
def defsToks (ds : List (String × String)) : List (List Tok) :=
  if ds.length > 0 then [keyword "defs" (.lbrace :: joinComma (ds.map defToks) ++ [.rbrace])] else []

/-- `Hist.__repr__` (hist.py 307-315). -/
def HistX.toks {β : Type} (h : HistX β) : List Tok :=
  callToks "Hist" (h.axes.map (fun x => x.1.toks) ++ weightToks h.weight ++ filterToks h.filter ++ defsToks h.defs)

end Verif
