import Verif.Tree

/-!
# Boolean arrays in computation trees

`calculate` (`/repo/histbook/calc/__init__.py` 327-357) with NumPy's functions on arrays that are boolean
or numeric (calc/__init__.py 37-52).  The model in `Verif/Tree.lean` has numbers only; here a row value
keeps whether it comes from a boolean array: a boolean field of the data, a comparison, a logical function,
`isnan`, `isinf` or `isfinite`.

NumPy's `add` of two boolean arrays is their disjunction, `multiply` their conjunction, and `subtract`
raises TypeError; with one numeric argument, a boolean counts as 0 or 1.

Simplifications, besides those of `Verif/Tree.lean`: the other functions of the library see a boolean as 0 or
1 (NumPy refuses `sign` of a boolean array and computes `sqrt` and the like with 16 bits).
-/

namespace Verif

/-- A value of one row: from a boolean array, from a numeric array, or a Python object. -/
inductive TVal
  | bool (b : Bool)
  | num (v : Option ℚ)
  | obj (c : CVal)
  deriving DecidableEq

/-- The value without its type. -/
def TVal.erase : TVal → RowVal
  | .bool b => .num (ofBool b)
  | .num v => .num v
  | .obj c => .obj c

/-- Whether the value comes from a boolean array. -/
def TVal.isBool : TVal → Bool
  | .bool _ => true
  | _ => false

/-- What NumPy does with two boolean arrays: `numpy.add`, `numpy.multiply` and `numpy.subtract`
(calc/__init__.py 37-39); nothing special for other functions. -/
def onBools : String → Option (Bool → Bool → Except Err TVal)
  | "numpy.add" => some fun a b => .ok (.bool (a || b))
  | "numpy.multiply" => some fun a b => .ok (.bool (a && b))
  | "numpy.subtract" => some fun _ _ => .error .typeError
  | _ => none

/-- The functions whose result is boolean whatever their arguments are (calc/__init__.py 41-52 and 81-83). -/
def boolFns : List String :=
  ["numpy.equal", "numpy.not_equal", "numpy.less", "numpy.less_equal", "numpy.isin", "numpy.logical_or",
    "numpy.logical_and", "numpy.logical_not", "isfinite", "isinf", "isnan"]

/-- The functions whose result is boolean if all their arguments are (calc/__init__.py 54, 90-91). -/
def keepFns : List String := ["abs", "fabs", "max", "fmax", "min", "fmin"]

/-- Whether the result of a function is a boolean array, given which arguments are: `where` (calc/__init__.py
146) takes the type of what it chooses from. -/
def boolResult (f : String) (args : List Bool) : Bool :=
  if f ∈ boolFns then true
  else if f ∈ keepFns then !args.isEmpty && args.all id
  else if f = "where" then decide (args.length = 3) && (args.drop 1).all id
  else false

/-- A result with its type. -/
def typed (b : Bool) : RowVal → TVal
  | .num v => if b then .bool (truth v) else .num v
  | .obj c => .obj c

/-- One function of the library on typed values: what NumPy does with two boolean arrays, or else the
function on numbers. -/
def typedFn (f : String) (g : List RowVal → Except Err RowVal) (args : List TVal) : Except Err TVal :=
  match onBools f, args with
  | some h, [.bool a, .bool b] => h a b
  | _, _ => (g (args.map TVal.erase)).map (typed (boolResult f (args.map TVal.isBool)))

/-- The library (calc/__init__.py 37-146) on values of boolean and numeric arrays. -/
def boolLib (more : String → Option (List (Option ℚ) → Option ℚ)) : Lib TVal where
  const
    | .num q => .num (some q)
    | c => .obj c
  fn f := ((rowLib more).fn f).map (typedFn f)

/-- The fields of one row: a boolean or a number. -/
def boolSymbols (field : String → Bool ⊕ Option ℚ) (s : String) : Except Err TVal :=
  match field s with
  | .inl b => .ok (.bool b)
  | .inr v => .ok (.num v)

end Verif
