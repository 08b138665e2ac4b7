import Verif.Expr

/-!
# Computation trees

Model of `totree` (`/repo/histbook/instr.py` 117-229), which turns a parsed expression into constants,
names and function calls, and of `calculate` (`/repo/histbook/calc/__init__.py` 327-357) with the part of
its `library` that `totree` uses (calc/__init__.py 37-52).

Simplifications.  Values are those of one row: NumPy's functions act on each row separately.  A row value
is a number or "not a number" (`none`); a quotient by zero is "not a number", where NumPy gives an
infinity or NaN.  The other functions of the library are a parameter.
-/

namespace Verif

/-! ## `totree` -/

/-- `Call(fcn, *args)`. -/
abbrev E.callE (f : String) (args : List E) : E := .node (.call f) args []

/-- `linear` (instr.py 120-123). -/
def linearT (f : String) : List E → Except Err E
  | [] => .error .indexError
  | [a] => .ok a
  | a :: b :: as => (linearT f (b :: as)).map fun t => E.callE f [a, t]

/-- `reduce` (instr.py 138-161); the recursion never ends on an empty tuple.  The first argument bounds
the depth of the recursion: it is enough to give the number of elements. -/
def reduceT (f : String) : ℕ → List E → Except Err E
  | _, [a] => .ok a
  | 0, _ => .error .recursion
  | n + 1, args =>
    if (args.take (args.length / 2)).isEmpty then reduceT f n (args.drop (args.length / 2))
    else do
      let l ← reduceT f n (args.take (args.length / 2))
      let r ← reduceT f n (args.drop (args.length / 2))
      .ok (E.callE f [l, r])

/-- `args.count(x)`. -/
def countE (x : E) (args : List E) : ℕ := (args.filter (E.same x)).length

/-- `duplicates` (instr.py 125-136). -/
def duplicatesT (f : String) (args : List E) : Except Err E :=
  match args with
  | [a] => .ok a
  | _ =>
    if (sortU args).length = args.length then reduceT f args.length args
    else do
      let newargs ← (sortU args).mapM fun x => linearT f (List.replicate (countE x args) x)
      reduceT f newargs.length newargs

/-- The value of `out` after the positive part and the constant (instr.py 190-198 and 207-215). -/
def withConst (f : String) (identity c : ℚ) : Option E → E
  | none => E.const c
  | some out => if c = identity then out else E.callE f [out, E.const c]

/-- The positive part of a sum or product (instr.py 190-192 and 207-209). -/
def posPart (red : Except Err E) (p : List E) : Except Err (Option E) :=
  if p.isEmpty then .ok none else red.map some

/-- The negative part of a sum or product (instr.py 200-203 and 217-220). -/
def negPart (f : String) (red : Except Err E) (n : List E) (out : E) : Except Err E :=
  if n.isEmpty then .ok out else red.map fun d => E.callE f [out, d]

/-- The function for a comparison (instr.py 169-187). -/
def relTree (c : RelOp) (args : List E) : E :=
  match c with
  | .eq => E.callE "numpy.equal" args
  | .ne => E.callE "numpy.not_equal" args
  | .lt => E.callE "numpy.less" args
  | .le => E.callE "numpy.less_equal" args
  | .isin => E.callE "numpy.isin" args
  | .notin => E.callE "numpy.logical_not" [E.callE "numpy.isin" args]

/-- The tree of one node from the trees of its children (instr.py 163-229). -/
def headTree (h : Head) (p n : List E) : Except Err E :=
  match h with
  | .const q => .ok (.node (.const q) [] [])
  | .cset l => .ok (.node (.cset l) [] [])
  | .name s => .ok (.node (.name s) [] [])
  | .pred s b => .ok (.node (.pred s b) [] [])
  | .call f => .ok (E.callE f p)
  | .binop f => .ok (E.callE f p)
  | .rel c => .ok (relTree c p)
  | .plus c => do
    let out ← posPart (reduceT "numpy.add" p.length p) p
    negPart "numpy.subtract" (reduceT "numpy.add" n.length n) n (withConst "numpy.add" 0 c out)
  | .times c => do
    let out ← posPart (duplicatesT "numpy.multiply" p) p
    negPart "numpy.true_divide" (duplicatesT "numpy.multiply" n) n (withConst "numpy.multiply" 1 c out)
  | .lor => reduceT "numpy.logical_or" p.length p
  | .land => reduceT "numpy.logical_and" p.length p

mutual
/-- `totree(expr)` (instr.py 117-229). -/
def totree : E → Except Err E
  | .node h p n => do
    let p' ← totreeL p
    let n' ← totreeL n
    headTree h p' n'
/-- `totree` of each element. -/
def totreeL : List E → Except Err (List E)
  | [] => .ok []
  | x :: xs => do
    let t ← totree x
    let ts ← totreeL xs
    .ok (t :: ts)
end

/-! ## Trees and their calculation -/

/-- What a `Const` holds: a number, a set of numbers, or a tuple of numbers (the edges of a `split`). -/
inductive CVal
  | num (q : ℚ)
  | set (l : List ℚ)
  | tuple (l : List ℚ)
  deriving DecidableEq

/-- A computation tree: `Const`, `BroadcastConst` (expr.py 547-590), `Name`, `Predicate` and `Call`.
Names are strings in a goal and variable numbers in an instruction. -/
inductive T (N : Type)
  | const (v : CVal)
  | bconst (nm : Option N) (v : CVal)
  | name (s : N)
  | pred (s : N) (b : Bool)
  | call (f : String) (args : List (T N))

mutual
/-- The tree that `totree` returns, as a `T`. -/
def E.toT : E → T String
  | .node h p _ =>
    match h with
    | .const q => .const (.num q)
    | .cset l => .const (.set l)
    | .name s => .name s
    | .pred s b => .pred s b
    | .call f => .call f (E.toTL p)
    | _ => .call "" []
/-- The same for each element. -/
def E.toTL : List E → List (T String)
  | [] => []
  | x :: xs => E.toT x :: E.toTL xs
end

/-- The function library and its way to use a constant as an argument, for values of type `V`. -/
structure Lib (V : Type) where
  const : CVal → V
  fn : String → Option (List V → Except Err V)

mutual
/-- `calculate(expr, symbols)` (calc/__init__.py 327-357). -/
def calculate {N V : Type} (lib : Lib V) (symbols : N → Except Err V) : T N → Except Err V
  | .bconst (some s) _ => symbols s
  | .bconst none _ => .error .keyError
  | .name s => symbols s
  | .pred s _ => symbols s
  | .const v => .ok (lib.const v)
  | .call f args =>
    match lib.fn f with
    | none => .error .assertion
    | some g => do g (← calculateL lib symbols args)
/-- The arguments one after the other. -/
def calculateL {N V : Type} (lib : Lib V) (symbols : N → Except Err V) : List (T N) → Except Err (List V)
  | [] => .ok []
  | a :: as => do
    let v ← calculate lib symbols a
    let vs ← calculateL lib symbols as
    .ok (v :: vs)
end

/-- A value of one row: a number (`none`: not a number) or a Python object. -/
inductive RowVal
  | num (v : Option ℚ)
  | obj (c : CVal)
  deriving DecidableEq

/-- A NumPy function of two numbers. -/
def ufunc2 (g : Option ℚ → Option ℚ → Option ℚ) : List RowVal → Except Err RowVal
  | [.num a, .num b] => .ok (.num (g a b))
  | _ => .error .typeError

/-- The comparison functions. -/
def relFn (c : RelOp) : List RowVal → Except Err RowVal := ufunc2 fun a b => ofBool (c.holds a b none)

/-- `numpy.isin(values, test)` (calc/__init__.py 45-48): a Python set is one element of an object array,
to which no number is equal; in a tuple the elements are compared. -/
def isinFn : List RowVal → Except Err RowVal
  | [.num _, .obj (.set _)] => .ok (.num (ofBool false))
  | [.num a, .obj (.tuple l)] => .ok (.num (ofBool (match a with | some x => decide (x ∈ l) | none => false)))
  | _ => .error .typeError

/-- `numpy.logical_not` on one row. -/
def notFn : List RowVal → Except Err RowVal
  | [.num a] => .ok (.num (ofBool (!truth a)))
  | _ => .error .typeError

/-- The functions that `totree` introduces (calc/__init__.py 37-52). -/
def builtin : String → Option (List RowVal → Except Err RowVal)
  | "numpy.add" => some (ufunc2 fun a b => do return (← a) + (← b))
  | "numpy.subtract" => some (ufunc2 fun a b => do return (← a) - (← b))
  | "numpy.multiply" => some (ufunc2 fun a b => do return (← a) * (← b))
  | "numpy.true_divide" => some (ufunc2 divO)
  | "numpy.equal" => some (relFn .eq)
  | "numpy.not_equal" => some (relFn .ne)
  | "numpy.less" => some (relFn .lt)
  | "numpy.less_equal" => some (relFn .le)
  | "numpy.isin" => some isinFn
  | "numpy.logical_or" => some (ufunc2 fun a b => ofBool (truth a || truth b))
  | "numpy.logical_and" => some (ufunc2 fun a b => ofBool (truth a && truth b))
  | "numpy.logical_not" => some notFn
  | _ => none

/-- The numbers among row values, if there is nothing else. -/
def rowNums : List RowVal → Except Err (List (Option ℚ))
  | [] => .ok []
  | .num v :: vs => (rowNums vs).map (v :: ·)
  | .obj _ :: _ => .error .typeError

/-- The library on one row: the functions of `totree` and the functions in `more`
(calc/__init__.py 53-146), which act on numbers. -/
def rowLib (more : String → Option (List (Option ℚ) → Option ℚ)) : Lib RowVal where
  const
    | .num q => .num (some q)
    | c => .obj c
  fn f := match builtin f with
    | some g => some g
    | none => (more f).map fun g vs => (rowNums vs).map fun xs => .num (g xs)

/-- The names under which functions are looked up in the library (calc/__init__.py 53-146), besides those
that `totree` introduces. -/
def libraryNames : List String :=
  ["abs", "fabs", "arccos", "arccosh", "arcsin", "arcsinh", "arctan2", "arctan", "arctanh", "ceil", "conj",
    "copysign", "cos", "cosh", "deg2rad", "exp2", "exp", "expm1", "floor", "fmod", "heaviside", "hypot",
    "isfinite", "isinf", "isnan", "log10", "log1p", "log2", "logaddexp2", "logaddexp", "log", "max", "fmax",
    "min", "fmin", "pow", "rad2deg", "mod", "rint", "sign", "sinh", "sin", "sqrt", "tanh", "tan", "trunc",
    "erf", "erfc", "gamma", "lgamma", "factorial", "where"]

/-- The names that the parser gives to the functions it recognises (`Expr.recognized`, expr.py 338-446). -/
def recognizedNames : List String :=
  ["abs", "max", "min", "fabs", "fmin", "fmax", "fmod", "arccos", "arccosh", "arcsin", "arcsinh", "arctan2",
    "arctan", "arctanh", "ceil", "copysign", "cos", "cosh", "rad2deg", "erfc", "erf", "exp", "expm1",
    "factorial", "floor", "mod", "gamma", "hypot", "isinf", "isnan", "lgamma", "log10", "log1p", "log",
    "pow", "deg2rad", "sinh", "sin", "sqrt", "tanh", "tan", "trunc", "conj", "exp2", "heaviside", "isfinite",
    "log2", "logaddexp2", "logaddexp", "rint", "round", "sign", "where"]

/-- Values of the fields of one row, as `calculate` sees them. -/
def rowSymbols (field : String → Option ℚ) (s : String) : Except Err RowVal := .ok (.num (field s))

/-- Meaning of function calls in expressions, by the same library. -/
def libFn (more : String → Option (List (Option ℚ) → Option ℚ)) (f : String) (xs : List (Option ℚ)) :
    Option ℚ :=
  match more f with
  | some g => g xs
  | none => none

end Verif
