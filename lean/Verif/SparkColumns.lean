import Verif.Library
import Verif.Spark

/-!
# Expressions as Spark columns

Model of `tocolumns` (`/repo/histbook/calc/spark.py` 46-188), which turns a computation tree into a column
of a Spark DataFrame, and of the value that Spark computes for such a column on one row.

Of Spark, what the documentation of its functions says is taken over: a quotient or remainder by zero is
null, a function of null is null, `greatest` and `least` skip nulls, NaN is equal to itself and greater than
every other number, `and` and `or` have three truth values, `floor` and `ceil` of a double are 64-bit
integers, and arithmetic on booleans and logic on numbers are refused before any row is read
(`AnalysisException`).  A comparison of a boolean with a number is refused, too, where some versions of
Spark convert.

Simplifications.  A number is a rational or "not a number" (`none`).  The functions of analysis (`sqrt`,
`log`, …) are a parameter.  The degree conversions are such functions, where the code multiplies by a
constant that is not rational.  The shifts, which the parser does not recognise, are left out.
-/

namespace Verif

/-- The value of a Spark column on one row. -/
inductive SVal
  | null
  | num (v : Option ℚ)
  | bool (b : Bool)
  deriving DecidableEq

/-- The type of a Spark column. -/
inductive STy
  | num
  | bool
  deriving DecidableEq

/-- The functions and operators of Spark that are used; `math f n` is a function of `n` numbers. -/
inductive SFn
  | abs | greatest | least | ceil | floor | isnan | mod | when | eq | ne | lt | le | not | add | sub | mul
  | div | or | and
  | math (f : String) (n : ℕ)
  deriving DecidableEq

/-- A Spark column. -/
inductive SCol
  | lit (q : ℚ)
  | field (s : String)
  | fn (g : SFn) (args : List SCol)

/-- The functions of one number (calc/spark.py 62-155). -/
def math1 : List String :=
  ["arccos", "arcsin", "arctan", "cos", "cosh", "rad2deg", "exp", "expm1", "factorial", "log10", "log1p",
    "log", "deg2rad", "sinh", "sin", "sqrt", "tanh", "tan", "log2", "rint"]

/-- The functions of two numbers (calc/spark.py 70, 102 and 116). -/
def math2 : List String := ["arctan2", "hypot", "pow"]

/-- The chain of comparisons with `expr.fcn` in `tocolumns` (calc/spark.py 56-185); `none` where it ends in
`NotImplementedError`, and for `numpy.isin`. -/
def sparkFn (f : String) : Option SFn :=
  if f ∈ math1 then some (.math f 1)
  else if f ∈ math2 then some (.math f 2)
  else match f with
  | "abs" => some .abs
  | "fabs" => some .abs
  | "max" => some .greatest
  | "fmax" => some .greatest
  | "min" => some .least
  | "fmin" => some .least
  | "ceil" => some .ceil
  | "floor" => some .floor
  | "isnan" => some .isnan
  | "mod" => some .mod
  | "where" => some .when
  | "numpy.equal" => some .eq
  | "numpy.not_equal" => some .ne
  | "numpy.less" => some .lt
  | "numpy.less_equal" => some .le
  | "numpy.logical_not" => some .not
  | "numpy.add" => some .add
  | "numpy.subtract" => some .sub
  | "numpy.multiply" => some .mul
  | "numpy.true_divide" => some .div
  | "numpy.logical_or" => some .or
  | "numpy.logical_and" => some .and
  | _ => none

/-- The number of arguments that are used of `len` given ones. -/
def SFn.count (g : SFn) (len : ℕ) : ℕ :=
  match g with
  | .greatest => len
  | .least => len
  | .abs => 1
  | .ceil => 1
  | .floor => 1
  | .isnan => 1
  | .not => 1
  | .when => 3
  | .math _ n => n
  | _ => 2

/-- The column of a function of columns; `fcns.greatest` and `fcns.least` want at least two. -/
def SFn.column (g : SFn) (cs : List SCol) : Except Err SCol :=
  match g with
  | .greatest => if cs.length < 2 then .error .valueError else .ok (.fn g cs)
  | .least => if cs.length < 2 then .error .valueError else .ok (.fn g cs)
  | _ => .ok (.fn g cs)

mutual
/-- `tocolumns(df, expr)` (calc/spark.py 46-188).  A set is refused by `fcns.lit`; a `Column` raises
`ValueError` for Python's `in` (168-169).  The sign of a `Predicate` is not looked at (52-53). -/
def tocolumns : T String → Except Err SCol
  | .const (.num q) => .ok (.lit q)
  | .const _ => .error .typeError
  | .bconst _ (.num q) => .ok (.lit q)
  | .bconst _ _ => .error .typeError
  | .name s => .ok (.field s)
  | .pred s _ => .ok (.field s)
  | .call f args =>
    match sparkFn f with
    | none =>
      if f = "numpy.isin" then do
        let _ ← tocolumnsN 2 args
        .error .valueError
      else .error .notImplemented
    | some g => do
      let cs ← tocolumnsN (g.count args.length) args
      g.column cs
/-- The first `n` arguments as columns; `expr.args[i]` raises `IndexError`. -/
def tocolumnsN : ℕ → List (T String) → Except Err (List SCol)
  | 0, _ => .ok []
  | _ + 1, [] => .error .indexError
  | n + 1, a :: as => do
    let c ← tocolumns a
    let cs ← tocolumnsN n as
    .ok (c :: cs)
end

/-! ## Spark -/

/-- The type of a function of columns. -/
def SFn.type (g : SFn) (ts : List STy) : Except Err STy :=
  match g, ts with
  | .when, [.bool, a, b] => if a = b then .ok a else .error .typeError
  | .when, _ => .error .typeError
  | .isnan, [.num] => .ok .bool
  | .isnan, _ => .error .typeError
  | .not, [.bool] => .ok .bool
  | .not, _ => .error .typeError
  | .and, [.bool, .bool] => .ok .bool
  | .and, _ => .error .typeError
  | .or, [.bool, .bool] => .ok .bool
  | .or, _ => .error .typeError
  | .eq, [a, b] => if a = b then .ok .bool else .error .typeError
  | .ne, [a, b] => if a = b then .ok .bool else .error .typeError
  | .lt, [a, b] => if a = b then .ok .bool else .error .typeError
  | .le, [a, b] => if a = b then .ok .bool else .error .typeError
  | _, ts => if ts.all (fun t => decide (t = .num)) then .ok .num else .error .typeError

mutual
/-- The analysis of a column, from the types of the fields. -/
def SCol.type (ty : String → STy) : SCol → Except Err STy
  | .lit _ => .ok .num
  | .field s => .ok (ty s)
  | .fn g args => do g.type (← SCol.typeL ty args)
/-- The analysis of each column. -/
def SCol.typeL (ty : String → STy) : List SCol → Except Err (List STy)
  | [] => .ok []
  | c :: cs => do
    let t ← c.type ty
    let ts ← SCol.typeL ty cs
    .ok (t :: ts)
end

/-- Spark's `<` for doubles: NaN is greater than every other number. -/
def sparkLt : Option ℚ → Option ℚ → Bool
  | none, _ => false
  | some _, none => true
  | some x, some y => decide (x < y)

/-- A value as it is compared: false is less than true. -/
def SVal.key : SVal → Option (Option ℚ)
  | .null => none
  | .num v => some v
  | .bool b => some (ofBool b)

/-- A comparison, null if an operand is. -/
def SVal.compare (r : Option ℚ → Option ℚ → Bool) (a b : SVal) : SVal :=
  match a.key, b.key with
  | some x, some y => .bool (r x y)
  | _, _ => .null

/-- An operation on two numbers, null if an operand is. -/
def SVal.arith (f : Option ℚ → Option ℚ → SVal) : SVal → SVal → SVal
  | .num x, .num y => f x y
  | _, _ => .null

/-- A function of one number, null of null. -/
def SVal.lift (f : Option ℚ → SVal) : SVal → SVal
  | .num x => f x
  | _ => .null

/-- The numbers among the values. -/
def SVal.nums : List SVal → List (Option ℚ)
  | [] => []
  | .num v :: vs => v :: SVal.nums vs
  | _ :: vs => SVal.nums vs

/-- Spark's `greatest` (`r` is `sparkLt`) and `least` (the other way round). -/
def SVal.extreme (r : Option ℚ → Option ℚ → Bool) (vs : List SVal) : SVal :=
  match SVal.nums vs with
  | [] => .null
  | v :: vs => .num (vs.foldl (fun a b => if r a b then b else a) v)

/-- Java's remainder, with the sign of the dividend; null for a divisor of zero. -/
def sparkMod (a b : Option ℚ) : SVal :=
  if b = some 0 then .null
  else match a, b with
  | some x, some y => .num (some (x - y * truncQ (x / y)))
  | _, _ => .num none

/-- Spark's quotient; null for a divisor of zero. -/
def sparkDiv (a b : Option ℚ) : SVal := if b = some 0 then .null else .num (divO a b)

/-- A 64-bit integer from a double; zero for NaN. -/
def sparkLong (f : ℚ → ℤ) : Option ℚ → SVal
  | some x => .num (some (satLong (f x)))
  | none => .num (some 0)

/-- `&` with three truth values. -/
def SVal.and : SVal → SVal → SVal
  | .bool false, _ => .bool false
  | _, .bool false => .bool false
  | .bool true, .bool true => .bool true
  | _, _ => .null

/-- `|` with three truth values. -/
def SVal.or : SVal → SVal → SVal
  | .bool true, _ => .bool true
  | _, .bool true => .bool true
  | .bool false, .bool false => .bool false
  | _, _ => .null

/-- `~`. -/
def SVal.not : SVal → SVal
  | .bool b => .bool (!b)
  | _ => .null

/-- The functions of analysis: a number, NaN, or null. -/
abbrev SMath := String → List (Option ℚ) → Option (Option ℚ)

/-- The value of a function of columns on one row. -/
def SFn.apply (sm : SMath) (g : SFn) (vs : List SVal) : SVal :=
  match g, vs with
  | .abs, [a] => a.lift fun x => .num (x.map fun q => |q|)
  | .ceil, [a] => a.lift (sparkLong fun q => ⌈q⌉)
  | .floor, [a] => a.lift (sparkLong fun q => ⌊q⌋)
  | .isnan, [.num x] => .bool x.isNone
  | .isnan, [_] => .bool false
  | .mod, [a, b] => SVal.arith sparkMod a b
  | .when, [c, a, b] => if c = .bool true then a else b
  | .eq, [a, b] => SVal.compare (fun x y => decide (x = y)) a b
  | .ne, [a, b] => SVal.compare (fun x y => decide (x ≠ y)) a b
  | .lt, [a, b] => SVal.compare sparkLt a b
  | .le, [a, b] => SVal.compare (fun x y => !sparkLt y x) a b
  | .not, [a] => a.not
  | .add, [a, b] => SVal.arith (fun x y => .num (do return (← x) + (← y))) a b
  | .sub, [a, b] => SVal.arith (fun x y => .num (do return (← x) - (← y))) a b
  | .mul, [a, b] => SVal.arith (fun x y => .num (do return (← x) * (← y))) a b
  | .div, [a, b] => SVal.arith sparkDiv a b
  | .or, [a, b] => a.or b
  | .and, [a, b] => a.and b
  | .greatest, vs => SVal.extreme sparkLt vs
  | .least, vs => SVal.extreme (fun x y => sparkLt y x) vs
  | .math f _, vs =>
    if (SVal.nums vs).length < vs.length then .null
    else match sm f (SVal.nums vs) with
      | none => .null
      | some v => .num v
  | _, _ => .null

mutual
/-- The value of a column on one row. -/
def SCol.eval (sm : SMath) (row : String → SVal) : SCol → SVal
  | .lit q => .num (some q)
  | .field s => row s
  | .fn g args => g.apply sm (SCol.evalL sm row args)
/-- The value of each column. -/
def SCol.evalL (sm : SMath) (row : String → SVal) : List SCol → List SVal
  | [] => []
  | c :: cs => c.eval sm row :: SCol.evalL sm row cs
end

/-- A row of the DataFrame: a boolean field holds false for 0 and true otherwise. -/
def sparkRow (ty : String → STy) (field : String → Option ℚ) (s : String) : SVal :=
  match ty s with
  | .num => .num (field s)
  | .bool => .bool (truth (field s))

/-- What Spark computes for a tree on one row, unless `tocolumns` or Spark's analysis refuses it. -/
def sparkVal (ty : String → STy) (sm : SMath) (field : String → Option ℚ) (t : E) : Except Err SVal := do
  let c ← tocolumns t.toT
  let _ ← c.type ty
  .ok (c.eval sm (sparkRow ty field))

end Verif
