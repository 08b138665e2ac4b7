import Verif.Expr

/-!
# Specification: the value of an expression as it is written

The value of a Python expression on one row, computed from the syntax tree alone.  Nothing here uses
the parser or its normal forms.
-/

namespace Verif

/-- Meaning of a comparison operator on numbers; a comparison with an undefined value is false,
except `!=` and `not in`. -/
def PyCmp.sem (op : PyCmp) (a b : Option ℚ) (s : List ℚ) : Bool :=
  match op, a, b with
  | .eq, some x, some y => decide (x = y)
  | .ne, some x, some y => decide (x ≠ y)
  | .lt, some x, some y => decide (x < y)
  | .le, some x, some y => decide (x ≤ y)
  | .gt, some x, some y => decide (x > y)
  | .ge, some x, some y => decide (x ≥ y)
  | .isin, some x, _ => decide (x ∈ s)
  | .notin, some x, _ => decide (x ∉ s)
  | .ne, _, _ => true
  | .notin, _, _ => true
  | _, _, _ => false

/-- Meaning of a binary operator; the operators without an arithmetic meaning here are left to the
library. -/
def PyOp.sem (env : RowEnv) (op : PyOp) (a b : Option ℚ) : Option ℚ :=
  match op, a, b with
  | .add, some x, some y => some (x + y)
  | .sub, some x, some y => some (x - y)
  | .mul, some x, some y => some (x * y)
  | .div, some x, some y => if y = 0 then none else some (x / y)
  | .add, _, _ => none
  | .sub, _, _ => none
  | .mul, _, _ => none
  | .div, _, _ => none
  | .pow, a, b => env.fn "pow" [a, b]
  | .floordiv, a, b => env.fn "numpy.floor_divide" [a, b]
  | .mod, a, b => env.fn "fmod" [a, b]
  | .xor, a, b => env.fn "xor" [a, b]
  | .bitor, a, b => env.fn "|" [a, b]
  | .bitand, a, b => env.fn "&" [a, b]

/-- The elements of a set display. -/
def Py.elements : Py → List ℚ
  | .set l => l
  | .plus a => a.elements
  | _ => []

mutual
/-- The value of an expression on one row; `look` gives the value of a name. -/
def Py.val (env : RowEnv) (look : String → Option ℚ) : Py → Option ℚ
  | .num q => some q
  | .set _ => none
  | .name s => look s
  | .neg a => (Py.val env look a).map (fun x => -x)
  | .plus a => Py.val env look a
  | .invert a => env.fn "~" [Py.val env look a]
  | .bin op a b => op.sem env (Py.val env look a) (Py.val env look b)
  | .compare a ops cs => ofBool (Py.chain env look (Py.val env look a) ops cs)
  | .lnot a => ofBool (!truth (Py.val env look a))
  | .land l => ofBool ((Py.vals env look l).all truth)
  | .lor l => ofBool ((Py.vals env look l).any truth)
  | .call f args => env.fn f (Py.vals env look args)
/-- All comparisons of a chain hold. -/
def Py.chain (env : RowEnv) (look : String → Option ℚ) :
    Option ℚ → List PyCmp → List Py → Bool
  | l, op :: ops, c :: cs =>
    op.sem l (Py.val env look c) c.elements && Py.chain env look (Py.val env look c) ops cs
  | _, _, _ => true
/-- Values of a list of expressions. -/
def Py.vals (env : RowEnv) (look : String → Option ℚ) : List Py → List (Option ℚ)
  | [] => []
  | a :: as => Py.val env look a :: Py.vals env look as
end

/-- `pow` of the library computes integer powers of numbers. -/
def PowLaw (env : RowEnv) : Prop :=
  ∀ (x : ℚ) (n : ℤ), env.fn "pow" [some x, some (n : ℚ)] =
    if x = 0 ∧ n < 0 then none else some (x ^ n)

/-- Is it `<`, `<=`, `>` or `>=`? -/
def PyCmp.isOrder : PyCmp → Bool
  | .lt => true | .le => true | .gt => true | .ge => true | _ => false

/-- All operands of order comparisons in a chain have a value. -/
def ordDef : Option ℚ → List PyCmp → List (Option ℚ) → Prop
  | l, op :: ops, v :: vs =>
    (op.isOrder = true → l.isSome = true ∧ v.isSome = true) ∧ ordDef v ops vs
  | _, _, _ => True

mutual
/-- Every number that is computed on the way has a value (no division by zero, no missing
input). -/
def Py.AllDef (env : RowEnv) : Py → Prop
  | .num _ => True
  | .set _ => True
  | .name _ => True
  | .neg a => a.AllDef env ∧ (Py.val env env.field a).isSome = true
  | .plus a => a.AllDef env
  | .invert a => a.AllDef env
  | .bin op a b => a.AllDef env ∧ b.AllDef env ∧ (Py.val env env.field a).isSome = true ∧
      (Py.val env env.field b).isSome = true ∧ (Py.val env env.field (.bin op a b)).isSome = true
  | .compare a ops cs => a.AllDef env ∧ Py.AllDefL env cs ∧
      ordDef (Py.val env env.field a) ops (Py.vals env env.field cs)
  | .lnot a => a.AllDef env
  | .land l => Py.AllDefL env l
  | .lor l => Py.AllDefL env l
  | .call _ l => Py.AllDefL env l
/-- The same for all elements of a list. -/
def Py.AllDefL (env : RowEnv) : List Py → Prop
  | [] => True
  | a :: as => a.AllDef env ∧ Py.AllDefL env as
end

/-- Numbers combined by `+`, `-` and `*` only. -/
def Py.closed : Py → Bool
  | .num _ => true
  | .neg a => a.closed
  | .plus a => a.closed
  | .bin .add a b => a.closed && b.closed
  | .bin .sub a b => a.closed && b.closed
  | .bin .mul a b => a.closed && b.closed
  | _ => false

/-- The constant term, for the expressions described by `Py.divFree`. -/
def Py.constTerm : Py → ℚ
  | .num q => q
  | .neg a => -a.constTerm
  | .plus a => a.constTerm
  | .bin .add a b => a.constTerm + b.constTerm
  | .bin .sub a b => a.constTerm - b.constTerm
  | .bin .mul a b => a.constTerm * b.constTerm
  | .bin .pow a (.num q) => if q = 1 then a.constTerm else 0
  | _ => 0

/-- Expressions of which one sees at once that they are not constant. -/
def Py.nonConst : Py → Bool
  | .name _ => true
  | .call _ _ => true
  | .neg a => a.nonConst
  | .plus a => a.nonConst
  | .bin .floordiv _ _ => true
  | .bin .mod _ _ => true
  | .bin .xor _ _ => true
  | .bin .pow _ _ => true
  | .bin .add a b => (a.nonConst && b.closed) || (a.closed && b.nonConst)
  | .bin .sub a b => (a.nonConst && b.closed) || (a.closed && b.nonConst)
  | .bin .mul a b => (a.nonConst && b.closed && decide (b.constTerm ≠ 0)) ||
      (a.closed && b.nonConst && decide (a.constTerm ≠ 0))
  | _ => false

/-- An integer exponent between -4 and -1. -/
def negExp (q : ℚ) : Bool := decide (q.den = 1 ∧ -5 < q ∧ q ≤ -1)

mutual
/-- Arithmetic without `/` and without small negative powers, in which no two factors of a product
both have a constant term (unless both are numbers), and in which `**`, `//`, `%` and `^` are applied
to something that visibly depends on the row. -/
def Py.divFree (known : String → Bool) : Py → Bool
  | .num _ => true
  | .name _ => true
  | .neg a => a.divFree known
  | .plus a => a.divFree known
  | .bin .add a b => a.divFree known && b.divFree known
  | .bin .sub a b => a.divFree known && b.divFree known
  | .bin .mul a b => a.divFree known && b.divFree known &&
      ((a.closed && b.closed) || decide (a.constTerm * b.constTerm = 0))
  | .bin .pow a (.num q) => a.divFree known && a.nonConst && !negExp q
  | .bin .pow a b => a.divFree known && b.divFree known && b.nonConst
  | .bin .floordiv a b => a.divFree known && b.divFree known && (a.nonConst || b.nonConst)
  | .bin .mod a b => a.divFree known && b.divFree known && (a.nonConst || b.nonConst)
  | .bin .xor a b => a.divFree known && b.divFree known && (a.nonConst || b.nonConst)
  | .call f args => known f && Py.divFreeL known args
  | _ => false
/-- The same for all elements of a list. -/
def Py.divFreeL (known : String → Bool) : List Py → Bool
  | [] => true
  | a :: as => a.divFree known && Py.divFreeL known as
end

/-- A single factor that depends on the row, up to sign, a nonzero coefficient and an added number:
`x`, `sqrt(x + y)`, `-2*x`, `x + 1`. -/
def Py.oneFactor : Py → Bool
  | .name _ => true
  | .call _ _ => true
  | .bin .floordiv _ _ => true
  | .bin .mod _ _ => true
  | .bin .xor _ _ => true
  | .neg a => a.oneFactor
  | .plus a => a.oneFactor
  | .bin .add a b => (a.oneFactor && b.closed) || (a.closed && b.oneFactor)
  | .bin .sub a b => (a.oneFactor && b.closed) || (a.closed && b.oneFactor)
  | .bin .mul a b => (a.oneFactor && b.closed && decide (b.constTerm ≠ 0)) ||
      (a.closed && b.oneFactor && decide (a.constTerm ≠ 0))
  | _ => false

mutual
/-- Arithmetic with division by single factors and by numbers: sums, differences and functions of such
quotients; numerators may again contain quotients.  Products are as in `Py.divFree`. -/
def Py.safe (known : String → Bool) : Py → Bool
  | .num _ => true
  | .name _ => true
  | .neg a => a.safe known
  | .plus a => a.safe known
  | .bin .add a b => a.safe known && b.safe known
  | .bin .sub a b => a.safe known && b.safe known
  | .bin .div a b =>
    (a.safe known && b.divFree known && b.oneFactor) ||
    (a.divFree known && b.closed && decide (b.constTerm ≠ 0) && (a.closed || decide (a.constTerm = 0)))
  | .bin .mul a b => (Py.bin .mul a b).divFree known
  | .bin .pow a (.num q) => a.divFree known && a.nonConst
  | .bin .pow a b => (Py.bin .pow a b).divFree known
  | .bin .floordiv a b => (Py.bin .floordiv a b).divFree known
  | .bin .mod a b => (Py.bin .mod a b).divFree known
  | .bin .xor a b => (Py.bin .xor a b).divFree known
  | .call f args => known f && Py.safeL known args
  | _ => false
/-- The same for all elements of a list. -/
def Py.safeL (known : String → Bool) : List Py → Bool
  | [] => true
  | a :: as => a.safe known && Py.safeL known as
end

/-- A set display. -/
def Py.isSet : Py → Bool
  | .set _ => true
  | .plus a => a.isSet
  | _ => false

/-- The right-hand sides of a chain of comparisons: a set display after `in` and `not in`, arithmetic
without division otherwise; one operator for every right-hand side. -/
def chainClass (known : String → Bool) : List PyCmp → List Py → Bool
  | [], [] => true
  | op :: ops, c :: cs =>
    (match op with
      | .isin => c.isSet
      | .notin => c.isSet
      | _ => c.divFree known) && chainClass known ops cs
  | _, _ => false

mutual
/-- Conditions: comparisons of arithmetic without division, boolean fields, `and`, `or` and `not`. -/
def Py.condClass (known : String → Bool) : Py → Bool
  | .name _ => true
  | .compare a ops cs => a.divFree known && !ops.isEmpty && chainClass known ops cs
  | .lnot a => a.condClass known
  | .land l => !l.isEmpty && Py.condClassL known l
  | .lor l => !l.isEmpty && Py.condClassL known l
  | _ => false
/-- The same for all elements of a list. -/
def Py.condClassL (known : String → Bool) : List Py → Bool
  | [] => true
  | a :: as => a.condClass known && Py.condClassL known as
end

mutual
/-- The compound operands of comparisons have values (a plain field may be missing, as NaN); below an
odd number of `not` (`flag = false`) also the plain operands of `<`, `<=`, `>`, `>=` have values. -/
def Py.NaNSafe (env : RowEnv) : Bool → Py → Prop
  | flag, .compare a ops cs => a.AllDef env ∧ Py.AllDefL env cs ∧
      (flag = false → ordDef (Py.val env env.field a) ops (Py.vals env env.field cs))
  | flag, .lnot a => Py.NaNSafe env (!flag) a
  | flag, .land l => Py.NaNSafeL env flag l
  | flag, .lor l => Py.NaNSafeL env flag l
  | _, _ => True
/-- The same for all elements of a list. -/
def Py.NaNSafeL (env : RowEnv) : Bool → List Py → Prop
  | _, [] => True
  | flag, a :: as => Py.NaNSafe env flag a ∧ Py.NaNSafeL env flag as
end

end Verif
