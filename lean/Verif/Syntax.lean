import Verif.SpecSelectExpr

/-!
# Syntax that expressions do not support

Model of the end of `recurse` in `Expr.parse` (`/repo/histbook/expr.py` 307-326): calls with keyword
arguments, and every kind of node for which there is no branch (subscripts, attributes, conditional
expressions, lists, tuples, f-strings, lambdas, comprehensions …).  In the last branch an
`ExpressionError` is made but not raised, so that `recurse` returns `None`; the algebra treats `None`
like any other factor, and `totree` (`/repo/histbook/instr.py` 117-229) refuses it when a goal is made
of the expression.

Simplifications.  `None` is modelled as a field with a name behind all others: `__lt__` compares the
names of the classes (expr.py 542-545 and others), and `NoneType` comes after `Name` and before
`PlusMinus`.  Sorting two bare `None`s (`x[0]*x[1]`) is a `TypeError` in Python and an
`AssertionError` from `totree` in the model; a `None` as a condition is refused by `Logical.normalform`
(expr.py 934-935), in the model by `totree`, also with an `AssertionError`.
-/

namespace Verif

/-- Python's expression syntax with unsupported parts: `other i` is any subscript, attribute,
conditional expression, … ; `i` tells different ones apart. -/
inductive PySyn
  | num (q : ℚ)
  | set (l : List ℚ)
  | name (s : String)
  | neg (a : PySyn)
  | plus (a : PySyn)
  | invert (a : PySyn)
  | bin (op : PyOp) (a b : PySyn)
  | compare (a : PySyn) (ops : List PyCmp) (cs : List PySyn)
  | lnot (a : PySyn)
  | land (l : List PySyn)
  | lor (l : List PySyn)
  | call (f : String) (args : List PySyn) (keywords : List (String × PySyn))
  | other (i : ℕ)

/-- What stands for `None` in a parsed expression: a name behind every identifier. -/
def noneName : String := String.ofList [Char.ofNat 0x10FFFF]

mutual
/-- The syntax as `recurse` looks at it: an unsupported part becomes `None` (expr.py 323-324), the
keyword arguments of a call are not looked at (expr.py 321). -/
def PySyn.seen : PySyn → Py
  | .num q => .num q
  | .set l => .set l
  | .name s => .name s
  | .neg a => .neg a.seen
  | .plus a => .plus a.seen
  | .invert a => .invert a.seen
  | .bin op a b => .bin op a.seen b.seen
  | .compare a ops cs => .compare a.seen ops (PySyn.seenL cs)
  | .lnot a => .lnot a.seen
  | .land l => .land (PySyn.seenL l)
  | .lor l => .lor (PySyn.seenL l)
  | .call f args _ => .call f (PySyn.seenL args)
  | .other _ => .name noneName
/-- The same for all elements of a list. -/
def PySyn.seenL : List PySyn → List Py
  | [] => []
  | a :: as => a.seen :: PySyn.seenL as
end

/-- What becomes of an expression given to an axis or as a weight: `Expr.parse` (expr.py 76-328), then
`totree` in the goals of the histogram (instr.py 35-45 and 228-229), which refuses everything that still
contains a `None`. -/
def acceptExpr (sc : Scope) (s : PySyn) : Except Err E := do
  let e ← parseExpr sc s.seen
  if noneName ∈ e.names then .error .assertion else .ok e

end Verif
