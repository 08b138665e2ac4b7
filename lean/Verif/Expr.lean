import Verif.Num
import Mathlib.Data.List.Sort
import Mathlib.Algebra.Order.Ring.Rat
import Mathlib.Order.Compare

/-!
# Expressions: parsing and normal forms

Model of `/repo/histbook/expr.py`: the parsed expressions (`Const`, `Name`, `Call`, `BinOp`,
`TimesDiv`, `PlusMinus`, `LogicalAnd`, `LogicalOr`, `Relation`, `Predicate`), their order, the ring
algebra that brings sums and products into normal form, the logical algebra that brings conditions
into disjunctive normal form, and `Expr.parse` on the Python syntax tree.

Simplifications.  Numbers are exact rationals, and the types `int`, `float` and `bool` of a constant
are not distinguished (`Const(True) == Const(1)` holds in Python as well).  String constants and
`None` are left out.  Two constant sets are ordered lexicographically, where Python uses the
partial order "is a proper subset of".  Arithmetic with a set raises a `TypeError` in the model (in Python
the difference of two constant sets would be another set).
-/

namespace Verif

/-- The comparison of a `Relation` (expr.py 985-1025): `!=`, `<`, `<=`, `==`, `in`, `not in`. -/
inductive RelOp
  | ne | lt | le | eq | isin | notin
  deriving DecidableEq, Repr

/-- Position of the comparison in the order of the strings `"!="`, `"<"`, `"<="`, `"=="`, `"in"`,
`"not in"` (expr.py 1007 compares the strings). -/
def RelOp.rank : RelOp → ℕ
  | .ne => 0 | .lt => 1 | .le => 2 | .eq => 3 | .isin => 4 | .notin => 5

/-- Class and own data of an expression node: `BinOp` (expr.py 623), `Call` (592), `Const` (485) of a
number or of a set, `LogicalAnd` (949), `LogicalOr` (967), `Name` (519), `PlusMinus` (846),
`Predicate` (1027), `Relation` (985), `TimesDiv` (829). -/
inductive Head
  | binop (f : String)
  | call (f : String)
  | const (q : ℚ)
  | cset (l : List ℚ)
  | land
  | lor
  | name (s : String)
  | plus (c : ℚ)
  | pred (s : String) (positive : Bool)
  | rel (c : RelOp)
  | times (c : ℚ)
  deriving DecidableEq

/-- The class names in alphabetical order; the numbers come before the sets among the constants,
because the type names `float` and `int` come before `set` (expr.py 507-513). -/
def Head.rank : Head → ℕ
  | .binop _ => 0 | .call _ => 1 | .const _ => 2 | .cset _ => 3 | .land => 4 | .lor => 5
  | .name _ => 6 | .plus _ => 7 | .pred _ _ => 8 | .rel _ => 9 | .times _ => 10

/-- The numbers in a head. -/
def Head.nums : Head → List ℚ
  | .const q => [q] | .cset l => l | .plus c => [c] | .times c => [c] | _ => []

/-- The string in a head. -/
def Head.str : Head → String
  | .binop f => f | .call f => f | .name s => s | .pred s _ => s | _ => ""

/-- The remaining choice in a head. -/
def Head.flag : Head → ℕ
  | .pred _ b => if b then 1 else 0 | .rel c => c.rank | _ => 0

/-- First component of the comparison of two expressions: class names, then own data
(`__lt__` and `__eq__`, expr.py 504-513, 534-541, 608-615, 647-654, 1002-1009, 1046-1053). -/
def Head.cmp (a b : Head) : Ordering :=
  (compare a.rank b.rank).then
    ((compare a.nums b.nums).then ((compare a.str b.str).then (compare a.flag b.flag)))

/-- A parsed expression.  The children are the arguments of a call, of a logical operation or
`[left, right]` of a relation (all in `pos`), or the two lists of a `TimesDiv` or a `PlusMinus`. -/
inductive E
  | node (h : Head) (pos neg : List E)

/-- The head of a node. -/
def E.head : E → Head | .node h _ _ => h

/-- The first list of children (`args`, `pos`). -/
def E.args : E → List E | .node _ p _ => p

/-- The second list of children (`neg`). -/
def E.negs : E → List E | .node _ _ n => n

/-- `Const(q)` (expr.py 485). -/
abbrev E.const (q : ℚ) : E := .node (.const q) [] []

/-- `Name(s)` (expr.py 519). -/
abbrev E.name (s : String) : E := .node (.name s) [] []

mutual
/-- Comparison of two expressions: class name, own data, then the tuples of children one after the
other, as Python compares tuples (expr.py 608-615, 647-654, 913-920, 1002-1009). -/
def E.cmp : E → E → Ordering
  | .node h p n, .node h' p' n' => (h.cmp h').then ((E.cmpL p p').then (E.cmpL n n'))
/-- Comparison of two tuples of expressions. -/
def E.cmpL : List E → List E → Ordering
  | [], [] => .eq
  | [], _ :: _ => .lt
  | _ :: _, [] => .gt
  | x :: xs, y :: ys => (E.cmp x y).then (E.cmpL xs ys)
end

/-- `a <= b` (`Expr.__le__`, expr.py 65-66). -/
def E.le (a b : E) : Prop := E.cmp a b ≠ .gt

instance : DecidableRel E.le := fun a b => inferInstanceAs (Decidable (E.cmp a b ≠ .gt))

/-- `a == b`. -/
def E.same (a b : E) : Bool := E.cmp a b == .eq

/-- `sorted(...)` on expressions. -/
def sortE (l : List E) : List E := l.insertionSort E.le

/-! ## Products: `TimesDiv` -/

/-- A `TimesDiv(const, pos, neg)` (expr.py 829-844). -/
structure Mono where
  c : ℚ
  pos : List E
  neg : List E

/-- The `TimesDiv` as an expression. -/
def Mono.toE (m : Mono) : E := .node (.times m.c) m.pos m.neg

/-- `TimesDiv.normalform` (`RingAlgebraMultLike.normalform`, expr.py 689-696). -/
def E.asMono : E → Mono
  | .node (.times c) p n => ⟨c, p, n⟩
  | .node (.const q) _ _ => ⟨q, [], []⟩
  | e => ⟨1, [e], []⟩

/-- `TimesDiv.combine` (`RingAlgebra.combine`, expr.py 667-678, with `TimesDiv.calcval`, 843). -/
def Mono.combine (l r : Mono) : Mono :=
  ⟨l.c * r.c, sortE (l.pos ++ r.pos), sortE (l.neg ++ r.neg)⟩

/-- `TimesDiv.negate` (`RingAlgebra.negate`, expr.py 658-661, with `TimesDiv.negateval`, 839):
`1.0/const` raises for a zero constant. -/
def Mono.inv (m : Mono) : Except Err Mono :=
  if m.c = 0 then .error .zeroDivision else .ok ⟨1 / m.c, m.neg, m.pos⟩

/-- Position of the first equal element (`tuple.index`). -/
def findE (y : E) : List E → Option ℕ
  | [] => none
  | x :: xs => if E.same x y then some 0 else (findE y xs).map (· + 1)

/-- The loop of `cancel` (expr.py 724-731): the position is looked up in the original tuple, and the
deletion happens in the list that has already become shorter. -/
def cancelLoop (orig : List E) : List E → List E → List E → Except Err (List E × List E)
  | [], pos, neg => .ok (pos, neg)
  | y :: ys, pos, neg =>
    match findE y orig with
    | none => cancelLoop orig ys pos (neg ++ [y])
    | some i => if i < pos.length then cancelLoop orig ys (pos.eraseIdx i) neg else .error .indexError

/-- `cancel(x)` inside `RingAlgebraAddLike.collect` (expr.py 722-732). -/
def Mono.cancel (m : Mono) : Except Err Mono :=
  (cancelLoop m.pos m.neg m.pos []).map fun r => ⟨m.c, r.1, r.2⟩

/-- `cmpL a b == .eq`, equality of tuples. -/
def sameL (a b : List E) : Bool := E.cmpL a b == .eq

/-- `RingAlgebraMultLike.similar` (expr.py 698-699). -/
def Mono.similar (x y : Mono) : Bool := sameL x.pos y.pos && sameL x.neg y.neg

/-! ## Sums: `PlusMinus` -/

/-- A `PlusMinus(const, pos, neg)` (expr.py 846-867); the terms are always `TimesDiv`. -/
structure Poly where
  c : ℚ
  pos : List Mono
  neg : List Mono

/-- The `PlusMinus` as an expression. -/
def Poly.toE (p : Poly) : E := .node (.plus p.c) (p.pos.map Mono.toE) (p.neg.map Mono.toE)

/-- The part of `RingAlgebraAddLike.normalform` that starts from a product (expr.py 708-715). -/
def Mono.asPoly (m : Mono) : Poly :=
  if m.pos = [] ∧ m.neg = [] then ⟨m.c, [], []⟩
  else if m.c < 0 then ⟨0, [], [⟨-m.c, m.pos, m.neg⟩]⟩
  else ⟨0, [m], []⟩

/-- `PlusMinus.normalform` (`RingAlgebraAddLike.normalform`, expr.py 704-715). -/
def E.asPoly : E → Poly
  | .node (.plus c) p n => ⟨c, p.map E.asMono, n.map E.asMono⟩
  | e => e.asMono.asPoly

/-- `PlusMinus.negate` (`RingAlgebra.negate`, expr.py 658-661, with `PlusMinus.negateval`, 857). -/
def Poly.negate (p : Poly) : Poly := ⟨-p.c, p.neg, p.pos⟩

/-- Merging a term with a similar one (expr.py 740-745, 753-758). -/
def mergeTerm (x : Mono) : List Mono → List Mono
  | [] => [x]
  | y :: ys => if x.similar y then ⟨x.c + y.c, y.pos, y.neg⟩ :: ys else y :: mergeTerm x ys

/-- One round of the loops of `collect` after cancelling (expr.py 736-745 and 749-758). -/
def addTerm (acc : ℚ × List Mono) (x : Mono) : ℚ × List Mono :=
  if x.c = 0 then acc
  else if x.pos = [] ∧ x.neg = [] then (acc.1 + x.c, acc.2)
  else (acc.1, mergeTerm x acc.2)

/-- `TimesDiv` terms are sorted as expressions. -/
def Mono.le (a b : Mono) : Prop := E.le a.toE b.toE

instance : DecidableRel Mono.le := fun a b => inferInstanceAs (Decidable (E.le a.toE b.toE))

/-- `posterms.sort()` and `negterms.sort()` (expr.py 770-772). -/
def sortM (l : List Mono) : List Mono := l.insertionSort Mono.le

/-- The opposite coefficient. -/
def Mono.opp (m : Mono) : Mono := ⟨-m.c, m.pos, m.neg⟩

/-- The end of `collect` (expr.py 760-774): terms with a zero coefficient vanish, negative ones go to
the negative side. -/
def splitTerms (c : ℚ) (terms : List Mono) : Poly :=
  ⟨c, sortM (terms.filter fun x => 0 < x.c), sortM ((terms.filter fun x => x.c < 0).map Mono.opp)⟩

/-- `RingAlgebraAddLike.collect` (expr.py 717-774). -/
def Poly.collect (p : Poly) : Except Err Poly := do
  let ps ← p.pos.mapM Mono.cancel
  let ns ← p.neg.mapM Mono.cancel
  let a := ps.foldl addTerm (p.c, [])
  let b := (ns.map Mono.opp).foldl addTerm a
  .ok (splitTerms b.1 b.2)

/-- `PlusMinus.combine` (`RingAlgebra.combine`, expr.py 667-678). -/
def Poly.combine (l r : Poly) : Except Err Poly :=
  Poly.collect ⟨l.c + r.c, sortM (l.pos ++ r.pos), sortM (l.neg ++ r.neg)⟩

/-- All products of two lists of terms (`itertools.product`, expr.py 787-790). -/
def prods (l r : List Mono) : List Mono := l.flatMap fun x => r.map fun y => x.combine y

/-- All terms times a constant (expr.py 782-785). -/
def scale (c : ℚ) (l : List Mono) : List Mono := l.map fun x => x.combine ⟨c, [], []⟩

/-- `PlusMinus.distribute` (`RingAlgebraAddLike.distribute`, expr.py 777-792).  The product of the
two constants does not appear. -/
def Poly.distribute (l r : Poly) : Except Err Poly :=
  Poly.collect
    ⟨0, scale r.c l.pos ++ scale l.c r.pos ++ prods l.pos r.pos ++ prods l.neg r.neg,
        scale r.c l.neg ++ scale l.c r.neg ++ prods l.pos r.neg ++ prods l.neg r.pos⟩

/-- The end of `simplify` for a single product (expr.py 806-811). -/
def Mono.simplify (m : Mono) : E :=
  match m.pos, m.neg with
  | [], [] => E.const m.c
  | [e], [] => if m.c = 1 then e else m.toE
  | _, _ => m.toE

/-- `RingAlgebraAddLike.simplify` (expr.py 794-811). -/
def Poly.simplify (p : Poly) : E :=
  match p.pos, p.neg with
  | [], [] => E.const p.c
  | [m], [] => if p.c = 0 then m.simplify else p.toE
  | [], [m] => if p.c = 0 then m.opp.simplify else p.toE
  | _, _ => p.toE

/-! ## Logic -/

/-- `sorted(set(args))` (`Logical.__init__`, expr.py 904-905): first one of each group of equal
elements, then sorted. -/
def sortU (l : List E) : List E :=
  sortE (l.foldr (fun x acc => if acc.any (E.same x) then acc else x :: acc) [])

/-- `LogicalAnd(*args)` (expr.py 949). -/
def mkAnd (l : List E) : E := .node .land (sortU l) []

/-- `LogicalOr(*args)` (expr.py 967). -/
def mkOr (l : List E) : E := .node .lor (sortU l) []

/-- `Logical.normalform` (expr.py 922-935): constants, calls and arithmetic are refused. -/
def E.asOr : E → Except Err E
  | .node (.name s) _ _ => .ok (mkOr [mkAnd [.node (.pred s true) [] []]])
  | .node (.pred s b) p n => .ok (mkOr [mkAnd [.node (.pred s b) p n]])
  | .node (.rel c) p n => .ok (mkOr [mkAnd [.node (.rel c) p n]])
  | .node .land p n => .ok (mkOr [.node .land p n])
  | .node .lor p n => .ok (.node .lor p n)
  | _ => .error .assertion

/-- `Relation.negate` (expr.py 1011-1025) and `Predicate.negate` (1055-1056); nothing else occurs in a
`LogicalAnd`. -/
def E.negLit : E → E
  | .node (.rel .eq) p n => .node (.rel .ne) p n
  | .node (.rel .ne) p n => .node (.rel .eq) p n
  | .node (.rel .lt) p n => .node (.rel .le) p.reverse n
  | .node (.rel .le) p n => .node (.rel .lt) p.reverse n
  | .node (.rel .isin) p n => .node (.rel .notin) p n
  | .node (.rel .notin) p n => .node (.rel .isin) p n
  | .node (.pred s b) p n => .node (.pred s !b) p n
  | e => e

/-- `itertools.product(*lists)`. -/
def cartesian : List (List E) → List (List E)
  | [] => [[]]
  | l :: ls => l.flatMap fun x => (cartesian ls).map (x :: ·)

/-- `Logical.negate` on a normal form (expr.py 937-941). -/
def negateOr (e : E) : E := mkOr ((cartesian (e.args.map fun a => a.args.map E.negLit)).map mkAnd)

/-- `LogicalAnd.combine` on normal forms (expr.py 952-955). -/
def andCombine (l r : E) : E :=
  mkOr (l.args.flatMap fun x => r.args.map fun y => mkAnd (x.args ++ y.args))

/-- `LogicalOr.combine` on normal forms (expr.py 970-973). -/
def orCombine (l r : E) : E := mkOr (l.args ++ r.args)

/-- `LogicalAnd.simplify` (expr.py 957-965). -/
def andSimplify (e : E) : E :=
  if e.args.all (E.same (E.const 1)) then E.const 1
  else if e.args.any (E.same (E.const 0)) then E.const 0
  else match e.args with
    | [x] => x
    | _ => e

/-- `LogicalOr.simplify` (expr.py 975-983). -/
def orSimplify (e : E) : E :=
  if e.args.all (E.same (E.const 0)) then E.const 0
  else if e.args.any (E.same (E.const 1)) then E.const 1
  else match e.args with
    | [x] => andSimplify x
    | _ => e

/-! ## The Python syntax tree -/

/-- Binary operators of Python that `parse` knows (expr.py 232-241). -/
inductive PyOp
  | add | sub | mul | div | floordiv | mod | pow | bitor | bitand | xor
  deriving DecidableEq, Repr

/-- Comparison operators of Python (expr.py 166-173). -/
inductive PyCmp
  | eq | ne | lt | le | gt | ge | isin | notin
  deriving DecidableEq, Repr

/-- The part of Python's expression syntax that is modelled: numbers (also `True` and `False`), sets
of numbers, names, unary and binary operators, comparisons (chained when there are several
operators), `not`, `and`, `or` and calls of a function by its canonical name. -/
inductive Py
  | num (q : ℚ)
  | set (l : List ℚ)
  | name (s : String)
  | neg (a : Py)
  | plus (a : Py)
  | invert (a : Py)
  | bin (op : PyOp) (a b : Py)
  | compare (a : Py) (ops : List PyCmp) (cs : List Py)
  | lnot (a : Py)
  | land (l : List Py)
  | lor (l : List Py)
  | call (f : String) (args : List Py)

/-- Is it a `Const`? -/
def E.constVal : E → Option ℚ
  | .node (.const q) _ _ => some q
  | _ => none

/-- Is it a `Const` that holds a set? -/
def E.setOf : E → Option (List ℚ)
  | .node (.cset l) _ _ => some l
  | _ => none

/-- `sorted([left, right])` (expr.py 181-182). -/
def sort2 (l r : E) : E × E := if E.cmp r l = .lt then (r, l) else (l, r)

/-- The single comparison (expr.py 165-187). -/
def mkRel (op : PyCmp) (l r : E) : Except Err E :=
  match op with
  | .eq => .ok (.node (.rel .eq) [(sort2 l r).1, (sort2 l r).2] [])
  | .ne => .ok (.node (.rel .ne) [(sort2 l r).1, (sort2 l r).2] [])
  | .lt => .ok (.node (.rel .lt) [l, r] [])
  | .le => .ok (.node (.rel .le) [l, r] [])
  | .gt => .ok (.node (.rel .lt) [r, l] [])
  | .ge => .ok (.node (.rel .le) [r, l] [])
  | .isin => if r.setOf.isSome then .ok (.node (.rel .isin) [l, r] []) else .error .expression
  | .notin => if r.setOf.isSome then .ok (.node (.rel .notin) [l, r] []) else .error .expression

/-- `functools.reduce(combine, [...])` on a nonempty list (expr.py 203, 206); reducing an empty list
raises a `TypeError`. -/
def reduceE (f : E → E → E) : List E → Except Err E
  | [] => .error .typeError
  | x :: xs => .ok (xs.foldl f x)

/-- The unsigned integer that `numpy.uint64` makes of a constant. -/
def toU64 (q : ℚ) : ℕ := ((if 0 ≤ q then ⌊q⌋ else ⌈q⌉) % 2 ^ 64).toNat

/-- `calculate[fcn](left.value, right.value)` on constants (expr.py 106-115, 248-249).  The operators
`//`, `%`, `**` and `^` are looked up under the name of the function instead of the operator. -/
def foldConst (op : PyOp) (a b : ℚ) : Except Err E :=
  match op with
  | .add => .ok (E.const (a + b))
  | .sub => .ok (E.const (a - b))
  | .mul => .ok (E.const (a * b))
  | .div => if b = 0 then .error .zeroDivision else .ok (E.const (a / b))
  | .bitor => .ok (E.const ((toU64 a ||| toU64 b : ℕ) : ℚ))
  | .bitand => .ok (E.const ((toU64 a &&& toU64 b : ℕ) : ℚ))
  | .floordiv => .error .keyError
  | .mod => .error .keyError
  | .pow => .error .keyError
  | .xor => .error .keyError

/-- `calculate[fcn](left.value, right.value)` when one of the constants is a set (expr.py 106-115,
248-249). -/
def foldSet (op : PyOp) : Err :=
  match op with
  | .floordiv => .keyError
  | .mod => .keyError
  | .pow => .keyError
  | .xor => .keyError
  | _ => .typeError

/-- The `negation` in the branch for `/` (expr.py 258-269). -/
def reciprocal (r : Poly) : Except Err Mono :=
  match r.pos, r.neg with
  | [], [] => if r.c = 0 then .error .zeroDivision else .ok ⟨1 / r.c, [], []⟩
  | [m], [] => if r.c = 0 then m.inv else .ok ⟨1, [], [r.toE]⟩
  | [], [m] => if r.c = 0 then m.inv.map Mono.opp else .ok ⟨1, [], [r.toE]⟩
  | _, _ => .ok ⟨1, [], [r.toE]⟩

/-- `tuple * n`. -/
def repeatL (n : ℕ) (l : List E) : List E := (List.replicate n l).flatten

/-- The `n`-th power of a product (expr.py 276-281). -/
def Mono.powN (m : Mono) (n : ℕ) : Mono :=
  ⟨m.c ^ n, sortE (repeatL n m.pos), sortE (repeatL n m.neg)⟩

/-- The branch for a small positive integer exponent (expr.py 273-283). -/
def powPos (l : Poly) (n : ℕ) : E :=
  match l.pos, l.neg with
  | [m], [] =>
    if l.c = 0 then Poly.simplify ⟨0, [m.powN n], []⟩
    else Poly.simplify ⟨0, [⟨1, List.replicate n l.toE, []⟩], []⟩
  | [], [m] =>
    if l.c = 0 then
      if n % 2 = 0 then Poly.simplify ⟨0, [m.powN n], []⟩ else Poly.simplify ⟨0, [], [m.powN n]⟩
    else Poly.simplify ⟨0, [⟨1, List.replicate n l.toE, []⟩], []⟩
  | _, _ => Poly.simplify ⟨0, [⟨1, List.replicate n l.toE, []⟩], []⟩

/-- The `-n`-th power of a product (expr.py 288-293); `0**(-n)` raises. -/
def Mono.powNegN (m : Mono) (n : ℕ) : Except Err Mono :=
  if m.c = 0 then .error .zeroDivision
  else .ok ⟨1 / m.c ^ n, sortE (repeatL n m.neg), sortE (repeatL n m.pos)⟩

/-- The branch for a small negative integer exponent `-n` (expr.py 285-295). -/
def powNeg (l : Poly) (n : ℕ) : Except Err E :=
  match l.pos, l.neg with
  | [m], [] =>
    if l.c = 0 then (m.powNegN n).map fun m' => Poly.simplify ⟨0, [m'], []⟩
    else .ok (Poly.simplify ⟨0, [⟨1, [], List.replicate n l.toE⟩], []⟩)
  | [], [m] =>
    if l.c = 0 then
      (m.powNegN n).map fun m' =>
        if n % 2 = 0 then Poly.simplify ⟨0, [m'], []⟩ else Poly.simplify ⟨0, [], [m']⟩
    else .ok (Poly.simplify ⟨0, [⟨1, [], List.replicate n l.toE⟩], []⟩)
  | _, _ => .ok (Poly.simplify ⟨0, [⟨1, [], List.replicate n l.toE⟩], []⟩)

/-- The name of the function behind an operator that stays a `BinOp` (expr.py 236-241). -/
def PyOp.fcn : PyOp → String
  | .floordiv => "numpy.floor_divide" | .mod => "fmod" | .pow => "pow" | .xor => "xor"
  | .add => "+" | .sub => "-" | .mul => "*" | .div => "/" | .bitor => "|" | .bitand => "&"

/-- A `BinOp` (expr.py 303-304). -/
def mkBinOp (op : PyOp) (l r : E) : E := .node (.binop op.fcn) [l, r] []

/-- `**` when the base is not constant (expr.py 273-295, 303-304). -/
def binPow (l r : E) : Except Err E :=
  match r.constVal with
  | none => if r.setOf.isSome then .error .typeError else .ok (mkBinOp .pow l r)
  | some q =>
    if q.den = 1 ∧ 1 ≤ q ∧ q < 5 then .ok (powPos l.asPoly q.num.toNat)
    else if q.den = 1 ∧ -5 < q ∧ q ≤ -1 then powNeg l.asPoly (-q.num).toNat
    else .ok (mkBinOp .pow l r)

/-- The branch for binary operators after both operands are parsed (expr.py 248-304). -/
def binary (op : PyOp) (l r : E) : Except Err E :=
  match l.constVal, r.constVal with
  | some a, some b => foldConst op a b
  | _, _ =>
    if (l.constVal.isSome || l.setOf.isSome) && (r.constVal.isSome || r.setOf.isSome) then
      .error (foldSet op)
    else
    match op with
    | .add =>
      if l.setOf.isSome ∨ r.setOf.isSome then .error .typeError
      else (l.asPoly.combine r.asPoly).map Poly.simplify
    | .sub =>
      if l.setOf.isSome ∨ r.setOf.isSome then .error .typeError
      else (l.asPoly.combine r.asPoly.negate).map Poly.simplify
    | .mul =>
      if l.setOf.isSome ∨ r.setOf.isSome then .error .typeError
      else (l.asPoly.distribute r.asPoly).map Poly.simplify
    | .div =>
      if l.setOf.isSome ∨ r.setOf.isSome then .error .typeError
      else do
        let m ← reciprocal r.asPoly
        (l.asPoly.distribute m.asPoly).map Poly.simplify
    | .pow => binPow l r
    | .bitand => .error .notImplemented
    | .bitor => .error .notImplemented
    | .floordiv => .ok (mkBinOp .floordiv l r)
    | .mod => .ok (mkBinOp .mod l r)
    | .xor => .ok (mkBinOp .xor l r)

/-- `-content` (expr.py 211-216). -/
def unaryMinus (e : E) : Except Err E :=
  match e.constVal with
  | some q => .ok (E.const (-q))
  | none => if e.setOf.isSome then .error .typeError else .ok e.asPoly.negate.simplify

/-- `~content` (expr.py 221-226): there is no `BitAnd`. -/
def unaryInvert (e : E) : Except Err E :=
  match e.constVal with
  | some q => if q.den = 1 then .ok (E.const (-q - 1)) else .error .typeError
  | none => if e.setOf.isSome then .error .typeError else .error .nameError

/-- `not content` (expr.py 195-200). -/
def logicalNot (e : E) : Except Err E :=
  match e with
  | .node (.name s) _ _ => .ok (.node (.pred s false) [] [])
  | e => do
    let o ← e.asOr
    .ok (orSimplify (negateOr o))

/-- What `parse` is given besides the expression: the functions it recognises (expr.py 333-440) and
the definitions (`_defs`, expr.py 89-102). -/
structure Scope where
  known : String → Bool
  defs : String → Option E

mutual
/-- `recurse(node, relations)` of `Expr.parse` (expr.py 126-326). -/
def Py.parse (sc : Scope) : Bool → Py → Except Err E
  | _, .num q => .ok (E.const q)
  | _, .set l => .ok (.node (.cset (l.dedup.insertionSort (· ≤ ·))) [] [])
  | _, .name s => .ok ((sc.defs s).getD (E.name s))
  | _, .neg a => do unaryMinus (← Py.parse sc false a)
  | _, .plus a => Py.parse sc false a
  | _, .invert a => do unaryInvert (← Py.parse sc false a)
  | _, .bin op a b => do
    let l ← Py.parse sc false a
    let r ← Py.parse sc false b
    binary op l r
  | true, .compare a ops cs => do
    let l ← Py.parse sc false a
    let rels ← Py.parseChain sc l ops cs
    match rels with
    | [r] => .ok r
    | rs => do
      let os ← rs.mapM E.asOr
      (reduceE andCombine os).map orSimplify
  | false, .compare _ _ _ => .error .expression
  | true, .lnot a => do logicalNot (← Py.parse sc true a)
  | false, .lnot _ => .error .expression
  | true, .land l => do (reduceE andCombine (← Py.parseOrs sc l)).map orSimplify
  | false, .land _ => .error .expression
  | true, .lor l => do (reduceE orCombine (← Py.parseOrs sc l)).map orSimplify
  | false, .lor _ => .error .expression
  | _, .call f args =>
    if sc.known f then do
      let as ← Py.parseArgs sc (f = "where") args
      .ok (.node (.call f) as [])
    else .error .expression
/-- The single comparisons of a chain, the first with left operand `l` (expr.py 189-190 turns the
chain into an `and` of single comparisons; the operand in the middle is parsed twice to the same
result). -/
def Py.parseChain (sc : Scope) : E → List PyCmp → List Py → Except Err (List E)
  | l, op :: ops, c :: cs => do
    let r ← Py.parse sc false c
    let x ← mkRel op l r
    let xs ← Py.parseChain sc r ops cs
    .ok (x :: xs)
  | _, _, _ => .ok []
/-- The operands of `and` and `or` in normal form (expr.py 203, 206). -/
def Py.parseOrs (sc : Scope) : List Py → Except Err (List E)
  | [] => .ok []
  | a :: as => do
    let e ← Py.parse sc true a
    let o ← e.asOr
    let os ← Py.parseOrs sc as
    .ok (o :: os)
/-- The arguments of a call; only the first argument of `where` may be a condition
(expr.py 321). -/
def Py.parseArgs (sc : Scope) : Bool → List Py → Except Err (List E)
  | _, [] => .ok []
  | rel, a :: as => do
    let e ← Py.parse sc rel a
    let es ← Py.parseArgs sc false as
    .ok (e :: es)
end

/-- `Expr.parse(expression, defs)` (expr.py 76-328). -/
def parseExpr (sc : Scope) (s : Py) : Except Err E := Py.parse sc true s

/-! ## Values -/

/-- Values of the fields of one row and the meaning of the library functions.  `none` stands for a
value that is not a number. -/
structure RowEnv where
  field : String → Option ℚ
  fn : String → List (Option ℚ) → Option ℚ

/-- A truth value as a number. -/
def ofBool (b : Bool) : Option ℚ := some (if b then 1 else 0)

/-- NumPy's truth value of a number (NaN counts as true). -/
def truth (v : Option ℚ) : Bool := decide (v ≠ some 0)

/-- Product of values. -/
def prodO : List (Option ℚ) → Option ℚ
  | [] => some 1
  | v :: vs => do return (← v) * (← prodO vs)

/-- Sum of values. -/
def sumO : List (Option ℚ) → Option ℚ
  | [] => some 0
  | v :: vs => do return (← v) + (← sumO vs)

/-- Quotient of values, undefined for a zero denominator. -/
def divO (a b : Option ℚ) : Option ℚ := do
  let x ← a
  let y ← b
  if y = 0 then none else some (x / y)

/-- IEEE comparison of two values; `in` looks into the set. -/
def RelOp.holds (c : RelOp) (a b : Option ℚ) (s : Option (List ℚ)) : Bool :=
  match c with
  | .eq => match a, b with | some x, some y => decide (x = y) | _, _ => false
  | .ne => match a, b with | some x, some y => decide (x ≠ y) | _, _ => true
  | .lt => match a, b with | some x, some y => decide (x < y) | _, _ => false
  | .le => match a, b with | some x, some y => decide (x ≤ y) | _, _ => false
  | .isin => match a, s with | some x, some l => decide (x ∈ l) | _, _ => false
  | .notin => match a, s with | some x, some l => decide (x ∉ l) | _, _ => true

/-- Meaning of one node, given the values of its children and the set on its right. -/
def Head.apply (env : RowEnv) (h : Head) (p n : List (Option ℚ)) (s : Option (List ℚ)) : Option ℚ :=
  match h with
  | .binop f => env.fn f p
  | .call f => env.fn f p
  | .const q => some q
  | .cset _ => none
  | .land => ofBool (p.all truth)
  | .lor => ofBool (p.any truth)
  | .name x => env.field x
  | .plus c => do return c + (← sumO p) - (← sumO n)
  | .pred x b => ofBool (truth (env.field x) == b)
  | .rel c => match p with | [l, r] => ofBool (c.holds l r s) | _ => none
  | .times c => do return c * (← divO (← prodO p) (← prodO n))

mutual
/-- The value that the classes of expr.py stand for (their `__str__`: 602, 630, 816-827,
996, 1037). -/
def E.eval (env : RowEnv) : E → Option ℚ
  | .node h p n => h.apply env (E.evalL env p) (E.evalL env n) (p.findSome? E.setOf)
/-- Values of a list of expressions. -/
def E.evalL (env : RowEnv) : List E → List (Option ℚ)
  | [] => []
  | x :: xs => E.eval env x :: E.evalL env xs
end

end Verif
