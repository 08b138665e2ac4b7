import Verif.GroupSel
import Verif.Goals
import Verif.NumArith

/-!
# `select` with a boolean expression

Mirrors `Projectable.select` and `Projectable._select` of `/repo/histbook/proj.py:288-458` from the parsed
expression to the new histogram: constants, the side of a comparison that is a constant, the search for an
axis that can select, the comparisons of an "and" one after the other, and the exceptions.

Simplifications.  `True` and `False` are the numbers 1 and 0 in parsed expressions (`Verif.Expr`); `asBool`
says whether such a constant on one side of a comparison was written as a truth value.  String constants are
left out.  Two axes of one histogram are two objects, so that the axis found is one position.
-/

namespace Verif

/-! ## constants -/

/-- A number as a constant. -/
def Num.toSel : Num → SelVal
  | .fin q => .key (.num q)
  | .pinf => .key .pinf
  | .ninf => .key .ninf
  | .nan => .nan

/-- The number of a constant that takes part in arithmetic; a set or a string does not. -/
def SelVal.toNumE : SelVal → Except Err Num
  | .key (.num q) => .ok (.fin q)
  | .key .pinf => .ok .pinf
  | .key .ninf => .ok .ninf
  | .key (.str _) => .error .typeError
  | .nan => .ok .nan
  | .set _ => .error .typeError

/-- `out -= value`. -/
def Num.subE (x y : Num) : Except Err Num := .ok (x + Num.fin (-1) * y)

/-- `out /= value`: Python raises for a zero. -/
def Num.divE (x y : Num) : Except Err Num :=
  match y with
  | .fin q => if q = 0 then .error .zeroDivision else .ok (x * Num.fin (1 / q))
  | .nan => .ok .nan
  | _ =>
    match x with
    | .fin _ => .ok (.fin 0)
    | _ => .ok .nan

/-- expr.py:328-331 `maybeconstants`; the numbers are those of the type `float`. -/
def maybeconstants (s : String) : Option Num :=
  if s = "pi" ∨ s = "Pi" then some (.fin (884279719003555 / 2 ^ 48))
  else if s = "e" ∨ s = "E" then some (.fin (6121026514868073 / 2 ^ 51))
  else if s = "inf" ∨ s = "Inf" ∨ s = "infinity" ∨ s = "Infinity" then some .pinf
  else if s = "nan" ∨ s = "NaN" ∨ s = "Nan" then some .nan
  else none

mutual
/-- proj.py:324-355 `asconst`; `mc` is `Expr.maybeconstants` (expr.py:328-331). -/
def asconst (mc : String → Option Num) : E → Except Err (Option SelVal)
  | .node h p n =>
    match h with
    | .const q => .ok (some (.key (.num q)))
    | .cset l => .ok (some (.set (l.map .num)))
    | .name s => .ok ((mc s).map Num.toSel)
    | .plus c =>
      match asconstL mc (fun x y => .ok (x + y)) p (.fin c) with
      | .error e => .error e
      | .ok none => .ok none
      | .ok (some x) => asconstEnd (asconstL mc Num.subE n x)
    | .times c =>
      match asconstL mc (fun x y => .ok (x * y)) p (.fin c) with
      | .error e => .error e
      | .ok none => .ok none
      | .ok (some x) => asconstEnd (asconstL mc Num.divE n x)
    | _ => .ok none
/-- proj.py:333-342, 345-354: one of the loops over the terms or factors; it stops at the first that is not
a constant. -/
def asconstL (mc : String → Option Num) (op : Num → Num → Except Err Num) : List E → Num → Except Err (Option Num)
  | [], x => .ok (some x)
  | e :: es, x =>
    match asconst mc e with
    | .error er => .error er
    | .ok none => .ok none
    | .ok (some v) =>
      match v.toNumE with
      | .error er => .error er
      | .ok w =>
        match op x w with
        | .error er => .error er
        | .ok y => asconstL mc op es y
/-- `histbook.expr.Const(out)`. -/
def asconstEnd : Except Err (Option Num) → Except Err (Option SelVal)
  | .error e => .error e
  | .ok none => .ok none
  | .ok (some x) => .ok (some x.toSel)
end

/-! ## comparisons -/

/-- The comparison of a `Relation` (expr.py:985). -/
def RelOp.toCmp : RelOp → Cmp
  | .ne => .ne | .lt => .lt | .le => .le | .eq => .eq | .isin => .isin | .notin => .notin

/-- proj.py:362 `{"<": ">", "<=": ">="}.get(cutcmp, cutcmp)`. -/
def Cmp.flip : Cmp → Cmp
  | .lt => .gt | .le => .ge | c => c

/-- `cutexpr, cutcmp, cutvalue`; a `cutvalue` that is `True` or `False` is given as a number and as a truth
value. -/
structure CutArg where
  expr : E
  cmp : Cmp
  value : SelVal
  bool : Option Bool

/-- The constant of a comparison as a truth value, if it is one. -/
def SelVal.asBool (asBool : Bool) : SelVal → Option Bool
  | .key (.num q) => if asBool = true ∧ q = 0 then some false else if asBool = true ∧ q = 1 then some true else none
  | _ => none

/-- `cutvalue = True`. -/
def cutTrue (e : E) (cmp : Cmp) : CutArg := ⟨e, cmp, .key (.num 1), some true⟩

/-- proj.py:357-384 `normalizeexpr`. -/
def normalizeexpr (mc : String → Option Num) (asBool : Bool) : E → Except Err CutArg
  | .node (.rel op) [l, r] _ =>
    match asconst mc l, asconst mc r with
    | .error e, _ => .error e
    | _, .error e => .error e
    | .ok (some v), .ok none => .ok ⟨r, op.toCmp.flip, v, v.asBool asBool⟩
    | .ok none, .ok (some v) => .ok ⟨l, op.toCmp, v, v.asBool asBool⟩
    | .ok (some _), .ok (some _) => .error .typeError
    | .ok none, .ok none => .error .typeError
  | .node (.pred s positive) _ _ => .ok (cutTrue (.name s) (if positive then .eq else .ne))
  | e => .ok (cutTrue e .eq)

/-! ## the search for an axis -/

/-- What is remembered of axes with the expression that cannot select: the nearest edge, and, of two axes,
whether they have a property `closedlow` (axis.py:402, 628, 1084). -/
structure Miss where
  closest : Option ℚ
  closestaxis : Option Bool
  wrongcmpaxis : Option Bool
  deriving DecidableEq

/-- proj.py:445 hands the two axes over in the order in which line 390 does not expect them. -/
def Miss.swap (m : Miss) : Miss := { m with closestaxis := m.wrongcmpaxis, wrongcmpaxis := m.closestaxis }

/-- `abs(cutvalue - close) < abs(cutvalue - closest)`. -/
def closer (v : SelVal) (close closest : ℚ) : Bool :=
  match v with
  | .key (.num q) => decide (|q - close| < |q - closest|)
  | _ => false

/-- proj.py:433-438: the axis has the expression, but cannot select. -/
def Miss.note (m : Miss) (v : SelVal) (hasClosed : Bool) (close : Option ℚ) (wrongcmp : Bool) : Miss :=
  let m :=
    match close with
    | none => m
    | some c =>
      if (match m.closest with | none => true | some d => closer v c d) then
        { m with closest := some c, closestaxis := some hasClosed }
      else m
  if wrongcmp then { m with wrongcmpaxis := some hasClosed } else m

/-- axis.py:497-515: what `groupbin._select` returns besides `None, None`. -/
def GroupbinAxis.missed (a : GroupbinAxis) (value : SelVal) (tol : ℚ) : Option ℚ × Bool :=
  match value with
  | .key (.num v) =>
    let close : ℚ := pyRound ((v - a.origin) / a.binwidth) * a.binwidth + a.origin
    (some close, decide (|v - close| < tol))
  | _ => (none, false)

/-- The same for any group axis; `groupby` selects everything. -/
def GroupAxis.missed (a : GroupAxis) (value : SelVal) (tol : ℚ) : Option ℚ × Bool :=
  match a with
  | .groupby => (none, false)
  | .groupbin a => a.missed value tol

/-- The class has a property `closedlow`. -/
def GroupAxis.hasClosed : GroupAxis → Bool
  | .groupby => false
  | .groupbin _ => true

/-- The class has a property `closedlow`. -/
def FixedAxis.hasClosed : FixedAxis → Bool
  | .bin _ => true
  | .split _ => true
  | .intbin _ => false
  | .cut => false

/-- The value of a fixed axis as a number; a set has none. -/
def SelVal.num? : SelVal → Option Num
  | .key k => k.toNum?
  | .nan => some .nan
  | .set _ => none

/-- What `logical` finds: a test for the keys, or a new axis with a slice (`none` for a cut, which goes). -/
inductive Found (α : Type)
  | yes (a : α)
  | no (m : Miss)

/-- `axis._select` in the "or" of `logical`, for the group axis with expression `e` (proj.py:397-401,
429-430). -/
def orTerm (mc : String → Option Num) (asBool : Bool) (tol : ℚ) (a : GroupAxis) (e t : E) : Except Err (Option Test) :=
  match normalizeexpr mc asBool t with
  | .error er => .error er
  | .ok c => if E.same c.expr e then a.select c.cmp c.value tol else .ok none

/-- proj.py:429-438 for a group axis. -/
def groupOne (c : CutArg) (tol : ℚ) (a : GroupAxis) (e : E) (m : Miss) : Except Err (Found Test) :=
  if E.same c.expr e then
    match a.select c.cmp c.value tol with
    | .error er => .error er
    | .ok (some t) => .ok (.yes t)
    | .ok none => .ok (.no (m.note c.value a.hasClosed (a.missed c.value tol).1 (a.missed c.value tol).2))
  else .ok (.no m)

/-- proj.py:390-440 `logical` for a group axis. -/
def groupStep (mc : String → Option Num) (asBool : Bool) (limit : ℕ) (c : CutArg) (tol : ℚ) (a : GroupAxis) (e : E) (m : Miss) :
    Except Err (Found Test) :=
  match c.expr with
  | .node .lor args _ =>
    match orLoop (orTerm mc asBool tol a e) (args.map E.args) ⟨none, none⟩ none with
    | .error er => .error er
    | .ok (some (_, none)) => .error .typeError
    | .ok (some (F, some f)) => .ok (.yes (f.call limit F))
    | .ok none => groupOne c tol a e m
  | _ => groupOne c tol a e m

/-- `axis._select(cutcmp, cutvalue, tolerance)` of a fixed axis; the new axis is `none` if it goes. -/
def FixedAxis.selectArg (a : FixedAxis) (c : CutArg) (tol : ℚ) : Except Err (SelRes (Option FixedAxis)) :=
  match a with
  | .cut =>
    match c.bool with
    | none => .ok (.no none false)
    | some b =>
      match cutSelect c.cmp b with
      | some s => .ok (.cut none s)
      | none => .ok (.no none true)
  | a =>
    match c.value.num? with
    | none => .ok (.no none false)
    | some v => (a.select c.cmp v tol).map (SelRes.map some)

/-- proj.py:390-440 `logical` for a fixed axis; `expr` is the whole expression. -/
def fixedStep (expr : E) (c : CutArg) (tol : ℚ) (a : FixedAxis) (e : E) (m : Miss) : Except Err (Found (Option FixedAxis × PySlice)) :=
  if a = .cut ∧ E.same expr e then .ok (.yes (none, ⟨1, some 2⟩))
  else if E.same c.expr e then
    match a.selectArg c tol with
    | .error er => .error er
    | .ok (.cut a' s) => .ok (.yes (a', s))
    | .ok (.no close wrongcmp) => .ok (.no (m.note c.value a.hasClosed close wrongcmp))
  else .ok (.no m)

/-- proj.py:444-447: the loop over the axes from position `i` on, until one can select. -/
def searchAxis {α β : Type} (step : α → E → Miss → Except Err (Found β)) : List (α × E) → ℕ → Miss → Except Err (Found (ℕ × β))
  | [], _, m => .ok (.no m)
  | (a, e) :: rest, i, m =>
    match step a e m.swap with
    | .error er => .error er
    | .ok (.yes b) => .ok (.yes (i, b))
    | .ok (.no m) => searchAxis step rest (i + 1) m

/-- proj.py:448-456: the exception if no axis can select. -/
def Miss.error (m : Miss) : Err :=
  match m.wrongcmpaxis with
  | some true => .valueError
  | some false => .attributeError
  | none => .valueError

/-! ## the new histogram -/

/-- A histogram with its content. -/
abbrev Filled := Σ X : HistExprs, X.hist.State

/-- proj.py:460-486 `_selectaxis` for fixed axis `j`. -/
def HistExprs.selectFixed (X : HistExprs) (j : ℕ) (a' : Option FixedAxis) (s : PySlice) (st : X.hist.State) : Filled :=
  match a' with
  | some a' => ⟨{ X with fixed := X.fixed.modify j fun p => (a', p.2) }, X.hist.sliced j a' s st⟩
  | none => ⟨{ X with fixed := X.fixed.eraseIdx j }, X.hist.cutOut j s st⟩

/-- proj.py:319-321: the expression is boolean. -/
def Head.boolean : Head → Bool
  | .rel _ => true | .land => true | .lor => true | .pred _ _ => true | .name _ => true | _ => false

/-- proj.py:319-458 `_select`. -/
def HistExprs.selectTerm (mc : String → Option Num) (asBool : Bool) (limit : ℕ) (tol : ℚ) (expr : E) (F : Filled) : Except Err Filled :=
  if expr.head.boolean = false then .error .typeError
  else match normalizeexpr mc asBool expr with
  | .error e => .error e
  | .ok c =>
    match searchAxis (groupStep mc asBool limit c tol) F.1.groups 0 ⟨none, none, none⟩ with
    | .error e => .error e
    | .ok (.yes (i, test)) =>
      match F.1.hist.filterState test i F.2 with
      | .error e => .error e
      | .ok st => .ok ⟨F.1, st⟩
    | .ok (.no m) =>
      match searchAxis (fixedStep expr c tol) F.1.fixed 0 m with
      | .error e => .error e
      | .ok (.yes (j, a', s)) => .ok (F.1.selectFixed j a' s F.2)
      | .ok (.no m) => .error m.error

/-- proj.py:307-313: the comparisons of an "and" one after the other. -/
def selectTerms (mc : String → Option Num) (asBool : Bool) (limit : ℕ) (tol : ℚ) : List E → Filled → Except Err Filled
  | [], F => .ok F
  | t :: ts, F =>
    match HistExprs.selectTerm mc asBool limit tol t F with
    | .error e => .error e
    | .ok F => selectTerms mc asBool limit tol ts F

/-- proj.py:288-317 `select` of a parsed expression.  (An "and" of nothing does not come out of the parser;
`select` would return `None`.) -/
def selectExpr (mc : String → Option Num) (asBool : Bool) (limit : ℕ) (tol : ℚ) (expr : E) (F : Filled) : Except Err Filled :=
  match expr with
  | .node .land args _ => selectTerms mc asBool limit tol args F
  | expr => HistExprs.selectTerm mc asBool limit tol expr F

end Verif
