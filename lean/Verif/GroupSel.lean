import Verif.Proj

/-!
# Selections on group axes

Mirrors `groupby._select` (`/repo/histbook/axis.py:301-321`), `groupbin._select` (axis.py:476-515), the
local function `logical` of `Projectable._select` and `_selectaxis` (`/repo/histbook/proj.py:319-486`).

The boolean expression is given as the parser leaves it: an "or" of "and"s of comparisons of the axis
expression with a constant (expr.py:899-985), with more than one "and" if it is a `LogicalOr`.
Comparisons on other axes are not modelled here.
-/

namespace Verif

/-- A constant that a key is compared with: a number or string, NaN, or a set. -/
inductive SelVal
  | key (k : Key)
  | nan
  | set (ks : List Key)
  deriving DecidableEq

/-- A key as a number. -/
def Key.toNum? : Key → Option Num
  | .num q => some (.fin q)
  | .pinf => some .pinf
  | .ninf => some .ninf
  | .str _ => none

/-- Python's `x < value` between keys: numbers with numbers, strings with strings. -/
def Key.lt (x y : Key) : Except Err Bool :=
  match x, y with
  | .str s, .str t => .ok (decide (s < t))
  | x, y =>
    match x.toNum?, y.toNum? with
    | some a, some b => .ok (Num.lt a b)
    | _, _ => .error .typeError

/-- Python's `x <= value`. -/
def Key.le (x y : Key) : Except Err Bool :=
  match x, y with
  | .str s, .str t => .ok (decide (s < t ∨ s = t))
  | x, y =>
    match x.toNum?, y.toNum? with
    | some a, some b => .ok (Num.le a b)
    | _, _ => .error .typeError

/-- An inequality with NaN is false for a number. -/
def Key.nanCmp (x : Key) : Except Err Bool :=
  match x.toNum? with
  | some _ => .ok false
  | none => .error .typeError

/-- A test that is called with a key of the dict. -/
abbrev Test := Key → Except Err Bool

/-- axis.py:301-321 `groupby._select`: the function for each comparison.  `in` a string (a substring
test) is outside of the model. -/
def groupbyTest (cmp : Cmp) (value : SelVal) : Test := fun x =>
  match cmp, value with
  | .eq, .key k => .ok (decide (x = k))
  | .eq, _ => .ok false
  | .ne, .key k => .ok (decide (x ≠ k))
  | .ne, _ => .ok true
  | .lt, .key k => x.lt k
  | .le, .key k => x.le k
  | .gt, .key k => k.lt x
  | .ge, .key k => k.le x
  | .isin, .set ks => .ok (ks.contains x)
  | .notin, .set ks => .ok (!ks.contains x)
  | .isin, .key (.str _) => .error .notImplemented
  | .notin, .key (.str _) => .error .notImplemented
  | .isin, _ => .error .typeError
  | .notin, _ => .error .typeError
  | _, .nan => x.nanCmp
  | _, .set _ => .error .typeError

/-- axis.py:476-515 `groupbin._select`: `none` if the axis cannot select.  `round` of an infinity or of
NaN raises (`OverflowError`, `ValueError`; here `valueError`). -/
def GroupbinAxis.select (a : GroupbinAxis) (cmp : Cmp) (value : SelVal) (tol : ℚ) : Except Err (Option Test) :=
  match value with
  | .key .ninf =>
    if cmp = .ge ∨ cmp = .gt ∨ cmp = .ne then .ok (some (fun x => .ok (decide (x ≠ .str "NaN")))) else .error .valueError
  | .key .pinf =>
    if cmp = .le ∨ cmp = .lt ∨ cmp = .ne then .ok (some (fun x => .ok (decide (x ≠ .str "NaN")))) else .error .valueError
  | .nan =>
    if cmp = .ne then .ok (some (fun x => .ok (decide (x ≠ .str "NaN"))))
    else if cmp = .eq then .ok (some (fun x => .ok (decide (x = .str "NaN"))))
    else .error .valueError
  | .key (.num v) =>
    let close : ℚ := pyRound ((v - a.origin) / a.binwidth) * a.binwidth + a.origin
    if |v - close| < tol then
      if a.closedlow = true ∧ cmp = .lt then .ok (some (fun x => x.lt (.num close)))
      else if a.closedlow = true ∧ cmp = .ge then .ok (some (fun x => Key.le (.num close) x))
      else if a.closedlow = false ∧ cmp = .gt then .ok (some (fun x => Key.le (.num close) x))
      else if a.closedlow = false ∧ cmp = .le then .ok (some (fun x => x.lt (.num close)))
      else .ok none
    else .ok none
  | .key (.str _) => .ok none
  | .set _ => .ok none

/-- `axis._select` of a group axis. -/
def GroupAxis.select (a : GroupAxis) (cmp : Cmp) (value : SelVal) (tol : ℚ) : Except Err (Option Test) :=
  match a with
  | .groupby => .ok (some (groupbyTest cmp value))
  | .groupbin a => a.select cmp value tol

/-- One comparison of the expression of the axis with a constant. -/
structure GTerm where
  cmp : Cmp
  value : SelVal
  deriving DecidableEq

/-! ## functions made by `logical` -/

/-- A function value: one that the axis gave, or one of the two lambda expressions of proj.py:406 and
415, which read `slice1` and `slice2` when they are *called*. -/
inductive Clo
  | test (t : Test)
  | conj
  | disj

/-- The variables of one call of `logical` that the lambda expressions refer to. -/
structure Frame where
  slice1 : Option Clo
  slice2 : Option Clo

/-- proj.py:396-406: the loop over the comparisons of one "and"; `none` if the axis cannot select one of
them. -/
def andLoop {τ : Type} (sel : τ → Except Err (Option Test)) : List τ → Frame → Option Clo → Except Err (Option (Frame × Option Clo))
  | [], F, andslice => .ok (some (F, andslice))
  | t :: ts, F, andslice =>
    match sel t with
    | .error e => .error e
    | .ok none => .ok none
    | .ok (some f) =>
      let F := { F with slice1 := some (.test f) }
      match andslice with
      | none => andLoop sel ts F F.slice1
      | some _ => andLoop sel ts { F with slice2 := andslice } (some .conj)

/-- proj.py:394-415: the loop over the "and"s. -/
def orLoop {τ : Type} (sel : τ → Except Err (Option Test)) : List (List τ) → Frame → Option Clo → Except Err (Option (Frame × Option Clo))
  | [], F, orslice => .ok (some (F, orslice))
  | ts :: rest, F, orslice =>
    match andLoop sel ts F none with
    | .error e => .error e
    | .ok none => .ok none
    | .ok (some (F, andslice)) =>
      match orslice with
      | none => orLoop sel rest F andslice
      | some _ => orLoop sel rest { slice1 := andslice, slice2 := orslice } (some .disj)

/-- Calling a function value with a key, with at most the given number of nested calls; `none` if that is
not enough.  A variable without a value is a `NameError`, a variable that is `None` cannot be called;
neither happens. -/
def Clo.run (F : Frame) (x : Key) : ℕ → Clo → Option (Except Err Bool)
  | 0, _ => none
  | _ + 1, .test t => some (t x)
  | n + 1, .conj =>
    match F.slice1, F.slice2 with
    | some f, some g =>
      match Clo.run F x n f with
      | some (.ok true) => Clo.run F x n g
      | r => r
    | _, _ => some (.error .nameError)
  | n + 1, .disj =>
    match F.slice1, F.slice2 with
    | some f, some g =>
      match Clo.run F x n f with
      | some (.ok false) => Clo.run F x n g
      | r => r
    | _, _ => some (.error .nameError)

/-- Calling a function value in Python, with the recursion limit `limit`. -/
def Clo.call (limit : ℕ) (F : Frame) (c : Clo) : Test := fun x => (c.run F x limit).getD (.error .recursion)

/-! ## the content -/

/-- proj.py:469-470 `dict((n, x) for n, x in content.items() if cutslice(n))`. -/
def filterE {β : Type} (test : Test) : List (Key × β) → Except Err (List (Key × β))
  | [] => .ok []
  | (k, x) :: rest =>
    match test k with
    | .error e => .error e
    | .ok b =>
      match filterE test rest with
      | .error e => .error e
      | .ok rest => .ok (if b then (k, x) :: rest else rest)

/-- `dict((n, f(x)) for n, x in content.items())`. -/
def mapValsE {β γ : Type} (f : β → Except Err γ) : List (Key × β) → Except Err (List (Key × γ))
  | [] => .ok []
  | (k, x) :: rest =>
    match f x with
    | .error e => .error e
    | .ok y =>
      match mapValsE f rest with
      | .error e => .error e
      | .ok rest => .ok ((k, y) :: rest)

/-- proj.py:464-472 `cutcontent` for group axis `i`. -/
def filterGroup (test : Test) : (i n : ℕ) → Content Arr n → Except Err (Content Arr n)
  | _, 0, (a : Arr) => .ok a
  | 0, _ + 1, d => filterE test d
  | i + 1, n + 1, (d : List (Key × Content Arr n)) => mapValsE (filterGroup test i n) d

/-- proj.py:460-486 `_selectaxis` for group axis `i`; the axes stay. -/
def HistDef.filterState (H : HistDef) (test : Test) (i : ℕ) (st : H.State) : Except Err H.State :=
  match st with
  | none => .ok none
  | some c => (filterGroup test i H.groups.length c).map some

/-- proj.py:319-458 `_select` of one comparison on group axis `i`. -/
def HistDef.selectTerm (H : HistDef) (i : ℕ) (t : GTerm) (tol : ℚ) (st : H.State) : Except Err H.State :=
  match H.groups[i]? with
  | none => .error .valueError
  | some a =>
    match a.select t.cmp t.value tol with
    | .error e => .error e
    | .ok none => .error .valueError
    | .ok (some test) => H.filterState test i st

/-- proj.py:306-313: the comparisons of an "and" one after the other. -/
def HistDef.selectAnd (H : HistDef) (i : ℕ) (tol : ℚ) : List GTerm → H.State → Except Err H.State
  | [], st => .ok st
  | t :: ts, st =>
    match H.selectTerm i t tol st with
    | .error e => .error e
    | .ok st => H.selectAnd i tol ts st

/-- proj.py:288-317 `select` of a boolean expression about group axis `i`. -/
def HistDef.selectGroup (H : HistDef) (limit i : ℕ) (dnf : List (List GTerm)) (tol : ℚ) (st : H.State) : Except Err H.State :=
  match dnf with
  | [ts] => H.selectAnd i tol ts st
  | dnf =>
    match H.groups[i]? with
    | none => .error .valueError
    | some a =>
      match orLoop (fun t => a.select t.cmp t.value tol) dnf ⟨none, none⟩ none with
      | .error e => .error e
      | .ok none => .error .valueError
      | .ok (some (_, none)) => .error .typeError
      | .ok (some (F, some c)) => H.filterState (c.call limit F) i st

end Verif
