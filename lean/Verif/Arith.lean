import Verif.HistFill

/-!
# Arithmetic, copies and equality of contents

Mirrors `Hist.__add__`, `__iadd__`, `__mul__`, `__imul__`, `_copycontent`, `__eq__` and `group` of
`/repo/histbook/hist.py` on values; `Verif.Heap` is about which objects are shared.
-/

namespace Verif

/-- `x + y` of two numpy arrays (hist.py:516).  The dimensions of the fixed axes are the same because
the axes are (hist.py:500); numbers of columns that differ are broadcast if one of them is 1. -/
def Arr.add (a b : Arr) : Except Err Arr :=
  if a.shape = b.shape then
    if a.ncols = b.ncols then .ok ⟨a.shape, a.ncols, fun i c => a.get i c + b.get i c⟩
    else if a.ncols = 1 then .ok ⟨a.shape, b.ncols, fun i c => a.get i 0 + b.get i c⟩
    else if b.ncols = 1 then .ok ⟨a.shape, a.ncols, fun i c => a.get i c + b.get i 0⟩
    else .error .valueError
  else .error .valueError

/-- `x += y` of two numpy arrays (hist.py:546, 560): only `y` can be broadcast. -/
def Arr.iadd (a b : Arr) : Except Err Arr :=
  if a.shape = b.shape then
    if a.ncols = b.ncols then .ok ⟨a.shape, a.ncols, fun i c => a.get i c + b.get i c⟩
    else if b.ncols = 1 then .ok ⟨a.shape, a.ncols, fun i c => a.get i c + b.get i 0⟩
    else .error .valueError
  else .error .valueError

/-- `x * k` of a numpy array (hist.py:576). -/
def Arr.scale (k : ℚ) (a : Arr) : Arr := ⟨a.shape, a.ncols, fun i c => a.get i c * k⟩

/-- hist.py:521-525: the first loop of `add`, over the keys of `self`. -/
def addLeft {β : Type} (rec : β → β → Except Err β) (other : List (Key × β)) :
    List (Key × β) → Except Err (List (Key × β))
  | [] => .ok []
  | (k, x) :: rest =>
    match dget other k with
    | some y =>
      match rec x y, addLeft rec other rest with
      | .ok z, .ok rest => .ok ((k, z) :: rest)
      | .error e, _ => .error e
      | _, .error e => .error e
    | none =>
      match addLeft rec other rest with
      | .ok rest => .ok ((k, x) :: rest)
      | .error e => .error e

/-- hist.py:526-528: the second loop of `add`, over the keys of `other` that `self` does not have. -/
def addRight {β : Type} (self other : List (Key × β)) : List (Key × β) :=
  other.filter (fun p => (dget self p.1).isNone)

/-- hist.py:503-529 the inner function `add` of `__add__`, on contents that are not `None`. -/
def addContent : (n : ℕ) → Content Arr n → Content Arr n → Except Err (Content Arr n)
  | 0, (a : Arr), (b : Arr) => a.add b
  | n + 1, (d : List (Key × Content Arr n)), (e : List (Key × Content Arr n)) =>
    match addLeft (addContent n) e d with
    | .ok l => .ok (l ++ addRight d e)
    | .error er => .error er

/-- hist.py:496-532 `__add__`, the content of the result.  That the axes are equal is by typing. -/
def addState {n : ℕ} : Option (Content Arr n) → Option (Content Arr n) → Except Err (Option (Content Arr n))
  | none, none => .ok none
  | none, some b => .ok (some b)
  | some a, none => .ok (some a)
  | some a, some b => (addContent n a b).map some

/-- hist.py:543-548: the first loop of the inner function of `__iadd__`; on an exception, what has
been done so far. -/
def iaddLeft {β : Type} (rec : β → β → Res β) (other : List (Key × β)) : List (Key × β) → Res (List (Key × β))
  | [] => .ok []
  | (k, x) :: rest =>
    match dget other k with
    | some y =>
      match rec x y with
      | .error (e, x') => .error (e, (k, x') :: rest)
      | .ok z =>
        match iaddLeft rec other rest with
        | .ok rest => .ok ((k, z) :: rest)
        | .error (e, rest) => .error (e, (k, z) :: rest)
    | none =>
      match iaddLeft rec other rest with
      | .ok rest => .ok ((k, x) :: rest)
      | .error (e, rest) => .error (e, (k, x) :: rest)

/-- hist.py:541-551, 559-563: `+=` of contents. -/
def iaddContent : (n : ℕ) → Content Arr n → Content Arr n → Res (Content Arr n)
  | 0, (a : Arr), (b : Arr) =>
    match a.iadd b with
    | .ok c => .ok c
    | .error e => .error (e, a)
  | n + 1, (d : List (Key × Content Arr n)), (e : List (Key × Content Arr n)) =>
    match iaddLeft (iaddContent n) e d with
    | .ok l => .ok (l ++ addRight d e)
    | .error er => .error er

/-- hist.py:534-565 `__iadd__`. -/
def iaddState {n : ℕ} : Option (Content Arr n) → Option (Content Arr n) → Res (Option (Content Arr n))
  | a, none => .ok a
  | none, some b => .ok (some b)
  | some a, some b =>
    match iaddContent n a b with
    | .ok c => .ok (some c)
    | .error (e, c) => .error (e, some c)

/-- hist.py:571-575 the inner function `recurse` of `__mul__`. -/
def mulContent (k : ℚ) : (n : ℕ) → Content Arr n → Content Arr n
  | 0, (a : Arr) => a.scale k
  | n + 1, (d : List (Key × Content Arr n)) => d.map (fun p => (p.1, mulContent k n p.2))

/-- hist.py:567-580 `__mul__`; `None * k` raises. -/
def mulState {n : ℕ} (k : ℚ) : Option (Content Arr n) → Except Err (Option (Content Arr n))
  | none => .error .typeError
  | some c => .ok (some (mulContent k n c))

/-- hist.py:585-597 `__imul__`; a local variable that is `None` is multiplied in place, which raises
too. -/
def imulState {n : ℕ} (k : ℚ) : Option (Content Arr n) → Res (Option (Content Arr n))
  | none => .error (.typeError, none)
  | some c => .ok (some (mulContent k n c))

/-- All multi-indexes below `dims`. -/
def multiIndexes : List ℕ → List (List ℕ)
  | [] => [[]]
  | n :: ns => (List.range n).flatMap (fun i => (multiIndexes ns).map (i :: ·))

/-- `numpy.array_equal` (hist.py:740). -/
def Arr.equal (a b : Arr) : Bool :=
  decide (a.shape = b.shape) && decide (a.ncols = b.ncols) &&
  (multiIndexes a.shape).all (fun i => (List.range a.ncols).all (fun c => decide (a.get i c = b.get i c)))

/-- `set(one.keys()) == set(two.keys())` (hist.py:738). -/
def sameKeys {β : Type} (d e : List (Key × β)) : Bool :=
  d.all (fun p => (dget e p.1).isSome) && e.all (fun p => (dget d p.1).isSome)

/-- `all(recurse(one[n], two[n]) for n in one)` (hist.py:738). -/
def eqDict {β : Type} (rec : β → β → Bool) (d e : List (Key × β)) : Bool :=
  (d.map (·.1)).all (fun k =>
    match dget d k, dget e k with
    | some x, some y => rec x y
    | _, _ => false)

/-- hist.py:734-742 the inner function `recurse` of `__eq__`, on contents that are not `None`. -/
def eqContent : (n : ℕ) → Content Arr n → Content Arr n → Bool
  | 0, (a : Arr), (b : Arr) => a.equal b
  | n + 1, (d : List (Key × Content Arr n)), (e : List (Key × Content Arr n)) =>
    sameKeys d e && eqDict (eqContent n) d e

/-- hist.py:733-744 `__eq__`, for the contents of histograms with the same axes and options. -/
def eqState {n : ℕ} : Option (Content Arr n) → Option (Content Arr n) → Bool
  | none, none => true
  | some a, some b => eqContent n a b
  | _, _ => false

/-- A histogram as far as `==` looks at it (hist.py:744): the axes and whether it is weighted, the
content, and everything else that is compared (parsed expressions, definitions, attachment). -/
structure HistObj (α : Type) where
  H : HistDef
  settings : α
  content : H.State

/-- hist.py:733-744 `__eq__`. -/
def eqHist {α : Type} [DecidableEq α] (x y : HistObj α) : Bool :=
  if h : x.H = y.H then decide (x.settings = y.settings) && eqState (h ▸ x.content) y.content
  else false

/-- hist.py:753-760 `__getitem__` (and proj.py: `table`, `fraction`, `project`, ... too) calls
`_prefill` before it looks at the content. -/
def HistObj.afterRead {α : Type} (x : HistObj α) : HistObj α :=
  { x with content := some (prefill x.H.layout x.content) }

/-- `numpy.array_equal` on floats, with `none` for NaN, which is not equal to itself. -/
def nanArrayEqual (xs ys : List (Option ℚ)) : Bool :=
  decide (xs.length = ys.length) && (List.zip xs ys).all (fun p =>
    match p with
    | (some x, some y) => decide (x = y)
    | _ => false)

/-! ## `Hist.group` -/

/-- `_weightoriginal`: a number or a string. -/
inductive WOrig
  | num (q : ℚ)
  | expr (s : String)
  deriving DecidableEq

/-- One keyword argument of `Hist.group`: its name, `_weightoriginal` and `_content`. -/
structure Grouped (n : ℕ) where
  name : String
  weight : Option WOrig
  content : Option (Content Arr n)

/-- hist.py:630-637: the weight of the result; the first argument is the variable `weight`. -/
def groupWeight : Option WOrig → List (Option WOrig) → Except Err (Option WOrig)
  | w, [] => .ok w
  | none, x :: xs => groupWeight x xs
  | some _, none :: _ => .error .typeError
  | some w, some x :: xs => groupWeight (if w = x then some w else some (.num 1)) xs

/-- hist.py:645-647: the content of the result; contents that are `None` stay so. -/
def groupContent {n : ℕ} (hs : List (Grouped n)) : List (Key × Option (Content Arr n)) :=
  hs.map (fun h => (.str h.name, h.content))

/-- hist.py:599-649 `Hist.group` for histograms with the same axes, none of which is `groupby(by)`;
the weight and the content of the result.  The filter is dropped (hist.py:643). -/
def groupHists {n : ℕ} (hs : List (Grouped n)) : Except Err (Option WOrig × List (Key × Option (Content Arr n))) :=
  match hs with
  | [] => .error .valueError
  | _ => (groupWeight none (hs.map (·.weight))).map (fun w => (w, groupContent hs))

/-- How a weight is filled (hist.py:227-245). -/
def WOrig.kind : Option WOrig → WKind
  | none => .none
  | some (.num q) => .const q
  | some (.expr _) => .expr

/-- The definition of the grouped histogram (hist.py:643): one more `groupby` axis in front. -/
def HistDef.grouped (H : HistDef) (w : Option WOrig) : HistDef := ⟨.groupby :: H.groups, H.fixed, H.nprof, WOrig.kind w⟩

end Verif
