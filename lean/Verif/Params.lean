import Verif.Instr

/-!
# The arguments of `fill`

How `fill` finds the array of each field, its length, and the values of the requested quantities.
-/

namespace Verif

/-- What is given for a field: a number, or a one-dimensional array (or list).  Arrays of more dimensions are
outside of the model. -/
inductive Given (α : Type)
  | scalar (v : α)
  | array (l : List α)
  deriving DecidableEq

/-- The arguments of `fill(arrays, **more)`: `arrays` is `None` or something with keys. -/
structure FillArgs (α : Type) where
  arrays : Option (String → Option (Given α))
  more : List (String × Given α)

/-- The dict of keyword arguments. -/
def kwGet {α : Type} (more : List (String × Given α)) (n : String) : Option (Given α) :=
  (more.find? fun p => p.1 = n).map (·.2)

/-- `ChainedDict.__getitem__` (util/__init__.py 38-47); `none` is a `KeyError`. -/
def chained {α : Type} (one : String → Option (Given α)) (two : List (String × Given α)) (n : String) :
    Option (Given α) :=
  if two.any (fun p => p.1 = n) then kwGet two n else one n

/-- The dict that is used (hist.py 363-371). -/
def FillArgs.get {α : Type} (a : FillArgs α) : String → Option (Given α) :=
  match a.arrays with
  | none => kwGet a.more
  | some d => if a.more.length = 0 then d else chained d a.more

/-- What `_fill` uses besides the arguments: the values of the names in `maybeconstants`
(expr.py 328-331), which are only used if the field is not given, and of constants. -/
structure Consts (α : Type) where
  named : String → Option α
  value : CVal → α

/-- The name of the field of a parameter; a broadcast constant has none. -/
def T.fieldName : Node → Option String
  | .name s => some s
  | .pred s _ => some s
  | _ => none

/-- The first loop of `_fill` (fill.py 88-109): the length of the first array. -/
def firstLength {α : Type} (c : Consts α) (get : String → Option (Given α)) : List Ins → Except Err (Option ℕ)
  | [] => .ok none
  | .param _ e :: is =>
    match e.fieldName with
    | none => firstLength c get is
    | some s =>
      match get s with
      | none => if (c.named s).isSome then firstLength c get is else .error .valueError
      | some (.scalar _) => firstLength c get is
      | some (.array l) => .ok (some l.length)
  | _ :: is => firstLength c get is

/-- The array of a parameter (fill.py 125-146): a number is repeated, another length is an error.  The array
that gave the length is not looked up again; a dict gives the same array again. -/
def paramArray {α : Type} (c : Consts α) (get : String → Option (Given α)) (length : ℕ) : Node →
    Except Err (List α)
  | .bconst _ v => .ok (List.replicate length (c.value v))
  | .name s => fieldArray s
  | .pred s _ => fieldArray s
  | _ => .error .assertion
where
  /-- The array of a field. -/
  fieldArray (s : String) : Except Err (List α) :=
    match get s with
    | none =>
      match c.named s with
      | some v => .ok (List.replicate length v)
      | none => .error .valueError
    | some (.scalar v) => .ok (List.replicate length v)
    | some (.array l) => if length ≠ l.length then .error .valueError else .ok l

/-- `_fill(arrays)` (fill.py 85-162): the exported quantities and the length.  `inj` makes a value of the library
from an array. -/
def computeAll {α V : Type} (lib : Lib V) (inj : List α → V) (c : Consts α) (get : String → Option (Given α))
    (is : List Ins) : Except Err (List (Node × V) × ℕ) := do
  let n ← firstLength c get is
  let r ← exec lib (fun e => (paramArray c get (n.getD 1) e).map inj) [] is
  .ok (r.1, n.getD 1)

/-- The `value` of a source: the name of a field or the value of a constant. -/
inductive FieldVal
  | str (s : String)
  | val (v : CVal)
  deriving DecidableEq

/-- `x.goal.value`. -/
def T.fieldVal : Node → FieldVal
  | .name s => .str s
  | .pred s _ => .str s
  | .bconst _ v => .val v
  | _ => .str ""

/-- `sorted(x.goal.value for x in fields)` (fill.py 57), of which only the exception is modelled: Python cannot
compare a string and a number. -/
def sortedFields (srcs : List Node) : Except Err (List FieldVal) :=
  if srcs.any (fun s => s.fieldName.isSome) && srcs.any (fun s => s.fieldName.isNone) then .error .typeError
  else .ok (srcs.map T.fieldVal)

/-- `fields` and `_fill` (fill.py 41-59, 85-162). -/
def fillFields {α V : Type} (lib : Lib V) (inj : List α → V) (c : Consts α) (get : String → Option (Given α))
    (goals srcs : List Node) (ord : List Node → List Node) : Except Err (List (Node × V) × ℕ) := do
  let is ← compile goals srcs ord
  let _ ← sortedFields srcs
  computeAll lib inj c get is

end Verif
