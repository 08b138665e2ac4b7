import Verif.Text

/-!
# Specification of text: how Python reads it

The part of Python's grammar for literals, tuples, dicts with string keys, negative numbers and calls, as a reader
of tokens; and what the result means when only the names exported by `histbook` are known (`__init__.py`).
-/

namespace Verif

mutual
/-- An expression of Python. -/
inductive Syn
  | name (s : String)
  | str (s : String)
  | int (n : ℕ)
  | float (q : ℚ)
  | neg (a : Syn)
  | tuple (l : Args)
  | dict (l : Args)
  | call (f : String) (l : Args)
/-- Arguments, elements or entries. -/
inductive Args
  | nil
  | pos (a : Syn) (r : Args)
  | kw (k : String) (a : Syn) (r : Args)
end

/-- The closing parentheses are known. -/
inductive Brack
  | call | tuple | dict
  deriving DecidableEq

/-- The closing token. -/
def Brack.close : Brack → Tok
  | .dict => .rbrace
  | _ => .rpar

/-- An expression and what follows it. -/
def readThen (x : Option (Syn × List Tok)) (next : List Tok → Option (Args × List Tok)) (mk : Syn → Args → Args) :
    Option (Args × List Tok) :=
  match x with
  | none => none
  | some (a, r) => (next r).map fun y => (mk a y.1, y.2)

mutual
/-- Reads an expression from the front.  The number bounds the depth. -/
def readSyn : ℕ → List Tok → Option (Syn × List Tok)
  | 0, _ => none
  | _ + 1, [] => none
  | n + 1, t :: r =>
    match t with
    | .str s => some (.str s, r)
    | .int i => some (.int i, r)
    | .float q => some (.float q, r)
    | .minus => (readSyn n r).map fun x => (.neg x.1, x.2)
    | .lpar =>
      match readSyn n r with
      | some (a, .rpar :: r') => some (a, r')
      | _ => (readArgs n .tuple r).map fun x => (.tuple x.1, x.2)
    | .lbrace => (readArgs n .dict r).map fun x => (.dict x.1, x.2)
    | .name s =>
      match r with
      | .lpar :: r => (readArgs n .call r).map fun x => (.call s x.1, x.2)
      | r => some (.name s, r)
    | _ => none
/-- Reads the rest after an opening parenthesis: nothing more, or one more element. -/
def readArgs : ℕ → Brack → List Tok → Option (Args × List Tok)
  | 0, _, _ => none
  | _ + 1, _, [] => none
  | n + 1, b, t :: r =>
    if t = b.close then some (.nil, r)
    else
      match b, t, r with
      | .call, .name k, .eq :: r => readThen (readSyn n r) (readNext n b) (.kw k)
      | .dict, .str k, .colon :: r => readThen (readSyn n r) (readNext n b) (.kw k)
      | .dict, _, _ => none
      | _, t, r => readThen (readSyn n (t :: r)) (readNext n b) .pos
/-- Reads what follows an element: a comma and more elements, or the end. -/
def readNext : ℕ → Brack → List Tok → Option (Args × List Tok)
  | 0, _, _ => none
  | _ + 1, _, [] => none
  | n + 1, b, t :: r =>
    if t = .comma then readArgs n b r
    else if t = b.close then some (.nil, r)
    else none
end

/-- Reads a whole text. -/
def readText (l : List Tok) : Option Syn :=
  match readSyn (2 * l.length) l with
  | some (a, []) => some a
  | _ => none

/-! ## Values -/

/-- `-x`. -/
def negJ : J → Except Err J
  | .int i => .ok (.int (-i))
  | .bool b => .ok (.int (-b2i b))
  | .float .nan => .ok (.float .nan)
  | .float .pinf => .ok (.float .ninf)
  | .float .ninf => .ok (.float .pinf)
  | .float (.fin q) => .ok (.float (.fin (-q)))
  | _ => .error .typeError

mutual
/-- The value of a literal, a tuple or a dict.  `inf` and `nan` are no names of Python. -/
def Syn.value : Syn → Except Err J
  | .name s =>
    if s = "True" then .ok (.bool true) else if s = "False" then .ok (.bool false)
    else if s = "None" then .ok .null else .error .nameError
  | .str s => .ok (.str s)
  | .int n => .ok (.int n)
  | .float q => .ok (.float (.fin q))
  | .neg a => (do negJ (← a.value))
  | .tuple l => (do .ok (.list ((← l.values).map (·.2))))
  | .dict l => (do .ok (.dict ((← l.values).map fun p => (.str (p.1.getD ""), p.2))))
  | .call _ _ => .error .notImplemented
/-- The values of arguments, with their keywords. -/
def Args.values : Args → Except Err (List (Option String × J))
  | .nil => .ok []
  | .pos a r => (do
    let v ← a.value
    .ok ((none, v) :: (← r.values)))
  | .kw k a r => (do
    let v ← a.value
    .ok ((some k, v) :: (← r.values)))
end

/-- The parameters of the classes with their defaults (axis.py 248, 353, 557, 801, 1020, 1304, 1432); other names are
not exported (`__init__.py`). -/
def signature (f : String) : Option (AxCls × List (String × Option J)) :=
  if f = "groupby" then some (.groupby, [("expr", none)])
  else if f = "groupbin" then
    some (.groupbin, [("expr", none), ("binwidth", none), ("origin", some (.int 0)), ("nanflow", some (.bool true)),
      ("closedlow", some (.bool true))])
  else if f = "bin" then
    some (.bin, [("expr", none), ("numbins", none), ("low", none), ("high", none), ("underflow", some (.bool true)),
      ("overflow", some (.bool true)), ("nanflow", some (.bool true)), ("closedlow", some (.bool true))])
  else if f = "intbin" then
    some (.intbin, [("expr", none), ("min", none), ("max", none), ("underflow", some (.bool true)),
      ("overflow", some (.bool true))])
  else if f = "split" then
    some (.split, [("expr", none), ("edges", none), ("underflow", some (.bool true)), ("overflow", some (.bool true)),
      ("nanflow", some (.bool true)), ("closedlow", some (.bool true))])
  else if f = "cut" then some (.cut, [("expr", none)])
  else if f = "profile" then some (.profile, [("expr", none)])
  else none

/-- Arguments without keyword. -/
def positional (l : List (Option String × J)) : List J := l.filterMap fun p => if p.1 = none then some p.2 else none

/-- Arguments with keyword. -/
def keywords (l : List (Option String × J)) : List (String × J) := l.filterMap fun p => p.1.map fun k => (k, p.2)

/-- The arguments for the parameters: in order, then by keyword, then by default. -/
def bindArgs (kws : List (String × J)) : List (String × Option J) → List J → Except Err (List J)
  | [], [] => .ok []
  | [], _ :: _ => .error .typeError
  | (k, _) :: ps, v :: vs =>
    if k ∈ kws.map (·.1) then .error .typeError else (do .ok (v :: (← bindArgs kws ps vs)))
  | (k, d) :: ps, [] =>
    match kws.find? fun p => p.1 = k with
    | some p => (do .ok (p.2 :: (← bindArgs kws ps [])))
    | none =>
      match d with
      | some v => (do .ok (v :: (← bindArgs kws ps [])))
      | none => .error .typeError

/-- Calling a function with a signature; unknown keywords are refused. -/
def applyTo (sig : List (String × Option J)) (args : List (Option String × J)) : Except Err (List J) :=
  if (keywords args).all fun p => p.1 ∈ sig.map (·.1) then bindArgs (keywords args) sig (positional args)
  else .error .typeError

/-- The axis that an expression makes. -/
def Syn.axis : Syn → Except Err AxisX
  | .call f l =>
    match signature f with
    | none => .error .nameError
    | some (cls, sig) => (do
      match ← applyTo sig (← l.values) with
      | .str e :: args => cls.call e args
      | _ => .error .notImplemented)
  | _ => .error .typeError

/-- The axes among arguments. -/
def Args.axes : Args → Except Err (List AxisX)
  | .nil => .ok []
  | .pos a r => (do
    let x ← a.axis
    .ok (x :: (← r.axes)))
  | .kw _ _ r => r.axes

/-- The options among arguments. -/
def Args.options : Args → Except Err (List (String × J))
  | .nil => .ok []
  | .pos _ r => r.options
  | .kw k a r => (do
    let v ← a.value
    .ok ((k, v) :: (← r.options)))

/-- The histogram that an expression makes: a call of `Hist` with axes and options. -/
def Syn.hist {β : Type} (P : Parser β) : Syn → Except Err (HistX β)
  | .call "Hist" l => (do
    let as ← l.axes
    let os ← l.options
    if os.all fun p => p.1 ∈ ["weight", "filter", "defs", "attachment"] then do
      let opt := J.obj os
      mkHist P (as.map fun a => (a, none)) (opt.getN "weight") (← (opt.getN "filter").optStr)
        (← (opt.getN "defs").defsOf) (← (opt.getN "attachment").objOf)
    else .error .notImplemented)
  | _ => .error .typeError

/-- The axis that a text describes. -/
def axisOfText (l : List Tok) : Except Err AxisX :=
  match readText l with
  | some a => a.axis
  | none => .error .expression

/-- The histogram that a text describes. -/
def histOfText {β : Type} (P : Parser β) (l : List Tok) : Except Err (HistX β) :=
  match readText l with
  | some a => a.hist P
  | none => .error .expression

end Verif
