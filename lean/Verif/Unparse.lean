import Verif.Expr

/-!
# What the message about a refused expression quotes

`Expr.parse` (expr.py 124-324) puts the refused part of an expression into the message of the
`ExpressionError`, as text that `histbook.util.astunparse.tostring` makes of the syntax tree.  The text is
modelled as a list of tokens: spaces, line ends and the decimal digits of numbers are left out.  Only syntax
that `ast.parse(…, mode="eval")` can give is modelled, without comprehensions, starred elements, slices,
`yield`, f-strings, bytes, default values and `*` parameters of `lambda`.
-/

namespace Verif

/-- Punctuation, operators and keywords. -/
inductive Sym
  | lpar | rpar | lbr | rbr | lbrace | rbrace | comma | colon | dot | assign
  | plus | minus | star | slash | percent | lshift | rshift | bar | caret | amp | dslash | dstar | at | tilde
  | eqeq | ne | lt | le | gt | ge
  | kis | kin | knot | kand | kor | kif | kelse | klambda
  deriving DecidableEq, Repr

/-- The values that have a keyword of their own. -/
inductive Sing
  | none | true | false
  deriving DecidableEq, Repr

/-- The tokens of a text. -/
inductive PTok
  | num (q : ℚ)
  | str (s : String)
  | sing (c : Sing)
  | name (s : String)
  | s (y : Sym)
  deriving DecidableEq, Repr

/-- Unary operators (astunparse.py 670). -/
inductive UOp
  | invert | not | uadd | usub
  deriving DecidableEq, Repr

/-- Binary operators (astunparse.py 688-691). -/
inductive BinSym
  | add | sub | mult | div | mod | lshift | rshift | bitor | bitxor | bitand | floordiv | pow | matmult
  deriving DecidableEq, Repr

/-- Comparison operators (astunparse.py 699-700). -/
inductive COp
  | eq | noteq | lt | lte | gt | gte | is | isnot | isin | notin
  deriving DecidableEq, Repr

/-- Syntax trees of expressions, as `ast.parse` gives them. -/
inductive PyTree
  | num (q : ℚ)
  | str (s : String)
  | sing (c : Sing)
  | name (s : String)
  | attr (v : PyTree) (a : String)
  | call (f : PyTree) (args : List PyTree) (keys : List (Option String)) (vals : List PyTree)
  | subscript (v i : PyTree)
  | unary (o : UOp) (a : PyTree)
  | bin (o : BinSym) (a b : PyTree)
  | compare (a : PyTree) (ops : List COp) (cs : List PyTree)
  | bool (isAnd : Bool) (l : List PyTree)
  | ifexp (body test orelse : PyTree)
  | set (l : List PyTree)
  | list (l : List PyTree)
  | tuple (l : List PyTree)
  | dict (ks vs : List PyTree)
  | lam (posonly params : List String) (body : PyTree)

/-- The dictionary `unop` (astunparse.py 670). -/
def UOp.sym : UOp → Sym
  | .invert => .tilde | .not => .knot | .uadd => .plus | .usub => .minus

/-- The dictionary `binop` (astunparse.py 688-691). -/
def BinSym.sym : BinSym → Sym
  | .add => .plus | .sub => .minus | .mult => .star | .div => .slash | .mod => .percent
  | .lshift => .lshift | .rshift => .rshift | .bitor => .bar | .bitxor => .caret | .bitand => .amp
  | .floordiv => .dslash | .pow => .dstar | .matmult => .at

/-- The dictionary `cmpops` (astunparse.py 699-700). -/
def COp.toks : COp → List PTok
  | .eq => [.s .eqeq] | .noteq => [.s .ne] | .lt => [.s .lt] | .lte => [.s .le] | .gt => [.s .gt]
  | .gte => [.s .ge] | .is => [.s .kis] | .isnot => [.s .kis, .s .knot] | .isin => [.s .kin]
  | .notin => [.s .knot, .s .kin]

/-- `interleave` with a separator (astunparse.py 99-110). -/
def interleaved (sep : PTok) : List (List PTok) → List PTok
  | [] => []
  | [x] => x
  | x :: y :: l => x ++ sep :: interleaved sep (y :: l)

/-- `_keyword` (astunparse.py 843-850). -/
def keywordToks : Option String → List PTok → List PTok
  | none, v => .s .dstar :: v
  | some n, v => .name n :: .s .assign :: v

/-- The operators and operands after the first one (astunparse.py 704-706). -/
def chainToks (ops : List COp) (cs : List (List PTok)) : List PTok :=
  (List.zipWith (fun o c => COp.toks o ++ c) ops cs).flatten

/-- `write_pair` (astunparse.py 648-653), with a comma after every pair. -/
def pairToks (ks vs : List (List PTok)) : List PTok :=
  (List.zipWith (fun k v => k ++ .s .colon :: v ++ [.s .comma]) ks vs).flatten

/-- `_Tuple` (astunparse.py 660-668). -/
def tupleToks : List (List PTok) → List PTok
  | [x] => x ++ [.s .comma]
  | l => interleaved (.s .comma) l

/-- The parameters of a lambda (`_arguments`, astunparse.py 789-800); positional-only parameters, which are in
a field `posonlyargs` of their own since Python 3.8, are left out. -/
def paramToks (params : List String) : List PTok := interleaved (.s .comma) (params.map fun p => [.name p])

mutual
/-- `Unparser.dispatch` (astunparse.py 142-149) for expressions; `py38` says whether Python is 3.8 or newer,
where literals are `ast.Constant`, for which there is no method. -/
def PyTree.quote (py38 : Bool) : PyTree → Except Err (List PTok)
  -- `_Num` (astunparse.py 570-583)
  | .num q => if py38 then .error .attributeError else .ok [.num q]
  -- `_Str` (astunparse.py 515-529)
  | .str s => if py38 then .error .attributeError else .ok [.str s]
  -- `_NameConstant` (astunparse.py 562-563)
  | .sing c => if py38 then .error .attributeError else .ok [.sing c]
  -- `_Name` (astunparse.py 559-560)
  | .name s => .ok [.name s]
  -- `_Attribute` (astunparse.py 716-724)
  | .attr v a => do
    let x ← PyTree.quote py38 v
    .ok (x ++ [.s .dot, .name a])
  -- `_Call` (astunparse.py 726-749)
  | .call f args keys vals => do
    let x ← PyTree.quote py38 f
    let as ← PyTree.quoteL py38 args
    let vs ← PyTree.quoteL py38 vals
    .ok (x ++ .s .lpar :: interleaved (.s .comma) (as ++ List.zipWith keywordToks keys vs) ++ [.s .rpar])
  -- `_Subscript` (astunparse.py 751-755) and `_Index` (astunparse.py 765-766)
  | .subscript v i => do
    let x ← PyTree.quote py38 v
    let y ← PyTree.quote py38 i
    .ok (x ++ .s .lbr :: y ++ [.s .rbr])
  -- `_UnaryOp` (astunparse.py 671-686)
  | .unary o a => do
    let x ← PyTree.quote py38 a
    .ok (.s .lpar :: .s o.sym :: x ++ [.s .rpar])
  -- `_BinOp` (astunparse.py 692-697)
  | .bin o a b => do
    let x ← PyTree.quote py38 a
    let y ← PyTree.quote py38 b
    .ok (.s .lpar :: x ++ .s o.sym :: y ++ [.s .rpar])
  -- `_Compare` (astunparse.py 701-707)
  | .compare a ops cs => do
    let x ← PyTree.quote py38 a
    let ys ← PyTree.quoteL py38 cs
    .ok (.s .lpar :: x ++ chainToks ops ys ++ [.s .rpar])
  -- `_BoolOp` (astunparse.py 710-714)
  | .bool b l => do
    let xs ← PyTree.quoteL py38 l
    .ok (.s .lpar :: interleaved (.s (if b then .kand else .kor)) xs ++ [.s .rpar])
  -- `_IfExp` (astunparse.py 631-638)
  | .ifexp b t e => do
    let x ← PyTree.quote py38 b
    let y ← PyTree.quote py38 t
    let z ← PyTree.quote py38 e
    .ok (.s .lpar :: x ++ .s .kif :: y ++ .s .kelse :: z ++ [.s .rpar])
  -- `_Set` (astunparse.py 640-644)
  | .set l => do
    if l.isEmpty then .error .assertion else
    let xs ← PyTree.quoteL py38 l
    .ok (.s .lbrace :: interleaved (.s .comma) xs ++ [.s .rbrace])
  -- `_List` (astunparse.py 585-588)
  | .list l => do
    let xs ← PyTree.quoteL py38 l
    .ok (.s .lbr :: interleaved (.s .comma) xs ++ [.s .rbr])
  -- `_Tuple` (astunparse.py 660-668)
  | .tuple l => do
    let xs ← PyTree.quoteL py38 l
    .ok (.s .lpar :: tupleToks xs ++ [.s .rpar])
  -- `_Dict` (astunparse.py 646-658)
  | .dict ks vs => do
    let xs ← PyTree.quoteL py38 ks
    let ys ← PyTree.quoteL py38 vs
    .ok (.s .lbrace :: pairToks xs ys ++ [.s .rbrace])
  -- `_Lambda` (astunparse.py 852-858)
  | .lam _ params body => do
    let x ← PyTree.quote py38 body
    .ok (.s .lpar :: .s .klambda :: paramToks params ++ .s .colon :: x ++ [.s .rpar])
/-- The same for each element. -/
def PyTree.quoteL (py38 : Bool) : List PyTree → Except Err (List (List PTok))
  | [] => .ok []
  | x :: xs => do
    let t ← PyTree.quote py38 x
    let ts ← PyTree.quoteL py38 xs
    .ok (t :: ts)
end

/-! ## Which part is quoted -/

/-- A number as it is written: literals have no sign. -/
def numSyn (q : ℚ) : PyTree := if q < 0 then .unary .usub (.num (-q)) else .num q

/-- The syntax tree of an operator. -/
def PyOp.bop : PyOp → BinSym
  | .add => .add | .sub => .sub | .mul => .mult | .div => .div | .floordiv => .floordiv | .mod => .mod
  | .pow => .pow | .bitor => .bitor | .bitand => .bitand | .xor => .bitxor

/-- The syntax tree of a comparison operator. -/
def PyCmp.cop : PyCmp → COp
  | .eq => .eq | .ne => .noteq | .lt => .lt | .le => .lte | .gt => .gt | .ge => .gte | .isin => .isin
  | .notin => .notin

mutual
/-- The syntax tree (expr.py 104) of an expression. -/
def Py.syn : Py → PyTree
  | .num q => numSyn q
  | .set [] => .dict [] []
  | .set (q :: l) => .set ((q :: l).map numSyn)
  | .name s => .name s
  | .neg a => .unary .usub a.syn
  | .plus a => .unary .uadd a.syn
  | .invert a => .unary .invert a.syn
  | .bin o a b => .bin o.bop a.syn b.syn
  | .compare a ops cs => .compare a.syn (ops.map PyCmp.cop) (Py.synL cs)
  | .lnot a => .unary .not a.syn
  | .land l => .bool true (Py.synL l)
  | .lor l => .bool false (Py.synL l)
  | .call f args => .call (.name f) (Py.synL args) [] []
/-- The same for each element. -/
def Py.synL : List Py → List PyTree
  | [] => []
  | x :: xs => x.syn :: Py.synL xs
end

/-- The outcome of reading a part: refused with a quoted part, or what `recurse` gives. -/
abbrev Quoting (α : Type) := Except (Py ⊕ Err) α

/-- An operation that quotes nothing. -/
def plainly {α : Type} (x : Except Err α) : Quoting α :=
  match x with
  | .ok a => .ok a
  | .error e => .error (.inr e)

mutual
/-- `recurse(node, relations)` of `Expr.parse` (expr.py 126-326), with the node whose text is put into the
message (expr.py 185, 193, 209, 229, 319). -/
def Py.parseQ (sc : Scope) : Bool → Py → Quoting E
  | _, .num q => .ok (E.const q)
  | _, .set l => .ok (.node (.cset (l.dedup.insertionSort (· ≤ ·))) [] [])
  | _, .name s => .ok ((sc.defs s).getD (E.name s))
  | _, .neg a => do plainly (unaryMinus (← Py.parseQ sc false a))
  | _, .plus a => Py.parseQ sc false a
  | _, .invert a => do plainly (unaryInvert (← Py.parseQ sc false a))
  | _, .bin op a b => do
    let l ← Py.parseQ sc false a
    let r ← Py.parseQ sc false b
    plainly (binary op l r)
  | true, .compare a ops cs => do
    let l ← Py.parseQ sc false a
    let rels ← Py.parseChainQ sc a l ops cs
    match rels with
    | [r] => .ok r
    | rs => do
      let os ← plainly (rs.mapM E.asOr)
      plainly ((reduceE andCombine os).map orSimplify)
  | false, .compare a ops cs => .error (.inl (.compare a ops cs))
  | true, .lnot a => do plainly (logicalNot (← Py.parseQ sc true a))
  | false, .lnot a => .error (.inl (.lnot a))
  | true, .land l => do plainly ((reduceE andCombine (← Py.parseOrsQ sc l)).map orSimplify)
  | false, .land l => .error (.inl (.land l))
  | true, .lor l => do plainly ((reduceE orCombine (← Py.parseOrsQ sc l)).map orSimplify)
  | false, .lor l => .error (.inl (.lor l))
  | _, .call f args =>
    if sc.known f then do
      let as ← Py.parseArgsQ sc (f = "where") args
      .ok (.node (.call f) as [])
    else .error (.inl (.call f args))
/-- The single comparisons of a chain after the operand `a` with the value `l` (expr.py 189-190): what is
quoted is the single comparison. -/
def Py.parseChainQ (sc : Scope) : Py → E → List PyCmp → List Py → Quoting (List E)
  | a, l, op :: ops, c :: cs => do
    let r ← Py.parseQ sc false c
    match mkRel op l r with
    | .error _ => .error (.inl (.compare a [op] [c]))
    | .ok x => do
      let xs ← Py.parseChainQ sc c r ops cs
      .ok (x :: xs)
  | _, _, _, _ => .ok []
/-- The operands of `and` and `or` in normal form (expr.py 203, 206). -/
def Py.parseOrsQ (sc : Scope) : List Py → Quoting (List E)
  | [] => .ok []
  | a :: as => do
    let e ← Py.parseQ sc true a
    let o ← plainly e.asOr
    let os ← Py.parseOrsQ sc as
    .ok (o :: os)
/-- The arguments of a call (expr.py 321). -/
def Py.parseArgsQ (sc : Scope) : Bool → List Py → Quoting (List E)
  | _, [] => .ok []
  | rel, a :: as => do
    let e ← Py.parseQ sc rel a
    let es ← Py.parseArgsQ sc false as
    .ok (e :: es)
end

/-- How `Expr.parse` ends: with an expression, with an `ExpressionError` that has a text, or with another
exception. -/
inductive ParseEnd
  | ok (e : E)
  | refused (quoted : List PTok)
  | raised (e : Err)

/-- `Expr.parse(expression, defs)` (expr.py 76-328) with the message; making the text of the message may raise
an exception itself. -/
def parseText (py38 : Bool) (sc : Scope) (s : Py) : ParseEnd :=
  match Py.parseQ sc true s with
  | .ok e => .ok e
  | .error (.inr e) => .raised e
  | .error (.inl t) =>
    match t.syn.quote py38 with
    | .ok ts => .refused ts
    | .error e => .raised e

end Verif
