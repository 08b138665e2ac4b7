import Verif.Expr

/-!
# The text of an expression

Model of `__str__` of the classes in `/repo/histbook/expr.py`.  The text is a list of tokens: blanks and the characters of a
name or a number are not modelled.  `LogicalAnd` and `LogicalOr` have no `__str__`, so that their `__repr__` with the names
of classes is used (`Expr.__repr__`, expr.py 51-52); what stands between its parentheses is one token here.
-/

namespace Verif

/-- A token of an expression; `classes` stands for `Relation('<', Name('x'), Name('y'))` and the like. -/
inductive XTok
  | name (s : String)
  | num (q : ℚ)
  | op (o : PyOp)
  | cmp (c : PyCmp)
  | not
  | lpar | rpar | lbrace | rbrace | comma
  | classes
  deriving DecidableEq

/-- `", ".join(l)`. -/
def commas : List (List XTok) → List XTok
  | [] => []
  | [a] => a
  | a :: b :: r => a ++ .comma :: commas (b :: r)

/-- `str` or `repr` of a number. -/
def numToks (q : ℚ) : List XTok := if q < 0 then [.op .sub, .num (-q)] else [.num q]

/-- `str` of a set of numbers (in some order). -/
def setToks : List ℚ → List XTok
  | [] => [.name "set", .lpar, .rpar]
  | q :: l => .lbrace :: commas ((q :: l).map numToks) ++ [.rbrace]

/-- The operator of a `BinOp` with the given function (expr.py 234-243). -/
def opOf (f : String) : PyOp :=
  if f = "numpy.floor_divide" then .floordiv else if f = "fmod" then .mod else if f = "pow" then .pow else .xor

/-- The comparison operator of a `Relation`. -/
def RelOp.cmpOp : RelOp → PyCmp
  | .eq => .eq | .ne => .ne | .lt => .lt | .le => .le | .isin => .isin | .notin => .notin

/-- `isinstance(x, BinOp)`. -/
def E.isBin : E → Bool
  | .node (.binop _) _ _ => true
  | _ => false

/-- `("(" + str(x) + ")") if isinstance(x, BinOp) else str(x)` (expr.py 631). -/
def parens (b : Bool) (t : List XTok) : List XTok := if b then .lpar :: t ++ [.rpar] else t

/-- The operands of a `BinOp` with the operator between them (expr.py 630-631). -/
def binToks (o : PyOp) : List (Bool × List XTok) → List XTok
  | [] => []
  | [a] => parens a.1 a.2
  | a :: b :: r => parens a.1 a.2 ++ .op o :: binToks o (b :: r)

/-- One loop of `RingAlgebraBinOp.__str__` (expr.py 820-823 or 824-826) that writes the operator before each term. -/
def opEach (o : PyOp) : List (List XTok) → List XTok
  | [] => []
  | t :: ts => .op o :: t ++ opEach o ts

/-- `RingAlgebraBinOp.__str__` (expr.py 816-827). -/
def ringToks (posop negop : PyOp) (identity c : ℚ) (pos neg : List (List XTok)) : List XTok :=
  (if c ≠ identity ∨ pos.length = 0 then numToks c ++ opEach posop pos
    else match pos with
      | [] => []
      | t :: ts => t ++ opEach posop ts) ++ opEach negop neg

/-- `__str__` of a node from the texts of its children, with which of them are `BinOp`s. -/
def Head.toks (h : Head) (pos neg : List (Bool × List XTok)) : List XTok :=
  match h with
  | .const q => numToks q
  | .cset l => setToks l
  | .name s => [.name s]
  | .pred s true => [.name s]
  | .pred s false => [.not, .name s]
  | .call f => .name f :: .lpar :: commas (pos.map (·.2)) ++ [.rpar]
  | .binop f => binToks (opOf f) pos
  | .rel c => match pos with
    | [l, r] => l.2 ++ .cmp c.cmpOp :: r.2
    | _ => []
  | .plus c => ringToks .add .sub 0 c (pos.map (·.2)) (neg.map (·.2))
  | .times c => ringToks .mul .div 1 c (pos.map (·.2)) (neg.map (·.2))
  | .land => [.name "LogicalAnd", .lpar, .classes, .rpar]
  | .lor => [.name "LogicalOr", .lpar, .classes, .rpar]

mutual
/-- `str(expr)` (expr.py 494-495, 528-529, 602-603, 630-631, 816-827, 996-997, 1037-1041). -/
def E.toks : E → List XTok
  | .node h p n => h.toks (E.toksL p) (E.toksL n)
/-- The texts of children, and whether they are `BinOp`s. -/
def E.toksL : List E → List (Bool × List XTok)
  | [] => []
  | x :: xs => (x.isBin, x.toks) :: E.toksL xs
end

end Verif
