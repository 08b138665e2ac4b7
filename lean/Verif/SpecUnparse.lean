import Verif.Unparse

/-!
# Reading Python's expressions

A reader for the expressions of Python (reference manual, chapter 6) with the precedence of its operators,
written apart from the model.  Of the grammar it leaves out what the syntax trees of `Unparse` do not have, and
index expressions with several parts that are not in parentheses.
-/

namespace Verif

/-- How tightly a binary operator binds. -/
def BinSym.prec : BinSym → ℕ
  | .bitor => 5 | .bitxor => 6 | .bitand => 7 | .lshift => 8 | .rshift => 8 | .add => 9 | .sub => 9
  | .mult => 10 | .div => 10 | .mod => 10 | .floordiv => 10 | .matmult => 10 | .pow => 12

/-- How tightly the right operand must bind: more tightly, but `**` takes signs and is right-associative. -/
def BinSym.right : BinSym → ℕ
  | .pow => 11
  | o => o.prec + 1

/-- What may come after an operand. -/
inductive Next
  | bin (o : BinSym) | cmp (c : COp) | conj | disj | cond | stop

/-- What comes after an operand, and the tokens after that. -/
def next : List PTok → Next × List PTok
  | .s .plus :: ts => (.bin .add, ts) | .s .minus :: ts => (.bin .sub, ts)
  | .s .star :: ts => (.bin .mult, ts) | .s .slash :: ts => (.bin .div, ts)
  | .s .percent :: ts => (.bin .mod, ts) | .s .lshift :: ts => (.bin .lshift, ts)
  | .s .rshift :: ts => (.bin .rshift, ts) | .s .bar :: ts => (.bin .bitor, ts)
  | .s .caret :: ts => (.bin .bitxor, ts) | .s .amp :: ts => (.bin .bitand, ts)
  | .s .dslash :: ts => (.bin .floordiv, ts) | .s .dstar :: ts => (.bin .pow, ts)
  | .s .at :: ts => (.bin .matmult, ts)
  | .s .eqeq :: ts => (.cmp .eq, ts) | .s .ne :: ts => (.cmp .noteq, ts) | .s .lt :: ts => (.cmp .lt, ts)
  | .s .le :: ts => (.cmp .lte, ts) | .s .gt :: ts => (.cmp .gt, ts) | .s .ge :: ts => (.cmp .gte, ts)
  | .s .kis :: .s .knot :: ts => (.cmp .isnot, ts) | .s .kis :: ts => (.cmp .is, ts)
  | .s .kin :: ts => (.cmp .isin, ts) | .s .knot :: .s .kin :: ts => (.cmp .notin, ts)
  | .s .kand :: ts => (.conj, ts) | .s .kor :: ts => (.disj, ts) | .s .kif :: ts => (.cond, ts)
  | ts => (.stop, ts)

/-- The parameters of a lambda, up to the colon. -/
def readParams : List PTok → Option (List String × List PTok)
  | .s .colon :: ts => some ([], ts)
  | .name p :: .s .colon :: ts => some ([p], ts)
  | .name p :: .s .comma :: ts => (readParams ts).bind fun r => some (p :: r.1, r.2)
  | _ => none

/-- The arguments of a call. -/
structure ReadArgs where
  args : List PyTree
  keys : List (Option String)
  vals : List PyTree
  rest : List PTok

/-- The name before `=`. -/
def PyTree.asName : PyTree → Option String
  | .name s => some s
  | _ => none

/-- What stands before an expression. -/
inductive Prefix
  | unary (o : UOp) | lam | none

/-- What an expression begins with, and the tokens after that. -/
def prefixOf : List PTok → Prefix × List PTok
  | .s .minus :: ts => (.unary .usub, ts)
  | .s .plus :: ts => (.unary .uadd, ts)
  | .s .tilde :: ts => (.unary .invert, ts)
  | .s .knot :: ts => (.unary .not, ts)
  | .s .klambda :: ts => (.lam, ts)
  | ts => (.none, ts)

/-- How tightly a unary operator binds. -/
def UOp.prec : UOp → ℕ
  | .not => 3
  | _ => 11

mutual
/-- Read an expression in which all operators outside of parentheses bind at least as tightly as `lvl` says: 0
for `lambda` and conditional expressions, 1 for `or`, 2 for `and`, 3 for `not`, 4 for comparisons, 5 to 10 for
binary operators, 11 for signs and 12 for `**`.  The first argument bounds the steps. -/
def rdE : ℕ → ℕ → List PTok → Option (PyTree × List PTok)
  | 0, _, _ => none
  | f + 1, lvl, ts => (rdHead f lvl ts).bind fun p => rdRest f lvl p.1 p.2
/-- What comes before the first binary operator. -/
def rdHead : ℕ → ℕ → List PTok → Option (PyTree × List PTok)
  | 0, _, _ => none
  | f + 1, lvl, ts =>
    match prefixOf ts with
    | (.unary o, ts) =>
      if lvl ≤ o.prec then (rdE f o.prec ts).bind fun p => some (.unary o p.1, p.2) else none
    | (.lam, ts) =>
      if lvl = 0 then (readParams ts).bind fun p => (rdE f 0 p.2).bind fun b => some (.lam [] p.1 b.1, b.2)
      else none
    | (.none, ts) => rdPrim f ts
/-- Further operators after the operand `l`. -/
def rdRest : ℕ → ℕ → PyTree → List PTok → Option (PyTree × List PTok)
  | 0, _, _, _ => none
  | f + 1, lvl, l, ts =>
    match next ts with
    | (.bin o, us) =>
      if lvl ≤ o.prec then (rdE f o.right us).bind fun p => rdRest f lvl (.bin o l p.1) p.2 else some (l, ts)
    | (.cmp c, us) =>
      if lvl ≤ 4 then (rdE f 5 us).bind fun p => (rdLinks f p.2).bind fun r =>
        rdRest f lvl (.compare l (c :: r.1) (p.1 :: r.2.1)) r.2.2
      else some (l, ts)
    | (.conj, us) =>
      if lvl ≤ 2 then (rdE f 3 us).bind fun p => (rdConj f p.2).bind fun r =>
        rdRest f lvl (.bool true (l :: p.1 :: r.1)) r.2
      else some (l, ts)
    | (.disj, us) =>
      if lvl ≤ 1 then (rdE f 2 us).bind fun p => (rdDisj f p.2).bind fun r =>
        rdRest f lvl (.bool false (l :: p.1 :: r.1)) r.2
      else some (l, ts)
    | (.cond, us) =>
      if lvl = 0 then (rdE f 1 us).bind fun p =>
        match p.2 with
        | .s .kelse :: vs => (rdE f 0 vs).bind fun q => some (.ifexp l p.1 q.1, q.2)
        | _ => none
      else some (l, ts)
    | (.stop, _) => some (l, ts)
/-- Further links of a chain of comparisons. -/
def rdLinks : ℕ → List PTok → Option (List COp × List PyTree × List PTok)
  | 0, _ => none
  | f + 1, ts =>
    match next ts with
    | (.cmp c, us) => (rdE f 5 us).bind fun p => (rdLinks f p.2).bind fun r => some (c :: r.1, p.1 :: r.2.1, r.2.2)
    | _ => some ([], [], ts)
/-- Further operands of `and`. -/
def rdConj : ℕ → List PTok → Option (List PyTree × List PTok)
  | 0, _ => none
  | f + 1, ts =>
    match next ts with
    | (.conj, us) => (rdE f 3 us).bind fun p => (rdConj f p.2).bind fun r => some (p.1 :: r.1, r.2)
    | _ => some ([], ts)
/-- Further operands of `or`. -/
def rdDisj : ℕ → List PTok → Option (List PyTree × List PTok)
  | 0, _ => none
  | f + 1, ts =>
    match next ts with
    | (.disj, us) => (rdE f 2 us).bind fun p => (rdDisj f p.2).bind fun r => some (p.1 :: r.1, r.2)
    | _ => some ([], ts)
/-- A name, a literal or something in brackets, with calls, indices and attributes after it. -/
def rdPrim : ℕ → List PTok → Option (PyTree × List PTok)
  | 0, _ => none
  | f + 1, ts => (rdAtom f ts).bind fun p => rdTrail f p.1 p.2
/-- A name, a literal or something in brackets. -/
def rdAtom : ℕ → List PTok → Option (PyTree × List PTok)
  | 0, _ => none
  | f + 1, ts =>
    match ts with
    | .num q :: ts => some (.num q, ts)
    | .str s :: ts => some (.str s, ts)
    | .sing c :: ts => some (.sing c, ts)
    | .name s :: ts => some (.name s, ts)
    | .s .lpar :: .s .rpar :: ts => some (.tuple [], ts)
    | .s .lpar :: ts => (rdE f 0 ts).bind fun p =>
      match p.2 with
      | .s .rpar :: us => some (p.1, us)
      | .s .comma :: us => (rdElems f .rpar us).bind fun r => some (.tuple (p.1 :: r.1), r.2)
      | _ => none
    | .s .lbr :: ts => (rdElems f .rbr ts).bind fun r => some (.list r.1, r.2)
    | .s .lbrace :: .s .rbrace :: ts => some (.dict [] [], ts)
    | .s .lbrace :: ts => (rdE f 0 ts).bind fun p =>
      match p.2 with
      | .s .rbrace :: us => some (.set [p.1], us)
      | .s .comma :: us => (rdElems f .rbrace us).bind fun r => some (.set (p.1 :: r.1), r.2)
      | .s .colon :: us => (rdE f 0 us).bind fun v => (rdPairs f v.2).bind fun r =>
        some (.dict (p.1 :: r.1) (v.1 :: r.2.1), r.2.2)
      | _ => none
    | _ => none
/-- Elements up to a closing bracket; there may be a comma after the last one. -/
def rdElems : ℕ → Sym → List PTok → Option (List PyTree × List PTok)
  | 0, _, _ => none
  | f + 1, c, ts =>
    if ts.head? = some (.s c) then some ([], ts.tail)
    else (rdE f 0 ts).bind fun p =>
      if p.2.head? = some (.s c) then some ([p.1], p.2.tail)
      else if p.2.head? = some (.s .comma) then (rdElems f c p.2.tail).bind fun r => some (p.1 :: r.1, r.2)
      else none
/-- Further pairs of a dictionary. -/
def rdPairs : ℕ → List PTok → Option (List PyTree × List PyTree × List PTok)
  | 0, _ => none
  | f + 1, ts =>
    match ts with
    | .s .rbrace :: us => some ([], [], us)
    | .s .comma :: .s .rbrace :: us => some ([], [], us)
    | .s .comma :: us => (rdE f 0 us).bind fun k =>
      match k.2 with
      | .s .colon :: vs => (rdE f 0 vs).bind fun v => (rdPairs f v.2).bind fun r =>
        some (k.1 :: r.1, v.1 :: r.2.1, r.2.2)
      | _ => none
    | _ => none
/-- Calls, indices and attributes. -/
def rdTrail : ℕ → PyTree → List PTok → Option (PyTree × List PTok)
  | 0, _, _ => none
  | f + 1, v, ts =>
    match ts with
    | .s .dot :: .name a :: us => rdTrail f (.attr v a) us
    | .s .lpar :: us => (rdArgs' f us).bind fun r => rdTrail f (.call v r.args r.keys r.vals) r.rest
    | .s .lbr :: us => (rdE f 0 us).bind fun i =>
      match i.2 with
      | .s .rbr :: vs => rdTrail f (.subscript v i.1) vs
      | _ => none
    | us => some (v, us)
/-- The arguments of a call, up to the closing parenthesis; positional arguments come first. -/
def rdArgs' : ℕ → List PTok → Option ReadArgs
  | 0, _ => none
  | f + 1, ts =>
    match ts with
    | .s .rpar :: us => some ⟨[], [], [], us⟩
    | .s .dstar :: us => (rdE f 0 us).bind fun v => (rdComma f v.2).bind fun r =>
      if r.args.isEmpty then some ⟨[], none :: r.keys, v.1 :: r.vals, r.rest⟩ else none
    | us => (rdE f 0 us).bind fun x =>
      match x.1.asName, x.2 with
      | some n, .s .assign :: vs => (rdE f 0 vs).bind fun v => (rdComma f v.2).bind fun r =>
        if r.args.isEmpty then some ⟨[], some n :: r.keys, v.1 :: r.vals, r.rest⟩ else none
      | _, vs => (rdComma f vs).bind fun r => some ⟨x.1 :: r.args, r.keys, r.vals, r.rest⟩
/-- The arguments after one. -/
def rdComma : ℕ → List PTok → Option ReadArgs
  | 0, _ => none
  | f + 1, ts =>
    match ts with
    | .s .rpar :: us => some ⟨[], [], [], us⟩
    | .s .comma :: us => rdArgs' f us
    | _ => none
end

/-- Python reads the text as this syntax tree. -/
def ReadsAs (ts : List PTok) (t : PyTree) : Prop := ∃ f, rdE f 0 ts = some (t, [])

mutual
/-- A syntax tree that `ast.parse` can give: literals have no sign, comparisons and `and`/`or` have the operands
they need, set displays are not empty, and parameters of `lambda` are ordinary ones. -/
def PyTree.formed : PyTree → Bool
  | .num q => decide (0 ≤ q)
  | .str _ => true
  | .sing _ => true
  | .name _ => true
  | .attr v _ => v.formed
  | .call f args keys vals => f.formed && PyTree.formedL args && decide (keys.length = vals.length) && PyTree.formedL vals
  | .subscript v i => v.formed && i.formed
  | .unary _ a => a.formed
  | .bin _ a b => a.formed && b.formed
  | .compare a ops cs => a.formed && !ops.isEmpty && decide (ops.length = cs.length) && PyTree.formedL cs
  | .bool _ l => decide (2 ≤ l.length) && PyTree.formedL l
  | .ifexp b t e => b.formed && t.formed && e.formed
  | .set l => !l.isEmpty && PyTree.formedL l
  | .list l => PyTree.formedL l
  | .tuple l => PyTree.formedL l
  | .dict ks vs => decide (ks.length = vs.length) && PyTree.formedL ks && PyTree.formedL vs
  | .lam posonly _ b => posonly.isEmpty && b.formed
/-- The same for all elements of a list. -/
def PyTree.formedL : List PyTree → Bool
  | [] => true
  | x :: xs => x.formed && PyTree.formedL xs
end

mutual
/-- There is a literal in it. -/
def PyTree.literal : PyTree → Bool
  | .num _ => true
  | .str _ => true
  | .sing _ => true
  | .name _ => false
  | .attr v _ => v.literal
  | .call f args _ vals => f.literal || PyTree.literalL args || PyTree.literalL vals
  | .subscript v i => v.literal || i.literal
  | .unary _ a => a.literal
  | .bin _ a b => a.literal || b.literal
  | .compare a _ cs => a.literal || PyTree.literalL cs
  | .bool _ l => PyTree.literalL l
  | .ifexp b t e => b.literal || t.literal || e.literal
  | .set l => PyTree.literalL l
  | .list l => PyTree.literalL l
  | .tuple l => PyTree.literalL l
  | .dict ks vs => PyTree.literalL ks || PyTree.literalL vs
  | .lam _ _ b => b.literal
/-- The same for some element of a list. -/
def PyTree.literalL : List PyTree → Bool
  | [] => false
  | x :: xs => x.literal || PyTree.literalL xs
end

mutual
/-- What is written is Python: comparisons, `and` and `or` have the operands they need. -/
def Py.formed : Py → Bool
  | .num _ => true
  | .set _ => true
  | .name _ => true
  | .neg a => a.formed
  | .plus a => a.formed
  | .invert a => a.formed
  | .bin _ a b => a.formed && b.formed
  | .compare a ops cs => a.formed && !ops.isEmpty && decide (ops.length = cs.length) && Py.formedL cs
  | .lnot a => a.formed
  | .land l => decide (2 ≤ l.length) && Py.formedL l
  | .lor l => decide (2 ≤ l.length) && Py.formedL l
  | .call _ args => Py.formedL args
/-- The same for all elements of a list. -/
def Py.formedL : List Py → Bool
  | [] => true
  | x :: xs => x.formed && Py.formedL xs
end

/-- `PartOf t s`: `t` is written in `s`, as a whole operand or argument, or as a link of a chain of
comparisons. -/
inductive PartOf (t : Py) : Py → Prop
  | self : PartOf t t
  | neg {a : Py} : PartOf t a → PartOf t (.neg a)
  | plus {a : Py} : PartOf t a → PartOf t (.plus a)
  | invert {a : Py} : PartOf t a → PartOf t (.invert a)
  | left {o : PyOp} {a b : Py} : PartOf t a → PartOf t (.bin o a b)
  | right {o : PyOp} {a b : Py} : PartOf t b → PartOf t (.bin o a b)
  | first {a : Py} {ops : List PyCmp} {cs : List Py} : PartOf t a → PartOf t (.compare a ops cs)
  | other {a c : Py} {ops : List PyCmp} {cs : List Py} : c ∈ cs → PartOf t c → PartOf t (.compare a ops cs)
  | link {a : Py} {ops : List PyCmp} {cs : List Py} (i : ℕ) (o : PyCmp) (x y : Py) : t = .compare x [o] [y] →
      (a :: cs)[i]? = some x → ops[i]? = some o → cs[i]? = some y → PartOf t (.compare a ops cs)
  | lnot {a : Py} : PartOf t a → PartOf t (.lnot a)
  | land {c : Py} {l : List Py} : c ∈ l → PartOf t c → PartOf t (.land l)
  | lor {c : Py} {l : List Py} : c ∈ l → PartOf t c → PartOf t (.lor l)
  | arg {c : Py} {f : String} {l : List Py} : c ∈ l → PartOf t c → PartOf t (.call f l)

/-- The arithmetic operator of a syntax tree. -/
def BinSym.asOp : BinSym → Option PyOp
  | .add => some .add
  | .sub => some .sub
  | .mult => some .mul
  | .div => some .div
  | .mod => some .mod
  | .floordiv => some .floordiv
  | .pow => some .pow
  | .bitor => some .bitor
  | .bitand => some .bitand
  | .bitxor => some .xor
  | .lshift | .rshift | .matmult => none

/-- The comparison of a syntax tree. -/
def COp.asCmp : COp → Option PyCmp
  | .eq => some .eq
  | .noteq => some .ne
  | .lt => some .lt
  | .lte => some .le
  | .gt => some .gt
  | .gte => some .ge
  | .isin => some .isin
  | .notin => some .notin
  | .is | .isnot => none

/-- A constant: a number, possibly with a minus sign. -/
def PyTree.constant : PyTree → Option ℚ
  | .num q => some q
  | .unary .usub (.num q) => some (-q)
  | _ => none

mutual
/-- The expression of arithmetic, comparisons, logic and calls that a syntax tree stands for. -/
def PyTree.asPy : PyTree → Option Py
  | .num q => some (.num q)
  | .name s => some (.name s)
  | .unary o a =>
    match o, a.asPy with
    | .usub, some x => some (.neg x)
    | .uadd, some x => some (.plus x)
    | .invert, some x => some (.invert x)
    | .not, some x => some (.lnot x)
    | _, none => none
  | .bin o a b =>
    match o.asOp, a.asPy, b.asPy with
    | some o, some x, some y => some (.bin o x y)
    | _, _, _ => none
  | .compare a ops cs =>
    match a.asPy, ops.mapM COp.asCmp, PyTree.asPyL cs with
    | some x, some os, some ys => some (.compare x os ys)
    | _, _, _ => none
  | .bool isAnd l =>
    match isAnd, PyTree.asPyL l with
    | true, some xs => some (.land xs)
    | false, some xs => some (.lor xs)
    | _, none => none
  | .call (.name f) args [] [] => (PyTree.asPyL args).map (.call f)
  | .set l => (l.mapM PyTree.constant).map .set
  | .dict [] [] => some (.set [])
  | _ => none
/-- The same for each element. -/
def PyTree.asPyL : List PyTree → Option (List Py)
  | [] => some []
  | t :: ts =>
    match t.asPy, PyTree.asPyL ts with
    | some x, some xs => some (x :: xs)
    | _, _ => none
end

mutual
/-- Numbers are written without a sign, as Python's literals. -/
def Py.unsigned : Py → Bool
  | .num q => decide (0 ≤ q)
  | .set _ => true
  | .name _ => true
  | .neg a => a.unsigned
  | .plus a => a.unsigned
  | .invert a => a.unsigned
  | .bin _ a b => a.unsigned && b.unsigned
  | .compare a _ cs => a.unsigned && Py.unsignedL cs
  | .lnot a => a.unsigned
  | .land l => Py.unsignedL l
  | .lor l => Py.unsignedL l
  | .call _ args => Py.unsignedL args
/-- The same for all elements of a list. -/
def Py.unsignedL : List Py → Bool
  | [] => true
  | x :: xs => x.unsigned && Py.unsignedL xs
end

end Verif
