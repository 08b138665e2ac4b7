import Verif.ExprText
import Verif.SpecExpr

/-!
# Reading an expression

A reader for Python's expressions, as far as they occur in texts of expressions (no `and`, `or`, chained comparisons, `&` and
`|`), by the precedence of operators.
-/

namespace Verif

/-- How tightly an operator binds. -/
def PyOp.prec : PyOp → ℕ
  | .bitor => 3
  | .xor => 4
  | .bitand => 5
  | .add => 7
  | .sub => 7
  | .mul => 8
  | .div => 8
  | .floordiv => 8
  | .mod => 8
  | .pow => 10

/-- How tightly an operator in the right operand must bind: more tightly, except that `**` takes signs and is
right-associative. -/
def PyOp.right : PyOp → ℕ
  | .pow => 9
  | o => o.prec + 1

/-- `-2` or `2` in a set display. -/
def readNum : List XTok → Option (ℚ × List XTok)
  | .num q :: ts => some (q, ts)
  | .op .sub :: .num q :: ts => some (-q, ts)
  | _ => none

/-- The rest of a set display. -/
def readSet : ℕ → List XTok → Option (List ℚ × List XTok)
  | 0, _ => none
  | f + 1, ts =>
    (readNum ts).bind fun p =>
      match p.2 with
      | .comma :: ts => (readSet f ts).bind fun r => some (p.1 :: r.1, r.2)
      | .rbrace :: ts => some ([p.1], ts)
      | _ => none

/-- The end of something in parentheses. -/
def closing {α : Type} (x : α) : List XTok → Option (α × List XTok)
  | .rpar :: ts => some (x, ts)
  | _ => none

mutual
/-- Read an expression in which all operators outside of parentheses bind at least as tightly as `lvl` says (1 for `not`, 2
for comparisons, 9 for a sign).  The first argument bounds the steps. -/
def rd : ℕ → ℕ → List XTok → Option (Py × List XTok)
  | 0, _, _ => none
  | f + 1, lvl, ts => (rdFirst f lvl ts).bind fun p => rdMore f lvl p.1 p.2
/-- What comes before the first binary operator. -/
def rdFirst : ℕ → ℕ → List XTok → Option (Py × List XTok)
  | 0, _, _ => none
  | f + 1, lvl, ts =>
    match ts with
    | .num q :: ts => some (.num q, ts)
    | .name s :: .lpar :: .rpar :: ts => some (.call s [], ts)
    | .name s :: .lpar :: ts => (rdArgs f ts).bind fun p => some (.call s p.1, p.2)
    | .name s :: ts => some (.name s, ts)
    | .lpar :: ts => (rd f 0 ts).bind fun p => closing p.1 p.2
    | .lbrace :: ts => (readSet f ts).bind fun p => some (.set p.1, p.2)
    | .op .sub :: ts => (rd f 9 ts).bind fun p => some (.neg p.1, p.2)
    | .not :: ts => if lvl ≤ 1 then (rd f 1 ts).bind fun p => some (.lnot p.1, p.2) else none
    | _ => none
/-- Further operators after the operand `l`. -/
def rdMore : ℕ → ℕ → Py → List XTok → Option (Py × List XTok)
  | 0, _, _, _ => none
  | f + 1, lvl, l, ts =>
    match ts with
    | .op o :: ts =>
      if lvl ≤ o.prec then (rd f o.right ts).bind fun p => rdMore f lvl (.bin o l p.1) p.2
      else some (l, .op o :: ts)
    | .cmp c :: ts =>
      if lvl ≤ 2 then (rd f 3 ts).bind fun p => some (.compare l [c] [p.1], p.2)
      else some (l, .cmp c :: ts)
    | ts => some (l, ts)
/-- The arguments of a call, up to the closing parenthesis. -/
def rdArgs : ℕ → List XTok → Option (List Py × List XTok)
  | 0, _ => none
  | f + 1, ts =>
    (rd f 0 ts).bind fun p =>
      match p.2 with
      | .comma :: ts => (rdArgs f ts).bind fun r => some (p.1 :: r.1, r.2)
      | .rpar :: ts => some ([p.1], ts)
      | _ => none
end

/-- The text can be read as this expression. -/
def Reads (ts : List XTok) (s : Py) : Prop := ∃ f, rd f 0 ts = some (s, [])

/-! ## Which texts mean what they should -/

/-- A number that is shown with a sign binds less tightly than one without. -/
def numLevel (q : ℚ) : ℕ := if q < 0 then 9 else 11

/-- How tightly the operators in the text bind, 11 if there are none outside of parentheses. -/
def ringLevel (lvl : ℕ) (identity c : ℚ) (pos : List ℕ) (neg : ℕ) : ℕ :=
  match pos, neg with
  | [], 0 => numLevel c
  | [l], 0 => if c = identity then l else lvl
  | _, _ => lvl

/-- How tightly the operators in the text of a node bind, from those of its operands. -/
def Head.level (h : Head) (pos : List ℕ) (neg : ℕ) : ℕ :=
  match h with
  | .const q => numLevel q
  | .pred _ false => 1
  | .binop f => (opOf f).prec
  | .rel _ => 2
  | .plus c => ringLevel 7 0 c pos neg
  | .times c => ringLevel 8 1 c pos neg
  | _ => 11

mutual
/-- How tightly the operators in the text of an expression bind. -/
def E.level : E → ℕ
  | .node h p n => h.level (E.levels p) n.length
/-- The same for a list. -/
def E.levels : List E → List ℕ
  | [] => []
  | x :: xs => x.level :: E.levels xs
end

/-- The operands of a sum or a product are such that no parentheses are missing. -/
def ringShown (lvl : ℕ) (identity c : ℚ) (pos neg : List ℕ) : Bool :=
  (if c ≠ identity ∨ pos.length = 0 then decide (lvl ≤ numLevel c) && pos.all (fun l => decide (lvl < l))
    else match pos with
      | [] => true
      | l :: ls => decide (lvl ≤ l) && ls.all (fun l => decide (lvl < l))) && neg.all (fun l => decide (lvl < l))

/-- No parentheses are missing around the children of a node; it is no condition with `and` or `or`, and no empty set. -/
def Head.fits (h : Head) (p n : List E) : Bool :=
  match h with
  | .const _ => true
  | .cset l => !l.isEmpty
  | .name _ => true
  | .pred _ b => !b
  | .call _ => true
  | .binop f =>
    decide (f ∈ ["numpy.floor_divide", "fmod", "pow", "xor"]) &&
    match p with
    | [l, r] => (l.isBin || decide ((if opOf f = .pow then 11 else (opOf f).prec) ≤ l.level)) &&
        (r.isBin || decide ((opOf f).right ≤ r.level))
    | _ => false
  | .rel c => match p with
    | [l, r] => decide (3 ≤ l.level) && decide (3 ≤ r.level) &&
        decide ((c = .isin ∨ c = .notin) → r.setOf.isSome) &&
        decide (l.setOf = none)
    | _ => false
  | .plus c => ringShown 7 0 c (E.levels p) (E.levels n)
  | .times c => ringShown 8 1 c (E.levels p) (E.levels n)
  | .land => false
  | .lor => false

mutual
/-- No parentheses are missing in the text, there is no condition with `and` and `or` in it, and no empty set. -/
def E.shown : E → Bool
  | .node h p n => E.shownL p && E.shownL n && h.fits p n
/-- The same for all elements of a list. -/
def E.shownL : List E → Bool
  | [] => true
  | x :: xs => x.shown && E.shownL xs
end

/-! ## A class of expressions as they are written -/

/-- Where an expression stands: as a factor or a denominator, as a term, or alone. -/
inductive Part
  | product | sum | whole
  deriving DecidableEq

/-- A number, perhaps with a minus sign. -/
def Py.numVal : Py → Option ℚ
  | .num q => some q
  | .neg (.num q) => some (-q)
  | _ => none

/-- A name or a call. -/
def Py.isBase : Py → Bool
  | .name _ => true
  | .call _ _ => true
  | _ => false

/-- An integer between one and four, or minus one. -/
def Py.smallExp (b : Py) : Bool :=
  match b.numVal with
  | some q => decide (q.den = 1 ∧ ((1 ≤ q ∧ q < 5) ∨ (-5 < q ∧ q ≤ -1)))
  | none => false

/-- A set display that is not empty. -/
def Py.isDisplay : Py → Bool
  | .set (_ :: _) => true
  | _ => false

mutual
/-- Numbers, names and calls, combined by `+`, `-`, `*`, by division by products, and by powers: small integers as exponents
of products, others only of names and calls.  Alone there may also be a single comparison, a negated name, or `//`, `%` and
`^` between names, calls and numbers. -/
def Py.flat : Part → Py → Bool
  | _, .num _ => true
  | _, .name _ => true
  | _, .call _ args => Py.flatL args
  | m, .neg a => Py.flat (if m = .whole then .sum else m) a
  | m, .plus a => Py.flat (if m = .whole then .sum else m) a
  | m, .bin op a b =>
    match op with
    | .add => decide (m ≠ .product) && Py.flat .sum a && Py.flat .sum b
    | .sub => decide (m ≠ .product) && Py.flat .sum a && Py.flat .sum b
    | .mul => Py.flat (if m = .whole then .sum else m) a && Py.flat (if m = .whole then .sum else m) b
    | .div => Py.flat (if m = .whole then .sum else m) a && Py.flat .product b
    | .pow => Py.flat .product a && Py.flat .product b &&
        (b.smallExp || (a.isBase && (b.isBase || b.numVal.isSome)))
    | .bitor => false
    | .bitand => false
    | _ => decide (m = .whole) && Py.flat .product a && Py.flat .product b && (a.isBase || a.numVal.isSome) &&
        (b.isBase || b.numVal.isSome)
  | m, .compare a ops cs => decide (m = .whole) && Py.flat .sum a &&
    match ops, cs with
    | [op], [c] => if op = .isin ∨ op = .notin then c.isDisplay else Py.flat .sum c
    | _, _ => false
  | m, .lnot a => decide (m = .whole) &&
    match a with
    | .name _ => true
    | _ => false
  | _, _ => false
/-- The same for the arguments of a call. -/
def Py.flatL : List Py → Bool
  | [] => true
  | a :: as => Py.flat .whole a && Py.flatL as
end

end Verif
