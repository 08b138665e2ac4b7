import Verif.Goals

/-!
# Fields that hold texts

`fill` with arrays or single values that are texts besides those that are numbers.  A field of texts can be grouped by
(`groupby`); what numpy does with texts in other functions is outside of the model, and so are arrays of mixed values
(numpy would turn all of them into texts, or keep Python objects).
-/

namespace Verif

/-- One value of a field: a number, "not a number" (`none`), or a text. -/
inductive Fld
  | num (v : Option ℚ)
  | str (s : String)
  deriving DecidableEq

/-- The value is a number. -/
def Fld.isNum : Fld → Bool
  | .num _ => true
  | .str _ => false

/-- The number; not used for texts. -/
def Fld.toQ : Fld → Option ℚ
  | .num v => v
  | .str _ => some 0

/-- The text; not used for numbers. -/
def Fld.text : Fld → String
  | .num _ => ""
  | .str s => s

/-- The values of a field as an array (fill.py 112-121 for one value that is made an array of the length of the others,
139-147 for arrays).  Mixed values become something that no function takes. -/
def colOf (l : List Fld) : Col :=
  if l.all Fld.isNum then .nums (l.map Fld.toQ)
  else if l.all (fun f => !f.isNum) then .texts (l.map Fld.text)
  else .idx []

/-- The values of constants (fill.py 125-131). -/
def fldConsts (named : String → Option (Option ℚ)) : Consts Fld where
  named s := (named s).map .num
  value v := .num ((numConsts named).value v)

/-- What `fill` does before `_postfill` (fill.py 85-162). -/
def HistExprs.computeText (X : HistExprs) (more : String → Option (List (Option ℚ) → Option ℚ))
    (named : String → Option (Option ℚ)) (get : String → Option (Given Fld))
    (srcs : List Node) (ord : List Node → List Node) : Except Err (Dest × ℕ) := do
  let G ← X.goals
  let r ← fillFields (colLib more) colOf (fldConsts named) get G.all srcs ord
  let d ← G.dest r.1
  .ok (d, r.2)

/-- `Hist.fill` (hist.py 336-377) from the arguments, which may be texts, to the content. -/
def HistExprs.fillText (X : HistExprs) (more : String → Option (List (Option ℚ) → Option ℚ))
    (named : String → Option (Option ℚ)) (get : String → Option (Given Fld))
    (srcs : List Node) (ord : List Node → List Node) (st : X.hist.State) : Res X.hist.State :=
  let c := prefill X.hist.layout st
  match X.computeText more named get srcs ord with
  | .error e => .error (e, some c)
  | .ok (d, n) =>
    match postfill X.hist.layout n d c with
    | .error (e, c) => .error (e, some c)
    | .ok c => .ok (some c)

end Verif
