import Verif.ExprText
import Verif.Params
import Verif.Goals

/-!
# The argument `fill` of the constructor

Model of the end of `Hist.__init__` (`/repo/histbook/hist.py` 258-265).  Spark DataFrames are left out.
-/

namespace Verif

/-- The argument `fill` of `Hist(...)`: `None`, a dict, or something else, which is taken as an array. -/
inductive CtorArg (α : Type)
  | none
  | dict (d : String → Option (Given α))
  | other (l : List α)

/-- The parsed expressions of all axes, `self._group + self._fixed + self._profile`. -/
def HistExprs.exprs (X : HistExprs) : List E := X.groups.map (·.2) ++ X.fixed.map (·.2) ++ X.profs

/-- What `fill` is called with, if it is called (hist.py 258-265): an array becomes a dict with one key, the text of the
expression.  The key is a name of a field only if the text is nothing but a name. -/
def ctorArgs {α : Type} (X : HistExprs) : CtorArg α → Except Err (Option (FillArgs α))
  | .none => .ok none
  | .dict d => .ok (some ⟨some d, []⟩)
  | .other l =>
    match X.exprs with
    | [e] => .ok (some ⟨some fun n => if e.toks = [.name n] then some (.array l) else none, []⟩)
    | _ => .error .typeError

end Verif
