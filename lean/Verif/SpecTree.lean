import Verif.SpecExpr
import Verif.Tree

/-!
# Which expressions can be computed

A description by syntax alone.
-/

namespace Verif

mutual
/-- Arithmetic whose functions are all in the library `lib`, without `//` and `^`. -/
def Py.runs (lib : String → Bool) : Py → Bool
  | .num _ => true
  | .name _ => true
  | .neg a => a.runs lib
  | .plus a => a.runs lib
  | .invert a => a.runs lib
  | .bin .floordiv _ _ => false
  | .bin .xor _ _ => false
  | .bin .pow a b => lib "pow" && a.runs lib && b.runs lib
  | .bin .mod a b => lib "fmod" && a.runs lib && b.runs lib
  | .bin _ a b => a.runs lib && b.runs lib
  | .call f args => lib f && Py.runsL lib args
  | _ => false
/-- The same for all elements of a list. -/
def Py.runsL (lib : String → Bool) : List Py → Bool
  | [] => true
  | a :: as => a.runs lib && Py.runsL lib as
end

/-- Is the value of the field 0 or 1? -/
def isFlag (field : String → Option ℚ) (s : String) : Bool := decide (field s = some 0 ∨ field s = some 1)

mutual
/-- Conditions made of comparisons of such arithmetic other than `in` and `not in`, and of boolean fields
that are not negated (`flag` is false below an odd number of `not`). -/
def Py.runsCond (lib : String → Bool) (field : String → Option ℚ) : Bool → Py → Bool
  | flag, .name s => flag && isFlag field s
  | _, .compare a ops cs => a.runs lib && Py.runsL lib cs && ops.all fun o => o ≠ .isin ∧ o ≠ .notin
  | flag, .lnot a => a.runsCond lib field !flag
  | flag, .land l => Py.runsCondL lib field flag l
  | flag, .lor l => Py.runsCondL lib field flag l
  | _, _ => false
/-- The same for all elements of a list. -/
def Py.runsCondL (lib : String → Bool) (field : String → Option ℚ) : Bool → List Py → Bool
  | _, [] => true
  | flag, a :: as => a.runsCond lib field flag && Py.runsCondL lib field flag as
end

/-- The functions in the library. -/
def inLibrary (f : String) : Bool := decide (f ∈ libraryNames)

/-- The functions that the parser recognises. -/
def recognized (f : String) : Bool := decide (f ∈ recognizedNames)

end Verif
