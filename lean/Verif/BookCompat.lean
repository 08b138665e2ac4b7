import Verif.Book

/-!
# Compatible books

Model of `GenericBook.compatible` in `/repo/histbook/book.py` (the check of a `SystematicsBook` is in `Verif.Book`).
-/

namespace Verif

variable {α : Type}

mutual
/-- `one.compatible(two)` (book.py 152-154; hist.py 749-751).  A histogram has no `iterkeys` and a book no `_group`. -/
def compatT (o : HistOps α) : BT α → BT α → Except Err Bool
  | .hist h, .hist k => .ok (o.compat h k)
  | .book _ _ x, .book _ _ y => if sameNames x y then compatL o x y else .ok false
  | .hist _, .book _ _ _ => .error .attributeError
  | .book _ _ _, .hist _ => .error .attributeError
/-- `all(self[n].compatible(other[n]) for n in self.iterkeys())`; `self[n]` of a name with wildcards is a list, which
has no `compatible`. -/
def compatL (o : HistOps α) : BL α → BL α → Except Err Bool
  | .nil, _ => .ok true
  | .cons n x r, y =>
    if isGlob n then .error .attributeError
    else
      match y.find n with
      | .none => .error .keyError
      | .some z =>
        match compatT o x z with
        | .ok true => compatL o r y
        | e => e
end

end Verif
