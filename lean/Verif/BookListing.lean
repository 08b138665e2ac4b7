import Verif.Book

/-!
# Listing the entries of a book

Mirrors `GenericBook._iteritems` and the methods made from it (`/repo/histbook/book.py` 289-416) with both options.
Generators are lists.
-/

namespace Verif

variable {α : Type}

/-- `n if path is None else path + "/" + n` (book.py 292, 295). -/
def childPath (path : Option Str) (n : Str) : Str :=
  match path with
  | none => n
  | some p => p ++ '/' :: n

mutual
/-- book.py 289-296 `_iteritems`. -/
def BL.iteritems (recursive onlyhist : Bool) (path : Option Str) : BL α → List (Str × BT α)
  | .nil => []
  | .cons n x r =>
    (if !onlyhist || x.hist?.isSome then [(childPath path n, x)] else []) ++
      (if recursive then x.iteritems recursive onlyhist (some (childPath path n)) else []) ++
      r.iteritems recursive onlyhist path
/-- book.py 294-296: the entries of `x` if it is a book. -/
def BT.iteritems (recursive onlyhist : Bool) (path : Option Str) : BT α → List (Str × BT α)
  | .hist _ => []
  | .book _ _ c => c.iteritems recursive onlyhist path
end

/-- The optional arguments of a listing; `none` is an argument that is not given. -/
structure ListOpts where
  recursive : Option Bool := none
  onlyhist : Option Bool := none

/-- book.py 298-311, 343-355 `iteritems` and `items`: the defaults are `recursive=False, onlyhist=False`. -/
def BT.items (o : ListOpts) (b : BT α) : List (Str × BT α) :=
  b.iteritems (o.recursive.getD false) (o.onlyhist.getD false) none

/-- book.py 313-326, 357-369 `iterkeys` and `keys`. -/
def BT.keys (o : ListOpts) (b : BT α) : List Str := (b.items o).map (·.1)

/-- book.py 328-341, 371-383 `itervalues` and `values`. -/
def BT.values (o : ListOpts) (b : BT α) : List (BT α) := (b.items o).map (·.2)

/-- book.py 385-394 `allitems`. -/
def BT.allitems (onlyhist : Option Bool) (b : BT α) : List (Str × BT α) := b.items ⟨some true, some (onlyhist.getD false)⟩

/-- book.py 396-405 `allkeys`. -/
def BT.allkeys (onlyhist : Option Bool) (b : BT α) : List Str := b.keys ⟨some true, some (onlyhist.getD false)⟩

/-- book.py 407-416 `allvalues`. -/
def BT.allvalues (onlyhist : Option Bool) (b : BT α) : List (BT α) := b.values ⟨some true, some (onlyhist.getD false)⟩

end Verif
