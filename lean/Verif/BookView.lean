import Verif.Book

/-!
# Views of books

Model of `ViewableBook.view` (`/repo/histbook/book.py` 588-616), which `ChannelsBook` and `SamplesBook` have.  Attachments are
left out; that of a view is the one of the book, see C70.
-/

namespace Verif

variable {α : Type}

/-- `ViewBook.fromdicts(content, node._attachment) if len(content) != 0 else None` (book.py 606-609). -/
def viewNode (o : HistOps α) : List (Str × BT α) → Except Err (Option (BT α))
  | [] => .ok none
  | p :: r =>
    match mkBook o .view (p :: r) with
    | .ok b => .ok (some b)
    | .error e => .error e.1

mutual
/-- `recurse(node, path)` (book.py 593-609); `fnm` is `fnmatch.fnmatchcase`. -/
def BT.viewRec (fnm : Str → Str → Bool) (o : HistOps α) (name : Str) (path : List Str) : BT α → Except Err (Option (BT α))
  | .hist h => if fnm (joinS path) name then .ok (some (.hist h)) else .ok none
  | .book _ _ x =>
    match x.viewRec fnm o name path with
    | .ok items => viewNode o items
    | .error e => .error e
/-- The loop of `recurse` (book.py 602-605). -/
def BL.viewRec (fnm : Str → Str → Bool) (o : HistOps α) (name : Str) (path : List Str) : BL α → Except Err (List (Str × BT α))
  | .nil => .ok []
  | .cons n x r =>
    match x.viewRec fnm o name (path ++ [n]) with
    | .error e => .error e
    | .ok deep =>
      match r.viewRec fnm o name path with
      | .error e => .error e
      | .ok items => .ok (match deep with | some d => (n, d) :: items | none => items)
end

/-- `view(name)` (book.py 589-613). -/
def BT.viewOf (fnm : Str → Str → Bool) (o : HistOps α) (b : BT α) (name : Str) : Except Err (BT α) :=
  match b.viewRec fnm o name [] with
  | .ok (some v) => .ok v
  | .ok none => .error .valueError
  | .error e => .error e

end Verif
