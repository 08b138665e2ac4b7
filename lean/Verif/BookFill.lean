import Verif.Goals
import Verif.Book

/-!
# Filling a book

Model of `Book.fill` (`/repo/histbook/book.py` 515-585), `Book._streamline`, `Hist._streamline` and `Fillable.fields`
(`/repo/histbook/fill.py` 41-59): one computation for all histograms of a book, whose results are put into the
destinations of the histograms that the book had when the computation was set up.

Histograms are objects; the book has references to them (numbers).  Simplifications: an exception during the computation
leaves all destinations as they were; what filling does with shared contents is in `Verif.Heap`.
-/

namespace Verif

/-- A histogram as filling sees it: its expressions, its content, and what is in `_destination[0]` for each of its goals
(`None` for those that are not in the list). -/
structure BHist where
  X : HistExprs
  state : X.hist.State
  dest : List (Node × Col)

/-- `_goals` (hist.py 152-162); a histogram that exists has them. -/
def BHist.goals (h : BHist) : List Node :=
  match h.X.goals with
  | .ok G => G.all
  | .error _ => []

/-- `_prefill()` (hist.py 379-384). -/
def BHist.prefill (h : BHist) : BHist := { h with state := some (Verif.prefill h.X.hist.layout h.state) }

/-- The exported quantities are put into the destinations of the goals of the histogram (hist.py 325-334, fill.py
151-154). -/
def BHist.deliver (r : List (Node × Col)) (h : BHist) : BHist :=
  { h with dest := (r.filter fun p => p.1 ∈ h.goals) ++ h.dest }

/-- What `_postfill` finds in the destinations. -/
def BHist.found (h : BHist) : Except Err Dest :=
  match h.X.goals with
  | .ok G => G.dest h.dest
  | .error e => .error e

/-- `_postfill(arrays, length)` (hist.py 386-494), which empties the destinations at its end. -/
def BHist.post (n : ℕ) (h : BHist) : Except (Err × BHist) BHist :=
  match h.found with
  | .error e => .error (e, h)
  | .ok d =>
    match Verif.postfill h.X.hist.layout n d (Verif.prefill h.X.hist.layout h.state) with
    | .error (e, c) => .error (e, { h with state := some c })
    | .ok c => .ok { h with state := some c, dest := [] }

section
variable (more : String → Option (List (Option ℚ) → Option ℚ)) (named : String → Option (Option ℚ))
  (get : String → Option (Given (Option ℚ)))

/-- `Hist.fill` (hist.py 336-377), with the destinations. -/
def BHist.fill (h : BHist) (srcs : List Node) (ord : List Node → List Node) : Except (Err × BHist) BHist :=
  match fillFields (colLib more) .nums (numConsts named) get h.goals srcs ord with
  | .error e => .error (e, h.prefill)
  | .ok (r, n) => (h.prefill.deliver r).post n

/-- All histograms there are. -/
abbrev Store := ℕ → BHist

/-- Change one. -/
def Store.set (w : Store) (i : ℕ) (h : BHist) : Store := fun j => if j = i then h else w j

/-- `for x in self.itervalues(...): x._prefill()` (book.py 581-582). -/
def Store.prefillAll (w : Store) : List ℕ → Store
  | [] => w
  | i :: is => (w.set i (w i).prefill).prefillAll is

/-- The exports go to the histograms that were in the book when the instructions were made (book.py 532-537). -/
def Store.deliverAll (w : Store) (r : List (Node × Col)) (is : List ℕ) : Store :=
  fun i => if i ∈ is then (w i).deliver r else w i

/-- `for x in self.itervalues(...): x._postfill(arrays, length)` (book.py 584-585). -/
def Store.postAll (n : ℕ) : List ℕ → Store → Except (Err × Store) Store
  | [], w => .ok w
  | i :: is, w =>
    match (w i).post n with
    | .error (e, h) => .error (e, w.set i h)
    | .ok h => Store.postAll n is (w.set i h)

/-- `_goals` of the book: `reduce(set.union, ...)` has no value for no histogram at all (book.py 528-530). -/
def Store.goals (w : Store) : List ℕ → Except Err (List Node)
  | [] => .error .typeError
  | is => .ok (is.flatMap fun i => (w i).goals)

/-- For which histograms the instructions are: those of the last time, or the present ones (fill.py 44-57). -/
def cachedFor (f : Fields ℕ) (cur : List ℕ) : Except Err (List ℕ) :=
  match f with
  | .absent => .error .attributeError
  | .none => .ok cur
  | .some l => .ok l

/-- `_fill` of a book (fill.py 41-162) with the histograms `cur`: the exports, the length, and for which histograms. -/
def Store.compute (w : Store) (f : Fields ℕ) (cur : List ℕ) (srcs : List Node) (ord : List Node → List Node) :
    Except Err (List (Node × Col) × ℕ × List ℕ) := do
  let l ← cachedFor f cur
  let gs ← w.goals l
  let r ← fillFields (colLib more) .nums (numConsts named) get gs srcs ord
  .ok (r.1, r.2, l)

/-- `Book.fill` (book.py 579-585) with the histograms `cur`: the histograms afterwards, and for which the instructions are. -/
def Store.bookFill (w : Store) (f : Fields ℕ) (cur : List ℕ) (srcs : List Node) (ord : List Node → List Node) :
    Except (Err × Store) (Store × List ℕ) :=
  match (w.prefillAll cur).compute more named get f cur srcs ord with
  | .error e => .error (e, w.prefillAll cur)
  | .ok (r, n, l) =>
    match ((w.prefillAll cur).deliverAll r l).postAll n cur with
    | .error e => .error e
    | .ok w => .ok (w, l)

/-- Whether the class has a method `fill` (book.py 515, 618, 635). -/
def BClass.fillable : BClass → Bool
  | .book => true
  | .view => true
  | .systematics => true
  | _ => false

/-- `_fields` after `self.fields` (fill.py 41-59), also if that raises. -/
def Store.fieldsAfter (w : Store) (f : Fields ℕ) (cur : List ℕ) (srcs : List Node) (ord : List Node → List Node) :
    Fields ℕ :=
  match f with
  | .none =>
    match w.goals cur with
    | .error _ => .none
    | .ok gs =>
      match compile gs srcs ord, sortedFields srcs with
      | .ok _, .ok _ => .some cur
      | _, _ => .none
  | f => f

/-- `x.fill(...)` for a histogram or a book (hist.py 336-377, book.py 539-585). -/
def BT.fillIt (w : Store) (srcs : List Node) (ord : List Node → List Node) (b : BT ℕ) :
    Except (Err × Store × BT ℕ) (Store × BT ℕ) :=
  match b with
  | .hist i =>
    match (w i).fill more named get srcs ord with
    | .error (e, h) => .error (e, w.set i h, .hist i)
    | .ok h => .ok (w.set i h, .hist i)
  | .book c f x =>
    if c.fillable then
      match w.bookFill more named get f x.hists srcs ord with
      | .error (e, w') => .error (e, w', .book c (w.fieldsAfter f x.hists srcs ord) x)
      | .ok (w', l) => .ok (w', .book c (.some l) x)
    else .error (.attributeError, w, .book c f x)

/-- `book[path].fill(...)`: the book inside is the same object.  For names without slashes `_get` (book.py 210-223) goes
along the path. -/
def BT.fillAt (w : Store) (srcs : List Node) (ord : List Node → List Node) :
    List Str → BT ℕ → Except (Err × Store × BT ℕ) (Store × BT ℕ)
  | [], b => b.fillIt more named get w srcs ord
  | _ :: _, .hist i => .error (.keyError, w, .hist i)
  | n :: p, .book c f x =>
    match x.find n with
    | .none => .error (.keyError, w, .book c f x)
    | .some y =>
      match BT.fillAt w srcs ord p y with
      | .error (e, w', y) => .error (e, w', .book c f (x.put n y))
      | .ok (w', y) => .ok (w', .book c f (x.put n y))

end

/-- `b[path]` is changed as an object: the books above are not told (book.py 225-239 and 241-256 call `_changed` on the
books that the names in the brackets go through, and on no others). -/
def BT.inside (g : BT ℕ → Except (Err × BT ℕ) (BT ℕ)) : List Str → BT ℕ → Except (Err × BT ℕ) (BT ℕ)
  | [], b => g b
  | _ :: _, .hist i => .error (.keyError, .hist i)
  | n :: p, .book c f x =>
    match x.find n with
    | .none => .error (.keyError, .book c f x)
    | .some y =>
      match BT.inside g p y with
      | .error (e, y) => .error (e, .book c f (x.put n y))
      | .ok y => .ok (.book c f (x.put n y))

/-- What a program does with a book and its histograms. -/
inductive BOp
  /-- `book[path][name] = v`, or `book[name] = v` if `path` is empty -/
  | set (path : List Str) (name : Str) (v : BT ℕ)
  /-- `del book[path][name]` -/
  | del (path : List Str) (name : Str)
  /-- `book[path].fill(...)` -/
  | fill (path : List Str) (get : String → Option (Given (Option ℚ))) (srcs : List Node) (ord : List Node → List Node)

/-- One of them, whether or not it raises an exception. -/
def bstep (o : HistOps ℕ) (more : String → Option (List (Option ℚ) → Option ℚ)) (named : String → Option (Option ℚ)) :
    Store × BT ℕ → BOp → Store × BT ℕ
  | (w, b), .set path name v =>
    match b.inside (fun y => y.setitem o name v) path with
    | .ok b => (w, b)
    | .error (_, b) => (w, b)
  | (w, b), .del path name =>
    match b.inside (fun y => y.delitem o name) path with
    | .ok b => (w, b)
    | .error (_, b) => (w, b)
  | (w, b), .fill path get srcs ord =>
    match b.fillAt more named get w srcs ord path with
    | .ok (w, b) => (w, b)
    | .error (_, w, b) => (w, b)

/-- All of them. -/
def brun (o : HistOps ℕ) (more : String → Option (List (Option ℚ) → Option ℚ)) (named : String → Option (Option ℚ)) :
    Store × BT ℕ → List BOp → Store × BT ℕ
  | s, [] => s
  | s, op :: ops => brun o more named (bstep o more named s op) ops

end Verif
