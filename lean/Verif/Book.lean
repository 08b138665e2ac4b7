import Verif.Num

/-!
# Books

Model of `/repo/histbook/book.py`: books are ordered dictionaries of histograms and of other books, addressed by
paths with slashes.  What is modelled of a histogram is a parameter.

Simplification: books are values here.  That is right for books that are not contained in two places at once or in
themselves; histograms may be in several places (as references in the parameter).  Exceptions come with the book
as it is left behind.
-/

namespace Verif

/-- A name or path. -/
abbrev Str := List Char

/-- A path, cut at each slash.  `name[:slash]` and `name[slash + 1:]` for the first slash (book.py 216-222, 227-236,
247-253) are the first and the other parts (`comps_slash`). -/
def comps : Str → List Str
  | [] => [[]]
  | c :: cs =>
    if c = '/' then [] :: comps cs
    else
      match comps cs with
      | [] => [[c]]
      | h :: t => (c :: h) :: t

/-- The parts with slashes between them. -/
def joinS : List Str → Str
  | [] => []
  | [a] => a
  | a :: b :: r => a ++ '/' :: joinS (b :: r)

/-- `"*" in name or "?" in name or "[" in name` (book.py 262, 283). -/
def isGlob (name : Str) : Bool := name.any fun c => c = '*' || c = '?' || c = '['

/-- The classes of books (book.py 50, 515, 618, 624, 627, 635).  `GenericBook`, `ChannelsBook` and `SamplesBook`
cannot be filled. -/
inductive BClass
  | generic
  | book
  | view
  | channels
  | samples
  | systematics
  deriving DecidableEq

/-- The attribute `_fields` of a book (fill.py 41-59): not there, `None`, or computed.  With it are computed the
instructions and destinations for the histograms that the book then had. -/
inductive Fields (α : Type)
  | absent
  | none
  | some (l : List α)
  deriving DecidableEq

mutual
/-- A histogram or a book. -/
inductive BT (α : Type)
  | hist (h : α)
  | book (cls : BClass) (fields : Fields α) (content : BL α)
/-- The ordered dictionary `_content`. -/
inductive BL (α : Type)
  | nil
  | cons (n : Str) (x : BT α) (rest : BL α)
end

variable {α : Type}

/-- `_content.get(name, None)`. -/
def BL.find (n : Str) : BL α → Option (BT α)
  | .nil => .none
  | .cons m x r => if m = n then .some x else r.find n

/-- `_content[name] = value`: the position of an old entry is kept. -/
def BL.put (n : Str) (v : BT α) : BL α → BL α
  | .nil => .cons n v .nil
  | .cons m x r => if m = n then .cons m v r else .cons m x (r.put n v)

/-- `del _content[name]`. -/
def BL.del (n : Str) : BL α → BL α
  | .nil => .nil
  | .cons m x r => if m = n then r else .cons m x (r.del n)

/-- The names in order. -/
def BL.keys : BL α → List Str
  | .nil => []
  | .cons m _ r => m :: r.keys

/-- The entries in order. -/
def BL.items : BL α → List (Str × BT α)
  | .nil => []
  | .cons m x r => (m, x) :: r.items

/-- What `_changed` of a `SystematicsBook` needs to know of histograms: `one.compatible(two)` and
`x.has("systematic")`. -/
structure HistOps (α : Type) where
  compat : α → α → Bool
  sys : α → Bool

/-- `set(one.iterkeys()) == set(two.iterkeys())`. -/
def sameNames (a b : BL α) : Bool := a.keys.all (· ∈ b.keys) && b.keys.all (· ∈ a.keys)

mutual
/-- `recurse(path, one, two)` of `assertcompatible` (book.py 158-171): true if nothing is raised.  `one[n]` of a name
with wildcards is a list, which is neither a book nor a histogram. -/
def compatRec (o : HistOps α) : BT α → BT α → Bool
  | .hist h, .hist k => o.compat h k
  | .book c _ x, .book d _ y => decide (c = d) && sameNames x y && compatAll o x y
  | .hist _, .book _ _ _ => false
  | .book _ _ _, .hist _ => false
/-- `for n in one.iterkeys(): recurse(path + "/" + n, one[n], two[n])`. -/
def compatAll (o : HistOps α) : BL α → BL α → Bool
  | .nil, _ => true
  | .cons n x r, y =>
    !isGlob n && (match y.find n with | .some z => compatRec o x z | .none => false) && compatAll o r y
end

/-- `zip(items[:-1], items[1:])` (book.py 174-177). -/
def neighbours (o : HistOps α) : List (BT α) → Bool
  | x :: y :: r => compatRec o x y && neighbours o (y :: r)
  | _ => true

/-- `assertcompatible()` (book.py 156-177). -/
def BL.compatible (o : HistOps α) (c : BL α) : Bool := neighbours o (c.items.map (·.2))

mutual
/-- `_iteritems(path, recursive=True, onlyhist=False)` (book.py 289-296); `path` is the path of the book, cut at
slashes, and empty for `None`. -/
def BL.all (path : List Str) : BL α → List (List Str × BT α)
  | .nil => []
  | .cons n x r => (path ++ [n], x) :: x.all (path ++ [n]) ++ r.all path
/-- The entries of `x`, if it is a book. -/
def BT.all (path : List Str) : BT α → List (List Str × BT α)
  | .hist _ => []
  | .book _ _ c => c.all path
end

/-- `allitems()` (book.py 385-394): paths as strings. -/
def BL.allitems (c : BL α) : List (Str × BT α) := (c.all []).map fun p => (joinS p.1, p.2)

/-- `allkeys()` (book.py 396-405). -/
def BL.allkeys (c : BL α) : List Str := c.allitems.map (·.1)

/-- The histogram, if it is one. -/
def BT.hist? : BT α → Option α
  | .hist h => .some h
  | .book _ _ _ => .none

/-- `itervalues(recursive=True, onlyhist=True)` (book.py 289-296, 328-341). -/
def BL.hists (c : BL α) : List α := (c.all []).filterMap fun p => p.2.hist?

/-- `_changed()` (book.py 89-90, 525-526, 639-642).  The one of `SystematicsBook` replaces that of `Book` and does
not set `_fields`. -/
def BT.changed (o : HistOps α) : BT α → Except (Err × BT α) (BT α)
  | .hist h => .ok (.hist h)
  | .book c f x =>
    match c with
    | .book => .ok (.book c .none x)
    | .view => .ok (.book c .none x)
    | .systematics =>
      if x.compatible o && x.hists.all o.sys then .ok (.book c f x) else .error (.valueError, .book c f x)
    | _ => .ok (.book c f x)

/-- `Book()` (book.py 59-87, 525-526). -/
def newBook : BT α := .book .book .none .nil

/-- The result of changing an entry: the changed entry is in place also after an exception. -/
def within (o : HistOps α) (rebuild : BT α → BT α) : Except (Err × BT α) (BT α) → Except (Err × BT α) (BT α)
  | .ok b => (rebuild b).changed o
  | .error (e, b) => .error (e, rebuild b)

/-- `_set(name, value, path)` (book.py 225-239). -/
def BT.setP (o : HistOps α) (v : BT α) : List Str → BT α → Except (Err × BT α) (BT α)
  | _, .hist h => .error (.attributeError, .hist h)
  | [], b => .error (.assertion, b)
  | [n], .book c f x => (BT.book c f (x.put n v)).changed o
  | n :: m :: r, .book c f x =>
    match x.find n with
    | .none => within o (fun b => .book c f (x.put n b)) (BT.setP o v (m :: r) newBook)
    | .some (.book c' f' x') =>
      within o (fun b => .book c f (x.put n b)) (BT.setP o v (m :: r) (.book c' f' x'))
    | .some (.hist _) => .error (.keyError, .book c f x)

/-- `_get(name)` (book.py 210-223). -/
def BT.getP : List Str → BT α → Option (BT α)
  | _, .hist _ => .none
  | [], .book _ _ _ => .none
  | [n], .book _ _ x => x.find n
  | n :: m :: r, .book _ _ x =>
    match x.find (joinS (n :: m :: r)) with
    | .some y => .some y
    | .none =>
      match x.find n with
      | .some (.book c f y) => BT.getP (m :: r) (.book c f y)
      | _ => .none

/-- `_del(name, path)` (book.py 241-256). -/
def BT.delP (o : HistOps α) : List Str → BT α → Except (Err × BT α) (BT α)
  | _, .hist h => .error (.attributeError, .hist h)
  | [], b => .error (.assertion, b)
  | [n], .book c f x =>
    match x.find n with
    | .some _ => (BT.book c f (x.del n)).changed o
    | .none => .error (.keyError, .book c f x)
  | n :: m :: r, .book c f x =>
    match x.find (joinS (n :: m :: r)) with
    | .some _ => (BT.book c f (x.del (joinS (n :: m :: r)))).changed o
    | .none =>
      match x.find n with
      | .some (.book c' f' y) =>
        within o (fun b => .book c f (x.put n b)) (BT.delP o (m :: r) (.book c' f' y))
      | _ => .error (.keyError, .book c f x)

/-- The content of a book. -/
def BT.content : BT α → BL α
  | .hist _ => .nil
  | .book _ _ x => x

/-- What `book[name]` gives: an entry, or the list of all entries whose path matches a pattern. -/
inductive Got (α : Type)
  | one (x : BT α)
  | list (l : List (BT α))

/-- `__getitem__` (book.py 258-269).  `fnm` is `fnmatch.fnmatchcase`, which takes a path and a pattern. -/
def BT.getitem (fnm : Str → Str → Bool) (b : BT α) (name : Str) : Except Err (Got α) :=
  if isGlob name then .ok (.list ((b.content.allitems.filter fun p => fnm p.1 name).map (·.2)))
  else
    match b.getP (comps name) with
    | .some x => .ok (.one x)
    | .none => .error .keyError

/-- `__contains__` (book.py 202-208). -/
def BT.contains (fnm : Str → Str → Bool) (b : BT α) (name : Str) : Bool :=
  match b.getitem fnm name with
  | .ok _ => true
  | .error _ => false

/-- `__setitem__` (book.py 271-277) with a histogram or a book. -/
def BT.setitem (o : HistOps α) (b : BT α) (name : Str) (v : BT α) : Except (Err × BT α) (BT α) :=
  BT.setP o v (comps name) b

/-- The loop of `__delitem__` with a pattern (book.py 284-285). -/
def delEach (o : HistOps α) : List Str → BT α → Except (Err × BT α) (BT α)
  | [], b => .ok b
  | n :: ns, b =>
    match b.delP o (comps n) with
    | .ok b => delEach o ns b
    | .error e => .error e

/-- `__delitem__` (book.py 279-287). -/
def BT.delitem (o : HistOps α) (b : BT α) (name : Str) : Except (Err × BT α) (BT α) :=
  if isGlob name then delEach o b.content.allkeys b else b.delP o (comps name)

/-- The loop of `__init__` and `fromdicts` over the given items (book.py 71-72, 84-85, 99-100). -/
def setEach (o : HistOps α) : List (Str × BT α) → BT α → Except (Err × BT α) (BT α)
  | [], b => .ok b
  | (n, v) :: r, b =>
    match b.setitem o n v with
    | .ok b => setEach o r b
    | .error e => .error e

/-- `fromdicts(content, attachment)` (book.py 93-103) or the constructor with a dict (book.py 59-87). -/
def mkBook (o : HistOps α) (cls : BClass) (items : List (Str × BT α)) : Except (Err × BT α) (BT α) :=
  match setEach o items (.book cls .absent .nil) with
  | .ok b => b.changed o
  | .error e => .error e

end Verif
