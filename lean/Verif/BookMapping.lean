import Verif.Book

/-!
# Books as mappings

`GenericBook` is a `collections.MutableMapping` (`/repo/histbook/book.py` 50) and "behaves like a dict" (56).  The methods
`pop`, `popitem`, `setdefault` and `update` are inherited from the standard library, where they are defined by `self[key]`,
`self[key] = value`, `del self[key]` and `iter(self)`; `__iter__` is book.py 418-420.
-/

namespace Verif

variable {α : Type}

/-- Something that is used as a key: a string, or a pair as `iter(book)` yields. -/
inductive BKey (α : Type)
  | name (s : Str)
  | pair (s : Str) (x : BT α)

/-- `iter(book)` (book.py 418-420): the same as `iteritems(recursive=True, onlyhist=True)`. -/
def BT.iter (b : BT α) : List (BKey α) :=
  (b.content.allitems.filter fun p => p.2.hist?.isSome).map fun p => .pair p.1 p.2

/-- `len(book)` (book.py 199-200). -/
def BT.len (b : BT α) : ℕ := b.content.keys.length

/-- `book[key]` (book.py 258-269). -/
def BT.getKey (fnm : Str → Str → Bool) (b : BT α) : BKey α → Except Err (Got α)
  | .name n => b.getitem fnm n
  | .pair _ _ => .error .typeError

/-- `book[key] = value` (book.py 271-277). -/
def BT.setKey (o : HistOps α) (b : BT α) : BKey α → BT α → Except (Err × BT α) (BT α)
  | .name n, v => b.setitem o n v
  | .pair _ _, _ => .error (.typeError, b)

/-- `del book[key]` (book.py 279-287). -/
def BT.delKey (o : HistOps α) (b : BT α) : BKey α → Except (Err × BT α) (BT α)
  | .name n => b.delitem o n
  | .pair _ _ => .error (.typeError, b)

/-- The result of a method together with the book that is left. -/
def withBook {γ : Type} (v : γ) : Except (Err × BT α) (BT α) → Except (Err × BT α) (BT α × γ)
  | .ok b => .ok (b, v)
  | .error e => .error e

/-- `book.pop(key)`. -/
def BT.pop (fnm : Str → Str → Bool) (o : HistOps α) (b : BT α) (k : BKey α) : Except (Err × BT α) (BT α × Got α) :=
  match b.getKey fnm k with
  | .error e => .error (e, b)
  | .ok v => withBook v (b.delKey o k)

/-- `book.popitem()`. -/
def BT.popitem (fnm : Str → Str → Bool) (o : HistOps α) (b : BT α) : Except (Err × BT α) (BT α × BKey α × Got α) :=
  match b.iter with
  | [] => .error (.keyError, b)
  | k :: _ =>
    match b.getKey fnm k with
    | .error e => .error (e, b)
    | .ok v => withBook (k, v) (b.delKey o k)

/-- `book.setdefault(key, value)`. -/
def BT.setdefault (fnm : Str → Str → Bool) (o : HistOps α) (b : BT α) (k : BKey α) (v : BT α) :
    Except (Err × BT α) (BT α × Got α) :=
  match b.getKey fnm k with
  | .ok x => .ok (b, x)
  | .error .keyError => withBook (.one v) (b.setKey o k v)
  | .error e => .error (e, b)

/-- The loop of `update` with a mapping: `for key in other: self[key] = other[key]`, where `get` is `other[key]`. -/
def updateWith (o : HistOps α) (get : BKey α → Except Err (BT α)) : List (BKey α) → BT α → Except (Err × BT α) (BT α)
  | [], b => .ok b
  | k :: ks, b =>
    match get k with
    | .error e => .error (e, b)
    | .ok v =>
      match b.setKey o k v with
      | .error e => .error e
      | .ok b => updateWith o get ks b

/-- What was got as a value to assign; a list is not accepted (book.py 274-275). -/
def Got.value : Got α → Except Err (BT α)
  | .one x => .ok x
  | .list _ => .error .typeError

/-- `book.update(other)` with another book. -/
def BT.updateBook (fnm : Str → Str → Bool) (o : HistOps α) (b other : BT α) : Except (Err × BT α) (BT α) :=
  updateWith o (fun k => match other.getKey fnm k with
    | .ok g => g.value
    | .error e => .error e) other.iter b

/-- `book.update(d)` with a dict of names. -/
def BT.updateDict (o : HistOps α) (b : BT α) (d : List (Str × BT α)) : Except (Err × BT α) (BT α) := setEach o d b

end Verif
