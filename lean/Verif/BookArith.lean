import Verif.Book
import Verif.Arith

/-!
# Arithmetic of books

Model of `GenericBook.__add__`, `__iadd__`, `__mul__`, `__imul__`, `copy`, `cleared` and `clear`
(`/repo/histbook/book.py` 422-480).

Histograms are objects: the books have references (numbers) to them, and the values are in a list to which new histograms
are appended.  What the operations do with the value of a histogram is a parameter (`Verif.Arith`).  What histograms have in
common below that (arrays, dicts) is in `Verif.Heap`.  Books are values, as in `Verif.Book`.  Attachments are in
`Verif.Attach`.
-/

namespace Verif

/-- The operations of histograms (hist.py 496-597) on values.  The in-place ones leave a value behind also when they
raise. -/
structure HistArith (V : Type) where
  add : V → V → Except Err V
  iadd : V → V → Except (Err × V) V
  mul : ℚ → V → Except Err V
  imul : ℚ → V → Except (Err × V) V
  copy : V → V
  cleared : V → V

section
variable {V : Type} (A : HistArith V) (o : List V → HistOps ℕ)

/-- A new book, or the exception. -/
def made (r : Except (Err × BT ℕ) (BT ℕ)) : Except Err (BT ℕ) :=
  match r with
  | .ok b => .ok b
  | .error e => .error e.1

/-- A new histogram. -/
def newHist (s : List V) : Except Err V → Except Err (List V × BT ℕ)
  | .ok z => .ok (s ++ [z], .hist s.length)
  | .error e => .error e

/-- `fromdicts(content, ...)` with the histograms there are (book.py 93-103). -/
def fromItems (c : BClass) : List V × List (Str × BT ℕ) → Except Err (List V × BT ℕ)
  | (s, items) =>
    match made (mkBook (o s) c items) with
    | .ok b => .ok (s, b)
    | .error e => .error e

/-- The second loop of `__add__` (book.py 449-451): the entries that only the other one has.  A name with wildcards is
always "in" the book. -/
def onlyRight (x y : BL ℕ) : List (Str × BT ℕ) := y.items.filter fun p => !isGlob p.1 && (x.find p.1).isNone

/-- One more entry. -/
def consItem (n : Str) (v : BT ℕ) : List V × List (Str × BT ℕ) → List V × List (Str × BT ℕ)
  | (s, items) => (s, (n, v) :: items)

mutual
/-- `x + y` for histograms (hist.py 496-532) and books (book.py 439-455). -/
def BT.plus (s : List V) : BT ℕ → BT ℕ → Except Err (List V × BT ℕ)
  | .hist i, .hist j =>
    match s[i]?, s[j]? with
    | some u, some v => newHist s (A.add u v)
    | _, _ => .error .keyError
  | .hist _, .book _ _ _ => .error .typeError
  | .book _ _ _, .hist _ => .error .typeError
  | .book c _ x, .book _ _ y =>
    match BL.plus s x y with
    | .error e => .error e
    | .ok (s, items) => fromItems o c (s, items ++ onlyRight x y)
/-- The first loop of `__add__` (book.py 444-448); `other[n]` of a name with wildcards is a list, which cannot be added. -/
def BL.plus (s : List V) : BL ℕ → BL ℕ → Except Err (List V × List (Str × BT ℕ))
  | .nil, _ => .ok (s, [])
  | .cons n x r, y =>
    if isGlob n then .error .typeError
    else
      match y.find n with
      | .none =>
        match BL.plus s r y with
        | .error e => .error e
        | .ok t => .ok (consItem n x t)
      | .some z =>
        match BT.plus s x z with
        | .error e => .error e
        | .ok (s, b) =>
          match BL.plus s r y with
          | .error e => .error e
          | .ok t => .ok (consItem n b t)
end

mutual
/-- A new book with new histograms made by `g`: `x * value` (book.py 468-472), `x.copy()` (book.py 422-424) and
`x.cleared()` (book.py 435-437). -/
def BT.mapNew (g : V → Except Err V) (s : List V) : BT ℕ → Except Err (List V × BT ℕ)
  | .hist i =>
    match s[i]? with
    | some u => newHist s (g u)
    | none => .error .keyError
  | .book c _ x =>
    match BL.mapNew g s x with
    | .error e => .error e
    | .ok t => fromItems o c t
/-- The same for the entries. -/
def BL.mapNew (g : V → Except Err V) (s : List V) : BL ℕ → Except Err (List V × List (Str × BT ℕ))
  | .nil => .ok (s, [])
  | .cons n x r =>
    match BT.mapNew g s x with
    | .error e => .error e
    | .ok (s, b) =>
      match BL.mapNew g s r with
      | .error e => .error e
      | .ok t => .ok (consItem n b t)
end

/-- `book * k` (book.py 468-472). -/
def BT.times (k : ℚ) (s : List V) (b : BT ℕ) : Except Err (List V × BT ℕ) := b.mapNew o (A.mul k) s

/-- `book.copy()` (book.py 422-424). -/
def BT.copied (s : List V) (b : BT ℕ) : Except Err (List V × BT ℕ) := b.mapNew o (fun u => .ok (A.copy u)) s

/-- `book.cleared()` (book.py 435-437). -/
def BT.clearedBook (s : List V) (b : BT ℕ) : Except Err (List V × BT ℕ) := b.mapNew o (fun u => .ok (A.cleared u)) s

/-- Change a histogram in place. -/
def change (s : List V) (i : ℕ) (g : V → Except (Err × V) V) : Except (Err × List V) (List V) :=
  match s[i]? with
  | none => .error (.keyError, s)
  | some u =>
    match g u with
    | .ok z => .ok (s.set i z)
    | .error (e, z) => .error (e, s.set i z)

/-- In turn for all histograms of a list. -/
def changeAll (g : V → Except (Err × V) V) : List ℕ → List V → Except (Err × List V) (List V)
  | [], s => .ok s
  | i :: is, s =>
    match change s i g with
    | .error e => .error e
    | .ok s => changeAll g is s

/-- `book *= k` (book.py 477-480): in the books inside too, in order. -/
def BL.itimes (k : ℚ) (s : List V) (x : BL ℕ) : Except (Err × List V) (List V) := changeAll (A.imul k) x.hists s

/-- `book.clear()` (book.py 430-433). -/
def BL.clearAll (s : List V) (x : BL ℕ) : Except (Err × List V) (List V) :=
  changeAll (fun u => .ok (A.cleared u)) x.hists s

/-- `self[n] = value` in the loop of `__iadd__`. -/
def setLoop (s : List V) (b : BT ℕ) (n : Str) (v : BT ℕ) : Except (Err × List V × BT ℕ) (List V × BT ℕ) :=
  match b.setitem (o s) n v with
  | .ok b => .ok (s, b)
  | .error (e, b) => .error (e, s, b)

/-- The book inside is the same object, also after an exception. -/
def BT.putEntry {α : Type} (b : BT α) (n : Str) (v : BT α) : BT α :=
  match b with
  | .hist h => .hist h
  | .book c f x => .book c f (x.put n v)

mutual
/-- `x += y` for histograms (hist.py 534-565) and books (book.py 457-466). -/
def BT.iplus (s : List V) : BT ℕ → BT ℕ → Except (Err × List V × BT ℕ) (List V × BT ℕ)
  | .hist i, .hist j =>
    match s[j]? with
    | none => .error (.keyError, s, .hist i)
    | some v =>
      match change s i fun u => A.iadd u v with
      | .ok s => .ok (s, .hist i)
      | .error (e, s) => .error (e, s, .hist i)
  | .hist i, .book _ _ _ => .error (.typeError, s, .hist i)
  | .book c f x, .hist _ => .error (.typeError, s, .book c f x)
  | .book c f x, .book _ _ y => BL.iplus s (.book c f x) y
/-- The loop of `__iadd__` (book.py 461-465), over the entries of the other book.  `self[n]` of a name with wildcards is a
list; that something is raised for it is all that is modelled. -/
def BL.iplus (s : List V) : BT ℕ → BL ℕ → Except (Err × List V × BT ℕ) (List V × BT ℕ)
  | b, .nil => .ok (s, b)
  | b, .cons n y r =>
    if isGlob n then .error (.typeError, s, b)
    else
      match b.content.find n with
      | .none =>
        match setLoop o s b n y with
        | .error e => .error e
        | .ok (s, b) => BL.iplus s b r
      | .some x =>
        match BT.iplus s x y with
        | .error (e, s, x) => .error (e, s, b.putEntry n x)
        | .ok (s, x) =>
          match setLoop o s b n x with
          | .error e => .error e
          | .ok (s, b) => BL.iplus s b r
end

end

/-! ## The operations of histograms -/

section
variable {α β : Type} [DecidableEq β] (axes : α → β)

/-- `self._group + self._fixed + self._profile == other._group + other._fixed + other._profile` (hist.py 500, 538).  The
expressions are what `axes` gives of the settings; weight and filter are not compared. -/
def sameAxes (x y : HistObj α) : Prop :=
  x.H.groups = y.H.groups ∧ x.H.fixed = y.H.fixed ∧ x.H.nprof = y.H.nprof ∧ axes x.settings = axes y.settings

instance (x y : HistObj α) : Decidable (sameAxes axes x y) := inferInstanceAs (Decidable (_ ∧ _))

/-- The content of the other one, which has as many groupings. -/
def otherContent {x y : HistObj α} (h : x.H.groups = y.H.groups) : x.H.State :=
  cast (congrArg (fun g : List GroupAxis => Option (Content Arr g.length)) h.symm) y.content

/-- hist.py 496-532 `__add__`. -/
def histAdd (x y : HistObj α) : Except Err (HistObj α) :=
  if h : sameAxes axes x y then (addState x.content (otherContent h.1)).map fun c => ⟨x.H, x.settings, c⟩
  else .error .typeError

/-- hist.py 534-565 `__iadd__`. -/
def histIadd (x y : HistObj α) : Except (Err × HistObj α) (HistObj α) :=
  if h : sameAxes axes x y then
    match iaddState x.content (otherContent h.1) with
    | .ok c => .ok ⟨x.H, x.settings, c⟩
    | .error (e, c) => .error (e, ⟨x.H, x.settings, c⟩)
  else .error (.typeError, x)

/-- hist.py 567-580 `__mul__`. -/
def histMul (k : ℚ) (x : HistObj α) : Except Err (HistObj α) :=
  (mulState k x.content).map fun c => ⟨x.H, x.settings, c⟩

/-- hist.py 585-597 `__imul__`. -/
def histImul (k : ℚ) (x : HistObj α) : Except (Err × HistObj α) (HistObj α) :=
  match imulState k x.content with
  | .ok c => .ok ⟨x.H, x.settings, c⟩
  | .error (e, c) => .error (e, ⟨x.H, x.settings, c⟩)

/-- The operations of histograms; `copy` is hist.py 79-83, `cleared` and `clear` are hist.py 92-98. -/
def histArith : HistArith (HistObj α) where
  add := histAdd axes
  iadd := histIadd axes
  mul := histMul
  imul := histImul
  copy := id
  cleared x := ⟨x.H, x.settings, none⟩

end

end Verif
