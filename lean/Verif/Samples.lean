import Verif.Heap
import Verif.BookArith

/-!
# Samples books, and filling books whose histograms share contents

Model of the constructor of `SamplesBook` (`/repo/histbook/book.py` 627-633), which puts a `copyonfill` of the given
histograms under the name of each sample, and of `Book.fill` (book.py 579-585) for histograms whose contents are objects
(`Verif.Heap`).

A program has histograms of several definitions, numbered by `D`; histograms of different definitions have no objects in
common (an array is made for one definition, hist.py 379-384, and every operation that shares one keeps the definition).
The data given to a fill is described by the rows that each definition gets from it.
-/

namespace Verif

/-- A histogram of a program: its definition, and `_content` and `_copyonfill`. -/
structure DVar where
  d : ℕ
  obj : HObj
  deriving DecidableEq

/-- All histograms of a program, with the objects for each definition. -/
structure Prog where
  heaps : ℕ → Heap
  vars : List DVar

/-- The histogram, seen among those of definition `d`: others are as if they were new. -/
def DVar.of (d : ℕ) (v : DVar) : HObj := if v.d = d then v.obj else ⟨none, false⟩

/-- The histograms of definition `d`. -/
def Prog.world (P : Prog) (d : ℕ) : World := ⟨P.heaps d, P.vars.map (DVar.of d)⟩

/-- The variables an operation names. -/
def Op.refs : Op → List ℕ
  | .fill i _ | .bookFill i _ | .mul i _ | .imul i _ | .copy i | .copyonfill i | .clear i | .cleared i | .read i => [i]
  | .add i j | .iadd i j => [i, j]

/-- A variable after an operation on definition `d` has left `v` in its place. -/
def DVar.after (d : ℕ) (u : Option DVar) (v : HObj) : DVar :=
  match u with
  | some u => if u.d = d then ⟨d, v⟩ else u
  | none => ⟨d, v⟩

/-- The program after an operation on the histograms of definition `d`. -/
def Prog.back (P : Prog) (d : ℕ) (w : World) : Prog :=
  ⟨fun e => if e = d then w.heap else P.heaps e, w.vars.mapIdx fun k v => DVar.after d P.vars[k]? v⟩

section
variable (D : ℕ → HistDef)

/-- An operation on histograms of definition `d`; with others it raises (hist.py 500, 538). -/
def Prog.step (P : Prog) (d : ℕ) (op : Op) : Prog × Option Err :=
  if op.refs.all fun i => decide ((P.vars[i]?.map DVar.d) = some d) then
    (P.back d ((P.world d).step (D d) op).1, ((P.world d).step (D d) op).2)
  else (P, some .typeError)

/-- What the histogram in variable `i` looks like, if its definition is `d`. -/
def Prog.view (P : Prog) (d i : ℕ) : Option (D d).State := (P.world d).view (D d) i

/-- An operation on the histogram in variable `i`. -/
def Prog.stepAt (P : Prog) (i : ℕ) (f : ℕ → Op) : Prog × Option Err :=
  match P.vars[i]? with
  | some v => P.step D v.d (f v.d)
  | none => (P, some .keyError)

/-- `for x in ...: x._prefill()` (book.py 581-582, hist.py 379-384). -/
def Prog.preAll : List ℕ → Prog → Prog
  | [], P => P
  | i :: is, P => Prog.preAll is (P.stepAt D i fun _ => .read i).1

/-- `for x in ...: x._postfill(arrays, length)` (book.py 584-585, hist.py 386-494). -/
def Prog.postAll (batch : ℕ → List Row) : List ℕ → Prog → Prog × Option Err
  | [], P => (P, none)
  | i :: is, P =>
    match P.stepAt D i fun d => .bookFill i (batch d) with
    | (P, none) => Prog.postAll batch is P
    | (P, some e) => (P, some e)

/-- `Book.fill` (book.py 579-585) of a book with the histograms `is`, which does not look at `_copyonfill`. -/
def Prog.fillBook (P : Prog) (is : List ℕ) (batch : ℕ → List Row) : Prog × Option Err :=
  Prog.postAll D batch is (P.preAll D is)

/-- What a program does. -/
inductive POp
  | hist (d : ℕ) (op : Op)
  | book (is : List ℕ) (batch : ℕ → List Row)

/-- One of them; exceptions are caught. -/
def Prog.next (P : Prog) : POp → Prog
  | .hist d op => (P.step D d op).1
  | .book is batch => (P.fillBook D is batch).1

/-- All of them. -/
def Prog.run (P : Prog) : List POp → Prog
  | [] => P
  | op :: ops => (P.next D op).run ops

end

/-- New histograms of the given definitions. -/
def Prog.start (ds : List ℕ) : Prog := ⟨fun _ => ⟨0, fun _ => none⟩, ds.map fun d => ⟨d, ⟨none, false⟩⟩⟩

/-- `h.copyonfill()` (hist.py 85-90): the same content. -/
def DVar.copyonfill (v : DVar) : DVar := ⟨v.d, ⟨v.obj.content, true⟩⟩

/-- `book.copyonfill()` (book.py 426-428). -/
def BT.copyonfill (o : List DVar → HistOps ℕ) (s : List DVar) (b : BT ℕ) : Except Err (List DVar × BT ℕ) :=
  b.mapNew o (fun v => .ok v.copyonfill) s

/-- The loop of `SamplesBook.__init__` (book.py 631-633). -/
def samplesLoop (o : List DVar → HistOps ℕ) (items : List (Str × BT ℕ)) :
    List Str → List DVar → BT ℕ → Except Err (List DVar × BT ℕ)
  | [], s, b =>
    match made (b.changed (o s)) with
    | .error e => .error e
    | .ok b => .ok (s, b)
  | n :: ns, s, b =>
    match made (mkBook (o s) .book items) with
    | .error e => .error e
    | .ok t =>
      match t.copyonfill o s with
      | .error e => .error e
      | .ok (s, c) =>
        match made (b.setitem (o s) n c) with
        | .error e => .error e
        | .ok b => samplesLoop o items ns s b

/-- `SamplesBook(samples, hists)` (book.py 627-633). -/
def samplesBook (o : List DVar → HistOps ℕ) (items : List (Str × BT ℕ)) (samples : List Str) (s : List DVar) :
    Except Err (List DVar × BT ℕ) := samplesLoop o items samples s (.book .samples .absent .nil)

end Verif
