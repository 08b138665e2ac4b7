import Verif.HistJson
import Verif.Book

/-!
# Books as JSON

Model of `tojson`, `fromjson` and `fromdicts` of `/repo/histbook/book.py`, with attachments.  What is modelled of a
histogram is a parameter, as in `Verif.Book`; names with slashes in a JSON object are outside of the model (`_content`
has none).
-/

namespace Verif

mutual
/-- A histogram or a book, with its attachments. -/
inductive AB (α : Type)
  | hist (h : α)
  | book (cls : BClass) (content : ABL α) (attachment : List (String × J))
/-- The ordered dictionary `_content`. -/
inductive ABL (α : Type)
  | nil
  | cons (n : String) (x : AB α) (r : ABL α)
end

variable {α : Type}

/-- Whether the class is fillable, so that `_changed` sets `_fields` (book.py 525-526). -/
def BClass.fields : BClass → Fields α
  | .book | .view => .none
  | _ => .absent

mutual
/-- Without attachments: the book of `Verif.Book`. -/
def AB.plainBook : AB α → BT α
  | .hist h => .hist h
  | .book c x _ => .book c c.fields x.plainBook
/-- The entries. -/
def ABL.plainBook : ABL α → BL α
  | .nil => .nil
  | .cons n x r => .cons n.toList x.plainBook r.plainBook
end

/-- `__class__.__name__`. -/
def BClass.name : BClass → String
  | .generic => "GenericBook"
  | .book => "Book"
  | .view => "ViewBook"
  | .channels => "ChannelsBook"
  | .samples => "SamplesBook"
  | .systematics => "SystematicsBook"

/-- `getattr(sys.modules[GenericBook.__module__], name)` (book.py 190). -/
def classOf (s : String) : Except Err BClass :=
  match [BClass.generic, .book, .view, .channels, .samples, .systematics].find? fun c => c.name = s with
  | some c => .ok c
  | none => .error .attributeError

/-- What is needed of histograms: the entries of `tojson()`, and `Hist.fromjson`. -/
structure HistJ (α : Type) where
  entries : α → Except Err (List (String × J))
  fromjson : J → Except Err α

mutual
/-- `tojson` (book.py 179-186): the dict as a list of entries. -/
def AB.entries (hj : HistJ α) : AB α → Except Err (List (String × J))
  | .hist h => hj.entries h
  | .book c x a =>
    match x.nodes hj with
    | .error e => .error e
    | .ok l => .ok ([("type", .str c.name), ("content", .list l)] ++ entryIf (!a.isEmpty) "attachment" (.obj a))
/-- The nodes, with their names put into them (`merge`, 180-182). -/
def ABL.nodes (hj : HistJ α) : ABL α → Except Err (List J)
  | .nil => .ok []
  | .cons n x r =>
    match x.entries hj with
    | .error e => .error e
    | .ok l =>
      match r.nodes hj with
      | .error e => .error e
      | .ok js => .ok (.obj (l ++ [("name", .str n)]) :: js)
end

/-- `_content[name] = value`. -/
def ABL.put (n : String) (v : AB α) : ABL α → ABL α
  | .nil => .cons n v .nil
  | .cons m x r => if m = n then .cons m v r else .cons m x (r.put n v)

/-- `_changed()`. -/
def AB.check (o : HistOps α) (b : AB α) : Except Err Unit :=
  match b.plainBook.changed o with
  | .ok _ => .ok ()
  | .error e => .error e.1

/-- The loop of `fromdicts` (book.py 99-100). -/
def abSetEach (o : HistOps α) (cls : BClass) (a : List (String × J)) : List (String × AB α) → ABL α →
    Except Err (ABL α)
  | [], x => .ok x
  | (n, v) :: r, x =>
    if '/' ∈ n.toList then .error .notImplemented
    else
      match (AB.book cls (x.put n v) a).check o with
      | .error e => .error e
      | .ok _ => abSetEach o cls a r (x.put n v)

/-- `fromdicts(content, attachment)` (book.py 92-103). -/
def abFromdicts (o : HistOps α) (cls : BClass) (items : List (String × AB α)) (a : List (String × J)) :
    Except Err (AB α) :=
  match abSetEach o cls a items .nil with
  | .error e => .error e
  | .ok x =>
    match (AB.book cls x a).check o with
    | .error e => .error e
    | .ok _ => .ok (.book cls x a)

/-- `content[name] = value` of an ordered dict given as a list. -/
def putItem (n : String) (v : AB α) : List (String × AB α) → List (String × AB α)
  | [] => [(n, v)]
  | p :: r => if p.1 = n then (n, v) :: r else p :: putItem n v r

/-- The class of a node (book.py 190, 193). -/
def J.typeOf (j : J) : Except Err String := do (← j.get "type").strOf

mutual
/-- `Hist.fromjson` or `GenericBook.fromjson` of a node (book.py 188-197). -/
def abOf (hj : HistJ α) (o : HistOps α) : J → Except Err (AB α)
  | .dict d =>
    match (J.dict d).typeOf with
    | .error e => .error e
    | .ok t =>
      if t = "Hist" then (hj.fromjson (.dict d)).map .hist
      else
        match classOf t with
        | .error e => .error e
        | .ok cls =>
          match abContent hj o d with
          | .error e => .error e
          | .ok items =>
            match ((J.dict d).getN "attachment").objOf with
            | .error e => .error e
            | .ok a => abFromdicts o cls items a
  | .null => .error .typeError
  | .bool _ => .error .typeError
  | .int _ => .error .typeError
  | .float _ => .error .typeError
  | .str _ => .error .typeError
  | .list _ => .error .typeError
/-- `obj["content"]`, each node restored. -/
def abContent (hj : HistJ α) (o : HistOps α) : List (Key × J) → Except Err (List (String × AB α))
  | [] => .error .keyError
  | p :: ps => if p.1 = .str "content" then abPair hj o p else abContent hj o ps
/-- The value of an entry, as a list of nodes. -/
def abPair (hj : HistJ α) (o : HistOps α) : Key × J → Except Err (List (String × AB α))
  | (_, j) => abList hj o j
/-- A list of nodes. -/
def abList (hj : HistJ α) (o : HistOps α) : J → Except Err (List (String × AB α))
  | .list l => abNodes hj o l []
  | .null => .error .typeError
  | .bool _ => .error .typeError
  | .int _ => .error .typeError
  | .float _ => .error .typeError
  | .str _ => .error .typeError
  | .dict _ => .error .typeError
/-- `for node in obj["content"]: content[node["name"]] = ...` (book.py 191-196). -/
def abNodes (hj : HistJ α) (o : HistOps α) : List J → List (String × AB α) → Except Err (List (String × AB α))
  | [], acc => .ok acc
  | j :: js, acc =>
    match abOf hj o j with
    | .error e => .error e
    | .ok x =>
      match j.get "name" with
      | .ok (.str n) => abNodes hj o js (putItem n x acc)
      | .ok _ => .error .notImplemented
      | .error e => .error e
end

/-- `GenericBook.fromjson(obj)` (book.py 188-197), which takes books only. -/
def bookFromjson (hj : HistJ α) (o : HistOps α) (j : J) : Except Err (AB α) :=
  match j.typeOf with
  | .error e => .error e
  | .ok t => if t = "Hist" then .error .attributeError else abOf hj o j

/-- `tojson` of a book. -/
def AB.tojson (hj : HistJ α) (b : AB α) : Except Err J := (b.entries hj).map .obj

/-- The histograms of `Verif.HistJson`. -/
def histJ {β : Type} (P : Parser β) : HistJ (HistX β) := ⟨HistX.entries, histFromjson P⟩

end Verif
