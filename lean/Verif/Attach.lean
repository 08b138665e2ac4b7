import Verif.AxisDesc

/-!
# Attachments

Model of the attachments of histograms and books (`/repo/histbook/hist.py`, `/repo/histbook/book.py`).  Attachments are
Python dicts, that is objects with an identity: what matters is which operations make a new dict and which take over the
dict of another object.
-/

namespace Verif

/-- A dict with names as keys, in the order of insertion. -/
abbrev Dct := List (String × J)

/-- `d.get(k)`. -/
def Dct.get (d : Dct) (k : String) : Option J := (d.find? fun p => p.1 = k).map (·.2)

/-- `k in d`. -/
def Dct.has (d : Dct) (k : String) : Bool := d.any fun p => p.1 = k

/-- `d[k] = v`: an existing key keeps its place. -/
def Dct.put (k : String) (v : J) : Dct → Dct
  | [] => [(k, v)]
  | p :: d => if p.1 = k then (k, v) :: d else p :: Dct.put k v d

/-- `del d[k]`. -/
def Dct.del (d : Dct) (k : String) : Except Err Dct :=
  if d.has k then .ok (d.filter fun p => p.1 ≠ k) else .error .keyError

/-- `d.update(e)`. -/
def Dct.update (d e : Dct) : Dct := e.foldl (fun d p => Dct.put p.1 p.2 d) d

/-- Histograms, books and the user's own dicts, as a program has them in variables 0, 1, ...: of each the address of its
dict in the list of all dicts. -/
structure AWorld where
  dicts : List Dct
  vars : List ℕ

/-- The operations with an effect on attachments.  Those that make something put it into a new variable at the end.
* `hist a`: `Hist(..., attachment=a)` with a dict written in place, `Hist(...)` with none, a dict of the user, `Book(...)`;
* `histWith i v`: `Hist(..., attachment=d, systematic=v)` with the dict of variable `i`;
* `attach`, `detach`: the methods, or `x.attachment[k] = v`, `del x.attachment[k]`;
* `derive i`: `copy`, `copyonfill`, `cleared`, `weight`, `filter`, `select`, `project`, `drop`, `rebin` and the
  like on histograms, and `copy`, `copyonfill`, `cleared` on books;
* `systematic i v`: `h.systematic(v)`;
* `addHist`, `mulHist`, `addBook`, `mulBook`: `+` and `*`;
* `groupHist`, `groupBook`: `Hist.group`, `Book.group`;
* `view i`: `book.view(...)`; `rebuilt i`: `copy.copy(h)`, `Hist.fromjson(h.tojson())`, `Book.fromjson(b.tojson())`. -/
inductive AOp
  | hist (a : Dct)
  | histWith (i : ℕ) (v : Option J)
  | attach (i : ℕ) (k : String) (v : J)
  | detach (i : ℕ) (k : String)
  | derive (i : ℕ)
  | systematic (i : ℕ) (v : J)
  | addHist (i j : ℕ)
  | mulHist (i : ℕ)
  | addBook (i j : ℕ)
  | mulBook (i : ℕ)
  | groupHist
  | groupBook (is : List ℕ)
  | view (i : ℕ)
  | rebuilt (i : ℕ)

/-- A name that is not there is a `NameError`. -/
def named {β : Type} : Option β → Except Err β
  | some x => .ok x
  | none => .error .nameError

/-- The dict of a variable. -/
def AWorld.addr (w : AWorld) (i : ℕ) : Except Err ℕ := named w.vars[i]?

/-- What the dict of a variable contains: `x.attachment`. -/
def AWorld.see (w : AWorld) (i : ℕ) : Except Err Dct := named (w.vars[i]?.bind fun a => w.dicts[a]?)

/-- A new variable with a new dict. -/
def AWorld.new (w : AWorld) (d : Dct) : AWorld := ⟨w.dicts ++ [d], w.vars ++ [w.dicts.length]⟩

/-- A new variable with the dict of another one. -/
def AWorld.share (w : AWorld) (a : ℕ) : AWorld := ⟨w.dicts, w.vars ++ [a]⟩

/-- Change a dict in place. -/
def AWorld.write (w : AWorld) (a : ℕ) (d : Dct) : AWorld := ⟨w.dicts.set a d, w.vars⟩

/-- The attachments of several books, the later ones first (book.py 507-509). -/
def AWorld.union (w : AWorld) : List ℕ → Dct → Except Err Dct
  | [], d => .ok d
  | i :: is, d => do w.union is (d.update (← w.see i))

/-- One operation. -/
def AWorld.step (w : AWorld) : AOp → Except Err AWorld
  | .hist a => .ok (w.new a)                                     -- hist.py 148-151, book.py 68
  | .histWith i none => do .ok (w.share (← w.addr i))            -- hist.py 151
  | .histWith i (some v) => do                                   -- hist.py 135-141
    let d ← w.see i
    if d.has "systematic" then .error .valueError
    else
      let a ← w.addr i
      .ok ((w.write a (d.put "systematic" v)).share a)
  | .attach i k v => do .ok (w.write (← w.addr i) ((← w.see i).put k v))       -- hist.py 274, book.py 107
  | .detach i k => do .ok (w.write (← w.addr i) (← (← w.see i).del k))         -- hist.py 279, book.py 112
  | .derive i => do .ok (w.new (← w.see i))                      -- hist.py 60-98, proj.py 133-483, book.py 424-437
  | .systematic i v => do                                        -- hist.py 68, 135-141
    let d ← w.see i
    if d.has "systematic" then .error .valueError else .ok (w.new (d.put "systematic" v))
  | .addHist i j => do                                           -- hist.py 530 (`__dict__.update`)
    let _ ← w.addr j
    .ok (w.share (← w.addr i))
  | .mulHist i => do .ok (w.share (← w.addr i))                  -- hist.py 578
  | .addBook i j => do .ok (w.new ((← w.see i).update (← w.see j)))            -- book.py 453-455
  | .mulBook i => do .ok (w.new (← w.see i))                     -- book.py 472
  | .groupHist => .ok (w.new [])                                 -- hist.py 645
  | .groupBook is => do .ok (w.new (← w.union is []))            -- book.py 507-511
  | .view i => do .ok (w.share (← w.addr i))                     -- book.py 609
  | .rebuilt i => do                                             -- hist.py 705-706, 720, 724-731; book.py 184-197
    if (← w.see i).isEmpty then .ok (w.new []) else .ok (w.share (← w.addr i))

/-- A program; an exception is caught and leaves everything as it was. -/
def AWorld.run (w : AWorld) : List AOp → AWorld
  | [] => w
  | op :: ops =>
    match w.step op with
    | .ok w' => w'.run ops
    | .error _ => w.run ops

/-- `x.has(k)` (hist.py 282-284, book.py 115-117). -/
def AWorld.has (w : AWorld) (i : ℕ) (k : String) : Except Err Bool := do .ok ((← w.see i).has k)

/-- `x.get(k, *default)` (hist.py 286-300, book.py 119-133). -/
def AWorld.getItem (w : AWorld) (i : ℕ) (k : String) (default : List J) : Except Err J := do
  let d ← w.see i
  match default with
  | [] =>
    match d.get k with
    | some v => .ok v
    | none => .error .keyError
  | [x] => .ok ((d.get k).getD x)
  | _ => .error .typeError

end Verif
