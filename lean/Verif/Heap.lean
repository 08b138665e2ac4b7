import Verif.Arith

/-!
# Which objects histograms share

The contents of histograms are numpy arrays and dicts, that is objects with an identity: an in-place
operation on one histogram is seen by every other one that has the same object.  Here the contents
live in a heap; a histogram has the address of its content.  The operations of
`/repo/histbook/hist.py` are modelled with respect to which objects they make, share and change; the
new values are those of `Verif.HistFill` and `Verif.Arith`.
-/

namespace Verif

/-- A numpy array, or a dict whose values are objects. -/
inductive Obj
  | arr (a : Arr)
  | dict (d : List (Key × ℕ))

/-- The objects by their addresses; addresses from `next` on are free. -/
structure Heap where
  next : ℕ
  get : ℕ → Option Obj

/-- Make a new object. -/
def Heap.alloc (h : Heap) (o : Obj) : Heap × ℕ :=
  (⟨h.next + 1, fun a => if a = h.next then some o else h.get a⟩, h.next)

/-- Change an object in place. -/
def Heap.set (h : Heap) (a : ℕ) (o : Obj) : Heap := ⟨h.next, fun b => if b = a then some o else h.get b⟩

/-- The values of the entries of a dict. -/
def derefDict {β : Type} (rec : ℕ → Option β) : List (Key × ℕ) → Option (List (Key × β))
  | [] => some []
  | (k, a) :: rest =>
    match rec a, derefDict rec rest with
    | some x, some rest => some ((k, x) :: rest)
    | _, _ => none

/-- The content with address `a`, as a value. -/
def deref (h : Heap) : (n : ℕ) → ℕ → Option (Content Arr n)
  | 0, a =>
    match h.get a with
    | some (.arr x) => some x
    | _ => none
  | n + 1, a =>
    match h.get a with
    | some (.dict d) => derefDict (deref h n) d
    | _ => none

/-- New objects for the entries of a dict. -/
def newDict {β : Type} (rec : β → Heap → Heap × ℕ) : List (Key × β) → Heap → Heap × List (Key × ℕ)
  | [], h => (h, [])
  | (k, x) :: rest, h =>
    let r := rec x h
    let s := newDict rec rest r.1
    (s.1, (k, r.2) :: s.2)

/-- New objects for a whole content: `_copycontent` (hist.py:70-77), `content * value`
(hist.py:571-575), `numpy.zeros` (hist.py:382, 470). -/
def newContent : (n : ℕ) → Content Arr n → Heap → Heap × ℕ
  | 0, (x : Arr), h => h.alloc (.arr x)
  | n + 1, (d : List (Key × Content Arr n)), h =>
    let r := newDict (newContent n) d h
    r.1.alloc (.dict r.2)

/-- Write the entries of a dict in place; new keys get new objects. -/
def storeDict {β : Type} (store : β → Heap → ℕ → Heap) (new : β → Heap → Heap × ℕ) (old : List (Key × ℕ)) :
    List (Key × β) → Heap → Heap × List (Key × ℕ)
  | [], h => (h, [])
  | (k, x) :: rest, h =>
    match dget old k with
    | some a =>
      let s := storeDict store new old rest (store x h a)
      (s.1, (k, a) :: s.2)
    | none =>
      let r := new x h
      let s := storeDict store new old rest r.1
      (s.1, (k, r.2) :: s.2)

/-- Write a content in place: arrays are changed (`numpy.add.at`, `+=`, `*=`: hist.py:423-450, 546,
560, 594), dicts keep their entries and get new ones (hist.py:466-472, 550-551). -/
def storeContent : (n : ℕ) → Content Arr n → Heap → ℕ → Heap
  | 0, (x : Arr), h, a => h.set a (.arr x)
  | n + 1, (d : List (Key × Content Arr n)), h, a =>
    match h.get a with
    | some (.dict old) =>
      let r := storeDict (storeContent n) (newContent n) old d h
      r.1.set a (.dict r.2)
    | _ => h

/-- hist.py:521-525: the loop over the keys of `self`; an entry that only `self` has is shared. -/
def addDict (rec : Heap → ℕ → ℕ → Except Err (Heap × ℕ)) (other : List (Key × ℕ)) :
    List (Key × ℕ) → Heap → Except Err (Heap × List (Key × ℕ))
  | [], h => .ok (h, [])
  | (k, a) :: rest, h =>
    match dget other k with
    | some b =>
      match rec h a b with
      | .error e => .error e
      | .ok (h, c) =>
        match addDict rec other rest h with
        | .error e => .error e
        | .ok (h, out) => .ok (h, (k, c) :: out)
    | none =>
      match addDict rec other rest h with
      | .error e => .error e
      | .ok (h, out) => .ok (h, (k, a) :: out)

/-- hist.py:503-529: `add` on contents that are not `None`. -/
def addHeap : (n : ℕ) → Heap → ℕ → ℕ → Except Err (Heap × ℕ)
  | 0, h, a, b =>
    match h.get a, h.get b with
    | some (.arr x), some (.arr y) =>
      match x.add y with
      | .ok z => .ok (h.alloc (.arr z))
      | .error e => .error e
    | _, _ => .error .assertion
  | n + 1, h, a, b =>
    match h.get a, h.get b with
    | some (.dict d), some (.dict e) =>
      match addDict (addHeap n) e d h with
      | .ok (h, out) => .ok (h.alloc (.dict (out ++ addRight d e)))
      | .error er => .error er
    | _, _ => .error .assertion

/-! ## histograms -/

/-- `_content` and `_copyonfill`. -/
structure HObj where
  content : Option ℕ
  cof : Bool
  deriving DecidableEq

/-- Some histograms with the definition `H`, as a program has them in variables 0, 1, ... -/
structure World where
  heap : Heap
  vars : List HObj

/-- The operations.  `add i j` is `c = a + b`, `iadd i j` is `a += b`; those that make a new histogram
put it into a new variable at the end.  `bookFill` is the fill of a book that contains the
histogram. -/
inductive Op
  | fill (i : ℕ) (rows : List Row)
  | bookFill (i : ℕ) (rows : List Row)
  | add (i j : ℕ)
  | iadd (i j : ℕ)
  | mul (i : ℕ) (k : ℚ)
  | imul (i : ℕ) (k : ℚ)
  | copy (i : ℕ)
  | copyonfill (i : ℕ)
  | clear (i : ℕ)
  | cleared (i : ℕ)
  | read (i : ℕ)

/-- The content of a histogram as a value (`none`: dangling, which does not happen). -/
def HObj.state (H : HistDef) (h : Heap) (v : HObj) : Option H.State :=
  match v.content with
  | none => some none
  | some a => (deref h H.groups.length a).map some

/-- What the histogram in variable `i` looks like. -/
def World.view (H : HistDef) (w : World) (i : ℕ) : Option H.State := (w.vars[i]?).bind (HObj.state H w.heap)

/-- Give the histogram a new content in place: what exists is changed, the rest is made new. -/
def HObj.write (H : HistDef) (h : Heap) (v : HObj) (s : H.State) : Heap × HObj :=
  match v.content, s with
  | some a, some c => (storeContent H.groups.length c h a, v)
  | none, some c =>
    let r := newContent H.groups.length c h
    (r.1, { v with content := some r.2 })
  | _, none => (h, { v with content := none })

/-- A copy of the content, all objects new (hist.py:70-77). -/
def HObj.fresh (H : HistDef) (h : Heap) (v : HObj) (s : H.State) : Heap × HObj :=
  HObj.write H h { v with content := none } s

/-- An in-place operation on variable `i` whose effect on the value is `f`. -/
def World.inplace (H : HistDef) (w : World) (i : ℕ) (f : H.State → Res H.State) : World × Option Err :=
  match w.vars[i]? with
  | none => (w, some .keyError)
  | some v =>
    match v.state H w.heap with
    | none => (w, some .assertion)
    | some s =>
      match f s with
      | .ok s' => let r := v.write H w.heap s'; (⟨r.1, w.vars.set i r.2⟩, none)
      | .error (e, s') => let r := v.write H w.heap s'; (⟨r.1, w.vars.set i r.2⟩, some e)

/-- hist.py:350-352: `if self._copyonfill: self._content = Hist._copycontent(self._content); ...`. -/
def World.uncopy (H : HistDef) (w : World) (i : ℕ) : World :=
  match w.vars[i]? with
  | none => w
  | some v =>
    if v.cof then
      match v.state H w.heap with
      | none => w
      | some s => let r := HObj.fresh H w.heap { v with cof := false } s; ⟨r.1, w.vars.set i r.2⟩
    else w

/-- A new histogram with the value `s`, all objects new. -/
def World.newVar (H : HistDef) (w : World) (v : HObj) (s : H.State) : World × Option Err :=
  let r := HObj.fresh H w.heap v s
  (⟨r.1, w.vars ++ [r.2]⟩, none)

/-- hist.py:496-532 `__add__`: `None` operands are copied, otherwise `addHeap`; `_copyonfill` is taken
over from `self` (hist.py:531). -/
def World.add (H : HistDef) (w : World) (i j : ℕ) : World × Option Err :=
  match w.vars[i]?, w.vars[j]? with
  | some u, some v =>
    match u.content, v.content with
    | some a, some b =>
      match addHeap H.groups.length w.heap a b with
      | .ok (h, c) => (⟨h, w.vars ++ [{ u with content := some c }]⟩, none)
      | .error e => (w, some e)
    | none, some _ =>
      match v.state H w.heap with
      | none => (w, some .assertion)
      | some s => w.newVar H u s
    | _, none =>
      match u.state H w.heap with
      | none => (w, some .assertion)
      | some s => w.newVar H u s
  | _, _ => (w, some .keyError)

/-- One operation; on an exception also which one. -/
def World.step (H : HistDef) (w : World) : Op → World × Option Err
  | .fill i rows => (w.uncopy H i).inplace H i (fun s => H.fill s rows)          -- hist.py:336-377
  | .bookFill i rows => w.inplace H i (fun s => H.fill s rows)                   -- book.py:579-585
  | .add i j => w.add H i j                                                      -- hist.py:496-532
  | .iadd i j =>                                                                 -- hist.py:534-565
    match w.view H j with
    | none => (w, some .keyError)
    | some t => w.inplace H i (fun s => iaddState s t)
  | .mul i k =>                                                                  -- hist.py:567-580
    match w.vars[i]?, w.view H i with
    | some v, some s =>
      match mulState k s with
      | .ok s' => w.newVar H v s'
      | .error e => (w, some e)
    | _, _ => (w, some .keyError)
  | .imul i k => w.inplace H i (imulState k)                                     -- hist.py:585-597
  | .copy i =>                                                                   -- hist.py:79-83
    match w.view H i with
    | some s => w.newVar H ⟨none, false⟩ s
    | none => (w, some .keyError)
  | .copyonfill i =>                                                             -- hist.py:85-90
    match w.vars[i]? with
    | some v => (⟨w.heap, w.vars ++ [⟨v.content, true⟩]⟩, none)
    | none => (w, some .keyError)
  | .clear i =>                                                                  -- hist.py:92-94
    match w.vars[i]? with
    | some v => (⟨w.heap, w.vars.set i { v with content := none }⟩, none)
    | none => (w, some .keyError)
  | .cleared i =>                                                                -- hist.py:96-98
    match w.vars[i]? with
    | some _ => (⟨w.heap, w.vars ++ [⟨none, false⟩]⟩, none)
    | none => (w, some .keyError)
  | .read i =>                                                                   -- hist.py:379-384, 753-760
    match w.vars[i]? with
    | some ⟨none, _⟩ => w.inplace H i (fun s => .ok (some (prefill H.layout s)))
    | some _ => (w, none)
    | none => (w, some .keyError)

/-- A sequence of operations; exceptions are caught by the program, which goes on. -/
def World.run (H : HistDef) : World → List Op → World
  | w, [] => w
  | w, op :: ops => World.run H (w.step H op).1 ops

end Verif
