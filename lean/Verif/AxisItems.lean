import Verif.PropsPandas

/-!
# The items of an axis

axis.py 225-230, 321-329 and 517-525: `axis.items(content)` pairs the bins of an axis with what is in them, and `axis.keys(content)` are
the bins alone.  `content` is a dict for group axes, and an array whose first dimension is the axis for the others.  A user who holds
the result of `h.table()` walks through it with one loop for each axis; `walkTable` are these loops.
-/

namespace Verif

/-- What `items` calls a bin: a key of a `groupby` axis, or an interval (a number, `True` or `False`, for `intbin` and `cut`). -/
inductive ILabel
  | key (k : Key)
  | bin (l : BinLabel)
  deriving DecidableEq

/-- `FixedAxis.items` (axis.py 225-230). -/
def FixedAxis.items {α : Type} (a : FixedAxis) (content : List α) : Except Err (List (ILabel × α)) :=
  if a.keys.length ≠ content.length then .error .valueError
  else .ok ((a.keys.zip content).map fun p => (.bin p.1, p.2))

/-- What one key of the dict becomes (axis.py 329 and 525).  The key of NaN on a `groupbin` axis is the text `"NaN"`, and a number cannot
be added to a text. -/
def GroupAxis.ilabel : GroupAxis → Key → Except Err ILabel
  | .groupby, k => .ok (.key k)
  | .groupbin _, .str _ => .error .typeError
  | .groupbin a, .num q => .ok (.bin (.iv (.fin q) (.fin (q + a.binwidth)) a.closedlow (!a.closedlow)))
  | .groupbin a, .pinf => .ok (.bin (.iv .pinf .pinf a.closedlow (!a.closedlow)))
  | .groupbin a, .ninf => .ok (.bin (.iv .ninf .ninf a.closedlow (!a.closedlow)))

/-- `groupby.items` (axis.py 325-329) and `groupbin.items` (axis.py 521-525) of a dict.  (The `TypeError` for something that is no dict
is not modelled.) -/
def GroupAxis.items {α : Type} (g : GroupAxis) (d : List (Key × α)) : Except Err (List (ILabel × α)) :=
  match sortKeys (d.map (·.1)) with
  | .error e => .error e
  | .ok ks => mapE (fun k =>
      match dget d k with
      | none => .error .keyError
      | some c =>
        match g.ilabel k with
        | .error e => .error e
        | .ok l => .ok (l, c)) ks

/-- `groupby.keys` (axis.py 321-323) and `groupbin.keys` (axis.py 517-519). -/
def GroupAxis.keysOf {α : Type} (g : GroupAxis) (d : List (Key × α)) : Except Err (List ILabel) :=
  match g.items d with
  | .error e => .error e
  | .ok l => .ok (l.map (·.1))

/-- The body of a loop over items: what is found below an item, with its label in front. -/
def below {α β : Type} (f : α → Except Err (List (List ILabel × β))) (p : ILabel × α) : Except Err (List (List ILabel × β)) :=
  match f p.2 with
  | .error e => .error e
  | .ok r => .ok (r.map fun x => (p.1 :: x.1, x.2))

/-- A loop over items that collects what its body finds. -/
def overItems {α β : Type} (f : α → Except Err (List (List ILabel × β))) (l : List (ILabel × α)) : Except Err (List (List ILabel × β)) :=
  match mapE (below f) l with
  | .error e => .error e
  | .ok r => .ok r.flatten

/-- The loops over the fixed axes: the elements of an array are the arrays with one dimension less. -/
def walkFixed : List FixedAxis → Table → Except Err (List (List ILabel × List (Option ℚ)))
  | [], t => .ok [([], t [])]
  | a :: fs, t =>
    match a.items ((List.range a.totbins).map fun i => (fun idx => t (i :: idx) : Table)) with
    | .error e => .error e
    | .ok l => overItems (walkFixed fs) l

/-- The loops over all axes, those of groups first (this is how tables are nested, proj.py 612-625). -/
def walkTable (fs : List FixedAxis) : (gs : List GroupAxis) → Content Table gs.length → Except Err (List (List ILabel × List (Option ℚ)))
  | [], (t : Table) => walkFixed fs t
  | g :: gs, (d : List (Key × Content Table gs.length)) =>
    match g.items d with
    | .error e => .error e
    | .ok l => overItems (walkTable fs gs) l

/-! ## what the labels say -/

/-- A value of a group axis is what the label says. -/
def ILabel.hasG (l : ILabel) (v : GVal) : Bool :=
  match l with
  | .key k => decide (v.toKey.toOption = some k)
  | .bin l =>
    match v.toNum with
    | .ok x => decide (l.mem x)
    | .error _ => false

/-- A value of a fixed axis is what the label says. -/
def ILabel.hasF (l : ILabel) (v : Val) : Bool :=
  match l with
  | .key _ => false
  | .bin l => v.In l

/-- All values of a row are what its labels say. -/
def allFit : List ILabel → List GVal → List Val → Bool
  | l :: ls, g :: gs, vs => l.hasG g && allFit ls gs vs
  | l :: ls, [], v :: vs => l.hasF v && allFit ls [] vs
  | [], [], [] => true
  | _, _, _ => false

end Verif
