import Verif.Proj

/-!
# Tables and fractions

Mirrors `Projectable.table` and `Projectable.fraction` of `/repo/histbook/proj.py`.

Errors are modelled as their squares, i.e. without the final `numpy.sqrt` (a negative square is NaN in
the code).  The code flattens the bins of an array and restores the shape at the end (proj.py:566, 614);
here each bin keeps its multi-index.  Column labels and record arrays are not modelled.
-/

namespace Verif

/-- The options of `table` (proj.py:517-523) and the positions of the profiles to include. -/
structure TableOpts where
  count : Bool := true
  effcount : Bool := false
  error : Bool := true
  normalized : Bool := false
  profs : List ℕ := []
  deriving DecidableEq

/-- The widths of the bins; `none` is infinite (flow bins). -/
abbrev Widths := List ℕ → Option ℚ

/-- axis.py:632, 854, 1095, 1335 `binwidth`: a number, or one number for each bin (of split axes, where it
is a method).  The rounding loop in bin axes, which keeps the width slightly too small, is left out. -/
inductive Binwidth
  | scalar (w : ℚ)
  | array (ws : List ℚ)

def FixedAxis.binwidth : FixedAxis → Except Err Binwidth
  | .bin a => if a.numbins = 0 then .error .zeroDivision else .ok (.scalar ((a.high - a.low) / a.numbins))
  | .intbin _ => .ok (.scalar 1)
  | .split a => .ok (.array ((List.range (a.edges.length - 1)).map (fun k => a.edges.getD (k + 1) 0 - a.edges.getD k 0)))
  | .cut => .ok (.scalar 1)

/-- axis.py:642, 858, 1107, 1339 `finiteslice`: first and number of finite bins. -/
def FixedAxis.finite : FixedAxis → ℕ × ℕ
  | .bin a => (if a.underflow then 1 else 0, a.numbins)
  | .intbin a => (if a.underflow then 1 else 0, (a.max - a.min + 1).toNat)
  | .split a => (if a.underflow then 1 else 0, a.edges.length - 1)
  | .cut => (0, 2)

/-- The bin is inside `finiteslice`. -/
def FixedAxis.isFinite (a : FixedAxis) (i : ℕ) : Bool := decide (a.finite.1 ≤ i ∧ i < a.finite.1 + a.finite.2)

/-- `x * w` for a width that may be infinite. -/
def wmul (x : Option ℚ) (w : ℚ) : Option ℚ := x.map (· * w)

/-- proj.py:555-561, one fixed axis (number `i` of all axes `as`): multiply the widths of its finite bins.  An array of
widths is broadcast along the *last* axis. -/
def widthStep (as : List FixedAxis) (i : ℕ) (a : FixedAxis) (b : Widths) : Except Err Widths :=
  match a.binwidth with
  | .error e => .error e
  | .ok (.scalar w) => .ok (fun idx => if a.isFinite (idx.getD i 0) then wmul (b idx) w else b idx)
  | .ok (.array ws) =>
    if i + 1 = as.length then
      .ok (fun idx => if a.isFinite (idx.getD i 0) then wmul (b idx) (ws.getD (idx.getD i 0 - a.finite.1) 0) else b idx)
    else
      let n := (as.map FixedAxis.totbins).getD (as.length - 1) 0
      if ws.length = n then
        .ok (fun idx => if a.isFinite (idx.getD i 0) then wmul (b idx) (ws.getD (idx.getD (as.length - 1) 0) 0) else b idx)
      else if ws.length = 1 then
        .ok (fun idx => if a.isFinite (idx.getD i 0) then wmul (b idx) (ws.getD 0 0) else b idx)
      else .error .valueError

/-- proj.py:555-561: the loop over the fixed axes. -/
def widthLoop (as : List FixedAxis) : ℕ → List FixedAxis → Widths → Except Err Widths
  | _, [], b => .ok b
  | i, a :: rest, b =>
    match widthStep as i a b with
    | .error e => .error e
    | .ok b => widthLoop as (i + 1) rest b

/-- every index is within the finite bins -/
def allFinite : List FixedAxis → List ℕ → Bool
  | a :: as, i :: is => a.isFinite i && allFinite as is
  | _, _ => true

/-- proj.py:546-561 `binwidths`.  Group axes have no `finiteslice`. -/
def HistDef.binwidths (H : HistDef) : Except Err Widths :=
  if H.groups ≠ [] then .error .attributeError
  else widthLoop H.fixed 0 H.fixed (fun idx => if allFinite H.fixed idx then some 1 else none)

/-- All multi-indexes of an array. -/
def tableCells (dims : List ℕ) : List (List ℕ) := expand (dims.map (fun _ => false)) dims []

/-- proj.py:588: `(out[:, countindex] / shaped).sum()`. -/
def widthTotal (dims : List ℕ) (b : Widths) (n : List ℕ → ℚ) : ℚ :=
  ((tableCells dims).map (fun idx => match b idx with
    | none => 0
    | some w => n idx / w)).sum

/-- proj.py:589-592: divided by `total * shaped` (`none`: NaN). -/
def divCorrection (total : ℚ) (w : Option ℚ) (k : ℕ) (x : ℚ) : Option ℚ :=
  if total = 0 then none
  else match w with
    | none => some 0
    | some w => some (x / (total * w) ^ k)

/-- A table: the columns of each bin (`none`: NaN). -/
abbrev Table := List ℕ → List (Option ℚ)

/-- proj.py:572-592: the columns about the count. -/
def countColumns (L : Layout) (o : TableOpts) (b : Widths) (a : Arr) (idx : List ℕ) : List (Option ℚ) :=
  let sumw := a.get idx L.sumw
  let err := if L.wkind = .none then sumw else a.get idx L.sumw2
  let total := widthTotal a.shape b (fun i => a.get i L.sumw)
  if o.count then
    (if o.normalized then divCorrection total (b idx) 1 sumw else some sumw) ::
    (if o.error then [if o.normalized then divCorrection total (b idx) 2 err else some err] else [])
  else []

/-- proj.py:596-600: the effective number of entries. -/
def effcnt (L : Layout) (get : ℕ → ℚ) : ℚ :=
  if L.wkind = .none then get L.sumw else get L.sumw ^ 2 / get L.sumw2

/-- proj.py:606-612: the columns about a profile, with `_sumwxindex` `p`. -/
def profColumns (L : Layout) (o : TableOpts) (get : ℕ → ℚ) (p : ℕ) : List (Option ℚ) :=
  if get L.sumw > 0 then
    let mean := get p / get L.sumw
    some mean :: (if o.error then [some ((get (p + 1) / get L.sumw - mean ^ 2) / effcnt L get)] else [])
  else some 0 :: (if o.error then [some 0] else [])

/-- proj.py:565-617 `handlearray`. -/
def handlearray (L : Layout) (o : TableOpts) (b : Widths) (a : Arr) : Table := fun idx =>
  countColumns L o b a idx ++
  (if o.effcount then [some (if a.get idx L.sumw > 0 then effcnt L (a.get idx) else 0)] else []) ++
  o.profs.flatMap (fun p => profColumns L o (a.get idx) (L.pidx.getD p 0))

/-- proj.py:619-623 `handle`. -/
def handle (f : Arr → Table) : (n : ℕ) → Content Arr n → Content Table n
  | 0, (a : Arr) => f a
  | n + 1, (d : List (Key × Content Arr n)) => d.map (fun p => (p.1, handle f n p.2))

/-- proj.py:488-630 `table`; the layout `L` is that of the histogram (or what is left of it, see
`Verif.AxisObj`). -/
def HistDef.tableWith (H : HistDef) (L : Layout) (o : TableOpts) (st : H.State) : Except Err (Content Table H.groups.length) :=
  if o.profs.any (fun p => decide (H.nprof ≤ p)) then .error .indexError
  else
    match (if o.normalized then H.binwidths else .ok (fun _ => none)) with
    | .error e => .error e
    | .ok b => .ok (handle (handlearray L o b) H.groups.length (prefill H.layout st))

def HistDef.table (H : HistDef) (o : TableOpts) (st : H.State) : Except Err (Content Table H.groups.length) :=
  H.tableWith H.layout o st

/-! ## fraction -/

/-- Which fixed axes stay: those that are not among the cuts (proj.py:686). -/
def keepUncut (n : ℕ) (cuts : List ℕ) : List Bool := (List.range n).map (fun j => !cuts.contains j)

/-- The axes that stay for one cut, and that cut (proj.py:689). -/
def keepWith (n : ℕ) (cuts : List ℕ) (c : ℕ) : List Bool := (keepUncut n cuts).set c true

/-- The position of a cut among the axes that stay. -/
def cutPosition (n : ℕ) (cuts : List ℕ) (c : ℕ) : ℕ := ((keepUncut n cuts).take c).count true

/-- proj.py:722-778 `handlearray`: count (optional), and for each cut the fraction and its error squared
for each level (`zs`: the squared numbers of sigmas; `error="normal"`, or no levels for `error=None`).  Other
methods are in `Verif.FractionErr`.  The null axis that is left of the cut has one bin, so that
flattened arrays correspond; no profiles are left, so the sum of weights is column 0. -/
def fractionTable (count : Bool) (zs : List ℚ) (positions : List ℕ) (denom : Arr) (passing : List Arr) : Table := fun idx =>
  let sumw := denom.get idx 0
  (if count then [some sumw] else []) ++
  (List.zip positions passing).flatMap (fun q =>
    if sumw > 0 then
      let p := q.2.get (idx.insertIdx q.1 0) 0 / sumw
      some p :: zs.map (fun z => some (z * (p * (1 - p) / sumw)))
    else some 0 :: zs.map (fun _ => some 0))

/-- The number of columns must be what the definition of the histogram asks for: otherwise either the first or the
last `reshape` of `handlearray` raises `ValueError`. -/
def fractionArr (ncols : ℕ) (count : Bool) (zs : List ℚ) (positions : List ℕ) (denom : Arr) (passing : List Arr) : Except Err Table :=
  if denom.ncols ≠ ncols then .error .valueError else .ok (fractionTable count zs positions denom passing)

/-- `[cc[n] for cc in cutcontent]` (proj.py:782). -/
def collectKey {β : Type} (k : Key) : List (List (Key × β)) → Except Err (List β)
  | [] => .ok []
  | d :: ds =>
    match dget d k, collectKey k ds with
    | some x, .ok xs => .ok (x :: xs)
    | none, _ => .error .keyError
    | _, .error e => .error e

/-- proj.py:782: `dict((n, handle(x, ...)) for n, x in denomcontent.items())`. -/
def handleDict {β γ : Type} (rec : β → List β → Except Err γ) (cs : List (List (Key × β))) : List (Key × β) → Except Err (List (Key × γ))
  | [] => .ok []
  | (k, x) :: rest =>
    match collectKey k cs with
    | .error e => .error e
    | .ok xs =>
      match rec x xs, handleDict rec cs rest with
      | .ok y, .ok ys => .ok ((k, y) :: ys)
      | .error e, _ => .error e
      | _, .error e => .error e

/-- proj.py:780-784 `handle`. -/
def handleFr (f : Arr → List Arr → Except Err Table) : (n : ℕ) → Content Arr n → List (Content Arr n) → Except Err (Content Table n)
  | 0, (a : Arr), cs => f a cs
  | n + 1, (d : List (Key × Content Arr n)), cs => handleDict (handleFr f n) cs d

/-- proj.py:632-794 `fraction`.  `hasWeight`: the histogram has a `weight`.  Projections that keep all group axes treat every array of the
content alike (proj.py:278-286; `projcontent_all` is the proof). -/
def HistDef.fraction (H : HistDef) (hasWeight : Bool) (count : Bool) (zs : List ℚ) (cuts : List ℕ) (st : H.State) :
    Except Err (Content Table H.groups.length) :=
  if cuts.any (fun c => decide (H.fixed[c]? ≠ some .cut)) then .error .indexError
  else
    match H.dropState (List.replicate H.nprof false) hasWeight (some (prefill H.layout st)) with
    | .error e => .error e
    | .ok none => .error .typeError
    | .ok (some c) =>
      let n := H.fixed.length
      handleFr (fractionArr (H.drop (List.replicate H.nprof false)).layout.ncols count zs (cuts.map (cutPosition n cuts))) H.groups.length
        (mapLeaves (Arr.sumAxes (keepUncut n cuts)) H.groups.length c)
        (cuts.map (fun j => mapLeaves (fun a => (a.sumAxes (keepWith n cuts j)).slice (cutPosition n cuts j) ⟨1, some 2⟩) H.groups.length c))

end Verif
