import Verif.Arith

/-!
# Projections, selections, rebinning and dropping of profiles

Mirrors `Projectable` of `/repo/histbook/proj.py` and the `_select` and `_rebinsplit` methods of
`/repo/histbook/axis.py`, on values (`Verif.AxisObj` is about the axis objects that histograms share).

Which axes a user means is given by position; the lookup by expression (proj.py:43-52, 96-115,
246-250) and equal axes that occur twice are not modelled.
-/

namespace Verif

/-- The elements of a list at the positions where `keep` is true. -/
def pick {α : Type} : List Bool → List α → List α
  | true :: ks, x :: xs => x :: pick ks xs
  | false :: ks, _ :: xs => pick ks xs
  | _, _ => []

/-! ## project -/

/-- All multi-indexes whose kept part is `idx`, the others running over their dimension. -/
def expand : List Bool → List ℕ → List ℕ → List (List ℕ)
  | true :: ks, _ :: ns, i :: is => (expand ks ns is).map (i :: ·)
  | false :: ks, n :: ns, is => (List.range n).flatMap (fun i => (expand ks ns is).map (i :: ·))
  | _, _, _ => [[]]

/-- proj.py:252-253 `projarray`: `numpy.sum` over the axes that are not kept. -/
def Arr.sumAxes (keep : List Bool) (a : Arr) : Arr :=
  ⟨pick keep a.shape, a.ncols, fun idx c => ((expand keep a.shape idx).map (fun i => a.get i c)).sum⟩

/-- What the helper functions of `project` hand around: arrays, dicts and (from proj.py:272, 274)
lists. -/
inductive PV
  | arr (a : Arr)
  | dict (d : List (Key × PV))
  | list (l : List PV)

/-- A content as a Python object. -/
def toPV : (n : ℕ) → Content Arr n → PV
  | 0, (a : Arr) => .arr a
  | n + 1, (d : List (Key × Content Arr n)) => .dict (d.map (fun p => (p.1, toPV n p.2)))

/-- numpy broadcasting of one dimension. -/
def bdim (m n : ℕ) : Option ℕ := if m = n then some m else if m = 1 then some n else if n = 1 then some m else none

/-- numpy broadcasting of two shapes given from the last dimension to the first. -/
def bshapeRev : List ℕ → List ℕ → Option (List ℕ)
  | [], t => some t
  | s, [] => some s
  | m :: s, n :: t =>
    match bdim m n, bshapeRev s t with
    | some k, some r => some (k :: r)
    | _, _ => none

/-- The index into an array of shape `s` that belongs to an index of the broadcast shape. -/
def bindex (s idx : List ℕ) : List ℕ :=
  List.zipWith (fun n i => if n = 1 then 0 else i) s (idx.drop (idx.length - s.length))

/-- `x + y` of two numpy arrays of any shapes with the same number of columns. -/
def Arr.badd (a b : Arr) : Except Err Arr :=
  if a.shape = b.shape then a.add b
  else if a.ncols ≠ b.ncols then .error .valueError
  else match bshapeRev a.shape.reverse b.shape.reverse with
    | none => .error .valueError
    | some s => .ok ⟨s.reverse, a.ncols, fun i c => a.get (bindex a.shape i) c + b.get (bindex b.shape i) c⟩

/-- `numpy.asarray` of a list with one array; longer and nested lists are outside of the model. -/
def PV.asArr : PV → Except Err Arr
  | .arr a => .ok a
  | .list [.arr a] => .ok ⟨1 :: a.shape, a.ncols, fun i c => a.get i.tail c⟩
  | .list _ => .error .notImplemented
  | .dict _ => .error .typeError

/-- Python's `left + right` for these objects. -/
def PV.add : PV → PV → Except Err PV
  | .list l, .list r => .ok (.list (l ++ r))
  | x, y =>
    match x.asArr, y.asArr with
    | .ok a, .ok b => (a.badd b).map .arr
    | .error e, _ => .error e
    | _, .error e => .error e

/-- proj.py:255-263 `addany`.  The number bounds the depth of the dicts: it is the number of group
axes, which is enough. -/
def addany : ℕ → PV → PV → Except Err PV
  | n + 1, .dict d, .dict e =>
    match addLeft (addany n) e d with
    | .ok l => .ok (.dict (l ++ addRight d e))
    | .error er => .error er
  | _, l, r => l.add r

/-- proj.py:265-276 `addall`.  The first number bounds the recursion: it is the number of values,
which is enough.  The recursive call on a list of two (line 276) is the line before. -/
def addallN (depth : ℕ) : ℕ → List PV → Except Err PV
  | 0, _ => .error .assertion
  | fuel + 1, vs =>
    let left := vs.take (vs.length / 2)
    let right := vs.drop (vs.length / 2)
    match left, right with
    | [], [] => .error .assertion
    | [], right => .ok (.list right)
    | left, [] => .ok (.list left)
    | [l], [r] => addany depth l r
    | left, right =>
      match addallN depth fuel left, addallN depth fuel right with
      | .ok l, .ok r => addany depth l r
      | .error e, _ => .error e
      | _, .error e => .error e

/-- proj.py:265-276 `addall`. -/
def addall (depth : ℕ) (vs : List PV) : Except Err PV :=
  match vs with
  | [] => .error .assertion
  | vs => addallN depth vs.length vs

/-- `dict((n, f(x)) for n, x in d.items())`, stopping at the first exception. -/
def mapDictE {β γ : Type} (f : β → Except Err γ) : List (Key × β) → Except Err (List (Key × γ))
  | [] => .ok []
  | (k, x) :: rest =>
    match f x, mapDictE f rest with
    | .ok y, .ok ys => .ok ((k, y) :: ys)
    | .error e, _ => .error e
    | _, .error e => .error e

/-- proj.py:278-286 `projcontent`; `kg` and `kf` say which group and which fixed axes are kept. -/
def projcontent (kf : List Bool) : (n : ℕ) → List Bool → Content Arr n → Except Err PV
  | 0, _, (a : Arr) => .ok (.arr (a.sumAxes kf))
  | n + 1, kg, (d : List (Key × Content Arr n)) =>
    match mapDictE (projcontent kf n kg.tail) d with
    | .error e => .error e
    | .ok d' => if kg.headD true then .ok (.dict d') else addall n (d'.map (·.2))

/-- proj.py:288-289: the axes of the result. -/
def HistDef.project (H : HistDef) (kg kf : List Bool) : HistDef :=
  { H with groups := pick kg H.groups, fixed := pick kf H.fixed }

/-- proj.py:226-286 `project`: the content of the result. -/
def HistDef.projectState (H : HistDef) (kg kf : List Bool) (st : H.State) : Except Err (Option PV) :=
  match st with
  | none => .ok none
  | some c => (projcontent kf H.groups.length kg c).map some

/-! ## drop -/

/-- `content[..., index]` with a list of columns (beyond the last column: zero, as in all arrays of
the model). -/
def Arr.takeCols (index : List ℕ) (a : Arr) : Arr :=
  ⟨a.shape, index.length, fun i c => match index[c]? with
    | some k => a.get i k
    | none => 0⟩

/-- The positions where `keep` is true. -/
def keptPositions (keep : List Bool) : List ℕ := (List.range keep.length).filter (fun i => keep.getD i false)

/-- proj.py:204-213: the columns that `drop` keeps: the *positions* of the kept profiles, the sum of
weights, and the sum of squared weights if there was a `weight`. -/
def dropColumns (L : Layout) (keep : List Bool) (hasWeight : Bool) : List ℕ :=
  keptPositions keep ++ [L.sumw] ++ (if hasWeight then [L.sumw2] else [])

/-- A function on every array of the content. -/
def mapLeaves (f : Arr → Arr) : (n : ℕ) → Content Arr n → Content Arr n
  | 0, (a : Arr) => f a
  | n + 1, (d : List (Key × Content Arr n)) => d.map (fun p => (p.1, mapLeaves f n p.2))

/-- proj.py:220: the definition of the result of `drop`. -/
def HistDef.drop (H : HistDef) (keep : List Bool) : HistDef := { H with nprof := keep.count true }

/-- proj.py:181-224 `drop`; `keep` says for each profile whether it stays. -/
def HistDef.dropState (H : HistDef) (keep : List Bool) (hasWeight : Bool) (st : H.State) : Except Err H.State :=
  if keep.all id then .error .indexError
  else .ok (st.map (mapLeaves (Arr.takeCols (dropColumns H.layout keep hasWeight)) H.groups.length))

/-! ## select -/

/-- The comparison operators of a relation (expr.py:985). -/
inductive Cmp
  | lt | le | gt | ge | eq | ne | isin | notin
  deriving DecidableEq

/-- Python's `slice(start, stop)`; `none` is `None`. -/
structure PySlice where
  start : ℤ
  stop : Option ℤ
  deriving DecidableEq

/-- One bound of a slice of a sequence of length `n`. -/
def sliceBound (n : ℕ) (i : ℤ) : ℕ := if i < 0 then (i + n).toNat else min i.toNat n

/-- The first position of a slice. -/
def PySlice.lo (s : PySlice) (n : ℕ) : ℕ := sliceBound n s.start

/-- The position after the last of a slice. -/
def PySlice.hi (s : PySlice) (n : ℕ) : ℕ :=
  match s.stop with
  | none => n
  | some i => sliceBound n i

/-- What `_select` of an axis returns: a new axis with a slice, or `None, None, close, wrongcmp`. -/
inductive SelRes (α : Type)
  | cut (axis : α) (slice : PySlice)
  | no (close : Option ℚ) (wrongcmp : Bool)
  deriving DecidableEq

/-- Python's `round`: to the nearest integer, ties to even. -/
def pyRound (q : ℚ) : ℤ :=
  let f := ⌊q⌋
  if q - f < 1 / 2 then f
  else if 1 / 2 < q - f then f + 1
  else if f % 2 = 0 then f else f + 1

/-- axis.py:573-575, 1035-1037 `_checktot` on a modified axis. -/
def checktot {α : Type} (totbins : ℕ) (r : SelRes α) : Except Err (SelRes α) :=
  if totbins = 0 then .error .valueError else .ok r

/-- axis.py:692-767 `bin._select` for a number.  `int(round(inf))` raises `OverflowError`, here
`valueError`. -/
def BinAxis.select (a : BinAxis) (cmp : Cmp) (value : Num) (tol : ℚ) : Except Err (SelRes BinAxis) :=
  let finite : ℤ := a.numbins + b2i a.underflow + b2i a.overflow
  let noNan : BinAxis := { a with nanflow := false }
  if (value = .ninf ∧ cmp = .ge) ∨ (value = .pinf ∧ cmp = .le) ∨ (value = .nan ∧ cmp = .ne) then
    checktot noNan.totbins (.cut noNan ⟨0, some finite⟩)
  else if value = .nan ∧ cmp = .eq then
    checktot noNan.totbins (.cut noNan ⟨finite, some (finite + 1)⟩)
  else match value with
  | .fin v =>
    if a.high - a.low = 0 then .error .zeroDivision
    else
      let scale : ℚ := a.numbins / (a.high - a.low)
      if scale = 0 then .error .zeroDivision
      else
        let edgenum := pyRound ((v - a.low) * scale)
        let close : ℚ := ((min (a.numbins : ℤ) (max 0 edgenum) : ℤ) : ℚ) / scale + a.low
        if |v - close| < tol then
          if (a.closedlow = true ∧ cmp = .lt) ∨ (a.closedlow = false ∧ cmp = .le) then
            let out : BinAxis := { a with numbins := edgenum.toNat, high := close, overflow := false, nanflow := false }
            checktot out.totbins (.cut out ⟨0, some (edgenum + b2i a.underflow)⟩)
          else if (a.closedlow = true ∧ cmp = .ge) ∨ (a.closedlow = false ∧ cmp = .gt) then
            let out : BinAxis := { a with numbins := (a.numbins - edgenum).toNat, low := close, underflow := false, nanflow := false }
            checktot out.totbins (.cut out ⟨edgenum + b2i a.underflow, some (a.numbins + b2i a.underflow + b2i a.overflow)⟩)
          else .ok (.no (some close) true)
        else .ok (.no (some close) false)
  | _ => .error .valueError

/-- axis.py:1242 `sorted((abs(value - x), x, i) ...)[0]`: the edge nearest to `v` (of two, the
lower) with its position. -/
def nearestEdge (v : ℚ) : List ℚ → ℕ → Option (ℚ × ℕ)
  | [], _ => none
  | x :: xs, i =>
    match nearestEdge v xs (i + 1) with
    | none => some (x, i)
    | some (y, j) => if |v - y| < |v - x| ∨ (|v - y| = |v - x| ∧ y < x) then some (y, j) else some (x, i)

/-- axis.py:1213-1284 `split._select` for a number.  For an infinite number other than in the first
cases the distances are infinite or NaN; this ends in a rejection (or depends on how NaN sorts) and
is outside of the model. -/
def SplitAxis.select (a : SplitAxis) (cmp : Cmp) (value : Num) (tol : ℚ) : Except Err (SelRes SplitAxis) :=
  let finite : ℤ := (a.edges.length : ℤ) - 1 + b2i a.underflow + b2i a.overflow
  let noNan : SplitAxis := { a with nanflow := false }
  if (value = .ninf ∧ cmp = .ge) ∨ (value = .pinf ∧ cmp = .le) ∨ (value = .nan ∧ cmp = .ne) then
    checktot noNan.totbins (.cut noNan ⟨0, some finite⟩)
  else if value = .nan ∧ cmp = .eq then
    checktot noNan.totbins (.cut noNan ⟨finite, some (finite + 1)⟩)
  else match value with
  | .fin v =>
    match nearestEdge v a.edges 0 with
    | none => .error .indexError
    | some (edgex, edgei) =>
      if |v - edgex| < tol then
        let cuti : ℤ := edgei + b2i a.underflow
        if (a.closedlow = true ∧ cmp = .lt) ∨ (a.closedlow = false ∧ cmp = .le) then
          let out : SplitAxis := { a with edges := a.edges.take (edgei + 1), overflow := false, nanflow := false }
          checktot out.totbins (.cut out ⟨0, some cuti⟩)
        else if (a.closedlow = true ∧ cmp = .ge) ∨ (a.closedlow = false ∧ cmp = .gt) then
          let out : SplitAxis := { a with edges := a.edges.drop edgei, underflow := false, nanflow := false }
          checktot out.totbins (.cut out ⟨cuti, some (cuti + out.edges.length + b2i out.overflow - 1)⟩)
        else .ok (.no (some edgex) true)
      else .ok (.no (some edgex) false)
  | _ => .error .notImplemented

/-- axis.py:808-810 `intbin._checktot` on a modified axis. -/
def IntbinAxis.checkSel (out : IntbinAxis) (s : PySlice) : Except Err (SelRes IntbinAxis) :=
  if out.min > out.max then .error .valueError else .ok (.cut out s)

/-- axis.py:911-986 `intbin._select` for a number; in the first cases `self._numbins` does not
exist.  Other comparisons with an infinity raise (`round(inf)`) or are rejected; NaN raises
(`round(nan)`). -/
def IntbinAxis.select (a : IntbinAxis) (cmp : Cmp) (value : Num) (tol : ℚ) : Except Err (SelRes IntbinAxis) :=
  let u := b2i a.underflow
  match value with
  | .fin v =>
    if v + tol < a.min then .ok (.no (some a.min) false)
    else if v - tol > a.max then .ok (.no (some a.max) false)
    else
      let r := pyRound v
      if |v - r| < tol then
        match cmp with
        | .lt =>
          let out : IntbinAxis := { a with max := r - 1, overflow := false }
          out.checkSel ⟨0, some (out.max - a.min + u + 1)⟩
        | .le =>
          let out : IntbinAxis := { a with max := r, overflow := false }
          out.checkSel ⟨0, some (out.max - a.min + u + 1)⟩
        | .gt =>
          let out : IntbinAxis := { a with min := r + 1, underflow := false }
          out.checkSel ⟨out.min - a.min + u, none⟩
        | .ge =>
          let out : IntbinAxis := { a with min := r, underflow := false }
          out.checkSel ⟨out.min - a.min + u, none⟩
        | _ => .ok (.no (some r) true)
      else .ok (.no (some r) false)
  | .ninf => if cmp = .ge ∨ cmp = .gt then .error .attributeError else .ok (.no (some a.min) false)
  | .pinf => if cmp = .le ∨ cmp = .lt then .error .attributeError else .ok (.no (some a.max) false)
  | .nan => .error .valueError

/-- The new axis of a selection, of any class. -/
def SelRes.map {α β : Type} (f : α → β) : SelRes α → SelRes β
  | .cut a s => .cut (f a) s
  | .no c w => .no c w

/-- `axis._select(cmp, value, tolerance)` for the numeric fixed axes; a cut rejects numbers
(axis.py:1374). -/
def FixedAxis.select (a : FixedAxis) (cmp : Cmp) (value : Num) (tol : ℚ) : Except Err (SelRes FixedAxis) :=
  match a with
  | .bin a => (a.select cmp value tol).map (SelRes.map .bin)
  | .split a => (a.select cmp value tol).map (SelRes.map .split)
  | .intbin a => (a.select cmp value tol).map (SelRes.map .intbin)
  | .cut => .ok (.no none false)

/-- `content[:, ..., slice, ..., :]` with the slice at axis `j` (proj.py:474-475). -/
def Arr.slice (j : ℕ) (s : PySlice) (a : Arr) : Arr :=
  let n := a.shape.getD j 0
  ⟨a.shape.set j (s.hi n - s.lo n), a.ncols, fun idx c => a.get (idx.set j (idx.getD j 0 + s.lo n)) c⟩

/-- proj.py:461-486 `_selectaxis` for a fixed axis: the content. -/
def HistDef.sliceState (H : HistDef) (j : ℕ) (s : PySlice) (st : H.State) : H.State :=
  st.map (mapLeaves (Arr.slice j s) H.groups.length)

/-- proj.py:481: the definition of the result. -/
def HistDef.setFixed (H : HistDef) (j : ℕ) (a : FixedAxis) : HistDef := { H with fixed := H.fixed.set j a }

/-- The same number of group axes: the content of one histogram as that of another. -/
def HistDef.sliced (H : HistDef) (j : ℕ) (a : FixedAxis) (s : PySlice) (st : H.State) : (H.setFixed j a).State :=
  H.sliceState j s st

/-- proj.py:288-458, 460-486 `select` of one comparison with a number on fixed axis `j`, the only axis
with that expression: the definition and content of the result, or `ValueError` if the axis cannot
select (line 447-455). -/
def HistDef.select (H : HistDef) (j : ℕ) (cmp : Cmp) (value : Num) (tol : ℚ) (st : H.State) :
    Except Err (Σ H' : HistDef, H'.State) :=
  match H.fixed[j]? with
  | none => .error .valueError
  | some a =>
    match a.select cmp value tol with
    | .error e => .error e
    | .ok (.no _ _) => .error .valueError
    | .ok (.cut a' s) => .ok ⟨H.setFixed j a', H.sliced j a' s st⟩

/-- proj.py:474-477: the slice of a cut axis `j`, and the axis removed from the shape. -/
def Arr.sliceOut (j : ℕ) (s : PySlice) (a : Arr) : Arr :=
  let n := a.shape.getD j 0
  ⟨a.shape.eraseIdx j, a.ncols, fun idx c => a.get (idx.insertIdx j (s.lo n)) c⟩

/-- axis.py:1358-1372 `cut._select`. -/
def cutSelect (cmp : Cmp) (value : Bool) : Option PySlice :=
  if (cmp = .eq ∧ value = true) ∨ (cmp = .ne ∧ value = false) then some ⟨1, some 2⟩
  else if (cmp = .eq ∧ value = false) ∨ (cmp = .ne ∧ value = true) then some ⟨0, some 1⟩
  else none

/-- proj.py:479-481: the definition of the result without axis `j`. -/
def HistDef.eraseFixed (H : HistDef) (j : ℕ) : HistDef := { H with fixed := H.fixed.eraseIdx j }

/-- `select` of a cut axis: the content of the result. -/
def HistDef.cutOut (H : HistDef) (j : ℕ) (s : PySlice) (st : H.State) : (H.eraseFixed j).State :=
  st.map (mapLeaves (Arr.sliceOut j s) H.groups.length)

/-! ## rebin -/

/-- axis.py:1168-1170, 1182-1183: `while self._edges[i] < edge: i += 1`. -/
def advance (edges : List ℚ) (edge : ℚ) (i : ℕ) : ℕ := i + ((edges.drop i).takeWhile (· < edge)).length

/-- axis.py:1181-1192: the loop over the new edges; the old bins that are summed for each. -/
def rebinLoop (edges : List ℚ) (underflow : Bool) : List ℚ → ℕ → ℕ → List (ℕ × ℕ) × ℕ
  | [], oldi, _ => ([], oldi)
  | e :: es, oldi, oldi2 =>
    let oldi2 := advance edges e oldi2 + b2n underflow
    let r := rebinLoop edges underflow es oldi2 (if underflow then oldi2 else oldi2 + 1)
    ((oldi, oldi2) :: r.1, r.2)

/-- axis.py:1166-1203: for each new bin the old bins `lo, ..., hi - 1` that are summed. -/
def rebinRanges (a b : SplitAxis) : List (ℕ × ℕ) :=
  let oldi2 := advance a.edges (b.edges.headD 0) 0
  let first := if b.underflow then [(0, oldi2 + 1)] else []
  let oldi := oldi2 + b2n b.underflow
  let r := rebinLoop a.edges b.underflow b.edges.tail oldi (oldi2 + 1)
  let finite := a.edges.length - 1 + b2n a.underflow + b2n a.overflow
  first ++ r.1 ++ (if b.overflow then [(r.2, finite)] else []) ++
    (if b.nanflow then [(finite, finite + 1)] else [])

/-- axis.py:1163-1203 `recurse` on an array: sums of slices along axis `j`. -/
def Arr.rebin (j : ℕ) (ranges : List (ℕ × ℕ)) (numbins : ℕ) (a : Arr) : Arr :=
  ⟨a.shape.set j numbins, a.ncols, fun idx c =>
    let r := ranges.getD (idx.getD j 0) (0, 0)
    ((List.range' r.1 (r.2 - r.1)).map (fun i => a.get (idx.set j i) c)).sum⟩

/-- axis.py:1146-1161: the new axis of `split._rebinsplit`. -/
def SplitAxis.rebinned (a : SplitAxis) (edges : List ℚ) : Except Err SplitAxis :=
  if edges.all (fun e => a.edges.contains e) then
    SplitAxis.init edges a.underflow a.overflow a.nanflow a.closedlow
  else .error .valueError

/-- axis.py:683 (bin), 900 (intbin), 1146 (split): the axis as a `split`. -/
def FixedAxis.asSplit : FixedAxis → Except Err SplitAxis
  | .bin a => a.split
  | .split a => .ok a
  | .intbin a =>
    match a.bin with
    | .error e => .error e
    | .ok b => b.split
  | .cut => .error .indexError

/-- What arrives as the argument `edges` of `_rebinsplit`: a list or, from `rebinby`, a number. -/
inductive RebinArg where
  | list (edges : List ℚ)
  | int (k : ℤ)

/-- axis.py:683-684, 908-909, 1146-1207 `_rebinsplit` of fixed axis `j`, with the end of `rebin`
(proj.py:127-135): the definition and content of the result.  `for x in edges` is a `TypeError` for a
number (line 1147). -/
def HistDef.rebinAny (H : HistDef) (j : ℕ) (x : FixedAxis) (arg : RebinArg) (st : H.State) : Except Err (Σ H' : HistDef, H'.State) :=
  match x.asSplit with
  | .error e => .error e
  | .ok a =>
    match arg with
    | .int _ => .error .typeError
    | .list edges =>
      match a.rebinned edges with
      | .error e => .error e
      | .ok b =>
        let f := Arr.rebin j (rebinRanges a b) b.totbins
        let out : (H.setFixed j (.split b)).State := st.map (mapLeaves f H.groups.length)
        .ok ⟨H.setFixed j (.split b), out⟩

/-- proj.py:96-135 `rebin` of fixed axis `j`. -/
def HistDef.rebin (H : HistDef) (j : ℕ) (edges : List ℚ) (st : H.State) : Except Err (Σ H' : HistDef, H'.State) :=
  match H.fixed[j]? with
  | none => .error .indexError
  | some x => H.rebinAny j x (.list edges) st

/-- proj.py:137-179 `rebinby` of axis `i` of the group and fixed axes: it hands the factor to
`_rebinsplit` (lines 170-173); `groupbin` is rebinnable by a factor but has no such method, `groupby`
and `cut` are not rebinnable. -/
def HistDef.rebinby (H : HistDef) (i : ℕ) (factor : ℤ) (st : H.State) : Except Err (Σ H' : HistDef, H'.State) :=
  if factor ≤ 0 then .error .typeError
  else
    match H.groups[i]? with
    | some .groupby => .error .indexError
    | some (.groupbin _) => .error .attributeError
    | none =>
      match H.fixed[i - H.groups.length]? with
      | none => .error .indexError
      | some .cut => .error .indexError
      | some x => H.rebinAny (i - H.groups.length) x (.int factor) st

end Verif
