import Verif.HistFill
import Verif.NumArith

/-!
# Filling with numbers that may be NaN or infinite

`Hist._postfill` (`/repo/histbook/hist.py` 386-494) once more, as in `Verif.Fill`, but with profile
values, weights and contents that may be NaN or infinite, added and multiplied as IEEE 754 prescribes
(`Verif.NumArith`; finite numbers are exact).  The bin numbers, group keys and the handling of masks
are those of `Verif.Fill` and `Verif.HistFill`.
-/

namespace Verif

namespace Flt

/-- The numpy array that holds the content: `shape` are the dimensions of the fixed axes, `ncols`
the last dimension, `get` the element at a multi-index of bins and a column. -/
structure Arr where
  shape : List ℕ
  ncols : ℕ
  get : List ℕ → ℕ → Num

/-- `numpy.zeros(shape)` (hist.py:382, 470). -/
def Arr.zeros (shape : List ℕ) (ncols : ℕ) : Arr := ⟨shape, ncols, fun _ _ => 0⟩

/-- number of rows of `content.reshape((-1, ncols))`. -/
def Arr.rows (a : Arr) : ℕ := a.shape.prod

/-- `content.reshape((-1, ncols))[r, col] += v`. -/
def Arr.addRow (a : Arr) (col r : ℕ) (v : Num) : Arr :=
  { a with get := fun idx c => a.get idx c + if c = col ∧ ravel a.shape idx = r then v else 0 }

/-- numpy broadcasting of a one-dimensional array to length `n`. -/
def broadcastTo (n : ℕ) (vs : List Num) : Option (List Num) :=
  if vs.length = n then some vs
  else match vs with
    | [v] => some (List.replicate n v)
    | _ => none

/-- numpy multiplication of two one-dimensional arrays, with broadcasting. -/
def mulArr (xs ws : List Num) : Except Err (List Num) :=
  if xs.length = ws.length then .ok (List.zipWith (· * ·) xs ws)
  else match xs, ws with
    | [x], _ => .ok (ws.map (x * ·))
    | _, [w] => .ok (xs.map (· * w))
    | _, _ => .error .valueError

/-- the loop inside `numpy.add.at`, indices already checked. -/
def addAtLoop (col : ℕ) : Arr → List (ℕ × Num) → Arr
  | a, [] => a
  | a, (r, v) :: rest => addAtLoop col (a.addRow col r v) rest

/-- `numpy.add.at(content.reshape((-1, ncols))[:, col], is, vs)`; indices are checked before
anything is added. -/
def Arr.addAt (a : Arr) (col : ℕ) (is : List ℤ) (vs : List Num) : Except Err Arr :=
  match broadcastTo is.length vs with
  | none => .error .valueError
  | some vs =>
    match is.mapM (normIndex a.rows) with
    | none => .error .indexError
    | some rs => .ok (addAtLoop col a (List.zip rs vs))

/-- An empty content `n` levels above the arrays: of the whole histogram (hist.py:381-384) or for a
new key (hist.py:468-472). -/
def emptyContent (L : Layout) : (n : ℕ) → Content Arr n
  | 0 => (Arr.zeros L.dims L.ncols : Arr)
  | _ + 1 => ([] : List _)

/-- hist.py:379-384 `_prefill`, for a content that is `None` or not. -/
def prefill (L : Layout) : Option (Content Arr L.ngroup) → Content Arr L.ngroup
  | some c => c
  | none => emptyContent L L.ngroup

/-- The arrays in `self._destination[0]` when `_postfill` starts (`none` is Python's `None`: never
computed).  Masked indices are `none`. -/
structure Dest where
  groups : List (Option (List Key × List ℤ))
  fixed : List (Option (List (Option ℤ)))
  prof : List (Option (List Num) × Option (List Num))
  weight : Option (List Num) × Option (List Num)

/-- `weight` and `weight2` inside `_postfill`: the number 1 and `None`, or two arrays. -/
inductive W
  | one
  | arr (w w2 : List Num)

/-- hist.py:406-421: weights, NaN replaced by zero (in both arrays where `weight` is NaN). -/
def weights (L : Layout) (length : ℕ) (d : Dest) : Except Err W :=
  match L.wkind with
  | .none => .ok .one
  | .const q => .ok (.arr (List.replicate length (.fin (1 * q))) (List.replicate length (.fin (1 * q ^ 2))))
  | .expr =>
    match d.weight with
    | (some w, some w2) =>
      .ok (.arr (w.map (fun a => if a.isnan then 0 else a)) (List.zipWith (fun a b => if a.isnan then 0 else b) w w2))
    | _ => .error .typeError

/-- hist.py:428-432: `weight` and `weight2` without the masked events. -/
def W.unmask (is : List (Option ℤ)) : W → Except Err W
  | .one => .ok .one
  | .arr w w2 =>
    match compress w (unmasked is), compress w2 (unmasked is) with
    | .ok w, .ok w2 => .ok (.arr w w2)
    | .error e, _ => .error e
    | _, .error e => .error e

/-- `sumx * weight`. -/
def W.scale (xs : List Num) : W → Except Err (List Num)
  | .one => .ok xs
  | .arr w _ => mulArr xs w

/-- hist.py:424-434: the loop over profiles.  `ps` are the columns with the `_sumwxindex` of their
axis (`_sumwx2index` is the next number). -/
def profLoop : List ((Option (List Num) × Option (List Num)) × ℕ) → Arr → Option (List (Option ℤ)) → W →
    Except (Err × Arr) (Arr × Option (List (Option ℤ)) × W)
  | [], a, is, w => .ok (a, is, w)
  | ((none, _), _) :: _, a, _, _ => .error (.typeError, a)
  | ((_, none), _) :: _, a, _, _ => .error (.typeError, a)
  | ((some x, some x2), p) :: rest, a, is, w =>
    let is' := is.getD (List.replicate x.length (some 0))
    match w.unmask is' with
    | .error e => .error (e, a)
    | .ok w =>
      match w.scale x with
      | .error e => .error (e, a)
      | .ok v =>
        match a.addAt p (compressed is') v with
        | .error e => .error (e, a)
        | .ok a =>
          match w.scale x2 with
          | .error e => .error (e, a)
          | .ok v2 =>
            match a.addAt (p + 1) (compressed is') v2 with
            | .error e => .error (e, a)
            | .ok a => profLoop rest a (some is') w

/-- `content.reshape((-1, ncols))[:, col] += v` (hist.py:438). -/
def Arr.addAllRows (a : Arr) (col : ℕ) (v : Num) : Arr :=
  { a with get := fun idx c => a.get idx c + if c = col then v else 0 }

/-- hist.py:436-450: the counts, after the profiles. -/
def fillCounts (L : Layout) (length : ℕ) (a : Arr) (is : Option (List (Option ℤ))) (w : W) : Res Arr :=
  match w with
  | .one =>
    match is with
    | none => .ok (a.addAllRows L.sumw (.fin length))
    | some is =>
      match a.addAt L.sumw (compressed is) [1] with
      | .error e => .error (e, a)
      | .ok a => .ok a
  | .arr w w2 =>
    let is' := is.getD (List.replicate w.length (some 0))
    match (W.arr w w2).unmask is' with
    | .error e => .error (e, a)
    | .ok .one => .error (.assertion, a)
    | .ok (.arr w w2) =>
      match a.addAt L.sumw (compressed is') w with
      | .error e => .error (e, a)
      | .ok a =>
        match a.addAt L.sumw2 (compressed is') w2 with
        | .error e => .error (e, a)
        | .ok a => .ok a

/-- hist.py:423-450 `fillblock`. -/
def fillblock (L : Layout) (length : ℕ) (a : Arr) (is : Option (List (Option ℤ)))
    (ps : List (Option (List Num) × Option (List Num))) (w : W) : Res Arr :=
  match profLoop (List.zip ps L.pidx) a is w with
  | .error e => .error e
  | .ok (a, is, w) => fillCounts L length a is w

/-- the arguments of `filldict` that are selected row by row. -/
structure Rows where
  is : Option (List (Option ℤ))
  ps : List (Option (List Num) × Option (List Num))
  w : W

/-- hist.py:479-480: the profile columns of one group (`None[selection]` raises `TypeError`). -/
def selectPs (sel : List Bool) : List (Option (List Num) × Option (List Num)) →
    Except Err (List (Option (List Num) × Option (List Num)))
  | [] => .ok []
  | (some x, some x2) :: rest =>
    match compress x sel, compress x2 sel, selectPs sel rest with
    | .ok x, .ok x2, .ok rest => .ok ((some x, some x2) :: rest)
    | .error e, _, _ => .error e
    | _, .error e, _ => .error e
    | _, _, .error e => .error e
  | _ :: _ => .error .typeError

/-- hist.py:481-485: the weights of one group. -/
def selectW (sel : List Bool) : W → Except Err W
  | .one => .ok .one
  | .arr w w2 =>
    match compress w sel, compress w2 sel with
    | .ok w, .ok w2 => .ok (.arr w w2)
    | .error e, _ => .error e
    | _, .error e => .error e

/-- hist.py:475-485: the rows of one group. -/
def Rows.select (r : Rows) (sel : List Bool) : Except Err Rows :=
  match selectIs sel r.is, selectPs sel r.ps, selectW sel r.w with
  | .ok is, .ok ps, .ok w => .ok ⟨is, ps, w⟩
  | .error e, _, _ => .error e
  | _, .error e, _ => .error e
  | _, _, .error e => .error e

/-- hist.py:452-489 `filldict`, with the loop over the unique keys as `filldictLoop`. -/
def filldictLoop {n : ℕ} (L : Layout) (rec : Content Arr n → Rows → List Bool → Res (Content Arr n))
    (inverse : List ℤ) (r : Rows) (all : Option (List Bool)) :
    List (ℕ × Key) → List (Key × Content Arr n) → Res (List (Key × Content Arr n))
  | [], d => .ok d
  | (idx, u) :: rest, d =>
    match subInverse inverse all with
    | .error e => .error (e, d)
    | .ok inv =>
      let sel := inv.map (fun i => decide (i = (idx : ℤ)))
      let d := ensureKey d u (emptyContent L n)
      match dget d u with
      | none => .error (.keyError, d)
      | some sub =>
        match r.select sel with
        | .error e => .error (e, d)
        | .ok r' =>
          match rec sub r' (nextSelection all inverse idx sel) with
          | .error (e, sub) => .error (e, dset d u sub)
          | .ok sub => filldictLoop L rec inverse r all rest (dset d u sub)

/-- hist.py:452-489 `filldict`. -/
def filldict (L : Layout) (length : ℕ) : (n : ℕ) → List (Option (List Key × List ℤ)) → Content Arr n → Rows →
    Option (List Bool) → Res (Content Arr n)
  | 0, _, (a : Arr), r, _ => fillblock L length a r.is r.ps r.w
  | n + 1, gs, (d : List (Key × Content Arr n)), r, all =>
    match gs with
    | [] => .error (.indexError, d)
    | none :: _ => .error (.typeError, d)
    | some (uniques, inverse) :: gs =>
      filldictLoop L (fun c r sel => filldict L length n gs c r (some sel)) inverse r all
        (List.zip (List.range uniques.length) uniques) d

/-- hist.py:386-494 `_postfill`. -/
def postfill (L : Layout) (length : ℕ) (d : Dest) (c : Content Arr L.ngroup) : Res (Content Arr L.ngroup) :=
  match flatIndexes L d.fixed with
  | .error e => .error (e, c)
  | .ok is =>
    match weights L length d with
    | .error e => .error (e, c)
    | .ok w => filldict L length L.ngroup d.groups c ⟨is, d.prof, w⟩ none

/-! ## rows -/

/-- One entry of the data: the values of the axis expressions, the profiles and the weight. -/
structure Row where
  gvals : List GVal
  fvals : List Val
  xs : List Num
  w : Num
  deriving DecidableEq

/-- What the axes see of a row. -/
def Row.axes (r : Row) : Verif.Row := ⟨r.gvals, r.fvals, r.xs.map (fun _ => 0), some 0⟩

/-- The arrays that `_fill` (fill.py:85-162) leaves in `_destination[0]`, in the order of
hist.py:158-250; squares are products of the column with itself (hist.py:199-201, 232-250). -/
def columns (H : HistDef) (rows : List Row) : Except Err Dest :=
  match groupColumns (rows.map Row.axes) H.groups 0 with
  | .error e => .error e
  | .ok gs =>
    match fixedColumns (rows.map Row.axes) H.fixed 0 with
    | .error e => .error e
    | .ok fs =>
      .ok { groups := gs, fixed := fs,
            prof := (List.range H.nprof).map (fun k =>
              (some (rows.map (fun r => r.xs.getD k 0)), some (rows.map (fun r => (r.xs.getD k 0).sq)))),
            weight := (some (rows.map (·.w)), some (rows.map (fun r => r.w.sq))) }

/-- The contents of a histogram; `none` is Python's `None` (never filled). -/
abbrev State (H : HistDef) := Option (Content Arr H.groups.length)

/-- hist.py:336-377 `Hist.fill` with arrays of one length: `_prefill`, `_fill`, `_postfill`. -/
def fill (H : HistDef) (st : State H) (rows : List Row) : Res (State H) :=
  let c := prefill H.layout st
  match columns H rows with
  | .error e => .error (e, some c)
  | .ok d =>
    match postfill H.layout rows.length d c with
    | .error (e, c) => .error (e, some c)
    | .ok c => .ok (some c)

/-- A sequence of calls of `fill`. -/
def fillAll (H : HistDef) : State H → List (List Row) → Res (State H)
  | st, [] => .ok st
  | st, rows :: rest =>
    match fill H st rows with
    | .error e => .error e
    | .ok st => fillAll H st rest

end Flt

end Verif
