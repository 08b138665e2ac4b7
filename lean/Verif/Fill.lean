import Verif.Axis
import Mathlib.Algebra.BigOperators.Group.List.Basic

/-!
# Filling a histogram, given the computed columns

Mirrors `Hist._prefill` and `Hist._postfill` of `/repo/histbook/hist.py`.  The columns
(`self._destination[0]`) are an input here; `Verif.Instr` is about how they are computed.

Simplifications: contents are exact rationals (no float64 rounding, no NaN or infinity inside the
content), flat bin numbers do not overflow int32, and the two mask representations of numpy
("nomask" and "all false") are not distinguished.
-/

namespace Verif

/-! ## numpy arrays -/

/-- Position of a multi-index in a C-contiguous numpy array of shape `shape`, which is what
`content.reshape((-1, ncols))` relies on (hist.py:433-450). -/
def ravel : List ℕ → List ℕ → ℕ
  | _ :: ns, i :: is => i * ns.prod + ravel ns is
  | _, _ => 0

/-- The numpy array that holds the content: `shape` are the dimensions of the fixed axes, `ncols`
the last dimension, `get` the element at a multi-index of bins and a column. -/
structure Arr where
  shape : List ℕ
  ncols : ℕ
  get : List ℕ → ℕ → ℚ

/-- `numpy.zeros(shape)` (hist.py:382, 470). -/
def Arr.zeros (shape : List ℕ) (ncols : ℕ) : Arr := ⟨shape, ncols, fun _ _ => 0⟩

/-- number of rows of `content.reshape((-1, ncols))`. -/
def Arr.rows (a : Arr) : ℕ := a.shape.prod

/-- `content.reshape((-1, ncols))[r, col] += v`. -/
def Arr.addRow (a : Arr) (col r : ℕ) (v : ℚ) : Arr :=
  { a with get := fun idx c => a.get idx c + if c = col ∧ ravel a.shape idx = r then v else 0 }

/-- A numpy index into an axis of length `n`: negative numbers count from the end, anything else
outside raises. -/
def normIndex (n : ℕ) (i : ℤ) : Option ℕ :=
  if 0 ≤ i ∧ i < n then some i.toNat
  else if -n ≤ i ∧ i < 0 then some (i + n).toNat
  else none

/-- numpy broadcasting of a one-dimensional array to length `n`. -/
def broadcastTo (n : ℕ) (vs : List ℚ) : Option (List ℚ) :=
  if vs.length = n then some vs
  else match vs with
    | [v] => some (List.replicate n v)
    | _ => none

/-- numpy multiplication of two one-dimensional arrays, with broadcasting. -/
def mulArr (xs ws : List ℚ) : Except Err (List ℚ) :=
  if xs.length = ws.length then .ok (List.zipWith (· * ·) xs ws)
  else match xs, ws with
    | [x], _ => .ok (ws.map (x * ·))
    | _, [w] => .ok (xs.map (· * w))
    | _, _ => .error .valueError

/-- the loop inside `numpy.add.at`, indices already checked. -/
def addAtLoop (col : ℕ) : Arr → List (ℕ × ℚ) → Arr
  | a, [] => a
  | a, (r, v) :: rest => addAtLoop col (a.addRow col r v) rest

/-- `numpy.add.at(content.reshape((-1, ncols))[:, col], is, vs)`; indices are checked before
anything is added. -/
def Arr.addAt (a : Arr) (col : ℕ) (is : List ℤ) (vs : List ℚ) : Except Err Arr :=
  match broadcastTo is.length vs with
  | none => .error .valueError
  | some vs =>
    match is.mapM (normIndex a.rows) with
    | none => .error .indexError
    | some rs => .ok (addAtLoop col a (List.zip rs vs))

/-- `array[mask]` with a boolean array `mask`. -/
def compress {α : Type} (xs : List α) (mask : List Bool) : Except Err (List α) :=
  if xs.length = mask.length then .ok ((List.zip xs mask).filterMap (fun p => if p.2 then some p.1 else none))
  else .error .indexError

/-! ## content -/

/-- Nested dicts over the group axes, `n` levels deep (hist.py:379-384); Python dicts are
association lists with distinct keys in insertion order. -/
def Content (α : Type) : ℕ → Type
  | 0 => α
  | n + 1 => List (Key × Content α n)

/-- How weights are given (hist.py:213-250): `none` (unweighted), `const`, or an expression (which
includes every filter). -/
inductive WKind
  | none
  | const (q : ℚ)
  | expr
  deriving DecidableEq

/-- The parts of a `Hist` that filling reads: hist.py:166-250.  `dims` is `self._shape[:-1]`,
`sidx` the `_shapeindex` of each fixed axis, `pidx` the `_sumwxindex` of each profile. -/
structure Layout where
  ngroup : ℕ
  dims : List ℕ
  nprof : ℕ
  wkind : WKind
  sidx : List ℕ
  pidx : List ℕ
  deriving DecidableEq

/-- hist.py:174-192: a freshly constructed histogram numbers its axes from zero. -/
def Layout.make (ngroup : ℕ) (dims : List ℕ) (nprof : ℕ) (wkind : WKind) : Layout :=
  ⟨ngroup, dims, nprof, wkind, List.range dims.length, (List.range nprof).map (2 * ·)⟩

/-- hist.py:213-250 `self._sumwindex`. -/
def Layout.sumw (L : Layout) : ℕ := 2 * L.nprof

/-- hist.py:213-250 `self._sumw2index`. -/
def Layout.sumw2 (L : Layout) : ℕ := 2 * L.nprof + 1

/-- hist.py:213-250 `self._shape[-1]`. -/
def Layout.ncols (L : Layout) : ℕ := 2 * L.nprof + (if L.wkind = .none then 1 else 2)

/-- hist.py:174-250 `self._shape`. -/
def Layout.shape (L : Layout) : List ℕ := L.dims ++ [L.ncols]

/-- Result of a method that changes a histogram in place: on an exception, the state that it left. -/
abbrev Res (σ : Type) := Except (Err × σ) σ

/-- An empty content `n` levels above the arrays: of the whole histogram (hist.py:381-384) or for a
new key (hist.py:468-472). -/
def emptyContent (L : Layout) : (n : ℕ) → Content Arr n
  | 0 => (Arr.zeros L.dims L.ncols : Arr)
  | _ + 1 => ([] : List _)

/-- hist.py:379-384 `_prefill`, for a content that is `None` or not. -/
def prefill (L : Layout) : Option (Content Arr L.ngroup) → Content Arr L.ngroup
  | some c => c
  | none => emptyContent L L.ngroup

/-- The arrays in `self._destination[0]` when `_postfill` starts (`none` is Python's `None`: never
computed).  Masked indices are `none`; NaN weights are `none`. -/
structure Dest where
  groups : List (Option (List Key × List ℤ))
  fixed : List (Option (List (Option ℤ)))
  prof : List (Option (List ℚ) × Option (List ℚ))
  weight : Option (List (Option ℚ)) × Option (List (Option ℚ))

/-- `weight` and `weight2` inside `_postfill`: the number 1 and `None`, or two arrays. -/
inductive W
  | one
  | arr (w w2 : List ℚ)

/-- `i * n + j` for masked numbers (hist.py:395-396). -/
def flat1 (n : ℕ) : Option ℤ → Option ℤ → Option ℤ
  | some i, some j => some (i * n + j)
  | _, _ => none

/-- one step of hist.py:393-396: `indexes * n + d`, masks united. -/
def flatStep (n : ℕ) (acc d : List (Option ℤ)) : Except Err (List (Option ℤ)) :=
  if acc.length = d.length then .ok (List.zipWith (flat1 n) acc d) else .error .valueError

/-- hist.py:390-398, the axes after the first: multiply by `self._shape[axis._shapeindex]` and add.
`None` destinations fail at `indexes.copy()` (first) or `numpy.multiply`/`numpy.add`. -/
def flatRest (shape : List ℕ) : List ℕ → List (Option (List (Option ℤ))) → Option (List (Option ℤ)) →
    Except Err (Option (List (Option ℤ)))
  | s :: ss, d :: ds, acc =>
    match acc, d with
    | none, _ => .error .attributeError
    | some _, none => .error .typeError
    | some a, some d =>
      match shape[s]? with
      | none => .error .indexError
      | some n =>
        match flatStep n a d with
        | .error e => .error e
        | .ok a' => flatRest shape ss ds (some a')
  | _, _, acc => .ok acc

/-- hist.py:387-398: the flat bin number of every event. -/
def flatIndexes (L : Layout) (fixed : List (Option (List (Option ℤ)))) : Except Err (Option (List (Option ℤ))) :=
  match L.sidx, fixed with
  | _ :: ss, d :: ds => flatRest L.shape ss ds d
  | _, _ => .ok none

/-- hist.py:406-421: weights, NaN replaced by zero (in both arrays where `weight` is NaN; a NaN
only in `weight2` cannot happen and is taken as zero). -/
def weights (L : Layout) (length : ℕ) (d : Dest) : Except Err W :=
  match L.wkind with
  | .none => .ok .one
  | .const q => .ok (.arr (List.replicate length (1 * q)) (List.replicate length (1 * q ^ 2)))
  | .expr =>
    match d.weight with
    | (some w, some w2) =>
      .ok (.arr (w.map (·.getD 0)) (List.zipWith (fun a b => if a.isNone then 0 else b.getD 0) w w2))
    | _ => .error .typeError

/-- `numpy.bitwise_not(numpy.ma.getmask(indexes))`. -/
def unmasked (is : List (Option ℤ)) : List Bool := is.map Option.isSome

/-- `indexes.compressed()`. -/
def compressed (is : List (Option ℤ)) : List ℤ := is.filterMap id

/-- hist.py:428-432: `weight` and `weight2` without the masked events. -/
def W.unmask (is : List (Option ℤ)) : W → Except Err W
  | .one => .ok .one
  | .arr w w2 =>
    match compress w (unmasked is), compress w2 (unmasked is) with
    | .ok w, .ok w2 => .ok (.arr w w2)
    | .error e, _ => .error e
    | _, .error e => .error e

/-- `sumx * weight`. -/
def W.scale (xs : List ℚ) : W → Except Err (List ℚ)
  | .one => .ok xs
  | .arr w _ => mulArr xs w

/-- hist.py:424-434: the loop over profiles.  `ps` are the columns with the `_sumwxindex` of their
axis (`_sumwx2index` is the next number). -/
def profLoop : List ((Option (List ℚ) × Option (List ℚ)) × ℕ) → Arr → Option (List (Option ℤ)) → W →
    Except (Err × Arr) (Arr × Option (List (Option ℤ)) × W)
  | [], a, is, w => .ok (a, is, w)
  | ((none, _), _) :: _, a, _, _ => .error (.typeError, a)
  | ((_, none), _) :: _, a, _, _ => .error (.typeError, a)
  | ((some x, some x2), p) :: rest, a, is, w =>
    let is' := is.getD (List.replicate x.length (some 0))
    match w.unmask is' with
    | .error e => .error (e, a)
    | .ok w =>
      match w.scale x with
      | .error e => .error (e, a)
      | .ok v =>
        match a.addAt p (compressed is') v with
        | .error e => .error (e, a)
        | .ok a =>
          match w.scale x2 with
          | .error e => .error (e, a)
          | .ok v2 =>
            match a.addAt (p + 1) (compressed is') v2 with
            | .error e => .error (e, a)
            | .ok a => profLoop rest a (some is') w

/-- `content.reshape((-1, ncols))[:, col] += v` (hist.py:438). -/
def Arr.addAllRows (a : Arr) (col : ℕ) (v : ℚ) : Arr :=
  { a with get := fun idx c => a.get idx c + if c = col then v else 0 }

/-- hist.py:436-450: the counts, after the profiles. -/
def fillCounts (L : Layout) (length : ℕ) (a : Arr) (is : Option (List (Option ℤ))) (w : W) : Res Arr :=
  match w with
  | .one =>
    match is with
    | none => .ok (a.addAllRows L.sumw length)
    | some is =>
      match a.addAt L.sumw (compressed is) [1] with
      | .error e => .error (e, a)
      | .ok a => .ok a
  | .arr w w2 =>
    let is' := is.getD (List.replicate w.length (some 0))
    match (W.arr w w2).unmask is' with
    | .error e => .error (e, a)
    | .ok .one => .error (.assertion, a)
    | .ok (.arr w w2) =>
      match a.addAt L.sumw (compressed is') w with
      | .error e => .error (e, a)
      | .ok a =>
        match a.addAt L.sumw2 (compressed is') w2 with
        | .error e => .error (e, a)
        | .ok a => .ok a

/-- hist.py:423-450 `fillblock`. -/
def fillblock (L : Layout) (length : ℕ) (a : Arr) (is : Option (List (Option ℤ)))
    (ps : List (Option (List ℚ) × Option (List ℚ))) (w : W) : Res Arr :=
  match profLoop (List.zip ps L.pidx) a is w with
  | .error e => .error e
  | .ok (a, is, w) => fillCounts L length a is w

/-- Python dict lookup. -/
def dget {β : Type} (d : List (Key × β)) (k : Key) : Option β := (d.find? (fun p => p.1 = k)).map (·.2)

/-- Python dict assignment: replace in place or append. -/
def dset {β : Type} (d : List (Key × β)) (k : Key) (v : β) : List (Key × β) :=
  if d.any (fun p => p.1 = k) then d.map (fun p => if p.1 = k then (k, v) else p) else d ++ [(k, v)]

/-- the arguments of `filldict` that are selected row by row. -/
structure Rows where
  is : Option (List (Option ℤ))
  ps : List (Option (List ℚ) × Option (List ℚ))
  w : W

/-- hist.py:475-478: the flat indexes of one group. -/
def selectIs (sel : List Bool) : Option (List (Option ℤ)) → Except Err (Option (List (Option ℤ)))
  | none => .ok (some (List.replicate (sel.count true) (some 0)))
  | some is => (compress is sel).map some

/-- hist.py:479-480: the profile columns of one group (`None[selection]` raises `TypeError`). -/
def selectPs (sel : List Bool) : List (Option (List ℚ) × Option (List ℚ)) →
    Except Err (List (Option (List ℚ) × Option (List ℚ)))
  | [] => .ok []
  | (some x, some x2) :: rest =>
    match compress x sel, compress x2 sel, selectPs sel rest with
    | .ok x, .ok x2, .ok rest => .ok ((some x, some x2) :: rest)
    | .error e, _, _ => .error e
    | _, .error e, _ => .error e
    | _, _, .error e => .error e
  | _ :: _ => .error .typeError

/-- hist.py:481-485: the weights of one group. -/
def selectW (sel : List Bool) : W → Except Err W
  | .one => .ok .one
  | .arr w w2 =>
    match compress w sel, compress w2 sel with
    | .ok w, .ok w2 => .ok (.arr w w2)
    | .error e, _ => .error e
    | _, .error e => .error e

/-- hist.py:475-485: the rows of one group. -/
def Rows.select (r : Rows) (sel : List Bool) : Except Err Rows :=
  match selectIs sel r.is, selectPs sel r.ps, selectW sel r.w with
  | .ok is, .ok ps, .ok w => .ok ⟨is, ps, w⟩
  | .error e, _, _ => .error e
  | _, .error e, _ => .error e
  | _, _, .error e => .error e

/-- hist.py:461-464: `inverse` or `inverse[allselection]`. -/
def subInverse (inverse : List ℤ) : Option (List Bool) → Except Err (List ℤ)
  | none => .ok inverse
  | some a => compress inverse a

/-- hist.py:466-470: a new key gets an empty content. -/
def ensureKey {β : Type} (d : List (Key × β)) (u : Key) (empty : β) : List (Key × β) :=
  match dget d u with
  | some _ => d
  | none => dset d u empty

/-- hist.py:486-489: `allselection` for the next level. -/
def nextSelection (all : Option (List Bool)) (inverse : List ℤ) (idx : ℕ) (sel : List Bool) : List Bool :=
  match all with
  | none => sel
  | some a => List.zipWith (fun b i => if i ≠ (idx : ℤ) then false else b) a inverse

/-- hist.py:452-489 `filldict`, with the loop over the unique keys as `filldictLoop`. -/
def filldictLoop {n : ℕ} (L : Layout) (rec : Content Arr n → Rows → List Bool → Res (Content Arr n))
    (inverse : List ℤ) (r : Rows) (all : Option (List Bool)) :
    List (ℕ × Key) → List (Key × Content Arr n) → Res (List (Key × Content Arr n))
  | [], d => .ok d
  | (idx, u) :: rest, d =>
    match subInverse inverse all with
    | .error e => .error (e, d)
    | .ok inv =>
      let sel := inv.map (fun i => decide (i = (idx : ℤ)))
      let d := ensureKey d u (emptyContent L n)
      match dget d u with
      | none => .error (.keyError, d)
      | some sub =>
        match r.select sel with
        | .error e => .error (e, d)
        | .ok r' =>
          match rec sub r' (nextSelection all inverse idx sel) with
          | .error (e, sub) => .error (e, dset d u sub)
          | .ok sub => filldictLoop L rec inverse r all rest (dset d u sub)

/-- hist.py:452-489 `filldict`. -/
def filldict (L : Layout) (length : ℕ) : (n : ℕ) → List (Option (List Key × List ℤ)) → Content Arr n → Rows →
    Option (List Bool) → Res (Content Arr n)
  | 0, _, (a : Arr), r, _ => fillblock L length a r.is r.ps r.w
  | n + 1, gs, (d : List (Key × Content Arr n)), r, all =>
    match gs with
    | [] => .error (.indexError, d)
    | none :: _ => .error (.typeError, d)
    | some (uniques, inverse) :: gs =>
      filldictLoop L (fun c r sel => filldict L length n gs c r (some sel)) inverse r all
        (List.zip (List.range uniques.length) uniques) d

/-- hist.py:386-494 `_postfill`. -/
def postfill (L : Layout) (length : ℕ) (d : Dest) (c : Content Arr L.ngroup) : Res (Content Arr L.ngroup) :=
  match flatIndexes L d.fixed with
  | .error e => .error (e, c)
  | .ok is =>
    match weights L length d with
    | .error e => .error (e, c)
    | .ok w => filldict L length L.ngroup d.groups c ⟨is, d.prof, w⟩ none

end Verif
