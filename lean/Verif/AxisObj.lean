import Verif.Proj

/-!
# Axis objects that several histograms share

Mirrors how `Hist.__init__` (hist.py:148-200) treats axis objects: an axis that already belongs to a
histogram (it has `_parsed`) is used again *as the same object*, and its number within the new
histogram is written into it: `_shapeindex` (hist.py:189) for fixed axes, `_sumwxindex` (hist.py:198;
`_sumwx2index` is always the next number) for profiles.  Filling reads these numbers (hist.py:396,
433-434), and `table` reads those of profiles (proj.py:608-611).

Axis objects are numbered; `Indices` holds the number that is written in each of them.  (`_dictindex`,
hist.py:181, is never read.)
-/

namespace Verif

/-- The number written in each axis object. -/
abbrev Indices := ℕ → ℕ

/-- A `Hist` with the axis objects that it uses. -/
structure AxHist where
  groups : List GroupAxis
  fixed : List (ℕ × FixedAxis)
  profs : List ℕ
  wkind : WKind
  deriving DecidableEq

/-- The definition of the histogram, without the identity of the objects. -/
def AxHist.toDef (h : AxHist) : HistDef := ⟨h.groups, h.fixed.map (·.2), h.profs.length, h.wkind⟩

/-- hist.py:187-190 and 196-200: write `start`, `start + step`, ... into the axis objects. -/
def number (step : ℕ) : ℕ → List ℕ → Indices → Indices
  | _, [], idx => idx
  | start, a :: as, idx => number step (start + step) as (fun x => if x = a then start else idx x)

/-- hist.py:166-200: the effect of constructing the histogram on the axis objects. -/
def AxHist.construct (h : AxHist) (idx : Indices) : Indices :=
  number 2 0 h.profs (number 1 0 (h.fixed.map (·.1)) idx)

/-- The layout that filling sees: shape as constructed, numbers as they are in the objects now. -/
def AxHist.layout (h : AxHist) (idx : Indices) : Layout :=
  { h.toDef.layout with sidx := h.fixed.map (fun p => idx p.1), pidx := h.profs.map idx }

/-- The content after `_postfill` is never `None`. -/
def finishFill {n : ℕ} : Res (Content Arr n) → Res (Option (Content Arr n))
  | .error (e, c) => .error (e, some c)
  | .ok c => .ok (some c)

/-- hist.py:336-377 `Hist.fill`, with the layout that the axis objects give now. -/
def AxHist.fill (h : AxHist) (idx : Indices) (st : h.toDef.State) (rows : List Row) : Res h.toDef.State :=
  let c : Content Arr h.toDef.groups.length := prefill h.toDef.layout st
  match h.toDef.columns rows with
  | .error e => .error (e, some c)
  | .ok d =>
    finishFill (postfill (h.layout idx) rows.length d c)

/-- All axis objects and histograms of a program. -/
structure AxWorld where
  idx : Indices
  hists : List AxHist
  next : ℕ

/-- What a program can do with histogram number `h` that makes a new histogram. -/
inductive AxOp
  /-- `Hist(...)` with new axes (copied, hist.py:153-155) -/
  | create (groups : List GroupAxis) (fixed : List FixedAxis) (nprof : ℕ) (wkind : WKind)
  /-- `copy`, `copyonfill`, `cleared` (hist.py:79-98) and selections on group axes (proj.py:460-486) -/
  | same (h : ℕ)
  /-- `project` (proj.py:226-286) -/
  | project (h : ℕ) (kg kf : List Bool)
  /-- `rebin` (proj.py:96-135) and selections on a fixed axis that stays (proj.py:460-486): fixed axis
  `j` is replaced by a new object -/
  | replace (h j : ℕ) (a : FixedAxis)
  /-- selection on a cut axis, which disappears (proj.py:480-482) -/
  | erase (h j : ℕ)
  /-- `drop` (proj.py:181-224) -/
  | drop (h : ℕ) (keep : List Bool)
  /-- `+`, `*` (hist.py:529, 577): the axes are taken over without calling `__init__` -/
  | share (h : ℕ)
  deriving DecidableEq

/-- Pairs with consecutive numbers. -/
def withNumbers {α : Type} : ℕ → List α → List (ℕ × α)
  | _, [] => []
  | n, x :: xs => (n, x) :: withNumbers (n + 1) xs

/-- The new histogram and the number of new objects; `none`: there is no such histogram. -/
def AxOp.result (w : AxWorld) : AxOp → Option (AxHist × ℕ)
  | .create gs fs np wk =>
    some (⟨gs, withNumbers w.next fs, (List.range np).map (w.next + fs.length + ·), wk⟩, fs.length + np)
  | .same h | .share h => (w.hists[h]?).map (fun o => (o, 0))
  | .project h kg kf => (w.hists[h]?).map (fun o => ({ o with groups := pick kg o.groups, fixed := pick kf o.fixed }, 0))
  | .replace h j a => (w.hists[h]?).map (fun o => ({ o with fixed := o.fixed.set j (w.next, a) }, 1))
  | .erase h j => (w.hists[h]?).map (fun o => ({ o with fixed := o.fixed.eraseIdx j }, 0))
  | .drop h keep => (w.hists[h]?).map (fun o => ({ o with profs := pick keep o.profs }, 0))

/-- One operation. -/
def AxWorld.step (w : AxWorld) (op : AxOp) : AxWorld :=
  match op.result w with
  | none => w
  | some (o, n) =>
    { idx := match op with
        | .share _ => w.idx
        | _ => o.construct w.idx
      hists := w.hists ++ [o]
      next := w.next + n }

/-- A program. -/
def AxWorld.run (w : AxWorld) (ops : List AxOp) : AxWorld := ops.foldl AxWorld.step w

/-- Before anything was made. -/
def AxWorld.empty : AxWorld := ⟨fun _ => 0, [], 0⟩

end Verif
