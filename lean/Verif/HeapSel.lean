import Verif.Heap
import Verif.GroupSel

/-!
# Which objects derived histograms share with the original

`select`, `project`, `rebin` and `drop` (`/repo/histbook/proj.py`) make new histograms from a histogram
that goes on to live.  A selection on a group axis puts the *same* arrays into a new dict; all other
operations make new arrays.
-/

namespace Verif

/-- proj.py:471: `dict((n, cutcontent(i + 1, x)) for n, x in content.items())`, a new dict. -/
def mapHeapDict (rec : Heap → ℕ → Except Err (Heap × ℕ)) : List (Key × ℕ) → Heap → Except Err (Heap × List (Key × ℕ))
  | [], h => .ok (h, [])
  | (k, a) :: rest, h =>
    match rec h a with
    | .error e => .error e
    | .ok (h, b) =>
      match mapHeapDict rec rest h with
      | .error e => .error e
      | .ok (h, rest) => .ok (h, (k, b) :: rest)

/-- proj.py:463-471 `cutcontent` for group axis `i` (its `cutslice` is the test): the dicts on the way are
made new, the values of the dict of axis `i` are taken as they are (line 469).  A content without a dict
on level `i` does not happen. -/
def filterHeap (test : Test) : (i n : ℕ) → Heap → ℕ → Except Err (Heap × ℕ)
  | _, 0, h, a => .ok (h, a)
  | 0, _ + 1, h, a =>
    match h.get a with
    | some (.dict d) =>
      match filterE test d with
      | .error e => .error e
      | .ok d => .ok (h.alloc (.dict d))
    | _ => .error .assertion
  | i + 1, n + 1, h, a =>
    match h.get a with
    | some (.dict d) =>
      match mapHeapDict (filterHeap test i n) d h with
      | .error e => .error e
      | .ok (h, d) => .ok (h.alloc (.dict d))
    | _ => .error .assertion

/-- The array of a group, as an object. -/
def leafAddr (h : Heap) : (n : ℕ) → ℕ → List Key → Option ℕ
  | 0, a, [] =>
    match h.get a with
    | some (.arr _) => some a
    | _ => none
  | n + 1, a, k :: gk =>
    match h.get a with
    | some (.dict d) => (dget d k).bind (fun b => leafAddr h n b gk)
    | _ => none
  | _, _, _ => none

/-- proj.py:460-487 `_selectaxis` on group axis `i` of the histogram in variable `v`; the result is a new
variable (its `_copyonfill` is `False`, hist.py:257). -/
def World.selectGroup (H : HistDef) (w : World) (v i : ℕ) (test : Test) : World × Option Err :=
  match w.vars[v]? with
  | none => (w, some .keyError)
  | some u =>
    match u.content with
    | none => (⟨w.heap, w.vars ++ [⟨none, false⟩]⟩, none)
    | some a =>
      match filterHeap test i H.groups.length w.heap a with
      | .error e => (w, some e)
      | .ok (h, b) => (⟨h, w.vars ++ [⟨some b, false⟩]⟩, none)

/-- The recursion of `cutcontent` on a fixed axis (proj.py:471, 474-478: `content[slc].copy()`, maybe with
another shape), of `dropcontent` (proj.py:215-219: indexing with a list makes a new array) and of
`rebincontent` (proj.py:118-122, 161-165; axis.py:1164 `numpy.empty`): new dicts, and a new array for each
array. -/
def mapHeap (f : Arr → Arr) : (n : ℕ) → Heap → ℕ → Except Err (Heap × ℕ)
  | 0, h, a =>
    match h.get a with
    | some (.arr x) => .ok (h.alloc (.arr (f x)))
    | _ => .error .assertion
  | n + 1, h, a =>
    match h.get a with
    | some (.dict d) =>
      match mapHeapDict (mapHeap f n) d h with
      | .error e => .error e
      | .ok (h, d) => .ok (h.alloc (.dict d))
    | _ => .error .assertion

/-! ## a histogram and another one that was derived from it -/

/-- A histogram with definition `H` and one with definition `H'` in one heap. -/
structure Pair where
  heap : Heap
  left : HObj
  right : HObj

/-- The result of an operation that makes all arrays and dicts new: `content[slc].copy()` (proj.py:475),
`numpy.sum` and `+` (proj.py:248, 258), an index list (`drop`, proj.py:213-219), `numpy.empty` (`rebin`,
axis.py:1164), in new dicts; with its content `s`. -/
def Pair.derive (H' : HistDef) (h : Heap) (u : HObj) (s : H'.State) : Pair :=
  let r := HObj.fresh H' h ⟨none, false⟩ s
  ⟨r.1, u, r.2⟩

/-- The result of an operation that makes new arrays with `f` (proj.py:480-485, 221-224, 124-135). -/
def Pair.mapped (H : HistDef) (f : Arr → Arr) (h : Heap) (u : HObj) : Except Err Pair :=
  match u.content with
  | none => .ok ⟨h, u, ⟨none, false⟩⟩
  | some a =>
    match mapHeap f H.groups.length h a with
    | .error e => .error e
    | .ok (h, b) => .ok ⟨h, u, ⟨some b, false⟩⟩

/-- hist.py:350-377: `fill` of one histogram (what is left of it after an exception). -/
def HObj.fill (H : HistDef) (h : Heap) (v : HObj) (rows : List Row) : Heap × HObj :=
  match v.state H h with
  | none => (h, v)
  | some s =>
    let r := if v.cof then HObj.fresh H h { v with cof := false } s else (h, v)
    match H.fill s rows with
    | .ok s' => r.2.write H r.1 s'
    | .error (_, s') => r.2.write H r.1 s'

/-- Fill the first (`true`) or the second histogram. -/
def Pair.step (H H' : HistDef) (p : Pair) : Bool × List Row → Pair
  | (true, rows) => let r := p.left.fill H p.heap rows; ⟨r.1, r.2, p.right⟩
  | (false, rows) => let r := p.right.fill H' p.heap rows; ⟨r.1, p.left, r.2⟩

/-- A sequence of fills of both; exceptions are caught. -/
def Pair.run (H H' : HistDef) : Pair → List (Bool × List Row) → Pair
  | p, [] => p
  | p, op :: ops => Pair.run H H' (p.step H H' op) ops

end Verif
