import Verif.FloatProfile

/-!
# Filling in parts and adding, with the machine's arithmetic
-/

namespace Verif

/-- How a histogram came about: filled with batches, or the sum of two others. -/
inductive Plan where
  | fill (bs : List (List (Num × ℚ)))
  | add (l r : Plan)

/-- hist.py:379-450 (`fill`) and 495-534 (`__add__`), for a histogram with one `bin` axis.  A histogram that was never filled has
no content at all (lines 503-510); here it has zeros, which reads the same (`C122_laws`). -/
def Plan.run (a : BinAxis) : Plan → Except Err (List ℚ)
  | .fill bs => a.fillAllF a.zerosF bs
  | .add l r =>
    match l.run a with
    | .error e => .error e
    | .ok c =>
      match r.run a with
      | .error e => .error e
      | .ok d => .ok (mergeF c d)

/-- All rows, whichever part they are in. -/
def Plan.rows : Plan → List (Num × ℚ)
  | .fill bs => bs.flatten
  | .add l r => l.rows ++ r.rows

/-- The number of additions of histograms that a row goes through, at most. -/
def Plan.depth : Plan → ℕ
  | .fill _ => 0
  | .add l r => max l.depth r.depth + 1

/-- The weights of the rows in bin `i`. -/
def BinAxis.weightsIn (a : BinAxis) (i : ℕ) (rows : List (Num × ℚ)) : List ℚ :=
  (rows.filter fun p => a.indexF p.1 = .ok (some (i : ℤ))).map (·.2)

theorem BinAxis.weightsIn_append (a : BinAxis) (i : ℕ) (xs ys : List (Num × ℚ)) :
    a.weightsIn i (xs ++ ys) = a.weightsIn i xs ++ a.weightsIn i ys := by simp [BinAxis.weightsIn]

theorem mergeF_get {c d : List ℚ} {i : ℕ} {x y : ℚ} (hc : c[i]? = some x) (hd : d[i]? = some y) : (mergeF c d)[i]? = some (rne (x + y)) := by
  simp [mergeF, List.getElem?_zipWith, hc, hd]

theorem mergeF_length {c d : List ℚ} (h : c.length = d.length) : (mergeF c d).length = c.length := by
  simp [mergeF, h]

end Verif
