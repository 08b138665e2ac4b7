import Verif.PropsArith

/-!
# Adding weighted and unweighted histograms

`C29_refuted` shows one sum of a weighted and an unweighted histogram that should have been refused. Here is
what every such sum holds.
-/

namespace Verif

/-- The content of a histogram without group axes that has been filled is an array. -/
theorem fillAll_array (fixed : List FixedAxis) (np : ℕ) (wk : WKind) (bs : List (List Row)) (hf : Fillable ⟨[], fixed, np, wk⟩ bs) (hne : bs ≠ []) :
    ∃ a : Arr, HistDef.fillAll ⟨[], fixed, np, wk⟩ none bs = .ok (some a) ∧ a.shape = fixed.map FixedAxis.totbins ∧
      a.ncols = 2 * np + (if wk = .none then 1 else 2) ∧
      ∀ (idx : List ℕ), HistDef.Cell ⟨[], fixed, np, wk⟩ idx → ∀ (col : ℕ), a.get idx col = binTotal ⟨[], fixed, np, wk⟩ bs.flatten [] idx col := by
  obtain ⟨s, s1, s2, s3, s4⟩ := fillAll_rows ⟨[], fixed, np, wk⟩ bs none trivial hf
  cases s with
  | none =>
    exact ((s3 [] (by simp)).2 (by
      right
      obtain ⟨b, hb⟩ := List.exists_mem_of_ne_nil bs hne
      exact ⟨b, hb, by simp⟩)).elim
  | some a =>
    refine ⟨a, s1, s2.1, s2.2.trans (ncols_eq ⟨[], fixed, np, wk⟩), fun idx hi col => ?_⟩
    have := s4 [] rfl idx hi col
    simpa [HistDef.read, lookup] using this

/-- C29 is violated by all histograms without group axes and profiles: an unweighted and a weighted one can be added in both orders, and the
*counts* of the former are added to the counts and to the squared weights of the latter.  In place, the weighted one accepts the unweighted one
with the same result, and the unweighted one refuses the weighted one. -/
theorem C29_refuted_always (fixed : List FixedAxis) (wk : WKind) (hw : wk ≠ .none) (bs bs' : List (List Row))
    (hf : Fillable ⟨[], fixed, 0, .none⟩ bs) (hf' : Fillable ⟨[], fixed, 0, wk⟩ bs') (hne : bs ≠ []) (hne' : bs' ≠ []) :
    ∃ a b c d : Arr, HistDef.fillAll ⟨[], fixed, 0, .none⟩ none bs = .ok (some a) ∧ HistDef.fillAll ⟨[], fixed, 0, wk⟩ none bs' = .ok (some b) ∧
      addState (n := 0) (some a) (some b) = .ok (some c) ∧ addState (n := 0) (some b) (some a) = .ok (some d) ∧
      iaddState (n := 0) (some b) (some a) = .ok (some d) ∧ (∃ e, iaddState (n := 0) (some a) (some b) = .error e) ∧
      ∀ (idx : List ℕ), HistDef.Cell ⟨[], fixed, 0, wk⟩ idx →
        c.get idx 0 = binTotal ⟨[], fixed, 0, .none⟩ bs.flatten [] idx 0 + binTotal ⟨[], fixed, 0, wk⟩ bs'.flatten [] idx 0 ∧
        c.get idx 1 = binTotal ⟨[], fixed, 0, .none⟩ bs.flatten [] idx 0 + binTotal ⟨[], fixed, 0, wk⟩ bs'.flatten [] idx 1 ∧
        d.get idx 0 = c.get idx 0 ∧ d.get idx 1 = c.get idx 1 := by
  obtain ⟨a, a1, a2, a3, a4⟩ := fillAll_array fixed 0 .none bs hf hne
  obtain ⟨b, b1, b2, b3, b4⟩ := fillAll_array fixed 0 wk bs' hf' hne'
  rw [if_pos rfl] at a3
  rw [if_neg hw] at b3
  have e1 : a.add b = .ok ⟨a.shape, b.ncols, fun i c => a.get i 0 + b.get i c⟩ := by
    unfold Arr.add
    rw [if_pos (a2.trans b2.symm), if_neg (by omega), if_pos a3]
  have e2 : b.add a = .ok ⟨b.shape, b.ncols, fun i c => b.get i c + a.get i 0⟩ := by
    unfold Arr.add
    rw [if_pos (b2.trans a2.symm), if_neg (by omega), if_neg (by omega), if_pos a3]
  have e3 : b.iadd a = .ok ⟨b.shape, b.ncols, fun i c => b.get i c + a.get i 0⟩ := by
    unfold Arr.iadd
    rw [if_pos (b2.trans a2.symm), if_neg (by omega), if_pos a3]
  have e4 : a.iadd b = .error .valueError := by
    unfold Arr.iadd
    rw [if_pos (a2.trans b2.symm), if_neg (by omega), if_neg (by omega)]
  refine ⟨a, b, ⟨a.shape, b.ncols, fun i c => a.get i 0 + b.get i c⟩, ⟨b.shape, b.ncols, fun i c => b.get i c + a.get i 0⟩, a1, b1,
    ?_, ?_, ?_, ?_, fun idx hi => ⟨?_, ?_, ?_, ?_⟩⟩
  rotate_left 4
  · show a.get idx 0 + b.get idx 0 = _
    rw [a4 idx hi, b4 idx hi]
  · show a.get idx 0 + b.get idx 1 = _
    rw [a4 idx hi, b4 idx hi]
  · exact add_comm _ _
  · exact add_comm _ _
  · simp only [addState, addContent, e1]; rfl
  · simp only [addState, addContent, e2]; rfl
  · simp only [iaddState, iaddContent, e3]
  · simp only [iaddState, iaddContent, e4]
    exact ⟨_, rfl⟩

/-- One unweighted entry and one of weight 3 in the same bin: the sum says that the squared weights are 1 + 9. -/
example : (match exU.fillAll none [[⟨[], [.num (.fin 0)], [], none⟩]], exW.fillAll none [[⟨[], [.num (.fin 0)], [], some 3⟩]] with
    | .ok a, .ok b =>
      match addState (n := 0) a b with
      | .ok c => some (exW.read c [] [1] 0, exW.read c [] [1] 1)
      | .error _ => none
    | _, _ => none) = some (4, 10) := by decide +kernel

end Verif
