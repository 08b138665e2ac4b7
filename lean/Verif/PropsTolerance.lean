import Verif.PropsSelect
import Verif.Float64

/-! C37: tolerances above half the width of a bin. -/

namespace Verif

/-- C37 is false of every bin axis if the tolerance is more than half the width of a bin (also the default one, if the bins are that narrow): a
threshold above the axis by between half and one and a half widths, and less than the tolerance, is accepted, and the axis of the result has the same
range with one bin more than before, so that all its edges are wrong. -/
theorem C37_large_tolerance_above (numbins : ℕ) (low high : ℚ) (u o n cl : Bool) (a : BinAxis)
    (ha : BinAxis.init numbins low high u o n cl = .ok a) (hn : 0 < numbins) (H : HistDef) (st : H.State) (j : ℕ)
    (hj : H.fixed[j]? = some (.bin a)) (cmp : Cmp) (hc : cl = true ∧ cmp = .lt ∨ cl = false ∧ cmp = .le) (tol v : ℚ)
    (h1 : (high - low) / numbins / 2 < v - high) (h2 : v - high < 3 / 2 * ((high - low) / numbins)) (h3 : v - high < tol) :
    ∃ r, H.select j cmp (.fin v) tol st = .ok r ∧ r.1.fixed[j]? = some (.bin ⟨numbins + 1, low, high, u, false, false, cl⟩) := by
  obtain ⟨rfl, hlt, _, _⟩ := BinAxis.init_ok ha
  have hlh := hlt hn
  have hN : (0 : ℚ) < numbins := by exact_mod_cast hn
  have hD : 0 < high - low := by linarith
  have hd : high - low ≠ 0 := hD.ne'
  have hs : (numbins : ℚ) / (high - low) ≠ 0 := div_ne_zero hN.ne' hd
  have hw : 0 < (high - low) / numbins := div_pos hD hN
  have hz : (v - low) * ((numbins : ℚ) / (high - low)) = numbins + (v - high) / ((high - low) / numbins) := by
    field_simp
    ring
  have hround : pyRound ((v - low) * ((numbins : ℚ) / (high - low))) = (numbins : ℤ) + 1 := by
    apply pyRound_near
    rw [hz, abs_lt]
    push_cast
    have e1 : 1 / 2 < (v - high) / ((high - low) / numbins) := by rw [lt_div_iff₀ hw]; linarith
    have e2 : (v - high) / ((high - low) / numbins) < 3 / 2 := by rw [div_lt_iff₀ hw]; linarith
    constructor <;> linarith
  have hmin : min (numbins : ℤ) (max 0 ((numbins : ℤ) + 1)) = numbins := by omega
  have hclose : (((numbins : ℤ) : ℚ)) / ((numbins : ℚ) / (high - low)) + low = high := by
    push_cast
    field_simp
    ring
  have habs : |v - high| < tol := by rw [abs_of_pos (by linarith)]; exact h3
  have hjl : j < H.fixed.length := (List.getElem?_eq_some_iff.1 hj).1
  have hto : ((numbins : ℤ) + 1).toNat = numbins + 1 := by omega
  have hb : ∀ b : Bool, b2n b = if b then 1 else 0 := fun b => rfl
  unfold HistDef.select
  rw [hj]
  simp only [FixedAxis.select, BinAxis.select, reduceCtorEq, false_and, or_self, if_false, hd, hs, hround, hmin, hclose, habs, if_true, hto]
  rcases hc with ⟨rfl, rfl⟩ | ⟨rfl, rfl⟩
  · simp only [and_self, true_or, if_true, checktot, BinAxis.totbins, hb]
    rw [if_neg (by split <;> omega)]
    exact ⟨_, rfl, by simp [HistDef.setFixed, hjl]⟩
  · simp only [and_self, or_true, if_true, checktot, BinAxis.totbins, hb]
    rw [if_neg (by split <;> omega)]
    exact ⟨_, rfl, by simp [HistDef.setFixed, hjl]⟩

/-- C37, the same below the axis. -/
theorem C37_large_tolerance_below (numbins : ℕ) (low high : ℚ) (u o n cl : Bool) (a : BinAxis)
    (ha : BinAxis.init numbins low high u o n cl = .ok a) (hn : 0 < numbins) (H : HistDef) (st : H.State) (j : ℕ)
    (hj : H.fixed[j]? = some (.bin a)) (cmp : Cmp) (hc : cl = true ∧ cmp = .ge ∨ cl = false ∧ cmp = .gt) (tol v : ℚ)
    (h1 : (high - low) / numbins / 2 < low - v) (h2 : low - v < 3 / 2 * ((high - low) / numbins)) (h3 : low - v < tol) :
    ∃ r, H.select j cmp (.fin v) tol st = .ok r ∧ r.1.fixed[j]? = some (.bin ⟨numbins + 1, low, high, false, o, false, cl⟩) := by
  obtain ⟨rfl, hlt, _, _⟩ := BinAxis.init_ok ha
  have hlh := hlt hn
  have hN : (0 : ℚ) < numbins := by exact_mod_cast hn
  have hD : 0 < high - low := by linarith
  have hd : high - low ≠ 0 := hD.ne'
  have hs : (numbins : ℚ) / (high - low) ≠ 0 := div_ne_zero hN.ne' hd
  have hw : 0 < (high - low) / numbins := div_pos hD hN
  have hz : (v - low) * ((numbins : ℚ) / (high - low)) = -((low - v) / ((high - low) / numbins)) := by
    field_simp
    ring
  have hround : pyRound ((v - low) * ((numbins : ℚ) / (high - low))) = -1 := by
    apply pyRound_near
    rw [hz, abs_lt]
    push_cast
    have e1 : 1 / 2 < (low - v) / ((high - low) / numbins) := by rw [lt_div_iff₀ hw]; linarith
    have e2 : (low - v) / ((high - low) / numbins) < 3 / 2 := by rw [div_lt_iff₀ hw]; linarith
    constructor <;> linarith
  have hmin : min (numbins : ℤ) (max 0 (-1)) = 0 := by omega
  have hclose : (((0 : ℤ) : ℚ)) / ((numbins : ℚ) / (high - low)) + low = low := by simp
  have habs : |v - low| < tol := by rw [abs_sub_comm, abs_of_pos (by linarith)]; exact h3
  have hjl : j < H.fixed.length := (List.getElem?_eq_some_iff.1 hj).1
  have hto : ((numbins : ℤ) - -1).toNat = numbins + 1 := by omega
  have hb : ∀ b : Bool, b2n b = if b then 1 else 0 := fun b => rfl
  unfold HistDef.select
  rw [hj]
  simp only [FixedAxis.select, BinAxis.select, reduceCtorEq, false_and, or_self, if_false, hd, hs, hround, hmin, hclose, habs, if_true, hto]
  rcases hc with ⟨rfl, rfl⟩ | ⟨rfl, rfl⟩
  · simp only [and_self, true_or, reduceCtorEq, and_false, Bool.true_eq_false, false_and, or_self, if_false, if_true, checktot, BinAxis.totbins, hb]
    rw [if_neg (by split <;> omega)]
    exact ⟨_, rfl, by simp [HistDef.setFixed, hjl]⟩
  · simp only [and_self, or_true, reduceCtorEq, and_false, Bool.false_eq_true, false_and, or_self, if_false, if_true, checktot, BinAxis.totbins, hb]
    rw [if_neg (by split <;> omega)]
    exact ⟨_, rfl, by simp [HistDef.setFixed, hjl]⟩

/-- C36 is false of every intbin axis with a tolerance of more than 1/2: a threshold that rounds to the integer after the last one is accepted by
`<=` (and one that rounds to the integer before the first one by `>=`), and the result has a bin for an integer that the axis did not have. -/
theorem C36_large_tolerance_always (a : IntbinAxis) (hle : a.min ≤ a.max) (H : HistDef) (st : H.State) (j : ℕ) (hj : H.fixed[j]? = some (.intbin a))
    (tol v : ℚ) :
    ((a.max : ℚ) + 1 / 2 < v → v < a.max + 3 / 2 → v - tol ≤ a.max → |v - (a.max + 1)| < tol →
      ∃ r, H.select j .le (.fin v) tol st = .ok r ∧ r.1.fixed[j]? = some (.intbin ⟨a.min, a.max + 1, a.underflow, false⟩)) ∧
    ((a.min : ℚ) - 3 / 2 < v → v < a.min - 1 / 2 → a.min ≤ v + tol → |v - (a.min - 1)| < tol →
      ∃ r, H.select j .ge (.fin v) tol st = .ok r ∧ r.1.fixed[j]? = some (.intbin ⟨a.min - 1, a.max, false, a.overflow⟩)) := by
  have hjl : j < H.fixed.length := (List.getElem?_eq_some_iff.1 hj).1
  have hq : (a.min : ℚ) ≤ a.max := by exact_mod_cast hle
  refine ⟨fun h1 h2 h3 h4 => ?_, fun h1 h2 h3 h4 => ?_⟩
  · have hround : pyRound v = a.max + 1 := by
      apply pyRound_near
      push_cast
      rw [abs_lt]
      constructor <;> linarith
    have ht : 0 < tol := lt_of_le_of_lt (abs_nonneg _) h4
    unfold HistDef.select
    rw [hj]
    simp only [FixedAxis.select, IntbinAxis.select, hround]
    rw [if_neg (by linarith), if_neg (by linarith), if_pos (by push_cast; exact h4)]
    unfold IntbinAxis.checkSel
    rw [if_neg (by simp only; omega)]
    exact ⟨_, rfl, by simp [HistDef.setFixed, hjl]⟩
  · have hround : pyRound v = a.min - 1 := by
      apply pyRound_near
      push_cast
      rw [abs_lt]
      constructor <;> linarith
    have ht : 0 < tol := lt_of_le_of_lt (abs_nonneg _) h4
    unfold HistDef.select
    rw [hj]
    simp only [FixedAxis.select, IntbinAxis.select, hround]
    rw [if_neg (by linarith), if_neg (by linarith), if_pos (by push_cast; exact h4)]
    unfold IntbinAxis.checkSel
    rw [if_neg (by simp only; omega)]
    exact ⟨_, rfl, by simp [HistDef.setFixed, hjl]⟩

/-- `n <= 4.55` with a tolerance of 0.6 on the integers from 1 to 4 -/
example : ∃ r, HistDef.select ⟨[], [.intbin ⟨1, 4, true, true⟩], 0, .none⟩ 0 .le (.fin (91 / 20)) (3 / 5) none = .ok r ∧
    r.1.fixed[0]? = some (.intbin ⟨1, 5, true, false⟩) :=
  (C36_large_tolerance_always ⟨1, 4, true, true⟩ (by decide) ⟨[], [.intbin ⟨1, 4, true, true⟩], 0, .none⟩ none 0 rfl _ _).1 (by norm_num) (by norm_num) (by norm_num)
    (by norm_num [abs_lt])

/-- The threshold 5.55 with a tolerance of 0.6 on an axis from 0 to 5, and bins narrower than the default tolerance of 1e-12. -/
example : ∃ r, HistDef.select ⟨[], [.bin ⟨5, 0, 5, true, false, false, true⟩], 0, .none⟩ 0 .lt (.fin (111 / 20)) (3 / 5) none = .ok r ∧
    r.1.fixed[0]? = some (.bin ⟨6, 0, 5, true, false, false, true⟩) :=
  C37_large_tolerance_above 5 0 5 true false false true _ (by decide +kernel) (by omega) _ none 0 rfl .lt (Or.inl ⟨rfl, rfl⟩) _ _ (by norm_num) (by norm_num)
    (by norm_num)

example : ∃ r, HistDef.select ⟨[], [.bin ⟨10, 0, 1 / 10 ^ 11, true, true, true, true⟩], 0, .none⟩ 0 .ge (.fin (-(6 / 10 ^ 13))) (1 / 10 ^ 12) none = .ok r ∧
    r.1.fixed[0]? = some (.bin ⟨11, 0, 1 / 10 ^ 11, false, true, false, true⟩) :=
  C37_large_tolerance_below 10 0 (1 / 10 ^ 11) true true true true _ (by decide +kernel) (by omega) _ none 0 rfl .ge (Or.inl ⟨rfl, rfl⟩) _ _ (by norm_num)
    (by norm_num) (by norm_num)

end Verif
