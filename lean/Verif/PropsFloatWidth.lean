import Verif.FloatWidth
import Verif.PropsFloatBin

/-!
# C107: the published bin width
-/

namespace Verif

theorem binwidthLoop_step (numer denom delta : ℚ) (k : ℕ) (x : ℚ) :
    binwidthLoop numer denom delta (k + 1) x =
      if numer ≤ rne (x * denom) then binwidthLoop numer denom delta k (rne (x - delta)) else some x := rfl

/-- In double precision, `binwidth` ends after at most three corrections and gives the same number however
long the loop might go on: a double within nine roundings of `(high - low) / numbins`, such that
`numbins` times it, as the machine computes it, stays below `high - low`. -/
theorem C107_binwidth_partial (a : BinAxis) (h : a.Ordinary) :
    ∃ w, (∀ fuel, 4 ≤ fuel → a.binwidthF fuel = .ok (some w)) ∧ IsF64 w ∧
      rne (w * a.numbins) < rne (a.high - a.low) ∧
      |w - (a.high - a.low) / a.numbins| ≤ 9 / 2 ^ 53 * ((a.high - a.low) / a.numbins) := by
  have he := eps_pos
  have hes := eps_small
  have hd : 0 < a.high - a.low := by linarith [h.order]
  have hN : (1 : ℚ) ≤ a.numbins := by exact_mod_cast h.bins
  have hN30 : (a.numbins : ℚ) ≤ 2 ^ (30 : ℤ) := by exact_mod_cast h.few
  have hw := abs_le.1 h.width
  have hwp := h.width_pos
  have hF : IsF64 (rne (a.high - a.low)) := rne_isF64 _
  have hD0 : (2 : ℚ) ^ (-900 : ℤ) ≤ rne (a.high - a.low) := le_rne (isF64_zpow _ (by norm_num)) h.apart
  set d := a.high - a.low with hdd
  set D := rne d with hD
  set n : ℚ := (a.numbins : ℚ) with hn
  have hnp : 0 < n := by linarith
  have hDn : (2 : ℚ) ^ (-930 : ℤ) ≤ D / n := by
    rw [le_div_iff₀ hnp]
    calc (2 : ℚ) ^ (-930 : ℤ) * n ≤ 2 ^ (-930 : ℤ) * 2 ^ (30 : ℤ) := mul_le_mul_of_nonneg_left hN30 (two_zpow_pos _).le
      _ = 2 ^ (-900 : ℤ) := by rw [← two_zpow_add]; norm_num
      _ ≤ D := hD0
  have hDnp : 0 < D / n := by positivity
  have hr := rne_err_normal (D / n) (by rw [abs_of_pos hDnp]; exact (two_zpow_le (by norm_num)).trans hDn)
  change _ ≤ eps * _ at hr
  rw [abs_of_pos hDnp, abs_le] at hr
  have hx0 : (2 : ℚ) ^ (-930 : ℤ) ≤ rne (D / n) := le_rne (isF64_zpow _ (by norm_num)) hDn
  have hxF : IsF64 (rne (D / n)) := rne_isF64 _
  set x := rne (D / n) with hx
  have hx1 : (2 : ℚ) ^ (-1000 : ℤ) ≤ x := (two_zpow_le (by norm_num)).trans hx0
  have hxp : 0 < x := lt_of_lt_of_le (two_zpow_pos _) hx1
  obtain ⟨s1, s2, s3⟩ := nextDown_step hx1
  obtain ⟨e, j, he74, hstep, hxj, hj1, hj2⟩ := nextDown_grid hxF hx1
  set δ := x - nextDown x with hδ
  -- the corrected numbers are doubles
  have hgrid : ∀ k : ℕ, k ≤ 3 → IsF64 (x - k * δ) := by
    intro k hk
    refine ⟨j - k, e, ?_, he74, ?_⟩
    · rw [abs_le]; constructor <;> omega
    · rw [hstep]; push_cast
      rw [sub_mul, ← hxj]
  have hsub : ∀ k : ℕ, k + 1 ≤ 3 → rne ((x - k * δ) - δ) = x - ((k + 1 : ℕ) : ℚ) * δ := by
    intro k hk
    have : (x - k * δ) - δ = x - ((k + 1 : ℕ) : ℚ) * δ := by push_cast; ring
    rw [this]; exact rne_fix (hgrid _ hk)
  -- after three corrections the product is small enough
  have hlast : rne ((x - ((3 : ℕ) : ℚ) * δ) * n) < D := by
    refine rne_lt hF ((two_zpow_le (by norm_num)).trans hD0) ?_
    have h1 : x - ((3 : ℕ) : ℚ) * δ ≤ (1 - 3 * eps) * x := by push_cast; linarith
    have h2 : x ≤ (1 + eps) * (D / n) := by linarith [hr.2]
    have h3 : (1 - 3 * eps) * x ≤ (1 - 3 * eps) * ((1 + eps) * (D / n)) := mul_le_mul_of_nonneg_left h2 (by linarith)
    have h4 := mul_le_mul_of_nonneg_right (h1.trans h3) hnp.le
    have h5 : (1 - 3 * eps) * ((1 + eps) * (D / n)) * n = (1 - 3 * eps) * (1 + eps) * D := by field_simp
    rw [h5] at h4
    refine lt_of_le_of_lt h4 (mul_lt_mul_of_pos_right ?_ hwp)
    nlinarith
  -- so some correction is the last
  have hex : ∃ k : ℕ, k ≤ 3 ∧ rne ((x - k * δ) * n) < D ∧ ∀ i < k, D ≤ rne ((x - i * δ) * n) := by
    have : ∃ k : ℕ, rne ((x - k * δ) * n) < D := ⟨3, hlast⟩
    classical
    refine ⟨Nat.find this, Nat.find_min' this hlast, Nat.find_spec this, ?_⟩
    intro i hi
    exact not_lt.1 (Nat.find_min this hi)
  obtain ⟨k, hk3, hklt, hkmin⟩ := hex
  have hloop : ∀ m i : ℕ, i + m = k → ∀ fuel, m + 1 ≤ fuel → binwidthLoop D n δ fuel (x - i * δ) = some (x - k * δ) := by
    intro m
    induction m with
    | zero =>
      intro i hi fuel hf
      obtain ⟨f, rfl⟩ : ∃ f, fuel = f + 1 := ⟨fuel - 1, by omega⟩
      have : i = k := by omega
      subst this
      rw [binwidthLoop_step, if_neg (not_le.2 hklt)]
    | succ m ih =>
      intro i hi fuel hf
      obtain ⟨f, rfl⟩ : ∃ f, fuel = f + 1 := ⟨fuel - 1, by omega⟩
      rw [binwidthLoop_step, if_pos (hkmin i (by omega)), hsub i (by omega)]
      exact ih (i + 1) (by omega) f (by omega)
  refine ⟨x - k * δ, ?_, hgrid k hk3, hklt, ?_⟩
  · intro fuel hf
    unfold BinAxis.binwidthF
    rw [rne_fix h.low, rne_fix h.high, h.numbins_rne, ← hdd, ← hD, ← hn]
    simp only [hnp.ne', if_false]
    rw [← hx, ← hδ, s1]
    have := hloop k 0 (by omega) fuel (by omega)
    rw [Nat.cast_zero, zero_mul, sub_zero] at this
    rw [this]
  · have he9 : (9 : ℚ) / 2 ^ 53 = 9 * eps := by unfold eps; rw [zpow_neg]; norm_num
    rw [he9]
    have hdn : 0 < d / n := by positivity
    -- from above
    have hup : x - k * δ ≤ D / n := by
      rw [le_div_iff₀ hnp]
      by_contra hc
      exact absurd (le_rne hF (not_le.1 hc).le) (not_le.2 hklt)
    have hDd1 : D / n ≤ (1 + eps) * (d / n) := by
      rw [div_le_iff₀ hnp, mul_assoc, div_mul_cancel₀ _ hnp.ne']; linarith [hw.2]
    have hDd2 : (1 - eps) * (d / n) ≤ D / n := by
      rw [le_div_iff₀ hnp, mul_assoc, div_mul_cancel₀ _ hnp.ne']; linarith [hw.1]
    have hk : (k : ℚ) ≤ 3 := by exact_mod_cast hk3
    have hkδ : k * δ ≤ 3 * (2 * eps * x) := mul_le_mul hk s3 (le_trans (by positivity) s2) (by norm_num)
    have hx2 : (1 - eps) * (D / n) ≤ x := by linarith [hr.1]
    have hlow : (1 - 9 * eps) * (d / n) ≤ x - k * δ := by
      have h1 : (1 - 6 * eps) * x ≤ x - k * δ := by linarith
      have h2 : (1 - 6 * eps) * ((1 - eps) * ((1 - eps) * (d / n))) ≤ (1 - 6 * eps) * x :=
        mul_le_mul_of_nonneg_left ((mul_le_mul_of_nonneg_left hDd2 (by linarith)).trans hx2) (by linarith)
      have h3 : (1 - 9 * eps) * (d / n) ≤ (1 - 6 * eps) * ((1 - eps) * ((1 - eps) * (d / n))) := by
        have : (1 - 6 * eps) * ((1 - eps) * ((1 - eps) * (d / n))) = ((1 - 6 * eps) * (1 - eps) ^ 2) * (d / n) := by ring
        rw [this]
        refine mul_le_mul_of_nonneg_right ?_ hdn.le
        nlinarith [pow_pos he 2, pow_pos he 3]
      linarith
    rw [abs_le]
    constructor
    · linarith
    · have := mul_pos he hdn
      linarith

example : ∃ w, (∀ fuel, 4 ≤ fuel → (decimalBin 10 (1 / 10) (9 / 10)).binwidthF fuel = .ok (some w)) ∧ IsF64 w ∧
    rne (w * 10) < rne (rne (9 / 10) - rne (1 / 10)) ∧
    |w - (rne (9 / 10) - rne (1 / 10)) / 10| ≤ 9 / 2 ^ 53 * ((rne (9 / 10) - rne (1 / 10)) / 10) :=
  C107_binwidth_partial _ tenth_ordinary

/-- The published width need not be the width: the bins of `bin("x", 10, 0, 10)` are 1 wide, and `binwidth` is
0.9999999999999999. -/
theorem C107_binwidth_refuted :
    (decimalBin 10 0 10).binwidthF 4 = .ok (some (1 - 1 / 2 ^ 53)) ∧
      ∀ i < 10, (decimalBin 10 0 10).i2xF (i + 1) - (decimalBin 10 0 10).i2xF i = 1 := by
  decide +kernel

/-- An axis without bins has no width: asking for it raises `ZeroDivisionError`. -/
theorem C107_no_bins (a : BinAxis) (h : a.numbins = 0) (fuel : ℕ) : a.binwidthF fuel = .error .zeroDivision := by
  unfold BinAxis.binwidthF
  simp [h, rne_zero]

example : BinAxis.binwidthF ⟨0, 1, 2, true, true, true, true⟩ 4 = .error .zeroDivision := by decide +kernel

end Verif
