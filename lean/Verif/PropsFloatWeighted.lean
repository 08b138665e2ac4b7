import Verif.FloatWeighted
import Verif.PropsFloatSqrt

/-!
# C118 with weights
-/

namespace Verif

/-- The exact sum of the weights; an entry is a value and its weight. -/
def wSum (ps : List (ℚ × ℚ)) : ℚ := (ps.map fun p => p.2).sum

/-- The exact weighted mean. -/
def wMean (ps : List (ℚ × ℚ)) : ℚ := (ps.map fun p => p.2 * p.1).sum / wSum ps

/-- The exact weighted mean of the sizes. -/
def wAbs (ps : List (ℚ × ℚ)) : ℚ := (ps.map fun p => p.2 * |p.1|).sum / wSum ps

/-- The exact weighted mean of the squares. -/
def wSq (ps : List (ℚ × ℚ)) : ℚ := (ps.map fun p => p.2 * p.1 ^ 2).sum / wSum ps

/-- The exact weighted variance. -/
def wVariance (ps : List (ℚ × ℚ)) : ℚ := (ps.map fun p => p.2 * (p.1 - wMean ps) ^ 2).sum / wSum ps

/-- The exact effective number of entries. -/
def wEff (ps : List (ℚ × ℚ)) : ℚ := wSum ps ^ 2 / (ps.map fun p => p.2 ^ 2).sum

/-- What the table shows for a bin with these entries, in this order. -/
def wcell (ps : List (ℚ × ℚ)) : WProfCell :=
  wprofCellF (sumF 0 (ps.map fun p => rne (p.1 * p.2))) (sumF 0 (ps.map fun p => rne (rne (p.1 * p.1) * p.2)))
    (sumF 0 (ps.map fun p => p.2)) (sumF 0 (ps.map fun p => rne (p.2 * p.2)))

/-- Values and weights that are neither small nor large. -/
def MediumAll (ps : List (ℚ × ℚ)) : Prop := ∀ p ∈ ps, Medium p.1 ∧ MediumWeight p.2

theorem wSum_pos {ps : List (ℚ × ℚ)} (h : MediumAll ps) (h0 : ps ≠ []) : 0 < wSum ps := by
  unfold wSum
  refine List.sum_pos _ ?_ (by simpa using h0)
  intro x hx
  obtain ⟨p, hp, rfl⟩ := List.mem_map.1 hx
  exact (h p hp).2.pos

theorem wSum_close {ps : List (ℚ × ℚ)} (h : MediumAll ps) : |sumF 0 (ps.map fun p => p.2) - wSum ps| ≤ growth ps.length * wSum ps := by
  have := sumF_close ps (fun p => p.2) (fun p => p.2) (fun p => p.2) 0 (fun p hp => (h p hp).2.1)
    (fun p hp => by simp [growth]) (fun p hp => (abs_of_pos (h p hp).2.pos).le)
  simpa [wSum] using this

theorem medium_mul {x w : ℚ} (hx : Medium x) (hw : MediumWeight w) : x * w = 0 ∨ (2 : ℚ) ^ (-200 : ℤ) ≤ |x * w| :=
  mul_big (-100) (-100) hx.2 (Or.inr (hw.2.1.trans (le_abs_self _)))

theorem wx_close {ps : List (ℚ × ℚ)} (h : MediumAll ps) :
    |sumF 0 (ps.map fun p => rne (p.1 * p.2)) - (ps.map fun p => p.2 * p.1).sum| ≤ growth (ps.length + 1) * (ps.map fun p => p.2 * |p.1|).sum := by
  refine sumF_close ps (fun p => rne (p.1 * p.2)) (fun p => p.2 * p.1) (fun p => p.2 * |p.1|) 1 (fun p _ => rne_isF64 _) (fun p hp => ?_) (fun p hp => ?_)
  · have := rne_rel (-200) (by norm_num) (medium_mul (h p hp).1 (h p hp).2)
    rw [abs_mul, abs_of_pos (h p hp).2.pos] at this
    rw [growth_one, mul_comm p.2 p.1, mul_comm p.2]
    exact this
  · rw [abs_mul, abs_of_pos (h p hp).2.pos]

theorem medium_sq_mul {x w : ℚ} (hx : Medium x) (hw : MediumWeight w) :
    rne (x * x) * w = 0 ∨ (2 : ℚ) ^ (-301 : ℤ) ≤ |rne (x * x) * w| :=
  mul_big (-201) (-100) (rne_half (-200) (by norm_num) (mul_big (-100) (-100) hx.2 hx.2)) (Or.inr (hw.2.1.trans (le_abs_self _)))

theorem wx2_close {ps : List (ℚ × ℚ)} (h : MediumAll ps) :
    |sumF 0 (ps.map fun p => rne (rne (p.1 * p.1) * p.2)) - (ps.map fun p => p.2 * p.1 ^ 2).sum| ≤
      growth (ps.length + 2) * (ps.map fun p => p.2 * p.1 ^ 2).sum := by
  refine sumF_close ps (fun p => rne (rne (p.1 * p.1) * p.2)) (fun p => p.2 * p.1 ^ 2) (fun p => p.2 * p.1 ^ 2) 2 (fun p _ => rne_isF64 _)
    (fun p hp => ?_) (fun p hp => ?_)
  · have hw := (h p hp).2.pos
    have h1 := rne_rel (-301) (by norm_num) (medium_sq_mul (h p hp).1 (h p hp).2)
    have h2 := square_err (-100) (by norm_num) (h p hp).1.2
    refine rel_step 1 (y := rne (p.1 * p.1) * p.2) ?_ (le_of_eq (abs_of_nonneg (by positivity))) h1
    have : rne (p.1 * p.1) * p.2 - p.2 * p.1 ^ 2 = p.2 * (rne (p.1 * p.1) - p.1 ^ 2) := by ring
    rw [this, abs_mul, abs_of_pos hw, growth_one]
    have := mul_le_mul_of_nonneg_left h2 hw.le
    linarith
  · have hw := (h p hp).2.pos
    exact le_of_eq (abs_of_nonneg (by positivity))

theorem w2_close {ps : List (ℚ × ℚ)} (h : MediumAll ps) :
    |sumF 0 (ps.map fun p => rne (p.2 * p.2)) - (ps.map fun p => p.2 ^ 2).sum| ≤ growth (ps.length + 1) * (ps.map fun p => p.2 ^ 2).sum := by
  refine sumF_close ps (fun p => rne (p.2 * p.2)) (fun p => p.2 ^ 2) (fun p => p.2 ^ 2) 1 (fun p _ => rne_isF64 _) (fun p hp => ?_) (fun p hp => ?_)
  · rw [growth_one]
    exact square_err (-100) (by norm_num) (Or.inr ((h p hp).2.2.1.trans (le_abs_self _)))
  · exact le_of_eq (abs_of_nonneg (by positivity))

/-- The sum of the weights is not large. -/
theorem wSum_small {ps : List (ℚ × ℚ)} (h : MediumAll ps) (hn : ps.length ≤ 2 ^ 30) : wSum ps ≤ 2 ^ (130 : ℤ) := by
  have key : ∀ l : List (ℚ × ℚ), MediumAll l → wSum l ≤ l.length * 2 ^ (100 : ℤ) := by
    intro l hl
    induction l with
    | nil => simp [wSum]
    | cons p l ih =>
      have h1 := ih fun q hq => hl q (by simp [hq])
      have h2 := (hl p (by simp)).2.2.2
      simp only [wSum, List.map_cons, List.sum_cons, List.length_cons] at h1 ⊢
      push_cast
      linarith
  refine (key ps h).trans ?_
  have h1 : (ps.length : ℚ) ≤ 2 ^ 30 := by exact_mod_cast hn
  have h2 : (2 : ℚ) ^ (130 : ℤ) = 2 ^ 30 * 2 ^ (100 : ℤ) := by norm_num
  rw [h2]
  exact mul_le_mul_of_nonneg_right h1 (by positivity)

theorem growth_tiny (k : ℕ) (hk : k ≤ 2 ^ 32) : growth k ≤ 1 / 2 ^ 20 := by
  have h1 := growth_small k hk
  have h2 : (k : ℚ) ≤ 2 ^ 32 := by exact_mod_cast hk
  refine h1.trans ?_
  unfold eps
  have : (2 : ℚ) * k * 2 ^ (-53 : ℤ) ≤ 2 * 2 ^ 32 * 2 ^ (-53 : ℤ) := by
    refine mul_le_mul_of_nonneg_right ?_ (by norm_num); linarith
  exact this.trans (by norm_num)

/-- The rounded sum of the weights. -/
theorem wSumF_range {ps : List (ℚ × ℚ)} (h : MediumAll ps) (h0 : ps ≠ []) (hn : ps.length ≤ 2 ^ 30) :
    0 < sumF 0 (ps.map fun p => p.2) ∧ sumF 0 (ps.map fun p => p.2) ≤ 2 ^ (131 : ℤ) := by
  have h1 := wSum_close h
  have h2 := wSum_pos h h0
  have h3 := growth_tiny ps.length (by omega)
  have h4 := wSum_small h hn
  have h5 := mul_le_mul_of_nonneg_right h3 h2.le
  have h6 : (2 : ℚ) ^ (131 : ℤ) = 2 ^ (130 : ℤ) * 2 := by norm_num
  rw [abs_le] at h1
  have h7 : 1 / 2 ^ 20 * wSum ps ≤ wSum ps / 2 := by
    have : (1 / 2 ^ 20 : ℚ) ≤ 1 / 2 := by norm_num
    have := mul_le_mul_of_nonneg_right this h2.le
    linarith
  constructor
  · linarith [h1.1]
  · rw [h6]; linarith [h1.2]

theorem wxF_big {ps : List (ℚ × ℚ)} (h : MediumAll ps) :
    sumF 0 (ps.map fun p => rne (p.1 * p.2)) = 0 ∨ (2 : ℚ) ^ (-254 : ℤ) ≤ |sumF 0 (ps.map fun p => rne (p.1 * p.2))| := by
  refine zero_or_ge _ (sumF_grid _ _ 0 ⟨0, by simp⟩ ?_)
  intro w hw
  obtain ⟨p, hp, rfl⟩ := List.mem_map.1 hw
  exact f64_grid (rne_isF64 _) (-201) (rne_half (-200) (by norm_num) (medium_mul (h p hp).1 (h p hp).2))

theorem wx2F_big {ps : List (ℚ × ℚ)} (h : MediumAll ps) :
    sumF 0 (ps.map fun p => rne (rne (p.1 * p.1) * p.2)) = 0 ∨
      (2 : ℚ) ^ (-355 : ℤ) ≤ |sumF 0 (ps.map fun p => rne (rne (p.1 * p.1) * p.2))| := by
  refine zero_or_ge _ (sumF_grid _ _ 0 ⟨0, by simp⟩ ?_)
  intro w hw
  obtain ⟨p, hp, rfl⟩ := List.mem_map.1 hw
  exact f64_grid (rne_isF64 _) (-302) (rne_half (-301) (by norm_num) (medium_sq_mul (h p hp).1 (h p hp).2))

theorem eps_eq53 : eps = 1 / 2 ^ 53 := by unfold eps; rw [zpow_neg]; norm_num

/-- A rounded quotient of sums: the error in units of `2^-53`. -/
theorem quot_units {n j k c d : ℚ} {Q' Q R g e : ℚ} (hn : 0 ≤ n) (hn' : n ≤ 2 ^ 30) (hg : g ≤ 2 * (j * n + c) * eps) (he : e ≤ 2 * (k * n + d) * eps)
    (he0 : 0 ≤ e) (hg0 : 0 ≤ g) (hj : 0 ≤ j) (hk : 0 ≤ k) (hj' : j ≤ 8) (hk' : k ≤ 8) (hc' : c ≤ 10) (hd' : d ≤ 10)
    (hR : 0 ≤ R) (hq : |Q' - Q| ≤ (g + e) / (1 - e) * R) (hQ : |Q| ≤ R) (hr : |rne Q' - Q'| ≤ eps * |Q'|) :
    |rne Q' - Q| ≤ ((2 * j + 2 * k + 1) * n + 2 * c + 2 * d + 2) / 2 ^ 53 * R := by
  have ep := eps_pos
  rw [eps_eq53] at *
  have jn : j * n ≤ 8 * n := mul_le_mul_of_nonneg_right hj' hn
  have kn : k * n ≤ 8 * n := mul_le_mul_of_nonneg_right hk' hn
  have jn0 : 0 ≤ j * n := mul_nonneg hj hn
  have kn0 : 0 ≤ k * n := mul_nonneg hk hn
  have e1 : e ≤ 1 / 2 ^ 18 := by
    refine he.trans ?_
    have : 2 * (k * n + d) ≤ 2 * (8 * 2 ^ 30 + 10) := by linarith
    exact (mul_le_mul_of_nonneg_right this (by norm_num)).trans (by norm_num)
  have g1 : g ≤ 1 / 2 ^ 18 := by
    refine hg.trans ?_
    have : 2 * (j * n + c) ≤ 2 * (8 * 2 ^ 30 + 10) := by linarith
    exact (mul_le_mul_of_nonneg_right this (by norm_num)).trans (by norm_num)
  have h1e : 0 < 1 - e := by
    have : (1 / 2 ^ 18 : ℚ) < 1 := by norm_num
    linarith
  -- the factor in front
  have d1 : (g + e) / (1 - e) ≤ (g + e) * (1 + 1 / 2 ^ 16) := by
    rw [div_le_iff₀ h1e]
    have : 1 ≤ (1 + 1 / 2 ^ 16) * (1 - e) := by
      have : (1 + 1 / 2 ^ 16 : ℚ) * e ≤ (1 + 1 / 2 ^ 16) * (1 / 2 ^ 18) := mul_le_mul_of_nonneg_left e1 (by norm_num)
      have h2 : (1 + 1 / 2 ^ 16 : ℚ) * (1 / 2 ^ 18) ≤ 1 / 2 ^ 16 := by norm_num
      linarith
    have := mul_le_mul_of_nonneg_left this (add_nonneg hg0 he0)
    linarith
  have d2 : (g + e) / (1 - e) ≤ 1 / 2 ^ 10 := by
    refine d1.trans ?_
    have : (g + e) * (1 + 1 / 2 ^ 16) ≤ (1 / 2 ^ 18 + 1 / 2 ^ 18) * (1 + 1 / 2 ^ 16) := mul_le_mul_of_nonneg_right (by linarith) (by norm_num)
    exact this.trans (by norm_num)
  have q1 : |Q'| ≤ (1 + 1 / 2 ^ 10) * R := by
    have h3 : |Q'| ≤ |Q' - Q| + |Q| := by
      refine le_trans (le_of_eq ?_) (abs_add_le _ _)
      congr 1; ring
    have := mul_le_mul_of_nonneg_right d2 hR
    linarith
  have h4 : |rne Q' - Q| ≤ |rne Q' - Q'| + |Q' - Q| := by
    refine le_trans (le_of_eq ?_) (abs_add_le _ _)
    congr 1; ring
  have h5 := mul_le_mul_of_nonneg_right d1 hR
  have h6 : 1 / 2 ^ 53 * |Q'| ≤ 1 / 2 ^ 53 * ((1 + 1 / 2 ^ 10) * R) := mul_le_mul_of_nonneg_left q1 (by norm_num)
  have h7 : (g + e) * (1 + 1 / 2 ^ 16) * R + 1 / 2 ^ 53 * ((1 + 1 / 2 ^ 10) * R) ≤ ((2 * j + 2 * k + 1) * n + 2 * c + 2 * d + 2) / 2 ^ 53 * R := by
    rw [← mul_assoc, ← add_mul]
    refine mul_le_mul_of_nonneg_right ?_ hR
    have h8 : g + e ≤ (2 * (j * n + c) + 2 * (k * n + d)) * (1 / 2 ^ 53) := by linarith
    have h9 : (g + e) * (1 + 1 / 2 ^ 16) ≤ (2 * (j * n + c) + 2 * (k * n + d)) * (1 / 2 ^ 53) * (1 + 1 / 2 ^ 16) :=
      mul_le_mul_of_nonneg_right h8 (by norm_num)
    refine (add_le_add_left h9 _).trans ?_
    have : (2 * (j * n + c) + 2 * (k * n + d)) * (1 / 2 ^ 53 : ℚ) * (1 + 1 / 2 ^ 16) + 1 / 2 ^ 53 * (1 + 1 / 2 ^ 10) =
        ((2 * (j * n + c) + 2 * (k * n + d)) * (1 + 1 / 2 ^ 16) + (1 + 1 / 2 ^ 10)) / 2 ^ 53 := by ring
    rw [this]
    refine div_le_div_of_nonneg_right ?_ (by norm_num)
    have h10 : (2 * (j * n + c) + 2 * (k * n + d)) * (1 / 2 ^ 16 : ℚ) ≤ (32 * n + 40) * (1 / 2 ^ 16) :=
      mul_le_mul_of_nonneg_right (by linarith) (by norm_num)
    have h11 : (32 * n + 40) * (1 / 2 ^ 16 : ℚ) + (1 + 1 / 2 ^ 10) ≤ n + 2 := by
      have : (32 * n) * (1 / 2 ^ 16 : ℚ) ≤ n := by nlinarith
      have h12 : (40 * (1 / 2 ^ 16) + 1 / 2 ^ 10 : ℚ) ≤ 1 := by norm_num
      linarith
    linarith
  linarith

theorem wx_le (ps : List (ℚ × ℚ)) (h : MediumAll ps) : |(ps.map fun p => p.2 * p.1).sum| ≤ (ps.map fun p => p.2 * |p.1|).sum := by
  refine (abs_sum_le _).trans (le_of_eq ?_)
  rw [List.map_map]
  congr 1
  refine List.map_congr_left fun p hp => ?_
  simp [abs_mul, abs_of_pos (h p hp).2.pos]

theorem wcell_eq {ps : List (ℚ × ℚ)} (h : MediumAll ps) (h0 : ps ≠ []) (hn : ps.length ≤ 2 ^ 30) :
    (wcell ps).mean = rne (sumF 0 (ps.map fun p => rne (p.1 * p.2)) / sumF 0 (ps.map fun p => p.2)) ∧
      (wcell ps).effcount = effcountF (sumF 0 (ps.map fun p => p.2)) (sumF 0 (ps.map fun p => rne (p.2 * p.2))) ∧
      (wcell ps).errorSq = (fun r => if r < 0 then none else some r)
        (rne (varianceF (sumF 0 (ps.map fun p => rne (rne (p.1 * p.1) * p.2))) (sumF 0 (ps.map fun p => p.2)) (wcell ps).mean / (wcell ps).effcount)) := by
  obtain ⟨hp, -⟩ := wSumF_range h h0 hn
  unfold wcell wprofCellF meanF
  rw [if_pos hp]
  exact ⟨rfl, rfl, rfl⟩

theorem wMeanF_big {ps : List (ℚ × ℚ)} (h : MediumAll ps) (h0 : ps ≠ []) (hn : ps.length ≤ 2 ^ 30) :
    (wcell ps).mean = 0 ∨ (2 : ℚ) ^ (-386 : ℤ) ≤ |(wcell ps).mean| := by
  obtain ⟨hp, hs⟩ := wSumF_range h h0 hn
  rw [(wcell_eq h h0 hn).1]
  exact rne_half (-385) (by norm_num) (quot_big (-254) 131 (wxF_big h) hp hs)

/-- **C118** with weights (partial): the mean that the table shows differs from the weighted mean by at most `(5n+4)/2^53` of the
weighted mean size of the values.  Missing: weights and values that are very small, very large weights, and more than `2^30` entries. -/
theorem C118_weighted_mean_partial (ps : List (ℚ × ℚ)) (h : MediumAll ps) (h0 : ps ≠ []) (hn : ps.length ≤ 2 ^ 30) :
    |(wcell ps).mean - wMean ps| ≤ (5 * (ps.length : ℚ) + 4) / 2 ^ 53 * wAbs ps := by
  obtain ⟨hp, hs⟩ := wSumF_range h h0 hn
  rw [(wcell_eq h h0 hn).1]
  have hW := wSum_pos h h0
  have hle := wx_le ps h
  have hn' : (ps.length : ℚ) ≤ 2 ^ 30 := by exact_mod_cast hn
  have hB := (abs_nonneg _).trans hle
  have g1 := growth_small (ps.length + 1) (by omega)
  have g2 := growth_small ps.length (by omega)
  have e1 : growth ps.length < 1 := lt_of_le_of_lt (growth_tiny _ (by omega)) (by norm_num)
  have hq := quot_close (wx_close h) hle (wSum_close h) hW e1 (growth_nonneg _)
  have hr := rne_rel _ (by norm_num) (quot_big (-254) 131 (wxF_big h) hp hs)
  push_cast at g1
  have := quot_units (n := ps.length) (j := 1) (k := 1) (c := 1) (d := 0) (by positivity) hn' (by linarith) (by linarith) (growth_nonneg _)
    (growth_nonneg _) (by norm_num) (by norm_num) (by norm_num) (by norm_num) (by norm_num) (by norm_num) (by positivity) hq
    (by rw [abs_div, abs_of_pos hW]; exact div_le_div_of_nonneg_right hle hW.le) hr
  unfold wMean wAbs
  refine this.trans (le_of_eq ?_)
  ring

theorem w2_pos {ps : List (ℚ × ℚ)} (h : MediumAll ps) (h0 : ps ≠ []) : 0 < (ps.map fun p => p.2 ^ 2).sum := by
  refine List.sum_pos _ ?_ (by simpa using h0)
  intro x hx
  obtain ⟨p, hp, rfl⟩ := List.mem_map.1 hx
  exact pow_pos (h p hp).2.pos 2

theorem wEff_range {ps : List (ℚ × ℚ)} (h : MediumAll ps) (h0 : ps ≠ []) : 0 < wEff ps ∧ wEff ps ≤ ps.length := by
  have hV := w2_pos h h0
  have hW := wSum_pos h h0
  refine ⟨div_pos (pow_pos hW 2) hV, ?_⟩
  unfold wEff
  rw [div_le_iff₀ hV]
  have hc := cauchy_abs (ps.map fun p => p.2)
  rw [List.map_map, List.map_map, List.length_map] at hc
  have e1 : (ps.map (abs ∘ fun p => p.2)) = ps.map fun p => p.2 := List.map_congr_left fun p hp => abs_of_pos (h p hp).2.pos
  rw [e1] at hc
  exact hc

/-- **C118** with weights (partial): the effective number of entries differs from the square of the sum of the weights over the
sum of their squares by at most `(7n+6)/2^53` of it.  Missing: as in `C118_weighted_mean_partial`. -/
theorem C118_weighted_effcount_partial (ps : List (ℚ × ℚ)) (h : MediumAll ps) (h0 : ps ≠ []) (hn : ps.length ≤ 2 ^ 30) :
    |(wcell ps).effcount - wEff ps| ≤ (7 * (ps.length : ℚ) + 6) / 2 ^ 53 * wEff ps := by
  obtain ⟨hp, hs⟩ := wSumF_range h h0 hn
  rw [(wcell_eq h h0 hn).2.1]
  have hW := wSum_pos h h0
  have hV := w2_pos h h0
  have hn' : (ps.length : ℚ) ≤ 2 ^ 30 := by exact_mod_cast hn
  have hw := wSum_close h
  have hv := w2_close h
  -- the sum of weights is not small
  have hb : sumF 0 (ps.map fun p => p.2) = 0 ∨ (2 : ℚ) ^ (-153 : ℤ) ≤ |sumF 0 (ps.map fun p => p.2)| := by
    refine zero_or_ge _ (sumF_grid _ _ 0 ⟨0, by simp⟩ ?_)
    intro w hw
    obtain ⟨p, hp, rfl⟩ := List.mem_map.1 hw
    exact f64_grid (h p hp).2.1 (-100) (Or.inr ((h p hp).2.2.1.trans (le_abs_self _)))
  have hbb := mul_big (-153) (-153) hb hb
  have hsq := rne_rel _ (by norm_num) hbb
  -- the sum of squares is not large
  have hVle : (ps.map fun p => p.2 ^ 2).sum ≤ 2 ^ (230 : ℤ) := by
    have key : ∀ l : List (ℚ × ℚ), MediumAll l → (l.map fun p => p.2 ^ 2).sum ≤ (l.length : ℚ) * (2 : ℚ) ^ (200 : ℤ) := by
      intro l hl
      induction l with
      | nil => simp
      | cons p l ih =>
        have h1 := ih fun q hq => hl q (by simp [hq])
        have h2 : p.2 ^ 2 ≤ 2 ^ (200 : ℤ) := by
          have h3 := pow_le_pow_left₀ (hl p (by simp)).2.pos.le (hl p (by simp)).2.2.2 2
          refine h3.trans (le_of_eq ?_)
          norm_num
        simp only [List.map_cons, List.sum_cons, List.length_cons]
        push_cast
        linarith
    refine (key ps h).trans ?_
    have h2 : (2 : ℚ) ^ (230 : ℤ) = 2 ^ 30 * 2 ^ (200 : ℤ) := by norm_num
    rw [h2]
    exact mul_le_mul_of_nonneg_right hn' (by positivity)
  have ht := growth_tiny (ps.length + 1) (by omega)
  have hv2 := mul_le_mul_of_nonneg_right ht hV.le
  have hv3 : 1 / 2 ^ 20 * (ps.map fun p => p.2 ^ 2).sum ≤ (ps.map fun p => p.2 ^ 2).sum / 2 := by
    have : (1 / 2 ^ 20 : ℚ) ≤ 1 / 2 := by norm_num
    have := mul_le_mul_of_nonneg_right this hV.le
    linarith
  have hva := abs_le.1 hv
  have hVp : 0 < sumF 0 (ps.map fun p => rne (p.2 * p.2)) := by linarith [hva.1]
  have hVs : sumF 0 (ps.map fun p => rne (p.2 * p.2)) ≤ 2 ^ (231 : ℤ) := by
    have h6 : (2 : ℚ) ^ (231 : ℤ) = 2 ^ (230 : ℤ) * 2 := by norm_num
    rw [h6]; linarith [hva.2]
  have hr := rne_rel _ (by norm_num) (quot_big _ 231 (rne_half _ (by norm_num) hbb) hVp hVs)
  -- the square of the sum
  have hg := growth_nonneg ps.length
  have hS : |rne (sumF 0 (ps.map fun p => p.2) * sumF 0 (ps.map fun p => p.2)) - wSum ps ^ 2| ≤ growth (2 * ps.length + 1) * wSum ps ^ 2 := by
    refine rel_step (2 * ps.length) (y := sumF 0 (ps.map fun p => p.2) * sumF 0 (ps.map fun p => p.2)) ?_
      (le_of_eq (abs_of_nonneg (by positivity))) hsq
    generalize sumF 0 (ps.map fun p => p.2) = W' at *
    generalize wSum ps = W at *
    rw [two_mul, growth_add]
    generalize growth ps.length = g at *
    have h1 : W' * W' - W ^ 2 = (W' - W) * (W' + W) := by ring
    have h2 : |W' + W| ≤ (2 + g) * W := by
      rw [abs_of_pos (by linarith)]
      linarith [(abs_le.1 hw).2]
    rw [h1, abs_mul]
    refine (mul_le_mul hw h2 (abs_nonneg _) (by positivity)).trans (le_of_eq ?_)
    ring
  have g1 := growth_small (2 * ps.length + 1) (by omega)
  have g2 := growth_small (ps.length + 1) (by omega)
  have e1 : growth (ps.length + 1) < 1 := lt_of_le_of_lt ht (by norm_num)
  have hq := quot_close hS (le_of_eq (abs_of_nonneg (by positivity))) hv hV e1 (growth_nonneg _)
  push_cast at g1 g2
  have hE := (wEff_range h h0).1
  have := quot_units (n := ps.length) (j := 2) (k := 1) (c := 1) (d := 1) (by positivity) hn' (by linarith) (by linarith) (growth_nonneg _)
    (growth_nonneg _) (by norm_num) (by norm_num) (by norm_num) (by norm_num) (by norm_num) (by norm_num) (by positivity) hq
    (le_of_eq (abs_of_pos hE)) hr
  unfold wEff effcountF
  refine this.trans (le_of_eq ?_)
  ring

theorem wVariance_eq (ps : List (ℚ × ℚ)) (hW : 0 < wSum ps) : wVariance ps = wSq ps - wMean ps ^ 2 := by
  have key : ∀ (l : List (ℚ × ℚ)) (m : ℚ), (l.map fun p => p.2 * (p.1 - m) ^ 2).sum =
      (l.map fun p => p.2 * p.1 ^ 2).sum - 2 * m * (l.map fun p => p.2 * p.1).sum + wSum l * m ^ 2 := by
    intro l m
    induction l with
    | nil => simp [wSum]
    | cons x l ih => simp only [wSum, List.map_cons, List.sum_cons] at ih ⊢; rw [ih]; ring
  unfold wVariance
  rw [key]
  unfold wSq wMean
  field_simp
  ring

theorem wVariance_nonneg (ps : List (ℚ × ℚ)) (hw : ∀ p ∈ ps, 0 < p.2) (hW : 0 < wSum ps) : 0 ≤ wVariance ps := by
  refine div_nonneg (List.sum_nonneg ?_) hW.le
  intro y hy
  obtain ⟨p, hp, rfl⟩ := List.mem_map.1 hy
  exact mul_nonneg (hw p hp).le (sq_nonneg _)

theorem wAbs_sq (ps : List (ℚ × ℚ)) (hw : ∀ p ∈ ps, 0 < p.2) (hW : 0 < wSum ps) : wAbs ps ^ 2 ≤ wSq ps := by
  have hs : wSum (ps.map fun p => (|p.1|, p.2)) = wSum ps := by simp [wSum, Function.comp_def]
  have h1 := wVariance_nonneg (ps.map fun p => (|p.1|, p.2)) (by
    intro p hp
    obtain ⟨q, hq, rfl⟩ := List.mem_map.1 hp
    exact hw q hq) (by rw [hs]; exact hW)
  rw [wVariance_eq _ (by rw [hs]; exact hW)] at h1
  have h2 : wMean (ps.map fun p => (|p.1|, p.2)) = wAbs ps := by simp [wMean, wAbs, hs, Function.comp_def]
  have h3 : wSq (ps.map fun p => (|p.1|, p.2)) = wSq ps := by simp [wSq, hs, Function.comp_def]
  rw [h2, h3] at h1
  linarith

theorem wSq_nonneg {ps : List (ℚ × ℚ)} (h : MediumAll ps) (h0 : ps ≠ []) : 0 ≤ wSq ps :=
  (sq_nonneg _).trans (wAbs_sq ps (fun p hp => (h p hp).2.pos) (wSum_pos h h0))

/-- The rounded mean of the squares. -/
theorem wSqF_close {ps : List (ℚ × ℚ)} (h : MediumAll ps) (h0 : ps ≠ []) (hn : ps.length ≤ 2 ^ 30) :
    |rne (sumF 0 (ps.map fun p => rne (rne (p.1 * p.1) * p.2)) / sumF 0 (ps.map fun p => p.2)) - wSq ps| ≤
      (5 * (ps.length : ℚ) + 6) / 2 ^ 53 * wSq ps := by
  obtain ⟨hp, hs⟩ := wSumF_range h h0 hn
  have hW := wSum_pos h h0
  have hn' : (ps.length : ℚ) ≤ 2 ^ 30 := by exact_mod_cast hn
  have g1 := growth_small (ps.length + 2) (by omega)
  have g2 := growth_small ps.length (by omega)
  have e1 : growth ps.length < 1 := lt_of_le_of_lt (growth_tiny _ (by omega)) (by norm_num)
  have hC : 0 ≤ (ps.map fun p => p.2 * p.1 ^ 2).sum := List.sum_nonneg (by
    intro y hy
    obtain ⟨p, hp, rfl⟩ := List.mem_map.1 hy
    exact mul_nonneg (h p hp).2.pos.le (sq_nonneg _))
  have hq := quot_close (wx2_close h) (le_of_eq (abs_of_nonneg hC)) (wSum_close h) hW e1 (growth_nonneg _)
  have hr := rne_rel _ (by norm_num) (quot_big (-355) 131 (wx2F_big h) hp hs)
  push_cast at g1
  have := quot_units (n := ps.length) (j := 1) (k := 1) (c := 2) (d := 0) (by positivity) hn' (by linarith) (by linarith) (growth_nonneg _)
    (growth_nonneg _) (by norm_num) (by norm_num) (by norm_num) (by norm_num) (by norm_num) (by norm_num) (by positivity) hq
    (le_of_eq (abs_of_nonneg (by positivity))) hr
  unfold wSq
  refine this.trans (le_of_eq ?_)
  ring

/-- The variance in the table of the entries. -/
def wVarF (ps : List (ℚ × ℚ)) : ℚ :=
  varianceF (sumF 0 (ps.map fun p => rne (rne (p.1 * p.1) * p.2))) (sumF 0 (ps.map fun p => p.2)) (wcell ps).mean

theorem wVarF_grid {ps : List (ℚ × ℚ)} (h : MediumAll ps) (h0 : ps ≠ []) (hn : ps.length ≤ 2 ^ 30) :
    (rne (sumF 0 (ps.map fun p => rne (rne (p.1 * p.1) * p.2)) / sumF 0 (ps.map fun p => p.2)) - rne ((wcell ps).mean * (wcell ps).mean) = 0 ∨
      (2 : ℚ) ^ (-826 : ℤ) ≤ |rne (sumF 0 (ps.map fun p => rne (rne (p.1 * p.1) * p.2)) / sumF 0 (ps.map fun p => p.2)) -
        rne ((wcell ps).mean * (wcell ps).mean)|) ∧
    (wVarF ps = 0 ∨ (2 : ℚ) ^ (-826 : ℤ) ≤ |wVarF ps|) := by
  obtain ⟨hp, hs⟩ := wSumF_range h h0 hn
  have hg : ∃ z : ℤ, rne (sumF 0 (ps.map fun p => rne (rne (p.1 * p.1) * p.2)) / sumF 0 (ps.map fun p => p.2)) -
      rne ((wcell ps).mean * (wcell ps).mean) = z * (2 : ℚ) ^ (-826 : ℤ) := by
    obtain ⟨a, ha⟩ := f64_grid (rne_isF64 (sumF 0 (ps.map fun p => rne (rne (p.1 * p.1) * p.2)) / sumF 0 (ps.map fun p => p.2))) (-773) (by
      have := rne_half _ (by norm_num) (quot_big (-355) 131 (wx2F_big h) hp hs)
      rcases this with h1 | h1
      · exact Or.inl h1
      · exact Or.inr ((zpow_le_zpow_right₀ (by norm_num) (by norm_num)).trans h1))
    obtain ⟨b, hb⟩ := f64_grid (rne_isF64 ((wcell ps).mean * (wcell ps).mean)) (-773)
      (rne_half (2 * -386) (by norm_num) (square_big _ (wMeanF_big h h0 hn)))
    refine ⟨a - b, ?_⟩
    rw [ha, hb]
    push_cast
    ring
  exact ⟨zero_or_ge _ hg, zero_or_ge _ (rne_grid _ hg)⟩

theorem wVarF_close {ps : List (ℚ × ℚ)} (h : MediumAll ps) (h0 : ps ≠ []) (hn : ps.length ≤ 2 ^ 30) :
    |wVarF ps - wVariance ps| ≤ (16 * (ps.length : ℚ) + 19) / 2 ^ 53 * wSq ps := by
  have hW := wSum_pos h h0
  have hpos : ∀ p ∈ ps, 0 < p.2 := fun p hp => (h p hp).2.pos
  have hA := wAbs_sq ps hpos hW
  have hA0 : 0 ≤ wAbs ps := div_nonneg ((abs_nonneg _).trans (wx_le ps h)) hW.le
  have hMA : |wMean ps| ≤ wAbs ps := by
    unfold wMean wAbs
    rw [abs_div, abs_of_pos hW]
    exact div_le_div_of_nonneg_right (wx_le ps h) hW.le
  have hM := C118_weighted_mean_partial ps h h0 hn
  have hQ := wSqF_close h h0 hn
  have hQ0 := wSq_nonneg h h0
  have hd := rne_rel _ (by norm_num) (wVarF_grid h h0 hn).1
  have hms := rne_rel _ (by norm_num) (square_big _ (wMeanF_big h h0 hn))
  have hv0 := wVariance_nonneg ps hpos hW
  rw [wVariance_eq ps hW] at hv0 ⊢
  have hn' : (ps.length : ℚ) ≤ 2 ^ 30 := by exact_mod_cast hn
  have hl0 : (0 : ℚ) ≤ ps.length := by positivity
  unfold wVarF varianceF
  rw [eps_eq53] at hd hms
  generalize rne (sumF 0 (ps.map fun p => rne (rne (p.1 * p.1) * p.2)) / sumF 0 (ps.map fun p => p.2)) = q at *
  generalize (wcell ps).mean = M' at *
  generalize wMean ps = M at *
  generalize wAbs ps = A at *
  generalize wSq ps = Q at *
  generalize (ps.length : ℚ) = n at *
  generalize rne (M' * M') = s at *
  generalize rne (q - s) = v at *
  -- the error of the mean
  have m1 : (5 * n + 4) / 2 ^ 53 ≤ 1 / 2 ^ 19 := by
    rw [div_le_iff₀ (by norm_num)]
    refine (by linarith : 5 * n + 4 ≤ 5 * 2 ^ 30 + 4).trans (by norm_num)
  have m0 : 0 ≤ (5 * n + 4) / 2 ^ 53 := by positivity
  have q1 : (5 * n + 6) / 2 ^ 53 ≤ 1 / 2 ^ 19 := by
    rw [div_le_iff₀ (by norm_num)]
    refine (by linarith : 5 * n + 6 ≤ 5 * 2 ^ 30 + 6).trans (by norm_num)
  have hM' : |M'| ≤ (1 + 1 / 2 ^ 19) * A := by
    have h3 : |M'| ≤ |M' - M| + |M| := by
      refine le_trans (le_of_eq ?_) (abs_add_le _ _)
      congr 1; ring
    have := mul_le_mul_of_nonneg_right m1 hA0
    linarith
  have s1 : |M' * M' - M ^ 2| ≤ (5 * n + 4) / 2 ^ 53 * (2 + 1 / 2 ^ 19) * Q := by
    have e1 : M' * M' - M ^ 2 = (M' - M) * (M' + M) := by ring
    have e2 : |M' + M| ≤ (2 + 1 / 2 ^ 19) * A := (abs_add_le _ _).trans (by linarith)
    rw [e1, abs_mul]
    refine (mul_le_mul hM e2 (abs_nonneg _) (by positivity)).trans ?_
    have : (5 * n + 4) / 2 ^ 53 * A * ((2 + 1 / 2 ^ 19) * A) = (5 * n + 4) / 2 ^ 53 * (2 + 1 / 2 ^ 19) * A ^ 2 := by ring
    rw [this]
    exact mul_le_mul_of_nonneg_left hA (by positivity)
  have s2 : |M' * M'| ≤ (1 + 1 / 2 ^ 10) * Q := by
    rw [abs_mul]
    have := mul_le_mul hM' hM' (abs_nonneg _) (by positivity)
    have e1 : (1 + 1 / 2 ^ 19) * A * ((1 + 1 / 2 ^ 19) * A) = (1 + 1 / 2 ^ 19) ^ 2 * A ^ 2 := by ring
    rw [e1] at this
    refine this.trans ?_
    refine mul_le_mul (by norm_num) hA (sq_nonneg _) (by norm_num)
  have s3 : |s - M ^ 2| ≤ (11 * n + 11) / 2 ^ 53 * Q := by
    have h3 : |s - M ^ 2| ≤ |s - M' * M'| + |M' * M' - M ^ 2| := by
      refine le_trans (le_of_eq ?_) (abs_add_le _ _)
      congr 1; ring
    have h4 : 1 / 2 ^ 53 * |M' * M'| ≤ 1 / 2 ^ 53 * ((1 + 1 / 2 ^ 10) * Q) := mul_le_mul_of_nonneg_left s2 (by norm_num)
    have h5 : 1 / 2 ^ 53 * ((1 + 1 / 2 ^ 10) * Q) + (5 * n + 4) / 2 ^ 53 * (2 + 1 / 2 ^ 19) * Q ≤ (11 * n + 11) / 2 ^ 53 * Q := by
      rw [← mul_assoc, ← add_mul]
      refine mul_le_mul_of_nonneg_right ?_ hQ0
      have : (1 / 2 ^ 53 * (1 + 1 / 2 ^ 10) + (5 * n + 4) / 2 ^ 53 * (2 + 1 / 2 ^ 19) : ℚ) =
          ((1 + 1 / 2 ^ 10) + (5 * n + 4) * (2 + 1 / 2 ^ 19)) / 2 ^ 53 := by ring
      rw [this]
      refine div_le_div_of_nonneg_right ?_ (by norm_num)
      have h6 : (5 * n + 4) * (1 / 2 ^ 19 : ℚ) ≤ n + 1 := by nlinarith
      have h7 : (1 / 2 ^ 10 : ℚ) ≤ 1 := by norm_num
      linarith
    linarith
  have d1 : |(q - s) - (Q - M ^ 2)| ≤ (16 * n + 17) / 2 ^ 53 * Q := by
    have e1 : (q - s) - (Q - M ^ 2) = (q - Q) - (s - M ^ 2) := by ring
    rw [e1]
    refine (abs_sub _ _).trans ?_
    have e2 : (16 * n + 17) / 2 ^ 53 * Q = (5 * n + 6) / 2 ^ 53 * Q + (11 * n + 11) / 2 ^ 53 * Q := by ring
    rw [e2]
    exact add_le_add hQ s3
  have d2 : (16 * n + 17) / 2 ^ 53 ≤ 1 / 2 ^ 10 := by
    rw [div_le_iff₀ (by norm_num)]
    refine (by linarith : 16 * n + 17 ≤ 16 * 2 ^ 30 + 17).trans (by norm_num)
  have d3 : |q - s| ≤ (1 + 1 / 2 ^ 10) * Q := by
    have h3 : |q - s| ≤ |(q - s) - (Q - M ^ 2)| + |Q - M ^ 2| := by
      refine le_trans (le_of_eq ?_) (abs_add_le _ _)
      congr 1; ring
    have h4 : |Q - M ^ 2| ≤ Q := by
      rw [abs_of_nonneg hv0]
      linarith [sq_nonneg M]
    have := mul_le_mul_of_nonneg_right d2 hQ0
    linarith
  have h3 : |v - (Q - M ^ 2)| ≤ |v - (q - s)| + |(q - s) - (Q - M ^ 2)| := by
    refine le_trans (le_of_eq ?_) (abs_add_le _ _)
    congr 1; ring
  have h4 : 1 / 2 ^ 53 * |q - s| ≤ 1 / 2 ^ 53 * ((1 + 1 / 2 ^ 10) * Q) := mul_le_mul_of_nonneg_left d3 (by norm_num)
  have h5 : 1 / 2 ^ 53 * ((1 + 1 / 2 ^ 10) * Q) ≤ 2 / 2 ^ 53 * Q := by
    rw [← mul_assoc]
    exact mul_le_mul_of_nonneg_right (by norm_num) hQ0
  have e2 : (16 * n + 19) / 2 ^ 53 * Q = 2 / 2 ^ 53 * Q + (16 * n + 17) / 2 ^ 53 * Q := by ring
  rw [e2]
  linarith

/-- **C118** with weights (partial): the square of the error that the table shows differs from the weighted variance over the
effective number of entries by at most `(24n+27)/2^53` of the weighted mean of the squares over that number; and the error is NaN
only if the variance is less than `(16n+19)/2^53` of the mean of the squares.  Missing: as in `C118_weighted_mean_partial`. -/
theorem C118_weighted_error_partial (ps : List (ℚ × ℚ)) (h : MediumAll ps) (h0 : ps ≠ []) (hn : ps.length ≤ 2 ^ 30) :
    (∀ r, (wcell ps).errorSq = some r → 0 ≤ r ∧ |r - wVariance ps / wEff ps| ≤ (24 * (ps.length : ℚ) + 27) / 2 ^ 53 * (wSq ps / wEff ps)) ∧
      ((wcell ps).errorSq = none → wVariance ps < (16 * (ps.length : ℚ) + 19) / 2 ^ 53 * wSq ps) := by
  have hW := wSum_pos h h0
  have hpos : ∀ p ∈ ps, 0 < p.2 := fun p hp => (h p hp).2.pos
  obtain ⟨hE0, hE1⟩ := wEff_range h h0
  have hn' : (ps.length : ℚ) ≤ 2 ^ 30 := by exact_mod_cast hn
  have hl0 : (0 : ℚ) ≤ ps.length := by positivity
  have hv := wVarF_close h h0 hn
  have he := C118_weighted_effcount_partial ps h h0 hn
  have hQ0 := wSq_nonneg h h0
  have hv0 := wVariance_nonneg ps hpos hW
  have hvQ : wVariance ps ≤ wSq ps := by rw [wVariance_eq ps hW]; linarith [sq_nonneg (wMean ps)]
  have e1 : (7 * (ps.length : ℚ) + 6) / 2 ^ 53 ≤ 1 / 2 ^ 10 := by
    rw [div_le_iff₀ (by norm_num)]
    refine (by linarith : 7 * (ps.length : ℚ) + 6 ≤ 7 * 2 ^ 30 + 6).trans (by norm_num)
  have e2 := mul_le_mul_of_nonneg_right e1 hE0.le
  have hE'0 : 0 < (wcell ps).effcount := by
    have := (abs_le.1 he).1
    have : (1 / 2 ^ 10 : ℚ) * wEff ps ≤ wEff ps / 2 := by
      have : (1 / 2 ^ 10 : ℚ) ≤ 1 / 2 := by norm_num
      have := mul_le_mul_of_nonneg_right this hE0.le
      linarith
    linarith
  have hE'1 : (wcell ps).effcount ≤ 2 ^ (31 : ℤ) := by
    have := (abs_le.1 he).2
    have h2 : (1 / 2 ^ 10 : ℚ) * wEff ps ≤ wEff ps := by
      have : (1 / 2 ^ 10 : ℚ) ≤ 1 := by norm_num
      have := mul_le_mul_of_nonneg_right this hE0.le
      linarith
    have h6 : (2 : ℚ) ^ (31 : ℤ) = 2 ^ 30 * 2 := by norm_num
    rw [h6]
    linarith
  have hb := quot_big (-826) 31 (wVarF_grid h h0 hn).2 hE'0 hE'1
  have hrel := rne_rel _ (by norm_num) hb
  have hneg := rne_neg_iff _ (by norm_num) hb
  have hcell := (wcell_eq h h0 hn).2.2
  change (wcell ps).errorSq = (fun r => if r < 0 then none else some r) (rne (wVarF ps / (wcell ps).effcount)) at hcell
  have hq := quot_close hv (by rw [abs_of_nonneg hv0]; exact hvQ) he hE0 (lt_of_le_of_lt e1 (by norm_num)) (by positivity)
  constructor
  · intro r hr
    rw [hr] at hcell
    by_cases h1 : rne (wVarF ps / (wcell ps).effcount) < 0
    · simp [h1] at hcell
    · simp only [if_neg h1, Option.some.injEq] at hcell
      rw [hcell]
      refine ⟨not_lt.1 h1, ?_⟩
      have := quot_units (n := ps.length) (j := 8) (k := 7 / 2) (c := 19 / 2) (d := 3) hl0 hn' (by rw [eps_eq53]; linarith) (by rw [eps_eq53]; linarith)
        (by positivity) (by positivity) (by norm_num) (by norm_num) (by norm_num) (by norm_num) (by norm_num) (by norm_num)
        (by positivity) hq (by rw [abs_of_nonneg (by positivity)]; exact div_le_div_of_nonneg_right hvQ hE0.le) hrel
      refine this.trans (le_of_eq ?_)
      ring
  · intro hr
    rw [hr] at hcell
    by_cases h1 : rne (wVarF ps / (wcell ps).effcount) < 0
    · have h2 := hneg.1 h1
      have hv1 : wVarF ps < 0 := by
        have := mul_neg_of_neg_of_pos h2 hE'0
        rwa [div_mul_cancel₀ _ hE'0.ne'] at this
      have := (abs_le.1 hv).1
      linarith
    · simp [h1] at hcell

theorem landF_length (a : BinAxis) : ∀ rows : List (Num × ℚ), (∀ p ∈ rows, ∃ i, a.indexF p.1 = .ok (some i)) →
    ∃ l, a.landF rows = .ok l ∧ l.length = rows.length
  | [], _ => ⟨[], rfl, rfl⟩
  | p :: rows, h => by
    obtain ⟨i, hi⟩ := h p (by simp)
    obtain ⟨l, h1, h2⟩ := landF_length a rows fun q hq => h q (by simp [hq])
    refine ⟨(i.toNat, p.2) :: l, ?_, by simp [h2]⟩
    obtain ⟨v, w⟩ := p
    simp only [BinAxis.landF] at hi ⊢
    simp only [hi, h1]

theorem landF_short (a : BinAxis) : ∀ (rows : List (Num × ℚ)) (l : List (ℕ × ℚ)), a.landF rows = .ok l →
    l.length ≤ rows.length ∧ ((∃ p ∈ rows, a.indexF p.1 = .ok none) → l.length < rows.length)
  | [], l, h => by simp only [BinAxis.landF, Except.ok.injEq] at h; subst h; simp
  | (v, w) :: rows, l, h => by
    cases e2 : a.landF rows with
    | error e => cases e1 : a.indexF v with
      | error e => simp [BinAxis.landF, e1, e2] at h
      | ok o => cases o <;> simp [BinAxis.landF, e1, e2] at h
    | ok l' =>
      obtain ⟨i1, i2⟩ := landF_short a rows l' e2
      cases e1 : a.indexF v with
      | error e => simp [BinAxis.landF, e1, e2] at h
      | ok o =>
        cases o with
        | none =>
          simp only [BinAxis.landF, e1, e2, Except.ok.injEq] at h
          subst h
          simp only [List.length_cons]
          exact ⟨by omega, fun _ => by omega⟩
        | some i =>
          simp only [BinAxis.landF, e1, e2, Except.ok.injEq] at h
          subst h
          simp only [List.length_cons]
          refine ⟨by omega, ?_⟩
          rintro ⟨p, hp, hpn⟩
          rcases List.mem_cons.1 hp with rfl | hp
          · simp only at hpn
            rw [e1] at hpn; cases hpn
          · have := i2 ⟨p, hp, hpn⟩
            omega

theorem wprofFill_all (a : BinAxis) : ∀ (bs : List (List WRow)) (c : WProfF) (x x2 w w2 : List ℚ),
    (∀ b ∈ bs, ∀ r ∈ b, ∃ i, a.indexF r.v = .ok (some i)) →
    a.fillAllF c.sumwx (bs.map fun b => b.map fun r => (r.v, rne (r.x * r.w))) = .ok x →
    a.fillAllF c.sumwx2 (bs.map fun b => b.map fun r => (r.v, rne (rne (r.x * r.x) * r.w))) = .ok x2 →
    a.fillAllF c.sumw (bs.map fun b => b.map fun r => (r.v, r.w)) = .ok w →
    a.fillAllF c.sumw2 (bs.map fun b => b.map fun r => (r.v, rne (r.w * r.w))) = .ok w2 → a.wprofFillAll c bs = .ok ⟨x, x2, w, w2⟩
  | [], c, x, x2, w, w2, _, h1, h2, h3, h4 => by
    simp only [BinAxis.fillAllF, List.map_nil, Except.ok.injEq] at h1 h2 h3 h4
    subst h1; subst h2; subst h3; subst h4
    rfl
  | b :: bs, c, x, x2, w, w2, hl, h1, h2, h3, h4 => by
    simp only [List.map_cons, BinAxis.fillAllF] at h1 h2 h3 h4
    cases e1 : a.fillF c.sumwx (b.map fun r => (r.v, rne (r.x * r.w))) with
    | error e => simp [e1] at h1
    | ok y =>
    cases e2 : a.fillF c.sumwx2 (b.map fun r => (r.v, rne (rne (r.x * r.x) * r.w))) with
    | error e => simp [e2] at h2
    | ok y2 =>
    cases e3 : a.fillF c.sumw (b.map fun r => (r.v, r.w)) with
    | error e => simp [e3] at h3
    | ok y3 =>
    cases e4 : a.fillF c.sumw2 (b.map fun r => (r.v, rne (r.w * r.w))) with
    | error e => simp [e4] at h4
    | ok y4 =>
    simp only [e1] at h1
    simp only [e2] at h2
    simp only [e3] at h3
    simp only [e4] at h4
    have := wprofFill_all a bs ⟨y, y2, y3, y4⟩ x x2 w w2 (fun b' hb' => hl b' (by simp [hb'])) h1 h2 h3 h4
    obtain ⟨l, hl1, hl2⟩ := landF_length a (b.map fun r => (r.v, 0)) (by
      intro p hp
      obtain ⟨r, hr, rfl⟩ := List.mem_map.1 hp
      exact hl b (by simp) r hr)
    rw [List.length_map] at hl2
    simp only [BinAxis.wprofFillAll, BinAxis.wprofFill, hl1, hl2, lt_irrefl, if_false, e1, e2, e3, e4, this]

/-- The values and weights of the rows in one bin, in the order in which they are filled. -/
def BinAxis.inBinW (a : BinAxis) (i : ℕ) (rows : List WRow) : List (ℚ × ℚ) :=
  (rows.filter fun r => a.indexF r.v = .ok (some (i : ℤ))).map fun r => (r.x, r.w)

theorem inBinW_map (a : BinAxis) (i : ℕ) (f : ℚ × ℚ → ℚ) (rows : List WRow) :
    ((rows.map fun r => (r.v, f (r.x, r.w))).filter fun p => a.indexF p.1 = .ok (some (i : ℤ))).map (·.2) = (a.inBinW i rows).map f := by
  unfold BinAxis.inBinW
  rw [List.filter_map, List.map_map, List.map_map]
  rfl

/-- **C118** with weights, what the table shows for any batches of rows that are all in some bin: in every bin what is computed
from the values and the weights of its entries, in their order. -/
theorem C118_weighted_table (a : BinAxis) (h : a.Ordinary) (bs : List (List WRow)) (hl : ∀ b ∈ bs, ∀ r ∈ b, ∃ i, a.indexF r.v = .ok (some i)) :
    ∃ c, a.wprofFillAll a.wprofZeros bs = .ok c ∧ c.table.length = a.totbins ∧
      ∀ i < a.totbins, c.table[i]? = some (wcell (a.inBinW i bs.flatten)) := by
  obtain ⟨x, hx1, _, hx2, hx3⟩ := C106_batches a h (bs.map fun b => b.map fun r => (r.v, rne (r.x * r.w)))
  obtain ⟨y, hy1, _, hy2, hy3⟩ := C106_batches a h (bs.map fun b => b.map fun r => (r.v, rne (rne (r.x * r.x) * r.w)))
  obtain ⟨w, hw1, _, hw2, hw3⟩ := C106_batches a h (bs.map fun b => b.map fun r => (r.v, r.w))
  obtain ⟨w2, hz1, _, hz2, hz3⟩ := C106_batches a h (bs.map fun b => b.map fun r => (r.v, rne (r.w * r.w)))
  refine ⟨⟨x, y, w, w2⟩, wprofFill_all a bs a.wprofZeros x y w w2 hl hx1 hy1 hw1 hz1, by simp [WProfF.table, hx2, hy2, hw2, hz2], fun i hi => ?_⟩
  have e1 := hx3 i hi
  have e2 := hy3 i hi
  have e3 := hw3 i hi
  have e4 := hz3 i hi
  rw [← List.map_flatten, inBinW_map a i fun p => rne (p.1 * p.2)] at e1
  rw [← List.map_flatten, inBinW_map a i fun p => rne (rne (p.1 * p.1) * p.2)] at e2
  rw [← List.map_flatten, inBinW_map a i fun p => p.2] at e3
  rw [← List.map_flatten, inBinW_map a i fun p => rne (p.2 * p.2)] at e4
  simp only [WProfF.table, List.getElem?_zipWith, List.zip, e1, e2, e3, e4]
  rfl

/-- **C118 is violated** with weights by axes without bins for underflow, overflow or NaN: filling a histogram with weights and
profiles raises as soon as one row of the batch is in no bin. -/
theorem C118_weighted_refuted_outside (a : BinAxis) (c : WProfF) (rows : List WRow) (h : ∃ r ∈ rows, a.indexF r.v = .ok none) :
    ∃ e : Err, a.wprofFill c rows = .error e := by
  unfold BinAxis.wprofFill
  cases hL : a.landF (rows.map fun r => (r.v, 0)) with
  | error e => exact ⟨e, rfl⟩
  | ok l =>
    obtain ⟨r, hr, hn⟩ := h
    have := (landF_short a _ l hL).2 ⟨(r.v, 0), List.mem_map.2 ⟨r, hr, rfl⟩, hn⟩
    rw [List.length_map] at this
    exact ⟨if rows.length = 1 then .indexError else .valueError, by simp only [this, if_true]⟩

theorem sumF_ones (n : ℕ) (hn : n ≤ 2 ^ 53) (ps : List (ℚ × ℚ)) (hl : ps.length = n) (h1 : ∀ p ∈ ps, p.2 = 1) :
    sumF 0 (ps.map fun p => p.2) = n ∧ sumF 0 (ps.map fun p => rne (p.2 * p.2)) = n := by
  have e1 : ps.map (fun p => p.2) = List.replicate n 1 := by
    rw [List.eq_replicate_iff]
    refine ⟨by simp [hl], fun x hx => ?_⟩
    obtain ⟨p, hp, rfl⟩ := List.mem_map.1 hx
    exact h1 p hp
  have h2 : rne (1 * 1 : ℚ) = 1 := by decide +kernel
  have e2 : ps.map (fun p => rne (p.2 * p.2)) = List.replicate n 1 := by
    rw [List.eq_replicate_iff]
    refine ⟨by simp [hl], fun x hx => ?_⟩
    obtain ⟨p, hp, rfl⟩ := List.mem_map.1 hx
    simp only [h1 p hp, h2]
  rw [e1, e2]
  exact ⟨(C134_ones n hn).1, (C134_ones n hn).1⟩

/-- **C118** with weights: weights of one give what no weights give, up to 94906265 entries. -/
theorem C118_weighted_ones (xs : List ℚ) (hx : ∀ x ∈ xs, IsF64 x) (hn : xs.length ≤ 94906265) (h0 : xs ≠ []) :
    (wcell (xs.map fun x => (x, 1))).effcount = xs.length ∧
      (⟨(wcell (xs.map fun x => (x, 1))).mean, (wcell (xs.map fun x => (x, 1))).errorSq⟩ : ProfCell) =
        profCellF (sumF 0 xs) (sumF 0 (xs.map fun x => rne (x * x))) xs.length := by
  obtain ⟨o1, o2⟩ := sumF_ones xs.length (by omega) (xs.map fun x => (x, 1)) (by simp) (by
    intro p hp
    obtain ⟨x, _, rfl⟩ := List.mem_map.1 hp
    rfl)
  have hq : (0 : ℚ) < xs.length := by exact_mod_cast List.length_pos_iff.2 h0
  have e1 : (xs.map fun x => ((x, 1) : ℚ × ℚ)).map (fun p => rne (p.1 * p.2)) = xs := by
    rw [List.map_map]
    conv_rhs => rw [← List.map_id xs]
    refine List.map_congr_left fun x hx' => ?_
    simp only [Function.comp_apply, mul_one, id_eq]
    exact rne_fix (hx x hx')
  have e2 : (xs.map fun x => ((x, 1) : ℚ × ℚ)).map (fun p => rne (rne (p.1 * p.1) * p.2)) = xs.map fun x => rne (x * x) := by
    rw [List.map_map]
    refine List.map_congr_left fun x hx' => ?_
    simp only [Function.comp_apply, mul_one]
    exact rne_rne _
  have hE : effcountF xs.length xs.length = xs.length := by
    unfold effcountF
    have h1 : rne ((xs.length : ℚ) * xs.length) = xs.length * xs.length := by
      have := isF64_nat (xs.length * xs.length) (by nlinarith)
      push_cast at this
      exact rne_fix this
    rw [h1, mul_div_assoc, div_self hq.ne', mul_one]
    exact rne_fix (isF64_nat _ (by omega))
  unfold wcell wprofCellF profCellF
  rw [o1, o2, e1, e2, if_pos hq, if_pos hq]
  simp only [hE, and_self]

/-- **C118 is violated** by weights of one and more entries: 94906267 entries with the weight 1 count as a little less. -/
theorem C118_weighted_refuted_ones : ¬ ∀ ps : List (ℚ × ℚ), (∀ p ∈ ps, p.2 = 1) → (wcell ps).effcount = ps.length := by
  intro h
  have h1 := h (List.replicate 94906267 (0, 1)) (by intro p hp; rw [List.eq_of_mem_replicate hp])
  obtain ⟨o1, o2⟩ := sumF_ones 94906267 (by norm_num) (List.replicate 94906267 (0, 1)) List.length_replicate
    (by intro p hp; rw [List.eq_of_mem_replicate hp])
  unfold wcell wprofCellF at h1
  rw [o1, o2, List.length_replicate, if_pos (by norm_num)] at h1
  simp only at h1
  revert h1
  decide +kernel

/-- Two batches with the weights 1, 2 and 1. -/
example : ∃ c : WProfF, (decimalBin 1 0 1).wprofFillAll (decimalBin 1 0 1).wprofZeros [[⟨.fin (1 / 2), 1, 1⟩, ⟨.fin (1 / 2), 2, 2⟩], [⟨.fin (1 / 2), 3, 1⟩]] = .ok c ∧
    c.table[1]? = some ⟨rne (8 / 3), 2, some (rne (3 / 16))⟩ := by
  refine ⟨⟨[0, 8, 0, 0], [0, 18, 0, 0], [0, 4, 0, 0], [0, 6, 0, 0]⟩, by decide +kernel, by decide +kernel⟩

example : wMean [(1, 1), (2, 2), (3, 1)] = 2 ∧ wVariance [(1, 1), (2, 2), (3, 1)] = 1 / 2 ∧ wEff [(1, 1), (2, 2), (3, 1)] = 8 / 3 := by
  norm_num [wMean, wVariance, wEff, wSum]

example : MediumAll [(1, 1), (2, 2)] := by
  intro p hp
  simp only [List.mem_cons, List.not_mem_nil, or_false] at hp
  rcases hp with rfl | rfl
  · exact ⟨⟨⟨1, 0, by norm_num, by norm_num, by norm_num⟩, Or.inr (by norm_num)⟩, ⟨1, 0, by norm_num, by norm_num, by norm_num⟩, by norm_num, by norm_num⟩
  · exact ⟨⟨⟨2, 0, by norm_num, by norm_num, by norm_num⟩, Or.inr (by norm_num)⟩, ⟨2, 0, by norm_num, by norm_num, by norm_num⟩, by norm_num, by norm_num⟩

/-- Without a bin for overflow, a value of 7 makes filling raise. -/
example : (⟨1, 0, 1, true, false, true, true⟩ : BinAxis).wprofFill ⟨[0, 0, 0], [0, 0, 0], [0, 0, 0], [0, 0, 0]⟩
    [⟨.fin (1 / 2), 1, 1⟩, ⟨.fin 7, 1, 1⟩] = .error .valueError := by decide +kernel

end Verif
