import Verif.FloatSelect
import Verif.PropsFloatBin

/-!
# C108: selections on a bin axis with the machine's arithmetic
-/

namespace Verif

/-- What selecting below the `i`-th edge makes of an axis, with the edge rounded to `c`. -/
def BinAxis.below (a : BinAxis) (i : ℕ) (c : ℚ) : BinAxis := { a with numbins := i, high := c, overflow := false, nanflow := false }

/-- What selecting from the `i`-th edge on makes of an axis, with the edge rounded to `c`. -/
def BinAxis.from (a : BinAxis) (i : ℕ) (c : ℚ) : BinAxis := { a with numbins := a.numbins - i, low := c, underflow := false, nanflow := false }

/-- Distances that decide a selection are right up to two roundings. -/
theorem select_distance {v c M : ℚ} (hv : IsF64 v) (hc : IsF64 c) (hvM : |v| ≤ M) (hcM : |c| ≤ 2 * M) :
    |(|rne (v - c)| - |v - c|)| ≤ 3 * eps * M := by
  have he := eps_pos
  have h1 := rne_err_sub hv hc
  change _ ≤ eps * _ at h1
  have h2 : |v - c| ≤ 3 * M := (abs_sub _ _).trans (by linarith)
  have h3 := mul_le_mul_of_nonneg_left h2 he.le
  calc _ ≤ |rne (v - c) - (v - c)| := abs_abs_sub_abs_le_abs_sub _ _
    _ ≤ _ := by linarith

theorem BinAxis.Ordinary.closeF_le {a : BinAxis} (h : a.Ordinary) {M : ℚ} (hl : |a.low| ≤ M) (hh : |a.high| ≤ M)
    (i : ℕ) (hi : i ≤ a.numbins) : |a.closeF i| ≤ 2 * M ∧ |a.closeF i - a.i2xF i| ≤ 22 * eps * M := by
  have he := eps_pos
  have hes := eps_small
  have hM := h.bound_pos hl hh
  have h1 := h.closeF_err hl hh i hi
  have h2 := h.i2xF_err M hl hh hi
  have hd : 0 < a.high - a.low := by linarith [h.order]
  have hN : (1 : ℚ) ≤ a.numbins := by exact_mod_cast h.bins
  have hiN : (i : ℚ) ≤ a.numbins := by exact_mod_cast hi
  have h3 : |a.i2x i| ≤ M := by
    have e1 := abs_le.1 hl
    have e2 := abs_le.1 hh
    have f0 : 0 ≤ (i : ℚ) / a.numbins * (a.high - a.low) := by positivity
    have f1 : (i : ℚ) / a.numbins * (a.high - a.low) ≤ a.high - a.low :=
      mul_le_of_le_one_left hd.le (by rw [div_le_one (by linarith)]; exact hiN)
    unfold BinAxis.i2x
    rw [abs_le]
    constructor <;> linarith [e1.1, e2.2]
  have h4 : eps * M ≤ 1 / 1000000 * M := mul_le_mul_of_nonneg_right hes hM.le
  rw [abs_le] at h1 h2 h3
  constructor
  · rw [abs_le]; constructor <;> linarith [h1.1, h1.2, h3.1, h3.2]
  · rw [abs_le]; constructor <;> linarith [h1.1, h1.2, h2.1, h2.2]

/-- Counting edges below a number, for edges that are not quite those of the axis. -/
theorem BinAxis.Ordinary.indexF_count {a : BinAxis} (h : a.Ordinary) {v M : ℚ} (hv : IsF64 v) (hl : |a.low| ≤ M) (hh : |a.high| ≤ M)
    (hvM : |v| ≤ M) (h30 : (v - a.low) * a.numbins ≤ 2 ^ 30 * (a.high - a.low)) (e : ℕ → ℚ) (δ : ℚ)
    (hnear : ∀ j ≤ a.numbins, |e j - a.i2x j| ≤ δ) (hfar : ∀ j ≤ a.numbins, δ + 11 * eps * M < |v - e j|) :
    ∃ p, p ≤ a.numbins + 1 ∧ (∀ j ≤ a.numbins, (j < p ↔ e j < v)) ∧
      a.indexF (.fin v) = .ok (finish a.underflow a.overflow a.numbins p) := by
  have hd : 0 < a.high - a.low := by linarith [h.order]
  have hMp := h.bound_pos hl hh
  have he := eps_pos
  have heM : 0 < eps * M := by positivity
  have hsc : a.scaled v ≤ 2 ^ 30 := by
    unfold BinAxis.scaled
    rw [mul_div_assoc', div_le_iff₀ hd]; exact h30
  refine ⟨_, by omega, ?_, BinAxis.indexF_fin h hv hsc⟩
  intro i hi
  have hδ : 0 ≤ δ := (abs_nonneg _).trans (hnear i hi)
  obtain ⟨s1, s2⟩ := h.side hv hl hh hvM i (e i) δ (hnear i hi) (hfar i hi)
  have hne : v ≠ e i := by
    intro hc
    have := hfar i hi
    rw [← hc, sub_self, abs_zero] at this
    linarith
  unfold BinAxis.cellF
  cases a.closedlow
  · simp only [Bool.false_eq_true, if_false]
    have : ((i : ℤ) : ℚ) < a.scaledF v ↔ (i : ℤ) < ⌈a.scaledF v⌉ := Int.lt_ceil.symm
    rw [Int.cast_natCast] at this
    constructor
    · intro hlt
      have h1 : (i : ℚ) < a.scaledF v := this.2 (by omega)
      by_contra hc
      have := s2 (lt_of_le_of_ne (not_lt.1 hc) hne)
      linarith
    · intro hlt
      have := this.1 (s1 hlt)
      omega
  · simp only [if_true]
    have : ((i : ℤ) : ℚ) ≤ a.scaledF v ↔ (i : ℤ) ≤ ⌊a.scaledF v⌋ := Int.le_floor.symm
    rw [Int.cast_natCast] at this
    constructor
    · intro hlt
      have h1 : (i : ℚ) ≤ a.scaledF v := this.2 (by omega)
      by_contra hc
      have := s2 (lt_of_le_of_ne (not_lt.1 hc) hne)
      linarith
    · intro hlt
      have := this.1 (s1 hlt).le
      omega

/-- The rounded edge is away from the ends, as far as the bins are wide. -/
theorem BinAxis.Ordinary.closeF_apart {a : BinAxis} (h : a.Ordinary) {M : ℚ} (hl : |a.low| ≤ M) (hh : |a.high| ≤ M)
    (hwide : M / 2 ^ 48 * a.numbins ≤ a.high - a.low) (i : ℕ) (hi : i ≤ a.numbins) :
    (0 < i → (i : ℚ) * ((a.high - a.low) / a.numbins) ≤ 2 * (a.closeF i - a.low)) ∧
      (i < a.numbins → ((a.numbins : ℚ) - i) * ((a.high - a.low) / a.numbins) ≤ 2 * (a.high - a.closeF i)) := by
  have he := eps_pos
  have hN : (1 : ℚ) ≤ a.numbins := by exact_mod_cast h.bins
  have hd : 0 < a.high - a.low := by linarith [h.order]
  have h1 := abs_le.1 (h.closeF_err hl hh i hi)
  have h48 : M / 2 ^ 48 = 32 * eps * M := by
    unfold eps
    rw [zpow_neg]; norm_num; ring
  rw [h48] at hwide
  have hMp := h.bound_pos hl hh
  have heM : 0 < eps * M := by positivity
  have hw : 32 * eps * M ≤ (a.high - a.low) / a.numbins := by
    rw [le_div_iff₀ (by linarith)]; exact hwide
  have hnw : (a.numbins : ℚ) * ((a.high - a.low) / a.numbins) = a.high - a.low := by field_simp
  have hix : a.i2x i = i * ((a.high - a.low) / a.numbins) + a.low := by
    unfold BinAxis.i2x; field_simp
  rw [hix] at h1
  set w := (a.high - a.low) / a.numbins
  constructor
  · intro h0
    have hI : (1 : ℚ) ≤ i := by exact_mod_cast h0
    have : w ≤ i * w := le_mul_of_one_le_left (by linarith) hI
    linarith [h1.1]
  · intro h0
    have hI : (1 : ℚ) ≤ (a.numbins : ℚ) - i := by
      have : ((i + 1 : ℕ) : ℚ) ≤ a.numbins := by exact_mod_cast h0
      push_cast at this; linarith
    have : w ≤ ((a.numbins : ℚ) - i) * w := le_mul_of_one_le_left (by linarith) hI
    linarith [h1.2]

theorem BinAxis.Ordinary.below_ordinary {a : BinAxis} (h : a.Ordinary) {M : ℚ} (hl : |a.low| ≤ M) (hh : |a.high| ≤ M)
    (hM9 : M ≤ 2 ^ (899 : ℤ)) (hwide : M / 2 ^ 48 * a.numbins ≤ a.high - a.low) (hw9 : (2 : ℚ) ^ (-899 : ℤ) * a.numbins ≤ a.high - a.low)
    (i : ℕ) (hi0 : 0 < i) (hi : i ≤ a.numbins) : (a.below i (a.closeF i)).Ordinary := by
  have hN : (1 : ℚ) ≤ a.numbins := by exact_mod_cast h.bins
  have hI : (1 : ℚ) ≤ i := by exact_mod_cast hi0
  have h1 := (h.closeF_apart hl hh hwide i hi).1 hi0
  have hw : (2 : ℚ) ^ (-899 : ℤ) ≤ (a.high - a.low) / a.numbins := by rw [le_div_iff₀ (by linarith)]; exact hw9
  have hw' : (a.high - a.low) / a.numbins ≤ i * ((a.high - a.low) / a.numbins) :=
    le_mul_of_one_le_left (le_trans (two_zpow_pos _).le hw) hI
  have h900 : (2 : ℚ) ^ (-899 : ℤ) = 2 * 2 ^ (-900 : ℤ) := by
    rw [show (-899 : ℤ) = 1 + -900 by norm_num, two_zpow_add]; norm_num
  have hap : (2 : ℚ) ^ (-900 : ℤ) ≤ a.closeF i - a.low := by
    rw [h900] at hw
    generalize (2 : ℚ) ^ (-900 : ℤ) = g at *
    linarith
  have hc2 := (h.closeF_le hl hh i hi).1
  exact ⟨hi0, hi.trans h.few, h.low, rne_isF64 _, by
      have := two_zpow_pos (-900)
      change a.low < a.closeF i
      generalize (2 : ℚ) ^ (-900 : ℤ) = g at *
      linarith, hap, h.lowSmall, by
      refine hc2.trans ?_
      calc 2 * M ≤ 2 * 2 ^ (899 : ℤ) := by
            generalize (2 : ℚ) ^ (899 : ℤ) = g at *
            linarith
        _ = 2 ^ (900 : ℤ) := by rw [show (900 : ℤ) = 1 + 899 by norm_num, two_zpow_add]; norm_num⟩

theorem BinAxis.Ordinary.from_ordinary {a : BinAxis} (h : a.Ordinary) {M : ℚ} (hl : |a.low| ≤ M) (hh : |a.high| ≤ M)
    (hM9 : M ≤ 2 ^ (899 : ℤ)) (hwide : M / 2 ^ 48 * a.numbins ≤ a.high - a.low) (hw9 : (2 : ℚ) ^ (-899 : ℤ) * a.numbins ≤ a.high - a.low)
    (i : ℕ) (hi : i < a.numbins) : (a.from i (a.closeF i)).Ordinary := by
  have hN : (1 : ℚ) ≤ a.numbins := by exact_mod_cast h.bins
  have hI : (1 : ℚ) ≤ (a.numbins : ℚ) - i := by
    have : ((i + 1 : ℕ) : ℚ) ≤ a.numbins := by exact_mod_cast hi
    push_cast at this; linarith
  have h1 := (h.closeF_apart hl hh hwide i hi.le).2 hi
  have hw : (2 : ℚ) ^ (-899 : ℤ) ≤ (a.high - a.low) / a.numbins := by rw [le_div_iff₀ (by linarith)]; exact hw9
  have hw' : (a.high - a.low) / a.numbins ≤ ((a.numbins : ℚ) - i) * ((a.high - a.low) / a.numbins) :=
    le_mul_of_one_le_left (le_trans (two_zpow_pos _).le hw) hI
  have h900 : (2 : ℚ) ^ (-899 : ℤ) = 2 * 2 ^ (-900 : ℤ) := by
    rw [show (-899 : ℤ) = 1 + -900 by norm_num, two_zpow_add]; norm_num
  have hap : (2 : ℚ) ^ (-900 : ℤ) ≤ a.high - a.closeF i := by
    rw [h900] at hw
    generalize (2 : ℚ) ^ (-900 : ℤ) = g at *
    linarith
  have hc2 := (h.closeF_le hl hh i hi.le).1
  exact ⟨by change 0 < a.numbins - i; omega, by
      have := h.few
      change a.numbins - i ≤ _
      omega, rne_isF64 _, h.high, by
      have := two_zpow_pos (-900)
      change a.closeF i < a.high
      generalize (2 : ℚ) ^ (-900 : ℤ) = g at *
      linarith, hap, by
      refine hc2.trans ?_
      calc 2 * M ≤ 2 * 2 ^ (899 : ℤ) := by
            generalize (2 : ℚ) ^ (899 : ℤ) = g at *
            linarith
        _ = 2 ^ (900 : ℤ) := by rw [show (900 : ℤ) = 1 + 899 by norm_num, two_zpow_add]; norm_num, h.highSmall⟩

theorem BinAxis.Ordinary.below_edges {a : BinAxis} (h : a.Ordinary) {M : ℚ} (hl : |a.low| ≤ M) (hh : |a.high| ≤ M)
    (i : ℕ) (hi0 : 0 < i) (hi : i ≤ a.numbins) (j : ℕ) (hj : j ≤ (a.below i (a.closeF i)).numbins) :
    |a.i2xF j - (a.below i (a.closeF i)).i2x j| ≤ 22 * eps * M := by
  have hj' : j ≤ i := hj
  have hN : (1 : ℚ) ≤ a.numbins := by exact_mod_cast h.bins
  have hI : (1 : ℚ) ≤ i := by exact_mod_cast hi0
  have hJ : (j : ℚ) ≤ i := by exact_mod_cast hj'
  have h1 := h.closeF_err hl hh i hi
  have h2 := h.i2xF_err M hl hh (hj'.trans hi)
  have e : a.i2xF j - (a.below i (a.closeF i)).i2x j = (a.i2xF j - a.i2x j) - (j : ℚ) / i * (a.closeF i - a.i2x i) := by
    unfold BinAxis.below BinAxis.i2x
    simp only
    field_simp
    ring
  rw [e]
  have h3 : |(j : ℚ) / i * (a.closeF i - a.i2x i)| ≤ 10 * eps * M := by
    rw [abs_mul, abs_of_nonneg (by positivity)]
    exact (mul_le_of_le_one_left (abs_nonneg _) (by rw [div_le_one (by linarith)]; exact hJ)).trans h1
  exact (abs_sub _ _).trans (by linarith)

theorem BinAxis.Ordinary.from_edges {a : BinAxis} (h : a.Ordinary) {M : ℚ} (hl : |a.low| ≤ M) (hh : |a.high| ≤ M)
    (i : ℕ) (hi : i < a.numbins) (j : ℕ) (hj : j ≤ (a.from i (a.closeF i)).numbins) :
    |a.i2xF (i + j) - (a.from i (a.closeF i)).i2x j| ≤ 22 * eps * M := by
  have hj' : j ≤ a.numbins - i := hj
  have hN : (1 : ℚ) ≤ a.numbins := by exact_mod_cast h.bins
  have hc : ((a.numbins - i : ℕ) : ℚ) = (a.numbins : ℚ) - i := by rw [Nat.cast_sub hi.le]
  have hI : (1 : ℚ) ≤ (a.numbins : ℚ) - i := by
    have : ((i + 1 : ℕ) : ℚ) ≤ a.numbins := by exact_mod_cast hi
    push_cast at this; linarith
  have hJ : (j : ℚ) ≤ (a.numbins : ℚ) - i := by rw [← hc]; exact_mod_cast hj'
  have hJ0 : (0 : ℚ) ≤ j := by positivity
  have h1 := h.closeF_err hl hh i hi.le
  have h2 := h.i2xF_err M hl hh (show i + j ≤ a.numbins by omega)
  have hne : (a.numbins : ℚ) - i ≠ 0 := by linarith
  have e : a.i2xF (i + j) - (a.from i (a.closeF i)).i2x j =
      (a.i2xF (i + j) - a.i2x (i + j)) - (1 - (j : ℚ) / ((a.numbins : ℚ) - i)) * (a.closeF i - a.i2x i) := by
    unfold BinAxis.from BinAxis.i2x
    simp only
    rw [hc]
    push_cast
    field_simp
    ring
  rw [e]
  have hfrac : (j : ℚ) / ((a.numbins : ℚ) - i) ≤ 1 := by rw [div_le_one (by linarith)]; exact hJ
  have hfrac0 : 0 ≤ (j : ℚ) / ((a.numbins : ℚ) - i) := div_nonneg hJ0 (by linarith)
  have h3 : |(1 - (j : ℚ) / ((a.numbins : ℚ) - i)) * (a.closeF i - a.i2x i)| ≤ 10 * eps * M := by
    rw [abs_mul, abs_of_nonneg (by linarith)]
    exact (mul_le_of_le_one_left (abs_nonneg _) (by linarith)).trans h1
  exact (abs_sub _ _).trans (by linarith)

theorem BinAxis.Ordinary.below_scaled {a : BinAxis} (h : a.Ordinary) {v M : ℚ} (hl : |a.low| ≤ M) (hh : |a.high| ≤ M)
    (hwide : M / 2 ^ 48 * a.numbins ≤ a.high - a.low) (h29 : (v - a.low) * a.numbins ≤ 2 ^ 29 * (a.high - a.low))
    (i : ℕ) (hi0 : 0 < i) (hi : i ≤ a.numbins) :
    (v - (a.below i (a.closeF i)).low) * (a.below i (a.closeF i)).numbins ≤
      2 ^ 30 * ((a.below i (a.closeF i)).high - (a.below i (a.closeF i)).low) := by
  change (v - a.low) * (i : ℚ) ≤ 2 ^ 30 * (a.closeF i - a.low)
  have hN : (1 : ℚ) ≤ a.numbins := by exact_mod_cast h.bins
  have hI : (1 : ℚ) ≤ i := by exact_mod_cast hi0
  have h1 := (h.closeF_apart hl hh hwide i hi).1 hi0
  have h2 : v - a.low ≤ 2 ^ 29 * ((a.high - a.low) / a.numbins) := by
    rw [mul_div_assoc', le_div_iff₀ (by linarith)]; exact h29
  have h3 := mul_le_mul_of_nonneg_right h2 (by linarith : (0 : ℚ) ≤ i)
  calc (v - a.low) * (i : ℚ) ≤ _ := h3
    _ = 2 ^ 29 * (i * ((a.high - a.low) / a.numbins)) := by ring
    _ ≤ 2 ^ 29 * (2 * (a.closeF i - a.low)) := mul_le_mul_of_nonneg_left h1 (by norm_num)
    _ = _ := by ring

theorem BinAxis.Ordinary.from_scaled {a : BinAxis} (h : a.Ordinary) {v M : ℚ} (hl : |a.low| ≤ M) (hh : |a.high| ≤ M)
    (hwide : M / 2 ^ 48 * a.numbins ≤ a.high - a.low) (h29 : (v - a.low) * a.numbins ≤ 2 ^ 29 * (a.high - a.low))
    (i : ℕ) (hi : i < a.numbins) :
    (v - (a.from i (a.closeF i)).low) * (a.from i (a.closeF i)).numbins ≤
      2 ^ 30 * ((a.from i (a.closeF i)).high - (a.from i (a.closeF i)).low) := by
  have hc : ((a.numbins - i : ℕ) : ℚ) = (a.numbins : ℚ) - i := by rw [Nat.cast_sub hi.le]
  change (v - a.closeF i) * ((a.numbins - i : ℕ) : ℚ) ≤ 2 ^ 30 * (a.high - a.closeF i)
  rw [hc]
  have hN : (1 : ℚ) ≤ a.numbins := by exact_mod_cast h.bins
  have hd : 0 < a.high - a.low := by linarith [h.order]
  have hI : (1 : ℚ) ≤ (a.numbins : ℚ) - i := by
    have : ((i + 1 : ℕ) : ℚ) ≤ a.numbins := by exact_mod_cast hi
    push_cast at this; linarith
  have h1 := (h.closeF_apart hl hh hwide i hi.le).2 hi
  have hlow : a.low ≤ a.closeF i := by
    rcases Nat.eq_zero_or_pos i with rfl | hip
    · have : a.closeF 0 = a.low := by
        unfold BinAxis.closeF
        have : min (a.numbins : ℤ) (max 0 (0 : ℤ)) = 0 := by omega
        rw [this]
        simp [rne_zero, rne_fix h.low]
      exact this.ge
    · have := (h.closeF_apart hl hh hwide i hi.le).1 hip
      have h5 : 0 ≤ (i : ℚ) * ((a.high - a.low) / a.numbins) := by positivity
      linarith
  have h2 : v - a.low ≤ 2 ^ 29 * ((a.high - a.low) / a.numbins) := by
    rw [mul_div_assoc', le_div_iff₀ (by linarith)]; exact h29
  have h3 := mul_le_mul_of_nonneg_right (show v - a.closeF i ≤ 2 ^ 29 * ((a.high - a.low) / a.numbins) by linarith) (by linarith : (0 : ℚ) ≤ (a.numbins : ℚ) - i)
  calc (v - a.closeF i) * ((a.numbins : ℚ) - i) ≤ _ := h3
    _ = 2 ^ 29 * (((a.numbins : ℚ) - i) * ((a.high - a.low) / a.numbins)) := by ring
    _ ≤ 2 ^ 29 * (2 * (a.high - a.closeF i)) := mul_le_mul_of_nonneg_left h1 (by norm_num)
    _ = _ := by ring

/-- In double precision, a threshold that is nearer to a published edge than the tolerance (but for `2^-48`
of the largest number involved) is accepted with a comparison that does not cut a bin: it takes the bins below the
edge, or those from the edge on, and the new end is within the same `2^-48` of the edge.  This needs bins that are
wide enough to tell the edges apart. -/
theorem C108_accepts_partial (a : BinAxis) (h : a.Ordinary) (v g tol M : ℚ) (hv : IsF64 v)
    (hM : |a.low| ≤ M ∧ |a.high| ≤ M ∧ |v| ≤ M) (i : ℕ) (hi : i ≤ a.numbins) (hg : |v - a.i2xF i| ≤ g)
    (htol : g + M / 2 ^ 48 ≤ tol) (hwide : 2 * (g + M / 2 ^ 48) * a.numbins ≤ a.high - a.low) (cmp : Cmp) :
    ∃ c, |c - a.i2xF i| ≤ M / 2 ^ 48 ∧
      (cmp = (if a.closedlow then .lt else .le) → (0 < i ∨ a.underflow = true) →
        a.selectF cmp v tol = .ok (.cut (a.below i c) ⟨0, some (i + b2i a.underflow)⟩)) ∧
      (cmp = (if a.closedlow then .ge else .gt) → (i < a.numbins ∨ a.overflow = true) →
        a.selectF cmp v tol = .ok (.cut (a.from i c) ⟨i + b2i a.underflow, some (a.numbins + b2i a.underflow + b2i a.overflow)⟩)) ∧
      (cmp ≠ (if a.closedlow then .lt else .le) → cmp ≠ (if a.closedlow then .ge else .gt) →
        a.selectF cmp v tol = .ok (.no (some c) true)) := by
  obtain ⟨hl, hh, hvM⟩ := hM
  have he := eps_pos
  have hes := eps_small
  have hMp := h.bound_pos hl hh
  have heM : 0 < eps * M := by positivity
  have hN : (1 : ℚ) ≤ a.numbins := by exact_mod_cast h.bins
  have h48 : M / 2 ^ 48 = 32 * eps * M := by
    unfold eps
    rw [zpow_neg]; norm_num; ring
  rw [h48] at htol hwide ⊢
  have hen : a.edgenumF v = i := h.edgenumF_eq hv hl hh hvM i hi g hg (by
    rw [div_div, lt_div_iff₀ (by linarith)]
    have : (g + 23 * eps * M) * (a.numbins * 2) < (g + 32 * eps * M) * (a.numbins * 2) :=
      mul_lt_mul_of_pos_right (by linarith) (by linarith)
    linarith)
  obtain ⟨hc2, hcd⟩ := h.closeF_le hl hh i hi
  have hdist : |(|rne (v - a.closeF i)| - |v - a.closeF i|)| ≤ 3 * eps * M := select_distance hv (rne_isF64 _) hvM hc2
  have hlt : |rne (v - a.closeF i)| < tol := by
    have h1 : |v - a.closeF i| ≤ g + 22 * eps * M := by
      have : v - a.closeF i = (v - a.i2xF i) - (a.closeF i - a.i2xF i) := by ring
      rw [this]
      exact (abs_sub _ _).trans (add_le_add hg hcd)
    have h2 := (abs_le.1 hdist).2
    linarith
  refine ⟨a.closeF i, hcd.trans (by linarith), ?_, ?_, ?_⟩
  · intro hcmp hleft
    have hcmp' : (a.closedlow = true ∧ cmp = .lt) ∨ (a.closedlow = false ∧ cmp = .le) := by
      cases hcl : a.closedlow <;> simp_all
    have hsc : rne (rne (a.numbins : ℚ) / rne (a.high - a.low)) ≠ 0 := h.scaleF_pos.ne'
    unfold BinAxis.selectF
    simp only [h.width_pos.ne', hsc, if_false, hen, hlt, if_true, hcmp', Int.toNat_natCast]
    unfold checktot BinAxis.below BinAxis.totbins
    have : ¬ (i + b2n a.underflow + b2n false + b2n false = 0) := by
      rcases hleft with h' | h'
      · omega
      · rw [h']; simp [b2n]
    simp only [this, if_false]
  · intro hcmp hright
    have hcmp' : ¬ ((a.closedlow = true ∧ cmp = .lt) ∨ (a.closedlow = false ∧ cmp = .le)) := by
      cases hcl : a.closedlow <;> simp_all
    have hcmp'' : (a.closedlow = true ∧ cmp = .ge) ∨ (a.closedlow = false ∧ cmp = .gt) := by
      cases hcl : a.closedlow <;> simp_all
    have hsc : rne (rne (a.numbins : ℚ) / rne (a.high - a.low)) ≠ 0 := h.scaleF_pos.ne'
    unfold BinAxis.selectF
    simp only [h.width_pos.ne', hsc, if_false, hen, hlt, if_true, hcmp', hcmp'']
    have hsub : ((a.numbins : ℤ) - (i : ℤ)).toNat = a.numbins - i := by omega
    rw [hsub]
    unfold checktot BinAxis.from BinAxis.totbins
    have : ¬ (a.numbins - i + b2n false + b2n a.overflow + b2n false = 0) := by
      rcases hright with h' | h'
      · omega
      · rw [h']; simp [b2n]
    simp only [this, if_false]
  · intro h1 h2
    have hcmp' : ¬ ((a.closedlow = true ∧ cmp = .lt) ∨ (a.closedlow = false ∧ cmp = .le)) := by
      cases hcl : a.closedlow <;> simp_all
    have hcmp'' : ¬ ((a.closedlow = true ∧ cmp = .ge) ∨ (a.closedlow = false ∧ cmp = .gt)) := by
      cases hcl : a.closedlow <;> simp_all
    have hsc : rne (rne (a.numbins : ℚ) / rne (a.high - a.low)) ≠ 0 := h.scaleF_pos.ne'
    unfold BinAxis.selectF
    simp only [h.width_pos.ne', hsc, if_false, hen, hlt, if_true, hcmp', hcmp'']

example : ∃ c, |c - (decimalBin 10 (1 / 10) (9 / 10)).i2xF 5| ≤ 1 / 2 ^ 48 ∧
    (decimalBin 10 (1 / 10) (9 / 10)).selectF .lt (1 / 2) (1 / 10 ^ 12) =
      .ok (.cut ((decimalBin 10 (1 / 10) (9 / 10)).below 5 c) ⟨0, some 6⟩) := by
  obtain ⟨c, h1, h2, -, -⟩ := C108_accepts_partial _ tenth_ordinary (1 / 2) (1 / 2 ^ 52) (1 / 10 ^ 12) 1
    ⟨1, -1, by decide, by decide, by norm_num⟩ (by decide +kernel) 5 (by decide) (by decide +kernel) (by norm_num) (by decide +kernel) .lt
  exact ⟨c, h1, h2 rfl (Or.inl (by decide))⟩

/-- In double precision, a threshold that is further from all published edges than the tolerance (and
`2^-48` of the largest number involved) is refused. -/
theorem C108_refuses_partial (a : BinAxis) (h : a.Ordinary) (v tol M : ℚ) (hv : IsF64 v)
    (hM : |a.low| ≤ M ∧ |a.high| ≤ M ∧ |v| ≤ M) (hfar : ∀ i ≤ a.numbins, tol + M / 2 ^ 48 ≤ |v - a.i2xF i|) (cmp : Cmp) :
    ∃ c, a.selectF cmp v tol = .ok (.no (some c) false) := by
  obtain ⟨hl, hh, hvM⟩ := hM
  have he := eps_pos
  have hMp := h.bound_pos hl hh
  have heM : 0 < eps * M := by positivity
  have h48 : M / 2 ^ 48 = 32 * eps * M := by
    unfold eps
    rw [zpow_neg]; norm_num; ring
  rw [h48] at hfar
  obtain ⟨i, hi, hcl⟩ : ∃ i : ℕ, i ≤ a.numbins ∧ a.closeF (a.edgenumF v) = a.closeF i := by
    refine ⟨(min (a.numbins : ℤ) (max 0 (a.edgenumF v))).toNat, by omega, ?_⟩
    unfold BinAxis.closeF
    have : min (a.numbins : ℤ) (max 0 ((min (a.numbins : ℤ) (max 0 (a.edgenumF v))).toNat : ℤ)) = min (a.numbins : ℤ) (max 0 (a.edgenumF v)) := by omega
    rw [this]
  obtain ⟨hc2, hcd⟩ := h.closeF_le hl hh i hi
  have hdist : |(|rne (v - a.closeF i)| - |v - a.closeF i|)| ≤ 3 * eps * M := select_distance hv (rne_isF64 _) hvM hc2
  have hge : ¬ |rne (v - a.closeF i)| < tol := by
    have h1 : |v - a.i2xF i| ≤ |v - a.closeF i| + 22 * eps * M := by
      have : v - a.i2xF i = (v - a.closeF i) + (a.closeF i - a.i2xF i) := by ring
      rw [this]
      exact (abs_add_le _ _).trans (add_le_add le_rfl hcd)
    have h2 := (abs_le.1 hdist).1
    have h3 := hfar i hi
    intro hc
    linarith
  have hsc : rne (rne (a.numbins : ℚ) / rne (a.high - a.low)) ≠ 0 := h.scaleF_pos.ne'
  refine ⟨a.closeF i, ?_⟩
  unfold BinAxis.selectF
  simp only [h.width_pos.ne', hsc, if_false, hcl, hge]

example : ∃ c, (decimalBin 10 (1 / 10) (9 / 10)).selectF .lt (1 / 2 + 1 / 64) (1 / 10 ^ 12) = .ok (.no (some c) false) :=
  C108_refuses_partial _ tenth_ordinary _ _ 1 ⟨33, -6, by decide, by decide, by norm_num⟩ (by decide +kernel) (by decide +kernel) _

/-- In double precision, filling after selecting the bins below an edge is the same as selecting after filling,
for each number that is further from all published edges than `2^-47` of the largest number involved: below the
edge it is counted in the bin where it was, above the edge it is not counted, and its bin is not kept.  The bins
must be wide enough to tell the edges apart, and the numbers far from the limits of doubles. -/
theorem C108_below_partial (a : BinAxis) (h : a.Ordinary) (v M : ℚ) (hv : IsF64 v)
    (hM : |a.low| ≤ M ∧ |a.high| ≤ M ∧ |v| ≤ M) (hM9 : M ≤ 2 ^ (899 : ℤ)) (hwide : M / 2 ^ 48 * a.numbins ≤ a.high - a.low)
    (hw9 : (2 : ℚ) ^ (-899 : ℤ) * a.numbins ≤ a.high - a.low) (h29 : (v - a.low) * a.numbins ≤ 2 ^ 29 * (a.high - a.low))
    (hfar : ∀ j ≤ a.numbins, M / 2 ^ 47 < |v - a.i2xF j|) (i : ℕ) (hi0 : 0 < i) (hi : i ≤ a.numbins) :
    ∃ r, a.indexF (.fin v) = .ok r ∧
      (v < a.i2xF i → (a.below i (a.closeF i)).indexF (.fin v) = .ok r ∧ ∀ k, r = some k → k < i + b2i a.underflow) ∧
      (a.i2xF i < v → (a.below i (a.closeF i)).indexF (.fin v) = .ok none ∧ ∀ k, r = some k → i + b2i a.underflow ≤ k) := by
  obtain ⟨hl, hh, hvM⟩ := hM
  have he := eps_pos
  have hMp := h.bound_pos hl hh
  have h47 : M / 2 ^ 47 = 64 * eps * M := by
    unfold eps
    rw [zpow_neg]; norm_num; ring
  rw [h47] at hfar
  obtain ⟨p, hp, hpi, hidx⟩ := h.indexF_count hv hl hh hvM (h29.trans (by
    have : 0 < a.high - a.low := by linarith [h.order]
    have h2 : (2 : ℚ) ^ 29 ≤ 2 ^ 30 := by norm_num
    exact mul_le_mul_of_nonneg_right h2 this.le)) a.i2xF (12 * eps * M) (fun j hj => h.i2xF_err M hl hh hj)
    (fun j hj => lt_of_le_of_lt (by nlinarith) (hfar j hj))
  have ho := h.below_ordinary hl hh hM9 hwide hw9 i hi0 hi
  clear hM9 hw9
  obtain ⟨hc2, -⟩ := h.closeF_le hl hh i hi
  have hnear := h.below_edges hl hh i hi0 hi
  obtain ⟨q, hq, hqi, hidx'⟩ := ho.indexF_count (M := 2 * M) hv (hl.trans (by linarith)) hc2 (hvM.trans (by linarith))
    (h.below_scaled hl hh hwide h29 i hi0 hi) a.i2xF (22 * eps * M) hnear
    (fun j hj => lt_of_le_of_lt (by nlinarith) (hfar j (le_trans hj hi)))
  have hqp : q = min p (i + 1) := by
    have hqle : q ≤ i + 1 := hq
    have hqi' : ∀ j ≤ i, (j < q ↔ a.i2xF j < v) := hqi
    by_contra hne
    rcases Nat.lt_or_gt_of_ne hne with hlt | hgt
    · have h1 : q < p := by omega
      have h2 : q ≤ i := by omega
      have := (hpi q (by omega)).1 h1
      have := (hqi' q h2).2 this
      omega
    · have h1 : min p (i + 1) < q := hgt
      have h2 : p ≤ i := by omega
      have h3 : p < q := by omega
      have := (hqi' p h2).1 h3
      have := (hpi p (by omega)).2 this
      omega
  refine ⟨_, hidx, ?_, ?_⟩
  · intro hlt
    have hpi' : p ≤ i := by
      by_contra hc
      have := (hpi i hi).1 (by omega)
      linarith
    have hqp' : q = p := by omega
    rw [hidx', hqp']
    refine ⟨?_, ?_⟩
    · congr 1
      change finish a.underflow false i p = _
      unfold finish
      by_cases h0 : p = 0
      · rw [if_pos h0, if_pos h0]
      · rw [if_neg h0, if_neg h0, if_neg (by omega), if_neg (by omega)]
    · intro k hk
      unfold finish at hk
      have hu : 0 ≤ b2i a.underflow := by cases a.underflow <;> simp [b2i]
      by_cases h0 : p = 0
      · rw [if_pos h0] at hk
        split at hk
        · cases hk; omega
        · cases hk
      · rw [if_neg h0, if_neg (by omega)] at hk
        cases hk; omega
  · intro hgt
    have hpi' : i < p := (hpi i hi).2 hgt
    have hqp' : q = i + 1 := by omega
    rw [hidx', hqp']
    refine ⟨?_, ?_⟩
    · congr 1
      unfold finish
      simp [BinAxis.below]
    · intro k hk
      unfold finish at hk
      rw [if_neg (by omega)] at hk
      split at hk
      · split at hk
        · cases hk; omega
        · cases hk
      · cases hk; omega

/-- In double precision, filling after selecting the bins from an edge on is the same as selecting after filling,
for each number that is further from all published edges than `2^-47` of the largest number involved: above the
edge it is counted in the bin where it was, below the edge it is not counted, and its bin is not kept. -/
theorem C108_from_partial (a : BinAxis) (h : a.Ordinary) (v M : ℚ) (hv : IsF64 v)
    (hM : |a.low| ≤ M ∧ |a.high| ≤ M ∧ |v| ≤ M) (hM9 : M ≤ 2 ^ (899 : ℤ)) (hwide : M / 2 ^ 48 * a.numbins ≤ a.high - a.low)
    (hw9 : (2 : ℚ) ^ (-899 : ℤ) * a.numbins ≤ a.high - a.low) (h29 : (v - a.low) * a.numbins ≤ 2 ^ 29 * (a.high - a.low))
    (hfar : ∀ j ≤ a.numbins, M / 2 ^ 47 < |v - a.i2xF j|) (i : ℕ) (hi : i < a.numbins) :
    ∃ r, a.indexF (.fin v) = .ok r ∧
      (a.i2xF i < v → (a.from i (a.closeF i)).indexF (.fin v) = .ok (r.map (· - (i + b2i a.underflow))) ∧
        ∀ k, r = some k → i + b2i a.underflow ≤ k) ∧
      (v < a.i2xF i → (a.from i (a.closeF i)).indexF (.fin v) = .ok none ∧ ∀ k, r = some k → k < i + b2i a.underflow) := by
  obtain ⟨hl, hh, hvM⟩ := hM
  have he := eps_pos
  have hMp := h.bound_pos hl hh
  have h47 : M / 2 ^ 47 = 64 * eps * M := by
    unfold eps
    rw [zpow_neg]; norm_num; ring
  rw [h47] at hfar
  obtain ⟨p, hp, hpi, hidx⟩ := h.indexF_count hv hl hh hvM (h29.trans (by
    have : 0 < a.high - a.low := by linarith [h.order]
    have h2 : (2 : ℚ) ^ 29 ≤ 2 ^ 30 := by norm_num
    exact mul_le_mul_of_nonneg_right h2 this.le)) a.i2xF (12 * eps * M) (fun j hj => h.i2xF_err M hl hh hj)
    (fun j hj => lt_of_le_of_lt (by nlinarith) (hfar j hj))
  have ho := h.from_ordinary hl hh hM9 hwide hw9 i hi
  clear hM9 hw9
  obtain ⟨hc2, -⟩ := h.closeF_le hl hh i hi.le
  have hnear := h.from_edges hl hh i hi
  obtain ⟨q, hq, hqi, hidx'⟩ := ho.indexF_count (M := 2 * M) hv hc2 (hh.trans (by linarith)) (hvM.trans (by linarith))
    (h.from_scaled hl hh hwide h29 i hi) (fun j => a.i2xF (i + j)) (22 * eps * M) hnear
    (fun j hj => lt_of_le_of_lt (by nlinarith) (hfar (i + j) (by
      have : j ≤ a.numbins - i := hj
      omega)))
  have hqi' : ∀ j ≤ a.numbins - i, (j < q ↔ a.i2xF (i + j) < v) := hqi
  have hq' : q ≤ a.numbins - i + 1 := hq
  have hqp : q = p - i := by
    by_contra hne
    rcases Nat.lt_or_gt_of_ne hne with hlt | hgt
    · have := (hpi (i + q) (by omega)).1 (by omega)
      have := (hqi' q (by omega)).2 this
      omega
    · have := (hqi' (p - i) (by omega)).1 hgt
      have := (hpi (i + (p - i)) (by omega)).2 this
      omega
  refine ⟨_, hidx, ?_, ?_⟩
  · intro hgt
    have hpi' : i < p := (hpi i hi.le).2 hgt
    rw [hidx', hqp]
    refine ⟨?_, ?_⟩
    · congr 1
      change finish false a.overflow (a.numbins - i) (p - i) = _
      unfold finish
      have hp0 : ¬ p = 0 := by omega
      have hpi0 : ¬ p - i = 0 := by omega
      rw [if_neg hpi0, if_neg hp0]
      by_cases hp1 : p = a.numbins + 1
      · have hq1 : p - i = a.numbins - i + 1 := by omega
        rw [if_pos hq1, if_pos hp1]
        cases a.overflow
        · simp
        · simp [b2i]; omega
      · have hq1 : ¬ p - i = a.numbins - i + 1 := by omega
        rw [if_neg hq1, if_neg hp1]
        simp [b2i]; omega
    · intro k hk
      unfold finish at hk
      rw [if_neg (by omega)] at hk
      split at hk
      · split at hk
        · cases hk; omega
        · cases hk
      · cases hk; omega
  · intro hlt
    have hpi' : p ≤ i := by
      by_contra hc
      have := (hpi i hi.le).1 (by omega)
      linarith
    rw [hidx', hqp]
    refine ⟨?_, ?_⟩
    · congr 1
      unfold finish
      rw [if_pos (by omega)]
      simp [BinAxis.from]
    · intro k hk
      unfold finish at hk
      have hu : 0 ≤ b2i a.underflow := by cases a.underflow <;> simp [b2i]
      by_cases h0 : p = 0
      · rw [if_pos h0] at hk
        split at hk
        · rename_i hut
          cases hk; rw [hut]; simp [b2i]
        · cases hk
      · rw [if_neg h0, if_neg (by omega)] at hk
        cases hk; omega

example : (decimalBin 10 (1 / 10) (9 / 10)).indexF (.fin (1 / 4)) = .ok (some 2) ∧
    ((decimalBin 10 (1 / 10) (9 / 10)).below 5 ((decimalBin 10 (1 / 10) (9 / 10)).closeF 5)).indexF (.fin (1 / 4)) = .ok (some 2) := by
  obtain ⟨r, h1, h2, -⟩ := C108_below_partial _ tenth_ordinary (1 / 4) 1 ⟨1, -2, by decide, by decide, by norm_num⟩ (by decide +kernel)
    (by rw [← pow2_eq]; decide +kernel) (by decide +kernel) (by rw [← pow2_eq]; decide +kernel) (by decide +kernel) (by decide +kernel) 5
    (by decide) (by decide)
  have hr : r = some 2 := by
    have : (decimalBin 10 (1 / 10) (9 / 10)).indexF (.fin (1 / 4)) = .ok (some 2) := by decide +kernel
    rw [this] at h1
    exact (Except.ok.inj h1).symm
  subst hr
  exact ⟨h1, (h2 (by decide +kernel)).1⟩

example : (decimalBin 10 (1 / 10) (9 / 10)).indexF (.fin (5 / 8)) = .ok (some 7) ∧
    ((decimalBin 10 (1 / 10) (9 / 10)).from 5 ((decimalBin 10 (1 / 10) (9 / 10)).closeF 5)).indexF (.fin (5 / 8)) = .ok (some 1) := by
  obtain ⟨r, h1, h2, -⟩ := C108_from_partial _ tenth_ordinary (5 / 8) 1 ⟨5, -3, by decide, by decide, by norm_num⟩ (by decide +kernel)
    (by rw [← pow2_eq]; decide +kernel) (by decide +kernel) (by rw [← pow2_eq]; decide +kernel) (by decide +kernel) (by decide +kernel) 5
    (by decide)
  have hr : r = some 7 := by
    have : (decimalBin 10 (1 / 10) (9 / 10)).indexF (.fin (5 / 8)) = .ok (some 7) := by decide +kernel
    rw [this] at h1
    exact (Except.ok.inj h1).symm
  subst hr
  exact ⟨h1, (h2 (by decide +kernel)).1⟩

/-- A published edge itself can be refused with the default tolerance of 1e-12: on `bin("x", 60, 0, 60000)` the
edge 31000.000000000004, compared with the edge 31000 that `select` computes. -/
theorem C108_edge_refuted :
    IsF64 ((decimalBin 60 0 60000).i2xF 31) ∧
      (decimalBin 60 0 60000).selectF .lt ((decimalBin 60 0 60000).i2xF 31) (rne (1 / 10 ^ 12)) = .ok (.no (some 31000) false) :=
  ⟨rne_isF64 _, by decide +kernel⟩

end Verif
