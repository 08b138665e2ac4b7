import Verif.FloatBin

/-!
# Selections on a bin axis with the machine's arithmetic
-/

namespace Verif

/-- axis.py:726 `edgenum` in double precision (the position of line 215 of calc/__init__.py, rounded). -/
def BinAxis.edgenumF (a : BinAxis) (v : ℚ) : ℤ :=
  pyRound (rne (rne (v - rne a.low) * rne (rne (a.numbins : ℚ) / rne (a.high - a.low))))

/-- axis.py:727 `close` in double precision. -/
def BinAxis.closeF (a : BinAxis) (edgenum : ℤ) : ℚ :=
  rne (rne (rne ((min (a.numbins : ℤ) (max 0 edgenum) : ℤ) : ℚ) / rne (rne (a.numbins : ℚ) / rne (a.high - a.low))) + rne a.low)

/-- axis.py:724-765 `bin._select` for a double that is not NaN nor infinite. -/
def BinAxis.selectF (a : BinAxis) (cmp : Cmp) (v : ℚ) (tol : ℚ) : Except Err (SelRes BinAxis) :=
  if rne (a.high - a.low) = 0 then .error .zeroDivision
  else if rne (rne (a.numbins : ℚ) / rne (a.high - a.low)) = 0 then .error .zeroDivision
  else
    let edgenum := a.edgenumF v
    let close := a.closeF edgenum
    if |rne (v - close)| < tol then
      if (a.closedlow = true ∧ cmp = .lt) ∨ (a.closedlow = false ∧ cmp = .le) then
        let out : BinAxis := { a with numbins := edgenum.toNat, high := close, overflow := false, nanflow := false }
        checktot out.totbins (.cut out ⟨0, some (edgenum + b2i a.underflow)⟩)
      else if (a.closedlow = true ∧ cmp = .ge) ∨ (a.closedlow = false ∧ cmp = .gt) then
        let out : BinAxis := { a with numbins := (a.numbins - edgenum).toNat, low := close, underflow := false, nanflow := false }
        checktot out.totbins (.cut out ⟨edgenum + b2i a.underflow, some (a.numbins + b2i a.underflow + b2i a.overflow)⟩)
      else .ok (.no (some close) true)
    else .ok (.no (some close) false)

theorem BinAxis.edgenumF_eq (a : BinAxis) (v : ℚ) : a.edgenumF v = pyRound (a.scaledF v) := rfl

/-- The largest of the numbers involved is positive. -/
theorem BinAxis.Ordinary.bound_pos {a : BinAxis} (h : a.Ordinary) {M : ℚ} (hl : |a.low| ≤ M) (hh : |a.high| ≤ M) : 0 < M := by
  have h1 := (abs_le.1 hl).1
  have h2 := (abs_le.1 hh).2
  linarith [h.order]

/-- The error of the position, in units of the value. -/
theorem BinAxis.Ordinary.position_err {a : BinAxis} (h : a.Ordinary) {v M : ℚ} (hv : IsF64 v) (hl : |a.low| ≤ M) (hh : |a.high| ≤ M)
    (hvM : |v| ≤ M) (i : ℕ) :
    |(a.scaledF v - i) * ((a.high - a.low) / a.numbins) - (v - a.i2x i)| ≤ 11 * eps * M := by
  have he := eps_pos
  have hd : 0 < a.high - a.low := by linarith [h.order]
  have hN : (1 : ℚ) ≤ a.numbins := by exact_mod_cast h.bins
  have hM0 : 0 ≤ M := (abs_nonneg _).trans hl
  have hw0 : 0 < (a.high - a.low) / a.numbins := by positivity
  have herr := h.scaledF_err hv
  have hwid : |a.scaledF v - a.scaled v| * ((a.high - a.low) / a.numbins) ≤ 11 * eps * M := by
    have h1 := mul_le_mul_of_nonneg_right herr hw0.le
    refine h1.trans ?_
    have e1 : |a.scaled v| * ((a.high - a.low) / a.numbins) = |v - a.low| := by
      unfold BinAxis.scaled
      rw [abs_mul, abs_of_pos (by positivity : (0:ℚ) < (a.numbins : ℚ) / (a.high - a.low))]
      field_simp
    have e2 : (5 * eps * |a.scaled v| + eta) * ((a.high - a.low) / a.numbins) =
        5 * eps * |v - a.low| + eta * ((a.high - a.low) / a.numbins) := by
      rw [← e1]; ring
    rw [e2]
    have h2 : |v - a.low| ≤ 2 * M := (abs_sub _ _).trans (by linarith)
    have h3 : (a.high - a.low) / a.numbins ≤ 2 * M := by
      rw [div_le_iff₀ (by linarith)]
      have := (abs_le.1 hl).1
      have := (abs_le.1 hh).2
      nlinarith
    have h4 : 5 * eps * |v - a.low| ≤ 5 * eps * (2 * M) := mul_le_mul_of_nonneg_left h2 (by linarith)
    have h5 : eta * ((a.high - a.low) / a.numbins) ≤ (eps / 1000) * (2 * M) :=
      mul_le_mul eta_le_eps h3 hw0.le (by linarith)
    have : 0 ≤ eps * M := by positivity
    linarith
  have ht : (a.scaled v - i) * ((a.high - a.low) / a.numbins) = v - a.i2x i := by
    unfold BinAxis.scaled BinAxis.i2x
    field_simp; ring
  rw [← ht, ← sub_mul, abs_mul, abs_of_pos hw0]
  have : a.scaledF v - i - (a.scaled v - i) = a.scaledF v - a.scaled v := by ring
  rw [this]; exact hwid

/-- A number far from an edge is put on the right side of it. -/
theorem BinAxis.Ordinary.side {a : BinAxis} (h : a.Ordinary) {v M : ℚ} (hv : IsF64 v) (hl : |a.low| ≤ M) (hh : |a.high| ≤ M)
    (hvM : |v| ≤ M) (i : ℕ) (x δ : ℚ) (hx : |x - a.i2x i| ≤ δ) (hfar : δ + 11 * eps * M < |v - x|) :
    (x < v → (i : ℚ) < a.scaledF v) ∧ (v < x → a.scaledF v < i) := by
  have hd : 0 < a.high - a.low := by linarith [h.order]
  have hN : (1 : ℚ) ≤ a.numbins := by exact_mod_cast h.bins
  have hw0 : 0 < (a.high - a.low) / a.numbins := by positivity
  have hs := h.position_err hv hl hh hvM i
  rw [abs_le] at hs hx
  constructor
  · intro hlt
    rw [abs_of_pos (by linarith)] at hfar
    have : 0 < (a.scaledF v - i) * ((a.high - a.low) / a.numbins) := by linarith [hs.1, hx.2]
    have := pos_of_mul_pos_left this hw0.le
    linarith
  · intro hlt
    rw [abs_of_neg (by linarith)] at hfar
    have : (a.scaledF v - i) * ((a.high - a.low) / a.numbins) < 0 := by linarith [hs.2, hx.1]
    have := neg_of_mul_neg_left this hw0.le
    linarith

/-- A quotient by a factor that is right up to two roundings. -/
theorem quotient_err {c S i : ℚ} (hc : 0 < c) (hS : 0 < S) (hi : 0 ≤ i)
    (h1 : (1 - eps) * c ≤ (1 + eps) * S) (h2 : (1 - eps) * S ≤ (1 + eps) * c) :
    |i / S - i / c| ≤ 3 * eps * (i / c) := by
  have he := eps_pos
  have hes := eps_small
  have hx1 : (1 - eps) * (i / S) ≤ (1 + eps) * (i / c) := by
    rw [mul_div_assoc', mul_div_assoc', div_le_div_iff₀ hS hc]
    have := mul_le_mul_of_nonneg_left h1 hi
    linarith
  have hx2 : (1 - eps) * (i / c) ≤ (1 + eps) * (i / S) := by
    rw [mul_div_assoc', mul_div_assoc', div_le_div_iff₀ hc hS]
    have := mul_le_mul_of_nonneg_left h2 hi
    linarith
  have ht0 : 0 ≤ i / c := by positivity
  have hx0 : 0 ≤ i / S := by positivity
  set t := i / c
  set x := i / S
  have het : 0 ≤ eps * t := by positivity
  have heet : eps * (eps * t) ≤ 1 / 1000000 * (eps * t) := mul_le_mul_of_nonneg_right hes het
  rw [abs_le]
  constructor
  · by_contra hcon
    have h3 := mul_lt_mul_of_pos_left (not_le.1 hcon) (by linarith : (0:ℚ) < 1 + eps)
    linarith [mul_nonneg he.le het]
  · by_contra hcon
    have h3 := mul_lt_mul_of_pos_left (not_le.1 hcon) (by linarith : (0:ℚ) < 1 - eps)
    linarith

/-- The distance of an edge from `low`, as a selection computes it, is zero or far from the smallest doubles. -/
theorem BinAxis.Ordinary.quotient_rne {a : BinAxis} (h : a.Ordinary) (i : ℕ) (t : ℚ) (hit : i ≠ 0 → (a.high - a.low) / a.numbins ≤ t)
    (hx : |(i : ℚ) / a.scaleF - t| ≤ 3 * eps * t) : |rne ((i : ℚ) / a.scaleF) - i / a.scaleF| ≤ eps * (i / a.scaleF) := by
  have he := eps_pos
  have hes := eps_small
  have hSp := h.scaleF_pos
  have hN : (1 : ℚ) ≤ a.numbins := by exact_mod_cast h.bins
  rcases Nat.eq_zero_or_pos i with rfl | hip
  · simp [rne_zero]
  · have h1 := hit (by omega)
    have h2 : (2 : ℚ) ^ (-930 : ℤ) ≤ (a.high - a.low) / a.numbins := by
      rw [le_div_iff₀ (by linarith)]
      have hN30 : (a.numbins : ℚ) ≤ 2 ^ (30 : ℤ) := by exact_mod_cast h.few
      calc (2 : ℚ) ^ (-930 : ℤ) * a.numbins ≤ 2 ^ (-930 : ℤ) * 2 ^ (30 : ℤ) := mul_le_mul_of_nonneg_left hN30 (two_zpow_pos _).le
        _ = 2 ^ (-900 : ℤ) := by rw [← two_zpow_add]; norm_num
        _ ≤ a.high - a.low := h.apart
    have h3 : (2 : ℚ) ^ (-1022 : ℤ) ≤ 2 ^ (-930 : ℤ) * (1 / 2) := by
      have : (1 / 2 : ℚ) = 2 ^ (-1 : ℤ) := by norm_num
      rw [this, ← two_zpow_add]; exact two_zpow_le (by norm_num)
    have ht0 : 0 ≤ t := le_trans (two_zpow_pos _).le (h2.trans h1)
    have h4 : (2 : ℚ) ^ (-930 : ℤ) * (1 / 2) ≤ t * (1 / 2) := mul_le_mul_of_nonneg_right (h2.trans h1) (by norm_num)
    have hx0 : (0 : ℚ) ≤ i / a.scaleF := by positivity
    have h5 : t * (1 / 2) ≤ i / a.scaleF := by
      have := (abs_le.1 hx).1
      have h6 : 3 * eps * t ≤ 3 * (1 / 1000000) * t := mul_le_mul_of_nonneg_right (by linarith) ht0
      linarith
    have := rne_err_normal (i / a.scaleF) (by rw [abs_of_nonneg hx0]; exact h3.trans (h4.trans h5))
    rwa [abs_of_nonneg hx0] at this

/-- The edge that a selection is rounded to is right up to a few roundings. -/
theorem BinAxis.Ordinary.closeF_err {a : BinAxis} (h : a.Ordinary) {M : ℚ} (hl : |a.low| ≤ M) (hh : |a.high| ≤ M)
    (i : ℕ) (hi : i ≤ a.numbins) : |a.closeF i - a.i2x i| ≤ 10 * eps * M := by
  have he := eps_pos
  have hes := eps_small
  have hM := h.bound_pos hl hh
  have hd : 0 < a.high - a.low := by linarith [h.order]
  have hN : (1 : ℚ) ≤ a.numbins := by exact_mod_cast h.bins
  have hiN : (i : ℚ) ≤ a.numbins := by exact_mod_cast hi
  have hi0 : (0 : ℚ) ≤ i := by positivity
  have hd2 : a.high - a.low ≤ 2 * M := by
    have h1 := (abs_le.1 hl).1
    have h2 := (abs_le.1 hh).2
    linarith
  have hmin : (min (a.numbins : ℤ) (max 0 (i : ℤ)) : ℤ) = i := by omega
  have hcl : a.closeF i = rne (rne ((i : ℚ) / a.scaleF) + a.low) := by
    unfold BinAxis.closeF
    rw [hmin, Int.cast_natCast, h.nat_rne hi, rne_fix h.low]; rfl
  rw [hcl]
  unfold BinAxis.i2x
  have et : (i : ℚ) / a.numbins * (a.high - a.low) = i / ((a.numbins : ℚ) / (a.high - a.low)) := by field_simp
  have hxt := quotient_err (by positivity : (0 : ℚ) < (a.numbins : ℚ) / (a.high - a.low)) h.scaleF_pos hi0 h.scaleF.1 h.scaleF.2
  rw [← et] at hxt
  have hr1 := h.quotient_rne i _ (by
    intro hne
    have hI : (1 : ℚ) ≤ i := by exact_mod_cast Nat.one_le_iff_ne_zero.2 hne
    rw [div_mul_eq_mul_div]
    gcongr
    exact le_mul_of_one_le_left hd.le hI) hxt
  have hr2 := rne_err_sum (rne_isF64 ((i : ℚ) / a.scaleF)) h.low
  change _ ≤ eps * _ at hr2
  have ht0 : 0 ≤ (i : ℚ) / a.numbins * (a.high - a.low) := by positivity
  have htd : (i : ℚ) / a.numbins * (a.high - a.low) ≤ a.high - a.low :=
    mul_le_of_le_one_left hd.le (by rw [div_le_one (by linarith)]; exact hiN)
  have hx0 : (0 : ℚ) ≤ i / a.scaleF := by have := h.scaleF_pos; positivity
  have hrx0 := rne_nonneg hx0
  have hlow := abs_le.1 hl
  have hhigh := abs_le.1 hh
  generalize (i : ℚ) / a.numbins * (a.high - a.low) = t at *
  generalize rne ((i : ℚ) / a.scaleF) = X at *
  generalize (i : ℚ) / a.scaleF = x at *
  have heM : 0 < eps * M := by positivity
  have hsm : eps * M ≤ 1 / 1000000 * M := mul_le_mul_of_nonneg_right hes hM.le
  have hetM : 3 * eps * t ≤ 6 * (eps * M) := by
    have := mul_le_mul_of_nonneg_left (htd.trans hd2) (by linarith : (0:ℚ) ≤ 3 * eps)
    linarith
  rw [abs_le] at hxt hr1
  have hex : eps * x ≤ 9 / 4 * (eps * M) := by
    have : x ≤ 9 / 4 * M := by linarith [hxt.2]
    have := mul_le_mul_of_nonneg_left this he.le
    linarith
  have hsumu : |X + a.low| ≤ 3 / 2 * M := by
    rw [abs_le]
    constructor
    · linarith [hlow.1]
    · linarith [hr1.2, hxt.2, hhigh.2]
  have h3 : eps * |X + a.low| ≤ 3 / 2 * (eps * M) := by
    have := mul_le_mul_of_nonneg_left hsumu he.le
    linarith
  rw [abs_le] at hr2 ⊢
  constructor <;> linarith [hr1.1, hr1.2, hr2.1, hr2.2, hxt.1, hxt.2]

/-- The number of the edge that a selection near to an edge finds. -/
theorem BinAxis.Ordinary.edgenumF_eq {a : BinAxis} (h : a.Ordinary) {v M : ℚ} (hv : IsF64 v) (hl : |a.low| ≤ M) (hh : |a.high| ≤ M)
    (hvM : |v| ≤ M) (i : ℕ) (hi : i ≤ a.numbins) (g : ℚ) (hg : |v - a.i2xF i| ≤ g)
    (hnarrow : g + 23 * eps * M < (a.high - a.low) / a.numbins / 2) : a.edgenumF v = i := by
  have hd : 0 < a.high - a.low := by linarith [h.order]
  have hN : (1 : ℚ) ≤ a.numbins := by exact_mod_cast h.bins
  have hw0 : 0 < (a.high - a.low) / a.numbins := by positivity
  have hs := h.position_err hv hl hh hvM i
  have hee := h.i2xF_err M hl hh hi
  rw [BinAxis.edgenumF_eq]
  refine pyRound_near _ _ ?_
  rw [Int.cast_natCast]
  set w := (a.high - a.low) / a.numbins with hw
  have hb : |(a.scaledF v - i) * w| ≤ g + 23 * eps * M := by
    rw [abs_le] at hs hee hg ⊢
    constructor <;> linarith [hs.1, hs.2, hee.1, hee.2, hg.1, hg.2]
  rw [abs_mul, abs_of_pos hw0] at hb
  have : |a.scaledF v - i| * w < 1 / 2 * w := by linarith
  exact lt_of_mul_lt_mul_right this hw0.le

end Verif
