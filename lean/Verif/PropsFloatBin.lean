import Verif.FloatBin

/-!
# C104: counting in bins with the machine's arithmetic
-/

namespace Verif

/-- The axis `bin("x", n, low, high)` whose limits are the doubles nearest to two decimal numbers. -/
def decimalBin (n : ℕ) (low high : ℚ) : BinAxis := ⟨n, rne low, rne high, true, true, true, true⟩

/-- The rounding is that of IEEE 754: the result is a double, no double is nearer, and a number
that is a double stays as it is. -/
theorem C104_rounding (q : ℚ) :
    IsF64 (rne q) ∧ (∀ f, IsF64 f → |rne q - q| ≤ |f - q|) ∧ (IsF64 q → rne q = q) :=
  ⟨rne_isF64 q, rne_nearest q, rne_fix⟩

example : rne (1 / 10) = 3602879701896397 / 2 ^ 55 := by decide +kernel

/-- In double precision, a number that is further from all published edges than `2^-48` of the
largest number involved is counted in the one bin whose published interval contains it (or in no
bin, if none does). -/
theorem C104_right_partial (a : BinAxis) (h : a.Ordinary) (v M : ℚ) (hv : IsF64 v)
    (hM : |a.low| ≤ M ∧ |a.high| ≤ M ∧ |v| ≤ M)
    (h30 : (v - a.low) * a.numbins ≤ 2 ^ 30 * (a.high - a.low))
    (hfar : ∀ i ≤ a.numbins, M / 2 ^ 48 < |v - a.i2xF i|) :
    ∃ r, a.indexF (.fin v) = .ok r ∧ IndexCorrect a.keysF (.fin v) r := by
  obtain ⟨hl, hh, hvM⟩ := hM
  have he := eps_pos
  have hes := eps_small
  have hd : 0 < a.high - a.low := by linarith [h.order]
  have hN : (1 : ℚ) ≤ a.numbins := by exact_mod_cast h.bins
  have hM0 : 0 ≤ M := (abs_nonneg _).trans hl
  have hMp : 0 < M := by
    rcases lt_or_eq_of_le hM0 with h' | h'
    · exact h'
    · rw [← h'] at hl hh
      have h1 := abs_nonpos_iff.1 hl
      have h2 := abs_nonpos_iff.1 hh
      have := h.order
      rw [h1, h2] at this
      exact absurd this (lt_irrefl _)
  have hsc : a.scaled v ≤ 2 ^ 30 := by
    unfold BinAxis.scaled
    rw [mul_div_assoc', div_le_iff₀ hd]; exact h30
  have h48 : M / 2 ^ 48 = 32 * eps * M := by
    unfold eps
    rw [zpow_neg]; norm_num; ring
  rw [h48] at hfar
  refine ⟨_, BinAxis.indexF_fin h hv hsc, ?_⟩
  -- the rounded position is on the same side of every edge number
  have herr := h.scaledF_err hv
  have hwid : |a.scaledF v - a.scaled v| * ((a.high - a.low) / a.numbins) ≤ 11 * eps * M := by
    have hw0 : 0 < (a.high - a.low) / a.numbins := by positivity
    have h1 := mul_le_mul_of_nonneg_right herr hw0.le
    refine h1.trans ?_
    have e1 : |a.scaled v| * ((a.high - a.low) / a.numbins) = |v - a.low| := by
      unfold BinAxis.scaled
      rw [abs_mul, abs_of_pos (by positivity : (0:ℚ) < (a.numbins : ℚ) / (a.high - a.low))]
      field_simp
    have e2 : (5 * eps * |a.scaled v| + eta) * ((a.high - a.low) / a.numbins) =
        5 * eps * |v - a.low| + eta * ((a.high - a.low) / a.numbins) := by
      rw [← e1]; ring
    rw [e2]
    have h2 : |v - a.low| ≤ 2 * M := (abs_sub _ _).trans (by linarith)
    have h3 : (a.high - a.low) / a.numbins ≤ 2 * M := by
      rw [div_le_iff₀ (by linarith)]
      have := (abs_le.1 hl).1
      have := (abs_le.1 hh).2
      nlinarith
    have h4 : 5 * eps * |v - a.low| ≤ 5 * eps * (2 * M) := mul_le_mul_of_nonneg_left h2 (by linarith)
    have h5 : eta * ((a.high - a.low) / a.numbins) ≤ (eps / 1000) * (2 * M) :=
      mul_le_mul eta_le_eps h3 hw0.le (by linarith)
    have : 0 ≤ eps * M := by positivity
    linarith
  have side : ∀ i ≤ a.numbins,
      (a.i2xF i < v → (i : ℚ) < a.scaledF v) ∧ (v < a.i2xF i → a.scaledF v < i) := by
    intro i hi
    have hf := hfar i hi
    have hee := h.i2xF_err M hl hh hi
    have hw0 : 0 < (a.high - a.low) / a.numbins := by positivity
    have ht : (a.scaled v - i) * ((a.high - a.low) / a.numbins) = v - a.i2x i := by
      unfold BinAxis.scaled BinAxis.i2x
      field_simp; ring
    have hs : |(a.scaledF v - i) * ((a.high - a.low) / a.numbins) - (v - a.i2x i)| ≤ 11 * eps * M := by
      rw [← ht, ← sub_mul, abs_mul, abs_of_pos hw0]
      have : a.scaledF v - i - (a.scaled v - i) = a.scaledF v - a.scaled v := by ring
      rw [this]; exact hwid
    rw [abs_le] at hs hee
    have hp : 0 < eps * M := by positivity
    constructor
    · intro hlt
      rw [abs_of_pos (by linarith)] at hf
      have : 0 < (a.scaledF v - i) * ((a.high - a.low) / a.numbins) := by linarith [hs.1, hee.2]
      have := pos_of_mul_pos_left this hw0.le
      linarith
    · intro hlt
      rw [abs_of_neg (by linarith)] at hf
      have : (a.scaledF v - i) * ((a.high - a.low) / a.numbins) < 0 := by linarith [hs.2, hee.1]
      have := neg_of_mul_neg_left this hw0.le
      linarith
  have hab : ∀ i, i ≤ a.numbins → (i < (min (a.cellF v + 1) (a.numbins + 1)).toNat ↔ above a.closedlow (a.i2xF i) (.fin v) = true) := by
    intro i hi
    have hp : 0 < eps * M := by positivity
    have hne : v ≠ a.i2xF i := by
      intro hc
      have := hfar i hi
      rw [← hc, sub_self, abs_zero] at this
      linarith
    obtain ⟨s1, s2⟩ := side i hi
    unfold above BinAxis.cellF
    cases a.closedlow
    · simp only [Num.lt, Bool.false_eq_true, if_false, decide_eq_true_eq]
      have : ((i : ℤ) : ℚ) < a.scaledF v ↔ (i : ℤ) < ⌈a.scaledF v⌉ := Int.lt_ceil.symm
      rw [Int.cast_natCast] at this
      constructor
      · intro hlt
        have h1 : (i : ℚ) < a.scaledF v := this.2 (by omega)
        by_contra hc
        have := s2 (lt_of_le_of_ne (not_lt.1 hc) hne)
        linarith
      · intro hlt
        have := this.1 (s1 hlt)
        omega
    · simp only [Num.le, if_true, decide_eq_true_eq]
      have : ((i : ℤ) : ℚ) ≤ a.scaledF v ↔ (i : ℤ) ≤ ⌊a.scaledF v⌋ := Int.le_floor.symm
      rw [Int.cast_natCast] at this
      constructor
      · intro hlt
        have h1 : (i : ℚ) ≤ a.scaledF v := this.2 (by omega)
        by_contra hc
        have := s2 (not_le.1 hc)
        linarith
      · intro hlt
        have := this.1 (s1 (lt_of_le_of_ne hlt (Ne.symm hne))).le
        omega
  have hfin := finish_correct a.i2xF a.numbins a.underflow a.overflow a.nanflow a.closedlow (.fin v) (by simp)
    _ (by omega) hab
  -- the overflow label begins at `high`, which is on the same side of the value as the last edge
  refine indexCorrect_congr a.keysF_length.symm ?_ hfin
  intro i k' k hk' hk
  rcases BinAxis.keysF_get h i k hk k' hk' with rfl | ⟨rfl, rfl⟩
  · exact Iff.rfl
  · have hee := h.i2xF_err M hl hh (le_refl a.numbins)
    rw [a.i2x_numbins h.bins, abs_le] at hee
    have hf := hfar a.numbins le_rfl
    have hp : 0 < eps * M := by positivity
    have : (a.i2xF a.numbins < v ↔ a.high < v) ∧ (a.i2xF a.numbins ≤ v ↔ a.high ≤ v) := by
      rcases lt_or_ge (a.i2xF a.numbins) v with hlt | hge
      · rw [abs_of_pos (by linarith)] at hf
        have h1 : a.high < v := by linarith [hee.1]
        exact ⟨⟨fun _ => h1, fun _ => hlt⟩, ⟨fun _ => h1.le, fun _ => hlt.le⟩⟩
      · have hlt : v < a.i2xF a.numbins := by
          rcases lt_or_eq_of_le hge with h' | h'
          · exact h'
          · rw [h', sub_self, abs_zero] at hf; linarith
        rw [abs_of_neg (by linarith)] at hf
        have h1 : v < a.high := by linarith [hee.2]
        exact ⟨⟨fun h' => absurd h' (not_lt.2 hge), fun h' => absurd h' (not_lt.2 h1.le)⟩,
          ⟨fun h' => absurd h' (not_le.2 hlt), fun h' => absurd h' (not_le.2 h1)⟩⟩
    simp only [BinLabel.mem, Num.le, Num.lt]
    cases a.closedlow
    · simp [this.1]
    · simp [this.2]

/-- The axis of the examples below is ordinary. -/
theorem tenth_ordinary : (decimalBin 10 (1 / 10) (9 / 10)).Ordinary where
  bins := by decide
  few := by decide
  low := rne_isF64 _
  high := rne_isF64 _
  order := by decide +kernel
  apart := by rw [← pow2_eq]; decide +kernel
  lowSmall := by rw [← pow2_eq]; decide +kernel
  highSmall := by rw [← pow2_eq]; decide +kernel

example : ∃ r, (decimalBin 10 (1 / 10) (9 / 10)).indexF (.fin (1 / 2 + 1 / 64)) = .ok r ∧
    IndexCorrect (decimalBin 10 (1 / 10) (9 / 10)).keysF (.fin (1 / 2 + 1 / 64)) r :=
  C104_right_partial _ tenth_ordinary (1 / 2 + 1 / 64) 1 ⟨33, -6, by decide, by decide, by norm_num⟩
    (by decide +kernel) (by decide +kernel) (by decide +kernel)

/-- In double precision, of two numbers the greater is never counted in an earlier bin. -/
theorem C104_order (a : BinAxis) (h : a.Ordinary) (v w : ℚ) (hv : IsF64 v) (hw : IsF64 w) (hvw : v ≤ w)
    (h30 : (w - a.low) * a.numbins ≤ 2 ^ 30 * (a.high - a.low)) (i j : ℤ)
    (hi : a.indexF (.fin v) = .ok (some i)) (hj : a.indexF (.fin w) = .ok (some j)) : i ≤ j := by
  have hd : 0 < a.high - a.low := by linarith [h.order]
  have hsw : a.scaled w ≤ 2 ^ 30 := by
    unfold BinAxis.scaled
    rw [mul_div_assoc', div_le_iff₀ hd]; exact h30
  have hsv : a.scaled v ≤ 2 ^ 30 := by
    refine le_trans ?_ hsw
    unfold BinAxis.scaled
    exact mul_le_mul_of_nonneg_right (by linarith) (by positivity)
  rw [BinAxis.indexF_fin h hv hsv] at hi
  rw [BinAxis.indexF_fin h hw hsw] at hj
  have hc := BinAxis.cellF_mono h hvw
  exact finish_mono (by omega) (by omega) (Except.ok.inj hi) (Except.ok.inj hj)

example : (decimalBin 10 (1 / 10) (9 / 10)).indexF (.fin (rne (3 / 10))) = .ok (some 3) ∧
    (decimalBin 10 (1 / 10) (9 / 10)).indexF (.fin (5 / 8)) = .ok (some 7) := by decide +kernel

/-- In double precision, the low edge itself is counted in the first bin (with `closedlow`), and
with `closedlow=False` it is below the first bin. -/
theorem C104_low (a : BinAxis) (h : a.Ordinary) :
    a.indexF (.fin a.low) = .ok (if a.closedlow || a.underflow then some (b2i (a.closedlow && a.underflow)) else none) := by
  have hs : a.scaled a.low = 0 := by unfold BinAxis.scaled; simp
  have hsf : a.scaledF a.low = 0 := by
    unfold BinAxis.scaledF
    rw [rne_fix h.low, sub_self, rne_zero, zero_mul, rne_zero]
  rw [BinAxis.indexF_fin h h.low (by rw [hs]; norm_num)]
  unfold BinAxis.cellF
  rw [hsf]
  have hb := h.bins
  unfold finish
  cases a.closedlow <;> cases a.underflow <;> simp [b2i]
  all_goals omega

example : (decimalBin 10 (1 / 10) (9 / 10)).indexF (.fin (rne (1 / 10))) = .ok (some 1) := by decide +kernel

/-- In double precision, a number below `low` is not counted in a bin, but for numbers so close
to `low` that their distance, in units of the bin width, is below `2^-1074`. -/
theorem C104_below_partial (a : BinAxis) (h : a.Ordinary) (v : ℚ) (hv : IsF64 v) (hlow : v < a.low)
    (hdist : (a.high - a.low) * 2 ^ (-1074 : ℤ) ≤ (a.low - v) * a.numbins) :
    a.indexF (.fin v) = .ok (if a.underflow then some 0 else none) := by
  have hd : 0 < a.high - a.low := by linarith [h.order]
  have hN : (1 : ℚ) ≤ a.numbins := by exact_mod_cast h.bins
  have hneg : a.scaled v ≤ -2 ^ (-1074 : ℤ) := by
    unfold BinAxis.scaled
    rw [mul_div_assoc', div_le_iff₀ hd]
    generalize (2 : ℚ) ^ (-1074 : ℤ) = g at *
    linarith
  have h74 : (2 : ℚ) ^ (-1074 : ℤ) = 2 * eta := by
    unfold eta
    rw [show (-1074 : ℤ) = 1 + -1075 by norm_num, two_zpow_add]; norm_num
  have het := eta_pos
  have hes := eps_small
  have he := eps_pos
  rw [h74] at hneg
  have herr := h.scaledF_err hv
  rw [abs_of_neg (by linarith : a.scaled v < 0), abs_le] at herr
  have hsf : a.scaledF v < 0 := by
    have : 5 * eps * -a.scaled v ≤ (1 / 4) * -a.scaled v := mul_le_mul_of_nonneg_right (by linarith) (by linarith)
    linarith [herr.2]
  rw [BinAxis.indexF_fin h hv (by linarith)]
  have hc : a.cellF v + 1 ≤ 0 := by
    unfold BinAxis.cellF
    split
    · have := Int.floor_lt.2 (by simpa using hsf : a.scaledF v < ((0 : ℤ) : ℚ))
      omega
    · have := Int.ceil_le.2 (by simpa using hsf.le : a.scaledF v ≤ ((0 : ℤ) : ℚ))
      omega
  have : (min (a.cellF v + 1) (a.numbins + 1 : ℤ)).toNat = 0 := by omega
  rw [this]
  simp [finish]

example : (decimalBin 10 (1 / 10) (9 / 10)).indexF (.fin (rne (99999999999 / 1000000000000))) = .ok (some 0) := by decide +kernel

/-- In double precision, the published edges begin with `low` and never decrease. -/
theorem C104_edges (a : BinAxis) (h : a.Ordinary) :
    a.i2xF 0 = a.low ∧ ∀ i j, i ≤ j → a.i2xF i ≤ a.i2xF j :=
  ⟨BinAxis.i2xF_zero h, fun _ _ hij => BinAxis.i2xF_mono h hij⟩

example : (decimalBin 10 (1 / 10) (9 / 10)).i2xF 0 = rne (1 / 10) ∧
    (decimalBin 10 (1 / 10) (9 / 10)).i2xF 3 ≤ (decimalBin 10 (1 / 10) (9 / 10)).i2xF 4 :=
  ⟨(C104_edges _ tenth_ordinary).1, (C104_edges _ tenth_ordinary).2 3 4 (by decide)⟩

/-- In double precision, infinite numbers and NaN are treated as in exact arithmetic. -/
theorem C104_special (a : BinAxis) (h : a.Ordinary) (v : Num) (hv : ∀ q, v ≠ .fin q) : a.indexF v = a.index v := by
  have hd : ¬ a.high - a.low = 0 := by linarith [h.order]
  have hw := h.width_pos.ne'
  have hs := h.scaleF_pos
  unfold BinAxis.scaleF at hs
  have hN : (1 : ℚ) ≤ a.numbins := by exact_mod_cast h.bins
  have hdp : 0 < a.high - a.low := by linarith [h.order]
  have hc : 0 < (a.numbins : ℚ) / (a.high - a.low) := by positivity
  unfold BinAxis.indexF BinAxis.index BinAxis.positionF BinAxis.position
  cases v with
  | fin q => exact absurd rfl (hv q)
  | nan => simp only [hd, hw, if_false, Num.subFin, Num.rnd, Num.mulFin, Num.floor, Num.ceil, Num.addFin]
  | pinf => simp only [hd, hw, if_false, Num.subFin, Num.rnd, Num.mulFin, hs, hc, if_true, Num.floor, Num.ceil, Num.addFin]
  | ninf => simp only [hd, hw, if_false, Num.subFin, Num.rnd, Num.mulFin, hs, hc, if_true, Num.floor, Num.ceil, Num.addFin]

example : (decimalBin 10 (1 / 10) (9 / 10)).indexF .nan = .ok (some 12) := by decide +kernel

/-- In double precision, an axis whose limits are the same double raises ZeroDivisionError for every value, as
in exact arithmetic. -/
theorem C104_no_width (a : BinAxis) (h : a.low = a.high) (v : Num) :
    a.indexF v = .error .zeroDivision ∧ a.index v = .error .zeroDivision := by
  have h0 : a.high - a.low = 0 := by rw [h]; ring
  constructor
  · unfold BinAxis.indexF BinAxis.positionF
    simp [h0, rne_zero]
  · unfold BinAxis.index BinAxis.position
    simp [h0]

example : (decimalBin 10 (1 / 10) (1 / 10)).indexF .nan = .error .zeroDivision :=
  (C104_no_width _ rfl _).1

/-- At an edge, counting can go wrong: on `bin("x", 100, 0, 1)` the value 0.29 is the published low
edge of a bin (edges are closed below), and is counted in the bin before it. -/
theorem C104_edge_refuted :
    (decimalBin 100 0 1).i2xF 29 = rne (29 / 100) ∧
      (decimalBin 100 0 1).indexF (.fin (rne (29 / 100))) = .ok (some 29) ∧
      ¬ IndexCorrect (decimalBin 100 0 1).keysF (.fin (rne (29 / 100))) (some 29) ∧
      IndexCorrect (decimalBin 100 0 1).keysF (.fin (rne (29 / 100))) (some 30) := by
  refine ⟨by decide +kernel, by decide +kernel, ?_, ?_⟩
  · rintro ⟨_, ⟨k, hk, hm⟩, _⟩
    have h0 : (decimalBin 100 0 1).keysF[(29 : ℤ).toNat]? =
        some (.iv (.fin ((decimalBin 100 0 1).i2xF 28)) (.fin ((decimalBin 100 0 1).i2xF 29)) true false) := by decide +kernel
    rw [h0] at hk
    rw [← Option.some.inj hk] at hm
    revert hm
    decide +kernel
  · refine ⟨by decide, ⟨.iv (.fin ((decimalBin 100 0 1).i2xF 29)) (.fin ((decimalBin 100 0 1).i2xF 30)) true false,
      by decide +kernel, by decide +kernel⟩, ?_⟩
    intro j k hk hm
    have hj : j < 103 := by
      have := (List.getElem?_eq_some_iff.1 hk).1
      have hl : (decimalBin 100 0 1).keysF.length = 103 := by decide +kernel
      omega
    have all : ∀ j < 103, ∀ k ∈ (decimalBin 100 0 1).keysF[j]?, k.mem (.fin (rne (29 / 100))) → j = 30 := by decide +kernel
    have := all j hj k hk hm
    rw [this]; rfl

/-- The high edge itself should be in the overflow bin; on `bin("x", 1, 0, 49)` the value 49 is
counted in the bin from 0 to 49. -/
theorem C104_high_refuted :
    (decimalBin 1 0 49).keysF = [.iv .ninf (.fin 0) true false, .iv (.fin 0) (.fin 49) true false,
        .iv (.fin 49) .pinf true true, .nan] ∧
      (decimalBin 1 0 49).indexF (.fin 49) = .ok (some 1) := by decide +kernel

/-- The published bins need not meet: on `bin("x", 6, 0.3, 0.9)` the value 0.9 is in the last bin and
in the overflow bin, and on `bin("x", 7, 0.2, 0.9)` there is a number in neither. -/
theorem C104_gap_refuted :
    (∃ k ∈ (decimalBin 6 (3 / 10) (9 / 10)).keysF[6]?, k.mem (.fin (rne (9 / 10)))) ∧
      (∃ k ∈ (decimalBin 6 (3 / 10) (9 / 10)).keysF[7]?, k.mem (.fin (rne (9 / 10)))) ∧
      ∃ v : ℚ, ∀ k ∈ (decimalBin 7 (2 / 10) (9 / 10)).keysF, ¬ k.mem (.fin v) :=
  ⟨by decide +kernel, by decide +kernel, (decimalBin 7 (2 / 10) (9 / 10)).i2xF 7, by decide +kernel⟩

/-- Below `low`, a product can vanish: on `bin("x", 1, 0, 1e300)` the value -1e-300 is counted in the
bin from 0 to 1e300. -/
theorem C104_below_refuted :
    rne (-1 / 10 ^ 300) < 0 ∧ (decimalBin 1 0 (10 ^ 300)).indexF (.fin (rne (-1 / 10 ^ 300))) = .ok (some 1) := by decide +kernel

end Verif
