import Verif.Float64
import Verif.AxisLemmas

/-!
# Counting in bins with the machine's arithmetic

The `bin` axis once more, with every operation rounded to double precision.
Simplification: numbers of 2^1024 and more do not become infinite, the sign of zero is not
kept.  `low`, `high` and the values are given as the numbers that they are; `float(...)` rounds.
-/

namespace Verif

/-- Rounding of a number that may be infinite or NaN. -/
def Num.rnd : Num → Num
  | .fin q => .fin (rne q)
  | x => x

/-- calc/__init__.py:215-223: the discretised position in double precision, before the cast to
int32.  `none` is the `ZeroDivisionError` of `float(numbins) / float(high - low)`.  Adding a shift
of 0, which the code skips, changes nothing. -/
def BinAxis.positionF (a : BinAxis) (v : Num) : Option Num :=
  let width := rne (a.high - a.low)
  if width = 0 then none
  else
    let x := ((v.subFin (rne a.low)).rnd.mulFin (rne (rne (a.numbins : ℚ) / width))).rnd
    some (if a.closedlow then (x.floor.addFin (b2i a.underflow)).rnd
          else (x.ceil.addFin (b2i a.underflow - 1)).rnd)

/-- calc/__init__.py:214-239 `histbook_bin(...).bin` for one double. -/
def BinAxis.indexF (a : BinAxis) (v : Num) : Except Err (Option ℤ) :=
  match a.positionF v with
  | none => .error .zeroDivision
  | some x => .ok (a.clamp x)

/-- axis.py:770-772 the local function `i2x` of `bin.keys`, in double precision. -/
def BinAxis.i2xF (a : BinAxis) (i : ℕ) : ℚ :=
  rne (rne (rne (rne (i : ℚ) / rne (a.numbins : ℚ)) * rne (a.high - a.low)) + rne a.low)

/-- axis.py:768-776 `bin.keys`, in double precision. -/
def BinAxis.keysF (a : BinAxis) : List BinLabel :=
  (if a.underflow then [.iv .ninf (.fin (rne a.low)) true (!a.closedlow)] else []) ++
  (List.range a.numbins).map
    (fun i => .iv (.fin (a.i2xF i)) (.fin (a.i2xF (i + 1))) a.closedlow (!a.closedlow)) ++
  (if a.overflow then [.iv (.fin (rne a.high)) .pinf a.closedlow true] else []) ++
  (if a.nanflow then [.nan] else [])

/-- An axis whose limits are doubles, not so large or so close that the arithmetic leaves the
range of doubles, and with at most 2^30 bins. -/
structure BinAxis.Ordinary (a : BinAxis) : Prop where
  bins : 0 < a.numbins
  few : a.numbins ≤ 2 ^ 30
  low : IsF64 a.low
  high : IsF64 a.high
  order : a.low < a.high
  apart : (2 : ℚ) ^ (-900 : ℤ) ≤ a.high - a.low
  lowSmall : |a.low| ≤ 2 ^ (900 : ℤ)
  highSmall : |a.high| ≤ 2 ^ (900 : ℤ)

/-! ## Errors -/

/-- One half of the distance between 1 and the next double. -/
def eps : ℚ := 2 ^ (-53 : ℤ)

/-- Half of the smallest positive double. -/
def eta : ℚ := 2 ^ (-1075 : ℤ)

theorem eps_pos : 0 < eps := two_zpow_pos _
theorem eta_pos : 0 < eta := two_zpow_pos _

theorem eps_small : eps ≤ 1 / 1000000 := by
  unfold eps
  rw [zpow_neg]
  norm_num

theorem eta_le_eps : eta ≤ eps / 1000 := by
  have h : eta ≤ (2 : ℚ) ^ (-63 : ℤ) := two_zpow_le (by norm_num)
  have h2 : (2 : ℚ) ^ (-63 : ℤ) = 2 ^ (-53 : ℤ) * 2 ^ (-10 : ℤ) := by rw [← two_zpow_add]; norm_num
  have h3 : (2 : ℚ) ^ (-10 : ℤ) ≤ 1 / 1000 := by norm_num
  have := mul_le_mul_of_nonneg_left h3 (two_zpow_pos (-53)).le
  unfold eps
  calc eta ≤ _ := h
    _ = _ := h2
    _ ≤ _ := this
    _ = _ := by ring

/-- The factor that positions are multiplied with. -/
def BinAxis.scaleF (a : BinAxis) : ℚ := rne (rne (a.numbins : ℚ) / rne (a.high - a.low))

/-- The position of a finite value, before it is made an integer. -/
def BinAxis.scaledF (a : BinAxis) (q : ℚ) : ℚ := rne (rne (q - rne a.low) * a.scaleF)

/-- The integer position. -/
def BinAxis.cellF (a : BinAxis) (q : ℚ) : ℤ :=
  if a.closedlow then ⌊a.scaledF q⌋ else ⌈a.scaledF q⌉ - 1

theorem BinAxis.Ordinary.width {a : BinAxis} (h : a.Ordinary) :
    |rne (a.high - a.low) - (a.high - a.low)| ≤ eps * (a.high - a.low) := by
  have := rne_err_sub h.high h.low
  rwa [abs_of_pos (by linarith [h.order] : (0:ℚ) < a.high - a.low)] at this

theorem BinAxis.Ordinary.numbins_rne {a : BinAxis} (h : a.Ordinary) : rne (a.numbins : ℚ) = a.numbins :=
  rne_fix (isF64_nat _ (h.few.trans (by norm_num)))

theorem BinAxis.Ordinary.nat_rne {a : BinAxis} (h : a.Ordinary) {i : ℕ} (hi : i ≤ a.numbins) : rne (i : ℚ) = i :=
  rne_fix (isF64_nat _ ((hi.trans h.few).trans (by norm_num)))

theorem BinAxis.Ordinary.width_pos {a : BinAxis} (h : a.Ordinary) : 0 < rne (a.high - a.low) :=
  rne_sub_pos h.low h.high h.order

theorem BinAxis.Ordinary.width_le {a : BinAxis} (h : a.Ordinary) : a.high - a.low ≤ 2 ^ (901 : ℤ) := by
  have h1 := (abs_le.1 h.lowSmall).1
  have h2 := (abs_le.1 h.highSmall).2
  have : (2 : ℚ) ^ (901 : ℤ) = 2 ^ (900 : ℤ) * 2 := by
    rw [show (901 : ℤ) = 900 + 1 by norm_num, two_zpow_add]; norm_num
  rw [this]
  generalize (2 : ℚ) ^ (900 : ℤ) = g at *
  linarith

/-- The factor is right up to two roundings. -/
theorem BinAxis.Ordinary.scaleF {a : BinAxis} (h : a.Ordinary) :
    (1 - eps) * ((a.numbins : ℚ) / (a.high - a.low)) ≤ (1 + eps) * a.scaleF ∧
      (1 - eps) * a.scaleF ≤ (1 + eps) * ((a.numbins : ℚ) / (a.high - a.low)) := by
  have hw := h.width
  have hwp := h.width_pos
  have hd : 0 < a.high - a.low := by linarith [h.order]
  have hN : (1 : ℚ) ≤ a.numbins := by exact_mod_cast h.bins
  have he := eps_pos
  have hes := eps_small
  unfold BinAxis.scaleF
  rw [h.numbins_rne]
  set d := a.high - a.low with hdd
  set D := rne d with hD
  have hDle : D ≤ 2 ^ (901 : ℤ) := by
    rw [hD]; exact rne_le (isF64_zpow _ (by norm_num)) h.width_le
  have hnorm : (2 : ℚ) ^ (-1022 : ℤ) ≤ |(a.numbins : ℚ) / D| := by
    rw [abs_of_pos (by positivity), le_div_iff₀ hwp]
    calc (2 : ℚ) ^ (-1022 : ℤ) * D ≤ 2 ^ (-1022 : ℤ) * 2 ^ (901 : ℤ) := mul_le_mul_of_nonneg_left hDle (two_zpow_pos _).le
      _ = 2 ^ (-121 : ℤ) := by rw [← two_zpow_add]; norm_num
      _ ≤ 1 := by
        have := two_zpow_le (a := -121) (b := 0) (by norm_num)
        simpa using this
      _ ≤ _ := hN
  have herr := rne_err_normal _ hnorm
  rw [abs_of_pos (by positivity : (0:ℚ) < (a.numbins : ℚ) / D)] at herr
  change _ ≤ eps * _ at herr
  rw [abs_le] at hw herr
  have hDl : (1 - eps) * d ≤ D := by linarith [hw.1]
  have hDu : D ≤ (1 + eps) * d := by linarith [hw.2]
  have hx : (a.numbins : ℚ) / d ≤ (1 + eps) * ((a.numbins : ℚ) / D) := by
    rw [div_le_iff₀ hd, mul_div_assoc', div_mul_eq_mul_div, le_div_iff₀ hwp]
    nlinarith
  have hy : (1 - eps) * ((a.numbins : ℚ) / D) ≤ (a.numbins : ℚ) / d := by
    rw [le_div_iff₀ hd, mul_div_assoc', div_mul_eq_mul_div, div_le_iff₀ hwp]
    nlinarith
  have hnD : 0 < (a.numbins : ℚ) / D := by positivity
  constructor
  · have : (1 - eps) * ((a.numbins : ℚ) / D) ≤ rne ((a.numbins : ℚ) / D) := by linarith [herr.1]
    calc (1 - eps) * ((a.numbins : ℚ) / d) ≤ (1 - eps) * ((1 + eps) * ((a.numbins : ℚ) / D)) :=
          mul_le_mul_of_nonneg_left hx (by linarith)
      _ = (1 + eps) * ((1 - eps) * ((a.numbins : ℚ) / D)) := by ring
      _ ≤ _ := mul_le_mul_of_nonneg_left this (by linarith)
  · have : rne ((a.numbins : ℚ) / D) ≤ (1 + eps) * ((a.numbins : ℚ) / D) := by linarith [herr.2]
    calc (1 - eps) * rne ((a.numbins : ℚ) / D) ≤ (1 - eps) * ((1 + eps) * ((a.numbins : ℚ) / D)) :=
          mul_le_mul_of_nonneg_left this (by linarith)
      _ = (1 + eps) * ((1 - eps) * ((a.numbins : ℚ) / D)) := by ring
      _ ≤ _ := mul_le_mul_of_nonneg_left hy (by linarith)

theorem BinAxis.Ordinary.scaleF_pos {a : BinAxis} (h : a.Ordinary) : 0 < a.scaleF := by
  have h1 := h.scaleF.1
  have hd : 0 < a.high - a.low := by linarith [h.order]
  have hN : (1 : ℚ) ≤ a.numbins := by exact_mod_cast h.bins
  have hes := eps_small
  have he := eps_pos
  have : 0 < (1 - eps) * ((a.numbins : ℚ) / (a.high - a.low)) := mul_pos (by linarith) (by positivity)
  by_contra hc
  rw [not_lt] at hc
  have := mul_nonpos_of_nonneg_of_nonpos (by linarith : (0:ℚ) ≤ 1 + eps) hc
  linarith

/-- Two roundings of a product of a non-negative number with a factor. -/
theorem product_err (x c S : ℚ) (hx : 0 ≤ x) (hc : 0 < c) (hS : 0 < S) (hr : |rne x - x| ≤ eps * x)
    (h1 : (1 - eps) * c ≤ (1 + eps) * S) (h2 : (1 - eps) * S ≤ (1 + eps) * c) :
    |rne (rne x * S) - x * c| ≤ 5 * eps * (x * c) + eta := by
  have he := eps_pos
  have hes := eps_small
  have hp := rne_err_add (rne x * S)
  change _ ≤ eps * _ + eta at hp
  have hrx : 0 ≤ rne x := rne_nonneg hx
  rw [abs_of_nonneg (mul_nonneg hrx hS.le)] at hp
  rw [abs_le] at hp hr ⊢
  set r := rne x with hrdef
  set p := rne (r * S)
  have hru : r ≤ (1 + eps) * x := by linarith [hr.2]
  have hrl : (1 - eps) * x ≤ r := by linarith [hr.1]
  have hxc : 0 ≤ x * c := by positivity
  -- products
  have u1 : (1 - eps) * (r * S) ≤ (1 + eps) ^ 2 * (x * c) := by
    calc (1 - eps) * (r * S) = r * ((1 - eps) * S) := by ring
      _ ≤ ((1 + eps) * x) * ((1 + eps) * c) := mul_le_mul hru h2 (mul_nonneg (by linarith) hS.le) (mul_nonneg (by linarith) hx)
      _ = _ := by ring
  have l1 : (1 - eps) ^ 2 * (x * c) ≤ (1 + eps) * (r * S) := by
    calc (1 - eps) ^ 2 * (x * c) = ((1 - eps) * x) * ((1 - eps) * c) := by ring
      _ ≤ r * ((1 + eps) * S) := mul_le_mul hrl h1 (mul_nonneg (by linarith) hc.le) hrx
      _ = _ := by ring
  constructor
  · have hpl : (1 - eps) * (r * S) ≤ p + eta := by linarith [hp.1]
    have h3 : (1 - eps) ^ 3 * (x * c) ≤ (1 + eps) * (p + eta) := by
      calc (1 - eps) ^ 3 * (x * c) = (1 - eps) * ((1 - eps) ^ 2 * (x * c)) := by ring
        _ ≤ (1 - eps) * ((1 + eps) * (r * S)) := mul_le_mul_of_nonneg_left l1 (by linarith)
        _ = (1 + eps) * ((1 - eps) * (r * S)) := by ring
        _ ≤ _ := mul_le_mul_of_nonneg_left hpl (by linarith)
    have h4 : (1 + eps) * ((1 - 5 * eps) * (x * c)) ≤ (1 - eps) ^ 3 * (x * c) := by
      rw [← mul_assoc]
      apply mul_le_mul_of_nonneg_right _ hxc
      nlinarith [sq_nonneg eps, pow_pos he 2]
    have h5 : (1 - 5 * eps) * (x * c) ≤ p + eta := le_of_mul_le_mul_left (h4.trans h3) (by linarith)
    linarith
  · have hpu : p ≤ (1 + eps) * (r * S) + eta := by linarith [hp.2]
    have h3 : (1 - eps) * (p - eta) ≤ (1 + eps) ^ 3 * (x * c) := by
      calc (1 - eps) * (p - eta) ≤ (1 - eps) * ((1 + eps) * (r * S)) := mul_le_mul_of_nonneg_left (by linarith) (by linarith)
        _ = (1 + eps) * ((1 - eps) * (r * S)) := by ring
        _ ≤ (1 + eps) * ((1 + eps) ^ 2 * (x * c)) := mul_le_mul_of_nonneg_left u1 (by linarith)
        _ = _ := by ring
    have h4 : (1 + eps) ^ 3 * (x * c) ≤ (1 - eps) * ((1 + 5 * eps) * (x * c)) := by
      rw [← mul_assoc (1 - eps)]
      apply mul_le_mul_of_nonneg_right _ hxc
      nlinarith [sq_nonneg eps, pow_pos he 2]
    have h5 : p - eta ≤ (1 + 5 * eps) * (x * c) := le_of_mul_le_mul_left (h3.trans h4) (by linarith)
    linarith

/-- The position is right up to five roundings. -/
theorem BinAxis.Ordinary.scaledF_err {a : BinAxis} (h : a.Ordinary) {q : ℚ} (hq : IsF64 q) :
    |a.scaledF q - a.scaled q| ≤ 5 * eps * |a.scaled q| + eta := by
  have hd : 0 < a.high - a.low := by linarith [h.order]
  have hN : (1 : ℚ) ≤ a.numbins := by exact_mod_cast h.bins
  have hc : 0 < (a.numbins : ℚ) / (a.high - a.low) := by positivity
  have hl : rne a.low = a.low := rne_fix h.low
  have hr := rne_err_sub hq h.low
  change _ ≤ eps * _ at hr
  unfold BinAxis.scaledF BinAxis.scaled
  rw [hl]
  rcases le_total 0 (q - a.low) with hx | hx
  · rw [abs_of_nonneg hx] at hr
    have := product_err (q - a.low) _ a.scaleF hx hc h.scaleF_pos hr h.scaleF.1 h.scaleF.2
    rwa [abs_of_nonneg (mul_nonneg hx hc.le)]
  · rw [abs_of_nonpos hx] at hr
    have hneg : rne (q - a.low) = - rne (-(q - a.low)) := by rw [rne_neg, neg_neg]
    have hr' : |rne (-(q - a.low)) - (-(q - a.low))| ≤ eps * (-(q - a.low)) := by
      rw [rne_neg, neg_sub_neg, abs_sub_comm]; exact hr
    have := product_err (-(q - a.low)) _ a.scaleF (by linarith) hc h.scaleF_pos hr' h.scaleF.1 h.scaleF.2
    rw [hneg, neg_mul, rne_neg, abs_of_nonpos (mul_nonpos_of_nonpos_of_nonneg hx hc.le)]
    have e : -rne (rne (-(q - a.low)) * a.scaleF) - (q - a.low) * ((a.numbins : ℚ) / (a.high - a.low)) =
        -(rne (rne (-(q - a.low)) * a.scaleF) - -(q - a.low) * ((a.numbins : ℚ) / (a.high - a.low))) := by ring
    rw [e, abs_neg]
    calc _ ≤ _ := this
      _ = _ := by ring

/-! ## Published edges -/

theorem BinAxis.i2xF_zero {a : BinAxis} (h : a.Ordinary) : a.i2xF 0 = a.low := by
  unfold BinAxis.i2xF
  have : rne ((0 : ℕ) : ℚ) = 0 := by simp [rne_zero]
  rw [this]
  simp [rne_zero, rne_fix h.low]

theorem BinAxis.i2xF_mono {a : BinAxis} (h : a.Ordinary) {i j : ℕ} (hij : i ≤ j) : a.i2xF i ≤ a.i2xF j := by
  unfold BinAxis.i2xF
  have hN : (0 : ℚ) < rne a.numbins := by
    rw [h.numbins_rne]; exact_mod_cast h.bins
  apply rne_mono
  apply add_le_add_left
  apply rne_mono
  apply mul_le_mul_of_nonneg_right _ h.width_pos.le
  apply rne_mono
  apply div_le_div_of_nonneg_right _ hN.le
  apply rne_mono
  exact_mod_cast hij

theorem BinAxis.Ordinary.i2xF_err {a : BinAxis} (h : a.Ordinary) (M : ℚ) (hl : |a.low| ≤ M) (hh : |a.high| ≤ M)
    {i : ℕ} (hi : i ≤ a.numbins) : |a.i2xF i - a.i2x i| ≤ 12 * eps * M := by
  have he := eps_pos
  have hes := eps_small
  have hM : 0 ≤ M := (abs_nonneg _).trans hl
  rcases Nat.eq_zero_or_pos i with rfl | hi0
  · rw [BinAxis.i2xF_zero h, BinAxis.i2x_zero, sub_self, abs_zero]
    positivity
  have hd : 0 < a.high - a.low := by linarith [h.order]
  have hN : (1 : ℚ) ≤ a.numbins := by exact_mod_cast h.bins
  have hI : (1 : ℚ) ≤ i := by exact_mod_cast hi0
  have hiN : (i : ℚ) ≤ a.numbins := by exact_mod_cast hi
  have hw := h.width
  have hwp := h.width_pos
  unfold BinAxis.i2xF BinAxis.i2x
  rw [h.numbins_rne, h.nat_rne hi, rne_fix h.low]
  have hf1 : (i : ℚ) / a.numbins ≤ 1 := by rw [div_le_one (by linarith)]; exact hiN
  have hf0 : (2 : ℚ) ^ (-30 : ℤ) ≤ (i : ℚ) / a.numbins := by
    rw [le_div_iff₀ (by linarith)]
    have : (a.numbins : ℚ) ≤ 2 ^ (30 : ℤ) := by exact_mod_cast h.few
    calc (2 : ℚ) ^ (-30 : ℤ) * a.numbins ≤ 2 ^ (-30 : ℤ) * 2 ^ (30 : ℤ) := mul_le_mul_of_nonneg_left this (two_zpow_pos _).le
      _ = 1 := by rw [← two_zpow_add]; norm_num
      _ ≤ i := hI
  set f := (i : ℚ) / a.numbins with hfdef
  set d := a.high - a.low with hdd
  set D := rne d with hD
  have hfp : 0 < f := lt_of_lt_of_le (two_zpow_pos _) hf0
  have hr1 := rne_err_normal f (by
    rw [abs_of_pos hfp]; exact (two_zpow_le (by norm_num)).trans hf0)
  change _ ≤ eps * _ at hr1
  rw [abs_of_pos hfp] at hr1
  set F := rne f with hF
  have hF0 : (2 : ℚ) ^ (-30 : ℤ) ≤ F := le_rne (isF64_zpow _ (by norm_num)) hf0
  have hFp : 0 < F := lt_of_lt_of_le (two_zpow_pos _) hF0
  have hD0 : (2 : ℚ) ^ (-900 : ℤ) ≤ D := le_rne (isF64_zpow _ (by norm_num)) h.apart
  have hr2 := rne_err_normal (F * D) (by
    rw [abs_of_pos (by positivity)]
    calc (2 : ℚ) ^ (-1022 : ℤ) ≤ 2 ^ (-30 + -900 : ℤ) := two_zpow_le (by norm_num)
      _ = 2 ^ (-30 : ℤ) * 2 ^ (-900 : ℤ) := two_zpow_add _ _
      _ ≤ F * D := mul_le_mul hF0 hD0 (two_zpow_pos _).le hFp.le)
  change _ ≤ eps * _ at hr2
  rw [abs_of_pos (mul_pos hFp hwp)] at hr2
  set G := rne (F * D) with hG
  have hr3 := rne_err_sum (rne_isF64 (F * D)) h.low
  rw [← hG] at hr3
  change _ ≤ eps * _ at hr3
  rw [abs_le] at hr1 hr2 hw
  -- the product
  have hFDu : F * D ≤ ((1 + eps) * f) * ((1 + eps) * d) :=
    mul_le_mul (by linarith [hr1.2]) (by linarith [hw.2]) hwp.le (mul_nonneg (by linarith) hfp.le)
  have hFDl : ((1 - eps) * f) * ((1 - eps) * d) ≤ F * D :=
    mul_le_mul (by linarith [hr1.1]) (by linarith [hw.1]) (mul_nonneg (by linarith) hd.le) hFp.le
  have hfd : 0 < f * d := mul_pos hfp hd
  have hGu : G ≤ (1 + 4 * eps) * (f * d) := by
    have h1 : G ≤ (1 + eps) * (F * D) := by linarith [hr2.2]
    have h2 := mul_le_mul_of_nonneg_left hFDu (by linarith : (0:ℚ) ≤ 1 + eps)
    have h3 : (1 + eps) * ((1 + eps) * f * ((1 + eps) * d)) = (1 + eps) ^ 3 * (f * d) := by ring
    have h4 : (1 + eps) ^ 3 * (f * d) ≤ (1 + 4 * eps) * (f * d) :=
      mul_le_mul_of_nonneg_right (by nlinarith [pow_pos he 2, pow_pos he 3]) hfd.le
    linarith
  have hGl : (1 - 4 * eps) * (f * d) ≤ G := by
    have h1 : (1 - eps) * (F * D) ≤ G := by linarith [hr2.1]
    have h2 := mul_le_mul_of_nonneg_left hFDl (by linarith : (0:ℚ) ≤ 1 - eps)
    have h3 : (1 - eps) * ((1 - eps) * f * ((1 - eps) * d)) = (1 - eps) ^ 3 * (f * d) := by ring
    have h4 : (1 - 4 * eps) * (f * d) ≤ (1 - eps) ^ 3 * (f * d) :=
      mul_le_mul_of_nonneg_right (by nlinarith [pow_pos he 2, pow_pos he 3]) hfd.le
    linarith
  have hfd1 : f * d ≤ d := by nlinarith
  have hd2 : d ≤ 2 * M := by
    have h1 := (abs_le.1 hl).1
    have h2 := (abs_le.1 hh).2
    rw [hdd]; linarith
  have hGa : |G - f * d| ≤ 8 * eps * M := by
    rw [abs_le]
    have : 4 * eps * (f * d) ≤ 4 * eps * (2 * M) := mul_le_mul_of_nonneg_left (by linarith) (by linarith)
    constructor <;> linarith
  have hsum : |G + a.low| ≤ 4 * M := by
    rw [abs_le] at hGa hl ⊢
    have : 8 * eps * M ≤ 1 * M := mul_le_mul_of_nonneg_right (by linarith) hM
    constructor <;> linarith
  have e : rne (G + a.low) - (f * d + a.low) = (rne (G + a.low) - (G + a.low)) + (G - f * d) := by ring
  rw [e]
  calc _ ≤ |rne (G + a.low) - (G + a.low)| + |G - f * d| := abs_add_le _ _
    _ ≤ eps * (4 * M) + 8 * eps * M := add_le_add (hr3.trans (mul_le_mul_of_nonneg_left hsum he.le)) hGa
    _ = _ := by ring

/-! ## From positions to bins -/

theorem toI32_low (q : ℚ) (h : q ≤ -2 ^ 53) : Num.toI32 (.fin q) = -2147483648 := by
  have h0 : ¬ 0 ≤ q := by norm_num at h; linarith
  simp only [Num.toI32, Num.truncQ, h0, if_false]
  have : ⌈q⌉ ≤ -2 ^ 53 := Int.ceil_le.2 (by push_cast; exact h)
  rw [if_neg]
  omega

theorem BinAxis.clamp_congr (a : BinAxis) (p q : ℚ) (h : Num.toI32 (.fin p) = Num.toI32 (.fin q)) :
    a.clamp (.fin p) = a.clamp (.fin q) := by
  unfold BinAxis.clamp
  rw [h]
  rfl

theorem BinAxis.clamp_rne (a : BinAxis) (z : ℤ) (h2 : z + b2i a.underflow ≤ 2147483647) :
    a.clamp (.fin (rne ((z + b2i a.underflow : ℤ) : ℚ))) =
      finish a.underflow a.overflow a.numbins (min (z + 1) (a.numbins + 1)).toNat := by
  rw [← a.clamp_fin z h2]
  by_cases h : |z + b2i a.underflow| ≤ 2 ^ 53
  · rw [rne_fix (isF64_int _ h)]
  · have h3 : z + b2i a.underflow ≤ -2 ^ 53 := by
      by_contra hc
      apply h
      rw [abs_le]
      constructor <;> omega
    have h4 : ((z + b2i a.underflow : ℤ) : ℚ) ≤ -2 ^ 53 := by exact_mod_cast h3
    apply a.clamp_congr
    rw [toI32_low _ h4, toI32_low]
    refine rne_le ?_ h4
    have := isF64_int (-2 ^ 53) (by norm_num)
    exact_mod_cast this

theorem BinAxis.positionF_fin {a : BinAxis} (h : a.Ordinary) (q : ℚ) :
    a.positionF (.fin q) = some (.fin (rne ((a.cellF q + b2i a.underflow : ℤ) : ℚ))) := by
  have hw := h.width_pos.ne'
  unfold BinAxis.positionF BinAxis.cellF BinAxis.scaledF BinAxis.scaleF
  simp only [hw, if_false, Num.subFin, Num.mulFin, Num.rnd]
  cases a.closedlow
  · simp only [Bool.false_eq_true, if_false, Num.ceil, Num.addFin, Num.rnd]
    congr 3; push_cast; ring
  · simp only [if_true, Num.floor, Num.addFin, Num.rnd]
    congr 3; push_cast; ring

theorem BinAxis.cellF_le {a : BinAxis} (h : a.Ordinary) {q : ℚ} (hq : IsF64 q) (h30 : a.scaled q ≤ 2 ^ 30) :
    a.cellF q + b2i a.underflow ≤ 2147483647 := by
  have herr := h.scaledF_err hq
  have hes := eps_small
  have he := eps_pos
  have het := eta_le_eps
  have hp : a.scaledF q ≤ 2 ^ 30 + 1000000 := by
    rcases le_total 0 (a.scaled q) with hs | hs
    · rw [abs_of_nonneg hs, abs_le] at herr
      have : 5 * eps * a.scaled q ≤ 5 * (1 / 1000000) * 2 ^ 30 :=
        mul_le_mul (by linarith) h30 hs (by norm_num)
      norm_num at *
      linarith [herr.2]
    · rw [abs_of_nonpos hs, abs_le] at herr
      have : 5 * eps * -a.scaled q ≤ 1 * -a.scaled q := mul_le_mul_of_nonneg_right (by linarith) (by linarith)
      norm_num at *
      linarith [herr.2]
  have hu : b2i a.underflow ≤ 1 := by cases a.underflow <;> simp [b2i]
  have hf : ⌊a.scaledF q⌋ ≤ 2 ^ 30 + 1000000 := by
    have := Int.floor_le_floor hp
    refine this.trans ?_
    norm_num [Int.floor_le_iff]
  have hc : ⌈a.scaledF q⌉ ≤ 2 ^ 30 + 1000000 := Int.ceil_le.2 (by push_cast; norm_num at hp ⊢; exact hp)
  unfold BinAxis.cellF
  split <;> omega

/-- The bin number that double precision gives to a finite number. -/
theorem BinAxis.indexF_fin {a : BinAxis} (h : a.Ordinary) {q : ℚ} (hq : IsF64 q) (h30 : a.scaled q ≤ 2 ^ 30) :
    a.indexF (.fin q) =
      .ok (finish a.underflow a.overflow a.numbins (min (a.cellF q + 1) (a.numbins + 1)).toNat) := by
  unfold BinAxis.indexF
  rw [BinAxis.positionF_fin h q]
  simp only
  rw [a.clamp_rne _ (BinAxis.cellF_le h hq h30)]

theorem BinAxis.scaledF_mono {a : BinAxis} (h : a.Ordinary) {q r : ℚ} (hqr : q ≤ r) : a.scaledF q ≤ a.scaledF r := by
  unfold BinAxis.scaledF
  apply rne_mono
  apply mul_le_mul_of_nonneg_right _ h.scaleF_pos.le
  apply rne_mono
  linarith

theorem BinAxis.cellF_mono {a : BinAxis} (h : a.Ordinary) {q r : ℚ} (hqr : q ≤ r) : a.cellF q ≤ a.cellF r := by
  have := BinAxis.scaledF_mono h hqr
  unfold BinAxis.cellF
  split
  · exact Int.floor_le_floor this
  · have := Int.ceil_le_ceil this
    omega

theorem finish_mono {u o : Bool} {n p p' : ℕ} (hp' : p' ≤ n + 1) (h : p ≤ p') {i j : ℤ} (hi : finish u o n p = some i)
    (hj : finish u o n p' = some j) : i ≤ j := by
  unfold finish at hi hj
  have hu : 0 ≤ b2i u := by cases u <;> simp [b2i]
  split_ifs at hi hj <;> simp_all <;> omega

/-- Being right depends only on which labels contain the value. -/
theorem indexCorrect_congr {k1 k2 : List BinLabel} {v : Num} (hlen : k1.length = k2.length)
    (h : ∀ (i : ℕ) (a b : BinLabel), k1[i]? = some a → k2[i]? = some b → (a.mem v ↔ b.mem v)) {r : Option ℤ} (hr : IndexCorrect k1 v r) :
    IndexCorrect k2 v r := by
  have get : ∀ {i : ℕ} {b : BinLabel}, k2[i]? = some b → ∃ a, k1[i]? = some a := by
    intro i b hb
    have : i < k1.length := by
      rw [hlen]; exact (List.getElem?_eq_some_iff.1 hb).1
    exact ⟨_, List.getElem?_eq_getElem this⟩
  have get' : ∀ {i : ℕ} {b : BinLabel}, k1[i]? = some b → ∃ a, k2[i]? = some a := by
    intro i b hb
    have : i < k2.length := by
      rw [← hlen]; exact (List.getElem?_eq_some_iff.1 hb).1
    exact ⟨_, List.getElem?_eq_getElem this⟩
  cases r with
  | none =>
    intro k hk
    obtain ⟨i, hi⟩ := List.getElem?_of_mem hk
    obtain ⟨a, ha⟩ := get hi
    rw [← h i a k ha hi]
    exact hr a (List.mem_of_getElem? ha)
  | some i =>
    obtain ⟨h0, ⟨k, hk, hm⟩, hu⟩ := hr
    obtain ⟨b, hb⟩ := get' hk
    refine ⟨h0, ⟨b, hb, (h _ _ _ hk hb).1 hm⟩, ?_⟩
    intro j b' hb' hm'
    obtain ⟨a', ha'⟩ := get hb'
    exact hu j a' ha' ((h _ _ _ ha' hb').2 hm')

/-- The published labels are those of the rounded edges, but for the overflow bin, which begins at
`high` itself. -/
theorem BinAxis.keysF_get {a : BinAxis} (h : a.Ordinary) (i : ℕ) (k : BinLabel) (hk : a.keysF[i]? = some k) (k' : BinLabel)
    (hk' : (flowKeys a.i2xF a.numbins a.underflow a.overflow a.nanflow a.closedlow)[i]? = some k') :
    k = k' ∨ (k = .iv (.fin a.high) .pinf a.closedlow true ∧ k' = .iv (.fin (a.i2xF a.numbins)) .pinf a.closedlow true) := by
  have hl : rne a.low = a.i2xF 0 := by rw [BinAxis.i2xF_zero h, rne_fix h.low]
  have hh : rne a.high = a.high := rne_fix h.high
  unfold BinAxis.keysF at hk
  unfold flowKeys at hk'
  rw [hl, hh] at hk
  generalize hA : (if a.underflow then [BinLabel.iv .ninf (.fin (a.i2xF 0)) true (!a.closedlow)] else []) ++
    (List.range a.numbins).map (fun i => BinLabel.iv (.fin (a.i2xF i)) (.fin (a.i2xF (i + 1))) a.closedlow (!a.closedlow)) = A at hk hk'
  by_cases hi : i < A.length
  · rw [List.append_assoc, List.getElem?_append_left hi] at hk hk'
    rw [hk] at hk'
    left; exact Option.some.inj hk'
  · rw [List.append_assoc, List.getElem?_append_right (by omega)] at hk hk'
    generalize i - A.length = j at hk hk'
    cases ho : a.overflow
    · simp only [ho, Bool.false_eq_true, if_false, List.nil_append] at hk hk'
      rw [hk] at hk'
      left; exact Option.some.inj hk'
    · simp only [ho, if_true] at hk hk'
      cases j with
      | zero =>
        simp at hk hk'
        right; exact ⟨hk.symm, hk'.symm⟩
      | succ j =>
        simp only [List.cons_append, List.getElem?_cons_succ] at hk hk'
        rw [hk] at hk'
        left; exact Option.some.inj hk'

theorem BinAxis.keysF_length (a : BinAxis) : a.keysF.length = (flowKeys a.i2xF a.numbins a.underflow a.overflow a.nanflow a.closedlow).length := by
  unfold BinAxis.keysF flowKeys
  cases a.underflow <;> cases a.overflow <;> cases a.nanflow <;> simp

end Verif
