import Verif.FloatGroup

/-!
# C105: grouping by intervals with the machine's arithmetic
-/

namespace Verif

/-- The axis `groupbin("x", width, origin)` whose numbers are the doubles nearest to two decimal numbers. -/
def decimalGroupbin (width origin : ℚ) : GroupbinAxis := ⟨rne width, rne origin, true, true⟩

/-- In double precision, of two numbers the greater never gets the smaller key. -/
theorem C105_order (a : GroupbinAxis) (h : a.Ordinary) (v w : ℚ) (hv : IsF64 v) (hw : IsF64 w) (hvw : v ≤ w) :
    ∃ k l : ℚ, a.keyF (.fin v) = some (.num k) ∧ a.keyF (.fin w) = some (.num l) ∧ k ≤ l := by
  refine ⟨_, _, GroupbinAxis.keyF_fin h hv, GroupbinAxis.keyF_fin h hw, ?_⟩
  apply rne_mono
  apply add_le_add_left
  apply rne_mono
  apply mul_le_mul_of_nonneg_right _ h.width_pos.le
  apply rne_mono
  exact_mod_cast GroupbinAxis.cellF_mono h hvw

/-- The axis of the examples below is ordinary. -/
theorem tenth_groupbin_ordinary : (decimalGroupbin (1 / 10) (1 / 20)).Ordinary where
  width := rne_isF64 _
  origin := rne_isF64 _
  wide := by rw [← pow2_eq]; decide +kernel
  narrow := by rw [← pow2_eq]; decide +kernel

example : ∃ k l : ℚ, (decimalGroupbin (1 / 10) (1 / 20)).keyF (.fin (1 / 2)) = some (.num k) ∧
    (decimalGroupbin (1 / 10) (1 / 20)).keyF (.fin 1) = some (.num l) ∧ k ≤ l :=
  C105_order _ tenth_groupbin_ordinary _ _ ⟨1, -1, by decide, by decide, by norm_num⟩ ⟨1, 0, by decide, by decide, by norm_num⟩ (by norm_num)

/-- In double precision, numbers of the same interval `[origin + k·width, origin + (k+1)·width)` get the
same key, as long as they are not within five roundings of an end of the interval; the key is the
rounded low end. -/
theorem C105_same_key_partial (a : GroupbinAxis) (h : a.Ordinary) (v : ℚ) (hv : IsF64 v) (k : ℤ) (hk : |k| < 2 ^ 53)
    (hlo : k + 5 / 2 ^ 53 * |(v - a.origin) / a.binwidth| + 1 / 2 ^ 1074 < (v - a.origin) / a.binwidth)
    (hhi : (v - a.origin) / a.binwidth < k + 1 - 5 / 2 ^ 53 * |(v - a.origin) / a.binwidth| - 1 / 2 ^ 1074) :
    a.keyF (.fin v) = some (.num (rne (rne (k * a.binwidth) + a.origin))) := by
  have herr := h.scaledF_err hv
  have he5 : 5 * eps * |(v - a.origin) / a.binwidth| = 5 / 2 ^ 53 * |(v - a.origin) / a.binwidth| := by
    unfold eps
    rw [zpow_neg, div_eq_mul_inv]
    norm_cast
  have heta : eta ≤ 1 / 2 ^ 1074 := by
    unfold eta
    have := two_zpow_le (a := -1075) (b := -1074) (by norm_num)
    refine this.trans (le_of_eq ?_)
    rw [zpow_neg, one_div]
    norm_cast
  rw [he5, abs_le] at herr
  have h1 : (k : ℚ) < a.scaledF v := by linarith [herr.1]
  have h2 : a.scaledF v < k + 1 := by linarith [herr.2]
  have hc : a.cellF v = k := by
    unfold GroupbinAxis.cellF
    split
    · exact Int.floor_eq_iff.2 ⟨h1.le, h2⟩
    · have : ⌈a.scaledF v⌉ = k + 1 := by
        rw [Int.ceil_eq_iff]; push_cast
        constructor <;> linarith
      omega
  rw [GroupbinAxis.keyF_fin h hv, hc, rne_fix (isF64_int k hk.le)]

example : (decimalGroupbin (1 / 10) (1 / 20)).keyF (.fin (1 / 2)) = some (.num (rne (rne (4 * rne (1 / 10)) + rne (1 / 20)))) :=
  C105_same_key_partial _ tenth_groupbin_ordinary (1 / 2) ⟨1, -1, by decide, by decide, by norm_num⟩ 4 (by decide)
    (by decide +kernel) (by decide +kernel)

/-- In double precision, a number is never further outside of the interval published for its key
than `2^-48` of the largest number involved. -/
theorem C105_interval_partial (a : GroupbinAxis) (h : a.Ordinary) (v M : ℚ) (hv : IsF64 v)
    (hM : |a.origin| ≤ M ∧ a.binwidth ≤ M ∧ |v| ≤ M) :
    ∃ k u : ℚ, a.keyF (.fin v) = some (.num k) ∧
      a.intervalF (.num k) = .ok (.iv (.fin k) (.fin u) a.closedlow (!a.closedlow)) ∧
      k - M / 2 ^ 48 ≤ v ∧ v ≤ u + M / 2 ^ 48 := by
  obtain ⟨ho, hb, hvM⟩ := hM
  refine ⟨_, _, GroupbinAxis.keyF_fin h hv, rfl, ?_⟩
  have he := eps_pos
  have hes := eps_small
  have hw := h.width_pos
  have hMp : 0 < M := lt_of_lt_of_le hw hb
  have hEM : 0 < eps * M := by positivity
  have heM1 : eps * M ≤ 1 / 1000000 * M := mul_le_mul_of_nonneg_right hes hMp.le
  have h48 : M / 2 ^ 48 = 32 * (eps * M) := by
    unfold eps
    rw [zpow_neg]; norm_num; ring
  have hetaM : eta ≤ 1 / 1000 * (eps * M) := by
    have h1 : (2 : ℚ) ^ (-900 : ℤ) ≤ M := h.wide.trans hb
    have h2 : eta ≤ (2 : ℚ) ^ (-10 + -53 + -900 : ℤ) := two_zpow_le (by norm_num)
    rw [two_zpow_add, two_zpow_add] at h2
    have h3 : (2 : ℚ) ^ (-10 : ℤ) ≤ 1 / 1000 := by norm_num
    have h4 : (2 : ℚ) ^ (-10 : ℤ) * 2 ^ (-53 : ℤ) * 2 ^ (-900 : ℤ) ≤ 1 / 1000 * 2 ^ (-53 : ℤ) * M :=
      mul_le_mul (mul_le_mul_of_nonneg_right h3 (two_zpow_pos _).le) h1 (two_zpow_pos _).le
        (mul_nonneg (by norm_num) (two_zpow_pos _).le)
    refine (h2.trans h4).trans (le_of_eq ?_)
    unfold eps; ring
  rw [h48]
  set B := a.binwidth with hB
  set p := a.scaledF v with hp
  set z : ℚ := (a.cellF v : ℚ) with hz
  obtain ⟨hzp, hpz⟩ := a.cellF_near v
  rw [← hp, ← hz] at hzp hpz
  -- the position, in units of the number
  have hx2 : |v - a.origin| ≤ 2 * M := (abs_sub _ _).trans (by linarith)
  have herr : |p * B - (v - a.origin)| ≤ 11 * (eps * M) := by
    have h1 := mul_le_mul_of_nonneg_right (h.scaledF_err hv) hw.le
    rw [← abs_of_pos hw, ← abs_mul, abs_of_pos hw, sub_mul, div_mul_cancel₀ _ hw.ne', ← hp] at h1
    refine h1.trans ?_
    have h2 : |(v - a.origin) / B| * B = |v - a.origin| := by
      rw [abs_div, abs_of_pos hw, div_mul_cancel₀ _ hw.ne']
    have h3 : (5 * eps * |(v - a.origin) / B| + eta) * B = 5 * eps * |v - a.origin| + eta * B := by rw [← h2]; ring
    rw [h3]
    have h4 : 5 * eps * |v - a.origin| ≤ 5 * eps * (2 * M) := mul_le_mul_of_nonneg_left hx2 (by linarith)
    have h5 : eta * B ≤ eps * M := by
      refine mul_le_mul ?_ hb hw.le he.le
      have := eta_le_eps; linarith
    linarith
  rw [abs_le] at herr hx2
  have hzB1 : z * B ≤ p * B := mul_le_mul_of_nonneg_right hzp hw.le
  have hzB2 : p * B ≤ z * B + B := by
    have := mul_le_mul_of_nonneg_right hpz hw.le
    linarith
  have hzB : |z * B| ≤ 3.1 * M := by
    rw [abs_le]; constructor <;> linarith [herr.1, herr.2, hx2.1, hx2.2]
  -- rounding of the integer
  have hZ : |rne z - z| ≤ eps * |z| := by
    apply rne_err_grid
    refine ⟨a.cellF v * 2 ^ (1074 : ℕ), ?_⟩
    rw [hz]; push_cast
    rw [mul_assoc, ← zpow_natCast, ← two_zpow_add]
    norm_num
  have hZB : |rne z * B - z * B| ≤ 3.1 * (eps * M) := by
    rw [← sub_mul, abs_mul, abs_of_pos hw]
    have h1 := mul_le_mul_of_nonneg_right hZ hw.le
    have h2 : eps * |z| * B = eps * |z * B| := by rw [abs_mul, abs_of_pos hw]; ring
    rw [h2] at h1
    have h3 := mul_le_mul_of_nonneg_left hzB he.le
    linarith
  have hZB' : |rne z * B| ≤ 3.2 * M := by
    rw [abs_le] at hZB hzB ⊢
    constructor <;> linarith [hZB.1, hZB.2, hzB.1, hzB.2]
  have hP := rne_err_add (rne z * B)
  change _ ≤ eps * _ + eta at hP
  have hP' : |rne (rne z * B) - rne z * B| ≤ 3.3 * (eps * M) := by
    have := mul_le_mul_of_nonneg_left hZB' he.le
    linarith
  set P := rne (rne z * B) with hPdef
  have hS := rne_err_sum (rne_isF64 (rne z * B)) h.origin
  rw [← hPdef] at hS
  change _ ≤ eps * _ at hS
  rw [abs_le] at hP' hZB hzB hZB' ho
  have hSa : |P + a.origin| ≤ 4.3 * M := by
    rw [abs_le]
    constructor <;> linarith [hP'.1, hP'.2, hZB'.1, hZB'.2, ho.1, ho.2]
  have hS' : |rne (P + a.origin) - (P + a.origin)| ≤ 4.3 * (eps * M) := by
    have := mul_le_mul_of_nonneg_left hSa he.le
    linarith
  set K := rne (P + a.origin) with hK
  have hU := rne_err_sum (rne_isF64 (P + a.origin)) h.width
  rw [← hK, ← hB] at hU
  change _ ≤ eps * _ at hU
  rw [abs_le] at hS' hSa
  have hUa : |K + B| ≤ 5.4 * M := by
    rw [abs_le]
    constructor <;> linarith [hS'.1, hS'.2, hSa.1, hSa.2]
  have hU' : |rne (K + B) - (K + B)| ≤ 5.4 * (eps * M) := by
    have := mul_le_mul_of_nonneg_left hUa he.le
    linarith
  rw [abs_le] at hU'
  constructor
  · linarith [herr.1, herr.2, hZB.1, hZB.2, hP'.1, hP'.2, hS'.1, hS'.2]
  · linarith [herr.1, herr.2, hZB.1, hZB.2, hP'.1, hP'.2, hS'.1, hS'.2, hU'.1, hU'.2]

example : ∃ k u : ℚ, (decimalGroupbin (1 / 10) (1 / 20)).keyF (.fin (1 / 2)) = some (.num k) ∧
    (decimalGroupbin (1 / 10) (1 / 20)).intervalF (.num k) = .ok (.iv (.fin k) (.fin u) true false) ∧
    k - 1 / 2 ^ 48 ≤ 1 / 2 ∧ 1 / 2 ≤ u + 1 / 2 ^ 48 :=
  C105_interval_partial _ tenth_groupbin_ordinary (1 / 2) 1 ⟨1, -1, by decide, by decide, by norm_num⟩ (by decide +kernel)

/-- In double precision too, the group of infinity has the interval from infinity to infinity, and the interval of
the group of NaN cannot be asked for. -/
theorem C105_refuted_nan_interval (a : GroupbinAxis) (hn : a.nanflow = true) :
    a.keyF .nan = some (.str "NaN") ∧ a.intervalF (.str "NaN") = .error .typeError ∧
      ∀ k, (∀ q, k ≠ .num q) → a.intervalF k = a.interval k := by
  refine ⟨?_, rfl, fun k hk => ?_⟩
  · unfold GroupbinAxis.keyF
    by_cases ho : a.origin = 0 <;> by_cases hc : a.closedlow = true <;>
      simp [ho, hc, hn, Num.subFin, Num.rnd, Num.mulFin, Num.floor, Num.ceil, Num.addFin]
  · cases k with
    | num q => exact absurd rfl (hk q)
    | _ => rfl

example : GroupbinAxis.intervalF ⟨1 / 10, 0, true, true⟩ .pinf = .ok (.iv .pinf .pinf true false) := by decide +kernel

/-- In double precision, infinite numbers and NaN are treated as in exact arithmetic. -/
theorem C105_special (a : GroupbinAxis) (h : a.Ordinary) (v : Num) (hv : ∀ q, v ≠ .fin q) : a.keyF v = a.key v := by
  have hw := h.width_pos
  have hs := h.scale_pos
  have hw' : rne a.binwidth = a.binwidth := rne_fix h.width
  have hc : 0 < 1 / a.binwidth := by positivity
  have hc' : 0 < a.binwidth⁻¹ := by positivity
  unfold GroupbinAxis.keyF GroupbinAxis.key
  rw [hw']
  cases v with
  | fin q => exact absurd rfl (hv q)
  | nan => by_cases ho : a.origin = 0 <;> simp [ho, Num.subFin, Num.rnd, Num.mulFin, Num.floor, Num.ceil, Num.addFin]
  | pinf => by_cases ho : a.origin = 0 <;> simp [ho, Num.subFin, Num.rnd, Num.mulFin, Num.floor, Num.ceil, Num.addFin, hs, hw, hc] <;> simp_all [Num.subFin, Num.rnd, Num.mulFin, Num.floor, Num.ceil, Num.addFin]
  | ninf => by_cases ho : a.origin = 0 <;> simp [ho, Num.subFin, Num.rnd, Num.mulFin, Num.floor, Num.ceil, Num.addFin, hs, hw, hc] <;> simp_all [Num.subFin, Num.rnd, Num.mulFin, Num.floor, Num.ceil, Num.addFin]

example : (decimalGroupbin (1 / 10) (1 / 20)).keyF .nan = some (.str "NaN") := by decide +kernel

/-- The interval of a key need not contain the number: on `groupbin("x", 0.1)` the value 0.3 gets the key
0.30000000000000004, whose interval begins above 0.3, and on `groupbin("x", 0.01)` the value 2.01 gets
the key 2.0, whose interval ends at 2.01 and does not include its end. -/
theorem C105_interval_refuted :
    (∃ k iv, (decimalGroupbin (1 / 10) 0).keyF (.fin (rne (3 / 10))) = some k ∧
      (decimalGroupbin (1 / 10) 0).intervalF k = .ok iv ∧ ¬ iv.mem (.fin (rne (3 / 10))) ∧
      k = .num (rne (30000000000000004 / 100000000000000000))) ∧
    (∃ iv, (decimalGroupbin (1 / 100) 0).keyF (.fin (rne (201 / 100))) = some (.num 2) ∧
      (decimalGroupbin (1 / 100) 0).intervalF (.num 2) = .ok iv ∧ ¬ iv.mem (.fin (rne (201 / 100))) ∧
      rne (2 + rne (1 / 100)) = rne (201 / 100)) := by
  refine ⟨⟨.num (rne (30000000000000004 / 100000000000000000)), _, by decide +kernel, rfl, by decide +kernel, rfl⟩,
    ⟨_, by decide +kernel, rfl, by decide +kernel, by decide +kernel⟩⟩

end Verif
