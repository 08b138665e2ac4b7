import Verif.FloatBin

/-!
# Grouping by intervals with the machine's arithmetic

The `groupbin` axis once more, with every operation rounded to double precision.  The same
simplifications as in `FloatBin`.
-/

namespace Verif

/-- calc/__init__.py:157-196 `histbook_groupbin(...).groupbin` for one double: the unique number
it is mapped to (`none` = inverse index -1, in no group). -/
def GroupbinAxis.keyF (a : GroupbinAxis) (v : Num) : Option Key :=
  let x := if a.origin = 0 then (v.mulFin (rne (1 / rne a.binwidth))).rnd
           else ((v.subFin (rne a.origin)).rnd.mulFin (rne (1 / rne a.binwidth))).rnd
  let x := if a.closedlow then x.floor else (x.ceil.addFin (-1)).rnd
  let x := (x.mulFin (rne a.binwidth)).rnd
  let x := if a.origin = 0 then x else (x.addFin (rne a.origin)).rnd
  match x with
  | .nan => if a.nanflow then some (.str "NaN") else none
  | .pinf => some .pinf
  | .ninf => some .ninf
  | .fin q => some (.num q)

/-- axis.py:522-525 `groupbin.items` in double precision. -/
def GroupbinAxis.intervalF (a : GroupbinAxis) : Key → Except Err BinLabel
  | .num n => .ok (.iv (.fin n) (.fin (rne (n + a.binwidth))) a.closedlow (!a.closedlow))
  | .pinf => .ok (.iv .pinf .pinf a.closedlow (!a.closedlow))
  | .ninf => .ok (.iv .ninf .ninf a.closedlow (!a.closedlow))
  | .str _ => .error .typeError

/-- An axis whose bin width and origin are doubles, far from the limits of the range of doubles. -/
structure GroupbinAxis.Ordinary (a : GroupbinAxis) : Prop where
  width : IsF64 a.binwidth
  origin : IsF64 a.origin
  wide : (2 : ℚ) ^ (-900 : ℤ) ≤ a.binwidth
  narrow : a.binwidth ≤ 2 ^ (900 : ℤ)

/-- The position of a finite value in units of the bin width. -/
def GroupbinAxis.scaledF (a : GroupbinAxis) (q : ℚ) : ℚ := rne (rne (q - a.origin) * rne (1 / a.binwidth))

/-- The integer position. -/
def GroupbinAxis.cellF (a : GroupbinAxis) (q : ℚ) : ℤ :=
  if a.closedlow then ⌊a.scaledF q⌋ else ⌈a.scaledF q⌉ - 1

theorem isF64_floor {q : ℚ} (h : IsF64 q) : IsF64 (⌊q⌋ : ℤ) := by
  obtain ⟨m, e, hm, he, rfl⟩ := h
  rcases le_total 0 e with h0 | h0
  · have : (m : ℚ) * 2 ^ e = ((m * 2 ^ e.toNat : ℤ) : ℚ) := by
      push_cast
      rw [← zpow_natCast, Int.toNat_of_nonneg h0]
    rw [this, Int.floor_intCast, ← this]
    exact ⟨m, e, hm, he, rfl⟩
  · apply isF64_int
    have hp := two_zpow_pos e
    have hp1 : (2 : ℚ) ^ e ≤ 1 := by
      have := two_zpow_le h0
      simpa using this
    have hm' : |(m : ℚ)| ≤ 2 ^ 53 := by exact_mod_cast hm
    have : |(m : ℚ) * 2 ^ e| ≤ 2 ^ 53 := by
      rw [abs_mul, abs_of_pos hp]
      calc _ ≤ |(m : ℚ)| * 1 := mul_le_mul_of_nonneg_left hp1 (abs_nonneg _)
        _ ≤ _ := by rw [mul_one]; exact hm'
    rw [abs_le] at this ⊢
    constructor
    · rw [Int.le_floor]; push_cast; exact this.1
    · have h2 := Int.floor_le ((m : ℚ) * 2 ^ e)
      have : ((⌊(m : ℚ) * 2 ^ e⌋ : ℤ) : ℚ) ≤ 2 ^ 53 := h2.trans this.2
      exact_mod_cast this

/-- The key of a finite double. -/
theorem GroupbinAxis.keyF_fin {a : GroupbinAxis} (h : a.Ordinary) {q : ℚ} (hq : IsF64 q) :
    a.keyF (.fin q) = some (.num (rne (rne (rne (a.cellF q : ℚ) * a.binwidth) + a.origin))) := by
  have hf : rne ((⌊a.scaledF q⌋ : ℤ) : ℚ) = ((⌊a.scaledF q⌋ : ℤ) : ℚ) := rne_fix (isF64_floor (rne_isF64 _))
  have hceil : ((⌈a.scaledF q⌉ : ℤ) : ℚ) + -1 = ((⌈a.scaledF q⌉ - 1 : ℤ) : ℚ) := by push_cast; ring
  unfold GroupbinAxis.keyF
  rw [rne_fix h.width, rne_fix h.origin]
  by_cases ho : a.origin = 0
  · have hs : rne (q * rne (1 / a.binwidth)) = a.scaledF q := by
      unfold GroupbinAxis.scaledF
      rw [ho, sub_zero, rne_fix hq]
    simp only [ho, if_true, Num.mulFin, Num.rnd, hs]
    unfold GroupbinAxis.cellF
    cases hc : a.closedlow
    · simp only [Bool.false_eq_true, if_false, Num.ceil, Num.addFin, Num.mulFin, add_zero, rne_rne, hceil]
    · simp only [if_true, Num.floor, Num.mulFin, add_zero, rne_rne, hf]
  · have hs : rne (rne (q - a.origin) * rne (1 / a.binwidth)) = a.scaledF q := rfl
    simp only [ho, if_false, Num.subFin, Num.mulFin, Num.rnd, hs]
    unfold GroupbinAxis.cellF
    cases hc : a.closedlow
    · simp only [Bool.false_eq_true, if_false, Num.ceil, Num.addFin, Num.mulFin, hceil]
    · simp only [if_true, Num.floor, Num.mulFin, Num.addFin, hf]

theorem GroupbinAxis.Ordinary.width_pos {a : GroupbinAxis} (h : a.Ordinary) : 0 < a.binwidth :=
  lt_of_lt_of_le (two_zpow_pos _) h.wide

theorem GroupbinAxis.Ordinary.scale {a : GroupbinAxis} (h : a.Ordinary) :
    |rne (1 / a.binwidth) - 1 / a.binwidth| ≤ eps * (1 / a.binwidth) := by
  have hw := h.width_pos
  have := rne_err_normal (1 / a.binwidth) (by
    rw [abs_of_pos (by positivity), le_div_iff₀ hw]
    calc (2 : ℚ) ^ (-1022 : ℤ) * a.binwidth ≤ 2 ^ (-1022 : ℤ) * 2 ^ (900 : ℤ) := mul_le_mul_of_nonneg_left h.narrow (two_zpow_pos _).le
      _ = 2 ^ (-122 : ℤ) := by rw [← two_zpow_add]; norm_num
      _ ≤ 1 := by
        have := two_zpow_le (a := -122) (b := 0) (by norm_num)
        simpa using this)
  rwa [abs_of_pos (by positivity : (0:ℚ) < 1 / a.binwidth)] at this

theorem GroupbinAxis.Ordinary.scale_pos {a : GroupbinAxis} (h : a.Ordinary) : 0 < rne (1 / a.binwidth) := by
  have h1 := (abs_le.1 h.scale).1
  have hw := h.width_pos
  have hc : 0 < 1 / a.binwidth := by positivity
  have := mul_lt_mul_of_pos_right (lt_of_le_of_lt eps_small (by norm_num : (1:ℚ) / 1000000 < 1)) hc
  linarith

theorem GroupbinAxis.Ordinary.scaledF_err {a : GroupbinAxis} (h : a.Ordinary) {q : ℚ} (hq : IsF64 q) :
    |a.scaledF q - (q - a.origin) / a.binwidth| ≤ 5 * eps * |(q - a.origin) / a.binwidth| + eta := by
  have hw := h.width_pos
  have hc : 0 < 1 / a.binwidth := by positivity
  have he := eps_pos
  have hes := eps_small
  have hsc := abs_le.1 h.scale
  have hS := h.scale_pos
  have h1 : (1 - eps) * (1 / a.binwidth) ≤ (1 + eps) * rne (1 / a.binwidth) := by nlinarith [hsc.1]
  have h2 : (1 - eps) * rne (1 / a.binwidth) ≤ (1 + eps) * (1 / a.binwidth) := by nlinarith [hsc.2]
  have hr := rne_err_sub hq h.origin
  change _ ≤ eps * _ at hr
  unfold GroupbinAxis.scaledF
  rw [div_eq_mul_one_div (q - a.origin)]
  rcases le_total 0 (q - a.origin) with hx | hx
  · rw [abs_of_nonneg hx] at hr
    have := product_err (q - a.origin) _ _ hx hc hS hr h1 h2
    rwa [abs_of_nonneg (mul_nonneg hx hc.le)]
  · rw [abs_of_nonpos hx] at hr
    have hneg : rne (q - a.origin) = - rne (-(q - a.origin)) := by rw [rne_neg, neg_neg]
    have hr' : |rne (-(q - a.origin)) - (-(q - a.origin))| ≤ eps * (-(q - a.origin)) := by
      rw [rne_neg, neg_sub_neg, abs_sub_comm]; exact hr
    have := product_err (-(q - a.origin)) _ _ (by linarith) hc hS hr' h1 h2
    rw [hneg, neg_mul, rne_neg, abs_of_nonpos (mul_nonpos_of_nonpos_of_nonneg hx hc.le)]
    have e : -rne (rne (-(q - a.origin)) * rne (1 / a.binwidth)) - (q - a.origin) * (1 / a.binwidth) =
        -(rne (rne (-(q - a.origin)) * rne (1 / a.binwidth)) - -(q - a.origin) * (1 / a.binwidth)) := by ring
    rw [e, abs_neg]
    calc _ ≤ _ := this
      _ = _ := by ring

theorem GroupbinAxis.scaledF_mono {a : GroupbinAxis} (h : a.Ordinary) {q r : ℚ} (hqr : q ≤ r) : a.scaledF q ≤ a.scaledF r := by
  unfold GroupbinAxis.scaledF
  apply rne_mono
  apply mul_le_mul_of_nonneg_right _ h.scale_pos.le
  apply rne_mono
  linarith

theorem GroupbinAxis.cellF_mono {a : GroupbinAxis} (h : a.Ordinary) {q r : ℚ} (hqr : q ≤ r) : a.cellF q ≤ a.cellF r := by
  have := GroupbinAxis.scaledF_mono h hqr
  unfold GroupbinAxis.cellF
  split
  · exact Int.floor_le_floor this
  · have := Int.ceil_le_ceil this
    omega

/-- The integer position is next to the position. -/
theorem GroupbinAxis.cellF_near (a : GroupbinAxis) (q : ℚ) : (a.cellF q : ℚ) ≤ a.scaledF q ∧ a.scaledF q ≤ a.cellF q + 1 := by
  unfold GroupbinAxis.cellF
  split
  · exact ⟨Int.floor_le _, (Int.lt_floor_add_one _).le⟩
  · have h1 := Int.le_ceil (a.scaledF q)
    have h2 := Int.ceil_lt_add_one (a.scaledF q)
    push_cast
    constructor <;> linarith

end Verif
