import Verif.FloatSqrt

/-!
# Profiles with weights in double precision

As in `Verif.FloatProfile`, for histograms with weights: each value and its square are multiplied by the weight, with
rounding, and the number of entries is replaced by the effective one.  Simplification: a division by a sum of squares
that is zero (weights so small that their squares vanish) gives zero here and infinity in numpy.
-/

namespace Verif

/-- The columns of a histogram with one profile and weights in each bin (hist.py 198-226). -/
structure WProfF where
  sumwx : List ℚ
  sumwx2 : List ℚ
  sumw : List ℚ
  sumw2 : List ℚ
  deriving DecidableEq

/-- hist.py:382 `numpy.zeros`. -/
def BinAxis.wprofZeros (a : BinAxis) : WProfF := ⟨a.zerosF, a.zerosF, a.zerosF, a.zerosF⟩

/-- A row: the value for the `bin` axis, the one of the profile, and the weight. -/
structure WRow where
  v : Num
  x : ℚ
  w : ℚ
  deriving DecidableEq

/-- hist.py:423-450 `fillblock` with one profile and weights.  If a row is in no bin, then the weights without it are
multiplied with the values of all rows (hist.py 433), which raises; a single row gets to hist.py 446, where the weights
are selected for the second time. -/
def BinAxis.wprofFill (a : BinAxis) (c : WProfF) (rows : List WRow) : Except Err WProfF :=
  match a.landF (rows.map fun r => (r.v, 0)) with
  | .error e => .error e
  | .ok l =>
    if l.length < rows.length then .error (if rows.length = 1 then .indexError else .valueError)
    else
      match a.fillF c.sumwx (rows.map fun r => (r.v, rne (r.x * r.w))), a.fillF c.sumwx2 (rows.map fun r => (r.v, rne (rne (r.x * r.x) * r.w))),
        a.fillF c.sumw (rows.map fun r => (r.v, r.w)), a.fillF c.sumw2 (rows.map fun r => (r.v, rne (r.w * r.w))) with
      | .ok x, .ok x2, .ok w, .ok w2 => .ok ⟨x, x2, w, w2⟩
      | .error e, _, _, _ => .error e
      | _, .error e, _, _ => .error e
      | _, _, .error e, _ => .error e
      | _, _, _, .error e => .error e

/-- One `fill` after the other. -/
def BinAxis.wprofFillAll (a : BinAxis) : WProfF → List (List WRow) → Except Err WProfF
  | c, [] => .ok c
  | c, b :: bs =>
    match a.wprofFill c b with
    | .error e => .error e
    | .ok c => a.wprofFillAll c bs

/-- proj.py:599 `numpy.square(sumw) / content[good, self._sumw2index]`. -/
def effcountF (sumw sumw2 : ℚ) : ℚ := rne (rne (sumw * sumw) / sumw2)

/-- What the table shows in one bin: the effective number of entries, the mean, and the number under the root of its
error. -/
structure WProfCell where
  effcount : ℚ
  mean : ℚ
  errorSq : Option ℚ
  deriving DecidableEq

/-- proj.py:592-612 for one bin; bins without positive content keep the zeros (proj.py 568). -/
def wprofCellF (sumwx sumwx2 sumw sumw2 : ℚ) : WProfCell :=
  if sumw > 0 then
    let eff := effcountF sumw sumw2
    let mean := meanF sumwx sumw
    let r := rne (varianceF sumwx2 sumw mean / eff)
    ⟨eff, mean, if r < 0 then none else some r⟩
  else ⟨0, 0, some 0⟩

/-- proj.py:566-612: the table of a histogram with one `bin` axis, one profile and weights. -/
def WProfF.table (c : WProfF) : List WProfCell :=
  List.zipWith (fun (p q : ℚ × ℚ) => wprofCellF p.1 p.2 q.1 q.2) (List.zip c.sumwx c.sumwx2) (List.zip c.sumw c.sumw2)

/-! ## Errors of sums and quotients -/

/-- A sum of doubles that are near to some numbers is near to the sum of them. -/
theorem sumF_close {α : Type} (l : List α) (a e b : α → ℚ) (k : ℕ) (ha : ∀ x ∈ l, IsF64 (a x))
    (he : ∀ x ∈ l, |a x - e x| ≤ growth k * b x) (hb : ∀ x ∈ l, |e x| ≤ b x) :
    |sumF 0 (l.map a) - (l.map e).sum| ≤ growth (l.length + k) * (l.map b).sum := by
  have h1 := sumF_err (l.map a) 0 isF64_zero (by
    intro w hw
    obtain ⟨x, hx, rfl⟩ := List.mem_map.1 hw
    exact ha x hx)
  simp only [zero_add, abs_zero, List.length_map] at h1
  change _ ≤ growth l.length * _ at h1
  have h2 : |(l.map a).sum - (l.map e).sum| ≤ growth k * (l.map b).sum ∧ ((l.map a).map abs).sum ≤ (1 + growth k) * (l.map b).sum := by
    clear h1
    induction l with
    | nil => simp
    | cons x l ih =>
      obtain ⟨i1, i2⟩ := ih (fun y hy => ha y (by simp [hy])) (fun y hy => he y (by simp [hy])) (fun y hy => hb y (by simp [hy]))
      have e1 := he x (by simp)
      have e2 := hb x (by simp)
      simp only [List.map_cons, List.sum_cons]
      have e3 : |a x| ≤ |a x - e x| + |e x| := by
        refine le_trans (le_of_eq ?_) (abs_add_le _ _)
        congr 1; ring
      refine ⟨?_, by linarith⟩
      have : a x + (l.map a).sum - (e x + (l.map e).sum) = (a x - e x) + ((l.map a).sum - (l.map e).sum) := by ring
      rw [this]
      refine (abs_add_le _ _).trans ?_
      linarith
  have g := growth_nonneg l.length
  have h3 := mul_le_mul_of_nonneg_left h2.2 g
  have h4 : |sumF 0 (l.map a) - (l.map e).sum| ≤ |sumF 0 (l.map a) - (l.map a).sum| + |(l.map a).sum - (l.map e).sum| := by
    refine le_trans (le_of_eq ?_) (abs_add_le _ _)
    congr 1; ring
  rw [growth_add]
  linarith [h2.1]

/-- A quotient of numbers that are near to some others. -/
theorem quot_close {A' A B W' W d e : ℚ} (hd : |A' - A| ≤ d * B) (hA : |A| ≤ B) (he : |W' - W| ≤ e * W) (hW : 0 < W) (he1 : e < 1) (hd0 : 0 ≤ d) :
    |A' / W' - A / W| ≤ (d + e) / (1 - e) * (B / W) := by
  have h1 : (1 - e) * W ≤ W' := by linarith [(abs_le.1 he).1]
  have he0 : 0 ≤ e := by
    have := (abs_nonneg _).trans he
    by_contra hc
    have : e * W < 0 := mul_neg_of_neg_of_pos (not_le.1 hc) hW
    linarith
  have h2 : 0 < (1 - e) * W := mul_pos (by linarith) hW
  have hW' : 0 < W' := h2.trans_le h1
  have hB : 0 ≤ B := (abs_nonneg _).trans hA
  have h3 : A' / W' - A / W = ((A' - A) * W + A * (W - W')) / (W' * W) := by
    field_simp; ring
  rw [h3, abs_div, abs_of_pos (mul_pos hW' hW)]
  have h4 : |(A' - A) * W + A * (W - W')| ≤ d * B * W + B * (e * W) := by
    refine (abs_add_le _ _).trans ?_
    rw [abs_mul, abs_mul, abs_of_pos hW, abs_sub_comm W W']
    exact add_le_add (mul_le_mul_of_nonneg_right hd hW.le) (mul_le_mul hA he (abs_nonneg _) hB)
  refine (div_le_div_of_nonneg_right h4 (mul_pos hW' hW).le).trans ?_
  have h5 : (d * B * W + B * (e * W)) / (W' * W) = (d + e) * B / W' := by
    field_simp
  rw [h5]
  have h6 : (d + e) / (1 - e) * (B / W) = (d + e) * B / ((1 - e) * W) := by
    rw [div_mul_div_comm]
  rw [h6]
  exact div_le_div_of_nonneg_left (by positivity) h2 h1

/-- A double that is zero or not small. -/
def Medium (x : ℚ) : Prop := IsF64 x ∧ (x = 0 ∨ (2 : ℚ) ^ (-100 : ℤ) ≤ |x|)

/-- A positive double that is neither small nor large. -/
def MediumWeight (w : ℚ) : Prop := IsF64 w ∧ (2 : ℚ) ^ (-100 : ℤ) ≤ w ∧ w ≤ 2 ^ (100 : ℤ)

theorem MediumWeight.pos {w : ℚ} (h : MediumWeight w) : 0 < w := (two_zpow_pos _).trans_le h.2.1

theorem mul_big {x y : ℚ} (j k : ℤ) (hx : x = 0 ∨ (2 : ℚ) ^ j ≤ |x|) (hy : y = 0 ∨ (2 : ℚ) ^ k ≤ |y|) :
    x * y = 0 ∨ (2 : ℚ) ^ (j + k) ≤ |x * y| := by
  rcases hx with rfl | hx
  · simp
  rcases hy with rfl | hy
  · simp
  right
  rw [zpow_add₀ (by norm_num), abs_mul]
  exact mul_le_mul hx hy (two_zpow_pos _).le (abs_nonneg _)

theorem quot_big {x y : ℚ} (j k : ℤ) (hx : x = 0 ∨ (2 : ℚ) ^ j ≤ |x|) (hy0 : 0 < y) (hy : y ≤ (2 : ℚ) ^ k) :
    x / y = 0 ∨ (2 : ℚ) ^ (j - k) ≤ |x / y| := by
  rcases hx with rfl | hx
  · simp
  right
  rw [zpow_sub₀ (by norm_num), abs_div, abs_of_pos hy0]
  exact div_le_div₀ (abs_nonneg _) hx hy0 hy

end Verif
