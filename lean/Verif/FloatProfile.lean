import Verif.FloatSum
import Verif.FloatWidth

/-!
# Profiles with the machine's arithmetic

The sums of a profile and its mean and error in a table, with every operation rounded to double precision, for a
histogram without weights with one `bin` axis and one profile.  The square root of the error is not taken: the model
keeps the number under the root (rounding it changes neither whether it is a number nor its size, up to one unit in
the last place).  Numbers too large for a double are not modelled.
-/

namespace Verif

/-- The sums of a profile in each bin (hist.py:199, 222): the columns `_sumwxindex`, `_sumwx2index`, `_sumwindex`. -/
structure ProfF where
  sumwx : List ℚ
  sumwx2 : List ℚ
  sumw : List ℚ
  deriving DecidableEq

/-- hist.py:382 `numpy.zeros`. -/
def BinAxis.profZeros (a : BinAxis) : ProfF := ⟨a.zerosF, a.zerosF, a.zerosF⟩

/-- hist.py:423-440 `fillblock` without weights: a row has a value for the `bin` axis and one for the profile; the second
goal of a profile is the product of its quantity with itself (axis.py:1461-1467). -/
def BinAxis.profFill (a : BinAxis) (c : ProfF) (rows : List (Num × ℚ)) : Except Err ProfF :=
  match a.fillF c.sumwx rows, a.fillF c.sumwx2 (rows.map fun p => (p.1, rne (p.2 * p.2))), a.fillF c.sumw (rows.map fun p => (p.1, 1)) with
  | .ok x, .ok x2, .ok w => .ok ⟨x, x2, w⟩
  | .error e, _, _ => .error e
  | _, .error e, _ => .error e
  | _, _, .error e => .error e

/-- One `fill` after the other. -/
def BinAxis.profFillAll (a : BinAxis) : ProfF → List (List (Num × ℚ)) → Except Err ProfF
  | c, [] => .ok c
  | c, b :: bs =>
    match a.profFill c b with
    | .error e => .error e
    | .ok c => a.profFillAll c bs

/-- proj.py:608 `content[good, prof._sumwxindex] / sumw`. -/
def meanF (sumwx sumw : ℚ) : ℚ := rne (sumwx / sumw)

/-- proj.py:611 `(content[good, prof._sumwx2index] / sumw) - numpy.square(out[good, outindex - 1])`. -/
def varianceF (sumwx2 sumw mean : ℚ) : ℚ := rne (rne (sumwx2 / sumw) - rne (mean * mean))

/-- What the table shows for a profile in one bin: the mean, and the number under the root of the error; `none` if it
is negative, for then `numpy.sqrt` gives NaN. -/
structure ProfCell where
  mean : ℚ
  errorSq : Option ℚ
  deriving DecidableEq

/-- proj.py:594-612 for one bin of a histogram without weights: bins without entries keep the zeros of
proj.py:570. -/
def profCellF (sumwx sumwx2 sumw : ℚ) : ProfCell :=
  if sumw > 0 then
    let mean := meanF sumwx sumw
    let r := rne (varianceF sumwx2 sumw mean / sumw)
    ⟨mean, if r < 0 then none else some r⟩
  else ⟨0, some 0⟩

/-- proj.py:567-612: the columns of the profile in the table. -/
def ProfF.table (c : ProfF) : List ProfCell :=
  List.zipWith (fun x (p : ℚ × ℚ) => profCellF x p.1 p.2) c.sumwx (List.zip c.sumwx2 c.sumw)

/-! ## Doubles of moderate size -/

/-- Zero, or not tiny. -/
def Moderate (x : ℚ) : Prop := IsF64 x ∧ (x = 0 ∨ (2 : ℚ) ^ (-200 : ℤ) ≤ |x|)

/-- A double that is not small is a multiple of a power of two that is not small. -/
theorem f64_grid {x : ℚ} (h : IsF64 x) (k : ℤ) (hx : x = 0 ∨ (2 : ℚ) ^ k ≤ |x|) : ∃ z : ℤ, x = z * (2 : ℚ) ^ (k - 53) := by
  rcases hx with rfl | hx
  · exact ⟨0, by simp⟩
  obtain ⟨m, e, hm, he, rfl⟩ := h
  have h2 : (2 : ℚ) ≠ 0 := by norm_num
  by_cases hek : k - 53 ≤ e
  · obtain ⟨d, hd⟩ := Int.le.dest hek
    refine ⟨m * 2 ^ d, ?_⟩
    rw [← hd, zpow_add₀ h2]
    push_cast
    rw [zpow_natCast]
    ring
  · exfalso
    have hp : (0 : ℚ) < 2 ^ e := zpow_pos (by norm_num) _
    rw [abs_mul, abs_of_pos hp] at hx
    have hm' : |(m : ℚ)| ≤ 2 ^ 53 := by exact_mod_cast hm
    have h1 : |(m : ℚ)| * 2 ^ e ≤ 2 ^ 53 * 2 ^ (k - 54) :=
      mul_le_mul hm' (zpow_le_zpow_right₀ (by norm_num) (by omega)) hp.le (by positivity)
    have h3 : (2 : ℚ) ^ 53 * 2 ^ (k - 54) = 2 ^ k / 2 := by
      rw [zpow_sub₀ h2]; norm_num; ring
    have h4 : (0 : ℚ) < 2 ^ k := zpow_pos (by norm_num) _
    linarith

/-- A multiple of a power of two that is not zero is not smaller than it. -/
theorem grid_ge {x : ℚ} (k : ℤ) (h : ∃ z : ℤ, x = z * (2 : ℚ) ^ k) (hx : x ≠ 0) : (2 : ℚ) ^ k ≤ |x| := by
  obtain ⟨z, rfl⟩ := h
  have hp : (0 : ℚ) < 2 ^ k := zpow_pos (by norm_num) _
  have hz : z ≠ 0 := by rintro rfl; simp at hx
  have h1 : (1 : ℚ) ≤ |(z : ℚ)| := by exact_mod_cast Int.one_le_abs hz
  rw [abs_mul, abs_of_pos hp]
  nlinarith

/-- Rounding keeps multiples of a power of two. -/
theorem rne_grid {x : ℚ} (k : ℤ) (h : ∃ z : ℤ, x = z * (2 : ℚ) ^ k) : ∃ z : ℤ, rne x = z * (2 : ℚ) ^ k := by
  obtain ⟨z, hz⟩ := h
  have h2 : (2 : ℚ) ≠ 0 := by norm_num
  by_cases hl : lastBit x ≤ k
  · obtain ⟨d, hd⟩ := Int.le.dest hl
    have e : x = ((z * 2 ^ d : ℤ) : ℚ) * (2 : ℚ) ^ lastBit x := by
      have : (2 : ℚ) ^ k = 2 ^ lastBit x * 2 ^ d := by rw [← hd, zpow_add₀ h2, zpow_natCast]
      push_cast
      rw [mul_assoc, mul_comm ((2 : ℚ) ^ d), ← this, ← hz]
    refine ⟨z, ?_⟩
    rw [← hz]
    exact le_antisymm (rne_le_of_multiple _ e le_rfl) (le_rne_of_multiple _ e le_rfl)
  · obtain ⟨d, hd⟩ := Int.le.dest (le_of_lt (not_le.1 hl))
    rw [rne_eq]
    refine ⟨pyRound (x / 2 ^ lastBit x) * 2 ^ d, ?_⟩
    rw [← hd, zpow_add₀ h2]; push_cast; rw [zpow_natCast]
    ring

/-- The relative error of rounding a number that is zero or not tiny. -/
theorem rne_rel {q : ℚ} (k : ℤ) (hk : -1022 ≤ k) (h : q = 0 ∨ (2 : ℚ) ^ k ≤ |q|) : |rne q - q| ≤ eps * |q| := by
  rcases h with rfl | h
  · simp [rne_zero]
  · exact rne_err_normal q ((zpow_le_zpow_right₀ (by norm_num) hk).trans h)

/-- A rounded number is not less than half of the number. -/
theorem rne_half {q : ℚ} (k : ℤ) (hk : -1022 ≤ k) (h : q = 0 ∨ (2 : ℚ) ^ k ≤ |q|) : rne q = 0 ∨ (2 : ℚ) ^ (k - 1) ≤ |rne q| := by
  rcases h with rfl | h
  · exact Or.inl rne_zero
  · right
    have h1 := rne_rel k hk (Or.inr h)
    have he : eps ≤ 1 / 2 := by unfold eps; norm_num
    have h2 : |q| ≤ |rne q| + |rne q - q| := by
      have : q = rne q - (rne q - q) := by ring
      calc |q| = |rne q - (rne q - q)| := by rw [← this]
        _ ≤ |rne q| + |rne q - q| := abs_sub _ _
    have h3 : (2 : ℚ) ^ (k - 1) = 2 ^ k / 2 := by rw [zpow_sub₀ (by norm_num)]; norm_num
    have h4 : eps * |q| ≤ 1 / 2 * |q| := mul_le_mul_of_nonneg_right he (abs_nonneg q)
    rw [h3]
    linarith

/-- The quotient of a number that is not tiny by a count. -/
theorem div_big {x : ℚ} (k : ℤ) (n : ℕ) (hn : 0 < n) (hn' : n ≤ 2 ^ 30) (h : x = 0 ∨ (2 : ℚ) ^ k ≤ |x|) :
    x / n = 0 ∨ (2 : ℚ) ^ (k - 30) ≤ |x / n| := by
  rcases h with rfl | h
  · simp
  · right
    have h0 : (0 : ℚ) < n := by exact_mod_cast hn
    have h1 : (n : ℚ) ≤ 2 ^ 30 := by exact_mod_cast hn'
    rw [abs_div, abs_of_pos h0, le_div_iff₀ h0, zpow_sub₀ (by norm_num)]
    have h2 : (0 : ℚ) < 2 ^ k := zpow_pos (by norm_num) _
    refine le_trans ?_ h
    have : (2 : ℚ) ^ k / 2 ^ (30 : ℤ) * n ≤ 2 ^ k / 2 ^ (30 : ℤ) * 2 ^ 30 :=
      mul_le_mul_of_nonneg_left h1 (by positivity)
    refine this.trans (le_of_eq ?_)
    norm_num

theorem sumF_grid (k : ℤ) : ∀ (ws : List ℚ) (s : ℚ), (∃ z : ℤ, s = z * (2 : ℚ) ^ k) → (∀ w ∈ ws, ∃ z : ℤ, w = z * (2 : ℚ) ^ k) →
    ∃ z : ℤ, sumF s ws = z * (2 : ℚ) ^ k
  | [], s, h, _ => h
  | w :: ws, s, ⟨a, ha⟩, hw => by
    obtain ⟨b, hb⟩ := hw w (by simp)
    have := sumF_grid k ws (rne (s + w)) (rne_grid k ⟨a + b, by rw [ha, hb]; push_cast; ring⟩) (fun x hx => hw x (by simp [hx]))
    simpa [sumF] using this

/-- `(1 + 2^-53)^k - 1`: the relative error of `k` operations. -/
def growth (k : ℕ) : ℚ := (1 + eps) ^ k - 1

theorem growth_nonneg (k : ℕ) : 0 ≤ growth k := by
  unfold growth
  have := one_le_pow₀ (a := 1 + eps) (n := k) (by have := eps_pos; linarith)
  linarith

theorem growth_add (j k : ℕ) : growth (j + k) = growth j + growth k + growth j * growth k := by
  unfold growth; rw [pow_add]; ring

theorem growth_one : growth 1 = eps := by unfold growth; ring

theorem growth_succ (k : ℕ) : growth (k + 1) = growth k + eps + eps * growth k := by
  rw [growth_add, growth_one]; ring

theorem growth_mono {j k : ℕ} (h : j ≤ k) : growth j ≤ growth k := by
  unfold growth
  have := pow_le_pow_right₀ (a := 1 + eps) (by have := eps_pos; linarith) h
  linarith

/-- A relative error followed by a rounding. -/
theorem rel_step {x y z b : ℚ} (k : ℕ) (h : |y - x| ≤ growth k * b) (hx : |x| ≤ b) (hz : |z - y| ≤ eps * |y|) : |z - x| ≤ growth (k + 1) * b := by
  have e := eps_pos
  have g := growth_nonneg k
  have hy : |y| ≤ |y - x| + |x| := by
    have : y = (y - x) + x := by ring
    calc |y| = |(y - x) + x| := by rw [← this]
      _ ≤ _ := abs_add_le _ _
  have h1 : |z - x| ≤ |z - y| + |y - x| := by
    have : z - x = (z - y) + (y - x) := by ring
    rw [this]; exact abs_add_le _ _
  have h2 : eps * |y| ≤ eps * (growth k * b + b) := mul_le_mul_of_nonneg_left (by linarith) e.le
  rw [growth_succ]
  linarith

/-! ## The mean and the variance of a bin -/

/-- The exact mean. -/
def qmean (xs : List ℚ) : ℚ := xs.sum / xs.length

/-- The exact mean of the sizes. -/
def qabs (xs : List ℚ) : ℚ := (xs.map abs).sum / xs.length

/-- The exact mean of the squares. -/
def qsq (xs : List ℚ) : ℚ := (xs.map fun x => x ^ 2).sum / xs.length

theorem sum_abs_nonneg (xs : List ℚ) : 0 ≤ (xs.map abs).sum := List.sum_nonneg (by
  intro x hx
  obtain ⟨y, _, rfl⟩ := List.mem_map.1 hx
  exact abs_nonneg y)

theorem sum_sq_nonneg (xs : List ℚ) : 0 ≤ (xs.map fun x => x ^ 2).sum := List.sum_nonneg (by
  intro x hx
  obtain ⟨y, _, rfl⟩ := List.mem_map.1 hx
  positivity)

theorem abs_sum_le (xs : List ℚ) : |xs.sum| ≤ (xs.map abs).sum := by
  induction xs with
  | nil => simp
  | cons x xs ih => simp only [List.sum_cons, List.map_cons]; exact (abs_add_le _ _).trans (by linarith)

/-- The square of the sum of the sizes is at most the number of them times the sum of the squares. -/
theorem cauchy_abs : ∀ xs : List ℚ, ((xs.map abs).sum) ^ 2 ≤ xs.length * (xs.map fun x => x ^ 2).sum
  | [] => by simp
  | x :: xs => by
    have ih := cauchy_abs xs
    have h1 := sum_abs_nonneg xs
    have h2 := sum_sq_nonneg xs
    simp only [List.map_cons, List.sum_cons, List.length_cons]
    push_cast
    have hx : x ^ 2 = |x| ^ 2 := (sq_abs x).symm
    have key : 2 * |x| * (xs.map abs).sum ≤ xs.length * |x| ^ 2 + (xs.map fun x => x ^ 2).sum := by
      rcases Nat.eq_zero_or_pos xs.length with h0 | h0
      · have : xs = [] := List.length_eq_zero_iff.1 h0
        subst this; simp
      · have hn : (0 : ℚ) < xs.length := by exact_mod_cast h0
        have h3 : 0 ≤ ((xs.length : ℚ) * |x| - (xs.map abs).sum) ^ 2 := sq_nonneg _
        have h4 : 2 * (xs.length : ℚ) * |x| * (xs.map abs).sum ≤ xs.length * (xs.length * |x| ^ 2) + xs.length * (xs.map fun x => x ^ 2).sum := by
          nlinarith
        have h5 : (xs.length : ℚ) * (2 * |x| * (xs.map abs).sum) ≤ xs.length * (xs.length * |x| ^ 2 + (xs.map fun x => x ^ 2).sum) := by linarith
        exact le_of_mul_le_mul_left h5 hn
    rw [hx]
    nlinarith

theorem moderate_grid {x : ℚ} (h : Moderate x) : ∃ z : ℤ, x = z * (2 : ℚ) ^ (-253 : ℤ) := f64_grid h.1 (-200) h.2

theorem zero_or_ge {x : ℚ} (k : ℤ) (h : ∃ z : ℤ, x = z * (2 : ℚ) ^ k) : x = 0 ∨ (2 : ℚ) ^ k ≤ |x| := by
  by_cases h0 : x = 0
  · exact Or.inl h0
  · exact Or.inr (grid_ge k h h0)

theorem sumwx_err (xs : List ℚ) (h : ∀ x ∈ xs, Moderate x) : |sumF 0 xs - xs.sum| ≤ growth xs.length * (xs.map abs).sum := by
  have := sumF_err xs 0 isF64_zero (fun x hx => (h x hx).1)
  simpa [growth] using this

theorem sumwx_big (xs : List ℚ) (h : ∀ x ∈ xs, Moderate x) : sumF 0 xs = 0 ∨ (2 : ℚ) ^ (-253 : ℤ) ≤ |sumF 0 xs| :=
  zero_or_ge _ (sumF_grid _ xs 0 ⟨0, by simp⟩ fun x hx => moderate_grid (h x hx))

theorem square_big {x : ℚ} (k : ℤ) (h : x = 0 ∨ (2 : ℚ) ^ k ≤ |x|) : x * x = 0 ∨ (2 : ℚ) ^ (2 * k) ≤ |x * x| := by
  rcases h with rfl | h
  · simp
  · right
    rw [abs_mul, two_mul, zpow_add₀ (by norm_num)]
    have : (0 : ℚ) < 2 ^ k := zpow_pos (by norm_num) _
    exact mul_le_mul h h this.le (abs_nonneg _)

theorem square_err {x : ℚ} (k : ℤ) (hk : -511 ≤ k) (h : x = 0 ∨ (2 : ℚ) ^ k ≤ |x|) : |rne (x * x) - x ^ 2| ≤ eps * x ^ 2 := by
  have := rne_rel (2 * k) (by omega) (square_big k h)
  rw [abs_of_nonneg (mul_self_nonneg x)] at this
  rw [sq]
  exact this

theorem sumwx2_err (xs : List ℚ) (h : ∀ x ∈ xs, Moderate x) :
    |sumF 0 (xs.map fun x => rne (x * x)) - (xs.map fun x => x ^ 2).sum| ≤ growth (xs.length + 1) * (xs.map fun x => x ^ 2).sum := by
  have h1 := sumF_err (xs.map fun x => rne (x * x)) 0 isF64_zero (by
    intro w hw
    obtain ⟨x, _, rfl⟩ := List.mem_map.1 hw
    exact rne_isF64 _)
  have h2 : |(xs.map fun x => rne (x * x)).sum - (xs.map fun x => x ^ 2).sum| ≤ eps * (xs.map fun x => x ^ 2).sum ∧
      ((xs.map fun x => rne (x * x)).map abs).sum ≤ (1 + eps) * (xs.map fun x => x ^ 2).sum := by
    clear h1
    induction xs with
    | nil => simp
    | cons x xs ih =>
      obtain ⟨i1, i2⟩ := ih fun y hy => h y (by simp [hy])
      have hx := square_err (-200) (by norm_num) (h x (by simp)).2
      have hn : 0 ≤ rne (x * x) := rne_nonneg (mul_self_nonneg x)
      simp only [List.map_cons, List.sum_cons]
      rw [abs_le] at *
      refine ⟨⟨by linarith [i1.1, hx.1], by linarith [i1.2, hx.2]⟩, ?_⟩
      rw [abs_of_nonneg hn]
      linarith [hx.2]
  simp only [zero_add, abs_zero, List.length_map] at h1
  change _ ≤ growth xs.length * _ at h1
  have g := growth_nonneg xs.length
  have h3 := mul_le_mul_of_nonneg_left h2.2 g
  have h4 : |sumF 0 (xs.map fun x => rne (x * x)) - (xs.map fun x => x ^ 2).sum| ≤
      |sumF 0 (xs.map fun x => rne (x * x)) - (xs.map fun x => rne (x * x)).sum| +
        |(xs.map fun x => rne (x * x)).sum - (xs.map fun x => x ^ 2).sum| := by
    refine le_trans (le_of_eq ?_) (abs_add_le _ _)
    congr 1; ring
  rw [growth_succ]
  linarith [h2.1]

theorem sumwx2_big (xs : List ℚ) (h : ∀ x ∈ xs, Moderate x) :
    sumF 0 (xs.map fun x => rne (x * x)) = 0 ∨ (2 : ℚ) ^ (-454 : ℤ) ≤ |sumF 0 (xs.map fun x => rne (x * x))| := by
  refine zero_or_ge _ (sumF_grid _ _ 0 ⟨0, by simp⟩ ?_)
  intro w hw
  obtain ⟨x, hx, rfl⟩ := List.mem_map.1 hw
  have h1 := square_big (-200) (h x hx).2
  have h2 := rne_half _ (by norm_num) h1
  exact f64_grid (rne_isF64 _) _ h2

/-- The mean in double precision. -/
theorem meanF_err (xs : List ℚ) (h : ∀ x ∈ xs, Moderate x) (h0 : xs ≠ []) (hn : xs.length ≤ 2 ^ 30) :
    |meanF (sumF 0 xs) xs.length - qmean xs| ≤ growth (xs.length + 1) * qabs xs := by
  have hp : 0 < xs.length := List.length_pos_iff.2 h0
  have hq : (0 : ℚ) < xs.length := by exact_mod_cast hp
  refine rel_step xs.length (y := sumF 0 xs / xs.length) ?_ ?_ (rne_rel (-283) (by norm_num) (div_big (-253) _ hp hn (sumwx_big xs h)))
  · unfold qmean qabs
    rw [← sub_div, abs_div, abs_of_pos hq, ← mul_div_assoc]
    exact div_le_div_of_nonneg_right (sumwx_err xs h) hq.le
  · unfold qmean qabs
    rw [abs_div, abs_of_pos hq]
    exact div_le_div_of_nonneg_right (abs_sum_le xs) hq.le

theorem meanF_big (xs : List ℚ) (h : ∀ x ∈ xs, Moderate x) (h0 : xs ≠ []) (hn : xs.length ≤ 2 ^ 30) :
    meanF (sumF 0 xs) xs.length = 0 ∨ (2 : ℚ) ^ (-284 : ℤ) ≤ |meanF (sumF 0 xs) xs.length| :=
  rne_half (-283) (by norm_num) (div_big (-253) _ (List.length_pos_iff.2 h0) hn (sumwx_big xs h))

theorem qabs_nonneg (xs : List ℚ) : 0 ≤ qabs xs := div_nonneg (sum_abs_nonneg xs) (by positivity)

theorem qsq_nonneg (xs : List ℚ) : 0 ≤ qsq xs := div_nonneg (sum_sq_nonneg xs) (by positivity)

theorem qabs_sq (xs : List ℚ) (h0 : xs ≠ []) : qabs xs ^ 2 ≤ qsq xs := by
  have hq : (0 : ℚ) < xs.length := by exact_mod_cast List.length_pos_iff.2 h0
  unfold qabs qsq
  rw [div_pow, div_le_div_iff₀ (by positivity) hq]
  have := cauchy_abs xs
  nlinarith

theorem qmean_le (xs : List ℚ) : |qmean xs| ≤ qabs xs := by
  unfold qmean qabs
  rw [abs_div, abs_of_nonneg (by positivity : (0 : ℚ) ≤ (xs.length : ℚ))]
  exact div_le_div_of_nonneg_right (abs_sum_le xs) (by positivity)

/-- The variance in double precision. -/
theorem varianceF_err (xs : List ℚ) (h : ∀ x ∈ xs, Moderate x) (h0 : xs ≠ []) (hn : xs.length ≤ 2 ^ 30) :
    |varianceF (sumF 0 (xs.map fun x => rne (x * x))) xs.length (meanF (sumF 0 xs) xs.length) - (qsq xs - qmean xs ^ 2)| ≤
      (growth (xs.length + 3) + growth (2 * xs.length + 4)) * qsq xs := by
  have hp : 0 < xs.length := List.length_pos_iff.2 h0
  have hq : (0 : ℚ) < xs.length := by exact_mod_cast hp
  set n := xs.length with hnd
  set m := meanF (sumF 0 xs) n
  set q2 := rne (sumF 0 (xs.map fun x => rne (x * x)) / n) with hq2
  have e2 : |q2 - qsq xs| ≤ growth (n + 2) * qsq xs := by
    refine rel_step (n + 1) (y := sumF 0 (xs.map fun x => rne (x * x)) / n) ?_ ?_ (rne_rel (-484) (by norm_num) (div_big (-454) _ hp hn (sumwx2_big xs h)))
    · unfold qsq
      rw [← sub_div, abs_div, abs_of_pos hq, ← mul_div_assoc]
      exact div_le_div_of_nonneg_right (sumwx2_err xs h) hq.le
    · rw [abs_of_nonneg (qsq_nonneg xs)]
  have e1 := meanF_err xs h h0 hn
  rw [← hnd] at e1
  change |m - qmean xs| ≤ _ at e1
  have g1 := growth_nonneg (n + 1)
  have ha := qabs_nonneg xs
  have hs := qsq_nonneg xs
  have hmu := qmean_le xs
  have e3 : |m * m - qmean xs ^ 2| ≤ growth (2 * n + 2) * qsq xs := by
    have t1 : m * m - qmean xs ^ 2 = (m - qmean xs) * (m - qmean xs) + 2 * qmean xs * (m - qmean xs) := by ring
    have t2 : |m * m - qmean xs ^ 2| ≤ |m - qmean xs| * |m - qmean xs| + 2 * |qmean xs| * |m - qmean xs| := by
      rw [t1]
      refine (abs_add_le _ _).trans (le_of_eq ?_)
      rw [abs_mul, abs_mul, abs_mul, abs_two]
    have t3 : |m - qmean xs| * |m - qmean xs| ≤ (growth (n + 1) * qabs xs) * (growth (n + 1) * qabs xs) :=
      mul_le_mul e1 e1 (abs_nonneg _) (by positivity)
    have t4 : |qmean xs| * |m - qmean xs| ≤ qabs xs * (growth (n + 1) * qabs xs) := mul_le_mul hmu e1 (abs_nonneg _) ha
    have t5 : growth (2 * n + 2) = growth (n + 1) + growth (n + 1) + growth (n + 1) * growth (n + 1) := by
      rw [show 2 * n + 2 = (n + 1) + (n + 1) by ring, growth_add]
    have t6 : |m * m - qmean xs ^ 2| ≤ growth (2 * n + 2) * qabs xs ^ 2 := by rw [t5]; nlinarith
    exact t6.trans (mul_le_mul_of_nonneg_left (qabs_sq xs h0) (growth_nonneg _))
  have hm2 : |qmean xs ^ 2| ≤ qsq xs := by
    rw [abs_of_nonneg (sq_nonneg _)]
    refine le_trans ?_ (qabs_sq xs h0)
    rw [← sq_abs]
    exact pow_le_pow_left₀ (abs_nonneg _) hmu 2
  have e4 : |rne (m * m) - qmean xs ^ 2| ≤ growth (2 * n + 3) * qsq xs := by
    refine rel_step (2 * n + 2) e3 hm2 (rne_rel (2 * -284) (by norm_num) (square_big _ (meanF_big xs h h0 hn)))
  have hd := rne_err_sub (rne_isF64 (sumF 0 (xs.map fun x => rne (x * x)) / n)) (rne_isF64 (m * m))
  change |rne (q2 - rne (m * m)) - (q2 - rne (m * m))| ≤ eps * |q2 - rne (m * m)| at hd
  change |rne (q2 - rne (m * m)) - (qsq xs - qmean xs ^ 2)| ≤ _
  have e5 : |(q2 - rne (m * m)) - (qsq xs - qmean xs ^ 2)| ≤ (growth (n + 2) + growth (2 * n + 3)) * qsq xs := by
    have : (q2 - rne (m * m)) - (qsq xs - qmean xs ^ 2) = (q2 - qsq xs) - (rne (m * m) - qmean xs ^ 2) := by ring
    rw [this]
    refine (abs_sub _ _).trans ?_
    linarith
  have hv : |qsq xs - qmean xs ^ 2| ≤ qsq xs := by
    rw [abs_of_nonneg (sq_nonneg _)] at hm2
    rw [abs_le]
    constructor <;> nlinarith [sq_nonneg (qmean xs)]
  have e6 : |q2 - rne (m * m)| ≤ (growth (n + 2) + growth (2 * n + 3)) * qsq xs + qsq xs := by
    have : q2 - rne (m * m) = ((q2 - rne (m * m)) - (qsq xs - qmean xs ^ 2)) + (qsq xs - qmean xs ^ 2) := by ring
    rw [this]
    refine (abs_add_le _ _).trans ?_
    linarith
  have he := eps_pos
  have e7 := mul_le_mul_of_nonneg_left e6 he.le
  have e8 : |rne (q2 - rne (m * m)) - (qsq xs - qmean xs ^ 2)| ≤ |rne (q2 - rne (m * m)) - (q2 - rne (m * m))| + |(q2 - rne (m * m)) - (qsq xs - qmean xs ^ 2)| := by
    refine le_trans (le_of_eq ?_) (abs_add_le _ _)
    congr 1; ring
  rw [show n + 3 = (n + 2) + 1 by ring, show 2 * n + 4 = (2 * n + 3) + 1 by ring, growth_succ (n + 2), growth_succ (2 * n + 3)]
  have : 0 ≤ eps * qsq xs := by positivity
  nlinarith

/-- Few operations: their error is at most twice the number of them times `2^-53`. -/
theorem growth_small (k : ℕ) (hk : k ≤ 2 ^ 32) : growth k ≤ 2 * k * eps := by
  have he := eps_pos
  have key : ∀ j : ℕ, j ≤ 2 ^ 32 → growth j ≤ 2 * j * eps := by
    intro j
    induction j with
    | zero => intro _; simp [growth]
    | succ j ih =>
      intro hj
      have h1 := ih (by omega)
      rw [growth_succ]
      have h2 : (j : ℚ) ≤ 2 ^ 32 := by exact_mod_cast (by omega : j ≤ 2 ^ 32)
      have h3 : growth j ≤ 1 := by
        refine h1.trans ?_
        unfold eps
        have : (2 : ℚ) * j * 2 ^ (-53 : ℤ) ≤ 2 * 2 ^ 32 * 2 ^ (-53 : ℤ) := by
          refine mul_le_mul_of_nonneg_right ?_ (by norm_num); linarith
        refine this.trans ?_
        norm_num
      push_cast
      nlinarith
  exact key k hk

end Verif
