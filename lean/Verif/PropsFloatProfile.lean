import Verif.FloatProfile
import Verif.PropsFloatSum

/-!
# Profiles in double precision: property theorems C118
-/

namespace Verif

/-- The values of the profile in the rows that are counted in bin `i`. -/
def BinAxis.inBin (a : BinAxis) (i : ℕ) (rows : List (Num × ℚ)) : List ℚ :=
  (rows.filter fun p => a.indexF p.1 = .ok (some (i : ℤ))).map (·.2)

/-- The exact variance: the mean of the squares of the distances from the mean. -/
def qvariance (xs : List ℚ) : ℚ := (xs.map fun x => (x - qmean xs) ^ 2).sum / xs.length

theorem profFill_all (a : BinAxis) : ∀ (bs : List (List (Num × ℚ))) (c : ProfF) (x x2 w : List ℚ),
    a.fillAllF c.sumwx bs = .ok x → a.fillAllF c.sumwx2 (bs.map fun b => b.map fun p => (p.1, rne (p.2 * p.2))) = .ok x2 →
    a.fillAllF c.sumw (bs.map fun b => b.map fun p => (p.1, (1 : ℚ))) = .ok w → a.profFillAll c bs = .ok ⟨x, x2, w⟩
  | [], c, x, x2, w, h1, h2, h3 => by
    simp only [BinAxis.fillAllF, List.map_nil, Except.ok.injEq] at h1 h2 h3
    subst h1; subst h2; subst h3
    rfl
  | b :: bs, c, x, x2, w, h1, h2, h3 => by
    simp only [List.map_cons, BinAxis.fillAllF] at h1 h2 h3
    cases e1 : a.fillF c.sumwx b with
    | error e => simp [e1] at h1
    | ok y =>
      cases e2 : a.fillF c.sumwx2 (b.map fun p => (p.1, rne (p.2 * p.2))) with
      | error e => simp [e2] at h2
      | ok y2 =>
        cases e3 : a.fillF c.sumw (b.map fun p => (p.1, (1 : ℚ))) with
        | error e => simp [e3] at h3
        | ok v =>
          simp only [e1] at h1
          simp only [e2] at h2
          simp only [e3] at h3
          have := profFill_all a bs ⟨y, y2, v⟩ x x2 w h1 h2 h3
          simp only [BinAxis.profFillAll, BinAxis.profFill, e1, e2, e3, this]

theorem inBin_map (a : BinAxis) (i : ℕ) (f : ℚ → ℚ) (rows : List (Num × ℚ)) :
    ((rows.map fun p => (p.1, f p.2)).filter fun p => a.indexF p.1 = .ok (some (i : ℤ))).map (·.2) = (a.inBin i rows).map f := by
  unfold BinAxis.inBin
  rw [List.filter_map, List.map_map, List.map_map]
  rfl

/-- **C118**: what a table shows for a profile in double precision, for every way to cut the data into batches: the mean
and error are computed from the values that are counted in the bin, in the order of the data. -/
theorem C118_table (a : BinAxis) (h : a.Ordinary) (bs : List (List (Num × ℚ))) (hn : bs.flatten.length ≤ 2 ^ 53) :
    ∃ c, a.profFillAll a.profZeros bs = .ok c ∧ c.table.length = a.totbins ∧ ∀ i < a.totbins, c.table[i]? =
      some (profCellF (sumF 0 (a.inBin i bs.flatten)) (sumF 0 ((a.inBin i bs.flatten).map fun x => rne (x * x))) (a.inBin i bs.flatten).length) := by
  obtain ⟨x, hx1, _, hx2, hx3⟩ := C106_batches a h bs
  obtain ⟨x2, hy1, _, hy2, hy3⟩ := C106_batches a h (bs.map fun b => b.map fun p => (p.1, rne (p.2 * p.2)))
  obtain ⟨w, hz1, hz2, hz3⟩ := C106_counts_partial a h (bs.map fun b => b.map (·.1)) (by
    rw [← List.map_flatten, List.length_map]; exact hn)
  have hz1' : a.fillAllF a.zerosF (bs.map fun b => b.map fun p => (p.1, (1 : ℚ))) = .ok w := by
    rw [← hz1, List.map_map]
    congr 1
    refine List.map_congr_left fun b _ => ?_
    simp [List.map_map, Function.comp_def]
  refine ⟨⟨x, x2, w⟩, profFill_all a bs a.profZeros x x2 w hx1 hy1 hz1', ?_, fun i hi => ?_⟩
  · simp [ProfF.table, hx2, hy2, hz2]
  · have e2 := hy3 i hi
    rw [← List.map_flatten, inBin_map a i (fun x => rne (x * x))] at e2
    have e3 := hz3 i hi
    have e4 : ((bs.map fun b => b.map (·.1)).flatten.countP fun v => a.indexF v = .ok (some (i : ℤ))) = (a.inBin i bs.flatten).length := by
      rw [← List.map_flatten, List.countP_map, List.countP_eq_length_filter, BinAxis.inBin, List.length_map]
      rfl
    rw [e4] at e3
    have e1 := hx3 i hi
    change x[i]? = some (sumF 0 (a.inBin i bs.flatten)) at e1
    simp only [ProfF.table, List.getElem?_zipWith, List.zip, e1, e2, e3]

/-- The variance as the difference of the mean of the squares and the square of the mean. -/
theorem qvariance_eq (xs : List ℚ) (h0 : xs ≠ []) : qvariance xs = qsq xs - qmean xs ^ 2 := by
  have hq : (0 : ℚ) < xs.length := by exact_mod_cast List.length_pos_iff.2 h0
  have key : ∀ (l : List ℚ) (m : ℚ), (l.map fun x => (x - m) ^ 2).sum = (l.map fun x => x ^ 2).sum - 2 * m * l.sum + l.length * m ^ 2 := by
    intro l m
    induction l with
    | nil => simp
    | cons x l ih => simp only [List.map_cons, List.sum_cons, List.length_cons, ih]; push_cast; ring
  unfold qvariance
  rw [key]
  unfold qsq qmean
  field_simp
  ring

/-- **C118** (partial): in a bin with `n` entries, the mean differs from the exact mean by at most `2(n+1)/2^53` of the
mean size of the values.  Missing: weights; the bound is not a fraction of the mean itself, for the mean can be small
by cancellation. -/
theorem C118_mean_partial (xs : List ℚ) (h : ∀ x ∈ xs, Moderate x) (h0 : xs ≠ []) (hn : xs.length ≤ 2 ^ 30) :
    |(profCellF (sumF 0 xs) (sumF 0 (xs.map fun x => rne (x * x))) xs.length).mean - qmean xs| ≤
      2 * (xs.length + 1) / 2 ^ 53 * qabs xs := by
  have hq : (0 : ℚ) < xs.length := by exact_mod_cast List.length_pos_iff.2 h0
  unfold profCellF
  rw [if_pos hq]
  refine (meanF_err xs h h0 hn).trans ?_
  have h1 := growth_small (xs.length + 1) (by omega)
  refine mul_le_mul_of_nonneg_right (h1.trans (le_of_eq ?_)) (qabs_nonneg xs)
  unfold eps
  push_cast
  norm_num
  ring

theorem variance_grid (xs : List ℚ) (h : ∀ x ∈ xs, Moderate x) (h0 : xs ≠ []) (hn : xs.length ≤ 2 ^ 30) :
    varianceF (sumF 0 (xs.map fun x => rne (x * x))) xs.length (meanF (sumF 0 xs) xs.length) = 0 ∨
      (2 : ℚ) ^ (-622 : ℤ) ≤ |varianceF (sumF 0 (xs.map fun x => rne (x * x))) xs.length (meanF (sumF 0 xs) xs.length)| := by
  have hp : 0 < xs.length := List.length_pos_iff.2 h0
  refine zero_or_ge _ (rne_grid _ ?_)
  obtain ⟨a, ha⟩ := f64_grid (rne_isF64 _) (-569) (by
    have := rne_half (-484) (by norm_num) (div_big (-454) _ hp hn (sumwx2_big xs h))
    rcases this with h1 | h1
    · exact Or.inl h1
    · exact Or.inr ((zpow_le_zpow_right₀ (by norm_num) (by norm_num)).trans h1))
  obtain ⟨b, hb⟩ := f64_grid (rne_isF64 _) (-569) (rne_half (2 * -284) (by norm_num) (square_big _ (meanF_big xs h h0 hn)))
  refine ⟨a - b, ?_⟩
  rw [ha, hb]
  push_cast
  ring

theorem rne_neg_iff {q : ℚ} (k : ℤ) (hk : -1022 ≤ k) (h : q = 0 ∨ (2 : ℚ) ^ k ≤ |q|) : rne q < 0 ↔ q < 0 := by
  constructor
  · intro h1
    by_contra h2
    exact absurd (rne_nonneg (not_lt.1 h2)) (not_le.2 h1)
  · intro h1
    have h2 := rne_rel k hk h
    rw [abs_of_neg h1, abs_le] at h2
    have : eps < 1 := by unfold eps; norm_num
    nlinarith [h2.2]

/-- **C118** (partial): in a bin with `n` entries, the table computes the square of the error of a profile up to
`(6n+16)/2^53` of the mean of the squares of the values (divided by `n`), and the error is NaN only if the exact variance
is less than `(6n+14)/2^53` of the mean of the squares: if the values spread by more than that, then it is a number.
Missing: values that spread less (`C118_refuted_nan`, `C118_refuted_lost`); weights. -/
theorem C118_error_partial (xs : List ℚ) (h : ∀ x ∈ xs, Moderate x) (h0 : xs ≠ []) (hn : xs.length ≤ 2 ^ 30) (cell : ProfCell)
    (hc : cell = profCellF (sumF 0 xs) (sumF 0 (xs.map fun x => rne (x * x))) xs.length) :
    (∀ r, cell.errorSq = some r → 0 ≤ r ∧ |r - qvariance xs / xs.length| ≤ (6 * xs.length + 16) / 2 ^ 53 * qsq xs / xs.length) ∧
    (cell.errorSq = none → qvariance xs < (6 * xs.length + 14) / 2 ^ 53 * qsq xs) := by
  have hp : 0 < xs.length := List.length_pos_iff.2 h0
  have hq : (0 : ℚ) < xs.length := by exact_mod_cast hp
  have hE : cell.errorSq = (profCellF (sumF 0 xs) (sumF 0 (xs.map fun x => rne (x * x))) xs.length).errorSq := by rw [hc]
  have hv1 : |varianceF (sumF 0 (xs.map fun x => rne (x * x))) xs.length (meanF (sumF 0 xs) xs.length) - qvariance xs| ≤
      (6 * xs.length + 14) / 2 ^ 53 * qsq xs := by
    rw [qvariance_eq xs h0]
    refine (varianceF_err xs h h0 hn).trans ?_
    refine mul_le_mul_of_nonneg_right ?_ (qsq_nonneg xs)
    have h1 := growth_small (xs.length + 3) (by omega)
    have h2 := growth_small (2 * xs.length + 4) (by omega)
    refine (add_le_add h1 h2).trans (le_of_eq ?_)
    unfold eps
    push_cast
    norm_num
    ring
  unfold profCellF at hE
  rw [if_pos hq] at hE
  have hb := div_big (-622) _ hp hn (variance_grid xs h h0 hn)
  have hrel := rne_rel _ (by norm_num) hb
  have hneg := rne_neg_iff _ (by norm_num) hb
  set v := varianceF (sumF 0 (xs.map fun x => rne (x * x))) xs.length (meanF (sumF 0 xs) xs.length)
  have hsq := qsq_nonneg xs
  have hvar : 0 ≤ qvariance xs ∧ qvariance xs ≤ qsq xs := by
    constructor
    · unfold qvariance
      refine div_nonneg (List.sum_nonneg ?_) hq.le
      intro y hy
      obtain ⟨x, _, rfl⟩ := List.mem_map.1 hy
      positivity
    · rw [qvariance_eq xs h0]
      have := sq_nonneg (qmean xs)
      linarith
  simp only at hE
  constructor
  · intro r hr
    rw [hr] at hE
    by_cases h1 : rne (v / xs.length) < 0
    · rw [if_pos h1] at hE; cases hE
    · rw [if_neg h1] at hE
      cases hE
      refine ⟨not_lt.1 h1, ?_⟩
      have hv0 : 0 ≤ v / xs.length := by
        by_contra h2
        exact h1 (hneg.2 (not_le.1 h2))
      have hv0' : 0 ≤ v := by
        have := mul_nonneg hv0 hq.le
        rwa [div_mul_cancel₀ _ hq.ne'] at this
      rw [abs_of_nonneg hv0] at hrel
      have hn53 : (xs.length : ℚ) ≤ 2 ^ 30 := by exact_mod_cast hn
      have hvle : v ≤ 2 * qsq xs := by
        have := (abs_le.1 hv1).2
        have h3 : (6 * (xs.length : ℚ) + 14) / 2 ^ 53 ≤ 1 := by
          rw [div_le_one (by positivity)]
          refine (by linarith : (6 * (xs.length : ℚ) + 14) ≤ 6 * 2 ^ 30 + 14).trans (by norm_num)
        nlinarith
      have h4 : |rne (v / xs.length) - qvariance xs / xs.length| ≤ |rne (v / xs.length) - v / xs.length| + |v / xs.length - qvariance xs / xs.length| := by
        refine le_trans (le_of_eq ?_) (abs_add_le _ _)
        congr 1; ring
      have h5 : |v / xs.length - qvariance xs / xs.length| ≤ (6 * xs.length + 14) / 2 ^ 53 * qsq xs / xs.length := by
        rw [← sub_div, abs_div, abs_of_pos hq]
        exact div_le_div_of_nonneg_right hv1 hq.le
      have h6 : eps * (v / xs.length) ≤ 2 / 2 ^ 53 * qsq xs / xs.length := by
        rw [← mul_div_assoc]
        refine div_le_div_of_nonneg_right ?_ hq.le
        have : eps = 1 / 2 ^ 53 := by unfold eps; rw [zpow_neg]; norm_num
        rw [this]
        nlinarith
      have h7 : (6 * (xs.length : ℚ) + 16) / 2 ^ 53 * qsq xs / xs.length =
          (6 * xs.length + 14) / 2 ^ 53 * qsq xs / xs.length + 2 / 2 ^ 53 * qsq xs / xs.length := by ring
      rw [h7]
      linarith
  · intro hr
    rw [hr] at hE
    by_cases h1 : rne (v / xs.length) < 0
    · have h2 := hneg.1 h1
      have hv0 : v < 0 := by
        have := mul_neg_of_neg_of_pos h2 hq
        rwa [div_mul_cancel₀ _ hq.ne'] at this
      have := (abs_le.1 hv1).1
      linarith
    · rw [if_neg h1] at hE; cases hE

/-- 1, 2 and 4 in one bin of the histogram: the mean of 7/3 and the error are near the exact ones. -/
example : (∀ x ∈ ([1, 2, 4] : List ℚ), Moderate x) ∧ qvariance [1, 2, 4] = 14 / 9 ∧ qsq [1, 2, 4] = 7 ∧
    (decimalBin 1 0 1).profFillAll (decimalBin 1 0 1).profZeros [[(.fin (1 / 2), 1), (.fin (1 / 2), 2)], [(.fin (1 / 2), 4)]] =
      .ok ⟨[0, 7, 0, 0], [0, 21, 0, 0], [0, 3, 0, 0]⟩ ∧
    (ProfF.table ⟨[0, 7, 0, 0], [0, 21, 0, 0], [0, 3, 0, 0]⟩)[1]? =
      some ⟨rne (7 / 3), some (rne (14 / 27) - 3 / 2 ^ 53)⟩ := by
  refine ⟨?_, by norm_num [qvariance, qmean], by norm_num [qsq], by decide +kernel, by decide +kernel⟩
  intro x hx
  simp only [List.mem_cons, List.not_mem_nil, or_false] at hx
  rcases hx with rfl | rfl | rfl
  · exact ⟨⟨1, 0, by norm_num, by norm_num, by norm_num⟩, Or.inr (by norm_num)⟩
  · exact ⟨⟨2, 0, by norm_num, by norm_num, by norm_num⟩, Or.inr (by norm_num)⟩
  · exact ⟨⟨4, 0, by norm_num, by norm_num, by norm_num⟩, Or.inr (by norm_num)⟩

/-- **C118**: a bin with one entry shows the value itself and the error zero. -/
theorem C118_single (x : ℚ) (h : IsF64 x) : profCellF (sumF 0 [x]) (sumF 0 [rne (x * x)]) 1 = ⟨x, some 0⟩ := by
  have e1 : sumF 0 [x] = x := by simp [sumF, rne_fix h]
  have e2 : sumF 0 [rne (x * x)] = rne (x * x) := by simp [sumF, rne_rne]
  unfold profCellF meanF varianceF
  rw [e1, e2]
  simp [rne_fix h, rne_rne, rne_zero]

example : IsF64 (rne (1 / 10)) := rne_isF64 _

/-- **C118**: `n` entries with the same integer `z` give exactly `z` and the error zero, as long as `n z^2` is at most
`2^53`. -/
theorem C118_same_integer (z : ℤ) (n : ℕ) (hn : 0 < n) (h : n * z ^ 2 ≤ 2 ^ 53) (h' : n * |z| ≤ 2 ^ 53) :
    profCellF (sumF 0 (List.replicate n (z : ℚ))) (sumF 0 ((List.replicate n (z : ℚ)).map fun x => rne (x * x))) n = ⟨z, some 0⟩ := by
  have hq : (0 : ℚ) < n := by exact_mod_cast hn
  have hn1 : (1 : ℤ) ≤ n := by exact_mod_cast hn
  have hz2 : z ^ 2 ≤ 2 ^ 53 := by nlinarith [sq_nonneg z]
  have hz1 : |z| ≤ 2 ^ 53 := by nlinarith [abs_nonneg z]
  have f2 : rne ((z : ℚ) * z) = ((z ^ 2 : ℤ) : ℚ) := by
    have : (z : ℚ) * z = ((z ^ 2 : ℤ) : ℚ) := by push_cast; ring
    rw [this]
    exact rne_fix (isF64_int _ (by rw [abs_of_nonneg (sq_nonneg z)]; exact hz2))
  have e1 : sumF 0 (List.replicate n (z : ℚ)) = ((n * z : ℤ) : ℚ) := by
    have := sumF_ints (List.replicate n z) 0 (by
      rw [List.map_replicate, List.sum_replicate, abs_zero, zero_add, nsmul_eq_mul]; exact h')
    rw [List.map_replicate] at this
    simpa using this
  have e2 : sumF 0 ((List.replicate n (z : ℚ)).map fun x => rne (x * x)) = ((n * z ^ 2 : ℤ) : ℚ) := by
    have := sumF_ints (List.replicate n (z ^ 2)) 0 (by
      rw [List.map_replicate, List.sum_replicate, abs_zero, zero_add, nsmul_eq_mul, abs_of_nonneg (sq_nonneg z)]; exact h)
    rw [List.map_replicate] at this
    rw [List.map_replicate, f2]
    simpa using this
  unfold profCellF meanF varianceF
  rw [e1, e2, if_pos hq]
  have d1 : ((n * z : ℤ) : ℚ) / n = z := by push_cast; field_simp
  have d2 : ((n * z ^ 2 : ℤ) : ℚ) / n = ((z ^ 2 : ℤ) : ℚ) := by push_cast; field_simp
  have r1 : rne (z : ℚ) = z := rne_fix (isF64_int _ hz1)
  have r2 : rne ((z ^ 2 : ℤ) : ℚ) = ((z ^ 2 : ℤ) : ℚ) := rne_fix (isF64_int _ (by rw [abs_of_nonneg (sq_nonneg z)]; exact hz2))
  simp only [d1, d2, r1, f2, r2]
  simp [rne_zero]

example : (3 : ℤ) * 1000 ^ 2 ≤ 2 ^ 53 := by norm_num

/-- **C118 is violated**: three entries of 0.1 in one bin: the number under the root of the error is negative, so that
the table shows NaN, although the values do not spread at all; and the mean that is shown is more than 0.1. -/
theorem C118_refuted_nan :
    ∃ c cell, (decimalBin 1 0 1).profFillAll (decimalBin 1 0 1).profZeros
        [[(.fin (1 / 2), rne (1 / 10)), (.fin (1 / 2), rne (1 / 10)), (.fin (1 / 2), rne (1 / 10))]] = .ok c ∧
      c.table[1]? = some cell ∧ cell.errorSq = none ∧ rne (1 / 10) < cell.mean :=
  ⟨⟨[0, rne (3 / 10) + 1 / 2 ^ 54, 0, 0], [0, sumF 0 (List.replicate 3 (rne (rne (1 / 10) * rne (1 / 10)))), 0, 0], [0, 3, 0, 0]⟩,
    ⟨rne (rne (1 / 10) + 1 / 2 ^ 56), none⟩, by decide +kernel, by decide +kernel, by decide +kernel, by decide +kernel⟩

/-- **C118 is violated**: two entries 100000000 and 100000001 spread by one, but the error that the table shows is
zero. -/
theorem C118_refuted_lost :
    profCellF (sumF 0 [100000000, 100000001]) (sumF 0 ([100000000, 100000001].map fun x => rne (x * x))) 2 =
      ⟨100000000 + 1 / 2, some 0⟩ ∧ qvariance [100000000, 100000001] = 1 / 4 := by
  refine ⟨by decide +kernel, ?_⟩
  norm_num [qvariance, qmean]

end Verif
