import Verif.FloatProfile
import Mathlib.Data.Nat.Sqrt

/-!
# Square roots with the machine's arithmetic

`numpy.sqrt` gives the double that is nearest to the root (IEEE 754 asks for this), and the errors in a table with it.
Infinite and NaN contents are not modelled here, and neither are numbers too large for a double.
-/

namespace Verif

/-- The exponent of the last bit of a double near the root of `q`. -/
def rootBit (q : ℚ) : ℤ := ilog2 q / 2 - 52

/-- The root rounded down to 53 bits, in units of the last of them. -/
def rootFloor (q : ℚ) : ℕ := Nat.sqrt ⌊q / (pow2 (rootBit q) * pow2 (rootBit q))⌋.toNat

/-- `numpy.sqrt` (proj.py 581, 583, 611) of a number that is not negative: the root rounded to the nearest double, ties
to even. -/
def sqrtF (q : ℚ) : ℚ :=
  if q ≤ 0 then 0
  else
    let m := rootFloor q
    let u := pow2 (rootBit q)
    let mid := (((m : ℚ) + 1 / 2) * u) ^ 2
    if q < mid ∨ (q = mid ∧ m % 2 = 0) then m * u else ((m + 1 : ℕ) : ℚ) * u

/-- The columns of a histogram with weights in each bin (hist.py 222-226): `_sumwindex`, `_sumw2index`. -/
structure WeightF where
  sumw : List ℚ
  sumw2 : List ℚ
  deriving DecidableEq

/-- hist.py:382 `numpy.zeros`. -/
def BinAxis.weightZeros (a : BinAxis) : WeightF := ⟨a.zerosF, a.zerosF⟩

/-- hist.py:423-440 `fillblock` with weights: a row has a value for the `bin` axis and a weight; the second goal of a
weight is its product with itself (hist.py 225-226). -/
def BinAxis.weightFill (a : BinAxis) (c : WeightF) (rows : List (Num × ℚ)) : Except Err WeightF :=
  match a.fillF c.sumw rows, a.fillF c.sumw2 (rows.map fun p => (p.1, rne (p.2 * p.2))) with
  | .ok w, .ok w2 => .ok ⟨w, w2⟩
  | .error e, _ => .error e
  | _, .error e => .error e

/-- One `fill` after the other. -/
def BinAxis.weightFillAll (a : BinAxis) : WeightF → List (List (Num × ℚ)) → Except Err WeightF
  | c, [] => .ok c
  | c, b :: bs =>
    match a.weightFill c b with
    | .error e => .error e
    | .ok c => a.weightFillAll c bs

/-- proj.py:574-585, a histogram without weights: the content and its error in each bin. -/
def countTable (sumw : List ℚ) : List (ℚ × ℚ) := sumw.map fun n => (n, sqrtF n)

/-- proj.py:574-585, a histogram with weights. -/
def WeightF.table (c : WeightF) : List (ℚ × ℚ) := List.zipWith (fun w w2 => (w, sqrtF w2)) c.sumw c.sumw2

/-! ## The rounded root -/

theorem rootFloor_spec {q : ℚ} (hq : 0 < q) :
    ((rootFloor q : ℚ) * 2 ^ rootBit q) ^ 2 ≤ q ∧ q < (((rootFloor q : ℚ) + 1) * 2 ^ rootBit q) ^ 2 ∧
      2 ^ 52 ≤ rootFloor q ∧ rootFloor q < 2 ^ 53 := by
  set b := rootBit q with hb
  set u : ℚ := 2 ^ b with hu
  have hup : 0 < u := two_zpow_pos b
  set N := ⌊q / (pow2 b * pow2 b)⌋.toNat with hN
  have hm : rootFloor q = Nat.sqrt N := rfl
  have hpw : pow2 b * pow2 b = u ^ 2 := by rw [pow2_eq, sq]
  have h0 : 0 ≤ q / u ^ 2 := by positivity
  have hNc : ((N : ℕ) : ℚ) = (⌊q / u ^ 2⌋ : ℤ) := by
    rw [hN, hpw]
    have : 0 ≤ ⌊q / u ^ 2⌋ := Int.floor_nonneg.2 h0
    have h2 := Int.toNat_of_nonneg this
    calc ((⌊q / u ^ 2⌋.toNat : ℕ) : ℚ) = ((⌊q / u ^ 2⌋.toNat : ℤ) : ℚ) := by push_cast; rfl
      _ = _ := by rw [h2]
  have h1 : (N : ℚ) ≤ q / u ^ 2 := by rw [hNc]; exact Int.floor_le _
  have h2 : q / u ^ 2 < (N : ℚ) + 1 := by rw [hNc]; exact Int.lt_floor_add_one _
  have s1 : (Nat.sqrt N) ^ 2 ≤ N := Nat.sqrt_le' N
  have s2 : N < (Nat.sqrt N + 1) ^ 2 := Nat.lt_succ_sqrt' N
  have hlo : ((rootFloor q : ℚ) * u) ^ 2 ≤ q := by
    have : ((Nat.sqrt N : ℕ) : ℚ) ^ 2 ≤ q / u ^ 2 := le_trans (by exact_mod_cast s1) h1
    rw [le_div_iff₀ (by positivity)] at this
    rw [hm, mul_pow]; exact this
  have hhi : q < (((rootFloor q : ℚ) + 1) * u) ^ 2 := by
    have h3 : (N : ℚ) + 1 ≤ ((Nat.sqrt N : ℕ) + 1 : ℚ) ^ 2 := by exact_mod_cast s2
    have : q / u ^ 2 < ((Nat.sqrt N : ℕ) + 1 : ℚ) ^ 2 := lt_of_lt_of_le h2 h3
    rw [div_lt_iff₀ (by positivity)] at this
    rw [hm, mul_pow]; exact this
  obtain ⟨l1, l2⟩ := ilog2_spec q hq.ne'
  rw [abs_of_pos hq] at l1 l2
  -- the root is between 2^k and 2^(k+1)
  have hk1 : ((2 : ℚ) ^ 52 * u) ^ 2 ≤ q := by
    refine le_trans ?_ l1
    have : ((2 : ℚ) ^ 52 * u) ^ 2 = 2 ^ (2 * (ilog2 q / 2)) := by
      rw [hu, hb, rootBit, ← zpow_natCast, ← zpow_natCast, ← zpow_add₀ (by norm_num), ← zpow_mul]
      congr 1; push_cast; ring
    rw [this]
    exact two_zpow_le (by omega)
  have hk2 : q < ((2 : ℚ) ^ 53 * u) ^ 2 := by
    refine lt_of_lt_of_le l2 ?_
    have : ((2 : ℚ) ^ 53 * u) ^ 2 = 2 ^ (2 * (ilog2 q / 2) + 2) := by
      rw [hu, hb, rootBit, ← zpow_natCast, ← zpow_natCast, ← zpow_add₀ (by norm_num), ← zpow_mul]
      congr 1; push_cast; ring
    rw [this]
    exact two_zpow_le (by omega)
  refine ⟨hlo, hhi, ?_, ?_⟩
  · by_contra hc
    have h3 : (rootFloor q : ℚ) + 1 ≤ 2 ^ 52 := by exact_mod_cast Nat.lt_of_not_le hc
    have : (((rootFloor q : ℚ) + 1) * u) ^ 2 ≤ ((2 : ℚ) ^ 52 * u) ^ 2 := by
      refine pow_le_pow_left₀ (by positivity) (mul_le_mul_of_nonneg_right h3 hup.le) 2
    linarith
  · by_contra hc
    have h3 : (2 : ℚ) ^ 53 ≤ rootFloor q := by exact_mod_cast Nat.le_of_not_lt hc
    have : ((2 : ℚ) ^ 53 * u) ^ 2 ≤ ((rootFloor q : ℚ) * u) ^ 2 :=
      pow_le_pow_left₀ (by positivity) (mul_le_mul_of_nonneg_right h3 hup.le) 2
    linarith

/-- The two candidates. -/
theorem sqrtF_cases {q : ℚ} (hq : 0 < q) :
    (sqrtF q = (rootFloor q : ℚ) * 2 ^ rootBit q ∧ q ≤ (((rootFloor q : ℚ) + 1 / 2) * 2 ^ rootBit q) ^ 2) ∨
    (sqrtF q = ((rootFloor q : ℚ) + 1) * 2 ^ rootBit q ∧ (((rootFloor q : ℚ) + 1 / 2) * 2 ^ rootBit q) ^ 2 ≤ q) := by
  unfold sqrtF
  rw [if_neg (not_le.2 hq)]
  simp only [pow2_eq]
  split_ifs with h
  · exact .inl ⟨rfl, by rcases h with h | h; exacts [h.le, h.1.le]⟩
  · refine .inr ⟨by push_cast; ring, ?_⟩
    rw [not_or] at h
    exact not_lt.1 h.1

theorem sqrtF_nonneg (q : ℚ) : 0 ≤ sqrtF q := by
  rcases le_or_gt q 0 with h | h
  · unfold sqrtF; rw [if_pos h]
  · have := two_zpow_pos (rootBit q)
    rcases sqrtF_cases h with ⟨h, -⟩ | ⟨h, -⟩ <;> rw [h] <;> positivity

theorem isF64_ge {q : ℚ} (hq : IsF64 q) (h : 0 < q) : (2 : ℚ) ^ (-1074 : ℤ) ≤ q := by
  obtain ⟨k, hk⟩ := isF64_grid hq
  have hp := two_zpow_pos (-1074)
  have : (0 : ℚ) < k := by
    by_contra hc
    have : (k : ℚ) * 2 ^ (-1074 : ℤ) ≤ 0 := mul_nonpos_of_nonpos_of_nonneg (not_lt.1 hc) hp.le
    linarith
  have h1 : (1 : ℚ) ≤ k := by
    have : 0 < k := by exact_mod_cast this
    exact_mod_cast this
  rw [hk]
  nlinarith

theorem rootBit_ge {q : ℚ} (hq : IsF64 q) (h : 0 < q) : -1074 ≤ rootBit q := by
  have h1 := isF64_ge hq h
  have h2 : ilog2 ((2 : ℚ) ^ (-1074 : ℤ)) ≤ ilog2 q := ilog2_mono (two_zpow_pos _).ne' (by
    rw [abs_of_pos (two_zpow_pos _), abs_of_pos h]; exact h1)
  have h3 : ilog2 ((2 : ℚ) ^ (-1074 : ℤ)) = -1074 := ilog2_unique _ (two_zpow_pos _).ne' _
    (by rw [abs_of_pos (two_zpow_pos _)]) (by rw [abs_of_pos (two_zpow_pos _)]; exact two_zpow_lt (by omega))
  unfold rootBit
  omega

theorem sqrtF_isF64 {q : ℚ} (hq : IsF64 q) : IsF64 (sqrtF q) := by
  rcases le_or_gt q 0 with h | h
  · unfold sqrtF; rw [if_pos h]; exact isF64_zero
  · obtain ⟨-, -, h3, h4⟩ := rootFloor_spec h
    have hb := rootBit_ge hq h
    rcases sqrtF_cases h with ⟨he, -⟩ | ⟨he, -⟩
    · exact ⟨rootFloor q, rootBit q, by rw [abs_of_nonneg (by positivity)]; exact_mod_cast h4.le, hb, by rw [he]; push_cast; rfl⟩
    · exact ⟨rootFloor q + 1, rootBit q, by rw [abs_of_nonneg (by positivity)]; exact_mod_cast h4, hb, by rw [he]; push_cast; rfl⟩

/-- There is no double between the two candidates. -/
theorem root_gap {q f : ℚ} (hq : 0 < q) (hf : IsF64 f) :
    f ≤ (rootFloor q : ℚ) * 2 ^ rootBit q ∨ ((rootFloor q : ℚ) + 1) * 2 ^ rootBit q ≤ f := by
  obtain ⟨-, -, h3, -⟩ := rootFloor_spec hq
  have hu := two_zpow_pos (rootBit q)
  by_contra hc
  rw [not_or, not_le, not_le] at hc
  obtain ⟨c1, c2⟩ := hc
  have h52 : (2 : ℚ) ^ (rootBit q + 52) ≤ f := by
    refine le_trans ?_ c1.le
    rw [add_comm, two_zpow_add]
    refine mul_le_mul_of_nonneg_right ?_ hu.le
    have : ((2 ^ 52 : ℕ) : ℚ) ≤ rootFloor q := by exact_mod_cast h3
    refine le_trans (le_of_eq ?_) this
    norm_num
  have hfp : 0 < f := lt_of_lt_of_le (two_zpow_pos _) h52
  have hl : rootBit q + 52 ≤ ilog2 f := by
    have h4 := (ilog2_spec f hfp.ne').2
    rw [abs_of_pos hfp] at h4
    have := two_zpow_lt_iff.1 (lt_of_le_of_lt h52 h4)
    omega
  have hl2 : rootBit q ≤ lastBit f := by unfold lastBit; omega
  obtain ⟨k, hk⟩ := isF64_multiple hfp.ne' hf
  rw [zpow_multiple hl2, ← mul_assoc] at hk
  set z : ℤ := k * 2 ^ (lastBit f - rootBit q).toNat with hz
  have hfz : f = (z : ℚ) * 2 ^ rootBit q := by rw [hk, hz]; push_cast; ring
  rw [hfz] at c1 c2
  have d1 : (rootFloor q : ℚ) < z := lt_of_mul_lt_mul_right c1 hu.le
  have d2 : (z : ℚ) < (rootFloor q : ℚ) + 1 := lt_of_mul_lt_mul_right c2 hu.le
  have e1 : (rootFloor q : ℤ) < z := by exact_mod_cast d1
  have e2 : z < (rootFloor q : ℤ) + 1 := by exact_mod_cast d2
  omega

end Verif
