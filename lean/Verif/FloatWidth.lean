import Verif.FloatBin

/-!
# The published bin width with the machine's arithmetic
-/

namespace Verif

/-- `numpy.nextafter(q, 0)` for a positive double. -/
def nextDown (q : ℚ) : ℚ :=
  if q = pow2 (ilog2 q) ∧ -1074 < lastBit q then q - pow2 (lastBit q - 1) else q - pow2 (lastBit q)

/-- axis.py:638-639: the loop of `bin.binwidth`; `none` stands for a loop that has not ended after the given
number of rounds. -/
def binwidthLoop (numer denom delta : ℚ) : ℕ → ℚ → Option ℚ
  | 0, _ => none
  | k + 1, approx => if numer ≤ rne (approx * denom) then binwidthLoop numer denom delta k (rne (approx - delta)) else some approx

/-- axis.py:632-640 `bin.binwidth`, the loop limited to `fuel` rounds. -/
def BinAxis.binwidthF (a : BinAxis) (fuel : ℕ) : Except Err (Option ℚ) :=
  let numer := rne (rne a.high - rne a.low)
  let denom := rne (a.numbins : ℚ)
  if denom = 0 then .error .zeroDivision
  else
    let approx := rne (numer / denom)
    .ok (binwidthLoop numer denom (rne (approx - nextDown approx)) fuel approx)

/-- Two multiples of a number are at least that number apart. -/
theorem grid_lt {f q g : ℚ} (hg : 0 < g) (i j : ℤ) (hf : f = i * g) (hq : q = j * g) (h : f < q) : f ≤ q - g := by
  rw [hf, hq] at h ⊢
  have : (i : ℚ) < j := lt_of_mul_lt_mul_right h hg.le
  have h2 : i + 1 ≤ j := by exact_mod_cast this
  have h3 : (i : ℚ) + 1 ≤ j := by exact_mod_cast h2
  nlinarith

theorem zpow_multiple' {a b : ℤ} (h : a ≤ b) (k : ℤ) : ∃ j : ℤ, (k : ℚ) * 2 ^ b = j * (2 : ℚ) ^ a := by
  refine ⟨k * 2 ^ (b - a).toNat, ?_⟩
  have := zpow_multiple h
  push_cast at this ⊢
  rw [mul_assoc, ← this]

/-- `nextDown` gives the greatest double below. -/
theorem nextDown_spec {q : ℚ} (hq : IsF64 q) (h0 : 0 < q) :
    IsF64 (nextDown q) ∧ nextDown q < q ∧ ∀ f, IsF64 f → f < q → f ≤ nextDown q := by
  obtain ⟨m, hm⟩ := isF64_multiple h0.ne' hq
  have hs := ilog2_spec q h0.ne'
  rw [abs_of_pos h0] at hs
  have hp := two_zpow_pos (lastBit q)
  have hm0 : 0 < m := by
    have : (0 : ℚ) < m := by
      rw [hm] at h0; exact pos_of_mul_pos_left h0 hp.le
    exact_mod_cast this
  unfold nextDown
  simp only [pow2_eq]
  by_cases hc : q = 2 ^ ilog2 q ∧ -1074 < lastBit q
  · rw [if_pos hc]
    obtain ⟨hc1, hc2⟩ := hc
    have hlb : lastBit q = ilog2 q - 52 := by unfold lastBit at *; omega
    have hp1 := two_zpow_pos (lastBit q - 1)
    have hq53 : q = ((2 ^ 53 : ℤ) : ℚ) * 2 ^ (lastBit q - 1) := by
      conv_lhs => rw [hc1]
      rw [show ilog2 q = 53 + (lastBit q - 1) by omega, two_zpow_add]
      norm_num
    refine ⟨⟨2 ^ 53 - 1, lastBit q - 1, by norm_num, by omega, ?_⟩, by linarith, ?_⟩
    · rw [Int.cast_sub, Int.cast_one, sub_mul, one_mul, ← hq53]
    · intro f hf hfq
      rcases le_or_gt f 0 with hf0 | hf0
      · have : (2 : ℚ) ^ (lastBit q - 1) ≤ q := by
          refine le_trans (two_zpow_le ?_) hs.1
          omega
        linarith
      · have hif : ilog2 f < ilog2 q := ilog2_lt hf0.ne' (by rw [abs_of_pos hf0, ← hc1]; exact hfq)
        rcases lt_or_eq_of_le (by omega : ilog2 f ≤ ilog2 q - 1) with hlt | heq
        · have hfs := (ilog2_spec f hf0.ne').2
          rw [abs_of_pos hf0] at hfs
          have h1 : f < 2 ^ (ilog2 q - 1) := lt_of_lt_of_le hfs (two_zpow_le (by omega))
          have h2 : q = 2 ^ (ilog2 q - 1) + 2 ^ (ilog2 q - 1) := by
            conv_lhs => rw [hc1, show ilog2 q = 1 + (ilog2 q - 1) by omega, two_zpow_add]
            ring
          have h3 : (2 : ℚ) ^ (lastBit q - 1) ≤ 2 ^ (ilog2 q - 1) := two_zpow_le (by omega)
          linarith
        · obtain ⟨k, hk⟩ := isF64_multiple hf0.ne' hf
          have hlf : lastBit f = lastBit q - 1 := by unfold lastBit at *; omega
          rw [hlf] at hk
          exact grid_lt hp1 k (2 ^ 53) hk hq53 hfq
  · rw [if_neg hc]
    have hq1 : q - 2 ^ lastBit q = ((m - 1 : ℤ) : ℚ) * 2 ^ lastBit q := by
      push_cast; rw [sub_mul, ← hm]; ring
    refine ⟨⟨m - 1, lastBit q, ?_, by unfold lastBit; omega, hq1⟩, by linarith, ?_⟩
    · have : (m : ℚ) ≤ 2 ^ 53 := by
        have h1 : q ≤ 2 ^ (53 : ℤ) * 2 ^ lastBit q := by
          rw [← two_zpow_add]
          exact hs.2.le.trans (two_zpow_le (by unfold lastBit; omega))
        conv_lhs at h1 => rw [hm]
        have := le_of_mul_le_mul_right h1 hp
        exact_mod_cast this
      have hm53 : m ≤ 2 ^ 53 := by exact_mod_cast this
      rw [abs_le]; constructor <;> omega
    · intro f hf hfq
      rcases le_or_gt f 0 with hf0 | hf0
      · have : (0 : ℚ) ≤ ((m - 1 : ℤ) : ℚ) * 2 ^ lastBit q := mul_nonneg (by exact_mod_cast (by omega : (0 : ℤ) ≤ m - 1)) hp.le
        linarith
      · obtain ⟨k, hk⟩ := isF64_multiple hf0.ne' hf
        have hif : ilog2 f ≤ ilog2 q := ilog2_mono hf0.ne' (by rw [abs_of_pos hf0, abs_of_pos h0]; exact hfq.le)
        have hlf : lastBit f ≤ lastBit q := by unfold lastBit; omega
        rcases lt_or_eq_of_le hlf with hlt | heq
        · -- `f` is in a lower binade, and `q` is not the power of two that begins its binade
          have hlb : lastBit q = ilog2 q - 52 := by unfold lastBit at *; omega
          have hne : q ≠ 2 ^ ilog2 q := fun h => hc ⟨h, by unfold lastBit at *; omega⟩
          have hfs := (ilog2_spec f hf0.ne').2
          rw [abs_of_pos hf0] at hfs
          have h1 : f < 2 ^ ilog2 q := lt_of_lt_of_le hfs (two_zpow_le (by unfold lastBit at *; omega))
          have h2 : (2 : ℚ) ^ ilog2 q < q := lt_of_le_of_ne hs.1 (Ne.symm hne)
          have := grid_lt hp _ m (zpow_multiple (by omega : lastBit q ≤ ilog2 q)) hm h2
          linarith
        · rw [heq] at hk
          exact grid_lt hp k m hk hm hfq

/-- The step of the loop: between `2^-53` and `2^-52` of the number. -/
theorem nextDown_step {q : ℚ} (h0 : (2 : ℚ) ^ (-1000 : ℤ) ≤ q) :
    rne (q - nextDown q) = q - nextDown q ∧ eps * q ≤ q - nextDown q ∧ q - nextDown q ≤ 2 * eps * q := by
  have hq0 : 0 < q := lt_of_lt_of_le (two_zpow_pos _) h0
  have hs := ilog2_spec q hq0.ne'
  rw [abs_of_pos hq0] at hs
  have hi : -1000 ≤ ilog2 q := by
    have := two_zpow_lt_iff.1 (lt_of_le_of_lt h0 hs.2)
    omega
  have hlb : lastBit q = ilog2 q - 52 := by unfold lastBit; omega
  unfold nextDown
  simp only [pow2_eq]
  by_cases hc : q = 2 ^ ilog2 q ∧ -1074 < lastBit q
  · rw [if_pos hc]
    have e : q - (q - 2 ^ (lastBit q - 1)) = 2 ^ (lastBit q - 1) := by ring
    have e2 : (2 : ℚ) ^ (lastBit q - 1) = eps * q := by
      conv_rhs => rw [hc.1]
      unfold eps
      rw [← two_zpow_add, hlb]; congr 1; ring
    rw [e]
    refine ⟨rne_fix (isF64_zpow _ (by omega)), e2.ge, ?_⟩
    rw [e2]
    have := mul_pos eps_pos hq0
    linarith
  · rw [if_neg hc]
    have e : q - (q - 2 ^ lastBit q) = 2 ^ lastBit q := by ring
    have e2 : (2 : ℚ) ^ lastBit q = 2 * eps * 2 ^ ilog2 q := by
      unfold eps
      rw [hlb, show ilog2 q - 52 = 1 + -53 + ilog2 q by ring, two_zpow_add, two_zpow_add]; norm_num
    have he := eps_pos
    rw [e]
    refine ⟨rne_fix (isF64_zpow _ (by omega)), ?_, ?_⟩
    · rw [e2]
      have : q < 2 * 2 ^ ilog2 q := by
        have h2 := hs.2
        rw [two_zpow_add] at h2
        linarith
      have := mul_lt_mul_of_pos_left this he
      linarith
    · rw [e2]
      exact mul_le_mul_of_nonneg_left hs.1 (by linarith)

/-- The number is a multiple of the step, with at most 53 bits. -/
theorem nextDown_grid {q : ℚ} (hq : IsF64 q) (h0 : (2 : ℚ) ^ (-1000 : ℤ) ≤ q) :
    ∃ e j : ℤ, -1074 ≤ e ∧ q - nextDown q = 2 ^ e ∧ q = j * (2 : ℚ) ^ e ∧ 2 ^ 52 ≤ j ∧ j ≤ 2 ^ 53 := by
  have hq0 : 0 < q := lt_of_lt_of_le (two_zpow_pos _) h0
  have hs := ilog2_spec q hq0.ne'
  rw [abs_of_pos hq0] at hs
  have hi : -1000 ≤ ilog2 q := by
    have := two_zpow_lt_iff.1 (lt_of_le_of_lt h0 hs.2)
    omega
  have hlb : lastBit q = ilog2 q - 52 := by unfold lastBit; omega
  unfold nextDown
  simp only [pow2_eq]
  by_cases hc : q = 2 ^ ilog2 q ∧ -1074 < lastBit q
  · rw [if_pos hc]
    refine ⟨lastBit q - 1, 2 ^ 53, by omega, by ring, ?_, by norm_num, le_rfl⟩
    conv_lhs => rw [hc.1]
    rw [show ilog2 q = 53 + (lastBit q - 1) by omega, two_zpow_add]
    norm_num
  · rw [if_neg hc]
    obtain ⟨m, hm⟩ := isF64_multiple hq0.ne' hq
    have hp := two_zpow_pos (lastBit q)
    have h1 : (2 : ℚ) ^ (52 : ℤ) * 2 ^ lastBit q ≤ m * 2 ^ lastBit q := by
      rw [← hm, ← two_zpow_add, hlb, show (52 : ℤ) + (ilog2 q - 52) = ilog2 q by ring]; exact hs.1
    have h2 : (m : ℚ) * 2 ^ lastBit q ≤ (2 : ℚ) ^ (53 : ℤ) * 2 ^ lastBit q := by
      rw [← hm, ← two_zpow_add, hlb, show (53 : ℤ) + (ilog2 q - 52) = ilog2 q + 1 by ring]; exact hs.2.le
    have h1' := le_of_mul_le_mul_right h1 hp
    have h2' := le_of_mul_le_mul_right h2 hp
    exact ⟨lastBit q, m, by omega, by ring, hm, by exact_mod_cast h1', by exact_mod_cast h2'⟩

/-- A product below a double by more than one rounding stays below it. -/
theorem rne_lt {x q : ℚ} (hq : IsF64 q) (h0 : (2 : ℚ) ^ (-1000 : ℤ) ≤ q) (h : x < (1 - eps) * q) : rne x < q := by
  have he := eps_pos
  have hq0 : 0 < q := lt_of_lt_of_le (two_zpow_pos _) h0
  by_contra hc
  rw [not_lt] at hc
  -- the double before `q` would be at least as near
  obtain ⟨hn, hlt, _⟩ := nextDown_spec hq hq0
  obtain ⟨_, _, hstep⟩ := nextDown_step h0
  have h1 := rne_nearest x (nextDown q) hn
  have hxq : x < q := by nlinarith
  rw [abs_of_nonneg (by linarith : 0 ≤ rne x - x)] at h1
  rcases le_total x (nextDown q) with h2 | h2
  · have := rne_mono h2
    rw [rne_fix hn] at this
    linarith
  · rw [abs_of_nonpos (by linarith)] at h1
    nlinarith

end Verif
