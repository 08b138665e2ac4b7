import Verif.Proj
import Mathlib.Tactic.Linarith
import Mathlib.Tactic.Positivity
import Mathlib.Tactic.Ring
import Mathlib.Tactic.FieldSimp

/-!
# Rounding of the machine's numbers

numpy computes with IEEE 754 double precision numbers: every addition, multiplication and
division gives the exact result rounded to the nearest number with 53 significant bits and
exponent at least -1074, ties to even.  This file defines that rounding on the rationals.
Simplification: numbers of 2^1024 and more are not turned into infinity, and the sign of zero
is not kept.
-/

namespace Verif

/-- `2 ^ k`, through powers of naturals. -/
def pow2 : ℤ → ℚ
  | .ofNat n => ((2 ^ n : ℕ) : ℚ)
  | .negSucc n => 1 / ((2 ^ (n + 1) : ℕ) : ℚ)

/-- The exponent of the leading bit of a number. -/
def ilog2 (q : ℚ) : ℤ :=
  let k : ℤ := (Nat.log2 q.num.natAbs : ℤ) - (Nat.log2 q.den : ℤ)
  if pow2 k ≤ |q| then k else k - 1

/-- The exponent of the last bit that a double near `q` has. -/
def lastBit (q : ℚ) : ℤ := max (ilog2 q - 52) (-1074)

/-- Rounding to the nearest double, ties to even. -/
def rne (q : ℚ) : ℚ := (pyRound (q / pow2 (lastBit q)) : ℤ) * pow2 (lastBit q)

/-- The numbers that doubles can be: 53 bits times a power of two, not below 2^-1074. -/
def IsF64 (q : ℚ) : Prop := ∃ m e : ℤ, |m| ≤ 2 ^ 53 ∧ -1074 ≤ e ∧ q = m * (2 : ℚ) ^ e

theorem pow2_eq (k : ℤ) : pow2 k = (2 : ℚ) ^ k := by
  cases k with
  | ofNat n => simp [pow2]
  | negSucc n => simp [pow2, zpow_negSucc]

theorem two_zpow_pos (k : ℤ) : (0 : ℚ) < 2 ^ k := zpow_pos (by norm_num) k

theorem two_zpow_lt {a b : ℤ} (h : a < b) : (2 : ℚ) ^ a < 2 ^ b := zpow_lt_zpow_right₀ (by norm_num) h

theorem two_zpow_le {a b : ℤ} (h : a ≤ b) : (2 : ℚ) ^ a ≤ 2 ^ b := zpow_le_zpow_right₀ (by norm_num) h

theorem two_zpow_lt_iff {a b : ℤ} : (2 : ℚ) ^ a < 2 ^ b ↔ a < b := by
  constructor
  · intro h
    by_contra hc
    exact absurd (two_zpow_le (not_lt.1 hc)) (not_le.2 h)
  · exact two_zpow_lt

theorem two_zpow_add (a b : ℤ) : (2 : ℚ) ^ (a + b) = 2 ^ a * 2 ^ b := zpow_add₀ (by norm_num) a b

theorem ilog2_spec (q : ℚ) (hq : q ≠ 0) : (2 : ℚ) ^ ilog2 q ≤ |q| ∧ |q| < 2 ^ (ilog2 q + 1) := by
  have hn : q.num.natAbs ≠ 0 := by simpa using hq
  have hd : q.den ≠ 0 := q.den_nz
  have a1 : 2 ^ Nat.log2 q.num.natAbs ≤ q.num.natAbs := Nat.log2_self_le hn
  have a2 : q.num.natAbs < 2 ^ (Nat.log2 q.num.natAbs + 1) := Nat.lt_log2_self
  have b1 : 2 ^ Nat.log2 q.den ≤ q.den := Nat.log2_self_le hd
  have b2 : q.den < 2 ^ (Nat.log2 q.den + 1) := Nat.lt_log2_self
  generalize hA : Nat.log2 q.num.natAbs = A at *
  generalize hB : Nat.log2 q.den = B at *
  have hq' : |q| = (q.num.natAbs : ℚ) / q.den := by
    conv_lhs => rw [← Rat.num_div_den q]
    rw [abs_div, Nat.abs_cast, Nat.cast_natAbs, Int.cast_abs]
  have a1' : (2 : ℚ) ^ A ≤ q.num.natAbs := by exact_mod_cast a1
  have a2' : (q.num.natAbs : ℚ) < 2 ^ (A + 1) := by exact_mod_cast a2
  have b1' : (2 : ℚ) ^ B ≤ q.den := by exact_mod_cast b1
  have b2' : (q.den : ℚ) < 2 ^ (B + 1) := by exact_mod_cast b2
  have hdp : (0 : ℚ) < q.den := by exact_mod_cast q.den_pos
  have h2B : (0 : ℚ) < 2 ^ B := by positivity
  have up : |q| < 2 ^ ((A : ℤ) - B + 1) := by
    rw [hq', div_lt_iff₀ hdp]
    have : (2 : ℚ) ^ ((A : ℤ) - B + 1) * 2 ^ B = 2 ^ (A + 1) := by
      rw [← zpow_natCast, ← zpow_natCast, ← two_zpow_add]; congr 1; push_cast; ring
    calc _ < (2 : ℚ) ^ (A + 1) := a2'
      _ = 2 ^ ((A : ℤ) - B + 1) * 2 ^ B := this.symm
      _ ≤ _ := mul_le_mul_of_nonneg_left b1' (two_zpow_pos _).le
  have lo : (2 : ℚ) ^ ((A : ℤ) - B - 1) < |q| := by
    rw [hq', lt_div_iff₀ hdp]
    have : (2 : ℚ) ^ ((A : ℤ) - B - 1) * 2 ^ (B + 1) = 2 ^ A := by
      rw [← zpow_natCast, ← zpow_natCast, ← two_zpow_add]; congr 1; push_cast; ring
    calc _ < (2 : ℚ) ^ ((A : ℤ) - B - 1) * 2 ^ (B + 1) := mul_lt_mul_of_pos_left b2' (two_zpow_pos _)
      _ = 2 ^ A := this
      _ ≤ _ := a1'
  unfold ilog2
  simp only [hA, hB, pow2_eq]
  split
  · rename_i h
    exact ⟨h, up⟩
  · rename_i h
    exact ⟨lo.le, by simpa using not_le.1 h⟩

/-- The exponent of the leading bit is determined by the size. -/
theorem ilog2_unique (q : ℚ) (hq : q ≠ 0) (k : ℤ) (h1 : (2 : ℚ) ^ k ≤ |q|) (h2 : |q| < 2 ^ (k + 1)) : ilog2 q = k := by
  obtain ⟨s1, s2⟩ := ilog2_spec q hq
  have := two_zpow_lt_iff.1 (lt_of_le_of_lt s1 h2)
  have := two_zpow_lt_iff.1 (lt_of_le_of_lt h1 s2)
  omega

theorem ilog2_mono {q r : ℚ} (hq : q ≠ 0) (h : |q| ≤ |r|) : ilog2 q ≤ ilog2 r := by
  have hr : r ≠ 0 := by
    intro hr
    rw [hr, abs_zero] at h
    exact hq (abs_eq_zero.1 (le_antisymm h (abs_nonneg q)))
  have := two_zpow_lt_iff.1 (lt_of_le_of_lt ((ilog2_spec q hq).1.trans h) (ilog2_spec r hr).2)
  omega

theorem ilog2_lt {q : ℚ} (hq : q ≠ 0) {k : ℤ} (h : |q| < 2 ^ k) : ilog2 q < k :=
  two_zpow_lt_iff.1 (lt_of_le_of_lt (ilog2_spec q hq).1 h)

theorem ilog2_neg (q : ℚ) : ilog2 (-q) = ilog2 q := by
  unfold ilog2
  simp

theorem lastBit_neg (q : ℚ) : lastBit (-q) = lastBit q := by unfold lastBit; rw [ilog2_neg]

/-! ## Rounding to integers -/

theorem pyRound_int' (k : ℤ) : pyRound (k : ℚ) = k := by
  unfold pyRound
  simp

theorem pyRound_err (q : ℚ) : |q - (pyRound q : ℤ)| ≤ 1 / 2 := by
  have h1 := Int.floor_le q
  have h2 := Int.lt_floor_add_one q
  unfold pyRound
  simp only
  split
  · rw [abs_le]
    constructor <;> linarith
  · split
    · push_cast
      rw [abs_le]
      constructor <;> linarith
    · split
      · rw [abs_le]
        constructor <;> linarith
      · push_cast
        rw [abs_le]
        constructor <;> linarith

/-- Away from ties, the rounding is the only integer nearer than a half. -/
theorem pyRound_near (q : ℚ) (k : ℤ) (h : |q - k| < 1 / 2) : pyRound q = k := by
  have h1 := pyRound_err q
  have : |((pyRound q : ℤ) : ℚ) - k| < 1 := by
    have : ((pyRound q : ℤ) : ℚ) - k = (q - k) - (q - (pyRound q : ℤ)) := by ring
    rw [this]
    calc _ ≤ |q - k| + |q - (pyRound q : ℤ)| := abs_sub _ _
      _ < 1 := by linarith
  have h3 : |pyRound q - k| < 1 := by exact_mod_cast this
  rw [Int.abs_lt_one_iff] at h3
  omega

/-- Ties go to the even neighbour. -/
theorem pyRound_tie (k : ℤ) : pyRound ((k : ℚ) + 1 / 2) = if k % 2 = 0 then k else k + 1 := by
  have : ⌊(k : ℚ) + 1 / 2⌋ = k := by
    rw [Int.floor_eq_iff]; constructor <;> linarith
  unfold pyRound
  simp only [this]
  norm_num

theorem pyRound_le_int (q : ℚ) (k : ℤ) (h : q ≤ k) : pyRound q ≤ k := by
  rcases lt_or_eq_of_le h with h | h
  · have h0 : ⌊q⌋ < k := Int.floor_lt.2 h
    unfold pyRound
    simp only
    split_ifs <;> omega
  · rw [h, pyRound_int']

theorem int_le_pyRound (q : ℚ) (k : ℤ) (h : (k : ℚ) ≤ q) : k ≤ pyRound q := by
  have h0 : k ≤ ⌊q⌋ := Int.le_floor.2 h
  unfold pyRound
  simp only
  split_ifs <;> omega

theorem pyRound_mono {q r : ℚ} (h : q ≤ r) : pyRound q ≤ pyRound r := by
  have hf : ⌊q⌋ ≤ ⌊r⌋ := Int.floor_le_floor h
  rcases lt_or_eq_of_le hf with hlt | heq
  · have h1 : pyRound q ≤ ⌊q⌋ + 1 := pyRound_le_int _ _ (by push_cast; exact (Int.lt_floor_add_one q).le)
    have h2 : ⌊r⌋ ≤ pyRound r := int_le_pyRound _ _ (Int.floor_le r)
    omega
  · unfold pyRound
    simp only [heq]
    split_ifs <;> first | omega | (exfalso; linarith)

theorem pyRound_neg (q : ℚ) : pyRound (-q) = - pyRound q := by
  rcases lt_or_eq_of_le (pyRound_err q) with h | h
  · apply pyRound_near
    have : -q - ((-pyRound q : ℤ) : ℚ) = -(q - (pyRound q : ℤ)) := by push_cast; ring
    rw [this, abs_neg]; exact h
  · -- a tie
    have hq : ∃ k : ℤ, q = k + 1 / 2 := by
      rcases (abs_eq (by norm_num)).1 h with h | h
      · exact ⟨pyRound q, by linarith⟩
      · exact ⟨pyRound q - 1, by push_cast; linarith⟩
    obtain ⟨k, rfl⟩ := hq
    have : -((k : ℚ) + 1 / 2) = ((-k - 1 : ℤ) : ℚ) + 1 / 2 := by push_cast; ring
    rw [this, pyRound_tie, pyRound_tie]
    split_ifs <;> omega

/-! ## Rounding to doubles -/

theorem rne_eq (q : ℚ) : rne q = (pyRound (q / 2 ^ lastBit q) : ℤ) * (2 : ℚ) ^ lastBit q := by
  unfold rne; rw [pow2_eq]

theorem rne_zero : rne 0 = 0 := by
  rw [rne_eq]
  have : pyRound (0 / (2 : ℚ) ^ lastBit 0) = 0 := by
    rw [zero_div]; exact_mod_cast pyRound_int' 0
  rw [this]; simp

theorem rne_neg (q : ℚ) : rne (-q) = - rne q := by
  rw [rne_eq, rne_eq, lastBit_neg, neg_div, pyRound_neg]
  push_cast; ring

/-- A multiple of the last bit below a number is also below the rounded number. -/
theorem le_rne_of_multiple {q g : ℚ} (k : ℤ) (hg : g = k * (2 : ℚ) ^ lastBit q) (h : g ≤ q) : g ≤ rne q := by
  have hp := two_zpow_pos (lastBit q)
  rw [rne_eq, hg]
  apply mul_le_mul_of_nonneg_right _ hp.le
  exact_mod_cast int_le_pyRound _ k (by rw [le_div_iff₀ hp, ← hg]; exact h)

theorem rne_le_of_multiple {q g : ℚ} (k : ℤ) (hg : g = k * (2 : ℚ) ^ lastBit q) (h : q ≤ g) : rne q ≤ g := by
  have hp := two_zpow_pos (lastBit q)
  rw [rne_eq, hg]
  apply mul_le_mul_of_nonneg_right _ hp.le
  exact_mod_cast pyRound_le_int _ k (by rw [div_le_iff₀ hp, ← hg]; exact h)

/-- A power of two is a multiple of each smaller one. -/
theorem zpow_multiple {a b : ℤ} (h : a ≤ b) : (2 : ℚ) ^ b = ((2 ^ (b - a).toNat : ℤ) : ℚ) * 2 ^ a := by
  have h2 : ((b - a).toNat : ℤ) = b - a := Int.toNat_of_nonneg (by omega)
  push_cast
  rw [← zpow_natCast, h2, ← two_zpow_add]; congr 1; ring

theorem rne_nonneg {q : ℚ} (h : 0 ≤ q) : 0 ≤ rne q := le_rne_of_multiple 0 (by simp) h

theorem rne_nonpos {q : ℚ} (h : q ≤ 0) : rne q ≤ 0 := rne_le_of_multiple 0 (by simp) h

theorem rne_mono_pos {q r : ℚ} (hq : 0 < q) (h : q ≤ r) : rne q ≤ rne r := by
  have hr : 0 < r := by linarith
  have hi : ilog2 q ≤ ilog2 r := ilog2_mono hq.ne' (by rw [abs_of_pos hq, abs_of_pos hr]; exact h)
  have hb : lastBit q ≤ lastBit r := by unfold lastBit; omega
  rcases lt_or_eq_of_le hb with hlt | heq
  · have hir : lastBit r = ilog2 r - 52 := by unfold lastBit at *; omega
    have hiq : ilog2 q + 1 ≤ ilog2 r := by unfold lastBit at *; omega
    have h1 : rne q ≤ 2 ^ ilog2 r := by
      refine rne_le_of_multiple _ (zpow_multiple (by omega)) ?_
      have := (ilog2_spec q hq.ne').2
      rw [abs_of_pos hq] at this
      exact this.le.trans (two_zpow_le hiq)
    have h2 : (2 : ℚ) ^ ilog2 r ≤ rne r := by
      refine le_rne_of_multiple _ (zpow_multiple (by omega)) ?_
      have := (ilog2_spec r hr.ne').1
      rwa [abs_of_pos hr] at this
    exact h1.trans h2
  · rw [rne_eq, rne_eq, heq]
    have hp := two_zpow_pos (lastBit r)
    apply mul_le_mul_of_nonneg_right _ hp.le
    exact_mod_cast pyRound_mono (div_le_div_of_nonneg_right h hp.le)

/-- Rounding keeps the order. -/
theorem rne_mono {q r : ℚ} (h : q ≤ r) : rne q ≤ rne r := by
  rcases lt_or_ge 0 q with hq | hq
  · exact rne_mono_pos hq h
  · rcases lt_or_ge r 0 with hr | hr
    · have := rne_mono_pos (q := -r) (r := -q) (by linarith) (by linarith)
      rw [rne_neg, rne_neg] at this
      linarith
    · exact (rne_nonpos hq).trans (rne_nonneg hr)

/-- The rounding error is at most half of the last bit. -/
theorem rne_err_bit (q : ℚ) : |rne q - q| ≤ 2 ^ lastBit q / 2 := by
  have hp := two_zpow_pos (lastBit q)
  have h := pyRound_err (q / 2 ^ lastBit q)
  have : rne q - q = -((q / 2 ^ lastBit q - (pyRound (q / 2 ^ lastBit q) : ℤ)) * 2 ^ lastBit q) := by
    rw [rne_eq]; field_simp; ring
  rw [this, abs_neg, abs_mul, abs_of_pos hp]
  have := mul_le_mul_of_nonneg_right h hp.le
  linarith

/-- The rounding error is at most `2^-53` of the number, or, for tiny numbers, `2^-1075`. -/
theorem rne_err (q : ℚ) : |rne q - q| ≤ max (2 ^ (-53 : ℤ) * |q|) (2 ^ (-1075 : ℤ)) := by
  rcases eq_or_ne q 0 with rfl | hq
  · rw [rne_zero]; simp
  refine (rne_err_bit q).trans ?_
  rcases le_total (ilog2 q - 52) (-1074) with h | h
  · have : lastBit q = -1074 := by unfold lastBit; omega
    rw [this]
    refine le_trans (le_of_eq ?_) (le_max_right _ _)
    rw [show (-1074 : ℤ) = -1075 + 1 by norm_num, two_zpow_add]; norm_num
  · have : lastBit q = ilog2 q + -52 := by unfold lastBit; omega
    rw [this]
    refine le_trans (le_of_eq ?_) ((mul_le_mul_of_nonneg_left (ilog2_spec q hq).1 (two_zpow_pos (-53)).le).trans (le_max_left _ _))
    rw [two_zpow_add, show (-52 : ℤ) = -53 + 1 by norm_num, two_zpow_add]; ring

theorem rne_err_normal (q : ℚ) (h : (2 : ℚ) ^ (-1022 : ℤ) ≤ |q|) : |rne q - q| ≤ 2 ^ (-53 : ℤ) * |q| := by
  refine (rne_err q).trans (max_le le_rfl ?_)
  rw [show (-1075 : ℤ) = -53 + -1022 by norm_num, two_zpow_add]
  exact mul_le_mul_of_nonneg_left h (two_zpow_pos _).le

theorem rne_err_add (q : ℚ) : |rne q - q| ≤ 2 ^ (-53 : ℤ) * |q| + 2 ^ (-1075 : ℤ) := by
  refine (rne_err q).trans (max_le ?_ ?_)
  · have := two_zpow_pos (-1075); linarith
  · have := mul_nonneg (two_zpow_pos (-53)).le (abs_nonneg q); linarith

theorem isF64_multiple {q : ℚ} (hq : q ≠ 0) (h : IsF64 q) : ∃ k : ℤ, q = k * (2 : ℚ) ^ lastBit q := by
  obtain ⟨m, e, hm, he, rfl⟩ := h
  have hm0 : m ≠ 0 := by
    rintro rfl; simp at hq
  have hp := two_zpow_pos e
  rcases lt_or_eq_of_le hm with hlt | heq
  · have : |(m : ℚ) * 2 ^ e| < 2 ^ (53 + e) := by
      rw [abs_mul, abs_of_pos hp, two_zpow_add]
      apply mul_lt_mul_of_pos_right _ hp
      exact_mod_cast hlt
    have h1 := ilog2_lt hq this
    have h2 : lastBit ((m : ℚ) * 2 ^ e) ≤ e := by unfold lastBit; omega
    exact ⟨m * 2 ^ (e - lastBit ((m : ℚ) * 2 ^ e)).toNat, by
      conv_lhs => rw [zpow_multiple h2]
      push_cast; ring⟩
  · have ha : |(m : ℚ) * 2 ^ e| = 2 ^ (53 + e) := by
      rw [abs_mul, abs_of_pos hp, two_zpow_add]
      congr 1
      have : ((|m| : ℤ) : ℚ) = ((2 ^ 53 : ℤ) : ℚ) := by rw [heq]
      push_cast at this
      rw [this]; norm_num
    have h1 := ilog2_unique _ hq (53 + e) ha.ge (by rw [ha]; exact two_zpow_lt (by omega))
    have h2 : lastBit ((m : ℚ) * 2 ^ e) = e + 1 := by unfold lastBit; omega
    rw [h2]
    rcases abs_choice m with hc | hc
    · refine ⟨2 ^ 52, ?_⟩
      rw [hc] at heq
      rw [heq, two_zpow_add]; push_cast; ring
    · refine ⟨-2 ^ 52, ?_⟩
      rw [hc] at heq
      rw [show m = -2 ^ 53 by omega, two_zpow_add]; push_cast; ring

/-- Rounding leaves doubles as they are. -/
theorem rne_fix {q : ℚ} (h : IsF64 q) : rne q = q := by
  rcases eq_or_ne q 0 with rfl | hq
  · exact rne_zero
  obtain ⟨k, hk⟩ := isF64_multiple hq h
  apply le_antisymm
  · exact rne_le_of_multiple k hk le_rfl
  · exact le_rne_of_multiple k hk le_rfl

/-- What rounding gives is a double. -/
theorem rne_isF64 (q : ℚ) : IsF64 (rne q) := by
  rcases eq_or_ne q 0 with rfl | hq
  · rw [rne_zero]; exact ⟨0, 0, by norm_num, by norm_num, by simp⟩
  refine ⟨pyRound (q / 2 ^ lastBit q), lastBit q, ?_, by unfold lastBit; omega, rne_eq q⟩
  have hp := two_zpow_pos (lastBit q)
  have h1 : |q / 2 ^ lastBit q| ≤ 2 ^ 53 := by
    rw [abs_div, abs_of_pos hp, div_le_iff₀ hp]
    refine (ilog2_spec q hq).2.le.trans ?_
    have : ilog2 q + 1 ≤ 53 + lastBit q := by unfold lastBit; omega
    refine (two_zpow_le this).trans (le_of_eq ?_)
    rw [two_zpow_add]; norm_num
  rw [abs_le] at h1 ⊢
  exact ⟨int_le_pyRound _ _ (by push_cast; linarith), pyRound_le_int _ _ (by push_cast; linarith)⟩

theorem rne_rne (q : ℚ) : rne (rne q) = rne q := rne_fix (rne_isF64 q)

theorem isF64_int (n : ℤ) (h : |n| ≤ 2 ^ 53) : IsF64 (n : ℚ) := ⟨n, 0, h, by norm_num, by simp⟩

theorem isF64_nat (n : ℕ) (h : n ≤ 2 ^ 53) : IsF64 (n : ℚ) := by
  have := isF64_int n (by rw [Int.abs_eq_natAbs, Int.natAbs_natCast]; exact_mod_cast h)
  exact_mod_cast this

theorem isF64_neg {q : ℚ} (h : IsF64 q) : IsF64 (-q) := by
  obtain ⟨m, e, hm, he, rfl⟩ := h
  exact ⟨-m, e, by rwa [abs_neg], he, by push_cast; ring⟩

theorem isF64_zero : IsF64 0 := by simpa using isF64_int 0 (by norm_num)

theorem isF64_zpow (e : ℤ) (h : -1074 ≤ e) : IsF64 ((2 : ℚ) ^ e) := ⟨1, e, by norm_num, h, by simp⟩

/-- A rounded number is above each double that the number is above. -/
theorem le_rne {f q : ℚ} (hf : IsF64 f) (h : f ≤ q) : f ≤ rne q := by
  have := rne_mono h; rwa [rne_fix hf] at this

theorem rne_le {f q : ℚ} (hf : IsF64 f) (h : q ≤ f) : rne q ≤ f := by
  have := rne_mono h; rwa [rne_fix hf] at this

/-- Doubles are multiples of `2^-1074`. -/
theorem isF64_grid {q : ℚ} (h : IsF64 q) : ∃ k : ℤ, q = k * (2 : ℚ) ^ (-1074 : ℤ) := by
  obtain ⟨m, e, hm, he, rfl⟩ := h
  exact ⟨m * 2 ^ (e - -1074).toNat, by
    conv_lhs => rw [zpow_multiple he]
    generalize (2 : ℚ) ^ (-1074 : ℤ) = g
    push_cast; ring⟩

/-- Sums of doubles do not lose more than `2^-53` of the sum. -/
theorem rne_err_grid {q : ℚ} (h : ∃ k : ℤ, q = k * (2 : ℚ) ^ (-1074 : ℤ)) : |rne q - q| ≤ 2 ^ (-53 : ℤ) * |q| := by
  by_cases hs : (2 : ℚ) ^ (-1022 : ℤ) ≤ |q|
  · exact rne_err_normal q hs
  · obtain ⟨k, hk⟩ := h
    have hp := two_zpow_pos (-1074)
    have : IsF64 q := by
      refine ⟨k, -1074, ?_, le_rfl, hk⟩
      rw [hk, abs_mul, abs_of_pos hp, not_le, show (-1022 : ℤ) = 52 + -1074 by norm_num, two_zpow_add] at hs
      have := lt_of_mul_lt_mul_right hs hp.le
      have h3 : |k| < 2 ^ 52 := by
        have h4 : ((|k| : ℤ) : ℚ) < ((2 ^ 52 : ℤ) : ℚ) := by
          push_cast
          refine lt_of_lt_of_eq this ?_
          norm_num
        exact_mod_cast h4
      have : (2 : ℤ) ^ 52 ≤ 2 ^ 53 := by norm_num
      omega
    rw [rne_fix this, sub_self, abs_zero]
    positivity

theorem rne_err_sum {a b : ℚ} (ha : IsF64 a) (hb : IsF64 b) : |rne (a + b) - (a + b)| ≤ 2 ^ (-53 : ℤ) * |a + b| := by
  obtain ⟨k, hk⟩ := isF64_grid ha
  obtain ⟨l, hl⟩ := isF64_grid hb
  have h : a + b = ((k + l : ℤ) : ℚ) * (2 : ℚ) ^ (-1074 : ℤ) := by
    rw [Int.cast_add, add_mul, ← hk, ← hl]
  exact rne_err_grid ⟨k + l, h⟩

theorem rne_err_sub {a b : ℚ} (ha : IsF64 a) (hb : IsF64 b) : |rne (a - b) - (a - b)| ≤ 2 ^ (-53 : ℤ) * |a - b| := by
  have := rne_err_sum ha (isF64_neg hb)
  rwa [← sub_eq_add_neg] at this

/-- The difference of two different doubles does not round to zero. -/
theorem rne_sub_pos {a b : ℚ} (ha : IsF64 a) (hb : IsF64 b) (h : a < b) : 0 < rne (b - a) := by
  have h1 := rne_err_sub hb ha
  have h2 : 0 < b - a := by linarith
  rw [abs_of_pos h2, abs_le] at h1
  have : (2 : ℚ) ^ (-53 : ℤ) * (b - a) < 1 * (b - a) := by
    apply mul_lt_mul_of_pos_right _ h2
    exact zpow_lt_one_of_neg₀ (by norm_num) (by norm_num)
  linarith

/-- Nothing on the grid of the last bit is nearer than the rounded number. -/
theorem grid_nearest (q : ℚ) (i : ℤ) : |rne q - q| ≤ |(i : ℚ) * 2 ^ lastBit q - q| := by
  have hp := two_zpow_pos (lastBit q)
  set x := q / 2 ^ lastBit q with hx
  have hqx : x * 2 ^ lastBit q = q := by rw [hx]; field_simp
  have key : |((pyRound x : ℤ) : ℚ) - x| ≤ |(i : ℚ) - x| := by
    by_contra hc
    rw [not_le] at hc
    have h1 := pyRound_err x
    rw [abs_sub_comm] at h1
    have := pyRound_near x i (by rw [abs_sub_comm]; linarith)
    rw [this] at hc
    exact lt_irrefl _ hc
  have e1 : rne q - q = ((pyRound x : ℤ) - x) * 2 ^ lastBit q := by
    rw [rne_eq, ← hx, sub_mul, hqx]
  have e2 : (i : ℚ) * 2 ^ lastBit q - q = (i - x) * 2 ^ lastBit q := by
    rw [sub_mul, hqx]
  rw [e1, e2, abs_mul, abs_mul]
  exact mul_le_mul_of_nonneg_right key (abs_nonneg _)

/-- Rounding finds the nearest double. -/
theorem rne_nearest (q f : ℚ) (hf : IsF64 f) : |rne q - q| ≤ |f - q| := by
  rcases eq_or_ne q 0 with rfl | hq
  · rw [rne_zero]; simp
  by_cases hm : ∃ k : ℤ, f = k * (2 : ℚ) ^ lastBit q
  · obtain ⟨k, hk⟩ := hm
    rw [hk]; exact grid_nearest q k
  · -- otherwise `f` is on a finer grid, so below the leading bit of `q`
    have hf0 : f ≠ 0 := by rintro rfl; exact hm ⟨0, by simp⟩
    obtain ⟨k, hk⟩ := isF64_multiple hf0 hf
    have hlt : lastBit f < lastBit q := by
      by_contra hc
      rw [not_lt] at hc
      refine hm ⟨k * 2 ^ (lastBit f - lastBit q).toNat, ?_⟩
      have := zpow_multiple hc
      push_cast at this ⊢
      rw [mul_assoc, ← this]; exact hk
    have h1 : ilog2 f + 1 ≤ ilog2 q := by unfold lastBit at hlt; omega
    have hb : lastBit q = ilog2 q - 52 := by unfold lastBit at *; omega
    have hfb : |f| < 2 ^ ilog2 q := (ilog2_spec f hf0).2.trans_le (two_zpow_le h1)
    have hqb := (ilog2_spec q hq).1
    obtain ⟨j, hj⟩ : ∃ j : ℤ, (2 : ℚ) ^ ilog2 q = j * 2 ^ lastBit q := ⟨_, zpow_multiple (by omega)⟩
    rw [abs_lt] at hfb
    rcases lt_or_gt_of_ne hq with hn | hpos
    · rw [abs_of_neg hn] at hqb
      have := grid_nearest q (-j)
      push_cast at this
      rw [neg_mul, ← hj, abs_of_nonneg (by linarith : (0:ℚ) ≤ -2 ^ ilog2 q - q)] at this
      rw [abs_of_nonneg (by linarith : (0 : ℚ) ≤ f - q)]
      linarith
    · rw [abs_of_pos hpos] at hqb
      have := grid_nearest q j
      rw [← hj, abs_of_nonpos (by linarith : (2 : ℚ) ^ ilog2 q - q ≤ 0)] at this
      rw [abs_of_nonpos (by linarith : f - q ≤ 0)]
      linarith

end Verif
