import Verif.Library
import Verif.PropsTree

/-!
# C79: the functions have their standard meaning
-/

namespace Verif

/-- `x % y` and `mod(x, y)` are Python's `%`: the rest lies between 0 and `y`, and `x` minus the rest is a
multiple of `y`. -/
theorem C79_mod (x y r : ℚ) (h : libFn libRat "mod" [some x, some y] = some r) :
    (∃ k : ℤ, x = k * y + r) ∧ (0 < y → 0 ≤ r ∧ r < y) ∧ (y < 0 → y < r ∧ r ≤ 0) := by
  simp only [libFn, libRat, npRemainder] at h
  split_ifs at h with hy
  have hr : x - y * ⌊x / y⌋ = r := by simpa using h
  have h1 : (⌊x / y⌋ : ℚ) ≤ x / y := Int.floor_le _
  have h2 : x / y < ⌊x / y⌋ + 1 := Int.lt_floor_add_one _
  have hx : x = x / y * y := by field_simp
  refine ⟨⟨⌊x / y⌋, by rw [← hr]; ring⟩, ?_, ?_⟩
  · intro hp; constructor <;> nlinarith
  · intro hn; constructor <;> nlinarith

/-- `%` computes that function: the expression `a % b` of two fields is computed to the remainder. -/
theorem C79_percent (field : String → Option ℚ) (a b : String) :
    computed libRat field (.bin .mod (.name a) (.name b)) = .ok (.num (libFn libRat "mod" [field a, field b])) := rfl

/-- **C79** for `fmod` where the quotient is not negative or is an integer. -/
theorem C79_fmod_partial (x y : ℚ) (hy : y ≠ 0) (h : 0 ≤ x / y ∨ ∃ k : ℤ, x / y = k) :
    libFn libRat "fmod" [some x, some y] = some (fmodSpec x y) := by
  simp only [libFn, libRat, npRemainder, if_neg hy, fmodSpec, truncQ]
  rcases h with h | ⟨k, hk⟩
  · rw [if_pos h]
  · rw [hk]; simp

/-- **C79** fails for `fmod` everywhere else: the result is too large by `y`. -/
theorem C79_fmod_wrong (x y : ℚ) (hy : y ≠ 0) (h : x / y < 0) (hk : ¬ ∃ k : ℤ, x / y = k) :
    libFn libRat "fmod" [some x, some y] = some (fmodSpec x y + y) ∧
    libFn libRat "fmod" [some x, some y] ≠ some (fmodSpec x y) := by
  have h1 : libFn libRat "fmod" [some x, some y] = some (fmodSpec x y + y) := by
    simp only [libFn, libRat, npRemainder, if_neg hy, fmodSpec, truncQ, if_neg (not_le.2 h)]
    have : ⌈x / y⌉ = ⌊x / y⌋ + 1 := by
      rw [Int.ceil_eq_iff]
      have h2 : (⌊x / y⌋ : ℚ) ≤ x / y := Int.floor_le _
      have h3 : x / y < ⌊x / y⌋ + 1 := Int.lt_floor_add_one _
      refine ⟨?_, by push_cast; exact h3.le⟩
      push_cast
      rw [add_sub_cancel_right]
      exact lt_of_le_of_ne h2 fun he => hk ⟨⌊x / y⌋, he.symm⟩
    rw [this]; push_cast
    congr 1; ring
  refine ⟨h1, ?_⟩
  rw [h1]
  intro he
  have : fmodSpec x y + y = fmodSpec x y := by simpa using he
  exact hy (by linarith)

/-- `fmod(-7, 3)` is computed as 2 instead of -1. -/
example : libFn libRat "fmod" [some (-7), some 3] = some 2 ∧ fmodSpec (-7) 3 = -1 := by decide +kernel

example : (-7 : ℚ) / 3 < 0 ∧ ¬ ∃ k : ℤ, (-7 : ℚ) / 3 = k := by
  refine ⟨by norm_num, ?_⟩
  rintro ⟨k, hk⟩
  have : (-7 : ℚ) = 3 * k := by linarith
  have : (-7 : ℤ) = 3 * k := by exact_mod_cast this
  omega

/-- **C79** for `fmax` on rows where both operands have values. -/
theorem C79_fmax_partial (x y : ℚ) :
    libFn libRat "fmax" [some x, some y] = fmaxSpec (some x) (some y) := rfl

/-- **C79** fails for `fmax` and `fmin` on rows where one operand is NaN: the result is NaN instead of the
other operand. -/
theorem C79_fmax_nan (x : ℚ) :
    libFn libRat "fmax" [none, some x] = none ∧ fmaxSpec none (some x) = some x ∧
    libFn libRat "fmax" [some x, none] = none ∧ fmaxSpec (some x) none = some x ∧
    libFn libRat "fmin" [none, some x] = none ∧ libFn libRat "fmin" [some x, none] = none :=
  ⟨rfl, rfl, rfl, rfl, rfl, rfl⟩

/-- **C79** for the functions that round: `floor` and `ceil` give the integers next to `x`, `trunc` the one towards zero, `rint` the nearest, and the even one
of two. -/
theorem C79_rounding (x : ℚ) :
    (∃ k : ℤ, libFn libRat "floor" [some x] = some (k : ℚ) ∧ k ≤ x ∧ x < k + 1) ∧
    (∃ k : ℤ, libFn libRat "ceil" [some x] = some (k : ℚ) ∧ x ≤ k ∧ (k : ℚ) - 1 < x) ∧
    (∃ k : ℤ, libFn libRat "trunc" [some x] = some (k : ℚ) ∧ |(k : ℚ)| ≤ |x| ∧ |x| < |(k : ℚ)| + 1 ∧ 0 ≤ k * x) ∧
    ∃ k : ℤ, libFn libRat "rint" [some x] = some (k : ℚ) ∧ (∀ j : ℤ, |x - k| ≤ |x - j|) ∧ ((∃ j : ℤ, j ≠ k ∧ |x - j| = |x - k|) → k % 2 = 0) := by
  have h1 : (⌊x⌋ : ℚ) ≤ x := Int.floor_le x
  have h2 : x < ⌊x⌋ + 1 := Int.lt_floor_add_one x
  have h3 : x ≤ ⌈x⌉ := Int.le_ceil x
  have h4 : (⌈x⌉ : ℚ) < x + 1 := Int.ceil_lt_add_one x
  refine ⟨⟨⌊x⌋, rfl, h1, h2⟩, ⟨⌈x⌉, rfl, h3, by linarith⟩, ?_, ?_⟩
  · by_cases hx : x < 0
    · refine ⟨⌈x⌉, ?_, ?_⟩
      · simp only [libFn, libRat, npTrunc, if_pos hx]
      · have h5 : (⌈x⌉ : ℚ) ≤ 0 := by exact_mod_cast Int.ceil_nonpos.2 hx.le
        rw [abs_of_nonpos h5, abs_of_neg hx]
        exact ⟨by linarith, by linarith, mul_nonneg_of_nonpos_of_nonpos h5 hx.le⟩
    · have hx' := not_lt.1 hx
      refine ⟨⌊x⌋, ?_, ?_⟩
      · simp only [libFn, libRat, npTrunc, if_neg hx]
      · have h5 : (0 : ℚ) ≤ ⌊x⌋ := by exact_mod_cast Int.floor_nonneg.2 hx'
        rw [abs_of_nonneg h5, abs_of_nonneg hx']
        exact ⟨by linarith, by linarith, mul_nonneg h5 hx'⟩
  · have key : ∀ j : ℤ, (j : ℚ) ≤ ⌊x⌋ ∨ (⌊x⌋ : ℚ) + 1 ≤ j := by
      intro j
      rcases lt_or_ge ⌊x⌋ j with h | h
      · right; exact_mod_cast h
      · left; exact_mod_cast h
    have hlow : |x - (⌊x⌋ : ℤ)| = x - ⌊x⌋ := abs_of_nonneg (by linarith)
    have hup : |x - ((⌊x⌋ + 1 : ℤ) : ℚ)| = ⌊x⌋ + 1 - x := by
      push_cast
      rw [abs_of_neg (by linarith)]
      ring
    have hj : ∀ j : ℤ, x - ⌊x⌋ ≤ |x - j| ∨ ⌊x⌋ + 1 - x ≤ |x - j| := by
      intro j
      rcases key j with h | h
      · left; exact le_trans (by linarith) (le_abs_self _)
      · right; exact le_trans (by linarith) (neg_le_abs _)
    have hle : ∀ j : ℤ, min (x - ⌊x⌋) (⌊x⌋ + 1 - x) ≤ |x - j| := by
      intro j
      rcases hj j with h | h
      · exact le_trans (min_le_left _ _) h
      · exact le_trans (min_le_right _ _) h
    rcases lt_trichotomy (x - ⌊x⌋) (1 / 2) with h | h | h
    · refine ⟨⌊x⌋, ?_, ?_, ?_⟩
      · simp only [libFn, libRat, npRint, if_pos h]
      · intro j
        rw [hlow]
        exact le_trans (by rw [min_eq_left (by linarith)]) (hle j)
      · rintro ⟨j, hne, he⟩
        exfalso
        rw [hlow] at he
        rcases key j with h' | h'
        · have h6 : (x : ℚ) - j ≤ x - ⌊x⌋ := le_trans (le_abs_self _) he.le
          exact hne (by exact_mod_cast le_antisymm h' (by linarith))
        · have h6 : -(x - j) ≤ x - ⌊x⌋ := le_trans (neg_le_abs _) he.le
          linarith
    · by_cases hev : ⌊x⌋ % 2 = 0
      · refine ⟨⌊x⌋, ?_, ?_, fun _ => hev⟩
        · simp only [libFn, libRat, npRint, h, lt_irrefl, if_false, if_pos hev]
        · intro j
          rw [hlow]
          exact le_trans (by rw [min_eq_left (by linarith)]) (hle j)
      · refine ⟨⌊x⌋ + 1, ?_, ?_, fun _ => by omega⟩
        · simp only [libFn, libRat, npRint, h, lt_irrefl, if_false, if_neg hev]
          push_cast
          rfl
        · intro j
          rw [hup]
          exact le_trans (by rw [min_eq_right (by linarith)]) (hle j)
    · refine ⟨⌊x⌋ + 1, ?_, ?_, ?_⟩
      · simp only [libFn, libRat, npRint, if_neg (not_lt.2 h.le), if_pos h]
        push_cast
        rfl
      · intro j
        rw [hup]
        exact le_trans (by rw [min_eq_right (by linarith)]) (hle j)
      · rintro ⟨j, hne, he⟩
        exfalso
        rw [hup] at he
        rcases key j with h' | h'
        · have h6 : (x : ℚ) - j ≤ ⌊x⌋ + 1 - x := le_trans (le_abs_self _) he.le
          linarith
        · have h6 : -(x - j) ≤ ⌊x⌋ + 1 - x := le_trans (neg_le_abs _) he.le
          exact hne (by exact_mod_cast le_antisymm (by push_cast; linarith) h')

example : libFn libRat "rint" [some (5 / 2)] = some 2 ∧ libFn libRat "rint" [some (7 / 2)] = some 4 ∧ libFn libRat "rint" [some (-7 / 4)] = some (-2) ∧
    libFn libRat "trunc" [some (-7 / 4)] = some (-1) := by decide +kernel

/-- **C79** for the functions that look at signs and compare: `abs`, `sign`, `copysign`, `heaviside`, `max`, `min` and `where`.  The step of zero is one half
unless it is given. -/
theorem C79_signs (x y : ℚ) (m : Option ℚ) :
    (∃ r, libFn libRat "abs" [some x] = some r ∧ 0 ≤ r ∧ (r = x ∨ r = -x)) ∧
    (∃ r, libFn libRat "sign" [some x] = some r ∧ r * |x| = x ∧ (x = 0 → r = 0)) ∧
    (∃ r, libFn libRat "copysign" [some x, some y] = some r ∧ |r| = |x| ∧ (y < 0 → r ≤ 0) ∧ (0 ≤ y → 0 ≤ r)) ∧
    ((x < 0 → libFn libRat "heaviside" [some x, m] = some 0) ∧ (x = 0 → libFn libRat "heaviside" [some x, m] = m) ∧
      (0 < x → libFn libRat "heaviside" [some x, m] = some 1)) ∧
    libFn libRat "heaviside" [some x] = libFn libRat "heaviside" [some x, some (1 / 2)] ∧
    (∃ r, libFn libRat "max" [some x, some y] = some r ∧ x ≤ r ∧ y ≤ r ∧ (r = x ∨ r = y)) ∧
    (∃ r, libFn libRat "min" [some x, some y] = some r ∧ r ≤ x ∧ r ≤ y ∧ (r = x ∨ r = y)) ∧
    ∀ a b : Option ℚ, libFn libRat "where" [some 1, a, b] = a ∧ libFn libRat "where" [some 0, a, b] = b := by
  refine ⟨⟨|x|, rfl, abs_nonneg x, ?_⟩, ⟨_, rfl, ?_, ?_⟩, ⟨_, rfl, ?_, ?_, ?_⟩, ⟨?_, ?_, ?_⟩, ?_, ⟨max x y, rfl, le_max_left _ _, le_max_right _ _, max_choice x y⟩,
    ⟨min x y, rfl, min_le_left _ _, min_le_right _ _, min_choice x y⟩, fun a b => ⟨?_, ?_⟩⟩
  · exact abs_choice x
  · rcases lt_trichotomy x 0 with h | h | h
    · rw [if_pos h, abs_of_neg h]; ring
    · subst h; simp
    · rw [if_neg (not_lt.2 h.le), if_neg h.ne', abs_of_pos h]; ring
  · rintro rfl; simp
  · split <;> simp
  · intro h; rw [if_pos h]; simp
  · intro h; rw [if_neg (not_lt.2 h)]; exact abs_nonneg x
  · intro h; simp only [libFn, libRat, npHeaviside, if_pos h]
  · rintro rfl; simp [libFn, libRat, npHeaviside]
  · intro h; simp only [libFn, libRat, npHeaviside, if_neg (not_lt.2 h.le), if_neg h.ne']
  · simp only [libFn, libRat, npHeaviside]; split_ifs <;> rfl
  · simp [libFn, libRat, npWhere, truth]
  · simp [libFn, libRat, npWhere, truth]

example : libFn libRat "heaviside" [some 0] = some (1 / 2) ∧ libFn libRat "heaviside" [some 0, some 1] = some 1 ∧
    libFn libRat "copysign" [some (-3), some 2] = some 3 := by decide +kernel

/-- **C79**: a row where an argument is NaN gives NaN, except for `where`, which takes NaN for true. -/
theorem C79_nan (x : Option ℚ) : (∀ f ∈ ["abs", "fabs", "floor", "ceil", "trunc", "rint", "sign", "heaviside"], libFn libRat f [none] = none) ∧
    (∀ f ∈ ["max", "min", "mod"], libFn libRat f [none, x] = none ∧ libFn libRat f [x, none] = none) ∧
    libFn libRat "heaviside" [none, x] = none ∧
    ∀ b, libFn libRat "where" [none, x, b] = x := by
  refine ⟨?_, ?_, rfl, ?_⟩
  · intro f hf
    simp only [List.mem_cons, List.not_mem_nil, or_false] at hf
    rcases hf with rfl | rfl | rfl | rfl | rfl | rfl | rfl | rfl <;> rfl
  · intro f hf
    simp only [List.mem_cons, List.not_mem_nil, or_false] at hf
    rcases hf with rfl | rfl | rfl <;> cases x <;> exact ⟨rfl, rfl⟩
  · intro b; simp [libFn, libRat, npWhere, truth]

end Verif
