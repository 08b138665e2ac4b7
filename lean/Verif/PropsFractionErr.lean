import Verif.FractionErr
import Verif.SpecTable

/-!
# Errors of fractions: C95
-/

namespace Verif

/-! ## Lemmas -/

/-- The number that belongs in a column. -/
noncomputable def frValue (zs : List ℝ) (n : ℝ) (all : List ℝ) : FrCol → ℝ
  | .count => n
  | .fraction i => all.getD i 0 / n
  | .err i j => normalError (zs.getD j 0) (all.getD i 0 / n) n

theorem cutValues_normal (zs : List ℝ) (n : ℝ) : ∀ (passed : List ℝ) (i : ℕ) (all : List ℝ),
    (∀ j, passed[j]? = all[i + j]?) →
    cutValues (some "normal") zs n passed = .ok ((frColumnsFrom (some "normal") zs.length i passed.length).map (frValue zs n all))
  | [], _, _, _ => rfl
  | a :: rest, i, all, h => by
    have ih := cutValues_normal zs n rest (i + 1) all fun j => by
      have := h (j + 1)
      rw [List.getElem?_cons_succ] at this
      rw [this]; congr 1; omega
    have ha : all.getD i 0 = a := by
      have := h 0
      rw [List.getElem?_cons_zero, Nat.add_zero] at this
      rw [List.getD_eq_getElem?_getD, ← this]; rfl
    rw [cutValues, ih]
    have he : errorValues (some "normal") zs (a / n) n = .ok (zs.map fun z => normalError z (a / n) n) := by
      unfold errorValues
      simp only
      rw [if_neg (by decide), if_neg (by decide), if_pos trivial]
    rw [he]
    show Except.ok _ = _
    congr 1
    rw [List.length_cons, frColumnsFrom]
    have hw : wantsError (some "normal") = true := by decide
    rw [hw, if_pos rfl, List.map_append, List.map_cons, List.map_map, frValue, ha]
    congr 2
    refine List.ext_getElem? fun k => ?_
    simp only [List.getElem?_map, Function.comp_def, frValue]
    by_cases hk : k < zs.length
    · rw [List.getElem?_eq_getElem hk, List.getElem?_range hk]
      simp [hk, ← ha]
    · rw [List.getElem?_eq_none (by omega), List.getElem?_eq_none (by simp; omega)]; rfl

theorem mem_frColumnsFrom {error : Option String} {levels : ℕ} : ∀ {n i : ℕ} {c : FrCol},
    c ∈ frColumnsFrom error levels i n ↔
      (∃ k, i ≤ k ∧ k < i + n ∧ c = .fraction k) ∨
        (wantsError error = true ∧ ∃ k j, i ≤ k ∧ k < i + n ∧ j < levels ∧ c = .err k j)
  | 0, i, c => by
    simp only [frColumnsFrom, List.not_mem_nil, false_iff, not_or, not_exists, not_and]
    exact ⟨fun k h1 h2 => by omega, fun _ k j h1 h2 => by omega⟩
  | n + 1, i, c => by
    rw [frColumnsFrom, List.mem_append, mem_frColumnsFrom (n := n) (i := i + 1), List.mem_cons]
    constructor
    · rintro ((h | h) | ⟨k, h1, h2, h3⟩ | ⟨hw, k, j, h1, h2, h3, h4⟩)
      · exact .inl ⟨i, le_refl _, by omega, h⟩
      · by_cases hw : wantsError error = true
        · rw [if_pos hw, List.mem_map] at h
          obtain ⟨j, hj, rfl⟩ := h
          exact .inr ⟨hw, i, j, le_refl _, by omega, List.mem_range.1 hj, rfl⟩
        · rw [if_neg hw] at h; cases h
      · exact .inl ⟨k, by omega, by omega, h3⟩
      · exact .inr ⟨hw, k, j, by omega, by omega, h3, h4⟩
    · rintro (⟨k, h1, h2, h3⟩ | ⟨hw, k, j, h1, h2, h3, h4⟩)
      · by_cases hk : k = i
        · subst hk; exact .inl (.inl h3)
        · exact .inr (.inl ⟨k, by omega, by omega, h3⟩)
      · by_cases hk : k = i
        · subst hk
          refine .inl (.inr ?_)
          rw [if_pos hw, List.mem_map]
          exact ⟨j, List.mem_range.2 h3, h4.symm⟩
        · exact .inr (.inr ⟨hw, k, j, by omega, by omega, h3, h4⟩)

theorem frColumnOf_map (cols : List FrCol) (f : FrCol → ℝ) (c : FrCol) (h : c ∈ cols) :
    frColumnOf (cols.map f) cols c = some (f c) := by
  unfold frColumnOf
  rw [List.getElem?_map, List.getElem?_eq_getElem (List.idxOf_lt_length_of_mem h), List.getElem_idxOf]
  rfl

/-! ## What holds -/

/-- **C95**, `error="normal"` (the default): in a bin of positive weight each column has what its name says, whatever the
numbers of cuts and levels: the count, the fraction of the weight that passes, and `z` times the square root of
`p (1 - p) / n`. -/
theorem C95_normal_partial (count : Bool) (zs : List ℝ) (n : ℝ) (hn : 0 < n) (passed : List ℝ) :
    ∃ row, fractionRow count (some "normal") zs n passed = .ok row ∧
      row.length = (frColumns count (some "normal") zs.length passed.length).length ∧
      (count = true → frColumnOf row (frColumns count (some "normal") zs.length passed.length) .count = some n) ∧
      ∀ i (hi : i < passed.length),
        frColumnOf row (frColumns count (some "normal") zs.length passed.length) (.fraction i) = some (passed[i] / n) ∧
        ∀ j (hj : j < zs.length),
          frColumnOf row (frColumns count (some "normal") zs.length passed.length) (.err i j) =
            some (zs[j] * √(passed[i] / n * (1 - passed[i] / n) / n)) := by
  have hv := cutValues_normal zs n passed 0 passed fun j => by rw [Nat.zero_add]
  set f : FrCol → ℝ := frValue zs n passed with hf
  have hrow : fractionRow count (some "normal") zs n passed =
      .ok ((frColumns count (some "normal") zs.length passed.length).map f) := by
    unfold fractionRow
    rw [hv]
    show Except.ok _ = _
    congr 1
    rw [if_pos hn]
    have : (if count then [n] else []) ++ (frColumnsFrom (some "normal") zs.length 0 passed.length).map f =
        (frColumns count (some "normal") zs.length passed.length).map f := by
      unfold frColumns
      rw [List.map_append]
      cases count <;> rfl
    rw [this, List.length_map, Nat.sub_self, List.replicate_zero, List.append_nil]
  refine ⟨_, hrow, List.length_map _, ?_, fun i hi => ⟨?_, fun j hj => ?_⟩⟩
  · rintro rfl
    rw [frColumnOf_map _ _ _ (by simp [frColumns]), hf, frValue]
  · rw [frColumnOf_map]
    · simp [hf, frValue, hi]
    · unfold frColumns
      exact List.mem_append_right _ (mem_frColumnsFrom.2 (.inl ⟨i, by omega, by omega, rfl⟩))
  · rw [frColumnOf_map]
    · simp [hf, frValue, hi, hj, normalError]
    · unfold frColumns
      exact List.mem_append_right _ (mem_frColumnsFrom.2 (.inr ⟨by decide, i, j, by omega, by omega, hj, rfl⟩))

/-- **C95**, these are uncertainties: between 0 and `z / (2 √n)`, the same for the entries that do not pass, and the
square is what the model of tables (C47) has. -/
theorem C95_normal_bounds (z p n : ℝ) (hz : 0 ≤ z) (hn : 0 < n) (h0 : 0 ≤ p) (h1 : p ≤ 1) :
    0 ≤ normalError z p n ∧ normalError z p n ≤ z / (2 * √n) ∧ normalError z (1 - p) n = normalError z p n ∧
      normalError z p n ^ 2 = z ^ 2 * (p * (1 - p) / n) := by
  have hq : 0 ≤ p * (1 - p) / n := div_nonneg (mul_nonneg h0 (by linarith)) hn.le
  unfold normalError
  refine ⟨mul_nonneg hz (Real.sqrt_nonneg _), ?_, ?_, ?_⟩
  · rw [div_eq_mul_inv z]
    refine mul_le_mul_of_nonneg_left ?_ hz
    rw [Real.sqrt_le_iff]
    refine ⟨by positivity, ?_⟩
    rw [inv_pow, mul_pow, Real.sq_sqrt hn.le, div_le_iff₀ hn]
    have : (2 ^ 2 * n)⁻¹ * n = 1 / 4 := by field_simp; norm_num
    rw [this]
    nlinarith [sq_nonneg (p - 1 / 2)]
  · rw [show (1 - p) * (1 - (1 - p)) = p * (1 - p) by ring]
  · rw [mul_pow, Real.sq_sqrt hq]

/-! ## What does not hold -/

/-- **C95** fails for five of the seven documented methods: they raise, whatever the cuts and data. -/
theorem C95_refuted_methods (m : String) (hm : m ∈ unimplemented) (count : Bool) (zs : List ℝ) (n : ℝ)
    (passed : List ℝ) (hp : passed ≠ []) : fractionRow count (some m) zs n passed = .error .notImplemented := by
  cases passed with
  | nil => exact absurd rfl hp
  | cons a rest =>
    unfold fractionRow
    rw [cutValues]
    have he : errorValues (some m) zs (a / n) n = .error .notImplemented := by
      unfold errorValues
      simp only
      rw [if_neg (by rintro rfl; exact absurd hm (by decide)), if_pos hm]
    rw [he]
    rfl

/-- **C95** fails for `error="wilson"`: the column `err(...)` has the upper end of Wilson's interval instead of an
uncertainty: the solution `u ≥ p` of `(p - u)^2 = z^2 u (1 - u) / n`. -/
theorem C95_refuted_wilson_upper (z p n : ℝ) (hz : 0 ≤ z) (hn : 0 < n) (h0 : 0 ≤ p) (h1 : p ≤ 1) :
    p ≤ wilsonError z p n ∧
      (p - wilsonError z p n) ^ 2 = z ^ 2 * (wilsonError z p n * (1 - wilsonError z p n) / n) := by
  have hD : 0 < 1 + z ^ 2 / n := by positivity
  have hq : 0 ≤ p * (1 - p) / n := div_nonneg (mul_nonneg h0 (by linarith)) hn.le
  set S := √(p * (1 - p) / n + 1 / 4 * z ^ 2 / n ^ 2) with hS
  have hS2 : S ^ 2 = p * (1 - p) / n + 1 / 4 * z ^ 2 / n ^ 2 := Real.sq_sqrt (by positivity)
  have hSz : z / (2 * n) ≤ S := by
    refine Real.le_sqrt_of_sq_le ?_
    have : (z / (2 * n)) ^ 2 = 1 / 4 * z ^ 2 / n ^ 2 := by field_simp; norm_num
    rw [this]; linarith
  have hu : wilsonError z p n * (1 + z ^ 2 / n) = p + 1 / 2 * z ^ 2 / n + z * S := by
    unfold wilsonError
    rw [← hS, div_mul_cancel₀ _ hD.ne']
  set u := wilsonError z p n with hu'
  constructor
  · have h2 : p * (1 + z ^ 2 / n) ≤ u * (1 + z ^ 2 / n) := by
      rw [hu]
      have h3 : z * (z / (2 * n)) ≤ z * S := mul_le_mul_of_nonneg_left hSz hz
      have h4 : z * (z / (2 * n)) = 1 / 2 * z ^ 2 / n := by field_simp
      have h5 : p * (z ^ 2 / n) ≤ 1 * (z ^ 2 / n) := mul_le_mul_of_nonneg_right h1 (by positivity)
      have h6 : z ^ 2 / n = 1 / 2 * z ^ 2 / n + 1 / 2 * z ^ 2 / n := by ring
      linarith
    exact le_of_mul_le_mul_right h2 hD
  · have key : (u * (1 + z ^ 2 / n)) ^ 2 - (u * (1 + z ^ 2 / n)) * (2 * p + z ^ 2 / n) +
        p ^ 2 * (1 + z ^ 2 / n) = 0 := by
      rw [hu]
      have : (p + 1 / 2 * z ^ 2 / n + z * S) ^ 2 - (p + 1 / 2 * z ^ 2 / n + z * S) * (2 * p + z ^ 2 / n) +
          p ^ 2 * (1 + z ^ 2 / n) = z ^ 2 * S ^ 2 - (p + 1 / 2 * z ^ 2 / n) ^ 2 + p ^ 2 * (1 + z ^ 2 / n) := by ring
      rw [this, hS2]
      field_simp
      ring
    have h7 : (1 + z ^ 2 / n) * (u ^ 2 * (1 + z ^ 2 / n) - u * (2 * p + z ^ 2 / n) + p ^ 2) = 0 := by
      rw [← key]; ring
    rcases mul_eq_zero.1 h7 with h8 | h8
    · exact absurd h8 hD.ne'
    · have : z ^ 2 * (u * (1 - u) / n) = u * (z ^ 2 / n) - u ^ 2 * (z ^ 2 / n) := by ring
      rw [this]
      linarith

/-- So the error of a fraction `p` is never less than `p`, however many entries there are: it is no uncertainty that
decreases with the number of entries.  If all entries pass it is 1. -/
theorem C95_refuted_wilson : (∀ z n : ℝ, 0 < n → wilsonError z 1 n = 1 ∨ z < 0) ∧
    ¬ ∃ C : ℝ, ∀ n : ℝ, 0 < n → wilsonError 1 (1 / 2) n ≤ C / √n := by
  constructor
  · intro z n hn
    by_cases hz : z < 0
    · exact .inr hz
    · left
      have hz : 0 ≤ z := not_lt.1 hz
      unfold wilsonError
      have : √(1 * (1 - 1) / n + 1 / 4 * z ^ 2 / n ^ 2) = z / (2 * n) := by
        rw [show 1 * (1 - 1) / n + 1 / 4 * z ^ 2 / n ^ 2 = (z / (2 * n)) ^ 2 by field_simp; ring]
        exact Real.sqrt_sq (by positivity)
      rw [this, div_eq_one_iff_eq (by positivity)]
      field_simp
      ring
  · rintro ⟨C, hC⟩
    have h1 := hC (4 * C ^ 2 + 16) (by positivity)
    have h2 := (C95_refuted_wilson_upper 1 (1 / 2) (4 * C ^ 2 + 16) (by norm_num) (by positivity) (by norm_num)
      (by norm_num)).1
    have h3 : 0 < √(4 * C ^ 2 + 16) := Real.sqrt_pos.2 (by positivity)
    have h4 : 1 / 2 * √(4 * C ^ 2 + 16) ≤ C := by
      rw [← le_div_iff₀ h3]; linarith
    have h5 : 2 * C < √(4 * C ^ 2 + 16) := by
      refine Real.lt_sqrt_of_sq_lt ?_
      nlinarith
    linarith

/-- **C95** fails for any other text as `error`: nothing is raised, but the fraction of the second cut is in the column
`err(...)` of the first, and its own column is zero. -/
theorem C95_refuted_unknown (m : String) (h0 : m ≠ "") (h1 : m ∉ unimplemented) (h2 : m ≠ "normal") (h3 : m ≠ "wilson")
    (z n a b : ℝ) (hn : 0 < n) :
    ∃ row, fractionRow true (some m) [z] n [a, b] = .ok row ∧
      frColumnOf row (frColumns true (some m) 1 2) (.err 0 0) = some (b / n) ∧
      frColumnOf row (frColumns true (some m) 1 2) (.fraction 1) = some 0 := by
  have he : ∀ p, errorValues (some m) [z] p n = .ok [] := by
    intro p
    unfold errorValues
    simp only
    rw [if_neg h0, if_neg h1, if_neg h2, if_neg h3]
  have hw : wantsError (some m) = true := by simp [wantsError, h0]
  have hc : frColumns true (some m) 1 2 = [.count, .fraction 0, .err 0 0, .fraction 1, .err 1 0] := by
    simp [frColumns, frColumnsFrom, hw]
  refine ⟨[n, a / n, b / n, 0, 0], ?_, ?_, ?_⟩
  · unfold fractionRow
    simp only [cutValues, he, List.length_cons, List.length_nil]
    show Except.ok _ = _
    rw [hc, if_pos hn]
    rfl
  · rw [hc]; rfl
  · rw [hc]; rfl

/-- **C95** fails for the default level if scipy is not installed: what is taken for the number of sigmas of a level of up
to 70 % is less than 0.8, although 68.27 % is one sigma (the factor `√2` is missing). -/
theorem C95_refuted_sigmas (level : ℝ) (h0 : 0 ≤ level) (h1 : level ≤ 7 / 10) : sigmasWithoutScipy level < 8 / 10 := by
  unfold sigmasWithoutScipy
  simp only
  have hpi := Real.pi_lt_d2
  have hpos := Real.pi_pos
  have hs : √Real.pi < 18 / 10 := by
    rw [Real.sqrt_lt' (by norm_num)]
    linarith
  have hp : ∀ k : ℕ, level ^ k ≤ (7 / 10) ^ k := fun k => pow_le_pow_left₀ h0 h1 k
  have hpk : ∀ k : ℕ, Real.pi ^ k ≤ (315 / 100) ^ k := fun k => pow_le_pow_left₀ hpos.le (by linarith) k
  have hsum : level + Real.pi / 12 * level ^ 3 + Real.pi ^ 2 * 7 / 480 * level ^ 5 +
      Real.pi ^ 3 * 127 / 40320 * level ^ 7 + Real.pi ^ 4 * 4369 / 5806080 * level ^ 9 +
      Real.pi ^ 5 * 34807 / 182476800 * level ^ 11 ≤ 7 / 10 + 315 / 100 / 12 * (7 / 10) ^ 3 +
      (315 / 100) ^ 2 * 7 / 480 * (7 / 10) ^ 5 + (315 / 100) ^ 3 * 127 / 40320 * (7 / 10) ^ 7 +
      (315 / 100) ^ 4 * 4369 / 5806080 * (7 / 10) ^ 9 + (315 / 100) ^ 5 * 34807 / 182476800 * (7 / 10) ^ 11 := by
    have m : ∀ (c : ℝ) (j k : ℕ), 0 ≤ c →
        Real.pi ^ j * c * level ^ k ≤ (315 / 100) ^ j * c * (7 / 10) ^ k := by
      intro c j k hc
      exact mul_le_mul (mul_le_mul_of_nonneg_right (hpk j) hc) (hp k) (by positivity) (by positivity)
    have m1 := m (1 / 12) 1 3 (by norm_num)
    have m2 := m (7 / 480) 2 5 (by norm_num)
    have m3 := m (127 / 40320) 3 7 (by norm_num)
    have m4 := m (4369 / 5806080) 4 9 (by norm_num)
    have m5 := m (34807 / 182476800) 5 11 (by norm_num)
    rw [pow_one, pow_one] at m1
    linarith
  have hS0 : 0 ≤ level + Real.pi / 12 * level ^ 3 + Real.pi ^ 2 * 7 / 480 * level ^ 5 +
      Real.pi ^ 3 * 127 / 40320 * level ^ 7 + Real.pi ^ 4 * 4369 / 5806080 * level ^ 9 +
      Real.pi ^ 5 * 34807 / 182476800 * level ^ 11 := by positivity
  calc _ ≤ 1 / 2 * (18 / 10) * (7 / 10 + 315 / 100 / 12 * (7 / 10) ^ 3 +
      (315 / 100) ^ 2 * 7 / 480 * (7 / 10) ^ 5 + (315 / 100) ^ 3 * 127 / 40320 * (7 / 10) ^ 7 +
      (315 / 100) ^ 4 * 4369 / 5806080 * (7 / 10) ^ 9 + (315 / 100) ^ 5 * 34807 / 182476800 * (7 / 10) ^ 11) :=
        mul_le_mul (by linarith) hsum hS0 (by norm_num)
    _ < 8 / 10 := by norm_num

/-- **C95** fails for weights: in other units of the weights (all multiplied by `k`) the fractions are the same, but the
errors are divided by `√k`. -/
theorem C95_refuted_units (k z n a : ℝ) (hk : 0 < k) :
    k * a / (k * n) = a / n ∧ normalError z (k * a / (k * n)) (k * n) = normalError z (a / n) n / √k := by
  have h : k * a / (k * n) = a / n := mul_div_mul_left _ _ hk.ne'
  refine ⟨h, ?_⟩
  rw [h]
  unfold normalError
  rw [show a / n * (1 - a / n) / (k * n) = (a / n * (1 - a / n) / n) / k by field_simp, Real.sqrt_div' _ hk.le, ← mul_div_assoc]

/-- The hypotheses are met: 3 of 4 entries pass, an error of one sigma. -/
example : 0 < (4 : ℝ) ∧ (0 : ℝ) ≤ 3 / 4 ∧ (3 / 4 : ℝ) ≤ 1 ∧ normalError 2 (1 / 2) 4 = 1 / 2 ∧
    "clopper-pearson" ∈ unimplemented ∧ "Normal" ∉ unimplemented ∧ wilsonError 1 0 1 = 1 / 2 := by
  refine ⟨by norm_num, by norm_num, by norm_num, ?_, by decide, by decide, ?_⟩
  · unfold normalError
    rw [show (1 / 2 : ℝ) * (1 - 1 / 2) / 4 = (1 / 4) ^ 2 by norm_num, Real.sqrt_sq (by norm_num)]
    norm_num
  · unfold wilsonError
    rw [show (0 : ℝ) * (1 - 0) / 1 + 1 / 4 * 1 ^ 2 / 1 ^ 2 = (1 / 2) ^ 2 by norm_num, Real.sqrt_sq (by norm_num)]
    norm_num

end Verif
