import Verif.PropsSparkColumns

/-!
# Where Spark and arrays disagree, for all fields and all rows

`PropsSparkColumns.lean` refutes C93 with rows picked for the purpose. Here the same disagreements are
stated for all fields, values and functions of analysis.
-/

namespace Verif

variable {ty : String → STy} {sm : SMath} {field : String → Option ℚ} {more : More}

/-- A call of a function with two fields. -/
def onTwo (h : Head) (x y : String) : E := .node h [.node (.name x) [] [], .node (.name y) [] []] []

theorem treeVal_onTwo (f x y : String) (g : List (Option ℚ) → Option ℚ) (h : (rowLib more).fn f = some fun vs => (rowNums vs).map fun xs => .num (g xs)) :
    treeVal more field (onTwo (.call f) x y) = .ok (.num (g [field x, field y])) := by
  unfold treeVal onTwo
  simp [E.toT, E.toTL, calculate, calculateL, h, rowSymbols, rowNums, bind, Except.bind, pure, Except.pure, Except.map]

theorem sparkVal_onTwo (t : E) (g : SFn) (x y : String) (τ : STy) (ht : tocolumns t.toT = .ok (.fn g [.field x, .field y]))
    (hτ : g.type [ty x, ty y] = .ok τ) :
    sparkVal ty sm field t = .ok (g.apply sm [sparkRow ty field x, sparkRow ty field y]) := by
  unfold sparkVal
  rw [ht]
  simp [bind, Except.bind, SCol.type, SCol.typeL, SCol.eval, SCol.evalL, hτ]

/-- The rests of the divisions rounded down and rounded towards zero agree exactly where there are no
opposite signs or no rest. -/
theorem rests_agree (a b : ℚ) (hb : b ≠ 0) :
    a - b * ⌊a / b⌋ = a - b * truncQ (a / b) ↔ 0 ≤ a * b ∨ ∃ k : ℤ, a = k * b := by
  have hsign : 0 ≤ a / b ↔ 0 ≤ a * b := by
    rw [div_eq_mul_inv, mul_nonneg_iff, mul_nonneg_iff, inv_nonneg, inv_nonpos]
  have hmul : (∃ k : ℤ, a = k * b) ↔ ∃ k : ℤ, a / b = k := by
    constructor
    · rintro ⟨k, hk⟩; exact ⟨k, by rw [hk]; field_simp⟩
    · rintro ⟨k, hk⟩; exact ⟨k, by rw [← hk]; field_simp⟩
  rw [sub_right_inj, mul_right_inj' hb, Int.cast_inj, ← hsign, hmul]
  unfold truncQ
  by_cases h : 0 ≤ a / b
  · simp [h]
  · rw [if_neg h]
    constructor
    · intro he
      refine Or.inr ⟨⌊a / b⌋, le_antisymm ?_ (Int.floor_le _)⟩
      rw [he]; exact Int.le_ceil _
    · rintro (h' | ⟨k, hk⟩)
      · exact absurd h' h
      · rw [hk, Int.floor_intCast, Int.ceil_intCast]

/-- **C93** for remainders: for fields `x` and `y` with numbers `a` and `b`, `b` not zero, `mod(x, y)` is computed from arrays and on Spark,
and the results are equal exactly if `a` and `b` do not have opposite signs or `a` is a multiple of `b`. -/
theorem C93_remainder_partial (hm : SparkLib more) (x y : String) (hx : ty x = .num) (hy : ty y = .num) (a b : ℚ)
    (ha : field x = some a) (hb : field y = some b) (hb0 : b ≠ 0) :
    ∃ p q : ℚ, computed more field (.call "mod" [.name x, .name y]) = .ok (.num (some p)) ∧
      onSpark ty sm field (.call "mod" [.name x, .name y]) = .ok (.num (some q)) ∧
      (p = q ↔ 0 ≤ a * b ∨ ∃ k : ℤ, a = k * b) := by
  have h1 : computed more field (.call "mod" [.name x, .name y]) = .ok (.num (some (a - b * ⌊a / b⌋))) := by
    have hl : (rowLib more).fn "mod" = some fun vs => (rowNums vs).map fun xs => .num (npRemainder xs) := by
      have e := hm.rat "mod" npRemainder rfl
      have e' : builtin "mod" = none := rfl
      simp [rowLib, e, e']
    refine (treeVal_onTwo "mod" x y npRemainder hl).trans ?_
    rw [ha, hb]
    simp [npRemainder, hb0]
  have h2 : onSpark ty sm field (.call "mod" [.name x, .name y]) = .ok (.num (some (a - b * truncQ (a / b)))) := by
    refine (sparkVal_onTwo (onTwo (.call "mod") x y) .mod x y .num rfl (by rw [hx, hy]; rfl)).trans ?_
    simp [sparkRow, hx, hy, ha, hb, SFn.apply, SVal.arith, sparkMod, hb0]
  exact ⟨_, _, h1, h2, rests_agree a b hb0⟩

/-- -1 and 3: opposite signs, and a rest. -/
example : ¬ (0 ≤ (-1 : ℚ) * 3 ∨ ∃ k : ℤ, (-1 : ℚ) = k * 3) := by
  rintro (h | ⟨k, hk⟩)
  · norm_num at h
  · have : (-1 : ℤ) = k * 3 := by exact_mod_cast hk
    omega

/-- **C93** fails for every comparison of a number with a NaN, which is the greatest number on Spark. -/
theorem C93_refuted_nan_always (x y : String) (hx : ty x = .num) (hy : ty y = .num) (a : ℚ)
    (ha : field x = some a) (hb : field y = none) :
    computed more field (.compare (.name x) [.lt] [.name y]) = .ok (.num (some 0)) ∧
      onSpark ty sm field (.compare (.name x) [.lt] [.name y]) = .ok (.bool true) ∧
    computed more field (.compare (.name x) [.le] [.name y]) = .ok (.num (some 0)) ∧
      onSpark ty sm field (.compare (.name x) [.le] [.name y]) = .ok (.bool true) := by
  refine ⟨?_, ?_, ?_, ?_⟩
  · show treeVal more field (onTwo (.call "numpy.less") x y) = _
    unfold treeVal onTwo
    simp [E.toT, E.toTL, calculate, calculateL, rowLib, builtin, rowSymbols, bind, Except.bind, ha, hb, relFn, ufunc2, RelOp.holds, ofBool]
  · refine (sparkVal_onTwo (onTwo (.call "numpy.less") x y) .lt x y .bool rfl (by rw [hx, hy]; rfl)).trans ?_
    simp [sparkRow, hx, hy, ha, hb, SFn.apply, SVal.compare, SVal.key, sparkLt]
  · show treeVal more field (onTwo (.call "numpy.less_equal") x y) = _
    unfold treeVal onTwo
    simp [E.toT, E.toTL, calculate, calculateL, rowLib, builtin, rowSymbols, bind, Except.bind, ha, hb, relFn, ufunc2, RelOp.holds, ofBool]
  · refine (sparkVal_onTwo (onTwo (.call "numpy.less_equal") x y) .le x y .bool rfl (by rw [hx, hy]; rfl)).trans ?_
    simp [sparkRow, hx, hy, ha, hb, SFn.apply, SVal.compare, SVal.key, sparkLt]

/-- **C93** fails for `floor` and `ceil` of every NaN, which are 0 on Spark. -/
theorem C93_refuted_nan_floor_always (hm : SparkLib more) (f : String) (hf : f = "floor" ∨ f = "ceil") (x : String) (hx : ty x = .num)
    (ha : field x = none) :
    computed more field (.call f [.name x]) = .ok (.num none) ∧ onSpark ty sm field (.call f [.name x]) = .ok (.num (some 0)) := by
  rcases hf with rfl | rfl
  · constructor
    · show treeVal more field (.node (.call "floor") [.node (.name x) [] []] []) = _
      have e := hm.rat "floor" npFloor rfl
      unfold treeVal
      simp [E.toT, E.toTL, calculate, calculateL, rowLib, builtin, e, rowSymbols, rowNums, Except.map, bind, Except.bind, ha, npFloor]
    · have e : tocolumns (E.toT (.node (.call "floor") [.node (.name x) [] []] [])) = .ok (.fn .floor [.field x]) := rfl
      show sparkVal ty sm field (.node (.call "floor") [.node (.name x) [] []] []) = _
      unfold sparkVal
      rw [e]
      simp [bind, Except.bind, SCol.type, SCol.typeL, SCol.eval, SCol.evalL, SFn.type, hx, SFn.apply, sparkRow, ha, SVal.lift, sparkLong]
  · constructor
    · show treeVal more field (.node (.call "ceil") [.node (.name x) [] []] []) = _
      have e := hm.rat "ceil" npCeil rfl
      unfold treeVal
      simp [E.toT, E.toTL, calculate, calculateL, rowLib, builtin, e, rowSymbols, rowNums, Except.map, bind, Except.bind, ha, npCeil]
    · have e : tocolumns (E.toT (.node (.call "ceil") [.node (.name x) [] []] [])) = .ok (.fn .ceil [.field x]) := rfl
      show sparkVal ty sm field (.node (.call "ceil") [.node (.name x) [] []] []) = _
      unfold sparkVal
      rw [e]
      simp [bind, Except.bind, SCol.type, SCol.typeL, SCol.eval, SCol.evalL, SFn.type, hx, SFn.apply, sparkRow, ha, SVal.lift, sparkLong]

/-- **C93** fails for every remainder by zero: arrays have NaN, Spark has null. -/
theorem C93_refuted_zero_always (hm : SparkLib more) (x y : String) (hx : ty x = .num) (hy : ty y = .num) (hb : field y = some 0) :
    computed more field (.call "mod" [.name x, .name y]) = .ok (.num none) ∧
      onSpark ty sm field (.call "mod" [.name x, .name y]) = .ok .null := by
  constructor
  · have hl : (rowLib more).fn "mod" = some fun vs => (rowNums vs).map fun xs => .num (npRemainder xs) := by
      have e := hm.rat "mod" npRemainder rfl
      have e' : builtin "mod" = none := rfl
      simp [rowLib, e, e']
    refine (treeVal_onTwo "mod" x y npRemainder hl).trans ?_
    rw [hb]
    cases field x <;> simp [npRemainder]
  · refine (sparkVal_onTwo (onTwo (.call "mod") x y) .mod x y .num rfl (by rw [hx, hy]; rfl)).trans ?_
    simp [sparkRow, hx, hy, hb, SFn.apply, SVal.arith, sparkMod]

/-- **C93** fails for the operator `%` of all fields and on all rows. -/
theorem C93_refuted_percent_always (x y : String) :
    onSpark ty sm field (.bin .mod (.name x) (.name y)) = .error .notImplemented := rfl

/-- **C93** fails for the functions of boolean fields that are refused as columns, on all rows. -/
theorem C93_refuted_flag_always (f : String) (hf : f ∈ ["abs", "fabs", "floor", "ceil", "isnan"]) (x : String) (hx : ty x = .bool) :
    onSpark ty sm field (.call f [.name x]) = .error .typeError := by
  simp only [List.mem_cons, List.not_mem_nil, or_false] at hf
  rcases hf with rfl | rfl | rfl | rfl | rfl
  · have e : tocolumns (E.toT (.node (.call "abs") [.node (.name x) [] []] [])) = .ok (.fn .abs [.field x]) := rfl
    show sparkVal ty sm field (.node (.call "abs") [.node (.name x) [] []] []) = _
    unfold sparkVal
    rw [e]
    simp [bind, Except.bind, SCol.type, SCol.typeL, SFn.type, hx]
  · have e : tocolumns (E.toT (.node (.call "fabs") [.node (.name x) [] []] [])) = .ok (.fn .abs [.field x]) := rfl
    show sparkVal ty sm field (.node (.call "fabs") [.node (.name x) [] []] []) = _
    unfold sparkVal
    rw [e]
    simp [bind, Except.bind, SCol.type, SCol.typeL, SFn.type, hx]
  · have e : tocolumns (E.toT (.node (.call "floor") [.node (.name x) [] []] [])) = .ok (.fn .floor [.field x]) := rfl
    show sparkVal ty sm field (.node (.call "floor") [.node (.name x) [] []] []) = _
    unfold sparkVal
    rw [e]
    simp [bind, Except.bind, SCol.type, SCol.typeL, SFn.type, hx]
  · have e : tocolumns (E.toT (.node (.call "ceil") [.node (.name x) [] []] [])) = .ok (.fn .ceil [.field x]) := rfl
    show sparkVal ty sm field (.node (.call "ceil") [.node (.name x) [] []] []) = _
    unfold sparkVal
    rw [e]
    simp [bind, Except.bind, SCol.type, SCol.typeL, SFn.type, hx]
  · have e : tocolumns (E.toT (.node (.call "isnan") [.node (.name x) [] []] [])) = .ok (.fn .isnan [.field x]) := rfl
    show sparkVal ty sm field (.node (.call "isnan") [.node (.name x) [] []] []) = _
    unfold sparkVal
    rw [e]
    simp [bind, Except.bind, SCol.type, SCol.typeL, SFn.type, hx]

/-- The hypotheses are met by the row of `PropsSparkColumns.lean`: `x = 0`, `y = -1`, `z` is NaN, `b` is boolean. -/
example : SparkLib sparkMore ∧ sparkTy "y" = .num ∧ sparkEx "y" = some (-1) ∧ sparkTy "z" = .num ∧ sparkEx "z" = none ∧
    sparkTy "x" = .num ∧ sparkEx "x" = some 0 ∧ sparkTy "b" = .bool :=
  ⟨sparkMore_lib, by decide, by decide, by decide, by decide, by decide, by decide, by decide⟩

end Verif
