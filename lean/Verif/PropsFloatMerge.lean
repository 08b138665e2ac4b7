import Verif.FloatMerge
import Verif.PropsFloatSum

/-!
# C122: filling in parts and adding, with the machine's arithmetic
-/

namespace Verif

theorem eps_eq : eps = 1 / 2 ^ 53 := by unfold eps; rw [zpow_neg]; norm_num

/-- However the data are divided between histograms and however these are added, each bin differs from the exact sum of its weights by no more than
`(1 + 2^-53)^(n + d) - 1` of the sum of the sizes of its `n` weights, where `d` is the depth of the additions. -/
theorem C122_any_order (a : BinAxis) (h : a.Ordinary) (p : Plan) (hw : ∀ r ∈ p.rows, IsF64 r.2) :
    ∃ c, p.run a = .ok c ∧ c.length = a.totbins ∧ ∀ i < a.totbins, ∃ x, c[i]? = some x ∧ IsF64 x ∧
      |x - (a.weightsIn i p.rows).sum| ≤ ((1 + 1 / 2 ^ 53) ^ ((a.weightsIn i p.rows).length + p.depth) - 1) * ((a.weightsIn i p.rows).map abs).sum := by
  rw [← eps_eq]
  induction p with
  | fill bs =>
    obtain ⟨c, h1, _, h2, h3⟩ := C106_batches a h bs
    refine ⟨c, h1, h2, fun i hi => ⟨_, h3 i hi, sumF_isF64 _ _ isF64_zero, ?_⟩⟩
    have := sumF_err (a.weightsIn i bs.flatten) 0 isF64_zero (by
      intro w hwm
      obtain ⟨r, hr, rfl⟩ := List.mem_map.1 hwm
      exact hw r (List.mem_filter.1 hr).1)
    rw [zero_add, abs_zero, zero_add] at this
    exact this
  | add l r ihl ihr =>
    obtain ⟨c, hc, hcl, hcx⟩ := ihl (fun x hx => hw x (List.mem_append_left _ hx))
    obtain ⟨d, hd, hdl, hdx⟩ := ihr (fun x hx => hw x (List.mem_append_right _ hx))
    refine ⟨mergeF c d, by simp [Plan.run, hc, hd], by rw [mergeF_length (by rw [hcl, hdl]), hcl], fun i hi => ?_⟩
    obtain ⟨x, hx, hxF, hxe⟩ := hcx i hi
    obtain ⟨y, hy, hyF, hye⟩ := hdx i hi
    refine ⟨_, mergeF_get hx hy, rne_isF64 _, ?_⟩
    simp only [Plan.rows, Plan.depth, a.weightsIn_append, List.length_append, List.sum_append, List.map_append]
    set u := a.weightsIn i l.rows
    set v := a.weightsIn i r.rows
    change _ ≤ growth _ * _ at hxe
    change _ ≤ growth _ * _ at hye
    change _ ≤ growth _ * _
    have hu0 := sum_abs_nonneg u
    have hv0 := sum_abs_nonneg v
    have g1 : growth (u.length + l.depth) * (u.map abs).sum ≤ growth (u.length + v.length + max l.depth r.depth) * (u.map abs).sum :=
      mul_le_mul_of_nonneg_right (growth_mono (by omega)) hu0
    have g2 : growth (v.length + r.depth) * (v.map abs).sum ≤ growth (u.length + v.length + max l.depth r.depth) * (v.map abs).sum :=
      mul_le_mul_of_nonneg_right (growth_mono (by omega)) hv0
    rw [← Nat.add_assoc]
    refine rel_step (y := x + y) _ ?_ ?_ (rne_err_sum hxF hyF)
    · have e : x + y - (u.sum + v.sum) = (x - u.sum) + (y - v.sum) := by ring
      rw [e, mul_add]
      exact (abs_add_le _ _).trans (add_le_add (hxe.trans g1) (hye.trans g2))
    · exact (abs_add_le _ _).trans (add_le_add (abs_sum_le u) (abs_sum_le v))

example : Plan.run (decimalBin 1 0 1) (.add (.fill [[(.fin (1 / 2), rne (1 / 10))]]) (.fill [[(.fin (1 / 2), rne (2 / 10))], [(.fin (1 / 2), rne (3 / 10))]])) =
    .ok [0, rne (6 / 10), 0, 0] := by decide +kernel

/-- Without weights the parts and the order make no difference: each bin is exactly the number of values in it. -/
theorem C122_counts (a : BinAxis) (h : a.Ordinary) (p : Plan) (hw : ∀ r ∈ p.rows, r.2 = 1) (hn : p.rows.length ≤ 2 ^ 53) :
    ∃ c, p.run a = .ok c ∧ c.length = a.totbins ∧
      ∀ i < a.totbins, c[i]? = some ((p.rows.countP fun r => a.indexF r.1 = .ok (some (i : ℤ)) : ℕ) : ℚ) := by
  induction p with
  | fill bs =>
    obtain ⟨c, h1, h2, h3⟩ := C106_counts_partial a h (bs.map fun b => b.map (·.1)) (by
      rw [← List.map_flatten, List.length_map]; exact hn)
    have e : ((bs.map fun b => b.map (·.1)).map fun b => b.map fun v => (v, (1 : ℚ))) = bs := by
      rw [List.map_map]
      conv_rhs => rw [← List.map_id bs]
      refine List.map_congr_left fun b hb => ?_
      simp only [Function.comp, List.map_map, id]
      conv_rhs => rw [← List.map_id b]
      refine List.map_congr_left fun r hr => ?_
      exact Prod.ext rfl (hw r (List.mem_flatten.2 ⟨b, hb, hr⟩)).symm
    rw [e] at h1
    refine ⟨c, h1, h2, fun i hi => ?_⟩
    rw [h3 i hi, ← List.map_flatten, List.countP_map]
    rfl
  | add l r ihl ihr =>
    simp only [Plan.rows, List.length_append] at hn
    obtain ⟨c, hc, hcl, hcx⟩ := ihl (fun x hx => hw x (List.mem_append_left _ hx)) (by omega)
    obtain ⟨d, hd, hdl, hdx⟩ := ihr (fun x hx => hw x (List.mem_append_right _ hx)) (by omega)
    refine ⟨mergeF c d, by simp [Plan.run, hc, hd], by rw [mergeF_length (by rw [hcl, hdl]), hcl], fun i hi => ?_⟩
    rw [mergeF_get (hcx i hi) (hdx i hi)]
    simp only [Plan.rows, List.countP_append]
    rw [← Nat.cast_add, rne_fix]
    refine isF64_nat _ ?_
    have h1 := List.countP_le_length (p := fun r : Num × ℚ => decide (a.indexF r.1 = .ok (some (i : ℤ)))) (l := l.rows)
    have h2 := List.countP_le_length (p := fun r : Num × ℚ => decide (a.indexF r.1 = .ok (some (i : ℤ)))) (l := r.rows)
    omega

/-- Two ways to fill and add the same unweighted data, in any order, give the same histogram. -/
theorem C122_same (a : BinAxis) (h : a.Ordinary) (p q : Plan) (hpq : p.rows.Perm q.rows) (hw : ∀ r ∈ p.rows, r.2 = 1) (hn : p.rows.length ≤ 2 ^ 53) :
    ∃ c, p.run a = .ok c ∧ q.run a = .ok c := by
  obtain ⟨c, h1, h2, h3⟩ := C122_counts a h p hw hn
  obtain ⟨d, h4, h5, h6⟩ := C122_counts a h q (fun r hr => hw r (hpq.mem_iff.2 hr)) (by rw [← hpq.length_eq]; exact hn)
  refine ⟨c, h1, ?_⟩
  rw [h4]
  congr 1
  refine List.ext_getElem? fun i => ?_
  by_cases hi : i < a.totbins
  · rw [h3 i hi, h6 i hi, hpq.countP_eq]
  · rw [List.getElem?_eq_none (by omega), List.getElem?_eq_none (by omega)]

example : Plan.run (decimalBin 2 0 1) (.add (.fill [[(.fin (1 / 4), 1), (.fin 3, 1)]]) (.fill [[(.fin (3 / 4), 1)], [(.nan, 1)]])) = .ok [0, 1, 1, 1, 1] ∧
    Plan.run (decimalBin 2 0 1) (.fill [[(.nan, 1), (.fin 3, 1), (.fin (3 / 4), 1), (.fin (1 / 4), 1)]]) = .ok [0, 1, 1, 1, 1] := by decide +kernel

/-- Addition is commutative, and adding an empty histogram changes nothing. -/
theorem C122_laws (a : BinAxis) (h : a.Ordinary) (p q : Plan) :
    (Plan.add p q).run a = (Plan.add q p).run a ∧
      ∀ bs, bs.flatten = [] → (Plan.add p (.fill bs)).run a = p.run a := by
  have hok : ∀ p : Plan, ∃ c, p.run a = .ok c ∧ c.length = a.totbins ∧ ∀ x ∈ c, IsF64 x := by
    intro p
    induction p with
    | fill bs =>
      obtain ⟨c, h1, _, h2, h3⟩ := C106_batches a h bs
      refine ⟨c, h1, h2, fun x hx => ?_⟩
      obtain ⟨i, hi, rfl⟩ := List.getElem_of_mem hx
      have := h3 i (by omega)
      rw [List.getElem?_eq_getElem hi] at this
      rw [Option.some.inj this]
      exact sumF_isF64 _ _ isF64_zero
    | add l r ihl ihr =>
      obtain ⟨c, hc, hcl, -⟩ := ihl
      obtain ⟨d, hd, hdl, -⟩ := ihr
      refine ⟨mergeF c d, by simp [Plan.run, hc, hd], by rw [mergeF_length (by rw [hcl, hdl]), hcl], fun x hx => ?_⟩
      obtain ⟨i, hi, rfl⟩ := List.getElem_of_mem hx
      simp only [mergeF, List.getElem_zipWith]
      exact rne_isF64 _
  obtain ⟨c, hc, hcl, hcF⟩ := hok p
  obtain ⟨d, hd, hdl, -⟩ := hok q
  constructor
  · simp only [Plan.run, hc, hd, mergeF]
    rw [List.zipWith_comm]
    simp only [add_comm]
  · intro bs hbs
    obtain ⟨z, hz1, -, hz2, hz3⟩ := C106_batches a h bs
    simp only [Plan.run, hc, hz1]
    congr 1
    refine List.ext_getElem? fun i => ?_
    by_cases hi : i < a.totbins
    · have h1 := hz3 i hi
      rw [hbs] at h1
      simp only [List.filter_nil, List.map_nil, sumF, List.foldl_nil] at h1
      have h2 : c[i]? = some (c[i]'(by omega)) := List.getElem?_eq_getElem _
      rw [mergeF_get h2 h1, h2, add_zero, rne_fix (hcF _ (List.getElem_mem _))]
    · rw [List.getElem?_eq_none (by rw [mergeF_length (by omega)]; omega), List.getElem?_eq_none (by omega)]

/-- If no weight is negative, no bin of a sum is less than the same bin of its parts. -/
theorem C122_grows (a : BinAxis) (h : a.Ordinary) (p q : Plan) (hp : ∀ r ∈ p.rows, 0 ≤ r.2) (hq : ∀ r ∈ q.rows, 0 ≤ r.2) :
    ∃ c d e, p.run a = .ok c ∧ q.run a = .ok d ∧ (Plan.add p q).run a = .ok e ∧ ∀ i < a.totbins, ∃ x y z, c[i]? = some x ∧ d[i]? = some y ∧ e[i]? = some z ∧
      0 ≤ x ∧ 0 ≤ y ∧ x ≤ z ∧ y ≤ z := by
  have hs : ∀ (ws : List ℚ) (s : ℚ), 0 ≤ s → (∀ w ∈ ws, 0 ≤ w) → 0 ≤ sumF s ws := by
    intro ws
    induction ws with
    | nil => intro s hs _; exact hs
    | cons w ws ih =>
      intro s hs hw
      exact ih _ (rne_nonneg (by have := hw w (by simp); linarith)) (fun x hx => hw x (by simp [hx]))
  have hok : ∀ p : Plan, (∀ r ∈ p.rows, 0 ≤ r.2) → ∃ c, p.run a = .ok c ∧ ∀ i < a.totbins, ∃ x, c[i]? = some x ∧ IsF64 x ∧ 0 ≤ x := by
    intro p
    induction p with
    | fill bs =>
      intro hp
      obtain ⟨c, h1, _, h2, h3⟩ := C106_batches a h bs
      refine ⟨c, h1, fun i hi => ⟨_, h3 i hi, sumF_isF64 _ _ isF64_zero, hs _ _ le_rfl fun w hw => ?_⟩⟩
      obtain ⟨r, hr, rfl⟩ := List.mem_map.1 hw
      exact hp r (List.mem_filter.1 hr).1
    | add l r ihl ihr =>
      intro hp
      obtain ⟨c, hc, hcx⟩ := ihl (fun x hx => hp x (List.mem_append_left _ hx))
      obtain ⟨d, hd, hdx⟩ := ihr (fun x hx => hp x (List.mem_append_right _ hx))
      refine ⟨mergeF c d, by simp [Plan.run, hc, hd], fun i hi => ?_⟩
      obtain ⟨x, hx, -, hx0⟩ := hcx i hi
      obtain ⟨y, hy, -, hy0⟩ := hdx i hi
      exact ⟨_, mergeF_get hx hy, rne_isF64 _, rne_nonneg (by linarith)⟩
  obtain ⟨c, hc, hcx⟩ := hok p hp
  obtain ⟨d, hd, hdx⟩ := hok q hq
  refine ⟨c, d, mergeF c d, hc, hd, by simp [Plan.run, hc, hd], fun i hi => ?_⟩
  obtain ⟨x, hx, hxF, hx0⟩ := hcx i hi
  obtain ⟨y, hy, hyF, hy0⟩ := hdx i hi
  exact ⟨x, y, _, hx, hy, mergeF_get hx hy, hx0, hy0, le_rne hxF (by linarith), le_rne hyF (by linarith)⟩

/-- Addition of weighted histograms is not associative: with one entry of weight 0.1, 0.2 and 0.3 each, the two ways to add three histograms differ. -/
theorem C122_refuted_assoc :
    (Plan.add (.add (.fill [[(.fin (1 / 2), rne (1 / 10))]]) (.fill [[(.fin (1 / 2), rne (2 / 10))]])) (.fill [[(.fin (1 / 2), rne (3 / 10))]])).run (decimalBin 1 0 1) ≠
      (Plan.add (.fill [[(.fin (1 / 2), rne (1 / 10))]]) (.add (.fill [[(.fin (1 / 2), rne (2 / 10))]]) (.fill [[(.fin (1 / 2), rne (3 / 10))]]))).run (decimalBin 1 0 1) := by
  decide +kernel

/-- With weights of both signs the difference can be everything: adding 1, 1e16 and -1e16 gives 0 in one order and 1 in the other. -/
theorem C122_refuted_cancel :
    (Plan.add (.add (.fill [[(.fin (1 / 2), 1)]]) (.fill [[(.fin (1 / 2), 10 ^ 16)]])) (.fill [[(.fin (1 / 2), -10 ^ 16)]])).run (decimalBin 1 0 1) = .ok [0, 0, 0, 0] ∧
      (Plan.add (.fill [[(.fin (1 / 2), 1)]]) (.add (.fill [[(.fin (1 / 2), 10 ^ 16)]]) (.fill [[(.fin (1 / 2), -10 ^ 16)]]))).run (decimalBin 1 0 1) = .ok [0, 1, 0, 0] := by
  decide +kernel

end Verif
