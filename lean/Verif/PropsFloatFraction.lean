import Verif.FloatFraction
import Verif.PropsFloatSum

/-!
# Fractions in double precision: property theorems C119
-/

namespace Verif

theorem passF_le {c : List ℚ} {k i j : ℕ} (h : ∀ bs ∈ cutCells k, 0 ≤ cutContent c k i bs) : 0 ≤ passF c k i j ∧ passF c k i j ≤ denomF c k i := by
  have hy : ∀ y ∈ (cutCells k).map (cutContent c k i), 0 ≤ y := by
    intro y hy
    obtain ⟨bs, hbs, rfl⟩ := List.mem_map.1 hy
    exact h bs hbs
  constructor
  · refine sumF_nonneg _ 0 le_rfl fun y hy' => ?_
    obtain ⟨bs, hbs, rfl⟩ := List.mem_map.1 hy'
    exact h bs (List.mem_filter.1 hbs).1
  · exact sumF_sublist (List.filter_sublist.map _) le_rfl isF64_zero hy

theorem isF64_one : IsF64 1 := by simpa using isF64_int 1 (by norm_num)

/-- **C119**: with weights that are not negative, every fraction that the table shows in double precision is between 0
and 1, and the number under the root of its error is not negative, so that the error is a number. -/
theorem C119_range (a : BinAxis) (h : a.Ordinary) (k : ℕ) (rows : List CutRow) (hr : ∀ r ∈ rows, r.cuts.length = k)
    (hw : ∀ r ∈ rows, 0 ≤ r.weight) :
    ∃ c, a.fillCuts k rows = .ok c ∧ ∀ j, (fractionF a k j c).length = a.totbins ∧
      ∀ cell ∈ fractionF a k j c, 0 ≤ cell.fraction ∧ cell.fraction ≤ 1 ∧ ∃ r, cell.errorSq = some r ∧ 0 ≤ r := by
  obtain ⟨c, hc, hcont⟩ := fillCuts_content h k rows hr
  refine ⟨c, hc, fun j => ⟨by simp [fractionF], ?_⟩⟩
  intro cell hcell
  obtain ⟨i, hi, rfl⟩ := List.mem_map.1 hcell
  have hi := List.mem_range.1 hi
  obtain ⟨h1, h2⟩ := passF_le (c := c) (k := k) (i := i) (j := j) fun bs hbs => by
    rw [hcont i hi bs hbs]
    refine sumF_nonneg _ 0 le_rfl fun y hy => ?_
    obtain ⟨r, hr', rfl⟩ := List.mem_map.1 hy
    exact hw r (List.mem_filter.1 (List.mem_filter.1 hr').1).1
  unfold fracCellF
  by_cases hd : denomF c k i > 0
  · rw [if_pos hd]
    have p0 : 0 ≤ rne (passF c k i j / denomF c k i) := rne_nonneg (div_nonneg h1 hd.le)
    have p1 : rne (passF c k i j / denomF c k i) ≤ 1 := rne_le isF64_one ((div_le_one hd).2 h2)
    have q0 : 0 ≤ rne (1 - rne (passF c k i j / denomF c k i)) := rne_nonneg (by linarith)
    have r0 : 0 ≤ rne (rne (rne (passF c k i j / denomF c k i) * rne (1 - rne (passF c k i j / denomF c k i))) / denomF c k i) :=
      rne_nonneg (div_nonneg (rne_nonneg (mul_nonneg p0 q0)) hd.le)
    exact ⟨p0, p1, _, if_neg (not_lt.2 r0), r0⟩
  · rw [if_neg hd]
    exact ⟨le_rfl, by norm_num, 0, rfl, le_rfl⟩

/-- Two cuts with weights 0.1, 0.2 and 0.3. -/
example : (decimalBin 1 0 1).fillCuts 2 [⟨.fin (1 / 2), [true, false], rne (1 / 10)⟩, ⟨.fin (1 / 2), [true, true], rne (2 / 10)⟩,
      ⟨.fin (1 / 2), [false, true], rne (3 / 10)⟩] =
      .ok [0, 0, 0, 0, 0, rne (3 / 10), rne (1 / 10), rne (2 / 10), 0, 0, 0, 0, 0, 0, 0, 0] ∧
    (fractionF (decimalBin 1 0 1) 2 0 [0, 0, 0, 0, 0, rne (3 / 10), rne (1 / 10), rne (2 / 10), 0, 0, 0, 0, 0, 0, 0, 0]).map (·.fraction) =
      [0, rne ((rne (3 / 10) + 1 / 2 ^ 54) / rne (6000000000000001 / 10000000000000000)), 0, 0] := by decide +kernel

/-- The number of rows, and of rows that pass cut `j`. -/
def passing (j : ℕ) (rows : List CutRow) : List CutRow := rows.filter fun r => r.cuts[j]? = some true

theorem sum_ones (rows : List CutRow) : ((rows.map fun _ => (1 : ℚ))).sum = rows.length := by
  induction rows with
  | nil => simp
  | cons r rows ih => simp only [List.map_cons, List.sum_cons, ih, List.length_cons]; push_cast; ring

/-- Sums of counts are exact. -/
theorem sumF_counts (ns : List ℕ) (h : ns.sum ≤ 2 ^ 53) : sumF 0 (ns.map fun n : ℕ => (n : ℚ)) = (ns.sum : ℕ) := by
  have := sumF_ints (ns.map fun n : ℕ => (n : ℤ)) 0 (by
    have e : ((ns.map fun n : ℕ => (n : ℤ)).map abs).sum = (ns.sum : ℕ) := by
      clear h
      induction ns with
      | nil => simp
      | cons n ns ih => simp only [List.map_cons, List.sum_cons, ih]; push_cast; simp
    rw [e, abs_zero, zero_add]
    exact_mod_cast h)
  rw [List.map_map] at this
  have e2 : (ns.map fun n : ℕ => (n : ℤ)).sum = (ns.sum : ℕ) := by
    clear this h
    induction ns with
    | nil => simp
    | cons n ns ih => simp only [List.map_cons, List.sum_cons, ih]; push_cast; rfl
  rw [e2, zero_add] at this
  simpa [Function.comp_def] using this

theorem cells_count (rows : List CutRow) (cells : List (List Bool)) (hn : cells.Nodup) :
    (cells.map fun bs => (rows.filter fun r => r.cuts = bs).length).sum = (rows.filter fun r => r.cuts ∈ cells).length := by
  have h := sum_cells (fun _ => 1) rows cells hn
  simp only [sum_ones] at h
  have : (((cells.map fun bs => (rows.filter fun r => r.cuts = bs).length).sum : ℕ) : ℚ) = (rows.filter fun r => r.cuts ∈ cells).length := by
    rw [← h]
    clear h hn
    induction cells with
    | nil => simp
    | cons b cells ih => simp only [List.map_cons, List.sum_cons]; push_cast; rw [ih]
  exact_mod_cast this

theorem rowsIn_cuts {a : BinAxis} {i k : ℕ} {rows : List CutRow} (hr : ∀ r ∈ rows, r.cuts.length = k) :
    (a.rowsIn i rows).filter (fun r => r.cuts ∈ cutCells k) = a.rowsIn i rows ∧
    ∀ j, (a.rowsIn i rows).filter (fun r => r.cuts ∈ (cutCells k).filter fun bs => bs[j]? = some true) = passing j (a.rowsIn i rows) := by
  have h : ∀ r ∈ a.rowsIn i rows, r.cuts ∈ cutCells k := fun r h => (mem_cutCells k _).2 (hr r (List.mem_filter.1 h).1)
  constructor
  · rw [List.filter_eq_self]
    intro r hr'
    simpa using h r hr'
  · intro j
    refine List.filter_congr fun r hr' => ?_
    have := h r hr'
    simp [List.mem_filter, this]

/-- **C119**: without weights, and with at most `2^53` rows, the fraction of a bin is the double next to the exact fraction
of the rows in it that pass; it is 0 only if none passes and 1 only if all pass. -/
theorem C119_counts (a : BinAxis) (h : a.Ordinary) (k : ℕ) (rows : List CutRow) (hr : ∀ r ∈ rows, r.cuts.length = k)
    (hw : ∀ r ∈ rows, r.weight = 1) (hlen : rows.length ≤ 2 ^ 53) :
    ∃ c, a.fillCuts k rows = .ok c ∧ ∀ j, ∀ i < a.totbins, ∃ cell, (fractionF a k j c)[i]? = some cell ∧
      (a.rowsIn i rows ≠ [] → cell.fraction = rne ((passing j (a.rowsIn i rows)).length / (a.rowsIn i rows).length) ∧
        |cell.fraction - (passing j (a.rowsIn i rows)).length / (a.rowsIn i rows).length| ≤
          1 / 2 ^ 53 * ((passing j (a.rowsIn i rows)).length / (a.rowsIn i rows).length) ∧
        (cell.fraction = 0 ↔ passing j (a.rowsIn i rows) = []) ∧ (cell.fraction = 1 ↔ passing j (a.rowsIn i rows) = a.rowsIn i rows)) ∧
      (a.rowsIn i rows = [] → cell.fraction = 0) := by
  obtain ⟨c, hc, hcont⟩ := fillCuts_content h k rows hr
  refine ⟨c, hc, fun j i hi => ⟨fracCellF (passF c k i j) (denomF c k i), by simp [fractionF, hi], ?_⟩⟩
  have hin : (a.rowsIn i rows).length ≤ 2 ^ 53 := (List.length_filter_le _ _).trans hlen
  have hsub : (passing j (a.rowsIn i rows)).length ≤ (a.rowsIn i rows).length := List.length_filter_le _ _
  obtain ⟨hall, hpass⟩ := rowsIn_cuts (a := a) (i := i) hr
  have hcell : ∀ bs ∈ cutCells k, cutContent c k i bs = (((a.rowsIn i rows).filter fun r => r.cuts = bs).length : ℕ) := by
    intro bs hbs
    rw [hcont i hi bs hbs]
    have e : ((a.rowsIn i rows).filter fun r => r.cuts = bs).map (·.weight) = (List.replicate ((a.rowsIn i rows).filter fun r => r.cuts = bs).length 1).map fun n : ℕ => (n : ℚ) := by
      rw [List.map_replicate, Nat.cast_one, List.eq_replicate_iff]
      refine ⟨by simp, fun x hx => ?_⟩
      obtain ⟨r, hr', rfl⟩ := List.mem_map.1 hx
      exact hw r (List.mem_filter.1 (List.mem_filter.1 hr').1).1
    rw [e, sumF_counts _ (by simpa using (List.length_filter_le _ _).trans hin)]
    simp
  have hd : denomF c k i = (a.rowsIn i rows).length := by
    unfold denomF
    have e : (cutCells k).map (cutContent c k i) = ((cutCells k).map fun bs => ((a.rowsIn i rows).filter fun r => r.cuts = bs).length).map fun n : ℕ => (n : ℚ) := by
      rw [List.map_map]
      exact List.map_congr_left hcell
    rw [e, sumF_counts, cells_count _ _ (cutCells_nodup k), hall]
    rw [cells_count _ _ (cutCells_nodup k), hall]; exact hin
  have hp : passF c k i j = (passing j (a.rowsIn i rows)).length := by
    unfold passF
    have e : ((cutCells k).filter fun bs => bs[j]? = some true).map (cutContent c k i) =
        (((cutCells k).filter fun bs => bs[j]? = some true).map fun bs => ((a.rowsIn i rows).filter fun r => r.cuts = bs).length).map fun n : ℕ => (n : ℚ) := by
      rw [List.map_map]
      exact List.map_congr_left fun bs hbs => hcell bs (List.mem_filter.1 hbs).1
    rw [e, sumF_counts, cells_count _ _ ((cutCells_nodup k).filter _), hpass]
    rw [cells_count _ _ ((cutCells_nodup k).filter _), hpass]; exact hsub.trans hin
  unfold fracCellF
  rw [hd, hp]
  constructor
  · intro hne
    have hpos : 0 < (a.rowsIn i rows).length := List.length_pos_iff.2 hne
    have hq : (0 : ℚ) < (a.rowsIn i rows).length := by exact_mod_cast hpos
    rw [if_pos hq]
    simp only
    set m := (passing j (a.rowsIn i rows)).length with hm
    set n := (a.rowsIn i rows).length with hn
    have hx : (m : ℚ) / n = 0 ∨ (2 : ℚ) ^ (-53 : ℤ) ≤ |(m : ℚ) / n| := by
      rcases Nat.eq_zero_or_pos m with h0 | h0
      · left; rw [h0]; simp
      · right
        rw [abs_of_nonneg (by positivity), le_div_iff₀ hq]
        have h1 : (n : ℚ) ≤ 2 ^ 53 := by exact_mod_cast hin
        have h2 : (1 : ℚ) ≤ m := by exact_mod_cast h0
        have h3 : (2 : ℚ) ^ (-53 : ℤ) * n ≤ 2 ^ (-53 : ℤ) * 2 ^ 53 := mul_le_mul_of_nonneg_left h1 (by positivity)
        have h4 : (2 : ℚ) ^ (-53 : ℤ) * 2 ^ 53 = 1 := by norm_num
        linarith
    refine ⟨trivial, ?_, ⟨fun h0 => ?_, fun h0 => ?_⟩, fun h1 => ?_, fun h1 => ?_⟩
    · have := rne_rel (-53) (by norm_num) hx
      rw [abs_of_nonneg (by positivity : (0 : ℚ) ≤ (m : ℚ) / n)] at this
      have he : eps = 1 / 2 ^ 53 := by unfold eps; rw [zpow_neg]; norm_num
      rwa [he] at this
    · rcases hx with hx | hx
      · rw [div_eq_zero_iff] at hx
        rcases hx with hx | hx
        · exact List.length_eq_zero_iff.1 (by exact_mod_cast hx)
        · exact absurd hx hq.ne'
      · exfalso
        rw [abs_of_nonneg (by positivity)] at hx
        have := le_rne (isF64_zpow (-53) (by norm_num)) hx
        rw [h0] at this
        exact absurd this (by norm_num)
    · have : m = 0 := by rw [hm, h0]; rfl
      rw [this]; simp [rne_zero]
    · by_contra hneq
      have hlt : m < n := by
        rcases Nat.lt_or_ge m n with h2 | h2
        · exact h2
        · exact absurd (List.filter_sublist.eq_of_length_le h2) hneq
      have h2 : (m : ℚ) / n ≤ 1 - 1 / 2 ^ 53 := by
        rw [div_le_iff₀ hq]
        have h3 : (m : ℚ) + 1 ≤ n := by exact_mod_cast hlt
        have h4 : (n : ℚ) ≤ 2 ^ 53 := by exact_mod_cast hin
        have h5 : (n : ℚ) * (1 / 2 ^ 53) ≤ 1 := by
          rw [mul_one_div, div_le_one (by positivity)]; exact h4
        linarith
      have h3 : IsF64 (1 - 1 / 2 ^ 53) := ⟨2 ^ 53 - 1, -53, by norm_num, by norm_num, by norm_num⟩
      have := rne_le h3 h2
      rw [h1] at this
      exact absurd this (by norm_num)
    · have : m = n := by rw [hm, h1]
      rw [this, div_self hq.ne', rne_fix isF64_one]
  · intro he
    have : (a.rowsIn i rows).length = 0 := by rw [he]; rfl
    rw [this]
    simp

/-- Two of three rows pass. -/
example : (decimalBin 1 0 1).fillCuts 1 [⟨.fin (1 / 2), [true], 1⟩, ⟨.fin (1 / 2), [false], 1⟩, ⟨.fin (1 / 4), [true], 1⟩] = .ok [0, 0, 1, 2, 0, 0, 0, 0] ∧
    (fractionF (decimalBin 1 0 1) 1 0 [0, 0, 1, 2, 0, 0, 0, 0]).map (·.fraction) = [0, rne (2 / 3), 0, 0] := by decide +kernel

/-- Weights that are not negative: the sum over some cells, relative to the exact sum of the weights. -/
theorem cells_err {a : BinAxis} {k i : ℕ} {rows : List CutRow} {c : List ℚ} (cells : List (List Bool)) (hn : cells.Nodup)
    (hsub : ∀ bs ∈ cells, bs ∈ cutCells k) (hle : cells.length ≤ 2 ^ k)
    (hcont : ∀ bs ∈ cutCells k, cutContent c k i bs = sumF 0 (((a.rowsIn i rows).filter fun r => r.cuts = bs).map (·.weight)))
    (hw : ∀ r ∈ rows, 0 ≤ r.weight ∧ IsF64 r.weight) :
    |sumF 0 (cells.map (cutContent c k i)) - (((a.rowsIn i rows).filter fun r => r.cuts ∈ cells).map (·.weight)).sum| ≤
      growth ((a.rowsIn i rows).length + 2 ^ k) * (((a.rowsIn i rows).filter fun r => r.cuts ∈ cells).map (·.weight)).sum := by
  set R := a.rowsIn i rows with hR
  have hwR : ∀ r ∈ R, 0 ≤ r.weight ∧ IsF64 r.weight := fun r h => hw r (List.mem_filter.1 h).1
  set S : List Bool → ℚ := fun bs => ((R.filter fun r => r.cuts = bs).map (·.weight)).sum with hS
  have hS0 : ∀ bs, 0 ≤ S bs := fun bs => List.sum_nonneg (by
    intro x hx
    obtain ⟨r, hr, rfl⟩ := List.mem_map.1 hx
    exact (hwR r (List.mem_filter.1 hr).1).1)
  have hcell : ∀ bs ∈ cells, |cutContent c k i bs - S bs| ≤ growth R.length * S bs ∧ IsF64 (cutContent c k i bs) ∧ 0 ≤ cutContent c k i bs := by
    intro bs hbs
    rw [hcont bs (hsub bs hbs)]
    have hF : ∀ w ∈ (R.filter fun r => r.cuts = bs).map (·.weight), 0 ≤ w ∧ IsF64 w := by
      intro x hx
      obtain ⟨r, hr, rfl⟩ := List.mem_map.1 hx
      exact hwR r (List.mem_filter.1 hr).1
    have h1 := sumF_err ((R.filter fun r => r.cuts = bs).map (·.weight)) 0 isF64_zero fun w h => (hF w h).2
    have habs : (((R.filter fun r => r.cuts = bs).map (·.weight)).map abs).sum = S bs := by
      rw [hS]
      congr 1
      conv_rhs => rw [← List.map_id ((R.filter fun r => r.cuts = bs).map (·.weight))]
      exact List.map_congr_left fun w h => abs_of_nonneg (hF w h).1
    rw [habs] at h1
    simp only [zero_add, abs_zero, List.length_map] at h1
    refine ⟨h1.trans (mul_le_mul_of_nonneg_right ?_ (hS0 bs)), sumF_isF64 _ _ isF64_zero, sumF_nonneg _ 0 le_rfl fun w h => (hF w h).1⟩
    exact growth_mono (List.length_filter_le _ _)
  rw [← sum_cells (·.weight) R cells hn]
  change |_ - (cells.map S).sum| ≤ _ * (cells.map S).sum
  have key : |(cells.map (cutContent c k i)).sum - (cells.map S).sum| ≤ growth R.length * (cells.map S).sum ∧
      ((cells.map (cutContent c k i)).map abs).sum ≤ (1 + growth R.length) * (cells.map S).sum ∧ 0 ≤ (cells.map S).sum := by
    clear hn hsub hle
    induction cells with
    | nil => simp
    | cons b cells ih =>
      obtain ⟨i1, i2, i3⟩ := ih fun bs h => hcell bs (by simp [h])
      obtain ⟨h1, _, h2⟩ := hcell b (by simp)
      have h3 := hS0 b
      simp only [List.map_cons, List.sum_cons]
      rw [abs_of_nonneg h2]
      rw [abs_le] at *
      refine ⟨⟨by linarith [i1.1, h1.1], by linarith [i1.2, h1.2]⟩, by linarith [h1.2], by linarith⟩
  obtain ⟨k1, k2, k3⟩ := key
  have h1 := sumF_err (cells.map (cutContent c k i)) 0 isF64_zero (by
    intro w hw'
    obtain ⟨bs, hbs, rfl⟩ := List.mem_map.1 hw'
    exact (hcell bs hbs).2.1)
  simp only [zero_add, abs_zero, List.length_map] at h1
  change _ ≤ growth cells.length * _ at h1
  have g1 := growth_nonneg cells.length
  have g2 := growth_nonneg R.length
  have gm := growth_mono hle
  have h2 := mul_le_mul_of_nonneg_left k2 g1
  have h3 : |sumF 0 (cells.map (cutContent c k i)) - (cells.map S).sum| ≤
      |sumF 0 (cells.map (cutContent c k i)) - (cells.map (cutContent c k i)).sum| + |(cells.map (cutContent c k i)).sum - (cells.map S).sum| := by
    refine le_trans (le_of_eq ?_) (abs_add_le _ _)
    congr 1; ring
  have h4 : growth cells.length * ((1 + growth R.length) * (cells.map S).sum) ≤ growth (2 ^ k) * ((1 + growth R.length) * (cells.map S).sum) :=
    mul_le_mul_of_nonneg_right gm (by positivity)
  rw [growth_add]
  nlinarith

/-- **C119** (weights that are not negative): the fraction of a bin differs from the exact fraction of the weights of the
rows in it by at most `(8 (n + 2^k) + 3) / 2^53` of this fraction (and a number too small for a double), for `n` rows in
the bin and `k` cuts. -/
theorem C119_weights (a : BinAxis) (h : a.Ordinary) (k : ℕ) (rows : List CutRow) (hr : ∀ r ∈ rows, r.cuts.length = k)
    (hw : ∀ r ∈ rows, 0 ≤ r.weight ∧ IsF64 r.weight) (hlen : rows.length + 2 ^ k ≤ 2 ^ 32) :
    ∃ c, a.fillCuts k rows = .ok c ∧ ∀ j, ∀ i < a.totbins, ∃ cell, (fractionF a k j c)[i]? = some cell ∧
      ∀ P W : ℚ, P = ((passing j (a.rowsIn i rows)).map (·.weight)).sum → W = ((a.rowsIn i rows).map (·.weight)).sum → 0 < W →
        |cell.fraction - P / W| ≤ (8 * ((a.rowsIn i rows).length + 2 ^ k) + 3) / 2 ^ 53 * (P / W) + 1 / 2 ^ 1075 := by
  obtain ⟨c, hc, hcont⟩ := fillCuts_content h k rows hr
  refine ⟨c, hc, fun j i hi => ⟨fracCellF (passF c k i j) (denomF c k i), by simp [fractionF, hi], ?_⟩⟩
  rintro P W rfl rfl hW
  obtain ⟨hall, hpass⟩ := rowsIn_cuts (a := a) (i := i) hr
  have e1 := cells_err (a := a) (i := i) (cutCells k) (cutCells_nodup k) (fun _ h => h) (cutCells_length k).le (hcont i hi) hw
  have e2 := cells_err (a := a) (i := i) ((cutCells k).filter fun bs => bs[j]? = some true) ((cutCells_nodup k).filter _)
    (fun _ h => (List.mem_filter.1 h).1) ((List.length_filter_le _ _).trans (cutCells_length k).le) (hcont i hi) hw
  rw [hall] at e1
  rw [hpass j] at e2
  change |denomF c k i - _| ≤ _ at e1
  change |passF c k i j - _| ≤ _ at e2
  have hP : 0 ≤ ((passing j (a.rowsIn i rows)).map (·.weight)).sum := List.sum_nonneg (by
    intro x hx
    obtain ⟨r, hr', rfl⟩ := List.mem_map.1 hx
    exact (hw r (List.mem_filter.1 (List.mem_filter.1 hr').1).1).1)
  set P := ((passing j (a.rowsIn i rows)).map (·.weight)).sum
  set W := ((a.rowsIn i rows).map (·.weight)).sum
  set n := (a.rowsIn i rows).length with hn
  have hnl : n ≤ rows.length := List.length_filter_le _ _
  have hg := growth_small (n + 2 ^ k) (by omega)
  have hg0 := growth_nonneg (n + 2 ^ k)
  set g := growth (n + 2 ^ k)
  have he : eps = 1 / 2 ^ 53 := by unfold eps; rw [zpow_neg]; norm_num
  have hg2 : g ≤ 1 / 2 := by
    refine hg.trans ?_
    have h1 : ((n + 2 ^ k : ℕ) : ℚ) ≤ 2 ^ 32 := by exact_mod_cast (by omega : n + 2 ^ k ≤ 2 ^ 32)
    rw [he]
    refine (by nlinarith : 2 * ((n + 2 ^ k : ℕ) : ℚ) * (1 / 2 ^ 53) ≤ 2 * 2 ^ 32 * (1 / 2 ^ 53)).trans (by norm_num)
  rw [abs_le] at e1 e2
  have hd : 0 < denomF c k i := by nlinarith [e1.1]
  have hdge : W / 2 ≤ denomF c k i := by nlinarith [e1.1]
  unfold fracCellF
  rw [if_pos hd]
  simp only
  have q1 : |passF c k i j / denomF c k i - P / W| ≤ 4 * g * (P / W) := by
    have : passF c k i j / denomF c k i - P / W = ((passF c k i j - P) * W - P * (denomF c k i - W)) / (denomF c k i * W) := by
      field_simp; ring
    rw [this, abs_div, abs_of_pos (by positivity : 0 < denomF c k i * W), div_le_iff₀ (by positivity)]
    have t : 4 * g * (P / W) * (denomF c k i * W) = 4 * g * P * denomF c k i := by field_simp
    rw [t, abs_le]
    have a1 := mul_le_mul_of_nonneg_right e2.1 hW.le
    have a2 := mul_le_mul_of_nonneg_right e2.2 hW.le
    have a3 := mul_le_mul_of_nonneg_left e1.1 hP
    have a4 := mul_le_mul_of_nonneg_left e1.2 hP
    have a5 : 4 * g * P * (W / 2) ≤ 4 * g * P * denomF c k i := mul_le_mul_of_nonneg_left hdge (by positivity)
    constructor <;> nlinarith
  have hPW : 0 ≤ P / W := div_nonneg hP hW.le
  have q2 := rne_err_add (passF c k i j / denomF c k i)
  change _ ≤ eps * _ + _ at q2
  have q3 : |passF c k i j / denomF c k i| ≤ 3 * (P / W) := by
    have : |passF c k i j / denomF c k i| ≤ |passF c k i j / denomF c k i - P / W| + |P / W| := by
      refine le_trans (le_of_eq ?_) (abs_add_le _ _)
      congr 1; ring
    rw [abs_of_nonneg hPW] at this
    nlinarith
  have q4 : |rne (passF c k i j / denomF c k i) - P / W| ≤ |rne (passF c k i j / denomF c k i) - passF c k i j / denomF c k i| + |passF c k i j / denomF c k i - P / W| := by
    refine le_trans (le_of_eq ?_) (abs_add_le _ _)
    congr 1; ring
  have hz : (2 : ℚ) ^ (-1075 : ℤ) = 1 / 2 ^ 1075 := by rw [zpow_neg, one_div]; rfl
  have q5 : eps * |passF c k i j / denomF c k i| ≤ eps * (3 * (P / W)) := mul_le_mul_of_nonneg_left q3 eps_pos.le
  have q6 : 4 * g * (P / W) ≤ 4 * (2 * ((n + 2 ^ k : ℕ) : ℚ) * eps) * (P / W) := by
    refine mul_le_mul_of_nonneg_right ?_ hPW; linarith
  rw [hz] at q2
  rw [he] at q2 q5 q6
  push_cast at q6
  have q7 : (8 * ((n : ℚ) + 2 ^ k) + 3) / 2 ^ 53 * (P / W) = 4 * (2 * ((n : ℚ) + 2 ^ k) * (1 / 2 ^ 53)) * (P / W) + 1 / 2 ^ 53 * (3 * (P / W)) := by ring
  rw [q7]
  linarith

/-- Weights 0.1, 0.2 and 0.3, of which the first two pass: 3/6, to within 35 units of the last place. -/
example : (passing 0 [⟨.fin (1 / 2), [true], rne (1 / 10)⟩, ⟨.fin (1 / 2), [true], rne (2 / 10)⟩, ⟨.fin (1 / 2), [false], rne (3 / 10)⟩]).length = 2 ∧
    (fractionF (decimalBin 1 0 1) 1 0 [0, 0, rne (3 / 10), rne (rne (1 / 10) + rne (2 / 10)), 0, 0, 0, 0]).map (·.fraction) = [0, 1 / 2, 0, 0] := by
  decide +kernel

/-- **C119** fails with a negative weight: the fraction is 2, and its error is NaN. -/
theorem C119_refuted_negative : ∃ c,
    (decimalBin 1 0 1).fillCuts 1 [⟨.fin (1 / 2), [true], 2⟩, ⟨.fin (1 / 2), [false], -1⟩] = .ok c ∧
    (fractionF (decimalBin 1 0 1) 1 0 c)[1]? = some ⟨2, none⟩ :=
  ⟨[0, 0, -1, 2, 0, 0, 0, 0], by decide +kernel, by decide +kernel⟩

end Verif
