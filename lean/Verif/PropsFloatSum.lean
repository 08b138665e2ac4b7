import Verif.FloatSum
import Verif.PropsFloatBin

/-!
# C106: contents with the machine's arithmetic
-/

namespace Verif

/-- A histogram with one `bin` axis, filled in any number of batches in double precision: every bin holds
the rounded sum of the weights of the values that are counted in it, added in the order of the data. -/
theorem C106_batches (a : BinAxis) (h : a.Ordinary) (bs : List (List (Num × ℚ))) :
    ∃ c, a.fillAllF a.zerosF bs = .ok c ∧ a.fillF a.zerosF bs.flatten = .ok c ∧ c.length = a.totbins ∧
      ∀ i < a.totbins, c[i]? =
        some (sumF 0 ((bs.flatten.filter (fun p => a.indexF p.1 = .ok (some (i : ℤ)))).map (·.2))) := by
  obtain ⟨l, hl, hc⟩ := BinAxis.fillAllF_eq h bs a.zerosF
  refine ⟨_, hc, by rw [BinAxis.fillF, hl], ?_, ?_⟩
  · rw [addAtF_length]; simp [BinAxis.zerosF]
  · intro i hi
    rw [addAtF_get, a.landF_part i _ l hl]
    simp [BinAxis.zerosF, hi]

example : (decimalBin 10 (1 / 10) (9 / 10)).fillAllF (decimalBin 10 (1 / 10) (9 / 10)).zerosF
    [[(.fin (1 / 4), rne (1 / 10)), (.fin 3, 1)], [(.fin (1 / 4), rne (2 / 10))]] =
      .ok [0, 0, rne (3 / 10) + 1 / 2 ^ 54, 0, 0, 0, 0, 0, 0, 0, 0, 1, 0] := by decide +kernel

/-- Without weights, the content of a bin is exactly the number of values counted in it, however the
data are cut into batches, as long as there are at most `2^53` of them. -/
theorem C106_counts_partial (a : BinAxis) (h : a.Ordinary) (bs : List (List Num)) (hn : bs.flatten.length ≤ 2 ^ 53) :
    ∃ c, a.fillAllF a.zerosF (bs.map (fun b => b.map (fun v => (v, 1)))) = .ok c ∧ c.length = a.totbins ∧
      ∀ i < a.totbins, c[i]? = some ((bs.flatten.countP (fun v => a.indexF v = .ok (some (i : ℤ))) : ℕ) : ℚ) := by
  obtain ⟨c, h1, _, h2, h3⟩ := C106_batches a h (bs.map (fun b => b.map (fun v => (v, (1 : ℚ)))))
  refine ⟨c, h1, h2, fun i hi => ?_⟩
  rw [h3 i hi]
  have hflat : (bs.map (fun b => b.map (fun v => (v, (1 : ℚ))))).flatten = bs.flatten.map (fun v => (v, (1 : ℚ))) := by
    rw [List.map_flatten]
  rw [hflat, List.filter_map, List.map_map]
  set m := (bs.flatten.filter ((fun p : Num × ℚ => decide (a.indexF p.1 = .ok (some (i : ℤ)))) ∘ fun v => (v, 1))) with hm
  have hcount : bs.flatten.countP (fun v => decide (a.indexF v = .ok (some (i : ℤ)))) = m.length := by
    rw [List.countP_eq_length_filter, hm]; rfl
  have hones : m.map ((fun p : Num × ℚ => p.2) ∘ fun v => (v, (1 : ℚ))) = (List.replicate m.length (1 : ℤ)).map (fun z : ℤ => (z : ℚ)) := by
    simp [List.map_const', Function.comp_def]
  have hlen : m.length ≤ 2 ^ 53 := by
    rw [hm]; exact (List.length_filter_le _ _).trans hn
  rw [hcount, hones]
  have := sumF_ints (List.replicate m.length 1) 0 (by simp; exact_mod_cast hlen)
  rw [Int.cast_zero] at this
  rw [this]
  simp

example : (decimalBin 2 0 1).fillAllF (decimalBin 2 0 1).zerosF
    ([[.fin (1 / 4), .fin 3], [.fin (3 / 4), .nan, .fin (1 / 4)]].map (fun b => b.map (fun v => (v, 1)))) = .ok [0, 2, 1, 1, 1] := by
  decide +kernel

/-- Merging unweighted histograms is exact, as long as the counts together are at most `2^53`. -/
theorem C106_merge_counts (c d : List ℕ) (hlen : c.length = d.length) (h : ∀ p ∈ List.zip c d, p.1 + p.2 ≤ 2 ^ 53) :
    mergeF (c.map (fun n : ℕ => (n : ℚ))) (d.map (fun n : ℕ => (n : ℚ))) = (List.zipWith (· + ·) c d).map (fun n : ℕ => (n : ℚ)) := by
  induction c generalizing d with
  | nil => simp [mergeF]
  | cons x c ih =>
    cases d with
    | nil => simp at hlen
    | cons y d =>
      have ih := ih d (by simpa using hlen) (fun p hp => h p (by simp [hp]))
      have hxy := h (x, y) (by simp)
      have hr : rne ((x : ℚ) + y) = ((x + y : ℕ) : ℚ) := by
        rw [← Nat.cast_add]; exact rne_fix (isF64_nat _ hxy)
      simp only [mergeF, List.map_cons, List.zipWith_cons_cons] at ih ⊢
      rw [ih, hr]

example : mergeF [3, 2] [4, 9] = [7, 11] := by decide +kernel

/-- With weights that are doubles, the content of a bin differs from the exact sum by no more than
`(1 + 2^-53)^n - 1` of the sum of the sizes of the `n` weights, whatever the batches. -/
theorem C106_weights_partial (a : BinAxis) (h : a.Ordinary) (bs : List (List (Num × ℚ))) (hw : ∀ b ∈ bs, ∀ p ∈ b, IsF64 p.2) :
    ∃ c, a.fillAllF a.zerosF bs = .ok c ∧ ∀ i < a.totbins, ∃ x, c[i]? = some x ∧ IsF64 x ∧
      ∀ ws, ws = (bs.flatten.filter (fun p => a.indexF p.1 = .ok (some (i : ℤ)))).map (·.2) →
        |x - ws.sum| ≤ ((1 + 1 / 2 ^ 53) ^ ws.length - 1) * (ws.map abs).sum := by
  obtain ⟨c, h1, _, _, h3⟩ := C106_batches a h bs
  refine ⟨c, h1, fun i hi => ⟨_, h3 i hi, sumF_isF64 _ _ isF64_zero, ?_⟩⟩
  rintro ws rfl
  have := sumF_err ((bs.flatten.filter (fun p => a.indexF p.1 = .ok (some (i : ℤ)))).map (·.2)) 0 isF64_zero (by
    intro w hwm
    obtain ⟨p, hp, rfl⟩ := List.mem_map.1 hwm
    obtain ⟨b, hb, hpb⟩ := List.mem_flatten.1 (List.mem_filter.1 hp).1
    exact hw b hb p hpb)
  have he : eps = 1 / 2 ^ 53 := by unfold eps; rw [zpow_neg]; norm_num
  rw [he, zero_add, abs_zero, zero_add] at this
  exact this

example : |rne (rne (1 / 10) + rne (2 / 10)) - (rne (1 / 10) + rne (2 / 10))| ≤ ((1 + 1 / 2 ^ 53) ^ 2 - 1) * (rne (1 / 10) + rne (2 / 10)) := by
  decide +kernel

/-- Weights that are integers add exactly, as long as their sizes add up to at most `2^53`. -/
theorem C106_integer_weights (a : BinAxis) (h : a.Ordinary) (rows : List (Num × ℤ)) (hn : (rows.map (fun p => |p.2|)).sum ≤ 2 ^ 53) :
    ∃ c, a.fillF a.zerosF (rows.map (fun p => (p.1, (p.2 : ℚ)))) = .ok c ∧ ∀ i < a.totbins, c[i]? =
      some ((((rows.filter (fun p => a.indexF p.1 = .ok (some (i : ℤ)))).map (·.2)).sum : ℤ) : ℚ) := by
  obtain ⟨c, _, h1, _, h3⟩ := C106_batches a h [rows.map (fun p => (p.1, (p.2 : ℚ)))]
  rw [List.flatten_singleton] at h1
  refine ⟨c, h1, fun i hi => ?_⟩
  rw [h3 i hi, List.flatten_singleton, List.filter_map, List.map_map]
  set m := rows.filter ((fun p : Num × ℚ => decide (a.indexF p.1 = .ok (some (i : ℤ)))) ∘ fun p : Num × ℤ => (p.1, (p.2 : ℚ))) with hm
  have e : m = rows.filter (fun p => decide (a.indexF p.1 = .ok (some (i : ℤ)))) := rfl
  have hsum : ((m.map (·.2)).map abs).sum ≤ 2 ^ 53 := by
    refine le_trans ?_ hn
    rw [List.map_map]
    have hsub : (m.map (abs ∘ fun p : Num × ℤ => p.2)).Sublist (rows.map (fun p => |p.2|)) := (List.filter_sublist).map _
    exact hsub.sum_le_sum (by
      intro x hx
      obtain ⟨y, _, rfl⟩ := List.mem_map.1 hx
      exact abs_nonneg _)
  have := sumF_ints (m.map (·.2)) 0 (by simpa using hsum)
  rw [Int.cast_zero, List.map_map] at this
  rw [← e]
  have e2 : m.map ((fun p : Num × ℚ => p.2) ∘ fun p : Num × ℤ => (p.1, (p.2 : ℚ))) = m.map ((fun z : ℤ => (z : ℚ)) ∘ fun p => p.2) := rfl
  rw [e2, this, zero_add]

example : (decimalBin 2 0 1).fillF (decimalBin 2 0 1).zerosF [(.fin (1 / 4), 5), (.fin (3 / 4), 2), (.fin (1 / 4), -3)] = .ok [0, 2, 2, 0, 0] := by
  decide +kernel

/-- Beyond `2^53` an unweighted count no longer grows: one more entry leaves the bin as it is. -/
theorem C106_counts_refuted :
    (decimalBin 1 0 1).fillF [0, 2 ^ 53, 0, 0] [(.fin (1 / 2), 1)] = .ok [0, 2 ^ 53, 0, 0] := by decide +kernel

/-- The order of weighted entries matters, and so does the way they are divided between histograms that
are merged: 0.1, 0.2 and 0.3 give 0.6000000000000001 in this order, and 0.6 in the other order or if the
first entry is merged to the other two. -/
theorem C106_order_refuted :
    (decimalBin 1 0 1).fillF (decimalBin 1 0 1).zerosF
        [(.fin (1 / 2), rne (1 / 10)), (.fin (1 / 2), rne (2 / 10)), (.fin (1 / 2), rne (3 / 10))] =
      .ok [0, rne (6000000000000001 / 10000000000000000), 0, 0] ∧
    (decimalBin 1 0 1).fillF (decimalBin 1 0 1).zerosF
        [(.fin (1 / 2), rne (3 / 10)), (.fin (1 / 2), rne (2 / 10)), (.fin (1 / 2), rne (1 / 10))] =
      .ok [0, rne (6 / 10), 0, 0] ∧
    mergeF [0, rne (1 / 10), 0, 0] [0, rne (rne (2 / 10) + rne (3 / 10)), 0, 0] = [0, rne (6 / 10), 0, 0] ∧
    rne (6 / 10) ≠ rne (6000000000000001 / 10000000000000000) := by decide +kernel

end Verif
