import Verif.PropsFloatSum

/-!
# How far an unweighted count in double precision goes

`C106_counts_partial` says that counts are exact up to `2^53`. Here is what happens with any number of
entries: the content stops at `2^53` and stays there.
-/

namespace Verif

/-- One more entry leaves a bin that holds `2^53` as it is. -/
theorem rne_full : rne ((2 : ℚ) ^ 53 + 1) = 2 ^ 53 := by decide +kernel

/-- Ones added one after the other to a count that is at most `2^53`. -/
theorem sumF_count : ∀ n s : ℕ, s ≤ 2 ^ 53 → sumF (s : ℚ) (List.replicate n 1) = ((min (s + n) (2 ^ 53) : ℕ) : ℚ)
  | 0, s, h => by
    rw [Nat.add_zero, Nat.min_eq_left h]; rfl
  | n + 1, s, h => by
    rw [List.replicate_succ]
    show sumF (rne ((s : ℚ) + 1)) (List.replicate n 1) = _
    rcases Nat.lt_or_ge s (2 ^ 53) with hlt | hge
    · have e : rne ((s : ℚ) + 1) = ((s + 1 : ℕ) : ℚ) := by
        rw [← Nat.cast_succ]; exact rne_fix (isF64_nat _ hlt)
      rw [e, sumF_count n (s + 1) hlt]
      congr 2
      omega
    · have hs : s = 2 ^ 53 := le_antisymm h hge
      have e : rne ((s : ℚ) + 1) = (s : ℚ) := by
        rw [hs]; push_cast; exact rne_full
      rw [e, sumF_count n s h, Nat.min_eq_right (by omega), Nat.min_eq_right (by omega)]

/-- Without weights, and with any number of entries in any batches, a bin holds the number of values
counted in it or `2^53`, whichever is smaller. -/
theorem C106_counts_saturate (a : BinAxis) (h : a.Ordinary) (bs : List (List Num)) :
    ∃ c, a.fillAllF a.zerosF (bs.map (fun b => b.map (fun v => (v, 1)))) = .ok c ∧ c.length = a.totbins ∧
      ∀ i < a.totbins, c[i]? =
        some ((min (bs.flatten.countP (fun v => a.indexF v = .ok (some (i : ℤ)))) (2 ^ 53) : ℕ) : ℚ) := by
  obtain ⟨c, h1, _, h2, h3⟩ := C106_batches a h (bs.map (fun b => b.map (fun v => (v, (1 : ℚ)))))
  refine ⟨c, h1, h2, fun i hi => ?_⟩
  rw [h3 i hi]
  have hflat : (bs.map (fun b => b.map (fun v => (v, (1 : ℚ))))).flatten = bs.flatten.map (fun v => (v, (1 : ℚ))) := by
    rw [List.map_flatten]
  rw [hflat, List.filter_map, List.map_map]
  set m := (bs.flatten.filter ((fun p : Num × ℚ => decide (a.indexF p.1 = .ok (some (i : ℤ)))) ∘ fun v => (v, 1))) with hm
  have hcount : bs.flatten.countP (fun v => decide (a.indexF v = .ok (some (i : ℤ)))) = m.length := by
    rw [List.countP_eq_length_filter, hm]; rfl
  have hones : m.map ((fun p : Num × ℚ => p.2) ∘ fun v => (v, (1 : ℚ))) = List.replicate m.length (1 : ℚ) := by
    simp [List.map_const', Function.comp_def]
  rw [hcount, hones]
  have := sumF_count m.length 0 (Nat.zero_le _)
  rw [Nat.cast_zero, Nat.zero_add] at this
  rw [this]

example : (decimalBin 2 0 1).fillAllF (decimalBin 2 0 1).zerosF
    ([[.fin (1 / 4), .fin 3], [.fin (3 / 4), .nan, .fin (1 / 4)]].map (fun b => b.map (fun v => (v, 1)))) = .ok [0, 2, 1, 1, 1] := by
  decide +kernel

example : (decimalBin 1 0 1).fillAllF [0, 2 ^ 53 - 1, 0, 0] [[(.fin (1 / 2), 1), (.fin (1 / 2), 1)], [(.fin (1 / 2), 1)]] =
    .ok [0, 2 ^ 53, 0, 0] := by decide +kernel

/-- So an unweighted count is wrong exactly when more than `2^53` values fall in one bin, and then it is
too small. -/
theorem C106_counts_refuted_always (a : BinAxis) (h : a.Ordinary) (bs : List (List Num)) (i : ℕ) (hi : i < a.totbins)
    (hn : 2 ^ 53 < bs.flatten.countP (fun v => a.indexF v = .ok (some (i : ℤ)))) :
    ∃ c x, a.fillAllF a.zerosF (bs.map (fun b => b.map (fun v => (v, 1)))) = .ok c ∧ c[i]? = some x ∧
      x < ((bs.flatten.countP (fun v => a.indexF v = .ok (some (i : ℤ))) : ℕ) : ℚ) := by
  obtain ⟨c, h1, _, h3⟩ := C106_counts_saturate a h bs
  refine ⟨c, _, h1, h3 i hi, ?_⟩
  rw [Nat.cast_lt, Nat.min_eq_right hn.le]
  exact hn

/-- There are such data: the same value `2^53 + 1` times. -/
example : 2 ^ 53 < [List.replicate (2 ^ 53 + 1) (Num.fin (1 / 2))].flatten.countP
    (fun v => (decimalBin 1 0 1).indexF v = .ok (some 1)) := by
  have e : decide ((decimalBin 1 0 1).indexF (Num.fin (1 / 2)) = .ok (some 1)) = true := by decide +kernel
  rw [List.flatten_singleton, List.countP_replicate, if_pos e]
  exact Nat.lt_succ_self _

end Verif
