import Verif.FloatSqrt
import Verif.PropsFloatProfile

/-!
# Errors of contents in double precision: property theorems C134
-/

namespace Verif

/-! ## Specification -/

/-- `r` is at least as near to the root of `q` as `f` is: the root is on the side of `r`, seen from the middle between
the two. -/
def NearerRoot (q r f : ℚ) : Prop := (f < r → ((f + r) / 2) ^ 2 ≤ q) ∧ (r < f → q ≤ ((f + r) / 2) ^ 2)

/-- `r` is the double nearest to the root of `q`. -/
def NearestRoot (q r : ℚ) : Prop := 0 ≤ r ∧ IsF64 r ∧ ∀ f, IsF64 f → 0 ≤ f → NearerRoot q r f

/-! ## Helpers -/

theorem sqrtF_nearer {q f : ℚ} (h0 : 0 ≤ q) (hf : IsF64 f) (hf0 : 0 ≤ f) : NearerRoot q (sqrtF q) f := by
  rcases h0.eq_or_lt with h | hq
  · subst h
    have : sqrtF 0 = 0 := by unfold sqrtF; rw [if_pos le_rfl]
    rw [this]
    refine ⟨fun h => absurd h (not_lt.2 hf0), fun _ => sq_nonneg _⟩
  · obtain ⟨h1, h2, -, -⟩ := rootFloor_spec hq
    have hu := two_zpow_pos (rootBit q)
    have hm : (0 : ℚ) ≤ rootFloor q := by positivity
    set u : ℚ := 2 ^ rootBit q with hu'
    set m : ℚ := (rootFloor q : ℚ) with hm'
    have hmu : 0 ≤ m * u := by positivity
    rcases sqrtF_cases hq with ⟨he, hmid⟩ | ⟨he, hmid⟩
    · rw [he]
      refine ⟨fun hlt => le_trans (pow_le_pow_left₀ (by positivity) (by linarith) 2) h1, fun hlt => ?_⟩
      have : (m + 1) * u ≤ f := (root_gap hq hf).resolve_left (not_le.2 hlt)
      refine le_trans hmid (pow_le_pow_left₀ (by positivity) ?_ 2)
      linarith
    · rw [he]
      refine ⟨fun hlt => ?_, fun hlt => ?_⟩
      · have : f ≤ m * u := (root_gap hq hf).resolve_right (not_le.2 hlt)
        refine le_trans (pow_le_pow_left₀ (by positivity) ?_ 2) hmid
        linarith
      · refine le_trans h2.le (pow_le_pow_left₀ (by positivity) ?_ 2)
        linarith

/-- The nearest double to a root that is a double is the root. -/
theorem nearestRoot_exact {r f : ℚ} (h : NearestRoot (f ^ 2) r) (hf : IsF64 f) (hf0 : 0 ≤ f) : r = f := by
  obtain ⟨h0, -, h2⟩ := h
  obtain ⟨n1, n2⟩ := h2 f hf hf0
  rcases lt_trichotomy f r with hlt | heq | hgt
  · have h3 := n1 hlt
    have : f ^ 2 < ((f + r) / 2) ^ 2 := pow_lt_pow_left₀ (by linarith) hf0 (by norm_num)
    linarith
  · exact heq.symm
  · have h3 := n2 hgt
    have : ((f + r) / 2) ^ 2 < f ^ 2 := pow_lt_pow_left₀ (by linarith) (by linarith) (by norm_num)
    linarith

/-- Nearest doubles of roots are in the order of the numbers. -/
theorem nearestRoot_mono {q q' r r' : ℚ} (h : NearestRoot q r) (h' : NearestRoot q' r') (hlt : q < q') : r ≤ r' := by
  by_contra hc
  rw [not_le] at hc
  have h1 := (h.2.2 r' h'.2.1 h'.1).1 hc
  have h2 := (h'.2.2 r h.2.1 h.1).2 hc
  rw [add_comm] at h2
  linarith

theorem sqrtF_mono {q q' : ℚ} (h0 : 0 ≤ q) (hq : IsF64 q) (hq' : IsF64 q') (h : q ≤ q') : sqrtF q ≤ sqrtF q' := by
  rcases h.eq_or_lt with rfl | hlt
  · exact le_rfl
  · exact nearestRoot_mono ⟨sqrtF_nonneg q, sqrtF_isF64 hq, fun f hf hf0 => sqrtF_nearer h0 hf hf0⟩
      ⟨sqrtF_nonneg q', sqrtF_isF64 hq', fun f hf hf0 => sqrtF_nearer (h0.trans h) hf hf0⟩ hlt

theorem sqrtF_sq_err {q : ℚ} (h0 : 0 ≤ q) : |sqrtF q ^ 2 - q| ≤ (1 / 2 ^ 52 + 1 / 2 ^ 105) * q := by
  rcases h0.eq_or_lt with h | hq
  · subst h
    have : sqrtF 0 = 0 := by unfold sqrtF; rw [if_pos le_rfl]
    rw [this]; norm_num
  · obtain ⟨h1, h2, h3, -⟩ := rootFloor_spec hq
    have hu := two_zpow_pos (rootBit q)
    have hm : (2 : ℚ) ^ 52 ≤ rootFloor q := by exact_mod_cast h3
    generalize hA : ((2 : ℚ) ^ rootBit q) = u at *
    generalize hB : (rootFloor q : ℚ) = m at *
    have hc := sqrtF_cases hq
    rw [hA, hB] at hc
    have hu2 : 0 < u ^ 2 := by positivity
    -- in units of the last bit
    obtain ⟨x, hx⟩ : ∃ x, q = x * u ^ 2 := ⟨q / u ^ 2, by field_simp⟩
    subst hx
    have k1 : m ^ 2 ≤ x := by
      have : m ^ 2 * u ^ 2 ≤ x * u ^ 2 := by rw [← mul_pow]; exact h1
      exact le_of_mul_le_mul_right this hu2
    have k2 : x < (m + 1) ^ 2 := by
      have : x * u ^ 2 < (m + 1) ^ 2 * u ^ 2 := by rw [← mul_pow]; exact h2
      exact lt_of_mul_lt_mul_right this hu2.le
    have fin : ∀ r : ℚ, |r ^ 2 - x| ≤ (1 / 2 ^ 52 + 1 / 2 ^ 105) * x →
        |(r * u) ^ 2 - x * u ^ 2| ≤ (1 / 2 ^ 52 + 1 / 2 ^ 105) * (x * u ^ 2) := by
      intro r hr
      rw [mul_pow, ← sub_mul, abs_mul, abs_of_pos hu2, ← mul_assoc]
      exact mul_le_mul_of_nonneg_right hr hu2.le
    have hmm : (2 : ℚ) ^ 52 * m ≤ m ^ 2 := by rw [sq]; exact mul_le_mul_of_nonneg_right hm (by positivity)
    have hm2 : (2 : ℚ) ^ 104 ≤ m ^ 2 := by
      refine le_trans (by norm_num) (pow_le_pow_left₀ (by norm_num) hm 2)
    rcases hc with ⟨he, hmid⟩ | ⟨he, hmid⟩
    · rw [he]
      apply fin
      have k3 : x ≤ (m + 1 / 2) ^ 2 := by
        have : x * u ^ 2 ≤ (m + 1 / 2) ^ 2 * u ^ 2 := by rw [← mul_pow]; exact hmid
        exact le_of_mul_le_mul_right this hu2
      rw [abs_sub_comm, abs_of_nonneg (by linarith)]
      have a1 : (1 / 2 ^ 52 : ℚ) * x ≥ m := by
        rw [ge_iff_le, one_div, ← div_eq_inv_mul, le_div_iff₀ (by norm_num)]; linarith
      have a2 : (1 / 2 ^ 105 : ℚ) * x ≥ 1 / 2 := by
        rw [ge_iff_le, one_div (2 ^ 105 : ℚ), ← div_eq_inv_mul, le_div_iff₀ (by norm_num)]; linarith
      nlinarith
    · rw [he]
      apply fin
      have k3 : (m + 1 / 2) ^ 2 ≤ x := by
        have : (m + 1 / 2) ^ 2 * u ^ 2 ≤ x * u ^ 2 := by rw [← mul_pow]; exact hmid
        exact le_of_mul_le_mul_right this hu2
      rw [abs_of_nonneg (by linarith)]
      have a1 : (1 / 2 ^ 52 : ℚ) * x ≥ m + 1 := by
        rw [ge_iff_le, one_div, ← div_eq_inv_mul, le_div_iff₀ (by norm_num)]; nlinarith
      have a2 : 0 ≤ (1 / 2 ^ 105 : ℚ) * x := mul_nonneg (by norm_num) (by linarith [sq_nonneg m])
      nlinarith

theorem sumF_grows : ∀ (ws : List ℚ) (s : ℚ), IsF64 s → (∀ w ∈ ws, 0 ≤ w) → s ≤ sumF s ws
  | [], s, _, _ => le_rfl
  | w :: ws, s, hs, hw => by
    have h1 : s ≤ rne (s + w) := le_rne hs (by have := hw w (by simp); linarith)
    exact h1.trans (sumF_grows ws (rne (s + w)) (rne_isF64 _) fun x hx => hw x (by simp [hx]))

theorem weightFill_all (a : BinAxis) : ∀ (bs : List (List (Num × ℚ))) (c : WeightF) (w w2 : List ℚ),
    a.fillAllF c.sumw bs = .ok w → a.fillAllF c.sumw2 (bs.map fun b => b.map fun p => (p.1, rne (p.2 * p.2))) = .ok w2 →
    a.weightFillAll c bs = .ok ⟨w, w2⟩
  | [], c, w, w2, h1, h2 => by
    simp only [BinAxis.fillAllF, List.map_nil, Except.ok.injEq] at h1 h2
    subst h1; subst h2
    rfl
  | b :: bs, c, w, w2, h1, h2 => by
    simp only [List.map_cons, BinAxis.fillAllF] at h1 h2
    cases e1 : a.fillF c.sumw b with
    | error e => simp [e1] at h1
    | ok y =>
      cases e2 : a.fillF c.sumw2 (b.map fun p => (p.1, rne (p.2 * p.2))) with
      | error e => simp [e2] at h2
      | ok y2 =>
        simp only [e1] at h1
        simp only [e2] at h2
        have := weightFill_all a bs ⟨y, y2⟩ w w2 h1 h2
        simp only [BinAxis.weightFillAll, BinAxis.weightFill, e1, e2, this]

/-! ## C134 -/

/-- **C134**, what `numpy.sqrt` is in the model: of all doubles none is nearer to the root; a root that is a double is
found exactly; greater numbers do not have smaller roots; and the square of the result is the number up to one unit in
the last place. -/
theorem C134_root (q : ℚ) (h0 : 0 ≤ q) (hq : IsF64 q) :
    NearestRoot q (sqrtF q) ∧ (∀ f, IsF64 f → 0 ≤ f → f ^ 2 = q → sqrtF q = f) ∧
      (∀ q', IsF64 q' → q ≤ q' → sqrtF q ≤ sqrtF q') ∧ |sqrtF q ^ 2 - q| ≤ (1 / 2 ^ 52 + 1 / 2 ^ 105) * q := by
  have hn : NearestRoot q (sqrtF q) := ⟨sqrtF_nonneg q, sqrtF_isF64 hq, fun f hf hf0 => sqrtF_nearer h0 hf hf0⟩
  refine ⟨hn, ?_, fun q' hq' h => sqrtF_mono h0 hq hq' h, sqrtF_sq_err h0⟩
  intro f hf hf0 he
  exact nearestRoot_exact (by rw [he]; exact hn) hf hf0

example : sqrtF 2 = rne (14142135623730951 / 10000000000000000) ∧ sqrtF 9 = 3 ∧ sqrtF (1 / 4) = 1 / 2 := by
  decide +kernel

/-- **C134** without weights: for any batches of at most `2^53` rows, the table shows for each bin the number of its
entries and the double nearest to the root of it; `k^2` entries have exactly the error `k`. -/
theorem C134_counts (a : BinAxis) (h : a.Ordinary) (bs : List (List Num)) (hn : bs.flatten.length ≤ 2 ^ 53) :
    ∃ c, a.fillAllF a.zerosF (bs.map fun b => b.map fun v => (v, 1)) = .ok c ∧ (countTable c).length = a.totbins ∧
      ∀ i < a.totbins, ∀ n : ℕ, n = bs.flatten.countP (fun v => a.indexF v = .ok (some (i : ℤ))) →
        ∃ e, (countTable c)[i]? = some ((n : ℚ), e) ∧ NearestRoot n e ∧ ∀ k : ℕ, n = k ^ 2 → e = k := by
  obtain ⟨c, h1, h2, h3⟩ := C106_counts_partial a h bs hn
  refine ⟨c, h1, by simp [countTable, h2], ?_⟩
  rintro i hi n rfl
  have hle := (List.countP_le_length (p := fun v => decide (a.indexF v = .ok (some (i : ℤ)))) (l := bs.flatten)).trans hn
  set n := bs.flatten.countP fun v => decide (a.indexF v = .ok (some (i : ℤ))) with hnn
  have hf : IsF64 (n : ℚ) := isF64_nat n hle
  obtain ⟨r1, r2, -⟩ := C134_root (n : ℚ) (by positivity) hf
  refine ⟨sqrtF n, by rw [countTable, List.getElem?_map, h3 i hi]; rfl, r1, fun k hk => ?_⟩
  refine r2 k (isF64_nat k ?_) (by positivity) (by rw [hk]; push_cast; rfl)
  have : k ≤ n := by rw [hk]; exact Nat.le_self_pow (by norm_num) k
  exact this.trans hle

example : ∃ c, (decimalBin 1 0 1).fillAllF (decimalBin 1 0 1).zerosF
      ([[.fin (1 / 2), .fin (1 / 4)], [.fin 7, .fin (1 / 8), .fin 0]].map fun b => b.map fun v => (v, 1)) = .ok c ∧
    (countTable c)[1]? = some (4, 2) ∧ (countTable c)[2]? = some (1, 1) := by
  refine ⟨[0, 4, 1, 0], by decide +kernel, by decide +kernel, by decide +kernel⟩

/-- **C134** without weights: with more entries a bin never shows a smaller error. -/
theorem C134_more (n n' : ℕ) (h : n ≤ n') (hn : n' ≤ 2 ^ 53) : sqrtF n ≤ sqrtF n' :=
  sqrtF_mono (by positivity) (isF64_nat n (h.trans hn)) (isF64_nat n' hn) (by exact_mod_cast h)

example : sqrtF (2 : ℕ) < sqrtF (3 : ℕ) := by decide +kernel

/-- **C134** with weights, what the table shows: for any batches, the rounded sum of the weights in the bin and the
nearest double to the root of the rounded sum of their squares. -/
theorem C134_table (a : BinAxis) (h : a.Ordinary) (bs : List (List (Num × ℚ))) :
    ∃ c, a.weightFillAll a.weightZeros bs = .ok c ∧ c.table.length = a.totbins ∧ ∀ i < a.totbins, ∀ ws, ws = a.inBin i bs.flatten →
      ∃ e, c.table[i]? = some (sumF 0 ws, e) ∧ NearestRoot (sumF 0 (ws.map fun w => rne (w * w))) e := by
  obtain ⟨w, hx1, _, hx2, hx3⟩ := C106_batches a h bs
  obtain ⟨w2, hy1, _, hy2, hy3⟩ := C106_batches a h (bs.map fun b => b.map fun p => (p.1, rne (p.2 * p.2)))
  refine ⟨⟨w, w2⟩, weightFill_all a bs a.weightZeros w w2 hx1 hy1, by simp [WeightF.table, hx2, hy2], ?_⟩
  rintro i hi ws rfl
  have e2 := hy3 i hi
  rw [← List.map_flatten, inBin_map a i (fun x => rne (x * x))] at e2
  have e1 := hx3 i hi
  change w[i]? = some (sumF 0 (a.inBin i bs.flatten)) at e1
  refine ⟨sqrtF (sumF 0 ((a.inBin i bs.flatten).map fun w => rne (w * w))), by
    simp only [WeightF.table, List.getElem?_zipWith, e1, e2], ?_⟩
  have hF := sumF_isF64 ((a.inBin i bs.flatten).map fun w => rne (w * w)) 0 isF64_zero
  refine (C134_root _ (sumF_grows _ 0 isF64_zero ?_) hF).1
  intro x hx
  obtain ⟨y, _, rfl⟩ := List.mem_map.1 hx
  exact rne_nonneg (mul_self_nonneg y)

example : ∃ c : WeightF, (decimalBin 1 0 1).weightFillAll (decimalBin 1 0 1).weightZeros
      [[(.fin (1 / 2), 3)], [(.fin 7, 5), (.fin (1 / 4), -4)]] = .ok c ∧ c.table[1]? = some ((-1 : ℚ), (5 : ℚ)) ∧ c.table[2]? = some (5, 5) := by
  refine ⟨⟨[0, -1, 5, 0], [0, 25, 25, 0]⟩, by decide +kernel, by decide +kernel, by decide +kernel⟩

/-- **C134** with weights (partial): the square of the error of a bin with `n` entries differs from the exact sum of the
squares of the weights by at most `(2n+5)/2^53` of it.  Missing: weights smaller than `2^-200` (`C134_refuted_small`),
and more than `2^30` entries. -/
theorem C134_weights_partial (ws : List ℚ) (h : ∀ w ∈ ws, Moderate w) (hn : ws.length ≤ 2 ^ 30) :
    |sqrtF (sumF 0 (ws.map fun w => rne (w * w))) ^ 2 - (ws.map fun w => w ^ 2).sum| ≤
      (2 * (ws.length : ℚ) + 5) / 2 ^ 53 * (ws.map fun w => w ^ 2).sum := by
  have h1 := sumwx2_err ws h
  have h0 : 0 ≤ sumF 0 (ws.map fun w => rne (w * w)) := sumF_grows _ 0 isF64_zero (by
    intro x hx
    obtain ⟨y, _, rfl⟩ := List.mem_map.1 hx
    exact rne_nonneg (mul_self_nonneg y))
  have h2 := sqrtF_sq_err h0
  have hg := growth_small (ws.length + 1) (by omega)
  push_cast at hg
  have hS := sum_sq_nonneg ws
  have hle : (ws.length : ℚ) ≤ 2 ^ 30 := by exact_mod_cast hn
  have hl0 : (0 : ℚ) ≤ ws.length := by positivity
  generalize sumF 0 (ws.map fun w => rne (w * w)) = S' at *
  generalize (ws.map fun w => w ^ 2).sum = S at *
  generalize (ws.length : ℚ) = n at *
  generalize sqrtF S' = r at *
  have he : eps = 1 / 2 ^ 53 := by unfold eps; rw [zpow_neg]; norm_num
  rw [he] at hg
  have h3 := mul_le_mul_of_nonneg_right hg hS
  have h4 : |S' - S| ≤ 2 * (n + 1) * (1 / 2 ^ 53) * S := h1.trans h3
  have h5 : S' ≤ S + 2 * (n + 1) * (1 / 2 ^ 53) * S := by linarith [(abs_le.1 h4).2]
  have h6 : 2 * (n + 1) * (1 / 2 ^ 53) * S ≤ 1 / 2 ^ 10 * S := by
    refine mul_le_mul_of_nonneg_right ?_ hS
    have : 2 * (n + 1) * (1 / 2 ^ 53 : ℚ) ≤ 2 * (2 ^ 30 + 1) * (1 / 2 ^ 53) := by
      refine mul_le_mul_of_nonneg_right ?_ (by norm_num); linarith
    refine this.trans ?_
    norm_num
  have h7 : |r ^ 2 - S'| ≤ (1 / 2 ^ 52 + 1 / 2 ^ 105) * ((1 + 1 / 2 ^ 10) * S) := by
    refine h2.trans (mul_le_mul_of_nonneg_left ?_ (by norm_num))
    linarith
  have h8 : |r ^ 2 - S| ≤ |r ^ 2 - S'| + |S' - S| := by
    refine le_trans (le_of_eq ?_) (abs_add_le _ _)
    congr 1; ring
  have h9 : (1 / 2 ^ 52 + 1 / 2 ^ 105 : ℚ) * ((1 + 1 / 2 ^ 10) * S) ≤ 3 / 2 ^ 53 * S := by
    rw [← mul_assoc]
    exact mul_le_mul_of_nonneg_right (by norm_num) hS
  have h10 : (2 * n + 5) / 2 ^ 53 * S = 3 / 2 ^ 53 * S + 2 * (n + 1) * (1 / 2 ^ 53) * S := by ring
  rw [h10]
  linarith

example : |sqrtF (sumF 0 ([2, 3].map fun w => rne (w * w))) ^ 2 - 13| ≤ 9 / 2 ^ 53 * 13 := by decide +kernel

/-- **C134** with weights: further entries, of any weights, never make the error of a bin smaller. -/
theorem C134_grows (ws ws' : List ℚ) :
    sqrtF (sumF 0 (ws.map fun w => rne (w * w))) ≤ sqrtF (sumF 0 ((ws ++ ws').map fun w => rne (w * w))) := by
  have pos : ∀ l : List ℚ, ∀ x ∈ l.map (fun w => rne (w * w)), 0 ≤ x := by
    intro l x hx
    obtain ⟨y, _, rfl⟩ := List.mem_map.1 hx
    exact rne_nonneg (mul_self_nonneg y)
  have hF := sumF_isF64 (ws.map fun w => rne (w * w)) 0 isF64_zero
  refine sqrtF_mono (sumF_grows _ 0 isF64_zero (pos ws)) hF (sumF_isF64 _ 0 isF64_zero) ?_
  rw [List.map_append]
  have : sumF 0 (ws.map (fun w => rne (w * w)) ++ ws'.map fun w => rne (w * w)) =
      sumF (sumF 0 (ws.map fun w => rne (w * w))) (ws'.map fun w => rne (w * w)) := by
    unfold sumF; rw [List.foldl_append]
  rw [this]
  exact sumF_grows _ _ hF (pos ws')

example : sqrtF (sumF 0 ([3].map fun w => rne (w * w))) = 3 ∧ sqrtF (sumF 0 ([3, -4].map fun w => rne (w * w))) = 5 := by
  decide +kernel

/-- **C134** with weights: the weight 1 gives the same contents and errors as no weight. -/
theorem C134_ones (n : ℕ) (hn : n ≤ 2 ^ 53) :
    sumF 0 (List.replicate n 1) = n ∧ sqrtF (sumF 0 ((List.replicate n 1).map fun w => rne (w * w))) = sqrtF n := by
  have h := sumF_ints (List.replicate n 1) 0 (by simp; exact_mod_cast hn)
  have h1 : sumF 0 (List.replicate n (1 : ℚ)) = n := by simpa using h
  have h2 : rne (1 * 1 : ℚ) = 1 := by decide +kernel
  refine ⟨h1, ?_⟩
  rw [List.map_replicate, h2, h1]

example : sumF 0 (List.replicate 3 1) = 3 ∧ sqrtF (sumF 0 ((List.replicate 4 1).map fun w => rne (w * w))) = 2 := by
  decide +kernel

/-- **C134 is violated** for small weights: two entries with the weight `2^-600` have a content that is not zero, and the
error zero, for the squares of the weights are too small for doubles. -/
theorem C134_refuted_small :
    ∃ c : WeightF, (decimalBin 1 0 1).weightFillAll (decimalBin 1 0 1).weightZeros
        [[(.fin (1 / 2), 1 / 2 ^ 600), (.fin (1 / 2), 1 / 2 ^ 600)]] = .ok c ∧ c.table[1]? = some (1 / 2 ^ 599, 0) := by
  refine ⟨⟨[0, 1 / 2 ^ 599, 0, 0], [0, 0, 0, 0]⟩, by decide +kernel, by decide +kernel⟩

/-- **C118** with the root taken (partial): the square of the error of a profile that the table shows differs from the
variance over the number of entries by at most `(6n+19)/2^53` of the mean square over `n`. -/
theorem C118_root_partial (xs : List ℚ) (h : ∀ x ∈ xs, Moderate x) (h0 : xs ≠ []) (hn : xs.length ≤ 2 ^ 30) (r : ℚ)
    (hr : (profCellF (sumF 0 xs) (sumF 0 (xs.map fun x => rne (x * x))) xs.length).errorSq = some r) :
    |sqrtF r ^ 2 - qvariance xs / xs.length| ≤ (6 * (xs.length : ℚ) + 19) / 2 ^ 53 * qsq xs / xs.length := by
  obtain ⟨h1, -⟩ := C118_error_partial xs h h0 hn _ rfl
  obtain ⟨hr0, hr1⟩ := h1 r hr
  have h2 := sqrtF_sq_err hr0
  have hq : (0 : ℚ) < xs.length := by exact_mod_cast List.length_pos_iff.2 h0
  have hle : (xs.length : ℚ) ≤ 2 ^ 30 := by exact_mod_cast hn
  have hv : qvariance xs ≤ qsq xs := by rw [qvariance_eq xs h0]; linarith [sq_nonneg (qmean xs)]
  have hs := qsq_nonneg xs
  generalize qvariance xs = V at *
  generalize qsq xs = Q at *
  generalize (xs.length : ℚ) = n at *
  have h3 : V / n ≤ Q / n := div_le_div_of_nonneg_right hv hq.le
  have hQ : 0 ≤ Q / n := by positivity
  have e1 : (6 * n + 16) / 2 ^ 53 * Q / n = (6 * n + 16) / 2 ^ 53 * (Q / n) := by ring
  have e2 : (6 * n + 19) / 2 ^ 53 * Q / n = (6 * n + 16) / 2 ^ 53 * (Q / n) + 3 / 2 ^ 53 * (Q / n) := by ring
  rw [e1] at hr1
  rw [e2]
  have h4 : (6 * n + 16) / 2 ^ 53 * (Q / n) ≤ 1 / 2 ^ 10 * (Q / n) := by
    refine mul_le_mul_of_nonneg_right ?_ hQ
    rw [div_le_iff₀ (by norm_num)]
    linarith
  have h5 : r ≤ (1 + 1 / 2 ^ 10) * (Q / n) := by linarith [(abs_le.1 hr1).2]
  have h6 : |sqrtF r ^ 2 - r| ≤ 3 / 2 ^ 53 * (Q / n) := by
    refine h2.trans ((mul_le_mul_of_nonneg_left h5 (by norm_num)).trans ?_)
    rw [← mul_assoc]
    exact mul_le_mul_of_nonneg_right (by norm_num) hQ
  have h7 : |sqrtF r ^ 2 - V / n| ≤ |sqrtF r ^ 2 - r| + |r - V / n| := by
    refine le_trans (le_of_eq ?_) (abs_add_le _ _)
    congr 1; ring
  linarith

example : (profCellF (sumF 0 [1, 3]) (sumF 0 ([1, 3].map fun x => rne (x * x))) 2).errorSq = some (1 / 2) ∧
    sqrtF (1 / 2) = rne (7071067811865476 / 10000000000000000) := by decide +kernel

end Verif
