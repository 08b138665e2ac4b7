import Verif.AxisLemmas

/-!
# Properties of binning (C01-C07, C09, C10)

The specification is `Verif.SpecBin` (`BinLabel.mem`, `IndexCorrect`): a bin number is right when
the published interval with this number contains the value and no other published interval does,
and "masked" is right when no published interval contains the value.
-/

namespace Verif

/-! ## C01: bin -/

/-- C01.  On every axis that the `bin` constructor accepts with at least one bin, every finite
value is put into the one published interval that contains it, or into no bin when no published
interval contains it.  The hypothesis is about int32: the position of the value must be at most
`2^31 - 1` (there is no lower limit); see C02 for the values above it. -/
theorem C01_bin_fill_matches_keys (numbins : ℕ) (low high : ℚ) (u o n cl : Bool) (a : BinAxis)
    (ha : BinAxis.init numbins low high u o n cl = .ok a) (hn : 0 < numbins) (q : ℚ)
    (hq : (q - low) * (numbins / (high - low)) ≤ 2147483645) :
    ∃ r, a.index (.fin q) = .ok r ∧ IndexCorrect a.keys (.fin q) r := by
  obtain ⟨rfl, hlt, _, _⟩ := BinAxis.init_ok ha
  have hlh : low < high := hlt hn
  refine ⟨_, BinAxis.index_fin _ hlh q ?_, ?_⟩
  · have : BinAxis.cellZ ⟨numbins, low, high, u, o, n, cl⟩ q ≤ 2147483645 := by
      unfold BinAxis.cellZ
      have e : BinAxis.scaled ⟨numbins, low, high, u, o, n, cl⟩ q = (q - low) * (numbins / (high - low)) := rfl
      rw [e]
      split
      · have := Int.floor_le ((q - low) * (numbins / (high - low)))
        have h2 : ((⌊(q - low) * (numbins / (high - low))⌋ : ℤ) : ℚ) ≤ (2147483645 : ℤ) := by
          push_cast; linarith
        exact_mod_cast h2
      · have := Int.ceil_lt_add_one ((q - low) * (numbins / (high - low)))
        have h2 : ((⌈(q - low) * (numbins / (high - low))⌉ : ℤ) : ℚ) < (2147483646 : ℤ) := by
          push_cast; linarith
        have h3 : ⌈(q - low) * (numbins / (high - low))⌉ < 2147483646 := by exact_mod_cast h2
        omega
    have : b2i u ≤ 1 := by cases u <;> simp [b2i]
    simp only; omega
  · rw [BinAxis.keys_eq _ hn]
    exact finish_correct _ _ _ _ _ _ _ (by simp) _ (BinAxis.edgesBelow_le _ _)
      (fun i hi => BinAxis.edgesBelow_above _ hn hlh q i hi)

example : ∃ r, BinAxis.index ⟨10, 0, 5, true, true, true, true⟩ (.fin (1/2)) = .ok r ∧
    IndexCorrect (BinAxis.keys ⟨10, 0, 5, true, true, true, true⟩) (.fin (1/2)) r :=
  C01_bin_fill_matches_keys 10 0 5 true true true true _ (by decide +kernel) (by norm_num) (1/2) (by norm_num)

/-- C01, NaN.  NaN goes to the NaN bin when there is one and nowhere otherwise. -/
theorem C01_bin_nan (numbins : ℕ) (low high : ℚ) (u o n cl : Bool) (a : BinAxis)
    (ha : BinAxis.init numbins low high u o n cl = .ok a) (hn : 0 < numbins) :
    ∃ r, a.index .nan = .ok r ∧ IndexCorrect a.keys .nan r := by
  obtain ⟨rfl, hlt, _, _⟩ := BinAxis.init_ok ha
  have hlh : low < high := hlt hn
  have h0 : ¬ (high - low = 0) := by intro h; linarith
  have : BinAxis.index ⟨numbins, low, high, u, o, n, cl⟩ .nan =
      .ok (if n then some ((numbins : ℤ) + b2i u + b2i o) else none) := by
    unfold BinAxis.index BinAxis.position BinAxis.clamp
    cases cl <;> simp [h0, Num.subFin, Num.mulFin, Num.floor, Num.ceil, Num.addFin, Num.isnan] <;>
      (split <;> simp; ring)
  refine ⟨_, this, ?_⟩
  rw [BinAxis.keys_eq _ hn]
  exact nan_correct _ _ _ _ _ _

example : ∃ r, BinAxis.index ⟨10, 0, 5, true, false, true, false⟩ .nan = .ok r ∧
    IndexCorrect (BinAxis.keys ⟨10, 0, 5, true, false, true, false⟩) .nan r :=
  C01_bin_nan 10 0 5 true false true false _ (by decide +kernel) (by norm_num)

/-! ## C02: infinities and very large values -/

/-- C02 is false of the code: positive infinity is counted in the underflow bin. -/
theorem C02_refuted : ¬ ∀ (numbins : ℕ) (low high : ℚ) (u o n cl : Bool) (a : BinAxis),
    BinAxis.init numbins low high u o n cl = .ok a → 0 < numbins → ∀ v : Num,
    ∃ r, a.index v = .ok r ∧ IndexCorrect a.keys v r := by
  intro h
  obtain ⟨r, hr, hc⟩ := h 10 0 5 true true true true _ (by decide +kernel :
    BinAxis.init 10 0 5 true true true true = .ok ⟨10, 0, 5, true, true, true, true⟩) (by norm_num) .pinf
  have : BinAxis.index ⟨10, 0, 5, true, true, true, true⟩ .pinf = .ok (some 0) := by decide +kernel
  rw [this] at hr
  cases hr
  obtain ⟨_, ⟨k, hk, hm⟩, _⟩ := hc
  rw [show (BinAxis.keys ⟨10, 0, 5, true, true, true, true⟩)[(0:ℤ).toNat]? =
    some (.iv .ninf (.fin 0) true false) by decide +kernel] at hk
  cases hk
  revert hm; decide +kernel

/-- C02, what the code does with `+inf`, on every axis: the underflow bin if there is one. -/
theorem C02_pinf_is_underflow (a : BinAxis) (hlh : a.low < a.high) (hn : 0 < a.numbins) :
    a.index .pinf = .ok (if a.underflow then some 0 else none) := by
  have h0 : ¬ (a.high - a.low = 0) := by intro h; linarith
  have hp : 0 < (a.numbins : ℚ) / (a.high - a.low) :=
    div_pos (by exact_mod_cast hn) (by linarith)
  unfold BinAxis.index BinAxis.position BinAxis.clamp
  cases hcl : a.closedlow <;> cases hu : a.underflow <;> cases ho : a.overflow <;>
    simp [h0, Num.subFin, Num.mulFin, Num.floor, Num.ceil, Num.addFin, Num.isnan, hp, Num.toI32, b2i] <;> omega

example : BinAxis.index ⟨10, 0, 5, true, true, true, true⟩ .pinf = .ok (some 0) :=
  C02_pinf_is_underflow ⟨10, 0, 5, true, true, true, true⟩ (by norm_num) (by norm_num)

/-- C02, what the code does with a large finite value (position of `2^31` bins or more): the
underflow bin if there is one. -/
theorem C02_huge_is_underflow (a : BinAxis) (hlh : a.low < a.high) (q : ℚ)
    (hq : 2147483648 ≤ a.cellZ q) :
    a.index (.fin q) = .ok (if a.underflow then some 0 else none) := by
  unfold BinAxis.index
  rw [a.position_fin hlh q]
  unfold BinAxis.clamp
  have : 0 ≤ b2i a.underflow := by cases a.underflow <;> simp [b2i]
  have hz : Num.toI32 (.fin ((a.cellZ q + b2i a.underflow : ℤ) : ℚ)) = -2147483648 := by
    simp only [Num.toI32, Num.truncQ_intCast]
    rw [if_neg]; omega
  simp only [hz]
  cases hu : a.underflow <;> cases ho : a.overflow <;>
    simp [Num.isnan, b2i] <;> omega

example : BinAxis.index ⟨1, 0, 1, true, true, true, true⟩ (.fin 3000000000) = .ok (some 0) :=
  C02_huge_is_underflow ⟨1, 0, 1, true, true, true, true⟩ (by norm_num) 3000000000 (by decide +kernel)

/-- C02, the part that holds: `-inf` and every value below the int32 range are right, on every
axis.  Missing from the full claim: `+inf` and finite values above the int32 range
(`C02_refuted`, `C02_pinf_is_underflow`, `C02_huge_is_underflow`). -/
theorem C02_partial (numbins : ℕ) (low high : ℚ) (u o n cl : Bool) (a : BinAxis)
    (ha : BinAxis.init numbins low high u o n cl = .ok a) (hn : 0 < numbins) (v : Num)
    (hv : v = .ninf ∨ ∃ q, v = .fin q ∧ (q - low) * (numbins / (high - low)) < -2147483648) :
    ∃ r, a.index v = .ok r ∧ IndexCorrect a.keys v r := by
  rcases hv with rfl | ⟨q, rfl, hq⟩
  · obtain ⟨rfl, hlt, _, _⟩ := BinAxis.init_ok ha
    have hlh : low < high := hlt hn
    have h0 : ¬ (high - low = 0) := by intro h; linarith
    have hp : 0 < (numbins : ℚ) / (high - low) := div_pos (by exact_mod_cast hn) (by linarith)
    have hi : BinAxis.index ⟨numbins, low, high, u, o, n, cl⟩ .ninf = .ok (finish u o numbins 0) := by
      unfold BinAxis.index BinAxis.position BinAxis.clamp finish
      cases cl <;> cases u <;> cases o <;>
        simp [h0, Num.subFin, Num.mulFin, Num.floor, Num.ceil, Num.addFin, Num.isnan, hp, Num.toI32, b2i] <;> omega
    refine ⟨_, hi, ?_⟩
    rw [BinAxis.keys_eq _ hn]
    refine finish_correct _ _ _ _ _ _ _ (by simp) 0 (by omega) (fun i hi => ?_)
    cases cl <;> simp [above, Num.le, Num.lt]
  · exact C01_bin_fill_matches_keys numbins low high u o n cl a ha hn q (by linarith)

example : ∃ r, BinAxis.index ⟨10, 0, 5, false, true, true, true⟩ .ninf = .ok r ∧
    IndexCorrect (BinAxis.keys ⟨10, 0, 5, false, true, true, true⟩) .ninf r :=
  C02_partial 10 0 5 false true true true _ (by decide +kernel) (by norm_num) _ (Or.inl rfl)

/-! ## C03: split -/

/-- C03.  On every axis that the `split` constructor accepts, every value (finite, infinite or
NaN) is put into the one published interval that contains it, or into no bin when no published
interval contains it. -/
theorem C03_split_fill_matches_keys (edges : List ℚ) (u o n cl : Bool) (a : SplitAxis)
    (ha : SplitAxis.init edges u o n cl = .ok a) (v : Num) :
    IndexCorrect a.keys v (a.index v) := by
  obtain ⟨hg, _⟩ := SplitAxis.init_ok ha
  have hlen : 0 < a.edges.length := List.length_pos_iff.2 hg.1
  rw [a.keys_eq hg.1]
  by_cases hv : v = .nan
  · subst hv
    rw [a.index_nan hg]
    exact nan_correct _ _ _ _ _ _
  · rw [a.index_eq hg v hv]
    refine finish_correct _ _ _ _ _ _ _ hv _ ?_ (fun i hi => ?_)
    · have : a.edges.countP (above a.closedlow · v) ≤ a.edges.length := List.countP_le_length
      omega
    · have hi' : i < a.edges.length := by omega
      rw [countP_prefix hg.2 (above_mono a.closedlow v) i hi']
      simp [List.getElem?_eq_getElem hi']

example : IndexCorrect (SplitAxis.keys ⟨[1, 2, 5], true, false, true, false⟩) (.fin 2)
    (SplitAxis.index ⟨[1, 2, 5], true, false, true, false⟩ (.fin 2)) :=
  C03_split_fill_matches_keys [5, 1, 2] true false true false _ (by decide +kernel) _

/-! ## C04: intbin -/

theorem IntbinAxis.clamp_correct (a : IntbinAxis) (h : a.min ≤ a.max) (x v : ℤ)
    (hx : x = v + (b2i a.underflow - a.min) ∨ (x < 0 ∧ v + (b2i a.underflow - a.min) < 0)) :
    IndexCorrect a.keys (.fin v) (a.clamp x) := by
  have hmap : ∀ (i : ℕ) (k : BinLabel), a.keys[i]? = some k ↔
      (a.underflow = true ∧ i = 0 ∧ k = .iv .ninf (.fin a.min) true false) ∨
      (∃ j : ℕ, (j : ℤ) < a.numbins ∧ i = j + b2n a.underflow ∧ k = .int (a.min + j)) ∨
      (a.overflow = true ∧ (i : ℤ) = a.numbins + b2i a.underflow ∧ k = .iv (.fin a.max) .pinf false true) := by
    intro i k
    have hnb : 0 ≤ a.numbins := by unfold IntbinAxis.numbins; omega
    obtain ⟨n, hn⟩ := Int.eq_ofNat_of_zero_le hnb
    unfold IntbinAxis.keys
    rw [hn]
    simp only [Int.ofNat_eq_natCast, Int.toNat_natCast]
    cases hu : a.underflow <;> cases ho : a.overflow <;>
      simp [b2n, b2i, List.getElem?_append, List.getElem?_cons, List.getElem?_map] <;> (try split_ifs) <;> (try simp) <;> grind
  have hU : (BinLabel.iv .ninf (.fin (a.min : ℚ)) true false).mem (.fin (v : ℚ)) ↔ v < a.min := by
    simp [BinLabel.mem, Num.le, Num.lt]
  have hO : (BinLabel.iv (.fin (a.max : ℚ)) .pinf false true).mem (.fin (v : ℚ)) ↔ a.max < v := by
    simp [BinLabel.mem, Num.le, Num.lt]
  have hI : ∀ j : ℕ, (BinLabel.int (a.min + j)).mem (.fin (v : ℚ)) ↔ v = a.min + j := by
    intro j
    simp only [BinLabel.mem, Num.fin.injEq]
    constructor
    · intro h; exact_mod_cast h
    · rintro rfl; rfl
  have hnb : a.numbins = a.max - a.min + 1 := rfl
  have huniq : ∀ (i j : ℕ) (k k' : BinLabel), a.keys[i]? = some k → a.keys[j]? = some k' →
      k.mem (.fin (v : ℚ)) → k'.mem (.fin (v : ℚ)) → i = j := by
    intro i j k k' h1 h2 m1 m2
    rw [hmap] at h1 h2
    rcases h1 with ⟨u1, i1, rfl⟩ | ⟨j1, l1, i1, rfl⟩ | ⟨o1, i1, rfl⟩ <;>
    rcases h2 with ⟨u2, i2, rfl⟩ | ⟨j2, l2, i2, rfl⟩ | ⟨o2, i2, rfl⟩ <;>
    simp only [hU, hO, hI] at m1 m2 <;> omega
  have hin : ∀ (i : ℕ) (k : BinLabel), a.keys[i]? = some k → k.mem (.fin (v : ℚ)) → a.clamp x = some (i : ℤ) →
      IndexCorrect a.keys (.fin (v : ℚ)) (a.clamp x) := by
    intro i k h1 h2 h3
    rw [h3]
    refine ⟨by omega, ⟨k, by simpa using h1, h2⟩, fun j k' hj hm => ?_⟩
    have := huniq _ _ _ _ hj h1 hm h2
    omega
  have hout : (∀ (i : ℕ) (k : BinLabel), a.keys[i]? = some k → ¬ k.mem (.fin (v : ℚ))) → a.clamp x = none →
      IndexCorrect a.keys (.fin (v : ℚ)) (a.clamp x) := by
    intro h1 h2
    rw [h2]
    intro k hk
    obtain ⟨i, hi⟩ := List.getElem?_of_mem hk
    exact h1 i k hi
  by_cases c1 : v < a.min
  · cases hu : a.underflow
    · apply hout
      · intro i k h
        rw [hmap] at h
        rcases h with ⟨u1, i1, rfl⟩ | ⟨j1, l1, i1, rfl⟩ | ⟨o1, i1, rfl⟩
        · simp [hu] at u1
        · rw [hI]; omega
        · rw [hO]; omega
      · unfold IntbinAxis.clamp
        simp only [hu, b2i] at *
        have : x < 0 := by rcases hx with h | h <;> simp at h <;> omega
        cases a.overflow <;> simp [this]
    · apply hin 0 _ ((hmap _ _).2 (Or.inl ⟨hu, rfl, rfl⟩)) (hU.2 c1)
      unfold IntbinAxis.clamp
      simp only [hu, b2i] at *
      have : x ≤ 0 := by rcases hx with h | h <;> simp at h <;> omega
      cases a.overflow <;> simp [this] <;> omega
  · have hx' : x = v + (b2i a.underflow - a.min) := by
      have : 0 ≤ b2i a.underflow := by cases a.underflow <;> simp [b2i]
      omega
    by_cases c2 : a.max < v
    · cases ho : a.overflow
      · apply hout
        · intro i k h
          rw [hmap] at h
          rcases h with ⟨u1, i1, rfl⟩ | ⟨j1, l1, i1, rfl⟩ | ⟨o1, i1, rfl⟩
          · rw [hU]; omega
          · rw [hI]; omega
          · simp [ho] at o1
        · unfold IntbinAxis.clamp
          subst hx'
          cases hu : a.underflow <;> simp [ho, b2i] <;> omega
      · have hnn : ((a.numbins + b2i a.underflow).toNat : ℤ) = a.numbins + b2i a.underflow := by
          apply Int.toNat_of_nonneg
          cases a.underflow <;> simp [b2i] <;> omega
        apply hin (a.numbins + b2i a.underflow).toNat _ ((hmap _ _).2 (Or.inr (Or.inr ⟨ho, hnn, rfl⟩))) (hO.2 c2)
        rw [hnn]
        unfold IntbinAxis.clamp
        subst hx'
        cases hu : a.underflow <;> simp [ho, b2i] <;> (try split_ifs) <;> (try simp) <;> omega
    · obtain ⟨j, hj⟩ := Int.eq_ofNat_of_zero_le (show 0 ≤ v - a.min by omega)
      apply hin (j + b2n a.underflow) (.int (a.min + j)) ((hmap _ _).2 (Or.inr (Or.inl ⟨j, by omega, rfl, rfl⟩)))
        ((hI j).2 (by omega))
      unfold IntbinAxis.clamp
      subst hx'
      cases hu : a.underflow <;> cases ho : a.overflow <;> simp [b2i, b2n] <;> (try split_ifs) <;> (try simp) <;> omega

/-- C04, integer arrays.  Every int64 value whose offset fits in int32 is put into the bin that
`keys()` publishes for it.  (The full claim, for every integer, is false: `C04_refuted_wraps`.) -/
theorem C04_intbin_ints_partial (min max : ℤ) (u o : Bool) (a : IntbinAxis)
    (ha : IntbinAxis.init min max u o = .ok a) (v : ℤ)
    (h1 : -2147483648 ≤ v + (b2i u - min)) (h2 : v + (b2i u - min) ≤ 2147483647) :
    IndexCorrect a.keys (.fin v) (a.indexInt v) := by
  unfold IntbinAxis.init at ha
  split at ha
  · cases ha
  · cases ha
    unfold IntbinAxis.indexInt
    rw [wrapI32_of_range _ h1 h2]
    exact IntbinAxis.clamp_correct _ (by simp only; omega) _ _ (Or.inl rfl)

example : IndexCorrect (IntbinAxis.keys ⟨-2, 7, true, false⟩) (.fin ((-3 : ℤ) : ℚ))
    (IntbinAxis.indexInt ⟨-2, 7, true, false⟩ (-3)) :=
  C04_intbin_ints_partial (-2) 7 true false _ (by decide +kernel) (-3) (by decide) (by decide)

/-- C04, float arrays.  Every integer-valued float whose offset does not exceed int32 is put into
the bin that `keys()` publishes for it.  (False for other values: `C04_refuted_truncates`.) -/
theorem C04_intbin_floats_partial (min max : ℤ) (u o : Bool) (a : IntbinAxis)
    (ha : IntbinAxis.init min max u o = .ok a) (v : ℤ) (h2 : v + (b2i u - min) ≤ 2147483647) :
    IndexCorrect a.keys (.fin v) (a.indexNum (.fin v)) := by
  unfold IntbinAxis.init at ha
  split at ha
  · cases ha
  · cases ha
    unfold IntbinAxis.indexNum Num.addFin
    have e : ((v : ℚ) + ((b2i u : ℚ) - (min : ℚ))) = ((v + (b2i u - min) : ℤ) : ℚ) := by push_cast; ring
    simp only [e]
    by_cases h1 : -2147483648 ≤ v + (b2i u - min)
    · rw [Num.toI32_intCast _ h1 h2]
      exact IntbinAxis.clamp_correct _ (by simp only; omega) _ _ (Or.inl rfl)
    · rw [Num.toI32_intCast_low _ (by omega)]
      exact IntbinAxis.clamp_correct _ (by simp only; omega) _ _ (Or.inr ⟨by decide, by simp only; omega⟩)

example : IndexCorrect (IntbinAxis.keys ⟨-2, 7, true, false⟩) (.fin ((7 : ℤ) : ℚ))
    (IntbinAxis.indexNum ⟨-2, 7, true, false⟩ (.fin ((7 : ℤ) : ℚ))) :=
  C04_intbin_floats_partial (-2) 7 true false _ (by decide +kernel) 7 (by decide)

/-- C04 is false of the code for int64 arrays: 2^32 + 5 is counted in the bin labelled 5. -/
theorem C04_refuted_wraps : ¬ ∀ (min max : ℤ) (u o : Bool) (a : IntbinAxis),
    IntbinAxis.init min max u o = .ok a → ∀ v : ℤ, IndexCorrect a.keys (.fin v) (a.indexInt v) := by
  intro h
  have h := h 0 9 true true ⟨0, 9, true, true⟩ (by decide +kernel) 4294967301
  have e : IntbinAxis.indexInt ⟨0, 9, true, true⟩ 4294967301 = some 6 := by decide +kernel
  rw [e] at h
  obtain ⟨_, ⟨k, hk, hm⟩, _⟩ := h
  rw [show (IntbinAxis.keys ⟨0, 9, true, true⟩)[(6:ℤ).toNat]? = some (.int 5) by decide +kernel] at hk
  cases hk
  revert hm; decide +kernel

/-- C04 is false of the code for float arrays: -0.5 is counted in the bin labelled 0. -/
theorem C04_refuted_truncates : ¬ ∀ (min max : ℤ) (u o : Bool) (a : IntbinAxis),
    IntbinAxis.init min max u o = .ok a → ∀ q : ℚ, IndexCorrect a.keys (.fin q) (a.indexNum (.fin q)) := by
  intro h
  have h := h 0 9 false false ⟨0, 9, false, false⟩ (by decide +kernel) (-1/2)
  have e : IntbinAxis.indexNum ⟨0, 9, false, false⟩ (.fin (-1/2)) = some 0 := by decide +kernel
  rw [e] at h
  obtain ⟨_, ⟨k, hk, hm⟩, _⟩ := h
  rw [show (IntbinAxis.keys ⟨0, 9, false, false⟩)[(0:ℤ).toNat]? = some (.int 0) by decide +kernel] at hk
  cases hk
  revert hm; decide +kernel

/-! ## C05: groupbin -/

theorem GroupbinAxis.key_fin (a : GroupbinAxis) (hw : 0 < a.binwidth) (q : ℚ) :
    ∃ k : ℤ, a.key (.fin q) = some (.num (a.origin + k * a.binwidth)) ∧
      k = (if a.closedlow then ⌊(q - a.origin) / a.binwidth⌋ else ⌈(q - a.origin) / a.binwidth⌉ - 1) := by
  refine ⟨_, ?_, rfl⟩
  unfold GroupbinAxis.key
  by_cases h0 : a.origin = 0 <;> cases hc : a.closedlow <;>
    simp [h0, Num.subFin, Num.mulFin, Num.floor, Num.ceil, Num.addFin, div_eq_mul_inv] <;> (try ring_nf) <;> (try simp)

/-- C05.  On every axis that `groupbin` accepts, every finite value gets a key of the form
`origin + k·binwidth`, and the interval published for this key contains the value. -/
theorem C05_groupbin_interval_contains (binwidth origin : ℚ) (n cl : Bool) (a : GroupbinAxis)
    (ha : GroupbinAxis.init binwidth origin n cl = .ok a) (q : ℚ) :
    ∃ (k : ℤ) (iv : BinLabel), a.key (.fin q) = some (.num (origin + k * binwidth)) ∧
      a.interval (.num (origin + k * binwidth)) = .ok iv ∧ iv.mem (.fin q) := by
  unfold GroupbinAxis.init at ha
  split at ha
  · cases ha
  · cases ha
    rename_i hw
    have hw : 0 < binwidth := not_le.1 hw
    obtain ⟨k, hk, he⟩ := GroupbinAxis.key_fin ⟨binwidth, origin, n, cl⟩ hw q
    refine ⟨k, _, hk, rfl, ?_⟩
    simp only at he
    have hmul : (q - origin) / binwidth * binwidth = q - origin := by field_simp
    cases cl
    · simp only [Bool.false_eq_true, if_false] at he
      have h1 := Int.ceil_lt_add_one ((q - origin) / binwidth)
      have h2 := Int.le_ceil ((q - origin) / binwidth)
      have h3 : (⌈(q - origin) / binwidth⌉ : ℚ) = k + 1 := by subst he; push_cast; ring
      rw [h3] at h1 h2
      simp [BinLabel.mem, Num.le, Num.lt]
      constructor <;> nlinarith
    · simp only [if_true] at he
      have h1 := Int.floor_le ((q - origin) / binwidth)
      have h2 := Int.lt_floor_add_one ((q - origin) / binwidth)
      rw [← he] at h1 h2
      simp [BinLabel.mem, Num.le, Num.lt]
      constructor <;> nlinarith

example : ∃ (k : ℤ) (iv : BinLabel), GroupbinAxis.key ⟨5, 2, false, true⟩ (.fin 7) = some (.num (2 + k * 5)) ∧
    GroupbinAxis.interval ⟨5, 2, false, true⟩ (.num (2 + k * 5)) = .ok iv ∧ iv.mem (.fin 7) :=
  C05_groupbin_interval_contains 5 2 false true _ (by decide +kernel) 7

/-- C05.  Two finite values get the same key exactly when the same published interval contains
both of them; different keys have disjoint intervals. -/
theorem C05_groupbin_same_key_iff (binwidth origin : ℚ) (n cl : Bool) (a : GroupbinAxis)
    (ha : GroupbinAxis.init binwidth origin n cl = .ok a) (q q' x : ℚ) (iv : BinLabel)
    (hx : a.key (.fin q) = some (.num x)) (hiv : a.interval (.num x) = .ok iv) :
    a.key (.fin q') = a.key (.fin q) ↔ iv.mem (.fin q') := by
  have hmem : ∀ q, ∃ (k : ℤ), a.key (.fin q) = some (.num (origin + k * binwidth)) ∧
      ∀ iv, a.interval (.num (origin + k * binwidth)) = .ok iv → iv.mem (.fin q) := by
    intro q
    obtain ⟨k, iv, h1, h2, h3⟩ := C05_groupbin_interval_contains binwidth origin n cl a ha q
    refine ⟨k, h1, fun iv' h => ?_⟩
    rw [h2] at h; cases h; exact h3
  obtain ⟨k, hk, hm⟩ := hmem q
  obtain ⟨k', hk', hm'⟩ := hmem q'
  rw [hk] at hx; cases hx
  constructor
  · intro h
    rw [hk', hk] at h
    have h2 : (.num (origin + k' * binwidth) : Key) = .num (origin + k * binwidth) := by simpa using h
    apply hm'
    rw [h2]; exact hiv
  · intro h
    rw [hk, hk']
    unfold GroupbinAxis.init at ha
    split at ha
    · cases ha
    · cases ha
      rename_i hw
      have hw : 0 < binwidth := not_le.1 hw
      have h2 := hm' _ rfl
      cases hiv
      have hkk : k' = k := by
        have hd : ∀ i j : ℤ, i < j → (i : ℚ) + 1 ≤ j := by intro i j h; exact_mod_cast h
        rcases lt_trichotomy k' k with hlt | heq | hlt
        · exfalso
          have := hd _ _ hlt
          cases cl <;> simp [BinLabel.mem, Num.le, Num.lt] at h h2 <;> nlinarith
        · exact heq
        · exfalso
          have := hd _ _ hlt
          cases cl <;> simp [BinLabel.mem, Num.le, Num.lt] at h h2 <;> nlinarith
      rw [hkk]

example : GroupbinAxis.key ⟨5, 2, false, true⟩ (.fin 8) = GroupbinAxis.key ⟨5, 2, false, true⟩ (.fin 7) ↔
    (BinLabel.iv (.fin 7) (.fin (7 + 5)) true false).mem (.fin 8) :=
  C05_groupbin_same_key_iff 5 2 false true _ (by decide +kernel) 7 8 7 _ (by decide +kernel) rfl

/-- C05, NaN and infinities.  NaN has the key "NaN" when the axis keeps NaN and no key otherwise;
infinities keep themselves as key. -/
theorem C05_groupbin_special (binwidth origin : ℚ) (n cl : Bool) (a : GroupbinAxis)
    (ha : GroupbinAxis.init binwidth origin n cl = .ok a) :
    a.key .nan = (if n then some (.str "NaN") else none) ∧ a.key .pinf = some .pinf ∧
      a.key .ninf = some .ninf := by
  unfold GroupbinAxis.init at ha
  split at ha
  · cases ha
  · cases ha
    rename_i hw
    have hw : 0 < binwidth := not_le.1 hw
    unfold GroupbinAxis.key
    by_cases h0 : origin = 0 <;> cases cl <;>
      simp [h0, Num.subFin, Num.mulFin, Num.floor, Num.ceil, Num.addFin, hw]

example : GroupbinAxis.key ⟨5, 2, true, true⟩ .nan = some (.str "NaN") :=
  (C05_groupbin_special 5 2 true true ⟨5, 2, true, true⟩ (by decide +kernel)).1

/-- C05 is false of the code for the NaN group: asking for its published interval raises. -/
theorem C05_refuted_nan_interval : ¬ ∀ (binwidth origin : ℚ) (n cl : Bool) (a : GroupbinAxis),
    GroupbinAxis.init binwidth origin n cl = .ok a → ∀ (v : Num) (k : Key), a.key v = some k →
    ∃ iv, a.interval k = .ok iv ∧ iv.mem v := by
  intro h
  obtain ⟨iv, h1, _⟩ := h 5 0 true true ⟨5, 0, true, true⟩ (by decide +kernel) .nan (.str "NaN") (by decide +kernel)
  simp [GroupbinAxis.interval] at h1

end Verif
