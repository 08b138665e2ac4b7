import Verif.VegaLemmas

/-!
# Lemmas about the bins that plots show
-/

namespace Verif

theorem IntbinAxis.toBin_i2x (a : IntbinAxis) (h : a.min ≤ a.max) (i : ℕ) : a.toBin.i2x i = (a.min : ℚ) - 1 / 2 + i := by
  have hn : ((a.max - a.min + 1).toNat : ℚ) = (a.max : ℚ) - a.min + 1 := by
    have : (((a.max - a.min + 1).toNat : ℤ) : ℚ) = ((a.max - a.min + 1 : ℤ) : ℚ) := by
      congr 1
      omega
    push_cast at this
    exact_mod_cast this
  have hpos : (0 : ℚ) < (a.max : ℚ) - a.min + 1 := by
    have : (a.min : ℚ) ≤ a.max := by exact_mod_cast h
    linarith
  unfold BinAxis.i2x IntbinAxis.toBin
  simp only [hn]
  have : (a.max : ℚ) + 1 / 2 - (a.min - 1 / 2) = a.max - a.min + 1 := by ring
  rw [this]
  field_simp
  ring

/-- The bins that are shown, for all axes of numbers. -/
theorem shown_flow (a : FixedAxis) (ha : a.Built) (hn : a.numeric = true) : ∃ e n u o na cl, a.shown = flowKeys e n u o na cl ∧
    (∀ i j, i < j → j ≤ n → e i < e j) ∧ a.range = (e 0, e n) ∧ a.totbins = n + b2n u + b2n o + b2n na := by
  cases a with
  | cut => simp [FixedAxis.numeric] at hn
  | bin a =>
    obtain ⟨nb, low, high, u, o, n, cl, hpos, hi⟩ := ha
    have hlh : low < high := by
      by_contra hc
      have : (nb > 0 ∧ low ≥ high) ∨ low > high := Or.inl ⟨hpos, not_lt.1 hc⟩
      simp [BinAxis.init, this] at hi
    have hi' : a = ⟨nb, low, high, u, o, n, cl⟩ := by
      unfold BinAxis.init at hi
      split at hi
      · cases hi
      · simp only at hi
        split at hi
        · cases hi
        · exact (Except.ok.inj hi).symm
    subst hi'
    refine ⟨_, _, _, _, _, _, BinAxis.keys_eq _ hpos, ?_, ?_, rfl⟩
    · intro i j hij _
      have hN : (0 : ℚ) < nb := by exact_mod_cast hpos
      have hij' : (i : ℚ) < j := by exact_mod_cast hij
      simp only [BinAxis.i2x]
      have h1 : (i : ℚ) / nb < j / nb := by gcongr
      have h2 : 0 < high - low := by linarith
      have := mul_lt_mul_of_pos_right h1 h2
      linarith
    · show (low, high) = _
      rw [BinAxis.i2x_zero, BinAxis.i2x_numbins _ hpos]
  | intbin a =>
    obtain ⟨mn, mx, u, o, hi⟩ := ha
    have hle : mn ≤ mx := by
      by_contra hc
      simp [IntbinAxis.init, not_le.1 hc] at hi
    have hi' : a = ⟨mn, mx, u, o⟩ := by
      unfold IntbinAxis.init at hi
      split at hi
      · cases hi
      · exact (Except.ok.inj hi).symm
    subst hi'
    have hpos : 0 < (IntbinAxis.toBin ⟨mn, mx, u, o⟩).numbins := by
      simp only [IntbinAxis.toBin]
      omega
    refine ⟨_, _, _, _, _, _, BinAxis.keys_eq _ hpos, ?_, ?_, ?_⟩
    · intro i j hij _
      rw [IntbinAxis.toBin_i2x _ hle, IntbinAxis.toBin_i2x _ hle]
      have hij' : (i : ℚ) < j := by exact_mod_cast hij
      linarith
    · rw [BinAxis.i2x_zero, BinAxis.i2x_numbins _ hpos]
      rfl
    · show Int.toNat _ = _
      simp only [IntbinAxis.totbins, IntbinAxis.numbins, IntbinAxis.toBin]
      cases u <;> cases o <;> simp [b2i, b2n] <;> omega
  | split a =>
    obtain ⟨edges, u, o, n, cl, hi⟩ := ha
    have hi' : a = ⟨edges.insertionSort (· ≤ ·), u, o, n, cl⟩ ∧ (edges.insertionSort (· ≤ ·)).Nodup ∧ edges ≠ [] := by
      unfold SplitAxis.init at hi
      split at hi
      · cases hi
      · rename_i hne
        simp only at hi
        split at hi
        · cases hi
        · rename_i hnd
          split at hi
          · cases hi
          · refine ⟨(Except.ok.inj hi).symm, not_not.1 hnd, fun h => hne (by simp [h])⟩
    obtain ⟨rfl, hnd, hne⟩ := hi'
    have hne' : edges.insertionSort (· ≤ ·) ≠ [] := fun h => hne (by
      have := congrArg List.length h
      simpa using this)
    have hsorted : (edges.insertionSort (· ≤ ·)).Pairwise (· < ·) := by
      have h1 := List.pairwise_insertionSort (· ≤ ·) edges
      refine (h1.and hnd).imp fun h => lt_of_le_of_ne h.1 h.2
    generalize edges.insertionSort (· ≤ ·) = es at *
    refine ⟨_, _, _, _, _, _, SplitAxis.keys_eq _ hne', ?_, ?_, rfl⟩
    · intro i j hij hj
      have hl : 0 < es.length := List.length_pos_of_ne_nil hne'
      simp only at hj
      have hj' : j < es.length := by omega
      have hi' : i < es.length := by omega
      simp only [List.getD_eq_getElem?_getD, List.getElem?_eq_getElem hj', List.getElem?_eq_getElem hi', Option.getD_some]
      exact List.pairwise_iff_getElem.1 hsorted i j hi' hj' hij
    · show (es.headD 0, es.getLastD 0) = _
      cases hh : es with
      | nil => exact absurd hh hne'
      | cons x xs => simp [List.getLastD, List.getLast_eq_getElem]

theorem shown_length (a : FixedAxis) (ha : a.Built) : a.shown.length = a.totbins := by
  cases hn : a.numeric with
  | true =>
    obtain ⟨e, n, u, o, na, cl, h1, _, _, h2⟩ := shown_flow a ha hn
    rw [h1, flowKeys_length, h2]
  | false =>
    cases a with
    | cut => rfl
    | bin a => simp [FixedAxis.numeric] at hn
    | intbin a => simp [FixedAxis.numeric] at hn
    | split a => simp [FixedAxis.numeric] at hn

theorem intbin_keys_get (a : IntbinAxis) (i : ℕ) (k : BinLabel) : a.keys[i]? = some k ↔
    (a.underflow = true ∧ i = 0 ∧ k = .iv .ninf (.fin a.min) true false) ∨
    (∃ j : ℕ, j < a.numbins.toNat ∧ i = j + b2n a.underflow ∧ k = .int (a.min + j)) ∨
    (a.overflow = true ∧ i = a.numbins.toNat + b2n a.underflow ∧ k = .iv (.fin a.max) .pinf false true) := by
  have key : ∀ (L1 L2 : List BinLabel) (i : ℕ), (L1 ++ L2)[i]? = some k ↔
      L1[i]? = some k ∨ (L1.length ≤ i ∧ L2[i - L1.length]? = some k) := by
    intro L1 L2 i
    rw [List.getElem?_append]
    split
    · constructor
      · exact Or.inl
      · rintro (h | ⟨h, _⟩)
        · exact h
        · omega
    · constructor
      · intro h; exact Or.inr ⟨by omega, h⟩
      · rintro (h | ⟨_, h⟩)
        · have := (List.getElem?_eq_some_iff.1 h).1; omega
        · exact h
  have hmap : ∀ i : ℕ, ((List.range a.numbins.toNat).map (fun i : ℕ => BinLabel.int (a.min + i)))[i]? = some k ↔
      i < a.numbins.toNat ∧ k = .int (a.min + i) := by
    intro i
    rw [List.getElem?_map]
    by_cases h : i < a.numbins.toNat
    · simp [h, eq_comm]
    · simp [h]
  have hs : ∀ (x : BinLabel) (i : ℕ), ([x] : List BinLabel)[i]? = some k ↔ i = 0 ∧ k = x := by
    intro x i; cases i <;> simp [eq_comm]
  unfold IntbinAxis.keys
  rw [key, key, hmap]
  cases a.underflow <;> cases a.overflow <;> simp [b2n, hs] <;> constructor <;> intro h
  all_goals
    first
    | (rcases h with h | h
       · grind
       · grind)
    | grind

theorem intbin_built_le (a : IntbinAxis) (ha : (FixedAxis.intbin a).Built) : a.min ≤ a.max := by
  obtain ⟨mn, mx, u, o, hi⟩ := ha
  unfold IntbinAxis.init at hi
  split at hi
  · cases hi
  · cases hi
    simp only
    omega

theorem intbin_key (a : IntbinAxis) (ha : (FixedAxis.intbin a).Built) (i : ℕ) (hi : i < (FixedAxis.intbin a).totbins) : ∃ k, a.keys[i]? = some k := by
  have hle := intbin_built_le a ha
  have hi2 : i < a.keys.length := by
    have hi3 : i < Int.toNat a.totbins := hi
    obtain ⟨mn, mx, u, o⟩ := a
    simp only [IntbinAxis.keys, IntbinAxis.totbins, IntbinAxis.numbins] at *
    cases u <;> cases o <;> simp [b2i] at * <;> omega
  exact ⟨_, List.getElem?_eq_getElem hi2⟩

/-- What is written is what is shown. -/
theorem shown_written (a : FixedAxis) (ha : a.Built) (i : ℕ) (hi : i < a.totbins) : a.shown.getD i .nan = a.written i := by
  cases a with
  | cut => rfl
  | bin a => rfl
  | split a => rfl
  | intbin a =>
    have hlen := shown_length _ ha
    obtain ⟨mn, mx, u, o, hi0⟩ := ha
    have hle : mn ≤ mx := by
      by_contra hc
      simp [IntbinAxis.init, not_le.1 hc] at hi0
    have hi' : a = ⟨mn, mx, u, o⟩ := by
      unfold IntbinAxis.init at hi0
      split at hi0
      · cases hi0
      · exact (Except.ok.inj hi0).symm
    subst hi'
    have hpos : 0 < (IntbinAxis.toBin ⟨mn, mx, u, o⟩).numbins := by
      simp only [IntbinAxis.toBin]
      omega
    have hk : ∃ k, (IntbinAxis.keys ⟨mn, mx, u, o⟩)[i]? = some k := by
      have hi2 : i < (IntbinAxis.keys ⟨mn, mx, u, o⟩).length := by
        have hi3 : i < Int.toNat (IntbinAxis.totbins ⟨mn, mx, u, o⟩) := hi
        simp only [IntbinAxis.keys, IntbinAxis.totbins, IntbinAxis.numbins] at *
        cases u <;> cases o <;> simp [b2i] at * <;> omega
      exact ⟨_, List.getElem?_eq_getElem hi2⟩
    obtain ⟨k, hk⟩ := hk
    have hshown : ∀ l, (FixedAxis.intbin ⟨mn, mx, u, o⟩).shown[i]? = some l → (FixedAxis.intbin ⟨mn, mx, u, o⟩).shown.getD i .nan = l := by
      intro l h
      rw [List.getD_eq_getElem?_getD, h, Option.getD_some]
    have hsh : (FixedAxis.intbin ⟨mn, mx, u, o⟩).shown = flowKeys (IntbinAxis.toBin ⟨mn, mx, u, o⟩).i2x
        (IntbinAxis.numbins ⟨mn, mx, u, o⟩).toNat u o false true := BinAxis.keys_eq _ hpos
    have hget := fun l => (hsh ▸ flowKeys_get (IntbinAxis.toBin ⟨mn, mx, u, o⟩).i2x (IntbinAxis.numbins ⟨mn, mx, u, o⟩).toNat u o false true i l :
      (FixedAxis.intbin ⟨mn, mx, u, o⟩).shown[i]? = some l ↔ _)
    simp only [FixedAxis.written, hk]
    have hnq : (((IntbinAxis.numbins ⟨mn, mx, u, o⟩).toNat : ℕ) : ℚ) = (mx : ℚ) - mn + 1 := by
      have h1 : (((IntbinAxis.numbins ⟨mn, mx, u, o⟩).toNat : ℕ) : ℤ) = mx - mn + 1 := by
        simp only [IntbinAxis.numbins]
        omega
      have h2 : (((((IntbinAxis.numbins ⟨mn, mx, u, o⟩).toNat : ℕ) : ℤ)) : ℚ) = ((mx - mn + 1 : ℤ) : ℚ) := by rw [h1]
      push_cast at h2
      exact h2
    rcases (intbin_keys_get _ i k).1 hk with ⟨h1, h2, rfl⟩ | ⟨j, h1, h2, rfl⟩ | ⟨h1, h2, rfl⟩
    · refine hshown _ ((hget _).2 (Or.inl ⟨h1, h2, ?_⟩))
      rw [IntbinAxis.toBin_i2x _ hle]
      simp
    · refine hshown _ ((hget _).2 (Or.inr (Or.inl ⟨j, h1, h2, ?_⟩)))
      rw [IntbinAxis.toBin_i2x _ hle, IntbinAxis.toBin_i2x _ hle]
      simp only [Bool.not_true, BinLabel.iv.injEq, Num.fin.injEq, and_true]
      push_cast
      constructor <;> ring
    · refine hshown _ ((hget _).2 (Or.inr (Or.inr (Or.inl ⟨h1, h2, ?_⟩))))
      rw [IntbinAxis.toBin_i2x _ hle, hnq]
      simp only [BinLabel.iv.injEq, Num.fin.injEq, and_true]
      ring

/-- The place of a fixed axis among the axes of a plot. -/
theorem placeOf_fixed (H : HistDef) (axes : List ℕ) (q : ℕ) (hq : q < H.fixed.length) (hm : H.groups.length + q ∈ axes) :
    ∃ m, placeOf axes (H.groups.length + q) = (H.onAxes axes).groups.length + m ∧ (H.onAxes axes).fixed[m]? = H.fixed[q]? ∧
      m = ((H.keptF axes).take q).count true := by
  refine ⟨_, ?_, pick_get_to (H.keptF axes) H.fixed q ?_, rfl⟩
  · have h1 : (H.onAxes axes).groups.length = (H.keptG axes).count true := pick_length _ _ (by simp [HistDef.keptG])
    rw [h1]
    unfold placeOf
    rw [List.range_add, List.filter_append, List.length_append]
    congr 1
    · rw [HistDef.keptG, List.count_eq_countP, List.countP_map, ← List.countP_eq_length_filter]
      refine List.countP_congr fun i _ => ?_
      simp
    · have ht : (H.keptF axes).take q = (List.range q).map fun i => axes.contains (i + H.groups.length) := by
        unfold HistDef.keptF
        rw [← List.map_take, List.take_range, Nat.min_eq_left (by omega)]
      rw [ht, List.count_eq_countP, List.countP_map, ← List.countP_eq_length_filter, List.countP_map]
      refine List.countP_congr fun i _ => ?_
      simp [Nat.add_comm]
  · simp only [HistDef.keptF, List.getElem?_map, List.getElem?_range hq, Option.map_some, Option.some.injEq]
    simpa [Nat.add_comm] using hm

theorem mkDatum_record (pre : Datum) (var : String) (texts : List DVal) (vals : List (Option ℚ)) :
    mkDatum pre var (texts ++ vals.map .num) = recordOf pre var texts vals := by
  unfold mkDatum recordOf
  congr 1
  apply List.ext_getElem
  · simp
  · intro i h1 h2
    simp

theorem positive_above (vals : List (Option ℚ)) : positive vals = aboveZero vals := by
  cases vals with
  | nil => rfl
  | cons v vs => cases v <;> rfl

end Verif
