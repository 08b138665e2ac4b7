import Verif.PropsBinning

/-!
# Properties of the published bins (C06), of conversions (C07), of rounding (C09) and of axes
with no bins (C10)
-/

namespace Verif

/-! ## C06: the published bins partition the numbers -/

/-- Specification: the numbers that an axis from `low` to `high` covers, given its flow bins. -/
def Covered (low high : ℚ) (u o n cl : Bool) (v : Num) : Prop :=
  (v = .nan ∧ n = true) ∨
  (v ≠ .nan ∧
    ((if cl then Num.lt v (.fin low) else Num.le v (.fin low)) = true → u = true) ∧
    ((if cl then Num.le (.fin high) v else Num.lt (.fin high) v) = true → o = true))

/-- Specification: a list of labels in increasing order, NaN last. -/
def Increasing (keys : List BinLabel) : Prop :=
  keys.Pairwise (fun k k' => ∀ v v', k.mem v → k'.mem v' → v ≠ .nan ∧ (v' = .nan ∨ Num.lt v v' = true))

theorem exists_pos (e : ℕ → ℚ) (n : ℕ) (he : ∀ i j, i < j → j ≤ n → e i < e j) (cl : Bool) (v : Num) :
    ∃ p, p ≤ n + 1 ∧ ∀ i, i ≤ n → (i < p ↔ above cl (e i) v = true) := by
  have hs : ((List.range (n + 1)).map e).Pairwise (· < ·) := by
    rw [List.pairwise_map]
    refine List.Pairwise.imp_of_mem ?_ (List.pairwise_lt_range (n := n + 1))
    intro a b _ hb h
    exact he a b h (by simp at hb; omega)
  refine ⟨((List.range (n + 1)).map e).countP (above cl · v), ?_, fun i hi => ?_⟩
  · have : ((List.range (n + 1)).map e).countP (above cl · v) ≤ ((List.range (n + 1)).map e).length :=
      List.countP_le_length
    simpa using this
  · rw [countP_prefix hs (above_mono cl v) i (by simp; omega)]
    simp

theorem flow_index (e : ℕ → ℚ) (n : ℕ) (he : ∀ i j, i < j → j ≤ n → e i < e j) (u o na cl : Bool) (v : Num) :
    ∃ r, IndexCorrect (flowKeys e n u o na cl) v r := by
  by_cases hv : v = .nan
  · subst hv; exact ⟨_, nan_correct _ _ _ _ _ _⟩
  · obtain ⟨p, hp, hab⟩ := exists_pos e n he cl v
    exact ⟨_, finish_correct _ _ _ _ _ _ _ hv p hp hab⟩

theorem flow_unique (e : ℕ → ℚ) (n : ℕ) (he : ∀ i j, i < j → j ≤ n → e i < e j) (u o na cl : Bool) (v : Num)
    (i j : ℕ) (k k' : BinLabel) (h : (flowKeys e n u o na cl)[i]? = some k)
    (h' : (flowKeys e n u o na cl)[j]? = some k') (hm : k.mem v) (hm' : k'.mem v) : i = j := by
  obtain ⟨r, hr⟩ := flow_index e n he u o na cl v
  cases r with
  | none => exact absurd hm (hr k (List.mem_of_getElem? h))
  | some z =>
    have h1 := hr.2.2 _ _ h hm
    have h2 := hr.2.2 _ _ h' hm'
    omega

theorem flow_covered (e : ℕ → ℚ) (n : ℕ) (he : ∀ i j, i < j → j ≤ n → e i < e j) (u o na cl : Bool) (v : Num) :
    (∃ k ∈ flowKeys e n u o na cl, k.mem v) ↔ Covered (e 0) (e n) u o na cl v := by
  by_cases hv : v = .nan
  · subst hv
    have := nan_correct e n u o na cl
    cases na
    · simp only [Bool.false_eq_true, if_false, IndexCorrect] at this
      simp [Covered]
      exact this
    · simp only [if_true, IndexCorrect] at this
      simp [Covered]
      obtain ⟨_, ⟨k, hk, hm⟩, _⟩ := this
      exact ⟨k, List.mem_of_getElem? hk, hm⟩
  · obtain ⟨p, hp, hab⟩ := exists_pos e n he cl v
    have hc := finish_correct e n u o na cl v hv p hp hab
    have h0 := hab 0 (by omega)
    have hn := hab n (by omega)
    have h0' := not_above cl (e 0) v hv
    have hex : (∃ k ∈ flowKeys e n u o na cl, k.mem v) ↔ finish u o n p ≠ none := by
      constructor
      · rintro ⟨k, hk, hm⟩ hnone
        rw [hnone] at hc
        exact hc k hk hm
      · intro h
        obtain ⟨z, hz⟩ := Option.ne_none_iff_exists'.1 h
        rw [hz] at hc
        obtain ⟨_, ⟨k, hk, hm⟩, _⟩ := hc
        exact ⟨k, List.mem_of_getElem? hk, hm⟩
    rw [hex]
    have hA : (if cl then Num.lt v (.fin (e 0)) else Num.le v (.fin (e 0))) = true ↔ p = 0 := by
      have : (if (!cl) = true then Num.le v (.fin (e 0)) else Num.lt v (.fin (e 0))) =
          (if cl = true then Num.lt v (.fin (e 0)) else Num.le v (.fin (e 0))) := by cases cl <;> rfl
      rw [← this, ← h0', ← Bool.not_eq_true, ← h0]; omega
    have hB : (if cl then Num.le (.fin (e n)) v else Num.lt (.fin (e n)) v) = true ↔ p = n + 1 := by
      have : above cl (e n) v = (if cl then Num.le (.fin (e n)) v else Num.lt (.fin (e n)) v) := rfl
      rw [← this, ← hn]; omega
    unfold Covered
    rw [hA, hB]
    simp only [hv, false_and, false_or, not_false_eq_true, true_and, ne_eq, finish]
    cases u <;> cases o <;> simp <;> split_ifs <;> simp <;> omega

theorem flow_increasing (e : ℕ → ℚ) (n : ℕ) (he : ∀ i j, i < j → j ≤ n → e i < e j) (u o na cl : Bool) :
    Increasing (flowKeys e n u o na cl) := by
  unfold Increasing
  rw [List.pairwise_iff_getElem]
  intro i j hi hj hij v v' hm hm'
  have hgi : (flowKeys e n u o na cl)[i]? = some (flowKeys e n u o na cl)[i] := List.getElem?_eq_getElem hi
  have hgj : (flowKeys e n u o na cl)[j]? = some (flowKeys e n u o na cl)[j] := List.getElem?_eq_getElem hj
  have hnn : v ≠ .nan := by
    rintro rfl
    have := nan_correct e n u o na cl
    rw [flowKeys_length] at hj
    cases na
    · exact this _ (List.getElem_mem hi) hm
    · have h := this.2.2 _ _ hgi hm
      cases u <;> cases o <;> simp [b2i, b2n] at * <;> omega
  refine ⟨hnn, ?_⟩
  by_cases hv' : v' = .nan
  · exact Or.inl hv'
  · right
    obtain ⟨p, hp, hab⟩ := exists_pos e n he cl v
    obtain ⟨p', hp', hab'⟩ := exists_pos e n he cl v'
    have hc := finish_correct e n u o na cl v hnn p hp hab
    have hc' := finish_correct e n u o na cl v' hv' p' hp' hab'
    have f1 : finish u o n p = some (i : ℤ) := by
      cases hf : finish u o n p with
      | none => rw [hf] at hc; exact absurd hm (hc _ (List.getElem_mem hi))
      | some z => rw [hf] at hc; rw [hc.2.2 _ _ hgi hm]
    have f2 : finish u o n p' = some (j : ℤ) := by
      cases hf : finish u o n p' with
      | none => rw [hf] at hc'; exact absurd hm' (hc' _ (List.getElem_mem hj))
      | some z => rw [hf] at hc'; rw [hc'.2.2 _ _ hgj hm']
    have hpp : p < p' := by
      unfold finish b2i at f1 f2
      cases u <;> cases o <;> simp at f1 f2 <;> grind
    have a1 := (hab' p (by omega)).1 hpp
    have a2 : above cl (e p) v = false := by
      rw [← Bool.not_eq_true, ← hab p (by omega)]; omega
    cases v <;> cases v' <;> cases cl <;> simp_all [above, Num.le, Num.lt] <;> linarith

/-- C06 for `bin`.  There are as many published bins as the axis says it has, no number is in two
of them, a number is in one of them exactly when it is covered (so with all flow bins on, every
number is in exactly one), and they are listed in increasing order with NaN last. -/
theorem C06_bin_keys_partition (numbins : ℕ) (low high : ℚ) (u o n cl : Bool) (a : BinAxis)
    (ha : BinAxis.init numbins low high u o n cl = .ok a) (hn : 0 < numbins) :
    a.keys.length = a.totbins ∧
    (∀ (v : Num) (i j : ℕ) (k k' : BinLabel), a.keys[i]? = some k → a.keys[j]? = some k' →
      k.mem v → k'.mem v → i = j) ∧
    (∀ v, (∃ k ∈ a.keys, k.mem v) ↔ Covered low high u o n cl v) ∧ Increasing a.keys := by
  obtain ⟨rfl, hlt, _, _⟩ := BinAxis.init_ok ha
  have hlh : low < high := hlt hn
  have he : ∀ i j, i < j → j ≤ numbins →
      BinAxis.i2x ⟨numbins, low, high, u, o, n, cl⟩ i < BinAxis.i2x ⟨numbins, low, high, u, o, n, cl⟩ j := by
    intro i j hij _
    unfold BinAxis.i2x
    simp only
    have h1 : (0 : ℚ) < numbins := by exact_mod_cast hn
    have h2 : (i : ℚ) < j := by exact_mod_cast hij
    have h3 : (i : ℚ) / numbins < j / numbins := by gcongr
    nlinarith
  rw [BinAxis.keys_eq _ hn]
  refine ⟨flowKeys_length _ _ _ _ _ _, ?_, ?_, flow_increasing _ _ he _ _ _ _⟩
  · intro v i j k k' h h' hm hm'
    exact flow_unique _ _ he _ _ _ _ v i j k k' h h' hm hm'
  · intro v
    have := flow_covered _ _ he u o n cl v
    rw [BinAxis.i2x_zero, BinAxis.i2x_numbins _ hn] at this
    exact this

example : (∃ k ∈ BinAxis.keys ⟨10, 0, 5, true, false, true, false⟩, k.mem (.fin 0)) :=
  ((C06_bin_keys_partition 10 0 5 true false true false ⟨10, 0, 5, true, false, true, false⟩
    (by decide +kernel) (by norm_num)).2.2.1 _).2 (Or.inr ⟨by simp, by simp [Num.le], by simp [Num.lt]⟩)

/-- C06 for `split`, as for `bin`; `lo` and `hi` are the least and the greatest edge. -/
theorem C06_split_keys_partition (edges : List ℚ) (u o n cl : Bool) (a : SplitAxis)
    (ha : SplitAxis.init edges u o n cl = .ok a) (lo hi : ℚ)
    (hlo : lo ∈ edges ∧ ∀ e ∈ edges, lo ≤ e) (hhi : hi ∈ edges ∧ ∀ e ∈ edges, e ≤ hi) :
    a.keys.length = a.totbins ∧ a.totbins = edges.length - 1 + b2n u + b2n o + b2n n ∧
    (∀ (v : Num) (i j : ℕ) (k k' : BinLabel), a.keys[i]? = some k → a.keys[j]? = some k' →
      k.mem v → k'.mem v → i = j) ∧
    (∀ v, (∃ k ∈ a.keys, k.mem v) ↔ Covered lo hi u o n cl v) ∧ Increasing a.keys := by
  obtain ⟨hg, hperm, rfl, rfl, rfl, rfl, _⟩ := SplitAxis.init_ok ha
  have hlen : 0 < a.edges.length := List.length_pos_iff.2 hg.1
  have hget : ∀ i, (h : i < a.edges.length) → a.edges.getD i 0 = a.edges[i] := by
    intro i h; simp [List.getElem?_eq_getElem h]
  have he : ∀ i j, i < j → j ≤ a.edges.length - 1 → a.edges.getD i 0 < a.edges.getD j 0 := by
    intro i j hij hj
    rw [hget i (by omega), hget j (by omega)]
    exact List.pairwise_iff_getElem.1 hg.2 i j _ _ hij
  have h0 : a.edges.getD 0 0 = lo := by
    apply le_antisymm
    · obtain ⟨i, hi, hil⟩ := List.getElem_of_mem (hperm.symm.subset hlo.1)
      rw [← hil, ← hget i hi]
      rcases Nat.eq_zero_or_pos i with h | h
      · rw [h]
      · exact le_of_lt (he 0 i h (by omega))
    · exact hlo.2 _ (hperm.subset (by rw [hget 0 hlen]; exact List.getElem_mem _))
  have h1 : a.edges.getD (a.edges.length - 1) 0 = hi := by
    apply le_antisymm
    · exact hhi.2 _ (hperm.subset (by rw [hget _ (by omega)]; exact List.getElem_mem _))
    · obtain ⟨i, hi, hil⟩ := List.getElem_of_mem (hperm.symm.subset hhi.1)
      rw [← hil, ← hget i hi]
      rcases Nat.lt_or_ge i (a.edges.length - 1) with h | h
      · exact le_of_lt (he i _ h (by omega))
      · rw [show i = a.edges.length - 1 by omega]
  rw [a.keys_eq hg.1]
  refine ⟨flowKeys_length _ _ _ _ _ _, ?_, ?_, ?_, flow_increasing _ _ he _ _ _ _⟩
  · unfold SplitAxis.totbins; rw [hperm.length_eq]
  · intro v i j k k' h h' hm hm'
    exact flow_unique _ _ he _ _ _ _ v i j k k' h h' hm hm'
  · intro v
    have := flow_covered _ _ he a.underflow a.overflow a.nanflow a.closedlow v
    rw [h0, h1] at this
    exact this

example : (∃ k ∈ SplitAxis.keys ⟨[1, 2, 5], true, true, false, true⟩, k.mem .pinf) :=
  ((C06_split_keys_partition [5, 1, 2] true true false true ⟨[1, 2, 5], true, true, false, true⟩
    (by decide +kernel) 1 5 (by simp) (by simp; norm_num)).2.2.2.1 _).2
    (Or.inr ⟨by simp, by simp [Num.lt], by simp⟩)

/-- C06 for `intbin`: no integer is in two published bins, and an integer is in one exactly when
it lies between `min` and `max` or on the side of a flow bin that is on. -/
theorem C06_intbin_keys_partition (min max : ℤ) (u o : Bool) (a : IntbinAxis)
    (ha : IntbinAxis.init min max u o = .ok a) :
    (a.keys.length : ℤ) = a.totbins ∧
    (∀ (v : ℤ) (i j : ℕ) (k k' : BinLabel), a.keys[i]? = some k → a.keys[j]? = some k' →
      k.mem (.fin v) → k'.mem (.fin v) → i = j) ∧
    (∀ v : ℤ, (∃ k ∈ a.keys, k.mem (.fin v)) ↔ (v < min → u = true) ∧ (max < v → o = true)) := by
  unfold IntbinAxis.init at ha
  split at ha
  · cases ha
  cases ha
  rename_i hmm
  have hc : ∀ v : ℤ, IndexCorrect (IntbinAxis.keys ⟨min, max, u, o⟩) (.fin v)
      (IntbinAxis.clamp ⟨min, max, u, o⟩ (v + (b2i u - min))) := fun v =>
    IntbinAxis.clamp_correct _ (by simp only; omega) _ _ (Or.inl rfl)
  refine ⟨?_, ?_, ?_⟩
  · have h0 : 0 ≤ max - min + 1 := by omega
    cases u <;> cases o <;> simp [IntbinAxis.keys, IntbinAxis.totbins, IntbinAxis.numbins, b2i] <;> omega
  · intro v i j k k' h h' hm hm'
    have hv := hc v
    cases hr : IntbinAxis.clamp ⟨min, max, u, o⟩ (v + (b2i u - min)) with
    | none => rw [hr] at hv; exact absurd hm (hv k (List.mem_of_getElem? h))
    | some z =>
      rw [hr] at hv
      have h1 := hv.2.2 _ _ h hm
      have h2 := hv.2.2 _ _ h' hm'
      omega
  · intro v
    have hv := hc v
    have hex : (∃ k ∈ IntbinAxis.keys ⟨min, max, u, o⟩, k.mem (.fin v)) ↔
        IntbinAxis.clamp ⟨min, max, u, o⟩ (v + (b2i u - min)) ≠ none := by
      constructor
      · rintro ⟨k, hk, hm⟩ hnone
        rw [hnone] at hv
        exact hv k hk hm
      · intro h
        obtain ⟨z, hz⟩ := Option.ne_none_iff_exists'.1 h
        rw [hz] at hv
        obtain ⟨_, ⟨k, hk, hm⟩, _⟩ := hv
        exact ⟨k, List.mem_of_getElem? hk, hm⟩
    rw [hex]
    unfold IntbinAxis.clamp b2i
    cases u <;> cases o <;> simp <;> (try split_ifs) <;> (try simp) <;> omega

example : ∃ k ∈ IntbinAxis.keys ⟨0, 3, false, true⟩, k.mem (.fin ((7 : ℤ) : ℚ)) :=
  ((C06_intbin_keys_partition 0 3 false true ⟨0, 3, false, true⟩ (by decide +kernel)).2.2 7).2
    ⟨by decide, by simp⟩

/-! ## C07: conversions between kinds of axes -/

/-- C07, `bin.split()`.  The conversion succeeds, publishes the same intervals, and bins every
finite value (position at most int32) as before. -/
theorem C07_bin_split_same (numbins : ℕ) (low high : ℚ) (u o n cl : Bool) (a : BinAxis)
    (ha : BinAxis.init numbins low high u o n cl = .ok a) (hn : 0 < numbins) :
    ∃ s, a.split = .ok s ∧ s.keys = a.keys ∧ s.totbins = a.totbins ∧
      ∀ q : ℚ, (q - low) * (numbins / (high - low)) ≤ 2147483645 →
        a.index (.fin q) = .ok (s.index (.fin q)) := by
  have ha' := ha
  obtain ⟨rfl, hlt, _, ht⟩ := BinAxis.init_ok ha
  have hlh : low < high := hlt hn
  set b : BinAxis := ⟨numbins, low, high, u, o, n, cl⟩ with hb
  have he : ∀ i j, i < j → b.i2x i < b.i2x j := by
    intro i j hij
    unfold BinAxis.i2x
    simp only [hb]
    have h1 : (0 : ℚ) < numbins := by exact_mod_cast hn
    have h2 : (i : ℚ) < j := by exact_mod_cast hij
    have h3 : (i : ℚ) / numbins < j / numbins := by gcongr
    nlinarith
  have hlast : b.i2x numbins = high := BinAxis.i2x_numbins b hn
  have hedges : (List.range numbins).map (fun i => b.i2x i) ++ [high] = (List.range (numbins + 1)).map b.i2x := by
    rw [List.range_succ, List.map_append]; simp [hlast]
  have hs : ((List.range (numbins + 1)).map b.i2x).Pairwise (· < ·) := by
    rw [List.pairwise_map]
    exact (List.pairwise_lt_range (n := numbins + 1)).imp (fun h => he _ _ h)
  have hsorted : ((List.range (numbins + 1)).map b.i2x).insertionSort (· ≤ ·) = (List.range (numbins + 1)).map b.i2x :=
    (hs.imp (fun h => le_of_lt h)).insertionSort_eq
  have hsplit : b.split = .ok ⟨(List.range (numbins + 1)).map b.i2x, u, o, n, cl⟩ := by
    unfold BinAxis.split
    simp only [show b.numbins = numbins from rfl, show b.high = high from rfl, hedges]
    unfold SplitAxis.init
    rw [if_neg (by simp), hsorted]
    simp only
    rw [if_neg (by rw [not_not]; exact hs.imp (fun h => ne_of_lt h)), if_neg]
    intro h
    apply ht
    simpa [SplitAxis.totbins, BinAxis.totbins, hb] using h
  have hkeys : SplitAxis.keys ⟨(List.range (numbins + 1)).map b.i2x, u, o, n, cl⟩ = b.keys := by
    rw [BinAxis.keys_eq b hn, SplitAxis.keys_eq _ (by simp)]
    simp only [List.length_map, List.length_range, Nat.add_sub_cancel]
    have hg : ∀ i, i ≤ numbins → ((List.range (numbins + 1)).map b.i2x).getD i 0 = b.i2x i := by
      intro i hi
      simp [List.getElem?_range (show i < numbins + 1 by omega)]
    unfold flowKeys
    simp only [hg 0 (by omega), hg numbins (le_refl _)]
    congr 3
    apply List.map_congr_left
    intro i hi
    simp at hi
    rw [hg i (by omega), hg (i + 1) (by omega)]
  refine ⟨_, hsplit, hkeys, ?_, ?_⟩
  · simp [SplitAxis.totbins, BinAxis.totbins, hb]
  · intro q hq
    obtain ⟨r, h1, h2⟩ := C01_bin_fill_matches_keys numbins low high u o n cl b ha' hn q hq
    rw [h1]
    congr 1
    apply IndexCorrect.unique h2
    rw [← hkeys]
    exact C03_split_fill_matches_keys _ _ _ _ _ _ hsplit _

example : ∃ s, BinAxis.split ⟨4, 0, 2, true, true, false, false⟩ = .ok s ∧
    BinAxis.index ⟨4, 0, 2, true, true, false, false⟩ (.fin 1) = .ok (s.index (.fin 1)) := by
  obtain ⟨s, h1, _, _, h2⟩ := C07_bin_split_same 4 0 2 true true false false
    ⟨4, 0, 2, true, true, false, false⟩ (by decide +kernel) (by norm_num)
  exact ⟨s, h1, h2 1 (by norm_num)⟩

/-- C07, `intbin.bin()`.  The conversion succeeds, has the same number of bins, and bins every
integer (offset within int32) as before, whether it arrives as an int64 or as a float. -/
theorem C07_intbin_bin_same (min max : ℤ) (u o : Bool) (a : IntbinAxis)
    (ha : IntbinAxis.init min max u o = .ok a) :
    ∃ b, a.bin = .ok b ∧ (b.totbins : ℤ) = a.totbins ∧
      ∀ v : ℤ, v + (b2i u - min) ≤ 2147483647 →
        b.index (.fin v) = .ok (a.indexNum (.fin v)) ∧
        (-2147483648 ≤ v + (b2i u - min) → b.index (.fin v) = .ok (a.indexInt v)) := by
  unfold IntbinAxis.init at ha
  split at ha
  · cases ha
  cases ha
  rename_i hmm
  obtain ⟨m, hm⟩ := Int.eq_ofNat_of_zero_le (show 0 ≤ max - min by omega)
  have hnb : (max - min + 1).toNat = m + 1 := by omega
  have hmq : (max : ℚ) = min + m := by
    have : max = min + m := by omega
    rw [this]; push_cast; rfl
  have hlh : ((min : ℚ) - 1/2) < (max : ℚ) + 1/2 := by
    rw [hmq]
    have : (0 : ℚ) ≤ m := by positivity
    linarith
  have hinit : BinAxis.init (m + 1) ((min : ℚ) - 1/2) ((max : ℚ) + 1/2) u o false true =
      .ok ⟨m + 1, (min : ℚ) - 1/2, (max : ℚ) + 1/2, u, o, false, true⟩ := by
    unfold BinAxis.init
    rw [if_neg, if_neg]
    · simp [BinAxis.totbins]
    · push Not; exact ⟨fun _ => hlh, le_of_lt hlh⟩
  refine ⟨⟨m + 1, (min : ℚ) - 1/2, (max : ℚ) + 1/2, u, o, false, true⟩, ?_, ?_, ?_⟩
  · unfold IntbinAxis.bin
    simp only [hnb]; exact hinit
  · simp [BinAxis.totbins, IntbinAxis.totbins, IntbinAxis.numbins]
    cases u <;> cases o <;> simp [b2n, b2i] <;> omega
  · intro v hv
    have hcell : BinAxis.cellZ ⟨m + 1, (min : ℚ) - 1/2, (max : ℚ) + 1/2, u, o, false, true⟩ (v : ℚ) = v - min := by
      unfold BinAxis.cellZ BinAxis.scaled
      simp only [if_true]
      rw [Int.floor_eq_iff]
      have h1 : ((max : ℚ) + 1/2 - (min - 1/2)) = m + 1 := by rw [hmq]; ring
      have h2 : (m : ℚ) + 1 ≠ 0 := by positivity
      rw [h1]; push_cast
      rw [div_self h2]
      constructor <;> linarith
    have hidx := BinAxis.index_fin ⟨m + 1, (min : ℚ) - 1/2, (max : ℚ) + 1/2, u, o, false, true⟩ hlh (v : ℚ)
      (by rw [hcell]; simp only; omega)
    have hclamp : ∀ x : ℤ, (x = v + (b2i u - min) ∨ (x < 0 ∧ v + (b2i u - min) < 0)) →
        finish u o (m + 1) (Min.min (v - min + 1) (((m + 1 : ℕ) : ℤ) + 1)).toNat =
          IntbinAxis.clamp ⟨min, max, u, o⟩ x := by
      intro x hx
      unfold finish IntbinAxis.clamp
      cases u <;> cases o <;> simp [b2i] at hx ⊢ <;> split_ifs <;> (try simp) <;> omega
    have hidx' : BinAxis.index ⟨m + 1, (min : ℚ) - 1/2, (max : ℚ) + 1/2, u, o, false, true⟩ (.fin v) =
        .ok (finish u o (m + 1) (Min.min (v - min + 1) (((m + 1 : ℕ) : ℤ) + 1)).toNat) := by
      rw [hidx]; unfold BinAxis.edgesBelow; rw [hcell]
    constructor
    · rw [hidx', IntbinAxis.indexNum]
      congr 1
      apply hclamp
      have e : ((v : ℚ) + ((b2i u : ℚ) - (min : ℚ))) = ((v + (b2i u - min) : ℤ) : ℚ) := by push_cast; ring
      simp only [Num.addFin, e]
      by_cases h1 : -2147483648 ≤ v + (b2i u - min)
      · rw [Num.toI32_intCast _ h1 hv]; exact Or.inl rfl
      · rw [Num.toI32_intCast_low _ (by omega)]; right; constructor <;> omega
    · intro h1
      rw [hidx', IntbinAxis.indexInt]
      congr 1
      apply hclamp
      rw [wrapI32_of_range _ h1 hv]; exact Or.inl rfl

example : ∃ b, IntbinAxis.bin ⟨-1, 3, true, false⟩ = .ok b ∧
    b.index (.fin ((2 : ℤ) : ℚ)) = .ok (IntbinAxis.indexInt ⟨-1, 3, true, false⟩ 2) := by
  obtain ⟨b, h1, _, h2⟩ := C07_intbin_bin_same (-1) 3 true false ⟨-1, 3, true, false⟩ (by decide +kernel)
  exact ⟨b, h1, (h2 2 (by decide)).2 (by decide)⟩

/-! ## C09: whatever the rounding of the scaling, bin numbers are in range and monotone -/

/-- C09, range.  Whatever number the floating-point scaling produces (`x` is arbitrary), the bin
number is a valid one. -/
theorem C09_any_rounding_in_range (a : BinAxis) (x : Num) (i : ℤ) (h : a.clamp x = some i) :
    0 ≤ i ∧ i < a.totbins := by
  unfold BinAxis.clamp at h
  unfold BinAxis.totbins
  cases hx : x.isnan <;> cases hu : a.underflow <;> cases ho : a.overflow <;> cases hn : a.nanflow <;>
    simp [hx, hu, ho, hn, b2i, b2n, Option.bind_eq_some_iff] at h ⊢ <;> grind

example : 0 ≤ (10 : ℤ) ∧ (10 : ℤ) < (BinAxis.totbins ⟨10, 0, 5, true, true, true, true⟩ : ℤ) :=
  C09_any_rounding_in_range ⟨10, 0, 5, true, true, true, true⟩ (.fin 10) 10 (by decide +kernel)

/-- C09, order.  If the rounded scaling is monotone on two values and its result is within int32,
the bin numbers are in the same order: a value is never put in a later regular bin than a larger
value. -/
theorem C09_any_rounding_monotone (a : BinAxis) (round : ℚ → ℤ) (q q' : ℚ)
    (hmono : round q ≤ round q') (hlo : -2147483648 ≤ round q) (hhi : round q' ≤ 2147483647) (i j : ℤ)
    (hi : a.clamp (.fin (round q)) = some i) (hj : a.clamp (.fin (round q')) = some j) : i ≤ j := by
  unfold BinAxis.clamp at hi hj
  rw [Num.toI32_intCast _ hlo (by omega)] at hi
  rw [Num.toI32_intCast _ (by omega) hhi] at hj
  cases hu : a.underflow <;> cases ho : a.overflow <;>
    simp [hu, ho, Num.isnan, b2i, Option.bind_eq_some_iff] at hi hj <;> grind

example : (3 : ℤ) ≤ 7 :=
  C09_any_rounding_monotone ⟨10, 0, 5, true, true, true, true⟩ (fun q => ⌊q⌋) (7/2) 7
    (by decide +kernel) (by decide +kernel) (by decide +kernel) 3 7 (by decide +kernel) (by decide +kernel)

/-! ## C10: axes with no bins -/

/-- C10 is false of the code: with no regular bins, a value below the range is counted in the
overflow bin. -/
theorem C10_refuted : ¬ ∀ (low high : ℚ) (u o n cl : Bool) (a : BinAxis),
    BinAxis.init 0 low high u o n cl = .ok a → ∀ q : ℚ,
    ∃ r, a.index (.fin q) = .ok r ∧ IndexCorrect a.keys (.fin q) r := by
  intro h
  obtain ⟨r, hr, hc⟩ := h 0 1 true true true true ⟨0, 0, 1, true, true, true, true⟩ (by decide +kernel) (-5)
  have : BinAxis.index ⟨0, 0, 1, true, true, true, true⟩ (.fin (-5)) = .ok (some 1) := by decide +kernel
  rw [this] at hr
  cases hr
  obtain ⟨_, ⟨k, hk, hm⟩, _⟩ := hc
  rw [show (BinAxis.keys ⟨0, 0, 1, true, true, true, true⟩)[(1:ℤ).toNat]? =
    some (.iv (.fin 1) .pinf true true) by decide +kernel] at hk
  cases hk
  revert hm; decide +kernel

/-- C10 is false of the code in a second way: the constructor accepts `low == high` with no bins,
and every fill then raises `ZeroDivisionError`. -/
theorem C10_refuted_raises : BinAxis.init 0 3 3 true true true true = .ok ⟨0, 3, 3, true, true, true, true⟩ ∧
    ∀ v, BinAxis.index ⟨0, 3, 3, true, true, true, true⟩ v = .error .zeroDivision := by
  refine ⟨by decide +kernel, fun v => ?_⟩
  unfold BinAxis.index BinAxis.position
  simp

/-- C10, exactly what happens to every finite value on an axis without regular bins: it is counted
as overflow if intervals are closed below and as underflow otherwise. -/
theorem C10_every_value_same_bin (low high : ℚ) (u o n cl : Bool) (hlh : low < high) (q : ℚ) :
    BinAxis.index ⟨0, low, high, u, o, n, cl⟩ (.fin q) =
      .ok (if cl then (if o then some (b2i u) else none) else (if u then some 0 else none)) := by
  rw [BinAxis.index_fin _ hlh q]
  · unfold BinAxis.edgesBelow BinAxis.cellZ BinAxis.scaled finish
    cases cl <;> cases u <;> cases o <;> simp [b2i]
  · unfold BinAxis.cellZ BinAxis.scaled
    cases cl <;> cases u <;> simp [b2i]

example : BinAxis.index ⟨0, 0, 1, true, true, true, true⟩ (.fin (-5)) = .ok (some 1) :=
  C10_every_value_same_bin 0 1 true true true true (by norm_num) (-5)

/-- C10, the part that holds: with `low < high`, values at or above `high` on axes closed below,
and values at or below `low` on axes closed above, are binned as published.  Missing: all other
finite values (`C10_refuted`) and `low == high` (`C10_refuted_raises`). -/
theorem C10_partial (low high : ℚ) (u o n cl : Bool) (hlh : low < high) (q : ℚ)
    (hq : if cl then high ≤ q else q ≤ low) :
    ∃ r, BinAxis.index ⟨0, low, high, u, o, n, cl⟩ (.fin q) = .ok r ∧
      IndexCorrect (BinAxis.keys ⟨0, low, high, u, o, n, cl⟩) (.fin q) r := by
  refine ⟨_, C10_every_value_same_bin low high u o n cl hlh q, ?_⟩
  cases cl
  · simp at hq
    have h1 : ¬ high < q := by linarith
    cases u <;> cases o <;> cases n <;>
      simp [BinAxis.keys, IndexCorrect, BinLabel.mem, Num.le, Num.lt, hq, h1, b2i] <;>
      (intro j k; rcases j with _ | _ | _ | j <;> simp <;> rintro rfl <;> simp [BinLabel.mem, Num.le, Num.lt, h1])
  · simp at hq
    have h1 : ¬ q < low := by linarith
    cases u <;> cases o <;> cases n <;>
      simp [BinAxis.keys, IndexCorrect, BinLabel.mem, Num.le, Num.lt, hq, h1, b2i] <;>
      (intro j k; rcases j with _ | _ | _ | j <;> simp <;> rintro rfl <;> simp [BinLabel.mem, Num.le, Num.lt, h1])

example : ∃ r, BinAxis.index ⟨0, 0, 1, true, true, true, true⟩ (.fin 5) = .ok r ∧
    IndexCorrect (BinAxis.keys ⟨0, 0, 1, true, true, true, true⟩) (.fin 5) r :=
  C10_partial 0 1 true true true true (by norm_num) 5 (by norm_num)

end Verif
