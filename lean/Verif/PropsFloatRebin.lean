import Verif.FloatRebin
import Verif.SparkLemmas

/-!
# C121: rebinning a `bin` axis with the machine's arithmetic
-/

namespace Verif

/-- The axis that `split` gives. -/
def BinAxis.asSplitF (a : BinAxis) : SplitAxis := ⟨a.edgesF, a.underflow, a.overflow, a.nanflow, a.closedlow⟩

theorem BinAxis.asSplitF_keys (a : BinAxis) : a.asSplitF.keys =
    edgeLabels a.underflow a.overflow a.nanflow a.closedlow a.numbins (a.edgeF 0) a.high a.edgeF (fun i => a.edgeF (i + 1)) := by
  rw [SplitAxis.keys_eq _ (by simp [BinAxis.asSplitF, BinAxis.edgesF])]
  have hg : ∀ i, i ≤ a.numbins → a.edgesF.getD i 0 = a.edgeF i := by
    intro i hi
    rw [a.edgesF_eq]
    simp [List.getElem?_range (show i < a.numbins + 1 by omega)]
  have hlen : a.edgesF.length - 1 = a.numbins := by simp [BinAxis.edgesF]
  have hlast : a.edgeF a.numbins = a.high := by simp [BinAxis.edgeF]
  unfold flowKeys edgeLabels BinAxis.asSplitF
  simp only [hlen, hg 0 (by omega), hg a.numbins le_rfl, hlast]
  congr 3
  apply List.map_congr_left
  intro i hi
  have hi := List.mem_range.1 hi
  rw [hg i (by omega), hg (i + 1) (by omega)]

/-- The values whose bin is certain: NaN, minus infinity and doubles that are further from all published edges than `2^-48` of the largest number
involved. -/
def BinAxis.Clear (a : BinAxis) (M : ℚ) (v : Num) : Prop :=
  v = .nan ∨ v = .ninf ∨ ∃ q : ℚ, v = .fin q ∧ IsF64 q ∧ |q| ≤ M ∧ (q - a.low) * a.numbins ≤ 2 ^ 30 * (a.high - a.low) ∧
    ∀ i ≤ a.numbins, M / 2 ^ 48 < |q - a.i2xF i|

theorem BinAxis.Ordinary.clear_index {a : BinAxis} (h : a.Ordinary) {M : ℚ} (hl : |a.low| ≤ M) (hh : |a.high| ≤ M) {v : Num} (hv : a.Clear M v) :
    ∃ r, a.indexF v = .ok r ∧ IndexCorrect a.asSplitF.keys v r := by
  have hb := h.bins
  rw [a.asSplitF_keys]
  have hinit : BinAxis.init a.numbins a.low a.high a.underflow a.overflow a.nanflow a.closedlow = .ok a := by
    have ho := h.order
    have hh1 : ¬ a.high < a.low := by linarith
    unfold BinAxis.init BinAxis.totbins
    simp [ho.ne, hh1, not_le.2 ho, hb.ne']
  rcases hv with rfl | rfl | ⟨q, rfl, h1, h2, h3, h4⟩
  · obtain ⟨r, hr, hc⟩ := C01_bin_nan _ _ _ _ _ _ _ a hinit hb
    refine ⟨r, by rw [C104_special a h .nan (by simp), hr], hc.alike ?_⟩
    rw [BinAxis.keys_eq a hb]
    exact edgeLabels_alike .nan _ _ _ _ _ _ _ _ _ _ _ _ _ (.nan _ _) (.nan _ _) (fun _ _ => .nan _ _) (fun _ _ => .nan _ _)
  · obtain ⟨r, hr, hc⟩ := C02_partial _ _ _ _ _ _ _ a hinit hb .ninf (Or.inl rfl)
    refine ⟨r, by rw [C104_special a h .ninf (by simp), hr], hc.alike ?_⟩
    rw [BinAxis.keys_eq a hb]
    exact edgeLabels_alike .ninf _ _ _ _ _ _ _ _ _ _ _ _ _ (.ninf _ _) (.ninf _ _) (fun _ _ => .ninf _ _) (fun _ _ => .ninf _ _)
  · obtain ⟨r, hr, hc⟩ := C104_right_partial a h q M h1 ⟨hl, hh, h2⟩ h3 h4
    refine ⟨r, hr, hc.alike ?_⟩
    have he0 : a.edgeF 0 = a.low := by
      unfold BinAxis.edgeF
      rw [if_pos hb, BinAxis.i2xF_zero h]
    refine edgeLabels_alike (.fin q) _ _ _ _ _ _ _ _ _ _ _ _ _ ?_ ?_ (fun i hi => ?_) (fun i hi => ?_)
    · rw [rne_fix h.low, he0]; exact .rfl
    · rw [rne_fix h.high]; exact .rfl
    · unfold BinAxis.edgeF
      rw [if_pos hi]; exact .rfl
    · unfold BinAxis.edgeF
      split_ifs with hlt
      · exact .rfl
      · have hi' : i + 1 = a.numbins := by omega
        rw [hi']
        have hf := h4 a.numbins le_rfl
        have herr := abs_le.1 (h.i2xF_err M hl hh (le_refl a.numbins))
        rw [BinAxis.i2x_numbins a hb] at herr
        have hep := eps_pos
        have hMp : 0 < M := by
          have h1 := abs_le.1 hl
          have h2 := abs_le.1 hh
          linarith [h.order, h1.1, h2.2]
        have h48 : M / 2 ^ 48 = 32 * eps * M := by
          unfold eps
          rw [zpow_neg]; norm_num; ring
        have hpos : 0 < eps * M := by positivity
        rw [h48] at hf
        apply SameSide.fin
        rcases lt_abs.1 hf with hf | hf
        · left; constructor <;> linarith [herr.1, herr.2]
        · right; constructor <;> linarith [herr.1, herr.2]

/-- A value is in a bin made of several others exactly if it is in one of them. -/
theorem countP_bins {α : Type} (R : List ℕ) (hR : R.Nodup) (f : α → Option ℕ) (l : List α) :
    (R.map fun k => l.countP fun v => decide (f v = some k)).sum = l.countP fun v => R.any fun k => decide (f v = some k) := by
  induction R with
  | nil => simp
  | cons k R ih =>
    rw [List.nodup_cons] at hR
    rw [List.map_cons, List.sum_cons, ih hR.2]
    clear ih
    induction l with
    | nil => rfl
    | cons v l ih =>
      simp only [List.countP_cons, List.any_cons] at ih ⊢
      by_cases h1 : f v = some k
      · have h2 : (R.any fun k => decide (f v = some k)) = false := by
          rw [List.any_eq_false]
          intro k' hk'
          simp only [h1, Option.some.injEq, decide_eq_true_eq]
          rintro rfl
          exact hR.1 hk'
        simp only [h1, decide_true, Bool.true_or, if_true]
        rw [h1] at h2
        rw [h2]
        simp only [Bool.false_eq_true, if_false]
        omega
      · simp only [h1, decide_false, Bool.false_or, Bool.false_eq_true, if_false]
        omega

/-! ## C121 -/

/-- Which edges are accepted: exactly the published ones (and they must make an axis); the first and the last edge are the limits of the axis. -/
theorem C121_edges (a : BinAxis) (h : a.Ordinary) (M : ℚ) (hM : |a.low| ≤ M ∧ |a.high| ≤ M)
    (hwide : M / 2 ^ 48 * a.numbins ≤ a.high - a.low) (new : List ℚ) (c : List ℚ) :
    (∀ b, SplitAxis.init new a.underflow a.overflow a.nanflow a.closedlow = .ok b →
      ((∃ d, a.rebinF new c = .ok (b, d)) ↔ ∀ e ∈ new, e = a.high ∨ ∃ i < a.numbins, e = a.i2xF i) ∧
      ((∃ e ∈ new, e ≠ a.high ∧ ∀ i < a.numbins, e ≠ a.i2xF i) → a.rebinF new c = .error .valueError)) ∧
    a.i2xF 0 = a.low := by
  obtain ⟨hs, -⟩ := h.splitF_ok hM.1 hM.2 hwide
  have hmem : ∀ e, e ∈ a.edgesF ↔ (e = a.high ∨ ∃ i < a.numbins, e = a.i2xF i) := by
    intro e
    simp only [BinAxis.edgesF, List.mem_append, List.mem_map, List.mem_range, List.mem_singleton]
    constructor
    · rintro (⟨i, hi, rfl⟩ | rfl)
      · exact Or.inr ⟨i, hi, rfl⟩
      · exact Or.inl rfl
    · rintro (rfl | ⟨i, hi, rfl⟩)
      · exact Or.inr rfl
      · exact Or.inl ⟨i, hi, rfl⟩
  have hall : (new.all fun e => a.edgesF.contains e) = true ↔ ∀ e ∈ new, e = a.high ∨ ∃ i < a.numbins, e = a.i2xF i := by
    rw [List.all_eq_true]
    refine forall₂_congr fun e he => ?_
    rw [List.contains_iff_mem, hmem]
  refine ⟨fun b hb => ⟨?_, ?_⟩, BinAxis.i2xF_zero h⟩
  · unfold BinAxis.rebinF
    rw [hs]
    simp only [SplitAxis.rebinned]
    rw [← hall]
    split_ifs with hc
    · rw [hb]; exact ⟨fun _ => hc, fun _ => ⟨_, rfl⟩⟩
    · exact ⟨fun ⟨d, hd⟩ => (by cases hd), fun h => absurd h hc⟩
  · rintro ⟨e, he, h1, h2⟩
    have hc : ¬ (new.all fun e => a.edgesF.contains e) = true := by
      rw [hall]
      intro h3
      rcases h3 e he with h4 | ⟨i, hi, h4⟩
      · exact h1 h4
      · exact h2 i hi h4
    unfold BinAxis.rebinF
    rw [hs]
    simp only [SplitAxis.rebinned, hc]
    rfl

/-- Without weights, rebinning gives in each new bin the number of values that belong to it, the same as filling a histogram with the new edges,
if no value is as close to an edge as `2^-48` of the largest number involved. -/
theorem C121_counts_partial (a : BinAxis) (h : a.Ordinary) (M : ℚ) (hM : |a.low| ≤ M ∧ |a.high| ≤ M)
    (hwide : M / 2 ^ 48 * a.numbins ≤ a.high - a.low) (bs : List (List Num)) (hn : bs.flatten.length ≤ 2 ^ 53)
    (hv : ∀ v ∈ bs.flatten, a.Clear M v) (new : List ℚ) (b : SplitAxis)
    (hb : SplitAxis.init new a.underflow a.overflow a.nanflow a.closedlow = .ok b) (hnew : ∀ e ∈ new, e = a.high ∨ ∃ i < a.numbins, e = a.i2xF i) :
    ∃ c d, a.fillAllF a.zerosF (bs.map (fun b => b.map (fun v => (v, 1)))) = .ok c ∧ a.rebinF new c = .ok (b, d) ∧ d.length = b.keys.length ∧
      ∀ i < b.totbins, d[i]? = some ((bs.flatten.countP fun v => b.index v = some (i : ℤ) : ℕ) : ℚ) ∧
        ∃ k, b.keys[i]? = some k ∧ d[i]? = some ((bs.flatten.countP fun v => k.mem v : ℕ) : ℚ) := by
  obtain ⟨hs, hpw⟩ := h.splitF_ok hM.1 hM.2 hwide
  obtain ⟨c, hc, hclen, hcget⟩ := C106_counts_partial a h bs hn
  obtain ⟨d, hd⟩ := ((C121_edges a h M hM hwide new c).1 b hb).1.2 hnew
  have hd' := hd
  unfold BinAxis.rebinF at hd'
  rw [hs] at hd'
  simp only at hd'
  rw [show (⟨a.edgesF, a.underflow, a.overflow, a.nanflow, a.closedlow⟩ : SplitAxis) = a.asSplitF from rfl] at hd' hs
  cases hr : a.asSplitF.rebinned new with
  | error e => rw [hr] at hd'; cases hd'
  | ok b' =>
    rw [hr] at hd'
    simp only [Except.ok.injEq, Prod.mk.injEq] at hd'
    obtain ⟨rfl, rfl⟩ := hd'
    obtain ⟨hsub, -⟩ := rebinned_ok hr
    obtain ⟨hgb, hperm, hu, ho, hna, hcl, htot⟩ := SplitAxis.init_ok hb
    have hga : a.asSplitF.Good := ⟨by simp [BinAxis.asSplitF, BinAxis.edgesF], hpw⟩
    have hhs : ∀ v : Val, (FixedAxis.split a.asSplitF).Handles v := handles_split a.edgesF _ _ _ _ _ hs
    have hhb : ∀ v : Val, (FixedAxis.split b').Handles v := handles_split _ _ _ _ _ b' hb
    have hrec := rebin_recombines a.asSplitF b' hga hgb (fun e he => hsub e (hperm.mem_iff.1 he)) (.split a.asSplitF) (fun _ => True)
      (fun _ _ _ => rfl) rfl hu ho hna hcl (fun v => (hhb v).sound)
    have hlen : b'.keys.length = b'.totbins := by
      rw [b'.keys_eq hgb.1, flowKeys_length]; rfl
    have htoteq : a.asSplitF.totbins = a.totbins := by
      unfold SplitAxis.totbins BinAxis.totbins BinAxis.asSplitF
      simp [BinAxis.edgesF]
    have hnn : ∀ (keys : List BinLabel) (v : Num) (r : Option ℤ) (k : ℕ), IndexCorrect keys v r → (r.map Int.toNat = some k ↔ r = some (k : ℤ)) := by
      intro keys v r k hr
      cases r with
      | none => simp
      | some z =>
        have := hr.1
        simp only [Option.map_some, Option.some.injEq]
        omega
    -- where a value is counted
    have hbidx : ∀ (v : Num) (i : ℕ), (FixedAxis.split b').holds i (.num v) = true ↔ b'.index v = some (i : ℤ) := by
      intro v i
      have hcor := C03_split_fill_matches_keys _ _ _ _ _ b' hb v
      rw [← hnn _ v _ i hcor]
      exact (holds_iff (.split b') (.num v) _ (fun l hl => Val.in_iv l _ (SplitAxis.keys_not_bool _ l hl)) hcor i).symm
    have hsidx : ∀ v ∈ bs.flatten, ∀ k : ℕ, (FixedAxis.split a.asSplitF).holds k (.num v) = true ↔ a.indexF v = .ok (some (k : ℤ)) := by
      intro v hvm k
      obtain ⟨r, hr, hcor⟩ := h.clear_index hM.1 hM.2 (hv v hvm)
      rw [hr, Except.ok.injEq, ← hnn _ v _ k hcor]
      exact (holds_iff (.split a.asSplitF) (.num v) _ (fun l hl => Val.in_iv l _ (SplitAxis.keys_not_bool _ l hl)) hcor k).symm
    have hcount : ∀ i < b'.totbins, (rebinSums (rebinRanges a.asSplitF b') b'.totbins c)[i]? =
        some ((bs.flatten.countP fun v => b'.index v = some (i : ℤ) : ℕ) : ℚ) := by
      intro i hi
      set R := List.range' ((rebinRanges a.asSplitF b').getD i (0, 0)).1
        (((rebinRanges a.asSplitF b').getD i (0, 0)).2 - ((rebinRanges a.asSplitF b').getD i (0, 0)).1) with hR
      have h1 : (rebinSums (rebinRanges a.asSplitF b') b'.totbins c)[i]? = some (sumF 0 (R.map fun k => c.getD k 0)) := by
        unfold rebinSums
        rw [List.getElem?_map, List.getElem?_range hi]
        rfl
      let f : Num → Option ℕ := fun v => match a.indexF v with
        | .ok (some z) => if 0 ≤ z then some z.toNat else none
        | _ => none
      have hf : ∀ (v : Num) (k : ℕ), (decide (a.indexF v = .ok (some (k : ℤ)))) = decide (f v = some k) := by
        intro v k
        simp only [f, decide_eq_decide]
        cases a.indexF v with
        | error e => simp
        | ok r =>
          cases r with
          | none => simp
          | some z =>
            simp only [Except.ok.injEq, Option.some.injEq]
            split_ifs with hz
            · simp only [Option.some.injEq]; omega
            · simp only [reduceCtorEq, iff_false]; omega
      have h2 : (R.map fun k => c.getD k 0) = (R.map fun k => bs.flatten.countP fun v => decide (f v = some k)).map fun n : ℕ => (n : ℚ) := by
        rw [List.map_map]
        refine List.map_congr_left fun k hk => ?_
        have hk' : k < a.totbins := by
          have := hrec.lt i hi k hk
          rw [← htoteq]; exact this
        rw [List.getD_eq_getElem?_getD, hcget k hk']
        simp only [Option.getD_some, Function.comp]
        congr 1
        exact List.countP_congr fun v _ => by rw [hf v k]
      have h3 := countP_bins R (hrec.nodup i) f bs.flatten
      have h4 : (bs.flatten.countP fun v => R.any fun k => decide (f v = some k)) = bs.flatten.countP fun v => b'.index v = some (i : ℤ) := by
        refine List.countP_congr fun v hvm => ?_
        have h5 := hrec.holds (.num v) trivial (hhs _).sound i hi
        rw [Bool.and_true] at h5
        rw [decide_eq_true_eq, ← hbidx v i, h5, List.any_eq_true, List.any_eq_true]
        refine exists_congr fun k => and_congr_right fun _ => ?_
        rw [hsidx v hvm k, ← hf v k, decide_eq_true_eq]
      rw [h1, h2, sumF_counts, h3, h4]
      rw [h3]
      exact List.countP_le_length.trans hn
    refine ⟨c, _, hc, hd, by rw [hlen]; simp [rebinSums], fun i hi => ⟨hcount i hi, b'.keys[i]'(by omega), by simp, ?_⟩⟩
    rw [hcount i hi]
    congr 2
    refine List.countP_congr fun v _ => ?_
    have hcor := C03_split_fill_matches_keys _ _ _ _ _ b' hb v
    rw [decide_eq_true_eq, decide_eq_true_eq]
    constructor
    · intro hidx
      rw [hidx] at hcor
      obtain ⟨-, ⟨k, hk, hm⟩, -⟩ := hcor
      rw [Int.toNat_natCast] at hk
      obtain ⟨_, rfl⟩ := List.getElem?_eq_some_iff.1 hk
      exact hm
    · intro hm
      cases hidx : b'.index v with
      | none => rw [hidx] at hcor; exact absurd hm (hcor _ (List.getElem_mem _))
      | some z =>
        rw [hidx] at hcor
        rw [hcor.2.2 i _ (List.getElem?_eq_getElem _) hm]

/-- Ten bins from 0.1 to 0.9, joined at an edge in the middle. -/
example : ∃ c d, (decimalBin 10 (1 / 10) (9 / 10)).fillAllF (decimalBin 10 (1 / 10) (9 / 10)).zerosF
      ([[.fin (33 / 64), .nan], [.ninf]].map (fun b => b.map (fun v => (v, 1)))) = .ok c ∧
    (decimalBin 10 (1 / 10) (9 / 10)).rebinF [rne (1 / 10), (decimalBin 10 (1 / 10) (9 / 10)).i2xF 4, rne (9 / 10)] c =
      .ok (⟨[rne (1 / 10), (decimalBin 10 (1 / 10) (9 / 10)).i2xF 4, rne (9 / 10)], true, true, true, true⟩, d) ∧ d[2]? = some 1 := by
  obtain ⟨c, d, h1, h2, -, h3⟩ := C121_counts_partial _ tenth_ordinary 1 ⟨by decide +kernel, by decide +kernel⟩ (by decide +kernel) [[.fin (33 / 64), .nan], [.ninf]] (by decide)
    (by
      intro v hv
      simp only [List.flatten_cons, List.flatten_nil, List.append_nil, List.cons_append, List.nil_append, List.mem_cons, List.not_mem_nil, or_false] at hv
      rcases hv with rfl | rfl | rfl
      · exact Or.inr (Or.inr ⟨_, rfl, ⟨33, -6, by decide, by decide, by norm_num⟩, by decide +kernel, by decide +kernel, by decide +kernel⟩)
      · exact Or.inl rfl
      · exact Or.inr (Or.inl rfl))
    [rne (1 / 10), (decimalBin 10 (1 / 10) (9 / 10)).i2xF 4, rne (9 / 10)]
    ⟨[rne (1 / 10), (decimalBin 10 (1 / 10) (9 / 10)).i2xF 4, rne (9 / 10)], true, true, true, true⟩ (by decide +kernel)
    (by
      intro e he
      simp only [List.mem_cons, List.not_mem_nil, or_false] at he
      rcases he with rfl | rfl | rfl
      · exact Or.inr ⟨0, by decide, by decide +kernel⟩
      · exact Or.inr ⟨4, by decide, rfl⟩
      · exact Or.inl rfl)
  refine ⟨c, d, h1, h2, ?_⟩
  rw [(h3 2 (by decide +kernel)).1]
  decide +kernel

example : (decimalBin 2 0 1).rebinF [0, 1] [0, 2, 1, 1, 1] = .ok (⟨[0, 1], true, true, true, true⟩, [0, 3, 1, 1]) := by decide +kernel

/-- An edge that is one of the axis in exact arithmetic can be refused: `bin("x", 30, 0, 3)` has an edge at 3/10, but rebinning at 0.3 is a `ValueError`. -/
theorem C121_refuted_edge :
    (decimalBin 30 0 3).i2x 3 = 3 / 10 ∧ rne (3 / 10) ∉ (decimalBin 30 0 3).edgesF ∧
      ∀ c, (decimalBin 30 0 3).rebinF [0, rne (3 / 10), 3] c = .error .valueError := by
  refine ⟨by decide +kernel, by decide +kernel, fun c => ?_⟩
  have hs : (decimalBin 30 0 3).splitF = .ok (decimalBin 30 0 3).asSplitF := by decide +kernel
  have hr : (decimalBin 30 0 3).asSplitF.rebinned [0, rne (3 / 10), 3] = .error .valueError := by decide +kernel
  unfold BinAxis.rebinF
  rw [hs]
  simp only
  rw [hr]

/-- On an edge, rebinning and filling the new axis differ: on `bin("x", 100, 0, 1)` rebinned to `[0, 0.29, 1]` the value 0.29 is in the first bin, on
`split("x", [0, 0.29, 1])` in the second. -/
theorem C121_refuted_value :
    (decimalBin 100 0 1).fillF (decimalBin 100 0 1).zerosF [(.fin (rne (29 / 100)), 1)] = .ok ((decimalBin 100 0 1).zerosF.set 29 1) ∧
      (decimalBin 100 0 1).rebinF [0, rne (29 / 100), 1] ((decimalBin 100 0 1).zerosF.set 29 1) =
        .ok (⟨[0, rne (29 / 100), 1], true, true, true, true⟩, [0, 1, 0, 0, 0]) ∧
      (⟨[0, rne (29 / 100), 1], true, true, true, true⟩ : SplitAxis).index (.fin (rne (29 / 100))) = some 2 := by
  refine ⟨by decide +kernel, by decide +kernel, by decide +kernel⟩

end Verif
