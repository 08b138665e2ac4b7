import Verif.PropsFloatRebin
import Verif.PropsFloatMerge

/-!
# C121: rebinning with weights, with the machine's arithmetic
-/

namespace Verif

/-! ## Lemmas -/

/-- The old bins of which the new bin `i` is the sum. -/
def oldBins (s b : SplitAxis) (i : ℕ) : List ℕ :=
  List.range' ((rebinRanges s b).getD i (0, 0)).1 (((rebinRanges s b).getD i (0, 0)).2 - ((rebinRanges s b).getD i (0, 0)).1)

theorem rebinSums_get {s b : SplitAxis} {n i : ℕ} (hi : i < n) (c : List ℚ) :
    (rebinSums (rebinRanges s b) n c)[i]? = some (sumF 0 ((oldBins s b i).map fun k => c.getD k 0)) := by
  unfold rebinSums
  rw [List.getElem?_map, List.getElem?_range hi]
  rfl

/-- Which old bins make up a new one, and that the values of the new bin are those of the old ones. -/
theorem rebin_places (a : BinAxis) (h : a.Ordinary) (M : ℚ) (hM : |a.low| ≤ M ∧ |a.high| ≤ M) (hwide : M / 2 ^ 48 * a.numbins ≤ a.high - a.low)
    (new : List ℚ) (b : SplitAxis) (hb : SplitAxis.init new a.underflow a.overflow a.nanflow a.closedlow = .ok b)
    (hnew : ∀ e ∈ new, e = a.high ∨ ∃ i < a.numbins, e = a.i2xF i) :
    (∀ c, a.rebinF new c = .ok (b, rebinSums (rebinRanges a.asSplitF b) b.totbins c)) ∧ b.keys.length = b.totbins ∧
    ∀ i < b.totbins, (oldBins a.asSplitF b i).Nodup ∧ (∀ k ∈ oldBins a.asSplitF b i, k < a.totbins) ∧
      ∀ v, a.Clear M v → (b.index v = some (i : ℤ) ↔ ∃ k ∈ oldBins a.asSplitF b i, a.indexF v = .ok (some (k : ℤ))) := by
  obtain ⟨hs, hpw⟩ := h.splitF_ok hM.1 hM.2 hwide
  rw [show (⟨a.edgesF, a.underflow, a.overflow, a.nanflow, a.closedlow⟩ : SplitAxis) = a.asSplitF from rfl] at hs
  have hreb : a.asSplitF.rebinned new = .ok b := by
    obtain ⟨d, hd⟩ := ((C121_edges a h M hM hwide new []).1 b hb).1.2 hnew
    unfold BinAxis.rebinF at hd
    rw [hs] at hd
    simp only at hd
    cases hr : a.asSplitF.rebinned new with
    | error e => rw [hr] at hd; cases hd
    | ok b' =>
      rw [hr] at hd
      simp only [Except.ok.injEq, Prod.mk.injEq] at hd
      rw [hd.1]
  obtain ⟨hsub, -⟩ := rebinned_ok hreb
  obtain ⟨hgb, hperm, hu, ho, hna, hcl, htot⟩ := SplitAxis.init_ok hb
  have hga : a.asSplitF.Good := ⟨by simp [BinAxis.asSplitF, BinAxis.edgesF], hpw⟩
  have hhs : ∀ v : Val, (FixedAxis.split a.asSplitF).Handles v := handles_split a.edgesF _ _ _ _ _ hs
  have hhb : ∀ v : Val, (FixedAxis.split b).Handles v := handles_split _ _ _ _ _ b hb
  have hrec := rebin_recombines a.asSplitF b hga hgb (fun e he => hsub e (hperm.mem_iff.1 he)) (.split a.asSplitF) (fun _ => True)
    (fun _ _ _ => rfl) rfl hu ho hna hcl (fun v => (hhb v).sound)
  have htoteq : a.asSplitF.totbins = a.totbins := by
    unfold SplitAxis.totbins BinAxis.totbins BinAxis.asSplitF
    simp [BinAxis.edgesF]
  have hnn : ∀ (keys : List BinLabel) (v : Num) (r : Option ℤ) (k : ℕ), IndexCorrect keys v r → (r.map Int.toNat = some k ↔ r = some (k : ℤ)) := by
    intro keys v r k hr
    cases r with
    | none => simp
    | some z =>
      have := hr.1
      simp only [Option.map_some, Option.some.injEq]
      omega
  refine ⟨fun c => ?_, by rw [b.keys_eq hgb.1, flowKeys_length]; rfl, fun i hi => ⟨hrec.nodup i, fun k hk => ?_, fun v hv => ?_⟩⟩
  · unfold BinAxis.rebinF
    rw [hs]
    simp only
    rw [hreb]
  · rw [← htoteq]; exact hrec.lt i hi k hk
  · have hcor := C03_split_fill_matches_keys _ _ _ _ _ b hb v
    obtain ⟨r, hr, hcor'⟩ := h.clear_index hM.1 hM.2 hv
    rw [← hnn _ v _ i hcor, holds_iff (.split b) (.num v) _ (fun l hl => Val.in_iv l _ (SplitAxis.keys_not_bool _ l hl)) hcor i]
    have h5 := hrec.holds (.num v) trivial (hhs _).sound i hi
    rw [Bool.and_true] at h5
    rw [h5, List.any_eq_true]
    refine exists_congr fun k => and_congr_right fun _ => ?_
    rw [hr, Except.ok.injEq, ← hnn _ v _ k hcor']
    exact (holds_iff (.split a.asSplitF) (.num v) _ (fun l hl => Val.in_iv l _ (SplitAxis.keys_not_bool _ l hl)) hcor' k).symm

/-- Sums over disjoint parts. -/
theorem sum_filter_or {α : Type} (g : α → ℚ) (p q : α → Bool) : ∀ l : List α, (∀ x ∈ l, ¬ (p x = true ∧ q x = true)) →
    ((l.filter fun x => p x || q x).map g).sum = ((l.filter p).map g).sum + ((l.filter q).map g).sum
  | [], _ => by simp
  | x :: l, h => by
    have ih := sum_filter_or g p q l fun y hy => h y (by simp [hy])
    have hx := h x (by simp)
    cases hp : p x <;> cases hq : q x <;> simp_all [List.filter_cons] <;> ring

theorem sum_bins {α : Type} (g : α → ℚ) (f : α → ℕ → Bool) (l : List α) (hf : ∀ x ∈ l, ∀ j k, f x j = true → f x k = true → j = k) :
    ∀ R : List ℕ, R.Nodup → (R.map fun k => ((l.filter fun x => f x k).map g).sum).sum = ((l.filter fun x => R.any (f x)).map g).sum
  | [], _ => by simp
  | k :: R, hR => by
    have ih := sum_bins g f l hf R (List.nodup_cons.1 hR).2
    rw [List.map_cons, List.sum_cons, ih]
    have := sum_filter_or g (fun x => f x k) (fun x => R.any (f x)) l (by
      rintro x hx ⟨h1, h2⟩
      obtain ⟨j, hj, h3⟩ := List.any_eq_true.1 h2
      rw [hf x hx k j h1 h3] at hR
      exact (List.nodup_cons.1 hR).1 hj)
    rw [← this]
    rfl

/-- A sum of inexact sums. -/
theorem sumF_of_sums {ι : Type} (R : List ι) (x W A : ι → ℚ) (n : ι → ℕ) (N : ℕ) (hx : ∀ k ∈ R, IsF64 (x k)) (hn : ∀ k ∈ R, n k ≤ N)
    (he : ∀ k ∈ R, |x k - W k| ≤ growth (n k) * A k) (hW : ∀ k ∈ R, |W k| ≤ A k) :
    |sumF 0 (R.map x) - (R.map W).sum| ≤ growth (N + R.length) * (R.map A).sum := by
  have h1 := sumF_err (R.map x) 0 isF64_zero (by
    intro w hw
    obtain ⟨k, hk, rfl⟩ := List.mem_map.1 hw
    exact hx k hk)
  rw [zero_add, abs_zero, zero_add, List.length_map] at h1
  change _ ≤ growth R.length * _ at h1
  have h2 : ∀ L : List ι, (∀ k ∈ L, k ∈ R) → |(L.map x).sum - (L.map W).sum| ≤ growth N * (L.map A).sum ∧
      ((L.map x).map abs).sum ≤ (1 + growth N) * (L.map A).sum := by
    intro L
    induction L with
    | nil => intro _; simp
    | cons k L ih =>
      intro hL
      obtain ⟨i1, i2⟩ := ih fun j hj => hL j (by simp [hj])
      have hk := hL k (by simp)
      have hA : 0 ≤ A k := (abs_nonneg _).trans (hW k hk)
      have e1 : |x k - W k| ≤ growth N * A k := (he k hk).trans (mul_le_mul_of_nonneg_right (growth_mono (hn k hk)) hA)
      have e2 : |x k| ≤ |x k - W k| + |W k| := by
        have : x k = (x k - W k) + W k := by ring
        calc |x k| = |(x k - W k) + W k| := by rw [← this]
          _ ≤ _ := abs_add_le _ _
      simp only [List.map_cons, List.sum_cons]
      constructor
      · have : x k + (L.map x).sum - (W k + (L.map W).sum) = (x k - W k) + ((L.map x).sum - (L.map W).sum) := by ring
        rw [this, mul_add]
        exact (abs_add_le _ _).trans (add_le_add e1 i1)
      · have := hW k hk
        linarith
  obtain ⟨h3, h4⟩ := h2 R fun _ h => h
  have e : sumF 0 (R.map x) - (R.map W).sum = (sumF 0 (R.map x) - (R.map x).sum) + ((R.map x).sum - (R.map W).sum) := by ring
  rw [e, growth_add]
  have g1 := growth_nonneg R.length
  refine (abs_add_le _ _).trans ?_
  have h5 := mul_le_mul_of_nonneg_left h4 g1
  linarith

/-! ## C121 -/

/-- With weights, each new bin differs from the exact sum of the weights of its `n` values by no more than `(1 + 2^-53)^(n + m) - 1` of the sum of their
sizes, where `m` is at most the number of old bins, if no value is as close to an edge as `2^-48` of the largest number involved. -/
theorem C121_weights_partial (a : BinAxis) (h : a.Ordinary) (M : ℚ) (hM : |a.low| ≤ M ∧ |a.high| ≤ M)
    (hwide : M / 2 ^ 48 * a.numbins ≤ a.high - a.low) (bs : List (List (Num × ℚ))) (hw : ∀ r ∈ bs.flatten, IsF64 r.2)
    (hv : ∀ r ∈ bs.flatten, a.Clear M r.1) (new : List ℚ) (b : SplitAxis)
    (hb : SplitAxis.init new a.underflow a.overflow a.nanflow a.closedlow = .ok b) (hnew : ∀ e ∈ new, e = a.high ∨ ∃ i < a.numbins, e = a.i2xF i) :
    ∃ c d, a.fillAllF a.zerosF bs = .ok c ∧ a.rebinF new c = .ok (b, d) ∧ d.length = b.keys.length ∧
      ∀ i < b.totbins, ∃ k x, b.keys[i]? = some k ∧ d[i]? = some x ∧
        let ws := (bs.flatten.filter fun r => k.mem r.1).map (·.2)
        |x - ws.sum| ≤ ((1 + 1 / 2 ^ 53) ^ (ws.length + a.totbins) - 1) * (ws.map abs).sum := by
  obtain ⟨c, hc, -, hclen, hcget⟩ := C106_batches a h bs
  obtain ⟨hreb, hlen, hpl⟩ := rebin_places a h M hM hwide new b hb hnew
  refine ⟨c, _, hc, hreb c, by rw [hlen]; simp [rebinSums], fun i hi => ?_⟩
  obtain ⟨hnd, hlt, hidx⟩ := hpl i hi
  refine ⟨b.keys[i]'(by omega), _, by simp, rebinSums_get hi c, ?_⟩
  intro ws
  have hws : ws = (bs.flatten.filter fun r => (oldBins a.asSplitF b i).any fun k => a.indexF r.1 = .ok (some (k : ℤ))).map (·.2) := by
    simp only [ws]
    congr 1
    refine List.filter_congr fun r hr => ?_
    rw [Bool.eq_iff_iff, decide_eq_true_eq, List.any_eq_true]
    simp only [decide_eq_true_eq]
    rw [← hidx r.1 (hv r hr)]
    have hcor := C03_split_fill_matches_keys _ _ _ _ _ b hb r.1
    constructor
    · intro hm
      cases hix : b.index r.1 with
      | none => rw [hix] at hcor; exact absurd hm (hcor _ (List.getElem_mem _))
      | some z =>
        rw [hix] at hcor
        rw [hcor.2.2 i _ (List.getElem?_eq_getElem _) hm]
    · intro hix
      rw [hix] at hcor
      obtain ⟨-, ⟨k, hk, hm⟩, -⟩ := hcor
      rw [Int.toNat_natCast] at hk
      obtain ⟨_, rfl⟩ := List.getElem?_eq_some_iff.1 hk
      exact hm
  have hone : ∀ x ∈ bs.flatten, ∀ j k : ℕ, decide (a.indexF x.1 = .ok (some (j : ℤ))) = true → decide (a.indexF x.1 = .ok (some (k : ℤ))) = true → j = k := by
    intro x _ j k h1 h2
    rw [decide_eq_true_eq] at h1 h2
    rw [h1] at h2
    simpa using h2
  have hsum : ∀ g : Num × ℚ → ℚ, ((oldBins a.asSplitF b i).map fun k : ℕ => ((bs.flatten.filter fun r => a.indexF r.1 = .ok (some (k : ℤ))).map g).sum).sum =
      ((bs.flatten.filter fun r => (oldBins a.asSplitF b i).any fun k => a.indexF r.1 = .ok (some (k : ℤ))).map g).sum := fun g =>
    sum_bins g (fun r k => decide (a.indexF r.1 = .ok (some (k : ℤ)))) bs.flatten hone _ hnd
  have hR : (oldBins a.asSplitF b i).length ≤ a.totbins := by
    have := hnd.subperm (l₂ := List.range a.totbins) fun k hk => List.mem_range.2 (hlt k hk)
    simpa using this.length_le
  have hx : ((oldBins a.asSplitF b i).map fun k => c.getD k 0) = (oldBins a.asSplitF b i).map fun k => sumF 0 (a.weightsIn k bs.flatten) := by
    refine List.map_congr_left fun k hk => ?_
    rw [List.getD_eq_getElem?_getD, hcget k (hlt k hk)]
    rfl
  rw [hx]
  have key := sumF_of_sums (oldBins a.asSplitF b i) (fun k => sumF 0 (a.weightsIn k bs.flatten)) (fun k => (a.weightsIn k bs.flatten).sum)
    (fun k => ((a.weightsIn k bs.flatten).map abs).sum) (fun k => (a.weightsIn k bs.flatten).length) ws.length
    (fun k _ => sumF_isF64 _ _ isF64_zero) (fun k hk => ?_) (fun k _ => ?_) (fun k _ => abs_sum_le _)
  · have e1 : ((oldBins a.asSplitF b i).map fun k => (a.weightsIn k bs.flatten).sum).sum = ws.sum := by
      rw [hws]; exact hsum (·.2)
    have e2 : ((oldBins a.asSplitF b i).map fun k => ((a.weightsIn k bs.flatten).map abs).sum).sum = (ws.map abs).sum := by
      rw [hws, List.map_map, ← hsum]
      simp only [BinAxis.weightsIn, List.map_map]
    rw [e1, e2] at key
    refine key.trans ?_
    rw [← eps_eq]
    change _ ≤ growth _ * _
    exact mul_le_mul_of_nonneg_right (growth_mono (by omega)) (sum_abs_nonneg ws)
  · rw [hws]
    simp only [BinAxis.weightsIn, List.length_map, ← List.countP_eq_length_filter]
    refine List.countP_mono_left fun r _ hr => ?_
    exact List.any_eq_true.2 ⟨k, hk, hr⟩
  · have := sumF_err (a.weightsIn k bs.flatten) 0 isF64_zero (by
      intro w hwm
      obtain ⟨r, hr, rfl⟩ := List.mem_map.1 hwm
      exact hw r (List.mem_filter.1 hr).1)
    rw [zero_add, abs_zero, zero_add] at this
    exact this

/-- Ten bins from 0.1 to 0.9, joined at an edge in the middle. -/
example : ∃ c d, (decimalBin 10 (1 / 10) (9 / 10)).fillAllF (decimalBin 10 (1 / 10) (9 / 10)).zerosF
      [[(.fin (33 / 64), rne (1 / 10)), (.nan, 1)], [(.ninf, 2)]] = .ok c ∧
    (decimalBin 10 (1 / 10) (9 / 10)).rebinF [rne (1 / 10), (decimalBin 10 (1 / 10) (9 / 10)).i2xF 4, rne (9 / 10)] c =
      .ok (⟨[rne (1 / 10), (decimalBin 10 (1 / 10) (9 / 10)).i2xF 4, rne (9 / 10)], true, true, true, true⟩, d) ∧ d[2]? ≠ none := by
  obtain ⟨c, d, h1, h2, -, h3⟩ := C121_weights_partial _ tenth_ordinary 1 ⟨by decide +kernel, by decide +kernel⟩ (by decide +kernel)
    [[(.fin (33 / 64), rne (1 / 10)), (.nan, 1)], [(.ninf, 2)]]
    (by
      intro v hv
      simp only [List.flatten_cons, List.flatten_nil, List.append_nil, List.cons_append, List.nil_append, List.mem_cons, List.not_mem_nil, or_false] at hv
      rcases hv with rfl | rfl | rfl
      · exact rne_isF64 _
      · exact_mod_cast isF64_nat 1 (by norm_num)
      · exact_mod_cast isF64_nat 2 (by norm_num))
    (by
      intro v hv
      simp only [List.flatten_cons, List.flatten_nil, List.append_nil, List.cons_append, List.nil_append, List.mem_cons, List.not_mem_nil, or_false] at hv
      rcases hv with rfl | rfl | rfl
      · exact Or.inr (Or.inr ⟨_, rfl, ⟨33, -6, by decide, by decide, by norm_num⟩, by decide +kernel, by decide +kernel, by decide +kernel⟩)
      · exact Or.inl rfl
      · exact Or.inr (Or.inl rfl))
    [rne (1 / 10), (decimalBin 10 (1 / 10) (9 / 10)).i2xF 4, rne (9 / 10)]
    ⟨[rne (1 / 10), (decimalBin 10 (1 / 10) (9 / 10)).i2xF 4, rne (9 / 10)], true, true, true, true⟩ (by decide +kernel)
    (by
      intro e he
      simp only [List.mem_cons, List.not_mem_nil, or_false] at he
      rcases he with rfl | rfl | rfl
      · exact Or.inr ⟨0, by decide, by decide +kernel⟩
      · exact Or.inr ⟨4, by decide, rfl⟩
      · exact Or.inl rfl)
  obtain ⟨k, x, -, hx, -⟩ := h3 2 (by decide +kernel)
  exact ⟨c, d, h1, h2, by rw [hx]; simp⟩

end Verif
