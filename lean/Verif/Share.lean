import Verif.PropsOrderGroup
import Verif.PropsSelect

/-! # Lemmas about selections as positions on an axis (helpers for the property theorems) -/

namespace Verif

theorem sum_range_add (f : ℕ → ℚ) (m n : ℕ) :
    ((List.range (m + n)).map f).sum = ((List.range m).map f).sum + ((List.range n).map fun k => f (k + m)).sum := by
  rw [List.range_add, List.map_append, List.sum_append, List.map_map]
  congr 2
  exact List.map_congr_left fun k _ => by simp [Nat.add_comm]

theorem set_add (idx : List ℕ) (j k n : ℕ) : (idx.set j k).set j ((idx.set j k).getD j 0 + n) = idx.set j (k + n) := by
  rw [List.set_set]
  by_cases h : j < idx.length
  · congr 2
    simp [List.getD, h]
  · rw [List.set_eq_of_length_le (by omega), List.set_eq_of_length_le (by omega)]

theorem read_sliced (H : HistDef) (s : H.State) (hs : H.Proper s) (j : ℕ) (a a' : FixedAxis) (hj : H.fixed[j]? = some a) (t : PySlice)
    (gk : List Key) (idx : List ℕ) (col : ℕ) :
    (H.setFixed j a').read (H.sliced j a' t s) gk idx col = H.read s gk (idx.set j (idx.getD j 0 + t.lo a.totbins)) col := by
  cases s with
  | none => rfl
  | some c =>
    let F : Arr → Arr := fun x => ⟨x.shape.set j (t.hi a.totbins - t.lo a.totbins), x.ncols,
      fun idx c => x.get (idx.set j (idx.getD j 0 + t.lo a.totbins)) c⟩
    have e : mapLeaves (Arr.slice j t) H.groups.length c = mapLeaves F H.groups.length c := by
      refine mapLeaves_congr _ _ H.layout.dims H.layout.ncols (fun x hx _ => ?_) _ c (uniform_of_shaped H.layout _ c hs.2 hs.1)
      have hx' : x.shape = H.fixed.map FixedAxis.totbins := hx
      have hg : x.shape.getD j 0 = a.totbins := by
        rw [hx', List.getD, List.getElem?_map, hj]
        rfl
      unfold Arr.slice
      simp only [hg, F]
    show lookup H.groups.length (mapLeaves (Arr.slice j t) H.groups.length c) gk idx col = _
    rw [e]
    refine (mapLeaves_lookup F idx col H.groups.length c gk).trans ?_
    exact lookupF_get _ _ _ c gk

/-- the axis has a bin for NaN -/
def FixedAxis.nanBin : FixedAxis → Bool
  | .bin a => a.nanflow
  | .split a => a.nanflow
  | .intbin _ => false
  | .cut => false

/-- The axis is as constructors make it (with at least one ordinary bin), and the tolerance is at most half a bin. -/
def FixedAxis.Fine (tol : ℚ) : FixedAxis → Prop
  | .bin a => 0 < a.numbins ∧ a.low < a.high ∧ 2 * tol * a.numbins ≤ a.high - a.low
  | .split a => a.edges ≠ []
  | .intbin a => a.min ≤ a.max ∧ 2 * tol ≤ 1
  | .cut => True

/-- where an axis is cut by a comparison: the number of bins below -/
def FixedAxis.cutPos (c : Cmp) (v : ℚ) : FixedAxis → ℕ
  | .bin a => (pyRound ((v - a.low) * (a.numbins / (a.high - a.low)))).toNat + b2n a.underflow
  | .split a => ((nearestEdge v a.edges 0).map (·.2)).getD 0 + b2n a.underflow
  | .intbin a => ((if c = .lt ∨ c = .ge then pyRound v else pyRound v + 1) - a.min).toNat + b2n a.underflow
  | .cut => 0

/-- the new axis has the bins of the old one before, or after the place of the cut, and none for NaN -/
def CutAt (a a' : FixedAxis) (t : PySlice) (c : Cmp) (p : ℕ) : Prop :=
  p + b2n a.nanBin ≤ a.totbins ∧ (((c = .lt ∨ c = .le) ∧ t.lo a.totbins = 0 ∧ t.hi a.totbins = p ∧ a'.totbins = p) ∨
    ((c = .gt ∨ c = .ge) ∧ t.lo a.totbins = p ∧ t.hi a.totbins = a.totbins - b2n a.nanBin ∧ a'.totbins + p + b2n a.nanBin = a.totbins))

theorem b2i_cast (b : Bool) : b2i b = (b2n b : ℤ) := by cases b <;> rfl

theorem select_cutAt (a : FixedAxis) (c : Cmp) (v tol : ℚ) (hf : a.Fine tol) (a' : FixedAxis) (t : PySlice)
    (h : a.select c (.fin v) tol = .ok (.cut a' t)) : CutAt a a' t c (a.cutPos c v) := by
  cases a with
  | cut => cases h
  | bin a =>
    obtain ⟨b, hsel, rfl⟩ := map_cut h
    replace h := hsel
    obtain ⟨hn, hlh, htol⟩ := hf
    have hd : a.high - a.low ≠ 0 := by intro h; linarith
    have hN : (a.numbins : ℚ) ≠ 0 := by exact_mod_cast (by omega : a.numbins ≠ 0)
    have hs : (a.numbins : ℚ) / (a.high - a.low) ≠ 0 := div_ne_zero hN hd
    unfold BinAxis.select at h
    simp only [reduceCtorEq, false_and, or_self, if_false, hd, hs] at h
    split at h
    · rename_i hclose
      obtain ⟨m, hm, hz, hcl⟩ := bin_edge a hn hlh v tol htol _ rfl hclose
      have hp : (FixedAxis.bin a).cutPos c v = m + b2n a.underflow := by
        simp only [FixedAxis.cutPos, hz, Int.toNat_natCast]
      rw [hp]
      rw [hz] at h
      unfold checktot at h
      split at h
      · rename_i hcmp
        split at h
        · cases h
        · simp only [Except.ok.injEq, SelRes.cut.injEq] at h
          obtain ⟨rfl, rfl⟩ := h
          refine ⟨?_, Or.inl ⟨by rcases hcmp with ⟨_, h⟩ | ⟨_, h⟩ <;> simp [h], ?_, ?_, ?_⟩⟩
          · simp only [FixedAxis.totbins, BinAxis.totbins, FixedAxis.nanBin]; omega
          · simp [PySlice.lo, sliceBound]
          · rw [b2i_cast]
            simp only [PySlice.hi, sliceBound]
            rw [if_neg (by omega)]
            simp only [FixedAxis.totbins, BinAxis.totbins]
            omega
          · simp [FixedAxis.totbins, BinAxis.totbins, b2n]
      · split at h
        · rename_i hcmp
          split at h
          · cases h
          · simp only [Except.ok.injEq, SelRes.cut.injEq] at h
            obtain ⟨rfl, rfl⟩ := h
            refine ⟨?_, Or.inr ⟨by rcases hcmp with ⟨_, h⟩ | ⟨_, h⟩ <;> simp [h], ?_, ?_, ?_⟩⟩
            · simp only [FixedAxis.totbins, BinAxis.totbins, FixedAxis.nanBin]; omega
            · rw [b2i_cast]
              simp only [PySlice.lo, sliceBound]
              rw [if_neg (by omega)]
              simp only [FixedAxis.totbins, BinAxis.totbins]
              omega
            · rw [b2i_cast, b2i_cast]
              simp only [PySlice.hi, sliceBound]
              rw [if_neg (by omega)]
              simp only [FixedAxis.totbins, BinAxis.totbins, FixedAxis.nanBin]
              omega
            · simp only [FixedAxis.totbins, BinAxis.totbins, FixedAxis.nanBin]
              have h0 : b2n false = 0 := rfl
              omega
        · cases h
    · cases h
  | split a =>
    obtain ⟨b, hsel, rfl⟩ := map_cut h
    replace h := hsel
    unfold SplitAxis.select at h
    simp only [reduceCtorEq, false_and, or_self, if_false] at h
    split at h
    · cases h
    · rename_i x m hx
      obtain ⟨_, hm, _⟩ := nearestEdge_get v _ _ _ _ hx
      rw [Nat.sub_zero] at hm
      obtain ⟨hml, hmx⟩ := List.getElem?_eq_some_iff.1 hm
      have hp : (FixedAxis.split a).cutPos c v = m + b2n a.underflow := by
        simp only [FixedAxis.cutPos, hx, Option.map_some, Option.getD_some]
      rw [hp]
      split at h
      · unfold checktot at h
        split at h
        · rename_i hcmp
          split at h
          · cases h
          · simp only [Except.ok.injEq, SelRes.cut.injEq] at h
            obtain ⟨rfl, rfl⟩ := h
            refine ⟨?_, Or.inl ⟨by rcases hcmp with ⟨_, h⟩ | ⟨_, h⟩ <;> simp [h], ?_, ?_, ?_⟩⟩
            · simp only [FixedAxis.totbins, SplitAxis.totbins, FixedAxis.nanBin]; omega
            · simp [PySlice.lo, sliceBound]
            · rw [b2i_cast]
              simp only [PySlice.hi, sliceBound]
              rw [if_neg (by omega)]
              simp only [FixedAxis.totbins, SplitAxis.totbins]
              omega
            · simp only [FixedAxis.totbins, SplitAxis.totbins, List.length_take]
              have h0 : b2n false = 0 := rfl
              omega
        · split at h
          · rename_i hcmp
            split at h
            · cases h
            · simp only [Except.ok.injEq, SelRes.cut.injEq] at h
              obtain ⟨rfl, rfl⟩ := h
              refine ⟨?_, Or.inr ⟨by rcases hcmp with ⟨_, h⟩ | ⟨_, h⟩ <;> simp [h], ?_, ?_, ?_⟩⟩
              · simp only [FixedAxis.totbins, SplitAxis.totbins, FixedAxis.nanBin]; omega
              · rw [b2i_cast]
                simp only [PySlice.lo, sliceBound]
                rw [if_neg (by omega)]
                simp only [FixedAxis.totbins, SplitAxis.totbins]
                omega
              · rw [b2i_cast, b2i_cast]
                simp only [PySlice.hi, sliceBound, List.length_drop]
                rw [if_neg (by omega)]
                simp only [FixedAxis.totbins, SplitAxis.totbins, FixedAxis.nanBin]
                omega
              · simp only [FixedAxis.totbins, SplitAxis.totbins, FixedAxis.nanBin, List.length_drop]
                have h0 : b2n false = 0 := rfl
                omega
          · cases h
      · cases h
  | intbin a =>
    obtain ⟨b, hsel, rfl⟩ := map_cut h
    replace h := hsel
    obtain ⟨q, r, hq, h1, h2, _, _, _, _, _⟩ := int_select a c _ tol hf.2 b t h
    obtain ⟨hmm, htol⟩ := hf
    have hb : b2n a.underflow ≤ 1 := by cases a.underflow <;> simp [b2n]
    unfold IntbinAxis.select at h
    simp only at h
    split at h
    · cases h
    · rename_i hlo
      split at h
      · cases h
      · rename_i hhi
        split at h
        · rename_i hclose
          push Not at hlo hhi
          have hr1 : a.min ≤ pyRound v := by
            by_contra hn
            have : ((pyRound v : ℤ) : ℚ) ≤ a.min - 1 := by exact_mod_cast (by omega : pyRound v ≤ a.min - 1)
            rw [abs_lt] at hclose
            linarith [hclose.1, hclose.2]
          have hr2 : pyRound v ≤ a.max := by
            by_contra hn
            have : (a.max : ℚ) + 1 ≤ (pyRound v : ℤ) := by exact_mod_cast (by omega : a.max + 1 ≤ pyRound v)
            rw [abs_lt] at hclose
            linarith [hclose.1, hclose.2]
          have hT : (FixedAxis.intbin a).totbins = (a.max - a.min + 1).toNat + b2n a.underflow + b2n a.overflow := by
            simp only [FixedAxis.totbins, IntbinAxis.totbins, IntbinAxis.numbins, b2i_cast]
            omega
          unfold IntbinAxis.checkSel at h
          have h0 : b2n false = 0 := rfl
          cases c with
          | lt =>
            simp only at h
            split at h
            · cases h
            · simp only [Except.ok.injEq, SelRes.cut.injEq] at h
              obtain ⟨rfl, rfl⟩ := h
              unfold CutAt
              rw [hT]
              simp only [FixedAxis.cutPos, FixedAxis.nanBin, PySlice.lo, PySlice.hi, sliceBound, FixedAxis.totbins, IntbinAxis.totbins,
                IntbinAxis.numbins, b2i_cast, h0, true_or, if_true]
              refine ⟨by omega, Or.inl ⟨trivial, ?_, ?_, ?_⟩⟩
              · simp
              · rw [if_neg (by omega)]; omega
              · omega
          | le =>
            simp only at h
            split at h
            · cases h
            · simp only [Except.ok.injEq, SelRes.cut.injEq] at h
              obtain ⟨rfl, rfl⟩ := h
              unfold CutAt
              rw [hT]
              simp only [FixedAxis.cutPos, FixedAxis.nanBin, PySlice.lo, PySlice.hi, sliceBound, FixedAxis.totbins, IntbinAxis.totbins,
                IntbinAxis.numbins, b2i_cast, h0, reduceCtorEq, or_true, or_self, if_false]
              refine ⟨by omega, Or.inl ⟨trivial, ?_, ?_, ?_⟩⟩
              · simp
              · rw [if_neg (by omega)]; omega
              · omega
          | gt =>
            simp only at h
            split at h
            · cases h
            · simp only [Except.ok.injEq, SelRes.cut.injEq] at h
              obtain ⟨rfl, rfl⟩ := h
              unfold CutAt
              rw [hT]
              simp only [FixedAxis.cutPos, FixedAxis.nanBin, PySlice.lo, PySlice.hi, sliceBound, FixedAxis.totbins, IntbinAxis.totbins,
                IntbinAxis.numbins, b2i_cast, h0, reduceCtorEq, or_self, true_or, if_false]
              refine ⟨by omega, Or.inr ⟨trivial, ?_, ?_, ?_⟩⟩
              · rw [if_neg (by omega)]; omega
              · omega
              · omega
          | ge =>
            simp only at h
            split at h
            · cases h
            · simp only [Except.ok.injEq, SelRes.cut.injEq] at h
              obtain ⟨rfl, rfl⟩ := h
              unfold CutAt
              rw [hT]
              simp only [FixedAxis.cutPos, FixedAxis.nanBin, PySlice.lo, PySlice.hi, sliceBound, FixedAxis.totbins, IntbinAxis.totbins,
                IntbinAxis.numbins, b2i_cast, h0, or_true, if_true]
              refine ⟨by omega, Or.inr ⟨trivial, ?_, ?_, ?_⟩⟩
              · rw [if_neg (by omega)]; omega
              · omega
              · omega
          | eq => cases h
          | ne => cases h
          | isin => cases h
          | notin => cases h
        · cases h

end Verif
