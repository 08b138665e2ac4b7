import Verif.Share
import Verif.PropsSelect

/-!
# Selecting NaN (C38)

`_select` of `bin` and `split` axes with `== nan` (axis.py 714-719, 1235-1240) returns the slice of the NaN bin together with an axis
that has everything but the NaN bin.  `C38_eq_nan_refuted` is one example; here it is shown for all axes and contents.
-/

namespace Verif

/-- The leaf of a group before and after a change of all leaves. -/
theorem leaf_shapes (f : Arr → Arr) (L L' : Layout) : ∀ (n : ℕ) (c : Content Arr n) (gk : List Key), gk.length = n → HasGroup n c gk →
    Shaped L n c → Shaped L' n (mapLeaves f n c) → ∃ x : Arr, x.shape = L.dims ∧ (f x).shape = L'.dims
  | 0, (a : Arr), _, _, _, h, h' => ⟨a, h.1, h'.1⟩
  | n + 1, (d : List (Key × Content Arr n)), gk, hl, hg, h, h' => by
    cases gk with
    | nil => simp at hl
    | cons k gk =>
      obtain ⟨c, hc, hg⟩ := hg
      refine leaf_shapes f L L' n c gk (by simpa using hl) hg (h k c hc) ?_
      refine h' k _ ?_
      show dget (d.map fun p => (p.1, mapLeaves f n p.2)) k = _
      rw [dget_map (fun _ c => mapLeaves f n c) d k, hc]
      rfl

/-- The slice for `== nan`. -/
def NanCut (a a' : FixedAxis) (t : PySlice) : Prop :=
  a'.keys = a.keys.filter (· ≠ .nan) ∧ a'.totbins + b2n a.nanBin = a.totbins ∧ t.lo a.totbins = a'.totbins ∧ t.hi a.totbins = a.totbins

theorem flowKeys_noNan (e : ℕ → ℚ) (n : ℕ) (u o na cl : Bool) : flowKeys e n u o false cl = (flowKeys e n u o na cl).filter (· ≠ .nan) := by
  unfold flowKeys
  rw [List.filter_append, List.filter_append, List.filter_append]
  congr 1
  · congr 1
    · congr 1
      · cases u <;> simp
      · rw [List.filter_eq_self.2]
        intro l hl
        obtain ⟨i, _, rfl⟩ := List.mem_map.1 hl
        simp
    · cases o <;> simp
  · cases na <;> simp

theorem bin_eq_nan (a : BinAxis) (hn : 0 < a.numbins) (tol : ℚ) (a' : BinAxis) (t : PySlice) (h : a.select .eq .nan tol = .ok (.cut a' t)) :
    NanCut (.bin a) (.bin a') t := by
  have hcast : (a.numbins : ℤ) + b2i a.underflow + b2i a.overflow = ((a.numbins + b2n a.underflow + b2n a.overflow : ℕ) : ℤ) := by
    push_cast [b2i_cast]; ring
  unfold BinAxis.select checktot at h
  simp only [reduceCtorEq, and_false, and_self, or_self, if_false, if_true] at h
  split at h
  · cases h
  · simp only [Except.ok.injEq, SelRes.cut.injEq] at h
    obtain ⟨rfl, rfl⟩ := h
    refine ⟨?_, ?_, ?_, ?_⟩
    · refine (BinAxis.keys_eq { a with nanflow := false } hn).trans ?_
      refine (flowKeys_noNan _ _ _ _ a.nanflow _).trans ?_
      exact congrArg _ (BinAxis.keys_eq a hn).symm
    · rfl
    · show sliceBound _ _ = _
      rw [hcast, sliceBound_nat]
      simp [FixedAxis.totbins, BinAxis.totbins, b2n]
    · show sliceBound _ _ = _
      rw [hcast, show ((a.numbins + b2n a.underflow + b2n a.overflow : ℕ) : ℤ) + 1 = ((a.numbins + b2n a.underflow + b2n a.overflow + 1 : ℕ) : ℤ) by push_cast; ring,
        sliceBound_nat]
      have : b2n a.nanflow ≤ 1 := by cases a.nanflow <;> simp [b2n]
      simp only [FixedAxis.totbins, BinAxis.totbins]
      omega

theorem split_eq_nan (a : SplitAxis) (hn : a.edges ≠ []) (tol : ℚ) (a' : SplitAxis) (t : PySlice) (h : a.select .eq .nan tol = .ok (.cut a' t)) :
    NanCut (.split a) (.split a') t := by
  have hl : 0 < a.edges.length := List.length_pos_of_ne_nil hn
  have hcast : (a.edges.length : ℤ) - 1 + b2i a.underflow + b2i a.overflow = (((a.edges.length - 1) + b2n a.underflow + b2n a.overflow : ℕ) : ℤ) := by
    push_cast [b2i_cast, Nat.cast_sub hl]; ring
  unfold SplitAxis.select checktot at h
  simp only [reduceCtorEq, and_false, and_self, or_self, if_false, if_true] at h
  split at h
  · cases h
  · simp only [Except.ok.injEq, SelRes.cut.injEq] at h
    obtain ⟨rfl, rfl⟩ := h
    refine ⟨?_, ?_, ?_, ?_⟩
    · refine (SplitAxis.keys_eq { a with nanflow := false } hn).trans ?_
      refine (flowKeys_noNan _ _ _ _ a.nanflow _).trans ?_
      exact congrArg _ (SplitAxis.keys_eq a hn).symm
    · rfl
    · show sliceBound _ _ = _
      rw [hcast, sliceBound_nat]
      simp [FixedAxis.totbins, SplitAxis.totbins, b2n]
    · show sliceBound _ _ = _
      rw [hcast, show (((a.edges.length - 1) + b2n a.underflow + b2n a.overflow : ℕ) : ℤ) + 1 = (((a.edges.length - 1) + b2n a.underflow + b2n a.overflow + 1 : ℕ) : ℤ) by push_cast; ring,
        sliceBound_nat]
      have : b2n a.nanflow ≤ 1 := by cases a.nanflow <;> simp [b2n]
      simp only [FixedAxis.totbins, SplitAxis.totbins]
      omega

/-- **C38** fails for `x == nan` on every `bin` and `split` axis and for every content: the new axis has all bins but the one for NaN; what is
read at its first bin is the content of the old bin for NaN (if there is one); and the array has not the shape that its axes say, whenever there is
content, unless the axis has just one bin besides that for NaN. -/
theorem C38_eq_nan_refuted_always (H : HistDef) (s : H.State) (hs : H.Proper s) (j : ℕ) (a : FixedAxis) (hj : H.fixed[j]? = some a)
    (ha : (∃ b, a = .bin b ∧ 0 < b.numbins) ∨ ∃ b, a = .split b ∧ b.edges ≠ []) (tol : ℚ) (r : Σ H' : HistDef, H'.State)
    (hr : H.select j .eq .nan tol s = .ok r) :
    ∃ a' s', r = ⟨H.setFixed j a', s'⟩ ∧ a'.keys = a.keys.filter (· ≠ .nan) ∧
      (a.nanBin = true → ∀ (gk : List Key) (idx : List ℕ) (col : ℕ), (H.setFixed j a').read s' gk (idx.set j 0) col = H.read s gk (idx.set j (a.totbins - 1)) col) ∧
      ∀ gk : List Key, gk.length = H.groups.length → H.has s gk → ¬ (a.nanBin = true ∧ a.totbins = 2) → 0 < a'.totbins → ¬ (H.setFixed j a').Good s' := by
  obtain ⟨a', t, h1, rfl⟩ := select_ok hj hr
  have hk : NanCut a a' t := by
    rcases ha with ⟨b, rfl, hb⟩ | ⟨b, rfl, hb⟩
    · obtain ⟨b', h2, rfl⟩ := map_cut h1
      exact bin_eq_nan b hb tol b' t h2
    · obtain ⟨b', h2, rfl⟩ := map_cut h1
      exact split_eq_nan b hb tol b' t h2
  obtain ⟨k1, k2, k3, k4⟩ := hk
  refine ⟨a', _, rfl, k1, ?_, ?_⟩
  · intro hn gk idx col
    rw [read_sliced H s hs j a a' hj, set_add, k3, Nat.zero_add]
    rw [hn] at k2
    simp only [b2n, if_true] at k2
    rw [show a.totbins - 1 = a'.totbins by omega]
  · intro gk hl hg hne hpos hgood
    cases s with
    | none => exact hg
    | some c =>
      obtain ⟨x, e1, e2⟩ := leaf_shapes (Arr.slice j t) H.layout (H.setFixed j a').layout H.groups.length c gk hl hg hs.1 hgood
      have e1' : x.shape = H.fixed.map FixedAxis.totbins := e1
      have e2' : (Arr.slice j t x).shape = (H.fixed.set j a').map FixedAxis.totbins := e2
      have hx : x.shape.getD j 0 = a.totbins := by
        rw [e1', List.getD, List.getElem?_map, hj]
        rfl
      rw [e1'] at hx
      have hjl : j < H.fixed.length := (List.getElem?_eq_some_iff.1 hj).1
      have := congrArg (fun l => l[j]?) e2'
      simp only [Arr.slice, e1', hx, k3, k4, List.map_set, List.getElem?_set, List.length_map, hjl, if_true, Option.some.injEq] at this
      apply hne
      cases hb : a.nanBin
      · rw [hb] at k2
        simp only [b2n, Bool.false_eq_true, if_false] at k2
        omega
      · rw [hb] at k2
        simp only [b2n, if_true] at k2
        exact ⟨rfl, by omega⟩

/-- The hypotheses are met, with two bins, underflow and overflow: the content is two entries of NaN in an array of length one, the axis has four bins. -/
example : selectDemo (.bin ⟨2, 0, 2, true, true, true, true⟩) [.num (.fin 1), .num .nan, .num .nan] .eq .nan (1 / 1000)
    = .ok ([.bin ⟨2, 0, 2, true, true, false, true⟩], [2]) ∧ (FixedAxis.bin ⟨2, 0, 2, true, true, true, true⟩).totbins = 5 ∧
    (FixedAxis.bin ⟨2, 0, 2, true, true, false, true⟩).totbins = 4 := by decide +kernel

end Verif
