import Verif.PropsShare
import Verif.PropsGroupSel

/-!
# The entries beyond the integers of an intbin axis cannot be selected

`C130_refuted_intbin` shows this for one histogram; here it is for every content and axis.
-/

namespace Verif

/-- C130 is violated on every intbin axis with a bin for smaller numbers: `n >= min` is accepted, the opposite `n < min` is refused, and the
entries of that bin are missing in the former. -/
theorem C130_refuted_intbin_below (H : HistDef) (s : H.State) (hs : H.Proper s) (j : ℕ) (a : IntbinAxis) (hj : H.fixed[j]? = some (.intbin a))
    (hr : a.min ≤ a.max) (hu : a.underflow = true) (tol : ℚ) (ht : 0 < tol) :
    H.select j .lt (.fin a.min) tol s = .error .valueError ∧
    ∃ (H1 : HistDef) (s1 : H1.State), H.select j .ge (.fin a.min) tol s = .ok ⟨H1, s1⟩ ∧
      ∀ (gk : List Key) (idx : List ℕ) (col : ℕ), H.read s gk (idx.set j 0) col + H1.across s1 j gk idx col = H.across s j gk idx col := by
  have hrq : (a.min : ℚ) ≤ a.max := by exact_mod_cast hr
  have n1 : ¬ ((a.min : ℚ) + tol < a.min) := by linarith
  have n2 : ¬ ((a.min : ℚ) - tol > a.max) := by linarith
  have n3 : |(a.min : ℚ) - (a.min : ℤ)| < tol := by simpa using ht
  constructor
  · have e : a.select .lt (.fin a.min) tol = .error .valueError := by
      simp only [IntbinAxis.select, pyRound_int, if_neg n1, if_neg n2, if_pos n3, IntbinAxis.checkSel]
      rw [if_pos (by simp)]
    unfold HistDef.select
    rw [hj]
    simp only [FixedAxis.select, e]
    rfl
  · have e : a.select .ge (.fin a.min) tol = .ok (.cut { a with underflow := false } ⟨1, none⟩) := by
      simp only [IntbinAxis.select, pyRound_int, if_neg n1, if_neg n2, if_pos n3, IntbinAxis.checkSel]
      rw [if_neg (by simpa using hr)]
      simp [hu, b2i]
    refine ⟨H.setFixed j (.intbin { a with underflow := false }), H.sliced j (.intbin { a with underflow := false }) ⟨1, none⟩ s, ?_, ?_⟩
    · unfold HistDef.select
      rw [hj]
      simp only [FixedAxis.select, e]
      rfl
    · intro gk idx col
      rw [across_sliced H s hs j (.intbin a) _ hj]
      have hn : FixedAxis.totbins (.intbin { a with underflow := false }) + 1 = FixedAxis.totbins (.intbin a) := by
        cases ho : a.overflow <;> simp [FixedAxis.totbins, IntbinAxis.totbins, IntbinAxis.numbins, b2i, hu, ho] <;> omega
      have hl : PySlice.lo ⟨1, none⟩ (FixedAxis.totbins (.intbin a)) = 1 := by
        rw [← hn]; simp [PySlice.lo, sliceBound]
      have := share_parts H s j (.intbin a) hj 1 (FixedAxis.totbins (.intbin { a with underflow := false }))
        (by rw [← hn]; simp [FixedAxis.nanBin, b2n]) gk idx col
      rw [← this, hl]
      simp [HistDef.nanEntry, hj, FixedAxis.nanBin]

/-- C130 is violated on every intbin axis with a bin for greater numbers: `n <= max` is accepted, the opposite `n > max` is refused, and the
entries of that bin are missing in the former. -/
theorem C130_refuted_intbin_above (H : HistDef) (s : H.State) (hs : H.Proper s) (j : ℕ) (a : IntbinAxis) (hj : H.fixed[j]? = some (.intbin a))
    (hr : a.min ≤ a.max) (hu : a.overflow = true) (tol : ℚ) (ht : 0 < tol) :
    H.select j .gt (.fin a.max) tol s = .error .valueError ∧
    ∃ (H1 : HistDef) (s1 : H1.State), H.select j .le (.fin a.max) tol s = .ok ⟨H1, s1⟩ ∧
      ∀ (gk : List Key) (idx : List ℕ) (col : ℕ),
        H1.across s1 j gk idx col + H.read s gk (idx.set j (a.totbins.toNat - 1)) col = H.across s j gk idx col := by
  have hrq : (a.min : ℚ) ≤ a.max := by exact_mod_cast hr
  have n1 : ¬ ((a.max : ℚ) + tol < a.min) := by linarith
  have n2 : ¬ ((a.max : ℚ) - tol > a.max) := by linarith
  have n3 : |(a.max : ℚ) - (a.max : ℤ)| < tol := by simpa using ht
  constructor
  · have e : a.select .gt (.fin a.max) tol = .error .valueError := by
      simp only [IntbinAxis.select, pyRound_int, if_neg n1, if_neg n2, if_pos n3, IntbinAxis.checkSel]
      rw [if_pos (by simp)]
    unfold HistDef.select
    rw [hj]
    simp only [FixedAxis.select, e]
    rfl
  · have e : a.select .le (.fin a.max) tol = .ok (.cut { a with overflow := false } ⟨0, some (a.max - a.min + b2i a.underflow + 1)⟩) := by
      simp only [IntbinAxis.select, pyRound_int, if_neg n1, if_neg n2, if_pos n3, IntbinAxis.checkSel]
      rw [if_neg (by simpa using hr)]
    refine ⟨H.setFixed j (.intbin { a with overflow := false }),
      H.sliced j (.intbin { a with overflow := false }) ⟨0, some (a.max - a.min + b2i a.underflow + 1)⟩ s, ?_, ?_⟩
    · unfold HistDef.select
      rw [hj]
      simp only [FixedAxis.select, e]
      rfl
    · intro gk idx col
      rw [across_sliced H s hs j (.intbin a) _ hj]
      have hn : FixedAxis.totbins (.intbin { a with overflow := false }) + 1 = FixedAxis.totbins (.intbin a) := by
        cases ho : a.underflow <;> simp [FixedAxis.totbins, IntbinAxis.totbins, IntbinAxis.numbins, b2i, hu, ho] <;> omega
      have hl : PySlice.lo ⟨0, some (a.max - a.min + b2i a.underflow + 1)⟩ (FixedAxis.totbins (.intbin a)) = 0 := by
        simp [PySlice.lo, sliceBound]
      have he : a.totbins.toNat = FixedAxis.totbins (.intbin a) := rfl
      rw [hl, he, ← hn]
      unfold HistDef.across
      rw [hj]
      simp only [Option.map_some, Option.getD_some]
      rw [← hn, List.range_succ, List.map_append, List.sum_append]
      simp

/-- One entry below and one above the integers 1 to 3, and two inside. -/
example : ∃ (H : HistDef) (s : H.State) (a : IntbinAxis), H.Proper s ∧ H.fixed[0]? = some (.intbin a) ∧ a.min ≤ a.max ∧ a.underflow = true ∧
    a.overflow = true ∧ H.read s [] [0] 0 = 1 ∧ H.read s [] [4] 0 = 1 ∧ H.across s 0 [] [0] 0 = 4 :=
  ⟨⟨[], [.intbin ⟨1, 3, true, true⟩], 0, .none⟩,
    some (⟨[5], 1, fun idx _ => if idx = [0] then 1 else if idx = [2] then 2 else if idx = [4] then 1 else 0⟩ : Arr), ⟨1, 3, true, true⟩,
    ⟨⟨rfl, rfl⟩, trivial⟩, rfl, by decide, rfl, rfl, by decide +kernel, by decide +kernel, by decide +kernel⟩

end Verif
