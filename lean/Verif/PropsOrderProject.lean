import Verif.OrderProject

/-!
# Property C128, projections: a projection and an operation on an axis that is kept may be done in either order
-/

namespace Verif

/-- C128 for projections and selections (partial: the numbers of keys on the group axes that are projected away are as in C32).
A selection on a fixed axis that is kept and the projection can be made in either order: the definition is the same, and so are the
groups and all entries. -/
theorem C128_project_select_partial (H : HistDef) (s : H.State) (hs : H.Proper s) (kg kf : List Bool) (hkg : kg.length = H.groups.length)
    (hkf : kf.length = H.fixed.length) (ps : H.PowKeys kg s) (j : ℕ) (hk : kf[j]? = some true) (c : Cmp) (v : Num) (tol : ℚ)
    (H1 : HistDef) (s1 : H1.State) (h : H.select j c v tol s = .ok ⟨H1, s1⟩) :
    ∃ (s' : (H.project kg kf).State) (t' u' : (H1.project kg kf).State),
      H.projectState kg kf s = .ok ((H.project kg kf).toPV s') ∧ H1.projectState kg kf s1 = .ok ((H1.project kg kf).toPV t') ∧
      (H.project kg kf).select ((kf.take j).count true) c v tol s' = .ok ⟨H1.project kg kf, u'⟩ ∧
      ∀ gk, gk.length = (H1.project kg kf).groups.length → ((H1.project kg kf).has t' gk ↔ (H1.project kg kf).has u' gk) ∧
        ∀ idx col, (H1.project kg kf).read t' gk idx col = (H1.project kg kf).read u' gk idx col := by
  simp only [select_applyAt] at h ⊢
  refine project_applyAt H s hs kg kf hkg hkf ps j hk _ _ (selectOp (keptPos kf j) c v tol) (fun a a' f ha => ?_) H1 s1 h
  unfold selectOp at ha ⊢
  cases h4 : a.select c v tol with
  | error e => rw [h4] at ha; cases ha
  | ok r =>
    cases r with
    | no _ _ => rw [h4] at ha; cases ha
    | cut b t =>
      rw [h4] at ha
      cases ha
      exact ⟨_, rfl, linear_slice j t, fun _ => rfl, entrySums_slice _ _ t,
        fun x hx => sumAxes_slice kf j t x hk (by rw [hx, hkf]; exact (List.length_map ..).symm)⟩

/-- C128 for projections and `rebin` (partial as above). -/
theorem C128_project_rebin_partial (H : HistDef) (s : H.State) (hs : H.Proper s) (kg kf : List Bool) (hkg : kg.length = H.groups.length)
    (hkf : kf.length = H.fixed.length) (ps : H.PowKeys kg s) (j : ℕ) (hk : kf[j]? = some true) (edges : List ℚ)
    (H1 : HistDef) (s1 : H1.State) (h : H.rebin j edges s = .ok ⟨H1, s1⟩) :
    ∃ (s' : (H.project kg kf).State) (t' u' : (H1.project kg kf).State),
      H.projectState kg kf s = .ok ((H.project kg kf).toPV s') ∧ H1.projectState kg kf s1 = .ok ((H1.project kg kf).toPV t') ∧
      (H.project kg kf).rebin ((kf.take j).count true) edges s' = .ok ⟨H1.project kg kf, u'⟩ ∧
      ∀ gk, gk.length = (H1.project kg kf).groups.length → ((H1.project kg kf).has t' gk ↔ (H1.project kg kf).has u' gk) ∧
        ∀ idx col, (H1.project kg kf).read t' gk idx col = (H1.project kg kf).read u' gk idx col := by
  simp only [rebin_applyAt] at h ⊢
  refine project_applyAt H s hs kg kf hkg hkf ps j hk _ _ (rebinOp (keptPos kf j) edges) (fun a a' f ha => ?_) H1 s1 h
  unfold rebinOp at ha ⊢
  cases h3 : a.asSplit with
  | error e => rw [h3] at ha; cases ha
  | ok x =>
    rw [h3] at ha
    simp only at ha ⊢
    cases h4 : x.rebinned edges with
    | error e => rw [h4] at ha; cases ha
    | ok b =>
      rw [h4] at ha
      cases ha
      exact ⟨_, rfl, linear_rebin j _ _, fun _ => rfl, entrySums_rebin _ _ _ _,
        fun y hy => sumAxes_rebin kf j _ _ y hk (by rw [hy, hkf]; exact (List.length_map ..).symm)⟩

/-- C128 for projections that keep all group axes: nothing is missing. -/
theorem C128_project_fixed (H : HistDef) (s : H.State) (hs : H.Proper s) (kf : List Bool) (hkf : kf.length = H.fixed.length)
    (j : ℕ) (hk : kf[j]? = some true) :
    let kg := List.replicate H.groups.length true
    (∀ c v tol H1 s1, H.select j c v tol s = .ok ⟨H1, s1⟩ →
      ∃ (s' : (H.project kg kf).State) (t' u' : (H1.project kg kf).State),
        H.projectState kg kf s = .ok ((H.project kg kf).toPV s') ∧ H1.projectState kg kf s1 = .ok ((H1.project kg kf).toPV t') ∧
        (H.project kg kf).select ((kf.take j).count true) c v tol s' = .ok ⟨H1.project kg kf, u'⟩ ∧
        ∀ gk, gk.length = (H1.project kg kf).groups.length → ((H1.project kg kf).has t' gk ↔ (H1.project kg kf).has u' gk) ∧
          ∀ idx col, (H1.project kg kf).read t' gk idx col = (H1.project kg kf).read u' gk idx col) ∧
    ∀ edges H1 s1, H.rebin j edges s = .ok ⟨H1, s1⟩ →
      ∃ (s' : (H.project kg kf).State) (t' u' : (H1.project kg kf).State),
        H.projectState kg kf s = .ok ((H.project kg kf).toPV s') ∧ H1.projectState kg kf s1 = .ok ((H1.project kg kf).toPV t') ∧
        (H.project kg kf).rebin ((kf.take j).count true) edges s' = .ok ⟨H1.project kg kf, u'⟩ ∧
        ∀ gk, gk.length = (H1.project kg kf).groups.length → ((H1.project kg kf).has t' gk ↔ (H1.project kg kf).has u' gk) ∧
          ∀ idx col, (H1.project kg kf).read t' gk idx col = (H1.project kg kf).read u' gk idx col := by
  have ps : H.PowKeys (List.replicate H.groups.length true) s := by
    cases s with
    | none => trivial
    | some c => exact powKeys_replicate _ _ c
  exact ⟨fun c v tol H1 s1 h => C128_project_select_partial H s hs _ kf (by simp) hkf ps j hk c v tol H1 s1 h,
    fun edges H1 s1 h => C128_project_rebin_partial H s hs _ kf (by simp) hkf ps j hk edges H1 s1 h⟩

/-- C128 for projections where a selection or `rebin` is refused: on the projection it is refused with the same exception, and the other
way round; this does not depend on the contents. -/
theorem C128_project_refused (H : HistDef) (s : H.State) (kg kf : List Bool) (hkf : kf.length = H.fixed.length) (j : ℕ) (hk : kf[j]? = some true)
    (s' : (H.project kg kf).State) :
    (∀ c v tol e, H.select j c v tol s = .error e ↔ (H.project kg kf).select ((kf.take j).count true) c v tol s' = .error e) ∧
    ∀ edges e, H.rebin j edges s = .error e ↔ (H.project kg kf).rebin ((kf.take j).count true) edges s' = .error e := by
  have hg : (H.project kg kf).fixed[(kf.take j).count true]? = H.fixed[j]? := pick_get kf j H.fixed hk hkf
  constructor
  · intro c v tol e
    unfold HistDef.select
    rw [hg]
    cases H.fixed[j]? with
    | none => rfl
    | some a =>
      simp only
      cases a.select c v tol with
      | error e' => simp
      | ok r => cases r <;> simp
  · intro edges e
    unfold HistDef.rebin HistDef.rebinAny
    rw [hg]
    cases H.fixed[j]? with
    | none => rfl
    | some a =>
      simp only
      cases a.asSplit with
      | error e' => simp
      | ok b =>
        simp only
        cases b.rebinned edges with
        | error e' => simp
        | ok r => simp

/-! ## examples -/

/-- a threshold inside of a bin, and an edge that is not one of the axis, are refused before and after the projection -/
example : (exBinSplit.select 1 .ge (.fin (3/2)) (1/1000) exBinSplitState).toBool = false ∧
    ((exBinSplit.project [true] [false, true]).select 0 .ge (.fin (3/2)) (1/1000) none).toBool = false ∧
    (exBinSplit.rebin 1 [0, 3/2] exBinSplitState).toBool = false := by decide +kernel

/-- the selection on the second axis of the example, which becomes the first axis of the projection -/
example : (exBinSplit.select 1 .ge (.fin 1) (1/1000) exBinSplitState).toBool = true ∧ (exBinSplit.rebin 1 [0, 2] exBinSplitState).toBool = true ∧
    ([false, true] : List Bool)[1]? = some true ∧ [false, true].length = exBinSplit.fixed.length ∧ ([false, true].take 1).count true = 0 := by
  decide +kernel

/-- its projection: the sum over the first axis of the entries 10 i + 4 is 238 -/
example : (match exBinSplit.projectState [true] [false, true] exBinSplitState with
    | .ok (some (.dict [(_, .arr a), _])) => some (a.shape, a.get [4] 0)
    | _ => none) = some ([5], 238) := by decide +kernel

/-- two keys may be projected away (the hypothesis of C128_project_select_partial) -/
example : exBinSplit.PowKeys [false] exBinSplitState := ⟨Or.inr ⟨0, rfl⟩, fun _ _ => trivial⟩

end Verif
