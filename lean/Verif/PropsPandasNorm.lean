import Verif.PropsPandas
import Verif.PropsTableNorm

/-!
# C72: exported rows of normalized tables
-/

namespace Verif

/-- How wide the bin is that a label describes; `none`: infinite, or NaN. -/
def PLabel.span : PLabel → Option ℚ
  | .iv (.fin l) (.fin h) _ => some (h - l)
  | .int _ => some 1
  | .bool _ => some 1
  | _ => none

/-- How wide the cell is that all labels of a row describe. -/
def spanAll : List PLabel → Option ℚ
  | [] => some 1
  | l :: ls =>
    match l.span, spanAll ls with
    | some w, some v => some (w * v)
    | _, _ => none

/-! ## helpers -/

theorem span_plabel (l : BinLabel) : l.plabel.span = l.width := by
  cases l with
  | iv lo hi cl ch => cases lo <;> cases hi <;> rfl
  | nan => rfl
  | int i => rfl
  | bool b => rfl

theorem span_labelsAt : ∀ (fs : List FixedAxis) (idx : List ℕ), InRange idx (fs.map FixedAxis.totbins) →
    (∀ a ∈ fs, a.keys.length = a.totbins) → spanAll (labelsAt fs idx) = cellWidth fs idx
  | [], _, h, _ => by cases h; rfl
  | a :: fs, _, h, hk => by
    cases h with
    | cons hi h =>
      rename_i i idx
      have hlt : i < a.keys.length := by rw [hk a (by simp)]; exact hi
      have e : a.plabels.getD i .nan = (a.keys[i]).plabel := by
        rw [plabels_keys]
        simp [hlt]
      have ih := span_labelsAt fs idx h fun b hb => hk b (by simp [hb])
      have e1 : labelsAt (a :: fs) (i :: idx) = (a.keys[i]).plabel :: labelsAt fs idx := by
        rw [← e]; rfl
      have e2 : (a.keys[(i :: idx).headD 0]?).bind BinLabel.width = (a.keys[i]).width := by
        rw [List.headD_cons, List.getElem?_eq_getElem hlt]
        rfl
      rw [e1]
      simp only [spanAll, cellWidth, List.tail_cons]
      rw [ih, span_plabel, e2]
      cases (a.keys[i]).width <;> cases cellWidth fs idx <;> rfl

/-! ## C72 -/

/-- C72 for normalized tables: the count in a row is made of exactly the data whose values are what the labels of the row say, over
the width of the cell that these labels describe, over the sum of all such numbers.  Not an integral of 1: see C46.  No group axes (a
normalized table with a group axis raises `AttributeError`: `C46_group_refuted`), no infinite values, split axes last. -/
theorem C72_normalized_partial (fs : List FixedAxis) (np : ℕ) (wk : WKind) (bs : List (List Row)) (hf : Fillable ⟨[], fs, np, wk⟩ bs)
    (st : HistDef.State ⟨[], fs, np, wk⟩) (hst : HistDef.fillAll ⟨[], fs, np, wk⟩ none bs = .ok st)
    (o : TableOpts) (hcol : o.count = true ∨ o.effcount = true ∨ o.profs ≠ []) (hn : o.normalized = true) (hp : ∀ p ∈ o.profs, p < np) (hne : fs ≠ [])
    (hax : ∀ a ∈ fs, a.keys.length = a.totbins) (hw : ∀ a ∈ fs, a.HasWidth) (hs : ∀ a ∈ fs.dropLast, ∀ s, a ≠ .split s)
    (hbd : ∀ r ∈ bs.flatten, ∀ v ∈ r.fvals, v.toNum.bounded) :
    ∃ F : PFrame, HistDef.pandas ⟨[], fs, np, wk⟩ o st = .ok F ∧ (F.rows.getD []).length = F.labels.length ∧
      ∀ density : List PLabel → ℚ,
        (∀ L, density L = perWidth (sumW wk (bs.flatten.filter fun r => fitsAll L r.gvals r.fvals)) (spanAll L)) →
        (o.count = true → (F.labels.map density).sum ≠ 0) →
        ∀ (i : ℕ) (L : List PLabel) (cols : List (Option ℚ)), F.labels[i]? = some L → (F.rows.getD [])[i]? = some cols →
          L.length = fs.length ∧
          cols = normSpec wk o (bs.flatten.filter fun r => fitsAll L r.gvals r.fvals) (spanAll L) (F.labels.map density).sum := by
  obtain ⟨st0, e0, hrep⟩ := Represents.ofFill (HistDef.mk [] fs np wk) bs hf
  rw [hst] at e0
  cases e0
  obtain ⟨f, t0, ht, _, htab'⟩ := norm_of_represents hrep o hn hp rfl hw hs
  obtain ⟨t, h1, htab⟩ := htab' [] rfl rfl
  have h1 : t0 = t := Option.some.inj h1
  subst h1
  let t : Table := t0
  have hpl : ∀ a ∈ fs, a.plabels.length = a.totbins := by
    intro a ha
    rw [plabels_keys, List.length_map]
    exact hax a ha
  let cells := tableCells (fs.map FixedAxis.totbins)
  have hmem : ∀ idx ∈ cells, InRange idx (fs.map FixedAxis.totbins) := by
    intro idx h
    simp only [cells] at h
    rw [tableCells_eq] at h
    exact (mem_allCells _ _).1 h
  have hlen : ∀ idx ∈ cells, idx.length = fs.length := by
    intro idx h
    have := List.Forall₂.length_eq (hmem idx h)
    simpa using this
  have hfit : ∀ idx ∈ cells, (bs.flatten.filter fun r => fitsAll (labelsAt fs idx) r.gvals r.fvals) =
      bs.flatten.filter (Row.lands ⟨[], fs, np, wk⟩ [] idx) := by
    intro idx h
    refine List.filter_congr fun r hr => ?_
    have hrs := hrep.sound r hr
    have hg : r.gvals = [] := List.length_eq_zero_iff.1 hrs.groups
    rw [hg, fits_fixed fs r.fvals idx (hmem idx h) hax hrs.fixed.length_eq (hbd r hr)]
    show _ = (inGroup [] r.gvals [] && inBins' fs r.fvals idx)
    rw [hg]
    simp [inGroup]
  have hix : indexGroups fs fs.length [] t [] = .ok (cells.map (labelsAt fs), cells.map t) := by
    show Except.ok (indexFixed fs [], if fs ≠ [] ∨ fs.length = 0 then _ else _) = _
    rw [if_pos (Or.inl hne), indexFixed_cells fs _ hpl]
    simp only [List.nil_append]
    rfl
  have hframe : ∃ F : PFrame, mkFrame (0 + fs.length) (cells.map (labelsAt fs), cells.map t) = .ok F ∧
      F.labels = cells.map (labelsAt fs) ∧ F.rows.getD [] = cells.map t := by
    unfold mkFrame
    rw [if_neg (by
      intro h0
      exact hne (List.length_eq_zero_iff.1 (by omega)))]
    by_cases hc : cells = []
    · simp [hc]
    · rw [if_neg (by simpa using hc), if_pos (by simp)]
      exact ⟨_, rfl, rfl, rfl⟩
  obtain ⟨F, hF, hFl, hFr⟩ := hframe
  have hcol' : o.columns = true := by
    rcases hcol with h | h | h <;> simp [TableOpts.columns, h]
  refine ⟨F, ?_, ?_, ?_⟩
  · unfold HistDef.pandas
    rw [if_pos hcol', ht]
    simp only
    rw [show indexGroups fs fs.length [] t [] = _ from hix]
    exact hF
  · rw [hFl, hFr]; simp
  · intro density hd hT i L cols h1 h2
    have hdens : ∀ idx ∈ cells, density (labelsAt fs idx) =
        perWidth (sumW wk (bs.flatten.filter (Row.lands ⟨[], fs, np, wk⟩ [] idx))) (cellWidth fs idx) := by
      intro idx h
      rw [hd, hfit idx h, span_labelsAt fs idx (hmem idx h) hax]
    have hsum : (F.labels.map density).sum = HistDef.normTotal ⟨[], fs, np, wk⟩ bs.flatten := by
      unfold HistDef.normTotal
      rw [hFl, List.map_map, ← tableCells_eq]
      exact congrArg List.sum (List.map_congr_left fun idx h => hdens idx h)
    rw [hFl, List.getElem?_map] at h1
    rw [hFr, List.getElem?_map] at h2
    obtain ⟨idx, hx, rfl⟩ := Option.map_eq_some_iff.1 h1
    rw [hx] at h2
    cases h2
    have hm := List.mem_of_getElem? hx
    refine ⟨by simp [labelsAt, hlen idx hm], ?_⟩
    rw [hfit idx hm, span_labelsAt fs idx (hmem idx hm) hax, hsum]
    exact htab (fun h => hsum ▸ hT h) idx (hmem idx hm)

/-- An axis with two bins of width 2: four entries, of which one is in the first bin, two are in the second and one is in the overflow
bin, which has no width. -/
example : exPandas ⟨[], [.bin ⟨2, 0, 4, true, true, true, true⟩], 0, .none⟩
    [[⟨[], [.num (.fin 1)], [], none⟩, ⟨[], [.num (.fin 3)], [], none⟩], [⟨[], [.num (.fin 2)], [], none⟩, ⟨[], [.num (.fin 7)], [], none⟩]]
    { count := true, normalized := true, error := false } =
    .ok ⟨[[.iv .ninf (.fin 0) true], [.iv (.fin 0) (.fin 2) true], [.iv (.fin 2) (.fin 4) true], [.iv (.fin 4) .pinf true], [.nan]],
      some [[some 0], [some (1 / 3)], [some (2 / 3)], [some 0], [some 0]]⟩ := by decide +kernel

/-- The hypotheses are met. -/
example : ∃ st F, exP.fillAll none [[exPRow (1/2) 5]] = .ok st ∧ exP.pandas { normalized := true } st = .ok F ∧
    (F.rows.getD []).length = F.labels.length := by
  have hf : Fillable exP [[exPRow (1/2) 5]] := by
    have e : ∀ b ∈ [[exPRow (1/2) 5]], ∀ r ∈ b, r = exPRow (1/2) 5 := by simp
    refine ⟨fun b hb r hr => ?_, Or.inr fun b hb r hr => ?_⟩
    · rw [e b hb r hr]
      exact exPRow_ok _ _ (by norm_num)
    · rw [e b hb r hr]
      exact fun h => absurd (h [1]) (by decide +kernel)
  obtain ⟨st, h1, _⟩ := Represents.ofFill exP _ hf
  obtain ⟨F, a1, a2, _⟩ := C72_normalized_partial exP.fixed exP.nprof exP.wkind _ hf st h1 { normalized := true } (.inl rfl) rfl (by simp) (by simp [exP])
    (by intro a ha; simp [exP] at ha; subst ha; decide +kernel) (by simp [exP, FixedAxis.HasWidth]) (by simp [exP])
    (by simp [exPRow, Val.toNum, Num.bounded])
  exact ⟨st, F, h1, a1, a2⟩

end Verif
