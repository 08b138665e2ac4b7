import Verif.PropsAxisItems
import Verif.PropsPandasNorm

/-!
# C129: the items of axes of normalized tables
-/

namespace Verif

/-- How wide a bin is that an item is labelled with; `none` if it has no width. -/
def ILabel.span : ILabel → Option ℚ
  | .key _ => none
  | .bin l => l.width

/-- How wide the cell is that all labels of a row describe. -/
def spanItems : List ILabel → Option ℚ
  | [] => some 1
  | l :: ls =>
    match l.span, spanItems ls with
    | some w, some v => some (w * v)
    | _, _ => none

theorem span_binsAt : ∀ (fs : List FixedAxis) (idx : List ℕ), InRange idx (fs.map FixedAxis.totbins) →
    (∀ a ∈ fs, a.keys.length = a.totbins) → spanItems (binsAt fs idx) = cellWidth fs idx
  | [], _, h, _ => by cases h; rfl
  | a :: fs, _, h, hk => by
    cases h with
    | cons hi h =>
      rename_i i idx
      have hlt : i < a.keys.length := by rw [hk a (by simp)]; exact hi
      have ih := span_binsAt fs idx h (fun b hb => hk b (by simp [hb]))
      have e1 : binsAt (a :: fs) (i :: idx) = .bin (a.keys[i]) :: binsAt fs idx := by
        simp [binsAt, hlt]
      rw [e1]
      simp only [spanItems, cellWidth, List.tail_cons, List.headD_cons]
      rw [ih, List.getElem?_eq_getElem hlt]
      rfl

/-- C129 for normalized tables: loops over the items of the axes find one row for each cell, whose count is made of exactly the data whose
values are what the labels say, over the width of the cell that these labels describe, over the sum of all such numbers (not an integral
of 1: see C46).  No group axes (they raise: `C46_group_refuted`), split axes last (`C46_split_first_refuted`). -/
theorem C129_normalized_partial (fs : List FixedAxis) (np : ℕ) (wk : WKind) (bs : List (List Row)) (hf : Fillable ⟨[], fs, np, wk⟩ bs)
    (st : HistDef.State ⟨[], fs, np, wk⟩) (hst : HistDef.fillAll ⟨[], fs, np, wk⟩ none bs = .ok st)
    (o : TableOpts) (hn : o.normalized = true) (hp : ∀ p ∈ o.profs, p < np)
    (hax : ∀ a ∈ fs, a.keys.length = a.totbins) (hw : ∀ a ∈ fs, a.HasWidth) (hs : ∀ a ∈ fs.dropLast, ∀ s, a ≠ .split s) :
    ∃ t w, HistDef.table ⟨[], fs, np, wk⟩ o st = .ok t ∧ walkTable fs [] t = .ok w ∧
      ∀ density : List ILabel → ℚ,
        (∀ L, density L = perWidth (sumW wk (bs.flatten.filter fun r => allFit L r.gvals r.fvals)) (spanItems L)) →
        (o.count = true → (w.map fun x => density x.1).sum ≠ 0) →
        ∀ x ∈ w, x.1.length = fs.length ∧
          x.2 = normSpec wk o (bs.flatten.filter fun r => allFit x.1 r.gvals r.fvals) (spanItems x.1) (w.map fun x => density x.1).sum := by
  obtain ⟨st0, e0, hrep⟩ := Represents.ofFill (HistDef.mk [] fs np wk) bs hf
  rw [hst] at e0
  cases e0
  obtain ⟨f, t0, ht, _, htab'⟩ := norm_of_represents hrep o hn hp rfl hw hs
  obtain ⟨t, h1, htab⟩ := htab' [] rfl rfl
  have h1 : t0 = t := Option.some.inj h1
  subst h1
  let t : Table := t0
  let cells := tableCells (fs.map FixedAxis.totbins)
  have hmem : ∀ idx ∈ cells, InRange idx (fs.map FixedAxis.totbins) := by
    intro idx h
    simp only [cells] at h
    rw [tableCells_eq] at h
    exact (mem_allCells _ _).1 h
  have hlen : ∀ idx ∈ cells, idx.length = fs.length := by
    intro idx h
    have := List.Forall₂.length_eq (hmem idx h)
    simpa using this
  have hfit : ∀ idx ∈ cells, (bs.flatten.filter fun r => allFit (binsAt fs idx) r.gvals r.fvals) =
      bs.flatten.filter (Row.lands ⟨[], fs, np, wk⟩ [] idx) := by
    intro idx h
    refine List.filter_congr fun r hr => ?_
    have hrs := hrep.sound r hr
    have hg : r.gvals = [] := List.length_eq_zero_iff.1 hrs.groups
    rw [hg, fit_fixed fs r.fvals idx (hmem idx h) hax hrs.fixed.length_eq]
    show _ = (inGroup [] r.gvals [] && inBins' fs r.fvals idx)
    rw [hg]
    simp [inGroup]
  refine ⟨t, cells.map fun idx => (binsAt fs idx, t idx), ht, walkFixed_cells fs t hax, ?_⟩
  intro density hd hT
  have hsum : ((cells.map fun idx => (binsAt fs idx, t idx)).map fun x => density x.1).sum = HistDef.normTotal ⟨[], fs, np, wk⟩ bs.flatten := by
    unfold HistDef.normTotal
    rw [List.map_map, ← tableCells_eq]
    refine congrArg List.sum (List.map_congr_left fun idx h => ?_)
    show density (binsAt fs idx) = _
    rw [hd, hfit idx h, span_binsAt fs idx (hmem idx h) hax]
  intro x hx
  obtain ⟨idx, hm, rfl⟩ := List.mem_map.1 hx
  refine ⟨by simp [binsAt, hlen idx hm], ?_⟩
  rw [hsum] at hT ⊢
  show t idx = _
  rw [hfit idx hm, span_binsAt fs idx (hmem idx hm) hax]
  exact htab hT idx (hmem idx hm)

/-- An axis with two bins of width 2, as in C72. -/
example : exWalk ⟨[], [.bin ⟨2, 0, 4, true, true, true, true⟩], 0, .none⟩
    [[⟨[], [.num (.fin 1)], [], none⟩, ⟨[], [.num (.fin 3)], [], none⟩], [⟨[], [.num (.fin 2)], [], none⟩, ⟨[], [.num .pinf], [], none⟩]]
    { count := true, normalized := true, error := false } =
    .ok [([.bin (.iv .ninf (.fin 0) true false)], [some 0]), ([.bin (.iv (.fin 0) (.fin 2) true false)], [some (1 / 3)]),
      ([.bin (.iv (.fin 2) (.fin 4) true false)], [some (2 / 3)]), ([.bin (.iv (.fin 4) .pinf true true)], [some 0]),
      ([.bin .nan], [some 0])] := by decide +kernel

/-- The hypotheses are met. -/
example : ∃ st t w, exP.fillAll none [[exPRow (1/2) 5]] = .ok st ∧ exP.table { normalized := true } st = .ok t ∧
    walkTable exP.fixed [] t = .ok w := by
  have hf : Fillable exP [[exPRow (1/2) 5]] := by
    have e : ∀ b ∈ [[exPRow (1/2) 5]], ∀ r ∈ b, r = exPRow (1/2) 5 := by simp
    refine ⟨fun b hb r hr => ?_, Or.inr fun b hb r hr => ?_⟩
    · rw [e b hb r hr]
      exact exPRow_ok _ _ (by norm_num)
    · rw [e b hb r hr]
      exact fun h => absurd (h [1]) (by decide +kernel)
  obtain ⟨st, h1, _⟩ := Represents.ofFill exP _ hf
  obtain ⟨t, w, a1, a2, _⟩ := C129_normalized_partial exP.fixed exP.nprof exP.wkind _ hf st h1 { normalized := true } rfl (by simp)
    (by intro a ha; simp [exP] at ha; subst ha; decide +kernel) (by simp [exP, FixedAxis.HasWidth]) (by simp [exP])
  exact ⟨st, t, w, h1, a1, a2⟩

end Verif
