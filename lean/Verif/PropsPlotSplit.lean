import Verif.PropsVegaOutline
import Verif.PropsSplitWidth

/-! C86: normalized plots with a split axis before the last axis. -/

namespace Verif

theorem table_split_refused (K : HistDef) (hg : K.groups = []) (pre post : List FixedAxis) (s : SplitAxis) (hfs : K.fixed = pre ++ .split s :: post)
    (hp : post ≠ []) (hw : ∀ a ∈ pre, a.HasWidth) (h1 : s.edges.length ≠ 2) (h0 : s.edges.length ≠ 0) (l : FixedAxis) (hl : post.getLast? = some l)
    (hn : s.edges.length ≠ l.totbins + 1) (o : TableOpts) (ho : o.normalized = true) (hop : ∀ p ∈ o.profs, p < K.nprof) (st : K.State) :
    K.table o st = .error .valueError := by
  obtain ⟨G, fs, np, wk⟩ := K
  simp only at hg hfs
  subst hg hfs
  exact C46_split_refused pre post s hp hw h1 h0 l hl hn np wk o ho hop st

/-- C86 fails for every normalized plot without group axes in which a split axis comes before the last axis of the histogram that is used, unless the
split axis has one interval or as many as that last axis has bins: `ValueError`, whatever was filled. -/
theorem C86_refuted_normalized_split (H : HistDef) (bs : List (List Row)) (st : H.State) (F : Fmt) (P : Plot1d) (dat : Datum) (var : String)
    (hok : H.Plottable bs st P.axes) (hN : P.normalized = true) (hprof : ∀ p, P.prof = some p → p < H.nprof)
    (hg : (H.onAxes P.axes).groups = []) (pre post : List FixedAxis) (s : SplitAxis) (hfs : (H.onAxes P.axes).fixed = pre ++ .split s :: post)
    (hp : post ≠ []) (hw : ∀ a ∈ pre, a.HasWidth) (h1 : s.edges.length ≠ 2) (h0 : s.edges.length ≠ 0) (l : FixedAxis) (hl : post.getLast? = some l)
    (hn : s.edges.length ≠ l.totbins + 1) : H.data1d F P dat var st = .error .valueError := by
  have hany : (P.axes.any fun i => decide (H.groups.length + H.fixed.length ≤ i)) = false := by
    rw [List.any_eq_false]
    intro i hi
    have := hok.within i hi
    simp; omega
  obtain ⟨st0, e0, hrep⟩ := Represents.ofFill H bs hok.fillable
  rw [hok.filled] at e0
  cases e0
  obtain ⟨st', e1, hrep', _⟩ := hrep.project (H.keptG P.axes) (H.keptF P.axes) (by simp [HistDef.keptG]) (by simp [HistDef.keptF]) hok.pow
  have hof : (H.onAxes P.axes).ofPV ((H.project (H.keptG P.axes) (H.keptF P.axes)).toPV st') = .ok st' := by
    cases st' with
    | none => rfl
    | some c =>
      show (Verif.ofPV ((H.onAxes P.axes).fixed.map FixedAxis.totbins) (H.onAxes P.axes).groups.length (toPV (H.onAxes P.axes).groups.length c)).map some = _
      have := ofPV_toPV (H.onAxes P.axes).layout (H.onAxes P.axes).groups.length c hrep'.distinct hrep'.good
      rw [show (H.onAxes P.axes).fixed.map FixedAxis.totbins = (H.onAxes P.axes).layout.dims from rfl, this]
      rfl
  have htab := table_split_refused (H.onAxes P.axes) hg pre post s hfs hp hw h1 h0 l hl hn (plotOpts P.prof P.error P.normalized) hN
    (fun p hpm => hprof p (by simpa [plotOpts] using hpm)) st'
  unfold HistDef.data1d HistDef.plotRows
  simp only [hany, Bool.false_eq_true, if_false]
  rw [show H.projectState (keepAxes P.axes 0 H.groups.length) (keepAxes P.axes H.groups.length H.fixed.length) st = .ok _ from e1]
  simp only
  rw [show (H.project (keepAxes P.axes 0 H.groups.length) (keepAxes P.axes H.groups.length H.fixed.length)).ofPV ((H.project (H.keptG P.axes) (H.keptF P.axes)).toPV st') = .ok st' from hof]
  simp only
  rw [show (H.project (keepAxes P.axes 0 H.groups.length) (keepAxes P.axes H.groups.length H.fixed.length)).table _ st' = _ from htab]
  rfl

/-- A split axis with three intervals before a cut. -/
def exSplitCut : HistDef := ⟨[], [.split ⟨[0, 1, 3, 4], false, false, false, true⟩, .cut], 0, .none⟩

/-- The conditions hold of a filled histogram. -/
example : ∃ st, exSplitCut.fillAll none [[⟨[], [.num (.fin 2), .bool true], [], none⟩]] = .ok st ∧
    exSplitCut.data1d exFmt ⟨[⟨.overlay, 0⟩], .bar, 1, none, false, true, false⟩ [] "a" st = .error .valueError := by
  have hi : SplitAxis.init [0, 1, 3, 4] false false false true = .ok ⟨[0, 1, 3, 4], false, false, false, true⟩ := by decide +kernel
  have hf : Fillable exSplitCut [[⟨[], [.num (.fin 2), .bool true], [], none⟩]] := by
    refine ⟨?_, Or.inl rfl⟩
    intro b hb r hr
    simp only [List.mem_singleton] at hb
    subst hb
    simp only [List.mem_singleton] at hr
    subst hr
    exact ⟨.nil, .cons (handles_split _ _ _ _ _ _ hi _) (.cons (handles_cut true) .nil), rfl⟩
  obtain ⟨st, h1, _⟩ := Represents.ofFill exSplitCut _ hf
  refine ⟨st, h1, ?_⟩
  have hok : exSplitCut.Plottable [[⟨[], [.num (.fin 2), .bool true], [], none⟩]] st [0, 1] := by
    refine ⟨hf, h1, by simp [exSplitCut], ?_, ?_, fun i => Or.inl fun r hr k hk => ?_, fun i a ha => by simp [exSplitCut] at ha⟩
    · cases st <;> trivial
    · intro a ha
      simp [exSplitCut] at ha
      rcases ha with rfl | rfl
      · exact ⟨_, _, _, _, _, hi⟩
      · trivial
    · simp [exSplitCut] at hk
  exact C86_refuted_normalized_split exSplitCut _ st exFmt ⟨[⟨.overlay, 0⟩], .bar, 1, none, false, true, false⟩ [] "a" hok rfl (by simp) rfl [] [.cut] _ rfl
    (by simp) (by simp) (by simp) (by simp) .cut rfl (by simp [FixedAxis.totbins])

/-- Three intervals overlaid in a plot along a cut axis; not normalized the same plot is drawn. -/
example : (HistDef.onAxes ⟨[], [.split ⟨[0, 1, 3, 4], false, false, false, true⟩, .cut], 0, .none⟩ [0, 1]).fixed =
      [] ++ .split ⟨[0, 1, 3, 4], false, false, false, true⟩ :: [.cut] ∧
    exData1d ⟨[], [.split ⟨[0, 1, 3, 4], false, false, false, true⟩, .cut], 0, .none⟩ [[⟨[], [.num (.fin 2), .bool true], [], none⟩]]
      ⟨[⟨.overlay, 0⟩], .bar, 1, none, false, true, false⟩ = .error .valueError ∧
    (exData1d ⟨[], [.split ⟨[0, 1, 3, 4], false, false, false, true⟩, .cut], 0, .none⟩ [[⟨[], [.num (.fin 2), .bool true], [], none⟩]]
      ⟨[⟨.overlay, 0⟩], .bar, 1, none, false, false, false⟩).toOption.isSome = true := by decide +kernel

end Verif
