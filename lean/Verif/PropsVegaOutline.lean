import Verif.VegaOutline

/-!
# C87: outlines follow the bins
-/

namespace Verif

/-- The first finite bin of the axis is wider than `1e-10` of the whole axis. -/
def FixedAxis.FirstWide (a : FixedAxis) : Prop :=
  ∀ i, i < a.totbins → ∀ lo hi, a.edgesAt i = some (lo, hi) → lo = a.range.1 → lo + tiny * (a.range.2 - a.range.1) < hi

/-- The records of an outline, with its points. -/
theorem outline_records (H : HistDef) (bs : List (List Row)) (st : H.State) (F : Fmt) (P : Plot1d) (pre : Datum) (var : String)
    (hok : H.Plottable bs st P.axes) (hno : H.Normalizable P bs.flatten) (hprof : ∀ p, P.prof = some p → p < H.nprof)
    (q : ℕ) (hq : P.axis = H.groups.length + q) (a : FixedAxis) (ha : H.fixed[q]? = some a) (hnum : a.numeric = true)
    (hmark : P.mark = .step ∨ P.mark = .area) (hfirst : a.FirstWide) :
    let m := ((H.keptF P.axes).take q).count true
    let vals := fun x : (List Key × List ℕ) × (ℚ × Bool) => if x.2.2 then (if P.error then [some 0, some 0] else [some 0]) else H.valuesIn P bs.flatten x.1
    ∃ D cells, H.data1d F P pre var st = .ok D ∧ H.PlotCells P.axes st cells ∧
      D.data.Perm (((cells.flatMap fun c => (basePoints a (c.2.getD m 0)).map fun p => (c, p)).filter fun x => !P.log || aboveZero (vals x)).map fun x =>
        recordOf pre var ((cellTexts F (H.onAxes P.axes) x.1.1 x.1.2).set ((H.onAxes P.axes).groups.length + m) (.num (some x.2.1))) (vals x) ++
        if P.error then [(.centre var ((H.onAxes P.axes).groups.length + m),
          .num (some (if x.2.2 then x.2.1 else (a.keys[x.1.2.getD m 0]?.bind BinLabel.centre).getD 0)))] else []) := by
  intro m vals
  have hbuilt := hok.built a (List.mem_of_getElem? ha)
  have hbase : P.mark.baseline = true := by rcases hmark with h | h <;> rw [h] <;> rfl
  obtain ⟨D, cells, e1, hcells, hperm⟩ := data1d_points H bs st F P pre var hok hno hprof q hq a ha hnum
    (by rcases hmark with h | h <;> rw [h] <;> decide) (basePoints a) (fun i hi => by rw [hbase]; exact fields1d_base F a hbuilt hnum i hi)
  refine ⟨D, cells, e1, hcells, hperm.trans (List.Perm.of_eq ?_)⟩
  have hzero : (List.replicate (if P.error then 2 else 1) (some 0) : List (Option ℚ)) = if P.error then [some 0, some 0] else [some 0] := by
    cases P.error <;> rfl
  rw [hzero, hbase, Bool.and_true]
  have hflat : (cells.flatMap fun c => (basePoints a (c.2.getD (((H.keptF P.axes).take q).count true) 0)).map fun p =>
      ((cellTexts F (H.onAxes P.axes) c.1 c.2).set ((H.onAxes P.axes).groups.length + ((H.keptF P.axes).take q).count true) (DVal.num (some p.1)),
        if p.2 then (if P.error then [some 0, some 0] else [some 0]) else H.valuesIn P bs.flatten c)) =
      (cells.flatMap fun c => (basePoints a (c.2.getD m 0)).map fun p => (c, p)).map fun x =>
        ((cellTexts F (H.onAxes P.axes) x.1.1 x.1.2).set ((H.onAxes P.axes).groups.length + m) (.num (some x.2.1)), vals x) := by
    simp only [List.map_flatMap, List.map_map]
    rfl
  rw [hflat, List.filter_map, List.map_map]
  refine List.map_congr_left fun x hx => ?_
  simp only [Function.comp]
  cases hE : P.error with
  | false => simp
  | true =>
    simp only [if_true]
    have hx1 := (List.mem_filter.1 hx).1
    rw [List.mem_flatMap] at hx1
    obtain ⟨c, hc, hx2⟩ := hx1
    obtain ⟨p, hpp, rfl⟩ := List.mem_map.1 hx2
    obtain ⟨hcell, hgl, _⟩ := (hcells.mem c.1 c.2).1 hc
    have hql : q < H.fixed.length := (List.getElem?_eq_some_iff.1 ha).1
    have hmem : H.groups.length + q ∈ P.axes := by
      rw [← hq]
      simp [Plot1d.axes]
    obtain ⟨m', _, hm2, hm3⟩ := placeOf_fixed H P.axes q hql hmem
    have hm' : m' = m := hm3
    subst hm'
    have hml : m < (H.onAxes P.axes).fixed.length := by
      rw [ha] at hm2
      exact (List.getElem?_eq_some_iff.1 hm2).1
    have hcl := cell_length hcell
    have hbound : c.2.getD m 0 < a.totbins := by
      have h3 := (List.forall₂_iff_get.1 hcell).2 m (by omega) (by simpa using hml)
      simp only [List.get_eq_getElem, List.getElem_map] at h3
      have h4 : (H.onAxes P.axes).fixed[m] = a := by
        have := hm2
        rw [ha, List.getElem?_eq_getElem hml] at this
        exact Option.some.inj this
      rw [h4] at h3
      rw [List.getD_eq_getElem?_getD, List.getElem?_eq_getElem (by omega)]
      exact h3
    unfold addCentre
    simp only
    congr 3
    have hlen : (H.onAxes P.axes).groups.length + m < (cellTexts F (H.onAxes P.axes) c.1 c.2).length := by
      simp only [cellTexts, List.length_append, List.length_zipWith, hgl, hcl]
      omega
    have hrow : ((cellTexts F (H.onAxes P.axes) c.1 c.2).set ((H.onAxes P.axes).groups.length + m) (.num (some p.1))).getD
        ((H.onAxes P.axes).groups.length + m) (.num none) = .num (some p.1) := by
      rw [List.getD_eq_getElem?_getD, List.getElem?_set_self hlen]
      rfl
    have hm'' : ((H.keptF P.axes).take q).count true = m := rfl
    rw [hm'', hrow]
    exact shiftOf_base F a hbuilt hnum hfirst _ hbound p hpp

/-- C87 for steps and areas along an axis of numbers.  For each group that was filled and each bin of the other axes, the records are the points of an outline
of the bins of this axis: zero at its lower end, the value of a bin (as in C86) from its lower edge to its upper edge, and zero at its upper end;
with error bars, each record also has the centre of the bin for them.  A logarithmic scale leaves the points with a value above zero.
Missing: as in C86, and axes whose first bin is narrower than `1e-10` of the axis (`C87_refuted_narrow`). -/
theorem C87_outline_partial (H : HistDef) (bs : List (List Row)) (st : H.State) (F : Fmt) (P : Plot1d) (pre : Datum) (var : String)
    (hok : H.Plottable bs st P.axes) (hno : H.Normalizable P bs.flatten) (hprof : ∀ p, P.prof = some p → p < H.nprof)
    (q : ℕ) (hq : P.axis = H.groups.length + q) (a : FixedAxis) (ha : H.fixed[q]? = some a) (hnum : a.numeric = true)
    (hmark : P.mark = .step ∨ P.mark = .area) (hfirst : a.FirstWide) :
    let m := ((H.keptF P.axes).take q).count true
    let vals := fun x : (List Key × List ℕ) × (ℚ × Bool) => if x.2.2 then (if P.error then [some 0, some 0] else [some 0]) else H.valuesIn P bs.flatten x.1
    ∃ pts, Outlines a pts ∧ ∃ D cells, H.data1d F P pre var st = .ok D ∧ H.PlotCells P.axes st cells ∧
      D.data.Perm (((cells.flatMap fun c => (pts (c.2.getD m 0)).map fun p => (c, p)).filter fun x => !P.log || aboveZero (vals x)).map fun x =>
        recordOf pre var ((cellTexts F (H.onAxes P.axes) x.1.1 x.1.2).set ((H.onAxes P.axes).groups.length + m) (.num (some x.2.1))) (vals x) ++
        if P.error then [(.centre var ((H.onAxes P.axes).groups.length + m),
          .num (some (if x.2.2 then x.2.1 else (a.keys[x.1.2.getD m 0]?.bind BinLabel.centre).getD 0)))] else []) :=
  ⟨basePoints a, outlines_base a (hok.built a (List.mem_of_getElem? ha)) hnum hfirst, outline_records H bs st F P pre var hok hno hprof q hq a ha hnum hmark hfirst⟩

/-- Every `bin` axis with fewer than 10^10 bins meets the condition. -/
theorem firstWide_bin (a : BinAxis) (ha : (FixedAxis.bin a).Built) (hn : a.numbins < 10 ^ 10) : (FixedAxis.bin a).FirstWide := by
  intro i hi lo hi' he hlo
  obtain ⟨nb, low, high, u, o, n, cl, hpos, hi0⟩ := ha
  have hlh : low < high := by
    by_contra hc
    have : (nb > 0 ∧ low ≥ high) ∨ low > high := Or.inl ⟨hpos, not_lt.1 hc⟩
    simp [BinAxis.init, this] at hi0
  have ha' : a = ⟨nb, low, high, u, o, n, cl⟩ := by
    unfold BinAxis.init at hi0
    split at hi0
    · cases hi0
    · simp only at hi0
      split at hi0
      · cases hi0
      · exact (Except.ok.inj hi0).symm
  subst ha'
  rw [edgesAt_flow (.bin ⟨nb, low, high, u, o, n, cl⟩) ⟨nb, low, high, u, o, n, cl, hpos, hi0⟩ _ nb u o n cl (BinAxis.keys_eq _ hpos) rfl i hi] at he
  by_cases hc : b2n u ≤ i ∧ i < nb + b2n u
  swap
  · rw [if_neg hc] at he; cases he
  rw [if_pos hc] at he
  simp only [Option.some.injEq, Prod.mk.injEq] at he
  obtain ⟨rfl, rfl⟩ := he
  have hN : (0 : ℚ) < nb := by exact_mod_cast hpos
  have hn' : (nb : ℚ) < 10 ^ 10 := by exact_mod_cast hn
  have hd : 0 < high - low := by linarith
  show _ + tiny * (high - low) < _
  simp only [BinAxis.i2x]
  push_cast
  have h1 : tiny < 1 / nb := by
    unfold tiny
    exact one_div_lt_one_div_of_lt hN hn'
  have h2 : ((i - b2n u : ℕ) + 1 : ℚ) / nb = ((i - b2n u : ℕ) : ℚ) / nb + 1 / nb := by ring
  rw [h2]
  nlinarith [mul_lt_mul_of_pos_right h1 hd]

/-! ## examples and refutations -/

/-- A plain way to write numbers and keys. -/
def exFmt : Fmt := ⟨fun n => match n with
    | .fin q => toString q.num ++ (if q.den = 1 then "" else "/" ++ toString q.den)
    | .ninf => "-inf"
    | .pinf => "inf"
    | .nan => "nan", fun k => match k with
    | .num q => toString q.num ++ (if q.den = 1 then "" else "/" ++ toString q.den)
    | .pinf => "inf"
    | .ninf => "-inf"
    | .str s => s⟩

/-- The records of a plot after filling. -/
def exData1d (H : HistDef) (bs : List (List Row)) (P : Plot1d) : Except Err (List Datum) :=
  match H.fillAll none bs with
  | .error (e, _) => .error e
  | .ok st => (H.data1d exFmt P [] "a" st).map PlotData.data


def exPlotBs : List (List Row) := [[exRow "b" (1/2) (some 2), exRow "a" 1 (some 3)], [exRow "b" 7 (some 5)]]

/-- Two groups on top of one another, as steps: for each one, from zero at 0 over the values of the two bins to zero at 2. -/
example : exData1d exH exPlotBs ⟨[⟨.overlay, 0⟩], .step, 1, none, false, false, false⟩ = .ok
    [[(.col "a" 0, .str "a"), (.col "a" 1, .num (some 0)), (.col "a" 2, .num (some 0))],
     [(.col "a" 0, .str "a"), (.col "a" 1, .num (some (1 / 5000000000))), (.col "a" 2, .num (some 0))],
     [(.col "a" 0, .str "a"), (.col "a" 1, .num (some 1)), (.col "a" 2, .num (some 3))],
     [(.col "a" 0, .str "a"), (.col "a" 1, .num (some 2)), (.col "a" 2, .num (some 0))],
     [(.col "a" 0, .str "b"), (.col "a" 1, .num (some 0)), (.col "a" 2, .num (some 0))],
     [(.col "a" 0, .str "b"), (.col "a" 1, .num (some (1 / 5000000000))), (.col "a" 2, .num (some 2))],
     [(.col "a" 0, .str "b"), (.col "a" 1, .num (some 1)), (.col "a" 2, .num (some 0))],
     [(.col "a" 0, .str "b"), (.col "a" 1, .num (some 2)), (.col "a" 2, .num (some 0))]] := by decide +kernel

/-- Bars: all bins, with their texts; the groups are added up. -/
example : exData1d exH exPlotBs ⟨[], .bar, 1, none, false, false, true⟩ = .ok
    [[(.col "a" 0, .str "[0, 1)"), (.col "a" 1, .num (some 2))],
     [(.col "a" 0, .str "[1, 2)"), (.col "a" 1, .num (some 3))],
     [(.col "a" 0, .str "[2, inf]"), (.col "a" 1, .num (some 5))]] := by decide +kernel

/-- The hypotheses of C86 and C87 are met, with the groups on top of one another, and with both groups added up. -/
theorem exPlottable (axes : List ℕ) (hax : axes = [0, 1] ∨ axes = [1]) : ∃ st, exH.Plottable exPlotBs st axes := by
  have hf : Fillable exH exPlotBs := by
    refine ⟨?_, Or.inl rfl⟩
    intro b hb r hr
    simp [exPlotBs] at hb
    rcases hb with rfl | rfl <;> simp at hr
    · rcases hr with rfl | rfl <;> exact exRow_ok _ _ _ (by norm_num)
    · subst hr
      exact exRow_ok _ _ _ (by norm_num)
  have hrows : ∀ r ∈ exPlotBs.flatten, r = exRow "b" (1/2) (some 2) ∨ r = exRow "a" 1 (some 3) ∨ r = exRow "b" 7 (some 5) := by
    intro r hr
    simpa [exPlotBs] using hr
  obtain ⟨st, h1, h2⟩ := Represents.ofFill exH _ hf
  have e : (match exH.fillAll none exPlotBs with
    | .ok (some (c : List (Key × Arr))) => c.length
    | _ => 0) = 2 := by decide +kernel
  rw [h1] at e
  refine ⟨st, hf, h1, ?_, ?_, ?_, ?_, ?_⟩
  · rcases hax with rfl | rfl <;> simp [exH]
  · rcases hax with rfl | rfl
    · cases st with
      | none => trivial
      | some c => exact ⟨Or.inl rfl, fun _ _ => trivial⟩
    · cases st with
      | none => trivial
      | some c => exact ⟨Or.inr ⟨0, e⟩, fun _ _ => trivial⟩
  · intro a ha
    simp [exH] at ha
    subst ha
    exact ⟨2, 0, 2, true, true, true, true, by decide, by decide +kernel⟩
  · exact fun i => Or.inl fun r hr k hk => by
      rcases hrows r hr with rfl | rfl | rfl <;> rcases i with _ | _ | i <;> simp [exH, exRow, GroupAxis.key, GVal.toKey, Except.toOption] at hk <;>
        subst hk <;> rfl
  · intro i a ha
    rcases i with _ | i <;> simp [exH] at ha

example : ∃ st D cells, exH.data1d exFmt ⟨[⟨.overlay, 0⟩], .bar, 1, none, false, false, false⟩ [] "a" st = .ok D ∧ exH.PlotCells [0, 1] st cells ∧
    D.data.Perm (cells.map fun c => recordOf [] "a" (cellTexts exFmt (exH.onAxes [0, 1]) c.1 c.2)
      (exH.valuesIn ⟨[⟨.overlay, 0⟩], .bar, 1, none, false, false, false⟩ exPlotBs.flatten c)) := by
  obtain ⟨st, h⟩ := exPlottable [0, 1] (Or.inl rfl)
  obtain ⟨D, cells, h1, h2, h3⟩ := C86_texts_partial exH exPlotBs st exFmt ⟨[⟨.overlay, 0⟩], .bar, 1, none, false, false, false⟩ [] "a" h (.of rfl) (by simp)
    (Or.inl rfl) (by simp)
  refine ⟨st, D, cells, h1, h2, ?_⟩
  have h4 : (⟨[⟨.overlay, 0⟩], .bar, 1, none, false, false, false⟩ : Plot1d).axes = [0, 1] := rfl
  simpa [h4] using h3

example : ∃ st D, exH.data1d exFmt ⟨[], .marker, 1, none, true, false, false⟩ [] "a" st = .ok D ∧
    ∃ pre, D.data.Perm pre := by
  obtain ⟨st, h⟩ := exPlottable [1] (Or.inr rfl)
  obtain ⟨D, cells, h1, h2, h3⟩ := C86_centres_partial exH exPlotBs st exFmt ⟨[], .marker, 1, none, true, false, false⟩ [] "a" h (.of rfl) (by simp)
    0 rfl (.bin ⟨2, 0, 2, true, true, true, true⟩) rfl rfl (Or.inr rfl)
  exact ⟨st, D, h1, _, h3⟩

example : ∃ st D, exH.data1d exFmt ⟨[], .area, 1, none, true, false, false⟩ [] "a" st = .ok D ∧
    ∃ pre, D.data.Perm pre := by
  obtain ⟨st, h⟩ := exPlottable [1] (Or.inr rfl)
  obtain ⟨pts, _, D, cells, h1, h2, h3⟩ := C87_outline_partial exH exPlotBs st exFmt ⟨[], .area, 1, none, true, false, false⟩ [] "a" h (.of rfl) (by simp)
    0 rfl (.bin ⟨2, 0, 2, true, true, true, true⟩) rfl rfl (Or.inr rfl) (firstWide_bin _ (h.built _ (by simp [exH])) (by norm_num))
  exact ⟨st, D, h1, _, h3⟩

/-- Markers at the centres, with squares of errors. -/
example : exData1d exH exPlotBs ⟨[], .marker, 1, none, true, false, false⟩ = .ok
    [[(.col "a" 0, .num (some (1/2))), (.col "a" 1, .num (some 2)), (.col "a" 2, .num (some 4))],
     [(.col "a" 0, .num (some (3/2))), (.col "a" 1, .num (some 3)), (.col "a" 2, .num (some 9))]] := by decide +kernel

/-- Two bins of width 2 with one and three entries, and an overflow: with errors, the normalized heights are 1/4 and 3/4. -/
example : exData1d ⟨[], [.bin ⟨2, 0, 4, true, true, true, true⟩], 0, .none⟩
    [[⟨[], [.num (.fin 1)], [], none⟩, ⟨[], [.num (.fin 3)], [], none⟩, ⟨[], [.num (.fin 2)], [], none⟩, ⟨[], [.num (.fin 2)], [], none⟩,
      ⟨[], [.num (.fin 9)], [], none⟩]] ⟨[], .marker, 0, none, true, true, false⟩ = .ok
    [[(.col "a" 0, .num (some 1)), (.col "a" 1, .num (some (1/4))), (.col "a" 2, .num (some (1/16)))],
     [(.col "a" 0, .num (some 3)), (.col "a" 1, .num (some (3/4))), (.col "a" 2, .num (some (3/16)))]] := by decide +kernel

/-- The hypotheses are met by a normalized plot: the axis of numbers of the example, without its group axis. -/
example : ∃ st D, exH.fillAll none exPlotBs = .ok st ∧ exH.data1d exFmt ⟨[], .marker, 1, none, true, true, false⟩ [] "a" st = .ok D := by
  obtain ⟨st, h⟩ := exPlottable [1] (Or.inr rfl)
  have hN : exH.Normalizable ⟨[], .marker, 1, none, true, true, false⟩ exPlotBs.flatten :=
    ⟨fun _ => by decide +kernel, fun _ a ha => by simp [Plot1d.axes, HistDef.onAxes, HistDef.project, HistDef.keptF, exH, pick] at ha,
      fun _ _ => by decide +kernel⟩
  obtain ⟨D, cells, h2, _⟩ := C86_centres_partial exH exPlotBs st exFmt ⟨[], .marker, 1, none, true, true, false⟩ [] "a" h hN (by simp)
    0 rfl _ rfl rfl (Or.inr rfl)
  exact ⟨st, D, h.filled, h2⟩

/-! ## refutations -/

/-- C86 fails for every normalized plot that has a group axis: `AttributeError`, whatever was filled. -/
theorem C86_refuted_normalized (H : HistDef) (bs : List (List Row)) (st : H.State) (F : Fmt) (P : Plot1d) (pre : Datum) (var : String)
    (hok : H.Plottable bs st P.axes) (hN : P.normalized = true) (hprof : ∀ p, P.prof = some p → p < H.nprof)
    (g : ℕ) (hg : g ∈ P.axes) (hlt : g < H.groups.length) : H.data1d F P pre var st = .error .attributeError := by
  have hany : (P.axes.any fun i => decide (H.groups.length + H.fixed.length ≤ i)) = false := by
    rw [List.any_eq_false]
    intro i hi
    have := hok.within i hi
    simp; omega
  obtain ⟨st0, e0, hrep⟩ := Represents.ofFill H bs hok.fillable
  rw [hok.filled] at e0
  cases e0
  obtain ⟨st', e1, hrep', _⟩ := hrep.project (H.keptG P.axes) (H.keptF P.axes) (by simp [HistDef.keptG]) (by simp [HistDef.keptF]) hok.pow
  have hne : (H.onAxes P.axes).groups ≠ [] := by
    intro h
    have h2 : (H.onAxes P.axes).groups.length = (H.keptG P.axes).count true := pick_length _ _ (by simp [HistDef.keptG])
    rw [h, List.length_nil] at h2
    have : true ∈ H.keptG P.axes := by
      unfold HistDef.keptG
      rw [List.mem_map]
      exact ⟨g, by simpa using hlt, by simpa using hg⟩
    exact absurd (List.count_pos_iff.2 this) (by omega)
  have hof : (H.onAxes P.axes).ofPV ((H.project (H.keptG P.axes) (H.keptF P.axes)).toPV st') = .ok st' := by
    cases st' with
    | none => rfl
    | some c =>
      show (Verif.ofPV ((H.onAxes P.axes).fixed.map FixedAxis.totbins) (H.onAxes P.axes).groups.length (toPV (H.onAxes P.axes).groups.length c)).map some = _
      have := ofPV_toPV (H.onAxes P.axes).layout (H.onAxes P.axes).groups.length c hrep'.distinct hrep'.good
      rw [show (H.onAxes P.axes).fixed.map FixedAxis.totbins = (H.onAxes P.axes).layout.dims from rfl, this]
      rfl
  have htab := C46_group_refuted (H.onAxes P.axes) hne (plotOpts P.prof P.error P.normalized) hN
    (fun p hpm => hprof p (by simpa [plotOpts] using hpm)) st'
  unfold HistDef.data1d HistDef.plotRows
  simp only [hany, Bool.false_eq_true, if_false]
  rw [show H.projectState (keepAxes P.axes 0 H.groups.length) (keepAxes P.axes H.groups.length H.fixed.length) st = .ok _ from e1]
  simp only
  rw [show (H.project (keepAxes P.axes 0 H.groups.length) (keepAxes P.axes H.groups.length H.fixed.length)).ofPV ((H.project (H.keptG P.axes) (H.keptF P.axes)).toPV st') = .ok st' from hof]
  simp only
  rw [show (H.project (keepAxes P.axes 0 H.groups.length) (keepAxes P.axes H.groups.length H.fixed.length)).table _ st' = _ from htab]
  rfl

/-- A plot of the example with one curve for each group. -/
example : exData1d exH exPlotBs ⟨[⟨.overlay, 0⟩], .step, 1, none, false, true, false⟩ = .error .attributeError := by decide +kernel

def exNanH : HistDef := ⟨[.groupbin ⟨1, 0, true, true⟩], [.bin ⟨2, 0, 2, true, true, true, true⟩], 0, .none⟩
def exNanBs : List (List Row) := [[⟨[.num .nan], [.num (.fin 1)], [], none⟩]]

/-- C86 fails for a `groupbin` axis with a NaN in the data: `TypeError`. -/
theorem C86_refuted_nan : ¬ ∀ (H : HistDef) (bs : List (List Row)) (st : H.State) (P : Plot1d), Fillable H bs → H.fillAll none bs = .ok st →
    (∀ i ∈ P.axes, i < H.groups.length + H.fixed.length) → H.PowKeys (H.keptG P.axes) st → P.normalized = false → P.prof = none →
    (∀ a ∈ H.fixed, a.Built) → OneKind H bs.flatten → ∃ D, H.data1d exFmt P [] "a" st = .ok D := by
  intro hall
  have hf : Fillable exNanH exNanBs := by
    refine ⟨?_, Or.inl rfl⟩
    intro b hb r hr
    simp only [exNanBs, List.mem_singleton] at hb
    subst hb
    simp only [List.mem_singleton] at hr
    subst hr
    exact ⟨.cons ⟨_, rfl⟩ .nil, .cons (exH_handles 1 (by norm_num)) .nil, rfl⟩
  obtain ⟨st, h1, h2⟩ := Represents.ofFill exNanH _ hf
  have e : exData1d exNanH exNanBs ⟨[⟨.overlay, 0⟩], .step, 1, none, false, false, false⟩ = .error .typeError := by decide +kernel
  unfold exData1d at e
  rw [h1] at e
  obtain ⟨D, hD⟩ := hall exNanH exNanBs st ⟨[⟨.overlay, 0⟩], .step, 1, none, false, false, false⟩ hf h1 (by simp [exNanH, Plot1d.axes])
    (by cases st with
      | none => trivial
      | some c => exact ⟨Or.inl rfl, fun _ _ => trivial⟩) rfl rfl
    (fun a ha => by
      simp [exNanH] at ha
      subst ha
      exact ⟨2, 0, 2, true, true, true, true, by decide, by decide +kernel⟩)
    (fun i => Or.inl fun r hr k hk => by
      simp [exNanBs] at hr
      subst hr
      rcases i with _ | i
      · have : k = .str "NaN" := (Option.some.inj hk).symm
        subst this
        rfl
      · cases hk)
  simp only [hD] at e
  cases e

/-- What a drawing of the records shows at `x` (the records are drawn in the order of their positions, each value holds up to the next position). -/
def shownAt (ds : List Datum) (x : ℚ) : Option ℚ :=
  let pts := ds.filterMap fun d => match d with
    | [(_, .num (some p)), (_, .num (some v))] => if p ≤ x then some (p, v) else none
    | _ => none
  (pts.find? fun p => pts.all fun q => decide (q.1 ≤ p.1)).map (·.2)

def exNarrowH : HistDef := ⟨[], [.split ⟨[0, 1 / 10 ^ 11, 1], false, false, false, true⟩], 0, .none⟩
def exNarrowBs : List (List Row) := [[⟨[], [.num (.fin 0)], [], none⟩, ⟨[], [.num (.fin 0)], [], none⟩,
  ⟨[], [.num (.fin (1/2))], [], none⟩, ⟨[], [.num (.fin (3/4))], [], none⟩, ⟨[], [.num (.fin (1/4))], [], none⟩]]

/-- C87 fails if the first bin is narrower than `1e-10` of the axis: here two rows are in the first bin and three in the second one, and the outline shows 2 in the
middle of the second one. -/
theorem C87_refuted_narrow : (match exData1d exNarrowH exNarrowBs ⟨[], .step, 0, none, false, false, false⟩ with
    | .ok ds => shownAt ds (1/2)
    | .error _ => none) = some 2 := by decide +kernel

end Verif
