import Verif.VegaAxis

/-!
# C86: plots of one variable show every bin once, with its value
-/

namespace Verif

/-! ## lemmas -/

theorem fields1d_other (F : Fmt) (b : Bool) (a : FixedAxis) (n : BinLabel) : fields1d F false b a n = [(.str (n.text F), false)] := by
  cases n with
  | iv lo hi cl ch => cases lo <;> cases hi <;> rfl
  | _ => rfl

theorem cellTexts_shown (F : Fmt) (H : HistDef) (hb : ∀ a ∈ H.fixed, a.Built) (gk : List Key) (idx : List ℕ) (hc : H.Cell idx) :
    List.zipWith (fun g k => DVal.str (GroupAxis.legend F g k)) H.groups gk ++
      List.zipWith (fun a i => DVal.str ((FixedAxis.shown a).getD i .nan |>.text F)) H.fixed idx = cellTexts F H gk idx := by
  unfold cellTexts
  congr 1
  apply List.ext_getElem
  · simp
  · intro i h1 h2
    simp only [List.length_zipWith, lt_min_iff] at h1
    simp only [List.getElem_zipWith]
    rw [shown_written _ (hb _ (List.getElem_mem h1.1))]
    have := hc
    have h3 : ∀ (as : List FixedAxis) (ix : List ℕ), List.Forall₂ (fun i n => i < n) ix (as.map FixedAxis.totbins) → ∀ (j : ℕ) (h1 : j < as.length) (h2 : j < ix.length),
        ix[j] < (as[j]).totbins := by
      intro as ix h
      intro j h1 h2
      have := (List.forall₂_iff_get.1 h).2 j h2 (by simpa using h1)
      simpa using this
    exact h3 _ _ this i h1.1 h1.2

theorem onAxes_built (H : HistDef) (axes : List ℕ) (hb : ∀ a ∈ H.fixed, a.Built) : ∀ a ∈ (H.onAxes axes).fixed, a.Built := by
  intro a ha
  obtain ⟨i, hi⟩ := List.getElem?_of_mem ha
  obtain ⟨j, j1, _⟩ := pick_get_from _ _ _ _ hi
  exact hb a (List.mem_of_getElem? j1)

theorem cell_length {H : HistDef} {idx : List ℕ} (h : H.Cell idx) : idx.length = H.fixed.length := by
  have := List.Forall₂.length_eq h
  simpa using this

/-- The histogram was filled from these batches, and a plot with these axes can be made: the axes exist; the keys of those group axes that are added up are
2, 4, 8, … (C32); the axes are as their constructors make them; on each group axis, the keys are only texts or only numbers, and for `groupbin` only numbers. -/
structure HistDef.Plottable (H : HistDef) (bs : List (List Row)) (st : H.State) (axes : List ℕ) : Prop where
  fillable : Fillable H bs
  filled : H.fillAll none bs = .ok st
  within : ∀ i ∈ axes, i < H.groups.length + H.fixed.length
  pow : H.PowKeys (H.keptG axes) st
  built : ∀ a ∈ H.fixed, a.Built
  kind : OneKind H bs.flatten
  noNan : NoNanKeys H bs.flatten

theorem hasWidth_built (a : FixedAxis) (h : a.Built) : a.HasWidth := by
  cases a with
  | bin a =>
    obtain ⟨n, lo, hi, u, o, na, cl, hn, e⟩ := h
    unfold BinAxis.init at e
    simp only at e
    split_ifs at e
    cases e
    exact hn.ne'
  | _ => trivial

/-- Both kinds of plots, before the fields of the last axis are known. -/
theorem data1d_spec (H : HistDef) (bs : List (List Row)) (st : H.State) (F : Fmt) (P : Plot1d) (pre : Datum) (var : String)
    (hok : H.Plottable bs st P.axes) (hno : H.Normalizable P bs.flatten) (hprof : ∀ p, P.prof = some p → p < H.nprof) :
    ∃ D cells, H.data1d F P pre var st = .ok D ∧ H.PlotCells P.axes st cells ∧
      D.data.Perm (((cells.flatMap fun c => (choices (fun j => fields1d F (decide (j = placeOf P.axes P.axis) && decide (H.xtype P = .quantitative)) P.mark.baseline)
          (H.onAxes P.axes).fixed (H.onAxes P.axes).groups.length c.2).map fun s =>
            (List.zipWith (fun g k => DVal.str (GroupAxis.legend F g k)) (H.onAxes P.axes).groups c.1 ++ s.1,
              if s.2 then List.replicate (if P.error then 2 else 1) (some 0) else H.valuesIn P bs.flatten c)).filter fun x => !P.log || aboveZero x.2).map
        fun x => (if P.error && P.mark.baseline then addCentre F var (placeOf P.axes P.axis) (H.positioned P) x.1 else id) (recordOf pre var x.1 x.2)) ∧
      H.DomainsOf P.axes bs.flatten cells D.domains ∧
      ∀ c ∈ cells, ∀ (i : ℕ) (g : GroupAxis) (k : Key), (H.onAxes P.axes).groups[i]? = some g → c.1[i]? = some k → ∃ l, g.item k = .ok l := by
  obtain ⟨rows, doms, cells, e1, hcells, hitem, hperm, hdoms⟩ := plotRows_values H bs hok.fillable st hok.filled P.axes hok.within hok.pow
    (plotOpts P.prof P.error P.normalized) (H.valuesIn P bs.flatten)
    (plot_table H P bs.flatten hno hprof fun a ha => hasWidth_built a (onAxes_built H P.axes hok.built a ha)) (fun a ha => shown_length a (hok.built a ha))
    hok.kind hok.noNan (fun _ => gfields1d F)
    (fun j => fields1d F (decide (j = placeOf P.axes P.axis) && decide (H.xtype P = .quantitative)) P.mark.baseline) (if P.error then 2 else 1)
  have e2 : H.data1d F P pre var st = .ok ⟨(rows.filter fun x => !P.log || positive x.2).map fun x =>
      (if P.error && P.mark.baseline then addCentre F var (placeOf P.axes P.axis) (H.positioned P) x.1 else id)
        (mkDatum pre var (x.1 ++ x.2.map .num)), doms⟩ := by
    unfold HistDef.data1d
    simp only [e1]
    rfl
  refine ⟨_, cells, e2, hcells, ?_, hdoms, hitem⟩
  simp only [mkDatum_record, positive_above]
  refine List.Perm.map _ (List.Perm.filter _ (hperm.trans (List.Perm.of_eq ?_)))
  refine List.flatMap_congr fun c hc => ?_
  have hlen := ((hcells.mem c.1 c.2).1 hc).2.1
  rw [gchoices_texts F _ _ _ hlen (hitem c hc)]
  simp only [List.flatMap_cons, List.flatMap_nil, List.append_nil]

/-- Plots whose last axis is drawn at positions. -/
theorem data1d_points (H : HistDef) (bs : List (List Row)) (st : H.State) (F : Fmt) (P : Plot1d) (pre : Datum) (var : String)
    (hok : H.Plottable bs st P.axes) (hno : H.Normalizable P bs.flatten) (hprof : ∀ p, P.prof = some p → p < H.nprof)
    (q : ℕ) (hq : P.axis = H.groups.length + q) (a : FixedAxis) (ha : H.fixed[q]? = some a) (hnum : a.numeric = true) (hbar : P.mark ≠ .bar)
    (pts : ℕ → List (ℚ × Bool))
    (hpts : ∀ i, i < a.totbins → fields1d F true P.mark.baseline a (a.written i) = (pts i).map fun p => (.num (some p.1), p.2)) :
    ∃ D cells, H.data1d F P pre var st = .ok D ∧ H.PlotCells P.axes st cells ∧
      D.data.Perm (((cells.flatMap fun c => (pts (c.2.getD (((H.keptF P.axes).take q).count true) 0)).map fun p =>
            ((cellTexts F (H.onAxes P.axes) c.1 c.2).set ((H.onAxes P.axes).groups.length + ((H.keptF P.axes).take q).count true) (.num (some p.1)),
              if p.2 then List.replicate (if P.error then 2 else 1) (some 0) else H.valuesIn P bs.flatten c)).filter fun x => !P.log || aboveZero x.2).map
        fun x => (if P.error && P.mark.baseline then addCentre F var ((H.onAxes P.axes).groups.length + ((H.keptF P.axes).take q).count true) (some a) x.1 else id)
          (recordOf pre var x.1 x.2)) := by
  have hql : q < H.fixed.length := (List.getElem?_eq_some_iff.1 ha).1
  have hmem : H.groups.length + q ∈ P.axes := by
    rw [← hq]
    simp [Plot1d.axes]
  obtain ⟨m, hm1, hm2, hm3⟩ := placeOf_fixed H P.axes q hql hmem
  have hat : H.axisAt P.axis = some (.inr a) := by
    unfold HistDef.axisAt
    rw [hq, List.getElem?_append_right (by simp)]
    simp [ha]
  have hxt : H.xtype P = .quantitative := by
    simp [HistDef.xtype, HistDef.numericAt, hat, hnum, hbar]
  have hpos : H.positioned P = some a := by
    simp [HistDef.positioned, hat, hxt]
  obtain ⟨D, cells, e1, hcells, hperm, _⟩ := data1d_spec H bs st F P pre var hok hno hprof
  refine ⟨D, cells, e1, hcells, hperm.trans ?_⟩
  have hplace : placeOf P.axes P.axis = (H.onAxes P.axes).groups.length + m := by rw [hq, hm1]
  rw [hpos, hplace, ← hm3]
  refine List.Perm.map _ (List.Perm.filter _ (List.Perm.of_eq ?_))
  refine List.flatMap_congr fun c hc => ?_
  obtain ⟨hcell, hgl, _⟩ := (hcells.mem c.1 c.2).1 hc
  have hml : m < (H.onAxes P.axes).fixed.length := by
    rw [ha] at hm2
    exact (List.getElem?_eq_some_iff.1 hm2).1
  have hcl := cell_length hcell
  have hi : c.2[m]? = some (c.2.getD m 0) := by
    rw [List.getElem?_eq_getElem (by omega), List.getD_eq_getElem?_getD, List.getElem?_eq_getElem (by omega)]
    rfl
  have hbound : c.2.getD m 0 < a.totbins := by
    have h3 := (List.forall₂_iff_get.1 hcell).2 m (by omega) (by simpa using hml)
    simp only [List.get_eq_getElem, List.getElem_map] at h3
    have h4 : (H.onAxes P.axes).fixed[m] = a := by
      have := hm2
      rw [ha, List.getElem?_eq_getElem hml] at this
      exact Option.some.inj this
    rw [h4] at h3
    rw [List.getD_eq_getElem?_getD, List.getElem?_eq_getElem (by omega)]
    exact h3
  rw [choices_one F _ (H.onAxes P.axes).fixed (H.onAxes P.axes).groups.length m c.2 a (c.2.getD m 0) (by omega) (by rw [hm2, ha]) hi]
  · have habuilt := onAxes_built H P.axes hok.built a (List.mem_of_getElem? (by rw [hm2, ha]))
    rw [shown_written a habuilt _ hbound]
    simp only [decide_true, hxt, Bool.and_self]
    rw [hpts _ hbound, List.map_map, List.map_map]
    refine List.map_congr_left fun p _ => ?_
    simp only [Function.comp]
    congr 1
    rw [← cellTexts_shown F (H.onAxes P.axes) (onAxes_built H P.axes hok.built) c.1 c.2 hcell]
    rw [List.set_append_right _ _ (by simp [hgl])]
    simp [hgl]
  · intro k b hk hbk n
    have : decide ((H.onAxes P.axes).groups.length + k = (H.onAxes P.axes).groups.length + m) = false := by
      simp only [decide_eq_false_iff_not]
      omega
    simp only [this, Bool.false_and]
    exact fields1d_other F _ _ _

/-- The centres of the published bins. -/
theorem fields1d_centre (F : Fmt) (a : FixedAxis) (ha : a.Built) (hn : a.numeric = true) (i : ℕ) (hi : i < a.totbins) :
    fields1d F true false a (a.written i) = ((a.keys[i]?.bind BinLabel.centre).toList.map fun x => (x, false)).map fun p => (.num (some p.1), p.2) := by
  have hflow : ∀ (k : BinLabel), (a.shown[i]? = some k → a.shown = a.keys → fields1d F true false a k =
      ((a.keys[i]?.bind BinLabel.centre).toList.map fun x => (x, false)).map fun p => (DVal.num (some p.1), p.2)) := by
    intro k hk hsk
    obtain ⟨e, n, u, o, na, cl, h1, _⟩ := shown_flow a ha hn
    rw [hsk] at hk
    rw [hk]
    rw [← hsk, h1] at hk
    rcases (flowKeys_get e n u o na cl i k).1 hk with ⟨_, _, rfl⟩ | ⟨j, _, _, rfl⟩ | ⟨_, _, rfl⟩ | ⟨_, _, rfl⟩
    · simp [fields1d, BinLabel.centre]
    · simp only [fields1d, BinLabel.centre, Bool.false_and, if_true, Bool.false_eq_true, if_false, Option.bind_some, Option.toList_some, List.map_cons,
        List.map_nil, List.nil_append, List.append_nil]
      congr 4
      ring
    · simp [fields1d, BinLabel.centre]
    · simp [fields1d, BinLabel.centre]
  have hget : a.shown[i]? = some (a.shown.getD i .nan) := by
    have : i < a.shown.length := by rw [shown_length a ha]; exact hi
    rw [List.getD_eq_getElem?_getD, List.getElem?_eq_getElem this]
    rfl
  rw [← shown_written a ha i hi]
  cases a with
  | cut => simp [FixedAxis.numeric] at hn
  | bin a => exact hflow _ hget rfl
  | split a => exact hflow _ hget rfl
  | intbin a =>
    rw [shown_written _ ha i hi]
    obtain ⟨k, hk⟩ := intbin_key a ha i hi
    have hk' : (FixedAxis.intbin a).keys[i]? = some k := hk
    rw [hk']
    simp only [FixedAxis.written, hk]
    rcases (intbin_keys_get _ i k).1 hk with ⟨h1, h2, rfl⟩ | ⟨j, h1, h2, rfl⟩ | ⟨h1, h2, rfl⟩
    · simp [fields1d, BinLabel.centre]
    · simp only [fields1d, BinLabel.centre, Bool.false_and, if_true, Bool.false_eq_true, if_false, Option.bind_some, Option.toList_some, List.map_cons,
        List.map_nil, List.nil_append, List.append_nil]
      congr 4
      ring
    · simp [fields1d, BinLabel.centre]

/-! ## C86 -/

/-- C86 for bars, and for axes without numbers.  For each group that was filled and each bin of the axes of the plot (also underflow, overflow and NaN bins) there
is exactly one record; it has the texts of the group and the bins, and the values of the rows in them, with any way to write numbers and keys.  On a
logarithmic scale, exactly the records whose value is a number greater than zero are left.
If the plot is normalized, the values are the counts over the widths of the bins, over the sum of all of these (`HistDef.valuesIn`; not an integral of 1: C46).
Missing: other cases than powers of two of group keys to add up (C32); keys that cannot be sorted or shown (`C86_refuted_nan`). -/
theorem C86_texts_partial (H : HistDef) (bs : List (List Row)) (st : H.State) (F : Fmt) (P : Plot1d) (pre : Datum) (var : String)
    (hok : H.Plottable bs st P.axes) (hno : H.Normalizable P bs.flatten) (hprof : ∀ p, P.prof = some p → p < H.nprof)
    (hx : P.mark = .bar ∨ H.numericAt P.axis = false) (he : P.error = true → P.mark ≠ .step ∧ P.mark ≠ .area) :
    ∃ D cells, H.data1d F P pre var st = .ok D ∧ H.PlotCells P.axes st cells ∧
      D.data.Perm ((cells.filter fun c => !P.log || aboveZero (H.valuesIn P bs.flatten c)).map fun c =>
        recordOf pre var (cellTexts F (H.onAxes P.axes) c.1 c.2) (H.valuesIn P bs.flatten c)) := by
  obtain ⟨D, cells, e1, hcells, hperm, _⟩ := data1d_spec H bs st F P pre var hok hno hprof
  refine ⟨D, cells, e1, hcells, hperm.trans ?_⟩
  have hxt : decide (H.xtype P = .quantitative) = false := by
    unfold HistDef.xtype
    rcases hx with hx | hx
    · cases H.numericAt P.axis <;> simp [hx]
    · simp [hx]
  have heb : (P.error && P.mark.baseline) = false := by
    cases hE : P.error with
    | false => rfl
    | true =>
      obtain ⟨h1, h2⟩ := he hE
      cases hm : P.mark <;> simp_all [Mark.baseline]
  rw [heb]
  simp only [hxt, Bool.and_false, Bool.false_eq_true, if_false, id]
  have hflat : (cells.flatMap fun c => (choices (fun j => fields1d F false P.mark.baseline)
          (H.onAxes P.axes).fixed (H.onAxes P.axes).groups.length c.2).map fun s =>
            (List.zipWith (fun g k => DVal.str (GroupAxis.legend F g k)) (H.onAxes P.axes).groups c.1 ++ s.1,
              if s.2 then List.replicate (if P.error then 2 else 1) (some 0) else H.valuesIn P bs.flatten c)) =
      cells.map fun c => (cellTexts F (H.onAxes P.axes) c.1 c.2, H.valuesIn P bs.flatten c) := by
    rw [List.map_eq_flatMap]
    refine List.flatMap_congr fun c hc => ?_
    obtain ⟨hcell, hgl, _⟩ := (hcells.mem c.1 c.2).1 hc
    rw [choices_texts F _ _ _ _ (cell_length hcell) (fun k a _ n => fields1d_other F _ _ _)]
    simp only [List.map_cons, List.map_nil, Bool.false_eq_true, if_false]
    rw [cellTexts_shown F (H.onAxes P.axes) (onAxes_built H P.axes hok.built) c.1 c.2 hcell]
  rw [hflat, List.filter_map, List.map_map]
  rfl

/-- C86 for lines and markers along an axis of numbers: the same, but only for the finite bins of this axis (number `q` of the fixed axes), and instead
of its text the record has the centre of the published bin (the integer itself, if the bin has only one). -/
theorem C86_centres_partial (H : HistDef) (bs : List (List Row)) (st : H.State) (F : Fmt) (P : Plot1d) (pre : Datum) (var : String)
    (hok : H.Plottable bs st P.axes) (hno : H.Normalizable P bs.flatten) (hprof : ∀ p, P.prof = some p → p < H.nprof)
    (q : ℕ) (hq : P.axis = H.groups.length + q) (a : FixedAxis) (ha : H.fixed[q]? = some a) (hnum : a.numeric = true)
    (hmark : P.mark = .line ∨ P.mark = .marker) :
    let m := ((H.keptF P.axes).take q).count true
    ∃ D cells, H.data1d F P pre var st = .ok D ∧ H.PlotCells P.axes st cells ∧
      D.data.Perm ((cells.filter fun c => !P.log || aboveZero (H.valuesIn P bs.flatten c)).filterMap fun c =>
        (a.keys[c.2.getD m 0]?.bind BinLabel.centre).map fun x =>
          recordOf pre var ((cellTexts F (H.onAxes P.axes) c.1 c.2).set ((H.onAxes P.axes).groups.length + m) (.num (some x))) (H.valuesIn P bs.flatten c)) := by
  intro m
  have hbase : P.mark.baseline = false := by rcases hmark with h | h <;> rw [h] <;> rfl
  obtain ⟨D, cells, e1, hcells, hperm⟩ := data1d_points H bs st F P pre var hok hno hprof q hq a ha hnum
    (by rcases hmark with h | h <;> rw [h] <;> decide)
    (fun i => (a.keys[i]?.bind BinLabel.centre).toList.map fun x => (x, false))
    (fun i hi => by rw [hbase]; exact fields1d_centre F a (hok.built a (List.mem_of_getElem? ha)) hnum i hi)
  refine ⟨D, cells, e1, hcells, hperm.trans (List.Perm.of_eq ?_)⟩
  rw [hbase]
  simp only [Bool.and_false, Bool.false_eq_true, if_false, id, List.map_map, Function.comp_def]
  clear hperm hcells
  induction cells with
  | nil => rfl
  | cons c cells ih =>
    rw [List.flatMap_cons, List.filter_append, List.map_append, ih, List.filter_cons]
    cases hk : a.keys[c.2.getD m 0]?.bind BinLabel.centre with
    | none =>
      simp only [m] at hk
      simp only [Option.toList_none, List.map_nil, List.filter_nil, List.nil_append]
      split
      · simp only [List.filterMap_cons, m, hk, Option.map_none]
      · rfl
    | some x =>
      simp only [m] at hk
      simp only [Option.toList_some, List.map_cons, List.map_nil, List.filter_cons, List.filter_nil]
      split
      · simp only [List.filterMap_cons, m, hk, Option.map_some, List.map_cons, List.map_nil, List.cons_append, List.nil_append]
      · simp

/-- What is written for an `intbin` axis has the same integers in it as the published bin. -/
theorem C86_written (a : IntbinAxis) (i : ℕ) (l : BinLabel) (hl : a.keys[i]? = some l) (n : ℤ) :
    (Val.int n).In ((FixedAxis.intbin a).written i) = (Val.int n).In l := by
  simp only [FixedAxis.written, hl]
  rcases (intbin_keys_get _ i l).1 hl with ⟨h1, h2, rfl⟩ | ⟨j, h1, h2, rfl⟩ | ⟨h1, h2, rfl⟩
  · simp only [Val.In, BinLabel.mem, Val.toNum, Num.le, Num.lt, Bool.false_eq_true, if_false, if_true, decide_eq_decide, decide_eq_true_eq, true_and]
    rw [show (a.min : ℚ) - 1 / 2 = ((2 * a.min - 1 : ℤ) : ℚ) / 2 by push_cast; ring, lt_div_iff₀ (by norm_num)]
    norm_cast
    omega
  · simp only [Val.In, BinLabel.mem, Val.toNum, Num.le, Num.lt, Bool.false_eq_true, if_false, if_true, decide_eq_decide, decide_eq_true_eq, Num.fin.injEq]
    constructor
    · rintro ⟨h3, h4⟩
      have h5 : (a.min + j : ℤ) < n + 1 := by
        have : ((a.min + j : ℤ) : ℚ) < ((n + 1 : ℤ) : ℚ) := by push_cast at *; linarith
        exact_mod_cast this
      have h6 : n < a.min + j + 1 := by
        have : (n : ℚ) < ((a.min + j + 1 : ℤ) : ℚ) := by push_cast at *; linarith
        exact_mod_cast this
      have : n = a.min + j := by omega
      rw [this]
    · intro h3
      have : n = a.min + j := by exact_mod_cast h3
      subst this
      push_cast
      constructor <;> linarith
  · simp only [Val.In, BinLabel.mem, Val.toNum, Num.le, Num.lt, Bool.false_eq_true, if_false, if_true, decide_eq_decide, decide_eq_true_eq, and_true]
    rw [show (a.max : ℚ) + 1 / 2 = ((2 * a.max + 1 : ℤ) : ℚ) / 2 by push_cast; ring, div_le_iff₀ (by norm_num)]
    norm_cast
    omega

end Verif
