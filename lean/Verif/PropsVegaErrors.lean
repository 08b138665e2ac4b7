import Verif.PropsVegaLegend

/-!
# C92: error bars are at the bins
-/

namespace Verif

/-! ## specification -/

/-- The layer draws, for this record, a bar at `x` around the first value, as far as the second one says. -/
def ErrorBars.Shows (b : ErrorBars) (d : Datum) (x : ℚ) (vals : List (Option ℚ)) : Prop :=
  (b.x, .num (some x)) ∈ d ∧ ∃ v s, vals = [v, s] ∧ (b.y, .num v) ∈ d ∧ (b.err, .num s) ∈ d

/-! ## lemmas -/

theorem mem_recordOf_val (pre : Datum) (var : String) (texts : List DVal) (vals : List (Option ℚ)) (j : ℕ) (v : Option ℚ) (h : vals[j]? = some v) :
    (PName.col var (texts.length + j), .num v) ∈ recordOf pre var texts vals := by
  unfold recordOf
  refine List.mem_append.2 (Or.inr ?_)
  have hj := (List.getElem?_eq_some_iff.1 h).1
  rw [List.mem_iff_getElem?]
  refine ⟨texts.length + j, ?_⟩
  rw [List.getElem?_zipWith, List.getElem?_range (by omega), List.getElem?_append_right (by omega), Nat.add_sub_cancel_left, List.getElem?_map, h]
  rfl

theorem valuesIn_pair (H : HistDef) (P : Plot1d) (rows : List Row) (c : List Key × List ℕ) (hE : P.error = true) :
    ∃ v s, H.valuesIn P rows c = [v, s] := by
  unfold HistDef.valuesIn normSpec tableSpec
  rw [hE]
  cases hp : P.prof with
  | none => cases P.normalized <;> exact ⟨_, _, rfl⟩
  | some p =>
    cases P.normalized <;>
    · simp only [Option.isNone_some, Bool.false_eq_true, if_false, if_true, List.nil_append, Option.toList_some, List.flatMap_cons, List.flatMap_nil, List.append_nil]
      split
      · exact ⟨_, _, rfl⟩
      · exact ⟨_, _, rfl⟩

theorem placeOf_all (H : HistDef) (axes : List ℕ) : H.plotAxes axes = (H.onAxes axes).groups.length + (H.onAxes axes).fixed.length := by
  have h1 : (H.onAxes axes).groups.length = (H.keptG axes).count true := pick_length _ _ (by simp [HistDef.keptG])
  have h2 : (H.onAxes axes).fixed.length = (H.keptF axes).count true := pick_length _ _ (by simp [HistDef.keptF])
  rw [h1, h2]
  unfold HistDef.plotAxes placeOf HistDef.keptG HistDef.keptF
  rw [List.range_add, List.filter_append, List.length_append, List.count_eq_countP, List.countP_map, List.countP_eq_length_filter, List.count_eq_countP,
    List.countP_map, List.countP_eq_length_filter, List.filter_map, List.length_map]
  congr 2
  · refine List.filter_congr fun x _ => by simp
  · refine List.filter_congr fun x _ => by simp [Nat.add_comm]

theorem edges_of_centre (a : FixedAxis) (ha : a.Built) (hn : a.numeric = true) (i : ℕ) (x : ℚ) (h : a.keys[i]?.bind BinLabel.centre = some x) :
    ∃ lo hi, a.edgesAt i = some (lo, hi) := by
  obtain ⟨l, hl, hx⟩ := Option.bind_eq_some_iff.1 h
  unfold FixedAxis.edgesAt
  cases a with
  | cut => cases hn
  | intbin b =>
    have hl' : b.keys[i]? = some l := hl
    simp only [FixedAxis.written, hl']
    rcases (intbin_keys_get _ i l).1 hl' with ⟨_, _, rfl⟩ | ⟨j, _, _, rfl⟩ | ⟨_, _, rfl⟩
    · cases hx
    · exact ⟨_, _, rfl⟩
    · cases hx
  | bin b =>
    obtain ⟨e, n, u, o, na, cl, h1, _⟩ := shown_flow (.bin b) ha hn
    have hl' : (FixedAxis.bin b).shown[i]? = some l := hl
    simp only [FixedAxis.written, List.getD_eq_getElem?_getD, hl, Option.getD_some]
    rw [h1] at hl'
    rcases (flowKeys_get e n u o na cl i l).1 hl' with ⟨_, _, rfl⟩ | ⟨j, _, _, rfl⟩ | ⟨_, _, rfl⟩ | ⟨_, _, rfl⟩
    · cases hx
    · exact ⟨_, _, rfl⟩
    · cases hx
    · cases hx
  | split b =>
    obtain ⟨e, n, u, o, na, cl, h1, _⟩ := shown_flow (.split b) ha hn
    have hl' : (FixedAxis.split b).shown[i]? = some l := hl
    simp only [FixedAxis.written, List.getD_eq_getElem?_getD, hl, Option.getD_some]
    rw [h1] at hl'
    rcases (flowKeys_get e n u o na cl i l).1 hl' with ⟨_, _, rfl⟩ | ⟨j, _, _, rfl⟩ | ⟨_, _, rfl⟩ | ⟨_, _, rfl⟩
    · cases hx
    · exact ⟨_, _, rfl⟩
    · cases hx
    · cases hx

/-- Channels leave the position alone. -/
theorem encode_keeps (F : Fmt) (axes : List ℕ) (doms : List (Option (List DKey))) (var : String) (ch : List Channel) :
    ∀ e e', foldE (encodeChannel F axes doms var) e ch = .ok e' → e'.y = e.y ∧ e'.xtype = e.xtype := by
  induction ch with
  | nil =>
    intro e e' h
    cases h
    exact ⟨rfl, rfl⟩
  | cons c ch ih =>
    intro e e' h
    rw [foldE] at h
    cases hc : encodeChannel F axes doms var e c with
    | error er => rw [hc] at h; cases h
    | ok e1 =>
      rw [hc] at h
      obtain ⟨h1, h2⟩ := ih e1 e' h
      have h3 : e1.y = e.y ∧ e1.xtype = e.xtype := by
        unfold encodeChannel at hc
        simp only at hc
        split at hc
        · split at hc
          · cases hc
          · obtain ⟨_, _, rfl⟩ := except_map_ok hc; exact ⟨rfl, rfl⟩
        · split at hc
          · cases hc
          · split at hc
            · cases hc
            · obtain ⟨_, _, rfl⟩ := except_map_ok hc; exact ⟨rfl, rfl⟩
        · obtain ⟨_, _, rfl⟩ := except_map_ok hc; exact ⟨rfl, rfl⟩
        · cases hc; exact ⟨rfl, rfl⟩
        · cases hc; exact ⟨rfl, rfl⟩
      exact ⟨h1.trans h3.1, h2.trans h3.2⟩

/-! ## C92 -/

/-- C92: a plot with error bars, along an axis of numbers, draws the marks and the error bars.  Each finite bin (whose value is positive, on a logarithmic scale) has a
record whose error bar is at the centre of the bin, around the value of the bin, as long as its error says.  The other records are those of the ends of an outline: bars
of no length at zero.
Missing: bars (`C92_refuted_text`), stacks (`C92_refuted_stack`), and what is missing in C86 and C87. -/
theorem C92_errors_partial (H : HistDef) (bs : List (List Row)) (st : H.State) (F : Fmt) (P : Plot1d) (pre : Datum) (var : String)
    (hok : H.Plottable bs st P.axes) (hno : H.Normalizable P bs.flatten) (hprof : ∀ p, P.prof = some p → p < H.nprof) (hE : P.error = true)
    (q : ℕ) (hq : P.axis = H.groups.length + q) (a : FixedAxis) (ha : H.fixed[q]? = some a) (hnum : a.numeric = true)
    (hmark : P.mark ≠ .bar) (hfirst : P.mark.baseline = true → a.FirstWide) (D : PlotData) (hD : H.data1d F P pre var st = .ok D)
    (ls : List Drawn) (hls : H.layers1d F P D.domains var = .ok ls) :
    let m := ((H.keptF P.axes).take q).count true
    let centre := fun c : List Key × List ℕ => a.keys[c.2.getD m 0]?.bind BinLabel.centre
    ∃ e b cells, ls = [.one e, .errors b] ∧ b.y = e.y ∧ b.xtype = e.xtype ∧ H.PlotCells P.axes st cells ∧
      (∀ c ∈ cells, ∀ x, centre c = some x → (P.log = true → aboveZero (H.valuesIn P bs.flatten c) = true) →
        ∃ d ∈ D.data, b.Shows d x (H.valuesIn P bs.flatten c)) ∧
      ∀ d ∈ D.data, (∃ c ∈ cells, ∃ x, centre c = some x ∧ b.Shows d x (H.valuesIn P bs.flatten c)) ∨
        P.mark.baseline = true ∧ ∃ x, b.Shows d x [some 0, some 0] := by
  intro m centre
  have hbuilt := hok.built a (List.mem_of_getElem? ha)
  have hql : q < H.fixed.length := (List.getElem?_eq_some_iff.1 ha).1
  have hmem : H.groups.length + q ∈ P.axes := by
    rw [← hq]
    simp [Plot1d.axes]
  obtain ⟨m', hm1, hm2, hm3⟩ := placeOf_fixed H P.axes q hql hmem
  have hm' : m' = m := hm3
  subst hm'
  have hmm : ((H.keptF P.axes).take q).count true = m := rfl
  rw [ha] at hm2
  have hml := (List.getElem?_eq_some_iff.1 hm2).1
  have hxt : H.xtype P = .quantitative := by
    unfold HistDef.xtype HistDef.numericAt
    have : H.axisAt P.axis = some (.inr a) := by
      unfold HistDef.axisAt
      rw [hq, List.getElem?_append_right (by simp)]
      simp [ha]
    rw [this]
    simp [hnum, hmark]
  -- the layers
  obtain ⟨e, he, rfl, hey, hext⟩ : ∃ e : Encoding, True ∧ ls = [.one e, .errors ⟨if P.mark.baseline then .centre var (placeOf P.axes P.axis) else
      .col var (placeOf P.axes P.axis), .quantitative, .col var (H.plotAxes P.axes), .col var (H.plotAxes P.axes + 1)⟩] ∧ e.y = .col var (H.plotAxes P.axes) ∧
      e.xtype = .quantitative := by
    unfold HistDef.layers1d at hls
    simp only at hls
    obtain ⟨e, he, h2⟩ := except_map_ok hls
    rw [hE] at h2
    obtain ⟨h3, h4⟩ := encode_keeps F P.axes D.domains var P.chain _ e he
    exact ⟨e, trivial, h2.symm, h3, by rw [h4]; exact hxt⟩
  have htl : ∀ c : List Key × List ℕ, (H.onAxes P.axes).Cell c.2 → c.1.length = (H.onAxes P.axes).groups.length →
      (cellTexts F (H.onAxes P.axes) c.1 c.2).length = H.plotAxes P.axes := by
    intro c h1 h2
    rw [placeOf_all]
    simp only [cellTexts, List.length_append, List.length_zipWith, h2, cell_length h1]
    omega
  -- one record
  have hshow : ∀ (c : List Key × List ℕ) (x y : ℚ) (vals : List (Option ℚ)) (tail : Datum), (H.onAxes P.axes).Cell c.2 →
      c.1.length = (H.onAxes P.axes).groups.length → (∃ v s, vals = [v, s]) →
      (if P.mark.baseline then (PName.centre var (placeOf P.axes P.axis), DVal.num (some y)) ∈ tail else x = y) →
      ErrorBars.Shows ⟨if P.mark.baseline then .centre var (placeOf P.axes P.axis) else .col var (placeOf P.axes P.axis), .quantitative,
        .col var (H.plotAxes P.axes), .col var (H.plotAxes P.axes + 1)⟩
        (recordOf pre var ((cellTexts F (H.onAxes P.axes) c.1 c.2).set ((H.onAxes P.axes).groups.length + m) (.num (some x))) vals ++ tail) y vals := by
    intro c x y vals tail h1 h2 ⟨v, s, h3⟩ h4
    have hl := htl c h1 h2
    refine ⟨?_, v, s, h3, ?_, ?_⟩
    · by_cases hb : P.mark.baseline = true
      · simp only [hb, if_true] at h4 ⊢
        exact List.mem_append.2 (Or.inr h4)
      · simp only [hb, Bool.false_eq_true, if_false] at h4 ⊢
        subst h4
        refine List.mem_append.2 (Or.inl (mem_recordOf _ _ _ _ _ _ ?_))
        rw [hq, hm1, List.getElem?_set_self]
        rw [hl, placeOf_all]
        omega
    · have := mem_recordOf_val pre var ((cellTexts F (H.onAxes P.axes) c.1 c.2).set ((H.onAxes P.axes).groups.length + m) (.num (some x))) vals 0 v (by rw [h3]; rfl)
      rw [List.length_set, hl] at this
      exact List.mem_append.2 (Or.inl this)
    · have := mem_recordOf_val pre var ((cellTexts F (H.onAxes P.axes) c.1 c.2).set ((H.onAxes P.axes).groups.length + m) (.num (some x))) vals 1 s (by rw [h3]; rfl)
      rw [List.length_set, hl] at this
      exact List.mem_append.2 (Or.inl this)
  clear_value m
  by_cases hb : P.mark.baseline = true
  · have hmark' : P.mark = .step ∨ P.mark = .area := by
      cases hpm : P.mark with
      | step => exact Or.inl rfl
      | area => exact Or.inr rfl
      | bar => exact absurd hpm hmark
      | _ => rw [hpm] at hb; cases hb
    obtain ⟨D', cells, e1, hcells, hperm⟩ := outline_records H bs st F P pre var hok hno hprof q hq a ha hnum hmark' (hfirst hb)
    simp only [hmm] at hperm
    rw [hD] at e1
    cases e1
    refine ⟨e, _, cells, rfl, hey.symm, hext.symm, hcells, ?_, ?_⟩
    · intro c hc x hx hlog
      obtain ⟨h1, h2, _⟩ := (hcells.mem c.1 c.2).1 hc
      obtain ⟨lo, hi, hed⟩ := edges_of_centre a hbuilt hnum _ _ hx
      have hpt : (if lo = a.range.1 then lo + tiny * (a.range.2 - a.range.1) else lo, false) ∈ basePoints a (c.2.getD m 0) := by
        unfold basePoints
        rw [hed]
        simp
      refine ⟨_, hperm.mem_iff.2 (List.mem_map.2 ⟨(c, _), List.mem_filter.2 ⟨List.mem_flatMap.2 ⟨c, hc, List.mem_map.2 ⟨_, hpt, rfl⟩⟩, ?_⟩, rfl⟩), ?_⟩
      · simp only [Bool.false_eq_true, if_false]
        cases hl : P.log with
        | false => rfl
        | true => exact hlog hl
      · simp only [Bool.false_eq_true, if_false]
        refine hshow c _ x _ _ h1 h2 (valuesIn_pair H P _ c hE) ?_
        have hx' : a.keys[c.2.getD m 0]?.bind BinLabel.centre = some x := hx
        rw [if_pos hb, if_pos hE, hx', hq, hm1]
        simp
    · intro d hd
      obtain ⟨x, hx, rfl⟩ := List.mem_map.1 (hperm.mem_iff.1 hd)
      obtain ⟨c, hc, hx2⟩ := List.mem_flatMap.1 (List.mem_filter.1 hx).1
      obtain ⟨p, hpp, rfl⟩ := List.mem_map.1 hx2
      obtain ⟨h1, h2, _⟩ := (hcells.mem c.1 c.2).1 hc
      cases hp2 : p.2 with
      | true =>
        refine Or.inr ⟨hb, p.1, ?_⟩
        simp only [if_true, hE]
        refine hshow c _ p.1 _ _ h1 h2 ⟨_, _, rfl⟩ ?_
        rw [if_pos hb, hq, hm1]
        simp
      | false =>
        refine Or.inl ⟨c, hc, ?_⟩
        have hbound : c.2.getD m 0 < a.totbins := by
          have hcl := cell_length h1
          have h3 := (List.forall₂_iff_get.1 h1).2 m (by omega) (by simpa using hml)
          simp only [List.get_eq_getElem, List.getElem_map] at h3
          have h4 : (H.onAxes P.axes).fixed[m] = a := by
            have := hm2
            rw [List.getElem?_eq_getElem hml] at this
            exact Option.some.inj this
          rw [h4] at h3
          rw [List.getD_eq_getElem?_getD, List.getElem?_eq_getElem (by omega)]
          exact h3
        cases hed : a.edgesAt (c.2.getD m 0) with
        | none => simp only [basePoints, hed] at hpp; cases hpp
        | some lh =>
          obtain ⟨lo, hi⟩ := lh
          have hce := centre_edges a hbuilt hnum _ hbound lo hi hed
          refine ⟨_, hce, ?_⟩
          simp only [Bool.false_eq_true, if_false]
          refine hshow c _ _ _ _ h1 h2 (valuesIn_pair H P _ c hE) ?_
          rw [if_pos hb, if_pos hE, hce, hq, hm1]
          simp
  · have hmark' : P.mark = .line ∨ P.mark = .marker := by
      cases hpm : P.mark with
      | line => exact Or.inl rfl
      | marker => exact Or.inr rfl
      | bar => exact absurd hpm hmark
      | _ => rw [hpm] at hb; exact absurd rfl hb
    obtain ⟨D', cells, e1, hcells, hperm⟩ := C86_centres_partial H bs st F P pre var hok hno hprof q hq a ha hnum hmark'
    simp only [hmm] at hperm
    rw [hD] at e1
    cases e1
    have hone : ∀ c ∈ cells, ∀ x, centre c = some x → ErrorBars.Shows ⟨if P.mark.baseline then .centre var (placeOf P.axes P.axis) else .col var (placeOf P.axes P.axis),
        .quantitative, .col var (H.plotAxes P.axes), .col var (H.plotAxes P.axes + 1)⟩
        (recordOf pre var ((cellTexts F (H.onAxes P.axes) c.1 c.2).set ((H.onAxes P.axes).groups.length + m) (.num (some x))) (H.valuesIn P bs.flatten c))
        x (H.valuesIn P bs.flatten c) := by
      intro c hc x hx
      obtain ⟨h1, h2, _⟩ := (hcells.mem c.1 c.2).1 hc
      have := hshow c x x (H.valuesIn P bs.flatten c) [] h1 h2 (valuesIn_pair H P _ c hE) (by rw [if_neg hb])
      rwa [List.append_nil] at this
    refine ⟨e, _, cells, rfl, hey.symm, hext.symm, hcells, ?_, ?_⟩
    · intro c hc x hx hlog
      refine ⟨_, hperm.mem_iff.2 (List.mem_filterMap.2 ⟨c, List.mem_filter.2 ⟨hc, ?_⟩, ?_⟩), hone c hc x hx⟩
      · cases hl : P.log with
        | false => rfl
        | true => exact hlog hl
      · have hx' : a.keys[c.2.getD m 0]?.bind BinLabel.centre = some x := hx
        show Option.map _ (a.keys[c.2.getD m 0]?.bind BinLabel.centre) = _
        rw [hx']
        rfl
    · intro d hd
      obtain ⟨c, hc, hx⟩ := List.mem_filterMap.1 (hperm.mem_iff.1 hd)
      obtain ⟨x, hx1, rfl⟩ := Option.map_eq_some_iff.1 hx
      exact Or.inl ⟨c, (List.mem_filter.1 hc).1, x, hx1, hone c (List.mem_filter.1 hc).1 x hx1⟩

/-! ## examples and refutations -/

example : (exDrawn exH exPlotBs ⟨[⟨.overlay, 0⟩], .marker, 1, none, true, false, true⟩) = .ok
    ([[(.col "a" 0, .str "a"), (.col "a" 1, .num (some (3/2))), (.col "a" 2, .num (some 3)), (.col "a" 3, .num (some 9))],
      [(.col "a" 0, .str "b"), (.col "a" 1, .num (some (1/2))), (.col "a" 2, .num (some 2)), (.col "a" 3, .num (some 4))]],
     [.one { x := .col "a" 1, xtype := .quantitative, y := .col "a" 2, color := some (.col "a" 0, ["a", "b"]) },
      .errors ⟨.col "a" 1, .quantitative, .col "a" 2, .col "a" 3⟩]) := by decide +kernel

/-- The hypotheses of C92 are met. -/
example (mk : Mark) (hm : mk ≠ .bar) : ∃ st D ls e b, exH.data1d exFmt ⟨[⟨.overlay, 0⟩], mk, 1, none, true, false, false⟩ [] "a" st = .ok D ∧
    exH.layers1d exFmt ⟨[⟨.overlay, 0⟩], mk, 1, none, true, false, false⟩ D.domains "a" = .ok ls ∧ ls = [.one e, .errors b] := by
  obtain ⟨st, h⟩ := exPlottable [0, 1] (Or.inl rfl)
  obtain ⟨D, _, hD, _⟩ := data1d_spec exH exPlotBs st exFmt ⟨[⟨.overlay, 0⟩], mk, 1, none, true, false, false⟩ [] "a" h (.of rfl) (by simp)
  have e : ((exDrawn exH exPlotBs ⟨[⟨.overlay, 0⟩], mk, 1, none, true, false, false⟩).map fun _ => ()) = .ok () := by
    cases mk <;> decide +kernel
  unfold exDrawn at e
  rw [h.filled] at e
  simp only [hD] at e
  cases hl : exH.layers1d exFmt ⟨[⟨.overlay, 0⟩], mk, 1, none, true, false, false⟩ D.domains "a" with
  | error er => rw [hl] at e; cases e
  | ok ls =>
    obtain ⟨e', b, _, h1, _⟩ := C92_errors_partial exH exPlotBs st exFmt ⟨[⟨.overlay, 0⟩], mk, 1, none, true, false, false⟩ [] "a" h (.of rfl) (by simp) rfl
      0 rfl (.bin ⟨2, 0, 2, true, true, true, true⟩) rfl rfl hm (fun _ => firstWide_bin _ (h.built _ (by simp [exH])) (by norm_num)) D hD ls hl
    exact ⟨st, D, ls, e', b, hD, hl, h1⟩

/-- C92 fails for bars (and for all axes without numbers): the bars are at texts, and the layer of the error bars says that these are numbers. -/
theorem C92_refuted_text : exDrawn exH exPlotBs ⟨[], .bar, 1, none, true, false, true⟩ = .ok
    ([[(.col "a" 0, .str "[0, 1)"), (.col "a" 1, .num (some 2)), (.col "a" 2, .num (some 4))],
      [(.col "a" 0, .str "[1, 2)"), (.col "a" 1, .num (some 3)), (.col "a" 2, .num (some 9))],
      [(.col "a" 0, .str "[2, inf]"), (.col "a" 1, .num (some 5)), (.col "a" 2, .num (some 25))]],
     [.one { x := .col "a" 0, xtype := .ordinal, y := .col "a" 1 }, .errors ⟨.col "a" 0, .quantitative, .col "a" 1, .col "a" 2⟩]) := by decide +kernel

def exStackBs : List (List Row) := [[exRow "b" (1/2) (some 2), exRow "a" (1/2) (some 3)]]

/-- C92 fails for stacks: in the first bin the bars of both groups reach 2 + 3 = 5, and the error bars are around 2 and 3. -/
theorem C92_refuted_stack : exDrawn exH exStackBs ⟨[⟨.stack none, 0⟩], .bar, 1, none, true, false, true⟩ = .ok
    ([[(.col "a" 0, .str "a"), (.col "a" 1, .str "[0, 1)"), (.col "a" 2, .num (some 3)), (.col "a" 3, .num (some 9))],
      [(.col "a" 0, .str "b"), (.col "a" 1, .str "[0, 1)"), (.col "a" 2, .num (some 2)), (.col "a" 3, .num (some 4))]],
     [.one { x := .col "a" 1, xtype := .ordinal, y := .col "a" 2, color := some (.col "a" 0, ["b", "a"]),
             order := some (.col "a" 0, .ite "a" 0 (.ite "b" 1 (.num 2))) },
      .errors ⟨.col "a" 1, .quantitative, .col "a" 2, .col "a" 3⟩]) := by decide +kernel

end Verif
