import Verif.SpecVegaHeat
import Verif.PropsVegaOutline
import Verif.PropsVegaChain
import Verif.PropsRoot

/-!
# C88: heatmaps show every finite bin once, with its value
-/

namespace Verif

/-! ## lemmas -/

theorem sequenceO_append {α : Type} (xs ys : List (Option α)) : sequenceO (xs ++ ys) = (sequenceO xs).bind fun a => (sequenceO ys).map fun b => a ++ b := by
  induction xs with
  | nil => simp [sequenceO]
  | cons x xs ih =>
    simp only [List.cons_append, sequenceO, ih]
    cases x with
    | none => rfl
    | some x =>
      cases h1 : sequenceO xs <;> cases h2 : sequenceO ys <;> simp

theorem fields2d_eq (F : Fmt) (d : Bool) (a : FixedAxis) (n : BinLabel) : (fields2d F d n).map (fun f => (f, false)) = fields1d F d false a n := by
  cases n with
  | iv lo hi cl ch => cases lo <;> cases hi <;> cases d <;> rfl
  | _ => cases d <;> rfl

theorem fields2d_spot (F : Fmt) (d : Bool) (a : FixedAxis) (ha : a.Built) (i : ℕ) (hi : i < a.totbins) :
    (fields2d F d (a.shown.getD i .nan)).map (fun f => (f, false)) =
      (if d then a.spot F i else some (.str ((a.written i).text F))).toList.map (fun f => (f, false)) := by
  rw [shown_written a ha i hi, fields2d_eq F d a]
  cases d with
  | false => rw [fields1d_other]; rfl
  | true =>
    by_cases hn : a.numeric = true
    · rw [fields1d_centre F a ha hn i hi]
      have : a.spot F i = (a.keys[i]?.bind BinLabel.centre).map fun q => .num (some q) := by
        cases a with
        | cut => simp [FixedAxis.numeric] at hn
        | _ => rfl
      rw [if_pos rfl, this]
      cases a.keys[i]?.bind BinLabel.centre <;> rfl
    · cases a with
      | cut =>
        have : i = 0 ∨ i = 1 := by
          have : i < 2 := hi
          omega
        rcases this with rfl | rfl <;> rfl
      | _ => exact absurd rfl hn

theorem choices_spots (F : Fmt) (drawn : ℕ → Bool) : ∀ (as : List FixedAxis) (j : ℕ) (idx : List ℕ), (∀ a ∈ as, a.Built) →
    List.Forall₂ (fun i n => i < n) idx (as.map FixedAxis.totbins) →
    choices (fun j _ n => (fields2d F (drawn j) n).map fun f => (f, false)) as j idx = (sequenceO (spotsF F drawn j as idx)).toList.map fun r => (r, false)
  | [], _, [], _, _ => rfl
  | a :: as, j, i :: idx, hb, h => by
    cases h with
    | cons h1 h2 =>
      rw [choices, choices_spots F drawn as (j + 1) idx (fun b hm => hb b (by simp [hm])) h2, fields2d_spot F _ a (hb a (by simp)) i h1, spotsF, sequenceO]
      cases (if drawn j then a.spot F i else some (.str ((a.written i).text F))) with
      | none => rfl
      | some x => cases sequenceO (spotsF F drawn (j + 1) as idx) <;> rfl

theorem gchoices_spots (F : Fmt) (drawn : ℕ → Bool) : ∀ (gs : List GroupAxis) (j : ℕ) (gk : List Key), gk.length = gs.length →
    (∀ (i : ℕ) (g : GroupAxis) (k : Key), gs[i]? = some g → gk[i]? = some k → ∃ l, g.item k = .ok l) →
    gchoices (fun j => gfields2d F (drawn j)) gs j gk = (sequenceO (spotsG F drawn j gs gk)).toList
  | [], _, [], _, _ => rfl
  | g :: gs, j, k :: gk, hl, h => by
    obtain ⟨l, hk⟩ := h 0 g k rfl rfl
    rw [gchoices, hk]
    simp only
    rw [gchoices_spots F drawn gs (j + 1) gk (by simpa using hl) (fun i g k h1 h2 => h (i + 1) g k (by simpa using h1) (by simpa using h2)), spotsG, sequenceO]
    have hf : gfields2d F (drawn j) l = (if drawn j then g.spot F k else some (.str (g.legend F k))).toList := by
      cases g with
      | groupby =>
        cases hk
        cases drawn j <;> rfl
      | groupbin a =>
        cases k with
        | str s => cases hk
        | num q =>
          cases hk
          cases drawn j
          · rfl
          · simp only [gfields2d, fields2d, if_true, GroupAxis.spot, Option.toList_some]
            congr 3
            ring
        | pinf => cases hk; cases drawn j <;> rfl
        | ninf => cases hk; cases drawn j <;> rfl
    rw [hf]
    cases (if drawn j then g.spot F k else some (.str (g.legend F k))) with
    | none => rfl
    | some x => cases sequenceO (spotsG F drawn (j + 1) gs gk) <;> rfl

theorem plotted_at (H : HistDef) (axes : List ℕ) (i : ℕ) (hi : i < H.groups.length + H.fixed.length) (hm : i ∈ axes) (j : ℕ) :
    (H.plotted axes)[j]? = some i ↔ j = placeOf axes i := by
  have hnd : (H.plotted axes).Nodup := List.Nodup.filter _ List.nodup_range
  have h0 : (H.plotted axes)[placeOf axes i]? = some i := by
    obtain ⟨m, hm'⟩ : ∃ m, H.groups.length + H.fixed.length = i + (m + 1) := ⟨H.groups.length + H.fixed.length - i - 1, by omega⟩
    unfold HistDef.plotted placeOf
    rw [hm', List.range_add, List.filter_append, List.getElem?_append_right (le_refl _), Nat.sub_self, List.range_succ_eq_map, List.map_cons, Nat.add_zero,
      List.filter_cons_of_pos (by simpa using hm)]
    rfl
  constructor
  · intro h
    exact (List.getElem?_inj (List.getElem?_eq_some_iff.1 h).1 hnd).1 (by rw [h, h0])
  · rintro rfl
    exact h0

/-! ## C88 -/

/-- C88, the records: for each group that was filled and each bin of the axes of the heatmap, there is one record if the bin is finite in both directions (and none
otherwise); it has the centres of the published bins for the axes that are drawn, texts for the others, and the value of the rows in the bin.
Missing: other cases than powers of two of group keys to add up (C32); keys that cannot be sorted or shown. -/
theorem C88_records_partial (H : HistDef) (bs : List (List Row)) (st : H.State) (F : Fmt) (P : Plot2d) (pre : Datum) (var : String)
    (hok : H.Plottable bs st P.axes) (hprof : ∀ p, P.prof = some p → p < H.nprof) :
    ∃ D cells, H.data2d F P pre var st = .ok D ∧ H.PlotCells P.axes st cells ∧
      D.data.Perm (cells.filterMap fun c => (H.heatColumns F P c).map fun cols => recordOf pre var cols (H.heatIn P bs.flatten c)) := by
  have hx : P.xaxis ∈ P.axes := by simp [Plot2d.axes]
  have hy : P.yaxis ∈ P.axes := by simp [Plot2d.axes]
  have hdr : (fun j => [placeOf P.axes P.xaxis, placeOf P.axes P.yaxis].contains j) =
      fun j => decide ((H.plotted P.axes)[j]? = some P.xaxis) || decide ((H.plotted P.axes)[j]? = some P.yaxis) := by
    funext j
    rw [Bool.eq_iff_iff, Bool.or_eq_true, decide_eq_true_eq, decide_eq_true_eq, plotted_at H _ _ (hok.within _ hx) hx, plotted_at H _ _ (hok.within _ hy) hy]
    simp
  obtain ⟨rows, doms, cells, e1, hcells, hitem, hperm, hdoms⟩ := plotRows_spec H bs hok.fillable st hok.filled P.axes hok.within hok.pow
    (plotOpts P.prof false false) rfl (fun p hpm => hprof p (by simpa [plotOpts] using hpm)) (fun a ha => shown_length a (hok.built a ha))
    hok.kind hok.noNan (fun j => gfields2d F ([placeOf P.axes P.xaxis, placeOf P.axes P.yaxis].contains j))
    (fun j _ n => (fields2d F ([placeOf P.axes P.xaxis, placeOf P.axes P.yaxis].contains j) n).map fun f => (f, false)) 1
  have e2 : H.data2d F P pre var st = .ok ⟨rows.map fun x => mkDatum pre var (x.1 ++ x.2.map .num), doms⟩ := by
    unfold HistDef.data2d
    simp only [e1]
    rfl
  refine ⟨_, cells, e2, hcells, ?_⟩
  simp only [mkDatum_record]
  refine (List.Perm.map _ hperm).trans (List.Perm.of_eq ?_)
  clear e2 e1
  have hall : ∀ c ∈ cells, (gchoices (fun j => gfields2d F ([placeOf P.axes P.xaxis, placeOf P.axes P.yaxis].contains j)) (H.onAxes P.axes).groups 0 c.1).flatMap (fun r =>
      (choices (fun j _ n => (fields2d F ([placeOf P.axes P.xaxis, placeOf P.axes P.yaxis].contains j) n).map fun f => (f, false)) (H.onAxes P.axes).fixed
        (H.onAxes P.axes).groups.length c.2).map fun s =>
          (r ++ s.1, if s.2 then List.replicate 1 (some 0) else tableSpec H.wkind (plotOpts P.prof false false) (H.rowsIn P.axes bs.flatten c))) =
      (H.heatColumns F P c).toList.map fun cols => (cols, H.heatIn P bs.flatten c) := by
    intro c hc
    obtain ⟨hcell, hgl, _⟩ := (hcells.mem c.1 c.2).1 hc
    rw [gchoices_spots F _ _ _ _ hgl (hitem c hc), choices_spots F _ _ _ _ (onAxes_built H P.axes hok.built) hcell]
    unfold HistDef.heatColumns
    simp only [hdr]
    rw [sequenceO_append]
    cases sequenceO (spotsG F _ 0 (H.onAxes P.axes).groups c.1) with
    | none => rfl
    | some r =>
      cases sequenceO (spotsF F _ (H.onAxes P.axes).groups.length (H.onAxes P.axes).fixed c.2) with
      | none => rfl
      | some s => rfl
  rw [List.flatMap_congr hall, List.map_flatMap]
  clear hall hitem hperm hcells hdoms
  induction cells with
  | nil => rfl
  | cons c cells ih =>
    rw [List.flatMap_cons, ih, List.filterMap_cons]
    cases H.heatColumns F P c <;> rfl

theorem encode2_fold (axes : List ℕ) (var : String) : ∀ (chain : List Channel) (e : Encoding2), (∀ c ∈ chain, c.kind = .beside ∨ c.kind = .below) →
    (chain.map fun c => c.kind.method).Nodup →
    ∃ e', foldE (encodeChannel2 axes var) e chain = .ok e' ∧ e'.x = e.x ∧ e'.y = e.y ∧ e'.color = e.color ∧ e'.xbin = e.xbin ∧ e'.ybin = e.ybin ∧
      (∀ c ∈ chain, c.kind = .beside → e'.column = some (.col var (placeOf axes c.axis))) ∧ ((∀ c ∈ chain, c.kind ≠ .beside) → e'.column = e.column) ∧
      (∀ c ∈ chain, c.kind = .below → e'.row = some (.col var (placeOf axes c.axis))) ∧ ((∀ c ∈ chain, c.kind ≠ .below) → e'.row = e.row)
  | [], e, _, _ => ⟨e, rfl, rfl, rfl, rfl, rfl, rfl, by simp, by simp, by simp, by simp⟩
  | c :: chain, e, h, hn => by
    rw [List.map_cons, List.nodup_cons] at hn
    have hnot : ∀ d ∈ chain, d.kind ≠ c.kind := by
      intro d hd he
      exact hn.1 (List.mem_map.2 ⟨d, hd, by rw [he]⟩)
    rcases h c (by simp) with hk | hk
    · obtain ⟨e', h1, h2, h3, h4, h5, h6, h7, h8, h9, h10⟩ := encode2_fold axes var chain { e with column := some (.col var (placeOf axes c.axis)) }
        (fun d hd => h d (by simp [hd])) hn.2
      rw [hk] at hnot
      refine ⟨e', ?_, h2, h3, h4, h5, h6, ?_, ?_, ?_, ?_⟩
      · rw [foldE]
        unfold encodeChannel2
        rw [hk]
        exact h1
      · intro d hd hb
        rcases List.mem_cons.1 hd with rfl | hd
        · exact h8 hnot
        · exact h7 d hd hb
      · intro hno
        exact absurd hk (hno c (by simp))
      · intro d hd hb
        rcases List.mem_cons.1 hd with rfl | hd
        · rw [hk] at hb; cases hb
        · exact h9 d hd hb
      · intro hno
        exact h10 fun d hd => hno d (by simp [hd])
    · obtain ⟨e', h1, h2, h3, h4, h5, h6, h7, h8, h9, h10⟩ := encode2_fold axes var chain { e with row := some (.col var (placeOf axes c.axis)) }
        (fun d hd => h d (by simp [hd])) hn.2
      rw [hk] at hnot
      refine ⟨e', ?_, h2, h3, h4, h5, h6, ?_, ?_, ?_, ?_⟩
      · rw [foldE]
        unfold encodeChannel2
        rw [hk]
        exact h1
      · intro d hd hb
        rcases List.mem_cons.1 hd with rfl | hd
        · rw [hk] at hb; cases hb
        · exact h7 d hd hb
      · intro hno
        exact h8 fun d hd => hno d (by simp [hd])
      · intro d hd hb
        rcases List.mem_cons.1 hd with rfl | hd
        · exact h10 hnot
        · exact h9 d hd hb
      · intro hno
        exact absurd hk (hno c (by simp))

/-- The limits of an axis of numbers that can be drawn. -/
def drawnRange : Option (GroupAxis ⊕ FixedAxis) → Option (ℚ × ℚ)
  | some (.inr (.bin a)) => some (a.low, a.high)
  | some (.inr (.intbin a)) => some ((a.min : ℚ) - 1 / 2, (a.max : ℚ) + 1 / 2)
  | _ => none

/-- C88, what is drawn: `x` and `y` are the columns of the two axes, the colour is the column after the last axis, `beside` and `below` split by the columns
of their axes, and the limits are those of the axes.
Missing: an `intbin` axis as `y` (`C88_refuted_intbin`); a `split` axis (refused by the code). -/
theorem C88_drawn_partial (H : HistDef) (P : Plot2d) (var : String) (hin : ∀ i ∈ P.axes, i < H.groups.length + H.fixed.length)
    (hchain : ∀ c ∈ P.chain, c.kind = .beside ∨ c.kind = .below) (hnd : (P.chain.map fun c => c.kind.method).Nodup)
    (hx : ∀ a, H.axisAt P.xaxis ≠ some (.inr (.split a))) (hy : ∀ a, H.axisAt P.yaxis ≠ some (.inr (.split a)))
    (hyi : ∀ a, H.axisAt P.yaxis ≠ some (.inr (.intbin a))) :
    ∃ (e : Encoding2) (jx jy : ℕ), H.layers2d P var = .ok [.two e] ∧
      e.x = .col var jx ∧ (H.plotted P.axes)[jx]? = some P.xaxis ∧ e.y = .col var jy ∧ (H.plotted P.axes)[jy]? = some P.yaxis ∧
      e.color = .col var (H.plotted P.axes).length ∧ e.xbin = drawnRange (H.axisAt P.xaxis) ∧ e.ybin = drawnRange (H.axisAt P.yaxis) ∧
      (∀ c ∈ P.chain, c.kind = .beside → ∃ j, e.column = some (.col var j) ∧ (H.plotted P.axes)[j]? = some c.axis) ∧
      ((∀ c ∈ P.chain, c.kind ≠ .beside) → e.column = none) ∧
      (∀ c ∈ P.chain, c.kind = .below → ∃ j, e.row = some (.col var j) ∧ (H.plotted P.axes)[j]? = some c.axis) ∧
      ((∀ c ∈ P.chain, c.kind ≠ .below) → e.row = none) := by
  have hxm : P.xaxis ∈ P.axes := by simp [Plot2d.axes]
  have hym : P.yaxis ∈ P.axes := by simp [Plot2d.axes]
  have hcm : ∀ c ∈ P.chain, c.axis ∈ P.axes := fun c hc => by simp only [Plot2d.axes, List.mem_append, List.mem_map]; exact Or.inl ⟨c, hc, rfl⟩
  have hex : extent2d false (H.axisAt P.xaxis) = .ok (drawnRange (H.axisAt P.xaxis)) := by
    cases h : H.axisAt P.xaxis with
    | none => rfl
    | some s =>
      cases s with
      | inl g => rfl
      | inr a =>
        cases a with
        | split a => exact absurd h (hx a)
        | _ => rfl
  have hey : extent2d true (H.axisAt P.yaxis) = .ok (drawnRange (H.axisAt P.yaxis)) := by
    cases h : H.axisAt P.yaxis with
    | none => rfl
    | some s =>
      cases s with
      | inl g => rfl
      | inr a =>
        cases a with
        | split a => exact absurd h (hy a)
        | intbin a => exact absurd h (hyi a)
        | _ => rfl
  obtain ⟨e, h1, h2, h3, h4, h5, h6, h7, h8, h9, h10⟩ := encode2_fold P.axes var P.chain
    ⟨.col var (placeOf P.axes P.xaxis), .col var (placeOf P.axes P.yaxis), .col var (H.plotAxes P.axes), drawnRange (H.axisAt P.xaxis), drawnRange (H.axisAt P.yaxis),
      none, none⟩ hchain hnd
  refine ⟨e, _, _, ?_, h2, (plotted_at H _ _ (hin _ hxm) hxm _).2 rfl, h3, (plotted_at H _ _ (hin _ hym) hym _).2 rfl, h4, h5, h6, ?_, h8, ?_, h10⟩
  · unfold HistDef.layers2d
    rw [hex, hey]
    simp only
    rw [h1]
    rfl
  · intro c hc hk
    exact ⟨_, h7 c hc hk, (plotted_at H _ _ (hin _ (hcm c hc)) (hcm c hc) _).2 rfl⟩
  · intro c hc hk
    exact ⟨_, h9 c hc hk, (plotted_at H _ _ (hin _ (hcm c hc)) (hcm c hc) _).2 rfl⟩

/-- C88 does not hold for `intbin` axes as `y`: every such heatmap raises an `AttributeError` (or the `NotImplementedError` of a `split` axis as `x`). -/
theorem C88_refuted_intbin (H : HistDef) (P : Plot2d) (a : IntbinAxis) (var : String) (h : H.axisAt P.yaxis = some (.inr (.intbin a)))
    (hx : ∀ a, H.axisAt P.xaxis ≠ some (.inr (.split a))) : H.layers2d P var = .error .attributeError := by
  unfold HistDef.layers2d
  rw [h]
  cases hc : H.axisAt P.xaxis with
  | none => rfl
  | some s =>
    cases s with
    | inl g => rfl
    | inr b =>
      cases b with
      | split b => exact absurd hc (hx b)
      | _ => rfl

/-- C88 does not hold for `split` axes as `x` or `y`: the plot is accepted, and drawing it raises `NotImplementedError` (as `y`: unless `x` raises
another error, which no axis does). -/
theorem C88_refuted_split (H : HistDef) (P : Plot2d) (a : SplitAxis) (var : String)
    (h : H.axisAt P.xaxis = some (.inr (.split a)) ∨ H.axisAt P.yaxis = some (.inr (.split a))) :
    H.layers2d P var = .error .notImplemented := by
  unfold HistDef.layers2d
  rcases h with h | h
  · rw [h]
    rfl
  · rw [h]
    cases hc : H.axisAt P.xaxis with
    | none => rfl
    | some s =>
      cases s with
      | inl g => rfl
      | inr b => cases b <;> rfl

/-! ## examples -/

/-- The records of a heatmap after filling. -/
def exData2d (H : HistDef) (bs : List (List Row)) (P : Plot2d) : Except Err (List Datum) :=
  match H.fillAll none bs with
  | .error (e, _) => .error e
  | .ok st => (H.data2d exFmt P [] "a" st).map PlotData.data

/-- Two groups, and the two finite bins of the axis at their centres. -/
example : exData2d exH exPlotBs ⟨[], 0, 1, none⟩ = .ok
    [[(.col "a" 0, .str "a"), (.col "a" 1, .num (some (1 / 2))), (.col "a" 2, .num (some 0))],
     [(.col "a" 0, .str "a"), (.col "a" 1, .num (some (3 / 2))), (.col "a" 2, .num (some 3))],
     [(.col "a" 0, .str "b"), (.col "a" 1, .num (some (1 / 2))), (.col "a" 2, .num (some 2))],
     [(.col "a" 0, .str "b"), (.col "a" 1, .num (some (3 / 2))), (.col "a" 2, .num (some 0))]] := by decide +kernel

/-- The hypotheses are met. -/
example : ∃ st D cells, exH.data2d exFmt ⟨[], 0, 1, none⟩ [] "a" st = .ok D ∧ exH.PlotCells [0, 1] st cells ∧
    D.data.Perm (cells.filterMap fun c => (exH.heatColumns exFmt ⟨[], 0, 1, none⟩ c).map fun cols =>
      recordOf [] "a" cols (exH.heatIn ⟨[], 0, 1, none⟩ exPlotBs.flatten c)) := by
  obtain ⟨st, h⟩ := exPlottable [0, 1] (Or.inl rfl)
  exact ⟨st, C88_records_partial exH exPlotBs st exFmt ⟨[], 0, 1, none⟩ [] "a" h (by simp)⟩

example : exH.heatColumns exFmt ⟨[], 0, 1, none⟩ ([.str "b"], [2]) = some [.str "b", .num (some (3 / 2))] ∧
    exH.heatColumns exFmt ⟨[], 0, 1, none⟩ ([.str "b"], [0]) = none := by decide +kernel

/-- `x` and `y` exchanged, and split by a third axis: `y` is the first column, `x` is the second one, pictures are split by the third one. -/
example : ∃ e, HistDef.layers2d ⟨[.groupby], [.bin ⟨2, 0, 2, true, true, true, true⟩, .cut], 0, .none⟩ ⟨[⟨.beside, 2⟩], 1, 0, none⟩ "a" = .ok [.two e] ∧
    e.x = .col "a" 1 ∧ e.y = .col "a" 0 ∧ e.color = .col "a" 3 ∧ e.column = some (.col "a" 2) ∧ e.row = none ∧ e.xbin = some (0, 2) ∧ e.ybin = none :=
  ⟨_, rfl, by decide +kernel⟩

example : ∃ (e : Encoding2) (jx jy : ℕ), HistDef.layers2d ⟨[.groupby], [.bin ⟨2, 0, 2, true, true, true, true⟩, .cut], 0, .none⟩ ⟨[⟨.beside, 2⟩], 1, 0, none⟩ "a" = .ok [.two e] ∧
    e.x = .col "a" jx ∧ (HistDef.plotted ⟨[.groupby], [.bin ⟨2, 0, 2, true, true, true, true⟩, .cut], 0, .none⟩ [2, 1, 0])[jx]? = some 1 ∧ e.y = .col "a" jy := by
  obtain ⟨e, jx, jy, h1, h2, h3, h4, _⟩ := C88_drawn_partial ⟨[.groupby], [.bin ⟨2, 0, 2, true, true, true, true⟩, .cut], 0, .none⟩ ⟨[⟨.beside, 2⟩], 1, 0, none⟩ "a"
    (by decide) (by simp) (by simp) (by intro a h; cases h) (by intro a h; cases h) (by intro a h; cases h)
  exact ⟨e, jx, jy, h1, h2, h3, h4⟩

/-- `Hist(bin("x", 2, 0, 2), intbin("n", 1, 3)).heatmap("x", "n")` -/
example : HistDef.layers2d ⟨[], [.bin ⟨2, 0, 2, true, true, true, true⟩, .intbin ⟨1, 3, true, true⟩], 0, .none⟩ ⟨[], 0, 1, none⟩ "a" = .error .attributeError :=
  C88_refuted_intbin _ _ ⟨1, 3, true, true⟩ "a" rfl (by intro a h; cases h)

/-- `Hist(bin("x", 2, 0, 2), split("y", [0, 1, 5])).heatmap("x", "y")` -/
example : HistDef.layers2d ⟨[], [.bin ⟨2, 0, 2, true, true, true, true⟩, .split ⟨[0, 1, 5], true, true, true, true⟩], 0, .none⟩ ⟨[], 0, 1, none⟩ "a" = .error .notImplemented :=
  C88_refuted_split _ _ ⟨[0, 1, 5], true, true, true, true⟩ "a" (Or.inr rfl)

end Verif
