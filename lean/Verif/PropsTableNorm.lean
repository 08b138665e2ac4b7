import Verif.PropsTable

/-!
# Normalized tables: property theorems C46
-/

namespace Verif

/-! ## helpers -/

theorem tableCells_eq : ∀ dims : List ℕ, tableCells dims = allCells dims
  | [] => rfl
  | n :: ns => by
    have ih := tableCells_eq ns
    unfold tableCells at ih ⊢
    simp only [List.map_cons, expand, allCells, ih]

/-- `x · w` over finite widths -/
def timesWidth (x : ℚ) : Option ℚ → ℚ
  | none => 0
  | some w => x * w

/-- `x` in finite bins -/
def ifFinite (x : ℚ) : Option ℚ → ℚ
  | none => 0
  | some _ => x

theorem sum_map_div {α : Type} (l : List α) (f : α → ℚ) (c : ℚ) : (l.map (fun x => f x / c)).sum = (l.map f).sum / c := by
  induction l with
  | nil => simp
  | cons x l ih =>
    simp only [List.map_cons, List.sum_cons]
    rw [ih]
    ring

/-- The count column of a normalized table. -/
theorem norm_column (fs : List FixedAxis) (np : ℕ) (wk : WKind) (bs : List (List Row)) (hf : Fillable ⟨[], fs, np, wk⟩ bs)
    (st : HistDef.State ⟨[], fs, np, wk⟩) (hst : HistDef.fillAll ⟨[], fs, np, wk⟩ none bs = .ok st)
    (o : TableOpts) (hc : o.count = true) (hn : o.normalized = true) (hp : ∀ p ∈ o.profs, p < np) (b : Widths)
    (hb : HistDef.binwidths ⟨[], fs, np, wk⟩ = .ok b) :
    ∃ t : Table, HistDef.table ⟨[], fs, np, wk⟩ o st = .ok t ∧
      ∀ T, T = ((allCells (fs.map FixedAxis.totbins)).map (fun idx => perWidth
          (sumW wk (bs.flatten.filter (Row.lands ⟨[], fs, np, wk⟩ [] idx))) (b idx))).sum → T ≠ 0 →
        ∀ idx, HistDef.Cell ⟨[], fs, np, wk⟩ idx → (t idx).head? = some (some
          (perWidth (sumW wk (bs.flatten.filter (Row.lands ⟨[], fs, np, wk⟩ [] idx))) (b idx) / T)) := by
  obtain ⟨st0, e1, h⟩ := Represents.ofFill (HistDef.mk [] fs np wk) bs hf
  rw [hst] at e1
  cases e1
  obtain ⟨p1, p2, p3⟩ := prefill_facts (HistDef.mk [] fs np wk) st h.good
  have hany : o.profs.any (fun p => decide ((HistDef.mk [] fs np wk).nprof ≤ p)) = false := by
    rw [List.any_eq_false]
    intro p hpm
    have := hp p hpm
    simp only [decide_eq_true_eq, not_le]
    exact this
  refine ⟨_, by unfold HistDef.table HistDef.tableWith; rw [hany, hn]; simp only [Bool.false_eq_true, if_false, if_true, hb]; rfl, ?_⟩
  intro T hT hne idx hidx
  have hget : ∀ i, (HistDef.mk [] fs np wk).Cell i → lookup 0 (prefill (HistDef.mk [] fs np wk).layout st) [] i (2 * np) = sumW wk (bs.flatten.filter (Row.lands (HistDef.mk [] fs np wk) [] i)) := by
    intro i hi
    refine (p2 [] i _).trans ?_
    rw [h.totals [] rfl i hi]
    exact (cell_sums (HistDef.mk [] fs np wk) bs.flatten [] i).1
  show (handlearray (HistDef.mk [] fs np wk).layout o b (prefill (HistDef.mk [] fs np wk).layout st) idx).head? = _
  have htot : widthTotal (Arr.shape (prefill (HistDef.mk [] fs np wk).layout st)) b (fun i => Arr.get (prefill (HistDef.mk [] fs np wk).layout st) i (HistDef.mk [] fs np wk).layout.sumw) = T := by
    rw [hT]
    unfold widthTotal
    rw [show Arr.shape (prefill (HistDef.mk [] fs np wk).layout st) = fs.map FixedAxis.totbins from p1.1, tableCells_eq]
    refine congrArg List.sum (List.map_congr_left fun i hi => ?_)
    rw [mem_allCells] at hi
    have hg : Arr.get (prefill (HistDef.mk [] fs np wk).layout st) i (HistDef.mk [] fs np wk).layout.sumw = _ := hget i hi
    cases b i with
    | none => rfl
    | some w =>
      show Arr.get (prefill (HistDef.mk [] fs np wk).layout st) i (HistDef.mk [] fs np wk).layout.sumw / w = _
      rw [hg]
      rfl
  unfold handlearray countColumns
  simp only [hc, hn, if_true, List.cons_append, List.head?_cons]
  rw [htot]
  have hg : Arr.get (prefill (HistDef.mk [] fs np wk).layout st) idx (HistDef.mk [] fs np wk).layout.sumw = _ := hget idx hidx
  rw [hg]
  unfold divCorrection
  rw [if_neg hne]
  cases b idx with
  | none => simp [perWidth]
  | some w =>
    simp only [perWidth, pow_one]
    rw [div_div, mul_comm w T]

/-! ### widths -/

theorem width_at (pre mid post : List BinLabel) (h1 : ∀ l ∈ pre, l.width = none) (h2 : ∀ l ∈ post, l.width = none) (i : ℕ) :
    ((pre ++ mid ++ post)[i]?).bind BinLabel.width =
      if pre.length ≤ i ∧ i < pre.length + mid.length then (mid[i - pre.length]?).bind BinLabel.width else none := by
  by_cases hi : i < pre.length
  · rw [if_neg (by omega), List.append_assoc, List.getElem?_append_left hi, List.getElem?_eq_getElem hi]
    exact h1 _ (List.getElem_mem hi)
  · by_cases hj : i < pre.length + mid.length
    · rw [if_pos ⟨by omega, hj⟩, List.getElem?_append_left (by rw [List.length_append]; exact hj), List.getElem?_append_right (by omega)]
    · rw [if_neg (by omega), List.getElem?_append_right (by rw [List.length_append]; omega)]
      cases h : post[i - (pre ++ mid).length]? with
      | none => rfl
      | some l => exact h2 l (List.mem_of_getElem? h)

/-- the width of a finite bin, as the code has it -/
def FixedAxis.wAt (a : FixedAxis) (i : ℕ) : ℚ :=
  match a.binwidth with
  | .ok (.scalar w) => w
  | .ok (.array ws) => ws.getD (i - a.finite.1) 0
  | .error _ => 0

/-- an axis that has finite bins (a bin axis with zero bins has no width) -/
def FixedAxis.HasWidth : FixedAxis → Prop
  | .bin a => a.numbins ≠ 0
  | _ => True

theorem FixedAxis.axisWidth_eq (a : FixedAxis) (h : a.HasWidth) (i : ℕ) :
    (a.keys[i]?).bind BinLabel.width = if a.isFinite i then some (a.wAt i) else none := by
  cases a with
  | bin a =>
    have h : a.numbins ≠ 0 := h
    show (a.keys[i]?).bind BinLabel.width = _
    unfold BinAxis.keys
    rw [List.append_assoc]
    rw [width_at _ _ _ (by cases a.underflow <;> simp [BinLabel.width]) (by cases a.overflow <;> cases a.nanflow <;> simp [BinLabel.width])]
    have hl : (if a.underflow = true then [BinLabel.iv Num.ninf (Num.fin a.low) true !a.closedlow] else []).length = (if a.underflow then 1 else 0) := by
      cases a.underflow <;> rfl
    rw [hl]
    unfold FixedAxis.isFinite FixedAxis.wAt FixedAxis.finite
    simp only [FixedAxis.binwidth]
    clear hl
    obtain ⟨u, hu⟩ : ∃ u : ℕ, u = (if a.underflow = true then 1 else 0) := ⟨_, rfl⟩
    simp only [← hu, List.length_map, List.length_range, decide_eq_true_eq]
    split
    · next hc =>
      rw [List.getElem?_map, List.getElem?_range (by omega)]
      simp only [Option.map_some, Option.bind_some, BinLabel.width, Option.some.injEq, if_neg h, BinAxis.i2x]
      have : (a.numbins : ℚ) ≠ 0 := by exact_mod_cast h
      push_cast
      field_simp
      ring
    · rfl
  | split a =>
    show (a.keys[i]?).bind BinLabel.width = _
    unfold SplitAxis.keys
    rw [List.append_assoc]
    rw [width_at _ _ _ (by cases a.underflow <;> simp [BinLabel.width]) (by cases a.overflow <;> cases a.nanflow <;> simp [BinLabel.width])]
    have hl : (if a.underflow = true then [BinLabel.iv Num.ninf (Num.fin (a.edges.headD 0)) true !a.closedlow] else []).length = (if a.underflow then 1 else 0) := by
      cases a.underflow <;> rfl
    rw [hl]
    unfold FixedAxis.isFinite FixedAxis.wAt FixedAxis.finite
    simp only [FixedAxis.binwidth]
    clear hl
    obtain ⟨u, hu⟩ : ∃ u : ℕ, u = (if a.underflow = true then 1 else 0) := ⟨_, rfl⟩
    simp only [← hu, List.length_map, List.length_zip, List.length_dropLast, List.length_tail, Nat.min_self, decide_eq_true_eq]
    split
    · next hc =>
      have hj : i - u < a.edges.length - 1 := by omega
      generalize i - u = j at hj
      rw [List.getElem?_map, List.getElem?_eq_getElem (by simp; omega)]
      simp only [List.getElem_zip, List.getElem_dropLast, List.getElem_tail, Option.map_some, Option.bind_some, BinLabel.width, Option.some.injEq]
      rw [List.getD_eq_getElem?_getD, List.getElem?_map, List.getElem?_range hj]
      simp [List.getElem?_eq_getElem (show j < a.edges.length by omega), List.getElem?_eq_getElem (show j + 1 < a.edges.length by omega)]
    · rfl
  | intbin a =>
    show (a.keys[i]?).bind BinLabel.width = _
    unfold IntbinAxis.keys
    rw [width_at _ _ _ (by cases a.underflow <;> simp [BinLabel.width]) (by cases a.overflow <;> simp [BinLabel.width])]
    have hl : (if a.underflow = true then [BinLabel.iv Num.ninf (Num.fin a.min) true false] else []).length = (if a.underflow then 1 else 0) := by
      cases a.underflow <;> rfl
    rw [hl]
    unfold FixedAxis.isFinite FixedAxis.wAt FixedAxis.finite
    simp only [FixedAxis.binwidth]
    clear hl
    obtain ⟨u, hu⟩ : ∃ u : ℕ, u = (if a.underflow = true then 1 else 0) := ⟨_, rfl⟩
    simp only [← hu, List.length_map, List.length_range, decide_eq_true_eq, IntbinAxis.numbins]
    split
    · next hc =>
      rw [List.getElem?_map, List.getElem?_range (by omega)]
      simp [BinLabel.width]
    · rfl
  | cut =>
    match i with
    | 0 => rfl
    | 1 => rfl
    | i + 2 =>
      have : FixedAxis.cut.isFinite (i + 2) = false := by simp [FixedAxis.isFinite, FixedAxis.finite]
      rw [this]
      rfl

/-- product of the widths over finite bins -/
def prodW : List FixedAxis → List ℕ → ℚ
  | [], _ => 1
  | a :: as, is => (if a.isFinite (is.headD 0) then a.wAt (is.headD 0) else 1) * prodW as is.tail

theorem widthLoop_eq (as : List FixedAxis) : ∀ (rest pre : List FixedAxis) (b : Widths), as = pre ++ rest →
    (∀ a ∈ rest, a.HasWidth) → (∀ a ∈ rest.dropLast, ∀ s, a ≠ .split s) →
    ∃ b', widthLoop as pre.length rest b = .ok b' ∧ ∀ idx, b' idx = (b idx).map (· * prodW rest (idx.drop pre.length)) := by
  intro rest
  induction rest with
  | nil => intro pre b _ _ _; exact ⟨b, rfl, fun idx => by simp [prodW]⟩
  | cons a rest ih =>
    intro pre b e hw hs
    have hstep : ∃ b1, widthStep as pre.length a b = .ok b1 ∧ ∀ idx, b1 idx =
        if a.isFinite (idx.getD pre.length 0) then wmul (b idx) (a.wAt (idx.getD pre.length 0)) else b idx := by
      unfold widthStep FixedAxis.wAt
      have hw0 := hw a List.mem_cons_self
      cases a with
      | bin x =>
        simp only [FixedAxis.binwidth]
        rw [if_neg hw0]
        exact ⟨_, rfl, fun idx => rfl⟩
      | intbin x => exact ⟨_, rfl, fun idx => rfl⟩
      | cut => exact ⟨_, rfl, fun idx => rfl⟩
      | split x =>
        have hr : rest = [] := by
          cases rest with
          | nil => rfl
          | cons y ys => exact absurd rfl (hs (.split x) (by simp) x)
        subst hr
        simp only [FixedAxis.binwidth]
        rw [if_pos (by rw [e]; simp)]
        exact ⟨_, rfl, fun idx => rfl⟩
    obtain ⟨b1, e1, hb1⟩ := hstep
    obtain ⟨b2, e2, hb2⟩ := ih (pre ++ [a]) b1 (by rw [e]; simp) (fun x hx => hw x (List.mem_cons_of_mem _ hx)) (by
      intro x hx
      refine hs x ?_
      cases rest with
      | nil => simp at hx
      | cons y ys => rw [List.dropLast_cons₂]; exact List.mem_cons_of_mem _ hx)
    refine ⟨b2, ?_, ?_⟩
    · unfold widthLoop
      rw [e1]
      rw [List.length_append] at e2
      exact e2
    · intro idx
      rw [hb2, hb1]
      have hd : (idx.drop pre.length).headD 0 = idx.getD pre.length 0 := by
        rw [List.getD_eq_getElem?_getD, List.headD_eq_head?_getD, List.head?_drop]
      have ht : (idx.drop pre.length).tail = idx.drop (pre ++ [a]).length := by
        rw [List.tail_drop, List.length_append]
        rfl
      simp only [prodW]
      rw [hd, ht]
      cases hfin : a.isFinite (idx.getD pre.length 0) <;> cases b idx <;> simp [wmul, mul_assoc]

theorem cellWidth_eq : ∀ (as : List FixedAxis) (idx : List ℕ), idx.length = as.length → (∀ a ∈ as, a.HasWidth) →
    cellWidth as idx = if allFinite as idx then some (prodW as idx) else none
  | [], idx, _, _ => by simp [cellWidth, allFinite, prodW]
  | a :: as, [], h, _ => by simp at h
  | a :: as, i :: is, h, hw => by
    have ih := cellWidth_eq as is (by simpa using h) (fun x hx => hw x (List.mem_cons_of_mem _ hx))
    simp only [cellWidth, List.headD_cons, List.tail_cons]
    rw [FixedAxis.axisWidth_eq a (hw a List.mem_cons_self), ih]
    simp only [allFinite, prodW, List.headD_cons, List.tail_cons]
    by_cases h1 : a.isFinite i = true <;> by_cases h2 : allFinite as is = true <;> simp [h1, h2]

/-! ## C46 -/

/-- C46: the widths used are those of the published bins, provided split axes (whose widths differ) come
last and every bin axis has bins. -/
theorem C46_widths_partial (fs : List FixedAxis) (np : ℕ) (wk : WKind) (hw : ∀ a ∈ fs, a.HasWidth)
    (hs : ∀ a ∈ fs.dropLast, ∀ s, a ≠ .split s) :
    ∃ b, HistDef.binwidths ⟨[], fs, np, wk⟩ = .ok b ∧ ∀ idx, idx.length = fs.length → b idx = cellWidth fs idx := by
  obtain ⟨b, e, hb⟩ := widthLoop_eq fs fs [] (fun idx => if allFinite fs idx then some 1 else none) rfl hw hs
  refine ⟨b, by unfold HistDef.binwidths; rw [if_neg (by simp)]; exact e, fun idx hidx => ?_⟩
  rw [hb, cellWidth_eq fs idx hidx hw]
  cases allFinite fs idx <;> simp

/-- The sum over all bins of the counts over the widths. -/
def HistDef.normTotal (H : HistDef) (rows : List Row) : ℚ :=
  ((allCells (H.fixed.map FixedAxis.totbins)).map fun idx =>
    perWidth (sumW H.wkind (rows.filter (Row.lands H [] idx))) (cellWidth H.fixed idx)).sum

/-- All columns of a normalized table, for any content that is right. -/
theorem norm_of_represents {H : HistDef} {rows : List Row} {st : H.State} (h : Represents H rows st) (o : TableOpts) (hn : o.normalized = true)
    (hp : ∀ p ∈ o.profs, p < H.nprof) (hg : H.groups = []) (hw : ∀ a ∈ H.fixed, a.HasWidth) (hs : ∀ a ∈ H.fixed.dropLast, ∀ s, a ≠ .split s) :
    ∃ f t, H.table o st = .ok t ∧ t = handle f H.groups.length (prefill H.layout st) ∧
      ∀ gk, gk.length = H.groups.length → HasGroup H.groups.length (prefill H.layout st) gk → ∃ tab, tlookup H.groups.length t gk = some tab ∧
        ((o.count = true → H.normTotal rows ≠ 0) → ∀ idx, H.Cell idx → tab idx = normSpec H.wkind o (rows.filter (Row.lands H gk idx)) (cellWidth H.fixed idx) (H.normTotal rows)) := by
  obtain ⟨b, hb, hbw⟩ := C46_widths_partial H.fixed H.nprof H.wkind hw hs
  have hb' : H.binwidths = .ok b := by
    unfold HistDef.binwidths at hb ⊢
    rw [if_neg (by simp [hg])]
    rw [if_neg (by simp)] at hb
    exact hb
  obtain ⟨p1, p2, p3⟩ := prefill_facts H st h.good
  have hany : o.profs.any (fun p => decide (H.nprof ≤ p)) = false := by
    rw [List.any_eq_false]
    intro p hpm
    have := hp p hpm
    simp; omega
  refine ⟨handlearray H.layout o b, _, by unfold HistDef.table HistDef.tableWith; rw [hany, hn]; simp only [Bool.false_eq_true, if_false, if_true, hb'], rfl, fun gk hgk hgr => ?_⟩
  obtain ⟨a, h1, h2, h3⟩ := handle_lookup (handlearray H.layout o b) _ _ gk hgk hgr
  refine ⟨_, h1, fun hT idx hidx => ?_⟩
  have hgk0 : gk = [] := List.length_eq_zero_iff.1 (by rw [hgk, hg]; rfl)
  have hlen : ∀ i, H.Cell i → i.length = H.fixed.length := by
    intro i hi
    have := List.Forall₂.length_eq hi
    simpa using this
  have hget : ∀ i, H.Cell i → ∀ col, a.get i col = binTotal H rows gk i col := by
    intro i hi col
    rw [← h2, p2]
    exact h.totals gk hgk i hi col
  have hrest := handlearray_spec H { o with count := false, normalized := false } rfl hp (fun _ => none) rows gk idx a (hget idx hidx)
  obtain ⟨s1, s2, _⟩ := cell_sums H rows gk idx
  have e1 : a.get idx H.layout.sumw = sumW H.wkind (rows.filter (Row.lands H gk idx)) := by
    rw [hget idx hidx]; exact s1
  have e2 : (if H.layout.wkind = .none then a.get idx H.layout.sumw else a.get idx H.layout.sumw2) = sumW2 H.wkind (rows.filter (Row.lands H gk idx)) := by
    split
    · rename_i hw
      have hw : H.wkind = .none := hw
      rw [e1, hw, sumW2_none]
    · rename_i hw
      rw [hget idx hidx]
      exact s2 hw
  have htot : widthTotal a.shape b (fun i => a.get i H.layout.sumw) = H.normTotal rows := by
    unfold widthTotal HistDef.normTotal
    rw [show a.shape = H.fixed.map FixedAxis.totbins from (h3 _ p1).1, tableCells_eq]
    refine congrArg List.sum (List.map_congr_left fun i hi => ?_)
    rw [mem_allCells] at hi
    rw [hbw i (hlen i hi)]
    have e : a.get i H.layout.sumw = sumW H.wkind (rows.filter (Row.lands H [] i)) := by
      rw [hget i hi, hgk0]
      exact (cell_sums H rows [] i).1
    cases cellWidth H.fixed i with
    | none => rfl
    | some w =>
      show a.get i H.layout.sumw / w = _
      rw [e]
      rfl
  unfold normSpec
  rw [← hrest]
  unfold handlearray
  rw [List.append_assoc]
  congr 1
  unfold countColumns
  simp only [hn, if_true]
  by_cases hc : o.count = true
  · simp only [hc, if_true]
    rw [htot, e2, e1, hbw idx (hlen idx hidx)]
    unfold divCorrection
    simp only [if_neg (hT hc)]
    congr 1
    · cases cellWidth H.fixed idx with
      | none => simp [perWidth]
      | some w =>
        simp only [perWidth, pow_one]
        rw [div_div, mul_comm w]
    · cases o.error with
      | false => rfl
      | true =>
        simp only [if_true]
        cases cellWidth H.fixed idx with
        | none => simp [perWidth]
        | some w =>
          simp only [perWidth]
          rw [div_div, div_div]
          congr 3
          ring
  · simp [hc]

/-- C46, what `normalized=True` does: the counts *themselves* sum to 1 (over all bins; flow bins get
0), because each is the count divided by the bin width and by the total of these.  Summing counts times
widths, as documented, gives instead the finite counts over that total. -/
theorem C46_normalized (fs : List FixedAxis) (np : ℕ) (wk : WKind) (bs : List (List Row)) (hf : Fillable ⟨[], fs, np, wk⟩ bs)
    (st : HistDef.State ⟨[], fs, np, wk⟩) (hst : HistDef.fillAll ⟨[], fs, np, wk⟩ none bs = .ok st)
    (o : TableOpts) (hc : o.count = true) (hn : o.normalized = true) (hp : ∀ p ∈ o.profs, p < np) (b : Widths)
    (hb : HistDef.binwidths ⟨[], fs, np, wk⟩ = .ok b) (hw : ∀ idx, HistDef.Cell ⟨[], fs, np, wk⟩ idx → b idx ≠ some 0) (n : List ℕ → ℚ)
    (hnn : ∀ idx, n idx = sumW wk (bs.flatten.filter (Row.lands ⟨[], fs, np, wk⟩ [] idx)))
    (hT : ((allCells (fs.map FixedAxis.totbins)).map (fun idx => perWidth (n idx) (b idx))).sum ≠ 0) :
    ∃ (t : Table) (c : List ℕ → ℚ), HistDef.table ⟨[], fs, np, wk⟩ o st = .ok t ∧
      (∀ idx, HistDef.Cell ⟨[], fs, np, wk⟩ idx → (t idx).head? = some (some (c idx))) ∧
      ((allCells (fs.map FixedAxis.totbins)).map c).sum = 1 ∧
      ((allCells (fs.map FixedAxis.totbins)).map (fun idx => timesWidth (c idx) (b idx))).sum =
        ((allCells (fs.map FixedAxis.totbins)).map (fun idx => ifFinite (n idx) (b idx))).sum /
          ((allCells (fs.map FixedAxis.totbins)).map (fun idx => perWidth (n idx) (b idx))).sum := by
  obtain ⟨t, h1, h2⟩ := norm_column fs np wk bs hf st hst o hc hn hp b hb
  simp only [← hnn] at h2
  refine ⟨t, _, h1, h2 _ rfl hT, ?_, ?_⟩
  · rw [sum_map_div, div_self hT]
  · rw [← sum_map_div]
    refine congrArg List.sum (List.map_congr_left fun idx hidx => ?_)
    rw [mem_allCells] at hidx
    have := hw idx hidx
    cases hbi : b idx with
    | none => simp [timesWidth, perWidth, ifFinite]
    | some w =>
      have hw0 : w ≠ 0 := fun h0 => this (by rw [hbi, h0])
      simp only [timesWidth, perWidth, ifFinite]
      field_simp

/-- C46, the part that holds, and how far it holds: if all finite bins have the same width `w`, counts
times widths sum to `w`; so to 1 if the bins have width 1.  Missing: any other widths, group axes. -/
theorem C46_uniform_partial (fs : List FixedAxis) (np : ℕ) (wk : WKind) (bs : List (List Row)) (hf : Fillable ⟨[], fs, np, wk⟩ bs)
    (st : HistDef.State ⟨[], fs, np, wk⟩) (hst : HistDef.fillAll ⟨[], fs, np, wk⟩ none bs = .ok st)
    (o : TableOpts) (hc : o.count = true) (hn : o.normalized = true) (hp : ∀ p ∈ o.profs, p < np) (b : Widths)
    (hb : HistDef.binwidths ⟨[], fs, np, wk⟩ = .ok b) (w : ℚ) (hw : 0 < w)
    (hbw : ∀ idx, HistDef.Cell ⟨[], fs, np, wk⟩ idx → b idx = none ∨ b idx = some w) (n : List ℕ → ℚ)
    (hnn : ∀ idx, n idx = sumW wk (bs.flatten.filter (Row.lands ⟨[], fs, np, wk⟩ [] idx)))
    (hT : ((allCells (fs.map FixedAxis.totbins)).map (fun idx => ifFinite (n idx) (b idx))).sum ≠ 0) :
    ∃ (t : Table) (c : List ℕ → ℚ), HistDef.table ⟨[], fs, np, wk⟩ o st = .ok t ∧
      (∀ idx, HistDef.Cell ⟨[], fs, np, wk⟩ idx → (t idx).head? = some (some (c idx))) ∧
      ((allCells (fs.map FixedAxis.totbins)).map (fun idx => timesWidth (c idx) (b idx))).sum = w := by
  have e : ((allCells (fs.map FixedAxis.totbins)).map (fun idx => perWidth (n idx) (b idx))).sum =
      ((allCells (fs.map FixedAxis.totbins)).map (fun idx => ifFinite (n idx) (b idx))).sum / w := by
    rw [← sum_map_div]
    refine congrArg List.sum (List.map_congr_left fun idx hidx => ?_)
    rw [mem_allCells] at hidx
    rcases hbw idx hidx with h0 | h0 <;> rw [h0] <;> simp [perWidth, ifFinite]
  obtain ⟨t, c, h1, h2, _, h4⟩ := C46_normalized fs np wk bs hf st hst o hc hn hp b hb (fun idx hidx h0 => by
    rcases hbw idx hidx with h1 | h1 <;> rw [h1] at h0
    · cases h0
    · simp only [Option.some.injEq] at h0
      exact absurd h0 (ne_of_gt hw)) n hnn (by rw [e]; exact div_ne_zero hT (ne_of_gt hw))
  refine ⟨t, c, h1, h2, ?_⟩
  rw [h4, e]
  have := ne_of_gt hw
  field_simp

/-- C46: with a group axis `normalized=True` always raises `AttributeError`. -/
theorem C46_group_refuted (H : HistDef) (hg : H.groups ≠ []) (o : TableOpts) (hn : o.normalized = true)
    (hp : ∀ p ∈ o.profs, p < H.nprof) (st : H.State) : H.table o st = .error .attributeError := by
  have hany : o.profs.any (fun p => decide (H.nprof ≤ p)) = false := by
    rw [List.any_eq_false]
    intro p hpm
    have := hp p hpm
    simp; omega
  unfold HistDef.table HistDef.tableWith HistDef.binwidths
  rw [hany, hn, if_pos hg]
  rfl

/-- C46: with a split axis before another axis, the widths are those of wrong bins, or `normalized=True`
raises `ValueError`. -/
theorem C46_split_first_refuted :
    (match HistDef.binwidths ⟨[], [.split ⟨[0, 1, 3], false, false, false, true⟩, .cut], 0, .none⟩ with
      | .ok b => [b [0, 0], b [0, 1], b [1, 0], b [1, 1]]
      | .error _ => []) = [some 1, some 2, some 1, some 2] ∧
    [[0, 0], [0, 1], [1, 0], [1, 1]].map (cellWidth [.split ⟨[0, 1, 3], false, false, false, true⟩, .cut]) =
      [some 1, some 1, some 2, some 2] ∧
    (match HistDef.binwidths ⟨[], [.split ⟨[0, 1, 3, 4], false, false, false, true⟩, .cut], 0, .none⟩ with
      | .ok _ => false
      | .error e => e == .valueError) = true := by
  decide +kernel

/-- two bins of width 1/2, one row in each -/
def normDemo : HistDef := ⟨[], [.bin ⟨2, 0, 1, true, true, true, true⟩], 0, .none⟩
def normRows : List Row := [⟨[], [.num (.fin (1 / 4))], [], none⟩, ⟨[], [.num (.fin (3 / 4))], [], none⟩]

/-- the count column of a normalized table, and the widths -/
def normRun (H : HistDef) (rs : List Row) (cells : List (List ℕ)) : List (Option (Option ℚ) × Option ℚ) :=
  match H with
  | ⟨[], fs, np, wk⟩ =>
    match HistDef.fillAll ⟨[], fs, np, wk⟩ none [rs] with
    | .error _ => []
    | .ok st =>
      match HistDef.table ⟨[], fs, np, wk⟩ { normalized := true } st with
      | .error _ => []
      | .ok t => cells.map (fun idx => (((t : Table) idx).head?, cellWidth fs idx))
  | _ => []

/-- C46 fails: two bins of width 1/2 get 1/2 each, so the integral is 1/2. -/
theorem C46_normalized_refuted : normRun normDemo normRows [[0], [1], [2], [3], [4]] =
      [(some (some 0), none), (some (some (1 / 2)), some (1 / 2)), (some (some (1 / 2)), some (1 / 2)), (some (some 0), none), (some (some 0), none)] ∧
    (1 / 2 : ℚ) * (1 / 2) + 1 / 2 * (1 / 2) ≠ 1 := by
  decide +kernel

/-- The hypotheses of `C46_uniform_partial` are met with width 1, and the result is as claimed. -/
example : normRun ⟨[], [.bin ⟨2, 0, 2, true, true, true, true⟩], 0, .none⟩
    [⟨[], [.num (.fin (1 / 4))], [], none⟩, ⟨[], [.num (.fin (3 / 4))], [], none⟩, ⟨[], [.num (.fin (3 / 2))], [], none⟩, ⟨[], [.num (.fin 7)], [], none⟩] [[0], [1], [2], [3], [4]] =
    [(some (some 0), none), (some (some (2 / 3)), some 1), (some (some (1 / 3)), some 1), (some (some 0), none), (some (some 0), none)] := by
  decide +kernel

example : ∃ b, HistDef.binwidths ⟨[], [.cut, .split ⟨[0, 1, 3], true, true, false, true⟩], 0, .none⟩ = .ok b ∧
    b [1, 2] = some 2 ∧ b [1, 0] = none := by
  obtain ⟨b, e, hb⟩ := C46_widths_partial [.cut, .split ⟨[0, 1, 3], true, true, false, true⟩] 0 .none (by simp [FixedAxis.HasWidth]) (by simp)
  refine ⟨b, e, ?_, ?_⟩
  · rw [hb _ rfl]; decide +kernel
  · rw [hb _ rfl]; decide +kernel

end Verif
