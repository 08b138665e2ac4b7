import Verif.PropsTableNorm

/-! C46: normalizing with a split axis before the last axis. -/

namespace Verif

theorem widthLoop_refused (as : List FixedAxis) (s : SplitAxis) (post : List FixedAxis) (hp : post ≠ [])
    (h1 : s.edges.length - 1 ≠ 1) (hn : s.edges.length - 1 ≠ (as.map FixedAxis.totbins).getD (as.length - 1) 0) :
    ∀ (mid pre : List FixedAxis) (b : Widths), as = pre ++ (mid ++ .split s :: post) → (∀ a ∈ mid, a.HasWidth) →
      widthLoop as pre.length (mid ++ .split s :: post) b = .error .valueError := by
  intro mid
  induction mid with
  | nil =>
    intro pre b e _
    have hl : pre.length + 1 ≠ as.length := by
      rw [e]
      have := List.length_pos_iff.2 hp
      simp
      omega
    simp only [List.nil_append, widthLoop, widthStep, FixedAxis.binwidth, List.length_map, List.length_range]
    rw [if_neg hl, if_neg hn, if_neg h1]
  | cons a mid ih =>
    intro pre b e hw
    have next : ∀ b', widthLoop as (pre.length + 1) (mid ++ .split s :: post) b' = .error .valueError := by
      intro b'
      have := ih (pre ++ [a]) b' (by rw [e]; simp) (fun x hx => hw x (List.mem_cons_of_mem _ hx))
      rwa [List.length_append] at this
    have hw0 := hw a List.mem_cons_self
    rw [List.cons_append]
    unfold widthLoop
    cases hs : widthStep as pre.length a b with
    | ok b' => exact next b'
    | error x =>
      show Except.error x = _
      unfold widthStep at hs
      cases a with
      | bin y =>
        simp only [FixedAxis.binwidth] at hs
        rw [if_neg hw0] at hs
        cases hs
      | intbin y => cases hs
      | cut => cases hs
      | split y =>
        simp only [FixedAxis.binwidth] at hs
        split at hs
        · cases hs
        · split at hs
          · cases hs
          · split at hs
            · cases hs
            · cases hs; rfl

/-- C46 is false of every histogram with a split axis that is not the last axis and has neither one interval nor as many as the last axis has bins:
asking for a normalized table raises ValueError, whatever the contents. -/
theorem C46_split_refused (pre post : List FixedAxis) (s : SplitAxis) (hp : post ≠ []) (hw : ∀ a ∈ pre, a.HasWidth)
    (h1 : s.edges.length ≠ 2) (h0 : s.edges.length ≠ 0) (l : FixedAxis) (hl : post.getLast? = some l) (hn : s.edges.length ≠ l.totbins + 1) (np : ℕ) (wk : WKind)
    (o : TableOpts) (ho : o.normalized = true) (hop : ∀ p ∈ o.profs, p < np)
    (st : HistDef.State ⟨[], pre ++ .split s :: post, np, wk⟩) :
    HistDef.table ⟨[], pre ++ .split s :: post, np, wk⟩ o st = .error .valueError := by
  have hany : o.profs.any (fun p => decide (np ≤ p)) = false := by
    rw [List.any_eq_false]
    intro p hpm
    have := hop p hpm
    simp; omega
  have hlast : ((pre ++ .split s :: post).map FixedAxis.totbins).getD ((pre ++ .split s :: post).length - 1) 0 = l.totbins := by
    have : (pre ++ .split s :: post)[(pre ++ .split s :: post).length - 1]? = some l := by
      rw [← List.getLast?_eq_getElem?, List.getLast?_append, List.getLast?_cons, hl]
      rfl
    rw [List.getD_eq_getElem?_getD, List.getElem?_map, this]
    rfl
  have e : HistDef.binwidths ⟨[], pre ++ .split s :: post, np, wk⟩ = .error .valueError := by
    unfold HistDef.binwidths
    rw [if_neg (by simp)]
    exact widthLoop_refused _ s post hp (by omega) (by rw [hlast]; omega) pre [] _ (by simp) hw
  unfold HistDef.table HistDef.tableWith
  simp only [hany, ho, if_true, e]
  rfl

/-- C46 is false of every split axis followed by an axis with as many bins as there are intervals: the width of a bin is taken from the interval
with the number of the bin on the *other* axis. -/
theorem C46_split_first_always (s : SplitAxis) (a : FixedAxis) (ha : ∀ x, a ≠ .split x) (hw : a.HasWidth) (h2 : s.edges.length = a.totbins + 1)
    (np : ℕ) (wk : WKind) :
    ∃ b, HistDef.binwidths ⟨[], [.split s, a], np, wk⟩ = .ok b ∧ ∀ i j, (FixedAxis.split s).isFinite i = true → a.isFinite j = true →
      j < a.totbins → b [i, j] = some ((s.edges.getD (j + 1) 0 - s.edges.getD j 0) * a.wAt j) := by
  have e1 : widthStep [.split s, a] 0 (.split s) (fun idx => if allFinite [.split s, a] idx then some 1 else none) =
      .ok (fun idx => if (FixedAxis.split s).isFinite (idx.getD 0 0) then
        wmul (if allFinite [.split s, a] idx then some 1 else none)
          (((List.range (s.edges.length - 1)).map (fun k => s.edges.getD (k + 1) 0 - s.edges.getD k 0)).getD (idx.getD 1 0) 0)
        else if allFinite [.split s, a] idx then some 1 else none) := by
    simp only [widthStep, FixedAxis.binwidth, List.length_map, List.length_range]
    rw [if_neg (by simp), if_pos (by simp; omega)]
    rfl
  have e2 : ∀ b : Widths, widthStep [.split s, a] 1 a b =
      .ok (fun idx => if a.isFinite (idx.getD 1 0) then wmul (b idx) (a.wAt (idx.getD 1 0)) else b idx) := by
    intro b
    cases a with
    | bin x =>
      have hw : x.numbins ≠ 0 := hw
      simp only [widthStep, FixedAxis.binwidth, FixedAxis.wAt]
      rw [if_neg hw]
    | intbin x => rfl
    | cut => rfl
    | split x => exact absurd rfl (ha x)
  refine ⟨_, by
    unfold HistDef.binwidths
    rw [if_neg (by simp)]
    simp only [widthLoop]
    rw [e1]
    simp only
    rw [show (0 : ℕ) + 1 = 1 from rfl, e2], ?_⟩
  intro i j hi hj hlt
  have hf : allFinite [.split s, a] [i, j] = true := by simp [allFinite, hi, hj]
  have hd : ((List.range (s.edges.length - 1)).map (fun k => s.edges.getD (k + 1) 0 - s.edges.getD k 0)).getD j 0 =
      s.edges.getD (j + 1) 0 - s.edges.getD j 0 := by
    rw [List.getD_eq_getElem?_getD, List.getElem?_map, List.getElem?_range (by omega)]
    rfl
  simp only [List.getD_cons_zero, List.getD_cons_succ, hi, hj, hf, if_true, hd, wmul, Option.map_some, one_mul]

/-- Three intervals before a cut are refused; two are exchanged. -/
example : (SplitAxis.mk [0, 1, 3, 4] false false false true).edges.length ≠ FixedAxis.cut.totbins + 1 ∧
    (SplitAxis.mk [0, 1, 3] false false false true).edges.length = FixedAxis.cut.totbins + 1 ∧
    (FixedAxis.split ⟨[0, 1, 3], false, false, false, true⟩).isFinite 0 = true ∧ FixedAxis.cut.isFinite 1 = true ∧
    cellWidth [.split ⟨[0, 1, 3], false, false, false, true⟩, .cut] [0, 1] = some 1 ∧
    ((SplitAxis.mk [0, 1, 3] false false false true).edges.getD 2 0 - (SplitAxis.mk [0, 1, 3] false false false true).edges.getD 1 0) *
      FixedAxis.cut.wAt 1 = 2 := by decide +kernel

/-- The width of a bin as it is taken: on a split axis before the last axis the interval is the one whose number the bin has on the *last* axis, or
the only one. -/
def takenWidth (last : ℕ) : List FixedAxis → List ℕ → ℚ
  | [], _ => 1
  | [a], is => a.wAt (is.headD 0)
  | .split s :: b :: as, is =>
    (if s.edges.length = 2 then s.edges.getD 1 0 - s.edges.getD 0 0 else s.edges.getD (last + 1) 0 - s.edges.getD last 0) * takenWidth last (b :: as) is.tail
  | a :: b :: as, is => a.wAt (is.headD 0) * takenWidth last (b :: as) is.tail

/-- every index is within the finite bins, and there is one for each axis -/
def AllFinite : List FixedAxis → List ℕ → Prop
  | [], [] => True
  | a :: as, i :: is => a.isFinite i = true ∧ AllFinite as is
  | _, _ => False

theorem AllFinite.check : ∀ {as : List FixedAxis} {is : List ℕ}, AllFinite as is → allFinite as is = true
  | [], [], _ => rfl
  | _ :: _, _ :: _, h => by simp [allFinite, h.1, AllFinite.check h.2]
  | [], _ :: _, h => h.elim
  | _ :: _, [], h => h.elim

theorem AllFinite.at : ∀ {as : List FixedAxis} {is : List ℕ}, AllFinite as is → ∀ (i : ℕ) (a : FixedAxis), as[i]? = some a →
    a.isFinite (is.getD i 0) = true
  | [], [], _, _, _, e => by simp at e
  | _ :: _, _ :: _, h, 0, a, e => by
    simp at e
    subst e
    exact h.1
  | _ :: _, _ :: is, h, i + 1, a, e => by
    simp only [List.getElem?_cons_succ] at e
    simpa using AllFinite.at h.2 i a e
  | [], _ :: _, h, _, _, _ => h.elim
  | _ :: _, [], h, _, _, _ => h.elim

theorem split_widths (s : SplitAxis) (j : ℕ) (h : j + 1 < s.edges.length) :
    ((List.range (s.edges.length - 1)).map (fun k => s.edges.getD (k + 1) 0 - s.edges.getD k 0)).getD j 0 = s.edges.getD (j + 1) 0 - s.edges.getD j 0 := by
  rw [List.getD_eq_getElem?_getD, List.getElem?_map, List.getElem?_range (by omega)]
  rfl

theorem widthLoop_taken (as : List FixedAxis) (idx : List ℕ) (hf : AllFinite as idx) (n : ℕ)
    (hn : (as.map FixedAxis.totbins).getD (as.length - 1) 0 = n) (hlt : idx.getD (as.length - 1) 0 < n) :
    ∀ (rest pre : List FixedAxis) (b : Widths), as = pre ++ rest → (∀ a ∈ rest, a.HasWidth) →
      (∀ s, .split s ∈ rest.dropLast → s.edges.length = 2 ∨ s.edges.length = n + 1) →
      ∃ b', widthLoop as pre.length rest b = .ok b' ∧
        b' idx = (b idx).map (· * takenWidth (idx.getD (as.length - 1) 0) rest (idx.drop pre.length)) := by
  intro rest
  induction rest with
  | nil => intro pre b _ _ _; exact ⟨b, rfl, by simp [takenWidth]⟩
  | cons a rest ih =>
    intro pre b e hw hs
    have ha : as[pre.length]? = some a := by rw [e]; simp
    have hfin := hf.at _ _ ha
    have hw0 := hw a List.mem_cons_self
    have hd : (idx.drop pre.length).headD 0 = idx.getD pre.length 0 := by
      rw [List.getD_eq_getElem?_getD, List.headD_eq_head?_getD, List.head?_drop]
    have ht : (idx.drop pre.length).tail = idx.drop (pre ++ [a]).length := by
      rw [List.tail_drop, List.length_append]
      rfl
    have step : ∃ b1 w, widthStep as pre.length a b = .ok b1 ∧ b1 idx = (b idx).map (· * w) ∧
        takenWidth (idx.getD (as.length - 1) 0) (a :: rest) (idx.drop pre.length) =
          w * takenWidth (idx.getD (as.length - 1) 0) rest (idx.drop (pre ++ [a]).length) := by
      cases a with
      | bin x =>
        have hw0 : x.numbins ≠ 0 := hw0
        refine ⟨_, (FixedAxis.bin x).wAt (idx.getD pre.length 0), by
          simp only [widthStep, FixedAxis.binwidth]
          rw [if_neg hw0], by simp only [hfin, if_true]; simp [wmul, FixedAxis.wAt, FixedAxis.binwidth, hw0], ?_⟩
        cases rest with
        | nil => simp [takenWidth, hd]
        | cons y ys => rw [takenWidth, hd, ht]; simp
      | intbin x =>
        refine ⟨_, (FixedAxis.intbin x).wAt (idx.getD pre.length 0), rfl, by simp only [hfin, if_true]; rfl, ?_⟩
        cases rest with
        | nil => simp [takenWidth, hd]
        | cons y ys => rw [takenWidth, hd, ht]; simp
      | cut =>
        refine ⟨_, FixedAxis.cut.wAt (idx.getD pre.length 0), rfl, by simp only [hfin, if_true]; rfl, ?_⟩
        cases rest with
        | nil => simp [takenWidth, hd]
        | cons y ys => rw [takenWidth, hd, ht]; simp
      | split s =>
        cases rest with
        | nil =>
          refine ⟨_, (FixedAxis.split s).wAt (idx.getD pre.length 0), by
            simp only [widthStep, FixedAxis.binwidth]
            rw [if_pos (by rw [e]; simp)], by simp only [hfin, if_true]; rfl, ?_⟩
          simp [takenWidth, hd]
        | cons y ys =>
          have hl : pre.length + 1 ≠ as.length := by rw [e]; simp
          have hc := hs s (by rw [List.dropLast_cons_cons]; exact List.mem_cons_self)
          by_cases h2 : s.edges.length - 1 = n
          · refine ⟨_, s.edges.getD (idx.getD (as.length - 1) 0 + 1) 0 - s.edges.getD (idx.getD (as.length - 1) 0) 0, by
              simp only [widthStep, FixedAxis.binwidth, List.length_map, List.length_range]
              rw [if_neg hl, hn, if_pos h2], ?_, ?_⟩
            · simp only [hfin, if_true, wmul]
              rw [split_widths s _ (by omega)]
            · rw [takenWidth, ht]
              by_cases h3 : s.edges.length = 2
              · have h0 : idx.getD (as.length - 1) 0 = 0 := by omega
                rw [if_pos h3, h0]
              · rw [if_neg h3]
          · have h3 : s.edges.length = 2 := by omega
            refine ⟨_, s.edges.getD 1 0 - s.edges.getD 0 0, by
              simp only [widthStep, FixedAxis.binwidth, List.length_map, List.length_range]
              rw [if_neg hl, hn, if_neg h2, if_pos (by omega)], ?_, ?_⟩
            · simp only [hfin, if_true, wmul]
              rw [split_widths s 0 (by omega)]
            · rw [takenWidth, ht, if_pos h3]
    obtain ⟨b1, w, e1, e2, e3⟩ := step
    obtain ⟨b2, e4, e5⟩ := ih (pre ++ [a]) b1 (by rw [e]; simp) (fun x hx => hw x (List.mem_cons_of_mem _ hx)) (by
      intro s hx
      refine hs s ?_
      cases rest with
      | nil => simp at hx
      | cons y ys => rw [List.dropLast_cons_cons]; exact List.mem_cons_of_mem _ hx)
    refine ⟨b2, ?_, ?_⟩
    · unfold widthLoop
      rw [e1]
      rw [List.length_append] at e4
      exact e4
    · rw [e5, e2, e3]
      cases b idx <;> simp [mul_assoc]

/-- C46, the widths of every histogram without group axes that `C46_split_refused` does not exclude: in each finite bin (`AllFinite`), the product of
the widths on all axes, where a split axis before the last one contributes the interval with the number of the bin on the last axis.  Right for all
bins only if that makes no difference. -/
theorem C46_widths_taken (fs : List FixedAxis) (np : ℕ) (wk : WKind) (hw : ∀ a ∈ fs, a.HasWidth) (l : FixedAxis) (hl : fs.getLast? = some l)
    (hs : ∀ s, .split s ∈ fs.dropLast → s.edges.length = 2 ∨ s.edges.length = l.totbins + 1) (idx : List ℕ) (hf : AllFinite fs idx)
    (hlt : idx.getD (fs.length - 1) 0 < l.totbins) :
    ∃ b, HistDef.binwidths ⟨[], fs, np, wk⟩ = .ok b ∧ b idx = some (takenWidth (idx.getD (fs.length - 1) 0) fs idx) := by
  have hlast : (fs.map FixedAxis.totbins).getD (fs.length - 1) 0 = l.totbins := by
    rw [List.getLast?_eq_getElem?] at hl
    rw [List.getD_eq_getElem?_getD, List.getElem?_map, hl]
    rfl
  obtain ⟨b, e, hb⟩ := widthLoop_taken fs idx hf _ hlast hlt fs [] (fun idx => if allFinite fs idx then some 1 else none) rfl hw hs
  refine ⟨b, by unfold HistDef.binwidths; rw [if_neg (by simp)]; exact e, ?_⟩
  rw [hb, hf.check]
  simp

/-- Three axes: the split axis in the middle takes the interval from the last axis. -/
example : AllFinite [.cut, .split ⟨[0, 1, 3], false, false, false, true⟩, .cut] [0, 0, 1] ∧
    takenWidth 1 [.cut, .split ⟨[0, 1, 3], false, false, false, true⟩, .cut] [0, 0, 1] = 2 ∧
    cellWidth [.cut, .split ⟨[0, 1, 3], false, false, false, true⟩, .cut] [0, 0, 1] = some 1 := by
  refine ⟨⟨by decide +kernel, by decide +kernel, by decide +kernel, trivial⟩, by decide +kernel, by decide +kernel⟩

/-- and the conditions of the theorem hold -/
example : ∃ b, HistDef.binwidths ⟨[], [.cut, .split ⟨[0, 1, 3], false, false, false, true⟩, .cut], 0, .none⟩ = .ok b ∧ b [0, 0, 1] = some 2 := by
  obtain ⟨b, h1, h2⟩ := C46_widths_taken [.cut, .split ⟨[0, 1, 3], false, false, false, true⟩, .cut] 0 .none (by simp [FixedAxis.HasWidth]) .cut rfl
    (fun s hs => by
      simp [List.dropLast] at hs
      subst hs
      exact Or.inr rfl) [0, 0, 1] ⟨by decide +kernel, by decide +kernel, by decide +kernel, trivial⟩ (by decide)
  exact ⟨b, h1, h2.trans (by decide +kernel)⟩

/-- A normalized table of three intervals before a cut. -/
example (st : HistDef.State ⟨[], [.split ⟨[0, 1, 3, 4], false, false, false, true⟩, .cut], 0, .none⟩) :
    HistDef.table ⟨[], [.split ⟨[0, 1, 3, 4], false, false, false, true⟩, .cut], 0, .none⟩ { normalized := true } st = .error .valueError :=
  C46_split_refused [] [.cut] ⟨[0, 1, 3, 4], false, false, false, true⟩ (by simp) (by simp) (by simp) (by simp) .cut rfl (by simp [FixedAxis.totbins]) 0 .none
    { normalized := true } rfl (by simp) st

end Verif
