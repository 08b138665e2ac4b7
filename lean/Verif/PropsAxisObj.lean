import Verif.AxisObjLemmas
import Verif.PropsFill

/-!
# Shared axis objects: property theorems C44

Whether deriving a histogram from another one disturbs later fills of the original.
-/

namespace Verif

/-! ## helpers -/

theorem pick_prefix {α : Type} : ∀ (m n : ℕ) (l : List α), pick (List.replicate m true ++ List.replicate n false) l = l.take m
  | 0, 0, l => by cases l <;> rfl
  | 0, n + 1, [] => rfl
  | 0, n + 1, x :: xs => by
    have := pick_prefix 0 n xs
    simpa [pick, List.replicate_succ] using this
  | m + 1, n, [] => rfl
  | m + 1, n, x :: xs => by
    have := pick_prefix m n xs
    simp only [List.replicate_succ, List.cons_append, pick, this, List.take_succ_cons]

/-- The operation leaves every axis that it takes over at its place: only the last fixed axes or the
last profiles go. -/
def AxOp.Safe (w : AxWorld) : AxOp → Prop
  | .create .. | .same _ | .replace .. | .share _ => True
  | .project _ _ kf => ∃ m n, kf = List.replicate m true ++ List.replicate n false
  | .erase h j => ∀ o, w.hists[h]? = some o → j + 1 = o.fixed.length
  | .drop _ keep => ∃ m n, keep = List.replicate m true ++ List.replicate n false

/-- Every operation of the program does so. -/
def SafeAll : AxWorld → List AxOp → Prop
  | _, [] => True
  | w, op :: ops => op.Safe w ∧ SafeAll (w.step op) ops

/-- Axes that `o` has in common with `h` are at the same place. -/
def SamePlace (o h : AxHist) : Prop :=
  (∀ i j a, o.FixedAt i a → h.FixedAt j a → i = j) ∧ ∀ i j a, o.ProfAt i a → h.ProfAt j a → i = j

theorem fixedAt_mem {h : AxHist} {i a : ℕ} (hf : h.FixedAt i a) : a ∈ h.fixed.map (·.1) :=
  List.mem_iff_getElem?.2 ⟨i, (fixedAt_iff h i a).1 hf⟩

theorem fixedAt_of_mem {h : AxHist} {a : ℕ} (hf : a ∈ h.fixed.map (·.1)) : ∃ i, h.FixedAt i a := by
  obtain ⟨i, hi⟩ := List.mem_iff_getElem?.1 hf
  exact ⟨i, (fixedAt_iff h i a).2 hi⟩

/-- The numbers that an old histogram needs survive the construction of a new one exactly if the axes
in common are at the same place. -/
theorem construct_keeps_iff {w : AxWorld} (hw : w.Wf) {op : AxOp} {o : AxHist} {n : ℕ} (hr : op.result w = some (o, n))
    {h : AxHist} (hh : h ∈ w.hists) (hright : h.Right w.idx) : h.Right (o.construct w.idx) ↔ SamePlace o h := by
  have d := result_derived hw hr
  have ho := construct_right o d.apart w.idx
  have hno : ∀ a ∈ h.fixed.map (·.1), a ∉ o.profs := by
    intro a ha hp
    rcases d.profs a hp with h1 | ⟨h', hh', m⟩
    · have := hw.below h hh a (List.mem_append_left _ ha); omega
    · exact hw.kinds h hh h' hh' a ha m
  have hno' : ∀ a ∈ h.profs, a ∉ o.fixed.map (·.1) := by
    intro a ha hp
    rcases d.fixed a hp with h1 | ⟨h', hh', m⟩
    · have := hw.below h hh a (List.mem_append_right _ ha); omega
    · exact hw.kinds h' hh' h hh a m ha
  constructor
  · intro hk
    refine ⟨fun i j a h1 h2 => ?_, fun i j a h1 h2 => ?_⟩
    · rw [← ho.1 i a h1, hk.1 j a h2]
    · have e1 := ho.2 i a h1
      have e2 := hk.2 j a h2
      omega
  · intro hs
    constructor
    · intro j a hj
      by_cases hm : a ∈ o.fixed.map (·.1)
      · obtain ⟨i, hi⟩ := fixedAt_of_mem hm
        rw [ho.1 i a hi, hs.1 i j a hi hj]
      · rw [construct_other o w.idx a hm (hno a (fixedAt_mem hj))]
        exact hright.1 j a hj
    · intro j a hj
      have ham : a ∈ h.profs := List.mem_iff_getElem?.2 ⟨j, hj⟩
      by_cases hm : a ∈ o.profs
      · obtain ⟨i, hi⟩ := List.mem_iff_getElem?.1 hm
        rw [ho.2 i a hi, hs.2 i j a hi hj]
      · rw [construct_other o w.idx a (hno' a ham) hm]
        exact hright.2 j a hj

/-- Taking the first axes only leaves them at their place, in every histogram of a right world. -/
theorem samePlace_of_get {w : AxWorld} {h h' o : AxHist} (hh : h.Right w.idx) (hh' : h'.Right w.idx)
    (hf : ∀ i a, o.FixedAt i a → h.FixedAt i a ∨ w.next ≤ a) (hp : ∀ i a, o.ProfAt i a → h.ProfAt i a)
    (hb : ∀ a ∈ h'.fixed.map (·.1) ++ h'.profs, a < w.next) : SamePlace o h' := by
  refine ⟨fun i j a h1 h2 => ?_, fun i j a h1 h2 => ?_⟩
  · rcases hf i a h1 with h3 | h3
    · rw [← hh.1 i a h3, hh'.1 j a h2]
    · have := hb a (List.mem_append_left _ (fixedAt_mem h2))
      omega
  · have e1 := hh.2 i a (hp i a h1)
    have e2 := hh'.2 j a h2
    omega

theorem step_right {w : AxWorld} (hw : w.Wf) (hr : ∀ h ∈ w.hists, h.Right w.idx) (op : AxOp) (hs : op.Safe w) :
    ∀ h ∈ (w.step op).hists, h.Right (w.step op).idx := by
  unfold AxWorld.step
  cases hres : op.result w with
  | none => exact hr
  | some p =>
    obtain ⟨o, n⟩ := p
    have d := result_derived hw hres
    have hnew : o.Right (o.construct w.idx) := construct_right o d.apart w.idx
    have key : (∀ h ∈ w.hists, SamePlace o h) → ∀ h ∈ w.hists ++ [o], h.Right (o.construct w.idx) := by
      intro hsp h hh
      rcases List.mem_append.1 hh with hh | hh
      · exact (construct_keeps_iff hw hres hh (hr h hh)).2 (hsp h hh)
      · rw [List.mem_singleton] at hh
        subst hh
        exact hnew
    cases op with
    | create gs fs np wk =>
      refine key fun h hh => ?_
      simp only [AxOp.result, Option.some.injEq, Prod.mk.injEq] at hres
      obtain ⟨rfl, rfl⟩ := hres
      refine ⟨fun i j a h1 h2 => ?_, fun i j a h1 h2 => ?_⟩
      · have h3 := hw.below h hh a (List.mem_append_left _ (fixedAt_mem h2))
        have h4 : a ∈ (withNumbers w.next fs).map (·.1) := (fixedAt_mem h1)
        rw [withNumbers_fst] at h4
        simp only [List.mem_map] at h4
        obtain ⟨k, _, rfl⟩ := h4
        omega
      · have h3 := hw.below h hh a (List.mem_append_right _ (List.mem_iff_getElem?.2 ⟨j, h2⟩))
        have h4 : a ∈ (List.range np).map (w.next + fs.length + ·) := List.mem_iff_getElem?.2 ⟨i, h1⟩
        simp only [List.mem_map] at h4
        obtain ⟨k, _, rfl⟩ := h4
        omega
    | share k =>
      simp only [AxOp.result, Option.map_eq_some_iff, Prod.mk.injEq] at hres
      obtain ⟨o', ho', rfl, rfl⟩ := hres
      intro h hh
      rcases List.mem_append.1 hh with hh | hh
      · exact hr h hh
      · rw [List.mem_singleton] at hh
        subst hh
        exact hr _ (List.mem_iff_getElem?.2 ⟨k, ho'⟩)
    | same k =>
      simp only [AxOp.result, Option.map_eq_some_iff, Prod.mk.injEq] at hres
      obtain ⟨o', ho', rfl, rfl⟩ := hres
      have hm := List.mem_iff_getElem?.2 ⟨k, ho'⟩
      exact key fun h hh => samePlace_of_get (hr _ hm) (hr h hh) (fun i a h1 => Or.inl h1) (fun i a h1 => h1) (hw.below h hh)
    | project k kg kf =>
      simp only [AxOp.result, Option.map_eq_some_iff, Prod.mk.injEq] at hres
      obtain ⟨o', ho', rfl, rfl⟩ := hres
      have hm := List.mem_iff_getElem?.2 ⟨k, ho'⟩
      obtain ⟨m, n, rfl⟩ := hs
      refine key fun h hh => samePlace_of_get (hr _ hm) (hr h hh) (fun i a h1 => Or.inl ?_) (fun i a h1 => h1) (hw.below h hh)
      obtain ⟨x, hx⟩ := h1
      refine ⟨x, ?_⟩
      simp only [pick_prefix, List.getElem?_take] at hx
      split at hx
      · exact hx
      · cases hx
    | replace k j x =>
      simp only [AxOp.result, Option.map_eq_some_iff, Prod.mk.injEq] at hres
      obtain ⟨o', ho', rfl, rfl⟩ := hres
      have hm := List.mem_iff_getElem?.2 ⟨k, ho'⟩
      refine key fun h hh => samePlace_of_get (hr _ hm) (hr h hh) (fun i a h1 => ?_) (fun i a h1 => h1) (hw.below h hh)
      obtain ⟨y, hy⟩ := h1
      simp only [List.getElem?_set] at hy
      split at hy
      · split at hy
        · simp only [Option.some.injEq, Prod.mk.injEq] at hy
          exact Or.inr (by omega)
        · cases hy
      · exact Or.inl ⟨y, hy⟩
    | erase k j =>
      simp only [AxOp.result, Option.map_eq_some_iff, Prod.mk.injEq] at hres
      obtain ⟨o', ho', rfl, rfl⟩ := hres
      have hm := List.mem_iff_getElem?.2 ⟨k, ho'⟩
      have hj := hs o' ho'
      refine key fun h hh => samePlace_of_get (hr _ hm) (hr h hh) (fun i a h1 => Or.inl ?_) (fun i a h1 => h1) (hw.below h hh)
      obtain ⟨x, hx⟩ := h1
      refine ⟨x, ?_⟩
      simp only [List.getElem?_eraseIdx] at hx
      split at hx
      · exact hx
      · rw [List.getElem?_eq_none (by omega)] at hx
        cases hx
    | drop k keep =>
      simp only [AxOp.result, Option.map_eq_some_iff, Prod.mk.injEq] at hres
      obtain ⟨o', ho', rfl, rfl⟩ := hres
      have hm := List.mem_iff_getElem?.2 ⟨k, ho'⟩
      obtain ⟨m, n, rfl⟩ := hs
      refine key fun h hh => samePlace_of_get (hr _ hm) (hr h hh) (fun i a h1 => Or.inl h1) (fun i a h1 => ?_) (hw.below h hh)
      unfold AxHist.ProfAt at h1 ⊢
      simp only [pick_prefix, List.getElem?_take] at h1
      split at h1
      · exact h1
      · cases h1

theorem run_right {w : AxWorld} (hw : w.Wf) (hr : ∀ h ∈ w.hists, h.Right w.idx) : ∀ ops, SafeAll w ops →
    ∀ h ∈ (w.run ops).hists, h.Right (w.run ops).idx := by
  intro ops
  induction ops generalizing w with
  | nil => intro _; exact hr
  | cons op ops ih =>
    intro hs
    exact ih (step_wf hw op) (step_right hw hr op hs.1) hs.2

theorem fill_ok (H : HistDef) (st : H.State) (rows : List Row) (d : Dest) (hd : H.columns rows = .ok d) :
    H.fill st rows = finishFill (postfill H.layout rows.length d (prefill H.layout st)) := by
  unfold HistDef.fill
  rw [hd]
  dsimp only
  generalize postfill H.layout rows.length d (prefill H.layout st) = x
  rcases x with ⟨e, c⟩ | c <;> rfl

theorem fill_error (H : HistDef) (st : H.State) (rows : List Row) (e : Err) (hd : H.columns rows = .error e) :
    H.fill st rows = .error (e, some (prefill H.layout st)) := by
  unfold HistDef.fill
  rw [hd]

theorem fill_of_right (h : AxHist) (idx : Indices) (hr : h.Right idx) (st : h.toDef.State) (rows : List Row) :
    h.fill idx st rows = h.toDef.fill st rows := by
  have e := (right_iff_layout h idx).1 hr
  have e1 : h.fixed.map (fun p => idx p.1) = h.toDef.layout.sidx := congrArg Layout.sidx e
  have e2 : h.profs.map idx = h.toDef.layout.pidx := congrArg Layout.pidx e
  cases hd : h.toDef.columns rows with
  | error e =>
    rw [fill_error _ _ _ _ hd]
    unfold AxHist.fill
    rw [hd]
  | ok d =>
    rw [fill_ok _ _ _ _ hd]
    unfold AxHist.fill AxHist.layout
    rw [hd, e1, e2]
    rfl

/-! ## C44 -/

/-- C44, the part that holds.  In every program that projects away and drops only last axes and
profiles, each histogram (also the originals) fills like a histogram that shares nothing. -/
theorem C44_safe_programs_partial (ops : List AxOp) (hs : SafeAll AxWorld.empty ops) :
    ∀ h ∈ (AxWorld.empty.run ops).hists, ∀ (st : h.toDef.State) (rows : List Row),
      h.fill (AxWorld.empty.run ops).idx st rows = h.toDef.fill st rows := by
  intro h hh st rows
  exact fill_of_right h _ (run_right empty_wf (fun h hh => by simp [AxWorld.empty] at hh) ops hs h hh) st rows

/-- C44: what an operation gives can itself be filled (until something else is derived from it). -/
theorem C44_new_histogram (ops : List AxOp) (op : AxOp) (hop : ∀ h, op ≠ .share h) (o : AxHist) (n : ℕ)
    (hr : op.result (AxWorld.empty.run ops) = some (o, n)) (st : o.toDef.State) (rows : List Row) :
    o.fill ((AxWorld.empty.run ops).step op).idx st rows = o.toDef.fill st rows := by
  have d := result_derived (run_wf empty_wf ops) hr
  have e : ((AxWorld.empty.run ops).step op).idx = o.construct (AxWorld.empty.run ops).idx := by
    unfold AxWorld.step
    rw [hr]
    cases op with
    | share h => exact absurd rfl (hop h)
    | _ => rfl
  rw [e]
  exact fill_of_right o _ (construct_right o d.apart _) st rows

/-- C44, exactly when a histogram is disturbed.  If the layout of `h` was right before an operation that
constructs a histogram, then it is right afterwards if and only if the axes that the new histogram has in
common with `h` are at the same place in both. -/
theorem C44_disturbed_iff (ops : List AxOp) (op : AxOp) (hop : ∀ h, op ≠ .share h) (o : AxHist) (n : ℕ)
    (hr : op.result (AxWorld.empty.run ops) = some (o, n)) (h : AxHist) (hh : h ∈ (AxWorld.empty.run ops).hists)
    (hl : h.layout (AxWorld.empty.run ops).idx = h.toDef.layout) :
    h.layout ((AxWorld.empty.run ops).step op).idx = h.toDef.layout ↔ SamePlace o h := by
  have e : ((AxWorld.empty.run ops).step op).idx = o.construct (AxWorld.empty.run ops).idx := by
    unfold AxWorld.step
    rw [hr]
    cases op with
    | share h => exact absurd rfl (hop h)
    | _ => rfl
  rw [e, ← right_iff_layout]
  exact construct_keeps_iff (run_wf empty_wf ops) hr hh ((right_iff_layout _ _).2 hl)

/-- Fill histogram number `h` of the world that a program makes, and read cells. -/
def axFill (ops : List AxOp) (h : ℕ) (rows : List Row) (cells : List (List ℕ × ℕ)) : Except Err (List ℚ) :=
  match (AxWorld.empty.run ops).hists[h]? with
  | none => .error .indexError
  | some o =>
    match o.fill (AxWorld.empty.run ops).idx none rows with
    | .error (e, _) => .error e
    | .ok st => .ok (cells.map (fun p => o.toDef.read st [] p.1 p.2))

def axDemo : AxOp := .create [] [.cut, .bin ⟨3, 0, 3, false, false, false, true⟩] 0 .none
def axRow : Row := ⟨[], [.bool true, .num (.fin (5 / 2))], [], none⟩

/-- C44 is violated: `h = Hist(cut("p"), bin("y", 3, 0, 3, ...)); h.project("y"); h.fill(p=[True], y=[2.5])`
puts the entry in the wrong bin, because projecting wrote 0 into `_shapeindex` of the y axis.  Without the
call of `project` (whose result is not used), the bin is right. -/
theorem C44_project_refuted :
    axFill [axDemo] 0 [axRow] [([1, 1], 0), ([1, 2], 0)] = .ok [0, 1] ∧
    axFill [axDemo, .project 0 [] [false, true]] 0 [axRow] [([1, 1], 0), ([1, 2], 0)] = .ok [1, 0] := by
  decide +kernel

/-- C44 is violated: the same happens to the original if a *copy* is projected. -/
theorem C44_copy_refuted :
    axFill [axDemo, .same 0, .project 1 [] [false, true]] 0 [axRow] [([1, 1], 0), ([1, 2], 0)] = .ok [1, 0] := by
  decide +kernel

/-- C44 is violated: the same happens after a selection on the cut axis. -/
theorem C44_select_cut_refuted :
    axFill [axDemo, .erase 0 0] 0 [axRow] [([1, 1], 0), ([1, 2], 0)] = .ok [1, 0] := by
  decide +kernel

def axProfDemo : AxOp := .create [] [.cut] 2 .none
def axProfRow : Row := ⟨[], [.bool true], [3, 5], none⟩

/-- C44 is violated: after `h.drop("a")` (first of two profiles), a fill of `h` adds the second
profile's sums to the columns of the first. -/
theorem C44_drop_refuted :
    axFill [axProfDemo] 0 [axProfRow] [([1], 0), ([1], 1), ([1], 2), ([1], 3), ([1], 4)] = .ok [3, 9, 5, 25, 1] ∧
    axFill [axProfDemo, .drop 0 [false, true]] 0 [axProfRow] [([1], 0), ([1], 1), ([1], 2), ([1], 3), ([1], 4)]
      = .ok [3 + 5, 9 + 25, 0, 0, 1] := by
  decide +kernel

/-- a safe program: projections onto the first axis, copies, dropping the last profile, rebinning -/
example : SafeAll AxWorld.empty [axDemo, .project 0 [] [true, false], .same 0, .replace 0 1 (.split ⟨[0, 3], false, false, false, true⟩),
    axProfDemo, .drop 4 [true, false], .erase 4 0, .share 0] := by
  refine ⟨trivial, ⟨1, 1, rfl⟩, trivial, trivial, trivial, ⟨1, 1, rfl⟩, ?_, trivial, trivial⟩
  intro o ho
  have : (AxWorld.empty.run [axDemo, .project 0 [] [true, false], .same 0, .replace 0 1 (.split ⟨[0, 3], false, false, false, true⟩),
    axProfDemo, .drop 4 [true, false]]).hists[4]? = some o := ho
  have e : (AxWorld.empty.run [axDemo, .project 0 [] [true, false], .same 0, .replace 0 1 (.split ⟨[0, 3], false, false, false, true⟩),
    axProfDemo, .drop 4 [true, false]]).hists[4]?.map (fun o => o.fixed.length) = some 1 := by decide +kernel
  rw [this] at e
  simpa using e.symm

/-- after all of it the first histogram still fills as it should -/
example : axFill [axDemo, .project 0 [] [true, false], .same 0, .replace 0 1 (.split ⟨[0, 3], false, false, false, true⟩),
    axProfDemo, .drop 4 [true, false], .erase 4 0] 0 [axRow] [([1, 1], 0), ([1, 2], 0)] = .ok [0, 1] := by decide +kernel

end Verif
