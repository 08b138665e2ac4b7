import Verif.AxisObj

/-!
# Lemmas about shared axis objects
-/

namespace Verif

theorem number_notMem (step : ℕ) : ∀ (as : List ℕ) (start : ℕ) (idx : Indices) (a : ℕ), a ∉ as → number step start as idx a = idx a
  | [], _, _, _, _ => rfl
  | b :: as, start, idx, a, h => by
    simp only [List.mem_cons, not_or] at h
    rw [number, number_notMem step as _ _ a h.2, if_neg h.1]

theorem number_get (step : ℕ) : ∀ (as : List ℕ) (start : ℕ) (idx : Indices) (i a : ℕ), as.Nodup → as[i]? = some a →
    number step start as idx a = start + i * step
  | [], _, _, _, _, _, h => by simp at h
  | b :: as, start, idx, 0, a, hn, h => by
    simp at h
    subst h
    rw [number, number_notMem step as _ _ b (List.nodup_cons.1 hn).1]
    simp
  | b :: as, start, idx, i + 1, a, hn, h => by
    rw [number, number_get step as _ _ i a (List.nodup_cons.1 hn).2 (by simpa using h)]
    ring

/-- The object is one of the histogram's fixed axes (at place `i`), or one of its profiles. -/
def AxHist.FixedAt (h : AxHist) (i a : ℕ) : Prop := ∃ x, h.fixed[i]? = some (a, x)
def AxHist.ProfAt (h : AxHist) (i a : ℕ) : Prop := h.profs[i]? = some a

/-- The objects of a histogram are all different. -/
def AxHist.Apart (h : AxHist) : Prop := (h.fixed.map (·.1) ++ h.profs).Nodup

/-- The numbers in the axis objects are those of the histogram. -/
def AxHist.Right (h : AxHist) (idx : Indices) : Prop :=
  (∀ i a, h.FixedAt i a → idx a = i) ∧ ∀ i a, h.ProfAt i a → idx a = 2 * i

theorem fixedAt_iff (h : AxHist) (i a : ℕ) : h.FixedAt i a ↔ (h.fixed.map (·.1))[i]? = some a := by
  unfold AxHist.FixedAt
  rw [List.getElem?_map]
  cases h.fixed[i]? with
  | none => simp
  | some p => obtain ⟨b, x⟩ := p; simp

theorem range_eq_map {f : ℕ → ℕ} {α : Type} : ∀ (l : List α) (g : α → ℕ), (∀ i x, l[i]? = some x → g x = f i) → l.map g = (List.range l.length).map f := by
  intro l g h
  refine List.ext_getElem? fun i => ?_
  rw [List.getElem?_map, List.getElem?_map]
  by_cases hi : i < l.length
  · rw [List.getElem?_eq_getElem hi, List.getElem?_range hi]
    simp [h i _ (List.getElem?_eq_getElem hi)]
  · rw [List.getElem?_eq_none (by omega), List.getElem?_eq_none (by simpa using hi)]
    rfl

theorem right_iff_layout (h : AxHist) (idx : Indices) : h.Right idx ↔ h.layout idx = h.toDef.layout := by
  have hl : h.toDef.layout = { h.toDef.layout with sidx := List.range h.fixed.length, pidx := (List.range h.profs.length).map (2 * ·) } := by
    simp [HistDef.layout, Layout.make, AxHist.toDef]
  constructor
  · intro ⟨h1, h2⟩
    rw [hl]
    unfold AxHist.layout
    have e2 := range_eq_map (f := fun i => 2 * i) h.profs idx (fun i a ha => h2 i a ha)
    rw [e2]
    congr 1
    · have := range_eq_map (f := fun i => i) h.fixed (fun p => idx p.1) (fun i p hp => h1 i p.1 ⟨p.2, hp⟩)
      simpa using this
  · intro he
    rw [hl] at he
    have e1 : h.fixed.map (fun p => idx p.1) = List.range h.fixed.length := congrArg Layout.sidx he
    have e2 : h.profs.map idx = (List.range h.profs.length).map (2 * ·) := congrArg Layout.pidx he
    constructor
    · intro i a ⟨x, hx⟩
      have hi := (List.getElem?_eq_some_iff.1 hx).1
      have e := congrArg (fun l : List ℕ => l[i]?) e1
      simp only [List.getElem?_map, hx, List.getElem?_range hi, Option.map_some, Option.some.injEq] at e
      exact e
    · intro i a hx
      have hi := (List.getElem?_eq_some_iff.1 hx).1
      have e := congrArg (fun l : List ℕ => l[i]?) e2
      unfold AxHist.ProfAt at hx
      simp only [List.getElem?_map, hx, List.getElem?_range hi, Option.map_some, Option.some.injEq] at e
      exact e

/-- A new histogram has the right numbers in its axes. -/
theorem construct_right (h : AxHist) (ha : h.Apart) (idx : Indices) : h.Right (h.construct idx) := by
  obtain ⟨h1, h2, h3⟩ := List.nodup_append.1 ha
  constructor
  · intro i a hi
    rw [fixedAt_iff] at hi
    unfold AxHist.construct
    rw [number_notMem]
    · rw [number_get 1 _ 0 idx i a h1 hi]; omega
    · intro hp
      exact h3 a (List.mem_iff_getElem?.2 ⟨i, hi⟩) a hp rfl
  · intro i a hi
    unfold AxHist.construct
    rw [number_get 2 _ 0 _ i a h2 hi]; omega

theorem construct_other (h : AxHist) (idx : Indices) (a : ℕ) (hf : a ∉ h.fixed.map (·.1)) (hp : a ∉ h.profs) :
    h.construct idx a = idx a := by
  unfold AxHist.construct
  rw [number_notMem _ _ _ _ _ hp, number_notMem _ _ _ _ _ hf]

/-- What every program keeps: objects are different, numbered below `next`, and not fixed axes in one
histogram and profiles in another. -/
structure AxWorld.Wf (w : AxWorld) : Prop where
  apart : ∀ h ∈ w.hists, h.Apart
  below : ∀ h ∈ w.hists, ∀ a ∈ h.fixed.map (·.1) ++ h.profs, a < w.next
  kinds : ∀ h ∈ w.hists, ∀ h' ∈ w.hists, ∀ a, a ∈ h.fixed.map (·.1) → a ∉ h'.profs

theorem withNumbers_fst {α : Type} : ∀ (n : ℕ) (l : List α), (withNumbers n l).map (·.1) = (List.range l.length).map (n + ·)
  | _, [] => rfl
  | n, x :: xs => by
    rw [withNumbers, List.map_cons, withNumbers_fst (n + 1) xs, List.length_cons, List.range_succ_eq_map, List.map_cons, List.map_map]
    congr 1
    exact List.map_congr_left (fun i _ => by simp; omega)

theorem pick_sublist {α : Type} : ∀ (keep : List Bool) (l : List α), (pick keep l).Sublist l
  | [], l => by cases l <;> exact List.nil_sublist _
  | true :: ks, [] => List.nil_sublist _
  | false :: ks, [] => List.nil_sublist _
  | true :: ks, x :: xs => (pick_sublist ks xs).cons_cons x
  | false :: ks, x :: xs => (pick_sublist ks xs).cons x

theorem pick_map' {α β : Type} (f : α → β) : ∀ (keep : List Bool) (l : List α), (pick keep l).map f = pick keep (l.map f)
  | [], l => by cases l <;> rfl
  | true :: ks, [] => rfl
  | false :: ks, [] => rfl
  | true :: ks, x :: xs => by simp [pick, pick_map' f ks xs]
  | false :: ks, x :: xs => by simp [pick, pick_map' f ks xs]

/-- Where the objects of a new histogram come from: from one histogram, in the same role, or new. -/
structure Derived (w : AxWorld) (o : AxHist) (n : ℕ) : Prop where
  apart : o.Apart
  fixed : ∀ a ∈ o.fixed.map (·.1), (w.next ≤ a ∧ a < w.next + n) ∨ ∃ h ∈ w.hists, a ∈ h.fixed.map (·.1)
  profs : ∀ a ∈ o.profs, (w.next ≤ a ∧ a < w.next + n) ∨ ∃ h ∈ w.hists, a ∈ h.profs
  apart' : ∀ a ∈ o.fixed.map (·.1), a ∉ o.profs

theorem sublist_derived {w : AxWorld} (hw : w.Wf) {h o : AxHist} (hh : h ∈ w.hists) (hf : (o.fixed.map (·.1)).Sublist (h.fixed.map (·.1)))
    (hp : o.profs.Sublist h.profs) (n : ℕ) : Derived w o n := by
  have ha : o.Apart := (hw.apart h hh).sublist (hf.append hp)
  exact ⟨ha, fun a m => Or.inr ⟨h, hh, hf.subset m⟩, fun a m => Or.inr ⟨h, hh, hp.subset m⟩,
    fun a m m' => (List.nodup_append.1 ha).2.2 a m a m' rfl⟩

theorem result_derived {w : AxWorld} (hw : w.Wf) {op : AxOp} {o : AxHist} {n : ℕ} (h : op.result w = some (o, n)) : Derived w o n := by
  cases op with
  | create gs fs np wk =>
    simp only [AxOp.result, Option.some.injEq, Prod.mk.injEq] at h
    obtain ⟨rfl, rfl⟩ := h
    have e := withNumbers_fst w.next fs
    have hd : ∀ a ∈ (withNumbers w.next fs).map (·.1), a ∉ (List.range np).map (w.next + fs.length + ·) := by
      intro a ha hb
      rw [e] at ha
      simp only [List.mem_map, List.mem_range] at ha hb
      obtain ⟨i, hi, rfl⟩ := ha
      obtain ⟨j, hj, hij⟩ := hb
      omega
    refine ⟨?_, ?_, ?_, hd⟩
    · refine List.nodup_append.2 ⟨?_, ?_, fun a ha b hb hab => hd a ha (hab ▸ hb)⟩
      · show ((withNumbers w.next fs).map (·.1)).Nodup
        rw [e]
        exact List.nodup_range.map (fun a b => by simp)
      · exact List.nodup_range.map (fun a b => by simp)
    · intro a ha
      have ha : a ∈ (withNumbers w.next fs).map (·.1) := ha
      rw [e] at ha
      simp only [List.mem_map, List.mem_range] at ha
      obtain ⟨i, hi, rfl⟩ := ha
      exact Or.inl ⟨by omega, by omega⟩
    · intro a ha
      simp only [List.mem_map, List.mem_range] at ha
      obtain ⟨i, hi, rfl⟩ := ha
      exact Or.inl ⟨by omega, by omega⟩
  | replace k j x =>
    simp only [AxOp.result, Option.map_eq_some_iff, Prod.mk.injEq] at h
    obtain ⟨o', ho', rfl, rfl⟩ := h
    have hm : o' ∈ w.hists := List.mem_iff_getElem?.2 ⟨k, ho'⟩
    have hap := hw.apart o' hm
    have hbe := hw.below o' hm
    obtain ⟨h1, h2, h3⟩ := List.nodup_append.1 hap
    have hset : ((o'.fixed.set j (w.next, x)).map (·.1)) = (o'.fixed.map (·.1)).set j w.next := by rw [List.map_set]
    have hfresh : w.next ∉ o'.fixed.map (·.1) ++ o'.profs := fun hc => absurd (hbe _ hc) (by omega)
    simp only [List.mem_append, not_or] at hfresh
    have hmem : ∀ a ∈ (o'.fixed.set j (w.next, x)).map (·.1), a = w.next ∨ a ∈ o'.fixed.map (·.1) := by
      intro a ha
      rw [hset] at ha
      exact (List.mem_or_eq_of_mem_set ha).symm
    have hd : ∀ a ∈ (o'.fixed.set j (w.next, x)).map (·.1), a ∉ o'.profs := by
      intro a ha hb
      rcases hmem a ha with rfl | hc
      · exact hfresh.2 hb
      · exact h3 a hc a hb rfl
    refine ⟨?_, ?_, ?_, hd⟩
    · refine List.nodup_append.2 ⟨?_, h2, fun a ha b hb hab => hd a ha (hab ▸ hb)⟩
      show ((o'.fixed.set j (w.next, x)).map (·.1)).Nodup
      rw [hset]
      exact h1.set hfresh.1
    · intro a ha
      rcases hmem a ha with rfl | hc
      · exact Or.inl ⟨le_rfl, by omega⟩
      · exact Or.inr ⟨o', hm, hc⟩
    · intro a ha
      exact Or.inr ⟨o', hm, ha⟩
  | same k =>
    simp only [AxOp.result, Option.map_eq_some_iff, Prod.mk.injEq] at h
    obtain ⟨o', ho', rfl, rfl⟩ := h
    exact sublist_derived hw (List.mem_iff_getElem?.2 ⟨k, ho'⟩) (List.Sublist.refl _) (List.Sublist.refl _) 0
  | share k =>
    simp only [AxOp.result, Option.map_eq_some_iff, Prod.mk.injEq] at h
    obtain ⟨o', ho', rfl, rfl⟩ := h
    exact sublist_derived hw (List.mem_iff_getElem?.2 ⟨k, ho'⟩) (List.Sublist.refl _) (List.Sublist.refl _) 0
  | project k kg kf =>
    simp only [AxOp.result, Option.map_eq_some_iff, Prod.mk.injEq] at h
    obtain ⟨o', ho', rfl, rfl⟩ := h
    exact sublist_derived hw (List.mem_iff_getElem?.2 ⟨k, ho'⟩) (o := { o' with groups := pick kg o'.groups, fixed := pick kf o'.fixed }) ((pick_sublist _ _).map _) (List.Sublist.refl _) 0
  | erase k j =>
    simp only [AxOp.result, Option.map_eq_some_iff, Prod.mk.injEq] at h
    obtain ⟨o', ho', rfl, rfl⟩ := h
    exact sublist_derived hw (List.mem_iff_getElem?.2 ⟨k, ho'⟩) (o := { o' with fixed := o'.fixed.eraseIdx j }) ((List.eraseIdx_sublist _ _).map _) (List.Sublist.refl _) 0
  | drop k keep =>
    simp only [AxOp.result, Option.map_eq_some_iff, Prod.mk.injEq] at h
    obtain ⟨o', ho', rfl, rfl⟩ := h
    exact sublist_derived hw (List.mem_iff_getElem?.2 ⟨k, ho'⟩) (o := { o' with profs := pick keep o'.profs }) (List.Sublist.refl _) (pick_sublist _ _) 0

theorem step_wf {w : AxWorld} (hw : w.Wf) (op : AxOp) : (w.step op).Wf := by
  unfold AxWorld.step
  split
  · exact hw
  · rename_i o n hr
    have d := result_derived hw hr
    have hold : ∀ h ∈ w.hists, ∀ a, a ∈ h.fixed.map (·.1) → a < w.next := fun h hh a ha => hw.below h hh a (List.mem_append_left _ ha)
    have hold' : ∀ h ∈ w.hists, ∀ a, a ∈ h.profs → a < w.next := fun h hh a ha => hw.below h hh a (List.mem_append_right _ ha)
    constructor
    · intro h hh
      rcases List.mem_append.1 hh with hh | hh
      · exact hw.apart h hh
      · rw [List.mem_singleton] at hh
        subst hh
        exact d.apart
    · intro h hh a ha
      show a < w.next + n
      rcases List.mem_append.1 hh with hh | hh
      · have := hw.below h hh a ha; omega
      · rw [List.mem_singleton] at hh
        subst hh
        rcases List.mem_append.1 ha with ha | ha
        · rcases d.fixed a ha with h1 | ⟨h', hh', m⟩
          · omega
          · have := hold h' hh' a m; omega
        · rcases d.profs a ha with h1 | ⟨h', hh', m⟩
          · omega
          · have := hold' h' hh' a m; omega
    · intro h hh h' hh' a ha ha'
      replace hh : h ∈ w.hists ∨ h = o := by simpa using hh
      replace hh' : h' ∈ w.hists ∨ h' = o := by simpa using hh'
      rcases hh with hh | hh <;> rcases hh' with hh' | hh'
      · exact hw.kinds h hh h' hh' a ha ha'
      · subst hh'
        rcases d.profs a ha' with h1 | ⟨h2, hh2, m⟩
        · have := hold h hh a ha; omega
        · exact hw.kinds h hh h2 hh2 a ha m
      · subst hh
        rcases d.fixed a ha with h1 | ⟨h2, hh2, m⟩
        · have := hold' h' hh' a ha'; omega
        · exact hw.kinds h2 hh2 h' hh' a m ha'
      · subst hh hh'
        exact d.apart' a ha ha'

theorem run_wf {w : AxWorld} (hw : w.Wf) : ∀ ops : List AxOp, (w.run ops).Wf := by
  intro ops
  induction ops generalizing w with
  | nil => exact hw
  | cons op ops ih => exact ih (step_wf hw op)

theorem empty_wf : AxWorld.empty.Wf :=
  ⟨fun h hh => by simp [AxWorld.empty] at hh, fun h hh => by simp [AxWorld.empty] at hh, fun h hh => by simp [AxWorld.empty] at hh⟩

end Verif
