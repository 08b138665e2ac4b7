import Verif.PropsSparkNull

/-! C133: a bin of a Spark DataFrame in which every value of a profiled quantity is missing. -/

namespace Verif

theorem flatMap_pair {α β : Type} (f g : α → β) : ∀ (l : List α) (j : ℕ), (l.flatMap fun x => [f x, g x])[2 * j]? = l[j]?.map f
  | [], j => by simp
  | x :: l, 0 => by simp
  | x :: l, j + 1 => by
    have e : 2 * (j + 1) = 2 * j + 1 + 1 := by omega
    rw [List.flatMap_cons, e]
    simpa using flatMap_pair f g l j

theorem columns_profile (H : HistDef) (weighted : Bool) (r : NullRow) (j : ℕ) (h : r.xs[j]? = some none) :
    (r.columns H weighted)[2 * j]? = some none := by
  have hj : j < r.xs.length := by
    by_contra h0
    rw [List.getElem?_eq_none (by omega)] at h
    cases h
  unfold NullRow.columns
  cases weighted
  · rw [if_neg (by simp), List.getElem?_append_left (by simp [List.length_flatMap]; omega), flatMap_pair, h]
    rfl
  · rw [if_pos rfl, List.getElem?_append_left (by simp [List.length_flatMap]; omega), flatMap_pair, h]
    rfl

/-- C133 is false of profiles if a profiled quantity has no value at all in a bin: filling raises, with and without weights, whatever the other
rows, although rows without value should contribute nothing. -/
theorem C133_refuted_profile_bin (H : HistDef) (weighted : Bool) (collect : List (List (Option Key) × List ℤ) → List (List (Option Key) × List ℤ))
    (hc : ∀ l, (collect l).Perm l) (st : H.State) (rows : List NullRow) (hx : ∀ r ∈ rows, r.xs.length = H.nprof) (r : NullRow) (hr : r ∈ rows)
    (hg : none ∉ r.gvals) (hok : (r.row H).SparkOk H) (idx : List ℕ) (hb : inBins' H.fixed (r.row H).fvals idx = true) (j : ℕ) (hj : j < H.nprof)
    (hnull : ∀ r' ∈ rows, r'.index H = r.index H → r'.xs[j]? = some none) : ∃ e st', H.fillnull weighted collect st rows = .error (e, st') := by
  obtain ⟨ks, h1, h2, h3⟩ := sparkKeys_eq hok.groups
  obtain ⟨js, p, h4, h5, h6⟩ := sparkIndexes_eq (hok.fixed.imp (fun a v h => by
    obtain ⟨q, hq1, hq2⟩ := C71_axis_partial a h.1 v h.2.1 h.2.2
    unfold FixedAxis.sparkBin at hq1
    cases hi : a.sparkIndex v with
    | error e => rw [hi] at hq1; cases hq1
    | ok i => rw [hi] at hq1; exact ⟨q, ⟨i, rfl, hq1⟩, hq2⟩))
  have hi : r.index H = .ok (liftKey (ks, js)) := by
    rw [index_eq H r hg]
    simp only [Row.sparkIndex, h1, h4, Except.map]
  rw [(h6 idx).2 hb] at h5
  cases he : H.fillnull weighted collect st rows with
  | error e => exact ⟨e.1, e.2, rfl⟩
  | ok st' =>
    exfalso
    refine fillnull_fails H weighted collect hc st rows r hr _ hi (fun is hm c c' => ?_) st' he
    refine nullRecurse_unknown H js _ idx h5 ?_ _ _ c c'
    obtain ⟨z1, z2⟩ := mapE_zip _ _ _ hm
    have ne : (((rows.zip is).filter fun p => p.2 = liftKey (ks, js)).map fun p => p.1.columns H weighted) ≠ [] := by
      intro h0
      obtain ⟨y, ey, em⟩ := z1 r hr
      rw [hi] at ey
      cases ey
      have : (r, liftKey (ks, js)) ∈ (rows.zip is).filter fun p => p.2 = liftKey (ks, js) := List.mem_filter.2 ⟨em, by simp⟩
      rw [List.map_eq_nil_iff.1 h0] at this
      cases this
    have := (nullColumns_null (2 * H.nprof + (if weighted then 2 else 1)) (2 * j) (by split <;> omega) _ ne (fun c hc' => by
      obtain ⟨p, hp, rfl⟩ := List.mem_map.1 hc'
      exact columns_length H weighted p.1 (hx _ (List.of_mem_zip (List.mem_filter.1 hp).1).1))).2 (fun c hc' => by
      obtain ⟨p, hp, rfl⟩ := List.mem_map.1 hc'
      obtain ⟨hp1, hp2⟩ := List.mem_filter.1 hp
      have e1 := z2 p hp1
      have e2 : p.2 = liftKey (ks, js) := by simpa using hp2
      rw [e2, ← hi] at e1
      exact columns_profile H weighted p.1 j (hnull _ (List.of_mem_zip hp1).1 e1))
    exact List.mem_of_getElem? this

/-- The conditions hold of a row that is alone in its bin. -/
example : ∃ e st', exNull.fillnull true id none [⟨[], [some (.num (.fin (1 / 4))), some (.bool true)], [none], some (some 7)⟩] = .error (e, st') := by
  refine C133_refuted_profile_bin exNull true id (fun _ => List.Perm.refl _) none _ (by simp [exNull]) _ (List.mem_singleton.2 rfl) (by simp) ?_ [1, 1]
    (by decide +kernel) 0 (by decide) (by simp)
  have h := exNullRows_ok ⟨[], [some (.num (.fin (1 / 4))), some (.bool true)], [some 1], some (some 7)⟩ (by simp [exNullRows])
  exact ⟨h.groups, h.fixed, rfl, fun _ => ⟨_, rfl⟩⟩

/-- One row alone in its bin, with a weight but no value of the profiled quantity: TypeError; and the conditions hold. -/
example : (⟨[], [some (.num (.fin (1 / 4))), some (.bool true)], [none], some (some 7)⟩ : NullRow).xs[0]? = some none ∧
    inBins' exNull.fixed (NullRow.row exNull ⟨[], [some (.num (.fin (1 / 4))), some (.bool true)], [none], some (some 7)⟩).fvals [1, 1] = true ∧
    exNull.readNull true id none [⟨[], [some (.num (.fin (1 / 4))), some (.bool true)], [none], some (some 7)⟩] [] [1, 1] = .error .typeError ∧
    exNull.readNull true id none (⟨[], [some (.num (.fin (1 / 4))), some (.bool true)], [none], some (some 7)⟩ :: exNullRows) [] [1, 1] =
      .ok [7, 7, 14, 98] := by decide +kernel

end Verif
