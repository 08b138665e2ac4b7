import Verif.OrderGroup

/-!
# Property C128, projections and selections of groups
-/

namespace Verif

/-- C128 for projections and selections of groups (partial: the numbers of keys on the group axes that are projected away are as in
C32).  A selection of groups that works on a group axis that is kept works on the projection too, and leads to the same groups and
entries as projecting afterwards.  Missing: a selection that raises an exception, which may work on the projection if the key that
it cannot be asked about has no bins. -/
theorem C128_project_group_partial (H : HistDef) (s : H.State) (hs : H.Proper s) (kg kf : List Bool) (hkg : kg.length = H.groups.length)
    (ps : H.PowKeys kg s) (i : ℕ) (hk : kg[i]? = some true) (limit : ℕ) (dnf : List (List GTerm)) (tol : ℚ) (t : H.State)
    (h : H.selectGroup limit i dnf tol s = .ok t) :
    ∃ s' t' u' : (H.project kg kf).State,
      H.projectState kg kf s = .ok ((H.project kg kf).toPV s') ∧ H.projectState kg kf t = .ok ((H.project kg kf).toPV t') ∧
      (H.project kg kf).selectGroup limit ((kg.take i).count true) dnf tol s' = .ok u' ∧
      ∀ gk, gk.length = (H.project kg kf).groups.length → ((H.project kg kf).has t' gk ↔ (H.project kg kf).has u' gk) ∧
        ∀ idx col, (H.project kg kf).read t' gk idx col = (H.project kg kf).read u' gk idx col := by
  have hm : (H.project kg kf).groups.length = kg.count true := pick_length kg _ hkg
  have first : ∀ r : H.State, H.Proper r → H.PowKeys kg r → ∃ r' : (H.project kg kf).State,
      H.projectState kg kf r = .ok ((H.project kg kf).toPV r') ∧ Projected H kg kf r r' := by
    intro r hr pr
    cases r with
    | none => exact ⟨none, rfl, trivial⟩
    | some c =>
      obtain ⟨c', h1, h2⟩ := projcontent_spec H.layout { H.layout with dims := pick kf H.layout.dims } kf rfl rfl
        H.groups.length kg c hkg hr.2 hr.1 pr _ hm
      refine ⟨some c', ?_, h2, hr, pr⟩
      simp only [HistDef.projectState, h1]
      rfl
  obtain ⟨s', h1, h2⟩ := first s hs ps
  obtain ⟨u', h3, h4⟩ := projected_group H kg kf hkg i hk limit tol dnf s t s' h2 h
  have ht : H.Proper t ∧ H.PowKeys kg t := by
    cases t with
    | none => exact ⟨⟨trivial, trivial⟩, trivial⟩
    | some c =>
      cases u' with
      | none => exact h4.elim
      | some c' => exact ⟨h4.2.1, h4.2.2⟩
  obtain ⟨t', h5, h6⟩ := first t ht.1 ht.2
  refine ⟨s', t', u', h1, h5, h3, fun gk hgk => ?_⟩
  cases t with
  | none =>
    cases t' with
    | some _ => exact h6.elim
    | none =>
      cases u' with
      | some _ => exact h4.elim
      | none => exact ⟨Iff.rfl, fun _ _ => rfl⟩
  | some c =>
    cases t' with
    | none => exact h6.elim
    | some c' =>
      cases u' with
      | none => exact h4.elim
      | some d' =>
        exact ⟨(h6.1.has gk hgk).trans (h4.1.has gk hgk).symm, fun idx col => (h6.1.value gk hgk idx col).trans (h4.1.value gk hgk idx col).symm⟩

/-- If all group axes are kept, there is no condition on the keys. -/
theorem C128_project_group_fixed (H : HistDef) (s : H.State) (hs : H.Proper s) (kf : List Bool) (i : ℕ) (hi : i < H.groups.length)
    (limit : ℕ) (dnf : List (List GTerm)) (tol : ℚ) (t : H.State) (h : H.selectGroup limit i dnf tol s = .ok t) :
    let kg := List.replicate H.groups.length true
    ∃ s' t' u' : (H.project kg kf).State,
      H.projectState kg kf s = .ok ((H.project kg kf).toPV s') ∧ H.projectState kg kf t = .ok ((H.project kg kf).toPV t') ∧
      (H.project kg kf).selectGroup limit i dnf tol s' = .ok u' ∧
      ∀ gk, gk.length = (H.project kg kf).groups.length → ((H.project kg kf).has t' gk ↔ (H.project kg kf).has u' gk) ∧
        ∀ idx col, (H.project kg kf).read t' gk idx col = (H.project kg kf).read u' gk idx col := by
  have ps : H.PowKeys (List.replicate H.groups.length true) s := by
    cases s with
    | none => trivial
    | some c => exact powKeys_replicate _ _ c
  have hk : (List.replicate H.groups.length true)[i]? = some true := by
    rw [List.getElem?_replicate, if_pos hi]
  have e : ((List.replicate H.groups.length true).take i).count true = i := by
    simp [hi.le]
  have := C128_project_group_partial H s hs _ kf (by simp) ps i hk limit dnf tol t h
  rw [e] at this
  exact this

/-! ## examples -/

/-- two group axes with two keys each -/
def exTwoGroups : HistDef := ⟨[.groupby, .groupby], [.cut], 0, .none⟩

def exTwoGroupsState : exTwoGroups.State :=
  let arr (q : ℚ) : Arr := ⟨[2], 1, fun idx _ => q + idx.getD 0 0⟩
  some [(.str "a", [(.num 1, arr 10), (.num 2, arr 20)]), (.str "b", [(.num 2, arr 30), (.num 3, arr 40)])]

/-- The selection `y >= 2` on the second axis works, the first axis has two keys, and the second is kept; it is the first of the
projection. -/
example : (exTwoGroups.selectGroup 10 1 [[⟨.ge, .key (.num 2)⟩]] 0 exTwoGroupsState).toBool = true ∧
    exTwoGroups.PowKeys [false, true] exTwoGroupsState ∧ ([false, true] : List Bool)[1]? = some true ∧ ([false, true].take 1).count true = 0 :=
  ⟨by decide +kernel, ⟨Or.inr ⟨0, rfl⟩, fun _ _ => ⟨Or.inl rfl, fun _ _ => trivial⟩⟩, rfl, rfl⟩

/-- The projection: the entries of the key 2 are added up. -/
example : (match exTwoGroups.projectState [false, true] [true] exTwoGroupsState with
    | .ok (some (.dict d)) => d.map fun p => (p.1, match p.2 with | .arr a => a.get [1] 0 | _ => 0)
    | _ => []) = [(.num 1, 11), (.num 2, 52), (.num 3, 41)] := by decide +kernel

end Verif
