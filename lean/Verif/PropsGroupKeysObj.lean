import Verif.PropsGroupKeys

/-! C100: `groupkeys` with an axis object. -/

namespace Verif

/-- C100: an axis object that is equal to group axis number `i` stands for the position `i`, whatever was filled. -/
theorem C100_object (X : HistExprs) (st : X.hist.State) (i : ℕ) (p : GroupAxis × E) (h : X.groups[i]? = some p) :
    X.groupkeys st (.obj (.group p.1 p.2)) = X.groupkeys st (.pos i) := by
  have hl : i < X.groups.length := (List.getElem?_eq_some_iff.1 h).1
  have hax : X.axes[i]? = some (.group p.1 p.2) := by
    rw [HistExprs.axes, List.append_assoc, List.getElem?_append_left (by simpa using hl), List.getElem?_map, h]
    rfl
  have hal : i < X.axes.length := (List.getElem?_eq_some_iff.1 hax).1
  have hpos : X.theAxis (.pos i) = .ok (.group p.1 p.2) := by
    simp [HistExprs.theAxis, axisItem, tupleItem, hax]
  unfold HistExprs.groupkeys
  rw [hpos]
  rfl

/-- C100: an axis object that is not a group axis of the histogram is refused, also if the histogram has a group axis of the same quantity. -/
theorem C100_object_refused (X : HistExprs) (st : X.hist.State) (a : AnyAxis) (h : ∀ p ∈ X.groups, AnyAxis.group p.1 p.2 ≠ a) :
    X.groupkeys st (.obj a) = .error (if X.groups = [] then .nameError else .indexError) :=
  (C100_refused X st).2.2 (.obj a) a rfl h

/-- The second group axis of the example as an object, and an axis of the same quantity that the histogram does not have. -/
example : gkX.groups[1]? = some (.groupby, E.name "h") ∧
    ∀ p ∈ gkX.groups, AnyAxis.group p.1 p.2 ≠ .group (.groupbin ⟨7, 0, true, true⟩) (E.name "h") := by
  refine ⟨rfl, fun p hp => ?_⟩
  simp [gkX] at hp
  rcases hp with rfl | rfl <;> simp

end Verif
