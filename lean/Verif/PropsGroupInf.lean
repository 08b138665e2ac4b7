import Verif.PropsGroupSel

/-!
# Selecting numeric groups with an infinity, and next to a group of NaN

What `C39_groupbin_inf_refuted` and `C39_groupbin_nan_key_refuted` show with one histogram each, for all
histograms, data and thresholds.
-/

namespace Verif

/-- The group of NaN is the one with the key "NaN". -/
theorem groupbin_key_nan (binwidth origin : ℚ) (n cl : Bool) (a : GroupbinAxis) (ha : GroupbinAxis.init binwidth origin n cl = .ok a)
    (x : Num) (k : Key) (hk : a.key x = some k) : k = .str "NaN" ↔ x.isnan = true := by
  have hspec := C05_groupbin_special binwidth origin n cl a ha
  cases x with
  | nan =>
    rw [hspec.1] at hk
    split at hk
    · cases hk; simp [Num.isnan]
    · cases hk
  | pinf => rw [hspec.2.1] at hk; cases hk; simp [Num.isnan]
  | ninf => rw [hspec.2.2] at hk; cases hk; simp [Num.isnan]
  | fin q =>
    obtain ⟨j, iv, g1, _⟩ := C05_groupbin_interval_contains binwidth origin n cl a ha q
    rw [g1] at hk
    cases hk
    simp [Num.isnan]

/-- A test that never raises can filter any content. -/
theorem filterState_total {H : HistDef} (test : Test) (ht : ∀ k, ∃ b, test k = .ok b) (i : ℕ) (st : H.State) :
    ∃ st', H.filterState test i st = .ok st' := by
  have hE : ∀ {β : Type} (d : List (Key × β)), ∃ d', filterE test d = .ok d' := by
    intro β d
    induction d with
    | nil => exact ⟨[], rfl⟩
    | cons p d ih =>
      obtain ⟨d', hd⟩ := ih
      obtain ⟨b, hb⟩ := ht p.1
      exact ⟨_, by simp only [filterE, hb, hd]; rfl⟩
  have hG : ∀ (i n : ℕ) (c : Content Arr n), ∃ c', filterGroup test i n c = .ok c' := by
    intro i n
    induction n generalizing i with
    | zero => intro c; exact ⟨c, by cases i <;> rfl⟩
    | succ n ih =>
      intro c
      cases i with
      | zero => exact hE c
      | succ i =>
        have : ∀ d : List (Key × Content Arr n), ∃ d', mapValsE (filterGroup test i n) d = .ok d' := by
          intro d
          induction d with
          | nil => exact ⟨[], rfl⟩
          | cons p d ihd =>
            obtain ⟨d', hd⟩ := ihd
            obtain ⟨y, hy⟩ := ih i p.2
            exact ⟨_, by simp only [mapValsE, hy, hd]; rfl⟩
        exact this c
  cases st with
  | none => exact ⟨none, rfl⟩
  | some c =>
    obtain ⟨c', hc⟩ := hG i H.groups.length c
    exact ⟨some c', by simp only [HistDef.filterState, hc]; rfl⟩

/-- One comparison. -/
theorem selectGroup_one {H : HistDef} (limit i : ℕ) (t : GTerm) (tol : ℚ) (st : H.State) :
    H.selectGroup limit i [[t]] tol st = H.selectTerm i t tol st := by
  simp only [HistDef.selectGroup, HistDef.selectAnd]
  cases H.selectTerm i t tol st <;> rfl

/-- C39, an infinity on a `groupbin` axis: an accepted comparison with an infinity gives the rows with any number, finite or
infinite. -/
theorem C39_groupbin_infinity (binwidth origin : ℚ) (n cl : Bool) (a : GroupbinAxis) (ha : GroupbinAxis.init binwidth origin n cl = .ok a)
    (H : HistDef) (bs : List (List Row)) (hf : Fillable H bs) (st : H.State) (hst : H.fillAll none bs = .ok st)
    (limit i : ℕ) (hi : H.groups[i]? = some (.groupbin a)) (cmp : Cmp) (v : Key) (hv : v = .ninf ∨ v = .pinf) (tol : ℚ) (st' : H.State)
    (hs : H.selectGroup limit i [[⟨cmp, .key v⟩]] tol st = .ok st') :
    Represents H (bs.flatten.filter (fun r => !(r.groupNum i).isnan)) st' := by
  obtain ⟨st0, e1, e2⟩ := Represents.ofFill H bs hf
  rw [hst] at e1
  cases e1
  simp only [HistDef.selectGroup, HistDef.selectAnd] at hs
  split at hs
  · cases hs
  · rename_i st1 h1
    cases hs
    obtain ⟨test, h2, h3⟩ := selectTerm_ok hi h1
    refine e2.filterState i _ hi test h3 _ (fun r _ k b hk hb => ?_)
    have hnan := groupbin_key_nan binwidth origin n cl a ha _ k (groupbin_key_num hk)
    have ht : test = fun x => .ok (decide (x ≠ .str "NaN")) := by
      rcases hv with rfl | rfl <;> simp only [GroupAxis.select, GroupbinAxis.select] at h2 <;> split at h2 <;>
        simp only [Except.ok.injEq, Option.some.injEq, reduceCtorEq] at h2 <;> exact h2.symm
    subst ht
    simp only [Except.ok.injEq] at hb
    rw [← hb, Bool.eq_iff_iff]
    simp [hnan]

/-- C39: with an infinity, exactly the comparisons that all finite numbers satisfy are accepted; the others raise `ValueError`
(or `OverflowError`), `x == inf` and `x >= inf` among them. -/
theorem C39_groupbin_infinity_refused (H : HistDef) (st : H.State) (limit i : ℕ) (a : GroupbinAxis) (hi : H.groups[i]? = some (.groupbin a))
    (cmp : Cmp) (tol : ℚ) :
    ((∃ st', H.selectGroup limit i [[⟨cmp, .key .ninf⟩]] tol st = .ok st') ↔ ∀ q : ℚ, cmp.test (.fin q) .ninf = true) ∧
    ((∃ st', H.selectGroup limit i [[⟨cmp, .key .pinf⟩]] tol st = .ok st') ↔ ∀ q : ℚ, cmp.test (.fin q) .pinf = true) := by
  constructor
  · rw [selectGroup_one]
    unfold HistDef.selectTerm
    rw [hi]
    simp only [GroupAxis.select, GroupbinAxis.select]
    cases cmp <;> simp [Cmp.test, Num.lt, Num.le, Num.isnan] <;> exact filterState_total _ (fun k => ⟨_, rfl⟩) i st
  · rw [selectGroup_one]
    unfold HistDef.selectTerm
    rw [hi]
    simp only [GroupAxis.select, GroupbinAxis.select]
    cases cmp <;> simp [Cmp.test, Num.lt, Num.le, Num.isnan] <;> exact filterState_total _ (fun k => ⟨_, rfl⟩) i st

/-- C39 is right for `x >= -inf` and `x <= inf` on a `groupbin` axis. -/
theorem C39_groupbin_at_most_infinity (binwidth origin : ℚ) (n cl : Bool) (a : GroupbinAxis) (ha : GroupbinAxis.init binwidth origin n cl = .ok a)
    (H : HistDef) (bs : List (List Row)) (hf : Fillable H bs) (st : H.State) (hst : H.fillAll none bs = .ok st)
    (limit i : ℕ) (hi : H.groups[i]? = some (.groupbin a)) (tol : ℚ) (st' : H.State) :
    (H.selectGroup limit i [[⟨.ge, .key .ninf⟩]] tol st = .ok st' → Represents H (bs.flatten.filter (fun r => Cmp.ge.test (r.groupNum i) .ninf)) st') ∧
    (H.selectGroup limit i [[⟨.le, .key .pinf⟩]] tol st = .ok st' → Represents H (bs.flatten.filter (fun r => Cmp.le.test (r.groupNum i) .pinf)) st') := by
  constructor
  · intro hs
    have := C39_groupbin_infinity binwidth origin n cl a ha H bs hf st hst limit i hi .ge .ninf (.inl rfl) tol st' hs
    have e : (fun r : Row => Cmp.ge.test (r.groupNum i) .ninf) = fun r => !(r.groupNum i).isnan := by
      funext r
      cases r.groupNum i <;> rfl
    rw [e]; exact this
  · intro hs
    have := C39_groupbin_infinity binwidth origin n cl a ha H bs hf st hst limit i hi .le .pinf (.inr rfl) tol st' hs
    have e : (fun r : Row => Cmp.le.test (r.groupNum i) .pinf) = fun r => !(r.groupNum i).isnan := by
      funext r
      cases r.groupNum i <;> rfl
    rw [e]; exact this

/-- C39 is false on every `groupbin` axis that has a group of NaN: no comparison with a number can be selected. -/
theorem C39_groupbin_nan_key_refuted_always (H : HistDef) (st : H.State) (limit i : ℕ) (a : GroupbinAxis) (hi : H.groups[i]? = some (.groupbin a))
    (gk : List Key) (hgk : gk.length = H.groups.length) (hh : H.has st gk) (hk : gk[i]? = some (.str "NaN")) (cmp : Cmp) (v tol : ℚ) :
    ∃ e, H.selectGroup limit i [[⟨cmp, .key (.num v)⟩]] tol st = .error e := by
  rw [selectGroup_one]
  unfold HistDef.selectTerm
  rw [hi]
  have hlt : i < H.groups.length := (List.getElem?_eq_some_iff.1 hi).1
  have hk' : gk.getD i (.str "") = .str "NaN" := by rw [List.getD_eq_getElem?_getD, hk]; rfl
  have h1 : ∀ c : ℚ, ∃ e, H.filterState (fun x => x.lt (.num c)) i st = .error e := fun c =>
    filterState_error _ i hlt st gk hgk hh .typeError (by rw [hk']; rfl)
  have h2 : ∀ c : ℚ, ∃ e, H.filterState (fun x => Key.le (.num c) x) i st = .error e := fun c =>
    filterState_error _ i hlt st gk hgk hh .typeError (by rw [hk']; rfl)
  simp only [GroupAxis.select, GroupbinAxis.select]
  split_ifs
  · exact h1 _
  · exact h2 _
  · exact h2 _
  · exact h1 _
  · exact ⟨_, rfl⟩
  · exact ⟨_, rfl⟩

/-- Numeric groups of 1, -inf and NaN have such a content: the selections with infinities keep both numbers. -/
example : groupDemo (.groupbin ⟨5, 0, true, true⟩) [.num (.fin 1), .num .ninf, .num .nan] 1000 [[⟨.ge, .key .ninf⟩]] = .ok [(.num 0, 1), (.ninf, 1)] ∧
    groupDemo (.groupbin ⟨5, 0, true, true⟩) [.num (.fin 1), .num .ninf, .num .nan] 1000 [[⟨.ne, .key .ninf⟩]] = .ok [(.num 0, 1), (.ninf, 1)] ∧
    groupDemo (.groupbin ⟨5, 0, true, true⟩) [.num (.fin 1), .num .ninf, .num .nan] 1000 [[⟨.eq, .key .ninf⟩]] = .error .valueError ∧
    groupDemo (.groupbin ⟨5, 0, true, true⟩) [.num (.fin 1), .num .ninf, .num .nan] 1000 [[⟨.lt, .key (.num 5)⟩]] = .error .typeError := by
  decide +kernel

end Verif
