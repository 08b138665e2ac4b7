import Verif.PropsOrderGroup

/-!
# Property C128, projections and selections of groups that are refused
-/

namespace Verif

/-- Each key of group axis `i` has a group that is complete: there is no key without bins (as after filling, C20). -/
def HistDef.Complete (H : HistDef) (i : ℕ) (s : H.State) : Prop :=
  ∀ gk k, H.has s gk → gk[i]? = some k → ∃ full, full.length = H.groups.length ∧ full[i]? = some k ∧ H.has s full

/-! ## helpers -/

theorem answers_back (test : Test) {kf : List Bool} {L' : Layout} {n : ℕ} {kg : List Bool} {c : Content Arr n} {m : ℕ} {c' : Content Arr m}
    (h : ProjOk kf L' n kg c m c') (hn : kg.length = n) (hm : m = kg.count true) (i : ℕ) (hk : kg[i]? = some true) (hd : Distinct n c)
    (hc : ∀ gk k, HasGroup n c gk → gk[i]? = some k → ∃ full, full.length = n ∧ full[i]? = some k ∧ HasGroup n c full)
    (ha : Answers test (keptPos kg i) m c') : Answers test i n c := by
  refine has_answers test i n c hd fun gk hg k hgk => ?_
  obtain ⟨full, h1, h2, h3⟩ := hc gk k hg hgk
  have hl : (pick kg full).length = m := by rw [hm]; exact pick_length kg full (hn.trans h1.symm)
  refine answers_has test _ m c' ha (pick kg full) ((h.has _ hl).2 ⟨full, h1, rfl, h3⟩) k ?_
  rw [pick_get' kg i full hk, h2]

theorem complete_keyPassing (H : HistDef) (test : Test) (i : ℕ) (c : Content Arr H.groups.length) (h : H.Complete i (some c)) :
    H.Complete i (some (keyPassing test i H.groups.length c)) := by
  intro gk k hg hk
  obtain ⟨h1, h2⟩ := (hasGroup_keyPassing test i _ c gk).1 hg
  obtain ⟨full, h3, h4, h5⟩ := h gk k h1 hk
  refine ⟨full, h3, h4, (hasGroup_keyPassing test i _ c full).2 ⟨h5, ?_⟩⟩
  unfold passesAt at h2 ⊢
  rw [h4]
  rw [hk] at h2
  exact h2

theorem filter_back (H : HistDef) (kg kf : List Bool) (hkg : kg.length = H.groups.length) (i : ℕ) (hk : kg[i]? = some true) (test : Test)
    (s : H.State) (s' t' : (H.project kg kf).State) (h : Projected H kg kf s s') (hc : H.Complete i s)
    (hf : (H.project kg kf).filterState test (keptPos kg i) s' = .ok t') :
    ∃ t, H.filterState test i s = .ok t ∧ Projected H kg kf t t' ∧ H.Complete i t := by
  have hm : (H.project kg kf).groups.length = kg.count true := pick_length kg _ hkg
  cases s with
  | none =>
    cases s' with
    | none =>
      cases hf
      exact ⟨none, rfl, trivial, hc⟩
    | some c' => exact h.elim
  | some c =>
    cases s' with
    | none => exact h.elim
    | some c' =>
      have hall := h
      obtain ⟨h1, h2, h3⟩ := h
      have ha' : Answers test (keptPos kg i) _ c' := by
        unfold HistDef.filterState at hf
        simp only at hf
        cases hg : filterGroup test (keptPos kg i) (H.project kg kf).groups.length c' with
        | error e => rw [hg] at hf; cases hf
        | ok x => exact (filterGroup_iff test _ _ c').2 x hg
      have ha := answers_back test h1 hkg hm i hk h2.2 hc ha'
      have hok : H.filterState test i (some c) = .ok (some (keyPassing test i _ c)) := by
        unfold HistDef.filterState
        simp only [(filterGroup_iff test _ _ c).1 ha]
        rfl
      obtain ⟨u', hu, hp⟩ := projected_filter H kg kf hkg i hk test _ _ _ hall hok
      rw [hf] at hu
      cases hu
      exact ⟨_, hok, hp, complete_keyPassing H test i c hc⟩

theorem term_back (H : HistDef) (kg kf : List Bool) (hkg : kg.length = H.groups.length) (i : ℕ) (hk : kg[i]? = some true) (g : GTerm) (tol : ℚ)
    (s : H.State) (s' t' : (H.project kg kf).State) (h : Projected H kg kf s s') (hc : H.Complete i s)
    (hf : (H.project kg kf).selectTerm (keptPos kg i) g tol s' = .ok t') :
    ∃ t, H.selectTerm i g tol s = .ok t ∧ Projected H kg kf t t' ∧ H.Complete i t := by
  unfold HistDef.selectTerm at hf ⊢
  rw [project_group_at H kg kf i hk] at hf
  cases ha : H.groups[i]? with
  | none => rw [ha] at hf; cases hf
  | some a =>
    rw [ha] at hf
    simp only at hf ⊢
    cases hs : a.select g.cmp g.value tol with
    | error e => rw [hs] at hf; cases hf
    | ok r =>
      rw [hs] at hf
      cases r with
      | none => cases hf
      | some test => exact filter_back H kg kf hkg i hk test s s' t' h hc hf

theorem and_back (H : HistDef) (kg kf : List Bool) (hkg : kg.length = H.groups.length) (i : ℕ) (hk : kg[i]? = some true) (tol : ℚ) :
    ∀ (ts : List GTerm) (s : H.State) (s' t' : (H.project kg kf).State), Projected H kg kf s s' → H.Complete i s →
    (H.project kg kf).selectAnd (keptPos kg i) tol ts s' = .ok t' → ∃ t, H.selectAnd i tol ts s = .ok t
  | [], s, s', t', _, _, _ => ⟨s, rfl⟩
  | g :: ts, s, s', t', h, hc, hf => by
    unfold HistDef.selectAnd at hf ⊢
    cases hg : (H.project kg kf).selectTerm (keptPos kg i) g tol s' with
    | error e => rw [hg] at hf; cases hf
    | ok u' =>
      rw [hg] at hf
      obtain ⟨u, h1, h2, h3⟩ := term_back H kg kf hkg i hk g tol s s' u' h hc hg
      rw [h1]
      exact and_back H kg kf hkg i hk tol ts u u' t' h2 h3 hf

theorem group_back (H : HistDef) (kg kf : List Bool) (hkg : kg.length = H.groups.length) (i : ℕ) (hk : kg[i]? = some true) (limit : ℕ) (tol : ℚ)
    (dnf : List (List GTerm)) (s : H.State) (s' t' : (H.project kg kf).State) (h : Projected H kg kf s s') (hc : H.Complete i s)
    (hf : (H.project kg kf).selectGroup limit (keptPos kg i) dnf tol s' = .ok t') : ∃ t, H.selectGroup limit i dnf tol s = .ok t := by
  have many : ∀ dnf : List (List GTerm), (match H.groups[i]? with
      | none => Except.error Err.valueError
      | some a =>
        match orLoop (fun t => a.select t.cmp t.value tol) dnf ⟨none, none⟩ none with
        | .error e => .error e
        | .ok none => .error .valueError
        | .ok (some (_, none)) => .error .typeError
        | .ok (some (F, some c)) => (H.project kg kf).filterState (c.call limit F) (keptPos kg i) s') = Except.ok t' →
      ∃ t, (match H.groups[i]? with
      | none => Except.error Err.valueError
      | some a =>
        match orLoop (fun t => a.select t.cmp t.value tol) dnf ⟨none, none⟩ none with
        | .error e => .error e
        | .ok none => .error .valueError
        | .ok (some (_, none)) => .error .typeError
        | .ok (some (F, some c)) => H.filterState (c.call limit F) i s) = Except.ok t := by
    intro dnf hf
    cases ha : H.groups[i]? with
    | none => rw [ha] at hf; cases hf
    | some a =>
      rw [ha] at hf
      simp only at hf ⊢
      cases ho : orLoop (fun t => a.select t.cmp t.value tol) dnf ⟨none, none⟩ none with
      | error e => rw [ho] at hf; cases hf
      | ok r =>
        rw [ho] at hf
        match r, hf with
        | some (F, some c), hf =>
          obtain ⟨t, h1, _⟩ := filter_back H kg kf hkg i hk _ s s' t' h hc hf
          exact ⟨t, h1⟩
  match dnf, hf with
  | [], hf =>
    unfold HistDef.selectGroup at hf ⊢
    rw [project_group_at H kg kf i hk] at hf
    exact many [] hf
  | [ts], hf => exact and_back H kg kf hkg i hk tol ts s s' t' h hc hf
  | a :: b :: r, hf =>
    unfold HistDef.selectGroup at hf ⊢
    rw [project_group_at H kg kf i hk] at hf
    exact many (a :: b :: r) hf

/-! ## C128 -/

/-- C128 for projections and selections of groups that are refused (partial: the numbers of keys on the group axes that are projected away
are as in C32, and there is no key without bins, as is the case after filling).  A selection on a group axis that is kept raises an
exception if and only if it raises one on the projection.  Missing: that it is the same exception, and keys without bins, as an earlier
selection on another group axis can leave them. -/
theorem C128_project_group_refused_partial (H : HistDef) (s : H.State) (hs : H.Proper s) (kg kf : List Bool) (hkg : kg.length = H.groups.length)
    (ps : H.PowKeys kg s) (i : ℕ) (hk : kg[i]? = some true) (hc : H.Complete i s) (limit : ℕ) (dnf : List (List GTerm)) (tol : ℚ) :
    ∃ s' : (H.project kg kf).State, H.projectState kg kf s = .ok ((H.project kg kf).toPV s') ∧
      ((∃ e, H.selectGroup limit i dnf tol s = .error e) ↔ ∃ e, (H.project kg kf).selectGroup limit ((kg.take i).count true) dnf tol s' = .error e) := by
  have hm : (H.project kg kf).groups.length = kg.count true := pick_length kg _ hkg
  have first : ∃ s' : (H.project kg kf).State, H.projectState kg kf s = .ok ((H.project kg kf).toPV s') ∧ Projected H kg kf s s' := by
    cases s with
    | none => exact ⟨none, rfl, trivial⟩
    | some c =>
      obtain ⟨c', h1, h2⟩ := projcontent_spec H.layout { H.layout with dims := pick kf H.layout.dims } kf rfl rfl
        H.groups.length kg c hkg hs.2 hs.1 ps _ hm
      refine ⟨some c', ?_, h2, hs, ps⟩
      simp only [HistDef.projectState, h1]
      rfl
  obtain ⟨s', h1, h2⟩ := first
  refine ⟨s', h1, ?_⟩
  constructor
  · rintro ⟨e, he⟩
    cases hp : (H.project kg kf).selectGroup limit ((kg.take i).count true) dnf tol s' with
    | error e' => exact ⟨e', rfl⟩
    | ok t' =>
      obtain ⟨t, ht⟩ := group_back H kg kf hkg i hk limit tol dnf s s' t' h2 hc hp
      rw [he] at ht
      cases ht
  · rintro ⟨e, he⟩
    cases hp : H.selectGroup limit i dnf tol s with
    | error e' => exact ⟨e', rfl⟩
    | ok t =>
      obtain ⟨t', ht, _⟩ := projected_group H kg kf hkg i hk limit tol dnf s t s' h2 hp
      rw [show (H.project kg kf).selectGroup limit ((kg.take i).count true) dnf tol s' = .ok t' from ht] at he
      cases he

/-! ## examples -/

/-- Texts cannot be compared with numbers: `>= "b"` on the second axis of the example is refused, and also after the projection
to this axis. -/
example : exTwoGroups.selectGroup 10 1 [[⟨.ge, .key (.str "b")⟩]] 0 exTwoGroupsState = .error .typeError := by rfl

example : ∃ s' : (exTwoGroups.project [false, true] [true]).State,
    (exTwoGroups.project [false, true] [true]).selectGroup 10 0 [[⟨.ge, .key (.str "b")⟩]] 0 s' = .error .typeError :=
  ⟨some [(.num 1, (⟨[2], 1, fun _ _ => 1⟩ : Arr))], rfl⟩

/-- The hypotheses are met: every key of the second axis is in a complete group. -/
example : exTwoGroups.Complete 1 exTwoGroupsState := by
  intro gk k hg hk
  refine ⟨gk.take 2, ?_, ?_, ?_⟩
  · have h2 : gk.length ≤ 2 := hasGroup_length _ _ _ hg
    have h1 : 1 < gk.length := (List.getElem?_eq_some_iff.1 hk).1
    show (gk.take 2).length = 2
    simp
    omega
  · rw [List.getElem?_take]
    simpa using hk
  · rw [List.take_of_length_le (show gk.length ≤ 2 from hasGroup_length _ _ _ hg)]
    exact hg

/-- A content that does not meet the condition: the key 5 of the first axis has no bins, as after a selection on the second axis that no group
of this key passes. -/
def exEmptyKey : exTwoGroups.State :=
  some [(.str "a", [(.num 1, (⟨[2], 1, fun _ _ => 1⟩ : Arr))]), (.num 5, [])]

example : exTwoGroups.selectGroup 10 0 [[⟨.ge, .key (.str "a")⟩]] 0 exEmptyKey = .error .typeError ∧ ¬ exTwoGroups.Complete 0 exEmptyKey := by
  refine ⟨rfl, fun h => ?_⟩
  obtain ⟨full, h1, h2, h3⟩ := h [.num 5] (.num 5) ⟨[], rfl, trivial⟩ rfl
  match full, h1, h2, h3 with
  | [k, l], _, h2, ⟨c, hc, h3⟩ =>
    have hk : k = .num 5 := by simpa using h2
    subst hk
    have : c = [] := by
      have e : dget [(Key.str "a", [(Key.num 1, (⟨[2], 1, fun _ _ => 1⟩ : Arr))]), (Key.num 5, [])] (.num 5) = some [] := rfl
      exact (Option.some.inj (e.symm.trans hc)).symm
    subst this
    obtain ⟨x, hx, _⟩ := h3
    cases hx

end Verif
