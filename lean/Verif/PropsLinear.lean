import Verif.LinearLemmas
import Verif.PropsProject

/-!
# Property C127: deriving from a sum

Selecting, rebinning, dropping profiles and projecting give the same whether histograms are added before or after
it, and likewise for multiples.  The contents are arbitrary proper contents, not only filled ones.
-/

namespace Verif

/-! ## fixed axes -/

/-- C127 for selections on an axis with fixed bins.  `(g + h).select(cond)` is `g.select(cond) + h.select(cond)`;
and a selection that is refused is refused alike for both and for the sum. -/
theorem C127_select (H : HistDef) (s t u : H.State) (hs : H.Proper s) (ht : H.Proper t) (hu : addState s t = .ok u)
    (j : ℕ) (cmp : Cmp) (value : Num) (tol : ℚ) :
    (∀ H' s', H.select j cmp value tol s = .ok ⟨H', s'⟩ → ∃ t' u', H.select j cmp value tol t = .ok ⟨H', t'⟩ ∧
      H.select j cmp value tol u = .ok ⟨H', u'⟩ ∧ addState s' t' = .ok u') ∧
    ∀ e, H.select j cmp value tol s = .error e → H.select j cmp value tol t = .error e ∧ H.select j cmp value tol u = .error e := by
  unfold HistDef.select
  cases hj : H.fixed[j]? with
  | none => exact ⟨fun _ _ h => (by cases h), fun _ h => (by cases h; exact ⟨rfl, rfl⟩)⟩
  | some a =>
    simp only
    cases ha : a.select cmp value tol with
    | error e => exact ⟨fun _ _ h => (by cases h), fun _ h => (by cases h; exact ⟨rfl, rfl⟩)⟩
    | ok r =>
      cases r with
      | no c w => exact ⟨fun _ _ h => (by cases h), fun _ h => (by cases h; exact ⟨rfl, rfl⟩)⟩
      | cut a' sl =>
        refine ⟨fun H' s' h => ?_, fun _ h => (by cases h)⟩
        cases h
        exact ⟨_, _, rfl, rfl, (linear_slice j sl).add hs ht hu⟩

/-- C127 for selections on a cut axis, which is removed. -/
theorem C127_cut (H : HistDef) (s t u : H.State) (hs : H.Proper s) (ht : H.Proper t) (hu : addState s t = .ok u)
    (j : ℕ) (sl : PySlice) : addState (H.cutOut j sl s) (H.cutOut j sl t) = .ok (H.cutOut j sl u) :=
  (linear_sliceOut j sl).add hs ht hu

/-- C127 for `rebin`. -/
theorem C127_rebin (H : HistDef) (s t u : H.State) (hs : H.Proper s) (ht : H.Proper t) (hu : addState s t = .ok u)
    (j : ℕ) (edges : List ℚ) :
    (∀ H' s', H.rebin j edges s = .ok ⟨H', s'⟩ → ∃ t' u', H.rebin j edges t = .ok ⟨H', t'⟩ ∧
      H.rebin j edges u = .ok ⟨H', u'⟩ ∧ addState s' t' = .ok u') ∧
    ∀ e, H.rebin j edges s = .error e → H.rebin j edges t = .error e ∧ H.rebin j edges u = .error e := by
  unfold HistDef.rebin
  cases hj : H.fixed[j]? with
  | none => exact ⟨fun _ _ h => (by cases h), fun _ h => (by cases h; exact ⟨rfl, rfl⟩)⟩
  | some x =>
    simp only [HistDef.rebinAny]
    cases ha : x.asSplit with
    | error e => exact ⟨fun _ _ h => (by cases h), fun _ h => (by cases h; exact ⟨rfl, rfl⟩)⟩
    | ok a =>
      simp only
      cases hb : a.rebinned edges with
      | error e => exact ⟨fun _ _ h => (by cases h), fun _ h => (by cases h; exact ⟨rfl, rfl⟩)⟩
      | ok b =>
        refine ⟨fun H' s' h => ?_, fun _ h => (by cases h)⟩
        cases h
        exact ⟨_, _, rfl, rfl, (linear_rebin j _ _).add hs ht hu⟩

/-- C127 for `drop`. -/
theorem C127_drop (H : HistDef) (s t u : H.State) (hs : H.Proper s) (ht : H.Proper t) (hu : addState s t = .ok u)
    (keep : List Bool) (hasWeight : Bool) :
    (∀ s', H.dropState keep hasWeight s = .ok s' → ∃ t' u', H.dropState keep hasWeight t = .ok t' ∧
      H.dropState keep hasWeight u = .ok u' ∧ addState s' t' = .ok u') ∧
    ∀ e, H.dropState keep hasWeight s = .error e → H.dropState keep hasWeight t = .error e ∧ H.dropState keep hasWeight u = .error e := by
  unfold HistDef.dropState
  split
  · exact ⟨fun _ h => (by cases h), fun _ h => (by cases h; exact ⟨rfl, rfl⟩)⟩
  · refine ⟨fun s' h => ?_, fun _ h => (by cases h)⟩
    cases h
    exact ⟨_, _, rfl, rfl, (linear_takeCols _).add hs ht hu⟩

/-- C127 for multiples: `(h * k).select(cond)` is `h.select(cond) * k`, and likewise for `rebin`, `drop` and the
selections on a cut axis. -/
theorem C127_multiples (H : HistDef) (k : ℚ) (s u : H.State) (hu : mulState k s = .ok u) :
    (∀ j cmp value tol H' s', H.select j cmp value tol s = .ok ⟨H', s'⟩ →
      ∃ u', H.select j cmp value tol u = .ok ⟨H', u'⟩ ∧ mulState k s' = .ok u') ∧
    (∀ j sl, mulState k (H.cutOut j sl s) = .ok (H.cutOut j sl u)) ∧
    (∀ j edges H' s', H.rebin j edges s = .ok ⟨H', s'⟩ → ∃ u', H.rebin j edges u = .ok ⟨H', u'⟩ ∧ mulState k s' = .ok u') ∧
    ∀ keep hasWeight s', H.dropState keep hasWeight s = .ok s' →
      ∃ u', H.dropState keep hasWeight u = .ok u' ∧ mulState k s' = .ok u' := by
  refine ⟨fun j cmp value tol H' s' h => ?_, fun j sl => (linear_sliceOut j sl).mul k hu, fun j edges H' s' h => ?_,
    fun keep hasWeight s' h => ?_⟩
  · unfold HistDef.select at h ⊢
    cases hj : H.fixed[j]? with
    | none => rw [hj] at h; cases h
    | some a =>
      rw [hj] at h
      simp only at h ⊢
      cases ha : a.select cmp value tol with
      | error e => rw [ha] at h; cases h
      | ok r =>
        cases r with
        | no c w => rw [ha] at h; cases h
        | cut a' sl =>
          rw [ha] at h
          cases h
          exact ⟨_, rfl, (linear_slice j sl).mul k hu⟩
  · unfold HistDef.rebin at h ⊢
    cases hj : H.fixed[j]? with
    | none => rw [hj] at h; cases h
    | some x =>
      rw [hj] at h
      simp only [HistDef.rebinAny] at h ⊢
      cases ha : x.asSplit with
      | error e => rw [ha] at h; cases h
      | ok a =>
        rw [ha] at h
        simp only at h ⊢
        cases hb : a.rebinned edges with
        | error e => rw [hb] at h; cases h
        | ok b =>
          rw [hb] at h
          cases h
          exact ⟨_, rfl, (linear_rebin j _ _).mul k hu⟩
  · unfold HistDef.dropState at h ⊢
    split at h
    · cases h
    · rename_i hk
      rw [if_neg hk]
      cases h
      exact ⟨_, rfl, (linear_takeCols _).mul k hu⟩

/-! ## group axes -/

theorem filterState_add (H : HistDef) (s t u : H.State) (hs : H.Proper s) (ht : H.Proper t) (hu : addState s t = .ok u)
    (test : Test) (i : ℕ) (u' : H.State) :
    H.filterState test i u = .ok u' ↔
      ∃ s' t', H.filterState test i s = .ok s' ∧ H.filterState test i t = .ok t' ∧ addState s' t' = .ok u' := by
  cases s with
  | none =>
    cases t with
    | none =>
      cases hu
      exact ⟨fun h => ⟨none, none, rfl, rfl, h⟩, by rintro ⟨s', t', h1, h2, h3⟩; cases h1; cases h2; exact h3⟩
    | some b =>
      cases hu
      constructor
      · intro h
        refine ⟨none, u', rfl, h, ?_⟩
        cases u' <;> rfl
      · rintro ⟨s', t', h1, h2, h3⟩
        cases h1
        rw [h2]
        cases t' <;> exact h3
  | some a =>
    cases t with
    | none =>
      cases hu
      constructor
      · intro h
        refine ⟨u', none, h, rfl, ?_⟩
        cases u' <;> rfl
      · rintro ⟨s', t', h1, h2, h3⟩
        cases h2
        rw [h1]
        cases s' <;> exact h3
    | some b =>
      have ua := uniform_of_shaped _ _ _ hs.2 hs.1
      have ub := uniform_of_shaped _ _ _ ht.2 ht.1
      simp only [addState, addContent_uniform _ _ _ _ _ ua ub] at hu
      cases hu
      have key : ∀ (x : Content Arr H.groups.length) (x' : H.State), H.filterState test i (some x) = .ok x' ↔
          Answers test i H.groups.length x ∧ x' = some (keyPassing test i H.groups.length x) := by
        intro x x'
        unfold HistDef.filterState
        constructor
        · intro h
          cases hf : filterGroup test i H.groups.length x with
          | error e => simp only [hf] at h; cases h
          | ok y =>
            have ha := (filterGroup_iff test i _ x).2 y hf
            simp only [(filterGroup_iff test i _ x).1 ha] at h
            cases h
            exact ⟨ha, rfl⟩
        · rintro ⟨ha, rfl⟩
          simp only [(filterGroup_iff test i _ x).1 ha]
          rfl
      have hsum : addState (some (keyPassing test i H.groups.length a)) (some (keyPassing test i H.groups.length b)) =
          .ok (some (keyPassing test i H.groups.length (plus H.groups.length a b))) := by
        simp only [addState]
        rw [addContent_uniform _ _ _ _ _ (keyPassing_uniform test _ _ i _ _ ua) (keyPassing_uniform test _ _ i _ _ ub), keyPassing_plus]
        rfl
      have e := answers_plus test i H.groups.length a b hs.2 ht.2
      constructor
      · intro h
        obtain ⟨h1, rfl⟩ := (key _ _).1 h
        obtain ⟨h2, h3⟩ := e.1 h1
        exact ⟨_, _, (key _ _).2 ⟨h2, rfl⟩, (key _ _).2 ⟨h3, rfl⟩, hsum⟩
      · rintro ⟨s', t', h1, h2, h3⟩
        obtain ⟨g1, rfl⟩ := (key _ _).1 h1
        obtain ⟨g2, rfl⟩ := (key _ _).1 h2
        rw [hsum] at h3
        cases h3
        exact (key _ _).2 ⟨e.2 ⟨g1, g2⟩, rfl⟩

theorem filterState_proper (H : HistDef) (test : Test) (i : ℕ) (hi : i < H.groups.length) (s s' : H.State) (hs : H.Proper s)
    (h : H.filterState test i s = .ok s') : H.Proper s' := by
  cases s with
  | none => cases h; exact hs
  | some c =>
    unfold HistDef.filterState at h
    cases hf : filterGroup test i H.groups.length c with
    | error e => simp only [hf] at h; cases h
    | ok y =>
      simp only [hf] at h
      cases h
      have := filterGroup_spec test H.layout i _ c y hi hf
      exact ⟨this.1 hs.1, this.2.1 hs.2⟩

theorem selectTerm_add (H : HistDef) (s t u : H.State) (hs : H.Proper s) (ht : H.Proper t) (hu : addState s t = .ok u)
    (i : ℕ) (g : GTerm) (tol : ℚ) (u' : H.State) :
    H.selectTerm i g tol u = .ok u' ↔
      ∃ s' t', H.selectTerm i g tol s = .ok s' ∧ H.selectTerm i g tol t = .ok t' ∧ addState s' t' = .ok u' := by
  unfold HistDef.selectTerm
  cases hg : H.groups[i]? with
  | none => exact ⟨fun h => (by cases h), by rintro ⟨_, _, h, _⟩; cases h⟩
  | some a =>
    simp only
    cases a.select g.cmp g.value tol with
    | error e => exact ⟨fun h => (by cases h), by rintro ⟨_, _, h, _⟩; cases h⟩
    | ok r =>
      cases r with
      | none => exact ⟨fun h => (by cases h), by rintro ⟨_, _, h, _⟩; cases h⟩
      | some test => exact filterState_add H s t u hs ht hu test i u'

theorem selectTerm_proper (H : HistDef) (i : ℕ) (g : GTerm) (tol : ℚ) (s s' : H.State) (hs : H.Proper s)
    (h : H.selectTerm i g tol s = .ok s') : H.Proper s' := by
  unfold HistDef.selectTerm at h
  cases hg : H.groups[i]? with
  | none => rw [hg] at h; cases h
  | some a =>
    rw [hg] at h
    simp only at h
    cases ha : a.select g.cmp g.value tol with
    | error e => rw [ha] at h; cases h
    | ok r =>
      cases r with
      | none => rw [ha] at h; cases h
      | some test =>
        rw [ha] at h
        exact filterState_proper H test i (List.getElem?_eq_some_iff.1 hg).1 s s' hs h

theorem selectAnd_add (H : HistDef) (i : ℕ) (tol : ℚ) : ∀ (l : List GTerm) (s t u : H.State), H.Proper s → H.Proper t → addState s t = .ok u →
    ∀ u', H.selectAnd i tol l u = .ok u' ↔
      ∃ s' t', H.selectAnd i tol l s = .ok s' ∧ H.selectAnd i tol l t = .ok t' ∧ addState s' t' = .ok u'
  | [], s, t, u, _, _, hu, u' => by
    simp only [HistDef.selectAnd]
    constructor
    · intro h
      cases h
      exact ⟨s, t, rfl, rfl, hu⟩
    · rintro ⟨s', t', h1, h2, h3⟩
      cases h1; cases h2
      rw [hu] at h3
      exact h3
  | g :: l, s, t, u, hs, ht, hu, u' => by
    have key := selectTerm_add H s t u hs ht hu i g tol
    simp only [HistDef.selectAnd]
    constructor
    · intro h
      cases h1 : H.selectTerm i g tol u with
      | error e => rw [h1] at h; cases h
      | ok v =>
        rw [h1] at h
        obtain ⟨s1, t1, k1, k2, k3⟩ := (key v).1 h1
        rw [k1, k2]
        exact (selectAnd_add H i tol l s1 t1 v (selectTerm_proper H i g tol s s1 hs k1) (selectTerm_proper H i g tol t t1 ht k2) k3 u').1 h
    · rintro ⟨s', t', h1, h2, h3⟩
      cases k1 : H.selectTerm i g tol s with
      | error e => rw [k1] at h1; cases h1
      | ok s1 =>
        cases k2 : H.selectTerm i g tol t with
        | error e => rw [k2] at h2; cases h2
        | ok t1 =>
          rw [k1] at h1
          rw [k2] at h2
          have p1 := selectTerm_proper H i g tol s s1 hs k1
          have p2 := selectTerm_proper H i g tol t t1 ht k2
          obtain ⟨v, hv⟩ : ∃ v, addState s1 t1 = .ok v := by
            cases s1 with
            | none => cases t1 <;> exact ⟨_, rfl⟩
            | some a =>
              cases t1 with
              | none => exact ⟨_, rfl⟩
              | some b =>
                simp only [addState, addContent_eq _ _ _ _ p1.2 p2.2 p1.1 p2.1]
                exact ⟨_, rfl⟩
          rw [(key v).2 ⟨s1, t1, k1, k2, hv⟩]
          exact (selectAnd_add H i tol l s1 t1 v p1 p2 hv u').2 ⟨s', t', h1, h2, h3⟩

/-- C127 for selections on a group axis, with any boolean expression: the selection of the sum succeeds exactly if
those of both histograms do, and then is their sum. -/
theorem C127_groups (H : HistDef) (s t u : H.State) (hs : H.Proper s) (ht : H.Proper t) (hu : addState s t = .ok u)
    (limit i : ℕ) (dnf : List (List GTerm)) (tol : ℚ) (u' : H.State) :
    H.selectGroup limit i dnf tol u = .ok u' ↔
      ∃ s' t', H.selectGroup limit i dnf tol s = .ok s' ∧ H.selectGroup limit i dnf tol t = .ok t' ∧ addState s' t' = .ok u' := by
  have many : ∀ dnf : List (List GTerm),
      ((match H.groups[i]? with
        | none => .error .valueError
        | some a =>
          match orLoop (fun t => a.select t.cmp t.value tol) dnf ⟨none, none⟩ none with
          | .error e => .error e
          | .ok none => .error .valueError
          | .ok (some (_, none)) => .error .typeError
          | .ok (some (F, some c)) => H.filterState (c.call limit F) i u : Except Err H.State) = .ok u') ↔
      ∃ s' t', ((match H.groups[i]? with
        | none => .error .valueError
        | some a =>
          match orLoop (fun t => a.select t.cmp t.value tol) dnf ⟨none, none⟩ none with
          | .error e => .error e
          | .ok none => .error .valueError
          | .ok (some (_, none)) => .error .typeError
          | .ok (some (F, some c)) => H.filterState (c.call limit F) i s : Except Err H.State) = .ok s') ∧
        ((match H.groups[i]? with
        | none => .error .valueError
        | some a =>
          match orLoop (fun t => a.select t.cmp t.value tol) dnf ⟨none, none⟩ none with
          | .error e => .error e
          | .ok none => .error .valueError
          | .ok (some (_, none)) => .error .typeError
          | .ok (some (F, some c)) => H.filterState (c.call limit F) i t : Except Err H.State) = .ok t') ∧ addState s' t' = .ok u' := by
    intro dnf
    cases H.groups[i]? with
    | none => exact ⟨fun h => (by cases h), by rintro ⟨_, _, h, _⟩; cases h⟩
    | some a =>
      simp only
      cases orLoop (fun t => a.select t.cmp t.value tol) dnf ⟨none, none⟩ none with
      | error e => exact ⟨fun h => (by cases h), by rintro ⟨_, _, h, _⟩; cases h⟩
      | ok r =>
        match r with
        | none => exact ⟨fun h => (by cases h), by rintro ⟨_, _, h, _⟩; cases h⟩
        | some (_, none) => exact ⟨fun h => (by cases h), by rintro ⟨_, _, h, _⟩; cases h⟩
        | some (F, some c) => exact filterState_add H s t u hs ht hu _ i u'
  match dnf with
  | [] => exact many []
  | [l] => exact selectAnd_add H i tol l s t u hs ht hu u'
  | l :: l' :: rest => exact many (l :: l' :: rest)

/-! ## projections -/

theorem sumAxes_plus (kf : List Bool) (idx : List ℕ) (col : ℕ) (a b : Arr) (h : a.shape = b.shape) :
    ((a.plus b).sumAxes kf).get idx col = (a.sumAxes kf).get idx col + (b.sumAxes kf).get idx col := by
  unfold Arr.sumAxes Arr.plus
  simp only [← h]
  rw [← List.sum_map_add]

theorem sumAxes_scale (kf : List Bool) (idx : List ℕ) (col : ℕ) (k : ℚ) (a : Arr) :
    ((a.scale k).sumAxes kf).get idx col = (a.sumAxes kf).get idx col * k := by
  unfold Arr.sumAxes Arr.scale
  simp only
  rw [← List.sum_map_mul_right]

/-- what `project` does to any proper content -/
theorem project_any (H : HistDef) (s : H.State) (hs : H.Proper s) (kg kf : List Bool) (hkg : kg.length = H.groups.length)
    (hp : H.PowKeys kg s) :
    ∃ s' : (H.project kg kf).State, H.projectState kg kf s = .ok ((H.project kg kf).toPV s') ∧ (H.project kg kf).Proper s' ∧
      (∀ gk, gk.length = (H.project kg kf).groups.length →
        ((H.project kg kf).has s' gk ↔ ∃ full, full.length = H.groups.length ∧ pick kg full = gk ∧ H.has s full)) ∧
      ∀ gk, gk.length = (H.project kg kf).groups.length → ∀ idx col, (H.project kg kf).read s' gk idx col =
        match s with
        | none => 0
        | some c => margin (fun a => (a.sumAxes kf).get idx col) H.groups.length kg c gk := by
  cases s with
  | none =>
    refine ⟨none, rfl, ⟨trivial, trivial⟩, fun gk _ => ?_, fun _ _ _ _ => rfl⟩
    constructor
    · intro h0; exact h0.elim
    · rintro ⟨_, _, _, h0⟩; exact h0.elim
  | some c =>
    obtain ⟨c', h1, h2⟩ := projcontent_spec H.layout (H.project kg kf).layout kf
      (by show (pick kf H.fixed).map FixedAxis.totbins = pick kf (H.fixed.map FixedAxis.totbins); rw [pick_map]) rfl
      H.groups.length kg c hkg hs.2 hs.1 hp (H.project kg kf).groups.length (pick_length kg _ hkg)
    refine ⟨some c', ?_, ⟨h2.shaped, h2.distinct⟩, h2.has, h2.value⟩
    simp only [HistDef.projectState, h1]
    rfl

theorem addState_total (H : HistDef) (s t : H.State) (hs : H.Proper s) (ht : H.Proper t) : ∃ v, addState s t = .ok v ∧
    (∀ gk, H.has v gk ↔ H.has s gk ∨ H.has t gk) ∧ ∀ gk idx col, H.read v gk idx col = H.read s gk idx col + H.read t gk idx col := by
  cases s with
  | none =>
    cases t with
    | none => exact ⟨none, rfl, by simp, by simp [HistDef.read]⟩
    | some b => exact ⟨some b, rfl, by simp [HistDef.has], by simp [HistDef.read]⟩
  | some a =>
    cases t with
    | none => exact ⟨some a, rfl, by simp [HistDef.has], by simp [HistDef.read]⟩
    | some b =>
      refine ⟨some (plus H.groups.length a b), ?_, fun gk => plus_has _ a b gk, fun gk idx col => plus_lookup _ a b gk idx col⟩
      simp only [addState, addContent_eq _ _ _ _ hs.2 ht.2 hs.1 ht.1]
      rfl

/-- C127 for projections (partial: the numbers of keys on the group axes that are projected away are as in C32, for
both histograms and for the sum).  The projection of the sum and the sum of the projections have the same groups
and the same entries. -/
theorem C127_project_partial (H : HistDef) (s t u : H.State) (hs : H.Proper s) (ht : H.Proper t) (hu : addState s t = .ok u)
    (kg kf : List Bool) (hkg : kg.length = H.groups.length)
    (ps : H.PowKeys kg s) (pt : H.PowKeys kg t) (pu : H.PowKeys kg u) :
    ∃ s' t' u' v : (H.project kg kf).State, H.projectState kg kf s = .ok ((H.project kg kf).toPV s') ∧
      H.projectState kg kf t = .ok ((H.project kg kf).toPV t') ∧ H.projectState kg kf u = .ok ((H.project kg kf).toPV u') ∧
      addState s' t' = .ok v ∧
      ∀ gk, gk.length = (H.project kg kf).groups.length → ((H.project kg kf).has u' gk ↔ (H.project kg kf).has v gk) ∧
        ∀ idx col, (H.project kg kf).read u' gk idx col = (H.project kg kf).read v gk idx col := by
  obtain ⟨u0, hu0, hhas, hread⟩ := addState_total H s t hs ht
  rw [hu] at hu0
  cases hu0
  have hpu : H.Proper u := by
    cases s with
    | none => cases t <;> (cases hu; assumption)
    | some a =>
      cases t with
      | none => cases hu; exact hs
      | some b =>
        simp only [addState, addContent_eq _ _ _ _ hs.2 ht.2 hs.1 ht.1] at hu
        cases hu
        exact ⟨plus_shaped _ _ _ _ hs.1 ht.1, plus_distinct _ _ _ hs.2 ht.2⟩
  obtain ⟨s', s1, s2, s3, s4⟩ := project_any H s hs kg kf hkg ps
  obtain ⟨t', t1, t2, t3, t4⟩ := project_any H t ht kg kf hkg pt
  obtain ⟨u', u1, u2, u3, u4⟩ := project_any H u hpu kg kf hkg pu
  obtain ⟨v, v1, v2, v3⟩ := addState_total _ s' t' s2 t2
  refine ⟨s', t', u', v, s1, t1, u1, v1, fun gk hgk => ⟨?_, fun idx col => ?_⟩⟩
  · rw [u3 gk hgk, v2, s3 gk hgk, t3 gk hgk]
    constructor
    · rintro ⟨full, f1, f2, f3⟩
      rcases (hhas full).1 f3 with h | h
      · exact Or.inl ⟨full, f1, f2, h⟩
      · exact Or.inr ⟨full, f1, f2, h⟩
    · rintro (⟨full, f1, f2, f3⟩ | ⟨full, f1, f2, f3⟩)
      · exact ⟨full, f1, f2, (hhas full).2 (Or.inl f3)⟩
      · exact ⟨full, f1, f2, (hhas full).2 (Or.inr f3)⟩
  · rw [v3, u4 gk hgk, s4 gk hgk, t4 gk hgk]
    cases s with
    | none =>
      cases t with
      | none => cases hu; simp
      | some b => cases hu; simp
    | some a =>
      cases t with
      | none => cases hu; simp
      | some b =>
        have ua := uniform_of_shaped _ _ _ hs.2 hs.1
        have ub := uniform_of_shaped _ _ _ ht.2 ht.1
        simp only [addState, addContent_uniform _ _ _ _ _ ua ub] at hu
        cases hu
        exact margin_plus _ _ _ (fun x y hx hy => sumAxes_plus kf idx col x y (by rw [hx, hy])) _ kg a b gk hs.2 ht.2 ua ub

/-- C127 for projections onto some of the fixed axes and all group axes: nothing is missing. -/
theorem C127_project_fixed (H : HistDef) (s t u : H.State) (hs : H.Proper s) (ht : H.Proper t) (hu : addState s t = .ok u)
    (kf : List Bool) :
    let kg := List.replicate H.groups.length true
    ∃ s' t' u' v : (H.project kg kf).State, H.projectState kg kf s = .ok ((H.project kg kf).toPV s') ∧
      H.projectState kg kf t = .ok ((H.project kg kf).toPV t') ∧ H.projectState kg kf u = .ok ((H.project kg kf).toPV u') ∧
      addState s' t' = .ok v ∧
      ∀ gk, gk.length = (H.project kg kf).groups.length → ((H.project kg kf).has u' gk ↔ (H.project kg kf).has v gk) ∧
        ∀ idx col, (H.project kg kf).read u' gk idx col = (H.project kg kf).read v gk idx col := by
  have all : ∀ x : H.State, H.PowKeys (List.replicate H.groups.length true) x := by
    intro x
    cases x with
    | none => trivial
    | some c => exact powKeys_replicate _ _ c
  exact C127_project_partial H s t u hs ht hu _ kf (by simp) (all s) (all t) (all u)

/-- C127 for projections of multiples (partial as above). -/
theorem C127_project_multiple_partial (H : HistDef) (k : ℚ) (s u : H.State) (hs : H.Proper s) (hu : mulState k s = .ok u)
    (kg kf : List Bool) (hkg : kg.length = H.groups.length) (ps : H.PowKeys kg s) (pu : H.PowKeys kg u) :
    ∃ s' u' v : (H.project kg kf).State, H.projectState kg kf s = .ok ((H.project kg kf).toPV s') ∧
      H.projectState kg kf u = .ok ((H.project kg kf).toPV u') ∧ mulState k s' = .ok v ∧
      ∀ gk, gk.length = (H.project kg kf).groups.length → ((H.project kg kf).has u' gk ↔ (H.project kg kf).has v gk) ∧
        ∀ idx col, (H.project kg kf).read u' gk idx col = (H.project kg kf).read v gk idx col := by
  cases s with
  | none => cases hu
  | some a =>
    cases hu
    have hpu : H.Proper (some (mulContent k H.groups.length a)) := ⟨mul_shaped _ k _ _ hs.1, mul_distinct k _ _ hs.2⟩
    obtain ⟨s', s1, s2, s3, s4⟩ := project_any H (some a) hs kg kf hkg ps
    obtain ⟨u', u1, u2, u3, u4⟩ := project_any H _ hpu kg kf hkg pu
    cases s' with
    | none =>
      simp only [HistDef.projectState] at s1
      cases hp : projcontent kf H.groups.length kg a with
      | error e => rw [hp] at s1; cases s1
      | ok x => rw [hp] at s1; cases s1
    | some c' =>
      refine ⟨some c', u', _, s1, u1, rfl, fun gk hgk => ⟨?_, fun idx col => ?_⟩⟩
      · rw [u3 gk hgk]
        have : (H.project kg kf).has (some (mulContent k _ c')) gk ↔ (H.project kg kf).has (some c') gk := mul_has k _ c' gk
        rw [this, s3 gk hgk]
        have hm : ∀ full, H.has (some (mulContent k H.groups.length a)) full ↔ H.has (some a) full := mul_has k _ a
        simp only [hm]
      · rw [u4 gk hgk]
        have : (H.project kg kf).read (some (mulContent k _ c')) gk idx col = (H.project kg kf).read (some c') gk idx col * k :=
          mul_lookup k _ c' gk idx col
        rw [this, s4 gk hgk]
        exact margin_mul _ k (fun x => sumAxes_scale kf idx col k x) _ kg a gk

theorem merge_three {β : Type} (g : β → β → β) (a b b' c : β) {ka kb kc : Key} (hab : ka ≠ kb) (hbc : kb ≠ kc) (hac : ka ≠ kc) :
    mergeWith g [(ka, a), (kb, b)] [(kb, b'), (kc, c)] = [(ka, a), (kb, g b b'), (kc, c)] := by
  simp [mergeWith, mergeEntry, addRight, dget_cons, dget_nil, hab, hac, hbc, hab.symm, hac.symm]

/-- C127 does not hold for projections with other numbers of keys: two histograms with the groups `a`, `b` and `b`, `c`
can both be projected onto their fixed axes, their sum cannot (the array has a dimension too many). -/
theorem C127_refuted_project (fixed : List FixedAxis) (nprof : ℕ) (wkind : WKind) (a b b' c : Arr)
    (h : ∀ x ∈ [a, b, b', c], x.shape = fixed.map FixedAxis.totbins ∧ x.ncols = (HistDef.mk [.groupby] fixed nprof wkind).layout.ncols)
    (ka kb kc : Key) (hab : ka ≠ kb) (hbc : kb ≠ kc) (hac : ka ≠ kc) (kf : List Bool) :
    let H : HistDef := ⟨[.groupby], fixed, nprof, wkind⟩
    let s : H.State := some [(ka, a), (kb, b)]
    let t : H.State := some [(kb, b'), (kc, c)]
    let right (x : H.State) := ∃ r : Arr, H.projectState [false] kf x = .ok (some (.arr r)) ∧ r.shape = (pick kf fixed).map FixedAxis.totbins
    ∃ u, addState s t = .ok u ∧ right s ∧ right t ∧ ¬ right u := by
  have ha := h a (by simp)
  have hb := h b (by simp)
  have hb' := h b' (by simp)
  have hc := h c (by simp)
  have hd : ∀ l : List (Key × Arr), (∀ p ∈ l, p.2.shape = fixed.map FixedAxis.totbins ∧
      p.2.ncols = (HistDef.mk [.groupby] fixed nprof wkind).layout.ncols) →
      ((∃ r : Arr, HistDef.projectState ⟨[.groupby], fixed, nprof, wkind⟩ [false] kf (some l) = .ok (some (.arr r)) ∧
        r.shape = (pick kf fixed).map FixedAxis.totbins) ↔ ∃ k, l.length = 2 ^ (k + 1)) := fun l hl =>
    C32_right_iff_power_of_two .groupby fixed nprof wkind l (fun p hp => (hl p hp).1) (fun p hp => (hl p hp).2) kf
  refine ⟨some [(ka, a), (kb, b.plus b'), (kc, c)], ?_, ?_, ?_, ?_⟩
  · have h1 : Uniform (fixed.map FixedAxis.totbins) (HistDef.mk [.groupby] fixed nprof wkind).layout.ncols 1
        ([(ka, a), (kb, b)] : List (Key × Arr)) := by
      intro p hp
      rcases List.mem_cons.1 hp with rfl | hp
      · exact ha
      · cases List.mem_singleton.1 hp; exact hb
    have h2 : Uniform (fixed.map FixedAxis.totbins) (HistDef.mk [.groupby] fixed nprof wkind).layout.ncols 1
        ([(kb, b'), (kc, c)] : List (Key × Arr)) := by
      intro p hp
      rcases List.mem_cons.1 hp with rfl | hp
      · exact hb'
      · cases List.mem_singleton.1 hp; exact hc
    have e := addContent_uniform _ _ 1 _ _ h1 h2
    have e2 : plus 1 ([(ka, a), (kb, b)] : List (Key × Arr)) ([(kb, b'), (kc, c)] : List (Key × Arr)) =
        ([(ka, a), (kb, b.plus b'), (kc, c)] : List (Key × Arr)) := merge_three Arr.plus a b b' c hab hbc hac
    rw [e2] at e
    exact congrArg (Except.map some) e
  · exact (hd [(ka, a), (kb, b)] (by
      intro p hp
      simp only [List.mem_cons, List.not_mem_nil, or_false] at hp
      rcases hp with rfl | rfl
      · exact ha
      · exact hb)).2 ⟨0, rfl⟩
  · exact (hd [(kb, b'), (kc, c)] (by
      intro p hp
      simp only [List.mem_cons, List.not_mem_nil, or_false] at hp
      rcases hp with rfl | rfl
      · exact hb'
      · exact hc)).2 ⟨0, rfl⟩
  · intro hr
    obtain ⟨k, hk⟩ := (hd [(ka, a), (kb, b.plus b'), (kc, c)] (by
      intro p hp
      simp only [List.mem_cons, List.not_mem_nil, or_false] at hp
      rcases hp with rfl | rfl | rfl
      · exact ha
      · exact hb
      · exact hc)).1 hr
    simp only [List.length_cons, List.length_nil] at hk
    rw [pow_succ] at hk
    omega

/-! ## examples -/

/-- two fills of `Hist(groupby("c"), bin("x", 2, 0, 2), weight="w")` with one common group -/
example : ∃ s t u : exH.State, exH.fillAll none [[exRow "a" 1 (some 2), exRow "b" 0 (some 1)]] = .ok s ∧
    exH.fillAll none [[exRow "b" 1 (some 3), exRow "d" 1 (some 4)]] = .ok t ∧ exH.Proper s ∧ exH.Proper t ∧ addState s t = .ok u ∧
    exH.read u [.str "b"] [1] 0 = 1 ∧ exH.read u [.str "b"] [2] 0 = 3 := by
  have ok : ∀ (c d : String) (x y v w : ℚ), x ≤ 1000 → y ≤ 1000 → Fillable exH [[exRow c x (some v), exRow d y (some w)]] := by
    intro c d x y v w hx hy
    refine ⟨?_, Or.inl rfl⟩
    intro b hb r hr
    simp at hb
    subst hb
    simp at hr
    rcases hr with rfl | rfl
    · exact exRow_ok _ _ _ hx
    · exact exRow_ok _ _ _ hy
  obtain ⟨s, h1, h2⟩ := Represents.ofFill exH _ (ok "a" "b" 1 0 2 1 (by norm_num) (by norm_num))
  obtain ⟨t, h3, h4⟩ := Represents.ofFill exH _ (ok "b" "d" 1 1 3 4 (by norm_num) (by norm_num))
  obtain ⟨u, h5, _, h6⟩ := addState_total exH s t ⟨h2.good, h2.distinct⟩ ⟨h4.good, h4.distinct⟩
  refine ⟨s, t, u, h1, h3, ⟨h2.good, h2.distinct⟩, ⟨h4.good, h4.distinct⟩, h5, ?_⟩
  rw [h6, h6, h2.totals [.str "b"] rfl [1] (.cons (by decide +kernel) .nil), h2.totals [.str "b"] rfl [2] (.cons (by decide +kernel) .nil),
    h4.totals [.str "b"] rfl [1] (.cons (by decide +kernel) .nil), h4.totals [.str "b"] rfl [2] (.cons (by decide +kernel) .nil)]
  decide +kernel

/-- the operations are accepted on such a content -/
example : (match exH.fillAll none [[exRow "a" 1 (some 2), exRow "b" 0 (some 1)]] with
    | .ok st => (exH.select 0 .ge (.fin 1) (1/1000) st).toBool && (exH.rebin 0 [0, 2] st).toBool &&
        (exH.selectGroup 1000 0 [[⟨.ne, .key (.str "a")⟩]] (1/1000) st).toBool && (mulState 2 st).toBool
    | .error _ => false) = true := by decide +kernel

end Verif
