import Verif.OrderLemmas
import Verif.PropsLinear
import Verif.SelectLemmas

/-!
# Property C128: operations on different axes may be done in any order

and the two ends of a range on one `bin` axis.
-/

namespace Verif

/-- C128.  Selections on two different fixed axes give the same histogram in either order. -/
theorem C128_select_select (H : HistDef) (s : H.State) (i j : ℕ) (hij : i ≠ j) (c c' : Cmp) (v v' : Num) (tol tol' : ℚ)
    (H1 H2 : HistDef) (s1 : H1.State) (s2 : H2.State) (h1 : H.select i c v tol s = .ok ⟨H1, s1⟩)
    (h2 : H1.select j c' v' tol' s1 = .ok ⟨H2, s2⟩) :
    ∃ H1' s1', H.select j c' v' tol' s = .ok ⟨H1', s1'⟩ ∧ H1'.select i c v tol s1' = .ok ⟨H2, s2⟩ := by
  simp only [select_applyAt] at h1 h2 ⊢
  refine applyAt_comm hij (fun a b a' b' f g ha hb x => ?_) h1 h2
  unfold selectOp at ha hb
  cases h3 : a.select c v tol with
  | error e => rw [h3] at ha; cases ha
  | ok r =>
    cases r with
    | no _ _ => rw [h3] at ha; cases ha
    | cut _ t =>
      rw [h3] at ha
      cases ha
      cases h4 : b.select c' v' tol' with
      | error e => rw [h4] at hb; cases hb
      | ok r =>
        cases r with
        | no _ _ => rw [h4] at hb; cases hb
        | cut _ t' =>
          rw [h4] at hb
          cases hb
          exact slice_slice hij _ _ x

theorem selectOp_slice {j : ℕ} {c : Cmp} {v : Num} {tol : ℚ} {a a' : FixedAxis} {f : Arr → Arr} (h : selectOp j c v tol a = .ok (a', f)) :
    ∃ t, f = Arr.slice j t := by
  unfold selectOp at h
  cases h4 : a.select c v tol with
  | error e => rw [h4] at h; cases h
  | ok r =>
    cases r with
    | no _ _ => rw [h4] at h; cases h
    | cut _ t' =>
      rw [h4] at h
      cases h
      exact ⟨_, rfl⟩

theorem rebinOp_rebin {j : ℕ} {edges : List ℚ} {a a' : FixedAxis} {f : Arr → Arr} (h : rebinOp j edges a = .ok (a', f)) :
    ∃ r n, f = Arr.rebin j r n := by
  unfold rebinOp at h
  cases h3 : a.asSplit with
  | error e => rw [h3] at h; cases h
  | ok x =>
    rw [h3] at h
    simp only at h
    cases h4 : x.rebinned edges with
    | error e => rw [h4] at h; cases h
    | ok b =>
      rw [h4] at h
      cases h
      exact ⟨_, _, rfl⟩

/-- C128.  Rebinning one fixed axis and selecting on another one give the same histogram in either order. -/
theorem C128_select_rebin (H : HistDef) (s : H.State) (i j : ℕ) (hij : i ≠ j) (c : Cmp) (v : Num) (tol : ℚ) (edges : List ℚ)
    (H2 : HistDef) (s2 : H2.State) :
    (∃ H1 s1, H.select i c v tol s = .ok ⟨H1, s1⟩ ∧ H1.rebin j edges s1 = .ok ⟨H2, s2⟩) ↔
      ∃ H1 s1, H.rebin j edges s = .ok ⟨H1, s1⟩ ∧ H1.select i c v tol s1 = .ok ⟨H2, s2⟩ := by
  simp only [select_applyAt, rebin_applyAt]
  constructor
  · rintro ⟨H1, s1, h1, h2⟩
    refine applyAt_comm hij (fun a b a' b' f g ha hb x => ?_) h1 h2
    obtain ⟨t, rfl⟩ := selectOp_slice ha
    obtain ⟨r, n, rfl⟩ := rebinOp_rebin hb
    exact (rebin_slice hij.symm t r n x).symm
  · rintro ⟨H1, s1, h1, h2⟩
    refine applyAt_comm hij.symm (fun a b a' b' f g ha hb x => ?_) h1 h2
    obtain ⟨t, rfl⟩ := selectOp_slice hb
    obtain ⟨r, n, rfl⟩ := rebinOp_rebin ha
    exact rebin_slice hij.symm t r n x

/-- C128.  Rebinning two different fixed axes gives the same histogram in either order. -/
theorem C128_rebin_rebin (H : HistDef) (s : H.State) (i j : ℕ) (hij : i ≠ j) (edges edges' : List ℚ)
    (H1 H2 : HistDef) (s1 : H1.State) (s2 : H2.State) (h1 : H.rebin i edges s = .ok ⟨H1, s1⟩)
    (h2 : H1.rebin j edges' s1 = .ok ⟨H2, s2⟩) :
    ∃ H1' s1', H.rebin j edges' s = .ok ⟨H1', s1'⟩ ∧ H1'.rebin i edges s1' = .ok ⟨H2, s2⟩ := by
  simp only [rebin_applyAt] at h1 h2 ⊢
  refine applyAt_comm hij (fun a b a' b' f g ha hb x => ?_) h1 h2
  obtain ⟨r, n, rfl⟩ := rebinOp_rebin ha
  obtain ⟨r', n', rfl⟩ := rebinOp_rebin hb
  exact rebin_rebin hij r r' n n' x

/-- C128.  Profiles may be dropped before or after a selection. -/
theorem C128_drop_select (H : HistDef) (s s' : H.State) (keep : List Bool) (hasWeight : Bool) (j : ℕ) (c : Cmp) (v : Num) (tol : ℚ)
    (hd : H.dropState keep hasWeight s = .ok s') (H1 : HistDef) (s1 : H1.State) (h1 : H.select j c v tol s = .ok ⟨H1, s1⟩) :
    ∃ s2, H1.dropState keep hasWeight s1 = .ok s2 ∧ H.select j c v tol s' = .ok ⟨H1, s2⟩ := by
  unfold HistDef.dropState at hd
  split at hd
  · cases hd
  · rename_i hk
    cases hd
    unfold HistDef.select at h1 ⊢
    cases hj : H.fixed[j]? with
    | none => rw [hj] at h1; cases h1
    | some a =>
      rw [hj] at h1
      simp only at h1 ⊢
      cases ha : a.select c v tol with
      | error e => rw [ha] at h1; cases h1
      | ok r =>
        cases r with
        | no _ _ => rw [ha] at h1; cases h1
        | cut a' t =>
          rw [ha] at h1
          cases h1
          refine ⟨_, if_neg hk, ?_⟩
          have e : (s.map (mapLeaves (Arr.takeCols (dropColumns H.layout keep hasWeight)) H.groups.length)).map
              (mapLeaves (Arr.slice j t) H.groups.length) =
              (s.map (mapLeaves (Arr.slice j t) H.groups.length)).map
              (mapLeaves (Arr.takeCols (dropColumns H.layout keep hasWeight)) H.groups.length) := by
            cases s with
            | none => rfl
            | some x => exact congrArg some (mapLeaves_comm (Arr.slice j t)
                (Arr.takeCols (dropColumns H.layout keep hasWeight)) (fun _ => rfl) H.groups.length x)
          exact congrArg (fun z : H.State => (Except.ok ⟨H.setFixed j a', z⟩ : Except Err (Σ H' : HistDef, H'.State))) e

/-! ## group axes -/

theorem filterE_map {β γ : Type} (test : Test) (f : β → γ) : ∀ d : List (Key × β),
    filterE test (d.map fun p => (p.1, f p.2)) = (filterE test d).map (List.map fun p => (p.1, f p.2))
  | [] => rfl
  | (k, x) :: d => by
    simp only [List.map_cons, filterE, filterE_map test f d]
    cases test k with
    | error e => rfl
    | ok b =>
      cases filterE test d with
      | error e => rfl
      | ok r => cases b <;> rfl

theorem mapValsE_map {β : Type} (g : β → Except Err β) (f : β → β) (h : ∀ x, g (f x) = (g x).map f) : ∀ d : List (Key × β),
    mapValsE g (d.map fun p => (p.1, f p.2)) = (mapValsE g d).map (List.map fun p => (p.1, f p.2))
  | [] => rfl
  | (k, x) :: d => by
    simp only [List.map_cons, mapValsE, mapValsE_map g f h d, h x]
    cases g x with
    | error e => rfl
    | ok y =>
      cases mapValsE g d with
      | error e => rfl
      | ok r => rfl

theorem filterGroup_mapLeaves (test : Test) (f : Arr → Arr) : ∀ (i n : ℕ) (c : Content Arr n),
    filterGroup test i n (mapLeaves f n c) = (filterGroup test i n c).map (mapLeaves f n)
  | 0, 0, _ => rfl
  | _ + 1, 0, _ => rfl
  | 0, n + 1, (d : List (Key × Content Arr n)) => filterE_map test (mapLeaves f n) d
  | i + 1, n + 1, (d : List (Key × Content Arr n)) =>
    mapValsE_map (filterGroup test i n) (mapLeaves f n) (filterGroup_mapLeaves test f i n) d

theorem filterState_mapLeaves (H : HistDef) (l : List FixedAxis) (test : Test) (i : ℕ) (f : Arr → Arr) (s : H.State) :
    ({ H with fixed := l } : HistDef).filterState test i (s.map (mapLeaves f H.groups.length)) =
      (H.filterState test i s).map (Option.map (mapLeaves f H.groups.length)) := by
  cases s with
  | none => rfl
  | some c =>
    show ((filterGroup test i H.groups.length (mapLeaves f H.groups.length c)).map some : Except Err H.State) =
      ((filterGroup test i H.groups.length c).map some : Except Err H.State).map _
    rw [filterGroup_mapLeaves]
    cases filterGroup test i H.groups.length c <;> rfl

theorem selectAnd_mapLeaves (H : HistDef) (l : List FixedAxis) (i : ℕ) (tol : ℚ) (f : Arr → Arr) : ∀ (ts : List GTerm) (s : H.State),
    ({ H with fixed := l } : HistDef).selectAnd i tol ts (s.map (mapLeaves f H.groups.length)) =
      (H.selectAnd i tol ts s).map (Option.map (mapLeaves f H.groups.length))
  | [], _ => rfl
  | t :: ts, s => by
    have e : ({ H with fixed := l } : HistDef).selectTerm i t tol (s.map (mapLeaves f H.groups.length)) =
        (H.selectTerm i t tol s).map (Option.map (mapLeaves f H.groups.length)) := by
      simp only [HistDef.selectTerm]
      cases H.groups[i]? with
      | none => rfl
      | some a =>
        simp only
        cases a.select t.cmp t.value tol with
        | error e => rfl
        | ok r =>
          cases r with
          | none => rfl
          | some test => exact filterState_mapLeaves H l test i f s
    simp only [HistDef.selectAnd, e]
    cases H.selectTerm i t tol s with
    | error e => rfl
    | ok s' => exact selectAnd_mapLeaves H l i tol f ts s'

theorem selectGroup_mapLeaves (H : HistDef) (l : List FixedAxis) (limit i : ℕ) (tol : ℚ) (f : Arr → Arr) (dnf : List (List GTerm)) (s : H.State) :
    ({ H with fixed := l } : HistDef).selectGroup limit i dnf tol (s.map (mapLeaves f H.groups.length)) =
      (H.selectGroup limit i dnf tol s).map (Option.map (mapLeaves f H.groups.length)) := by
  have many : ∀ F c, ({ H with fixed := l } : HistDef).filterState (Clo.call limit F c) i (s.map (mapLeaves f H.groups.length)) =
      (H.filterState (Clo.call limit F c) i s).map (Option.map (mapLeaves f H.groups.length)) :=
    fun F c => filterState_mapLeaves H l _ i f s
  unfold HistDef.selectGroup
  split
  · exact selectAnd_mapLeaves H l i tol f _ s
  · simp only
    cases H.groups[i]? with
    | none => rfl
    | some a =>
      simp only
      split
      · rfl
      · rfl
      · rfl
      · exact many _ _

theorem applyAt_group {H : HistDef} {j : ℕ} {miss : Err} {op : FixedAxis → Except Err (FixedAxis × (Arr → Arr))} {s : H.State}
    {H1 : HistDef} {s1 : H1.State} (h : H.applyAt j miss op s = .ok ⟨H1, s1⟩) (limit i : ℕ) (dnf : List (List GTerm)) (tol : ℚ) :
    (∀ t, H.selectGroup limit i dnf tol s = .ok t → ∃ t1, H1.selectGroup limit i dnf tol s1 = .ok t1 ∧ H.applyAt j miss op t = .ok ⟨H1, t1⟩) ∧
    ∀ e, H.selectGroup limit i dnf tol s = .error e → H1.selectGroup limit i dnf tol s1 = .error e := by
  unfold HistDef.applyAt at h ⊢
  cases hj : H.fixed[j]? with
  | none => rw [hj] at h; cases h
  | some a =>
    rw [hj] at h
    simp only at h ⊢
    cases ha : op a with
    | error e => rw [ha] at h; cases h
    | ok r =>
      rw [ha] at h
      cases h
      constructor
      · intro t ht
        refine ⟨t.map (mapLeaves r.2 H.groups.length), ?_, rfl⟩
        have e := selectGroup_mapLeaves H (H.fixed.set j r.1) limit i tol r.2 dnf s
        rw [ht] at e
        exact e
      · intro e he
        have e' := selectGroup_mapLeaves H (H.fixed.set j r.1) limit i tol r.2 dnf s
        rw [he] at e'
        exact e'

/-- C128.  A selection of groups and an accepted selection on a fixed axis give the same histogram in either order; a selection
of groups that raises an exception raises the same exception afterwards. -/
theorem C128_group_select (H : HistDef) (s : H.State) (j : ℕ) (c : Cmp) (v : Num) (tolf : ℚ) (H1 : HistDef) (s1 : H1.State)
    (h : H.select j c v tolf s = .ok ⟨H1, s1⟩) (limit i : ℕ) (dnf : List (List GTerm)) (tol : ℚ) :
    (∀ t, H.selectGroup limit i dnf tol s = .ok t →
      ∃ t1, H1.selectGroup limit i dnf tol s1 = .ok t1 ∧ H.select j c v tolf t = .ok ⟨H1, t1⟩) ∧
    ∀ e, H.selectGroup limit i dnf tol s = .error e → H1.selectGroup limit i dnf tol s1 = .error e := by
  simp only [select_applyAt] at h ⊢
  exact applyAt_group h limit i dnf tol

/-- C128.  A selection of groups and an accepted `rebin` of a fixed axis give the same histogram in either order; a selection
of groups that raises an exception raises the same exception afterwards. -/
theorem C128_group_rebin (H : HistDef) (s : H.State) (j : ℕ) (edges : List ℚ) (H1 : HistDef) (s1 : H1.State)
    (h : H.rebin j edges s = .ok ⟨H1, s1⟩) (limit i : ℕ) (dnf : List (List GTerm)) (tol : ℚ) :
    (∀ t, H.selectGroup limit i dnf tol s = .ok t →
      ∃ t1, H1.selectGroup limit i dnf tol s1 = .ok t1 ∧ H.rebin j edges t = .ok ⟨H1, t1⟩) ∧
    ∀ e, H.selectGroup limit i dnf tol s = .error e → H1.selectGroup limit i dnf tol s1 = .error e := by
  simp only [rebin_applyAt] at h ⊢
  exact applyAt_group h limit i dnf tol

/-! ### two selections of groups -/

theorem keyPassing_comm (test test' : Test) : ∀ (i j n : ℕ) (c : Content Arr n),
    keyPassing test i n (keyPassing test' j n c) = keyPassing test' j n (keyPassing test i n c)
  | 0, 0, 0, _ => rfl
  | 0, _ + 1, 0, _ => rfl
  | _ + 1, 0, 0, _ => rfl
  | _ + 1, _ + 1, 0, _ => rfl
  | 0, 0, n + 1, (d : List (Key × Content Arr n)) => by
    show (d.filter fun p => yes (test' p.1)).filter (fun p => yes (test p.1)) =
      (d.filter fun p => yes (test p.1)).filter (fun p => yes (test' p.1))
    rw [List.filter_filter, List.filter_filter]
    exact List.filter_congr fun p _ => Bool.and_comm _ _
  | 0, j + 1, n + 1, (d : List (Key × Content Arr n)) => by
    show (d.map fun p => (p.1, keyPassing test' j n p.2)).filter (fun p => yes (test p.1)) =
      (d.filter fun p => yes (test p.1)).map (fun p => (p.1, keyPassing test' j n p.2))
    rw [List.filter_map]
    rfl
  | i + 1, 0, n + 1, (d : List (Key × Content Arr n)) => by
    show (d.filter fun p => yes (test' p.1)).map (fun p => (p.1, keyPassing test i n p.2)) =
      (d.map fun p => (p.1, keyPassing test i n p.2)).filter (fun p => yes (test' p.1))
    rw [List.filter_map]
    rfl
  | i + 1, j + 1, n + 1, (d : List (Key × Content Arr n)) => by
    show (d.map fun p => (p.1, keyPassing test' j n p.2)).map (fun p => (p.1, keyPassing test i n p.2)) =
      (d.map fun p => (p.1, keyPassing test i n p.2)).map (fun p => (p.1, keyPassing test' j n p.2))
    rw [List.map_map, List.map_map]
    refine List.map_congr_left fun p _ => ?_
    simp only [Function.comp, keyPassing_comm test test' i j n p.2]

theorem answers_keyPassing (test test' : Test) : ∀ (i j n : ℕ) (c : Content Arr n), Answers test i n c → Answers test i n (keyPassing test' j n c)
  | 0, 0, 0, _, _ => trivial
  | 0, _ + 1, 0, _, _ => trivial
  | _ + 1, 0, 0, _, _ => trivial
  | _ + 1, _ + 1, 0, _, _ => trivial
  | 0, 0, n + 1, (d : List (Key × Content Arr n)), h => by
    intro k hk
    obtain ⟨p, hp, rfl⟩ := List.mem_map.1 hk
    exact h _ (List.mem_map_of_mem (List.mem_filter.1 hp).1)
  | 0, j + 1, n + 1, (d : List (Key × Content Arr n)), h => by
    intro k hk
    obtain ⟨p, hp, rfl⟩ := List.mem_map.1 hk
    obtain ⟨q, hq, rfl⟩ := List.mem_map.1 hp
    exact h q.1 (List.mem_map.2 ⟨q, hq, rfl⟩)
  | i + 1, 0, n + 1, (d : List (Key × Content Arr n)), h => fun p hp => h p (List.mem_filter.1 hp).1
  | i + 1, j + 1, n + 1, (d : List (Key × Content Arr n)), h => by
    intro p hp
    obtain ⟨q, hq, rfl⟩ := List.mem_map.1 hp
    exact answers_keyPassing test test' i j n q.2 (h q hq)

/-- two selections that both work can follow each other, with the same result -/
def Diamond {α : Type} (f g : α → Except Err α) : Prop :=
  ∀ s a b, f s = .ok a → g s = .ok b → ∃ u, g a = .ok u ∧ f b = .ok u

theorem filterState_diamond (H : HistDef) (test test' : Test) (i j : ℕ) :
    Diamond (H.filterState test i) (H.filterState test' j) := by
  intro s a b ha hb
  cases s with
  | none =>
    cases ha
    cases hb
    exact ⟨none, rfl, rfl⟩
  | some c =>
    have ok : ∀ (test : Test) (i : ℕ) (c : Content Arr H.groups.length) (a : H.State), H.filterState test i (some c) = .ok a →
        Answers test i _ c ∧ a = some (keyPassing test i _ c) := by
      intro test i c a h
      have h' : (filterGroup test i H.groups.length c).map some = Except.ok a := h
      cases hf : filterGroup test i H.groups.length c with
      | error e => rw [hf] at h'; cases h'
      | ok r =>
        have h1 := (filterGroup_iff test i _ c).2 r hf
        rw [(filterGroup_iff test i _ c).1 h1] at hf
        cases hf
        rw [(filterGroup_iff test i _ c).1 h1] at h'
        cases h'
        exact ⟨h1, rfl⟩
    have back : ∀ (test : Test) (i : ℕ) (c : Content Arr H.groups.length), Answers test i _ c →
        H.filterState test i (some c) = .ok (some (keyPassing test i _ c)) := by
      intro test i c h
      show (filterGroup test i H.groups.length c).map some = _
      rw [(filterGroup_iff test i _ c).1 h]
      rfl
    obtain ⟨h1, rfl⟩ := ok _ _ _ _ ha
    obtain ⟨h2, rfl⟩ := ok _ _ _ _ hb
    refine ⟨_, back test' j _ (answers_keyPassing test' test j i _ c h2), ?_⟩
    rw [back test i _ (answers_keyPassing test test' i j _ c h1), keyPassing_comm]

theorem selectAnd_diamond (H : HistDef) (i : ℕ) (tol : ℚ) (g : H.State → Except Err H.State)
    (h : ∀ test, Diamond (H.filterState test i) g) : ∀ ts, Diamond (H.selectAnd i tol ts) g
  | [], s, a, b, ha, hb => by
    cases ha
    exact ⟨b, hb, rfl⟩
  | t :: ts, s, a, b, ha, hb => by
    have step : Diamond (H.selectTerm i t tol) g := by
      intro s a b ha hb
      unfold HistDef.selectTerm at ha ⊢
      cases hg : H.groups[i]? with
      | none => rw [hg] at ha; cases ha
      | some x =>
        rw [hg] at ha
        simp only at ha ⊢
        cases hx : x.select t.cmp t.value tol with
        | error e => rw [hx] at ha; cases ha
        | ok r =>
          cases r with
          | none => rw [hx] at ha; cases ha
          | some test =>
            rw [hx] at ha
            exact h test s a b ha hb
    simp only [HistDef.selectAnd] at ha ⊢
    cases h1 : H.selectTerm i t tol s with
    | error e => rw [h1] at ha; cases ha
    | ok s1 =>
      rw [h1] at ha
      simp only at ha
      obtain ⟨u1, h2, h3⟩ := step s s1 b h1 hb
      obtain ⟨u, h4, h5⟩ := selectAnd_diamond H i tol g h ts s1 a u1 ha h2
      refine ⟨u, h4, ?_⟩
      rw [h3]
      exact h5

theorem selectGroup_diamond (H : HistDef) (limit i : ℕ) (dnf : List (List GTerm)) (tol : ℚ) (g : H.State → Except Err H.State)
    (h : ∀ test, Diamond (H.filterState test i) g) : Diamond (H.selectGroup limit i dnf tol) g := by
  intro s a b ha hb
  unfold HistDef.selectGroup at ha ⊢
  split at ha
  · exact selectAnd_diamond H i tol g h _ s a b ha hb
  · cases hg : H.groups[i]? with
    | none => simp only [hg] at ha; cases ha
    | some x =>
      simp only [hg] at ha ⊢
      split at ha
      · cases ha
      · cases ha
      · cases ha
      · rename_i F c ho
        obtain ⟨u, h1, h2⟩ := h _ s a b ha hb
        exact ⟨u, h1, h2⟩

/-- C128.  Two selections of groups, on the same or on different axes, that both work can follow each other in either order, with the
same result. -/
theorem C128_groups_partial (H : HistDef) (s : H.State) (limit i i' : ℕ) (dnf dnf' : List (List GTerm)) (tol tol' : ℚ) (a b : H.State)
    (ha : H.selectGroup limit i dnf tol s = .ok a) (hb : H.selectGroup limit i' dnf' tol' s = .ok b) :
    ∃ u, H.selectGroup limit i' dnf' tol' a = .ok u ∧ H.selectGroup limit i dnf tol b = .ok u := by
  refine selectGroup_diamond H limit i dnf tol _ (fun test s a b ha hb => ?_) s a b ha hb
  obtain ⟨u, h1, h2⟩ := selectGroup_diamond H limit i' dnf' tol' _ (fun test' => filterState_diamond H test' test i' i) s b a hb ha
  exact ⟨u, h2, h1⟩

/-- `Hist(groupby("c"), groupby("d"))`, filled with ("a", 1) and ("b", "x") -/
def exOrder : HistDef := ⟨[.groupby, .groupby], [], 0, .none⟩

/-- its content -/
def exOrderState : exOrder.State :=
  some [(.str "a", [(.num 1, Arr.zeros [] 1)]), (.str "b", [(.str "x", Arr.zeros [] 1)])]

/-- C128 fails if one of the two selections raises an exception by itself: `select("d < 5")` raises `TypeError` because of the
group ("b", "x"), but not after `select("c == 'a'")`. -/
theorem C128_refuted_groups :
    exOrder.selectGroup 1000 1 [[⟨.lt, .key (.num 5)⟩]] 0 exOrderState = .error .typeError ∧
    ∃ a u, exOrder.selectGroup 1000 0 [[⟨.eq, .key (.str "a")⟩]] 0 exOrderState = .ok a ∧
      exOrder.selectGroup 1000 1 [[⟨.lt, .key (.num 5)⟩]] 0 a = .ok u ∧ exOrder.has u [.str "a", .num 1] := by
  refine ⟨?_, some [(.str "a", [(.num 1, Arr.zeros [] 1)])], some [(.str "a", [(.num 1, Arr.zeros [] 1)])], ?_, ?_, ?_⟩
  · rfl
  · rfl
  · rfl
  · exact ⟨_, rfl, _, rfl, rfl⟩

/-! ## a range on one axis -/

/-- edge number `k` of a `bin` axis -/
def BinAxis.edgeAt (a : BinAxis) (k : ℕ) : ℚ := a.low + k * ((a.high - a.low) / a.numbins)

theorem bin_close (a : BinAxis) (h : a.low < a.high) (hN : 0 < a.numbins) (k : ℕ) (hk : k ≤ a.numbins) :
    a.high - a.low ≠ 0 ∧ (a.numbins : ℚ) / (a.high - a.low) ≠ 0 ∧
      pyRound ((a.edgeAt k - a.low) * (a.numbins / (a.high - a.low))) = k ∧
      min (a.numbins : ℚ) k / (a.numbins / (a.high - a.low)) + a.low = a.edgeAt k := by
  have h0 : a.high - a.low ≠ 0 := (sub_pos.2 h).ne'
  have h1 : (a.numbins : ℚ) ≠ 0 := by exact_mod_cast hN.ne'
  refine ⟨h0, div_ne_zero h1 h0, ?_, ?_⟩
  · have : (a.edgeAt k - a.low) * (a.numbins / (a.high - a.low)) = ((k : ℤ) : ℚ) := by
      unfold BinAxis.edgeAt
      field_simp
      push_cast
      ring
    rw [this]
    unfold pyRound
    simp
  · have : min (a.numbins : ℚ) k = k := min_eq_right (by exact_mod_cast hk)
    rw [this]
    unfold BinAxis.edgeAt
    field_simp
    ring

theorem bin_select_low (a : BinAxis) (h : a.low < a.high) (hN : 0 < a.numbins) (k : ℕ) (hk : k ≤ a.numbins)
    (hk' : k < a.numbins ∨ a.overflow = true) (tol : ℚ) (ht : 0 < tol) :
    a.select (if a.closedlow then .ge else .gt) (.fin (a.edgeAt k)) tol =
      .ok (.cut { a with numbins := a.numbins - k, low := a.edgeAt k, underflow := false, nanflow := false }
        ⟨k + b2i a.underflow, some (a.numbins + b2i a.underflow + b2i a.overflow)⟩) := by
  obtain ⟨h0, h1, h2, h3⟩ := bin_close a h hN k hk
  have t : BinAxis.totbins { a with numbins := a.numbins - k, low := a.edgeAt k, underflow := false, nanflow := false } ≠ 0 := by
    unfold BinAxis.totbins
    simp only
    rcases hk' with h | h
    · omega
    · rw [h]
      simp [b2n]
  unfold BinAxis.select
  rw [if_neg (by simp), if_neg (by simp)]
  simp only
  rw [if_neg h0, if_neg h1, h2]
  have e : (((min (a.numbins : ℤ) (max 0 (k : ℤ)) : ℤ) : ℚ) / (a.numbins / (a.high - a.low)) + a.low) = a.edgeAt k := by
    rw [← h3]
    push_cast
    congr 2
    simp
  have e' : ((a.numbins : ℤ) - k).toNat = a.numbins - k := by omega
  rw [e, if_pos (by simpa using ht), e']
  cases hc : a.closedlow
  · rw [if_neg (by simp), if_pos (by simp)]
    rw [hc] at t
    exact if_neg t
  · rw [if_neg (by simp), if_pos (by simp)]
    rw [hc] at t
    exact if_neg t

theorem bin_select_high (a : BinAxis) (h : a.low < a.high) (k : ℕ) (hk : k ≤ a.numbins) (h0k : 0 < k) (tol : ℚ) (ht : 0 < tol) :
    a.select (if a.closedlow then .lt else .le) (.fin (a.edgeAt k)) tol =
      .ok (.cut { a with numbins := k, high := a.edgeAt k, overflow := false, nanflow := false }
        ⟨0, some (k + b2i a.underflow)⟩) := by
  obtain ⟨h0, h1, h2, h3⟩ := bin_close a h (by omega) k hk
  have t : BinAxis.totbins { a with numbins := k, high := a.edgeAt k, overflow := false, nanflow := false } ≠ 0 := by
    unfold BinAxis.totbins
    simp only
    omega
  unfold BinAxis.select
  rw [if_neg (by simp), if_neg (by simp)]
  simp only
  rw [if_neg h0, if_neg h1, h2]
  have e : (((min (a.numbins : ℤ) (max 0 (k : ℤ)) : ℤ) : ℚ) / (a.numbins / (a.high - a.low)) + a.low) = a.edgeAt k := by
    rw [← h3]
    push_cast
    congr 2
    simp
  rw [e, if_pos (by simpa using ht), Int.toNat_natCast]
  cases hc : a.closedlow
  · rw [if_pos (by simp)]
    rw [hc] at t
    exact if_neg t
  · rw [if_pos (by simp)]
    rw [hc] at t
    exact if_neg t

theorem edgeAt_lt (a : BinAxis) (h : a.low < a.high) (hN : 0 < a.numbins) {m n : ℕ} (hmn : m < n) : a.edgeAt m < a.edgeAt n := by
  unfold BinAxis.edgeAt
  have h1 : (0 : ℚ) < a.numbins := by exact_mod_cast hN
  have h2 : 0 < (a.high - a.low) / a.numbins := div_pos (sub_pos.2 h) h1
  have h3 : (m : ℚ) < n := by exact_mod_cast hmn
  nlinarith

theorem edgeAt_last (a : BinAxis) (hN : 0 < a.numbins) : a.edgeAt a.numbins = a.high := by
  unfold BinAxis.edgeAt
  have h1 : (a.numbins : ℚ) ≠ 0 := by exact_mod_cast hN.ne'
  field_simp
  ring

theorem sigma_fixed (H : HistDef) (l l' : List FixedAxis) (z z' : Option (Content Arr H.groups.length)) (h : l = l') (h' : z = z') :
    (⟨{ H with fixed := l }, z⟩ : Σ H' : HistDef, H'.State) = ⟨{ H with fixed := l' }, z'⟩ := by
  subst h h'
  rfl

theorem mapLeaves_congr (f g : Arr → Arr) (sh : List ℕ) (nc : ℕ) (hf : ∀ a : Arr, a.shape = sh → a.ncols = nc → f a = g a) :
    ∀ (n : ℕ) (c : Content Arr n), Uniform sh nc n c → mapLeaves f n c = mapLeaves g n c
  | 0, _, h => hf _ h.1 h.2
  | n + 1, (d : List (Key × Content Arr n)), h => by
    show d.map (fun p => (p.1, mapLeaves f n p.2)) = d.map (fun p => (p.1, mapLeaves g n p.2))
    exact List.map_congr_left fun p hp => by rw [mapLeaves_congr f g sh nc hf n p.2 (h p hp)]

theorem mapLeaves_comp (f g : Arr → Arr) : ∀ (n : ℕ) (c : Content Arr n), mapLeaves f n (mapLeaves g n c) = mapLeaves (fun a => f (g a)) n c
  | 0, _ => rfl
  | n + 1, (d : List (Key × Content Arr n)) => by
    show (d.map (fun p => (p.1, mapLeaves g n p.2))).map (fun p => (p.1, mapLeaves f n p.2)) = _
    rw [List.map_map]
    exact List.map_congr_left fun p _ => by simp only [Function.comp, mapLeaves_comp f g n p.2]

theorem select_bin (H : HistDef) (j : ℕ) (a b : BinAxis) (c : Cmp) (v : Num) (tol : ℚ) (t : PySlice) (hj : H.fixed[j]? = some (.bin a))
    (h : a.select c v tol = .ok (.cut b t)) (s : H.State) :
    H.select j c v tol s = .ok ⟨H.setFixed j (.bin b), H.sliced j (.bin b) t s⟩ := by
  unfold HistDef.select
  rw [hj]
  simp only [FixedAxis.select, h]
  rfl

theorem getD_set_self {l : List ℕ} {j x : ℕ} (h : j < l.length) : (l.set j x).getD j 0 = x := by
  simp [List.getD, h]

/-- two slices of one axis: the first position and the length count -/
theorem slice_twice (j N : ℕ) (p q : PySlice) (x : Arr) (hN : x.shape.getD j 0 = N) (hj : j < x.shape.length) :
    (x.slice j p).slice j q = ⟨x.shape.set j (q.hi (p.hi N - p.lo N) - q.lo (p.hi N - p.lo N)), x.ncols,
      fun idx c => x.get (idx.set j (idx.getD j 0 + (q.lo (p.hi N - p.lo N) + p.lo N))) c⟩ := by
  unfold Arr.slice
  simp only [hN, getD_set_self hj, List.set_set]
  congr 1
  funext idx c
  by_cases h : j < idx.length
  · rw [getD_set_self h, add_assoc]
  · rw [List.set_eq_of_length_le (by omega), List.set_eq_of_length_le (by omega)]

theorem sliceBound_nat (n i : ℕ) : sliceBound n (i : ℤ) = min i n := by
  unfold sliceBound
  rw [if_neg (by omega)]
  rfl

theorem b2i_b2n (b : Bool) : b2i b = (b2n b : ℤ) := by cases b <;> rfl

theorem bounds_nat (N i j : ℕ) (p : PySlice) (h : p = ⟨i, some j⟩) : p.lo N = min i N ∧ p.hi N = min j N := by
  subst h
  exact ⟨sliceBound_nat N i, sliceBound_nat N j⟩

theorem range_low_high (N m n : ℕ) (u o t : Bool) (hmn : m < n) (hn : n ≤ N) :
    let T := N + b2n u + b2n o + b2n t
    let p : PySlice := ⟨m + b2i u, some (N + b2i u + b2i o)⟩
    let q : PySlice := ⟨0, some ((n - m : ℕ) + b2i false)⟩
    q.hi (p.hi T - p.lo T) - q.lo (p.hi T - p.lo T) = n - m ∧ q.lo (p.hi T - p.lo T) + p.lo T = m + b2n u := by
  intro T p q
  obtain ⟨h1, h2⟩ := bounds_nat T (m + b2n u) (N + b2n u + b2n o) p (by simp only [p, b2i_b2n]; push_cast; rfl)
  have hq : q = ⟨(0 : ℕ), some ((n - m : ℕ) : ℤ)⟩ := by simp [q, b2i]
  obtain ⟨h3, h4⟩ := bounds_nat (p.hi T - p.lo T) 0 (n - m) q hq
  rw [h3, h4, h1, h2]
  have hT : T = N + b2n u + b2n o + b2n t := rfl
  clear_value T
  omega

theorem range_high_low (N m n : ℕ) (u o t : Bool) (hmn : m < n) (hn : n ≤ N) :
    let T := N + b2n u + b2n o + b2n t
    let p : PySlice := ⟨0, some (n + b2i u)⟩
    let q : PySlice := ⟨m + b2i u, some (n + b2i u + b2i false)⟩
    q.hi (p.hi T - p.lo T) - q.lo (p.hi T - p.lo T) = n - m ∧ q.lo (p.hi T - p.lo T) + p.lo T = m + b2n u := by
  intro T p q
  obtain ⟨h1, h2⟩ := bounds_nat T 0 (n + b2n u) p (by simp only [p, b2i_b2n]; push_cast; rfl)
  have hq : q = ⟨((m + b2n u : ℕ) : ℤ), some ((n + b2n u : ℕ) : ℤ)⟩ := by simp [q, b2i_b2n, b2n]
  obtain ⟨h3, h4⟩ := bounds_nat (p.hi T - p.lo T) (m + b2n u) (n + b2n u) q hq
  rw [h3, h4, h1, h2]
  have hT : T = N + b2n u + b2n o + b2n t := rfl
  clear_value T
  omega

/-- C128.  The two ends of a range on a `bin` axis may be selected in either order: the axis then has exactly the bins between the
two edges and no under-, over- and nanflow. -/
theorem C128_range (H : HistDef) (s : H.State) (hs : H.Proper s) (j : ℕ) (a : BinAxis) (hj : H.fixed[j]? = some (.bin a))
    (h : a.low < a.high) (m n : ℕ) (hmn : m < n) (hn : n ≤ a.numbins) (tol : ℚ) (ht : 0 < tol) :
    let low := (if a.closedlow then Cmp.ge else Cmp.gt, Num.fin (a.edgeAt m))
    let high := (if a.closedlow then Cmp.lt else Cmp.le, Num.fin (a.edgeAt n))
    let R := H.setFixed j (.bin ⟨n - m, a.edgeAt m, a.edgeAt n, false, false, false, a.closedlow⟩)
    ∃ (H1 : HistDef) (s1 : H1.State) (H2 : HistDef) (s2 : H2.State) (u : R.State),
      H.select j low.1 low.2 tol s = .ok ⟨H1, s1⟩ ∧ H.select j high.1 high.2 tol s = .ok ⟨H2, s2⟩ ∧
      H1.select j high.1 high.2 tol s1 = .ok ⟨R, u⟩ ∧ H2.select j low.1 low.2 tol s2 = .ok ⟨R, u⟩ ∧
      ∀ gk idx col, R.read u gk idx col = H.read s gk (idx.set j (idx.getD j 0 + (m + b2n a.underflow))) col := by
  intro low high R
  have hN : 0 < a.numbins := by omega
  have hNq : (a.numbins : ℚ) ≠ 0 := by exact_mod_cast hN.ne'
  have h0 : a.high - a.low ≠ 0 := (sub_pos.2 h).ne'
  have jl : j < H.fixed.length := (List.getElem?_eq_some_iff.1 hj).1
  set a1 : BinAxis := { a with numbins := a.numbins - m, low := a.edgeAt m, underflow := false, nanflow := false } with ha1
  set a2 : BinAxis := { a with numbins := n, high := a.edgeAt n, overflow := false, nanflow := false } with ha2
  have l1 : a1.low < a1.high := by
    show a.edgeAt m < a.high
    rw [← edgeAt_last a hN]
    exact edgeAt_lt a h hN (by omega)
  have l2 : a2.low < a2.high := by
    show a.low < a.edgeAt n
    have : a.edgeAt 0 = a.low := by simp [BinAxis.edgeAt]
    rw [← this]
    exact edgeAt_lt a h hN (by omega)
  have e1 : a1.edgeAt (n - m) = a.edgeAt n := by
    show a.edgeAt m + ((n - m : ℕ) : ℚ) * ((a.high - a.edgeAt m) / ((a.numbins - m : ℕ) : ℚ)) = a.edgeAt n
    have hd : (a.numbins : ℚ) - m ≠ 0 := by
      have : (m : ℚ) < a.numbins := by exact_mod_cast (by omega : m < a.numbins)
      exact (sub_pos.2 this).ne'
    rw [Nat.cast_sub (by omega), Nat.cast_sub (by omega)]
    unfold BinAxis.edgeAt
    field_simp
    ring
  have e2 : a2.edgeAt m = a.edgeAt m := by
    show a.low + (m : ℚ) * ((a.edgeAt n - a.low) / (n : ℚ)) = a.edgeAt m
    have hd : (n : ℚ) ≠ 0 := by exact_mod_cast (by omega : n ≠ 0)
    unfold BinAxis.edgeAt
    field_simp
    ring
  have k1 := bin_select_low a h hN m (by omega) (Or.inl (by omega)) tol ht
  have k2 := bin_select_high a h n hn (by omega) tol ht
  have k3 := bin_select_high a1 l1 (n - m) (by show n - m ≤ a.numbins - m; omega) (by omega) tol ht
  have k4 := bin_select_low a2 l2 (by show 0 < n; omega) m (by show m ≤ n; omega) (Or.inl (by show m < n; omega)) tol ht
  rw [e1] at k3
  rw [e2] at k4
  have j1 : (H.setFixed j (.bin a1)).fixed[j]? = some (.bin a1) := by
    show (H.fixed.set j _)[j]? = _
    simp [jl]
  have j2 : (H.setFixed j (.bin a2)).fixed[j]? = some (.bin a2) := by
    show (H.fixed.set j _)[j]? = _
    simp [jl]
  let F : Arr → Arr := fun x => ⟨x.shape.set j (n - m), x.ncols, fun idx c => x.get (idx.set j (idx.getD j 0 + (m + b2n a.underflow))) c⟩
  have same : ∀ p q : PySlice,
      q.hi (p.hi a.totbins - p.lo a.totbins) - q.lo (p.hi a.totbins - p.lo a.totbins) = n - m →
      q.lo (p.hi a.totbins - p.lo a.totbins) + p.lo a.totbins = m + b2n a.underflow →
      (s.map (mapLeaves (Arr.slice j p) H.groups.length)).map (mapLeaves (Arr.slice j q) H.groups.length) =
        s.map (mapLeaves F H.groups.length) := by
    intro p q h1 h2
    cases s with
    | none => rfl
    | some c =>
      refine congrArg some ?_
      rw [mapLeaves_comp]
      refine mapLeaves_congr _ _ H.layout.dims H.layout.ncols (fun x hx _ => ?_) _ c (uniform_of_shaped H.layout _ c hs.2 hs.1)
      have hx' : x.shape = H.fixed.map FixedAxis.totbins := hx
      have hg : x.shape.getD j 0 = a.totbins := by
        rw [hx', List.getD, List.getElem?_map, hj]
        rfl
      rw [slice_twice j a.totbins p q x hg (by rw [hx']; simpa using jl), h1, h2]
  refine ⟨_, _, _, _, s.map (mapLeaves F H.groups.length), select_bin H j a a1 _ _ tol _ hj k1 s,
    select_bin H j a a2 _ _ tol _ hj k2 s, ?_, ?_, ?_⟩
  · refine (select_bin (H.setFixed j (.bin a1)) j a1 _ _ _ tol _ j1 k3 _).trans ?_
    refine congrArg Except.ok ?_
    refine sigma_fixed H ((H.fixed.set j (.bin a1)).set j _) (H.fixed.set j _) _ _ (by rw [List.set_set]) ?_
    refine same _ _ ?_ ?_
    · exact (range_low_high a.numbins m n a.underflow a.overflow a.nanflow hmn hn).1
    · exact (range_low_high a.numbins m n a.underflow a.overflow a.nanflow hmn hn).2
  · refine (select_bin (H.setFixed j (.bin a2)) j a2 _ _ _ tol _ j2 k4 _).trans ?_
    refine congrArg Except.ok ?_
    refine sigma_fixed H ((H.fixed.set j (.bin a2)).set j _) (H.fixed.set j _) _ _ (by rw [List.set_set, ha2]) ?_
    refine same _ _ ?_ ?_
    · exact (range_high_low a.numbins m n a.underflow a.overflow a.nanflow hmn hn).1
    · exact (range_high_low a.numbins m n a.underflow a.overflow a.nanflow hmn hn).2
  · intro gk idx col
    cases s with
    | none => rfl
    | some c =>
      refine (mapLeaves_lookup F idx col H.groups.length c gk).trans ?_
      exact lookupF_get _ _ _ c gk

/-- C128 fails for two selections on one axis if the first leaves only the overflow: with `x >= high` first, every further
comparison with a number on this axis raises `ZeroDivisionError`; with `x >= high` last, the overflow is selected. -/
theorem C128_refuted_flow (H : HistDef) (s : H.State) (j : ℕ) (a : BinAxis) (hj : H.fixed[j]? = some (.bin a))
    (h : a.low < a.high) (ho : a.overflow = true) (m : ℕ) (hm : m < a.numbins) (tol : ℚ) (ht : 0 < tol) :
    let ge := if a.closedlow then Cmp.ge else Cmp.gt
    (∃ H1 s1, H.select j ge (.fin a.high) tol s = .ok ⟨H1, s1⟩ ∧
      ∀ c v, H1.select j c (.fin v) tol s1 = .error .zeroDivision) ∧
    ∃ H2 s2 H3 s3, H.select j ge (.fin (a.edgeAt m)) tol s = .ok ⟨H2, s2⟩ ∧ H2.select j ge (.fin a.high) tol s2 = .ok ⟨H3, s3⟩ := by
  intro ge
  have hN : 0 < a.numbins := by omega
  have jl : j < H.fixed.length := (List.getElem?_eq_some_iff.1 hj).1
  have back : ∀ b : FixedAxis, (H.setFixed j b).fixed[j]? = some b := by
    intro b
    show (H.fixed.set j _)[j]? = _
    simp [jl]
  constructor
  · have k := bin_select_low a h hN a.numbins le_rfl (Or.inr ho) tol ht
    rw [edgeAt_last a hN] at k
    refine ⟨_, _, select_bin H j a _ _ _ tol _ hj k s, fun c v => ?_⟩
    unfold HistDef.select
    rw [back]
    simp only [FixedAxis.select]
    have : BinAxis.select { a with numbins := a.numbins - a.numbins, low := a.high, underflow := false, nanflow := false } c (.fin v) tol =
        .error .zeroDivision := by
      unfold BinAxis.select
      rw [if_neg (by simp), if_neg (by simp)]
      simp
    rw [this]
    rfl
  · have k := bin_select_low a h hN m (by omega) (Or.inl hm) tol ht
    set a1 : BinAxis := { a with numbins := a.numbins - m, low := a.edgeAt m, underflow := false, nanflow := false }
    have n1 : 0 < a1.numbins := by show 0 < a.numbins - m; omega
    have l1 : a1.low < a1.high := by
      show a.edgeAt m < a.high
      rw [← edgeAt_last a hN]
      exact edgeAt_lt a h hN (by omega)
    have k' := bin_select_low a1 l1 n1 a1.numbins le_rfl (Or.inr ho) tol ht
    rw [edgeAt_last a1 n1] at k'
    exact ⟨_, _, _, _, select_bin H j a a1 _ _ tol _ hj k s, select_bin (H.setFixed j (.bin a1)) j a1 _ _ _ tol _ (back _) k' _⟩

/-! ## examples -/

/-- `Hist(groupby("c"), bin("x", 4, 0, 4), split("y", (0, 1, 2)))`, two groups -/
def exBinSplit : HistDef := ⟨[.groupby], [.bin ⟨4, 0, 4, true, true, true, true⟩, .split ⟨[0, 1, 2], true, true, true, true⟩], 0, .none⟩

/-- its content: the entry in bin (i, k) of the group is 10 i + k -/
def exBinSplitState : exBinSplit.State :=
  some [(.str "a", ⟨[7, 5], 1, fun idx _ => 10 * idx.getD 0 0 + idx.getD 1 0⟩), (.str "b", Arr.zeros [7, 5] 1)]

/-- the number of bins and the entry in the first bin of group "a" after both operations -/
def exBoth (f g : (H : HistDef) → H.State → Except Err (Σ H' : HistDef, H'.State)) : Option (List ℕ × ℚ) :=
  match f exBinSplit exBinSplitState with
  | .ok ⟨H, s⟩ =>
    match g H s with
    | .ok ⟨H, s⟩ => some (H.fixed.map FixedAxis.totbins, H.read s [.str "a"] [0, 0] 0)
    | .error _ => none
  | .error _ => none

/-- both operations of C128_select_select, C128_select_rebin and C128_rebin_rebin are accepted on the example -/
example : exBoth (fun H => H.select 0 .ge (.fin 1) (1/1000)) (fun H => H.select 1 .lt (.fin 1) (1/1000)) = some ([4, 2], 20) ∧
    exBoth (fun H => H.select 1 .lt (.fin 1) (1/1000)) (fun H => H.select 0 .ge (.fin 1) (1/1000)) = some ([4, 2], 20) ∧
    exBoth (fun H => H.select 1 .ge (.fin 1) (1/1000)) (fun H => H.rebin 0 [0, 2, 4]) = some ([5, 2], 2) ∧
    exBoth (fun H => H.rebin 0 [0, 2, 4]) (fun H => H.select 1 .ge (.fin 1) (1/1000)) = some ([5, 2], 2) ∧
    exBoth (fun H => H.rebin 0 [2, 4]) (fun H => H.rebin 1 [1, 2]) = some ([4, 4], 63) := by decide +kernel

/-- both ends of a range (C128_range), and a selection of groups with a selection of bins (C128_group_select) -/
example : exBoth (fun H => H.select 0 .ge (.fin 1) (1/1000)) (fun H => H.select 0 .lt (.fin 3) (1/1000)) = some ([2, 5], 20) ∧
    exBoth (fun H => H.select 0 .lt (.fin 3) (1/1000)) (fun H => H.select 0 .ge (.fin 1) (1/1000)) = some ([2, 5], 20) ∧
    exBoth (fun H s => (H.selectGroup 1000 0 [[⟨.ne, .key (.str "b")⟩]] (1/1000) s).map (fun t => ⟨H, t⟩))
      (fun H => H.select 0 .ge (.fin 1) (1/1000)) = some ([4, 5], 20) := by decide +kernel

/-- the content of the example is of the kind that C128_range asks for -/
example : exBinSplit.Proper exBinSplitState := by
  refine ⟨?_, ?_⟩
  · intro k c hk
    have hm : ((k, c) : Key × Arr) ∈ ([(.str "a", ⟨[7, 5], 1, fun idx _ => 10 * idx.getD 0 0 + idx.getD 1 0⟩),
      (.str "b", Arr.zeros [7, 5] 1)] : List (Key × Arr)) := mem_of_dget _ _ _ hk
    rcases List.mem_cons.1 hm with h | h
    · cases h
      exact ⟨rfl, rfl⟩
    · cases List.mem_singleton.1 h
      exact ⟨rfl, rfl⟩
  · exact ⟨by decide, fun _ _ => trivial⟩

/-- the hypotheses of C128_drop_select are met by a histogram with a profile -/
example : (HistDef.select ⟨[], [.bin ⟨2, 0, 2, true, true, true, true⟩], 1, .none⟩ 0 .ge (.fin 1) (1/1000)
      (some (Arr.zeros [5] 3))).toBool = true ∧
    (HistDef.dropState ⟨[], [.bin ⟨2, 0, 2, true, true, true, true⟩], 1, .none⟩ [false] false (some (Arr.zeros [5] 3))).toBool = true := by
  decide +kernel

end Verif
