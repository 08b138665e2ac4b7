import Verif.PropsOrderProject

/-!
# Lemmas about projections and selections of groups (helpers for the property theorems)
-/

namespace Verif

/-- the key on axis `i`, if there is one, passes the test -/
def passesAt (test : Test) (i : ℕ) (gk : List Key) : Bool :=
  match gk[i]? with
  | some k => yes (test k)
  | none => true

theorem passesAt_succ (test : Test) (i : ℕ) (k : Key) (gk : List Key) : passesAt test (i + 1) (k :: gk) = passesAt test i gk := by
  simp [passesAt]

theorem passesAt_zero (test : Test) (k : Key) (gk : List Key) : passesAt test 0 (k :: gk) = yes (test k) := rfl

theorem passesAt_nil (test : Test) (i : ℕ) : passesAt test i [] = true := by simp [passesAt]

theorem hasGroup_keyPassing (test : Test) : ∀ (i n : ℕ) (c : Content Arr n) (gk : List Key),
    HasGroup n (keyPassing test i n c) gk ↔ HasGroup n c gk ∧ passesAt test i gk = true
  | 0, 0, _, gk => by
    constructor
    · intro h
      have h' : gk = [] := h
      subst h'
      exact ⟨h, passesAt_nil _ _⟩
    · exact fun h => h.1
  | _ + 1, 0, _, gk => by
    constructor
    · intro h
      have h' : gk = [] := h
      subst h'
      exact ⟨h, passesAt_nil _ _⟩
    · exact fun h => h.1
  | 0, n + 1, _, [] => ⟨fun _ => ⟨trivial, rfl⟩, fun _ => trivial⟩
  | _ + 1, n + 1, _, [] => ⟨fun _ => ⟨trivial, rfl⟩, fun _ => trivial⟩
  | 0, n + 1, (d : List (Key × Content Arr n)), k :: gk => by
    show (∃ c, dget (d.filter (fun p => yes (test p.1))) k = some c ∧ HasGroup n c gk) ↔ (∃ c, dget d k = some c ∧ HasGroup n c gk) ∧ _
    rw [dget_filter (fun k => yes (test k)), passesAt_zero]
    by_cases h : yes (test k) = true
    · simp [h]
    · simp [h]
  | i + 1, n + 1, (d : List (Key × Content Arr n)), k :: gk => by
    show (∃ c, dget (d.map (fun p => (p.1, keyPassing test i n p.2))) k = some c ∧ HasGroup n c gk) ↔
      (∃ c, dget d k = some c ∧ HasGroup n c gk) ∧ _
    rw [dget_map (fun _ c => keyPassing test i n c), passesAt_succ]
    cases hd : dget d k with
    | none => simp
    | some c =>
      simp only [Option.map_some, Option.some.injEq, exists_eq_left']
      exact hasGroup_keyPassing test i n c gk

theorem lookup_keyPassing (test : Test) (idx : List ℕ) (col : ℕ) : ∀ (i n : ℕ) (c : Content Arr n) (gk : List Key), gk.length = n →
    lookup n (keyPassing test i n c) gk idx col = if passesAt test i gk then lookup n c gk idx col else 0
  | 0, 0, _, gk, h => by
    rw [List.length_eq_zero_iff] at h
    subst h
    rfl
  | i + 1, 0, _, gk, h => by
    rw [List.length_eq_zero_iff] at h
    subst h
    rfl
  | 0, n + 1, (d : List (Key × Content Arr n)), k :: gk, h => by
    show (match dget (d.filter (fun p => yes (test p.1))) k with
      | none => 0
      | some c => lookup n c gk idx col) = if _ then (match dget d k with
      | none => 0
      | some c => lookup n c gk idx col) else 0
    rw [dget_filter (fun k => yes (test k)), passesAt_zero]
    by_cases h : yes (test k) = true
    · simp [h]
    · simp [h]
  | i + 1, n + 1, (d : List (Key × Content Arr n)), k :: gk, h => by
    show (match dget (d.map (fun p => (p.1, keyPassing test i n p.2))) k with
      | none => 0
      | some c => lookup n c gk idx col) = if _ then (match dget d k with
      | none => 0
      | some c => lookup n c gk idx col) else 0
    rw [dget_map (fun _ c => keyPassing test i n c), passesAt_succ]
    cases hd : dget d k with
    | none => simp
    | some c =>
      simp only [Option.map_some]
      exact lookup_keyPassing test idx col i n c gk (by simpa using h)

theorem margin_keyPassing (test : Test) (f : Arr → ℚ) : ∀ (n : ℕ) (kg : List Bool) (i : ℕ) (c : Content Arr n) (gk : List Key),
    kg.length = n → kg[i]? = some true → gk.length = kg.count true →
    margin f n kg (keyPassing test i n c) gk = if passesAt test (keptPos kg i) gk then margin f n kg c gk else 0
  | 0, kg, i, _, gk, h, hk, _ => by
    rw [List.length_eq_zero_iff] at h
    subst h
    simp at hk
  | n + 1, [], i, _, _, h, _, _ => by simp at h
  | n + 1, true :: kg, 0, (d : List (Key × Content Arr n)), [], _, _, hg => by simp at hg
  | n + 1, true :: kg, i + 1, (d : List (Key × Content Arr n)), [], _, _, hg => by simp at hg
  | n + 1, true :: kg, 0, (d : List (Key × Content Arr n)), k :: gk, h, hk, hg => by
    show margin f (n + 1) (true :: kg) (d.filter (fun p => yes (test p.1))) (k :: gk) = if passesAt test 0 (k :: gk) then _ else _
    simp only [margin, List.headD_cons, if_true, List.tail_cons]
    rw [dget_filter (fun k => yes (test k)), passesAt_zero]
    by_cases h : yes (test k) = true
    · simp [h]
    · simp [h]
  | n + 1, true :: kg, i + 1, (d : List (Key × Content Arr n)), k :: gk, h, hk, hg => by
    show margin f (n + 1) (true :: kg) (d.map (fun p => (p.1, keyPassing test i n p.2))) (k :: gk) = _
    rw [keptPos_true, passesAt_succ]
    simp only [margin, List.headD_cons, if_true, List.tail_cons]
    rw [dget_map (fun _ c => keyPassing test i n c)]
    cases hd : dget d k with
    | none => simp
    | some c =>
      simp only [Option.map_some]
      exact margin_keyPassing test f n kg i c gk (by simpa using h) (by simpa using hk) (by simpa using hg)
  | n + 1, false :: kg, 0, _, _, _, hk, _ => by simp at hk
  | n + 1, false :: kg, i + 1, (d : List (Key × Content Arr n)), gk, h, hk, hg => by
    show margin f (n + 1) (false :: kg) (d.map (fun p => (p.1, keyPassing test i n p.2))) gk = _
    rw [keptPos_false]
    simp only [margin, List.headD_cons, Bool.false_eq_true, if_false, List.tail_cons, List.map_map]
    have e : ∀ p ∈ d, ((fun p : Key × Content Arr n => margin f n kg p.2 gk) ∘ fun p => (p.1, keyPassing test i n p.2)) p =
        if passesAt test (keptPos kg i) gk then margin f n kg p.2 gk else 0 := fun p _ =>
      margin_keyPassing test f n kg i p.2 gk (by simpa using h) (by simpa using hk) (by simpa using hg)
    rw [List.map_congr_left e]
    by_cases hp : passesAt test (keptPos kg i) gk = true
    · simp [hp]
    · simp [hp]

theorem keyPassing_distinct (test : Test) : ∀ (i n : ℕ) (c : Content Arr n), Distinct n c → Distinct n (keyPassing test i n c)
  | 0, 0, _, _ => trivial
  | _ + 1, 0, _, _ => trivial
  | 0, n + 1, (d : List (Key × Content Arr n)), h =>
    ⟨h.1.sublist (List.filter_sublist.map _), fun p hp => h.2 p (List.mem_filter.1 hp).1⟩
  | i + 1, n + 1, (d : List (Key × Content Arr n)), h => by
    constructor
    · show ((d.map (fun p => (p.1, keyPassing test i n p.2))).map (·.1)).Nodup
      rw [List.map_map]
      exact h.1
    · intro p hp
      obtain ⟨q, hq, rfl⟩ := List.mem_map.1 (show p ∈ d.map (fun p => (p.1, keyPassing test i n p.2)) from hp)
      exact keyPassing_distinct test i n q.2 (h.2 q hq)

theorem keyPassing_shaped (test : Test) (L : Layout) : ∀ (i n : ℕ) (c : Content Arr n), Shaped L n c → Shaped L n (keyPassing test i n c)
  | 0, 0, _, h => h
  | _ + 1, 0, _, h => h
  | 0, n + 1, (d : List (Key × Content Arr n)), h => by
    intro k c hc
    rw [show dget (keyPassing test 0 (n + 1) d) k = _ from dget_filter (fun k => yes (test k)) d k] at hc
    by_cases hy : yes (test k) = true
    · rw [if_pos hy] at hc
      exact h k c hc
    · rw [if_neg hy] at hc
      cases hc
  | i + 1, n + 1, (d : List (Key × Content Arr n)), h => by
    intro k c hc
    rw [show dget (keyPassing test (i + 1) (n + 1) d) k = _ from dget_map (fun _ c => keyPassing test i n c) d k] at hc
    obtain ⟨x, hx, rfl⟩ := Option.map_eq_some_iff.1 hc
    exact keyPassing_shaped test L i n x (h k x hx)

theorem keyPassing_powKeys (test : Test) : ∀ (n : ℕ) (kg : List Bool) (i : ℕ) (c : Content Arr n), kg.length = n → kg[i]? = some true →
    PowKeys n kg c → PowKeys n kg (keyPassing test i n c)
  | 0, _, _, _, _, _, _ => trivial
  | n + 1, [], _, _, h, _, _ => by simp at h
  | n + 1, b :: kg, 0, (d : List (Key × Content Arr n)), h, hk, hp => by
    simp only [List.getElem?_cons_zero, Option.some.injEq] at hk
    subst hk
    exact ⟨Or.inl rfl, fun p hm => hp.2 p (List.mem_filter.1 hm).1⟩
  | n + 1, b :: kg, i + 1, (d : List (Key × Content Arr n)), h, hk, hp => by
    refine ⟨?_, fun p hm => ?_⟩
    · rcases hp.1 with h1 | ⟨k, h1⟩
      · exact Or.inl h1
      · refine Or.inr ⟨k, ?_⟩
        show (d.map _).length = _
        rw [List.length_map, h1]
    · obtain ⟨q, hq, rfl⟩ := List.mem_map.1 (show p ∈ d.map (fun p => (p.1, keyPassing test i n p.2)) from hm)
      exact keyPassing_powKeys test n kg i q.2 (by simpa using h) (by simpa using hk) (hp.2 q hq)

/-- the kept element, whatever the length of the list -/
theorem pick_get' {α : Type} : ∀ (kf : List Bool) (j : ℕ) (l : List α), kf[j]? = some true → (pick kf l)[keptPos kf j]? = l[j]?
  | [], _, _, h => by simp at h
  | true :: kf, 0, [], _ => rfl
  | true :: kf, 0, y :: l, _ => rfl
  | false :: kf, 0, _, h => by simp at h
  | true :: kf, j + 1, [], _ => by simp [pick]
  | false :: kf, j + 1, [], _ => by simp [pick]
  | true :: kf, j + 1, y :: l, h => by
    rw [keptPos_true]
    show (y :: pick kf l)[keptPos kf j + 1]? = _
    rw [List.getElem?_cons_succ, List.getElem?_cons_succ, pick_get' kf j l (by simpa using h)]
  | false :: kf, j + 1, y :: l, h => by
    rw [keptPos_false, List.getElem?_cons_succ]
    exact pick_get' kf j l (by simpa using h)

theorem passesAt_pick (test : Test) (kg : List Bool) (i : ℕ) (hk : kg[i]? = some true) (full : List Key) :
    passesAt test (keptPos kg i) (pick kg full) = passesAt test i full := by
  unfold passesAt
  rw [pick_get' kg i full hk]

/-- every key on the axis is answered, seen through the groups -/
theorem answers_has (test : Test) : ∀ (i n : ℕ) (c : Content Arr n), Answers test i n c → ∀ gk, HasGroup n c gk → ∀ k, gk[i]? = some k →
    ∃ b, test k = .ok b
  | 0, 0, _, _, gk, h, k, hk => by
    have h' : gk = [] := h
    subst h'
    simp at hk
  | _ + 1, 0, _, _, gk, h, k, hk => by
    have h' : gk = [] := h
    subst h'
    simp at hk
  | _, n + 1, _, _, [], _, k, hk => by simp at hk
  | 0, n + 1, (d : List (Key × Content Arr n)), ha, k' :: gk, ⟨c, hc, _⟩, k, hk => by
    simp only [List.getElem?_cons_zero, Option.some.injEq] at hk
    subst hk
    exact ha _ (List.mem_map_of_mem (f := (·.1)) (mem_of_dget d k' c hc))
  | i + 1, n + 1, (d : List (Key × Content Arr n)), ha, k' :: gk, ⟨c, hc, hh⟩, k, hk =>
    answers_has test i n c (ha _ (mem_of_dget d k' c hc)) gk hh k (by simpa using hk)

theorem has_answers (test : Test) : ∀ (i n : ℕ) (c : Content Arr n), Distinct n c →
    (∀ gk, HasGroup n c gk → ∀ k, gk[i]? = some k → ∃ b, test k = .ok b) → Answers test i n c
  | 0, 0, _, _, _ => trivial
  | _ + 1, 0, _, _, _ => trivial
  | 0, n + 1, (d : List (Key × Content Arr n)), hd, h => by
    intro k hk
    obtain ⟨p, hp, rfl⟩ := List.mem_map.1 hk
    refine h [p.1] ⟨p.2, dget_of_mem d hd.1 p hp, ?_⟩ p.1 rfl
    cases n with
    | zero => rfl
    | succ n => trivial
  | i + 1, n + 1, (d : List (Key × Content Arr n)), hd, h => fun p hp =>
    has_answers test i n p.2 (hd.2 p hp) (fun gk hg k hk => h (p.1 :: gk) ⟨p.2, dget_of_mem d hd.1 p hp, hg⟩ k (by simpa using hk))

/-- a selection on a kept group axis keeps the relation between a content and its projection -/
theorem projOk_keyPassing (test : Test) {kf : List Bool} {L' : Layout} {n : ℕ} {kg : List Bool} {c : Content Arr n} {m : ℕ} {c' : Content Arr m}
    (h : ProjOk kf L' n kg c m c') (hn : kg.length = n) (hm : m = kg.count true) (i : ℕ) (hk : kg[i]? = some true) (ha : Answers test i n c) :
    Answers test (keptPos kg i) m c' ∧ ProjOk kf L' n kg (keyPassing test i n c) m (keyPassing test (keptPos kg i) m c') := by
  refine ⟨has_answers test _ m c' h.distinct (fun gk hg k hgk => ?_), keyPassing_distinct test _ _ _ h.distinct,
    keyPassing_shaped test _ _ _ _ h.shaped, fun gk hgk => ?_, fun gk hgk idx col => ?_, fun gk hg => ?_⟩
  · obtain ⟨full, rfl, hf⟩ := h.from_ gk hg
    rw [pick_get' kg i full hk] at hgk
    exact answers_has test i n c ha full hf k hgk
  · rw [hasGroup_keyPassing, h.has gk hgk]
    constructor
    · rintro ⟨⟨full, h1, rfl, h3⟩, h4⟩
      refine ⟨full, h1, rfl, (hasGroup_keyPassing test i n c full).2 ⟨h3, ?_⟩⟩
      rw [← passesAt_pick test kg i hk full]
      exact h4
    · rintro ⟨full, h1, rfl, h3⟩
      obtain ⟨h4, h5⟩ := (hasGroup_keyPassing test i n c full).1 h3
      exact ⟨⟨full, h1, rfl, h4⟩, by rw [passesAt_pick test kg i hk full]; exact h5⟩
  · rw [lookup_keyPassing test idx col _ m c' gk hgk, margin_keyPassing test _ n kg i c gk hn hk (hgk.trans hm), h.value gk hgk]
  · obtain ⟨h1, h2⟩ := (hasGroup_keyPassing test _ m c' gk).1 hg
    obtain ⟨full, rfl, hf⟩ := h.from_ gk h1
    refine ⟨full, rfl, (hasGroup_keyPassing test i n c full).2 ⟨hf, ?_⟩⟩
    rw [← passesAt_pick test kg i hk full]
    exact h2

/-- the state of a histogram and a state of its projection -/
def Projected (H : HistDef) (kg kf : List Bool) (s : H.State) (s' : (H.project kg kf).State) : Prop :=
  match s, s' with
  | none, none => True
  | some c, some c' => ProjOk kf { H.layout with dims := pick kf H.layout.dims } H.groups.length kg c (H.project kg kf).groups.length c' ∧
      H.Proper (some c) ∧ PowKeys H.groups.length kg c
  | _, _ => False

theorem projected_filter (H : HistDef) (kg kf : List Bool) (hkg : kg.length = H.groups.length) (i : ℕ) (hk : kg[i]? = some true) (test : Test)
    (s t : H.State) (s' : (H.project kg kf).State) (h : Projected H kg kf s s') (hf : H.filterState test i s = .ok t) :
    ∃ t', (H.project kg kf).filterState test (keptPos kg i) s' = .ok t' ∧ Projected H kg kf t t' := by
  have hm : (H.project kg kf).groups.length = kg.count true := pick_length kg _ hkg
  cases s with
  | none =>
    cases s' with
    | none =>
      cases hf
      exact ⟨none, rfl, trivial⟩
    | some c' => exact h.elim
  | some c =>
    cases s' with
    | none => exact h.elim
    | some c' =>
      obtain ⟨h1, h2, h3⟩ := h
      unfold HistDef.filterState at hf
      simp only at hf
      cases hg : filterGroup test i H.groups.length c with
      | error e => rw [hg] at hf; cases hf
      | ok x =>
        have ha := (filterGroup_iff test i _ c).2 x hg
        have hx := (filterGroup_iff test i _ c).1 ha
        rw [hx] at hf
        cases hf
        obtain ⟨k1, k2⟩ := projOk_keyPassing test h1 hkg hm i hk ha
        refine ⟨some (keyPassing test (keptPos kg i) _ c'), ?_, k2, ⟨keyPassing_shaped test _ _ _ _ h2.1, keyPassing_distinct test _ _ _ h2.2⟩,
          keyPassing_powKeys test _ kg i c hkg hk h3⟩
        unfold HistDef.filterState
        simp only [(filterGroup_iff test _ _ c').1 k1]
        rfl

theorem project_group_at (H : HistDef) (kg kf : List Bool) (i : ℕ) (hk : kg[i]? = some true) :
    (H.project kg kf).groups[keptPos kg i]? = H.groups[i]? := pick_get' kg i H.groups hk

theorem projected_term (H : HistDef) (kg kf : List Bool) (hkg : kg.length = H.groups.length) (i : ℕ) (hk : kg[i]? = some true) (g : GTerm) (tol : ℚ)
    (s t : H.State) (s' : (H.project kg kf).State) (h : Projected H kg kf s s') (hf : H.selectTerm i g tol s = .ok t) :
    ∃ t', (H.project kg kf).selectTerm (keptPos kg i) g tol s' = .ok t' ∧ Projected H kg kf t t' := by
  unfold HistDef.selectTerm at hf ⊢
  rw [project_group_at H kg kf i hk]
  cases ha : H.groups[i]? with
  | none => rw [ha] at hf; cases hf
  | some a =>
    rw [ha] at hf
    simp only at hf ⊢
    cases hs : a.select g.cmp g.value tol with
    | error e => rw [hs] at hf; cases hf
    | ok r =>
      rw [hs] at hf
      cases r with
      | none => cases hf
      | some test => exact projected_filter H kg kf hkg i hk test s t s' h hf

theorem projected_and (H : HistDef) (kg kf : List Bool) (hkg : kg.length = H.groups.length) (i : ℕ) (hk : kg[i]? = some true) (tol : ℚ) :
    ∀ (ts : List GTerm) (s t : H.State) (s' : (H.project kg kf).State), Projected H kg kf s s' → H.selectAnd i tol ts s = .ok t →
    ∃ t', (H.project kg kf).selectAnd (keptPos kg i) tol ts s' = .ok t' ∧ Projected H kg kf t t'
  | [], s, t, s', h, hf => by
    cases hf
    exact ⟨s', rfl, h⟩
  | g :: ts, s, t, s', h, hf => by
    unfold HistDef.selectAnd at hf ⊢
    cases hg : H.selectTerm i g tol s with
    | error e => rw [hg] at hf; cases hf
    | ok u =>
      rw [hg] at hf
      obtain ⟨u', h1, h2⟩ := projected_term H kg kf hkg i hk g tol s u s' h hg
      rw [h1]
      exact projected_and H kg kf hkg i hk tol ts u t u' h2 hf

theorem projected_group (H : HistDef) (kg kf : List Bool) (hkg : kg.length = H.groups.length) (i : ℕ) (hk : kg[i]? = some true) (limit : ℕ) (tol : ℚ)
    (dnf : List (List GTerm)) (s t : H.State) (s' : (H.project kg kf).State) (h : Projected H kg kf s s')
    (hf : H.selectGroup limit i dnf tol s = .ok t) :
    ∃ t', (H.project kg kf).selectGroup limit (keptPos kg i) dnf tol s' = .ok t' ∧ Projected H kg kf t t' := by
  have many : ∀ dnf : List (List GTerm), (match H.groups[i]? with
      | none => Except.error Err.valueError
      | some a =>
        match orLoop (fun t => a.select t.cmp t.value tol) dnf ⟨none, none⟩ none with
        | .error e => .error e
        | .ok none => .error .valueError
        | .ok (some (_, none)) => .error .typeError
        | .ok (some (F, some c)) => H.filterState (c.call limit F) i s) = Except.ok t →
      ∃ t', (match H.groups[i]? with
      | none => Except.error Err.valueError
      | some a =>
        match orLoop (fun t => a.select t.cmp t.value tol) dnf ⟨none, none⟩ none with
        | .error e => .error e
        | .ok none => .error .valueError
        | .ok (some (_, none)) => .error .typeError
        | .ok (some (F, some c)) => (H.project kg kf).filterState (c.call limit F) (keptPos kg i) s') = Except.ok t' ∧ Projected H kg kf t t' := by
    intro dnf hf
    cases ha : H.groups[i]? with
    | none => rw [ha] at hf; cases hf
    | some a =>
      rw [ha] at hf
      simp only at hf ⊢
      cases ho : orLoop (fun t => a.select t.cmp t.value tol) dnf ⟨none, none⟩ none with
      | error e => rw [ho] at hf; cases hf
      | ok r =>
        rw [ho] at hf
        match r, hf with
        | some (F, some c), hf => exact projected_filter H kg kf hkg i hk _ s t s' h hf
  match dnf, hf with
  | [], hf =>
    unfold HistDef.selectGroup at hf ⊢
    rw [project_group_at H kg kf i hk]
    exact many [] hf
  | [ts], hf => exact projected_and H kg kf hkg i hk tol ts s t s' h hf
  | a :: b :: r, hf =>
    unfold HistDef.selectGroup at hf ⊢
    rw [project_group_at H kg kf i hk]
    exact many (a :: b :: r) hf

end Verif
