import Verif.HeapKeep
import Verif.PropsFillErrors

/-!
# What a fill that raises leaves alone

`C17_refuted` shows that a fill that raises can leave groups filled.  Here: it changes no group that is not in the data.
-/

namespace Verif

/-- The two contents read the same at a group. -/
def SameAt (n : ℕ) (gk : List Key) (c c' : Content Arr n) : Prop := ∀ (idx : List ℕ) (col : ℕ), lookup n c' gk idx col = lookup n c gk idx col

theorem SameAt.refl (n : ℕ) (gk : List Key) (c : Content Arr n) : SameAt n gk c c := fun _ _ => rfl

theorem SameAt.trans {n : ℕ} {gk : List Key} {a b c : Content Arr n} (h : SameAt n gk a b) (h' : SameAt n gk b c) : SameAt n gk a c :=
  fun idx col => (h' idx col).trans (h idx col)

/-- Replacing the content of a key reads the same at other groups, and at groups where the new content does. -/
theorem sameAt_dset {n : ℕ} (d : List (Key × Content Arr n)) (u k : Key) (gk : List Key) (c' : Content Arr n)
    (h : u = k → ∀ (idx : List ℕ) (col : ℕ), lookup n c' gk idx col = (match dget d u with | none => 0 | some c => lookup n c gk idx col)) :
    SameAt (n + 1) (k :: gk) d (dset d u c' : List (Key × Content Arr n)) := by
  intro idx col
  simp only [lookup, dget_dset]
  by_cases hk : k = u
  · rw [if_pos hk]
    have := h hk.symm idx col
    subst hk
    exact this
  · rw [if_neg hk]

theorem filldictLoop_sameAt {n : ℕ} (L : Layout) (rec : Content Arr n → Rows → List Bool → Res (Content Arr n)) (k : Key) (gk : List Key)
    (inverse : List ℤ) (r : Rows) (all : Option (List Bool)) : ∀ (us : List (ℕ × Key)) (d : List (Key × Content Arr n)),
    (k ∈ us.map (·.2) → ∀ c r s, SameAt n gk c (rec c r s).after) →
    SameAt (n + 1) (k :: gk) d (filldictLoop L rec inverse r all us d).after
  | [], d, _ => SameAt.refl (n + 1) _ d
  | (idx, u) :: us, d, hrec => by
    have ih := fun d' => filldictLoop_sameAt L rec k gk inverse r all us d' (fun h => hrec (by simp at h ⊢; exact Or.inr h))
    simp only [filldictLoop]
    split
    · exact SameAt.refl (n + 1) _ d
    · rename_i inv _
      have he : SameAt (n + 1) (k :: gk) d (ensureKey d u (emptyContent L n) : List (Key × Content Arr n)) := by
        unfold ensureKey
        split
        · exact SameAt.refl (n + 1) _ d
        · rename_i hn
          apply sameAt_dset
          intro _ idx col
          rw [hn]
          exact lookup_empty L n gk idx col
      split
      · exact he
      · rename_i sub hsub
        split
        · exact he
        · rename_i r' _
          have hds : ∀ c', (u = k → SameAt n gk sub c') →
              SameAt (n + 1) (k :: gk) d (dset (ensureKey d u (emptyContent L n)) u c' : List (Key × Content Arr n)) := by
            intro c' hc'
            refine SameAt.trans he (sameAt_dset _ u k gk c' ?_)
            intro huk idx col
            rw [hsub]
            exact hc' huk idx col
          have hr : ∀ sel, u = k → SameAt n gk sub (rec sub r' sel).after := fun sel huk => hrec (by simp [huk]) sub r' sel
          split
          · rename_i e c' hc'
            have hr := hr (nextSelection all inverse idx (List.map (fun i => decide (i = (idx : ℤ))) inv))
            rw [hc'] at hr
            exact hds c' hr
          · rename_i c' hc'
            have hr := hr (nextSelection all inverse idx (List.map (fun i => decide (i = (idx : ℤ))) inv))
            rw [hc'] at hr
            exact SameAt.trans (hds c' hr) (ih _)

/-- On one of the group axes the key of the group is not among the keys of the data. -/
def AbsentKey (gs : List (Option (List Key × List ℤ))) (gk : List Key) : Prop :=
  ∃ (i : ℕ) (k : Key) (u : List Key) (inv : List ℤ), gk[i]? = some k ∧ gs[i]? = some (some (u, inv)) ∧ k ∉ u

theorem filldict_sameAt (L : Layout) (length : ℕ) : ∀ (n : ℕ) (gs : List (Option (List Key × List ℤ))) (c : Content Arr n)
    (r : Rows) (all : Option (List Bool)) (gk : List Key), gk.length = n → AbsentKey gs gk → SameAt n gk c (filldict L length n gs c r all).after
  | 0, gs, _, _, _, gk, hl, ha => by
    obtain ⟨i, k, u, inv, h1, _⟩ := ha
    have : gk = [] := List.length_eq_zero_iff.1 hl
    subst this
    simp at h1
  | n + 1, gs, (d : List (Key × Content Arr n)), r, all, gk, hl, ha => by
    match gs, ha with
    | [], _ => simp only [filldict]; exact SameAt.refl (n + 1) _ d
    | none :: _, _ => simp only [filldict]; exact SameAt.refl (n + 1) _ d
    | some (u, inv) :: gs, ha =>
      simp only [filldict]
      cases gk with
      | nil => simp at hl
      | cons k gk =>
        apply filldictLoop_sameAt
        intro hk c r' s
        obtain ⟨i, k', u', inv', h1, h2, h3⟩ := ha
        cases i with
        | zero =>
          simp only [List.getElem?_cons_zero, Option.some.injEq, Prod.mk.injEq] at h1 h2
          obtain ⟨rfl, rfl⟩ := h2
          subst h1
          obtain ⟨p, hp, rfl⟩ := List.mem_map.1 hk
          exact absurd (List.of_mem_zip (a := p.1) (b := p.2) hp).2 h3
        | succ i =>
          exact filldict_sameAt L length n gs c r' (some s) gk (by simpa using hl) ⟨i, k', u', inv', by simpa using h1, by simpa using h2, h3⟩

theorem absentKey_of (H : HistDef) (rows : List Row) (hok : ∀ r ∈ rows, r.Ok H) (gk : List Key) (hl : gk.length = H.groups.length) (i : ℕ) (k : Key)
    (hk : gk[i]? = some k) (hno : ¬ seenOn H rows i k) : ∃ d, H.columns rows = .ok d ∧ AbsentKey d.groups gk := by
  obtain ⟨d, hd, hdest⟩ := columns_ok H rows hok
  have hi : i < H.groups.length := by
    rw [← hl]
    exact (List.getElem?_eq_some_iff.1 hk).1
  have hlen := hdest.groups.length_eq
  have hng : H.layout.ngroup = H.groups.length := rfl
  simp only [List.length_range, hng] at hlen
  have hi' : i < d.groups.length := hlen ▸ hi
  have := List.Forall₂.get hdest.groups (i := i) (by simpa [hng] using hi) hi'
  obtain ⟨u, inv, hc, hu⟩ := this
  refine ⟨d, hd, i, k, u, inv, hk, ?_, ?_⟩
  · rw [List.getElem?_eq_getElem hi']
    exact congrArg some hc
  · intro hmem
    apply hno
    have := (hu.mem k).1 hmem
    simp only [List.map_map, List.mem_map, Function.comp_apply, List.get_eq_getElem, List.getElem_range] at this
    obtain ⟨r, hr, hrk⟩ := this
    exact ⟨r, hr, hrk⟩

/-- C17, partial: with any group axes, if `fill` raises then every group whose key on some axis is not among those of the rows reads as before.
What is missing: groups of the rows (`C17_refuted`). -/
theorem C17_absent_partial (H : HistDef) (st st' : H.State) (rows : List Row) (hok : ∀ r ∈ rows, r.Ok H) (e : Err)
    (h : H.fill st rows = .error (e, st')) (gk : List Key) (hl : gk.length = H.groups.length) (i : ℕ) (k : Key) (hk : gk[i]? = some k)
    (hno : ¬ seenOn H rows i k) (idx : List ℕ) (col : ℕ) : H.read st' gk idx col = H.read st gk idx col := by
  obtain ⟨d, hd, habs⟩ := absentKey_of H rows hok gk hl i k hk hno
  have hpre : H.read (some (prefill H.layout st)) gk idx col = H.read st gk idx col := by
    cases st with
    | none => exact lookup_empty H.layout _ gk idx col
    | some c => rfl
  rw [← hpre]
  unfold HistDef.fill at h
  simp only [hd] at h
  have hq : SameAt H.groups.length gk (prefill H.layout st) (postfill H.layout rows.length d (prefill H.layout st)).after := by
    unfold postfill
    split
    · exact SameAt.refl _ _ _
    · split
      · exact SameAt.refl _ _ _
      · exact filldict_sameAt _ _ _ _ _ _ _ gk hl habs
  cases hp : postfill H.layout rows.length d (prefill H.layout st) with
  | ok c => rw [hp] at h; cases h
  | error ec =>
    obtain ⟨e1, c1⟩ := ec
    rw [hp] at h hq
    simp only [Except.error.injEq, Prod.mk.injEq] at h
    rw [← h.2]
    exact hq idx col

/-- A histogram with an entry in the group "z", and a fill of "a" and "b" that raises at "b": "z" has its entry still, "a" has one more. -/
example : (match exGQ.fill none [exGQRow "z" 1 7] with
    | .ok st =>
      match exGQ.fill st [exGQRow "a" 1 4, exGQRow "b" 1 5, exGQRow "b" 9 3] with
      | .ok _ => none
      | .error (_, st) => some (exGQ.read st [.str "z"] [2] 2, exGQ.read st [.str "z"] [2] 0, exGQ.read st [.str "a"] [2] 2)
    | .error _ => none) = some (1, 7, 1) := by decide +kernel

/-- Those rows are `Ok`, and "z" is not seen in them. -/
example : (∀ r ∈ [exGQRow "a" 1 4, exGQRow "b" 1 5, exGQRow "b" 9 3], r.Ok exGQ) ∧
    ¬ seenOn exGQ [exGQRow "a" 1 4, exGQRow "b" 1 5, exGQRow "b" 9 3] 0 (.str "z") := by
  constructor
  · intro r hr
    have hh : ∀ x : ℚ, x ≤ 1000 → (FixedAxis.bin ⟨2, 0, 2, true, false, true, true⟩).Handles (.num (.fin x)) :=
      fun x hx => handles_bin 2 0 2 true false true true _ (by decide +kernel) (by norm_num) _
        (Or.inr ⟨x, rfl, by norm_num; linarith⟩)
    simp at hr
    rcases hr with rfl | rfl | rfl <;>
      exact ⟨.cons ⟨_, rfl⟩ .nil, .cons (hh _ (by norm_num)) .nil, rfl⟩
  · rintro ⟨r, hr, h⟩
    simp at hr
    rcases hr with rfl | rfl | rfl <;> revert h <;> decide

theorem KeysLe.hasGroup : ∀ (n : ℕ) (c d : Content Arr n) (gk : List Key), KeysLe n c d → HasGroup n c gk → HasGroup n d gk
  | 0, _, _, _, _, h => h
  | _ + 1, _, _, [], _, _ => trivial
  | n + 1, _, _, _ :: gk, hk, h => by
    obtain ⟨x, hx, h⟩ := h
    obtain ⟨y, hy, hxy⟩ := hk _ x hx
    exact ⟨y, hy, KeysLe.hasGroup n x y gk hxy h⟩

/-- C17: a `fill` that raises, for whatever reason, loses no group. -/
theorem C17_groups_kept (H : HistDef) (st st' : H.State) (rows : List Row) (e : Err) (h : H.fill st rows = .error (e, st')) (gk : List Key)
    (hg : H.has st gk) : H.has st' gk := by
  obtain ⟨c', h1, h2⟩ := fill_keysLe H st rows
  rw [h] at h1
  have h1 : st' = some c' := h1
  subst h1
  cases st with
  | none => exact absurd hg (by simp [HistDef.has])
  | some c => exact KeysLe.hasGroup _ c c' gk h2 hg

/-- The fill above raises in a histogram that has the group "z". -/
example : (match exGQ.fill none [exGQRow "z" 1 7] with
    | .ok st => st.map (fun (d : List (Key × Arr)) => d.map (·.1))
    | .error _ => none) = some [.str "z"] := by decide +kernel

/-- The second content has the group only if the first one has. -/
def NotNew (n : ℕ) (gk : List Key) (c c' : Content Arr n) : Prop := HasGroup n c' gk → HasGroup n c gk

theorem notNew_dset {n : ℕ} (d : List (Key × Content Arr n)) (u k : Key) (gk : List Key) (c' : Content Arr n)
    (h : u = k → HasGroup n c' gk → ∃ c, dget d u = some c ∧ HasGroup n c gk) :
    NotNew (n + 1) (k :: gk) d (dset d u c' : List (Key × Content Arr n)) := by
  rintro ⟨x, hx, hg⟩
  rw [dget_dset] at hx
  by_cases hk : k = u
  · rw [if_pos hk, Option.some.injEq] at hx
    subst hx
    obtain ⟨c, h1, h2⟩ := h hk.symm hg
    exact ⟨c, hk ▸ h1, h2⟩
  · rw [if_neg hk] at hx
    exact ⟨x, hx, hg⟩

theorem filldictLoop_notNew {n : ℕ} (L : Layout) (rec : Content Arr n → Rows → List Bool → Res (Content Arr n)) (k : Key) (gk : List Key)
    (inverse : List ℤ) (r : Rows) (all : Option (List Bool)) : ∀ (us : List (ℕ × Key)) (d : List (Key × Content Arr n)),
    (k ∈ us.map (·.2) → gk ≠ [] ∧ ∀ c r s, NotNew n gk c (rec c r s).after) →
    NotNew (n + 1) (k :: gk) d (filldictLoop L rec inverse r all us d).after
  | [], _, _ => id
  | (idx, u) :: us, d, hrec => by
    have ih := fun d' => filldictLoop_notNew L rec k gk inverse r all us d' (fun h => hrec (by simp at h ⊢; exact Or.inr h))
    simp only [filldictLoop]
    split
    · exact id
    · rename_i inv _
      have he : NotNew (n + 1) (k :: gk) d (ensureKey d u (emptyContent L n) : List (Key × Content Arr n)) := by
        unfold ensureKey
        split
        · exact id
        · apply notNew_dset
          intro huk hg
          exact absurd ((hasGroup_empty L n gk).1 hg) (hrec (by simp [huk])).1
      split
      · exact he
      · rename_i sub hsub
        split
        · exact he
        · rename_i r' _
          have hds : ∀ c', (u = k → NotNew n gk sub c') →
              NotNew (n + 1) (k :: gk) d (dset (ensureKey d u (emptyContent L n)) u c' : List (Key × Content Arr n)) :=
            fun c' hc' h => he (notNew_dset _ u k gk c' (fun huk hg => ⟨sub, hsub, hc' huk hg⟩) h)
          have hr : ∀ sel, u = k → NotNew n gk sub (rec sub r' sel).after := fun sel huk => (hrec (by simp [huk])).2 sub r' sel
          split
          · rename_i e c' hc'
            have hr := hr (nextSelection all inverse idx (List.map (fun i => decide (i = (idx : ℤ))) inv))
            rw [hc'] at hr
            exact hds c' hr
          · rename_i c' hc'
            have hr := hr (nextSelection all inverse idx (List.map (fun i => decide (i = (idx : ℤ))) inv))
            rw [hc'] at hr
            exact fun h => hds c' hr (ih _ h)

theorem filldict_notNew (L : Layout) (length : ℕ) : ∀ (n : ℕ) (gs : List (Option (List Key × List ℤ))) (c : Content Arr n)
    (r : Rows) (all : Option (List Bool)) (gk : List Key), gk.length = n → AbsentKey gs gk → NotNew n gk c (filldict L length n gs c r all).after
  | 0, gs, _, _, _, gk, hl, ha => by
    obtain ⟨i, k, u, inv, h1, _⟩ := ha
    have : gk = [] := List.length_eq_zero_iff.1 hl
    subst this
    simp at h1
  | n + 1, gs, (d : List (Key × Content Arr n)), r, all, gk, hl, ha => by
    match gs, ha with
    | [], _ => simp only [filldict]; exact id
    | none :: _, _ => simp only [filldict]; exact id
    | some (u, inv) :: gs, ha =>
      simp only [filldict]
      cases gk with
      | nil => simp at hl
      | cons k gk =>
        apply filldictLoop_notNew
        intro hk
        obtain ⟨i, k', u', inv', h1, h2, h3⟩ := ha
        cases i with
        | zero =>
          simp only [List.getElem?_cons_zero, Option.some.injEq, Prod.mk.injEq] at h1 h2
          obtain ⟨rfl, rfl⟩ := h2
          subst h1
          obtain ⟨p, hp, rfl⟩ := List.mem_map.1 hk
          exact absurd (List.of_mem_zip (a := p.1) (b := p.2) hp).2 h3
        | succ i =>
          refine ⟨?_, fun c r' s => ?_⟩
          · rintro rfl
            simp at h1
          · exact filldict_notNew L length n gs c r' (some s) gk (by simpa using hl) ⟨i, k', u', inv', by simpa using h1, by simpa using h2, h3⟩

/-- C17: a `fill` that raises makes no group whose key on some axis is not among those of the rows. -/
theorem C17_no_new_groups (H : HistDef) (st st' : H.State) (rows : List Row) (hok : ∀ r ∈ rows, r.Ok H) (e : Err)
    (h : H.fill st rows = .error (e, st')) (gk : List Key) (hl : gk.length = H.groups.length) (i : ℕ) (k : Key) (hk : gk[i]? = some k)
    (hno : ¬ seenOn H rows i k) (hg : H.has st' gk) : H.has st gk := by
  obtain ⟨d, hd, habs⟩ := absentKey_of H rows hok gk hl i k hk hno
  have hne : gk ≠ [] := by
    rintro rfl
    simp at hk
  have hq : NotNew H.groups.length gk (prefill H.layout st) (postfill H.layout rows.length d (prefill H.layout st)).after := by
    unfold postfill
    split
    · exact id
    · split
      · exact id
      · exact filldict_notNew _ _ _ _ _ _ _ gk hl habs
  unfold HistDef.fill at h
  simp only [hd] at h
  cases hp : postfill H.layout rows.length d (prefill H.layout st) with
  | ok c => rw [hp] at h; cases h
  | error ec =>
    obtain ⟨e1, c1⟩ := ec
    rw [hp] at h hq
    simp only [Except.error.injEq, Prod.mk.injEq] at h
    rw [← h.2] at hg
    have := hq hg
    cases st with
    | none => exact absurd ((hasGroup_empty H.layout _ gk).1 this) hne
    | some c => exact this

/-- The fill above makes "a" and "b" and nothing else. -/
example : (match exGQ.fill none [exGQRow "a" 1 4, exGQRow "b" 1 5, exGQRow "b" 9 3] with
    | .ok _ => none
    | .error (_, st) => st.map (fun (d : List (Key × Arr)) => d.map (·.1))) = some [.str "a", .str "b"] := by decide +kernel

end Verif
