import Verif.PropsMixedAdd

/-!
# Adding weighted and unweighted histograms with group axes

`C29_refuted_groups` shows one sum of an unweighted and a weighted histogram with different groups.  Here is what
happens to every such pair, with any group axes, any other axes and any fills.
-/

namespace Verif

/-- The two contents have a group in common, on all the group axes. -/
def Common (n : ℕ) (a b : Content Arr n) : Prop := ∃ gk : List Key, gk.length = n ∧ HasGroup n a gk ∧ HasGroup n b gk

/-- `addLeft` fails if one of the additions does. -/
theorem addLeft_error {β : Type} (rec : β → β → Except Err β) (hrec : ∀ (x y : β) (er : Err), rec x y = .error er → er = .valueError)
    (e : List (Key × β)) : ∀ (d : List (Key × β)), (∃ p ∈ d, ∃ y, dget e p.1 = some y ∧ rec p.2 y = .error .valueError) →
    addLeft rec e d = .error .valueError
  | [], h => by simp at h
  | (k, x) :: d, h => by
    have ih := addLeft_error rec hrec e d
    simp only [addLeft]
    obtain ⟨p, hp, y, hy, hr⟩ := h
    rcases List.mem_cons.1 hp with rfl | hp
    · simp only [hy, hr]
    · rw [ih ⟨p, hp, y, hy, hr⟩]
      cases hk : dget e k with
      | none => rfl
      | some z =>
        cases hz : rec x z with
        | ok w => simp only [hz]
        | error er =>
          simp only [hz]
          rw [hrec x z er hz]

theorem addLeft_errors {β : Type} (rec : β → β → Except Err β) (hrec : ∀ (x y : β) (er : Err), rec x y = .error er → er = .valueError)
    (e : List (Key × β)) : ∀ (d : List (Key × β)) (er : Err), addLeft rec e d = .error er → er = .valueError
  | [], er, h => by simp [addLeft] at h
  | (k, x) :: d, er, h => by
    have ih := addLeft_errors rec hrec e d
    simp only [addLeft] at h
    cases hl : addLeft rec e d with
    | ok l =>
      rw [hl] at h
      cases hk : dget e k with
      | none => simp [hk] at h
      | some z =>
        cases hz : rec x z with
        | ok w => simp [hk, hz] at h
        | error er' =>
          simp only [hk, hz, Except.error.injEq] at h
          exact h ▸ hrec x z er' hz
    | error er'' =>
      rw [hl] at h
      cases hk : dget e k with
      | none =>
        simp only [hk, Except.error.injEq] at h
        exact h ▸ ih er'' hl
      | some z =>
        cases hz : rec x z with
        | ok w =>
          simp only [hk, hz, Except.error.injEq] at h
          exact h ▸ ih er'' hl
        | error er' =>
          simp only [hk, hz, Except.error.injEq] at h
          exact h ▸ hrec x z er' hz

/-- Adding contents fails with `ValueError` only. -/
theorem addContent_errors : ∀ (n : ℕ) (a b : Content Arr n) (er : Err), addContent n a b = .error er → er = .valueError
  | 0, (a : Arr), (b : Arr), er, h => by
    simp only [addContent, Arr.add] at h
    split at h
    · split at h
      · simp at h
      · split at h
        · simp at h
        · split at h
          · simp at h
          · exact (Except.error.inj h).symm
    · exact (Except.error.inj h).symm
  | n + 1, (d : List (Key × Content Arr n)), (e : List (Key × Content Arr n)), er, h => by
    simp only [addContent] at h
    cases hl : addLeft (addContent n) e d with
    | ok l => simp [hl] at h
    | error er' =>
      simp only [hl, Except.error.injEq] at h
      exact h ▸ addLeft_errors (addContent n) (addContent_errors n) e d er' hl

/-- Contents with different numbers of columns, none of them 1, cannot be added if they have a group in common. -/
theorem addContent_common (La Lb : Layout) (hne : La.ncols ≠ Lb.ncols) (h1 : La.ncols ≠ 1) (h2 : Lb.ncols ≠ 1) : ∀ (n : ℕ) (a b : Content Arr n),
    Shaped La n a → Shaped Lb n b → Common n a b → addContent n a b = .error .valueError
  | 0, (a : Arr), (b : Arr), ha, hb, _ => by
    have e1 : a.ncols ≠ b.ncols := by rw [ha.2, hb.2]; exact hne
    have e2 : a.ncols ≠ 1 := by rw [ha.2]; exact h1
    have e3 : b.ncols ≠ 1 := by rw [hb.2]; exact h2
    simp only [addContent, Arr.add, e1, e2, e3, if_false, ite_self]
    rfl
  | n + 1, (d : List (Key × Content Arr n)), (e : List (Key × Content Arr n)), ha, hb, hc => by
    obtain ⟨gk, hl, hga, hgb⟩ := hc
    cases gk with
    | nil => simp at hl
    | cons k gk =>
      obtain ⟨x, hx, hgx⟩ := hga
      obtain ⟨y, hy, hgy⟩ := hgb
      simp only [addContent]
      rw [addLeft_error (addContent n) (addContent_errors n) e d ⟨(k, x), mem_of_dget d k x hx, y, hy,
        addContent_common La Lb hne h1 h2 n x y (ha k x hx) (hb k y hy) ⟨gk, by simpa using hl, hgx, hgy⟩⟩]

/-- Contents without a common group are put side by side, each with its own number of columns. -/
theorem addContent_apart : ∀ (n : ℕ) (a b : Content Arr n), Distinct n a → ¬ Common n a b →
    ∃ c, addContent n a b = .ok c ∧ ∀ gk : List Key, gk.length = n → colsAt n c gk = (colsAt n a gk).or (colsAt n b gk)
  | 0, a, b, _, hc => absurd ⟨[], rfl, rfl, rfl⟩ hc
  | n + 1, (d : List (Key × Content Arr n)), (e : List (Key × Content Arr n)), hd, hc => by
    have ih : ∀ x y : Content Arr n, Distinct n x → ¬ Common n x y → ∃ c, addContent n x y = .ok c ∧
      ∀ gk : List Key, gk.length = n → colsAt n c gk = (colsAt n x gk).or (colsAt n y gk) := addContent_apart n
    have hsub : ∀ p ∈ d, ∀ y, dget e p.1 = some y → ¬ Common n p.2 y := by
      rintro p hp y hy ⟨gk, hl, hx, hg⟩
      exact hc ⟨p.1 :: gk, by simp [hl], ⟨p.2, dget_of_mem d hd.1 p hp, hx⟩, ⟨y, hy, hg⟩⟩
    let g : Content Arr n → Content Arr n → Content Arr n := fun x y =>
      match addContent n x y with
      | .ok c => c
      | .error _ => x
    have hg : ∀ p ∈ d, ∀ y, dget e p.1 = some y → addContent n p.2 y = .ok (g p.2 y) := by
      intro p hp y hy
      obtain ⟨c, hc1, _⟩ := ih p.2 y (hd.2 p hp) (hsub p hp y hy)
      simp only [g, hc1]
    refine ⟨mergeWith g d e, ?_, ?_⟩
    · simp only [addContent]
      rw [addLeft_ok (addContent n) g e d hg]
      rfl
    · intro gk hl
      cases gk with
      | nil => simp at hl
      | cons k gk =>
        have hl' : gk.length = n := by simpa using hl
        simp only [colsAt, mergeWith]
        rw [dget_append, dget_map (mergeEntry g e)]
        cases hx : dget d k with
        | none =>
          rw [dget_addRight d e k hx]
          simp
        | some x =>
          simp only [Option.map_some, Option.some_or, mergeEntry]
          cases hy : dget e k with
          | none => simp
          | some y =>
            have hp := mem_of_dget d k x hx
            obtain ⟨c, hc1, hc2⟩ := ih x y (hd.2 _ hp) (hsub _ hp y hy)
            have : g x y = c := by simp only [g, hc1]
            simp only [this]
            exact hc2 gk hl'

/-- The array of a group that exists has the columns of the histogram; the others have no array. -/
theorem colsAt_shaped (L : Layout) : ∀ (n : ℕ) (a : Content Arr n), Shaped L n a → ∀ gk : List Key, gk.length = n →
    (HasGroup n a gk → colsAt n a gk = some L.ncols) ∧ (¬ HasGroup n a gk → colsAt n a gk = none)
  | 0, (a : Arr), ha, gk, hl => by
    have : gk = [] := List.length_eq_zero_iff.1 hl
    subst this
    exact ⟨fun _ => by simp [colsAt, ha.2], fun h => absurd rfl h⟩
  | n + 1, (d : List (Key × Content Arr n)), ha, gk, hl => by
    cases gk with
    | nil => simp at hl
    | cons k gk =>
      have hl' : gk.length = n := by simpa using hl
      simp only [colsAt, HasGroup]
      cases hx : dget d k with
      | none => simp
      | some x =>
        have := colsAt_shaped L n x (ha k x hx) gk hl'
        simpa using this

/-- C29 holds with profiles where groups meet, partially: with at least one profile, any group axes and any other axes, an unweighted and a
weighted histogram that both have a group cannot be added, in either order.  What is missing: without profiles (`C29_refuted_always`) or
without a group in common (`C29_refuted_apart`) they can. -/
theorem C29_common_partial (gs : List GroupAxis) (fixed : List FixedAxis) (np : ℕ) (hp : 1 ≤ np) (wk : WKind) (hw : wk ≠ .none) (bs bs' : List (List Row))
    (hf : Fillable ⟨gs, fixed, np, .none⟩ bs) (hf' : Fillable ⟨gs, fixed, np, wk⟩ bs') (s t : Option (Content Arr gs.length))
    (hs : HistDef.fillAll ⟨gs, fixed, np, .none⟩ none bs = .ok s) (ht : HistDef.fillAll ⟨gs, fixed, np, wk⟩ none bs' = .ok t)
    (gk : List Key) (hl : gk.length = gs.length) (hg : HistDef.has ⟨gs, fixed, np, .none⟩ s gk) (hg' : HistDef.has ⟨gs, fixed, np, wk⟩ t gk) :
    addState s t = .error .valueError ∧ addState t s = .error .valueError := by
  obtain ⟨s', s1, s2, _⟩ := fillAll_rows ⟨gs, fixed, np, .none⟩ bs none trivial hf
  obtain ⟨t', t1, t2, _⟩ := fillAll_rows ⟨gs, fixed, np, wk⟩ bs' none trivial hf'
  obtain rfl : s' = s := by rw [hs] at s1; exact (Except.ok.inj s1).symm
  obtain rfl : t' = t := by rw [ht] at t1; exact (Except.ok.inj t1).symm
  cases s' with
  | none => exact hg.elim
  | some a =>
    cases t' with
    | none => exact hg'.elim
    | some b =>
      have n1 : (HistDef.layout ⟨gs, fixed, np, .none⟩).ncols = 2 * np + 1 := by rw [ncols_eq]; simp
      have n2 : (HistDef.layout ⟨gs, fixed, np, wk⟩).ncols = 2 * np + 2 := by rw [ncols_eq]; simp [hw]
      have e1 := addContent_common _ _ (by omega) (by omega) (by omega) gs.length a b s2 t2 ⟨gk, hl, hg, hg'⟩
      have e2 := addContent_common _ _ (by omega) (by omega) (by omega) gs.length b a t2 s2 ⟨gk, hl, hg', hg⟩
      exact ⟨by simp only [addState, e1]; rfl, by simp only [addState, e2]; rfl⟩

/-- C29 is violated by all histograms with group axes that have no group in common: an unweighted and a weighted one can be added, and in the
sum the groups of the former have a column less than those of the latter. -/
theorem C29_refuted_apart (gs : List GroupAxis) (fixed : List FixedAxis) (np : ℕ) (wk : WKind) (hw : wk ≠ .none) (bs bs' : List (List Row))
    (hf : Fillable ⟨gs, fixed, np, .none⟩ bs) (hf' : Fillable ⟨gs, fixed, np, wk⟩ bs') (a b : Content Arr gs.length)
    (ha : HistDef.fillAll ⟨gs, fixed, np, .none⟩ none bs = .ok (some a)) (hb : HistDef.fillAll ⟨gs, fixed, np, wk⟩ none bs' = .ok (some b))
    (hno : ∀ gk : List Key, gk.length = gs.length → ¬ (HasGroup gs.length a gk ∧ HasGroup gs.length b gk)) :
    ∃ c : Content Arr gs.length, addState (some a) (some b) = .ok (some c) ∧ ∀ gk : List Key, gk.length = gs.length →
      (HasGroup gs.length a gk → colsAt gs.length c gk = some (2 * np + 1)) ∧
      (HasGroup gs.length b gk → colsAt gs.length c gk = some (2 * np + 2)) := by
  obtain ⟨s', s1, s2, _⟩ := fillAll_rows ⟨gs, fixed, np, .none⟩ bs none trivial hf
  obtain ⟨t', t1, t2, _⟩ := fillAll_rows ⟨gs, fixed, np, wk⟩ bs' none trivial hf'
  obtain rfl : s' = some a := by rw [ha] at s1; exact (Except.ok.inj s1).symm
  obtain rfl : t' = some b := by rw [hb] at t1; exact (Except.ok.inj t1).symm
  have n1 : (HistDef.layout ⟨gs, fixed, np, .none⟩).ncols = 2 * np + 1 := by rw [ncols_eq]; simp
  have n2 : (HistDef.layout ⟨gs, fixed, np, wk⟩).ncols = 2 * np + 2 := by rw [ncols_eq]; simp [hw]
  have hd : Distinct gs.length a := fillAll_wellFormed ⟨gs, fixed, np, .none⟩ bs none (some a) trivial ha
  obtain ⟨c, c1, c2⟩ := addContent_apart gs.length a b hd (fun ⟨gk, hl, h1, h2⟩ => hno gk hl ⟨h1, h2⟩)
  refine ⟨c, by simp only [addState, c1]; rfl, fun gk hl => ⟨fun hg => ?_, fun hg => ?_⟩⟩
  · rw [c2 gk hl, (colsAt_shaped _ gs.length a s2 gk hl).1 hg, n1]; rfl
  · rw [c2 gk hl, (colsAt_shaped _ gs.length a s2 gk hl).2 (fun h => hno gk hl ⟨h, hg⟩), (colsAt_shaped _ gs.length b t2 gk hl).1 hg, n2]; rfl

/-- `Hist(groupby("g"), profile("y"))` and the same with a weight: with the group "a" in both the sum is refused, with "a" in one and "b" in
the other it has arrays of 3 and of 4 columns. -/
example : ((match (⟨[.groupby], [], 1, .none⟩ : HistDef).fillAll none [[⟨[.key (.str "a")], [], [5], none⟩]],
      (⟨[.groupby], [], 1, .expr⟩ : HistDef).fillAll none [[⟨[.key (.str "a")], [], [7], some 3⟩]] with
    | .ok a, .ok b =>
      match addState (n := 1) a b with
      | .error e => some e
      | _ => none
    | _, _ => none) = some .valueError) ∧
    ((match (⟨[.groupby], [], 1, .none⟩ : HistDef).fillAll none [[⟨[.key (.str "a")], [], [5], none⟩]],
      (⟨[.groupby], [], 1, .expr⟩ : HistDef).fillAll none [[⟨[.key (.str "b")], [], [7], some 3⟩]] with
    | .ok a, .ok b =>
      match addState (n := 1) a b with
      | .ok (some c) => some (colsAt 1 c [.str "a"], colsAt 1 c [.str "b"])
      | _ => none
    | _, _ => none) = some (some 3, some 4)) := by
  constructor <;> decide +kernel

end Verif
