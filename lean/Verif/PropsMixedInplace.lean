import Verif.PropsFailedAdd

/-!
# Adding weighted and unweighted histograms in place

When `a += b` of a weighted and an unweighted histogram is refused, with any group axes (C29).
-/

namespace Verif

/-- `iaddLeft` fails if one of the additions does. -/
theorem iaddLeft_error {β : Type} (rec : β → β → Res β) (hrec : ∀ (x y z : β) (er : Err), rec x y = .error (er, z) → er = .valueError)
    (e : List (Key × β)) : ∀ (d : List (Key × β)), (∃ p ∈ d, ∃ y z, dget e p.1 = some y ∧ rec p.2 y = .error (.valueError, z)) →
    ∃ l, iaddLeft rec e d = .error (.valueError, l)
  | [], h => by simp at h
  | (k, x) :: d, h => by
    obtain ⟨p, hp, y, z, hy, hr⟩ := h
    simp only [iaddLeft]
    rcases List.mem_cons.1 hp with rfl | hp
    · exact ⟨(k, z) :: d, by simp only [hy, hr]⟩
    · obtain ⟨l, hl⟩ := iaddLeft_error rec hrec e d ⟨p, hp, y, z, hy, hr⟩
      cases hk : dget e k with
      | none => exact ⟨(k, x) :: l, by simp only [hl]⟩
      | some u =>
        cases hu : rec x u with
        | ok v => exact ⟨(k, v) :: l, by simp only [hu, hl]⟩
        | error q =>
          obtain ⟨er, v⟩ := q
          refine ⟨(k, v) :: d, ?_⟩
          simp only [hu]
          rw [hrec x u v er hu]

theorem iaddLeft_errors {β : Type} (rec : β → β → Res β) (hrec : ∀ (x y z : β) (er : Err), rec x y = .error (er, z) → er = .valueError)
    (e : List (Key × β)) : ∀ (d l : List (Key × β)) (er : Err), iaddLeft rec e d = .error (er, l) → er = .valueError
  | [], l, er, h => by simp [iaddLeft] at h
  | (k, x) :: d, l, er, h => by
    have ih := iaddLeft_errors rec hrec e d
    simp only [iaddLeft] at h
    cases hk : dget e k with
    | none =>
      simp only [hk] at h
      cases hl : iaddLeft rec e d with
      | ok r => simp [hl] at h
      | error q =>
        obtain ⟨er', r⟩ := q
        simp only [hl, Except.error.injEq, Prod.mk.injEq] at h
        exact h.1 ▸ ih r er' hl
    | some y =>
      simp only [hk] at h
      cases hr : rec x y with
      | error q =>
        obtain ⟨er', z⟩ := q
        simp only [hr, Except.error.injEq, Prod.mk.injEq] at h
        exact h.1 ▸ hrec x y z er' hr
      | ok z =>
        simp only [hr] at h
        cases hl : iaddLeft rec e d with
        | ok r => simp [hl] at h
        | error q =>
          obtain ⟨er', r⟩ := q
          simp only [hl, Except.error.injEq, Prod.mk.injEq] at h
          exact h.1 ▸ ih r er' hl

/-- Adding contents in place fails with `ValueError` only. -/
theorem iaddContent_errors : ∀ (n : ℕ) (a b c : Content Arr n) (er : Err), iaddContent n a b = .error (er, c) → er = .valueError
  | 0, (a : Arr), (b : Arr), c, er, h => by
    have key : ∀ er', a.iadd b = .error er' → er' = .valueError := by
      intro er' h'
      unfold Arr.iadd at h'
      split at h'
      · split at h'
        · simp at h'
        · split at h'
          · simp at h'
          · exact (Except.error.inj h').symm
      · exact (Except.error.inj h').symm
    simp only [iaddContent] at h
    cases hi : a.iadd b with
    | ok z => simp [hi] at h
    | error er' =>
      simp only [hi] at h
      exact (congrArg Prod.fst (Except.error.inj h)).symm.trans <| key er' hi
  | n + 1, (d : List (Key × Content Arr n)), (e : List (Key × Content Arr n)), c, er, h => by
    rw [iaddContent] at h
    cases hl : iaddLeft (iaddContent n) e d with
    | ok l => simp [hl] at h
    | error q =>
      obtain ⟨er', l⟩ := q
      simp only [hl] at h
      exact (congrArg Prod.fst (Except.error.inj h)).symm.trans <| iaddLeft_errors (iaddContent n) (iaddContent_errors n) e d l er' hl

/-- Where arrays cannot be added in place, neither can contents with a group in common. -/
theorem iaddContent_common (La Lb : Layout)
    (hno : ∀ a b : Arr, Shaped La 0 a → Shaped Lb 0 b → iaddContent 0 a b = .error (.valueError, a)) : ∀ (n : ℕ) (a b : Content Arr n),
    Shaped La n a → Shaped Lb n b → Common n a b → ∃ c, iaddContent n a b = .error (.valueError, c)
  | 0, a, b, ha, hb, _ => ⟨a, hno a b ha hb⟩
  | n + 1, (d : List (Key × Content Arr n)), (e : List (Key × Content Arr n)), ha, hb, hc => by
    obtain ⟨gk, hl, hga, hgb⟩ := hc
    cases gk with
    | nil => simp at hl
    | cons k gk =>
      obtain ⟨x, hx, hgx⟩ := hga
      obtain ⟨y, hy, hgy⟩ := hgb
      obtain ⟨z, hz⟩ := iaddContent_common La Lb hno n x y (ha k x hx) (hb k y hy) ⟨gk, by simpa using hl, hgx, hgy⟩
      obtain ⟨l, hl⟩ := iaddLeft_error (iaddContent n) (iaddContent_errors n) e d ⟨(k, x), mem_of_dget d k x hx, y, z, hy, hz⟩
      rw [iaddContent, hl]
      exact ⟨_, rfl⟩

/-- Contents without a common group can be added in place. -/
theorem iaddContent_apart : ∀ (n : ℕ) (a b : Content Arr n), Distinct n a → ¬ Common n a b → ∃ c, iaddContent n a b = .ok c
  | 0, a, b, _, hc => absurd ⟨[], rfl, rfl, rfl⟩ hc
  | n + 1, (d : List (Key × Content Arr n)), (e : List (Key × Content Arr n)), hd, hc => by
    let g : Content Arr n → Content Arr n → Content Arr n := fun x y =>
      match iaddContent n x y with
      | .ok c => c
      | .error _ => x
    have := iaddLeft_ok (iaddContent n) g e d (fun p hp y hy => by
      obtain ⟨c', hc'⟩ := iaddContent_apart n p.2 y (hd.2 p hp) (by
        rintro ⟨gk, hl, hx, hg⟩
        exact hc ⟨p.1 :: gk, by simp [hl], ⟨p.2, dget_of_mem d hd.1 p hp, hx⟩, ⟨y, hy, hg⟩⟩)
      simp only [g]
      rw [hc'])
    rw [iaddContent, this]
    exact ⟨_, rfl⟩

/-- C29 for in-place addition, partially: `a += b` of an unweighted and a weighted histogram, where `b` is the weighted one or there is a profile,
is refused with `ValueError` if and only if both have a group (on all group axes).  What is missing: a weighted one without
profiles accepts an unweighted one (`C29_refuted_always`), and without a common group all are accepted. -/
theorem C29_inplace_partial (gs : List GroupAxis) (fixed : List FixedAxis) (np : ℕ) (wk wk' : WKind)
    (hw : (wk = .none ∧ wk' ≠ .none) ∨ (wk ≠ .none ∧ wk' = .none ∧ 1 ≤ np)) (bs bs' : List (List Row))
    (hf : Fillable ⟨gs, fixed, np, wk⟩ bs) (hf' : Fillable ⟨gs, fixed, np, wk'⟩ bs') (a b : Content Arr gs.length)
    (ha : HistDef.fillAll ⟨gs, fixed, np, wk⟩ none bs = .ok (some a)) (hb : HistDef.fillAll ⟨gs, fixed, np, wk'⟩ none bs' = .ok (some b)) :
    (∃ s, iaddState (some a) (some b) = .error (.valueError, s)) ↔
      ∃ gk : List Key, gk.length = gs.length ∧ HasGroup gs.length a gk ∧ HasGroup gs.length b gk := by
  obtain ⟨s', s1, s2, _⟩ := fillAll_rows ⟨gs, fixed, np, wk⟩ bs none trivial hf
  obtain ⟨t', t1, t2, _⟩ := fillAll_rows ⟨gs, fixed, np, wk'⟩ bs' none trivial hf'
  obtain rfl : s' = some a := by rw [ha] at s1; exact (Except.ok.inj s1).symm
  obtain rfl : t' = some b := by rw [hb] at t1; exact (Except.ok.inj t1).symm
  have hd : Distinct gs.length a := fillAll_wellFormed ⟨gs, fixed, np, wk⟩ bs none (some a) trivial ha
  have n1 : (HistDef.layout ⟨gs, fixed, np, wk⟩).ncols = 2 * np + (if wk = .none then 1 else 2) := ncols_eq _
  have n2 : (HistDef.layout ⟨gs, fixed, np, wk'⟩).ncols = 2 * np + (if wk' = .none then 1 else 2) := ncols_eq _
  have hcols : (HistDef.layout ⟨gs, fixed, np, wk⟩).ncols ≠ (HistDef.layout ⟨gs, fixed, np, wk'⟩).ncols ∧ (HistDef.layout ⟨gs, fixed, np, wk'⟩).ncols ≠ 1 := by
    rw [n1, n2]
    rcases hw with ⟨w1, w2⟩ | ⟨w1, w2, w3⟩
    · rw [if_pos w1, if_neg w2]; omega
    · rw [if_neg w1, if_pos w2]; omega
  have hno : ∀ x y : Arr, Shaped (HistDef.layout ⟨gs, fixed, np, wk⟩) 0 x → Shaped (HistDef.layout ⟨gs, fixed, np, wk'⟩) 0 y →
      iaddContent 0 x y = .error (.valueError, x) := by
    intro x y hx hy
    have e1 : x.ncols ≠ y.ncols := by rw [hx.2, hy.2]; exact hcols.1
    have e2 : y.ncols ≠ 1 := by rw [hy.2]; exact hcols.2
    simp only [iaddContent, Arr.iadd, e1, e2, if_false, ite_self]
  constructor
  · rintro ⟨s, hs⟩
    by_contra hno'
    obtain ⟨c, hc⟩ := iaddContent_apart gs.length a b hd hno'
    simp [iaddState, hc] at hs
  · intro hcom
    obtain ⟨c, hc⟩ := iaddContent_common _ _ hno gs.length a b s2 t2 hcom
    exact ⟨some c, by simp only [iaddState, hc]⟩

/-- An unweighted histogram takes no weighted one that has its group, but takes one with another group; the other way round, it is taken in both
cases where there is no profile. -/
example : let u := (⟨[.groupby], [], 0, .none⟩ : HistDef).fillAll none [[⟨[.key (.str "a")], [], [], none⟩]]
    let w := fun k => (⟨[.groupby], [], 0, .expr⟩ : HistDef).fillAll none [[⟨[.key (.str k)], [], [], some 3⟩]]
    let ok := fun (x y : Res (Option (Content Arr 1))) => match x, y with
      | .ok a, .ok b => some (iaddState (n := 1) a b).toOption.isSome
      | _, _ => none
    (ok u (w "a"), ok u (w "b"), ok (w "a") u, ok (w "b") u) = (some false, some true, some true, some true) := by decide +kernel

end Verif
