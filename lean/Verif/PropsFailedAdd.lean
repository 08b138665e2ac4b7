import Verif.PropsMixedGroups

/-!
# Property C135: an in-place addition that raises leaves the histogram as it was

In-place addition (hist.py:534-565) raises `ValueError` from numpy if the columns of the two histograms differ (one
has a weight and the other has not).  `iaddState` gives, beside the exception, what the content is by then.
-/

namespace Verif

/-- On one level of groups whose additions either all succeed or all fail without effect, nothing has changed on
failure. -/
theorem iaddLeft_failed {β : Type} (rec : β → β → Res β) (e : List (Key × β)) : ∀ (d : List (Key × β)),
    (∀ p ∈ d, ∀ y, dget e p.1 = some y → ∃ er, rec p.2 y = .error (er, p.2)) →
    ∀ (er : Err) (d' : List (Key × β)), iaddLeft rec e d = .error (er, d') → d' = d
  | [], _, er, d', h => by simp [iaddLeft] at h
  | (k, x) :: d, hall, er, d', h => by
    have ih := iaddLeft_failed rec e d (fun p hp => hall p (by simp [hp]))
    simp only [iaddLeft] at h
    cases hk : dget e k with
    | none =>
      simp only [hk] at h
      cases hl : iaddLeft rec e d with
      | ok l => simp [hl] at h
      | error q =>
        obtain ⟨er', l⟩ := q
        simp only [hl, Except.error.injEq, Prod.mk.injEq] at h
        rw [← h.2, ih er' l hl]
    | some y =>
      obtain ⟨er', hr⟩ := hall (k, x) (by simp) y hk
      simp only [hk, hr, Except.error.injEq, Prod.mk.injEq] at h
      exact h.2.symm

/-- Adding an array in place succeeds or not, by the shapes alone. -/
theorem iadd_by_shape (La Lb : Layout) :
    (∀ a b : Arr, Shaped La 0 a → Shaped Lb 0 b → ∃ c, iaddContent 0 a b = .ok c) ∨
    (∀ a b : Arr, Shaped La 0 a → Shaped Lb 0 b → iaddContent 0 a b = .error (.valueError, a)) := by
  by_cases hs : La.dims = Lb.dims
  · by_cases hc : La.ncols = Lb.ncols
    · left
      intro a b ha hb
      have e1 : a.shape = b.shape := by rw [ha.1, hb.1, hs]
      have e2 : a.ncols = b.ncols := by rw [ha.2, hb.2, hc]
      refine ⟨(⟨a.shape, a.ncols, fun i c => a.get i c + b.get i c⟩ : Arr), ?_⟩
      simp only [iaddContent, Arr.iadd, if_pos e1, if_pos e2]
    · by_cases h1 : Lb.ncols = 1
      · left
        intro a b ha hb
        have e1 : a.shape = b.shape := by rw [ha.1, hb.1, hs]
        have e2 : a.ncols ≠ b.ncols := by rw [ha.2, hb.2]; exact hc
        have e3 : b.ncols = 1 := by rw [hb.2, h1]
        refine ⟨(⟨a.shape, a.ncols, fun i c => a.get i c + b.get i 0⟩ : Arr), ?_⟩
        simp only [iaddContent, Arr.iadd, if_pos e1, if_neg e2, if_pos e3]
      · right
        intro a b ha hb
        have e1 : a.shape = b.shape := by rw [ha.1, hb.1, hs]
        have e2 : a.ncols ≠ b.ncols := by rw [ha.2, hb.2]; exact hc
        have e3 : b.ncols ≠ 1 := by rw [hb.2]; exact h1
        simp only [iaddContent, Arr.iadd, if_pos e1, if_neg e2, if_neg e3]
  · right
    intro a b ha hb
    have e1 : a.shape ≠ b.shape := by rw [ha.1, hb.1]; exact hs
    simp only [iaddContent, Arr.iadd, if_neg e1]

/-- With at most one level of groups, an in-place addition of contents that fails has changed nothing. -/
theorem iaddContent_failed (La Lb : Layout) : ∀ (n : ℕ), n ≤ 1 → ∀ (a b : Content Arr n), Distinct n a → Shaped La n a → Shaped Lb n b →
    ∀ (er : Err) (c : Content Arr n), iaddContent n a b = .error (er, c) → c = a
  | 0, _, (a : Arr), (b : Arr), _, ha, hb, er, c, h => by
    rcases iadd_by_shape La Lb with hok | hno
    · obtain ⟨c', hc'⟩ := hok a b ha hb
      rw [hc'] at h
      simp at h
    · rw [hno a b ha hb] at h
      exact (congrArg Prod.snd (Except.error.inj h)).symm
  | 1, _, (d : List (Key × Content Arr 0)), (e : List (Key × Content Arr 0)), hd, ha, hb, er, c, h => by
    rw [iaddContent] at h
    cases hl : iaddLeft (iaddContent 0) e d with
    | ok l => simp [hl] at h
    | error q =>
      obtain ⟨er', l⟩ := q
      simp only [hl] at h
      have h2 : l = c := congrArg Prod.snd (Except.error.inj h)
      rw [← h2]
      rcases iadd_by_shape La Lb with hok | hno
      · exfalso
        let g : Content Arr 0 → Content Arr 0 → Content Arr 0 := fun x y =>
          match iaddContent 0 x y with
          | .ok c => c
          | .error _ => x
        have := iaddLeft_ok (iaddContent 0) g e d (fun p hp y hy => by
          obtain ⟨c', hc'⟩ := hok p.2 y (shaped_mem hd ha p hp) (hb _ _ hy)
          simp only [g]
          rw [hc'])
        rw [this] at hl
        simp at hl
      · exact iaddLeft_failed (iaddContent 0) e d (fun p hp y hy => ⟨_, hno p.2 y (shaped_mem hd ha p hp) (hb _ _ hy)⟩) er' l hl
  | n + 2, hn, _, _, _, _, _, _, _, _ => by omega

/-- C135, partial: with at most one group axis, and any other axes and profiles, if `a += b` raises then `a` has the content it had, where `a`
and `b` have been filled in any way and have any kinds of weights.  What is missing: with two group axes (`C135_refuted`) or after a sum with
different columns (`C135_refuted_after_sum`) some groups may have been added. -/
theorem C135_unchanged_partial (gs : List GroupAxis) (hgs : gs.length ≤ 1) (fixed : List FixedAxis) (np : ℕ) (wk wk' : WKind) (bs bs' : List (List Row))
    (hf : Fillable ⟨gs, fixed, np, wk⟩ bs) (hf' : Fillable ⟨gs, fixed, np, wk'⟩ bs') (a b : Option (Content Arr gs.length))
    (ha : HistDef.fillAll ⟨gs, fixed, np, wk⟩ none bs = .ok a) (hb : HistDef.fillAll ⟨gs, fixed, np, wk'⟩ none bs' = .ok b)
    (er : Err) (c : Option (Content Arr gs.length)) (h : iaddState a b = .error (er, c)) : c = a := by
  obtain ⟨s', s1, s2, _⟩ := fillAll_rows ⟨gs, fixed, np, wk⟩ bs none trivial hf
  obtain ⟨t', t1, t2, _⟩ := fillAll_rows ⟨gs, fixed, np, wk'⟩ bs' none trivial hf'
  obtain rfl : s' = a := by rw [ha] at s1; exact (Except.ok.inj s1).symm
  obtain rfl : t' = b := by rw [hb] at t1; exact (Except.ok.inj t1).symm
  have hd := fillAll_wellFormed ⟨gs, fixed, np, wk⟩ bs none s' trivial ha
  cases t' with
  | none => cases s' <;> simp [iaddState] at h
  | some y =>
    cases s' with
    | none => simp [iaddState] at h
    | some x =>
      simp only [iaddState] at h
      cases hx : iaddContent gs.length x y with
      | ok z => simp [hx] at h
      | error q =>
        obtain ⟨er', z⟩ := q
        simp only [hx, Except.error.injEq, Prod.mk.injEq] at h
        rw [← h.2, iaddContent_failed _ _ gs.length hgs x y hd s2 t2 er' z hx]

/-- the array of a group -/
def arrAt (n : ℕ) (c : Content Arr n) (gk : List Key) : Option Arr :=
  match n, c, gk with
  | 0, (a : Arr), _ => some a
  | _ + 1, _, [] => none
  | n + 1, (d : List (Key × Content Arr n)), k :: gk =>
    match dget d k with
    | none => none
    | some c => arrAt n c gk

/-- What is in `c` is all of `a`, unchanged, and some of the groups of `b` that `a` has not. -/
def KeptGroups (n : ℕ) (a b c : Content Arr n) : Prop := ∀ gk : List Key, gk.length = n →
  (∀ x, arrAt n a gk = some x → arrAt n c gk = some x) ∧
  (arrAt n a gk = none → arrAt n c gk = none ∨ arrAt n c gk = arrAt n b gk)

/-- Whatever the additions in `iaddLeft` do, it does to each entry of the left-hand side either nothing or the addition. -/
theorem iaddLeft_each {β : Type} (rec : β → β → Res β) (e : List (Key × β)) : ∀ (d l : List (Key × β)),
    (iaddLeft rec e d = .ok l ∨ ∃ er, iaddLeft rec e d = .error (er, l)) →
    ∀ k, (dget d k = none → dget l k = none) ∧ ∀ x, dget d k = some x → ∃ x', dget l k = some x' ∧
      (x' = x ∨ ∃ y, dget e k = some y ∧ (rec x y = .ok x' ∨ ∃ er, rec x y = .error (er, x')))
  | [], l, h, k => by
    have : l = [] := by
      rcases h with h | ⟨er, h⟩
      · simpa [iaddLeft] using h.symm
      · simp [iaddLeft] at h
    subst this
    simp [dget_nil]
  | (k', x) :: d, l, h, k => by
    have ih := iaddLeft_each rec e d
    have key : ∃ x' l', l = (k', x') :: l' ∧ (l' = d ∨ iaddLeft rec e d = .ok l' ∨ ∃ er, iaddLeft rec e d = .error (er, l')) ∧
        (x' = x ∨ ∃ y, dget e k' = some y ∧ (rec x y = .ok x' ∨ ∃ er, rec x y = .error (er, x'))) := by
      simp only [iaddLeft] at h
      cases hk : dget e k' with
      | none =>
        simp only [hk] at h
        cases hl : iaddLeft rec e d with
        | ok r =>
          simp only [hl, Except.ok.injEq, reduceCtorEq, exists_false, or_false] at h
          exact ⟨x, r, h.symm, by simp, Or.inl rfl⟩
        | error q =>
          obtain ⟨er, r⟩ := q
          simp only [hl, Except.error.injEq, Prod.mk.injEq, reduceCtorEq, false_or] at h
          obtain ⟨er', _, h⟩ := h
          exact ⟨x, r, h.symm, by simp, Or.inl rfl⟩
      | some y =>
        simp only [hk] at h
        cases hr : rec x y with
        | error q =>
          obtain ⟨er, x'⟩ := q
          simp only [hr, Except.error.injEq, Prod.mk.injEq, reduceCtorEq, false_or] at h
          obtain ⟨er', _, h⟩ := h
          exact ⟨x', d, h.symm, Or.inl rfl, Or.inr ⟨y, rfl, Or.inr ⟨er, hr⟩⟩⟩
        | ok z =>
          simp only [hr] at h
          cases hl : iaddLeft rec e d with
          | ok r =>
            simp only [hl, Except.ok.injEq, reduceCtorEq, exists_false, or_false] at h
            exact ⟨z, r, h.symm, by simp, Or.inr ⟨y, rfl, Or.inl hr⟩⟩
          | error q =>
            obtain ⟨er, r⟩ := q
            simp only [hl, Except.error.injEq, Prod.mk.injEq, reduceCtorEq, false_or] at h
            obtain ⟨er', _, h⟩ := h
            exact ⟨z, r, h.symm, by simp, Or.inr ⟨y, rfl, Or.inl hr⟩⟩
    obtain ⟨x', l', rfl, hl', hx'⟩ := key
    have ih' : (dget d k = none → dget l' k = none) ∧ ∀ x, dget d k = some x → ∃ x', dget l' k = some x' ∧
      (x' = x ∨ ∃ y, dget e k = some y ∧ (rec x y = .ok x' ∨ ∃ er, rec x y = .error (er, x'))) := by
      rcases hl' with rfl | hl'
      · exact ⟨id, fun x hx => ⟨x, hx, Or.inl rfl⟩⟩
      · exact ih l' hl' k
    simp only [dget_cons]
    by_cases hk : k' = k
    · subst hk
      simp only [if_true]
      refine ⟨by simp, fun z hz => ⟨x', rfl, ?_⟩⟩
      obtain rfl : x = z := by simpa using hz
      exact hx'
    · simp only [hk, if_false]
      exact ih'

/-- Where arrays cannot be added, an in-place addition of contents leaves all of the left-hand side as it was, whether it raises or not. -/
theorem iaddContent_kept (La Lb : Layout)
    (hno : ∀ a b : Arr, Shaped La 0 a → Shaped Lb 0 b → iaddContent 0 a b = .error (.valueError, a)) : ∀ (n : ℕ) (a b c : Content Arr n),
    Shaped La n a → Shaped Lb n b → (iaddContent n a b = .ok c ∨ ∃ er, iaddContent n a b = .error (er, c)) → KeptGroups n a b c
  | 0, (a : Arr), (b : Arr), c, ha, hb, h => by
    rw [hno a b ha hb] at h
    have hc : a = c := by
      rcases h with h | ⟨er, h⟩
      · simp at h
      · exact congrArg Prod.snd (Except.error.inj h)
    subst hc
    intro gk _
    exact ⟨fun x hx => hx, fun hx => by simp [arrAt] at hx⟩
  | n + 1, (d : List (Key × Content Arr n)), (e : List (Key × Content Arr n)), c, ha, hb, h => by
    have ih := iaddContent_kept La Lb hno n
    have hl : ∃ l, (iaddLeft (iaddContent n) e d = .ok l ∨ ∃ er, iaddLeft (iaddContent n) e d = .error (er, l)) ∧
        (c = l ∨ c = (l ++ addRight d e : List (Key × Content Arr n))) := by
      rw [iaddContent] at h
      cases hl : iaddLeft (iaddContent n) e d with
      | ok l =>
        simp only [hl] at h
        rcases h with h | ⟨er, h⟩
        · exact ⟨l, Or.inl rfl, Or.inr (Except.ok.inj h).symm⟩
        · cases h
      | error q =>
        obtain ⟨er, l⟩ := q
        simp only [hl] at h
        rcases h with h | ⟨er', h⟩
        · cases h
        · exact ⟨l, Or.inr ⟨er, rfl⟩, Or.inl (congrArg Prod.snd (Except.error.inj h)).symm⟩
    obtain ⟨l, hl, hc⟩ := hl
    intro gk hgk
    cases gk with
    | nil => simp at hgk
    | cons k gk =>
      have hgk' : gk.length = n := by simpa using hgk
      have each := iaddLeft_each (iaddContent n) e d l hl k
      cases hd : dget d k with
      | none =>
        have hlk := each.1 hd
        have hck : dget (c : List (Key × Content Arr n)) k = none ∨ dget (c : List (Key × Content Arr n)) k = dget e k := by
          rcases hc with rfl | rfl
          · exact Or.inl hlk
          · right
            rw [dget_append, hlk, dget_addRight d e k hd]
            rfl
        refine ⟨fun x hx => by simp [arrAt, hd] at hx, fun _ => ?_⟩
        rcases hck with hck | hck
        · left
          simp [arrAt, hck]
        · right
          simp [arrAt, hck]
      | some x =>
        obtain ⟨x', hx', hxx⟩ := each.2 x hd
        have hck : dget (c : List (Key × Content Arr n)) k = some x' := by
          rcases hc with rfl | rfl
          · exact hx'
          · rw [dget_append, hx']
            rfl
        rcases hxx with rfl | ⟨y, hy, hr⟩
        · simp only [arrAt, hck, hd]
          exact ⟨fun z hz => hz, fun hz => Or.inl hz⟩
        · have := ih x y x' (ha k x hd) (hb k y hy) hr gk hgk'
          simp only [arrAt, hck, hd, hy]
          exact this

/-- Where arrays can be added, an in-place addition of contents succeeds. -/
theorem iaddContent_succeeds (La Lb : Layout) (hok : ∀ a b : Arr, Shaped La 0 a → Shaped Lb 0 b → ∃ c, iaddContent 0 a b = .ok c) :
    ∀ (n : ℕ) (a b : Content Arr n), Distinct n a → Shaped La n a → Shaped Lb n b → ∃ c, iaddContent n a b = .ok c
  | 0, a, b, _, ha, hb => hok a b ha hb
  | n + 1, (d : List (Key × Content Arr n)), (e : List (Key × Content Arr n)), hd, ha, hb => by
    let g : Content Arr n → Content Arr n → Content Arr n := fun x y =>
      match iaddContent n x y with
      | .ok c => c
      | .error _ => x
    have := iaddLeft_ok (iaddContent n) g e d (fun p hp y hy => by
      obtain ⟨c', hc'⟩ := iaddContent_succeeds La Lb hok n p.2 y (hd.2 p hp) (shaped_mem hd ha p hp) (hb _ _ hy)
      simp only [g]
      rw [hc'])
    rw [iaddContent, this]
    exact ⟨_, rfl⟩

/-- C135, partial: with any number of group axes, if `a += b` raises then every group that `a` had has the numbers that it had, and every other
group that it has by then is one of `b` with the numbers of `b`.  What is missing: there may be such groups (`C135_refuted`). -/
theorem C135_own_groups_partial (gs : List GroupAxis) (fixed : List FixedAxis) (np : ℕ) (wk wk' : WKind) (bs bs' : List (List Row))
    (hf : Fillable ⟨gs, fixed, np, wk⟩ bs) (hf' : Fillable ⟨gs, fixed, np, wk'⟩ bs') (a b : Content Arr gs.length)
    (ha : HistDef.fillAll ⟨gs, fixed, np, wk⟩ none bs = .ok (some a)) (hb : HistDef.fillAll ⟨gs, fixed, np, wk'⟩ none bs' = .ok (some b))
    (er : Err) (s : Option (Content Arr gs.length)) (h : iaddState (some a) (some b) = .error (er, s)) :
    ∃ c : Content Arr gs.length, s = some c ∧ ∀ gk : List Key, gk.length = gs.length →
      (∀ x, arrAt gs.length a gk = some x → arrAt gs.length c gk = some x) ∧
      (arrAt gs.length a gk = none → arrAt gs.length c gk = none ∨ arrAt gs.length c gk = arrAt gs.length b gk) := by
  obtain ⟨s', s1, s2, _⟩ := fillAll_rows ⟨gs, fixed, np, wk⟩ bs none trivial hf
  obtain ⟨t', t1, t2, _⟩ := fillAll_rows ⟨gs, fixed, np, wk'⟩ bs' none trivial hf'
  obtain rfl : s' = some a := by rw [ha] at s1; exact (Except.ok.inj s1).symm
  obtain rfl : t' = some b := by rw [hb] at t1; exact (Except.ok.inj t1).symm
  have hd : Distinct gs.length a := fillAll_wellFormed ⟨gs, fixed, np, wk⟩ bs none (some a) trivial ha
  simp only [iaddState] at h
  cases hx : iaddContent gs.length a b with
  | ok z => simp [hx] at h
  | error q =>
    obtain ⟨er', z⟩ := q
    simp only [hx, Except.error.injEq, Prod.mk.injEq] at h
    refine ⟨z, h.2.symm, ?_⟩
    rcases iadd_by_shape (HistDef.layout ⟨gs, fixed, np, wk⟩) (HistDef.layout ⟨gs, fixed, np, wk'⟩) with hok | hno
    · obtain ⟨c, hc⟩ := iaddContent_succeeds _ _ hok gs.length a b hd s2 t2
      rw [hc] at hx
      simp at hx
    · exact iaddContent_kept _ _ hno gs.length a b z s2 t2 (Or.inr ⟨er', hx⟩)

/-- C135 holds for two histograms of the same columns, as there is nothing to raise: with any group axes, the same kind of weight and any
fills, `a += b` succeeds. -/
theorem C135_same_columns (H : HistDef) (bs bs' : List (List Row)) (hf : Fillable H bs) (hf' : Fillable H bs') (a b : H.State)
    (ha : H.fillAll none bs = .ok a) (hb : H.fillAll none bs' = .ok b) : ∃ c, iaddState a b = .ok c := by
  obtain ⟨s', s1, s2, _⟩ := fillAll_rows H bs none trivial hf
  obtain ⟨t', t1, t2, _⟩ := fillAll_rows H bs' none trivial hf'
  obtain rfl : s' = a := by rw [ha] at s1; exact (Except.ok.inj s1).symm
  obtain rfl : t' = b := by rw [hb] at t1; exact (Except.ok.inj t1).symm
  obtain ⟨c, hc, _⟩ := C23_iadd_is_add H s' t' ⟨s2, fillAll_wellFormed H bs none s' trivial ha⟩ ⟨t2, fillAll_wellFormed H bs' none t' trivial hb⟩
  exact ⟨c, hc⟩

/-- `Hist(groupby("g"))`, filled with "a" and "b", `+=` the same with a weight, filled with "b": it raises, and nothing has changed. -/
example : (match (⟨[.groupby], [], 0, .none⟩ : HistDef).fillAll none [[⟨[.key (.str "a")], [], [], none⟩, ⟨[.key (.str "b")], [], [], none⟩]],
      (⟨[.groupby], [], 0, .expr⟩ : HistDef).fillAll none [[⟨[.key (.str "b")], [], [], some 3⟩, ⟨[.key (.str "c")], [], [], some 3⟩]] with
    | .ok a, .ok b =>
      match iaddState (n := 1) a b with
      | .error (e, some c) => some (e, colsAt 1 c [.str "a"], colsAt 1 c [.str "b"], colsAt 1 c [.str "c"])
      | _ => none
    | _, _ => none) = some (.valueError, some 1, some 1, none) := by decide +kernel

/-- C135 does not hold: `Hist(groupby("g"), groupby("h"))`, filled with ("a", "x") and ("b", "x"), `+=` the same with a weight, filled with
("a", "y") and ("b", "x"): it raises at ("b", "x"), and by then has the group ("a", "y") of the other one. -/
theorem C135_refuted :
    (match (⟨[.groupby, .groupby], [], 0, .none⟩ : HistDef).fillAll none
        [[⟨[.key (.str "a"), .key (.str "x")], [], [], none⟩], [⟨[.key (.str "b"), .key (.str "x")], [], [], none⟩]],
      (⟨[.groupby, .groupby], [], 0, .expr⟩ : HistDef).fillAll none
        [[⟨[.key (.str "a"), .key (.str "y")], [], [], some 3⟩], [⟨[.key (.str "b"), .key (.str "x")], [], [], some 3⟩]] with
    | .ok (some a), .ok b =>
      match iaddState (n := 2) (some a) b with
      | .error (e, some c) => some (e, colsAt 2 a [.str "a", .str "y"], colsAt 2 c [.str "a", .str "y"])
      | _ => none
    | _, _ => none) = some (.valueError, none, some 2) := by decide +kernel

/-- The same, seen from the groups that it had: both keep their single entry, and ("b", "x") is not the other one's. -/
example :
    (match (⟨[.groupby, .groupby], [], 0, .none⟩ : HistDef).fillAll none
        [[⟨[.key (.str "a"), .key (.str "x")], [], [], none⟩], [⟨[.key (.str "b"), .key (.str "x")], [], [], none⟩]],
      (⟨[.groupby, .groupby], [], 0, .expr⟩ : HistDef).fillAll none
        [[⟨[.key (.str "a"), .key (.str "y")], [], [], some 3⟩], [⟨[.key (.str "b"), .key (.str "x")], [], [], some 3⟩]] with
    | .ok (some a), .ok b =>
      match iaddState (n := 2) (some a) b with
      | .error (_, some c) => some ((arrAt 2 c [.str "a", .str "x"]).map (fun x => x.get [] 0), (arrAt 2 c [.str "b", .str "x"]).map (fun x => x.get [] 0),
          (arrAt 2 c [.str "a", .str "y"]).map (fun x => x.get [] 1), (arrAt 2 c [.str "b", .str "y"]).map (fun x => x.get [] 1))
      | _ => none
    | _, _ => none) = some (some 1, some 1, some 9, none) := by decide +kernel

/-- C135 does not hold with one group axis either, if the left-hand side is a sum of a weighted and an unweighted histogram: `w` with the group
"a" plus `u` with the group "b", `+=` a weighted histogram with both: it raises at "b", and by then "a" has been counted. -/
theorem C135_refuted_after_sum :
    (match (⟨[.groupby], [], 0, .expr⟩ : HistDef).fillAll none [[⟨[.key (.str "a")], [], [], some 3⟩]],
      (⟨[.groupby], [], 0, .none⟩ : HistDef).fillAll none [[⟨[.key (.str "b")], [], [], none⟩]],
      (⟨[.groupby], [], 0, .expr⟩ : HistDef).fillAll none [[⟨[.key (.str "a")], [], [], some 5⟩, ⟨[.key (.str "b")], [], [], some 7⟩]] with
    | .ok w, .ok u, .ok v =>
      match addState (n := 1) w u with
      | .ok (some s) =>
        match iaddState (n := 1) (some s) v with
        | .error (e, some c) => some (e, lookup 1 s [.str "a"] [] 0, lookup 1 c [.str "a"] [] 0)
        | _ => none
      | _ => none
    | _, _, _ => none) = some (.valueError, 3, 8) := by decide +kernel

end Verif
