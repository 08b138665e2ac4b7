import Verif.PropsSelectExpr

/-!
# The exceptions of refused selections on intbin axes

`C99_intbin_error_refuted` shows three selections.  Here is the exception that every histogram raises when an intbin
axis has the quantity of the comparison and cannot select it.
-/

namespace Verif

/-- The quantity of the comparison is not that of the axis. -/
def Elsewhere (expr : E) (c : CutArg) (p : FixedAxis × E) : Prop := E.same c.expr p.2 = false ∧ ¬ (p.1 = .cut ∧ E.same expr p.2 = true)

/-- Axes with other quantities only exchange what is remembered. -/
theorem searchAxis_elsewhere (expr : E) (c : CutArg) (tol : ℚ) : ∀ (l : List (FixedAxis × E)) (i : ℕ) (m : Miss), (∀ p ∈ l, Elsewhere expr c p) →
    searchAxis (fixedStep expr c tol) l i m = .ok (.no (if l.length % 2 = 0 then m else m.swap))
  | [], i, m, _ => by simp [searchAxis]
  | (a, e) :: l, i, m, h => by
    have h1 := h (a, e) (by simp)
    have ih := searchAxis_elsewhere expr c tol l (i + 1) m.swap (fun p hp => h p (by simp [hp]))
    have hs : fixedStep expr c tol a e m.swap = .ok (.no m.swap) := by
      unfold fixedStep
      rw [if_neg h1.2, if_neg (by simp [h1.1])]
    simp only [searchAxis, hs, ih, List.length_cons]
    have hsw : m.swap.swap = m := rfl
    rcases Nat.mod_two_eq_zero_or_one l.length with h0 | h0
    · have : (l.length + 1) % 2 = 1 := by omega
      simp [h0, this]
    · have : (l.length + 1) % 2 = 0 := by omega
      simp [h0, this, hsw]

/-- Group axes with other quantities remember nothing. -/
theorem searchAxis_groups_elsewhere (mc : String → Option Num) (asBool : Bool) (limit : ℕ) (c : CutArg) (tol : ℚ)
    (hor : ∀ args s, c.expr ≠ .node .lor args s) :
    ∀ (l : List (GroupAxis × E)) (i : ℕ), (∀ p ∈ l, E.same c.expr p.2 = false) →
    searchAxis (groupStep mc asBool limit c tol) l i ⟨none, none, none⟩ = .ok (.no ⟨none, none, none⟩)
  | [], i, _ => rfl
  | (a, e) :: l, i, h => by
    have ih := searchAxis_groups_elsewhere mc asBool limit c tol hor l (i + 1) (fun p hp => h p (by simp [hp]))
    have hs : groupStep mc asBool limit c tol a e ⟨none, none, none⟩ = .ok (.no ⟨none, none, none⟩) := by
      unfold groupStep
      split
      · rename_i args s hx
        exact absurd hx (hor _ _)
      · unfold groupOne
        rw [if_neg (by simp [h (a, e) (by simp)])]
    have hsw : (⟨none, none, none⟩ : Miss).swap = ⟨none, none, none⟩ := rfl
    simp only [searchAxis, hsw, hs, ih]

/-- The search goes through the axes before one, then that one, then those after it. -/
theorem searchAxis_at (expr : E) (c : CutArg) (tol : ℚ) (a : FixedAxis) (e : E) (post : List (FixedAxis × E)) (m' : Miss)
    (hpost : ∀ p ∈ post, Elsewhere expr c p) (hstep : fixedStep expr c tol a e ⟨none, none, none⟩ = .ok (.no m')) :
    ∀ (pre : List (FixedAxis × E)) (i : ℕ), (∀ p ∈ pre, Elsewhere expr c p) →
    searchAxis (fixedStep expr c tol) (pre ++ (a, e) :: post) i ⟨none, none, none⟩ = .ok (.no (if post.length % 2 = 0 then m' else m'.swap))
  | [], i, _ => by
    have hsw : (⟨none, none, none⟩ : Miss).swap = ⟨none, none, none⟩ := rfl
    simp only [List.nil_append, searchAxis, hsw, hstep]
    exact searchAxis_elsewhere expr c tol post (i + 1) m' hpost
  | (b, f) :: pre, i, h => by
    have h1 := h (b, f) (by simp)
    have ih := searchAxis_at expr c tol a e post m' hpost hstep pre (i + 1) (fun p hp => h p (by simp [hp]))
    have hsw : (⟨none, none, none⟩ : Miss).swap = ⟨none, none, none⟩ := rfl
    have hs : fixedStep expr c tol b f ⟨none, none, none⟩ = .ok (.no ⟨none, none, none⟩) := by
      unfold fixedStep
      rw [if_neg h1.2, if_neg (by simp [h1.1])]
    simp only [List.cons_append, searchAxis, hsw, hs]
    exact ih

/-- C99 is false for the exceptions of every histogram with an intbin axis.  Let a comparison with a number within the range of the axis have the
quantity of that axis and of no other.  An equality (or inequality) with an integer raises `AttributeError` wherever the axis is; a comparison
of any kind with a number that is no integer raises `ValueError` or `AttributeError` by whether an even or an odd number of axes follow. -/
theorem C99_refuted_intbin_error (mc : String → Option Num) (asBool : Bool) (limit : ℕ) (tol : ℚ) (ht : 0 ≤ tol) (expr : E) (hbool : expr.head.boolean = true)
    (c : CutArg) (hc : normalizeexpr mc asBool expr = .ok c) (hor : ∀ args s, c.expr ≠ .node .lor args s)
    (groups : List (GroupAxis × E)) (pre post : List (FixedAxis × E)) (a : IntbinAxis) (e : E) (profs : List E) (w : Option E)
    (hgroups : ∀ p ∈ groups, E.same c.expr p.2 = false) (hpre : ∀ p ∈ pre, Elsewhere expr c p) (hpost : ∀ p ∈ post, Elsewhere expr c p)
    (he : E.same c.expr e = true) (v : ℚ) (hv : c.value = .key (.num v)) (hmin : (a.min : ℚ) ≤ v) (hmax : v ≤ a.max)
    (st : HistDef.State (HistExprs.hist ⟨groups, pre ++ (.intbin a, e) :: post, profs, w⟩)) :
    (|v - pyRound v| < tol → (c.cmp = .eq ∨ c.cmp = .ne) →
      HistExprs.selectTerm mc asBool limit tol expr ⟨⟨groups, pre ++ (.intbin a, e) :: post, profs, w⟩, st⟩ = .error .attributeError) ∧
    (tol ≤ |v - pyRound v| →
      HistExprs.selectTerm mc asBool limit tol expr ⟨⟨groups, pre ++ (.intbin a, e) :: post, profs, w⟩, st⟩ =
        .error (if post.length % 2 = 0 then .valueError else .attributeError)) := by
  have h1 : ¬ (v + tol < a.min) := by push Not; linarith
  have h2 : ¬ (v - tol > a.max) := by push Not; linarith
  have hnum : c.value.num? = some (.fin v) := by rw [hv]; rfl
  have step : ∀ b, a.select c.cmp (.fin v) tol = .ok (.no (some (pyRound v : ℚ)) b) →
      fixedStep expr c tol (.intbin a) e ⟨none, none, none⟩ = .ok (.no ⟨some (pyRound v : ℚ), some false, if b then some false else none⟩) := by
    intro b hb
    unfold fixedStep
    rw [if_neg (by simp), if_pos he]
    simp only [FixedAxis.selectArg, hnum, FixedAxis.select, hb]
    cases b <;> rfl
  have fin : ∀ m', fixedStep expr c tol (.intbin a) e ⟨none, none, none⟩ = .ok (.no m') →
      HistExprs.selectTerm mc asBool limit tol expr ⟨⟨groups, pre ++ (.intbin a, e) :: post, profs, w⟩, st⟩ =
        .error (if post.length % 2 = 0 then m' else m'.swap).error := by
    intro m' hm
    unfold HistExprs.selectTerm
    rw [if_neg (by simp [hbool])]
    simp only [hc, searchAxis_groups_elsewhere mc asBool limit c tol hor groups 0 hgroups,
      searchAxis_at expr c tol (.intbin a) e post m' hpost hm pre 0 hpre]
  constructor
  · intro hr hcmp
    have hs : a.select c.cmp (.fin v) tol = .ok (.no (some (pyRound v : ℚ)) true) := by
      simp only [IntbinAxis.select, if_neg h1, if_neg h2, if_pos hr]
      rcases hcmp with h | h <;> simp [h]
    rw [fin _ (step true hs)]
    split <;> rfl
  · intro hr
    have hs : a.select c.cmp (.fin v) tol = .ok (.no (some (pyRound v : ℚ)) false) := by
      simp only [IntbinAxis.select, if_neg h1, if_neg h2, if_neg (not_lt.2 hr)]
    rw [fin _ (step false hs)]
    split <;> rfl

/-- `intbin("x", 0, 5)` with none, one or two axes after it, `x < 2.5`: `ValueError`, `AttributeError`, `ValueError`. -/
example :
    selDemo [] [(.intbin ⟨0, 5, true, true⟩, .name "x")] demoRows (cmp1 (.name "x") .lt (.num (5 / 2))) = .error .valueError ∧
    selDemo [] [(.intbin ⟨0, 5, true, true⟩, .name "x"), (demoBin, .name "y")] demoRows (cmp1 (.name "x") .lt (.num (5 / 2)))
      = .error .attributeError ∧
    selDemo [] [(.intbin ⟨0, 5, true, true⟩, .name "x"), (demoBin, .name "y"), (.intbin ⟨0, 5, true, true⟩, .name "z")] demoRows
      (cmp1 (.name "x") .lt (.num (5 / 2))) = .error .valueError :=
  ⟨by decide +kernel, by decide +kernel, by decide +kernel⟩

/-- The axis is a bin axis with ordinary bins or a split axis with edges. -/
def FixedAxis.Edged : FixedAxis → Prop
  | .bin a => a.low < a.high ∧ 0 < a.numbins
  | .split a => a.edges ≠ []
  | .intbin _ => False
  | .cut => False

/-- What is remembered has low edges that can be asked for. -/
def Miss.Edged (m : Miss) : Prop := m.closestaxis ≠ some false ∧ m.wrongcmpaxis ≠ some false

theorem checktot_error {α : Type} (n : ℕ) (r : SelRes α) (er : Err) (h : checktot n r = .error er) : er = .valueError := by
  unfold checktot at h
  split at h
  · exact (Except.error.inj h).symm
  · simp at h

theorem nearestEdge_isSome (v : ℚ) : ∀ (l : List ℚ) (i : ℕ), l ≠ [] → ∃ p, nearestEdge v l i = some p
  | [], _, h => absurd rfl h
  | x :: xs, i, _ => by
    unfold nearestEdge
    split
    · exact ⟨_, rfl⟩
    · split <;> exact ⟨_, rfl⟩

theorem edged_select_error (a : FixedAxis) (ha : a.Edged) (cmp : Cmp) (v tol : ℚ) (er : Err) (h : a.select cmp (.fin v) tol = .error er) :
    er = .valueError := by
  have map_err : ∀ {α β : Type} (f : α → β) (x : Except Err α), x.map f = .error er → x = .error er := by
    intro α β f x hx
    cases x with
    | error e => simpa [Except.map] using hx
    | ok y => simp [Except.map] at hx
  cases a with
  | intbin a => exact ha.elim
  | cut => exact ha.elim
  | bin a =>
    obtain ⟨h1, h2⟩ := ha
    have h := map_err _ _ h
    have d0 : a.high - a.low ≠ 0 := by linarith
    have s0 : (a.numbins : ℚ) / (a.high - a.low) ≠ 0 := by
      have : (a.numbins : ℚ) ≠ 0 := by exact_mod_cast h2.ne'
      exact div_ne_zero this d0
    simp only [BinAxis.select, reduceCtorEq, false_and, or_self, if_false, if_neg d0, if_neg s0] at h
    split at h
    · split at h
      · exact checktot_error _ _ _ h
      · split at h
        · exact checktot_error _ _ _ h
        · simp at h
    · simp at h
  | split a =>
    have h := map_err _ _ h
    obtain ⟨p, hp⟩ := nearestEdge_isSome v a.edges 0 ha
    simp only [SplitAxis.select, reduceCtorEq, false_and, or_self, if_false, hp] at h
    split at h
    · split at h
      · exact checktot_error _ _ _ h
      · split at h
        · exact checktot_error _ _ _ h
        · simp at h
    · simp at h

theorem note_edged (m : Miss) (hm : m.Edged) (v : SelVal) (close : Option ℚ) (w : Bool) : (m.note v true close w).Edged := by
  obtain ⟨m1, m2⟩ := hm
  unfold Miss.note
  have key : ∀ m' : Miss, m'.Edged → (if w = true then { m' with wrongcmpaxis := some true } else m').Edged := by
    intro m' h
    split
    · exact ⟨h.1, by simp⟩
    · exact h
  apply key
  cases close with
  | none => exact ⟨m1, m2⟩
  | some q =>
    have key2 : ∀ (P : Prop) [Decidable P], (if P then { m with closest := some q, closestaxis := some true } else m : Miss).Edged := by
      intro P _
      split
      · exact ⟨by simp, m2⟩
      · exact ⟨m1, m2⟩
    exact key2 _

theorem searchAxis_edged (expr : E) (c : CutArg) (tol v : ℚ) (hv : c.value = .key (.num v)) : ∀ (l : List (FixedAxis × E)) (i : ℕ) (m : Miss),
    (∀ p ∈ l, p.1.Edged) → m.Edged →
    (∀ er, searchAxis (fixedStep expr c tol) l i m = .error er → er = .valueError) ∧
    (∀ m', searchAxis (fixedStep expr c tol) l i m = .ok (.no m') → m'.Edged)
  | [], i, m, _, hm => by
    simp only [searchAxis]
    refine ⟨fun er h => by simp at h, fun m' h => ?_⟩
    simp only [Except.ok.injEq, Found.no.injEq] at h
    exact h ▸ hm
  | (a, e) :: l, i, m, h, hm => by
    have ha := h (a, e) (by simp)
    have ih := fun m' hm' => searchAxis_edged expr c tol v hv l (i + 1) m' (fun p hp => h p (by simp [hp])) hm'
    have hsw : m.swap.Edged := ⟨hm.2, hm.1⟩
    have hclosed : a.hasClosed = true := by
      cases a with
      | bin a => rfl
      | split a => rfl
      | intbin a => exact ha.elim
      | cut => exact ha.elim
    have hcut : a ≠ .cut := by
      rintro rfl
      exact ha
    have hnum : c.value.num? = some (.fin v) := by rw [hv]; rfl
    have harg : a.selectArg c tol = (a.select c.cmp (.fin v) tol).map (SelRes.map some) := by
      cases a with
      | cut => exact absurd rfl hcut
      | bin a => simp only [FixedAxis.selectArg, hnum]
      | split a => simp only [FixedAxis.selectArg, hnum]
      | intbin a => simp only [FixedAxis.selectArg, hnum]
    have hnote : ∀ close w, (m.swap.note c.value a.hasClosed close w).Edged := by
      rw [hclosed]
      exact note_edged m.swap hsw c.value
    have hstep : (∀ er, fixedStep expr c tol a e m.swap = .error er → er = .valueError) ∧
        (∀ m', fixedStep expr c tol a e m.swap = .ok (.no m') → m'.Edged) := by
      unfold fixedStep
      rw [if_neg (fun h => hcut h.1)]
      by_cases he : E.same c.expr e = true
      · rw [if_pos he]
        cases hr : a.selectArg c tol with
        | error er' =>
          simp only [Except.error.injEq, reduceCtorEq, false_imp_iff, implies_true, and_true]
          rintro er rfl
          rw [harg] at hr
          cases hs : a.select c.cmp (.fin v) tol with
          | ok y => simp [hs, Except.map] at hr
          | error er'' =>
            rw [hs] at hr
            have : er'' = er' := by simpa [Except.map] using hr
            exact this ▸ edged_select_error a ha c.cmp v tol er'' hs
        | ok r =>
          cases r with
          | cut a' s => simp
          | no close w =>
            simp only [Except.ok.injEq, Found.no.injEq, reduceCtorEq, false_imp_iff, implies_true, true_and]
            rintro m' rfl
            exact hnote close w
      · rw [if_neg he]
        simp only [Except.ok.injEq, Found.no.injEq, reduceCtorEq, false_imp_iff, implies_true, true_and]
        rintro m' rfl
        exact hsw
    simp only [searchAxis]
    cases hs : fixedStep expr c tol a e m.swap with
    | error er' =>
      simp only [Except.error.injEq, reduceCtorEq, false_imp_iff, implies_true, and_true]
      rintro er rfl
      exact hstep.1 _ hs
    | ok r =>
      cases r with
      | yes b => simp
      | no m' => exact ih m' (hstep.2 m' hs)

/-- **C99**, exceptions: if all fixed axes are bin axes with ordinary bins or split axes, a comparison with a number whose quantity is that of no
group axis either works or raises `ValueError`, whatever the content. -/
theorem C99_value_error (mc : String → Option Num) (asBool : Bool) (limit : ℕ) (tol : ℚ) (expr : E) (hbool : expr.head.boolean = true)
    (c : CutArg) (hc : normalizeexpr mc asBool expr = .ok c) (hor : ∀ args s, c.expr ≠ .node .lor args s) (v : ℚ) (hv : c.value = .key (.num v))
    (X : HistExprs) (hgroups : ∀ p ∈ X.groups, E.same c.expr p.2 = false) (hfixed : ∀ p ∈ X.fixed, p.1.Edged) (st : X.hist.State) (er : Err)
    (h : HistExprs.selectTerm mc asBool limit tol expr ⟨X, st⟩ = .error er) : er = .valueError := by
  unfold HistExprs.selectTerm at h
  rw [if_neg (by simp [hbool])] at h
  simp only [hc, searchAxis_groups_elsewhere mc asBool limit c tol hor X.groups 0 hgroups] at h
  obtain ⟨k1, k2⟩ := searchAxis_edged expr c tol v hv X.fixed 0 ⟨none, none, none⟩ hfixed ⟨by simp, by simp⟩
  cases hs : searchAxis (fixedStep expr c tol) X.fixed 0 ⟨none, none, none⟩ with
  | error er' =>
    simp only [hs, Except.error.injEq] at h
    exact h ▸ k1 er' hs
  | ok r =>
    cases r with
    | yes b => simp [hs] at h
    | no m =>
      simp only [hs, Except.error.injEq] at h
      obtain ⟨m1, m2⟩ := k2 m hs
      rw [← h]
      unfold Miss.error
      cases hm : m.wrongcmpaxis with
      | none => rfl
      | some b =>
        cases b with
        | true => rfl
        | false => exact absurd hm m2

/-- `bin("x", 4, 0, 4)` and `split("y", [0, 1, 5])`: `x < 2.5`, `x == 2` and `y <= 1` raise `ValueError`. -/
example :
    selDemo [] [(demoBin, .name "x"), (.split ⟨[0, 1, 5], true, true, true, true⟩, .name "y")] demoRows (cmp1 (.name "x") .lt (.num (5 / 2))) = .error .valueError ∧
    selDemo [] [(demoBin, .name "x"), (.split ⟨[0, 1, 5], true, true, true, true⟩, .name "y")] demoRows (cmp1 (.name "x") .eq (.num 2)) = .error .valueError ∧
    selDemo [] [(demoBin, .name "x"), (.split ⟨[0, 1, 5], true, true, true, true⟩, .name "y")] demoRows (cmp1 (.name "y") .le (.num 1)) = .error .valueError :=
  ⟨by decide +kernel, by decide +kernel, by decide +kernel⟩

end Verif
