import Verif.SelectExprSteps

/-!
# `select` with a boolean expression: property theorems C99
-/

namespace Verif

/-- The conditions of an "and", or the condition itself. -/
def E.conditions : E → List E
  | .node .land args _ => args
  | e => [e]

theorem eval_land (env : RowEnv) (args n : List E) :
    truth (E.eval env (.node .land args n)) = args.all fun c => truth (c.eval env) := by
  simp only [E.eval, Head.apply, truth_ofBool, E.evalL_eq, List.all_map]
  rfl

/-- C99 (partial).  `select` with a boolean expression (comparisons of the expressions of axes with constants, on
either side; fields and their negations; "and"s of these; "or"s of two): the result has the content that it would
have with only those rows in which the expression is true.  Each of its axes comes from an axis of the histogram with
the same expression.

Full statement: for any boolean expression that is accepted, without asking anything of the rows.  That is false:
"or"s of more terms (C39), fields named like constants (`C99_name_is_constant_refuted`), rows between a constant and
an edge near it (C37).  Infinite constants and strings are not treated. -/
theorem C99_select_partial (mc : String → Option Num) (asBool : Bool) (limit : ℕ) (hl : 2 ≤ limit) (tol : ℚ) (cond : E) (X : HistExprs)
    (hX : X.Fits tol) (envs : List RowEnv) (hne : envs ≠ []) (bs : List (List Row)) (hbs : bs.flatten = envs.map X.rowOf)
    (hf : Fillable X.hist bs) (st : X.hist.State) (hst : X.hist.fillAll none bs = .ok st)
    (hclear : ∀ env ∈ envs, ∀ c ∈ cond.conditions, ClearTerm mc X tol env c) (r : Filled)
    (h : selectExpr mc asBool limit tol cond ⟨X, st⟩ = .ok r) :
    Represents r.1.hist ((envs.filter fun env => truth (cond.eval env)).map r.1.rowOf) r.2 ∧
      r.1.groups = X.groups ∧ (∀ p ∈ r.1.fixed, ∃ q ∈ X.fixed, p.2 = q.2) ∧
      ∀ bs', bs'.flatten = (envs.filter fun env => truth (cond.eval env)).map r.1.rowOf → Fillable r.1.hist bs' → r.1.hist.ReadsLikeFill r.2 bs' := by
  obtain ⟨st0, e1, e2⟩ := Represents.ofFill X.hist bs hf
  rw [hst] at e1
  cases e1
  rw [hbs] at e2
  have hok : ∀ env ∈ envs, (X.rowOf env).Ok X.hist := by
    intro env henv
    have : X.rowOf env ∈ bs.flatten := by rw [hbs]; exact List.mem_map.2 ⟨env, henv, rfl⟩
    obtain ⟨b, hb, hr⟩ := List.mem_flatten.1 this
    exact hf.ok b hb _ hr
  have hcuts : ∀ env ∈ envs, X.CutsDecide env := fun env henv => cutsDecide_of (hok env henv)
  have key : Represents r.1.hist ((envs.filter fun env => truth (cond.eval env)).map r.1.rowOf) r.2 ∧ r.1.Within X := by
    unfold selectExpr at h
    split at h
    · rename_i args n
      obtain ⟨h1, h2, _⟩ := selectTerms_selected hl hne (fun _ h => h) hX hclear hcuts e2 h
      simp only [eval_land]
      exact ⟨h1, h2⟩
    · rename_i hnot
      have hc : cond.conditions = [cond] := by
        obtain ⟨hd, p, n⟩ := cond
        cases hd <;> first | rfl | exact absurd rfl (hnot _ _)
      have h1 := selectTerm_selected hl (fun _ h => h) hne hX (fun env henv => hclear env henv cond (by simp [hc])) hcuts e2 h
      exact ⟨h1.rep, h1.within⟩
  refine ⟨key.1, key.2.groups, fun p hp => ?_, fun bs' h1 h2 => key.1.readsLikeFill bs' h1 h2⟩
  obtain ⟨q, hq, h1, _⟩ := key.2.fixed p hp
  exact ⟨q, hq, h1⟩

/-- C99 (partial) for a written condition of the class of C50: the rows for which the condition as it is written is
true. -/
theorem C99_written_partial (mc : String → Option Num) (asBool : Bool) (limit : ℕ) (hl : 2 ≤ limit) (tol : ℚ) (s : Py) (cond : E)
    (known : String → Bool) (hs : parseExpr (plainScope known) s = .ok cond) (hc : s.condClass known = true) (X : HistExprs) (hX : X.Fits tol)
    (envs : List RowEnv) (hne : envs ≠ []) (hp : ∀ env ∈ envs, PowLaw env) (hn : ∀ env ∈ envs, Py.NaNSafe env true s) (bs : List (List Row))
    (hbs : bs.flatten = envs.map X.rowOf) (hf : Fillable X.hist bs) (st : X.hist.State) (hst : X.hist.fillAll none bs = .ok st)
    (hclear : ∀ env ∈ envs, ∀ c ∈ cond.conditions, ClearTerm mc X tol env c) (r : Filled)
    (h : selectExpr mc asBool limit tol cond ⟨X, st⟩ = .ok r) :
    Represents r.1.hist ((envs.filter fun env => truth (Py.val env env.field s)).map r.1.rowOf) r.2 := by
  have h1 := (C99_select_partial mc asBool limit hl tol cond X hX envs hne bs hbs hf st hst hclear r h).1
  have e : (envs.filter fun env => truth (cond.eval env)) = envs.filter fun env => truth (Py.val env env.field s) :=
    List.filter_congr fun env henv => by rw [C50_truth_partial (hp env henv) known s cond hs hc (hn env henv)]
  rwa [e] at h1

/-! ## examples -/

/-- The expressions of axes. -/
def parseAxes {α : Type} (l : List (α × Py)) : Except Err (List (α × E)) :=
  l.mapM fun p => (parseExpr (plainScope recognized) p.2).map fun e => (p.1, e)

/-- The content of a histogram with at most one group axis: the keys, each with the contents of the bins. -/
def showContent : (n : ℕ) → Content Arr n → ℕ → List (List Key × List ℚ)
  | 0, (a : Arr), bins => [([], (List.range bins).map fun i => a.get [i] 0)]
  | n + 1, (d : List (Key × Content Arr n)), bins => d.flatMap fun p => (showContent n p.2 bins).map fun q => (p.1 :: q.1, q.2)

/-- A histogram with the given axes is made, filled with the rows and selected with a condition; the axes and
contents (of at most one fixed axis that stays). -/
def selDemo (groups : List (GroupAxis × Py)) (fixed : List (FixedAxis × Py)) (rows : List (List (String × ℚ))) (cond : Py) (asBool : Bool := false) :
    Except Err (List FixedAxis × List (List Key × List ℚ)) :=
  match parseAxes groups, parseAxes fixed, parseExpr (plainScope recognized) cond with
  | .ok g, .ok f, .ok c =>
    let X : HistExprs := ⟨g, f, [], none⟩
    match X.hist.fillAll none [rows.map fun r => X.rowOf ⟨fun s => r.lookup s, fun _ _ => none⟩] with
    | .error e => .error e.1
    | .ok st =>
      match selectExpr maybeconstants asBool 1000 (1 / 10 ^ 12) c ⟨X, st⟩ with
      | .error e => .error e
      | .ok r =>
        .ok (r.1.fixed.map (·.1), match r.2 with | none => [] | some d => showContent _ d ((r.1.fixed.map (·.1.totbins)).headD 1))
  | _, _, _ => .error .expression

/-- The axis `bin("x", 4, 0, 4)`. -/
def demoBin : FixedAxis := .bin ⟨4, 0, 4, true, true, true, true⟩

/-- Four rows. -/
def demoRows : List (List (String × ℚ)) :=
  [[("x", 1), ("y", 1), ("p", 0), ("e", 5)], [("x", 2), ("y", 3), ("p", 1), ("e", 5)], [("x", 2), ("y", 5), ("p", 1), ("e", 5)],
    [("x", 3), ("y", 0), ("p", 0), ("e", 5)]]

/-- One comparison. -/
def cmp1 (a : Py) (op : PyCmp) (b : Py) : Py := .compare a [op] [b]

/-- `1 <= x < 3` -/
example : selDemo [] [(demoBin, .name "x")] demoRows (.compare (.num 1) [.le, .lt] [.name "x", .num 3])
    = .ok ([.bin ⟨2, 1, 3, false, false, false, true⟩], [([], [1, 2])]) := by decide +kernel

/-- `p and 1 <= x` with a cut axis -/
example : selDemo [] [(demoBin, .name "x"), (.cut, .name "p")] demoRows (.land [.name "p", cmp1 (.num 1) .le (.name "x")])
    = .ok ([.bin ⟨3, 1, 4, false, true, false, true⟩], [([], [0, 2, 0, 0])]) := by decide +kernel

/-- `not p` and `p == False` -/
example : selDemo [] [(demoBin, .name "x"), (.cut, .name "p")] demoRows (.lnot (.name "p")) = .ok ([demoBin], [([], [0, 0, 1, 0, 1, 0, 0])]) ∧
    selDemo [] [(demoBin, .name "x"), (.cut, .name "p")] demoRows (cmp1 (.name "p") .eq (.num 0)) true
      = .ok ([demoBin], [([], [0, 0, 1, 0, 1, 0, 0])]) := by decide +kernel

/-- `x == 2 or x == 3` with a group axis -/
example : selDemo [(.groupby, .name "x")] [(demoBin, .name "y")] demoRows (.lor [cmp1 (.name "x") .eq (.num 2), cmp1 (.name "x") .eq (.num 3)])
    = .ok ([demoBin], [([.num 2], [0, 0, 0, 0, 1, 1, 0]), ([.num 3], [0, 1, 0, 0, 0, 0, 0])]) := by decide +kernel

/-- The rows with fields. -/
def demoEnvs : List RowEnv := demoRows.map fun r => ⟨fun s => r.lookup s, fun _ _ => none⟩

/-- The histogram of `x`. -/
def demoHist : HistExprs := ⟨[], [(demoBin, .name "x")], [], none⟩

/-- `x < 2` meets what `C99_select_partial` asks. -/
example : demoHist.Fits (1 / 10 ^ 12) ∧ demoEnvs ≠ [] ∧
    ∀ env ∈ demoEnvs, ∀ c ∈ (E.node (.rel .lt) [.name "x", .const 2] []).conditions, ClearTerm maybeconstants demoHist (1 / 10 ^ 12) env c := by
  refine ⟨⟨by simp [demoHist], ?_⟩, by decide, ?_⟩
  · intro p hp
    simp only [demoHist, List.mem_cons, List.not_mem_nil, or_false] at hp
    subst hp
    exact Or.inr (by norm_num)
  · intro env henv c hc
    simp only [E.conditions, List.mem_cons, List.not_mem_nil, or_false] at hc
    subst hc
    refine Or.inl ⟨_, _, rfl, by decide, by decide, by simp, ?_, ?_, ?_, ?_⟩
    · intro h
      have := h "x" (by simp [E.names])
      exact absurd this (by decide)
    · intro _ s hs
      simp [E.names] at hs
    · rintro q v x hq hv hx hlt
      simp only [E.eval, Head.apply, Option.some.injEq] at hv
      subst hv
      rcases hx with ⟨p, hp, _⟩ | ⟨p, hp, _, hp2⟩
      · simp [demoHist] at hp
      · simp only [demoHist, List.mem_cons, List.not_mem_nil, or_false] at hp
        subst hp
        obtain ⟨m, hm, rfl⟩ := hp2
        left
        have hm : m ≤ 4 := hm
        have hmm : m = 0 ∨ m = 1 ∨ m = 2 ∨ m = 3 ∨ m = 4 := by omega
        rcases hmm with rfl | rfl | rfl | rfl | rfl
        · exact absurd hlt (by decide +kernel)
        · exact absurd hlt (by decide +kernel)
        · decide +kernel
        · exact absurd hlt (by decide +kernel)
        · exact absurd hlt (by decide +kernel)
    · rintro q v x _ _ hx _
      rcases hx with ⟨p, hp, _⟩ | ⟨p, hp, h, _⟩
      · simp [demoHist] at hp
      · simp only [demoHist, List.mem_cons, List.not_mem_nil, or_false] at hp
        subst hp
        exact absurd h (by decide)

/-! ## what `select` refuses -/

theorem searchAxis_none {α β : Type} {step : α → E → Miss → Except Err (Found β)} : ∀ (l : List (α × E)) (i : ℕ),
    (∀ p ∈ l, step p.1 p.2 ⟨none, none, none⟩ = .ok (.no ⟨none, none, none⟩)) →
    searchAxis step l i ⟨none, none, none⟩ = .ok (.no ⟨none, none, none⟩)
  | [], _, _ => rfl
  | (a, e) :: rest, i, h => by
    simp only [searchAxis, Miss.swap, h (a, e) (by simp)]
    exact searchAxis_none rest (i + 1) fun p hp => h p (by simp [hp])

/-- C99.  An "or" cannot be selected in a histogram without group axes, even if each of its terms can, unless it
is the expression of an axis. -/
theorem C99_or_refused (mc : String → Option Num) (asBool : Bool) (limit : ℕ) (tol : ℚ) (args n : List E) (X : HistExprs) (hg : X.groups = [])
    (hx : ∀ p ∈ X.fixed, p.2 ≠ .node .lor args n) (st : X.hist.State) :
    selectExpr mc asBool limit tol (.node .lor args n) ⟨X, st⟩ = .error .valueError := by
  have hs : searchAxis (fixedStep (.node .lor args n) (cutTrue (.node .lor args n) .eq) tol) X.fixed 0 ⟨none, none, none⟩ =
      .ok (.no ⟨none, none, none⟩) := by
    refine searchAxis_none _ _ fun p hp => ?_
    have h : E.same (.node .lor args n) p.2 = false := by
      cases h : E.same (.node .lor args n) p.2 with
      | false => rfl
      | true => exact absurd (E.same_iff.1 h).symm (hx p hp)
    simp [fixedStep, cutTrue, h]
  simp only [selectExpr, HistExprs.selectTerm, E.head, Head.boolean, normalizeexpr, hg, searchAxis, hs, Miss.error]
  simp

/-- `x < 2 or x >= 3`, both of which can be selected -/
example : selDemo [] [(demoBin, .name "x")] demoRows (.lor [cmp1 (.name "x") .lt (.num 2), cmp1 (.name "x") .ge (.num 3)]) = .error .valueError := by
  decide +kernel

/-- C99 is false for an "and" that is the expression of a cut axis: `select` takes it apart and refuses the first
part. -/
theorem C99_cut_and_refuted :
    let c := Py.land [cmp1 (.name "y") .gt (.num 0), .name "p"]
    selDemo [] [(demoBin, .name "x"), (.cut, c)] demoRows c = .error .valueError := by decide +kernel

/-- C99 is false for the negation of the condition of a cut axis, `x <= 0` or `not x > 0` for `x > 0`: it is refused. -/
theorem C99_cut_negated_refuted :
    selDemo [] [(demoBin, .name "x"), (.cut, cmp1 (.name "y") .gt (.num 0))] demoRows (cmp1 (.name "y") .le (.num 0)) = .error .valueError ∧
    selDemo [] [(demoBin, .name "x"), (.cut, cmp1 (.name "y") .gt (.num 0))] demoRows (.lnot (cmp1 (.name "y") .gt (.num 0)))
      = .error .valueError := by decide +kernel

/-- C99 is false for fields named like constants: a bin axis of a field `e` cannot be selected (`TypeError`), and `x < e`
compares `x` with 2.718... although the field `e` is 5 in each row. -/
theorem C99_name_is_constant_refuted :
    selDemo [] [(demoBin, .name "e")] demoRows (cmp1 (.name "e") .lt (.num 2)) = .error .typeError ∧
    selDemo [(.groupby, .name "x")] [(demoBin, .name "y")] demoRows (cmp1 (.name "x") .lt (.name "e"))
      = .ok ([demoBin], [([.num 1], [0, 0, 1, 0, 0, 0, 0]), ([.num 2], [0, 0, 0, 0, 1, 1, 0])]) := by decide +kernel

/-- C99 is false for the exceptions: a comparison that an intbin axis cannot select raises `AttributeError` (the
message asks for `closedlow`, which the axis does not have), for an equality, and if another axis follows also for a
number that is not an edge (the two remembered axes are exchanged); otherwise `ValueError`. -/
theorem C99_intbin_error_refuted :
    selDemo [] [(.intbin ⟨0, 5, true, true⟩, .name "x")] demoRows (cmp1 (.name "x") .eq (.num 2)) = .error .attributeError ∧
    selDemo [] [(.intbin ⟨0, 5, true, true⟩, .name "x"), (demoBin, .name "y")] demoRows (cmp1 (.name "x") .lt (.num (5 / 2)))
      = .error .attributeError ∧
    selDemo [] [(.intbin ⟨0, 5, true, true⟩, .name "x")] demoRows (cmp1 (.name "x") .lt (.num (5 / 2))) = .error .valueError :=
  ⟨by decide +kernel, by decide +kernel, by decide +kernel⟩

/-- **C99**, the edge that the exception of a refused selection names (proj.py 453): for numeric groups it is an edge of a group,
and no other is nearer to the number in the comparison. -/
theorem C99_nearest_edge (a : GroupbinAxis) (hw : 0 < a.binwidth) (v tol c : ℚ) (h : (a.missed (.key (.num v)) tol).1 = some c) :
    (∃ k : ℤ, c = k * a.binwidth + a.origin) ∧ ∀ k : ℤ, |v - c| ≤ |v - (k * a.binwidth + a.origin)| := by
  simp only [GroupbinAxis.missed, Option.some.injEq] at h
  subst h
  refine ⟨⟨_, rfl⟩, fun k => ?_⟩
  have hs := pyRound_spec ((v - a.origin) / a.binwidth)
  set q := (v - a.origin) / a.binwidth with hq
  have hv : v = q * a.binwidth + a.origin := by rw [hq, div_mul_cancel₀ _ hw.ne']; ring
  have e : ∀ z : ℤ, v - (z * a.binwidth + a.origin) = (q - z) * a.binwidth := by intro z; rw [hv]; ring
  rw [e, e, abs_mul, abs_mul, abs_of_pos hw]
  refine mul_le_mul_of_nonneg_right ?_ hw.le
  by_cases hk : k = pyRound q
  · rw [hk]
  have h1 : (1 : ℚ) ≤ |((k - pyRound q : ℤ) : ℚ)| := by
    have : 1 ≤ |k - pyRound q| := Int.one_le_abs (sub_ne_zero.2 hk)
    exact_mod_cast this
  have h2 : |((k - pyRound q : ℤ) : ℚ)| ≤ |q - (pyRound q : ℤ)| + |q - k| := by
    have : ((k - pyRound q : ℤ) : ℚ) = (q - (pyRound q : ℤ)) - (q - k) := by push_cast; ring
    rw [this]
    exact abs_sub _ _
  linarith

example : ((⟨1 / 2, 1 / 4, true, true⟩ : GroupbinAxis).missed (.key (.num 1)) (1 / 10)).1 = some (5 / 4) := by decide +kernel

/-- **C99**, if several axes have the expression, the exception names the edge of the one that is nearest: what is remembered after
an axis is one of the two edges, and neither is nearer. -/
theorem C99_nearest_axis (m : Miss) (v c d : ℚ) (hasClosed wrongcmp : Bool) (hm : m.closest = some d) :
    ∃ b, (m.note (.key (.num v)) hasClosed (some c) wrongcmp).closest = some b ∧ (b = c ∨ b = d) ∧ |v - b| ≤ |v - c| ∧ |v - b| ≤ |v - d| := by
  have key : ∀ m' : Miss, (if wrongcmp then { m' with wrongcmpaxis := some hasClosed } else m').closest = m'.closest := by
    intro m'; cases wrongcmp <;> rfl
  unfold Miss.note
  simp only [key, hm, closer]
  by_cases h : |v - c| < |v - d|
  · exact ⟨c, by simp [h], Or.inl rfl, le_refl _, h.le⟩
  · exact ⟨d, by simp [h, hm], Or.inr rfl, not_lt.1 h, le_refl _⟩

example : ((⟨some 3, none, none⟩ : Miss).note (.key (.num 1)) true (some 2) false).closest = some 2 := by decide +kernel

end Verif
