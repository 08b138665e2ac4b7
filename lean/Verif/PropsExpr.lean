import Verif.ExprPoly

/-!
# C48–C50: parsing keeps values

Property theorems.  The value of an expression as written is `Py.val` (SpecExpr), computed from the
syntax alone.
-/

namespace Verif

/-! ## C48: arithmetic -/

/-- **C48** for every arithmetic expression in which each operator is applied where it keeps the value
(`Py.Exact`): factors common to numerator and denominator cancel correctly, and the two factors of a
product do not both have a constant term.  Missing for the full statement: exactly the products and
quotients outside `Py.Exact`, on which the value is wrong (`C48_constant_lost`,
`C48_product_defect`, `C48_wrong_factor_cancelled`). -/
theorem C48_value_partial {env : RowEnv} (hp : PowLaw env) (known : String → Bool) (s : Py) (e : E)
    (h : parseExpr (plainScope known) s = .ok e) (hd : s.AllDef env) (he : s.Exact known) :
    e.eval env = Py.val env env.field s :=
  (cond_val env known true s e h ((exact_cond hp known s hd he).2 true)).2 rfl

/-- **C48** for arithmetic without division, described by its syntax alone. -/
theorem C48_divFree {env : RowEnv} (hp : PowLaw env) (known : String → Bool) (s : Py)
    (h : s.divFree known = true) (hd : s.AllDef env) :
    ∃ e, parseExpr (plainScope known) s = .ok e ∧ e.eval env = Py.val env env.field s := by
  obtain ⟨⟨e, p⟩, ex⟩ := parse_divFree known s h
  exact ⟨e, parse_false_true p.ok, (exact_cond hp known s hd ex).1 e p.ok⟩

/-- What the parser makes of a product of two expressions without division: always the product minus
the product of the two constant terms (unless both are numbers). -/
theorem C48_product_defect {env : RowEnv} (hp : PowLaw env) (known : String → Bool) (a b : Py) (x y : ℚ)
    (ha : a.divFree known = true) (hb : b.divFree known = true) (da : a.AllDef env) (db : b.AllDef env)
    (va : Py.val env env.field a = some x) (vb : Py.val env env.field b = some y)
    (hn : a.nonConst = true ∨ b.nonConst = true) :
    ∃ e, parseExpr (plainScope known) (.bin .mul a b) = .ok e ∧
      e.eval env = some (x * y - a.constTerm * b.constTerm) := by
  obtain ⟨⟨l, pl⟩, el⟩ := parse_divFree known a ha
  obtain ⟨⟨r, pr⟩, er⟩ := parse_divFree known b hb
  have vl := ((exact_cond hp known a da el).1 l pl.ok).trans va
  have vr := ((exact_cond hp known b db er).1 r pr.ok).trans vb
  obtain ⟨dl, ul⟩ := E.D_v_of_eval vl
  obtain ⟨dr, ur⟩ := E.D_v_of_eval vr
  obtain ⟨p1, p2⟩ := E.asPoly_val dl (E.setOf_of_D dl)
  obtain ⟨q1, q2⟩ := E.asPoly_val dr (E.setOf_of_D dr)
  have raw := distArg_raw pl.good.canon pr.good.canon
  obtain ⟨q, c1, c2, _⟩ := raw.collect
  obtain ⟨g1, g2⟩ := distribute_val (l := l.asPoly) (r := r.asPoly) c1 raw.termsOK p1 q1
  refine ⟨q.simplify, ?_, ?_⟩
  · have hb' : binary .mul l r = .ok q.simplify := by
      unfold binary
      split
      · rename_i u v hu hv
        rcases hn with hn | hn
        · rw [pl.dep hn] at hu; cases hu
        · rw [pr.dep hn] at hv; cases hv
      · have c : ¬ (((l.constVal.isSome || l.setOf.isSome) &&
            (r.constVal.isSome || r.setOf.isSome)) = true) := by
          rw [E.isAr_setOf pl.good.ar, E.isAr_setOf pr.good.ar]
          rcases hn with hn | hn
          · rw [pl.dep hn]; simp
          · rw [pr.dep hn]; simp
        have c' : ¬ (l.setOf.isSome = true ∨ r.setOf.isSome = true) := by
          rw [E.isAr_setOf pl.good.ar, E.isAr_setOf pr.good.ar]; simp
        rw [if_neg c]
        simp only [if_neg c']
        have : l.asPoly.distribute r.asPoly = .ok q := c1
        rw [this]; rfl
    unfold parseExpr
    simp only [Py.parse, pl.ok, pr.ok]; exact hb'
  · rw [Poly.simplify_val g1, g2, p2, q2, ul, ur, pl.const, pr.const]

/-- A row with `x = 3`, `y = 5`, `z = 7`; `pow` computes integer powers. -/
def exprRow : RowEnv where
  field s := if s = "x" then some 3 else if s = "y" then some 5 else if s = "z" then some 7 else none
  fn f args := match f, args with
    | "pow", [some x, some q] =>
      if q.den = 1 then (if x = 0 ∧ q.num < 0 then none else some (x ^ q.num)) else none
    | "sqrt", [some x] => if x = 9 then some 3 else none
    | _, _ => none

theorem exprRow_pow : PowLaw exprRow := by
  intro x n
  simp [exprRow]

def anyName (_ : String) : Bool := true

/-- Value after parsing, for concrete expressions. -/
def parsedVal (env : RowEnv) (s : Py) : Except Err (Option ℚ) :=
  (parseExpr (plainScope anyName) s).map (E.eval env)

def pX : Py := .name "x"
def pY : Py := .name "y"
def pZ : Py := .name "z"

/-- **C48** fails: `2*(x + 1)` is parsed to an expression with the value of `2*x`. -/
theorem C48_constant_lost :
    parsedVal exprRow (.bin .mul (.num 2) (.bin .add pX (.num 1))) = .ok (some 6) ∧
    Py.val exprRow exprRow.field (.bin .mul (.num 2) (.bin .add pX (.num 1))) = some 8 := by
  decide +kernel

/-- **C48** fails: `(x + 1)/2` is parsed to an expression with the value of `0.5*x`. -/
theorem C48_constant_lost_quotient :
    parsedVal exprRow (.bin .div (.bin .add pX (.num 1)) (.num 2)) = .ok (some (3 / 2)) ∧
    Py.val exprRow exprRow.field (.bin .div (.bin .add pX (.num 1)) (.num 2)) = some 2 := by
  decide +kernel

/-- **C48** fails: `x*y*z/(x*y)` is parsed to an expression with the value of `y`. -/
theorem C48_wrong_factor_cancelled :
    parsedVal exprRow (.bin .div (.bin .mul (.bin .mul pX pY) pZ) (.bin .mul pX pY)) = .ok (some 5) ∧
    Py.val exprRow exprRow.field (.bin .div (.bin .mul (.bin .mul pX pY) pZ) (.bin .mul pX pY)) =
      some 7 := by
  decide +kernel

/-- An expression to which `C48_divFree` applies: `3*x*y - (x + 1)**2 + sqrt(x*x)`. -/
def divFreeDemo : Py :=
  .bin .add (.bin .sub (.bin .mul (.bin .mul (.num 3) pX) pY) (.bin .pow (.bin .add pX (.num 1)) (.num 2)))
    (.call "sqrt" [.bin .mul pX pX])

example : divFreeDemo.divFree anyName = true ∧ divFreeDemo.AllDef exprRow := by
  refine ⟨by decide +kernel, ?_⟩
  simp only [divFreeDemo, Py.AllDef, Py.AllDefL, pX, pY]
  decide +kernel

example : parsedVal exprRow divFreeDemo = .ok (some 32) := by decide +kernel

/-! ## C49: parsing does not raise -/

/-- **C49** for arithmetic without division.  Missing: quotients and negative powers, which raise for
some operands (`C49_index_error`), and `**`, `//`, `%` and `^` on constants, which always raise
(`C49_constant_power`). -/
theorem C49_parses_partial (known : String → Bool) (s : Py) (h : s.divFree known = true) :
    ∃ e, parseExpr (plainScope known) s = .ok e := by
  obtain ⟨⟨e, p⟩, _⟩ := parse_divFree known s h
  exact ⟨e, parse_false_true p.ok⟩

/-- **C49** fails: `x/(x*x)` raises an `IndexError`. -/
theorem C49_index_error : parsedVal exprRow (.bin .div pX (.bin .mul pX pX)) = .error .indexError := by
  decide +kernel

/-- **C49** fails: `//`, `%`, `**` and `^` between numbers raise a `KeyError`. -/
theorem C49_constant_power (known : String → Bool) (op : PyOp) (a b : ℚ)
    (h : op = .pow ∨ op = .floordiv ∨ op = .mod ∨ op = .xor) :
    parseExpr (plainScope known) (.bin op (.num a) (.num b)) = .error .keyError := by
  rcases h with rfl | rfl | rfl | rfl <;> rfl

/-- **C49** fails: a set as an operand raises, a `KeyError` for `//`, `%`, `**` and `^` with a constant and a `TypeError` for the
other operators with a constant. -/
theorem C49_set_operand (known : String → Bool) (op : PyOp) (l m : List ℚ) (a : ℚ) :
    parseExpr (plainScope known) (.bin op (.set l) (.num a)) =
      .error (if op = .pow ∨ op = .floordiv ∨ op = .mod ∨ op = .xor then .keyError else .typeError) ∧
    parseExpr (plainScope known) (.bin op (.num a) (.set l)) =
      .error (if op = .pow ∨ op = .floordiv ∨ op = .mod ∨ op = .xor then .keyError else .typeError) := by
  cases op <;> exact ⟨rfl, rfl⟩

/-- `~` is for integer constants only: it gives the integer that Python gives, raises a `TypeError` for other numbers, and a
`NameError` for fields. -/
theorem C49_invert (known : String → Bool) :
    (∀ i : ℤ, parseExpr (plainScope known) (.invert (.num i)) = .ok (E.const (~~~i : ℤ))) ∧
    (∀ q : ℚ, (∀ i : ℤ, q ≠ i) → parseExpr (plainScope known) (.invert (.num q)) = .error .typeError) ∧
    ∀ s, parseExpr (plainScope known) (.invert (.name s)) = .error .nameError := by
  refine ⟨fun i => ?_, fun q hq => ?_, fun s => rfl⟩
  · change unaryInvert (E.const i) = _
    change (if ((i : ℚ).den = 1) then Except.ok (E.const (-(i : ℚ) - 1)) else .error .typeError) = _
    rw [if_pos (Rat.den_intCast i)]
    have : (~~~i : ℤ) = -i - 1 := by
      cases i with
      | ofNat n => change Int.negSucc n = -(n : ℤ) - 1; omega
      | negSucc n => change (n : ℤ) = -Int.negSucc n - 1; omega
    rw [this]
    push_cast
    rfl
  · change (if q.den = 1 then Except.ok (E.const (-q - 1)) else Except.error Err.typeError) = _
    rw [if_neg]
    intro h
    exact hq q.num ((Rat.den_eq_one_iff q).1 h).symm

example : ∀ i : ℤ, (1/2 : ℚ) ≠ i := by
  intro i h
  have := congrArg Rat.den h
  rw [Rat.den_intCast] at this
  revert this
  decide +kernel

/-- `|` and `&` between two natural numbers below 2^64 are the bitwise operations. -/
theorem C49_bitwise (known : String → Bool) (a b : ℕ) (ha : a < 2 ^ 64) (hb : b < 2 ^ 64) :
    parseExpr (plainScope known) (.bin .bitor (.num a) (.num b)) = .ok (E.const ((a ||| b : ℕ) : ℚ)) ∧
    parseExpr (plainScope known) (.bin .bitand (.num a) (.num b)) = .ok (E.const ((a &&& b : ℕ) : ℚ)) := by
  have h : ∀ n : ℕ, n < 2 ^ 64 → toU64 (n : ℚ) = n := by
    intro n hn
    unfold toU64
    rw [if_pos (Nat.cast_nonneg n), Int.floor_natCast]
    omega
  constructor
  · change Except.ok (E.const ((toU64 a ||| toU64 b : ℕ) : ℚ)) = _
    rw [h a ha, h b hb]
  · change Except.ok (E.const ((toU64 a &&& toU64 b : ℕ) : ℚ)) = _
    rw [h a ha, h b hb]

example : (6 : ℕ) < 2 ^ 64 ∧ (3 : ℕ) < 2 ^ 64 ∧ (6 ||| 3 : ℕ) = 7 := by decide

/-- **C49** fails: `(x - x)**2` raises a `KeyError`, since the base has become a constant. -/
theorem C49_cancelled_base :
    parsedVal exprRow (.bin .pow (.bin .sub pX pX) (.num 2)) = .error .keyError := by
  decide +kernel

example : divFreeDemo.divFree anyName = true := by decide +kernel

/-! ## C50: conditions -/

theorem set_exact (env : RowEnv) (known : String → Bool) : ∀ (c : Py), c.isSet = true →
    (∃ r, Py.parse (plainScope known) false c = .ok r ∧ r.setOf.isSome = true) ∧ OperandExact env known c
  | .set l, _ => by
    refine ⟨⟨.node (.cset (canonSet l)) [] [], by simp only [Py.parse]; rfl, rfl⟩, ?_⟩
    intro e h
    simp only [Py.parse] at h
    have := (Except.ok.inj h).symm; subst this; rfl
  | .plus a, h => by
    obtain ⟨⟨r, h1, h2⟩, h3⟩ := set_exact env known a (by simpa [Py.isSet] using h)
    refine ⟨⟨r, by simp only [Py.parse]; exact h1, h2⟩, ?_⟩
    intro e he
    simp only [Py.parse] at he
    exact h3 e he
  | .num _, h => by simp [Py.isSet] at h
  | .name _, h => by simp [Py.isSet] at h
  | .neg _, h => by simp [Py.isSet] at h
  | .invert _, h => by simp [Py.isSet] at h
  | .bin _ _ _, h => by simp [Py.isSet] at h
  | .compare _ _ _, h => by simp [Py.isSet] at h
  | .lnot _, h => by simp [Py.isSet] at h
  | .land _, h => by simp [Py.isSet] at h
  | .lor _, h => by simp [Py.isSet] at h
  | .call _ _, h => by simp [Py.isSet] at h

theorem chain_operands {env : RowEnv} (hp : PowLaw env) (known : String → Bool) :
    ∀ (ops : List PyCmp) (cs : List Py), chainClass known ops cs = true → Py.AllDefL env cs →
    ∀ c ∈ cs, OperandExact env known c
  | [], [], _, _ => by simp
  | [], _ :: _, h, _ => by simp [chainClass] at h
  | _ :: _, [], h, _ => by simp [chainClass] at h
  | op :: ops, c :: cs, h, hd => by
    simp only [chainClass, Bool.and_eq_true] at h
    intro y hy
    rcases List.mem_cons.1 hy with rfl | hy
    · have other : y.divFree known = true → OperandExact env known y := fun h1 =>
        (exact_cond hp known y hd.1 (parse_divFree known y h1).2).1
      have h1 := h.1
      cases op <;> simp only at h1
      · exact other h1
      · exact other h1
      · exact other h1
      · exact other h1
      · exact other h1
      · exact other h1
      · exact (set_exact env known y h1).2
      · exact (set_exact env known y h1).2
    · exact chain_operands hp known ops cs h.2 hd.2 y hy

mutual
theorem cond_of_class {env : RowEnv} (hp : PowLaw env) (known : String → Bool) : ∀ (flag : Bool) (s : Py),
    s.condClass known = true → Py.NaNSafe env flag s → Py.Cond env known flag s
  | flag, .name n, _, _ => by
    intro e h
    simp only [Py.parse, plainScope, Option.getD_none] at h
    have := (Except.ok.inj h).symm; subst this; rfl
  | flag, .compare a ops cs, h, d => by
    simp only [Py.condClass, Bool.and_eq_true] at h
    exact ⟨(exact_cond hp known a d.1 (parse_divFree known a h.1.1).2).1,
      chain_operands hp known ops cs h.2 d.2.1, d.2.2⟩
  | flag, .lnot a, h, d => cond_of_class hp known (!flag) a (by simpa [Py.condClass] using h) d
  | flag, .land l, h, d => by
    simp only [Py.condClass, Bool.and_eq_true] at h
    exact condL_of_class hp known flag l h.2 d
  | flag, .lor l, h, d => by
    simp only [Py.condClass, Bool.and_eq_true] at h
    exact condL_of_class hp known flag l h.2 d
  | _, .num _, h, _ => by simp [Py.condClass] at h
  | _, .set _, h, _ => by simp [Py.condClass] at h
  | _, .neg _, h, _ => by simp [Py.condClass] at h
  | _, .plus _, h, _ => by simp [Py.condClass] at h
  | _, .invert _, h, _ => by simp [Py.condClass] at h
  | _, .bin _ _ _, h, _ => by simp [Py.condClass] at h
  | _, .call _ _, h, _ => by simp [Py.condClass] at h
theorem condL_of_class {env : RowEnv} (hp : PowLaw env) (known : String → Bool) : ∀ (flag : Bool)
    (l : List Py), Py.condClassL known l = true → Py.NaNSafeL env flag l → Py.CondL env known flag l
  | _, [], _, _ => trivial
  | flag, a :: as, h, d => by
    simp only [Py.condClassL, Bool.and_eq_true] at h
    exact ⟨cond_of_class hp known flag a h.1 d.1, condL_of_class hp known flag as h.2 d.2⟩
end

/-- **C50** for comparisons of arithmetic without division, boolean fields, `and`, `or`, `not`, chains,
`in` and `not in`: the parsed condition has the truth value of the written one, also on rows where a
compared field is missing (NaN), as long as no such field is compared by `<`, `<=`, `>`, `>=` under a
`not`.  Missing: exactly those rows (`C50_not_less_on_nan`), and operands with division. -/
theorem C50_truth_partial {env : RowEnv} (hp : PowLaw env) (known : String → Bool) (s : Py) (e : E)
    (h : parseExpr (plainScope known) s = .ok e) (hc : s.condClass known = true)
    (hd : Py.NaNSafe env true s) : e.eval env = Py.val env env.field s :=
  (cond_val env known true s e h (cond_of_class hp known true s hc hd)).2 rfl

/-- **C50** fails: on a row where `x` is NaN, `not (x < 1)` is true, but is parsed to `1 <= x`, which
is false. -/
theorem C50_not_less_on_nan :
    let s := Py.lnot (.compare (.name "nan") [.lt] [.num 1])
    parsedVal exprRow s = .ok (some 0) ∧ Py.val exprRow exprRow.field s = some 1 := by
  decide +kernel

/-- Such conditions never raise: the chain of comparisons. -/
theorem chain_parses (known : String → Bool) : ∀ (l : E) (ops : List PyCmp) (cs : List Py),
    chainClass known ops cs = true →
    ∃ rs, Py.parseChain (plainScope known) l ops cs = .ok rs ∧ rs.length = ops.length
  | l, [], [], _ => ⟨[], by simp [Py.parseChain], rfl⟩
  | _, [], _ :: _, h => by simp [chainClass] at h
  | _, _ :: _, [], h => by simp [chainClass] at h
  | l, op :: ops, c :: cs, h => by
    simp only [chainClass, Bool.and_eq_true] at h
    have hr : ∃ r, Py.parse (plainScope known) false c = .ok r ∧ ∃ x, mkRel op l r = .ok x := by
      have other : c.divFree known = true → ∃ r, Py.parse (plainScope known) false c = .ok r := by
        intro h1
        obtain ⟨⟨r, p⟩, _⟩ := parse_divFree known c h1
        exact ⟨r, p.ok⟩
      have set : c.isSet = true → ∃ r, Py.parse (plainScope known) false c = .ok r ∧ r.setOf.isSome = true :=
        fun h1 => (set_exact exprRow known c h1).1
      have h1 := h.1
      cases op <;> simp only at h1
      · obtain ⟨r, hr⟩ := other h1; exact ⟨r, hr, _, rfl⟩
      · obtain ⟨r, hr⟩ := other h1; exact ⟨r, hr, _, rfl⟩
      · obtain ⟨r, hr⟩ := other h1; exact ⟨r, hr, _, rfl⟩
      · obtain ⟨r, hr⟩ := other h1; exact ⟨r, hr, _, rfl⟩
      · obtain ⟨r, hr⟩ := other h1; exact ⟨r, hr, _, rfl⟩
      · obtain ⟨r, hr⟩ := other h1; exact ⟨r, hr, _, rfl⟩
      · obtain ⟨r, hr, hs⟩ := set h1; exact ⟨r, hr, .node (.rel .isin) [l, r] [], by simp only [mkRel, hs, if_true]⟩
      · obtain ⟨r, hr, hs⟩ := set h1; exact ⟨r, hr, .node (.rel .notin) [l, r] [], by simp only [mkRel, hs, if_true]⟩
    obtain ⟨r, h1, x, h2⟩ := hr
    obtain ⟨rs, h3, h4⟩ := chain_parses known r ops cs h.2
    refine ⟨x :: rs, ?_, by simp [h4]⟩
    simp only [Py.parseChain, h1]
    change (mkRel op l r >>= _) = _
    rw [h2]
    change (Py.parseChain (plainScope known) r ops cs >>= _) = _
    rw [h3]; rfl

theorem mapM_asOr {rs : List E} (h : ∀ x ∈ rs, x.isLit = true) : ∃ os, rs.mapM E.asOr = .ok os ∧
    os.length = rs.length := by
  induction rs with
  | nil => exact ⟨[], rfl, rfl⟩
  | cons x xs ih =>
    obtain ⟨os, h1, h2⟩ := ih (fun y hy => h y (by simp [hy]))
    refine ⟨mkOr [mkAnd [x]] :: os, ?_, by simp [h2]⟩
    rw [List.mapM_cons, lit_asOr (h x (by simp)), h1]; rfl

theorem reduceE_ok {f : E → E → E} {l : List E} (h : l ≠ []) : ∃ x, reduceE f l = .ok x := by
  cases l with
  | nil => exact absurd rfl h
  | cons x xs => exact ⟨_, rfl⟩

mutual
theorem cond_parses (known : String → Bool) : ∀ (s : Py), s.condClass known = true →
    ∃ e, Py.parse (plainScope known) true s = .ok e ∧ ∃ o, e.asOr = .ok o
  | .name n, _ => ⟨E.name n, by simp [Py.parse, plainScope], _, rfl⟩
  | .compare a ops cs, h => by
    simp only [Py.condClass, Bool.and_eq_true] at h
    obtain ⟨⟨l, p⟩, _⟩ := parse_divFree known a h.1.1
    obtain ⟨rs, h1, h2⟩ := chain_parses known l ops cs h.2
    have w := (parse_wf known false a l p.ok).1
    have hl := parseChain_wf known l w ops cs rs h1
    have hne : rs ≠ [] := by
      intro e
      rw [e] at h2
      have : ops = [] := List.length_eq_zero_iff.1 h2.symm
      simp [this] at h
    have key : ∃ e, (match rs with
        | [r] => Except.ok r
        | rs => do
          let os ← rs.mapM E.asOr
          (reduceE andCombine os).map orSimplify) = .ok e ∧ ∃ o, e.asOr = .ok o := by
      split
      · exact ⟨_, rfl, asOr_of_isLog (isLog_of_isLit (hl _ (by simp)).1)⟩
      · obtain ⟨os, m1, m2⟩ := mapM_asOr (fun x hx => (hl x hx).1)
        obtain ⟨x, r1⟩ := reduceE_ok (f := andCombine) (l := os) (by
          intro e; rw [e] at m2; exact hne (List.length_eq_zero_iff.1 m2.symm))
        refine ⟨orSimplify x, ?_, ?_⟩
        · rw [m1]; change (reduceE andCombine os).map orSimplify = _; rw [r1]; rfl
        · have := reduceAnd_wf (x := orSimplify x) (os := os) (by rw [r1]; rfl) (rels_asOr m1 hl).1
          exact asOr_of_isLog this.2.1
    obtain ⟨e, k1, k2⟩ := key
    refine ⟨e, ?_, k2⟩
    simp only [Py.parse, p.ok]
    change (Py.parseChain (plainScope known) l ops cs >>= _) = _
    rw [h1]; exact k1
  | .lnot a, h => by
    obtain ⟨x, h1, o, h2⟩ := cond_parses known a (by simpa [Py.condClass] using h)
    have key : ∃ e, logicalNot x = .ok e ∧ ∃ o, e.asOr = .ok o := by
      unfold logicalNot
      split
      · exact ⟨_, rfl, _, rfl⟩
      · rw [h2]
        refine ⟨_, rfl, asOr_of_isLog ?_⟩
        exact (orSimplify_val (negateOr_val (asOr_dnf h2 (parse_wf known true a x h1).1)).1).2.1
    obtain ⟨e, k1, k2⟩ := key
    refine ⟨e, ?_, k2⟩
    simp only [Py.parse, h1]; exact k1
  | .land l, h => by
    simp only [Py.condClass, Bool.and_eq_true] at h
    obtain ⟨os, h1, h2⟩ := ors_parses known l h.2
    obtain ⟨x, r1⟩ := reduceE_ok (f := andCombine) (l := os) (by
      intro e; rw [e] at h2
      have : l = [] := List.length_eq_zero_iff.1 h2.symm
      simp [this] at h)
    refine ⟨orSimplify x, ?_, ?_⟩
    · simp only [Py.parse, h1]; change (reduceE andCombine os).map orSimplify = _; rw [r1]; rfl
    · exact asOr_of_isLog (reduceAnd_wf (x := orSimplify x) (os := os) (by rw [r1]; rfl)
        (parseOrs_wf known l os h1)).2.1
  | .lor l, h => by
    simp only [Py.condClass, Bool.and_eq_true] at h
    obtain ⟨os, h1, h2⟩ := ors_parses known l h.2
    obtain ⟨x, r1⟩ := reduceE_ok (f := orCombine) (l := os) (by
      intro e; rw [e] at h2
      have : l = [] := List.length_eq_zero_iff.1 h2.symm
      simp [this] at h)
    refine ⟨orSimplify x, ?_, ?_⟩
    · simp only [Py.parse, h1]; change (reduceE orCombine os).map orSimplify = _; rw [r1]; rfl
    · exact asOr_of_isLog (reduceOr_wf (x := orSimplify x) (os := os) (by rw [r1]; rfl)
        (parseOrs_wf known l os h1)).2.1
  | .num _, h => by simp [Py.condClass] at h
  | .set _, h => by simp [Py.condClass] at h
  | .neg _, h => by simp [Py.condClass] at h
  | .plus _, h => by simp [Py.condClass] at h
  | .invert _, h => by simp [Py.condClass] at h
  | .bin _ _ _, h => by simp [Py.condClass] at h
  | .call _ _, h => by simp [Py.condClass] at h
theorem ors_parses (known : String → Bool) : ∀ (l : List Py), Py.condClassL known l = true →
    ∃ os, Py.parseOrs (plainScope known) l = .ok os ∧ os.length = l.length
  | [], _ => ⟨[], by simp [Py.parseOrs], rfl⟩
  | a :: as, h => by
    simp only [Py.condClassL, Bool.and_eq_true] at h
    obtain ⟨e, h1, o, h2⟩ := cond_parses known a h.1
    obtain ⟨os, h3, h4⟩ := ors_parses known as h.2
    refine ⟨o :: os, ?_, by simp [h4]⟩
    simp only [Py.parseOrs, h1]
    change (e.asOr >>= _) = _
    rw [h2]
    change (Py.parseOrs (plainScope known) as >>= _) = _
    rw [h3]; rfl
end

/-- **C50**: these conditions can always be parsed. -/
theorem C50_parses (known : String → Bool) (s : Py) (h : s.condClass known = true) :
    ∃ e, parseExpr (plainScope known) s = .ok e := by
  obtain ⟨e, h1, _⟩ := cond_parses known s h
  exact ⟨e, h1⟩

/-- **C50** fails for a function call or a number as operand of `and`, `or` or `not`: an
`AssertionError`. -/
theorem C50_call_operand :
    parsedVal exprRow (.lnot (.call "isnan" [pX])) = .error .assertion ∧
    parsedVal exprRow (.land [.compare pX [.lt] [.num 3], .num 1]) = .error .assertion := by
  decide +kernel

/-- `not (x < y <= 5 or flag) and nan != 1 and y in {5, 6}` on a row without `nan`. -/
def condDemo : Py :=
  .land [.lnot (.lor [.compare pX [.lt, .le] [pY, .num 4], .name "zero"]),
    .compare (.name "nan") [.ne] [.num 1], .compare pY [.isin] [.set [6, 5]]]

def condRow : RowEnv := { exprRow with field := fun s => if s = "zero" then some 0 else exprRow.field s }

example : condDemo.condClass anyName = true ∧ Py.NaNSafe condRow true condDemo := by
  refine ⟨by decide +kernel, ?_⟩
  simp only [condDemo, Py.NaNSafe, Py.NaNSafeL, Py.AllDef, Py.AllDefL, pX, pY, ordDef, Py.vals]
  decide +kernel

example : parsedVal condRow condDemo = .ok (some 1) := by decide +kernel

end Verif
