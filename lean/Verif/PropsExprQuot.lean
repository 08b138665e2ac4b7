import Verif.ExprQuot
import Verif.PropsExpr

/-!
# C48 and C49 for quotients

Property theorems about expressions that divide by a field, a function call, a product of a number and
one of these, or a number.
-/

namespace Verif

/-- **C48** for arithmetic with quotients, described by its syntax alone (`Py.safe`): sums, differences
and function calls nest freely; the divisor is one factor with a number in front or, where the dividend
has no constant term, a number; negative integer powers are allowed.  The expression is accepted and
keeps its value on every row on which all its parts have values. -/
theorem C48_safe_partial {env : RowEnv} (hp : PowLaw env) (known : String → Bool) (s : Py)
    (h : s.safe known = true) (hd : s.AllDef env) :
    ∃ e, parseExpr (plainScope known) s = .ok e ∧ e.eval env = Py.val env env.field s := by
  obtain ⟨⟨e, p⟩, ex⟩ := parse_safe known s h
  exact ⟨e, parse_false_true p, (exact_cond hp known s hd ex).1 e p⟩

/-- **C49** for the same expressions, whatever the row. -/
theorem C49_safe_partial (known : String → Bool) (s : Py) (h : s.safe known = true) :
    ∃ e, parseExpr (plainScope known) s = .ok e := by
  obtain ⟨⟨e, p⟩, _⟩ := parse_safe known s h
  exact ⟨e, parse_false_true p⟩

/-- Sums and differences of any two expressions that the parser accepts are accepted and keep the value,
with no condition on how the two operands were built. -/
theorem C48_sum {env : RowEnv} (hp : PowLaw env) (known : String → Bool) (op : PyOp) (hop : op = .add ∨ op = .sub)
    (a b : Py) (l r : E) (ha : Py.parse (plainScope known) false a = .ok l)
    (hb : Py.parse (plainScope known) false b = .ok r) (sa : a.isSet = false) (sb : b.isSet = false)
    (x y : ℚ) (hx : l.eval env = some x) (hy : r.eval env = some y) :
    ∃ e, parseExpr (plainScope known) (.bin op a b) = .ok e ∧
      e.eval env = (if op = .add then some (x + y) else some (x - y)) := by
  have ar : ∀ {s : Py} {e : E}, s.isSet = false → Py.parse (plainScope known) false s = .ok e →
      e.isAr = true := by
    intro s e hs he
    rcases (parse_wf known false s e he).2 rfl with ⟨h1, _⟩ | ⟨_, h1⟩
    · rw [hs] at h1; cases h1
    · exact h1
  obtain ⟨⟨e, he⟩, ho⟩ := binary_addsub hop (ar sa ha) (ar sb hb) (parse_fix known a l ha)
    (parse_fix known b r hb)
  refine ⟨e, ?_, ?_⟩
  · have : Py.parse (plainScope known) false (.bin op a b) = .ok e := by
      simp only [Py.parse, ha, hb]; exact he
    exact parse_false_true this
  · refine binary_val hp he hx hy (z := if op = .add then x + y else x - y) ?_ ho |>.trans ?_
    · rcases hop with rfl | rfl <;> rfl
    · rcases hop with rfl | rfl <;> rfl

/-- **C48** fails: in `z/(x*x)*x` one of the two factors `x` below is cancelled twice, and the expression
is parsed to one with the value of `1` — the factor `z` is lost. -/
theorem C48_numerator_lost :
    parsedVal exprRow (.bin .mul (.bin .div pZ (.bin .mul pX pX)) pX) = .ok (some 1) ∧
    Py.val exprRow exprRow.field (.bin .mul (.bin .div pZ (.bin .mul pX pX)) pX) = some (7 / 3) := by
  decide +kernel

/-- An expression to which `C48_safe_partial` and `C49_safe_partial` apply:
`(x*y + 2*x*z)/x - (1 + x/y)/(3*z) + (x + 1)**-2 + sqrt(x*x)/2`. -/
def safeDemo : Py :=
  .bin .add (.bin .add (.bin .sub
    (.bin .div (.bin .add (.bin .mul pX pY) (.bin .mul (.bin .mul (.num 2) pX) pZ)) pX)
    (.bin .div (.bin .add (.num 1) (.bin .div pX pY)) (.bin .mul (.num 3) pZ)))
    (.bin .pow (.bin .add pX (.num 1)) (.num (-2))))
    (.bin .div (.call "sqrt" [.bin .mul pX pX]) (.num 2))

example : safeDemo.safe anyName = true ∧ safeDemo.AllDef exprRow := by
  refine ⟨by decide +kernel, ?_⟩
  simp only [safeDemo, Py.AllDef, Py.AllDefL, pX, pY, pZ]
  repeat' apply And.intro
  all_goals first | trivial | decide +kernel

example : parsedVal exprRow safeDemo = .ok (some (5 + 14 - (8 / 5) / 21 + 1 / 16 + 3 / 2)) := by
  decide +kernel

/-- `C48_sum` applies to operands outside `Py.safe`: `x*x/(x*y)` and `z`. -/
example : (Py.parse (plainScope anyName) false (.bin .div (.bin .mul pX pX) (.bin .mul pX pY))).map
      (E.eval exprRow) = .ok (some (3 / 5)) ∧
    Py.safe anyName (.bin .div (.bin .mul pX pX) (.bin .mul pX pY)) = false := by decide +kernel

end Verif
