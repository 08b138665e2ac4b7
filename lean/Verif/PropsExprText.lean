import Verif.ExprTextFlat
import Verif.PropsExpr

/-!
# Property theorems: the text of an expression (C97)
-/

namespace Verif

/-- **C97** for expressions in whose text no parentheses are missing (`E.shown`): Python reads the text in exactly one way,
and on every row what it reads has the value of the expression.  Missing for the full statement: exactly the others, of which
the text means something else (`C97_denominator`, `C97_base`, `C97_remainder`, `C97_sign`) or nothing (`C97_conditions`,
`C97_empty_set`). -/
theorem C97_value_partial (e : E) (h : e.shown = true) :
    ∃ t, Reads e.toks t ∧ (∀ t', Reads e.toks t' → t' = t) ∧ ∀ env, Py.val env env.field t = e.eval env :=
  ⟨e.py, (E.shows e h).reads, fun _ h' => reads_unique h' (E.shows e h).reads, fun env => E.py_val env e h⟩

example : (E.node (.plus 2) [.node (.times 3) [.name "x"] [.name "y"]] [.name "z"]).shown = true ∧
    (E.node (.plus 2) [.node (.times 3) [.name "x"] [.name "y"]] [.name "z"]).toks =
      [.num 2, .op .add, .num 3, .op .mul, .name "x", .op .div, .name "y", .op .sub, .name "z"] := by decide +kernel

/-- **C97** for a class of expressions described by how they are written (`Py.flat`): numbers, names and calls with `+`, `-`,
`*`, division by products and powers, perhaps in one comparison.  Missing: as above. -/
theorem C97_written_partial (known : String → Bool) (s : Py) (h : s.flat .whole = true) (e : E)
    (he : parseExpr (plainScope known) s = .ok e) :
    ∃ t, Reads e.toks t ∧ (∀ t', Reads e.toks t' → t' = t) ∧ ∀ env, Py.val env env.field t = e.eval env :=
  C97_value_partial e (parse_flat (fun _ => rfl) s true .whole e he h)

/-- The same together with the parser: the text has the value of what was written, where the parser keeps the value. -/
theorem C97_as_written_partial {env : RowEnv} (hp : PowLaw env) (known : String → Bool) (s : Py) (h : s.flat .whole = true)
    (e : E) (he : parseExpr (plainScope known) s = .ok e) (hd : s.AllDef env) (hx : s.Exact known) :
    ∃ t, Reads e.toks t ∧ (∀ t', Reads e.toks t' → t' = t) ∧ Py.val env env.field t = Py.val env env.field s := by
  obtain ⟨t, h1, h2, h3⟩ := C97_written_partial known s h e he
  exact ⟨t, h1, h2, (h3 env).trans (C48_value_partial hp known s e he hd hx)⟩

/-- The text of what is parsed. -/
def textOf (s : Py) : Except Err (List XTok) := (parseExpr (plainScope anyName) s).map E.toks

example : (Py.bin .sub (.bin .div (.bin .mul (.num 2) pX) (.bin .mul pY (.num 3))) (.call "sqrt" [.bin .add pX pZ])).flat
    .whole = true ∧
    textOf (Py.bin .sub (.bin .div (.bin .mul (.num 2) pX) (.bin .mul pY (.num 3))) (.call "sqrt" [.bin .add pX pZ])) =
      .ok [.num (2 / 3), .op .mul, .name "x", .op .div, .name "y", .op .sub, .name "sqrt", .lpar, .name "x", .op .add,
        .name "z", .rpar] := by decide +kernel

example : (Py.compare (.bin .pow pX (.neg (.num 2))) [.isin] [.set [1, 2]]).flat .whole = true ∧
    (Py.bin .add (.bin .mod pX (.num 3)) (.num 1)).flat .whole = false ∧
    (Py.bin .mod pX (.num 3)).flat .whole = true := by decide +kernel

/-- What is parsed has the given text, which is read as `t`, and on the row `exprRow` the two values are `v` and `w`. -/
def Misread (s : Py) (toks : List XTok) (t : Py) (v w : Option ℚ) : Prop :=
  ∃ e, parseExpr (plainScope anyName) s = .ok e ∧ e.toks = toks ∧ Reads e.toks t ∧ e.eval exprRow = v ∧
    Py.val exprRow exprRow.field t = w

/-- A check for it. -/
def misread (s : Py) (toks : List XTok) (v w : Option ℚ) (t : Option Py) : Bool :=
  match parseExpr (plainScope anyName) s, t with
  | .ok e, some t => decide (e.toks = toks) && decide (e.eval exprRow = v) && decide (Py.val exprRow exprRow.field t = w)
  | _, _ => false

theorem misread_spec {s t : Py} {toks : List XTok} {v w : Option ℚ} (hr : Reads toks t)
    (h : misread s toks v w (some t) = true) : Misread s toks t v w := by
  unfold misread at h
  cases he : parseExpr (plainScope anyName) s with
  | error _ => rw [he] at h; cases h
  | ok e =>
    rw [he] at h
    simp only [Bool.and_eq_true, decide_eq_true_eq] at h
    obtain ⟨⟨rfl, h2⟩, h3⟩ := h
    exact ⟨e, he, rfl, hr, h2, h3⟩

/-- **C97** fails for sums in denominators: `x/(y + 1)` is shown as `x/1+y`. -/
theorem C97_denominator :
    Misread (.bin .div pX (.bin .add pY (.num 1))) [.name "x", .op .div, .num 1, .op .add, .name "y"]
      (.bin .add (.bin .div pX (.num 1)) pY) (some (1 / 2)) (some 8) :=
  misread_spec ⟨20, rfl⟩ (by decide +kernel)

/-- **C97** fails for sums as bases of powers: `(x + 1)**5` is shown as `1+x ** 5`. -/
theorem C97_base :
    Misread (.bin .pow (.bin .add pX (.num 1)) (.num 5)) [.num 1, .op .add, .name "x", .op .pow, .num 5]
      (.bin .add (.num 1) (.bin .pow pX (.num 5))) (some 1024) (some 244) :=
  misread_spec ⟨20, rfl⟩ (by decide +kernel)

/-- **C97** fails for squares of sums: `(x + 1)**2` is shown as `1+x*1+x`. -/
theorem C97_square :
    Misread (.bin .pow (.bin .add pX (.num 1)) (.num 2))
      [.num 1, .op .add, .name "x", .op .mul, .num 1, .op .add, .name "x"]
      (.bin .add (.bin .add (.num 1) (.bin .mul pX (.num 1))) pX) (some 16) (some 7) :=
  misread_spec ⟨20, rfl⟩ (by decide +kernel)

/-- A row on which remainders are known. -/
def remRow : RowEnv where
  field s := if s = "x" then some 5 else if s = "n" then some 4 else none
  fn f args := match f, args with
    | "fmod", [some x, some y] => if x = 10 ∧ y = 3 then some 1 else if x = 5 ∧ y = 3 then some 2 else none
    | "pow", [some x, some y] => if y.den = 1 ∧ 0 ≤ y then some (x ^ y.num) else none
    | _, _ => none

/-- **C97** fails for products with remainders: `2*(x % 3)` is shown as `2*x % 3`. -/
theorem C97_remainder : ∃ e t, parseExpr (plainScope anyName) (.bin .mul (.num 2) (.bin .mod pX (.num 3))) = .ok e ∧
    e.toks = [.num 2, .op .mul, .name "x", .op .mod, .num 3] ∧ Reads e.toks t ∧ e.eval remRow = some 4 ∧
    Py.val remRow remRow.field t = some 1 := by
  refine ⟨.node (.times 2) [.node (.binop "fmod") [.name "x", .const 3] []] [],
    .bin .mod (.bin .mul (.num 2) pX) (.num 3), ?_, ?_, ⟨20, rfl⟩, ?_, ?_⟩ <;> decide +kernel

/-- **C97** fails for negative bases: `(-2)**n` is shown as `-2 ** n`, which is read as `-(2**n)`. -/
theorem C97_sign : ∃ e, parseExpr (plainScope anyName) (.bin .pow (.neg (.num 2)) (.name "n")) = .ok e ∧
    Reads e.toks (.neg (.bin .pow (.num 2) (.name "n"))) ∧ e.eval remRow = some 16 ∧
    Py.val remRow remRow.field (.neg (.bin .pow (.num 2) (.name "n"))) = some (-16) := by
  refine ⟨.node (.binop "pow") [.const (-2), .name "n"] [], ?_, ⟨20, ?_⟩, ?_, ?_⟩
  · decide +kernel
  · rfl
  · decide +kernel
  · decide +kernel

/-- **C97** fails for conditions with `and` or `or`: what is shown are the names of classes of histbook. -/
theorem C97_conditions (p n : List E) (t : Py) :
    ¬ Reads (E.node .land p n).toks t ∧ ¬ Reads (E.node .lor p n).toks t := by
  constructor
  all_goals
    rintro ⟨f, hf⟩
    rw [E.toks] at hf
    simp only [Head.toks] at hf
    rcases f with _ | _ | _ | _ | _ | f <;> simp [rd, rdFirst, rdArgs] at hf

example : textOf (.land [.compare pX [.lt] [.num 1], .compare pY [.lt] [.num 2]]) =
    .ok [.name "LogicalAnd", .lpar, .classes, .rpar] := by decide +kernel

/-- **C97** fails for the empty set: `x in {}` made of a definition is shown as a call of `set`, which is not parsed. -/
theorem C97_empty_set : Reads (E.node (.rel .isin) [.name "x", .node (.cset []) [] []] []).toks
      (.compare pX [.isin] [.call "set" []]) ∧
    ∀ known, known "set" = false → parseExpr (plainScope known) (.compare pX [.isin] [.call "set" []]) = .error .expression := by
  refine ⟨⟨20, rfl⟩, ?_⟩
  intro known h
  simp [parseExpr, Py.parse, Py.parseChain, h, plainScope, pX, bind, Except.bind]

end Verif
