import Verif.TreeRun

/-!
# C52 and C77: computing an expression

Property theorems.  `computed` parses an expression, turns it into a tree of function calls and calculates
the tree on one row, as filling does.
-/

namespace Verif

/-- What filling computes for an expression on one row. -/
def computed (more : More) (field : String → Option ℚ) (s : Py) : Except Err RowVal := do
  let e ← parseExpr (plainScope recognized) s
  let t ← totree e
  treeVal more field t

/-! ## C52: the tree has the value of the expression -/

/-- **C52** for every accepted expression made of arithmetic, functions of the library, comparisons, `and`,
`or`, `not` and boolean fields: its tree of function calls can be calculated on every row and gives the
value of the expression.  Missing: `in` and `not in` (`C52_in_always_false`), negated boolean fields
(`C52_negated_field`), and functions and operators that the library lacks (`C77_floordiv`, `C77_xor`,
`C77_round`). -/
theorem C52_tree_partial {more : More} {field : String → Option ℚ} (hm : Full more) (known : String → Bool)
    (s : Py) (e : E) (h : parseExpr (plainScope known) s = .ok e)
    (hr : s.runs inLibrary = true ∨ s.runsCond inLibrary field true = true) :
    ∃ t, totree e = .ok t ∧ treeVal more field t = .ok (.num (e.eval (treeEnv more field))) := by
  have ha : e.All (RunHead more field) := by
    rcases hr with hr | hr
    · exact parse_ar runHead_ar runHead_log known true s e h (runs_ar hm s hr)
    · exact (parse_lo runHead_ar runHead_log known true s e h (runsCond_lo hm true s hr)).1 rfl
  obtain ⟨t, h1, h2, h3⟩ := totree_val e (parse_wf known true s e h).1 ha
  exact ⟨t, h1, by rw [h2, h3]⟩

theorem computed_of {more : More} {field : String → Option ℚ} (hm : Full more) {s : Py} {e : E} {v : Option ℚ}
    (h : parseExpr (plainScope recognized) s = .ok e)
    (hr : s.runs inLibrary = true ∨ s.runsCond inLibrary field true = true)
    (hv : e.eval (treeEnv more field) = v) : computed more field s = .ok (.num v) := by
  obtain ⟨t, h1, h2⟩ := C52_tree_partial hm recognized s e h hr
  unfold computed
  rw [h]
  change (totree e >>= _) = _
  rw [h1, ← hv]; exact h2

/-- **C52** from the written expression to the computed number: arithmetic with quotients
(`Py.safe`) is computed to the value it is written with. -/
theorem C52_written_partial {more : More} {field : String → Option ℚ} (hm : Full more)
    (hp : PowLaw (treeEnv more field)) (s : Py) (h : s.safe recognized = true) (hr : s.runs inLibrary = true)
    (hd : s.AllDef (treeEnv more field)) :
    computed more field s = .ok (.num (Py.val (treeEnv more field) field s)) := by
  obtain ⟨e, h1, h2⟩ := C48_safe_partial hp recognized s h hd
  exact computed_of hm h1 (.inl hr) h2

/-- **C52** for conditions: the computed truth value is the written one, also where a compared field is
missing (NaN), with the exception of order comparisons of such a field under a `not`. -/
theorem C52_condition_partial {more : More} {field : String → Option ℚ} (hm : Full more)
    (hp : PowLaw (treeEnv more field)) (s : Py) (h : s.condClass recognized = true)
    (hr : s.runsCond inLibrary field true = true) (hn : Py.NaNSafe (treeEnv more field) true s) :
    computed more field s = .ok (.num (Py.val (treeEnv more field) field s)) := by
  obtain ⟨e, h1⟩ := C50_parses recognized s h
  exact computed_of hm h1 (.inr hr) (C50_truth_partial hp recognized s e h1 h hn)

/-- **C52** fails for a negated boolean field: the condition `not b` is computed to the field itself. -/
theorem C52_negated_field (more : More) (field : String → Option ℚ) (b : String) :
    computed more field (.lnot (.name b)) = .ok (.num (field b)) := rfl

/-- A row with `x = 3` and the boolean field `b` set; the library has the functions `pow` and `sqrt`. -/
def treeField (s : String) : Option ℚ := if s = "b" then some 1 else exprRow.field s

def treeMore : More := fun f => if f ∈ libraryNames then some (exprRow.fn f) else none

theorem treeMore_full : Full treeMore := by
  intro f hf; simp [treeMore, hf]

theorem treeMore_pow (field : String → Option ℚ) : PowLaw (treeEnv treeMore field) := by
  intro x n
  have : libFn treeMore "pow" = exprRow.fn "pow" := by
    unfold libFn treeMore
    rw [if_pos (by decide +kernel)]
  simp only [treeEnv, this]
  exact exprRow_pow x n

/-- **C52** fails for a negated boolean field next to another condition, too: on a row with `b` set and
`x = 3`, `not b and x < 5` is computed to true. -/
theorem C52_negated_field_and :
    let s := Py.land [.lnot (.name "b"), .compare (.name "x") [.lt] [.num 5]]
    computed treeMore treeField s = .ok (.num (some 1)) ∧
    Py.val (treeEnv treeMore treeField) treeField s = some 0 := by
  decide +kernel

/-- **C52** fails for `in`: whatever the value and the set, `x in {…}` is computed to false and
`x not in {…}` to true. -/
theorem C52_in_always_false (more : More) (field : String → Option ℚ) (x : String) (l : List ℚ) :
    computed more field (.compare (.name x) [.isin] [.set l]) = .ok (.num (some 0)) ∧
    computed more field (.compare (.name x) [.notin] [.set l]) = .ok (.num (some 1)) := by
  constructor <;> rfl

/-! ## C77: what is accepted can be computed -/

/-- **C77** for every accepted expression made of arithmetic without `//` and `^`, functions of the library
and conditions without negated fields: filling computes a value on every row.  Missing: `//`
(`C77_floordiv`), `^` (`C77_xor`) and `round` (`C77_round`). -/
theorem C77_computes_partial {more : More} {field : String → Option ℚ} (hm : Full more) (s : Py) (e : E)
    (h : parseExpr (plainScope recognized) s = .ok e)
    (hr : s.runs inLibrary = true ∨ s.runsCond inLibrary field true = true) :
    ∃ v, computed more field s = .ok (.num v) := ⟨_, computed_of hm h hr rfl⟩

/-- Every function that the parser recognises is in the library, except `round`. -/
theorem C77_functions (f : String) (h : recognized f = true) : inLibrary f = true ∨ f = "round" := by
  have key : ∀ f ∈ recognizedNames, inLibrary f = true ∨ f = "round" := by decide +kernel
  exact key f (by simpa [recognized] using h)

theorem binop_uncomputable {more : More} {field : String → Option ℚ} {op : PyOp} (ho : op.stays = true)
    (hp : op ≠ .pow) (hb : builtin op.fcn = none) (hm : more op.fcn = none) {a b : Py} {l r t u : E}
    (ha : Py.parse (plainScope recognized) false a = .ok l) (hr : Py.parse (plainScope recognized) false b = .ok r)
    (hc : ((l.constVal.isSome || l.setOf.isSome) && (r.constVal.isSome || r.setOf.isSome)) = false)
    (ht : totree l = .ok t) (hu : totree r = .ok u) :
    (∃ e, parseExpr (plainScope recognized) (.bin op a b) = .ok e) ∧
    computed more field (.bin op a b) = .error .assertion := by
  have h1 : parseExpr (plainScope recognized) (.bin op a b) = .ok (mkBinOp op l r) := by
    unfold parseExpr
    simp only [Py.parse]
    rw [ha]
    change (Py.parse (plainScope recognized) false b >>= _) = _
    rw [hr]
    change binary op l r = _
    unfold binary
    split
    · rename_i x y hx hy
      rw [hx, hy] at hc; simp at hc
    · rw [if_neg (by rw [hc]; simp)]
      cases op <;> simp [PyOp.stays] at ho hp <;> rfl
  refine ⟨⟨_, h1⟩, ?_⟩
  unfold computed
  rw [h1]
  have h2 : totree (mkBinOp op l r) = .ok (E.callE op.fcn [t, u]) := by
    simp only [mkBinOp, totree, totreeL, ht, hu]
    rfl
  change (totree (mkBinOp op l r) >>= _) = _
  rw [h2]
  change treeVal more field (E.callE op.fcn [t, u]) = _
  simp only [treeVal, E.callE, E.toT, calculate, rowLib, hb, hm]
  rfl

/-- **C77** fails for `//`, whatever its operands are, unless both are constant: the expression is accepted,
but cannot be computed. -/
theorem C77_floordiv (more : More) (hm : more "numpy.floor_divide" = none) (field : String → Option ℚ)
    (a b : Py) (l r t u : E)
    (ha : Py.parse (plainScope recognized) false a = .ok l) (hr : Py.parse (plainScope recognized) false b = .ok r)
    (hc : ((l.constVal.isSome || l.setOf.isSome) && (r.constVal.isSome || r.setOf.isSome)) = false)
    (ht : totree l = .ok t) (hu : totree r = .ok u) :
    (∃ e, parseExpr (plainScope recognized) (.bin .floordiv a b) = .ok e) ∧
    computed more field (.bin .floordiv a b) = .error .assertion :=
  binop_uncomputable rfl (by simp) rfl hm ha hr hc ht hu

/-- **C77** fails for `^` in the same way. -/
theorem C77_xor (more : More) (hm : more "xor" = none) (field : String → Option ℚ)
    (a b : Py) (l r t u : E)
    (ha : Py.parse (plainScope recognized) false a = .ok l) (hr : Py.parse (plainScope recognized) false b = .ok r)
    (hc : ((l.constVal.isSome || l.setOf.isSome) && (r.constVal.isSome || r.setOf.isSome)) = false)
    (ht : totree l = .ok t) (hu : totree r = .ok u) :
    (∃ e, parseExpr (plainScope recognized) (.bin .xor a b) = .ok e) ∧
    computed more field (.bin .xor a b) = .error .assertion :=
  binop_uncomputable rfl (by simp) rfl hm ha hr hc ht hu

/-- **C77** fails for `round`. -/
theorem C77_round (more : More) (hm : more "round" = none) (field : String → Option ℚ) (a : Py) (l t : E)
    (ha : Py.parse (plainScope recognized) false a = .ok l) (ht : totree l = .ok t) :
    (∃ e, parseExpr (plainScope recognized) (.call "round" [a]) = .ok e) ∧
    computed more field (.call "round" [a]) = .error .assertion := by
  have h1 : parseExpr (plainScope recognized) (.call "round" [a]) = .ok (E.callE "round" [l]) := by
    unfold parseExpr
    have hk : (plainScope recognized).known "round" = true := by decide +kernel
    have hw : decide ("round" = "where") = false := by decide +kernel
    simp only [Py.parse, hk, if_true, Py.parseArgs, hw]
    rw [ha]; rfl
  refine ⟨⟨_, h1⟩, ?_⟩
  unfold computed
  rw [h1]
  have h2 : totree (E.callE "round" [l]) = .ok (E.callE "round" [t]) := by
    simp only [E.callE, totree, totreeL]
    rw [ht]; rfl
  change (totree (E.callE "round" [l]) >>= _) = _
  rw [h2]
  change treeVal more field (E.callE "round" [t]) = _
  have hb : builtin "round" = none := rfl
  simp only [treeVal, E.callE, E.toT, calculate, rowLib, hb, hm]
  rfl

/-- The three are missing from the library. -/
example : treeMore "numpy.floor_divide" = none ∧ treeMore "xor" = none ∧ treeMore "round" = none := by
  unfold treeMore
  refine ⟨if_neg ?_, if_neg ?_, if_neg ?_⟩ <;> decide +kernel

example : computed treeMore treeField (.bin .floordiv pX pY) = .error .assertion ∧
    computed treeMore treeField (.bin .xor pX (.num 2)) = .error .assertion ∧
    computed treeMore treeField (.call "round" [pX]) = .error .assertion := by decide +kernel

/-- An expression to which `C52_written_partial` applies. -/
example : safeDemo.safe recognized = true ∧ safeDemo.runs inLibrary = true ∧
    safeDemo.AllDef (treeEnv treeMore treeField) := by
  refine ⟨by decide +kernel, by decide +kernel, ?_⟩
  simp only [safeDemo, Py.AllDef, Py.AllDefL, pX, pY, pZ]
  repeat' apply And.intro
  all_goals first | trivial | decide +kernel

example : computed treeMore treeField safeDemo =
    .ok (.num (Py.val (treeEnv treeMore treeField) treeField safeDemo)) ∧
    (Py.val (treeEnv treeMore treeField) treeField safeDemo).isSome = true := by decide +kernel

/-- A condition to which `C52_condition_partial` applies: `not (1 < x <= 2) and (b or x == y)`. -/
def treeCond : Py :=
  .land [.lnot (.compare (.num 1) [.lt, .le] [pX, .num 2]), .lor [.name "b", .compare pX [.eq] [pY]]]

example : treeCond.condClass recognized = true ∧ treeCond.runsCond inLibrary treeField true = true ∧
    Py.NaNSafe (treeEnv treeMore treeField) true treeCond := by
  refine ⟨by decide +kernel, by decide +kernel, ?_⟩
  simp only [treeCond, Py.NaNSafe, Py.NaNSafeL, Py.AllDef, Py.AllDefL, pX, pY, ordDef, Py.vals]
  decide +kernel

example : computed treeMore treeField treeCond = .ok (.num (some 1)) := by decide +kernel

end Verif
