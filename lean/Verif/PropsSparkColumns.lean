import Verif.SparkColumnsTree
import Verif.PropsTree

/-!
# C93: an expression on Spark

Property theorems.  `computed` (C52) is what filling from arrays computes for an expression on one row,
`onSpark` what filling from a Spark DataFrame with the same row computes.
-/

namespace Verif

/-- What Spark computes for an expression on one row, unless it is refused; `ty` are the types of the
fields and `sm` the functions of analysis on Spark. -/
def onSpark (ty : String → STy) (sm : SMath) (field : String → Option ℚ) (s : Py) : Except Err SVal := do
  let e ← parseExpr (plainScope recognized) s
  let t ← totree e
  sparkVal ty sm field t

variable {ty : String → STy} {sm : SMath} {field : String → Option ℚ} {more : More}

theorem sig_library : ∀ (f : String) (ts : List STy) (τ : STy), sparkSig f ts = some τ → f ∈ libraryNames := by
  intro f ts τ h
  have h1 : ∀ f ∈ math1, f ∈ libraryNames := by decide +kernel
  have h2 : ∀ f ∈ math2, f ∈ libraryNames := by decide +kernel
  have h3 : ∀ f ∈ ["abs", "fabs", "ceil", "floor", "max", "fmax", "min", "fmin", "mod", "isnan", "where"],
      f ∈ libraryNames := by decide +kernel
  rcases sparkSig_cases h with ⟨-, h⟩ | ⟨-, -, h⟩ | ⟨rfl, -⟩
  · rcases h with ⟨rfl, -⟩ | ⟨-, h⟩ | ⟨-, h⟩
    · exact h3 _ (by simp)
    · refine h3 f ?_
      simp only [List.mem_cons, List.not_mem_nil, or_false] at h ⊢
      tauto
    · exact h1 f h
  · rcases h with h | h
    · refine h3 f ?_
      simp only [List.mem_cons, List.not_mem_nil, or_false] at h ⊢
      tauto
    · exact h2 f h
  · exact h3 _ (by simp)

theorem bind_sty {f : String} {p : Option (List STy)} {τ : STy} (h : p.bind (sparkSig f) = some τ) :
    f ∈ libraryNames ∧ ∃ ts, p = some ts := by
  obtain ⟨ts, h1, h2⟩ := Option.bind_eq_some_iff.1 h
  exact ⟨sig_library f ts τ h2, ts, h1⟩

mutual
/-- What has a type on Spark can be computed from arrays. -/
theorem sty_run (hm : Full more) (hb : Flags ty field) : ∀ (e : E) (τ : STy), e.WF → e.sty ty = some τ →
    e.All (RunHead more field)
  | .node h p n, τ, w, hs => by
    simp only [E.sty] at hs
    have pos : ∀ ts, E.styL ty p = some ts → ∀ x ∈ p, x.All (RunHead more field) :=
      fun ts hts => styL_run hm hb p ts w.pos hts
    have neg : ∀ ts, E.styL ty n = some ts → ∀ x ∈ n, x.All (RunHead more field) :=
      fun ts hts => styL_run hm hb n ts w.neg hts
    have wl := w.local
    have lib : ∀ f ∈ libraryNames, builtin f = none ∧ (more f).isSome = true :=
      fun f hf => ⟨library_builtin f hf, hm f hf⟩
    cases h with
    | const q => obtain ⟨rfl, rfl⟩ := wl; exact .mk _ _ _ trivial (by simp) (by simp)
    | cset l => simp [Head.sty] at hs
    | name s => obtain ⟨rfl, rfl⟩ := wl; exact .mk _ _ _ trivial (by simp) (by simp)
    | pred s b =>
      obtain ⟨rfl, rfl⟩ := wl
      simp only [Head.sty] at hs
      split_ifs at hs with hc
      exact .mk _ _ _ ⟨hc.1, hb s hc.2⟩ (by simp) (by simp)
    | call f =>
      obtain rfl : n = [] := wl
      obtain ⟨h1, ts, h2⟩ := bind_sty hs
      exact .mk _ _ _ (lib f h1) (pos ts h2) (by simp)
    | binop f =>
      obtain rfl : n = [] := wl
      obtain ⟨h1, ts, h2⟩ := bind_sty hs
      exact .mk _ _ _ (lib f h1) (pos ts h2) (by simp)
    | rel c =>
      obtain ⟨rfl, -⟩ := wl
      have : ∃ ts, E.styL ty p = some ts := by
        cases hq : E.styL ty p with
        | none => cases c <;> simp [Head.sty, hq] at hs
        | some ts => exact ⟨ts, rfl⟩
      obtain ⟨ts, hts⟩ := this
      refine .mk _ _ _ ?_ (pos ts hts) (by simp)
      cases c <;> first
        | (simp [Head.sty] at hs; done)
        | exact ⟨by simp, by simp⟩
    | plus q =>
      simp only [Head.sty] at hs
      split_ifs at hs with h1
      obtain ⟨-, ts, hts, -⟩ := allTy_some h1
      obtain ⟨-, us, hus, -⟩ := allTy_some hs
      exact .mk _ _ _ trivial (pos ts hts) (neg us hus)
    | times q =>
      simp only [Head.sty] at hs
      split_ifs at hs with h1
      obtain ⟨-, ts, hts, -⟩ := allTy_some h1
      obtain ⟨-, us, hus, -⟩ := allTy_some hs
      exact .mk _ _ _ trivial (pos ts hts) (neg us hus)
    | land =>
      obtain ⟨rfl, -⟩ := wl
      obtain ⟨-, ts, hts, -⟩ := allTy_some hs
      exact .mk _ _ _ trivial (pos ts hts) (by simp)
    | lor =>
      obtain ⟨rfl, -⟩ := wl
      obtain ⟨-, ts, hts, -⟩ := allTy_some hs
      exact .mk _ _ _ trivial (pos ts hts) (by simp)
theorem styL_run (hm : Full more) (hb : Flags ty field) : ∀ (l : List E) (ts : List STy),
    (∀ x ∈ l, x.WF) → E.styL ty l = some ts → ∀ x ∈ l, x.All (RunHead more field)
  | [], _, _, _ => by simp
  | x :: xs, ts, w, h => by
    obtain ⟨τ, us, h1, h2, rfl⟩ := styL_some h
    have k1 := sty_run hm hb x τ (w x (by simp)) h1
    have k2 := styL_run hm hb xs us (fun z hz => w z (by simp [hz])) h2
    intro y hy
    rcases List.mem_cons.1 hy with rfl | hy
    · exact k1
    · exact k2 y hy
end

theorem onSpark_of {s : Py} {e t : E} {c : SCol} {τ : STy} (h : parseExpr (plainScope recognized) s = .ok e)
    (ht : totree e = .ok t) (hc : IsCol ty t c τ) :
    onSpark ty sm field s = .ok (c.eval sm (sparkRow ty field)) := by
  unfold onSpark
  rw [h]
  change (totree e >>= _) = _
  rw [ht]
  change (tocolumns t.toT >>= _) = _
  rw [hc.col]
  change (c.type ty >>= _) = _
  rw [hc.type]; rfl

/-- **C93**, acceptance: every accepted expression of arithmetic, comparisons other than `in`, logic, boolean
fields that are not negated and the functions of `sparkSig`, with operands of the right type, is computed by
Spark, on every row. -/
theorem C93_accepts_partial (hm : SparkLib more) (hb : Flags ty field) (s : Py) (e : E) (τ : STy)
    (h : parseExpr (plainScope recognized) s = .ok e) (hs : e.sty ty = some τ) :
    ∃ v, onSpark ty sm field s = .ok v := by
  obtain ⟨t, c, htr⟩ := totree_spark (sm := sm) hm hb e τ (parse_wf recognized true s e h).1 hs
  exact ⟨_, onSpark_of h htr.tree htr.col⟩

/-- **C93**: on every row where no divisor is zero, no NaN is compared and the functions have arguments as in
`sparkFine` (`SparkSafe`), Spark computes for such an expression the value that is computed from arrays.
Missing: NaN in comparisons, in `min` and in `floor`, zero divisors, remainders of negative numbers, and the
functions and operators that Spark is not given (see the refutations below). -/
theorem C93_same_partial (hm : SparkLib more) (hf : Full more) (hb : Flags ty field) (s : Py) (e : E) (τ : STy)
    (h : parseExpr (plainScope recognized) s = .ok e) (hs : e.sty ty = some τ)
    (safe : e.SparkSafe more sm field) :
    ∃ v, computed more field s = .ok (.num v) ∧ onSpark ty sm field s = .ok (asSpark τ v) := by
  have w := (parse_wf recognized true s e h).1
  obtain ⟨t, c, htr⟩ := totree_spark (sm := sm) hm hb e τ w hs
  obtain ⟨t', h1, h2, h3⟩ := totree_val e w (sty_run hf hb e τ w hs)
  refine ⟨e.eval (treeEnv more field), ?_, ?_⟩
  · unfold computed
    rw [h]
    change (totree e >>= _) = _
    rw [h1]
    change treeVal more field t' = _
    rw [show treeVal more field t' = _ from h2, h3]
  · rw [onSpark_of h htr.tree htr.col, (htr.value safe).asSpark]

/-- **C93** from the written expression to Spark's number: arithmetic with quotients (`Py.safe`) whose parts
are all numbers. -/
theorem C93_written_partial (hm : SparkLib more) (hf : Full more) (hb : Flags ty field)
    (hp : PowLaw (treeEnv more field)) (s : Py) (hsafe : s.safe recognized = true)
    (hr : s.runs inLibrary = true) (hd : s.AllDef (treeEnv more field)) (e : E) (τ : STy)
    (h : parseExpr (plainScope recognized) s = .ok e) (hs : e.sty ty = some τ)
    (safe : e.SparkSafe more sm field) :
    onSpark ty sm field s = .ok (asSpark τ (Py.val (treeEnv more field) field s)) := by
  obtain ⟨v, h1, h2⟩ := C93_same_partial hm hf hb s e τ h hs safe
  have h3 := C52_written_partial hf hp s hsafe hr hd
  rw [h1] at h3
  obtain rfl : v = _ := by simpa using h3
  exact h2

/-! ## Examples -/

/-- A library with NumPy's functions on rational numbers. -/
def sparkMore : More := fun f =>
  match libRat f with
  | some g => some g
  | none => if f = "isnan" then some npIsnan else if f ∈ libraryNames then some (exprRow.fn f) else none

theorem sparkMore_lib : SparkLib sparkMore := by
  refine ⟨fun f g h => by simp [sparkMore, h], ?_⟩
  have : libRat "isnan" = none := rfl
  simp [sparkMore, this]

theorem sparkMore_full : Full sparkMore := by
  intro f hf
  unfold sparkMore
  cases libRat f with
  | some g => rfl
  | none =>
    by_cases h : f = "isnan"
    · simp [h]
    · simp [h, hf]

theorem sparkMore_pow (field : String → Option ℚ) : PowLaw (treeEnv sparkMore field) := by
  intro x n
  have h1 : libRat "pow" = none := rfl
  have h2 : "pow" ∈ libraryNames := by decide +kernel
  have : libFn sparkMore "pow" = exprRow.fn "pow" := by
    unfold libFn sparkMore
    simp [h1, h2]
  simp only [treeEnv, this]
  exact exprRow_pow x n

/-- Functions of analysis that are null everywhere. -/
def exSMath : SMath := fun _ _ => none

/-- A row: `x = 0`, `y = -1`, `z` is NaN, and the boolean field `b` is set. -/
def sparkEx (s : String) : Option ℚ :=
  if s = "x" then some 0 else if s = "y" then some (-1) else if s = "b" then some 1 else none

def sparkTy (s : String) : STy := if s = "b" then .bool else .num

theorem sparkEx_flags : Flags sparkTy sparkEx := by
  intro s h
  unfold sparkTy at h
  split_ifs at h with hb
  exact .inr (by simp [sparkEx, hb])

/-- `where(x != 0, 1/x, y)`: the quotient by zero is not taken. -/
def exWhere : Py :=
  .call "where" [.compare (.name "x") [.ne] [.num 0], .bin .div (.num 1) (.name "x"), .name "y"]

/-- What it is parsed to. -/
def exWhereE : E :=
  .node (.call "where") [.node (.rel .ne) [.node (.const 0) [] [], .node (.name "x") [] []] [],
    .node (.times 1) [] [.node (.name "x") [] []], .node (.name "y") [] []] []

theorem exWhere_parsed : parseExpr (plainScope recognized) exWhere = .ok exWhereE := by decide +kernel

theorem exWhere_safe : exWhereE.SparkSafe sparkMore exSMath sparkEx :=
  .whereFalse _ _ _ _ _ (.inl rfl) (.rel _ _ _ _ (.const _ _ _) (.name _ _ _) (by decide +kernel) (by decide +kernel))
    (by decide +kernel) (.name _ _ _)

/-- The hypotheses of C93 are met by `where(x != 0, 1/x, y)` on a row with `x = 0`. -/
example : ∃ v, computed sparkMore sparkEx exWhere = .ok (.num v) ∧
    onSpark sparkTy exSMath sparkEx exWhere = .ok (asSpark .num v) :=
  C93_same_partial sparkMore_lib sparkMore_full sparkEx_flags exWhere exWhereE .num exWhere_parsed
    (by decide +kernel) exWhere_safe

example : onSpark sparkTy exSMath sparkEx exWhere = .ok (.num (some (-1))) := by decide +kernel

/-- `(x - 3)/y`. -/
def exQuot : Py := .bin .div (.bin .sub (.name "x") (.num 3)) (.name "y")

/-- What it is parsed to: `x/y - 3/y`. -/
def exQuotE : E :=
  .node (.plus 0) [.node (.times 1) [.node (.name "x") [] []] [.node (.name "y") [] []]]
    [.node (.times 3) [] [.node (.name "y") [] []]]

theorem exQuot_safe : exQuotE.SparkSafe sparkMore exSMath sparkEx := by
  have hy : ∀ x ∈ [E.node (.name "y") [] []], x.SparkSafe sparkMore exSMath sparkEx ∧
      x.eval (treeEnv sparkMore sparkEx) ≠ some 0 := by
    intro x hx
    obtain rfl : x = _ := by simpa using hx
    exact ⟨.name _ _ _, by decide +kernel⟩
  refine .plus _ _ _ ?_ ?_ <;> intro x hx <;> obtain rfl : x = _ := by simpa using hx
  · exact .times _ _ _ (fun x hx => by obtain rfl : x = _ := by simpa using hx
                                       exact .name _ _ _) (fun x hx => (hy x hx).1) fun x hx => (hy x hx).2
  · exact .times _ _ _ (fun x hx => by simp at hx) (fun x hx => (hy x hx).1) fun x hx => (hy x hx).2

example : onSpark sparkTy exSMath sparkEx exQuot =
    .ok (asSpark .num (Py.val (treeEnv sparkMore sparkEx) sparkEx exQuot)) :=
  C93_written_partial sparkMore_lib sparkMore_full sparkEx_flags (sparkMore_pow _) exQuot (by decide +kernel)
    (by decide +kernel) (by simp only [exQuot, Py.AllDef]; decide +kernel) exQuotE .num (by decide +kernel)
    (by decide +kernel) exQuot_safe

/-- `x < y and z < x and b`: on this row `z` is NaN, but `x < y` is false. -/
def exCond : Py := .land [.compare (.name "x") [.lt] [.name "y"], .compare (.name "z") [.lt] [.name "x"], .name "b"]

/-- What it is parsed to. -/
def exCondE : E :=
  .node .land [.node (.pred "b" true) [] [], .node (.rel .lt) [.node (.name "x") [] [], .node (.name "y") [] []] [],
    .node (.rel .lt) [.node (.name "z") [] [], .node (.name "x") [] []] []] []

example : ∃ v, computed sparkMore sparkEx exCond = .ok (.num v) ∧
    onSpark sparkTy exSMath sparkEx exCond = .ok (asSpark .bool v) :=
  C93_same_partial sparkMore_lib sparkMore_full sparkEx_flags exCond exCondE .bool (by decide +kernel)
    (by decide +kernel)
    (.landFalse (.node (.rel .lt) [.node (.name "x") [] [], .node (.name "y") [] []] []) _ _ (by simp)
      (.rel _ _ _ _ (.name _ _ _) (.name _ _ _) (by decide +kernel) (by decide +kernel)) (by decide +kernel))

/-! ## Where Spark computes something else -/

/-- **C93** fails for comparisons of NaN: with `z` NaN, `y < z` and `z == z` are false in arrays and true on
Spark, and `z != z` the other way round. -/
theorem C93_refuted_nan :
    (computed sparkMore sparkEx (.compare (.name "y") [.lt] [.name "z"]) = .ok (.num (some 0)) ∧
      onSpark sparkTy exSMath sparkEx (.compare (.name "y") [.lt] [.name "z"]) = .ok (.bool true)) ∧
    (computed sparkMore sparkEx (.compare (.name "z") [.eq] [.name "z"]) = .ok (.num (some 0)) ∧
      onSpark sparkTy exSMath sparkEx (.compare (.name "z") [.eq] [.name "z"]) = .ok (.bool true)) ∧
    (computed sparkMore sparkEx (.compare (.name "z") [.ne] [.name "z"]) = .ok (.num (some 1)) ∧
      onSpark sparkTy exSMath sparkEx (.compare (.name "z") [.ne] [.name "z"]) = .ok (.bool false)) := by
  decide +kernel

/-- **C93** fails for NaN in `floor` and `min`: `floor(z)` is NaN in arrays and 0 on Spark, `min(y, z)` NaN in
arrays and `y` on Spark. -/
theorem C93_refuted_nan_functions :
    (computed sparkMore sparkEx (.call "floor" [.name "z"]) = .ok (.num none) ∧
      onSpark sparkTy exSMath sparkEx (.call "floor" [.name "z"]) = .ok (.num (some 0))) ∧
    (computed sparkMore sparkEx (.call "min" [.name "y", .name "z"]) = .ok (.num none) ∧
      onSpark sparkTy exSMath sparkEx (.call "min" [.name "y", .name "z"]) = .ok (.num (some (-1)))) := by
  decide +kernel

/-- **C93** fails for remainders of negative numbers: with `y = -1`, `mod(y, 3)` is 2 in arrays and -1 on
Spark. -/
theorem C93_refuted_remainder :
    computed sparkMore sparkEx (.call "mod" [.name "y", .num 3]) = .ok (.num (some 2)) ∧
    onSpark sparkTy exSMath sparkEx (.call "mod" [.name "y", .num 3]) = .ok (.num (some (-1))) := by
  decide +kernel

/-- **C93** fails for quotients by zero, which are null on Spark: with `x = 0`, `1/x < 5` is neither true nor
false there. -/
theorem C93_refuted_zero :
    onSpark sparkTy exSMath sparkEx (.bin .div (.num 1) (.name "x")) = .ok .null ∧
    onSpark sparkTy exSMath sparkEx (.compare (.bin .div (.num 1) (.name "x")) [.lt] [.num 5]) = .ok .null := by
  decide +kernel

/-- **C93** fails for everything computed from such a quotient: `abs`, `ceil`, `floor`, sums, remainders and the functions of analysis of null are null, `max`
and `min` ignore it, and `where` takes the last operand. -/
theorem C93_refuted_null (f : String) (hf : f ∈ ["abs", "fabs", "ceil", "floor", "sqrt", "log", "exp"]) :
    onSpark sparkTy exSMath sparkEx (.call f [.bin .div (.num 1) (.name "x")]) = .ok .null ∧
    onSpark sparkTy exSMath sparkEx (.bin .add (.bin .div (.num 1) (.name "x")) (.name "y")) = .ok .null ∧
    onSpark sparkTy exSMath sparkEx (.call "mod" [.bin .div (.num 1) (.name "x"), .name "y"]) = .ok .null ∧
    onSpark sparkTy exSMath sparkEx (.call "max" [.bin .div (.num 1) (.name "x"), .name "y"]) = .ok (.num (some (-1))) ∧
    onSpark sparkTy exSMath sparkEx (.call "min" [.bin .div (.num 1) (.name "x"), .name "y"]) = .ok (.num (some (-1))) ∧
    onSpark sparkTy exSMath sparkEx (.call "where" [.compare (.bin .div (.num 1) (.name "x")) [.lt] [.num 5], .num 1, .num 2]) =
      .ok (.num (some 2)) := by
  revert f
  decide +kernel

/-! ## What Spark is not given -/

/-- The functions of one and of two arguments that are computed from arrays, but not on Spark. -/
def notOnSpark1 : List String :=
  ["arccosh", "arcsinh", "arctanh", "erfc", "erf", "gamma", "isinf", "lgamma", "trunc", "conj", "exp2", "isfinite",
    "sign"]

def notOnSpark2 : List String := ["fmod", "copysign", "heaviside", "logaddexp2", "logaddexp"]

/-- **C93** fails for 18 of the functions that the parser recognises: they are computed from arrays, but
`NotImplementedError` is raised for Spark. -/
theorem C93_refuted_missing :
    (∀ f ∈ notOnSpark1, (computed sparkMore sparkEx (.call f [.name "x"])).toBool = true ∧
      onSpark sparkTy exSMath sparkEx (.call f [.name "x"]) = .error .notImplemented) ∧
    (∀ f ∈ notOnSpark2, (computed sparkMore sparkEx (.call f [.name "x", .name "y"])).toBool = true ∧
      onSpark sparkTy exSMath sparkEx (.call f [.name "x", .name "y"]) = .error .notImplemented) := by
  decide +kernel

/-- Besides these and `round`, which is not computed from arrays either (C77), Spark is given all functions
that the parser recognises. -/
theorem C93_functions (f : String) (h : recognized f = true) :
    (sparkFn f).isSome = true ∨ f ∈ notOnSpark1 ∨ f ∈ notOnSpark2 ∨ f = "round" := by
  have key : ∀ f ∈ recognizedNames,
      (sparkFn f).isSome = true ∨ f ∈ notOnSpark1 ∨ f ∈ notOnSpark2 ∨ f = "round" := by decide +kernel
  exact key f (by simpa [recognized] using h)

/-- **C93** fails for the operator `%`: it becomes `fmod`, for which `NotImplementedError` is raised before
the line that would translate it. -/
theorem C93_refuted_percent :
    computed sparkMore sparkEx (.bin .mod (.name "y") (.num 3)) = .ok (.num (some 2)) ∧
    onSpark sparkTy exSMath sparkEx (.bin .mod (.name "y") (.num 3)) = .error .notImplemented := by
  decide +kernel

/-- **C93** fails for `in`, which is refused on Spark. -/
theorem C93_refuted_in (ty : String → STy) (sm : SMath) (field : String → Option ℚ) (x : String) (l : List ℚ) :
    onSpark ty sm field (.compare (.name x) [.isin] [.set l]) = .error .typeError ∧
    onSpark ty sm field (.compare (.name x) [.notin] [.set l]) = .error .typeError := by
  constructor <;> rfl

/-- **C93** fails for arithmetic with a boolean field: `b + 1` is 2 in arrays and refused by Spark. -/
theorem C93_refuted_flag :
    computed sparkMore sparkEx (.bin .add (.name "b") (.num 1)) = .ok (.num (some 2)) ∧
    onSpark sparkTy exSMath sparkEx (.bin .add (.name "b") (.num 1)) = .error .typeError := by
  decide +kernel

/-! ## More than two arguments -/

theorem many_parsed : ∀ (rel : Bool) (l : List String),
    Py.parseArgs (plainScope recognized) rel (l.map Py.name) = .ok (l.map E.name)
  | _, [] => rfl
  | rel, s :: l => by
    have h : Py.parse (plainScope recognized) rel (.name s) = .ok (E.name s) := by cases rel <;> rfl
    simp only [List.map_cons, Py.parseArgs, h, many_parsed false l]
    rfl

theorem many_tree : ∀ l : List String, totreeL (l.map E.name) = .ok (l.map E.name)
  | [] => rfl
  | s :: l => by
    have h : totree (E.name s) = .ok (E.name s) := rfl
    simp only [List.map_cons, totreeL, h, many_tree l]
    rfl

theorem many_toT : ∀ l : List String, E.toTL (l.map E.name) = l.map T.name
  | [] => rfl
  | s :: l => by
    simp only [List.map_cons, E.toTL, many_toT l]
    rfl

theorem many_columns : ∀ l : List String, tocolumnsN l.length (l.map T.name) = .ok (l.map SCol.field)
  | [] => rfl
  | s :: l => by
    simp only [List.map_cons, List.length_cons, tocolumnsN, many_columns l, tocolumns]
    rfl

theorem many_types (ty : String → STy) : ∀ l : List String, (∀ s ∈ l, ty s = .num) →
    SCol.typeL ty (l.map SCol.field) = .ok (l.map fun _ => STy.num)
  | [], _ => rfl
  | s :: l, h => by
    simp only [List.map_cons, SCol.typeL, SCol.type, h s (by simp),
      many_types ty l (fun s hs => h s (by simp [hs]))]
    rfl

theorem many_values (sm : SMath) (row : String → SVal) : ∀ l : List String,
    SCol.evalL sm row (l.map SCol.field) = l.map row
  | [] => rfl
  | s :: l => by simp only [List.map_cons, SCol.evalL, SCol.eval, many_values sm row l]

theorem many_nums {ty : String → STy} {field : String → Option ℚ} {q : String → ℚ} :
    ∀ l : List String, (∀ s ∈ l, ty s = .num) → (∀ s ∈ l, field s = some (q s)) →
    SVal.nums (l.map (sparkRow ty field)) = l.map fun s => some (q s)
  | [], _, _ => rfl
  | s :: l, h, h' => by
    have ih := many_nums l (fun s hs => h s (by simp [hs])) (fun s hs => h' s (by simp [hs]))
    simp only [List.map_cons, sparkRow, h s (by simp), h' s (by simp), SVal.nums]
    rw [← ih]

theorem fold_extreme (r : ℚ → ℚ → Bool) (R : Option ℚ → Option ℚ → Bool) (hr : ∀ x y, R (some x) (some y) = r x y)
    (le : ℚ → ℚ → Prop) (hrefl : ∀ x, le x x) (htr : ∀ x y z, le x y → le y z → le x z)
    (h1 : ∀ x y, r x y = true → le x y) (h2 : ∀ x y, r x y = false → le y x) :
    ∀ (l : List ℚ) (a : ℚ), ∃ m, (l.map some).foldl (fun a b => if R a b then b else a) (some a) = some m ∧
      m ∈ a :: l ∧ ∀ x ∈ a :: l, le x m
  | [], a => ⟨a, rfl, by simp, by simpa using hrefl a⟩
  | b :: l, a => by
    simp only [List.map_cons, List.foldl_cons, hr]
    cases hab : r a b
    · obtain ⟨m, e, hm, hl⟩ := fold_extreme r R hr le hrefl htr h1 h2 l a
      refine ⟨m, by simpa using e, by simp only [List.mem_cons] at hm ⊢; tauto, ?_⟩
      intro x hx
      rcases List.mem_cons.1 hx with rfl | hx
      · exact hl _ (by simp)
      rcases List.mem_cons.1 hx with rfl | hx
      · exact htr _ _ _ (h2 _ _ hab) (hl a (by simp))
      · exact hl x (by simp [hx])
    · obtain ⟨m, e, hm, hl⟩ := fold_extreme r R hr le hrefl htr h1 h2 l b
      refine ⟨m, by simpa using e, by simp only [List.mem_cons] at hm ⊢; tauto, ?_⟩
      intro x hx
      rcases List.mem_cons.1 hx with rfl | hx
      · exact htr _ _ _ (h1 _ _ hab) (hl b (by simp))
      · exact hl x hx

theorem many_onSpark (g : SFn) (f : String) (hk : recognized f = true) (hf : sparkFn f = some g)
    (hg : g = .greatest ∨ g = .least) (l : List String)
    (hl : 2 ≤ l.length) (hty : ∀ s ∈ l, ty s = .num) :
    onSpark ty sm field (.call f (l.map .name)) = .ok (g.apply sm (l.map (sparkRow ty field))) := by
  have h1 : parseExpr (plainScope recognized) (.call f (l.map .name)) = .ok (E.callE f (l.map E.name)) := by
    simp only [parseExpr, Py.parse, plainScope, hk, if_pos]
    have := many_parsed (decide (f = "where")) l
    simp only [plainScope] at this
    rw [this]
    rfl
  have h2 : totree (E.callE f (l.map E.name)) = .ok (E.callE f (l.map E.name)) := by
    simp only [E.callE, totree, many_tree]
    rfl
  have h3 : (E.callE f (l.map E.name)).toT = .call f (l.map T.name) := by
    simp only [E.toT, many_toT]
  have h4 : tocolumns (.call f (l.map T.name)) = .ok (.fn g (l.map .field)) := by
    simp only [tocolumns, hf, List.length_map]
    have : g.count l.length = l.length := by rcases hg with rfl | rfl <;> rfl
    rw [this, many_columns]
    have hlt : ¬ l.length < 2 := by omega
    rcases hg with rfl | rfl <;> simp [SFn.column, bind, Except.bind, hlt]
  have h5 : SCol.type ty (.fn g (l.map .field)) = .ok .num := by
    simp only [SCol.type, many_types ty l hty]
    rcases hg with rfl | rfl <;> simp [bind, Except.bind, SFn.type]
  simp only [onSpark, h1, h2, sparkVal, h3, h4, h5, bind, Except.bind, SCol.eval, many_values]

/-- **C93** for `max` of any number of fields: Spark computes the greatest of them all. -/
theorem C93_max_of_many (q : String → ℚ) (l : List String) (hl : 2 ≤ l.length) (hty : ∀ s ∈ l, ty s = .num)
    (hq : ∀ s ∈ l, field s = some (q s)) (f : String) (hf : f = "max" ∨ f = "fmax") :
    ∃ s ∈ l, (∀ s' ∈ l, q s' ≤ q s) ∧ onSpark ty sm field (.call f (l.map .name)) = .ok (.num (some (q s))) := by
  have h := many_onSpark (ty := ty) (sm := sm) (field := field) .greatest f
    (by rcases hf with rfl | rfl <;> decide +kernel)
    (by rcases hf with rfl | rfl <;> rfl) (.inl rfl) l hl hty
  rw [h]
  simp only [SFn.apply, SVal.extreme, many_nums l hty hq]
  cases l with
  | nil => simp at hl
  | cons a l =>
    obtain ⟨m, e, hm, hle⟩ := fold_extreme (fun x y => decide (x < y)) sparkLt (fun _ _ => rfl) (· ≤ ·) le_refl
      (fun _ _ _ => le_trans) (fun x y h => le_of_lt (by simpa using h)) (fun x y h => by simpa using h)
      (l.map q) (q a)
    simp only [← List.map_cons] at hm hle
    obtain ⟨s, hs, rfl⟩ := List.mem_map.1 hm
    refine ⟨s, hs, fun s' hs' => hle _ (List.mem_map_of_mem hs'), ?_⟩
    simp only [List.map_map] at e
    simp only [List.map_cons]
    exact congrArg (fun v => Except.ok (SVal.num v)) e

/-- **C93** for `min` of any number of fields: Spark computes the least of them all. -/
theorem C93_min_of_many (q : String → ℚ) (l : List String) (hl : 2 ≤ l.length) (hty : ∀ s ∈ l, ty s = .num)
    (hq : ∀ s ∈ l, field s = some (q s)) (f : String) (hf : f = "min" ∨ f = "fmin") :
    ∃ s ∈ l, (∀ s' ∈ l, q s ≤ q s') ∧ onSpark ty sm field (.call f (l.map .name)) = .ok (.num (some (q s))) := by
  have h := many_onSpark (ty := ty) (sm := sm) (field := field) .least f
    (by rcases hf with rfl | rfl <;> decide +kernel)
    (by rcases hf with rfl | rfl <;> rfl) (.inr rfl) l hl hty
  rw [h]
  simp only [SFn.apply, SVal.extreme, many_nums l hty hq]
  cases l with
  | nil => simp at hl
  | cons a l =>
    obtain ⟨m, e, hm, hle⟩ := fold_extreme (fun x y => decide (y < x)) (fun x y => sparkLt y x) (fun _ _ => rfl)
      (· ≥ ·) le_refl (fun _ _ _ h h' => le_trans h' h) (fun x y h => le_of_lt (by simpa using h))
      (fun x y h => by simpa using h) (l.map q) (q a)
    simp only [← List.map_cons] at hm hle
    obtain ⟨s, hs, rfl⟩ := List.mem_map.1 hm
    refine ⟨s, hs, fun s' hs' => hle _ (List.mem_map_of_mem hs'), ?_⟩
    simp only [List.map_map] at e
    simp only [List.map_cons]
    exact congrArg (fun v => Except.ok (SVal.num v)) e

example : onSpark sparkTy exSMath (fun s => if s = "x" then some 1 else if s = "y" then some 2 else some 7)
    (.call "max" [.name "x", .name "y", .name "z"]) = .ok (.num (some 7)) := by decide +kernel

end Verif
