import Verif.PropsTree

/-!
# C55: definitions

Property theorems.
-/

namespace Verif

/-! ## Specification -/

mutual
/-- Write the definitions `σ` out. -/
def Py.subst (σ : String → Option Py) : Py → Py
  | .num q => .num q
  | .set l => .set l
  | .name s => (σ s).getD (.name s)
  | .neg a => .neg (a.subst σ)
  | .plus a => .plus (a.subst σ)
  | .invert a => .invert (a.subst σ)
  | .bin op a b => .bin op (a.subst σ) (b.subst σ)
  | .compare a ops cs => .compare (a.subst σ) ops (Py.substL σ cs)
  | .lnot a => .lnot (a.subst σ)
  | .land l => .land (Py.substL σ l)
  | .lor l => .lor (Py.substL σ l)
  | .call f args => .call f (Py.substL σ args)
/-- The same in a list of expressions. -/
def Py.substL (σ : String → Option Py) : List Py → List Py
  | [] => []
  | a :: as => a.subst σ :: Py.substL σ as
end

/-- The definitions `σ`, each parsed on its own (expr.py 89-102). -/
structure Defined (sc : Scope) (σ : String → Option Py) : Prop where
  some : ∀ n p, σ n = some p → ∃ e, parseExpr (plainScope sc.known) p = .ok e ∧ sc.defs n = some e
  none : ∀ n, σ n = none → sc.defs n = none

/-! ## Helpers -/

mutual
theorem parse_subst {sc : Scope} {σ : String → Option Py} (hd : Defined sc σ) : ∀ (s : Py) (rel : Bool) (e : E),
    Py.parse (plainScope sc.known) rel (s.subst σ) = .ok e → Py.parse sc rel s = .ok e
  | .num q, rel, e, h => by simpa [Py.subst, Py.parse] using h
  | .set l, rel, e, h => by simpa [Py.subst, Py.parse] using h
  | .name n, rel, e, h => by
    simp only [Py.subst] at h
    cases hs : σ n with
    | none =>
      rw [hs] at h
      simp only [Option.getD_none, Py.parse, plainScope] at h
      simp only [Py.parse, hd.none n hs]
      exact h
    | some p =>
      rw [hs] at h
      obtain ⟨e', h1, h2⟩ := hd.some n p hs
      have h3 : parseExpr (plainScope sc.known) p = .ok e := by
        cases rel with
        | true => exact h
        | false => exact parse_false_true h
      rw [h1] at h3
      simp only [Py.parse, h2, Option.getD_some]
      exact h3
  | .neg a, rel, e, h => by
    simp only [Py.subst, Py.parse] at h ⊢
    obtain ⟨x, hx, h⟩ := exBind h
    rw [parse_subst hd a false x hx]; exact h
  | .plus a, rel, e, h => by
    simp only [Py.subst, Py.parse] at h ⊢
    exact parse_subst hd a false e h
  | .invert a, rel, e, h => by
    simp only [Py.subst, Py.parse] at h ⊢
    obtain ⟨x, hx, h⟩ := exBind h
    rw [parse_subst hd a false x hx]; exact h
  | .bin op a b, rel, e, h => by
    simp only [Py.subst, Py.parse] at h ⊢
    obtain ⟨x, hx, h⟩ := exBind h
    obtain ⟨y, hy, h⟩ := exBind h
    rw [parse_subst hd a false x hx]
    change (Py.parse sc false b >>= _) = _
    rw [parse_subst hd b false y hy]; exact h
  | .compare a ops cs, true, e, h => by
    simp only [Py.subst, Py.parse] at h ⊢
    obtain ⟨x, hx, h⟩ := exBind h
    obtain ⟨y, hy, h⟩ := exBind h
    rw [parse_subst hd a false x hx]
    change (Py.parseChain sc x ops cs >>= _) = _
    rw [parseChain_subst hd cs x ops y hy]; exact h
  | .compare a ops cs, false, e, h => by simp [Py.subst, Py.parse] at h
  | .lnot a, true, e, h => by
    simp only [Py.subst, Py.parse] at h ⊢
    obtain ⟨x, hx, h⟩ := exBind h
    rw [parse_subst hd a true x hx]; exact h
  | .lnot a, false, e, h => by simp [Py.subst, Py.parse] at h
  | .land l, true, e, h => by
    simp only [Py.subst, Py.parse] at h ⊢
    obtain ⟨x, hx, h⟩ := exBind h
    rw [parseOrs_subst hd l x hx]; exact h
  | .land l, false, e, h => by simp [Py.subst, Py.parse] at h
  | .lor l, true, e, h => by
    simp only [Py.subst, Py.parse] at h ⊢
    obtain ⟨x, hx, h⟩ := exBind h
    rw [parseOrs_subst hd l x hx]; exact h
  | .lor l, false, e, h => by simp [Py.subst, Py.parse] at h
  | .call f args, rel, e, h => by
    simp only [Py.subst, Py.parse, plainScope] at h ⊢
    split_ifs at h ⊢ with hk
    obtain ⟨x, hx, h⟩ := exBind h
    rw [parseArgs_subst hd args _ x hx]; exact h
theorem parseChain_subst {sc : Scope} {σ : String → Option Py} (hd : Defined sc σ) : ∀ (cs : List Py) (l : E)
    (ops : List PyCmp) (es : List E),
    Py.parseChain (plainScope sc.known) l ops (Py.substL σ cs) = .ok es → Py.parseChain sc l ops cs = .ok es
  | [], l, ops, es, h => by cases ops <;> simpa [Py.substL, Py.parseChain] using h
  | c :: cs, l, [], es, h => by simpa [Py.substL, Py.parseChain] using h
  | c :: cs, l, op :: ops, es, h => by
    simp only [Py.substL, Py.parseChain] at h ⊢
    obtain ⟨x, hx, h⟩ := exBind h
    obtain ⟨y, hy, h⟩ := exBind h
    obtain ⟨z, hz, h⟩ := exBind h
    rw [parse_subst hd c false x hx]
    change (mkRel op l x >>= _) = _
    rw [hy]
    change (Py.parseChain sc x ops cs >>= _) = _
    rw [parseChain_subst hd cs x ops z hz]; exact h
theorem parseOrs_subst {sc : Scope} {σ : String → Option Py} (hd : Defined sc σ) : ∀ (l : List Py) (es : List E),
    Py.parseOrs (plainScope sc.known) (Py.substL σ l) = .ok es → Py.parseOrs sc l = .ok es
  | [], es, h => by simpa [Py.substL, Py.parseOrs] using h
  | a :: as, es, h => by
    simp only [Py.substL, Py.parseOrs] at h ⊢
    obtain ⟨x, hx, h⟩ := exBind h
    obtain ⟨y, hy, h⟩ := exBind h
    obtain ⟨z, hz, h⟩ := exBind h
    rw [parse_subst hd a true x hx]
    change (x.asOr >>= _) = _
    rw [hy]
    change (Py.parseOrs sc as >>= _) = _
    rw [parseOrs_subst hd as z hz]; exact h
theorem parseArgs_subst {sc : Scope} {σ : String → Option Py} (hd : Defined sc σ) : ∀ (l : List Py) (rel : Bool)
    (es : List E), Py.parseArgs (plainScope sc.known) rel (Py.substL σ l) = .ok es → Py.parseArgs sc rel l = .ok es
  | [], rel, es, h => by simpa [Py.substL, Py.parseArgs] using h
  | a :: as, rel, es, h => by
    simp only [Py.substL, Py.parseArgs] at h ⊢
    obtain ⟨x, hx, h⟩ := exBind h
    obtain ⟨y, hy, h⟩ := exBind h
    rw [parse_subst hd a rel x hx]
    change (Py.parseArgs sc false as >>= _) = _
    rw [parseArgs_subst hd as false y hy]; exact h
end

/-- Look up a name; a defined name has the value of its definition. -/
def lookDef (env : RowEnv) (σ : String → Option Py) (n : String) : Option ℚ :=
  match σ n with
  | some p => Py.val env env.field p
  | none => env.field n

mutual
theorem val_subst {env : RowEnv} {σ : String → Option Py} (hσ : ∀ n p, σ n = some p → p.elements = []) :
    ∀ s : Py, Py.val env env.field (s.subst σ) = Py.val env (lookDef env σ) s ∧ (s.subst σ).elements = s.elements
  | .num q => ⟨rfl, rfl⟩
  | .set l => ⟨rfl, rfl⟩
  | .name n => by
    simp only [Py.subst, Py.val, lookDef]
    cases h : σ n with
    | none => exact ⟨rfl, rfl⟩
    | some p => exact ⟨rfl, hσ n p h⟩
  | .neg a => by simp only [Py.subst, Py.val, (val_subst hσ a).1]; exact ⟨trivial, rfl⟩
  | .plus a => by
    simp only [Py.subst, Py.val, (val_subst hσ a).1, Py.elements]; exact ⟨trivial, (val_subst (env := env) hσ a).2⟩
  | .invert a => by simp only [Py.subst, Py.val, (val_subst hσ a).1]; exact ⟨trivial, rfl⟩
  | .bin op a b => by simp only [Py.subst, Py.val, (val_subst hσ a).1, (val_subst hσ b).1]; exact ⟨trivial, rfl⟩
  | .compare a ops cs => by
    simp only [Py.subst, Py.val, (val_subst hσ a).1, chain_subst hσ cs]; exact ⟨trivial, rfl⟩
  | .lnot a => by simp only [Py.subst, Py.val, (val_subst hσ a).1]; exact ⟨trivial, rfl⟩
  | .land l => by simp only [Py.subst, Py.val, vals_subst hσ l]; exact ⟨trivial, rfl⟩
  | .lor l => by simp only [Py.subst, Py.val, vals_subst hσ l]; exact ⟨trivial, rfl⟩
  | .call f l => by simp only [Py.subst, Py.val, vals_subst hσ l]; exact ⟨trivial, rfl⟩
theorem chain_subst {env : RowEnv} {σ : String → Option Py} (hσ : ∀ n p, σ n = some p → p.elements = []) :
    ∀ (cs : List Py) (l : Option ℚ) (ops : List PyCmp),
      Py.chain env env.field l ops (Py.substL σ cs) = Py.chain env (lookDef env σ) l ops cs
  | [], l, ops => by cases ops <;> simp [Py.substL, Py.chain]
  | c :: cs, l, [] => by simp [Py.substL, Py.chain]
  | c :: cs, l, op :: ops => by
    simp only [Py.substL, Py.chain, (val_subst hσ c).1, (val_subst (env := env) hσ c).2, chain_subst hσ cs]
theorem vals_subst {env : RowEnv} {σ : String → Option Py} (hσ : ∀ n p, σ n = some p → p.elements = []) :
    ∀ l : List Py, Py.vals env env.field (Py.substL σ l) = Py.vals env (lookDef env σ) l
  | [] => rfl
  | a :: as => by simp only [Py.substL, Py.vals, (val_subst hσ a).1, vals_subst hσ as]
end

/-! ## C55 -/

/-- **C55**: if an expression is accepted with the definitions written out, then it is accepted with the
definitions, and to the very same parsed expression; so it also has the same values on every row. -/
theorem C55_written_out (sc : Scope) (σ : String → Option Py) (hd : Defined sc σ) (s : Py) (e : E)
    (h : parseExpr (plainScope sc.known) (s.subst σ) = .ok e) : parseExpr sc s = .ok e :=
  parse_subst hd s true e h

/-- **C55** as a statement about values: in arithmetic with quotients, a defined name has the value of its
definition on every row. -/
theorem C55_value_partial {env : RowEnv} (hp : PowLaw env) (sc : Scope) (σ : String → Option Py)
    (hd : Defined sc σ) (hσ : ∀ n p, σ n = some p → p.elements = []) (s : Py)
    (h : (s.subst σ).safe sc.known = true) (ha : (s.subst σ).AllDef env) :
    ∃ e, parseExpr sc s = .ok e ∧ e.eval env = Py.val env (lookDef env σ) s := by
  obtain ⟨e, h1, h2⟩ := C48_safe_partial hp sc.known (s.subst σ) h ha
  exact ⟨e, C55_written_out sc σ hd s e h1, by rw [h2, (val_subst hσ s).1]⟩

/-- **C55** for conditions. -/
theorem C55_condition_partial {env : RowEnv} (hp : PowLaw env) (sc : Scope) (σ : String → Option Py)
    (hd : Defined sc σ) (hσ : ∀ n p, σ n = some p → p.elements = []) (s : Py)
    (h : (s.subst σ).condClass sc.known = true) (hn : Py.NaNSafe env true (s.subst σ)) :
    ∃ e, parseExpr sc s = .ok e ∧ e.eval env = Py.val env (lookDef env σ) s := by
  obtain ⟨e, h1⟩ := C50_parses sc.known (s.subst σ) h
  exact ⟨e, C55_written_out sc σ hd s e h1,
    by rw [C50_truth_partial hp sc.known (s.subst σ) e h1 h hn, (val_subst hσ s).1]⟩

/-- The definitions `r = x*x + y` and `low = y < 3`. -/
def defsDemo (n : String) : Option Py :=
  if n = "r" then some (.bin .add (.bin .mul (.name "x") (.name "x")) (.name "y"))
  else if n = "low" then some (.compare (.name "y") [.lt] [.num 3])
  else none

/-- What the constructor of a histogram makes of these definitions. -/
def defsScope : Scope where
  known := recognized
  defs n := (defsDemo n).bind fun p => (parseExpr (plainScope recognized) p).toOption

theorem defsScope_defined : Defined defsScope defsDemo := by
  constructor
  · intro n p h
    have key : ∀ e, parseExpr (plainScope recognized) p = .ok e → defsScope.defs n = some e := by
      intro e he; simp [defsScope, h, he, Except.toOption]
    unfold defsDemo at h
    split_ifs at h
    · obtain ⟨e, he⟩ := C49_safe_partial recognized (.bin .add (.bin .mul (.name "x") (.name "x")) (.name "y")) (by decide +kernel)
      cases h; exact ⟨e, he, key e he⟩
    · obtain ⟨e, he⟩ := C50_parses recognized (.compare (.name "y") [.lt] [.num 3]) (by decide +kernel)
      cases h; exact ⟨e, he, key e he⟩
  · intro n h; simp [defsScope, h]

/-- `r / 2` with these definitions. -/
example : (Py.subst defsDemo (.bin .div (.name "r") (.num 2))).safe recognized = true := by decide +kernel

/-- `low and r < 4` with these definitions. -/
example : (Py.subst defsDemo (.land [.name "low", .compare (.name "r") [.lt] [.num 4]])).condClass recognized = true := by
  decide +kernel

/-- A definition that is a condition may be used in arithmetic, where the condition itself may not be written. -/
theorem C55_condition_as_number :
    (parseExpr defsScope (.bin .add (.name "low") (.num 1))).isOk = true ∧
    parseExpr (plainScope recognized) (Py.subst defsDemo (.bin .add (.name "low") (.num 1))) = .error .expression := by
  refine ⟨by decide +kernel, rfl⟩

end Verif
