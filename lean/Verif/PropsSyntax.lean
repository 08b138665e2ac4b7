import Verif.SyntaxLemmas
import Verif.Tree

/-!
# C114: nothing in an expression is ignored

A part of an expression that histbook does not support, `x[0]`, `x.y`, `a if b else c`, should make the
expression an error.  It does when the value depends on the part (`C114_refused_partial`,
`C114_condition_partial`), but two unsupported parts count as equal, whatever they are
(`C114_refuted_difference`, `C114_refuted_cancel`, `C114_refuted_quotient`), and keyword arguments of
functions are always ignored (`C114_refuted_keywords`).
-/

namespace Verif

/-- The elements of a set display. -/
def PySyn.elements : PySyn → List ℚ
  | .set l => l
  | .plus a => a.elements
  | _ => []

mutual
/-- The value that Python gives to a written expression, with the values `o` of the unsupported parts
and the meaning `kw` of functions called with keyword arguments. -/
def PySyn.val (env : RowEnv) (kw : String → List (Option ℚ) → List (String × Option ℚ) → Option ℚ)
    (o : ℕ → Option ℚ) : PySyn → Option ℚ
  | .num q => some q
  | .set _ => none
  | .name s => env.field s
  | .neg a => (PySyn.val env kw o a).map (fun x => -x)
  | .plus a => PySyn.val env kw o a
  | .invert a => env.fn "~" [PySyn.val env kw o a]
  | .bin op a b => op.sem env (PySyn.val env kw o a) (PySyn.val env kw o b)
  | .compare a ops cs => ofBool (PySyn.chain env kw o (PySyn.val env kw o a) ops cs)
  | .lnot a => ofBool (!truth (PySyn.val env kw o a))
  | .land l => ofBool ((PySyn.vals env kw o l).all truth)
  | .lor l => ofBool ((PySyn.vals env kw o l).any truth)
  | .call f args [] => env.fn f (PySyn.vals env kw o args)
  | .call f args ((k, a) :: ks) =>
    kw f (PySyn.vals env kw o args) ((k, PySyn.val env kw o a) :: PySyn.kwVals env kw o ks)
  | .other i => o i
/-- All comparisons of a chain hold. -/
def PySyn.chain (env : RowEnv) (kw : String → List (Option ℚ) → List (String × Option ℚ) → Option ℚ)
    (o : ℕ → Option ℚ) : Option ℚ → List PyCmp → List PySyn → Bool
  | l, op :: ops, c :: cs =>
    op.sem l (PySyn.val env kw o c) c.elements &&
      PySyn.chain env kw o (PySyn.val env kw o c) ops cs
  | _, _, _ => true
/-- Values of a list of expressions. -/
def PySyn.vals (env : RowEnv) (kw : String → List (Option ℚ) → List (String × Option ℚ) → Option ℚ)
    (o : ℕ → Option ℚ) : List PySyn → List (Option ℚ)
  | [] => []
  | a :: as => PySyn.val env kw o a :: PySyn.vals env kw o as
/-- Values of keyword arguments. -/
def PySyn.kwVals (env : RowEnv) (kw : String → List (Option ℚ) → List (String × Option ℚ) → Option ℚ)
    (o : ℕ → Option ℚ) : List (String × PySyn) → List (String × Option ℚ)
  | [] => []
  | (k, a) :: ks => (k, PySyn.val env kw o a) :: PySyn.kwVals env kw o ks
end

mutual
/-- The unsupported parts of an expression. -/
def PySyn.others : PySyn → List ℕ
  | .neg a => a.others
  | .plus a => a.others
  | .invert a => a.others
  | .bin _ a b => a.others ++ b.others
  | .compare a _ cs => a.others ++ PySyn.othersL cs
  | .lnot a => a.others
  | .land l => PySyn.othersL l
  | .lor l => PySyn.othersL l
  | .call _ args _ => PySyn.othersL args
  | .other i => [i]
  | _ => []
/-- The same for all elements of a list. -/
def PySyn.othersL : List PySyn → List ℕ
  | [] => []
  | a :: as => a.others ++ PySyn.othersL as
end

mutual
/-- An expression without keyword arguments in which every name is an identifier. -/
def PySyn.plain : PySyn → Bool
  | .name s => decide (s ≠ noneName)
  | .neg a => a.plain
  | .plus a => a.plain
  | .invert a => a.plain
  | .bin _ a b => a.plain && b.plain
  | .compare a _ cs => a.plain && PySyn.plainL cs
  | .lnot a => a.plain
  | .land l => PySyn.plainL l
  | .lor l => PySyn.plainL l
  | .call _ args ks => ks.isEmpty && PySyn.plainL args
  | _ => true
/-- The same for all elements of a list. -/
def PySyn.plainL : List PySyn → Bool
  | [] => true
  | a :: as => a.plain && PySyn.plainL as
end

/-- The row with the value `v` for every unsupported part. -/
def RowEnv.filled (env : RowEnv) (v : Option ℚ) : RowEnv :=
  { env with field := fun s => if s = noneName then v else env.field s }

theorem seen_elements : ∀ s : PySyn, s.seen.elements = s.elements
  | .plus a => by simp only [PySyn.seen, Py.elements, PySyn.elements]; exact seen_elements a
  | .num _ | .set _ | .name _ | .neg _ | .invert _ | .bin _ _ _ | .compare _ _ _ | .lnot _ | .land _ | .lor _
  | .call _ _ _ | .other _ => by simp [PySyn.seen, Py.elements, PySyn.elements]

section
variable {env : RowEnv} {kw : String → List (Option ℚ) → List (String × Option ℚ) → Option ℚ}
  {o : ℕ → Option ℚ} {v : Option ℚ}

theorem filled_sem (op : PyOp) (a b : Option ℚ) : op.sem (env.filled v) a b = op.sem env a b := by
  cases op <;> rfl

mutual
/-- The written value is the value that is seen, if all unsupported parts have the same value. -/
theorem seen_val : ∀ (s : PySyn), s.plain = true → (∀ i ∈ s.others, o i = v) →
    Py.val (env.filled v) (env.filled v).field s.seen = PySyn.val env kw o s
  | .num q, _, _ => rfl
  | .set l, _, _ => rfl
  | .name s, h, _ => by
    simp only [PySyn.plain, decide_eq_true_eq] at h
    simp [PySyn.seen, Py.val, PySyn.val, RowEnv.filled, h]
  | .neg a, h, g => by
    simp only [PySyn.seen, Py.val, PySyn.val]
    rw [seen_val a (by simpa [PySyn.plain] using h) (by simpa [PySyn.others] using g)]
  | .plus a, h, g => by
    simp only [PySyn.seen, Py.val, PySyn.val]
    exact seen_val a (by simpa [PySyn.plain] using h) (by simpa [PySyn.others] using g)
  | .invert a, h, g => by
    simp only [PySyn.seen, Py.val, PySyn.val]
    rw [seen_val a (by simpa [PySyn.plain] using h) (by simpa [PySyn.others] using g)]; rfl
  | .bin op a b, h, g => by
    simp only [PySyn.plain, Bool.and_eq_true] at h
    simp only [PySyn.others, List.mem_append] at g
    simp only [PySyn.seen, Py.val, PySyn.val]
    rw [seen_val a h.1 (fun i hi => g i (.inl hi)), seen_val b h.2 (fun i hi => g i (.inr hi)), filled_sem]
  | .compare a ops cs, h, g => by
    simp only [PySyn.plain, Bool.and_eq_true] at h
    simp only [PySyn.others, List.mem_append] at g
    simp only [PySyn.seen, Py.val, PySyn.val]
    rw [seen_val a h.1 (fun i hi => g i (.inl hi)), seen_chain _ ops cs h.2 (fun i hi => g i (.inr hi))]
  | .lnot a, h, g => by
    simp only [PySyn.seen, Py.val, PySyn.val]
    rw [seen_val a (by simpa [PySyn.plain] using h) (by simpa [PySyn.others] using g)]
  | .land l, h, g => by
    simp only [PySyn.seen, Py.val, PySyn.val]
    rw [seen_vals l (by simpa [PySyn.plain] using h) (by simpa [PySyn.others] using g)]
  | .lor l, h, g => by
    simp only [PySyn.seen, Py.val, PySyn.val]
    rw [seen_vals l (by simpa [PySyn.plain] using h) (by simpa [PySyn.others] using g)]
  | .call f args [], h, g => by
    simp only [PySyn.seen, Py.val, PySyn.val]
    rw [seen_vals args (by simpa [PySyn.plain] using h) (by simpa [PySyn.others] using g)]; rfl
  | .call f args (k :: ks), h, g => by simp [PySyn.plain] at h
  | .other i, h, g => by
    simp only [PySyn.seen, Py.val, PySyn.val]
    rw [g i (by simp [PySyn.others])]; simp [RowEnv.filled]
theorem seen_vals : ∀ (l : List PySyn), PySyn.plainL l = true → (∀ i ∈ PySyn.othersL l, o i = v) →
    Py.vals (env.filled v) (env.filled v).field (PySyn.seenL l) = PySyn.vals env kw o l
  | [], _, _ => rfl
  | a :: as, h, g => by
    simp only [PySyn.plainL, Bool.and_eq_true] at h
    simp only [PySyn.othersL, List.mem_append] at g
    simp only [PySyn.seenL, Py.vals, PySyn.vals]
    rw [seen_val a h.1 (fun i hi => g i (.inl hi)), seen_vals as h.2 (fun i hi => g i (.inr hi))]
theorem seen_chain : ∀ (x : Option ℚ) (ops : List PyCmp) (l : List PySyn), PySyn.plainL l = true →
    (∀ i ∈ PySyn.othersL l, o i = v) →
    Py.chain (env.filled v) (env.filled v).field x ops (PySyn.seenL l) = PySyn.chain env kw o x ops l
  | x, [], l, _, _ => by cases l <;> simp [PySyn.seenL, Py.chain, PySyn.chain]
  | x, op :: ops, [], _, _ => by simp [PySyn.seenL, Py.chain, PySyn.chain]
  | x, op :: ops, c :: cs, h, g => by
    simp only [PySyn.plainL, Bool.and_eq_true] at h
    simp only [PySyn.othersL, List.mem_append] at g
    simp only [PySyn.seenL, Py.chain, PySyn.chain]
    rw [seen_val c h.1 (fun i hi => g i (.inl hi)), seen_elements,
      seen_chain _ ops cs h.2 (fun i hi => g i (.inr hi))]
end

end

/-- An expression that is parsed to something without unsupported parts has a value that does not depend
on them. -/
theorem accepted_indep {env : RowEnv} {e : E} (v w : Option ℚ) (h : noneName ∉ e.names) :
    e.eval (env.filled v) = e.eval (env.filled w) := by
  refine E.eval_names (env := env.filled v) (env' := env.filled w) rfl e (fun s hs => ?_)
  have : s ≠ noneName := fun hc => h (hc ▸ hs)
  simp [RowEnv.filled, this]

/-- **C114** for arithmetic: if the value of the written expression on some row depends on its
unsupported parts (with one value for all of them), making an axis, a weight or a profile of it is an
`AssertionError`.  Missing: expressions in which unsupported parts cancel each other, where the claim
fails (`C114_refuted_difference`), products with constant terms and general quotients, where the
parsed expression has another value anyway (C48). -/
theorem C114_refused_partial {env : RowEnv} (hp : PowLaw env) (known : String → Bool)
    {kw : String → List (Option ℚ) → List (String × Option ℚ) → Option ℚ} {s : PySyn} {o o' : ℕ → Option ℚ} {v w : Option ℚ}
    (hs : s.seen.safe known = true) (hk : s.plain = true)
    (ho : ∀ i ∈ s.others, o i = v) (ho' : ∀ i ∈ s.others, o' i = w)
    (hd : s.seen.AllDef (env.filled v)) (hd' : s.seen.AllDef (env.filled w))
    (hne : PySyn.val env kw o s ≠ PySyn.val env kw o' s) :
    acceptExpr (plainScope known) s = .error .assertion := by
  obtain ⟨e, h1, h2⟩ := C48_safe_partial (env := env.filled v) hp known s.seen hs hd
  obtain ⟨e', h1', h2'⟩ := C48_safe_partial (env := env.filled w) hp known s.seen hs hd'
  rw [h1] at h1'
  cases h1'
  unfold acceptExpr
  rw [h1]
  simp only [bind, Except.bind]
  by_cases hm : noneName ∈ e.names
  · rw [if_pos hm]
  · exact absurd (by rw [← seen_val (kw := kw) s hk ho, ← seen_val (kw := kw) s hk ho', ← h2, ← h2',
      accepted_indep v w hm]) hne

/-- **C114** for conditions (comparisons of arithmetic without division, boolean fields, `and`, `or`,
`not`): the same. -/
theorem C114_condition_partial {env : RowEnv} (hp : PowLaw env) (known : String → Bool)
    {kw : String → List (Option ℚ) → List (String × Option ℚ) → Option ℚ} {s : PySyn} {o o' : ℕ → Option ℚ} {v w : Option ℚ}
    (hs : s.seen.condClass known = true) (hk : s.plain = true)
    (ho : ∀ i ∈ s.others, o i = v) (ho' : ∀ i ∈ s.others, o' i = w)
    (hd : Py.NaNSafe (env.filled v) true s.seen) (hd' : Py.NaNSafe (env.filled w) true s.seen)
    (hne : PySyn.val env kw o s ≠ PySyn.val env kw o' s) :
    acceptExpr (plainScope known) s = .error .assertion := by
  obtain ⟨e, h1, _⟩ := cond_parses known s.seen hs
  have h2 := C50_truth_partial (env := env.filled v) hp known s.seen e h1 hs hd
  have h2' := C50_truth_partial (env := env.filled w) hp known s.seen e h1 hs hd'
  unfold acceptExpr
  rw [show parseExpr (plainScope known) s.seen = .ok e from h1]
  simp only [bind, Except.bind]
  by_cases hm : noneName ∈ e.names
  · rw [if_pos hm]
  · exact absurd (by rw [← seen_val (kw := kw) s hk ho, ← seen_val (kw := kw) s hk ho', ← h2, ← h2',
      accepted_indep v w hm]) hne

theorem parse_any {known : String → Bool} {a : PySyn} (h : a.seen.divFree known = true) (rel : Bool) :
    ∃ e, Py.parse (plainScope known) rel a.seen = .ok e := by
  obtain ⟨⟨e, p⟩, _⟩ := parse_divFree known a.seen h
  cases rel with
  | false => exact ⟨e, p.ok⟩
  | true => exact ⟨e, parse_false_true p.ok⟩

theorem parseArgs_free {known : String → Bool} : ∀ (l : List PySyn) (rel : Bool),
    (∀ a ∈ l, a.seen.divFree known = true) → ∃ es, Py.parseArgs (plainScope known) rel (PySyn.seenL l) = .ok es
  | [], rel, _ => ⟨[], by cases rel <;> simp [PySyn.seenL, Py.parseArgs]⟩
  | a :: as, rel, h => by
    obtain ⟨e, h1⟩ := parse_any (h a (by simp)) rel
    obtain ⟨es, h2⟩ := parseArgs_free as false (fun x hx => h x (by simp [hx]))
    exact ⟨e :: es, by simp [PySyn.seenL, Py.parseArgs, h1, h2, bind, Except.bind]⟩

theorem parseArgs_other {known : String → Bool} (i : ℕ) {r : List PySyn}
    (hr : ∀ a ∈ r, a.seen.divFree known = true) : ∀ (l : List PySyn) (rel : Bool),
    (∀ a ∈ l, a.seen.divFree known = true) →
    ∃ es, Py.parseArgs (plainScope known) rel (PySyn.seenL (l ++ .other i :: r)) = .ok es ∧ noneName ∈ E.namesL es
  | [], rel, _ => by
    obtain ⟨es, h2⟩ := parseArgs_free r false hr
    exact ⟨E.name noneName :: es, by
      simp only [List.nil_append, PySyn.seenL, PySyn.seen, Py.parseArgs, Py.parse, h2]
      simp [plainScope, bind, Except.bind], by simp [E.namesL, E.names]⟩
  | a :: as, rel, h => by
    obtain ⟨e, h1⟩ := parse_any (h a (by simp)) rel
    obtain ⟨es, h2, h3⟩ := parseArgs_other i hr as false (fun x hx => h x (by simp [hx]))
    exact ⟨e :: es, by simp [PySyn.seenL, Py.parseArgs, h1, h2, bind, Except.bind], by simp [E.namesL, h3]⟩

/-- An unsupported part on its own, and as an argument of a function, is always refused. -/
theorem C114_argument (known : String → Bool) (f : String) (i : ℕ) (l r : List PySyn) (hf : known f = true)
    (hl : ∀ a ∈ l, a.seen.divFree known = true) (hr : ∀ a ∈ r, a.seen.divFree known = true) :
    acceptExpr (plainScope known) (.other i) = .error .assertion ∧
    acceptExpr (plainScope known) (.call f (l ++ .other i :: r) []) = .error .assertion := by
  constructor
  · simp [acceptExpr, PySyn.seen, parseExpr, Py.parse, plainScope, bind, Except.bind, E.names]
  · obtain ⟨es, h1, h2⟩ := parseArgs_other (known := known) i hr l (decide (f = "where")) hl
    simp only [acceptExpr, PySyn.seen, parseExpr, Py.parse]
    rw [if_pos (show (plainScope known).known f = true from hf), h1]
    simp [bind, Except.bind, E.names, h2]

/-- **C114** fails: the difference of any two unsupported parts is accepted and counts as 0, their
quotient as 1, although they may well be 6 and 5/2. -/
theorem C114_refuted_difference (known : String → Bool) (i j : ℕ) :
    (i ≠ j → ∀ env kw, ∃ o, PySyn.val env kw o (.bin .sub (.other i) (.other j)) = some 6 ∧
      PySyn.val env kw o (.bin .div (.other i) (.other j)) = some (5 / 2)) ∧
    acceptExpr (plainScope known) (.bin .sub (.other i) (.other j)) = .ok (E.const 0) ∧
    acceptExpr (plainScope known) (.bin .div (.other i) (.other j)) = .ok (E.const 1) := by
  refine ⟨fun hij env kw => ⟨fun k => if k = i then some 10 else some 4, ?_⟩, ?_, ?_⟩
  · simp only [PySyn.val, PyOp.sem, if_true, if_neg (Ne.symm hij), divO, bind, Option.bind]
    norm_num
  all_goals
    simp only [acceptExpr, PySyn.seen, parseExpr, Py.parse, plainScope]
    decide +kernel

/-- **C114** fails inside larger expressions: added to any arithmetic without division, the difference
of two unsupported parts disappears; as a factor it makes the product 0. -/
theorem C114_refuted_cancel (known : String → Bool) (i j : ℕ) (s : PySyn) (hs : s.seen.divFree known = true) :
    acceptExpr (plainScope known) (.bin .add s (.bin .sub (.other i) (.other j))) =
      acceptExpr (plainScope known) s ∧
    acceptExpr (plainScope known) (.bin .mul s (.bin .sub (.other i) (.other j))) = .ok (E.const 0) := by
  have hz : (Py.bin .sub (.name noneName) (.name noneName)).divFree known = true := by simp [Py.divFree]
  constructor
  · obtain ⟨e, h1, h2⟩ := same_of_mv (known := known)
      (s := .bin .add s.seen (.bin .sub (.name noneName) (.name noneName))) (t := s.seen)
      (by simp [Py.divFree, hs]) hs (by simp [Py.mv])
    simp only [acceptExpr, PySyn.seen, parseExpr]
    rw [parse_false_true h1, parse_false_true h2]
  · obtain ⟨e, h1, h2⟩ := same_of_mv (known := known)
      (s := .bin .mul s.seen (.bin .sub (.name noneName) (.name noneName))) (t := .num 0)
      (by simp [Py.divFree, hs, Py.constTerm]) (by simp [Py.divFree]) (by simp [Py.mv])
    simp only [acceptExpr, PySyn.seen, parseExpr]
    rw [parse_false_true h1]
    simp only [Py.parse, Except.ok.injEq] at h2
    subst h2
    simp [bind, Except.bind, E.names]

/-- **C114** fails: keyword arguments of a function are never looked at, whatever their names and
values. -/
theorem C114_refuted_keywords (sc : Scope) (f : String) (args : List PySyn) (ks ks' : List (String × PySyn)) :
    acceptExpr sc (.call f args ks) = acceptExpr sc (.call f args ks') := by
  simp [acceptExpr, PySyn.seen]

/-- The row of the examples, with the values of `x[0]` and `x[1]`. -/
def exParts (a b : ℚ) : ℕ → Option ℚ := fun i => if i = 0 then some a else some b

/-- `2*x + x[0]`. -/
def exUsed : PySyn := .bin .add (.bin .mul (.num 2) (.name "x")) (.other 0)

/-- The hypotheses of `C114_refused_partial` are met by `2*x + x[0]`. -/
example : acceptExpr (plainScope anyName) exUsed = .error .assertion := by
  refine C114_refused_partial (env := exprRow) (kw := fun _ _ _ => none) exprRow_pow anyName (o := exParts 1 2)
    (o' := exParts 4 2) (v := some 1) (w := some 4) (by decide +kernel) (by decide +kernel) ?_ ?_ ?_ ?_ ?_
  · decide +kernel
  · decide +kernel
  · simp [exUsed, PySyn.seen, Py.AllDef]; decide +kernel
  · simp [exUsed, PySyn.seen, Py.AllDef]; decide +kernel
  · decide +kernel

/-- `x < x[0] and y < 7`. -/
def exPartCond : PySyn := .land [.compare (.name "x") [.lt] [.other 0], .compare (.name "y") [.lt] [.num 7]]

/-- The hypotheses of `C114_condition_partial` are met by `x < x[0] and y < 7`. -/
example : acceptExpr (plainScope anyName) exPartCond = .error .assertion := by
  refine C114_condition_partial (env := exprRow) (kw := fun _ _ _ => none) exprRow_pow anyName (o := exParts 1 2)
    (o' := exParts 4 2) (v := some 1) (w := some 4) (by decide +kernel) (by decide +kernel) ?_ ?_ ?_ ?_ ?_
  · decide +kernel
  · decide +kernel
  · simp [exPartCond, PySyn.seen, PySyn.seenL, Py.NaNSafe, Py.NaNSafeL, Py.AllDef, Py.AllDefL]
  · simp [exPartCond, PySyn.seen, PySyn.seenL, Py.NaNSafe, Py.NaNSafeL, Py.AllDef, Py.AllDefL]
  · decide +kernel

/-- `sqrt(x[0])` and `where(x, y, x[0])` are refused. -/
example : acceptExpr (plainScope anyName) (.call "sqrt" [.other 0] []) = .error .assertion ∧
    acceptExpr (plainScope anyName) (.call "where" [.name "x", .name "y", .other 0] []) = .error .assertion :=
  ⟨(C114_argument anyName "sqrt" 0 [] [] rfl (by simp) (by simp)).2,
    (C114_argument anyName "where" 0 [.name "x", .name "y"] [] rfl (by simp [PySyn.seen, Py.divFree]) (by simp)).2⟩

/-- With `x[0] = 10` and `x[1] = 4`, the value of `x[0] - x[1]` is 6, but it is accepted as 0;
`y + (x[0] - x[1])` is 11, but it is accepted as `y`, which is 5. -/
example : PySyn.val exprRow (fun _ _ _ => none) (exParts 10 4) (.bin .sub (.other 0) (.other 1)) = some 6 ∧
    acceptExpr (plainScope anyName) (.bin .sub (.other 0) (.other 1)) = .ok (E.const 0) ∧
    PySyn.val exprRow (fun _ _ _ => none) (exParts 10 4)
      (.bin .add (.name "y") (.bin .sub (.other 0) (.other 1))) = some 11 ∧
    acceptExpr (plainScope anyName) (.bin .add (.name "y") (.bin .sub (.other 0) (.other 1))) =
      .ok (E.name "y") ∧ (E.name "y").eval exprRow = some 5 := by
  refine ⟨by decide +kernel, (C114_refuted_difference anyName 0 1).2.1, by decide +kernel, ?_, by decide +kernel⟩
  rw [(C114_refuted_cancel anyName 0 1 (.name "y") (by decide +kernel)).1]
  simp [acceptExpr, PySyn.seen, parseExpr, Py.parse, plainScope, bind, Except.bind, E.names, noneName]

/-- `heaviside(x, middle=1)` is accepted as `heaviside(x)`, and so is `heaviside(x, nonsense=x[0])`. -/
example : acceptExpr (plainScope anyName) (.call "heaviside" [.name "x"] [("middle", .num 1)]) =
      .ok (E.callE "heaviside" [E.name "x"]) ∧
    acceptExpr (plainScope anyName) (.call "heaviside" [.name "x"] [("nonsense", .other 0)]) =
      .ok (E.callE "heaviside" [E.name "x"]) := by
  constructor <;>
    simp [acceptExpr, PySyn.seen, PySyn.seenL, parseExpr, Py.parse, Py.parseArgs, plainScope, anyName, bind, Except.bind,
      E.names, E.namesL, noneName]

#print axioms C114_refused_partial
#print axioms C114_condition_partial
#print axioms C114_argument
#print axioms C114_refuted_difference
#print axioms C114_refuted_cancel
#print axioms C114_refuted_keywords

end Verif
