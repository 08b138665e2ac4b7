import Verif.LogicLemmas
import Mathlib.Data.List.Dedup

/-!
# Values of parsed expressions

Lemmas: the parser keeps values, under conditions on the products and quotients (`Py.Exact`) and on
undefined operands of negated comparisons (`Py.Cond`).
-/

namespace Verif

/-- Parsing without definitions. -/
def plainScope (known : String → Bool) : Scope := ⟨known, fun _ => none⟩

theorem exBind {α β : Type} {x : Except Err α} {f : α → Except Err β} {b : β}
    (h : (x >>= f) = .ok b) : ∃ a, x = .ok a ∧ f a = .ok b := by
  cases x with
  | error e => cases h
  | ok a => exact ⟨a, rfl, h⟩

theorem exMap {α β : Type} {x : Except Err α} {f : α → β} {b : β}
    (h : x.map f = .ok b) : ∃ a, x = .ok a ∧ f a = b := by
  cases x with
  | error e => cases h
  | ok a => exact ⟨a, rfl, by simpa [Except.map] using h⟩

theorem reduceE_and {os : List E} {o : E} (h : reduceE andCombine os = .ok o)
    (hd : ∀ x ∈ os, IsDnf x) : IsDnf o ∧ ∀ f, dnfVal f o = os.all (dnfVal f) := by
  cases os with
  | nil => cases h
  | cons x xs =>
    have := (Except.ok.inj h).symm; subst this
    clear h
    have key : ∀ (xs : List E) (x : E), IsDnf x → (∀ y ∈ xs, IsDnf y) →
        IsDnf (xs.foldl andCombine x) ∧
          ∀ f, dnfVal f (xs.foldl andCombine x) = (dnfVal f x && xs.all (dnfVal f)) := by
      intro xs
      induction xs with
      | nil => intro x hx _; exact ⟨hx, fun f => by simp⟩
      | cons y ys ih =>
        intro x hx hy
        obtain ⟨a, b⟩ := andCombine_val hx (hy y (by simp))
        obtain ⟨c, d⟩ := ih (andCombine x y) a (fun z hz => hy z (by simp [hz]))
        refine ⟨c, fun f => ?_⟩
        rw [List.foldl_cons, d, b, List.all_cons, Bool.and_assoc]
    obtain ⟨a, b⟩ := key xs x (hd x (by simp)) (fun y hy => hd y (by simp [hy]))
    exact ⟨a, fun f => by rw [b, List.all_cons]⟩

theorem reduceE_or {os : List E} {o : E} (h : reduceE orCombine os = .ok o)
    (hd : ∀ x ∈ os, IsDnf x) : IsDnf o ∧ ∀ f, dnfVal f o = os.any (dnfVal f) := by
  cases os with
  | nil => cases h
  | cons x xs =>
    have := (Except.ok.inj h).symm; subst this
    clear h
    have key : ∀ (xs : List E) (x : E), IsDnf x → (∀ y ∈ xs, IsDnf y) →
        IsDnf (xs.foldl orCombine x) ∧
          ∀ f, dnfVal f (xs.foldl orCombine x) = (dnfVal f x || xs.any (dnfVal f)) := by
      intro xs
      induction xs with
      | nil => intro x hx _; exact ⟨hx, fun f => by simp⟩
      | cons y ys ih =>
        intro x hx hy
        obtain ⟨a, b⟩ := orCombine_val hx (hy y (by simp))
        obtain ⟨c, d⟩ := ih (orCombine x y) a (fun z hz => hy z (by simp [hz]))
        refine ⟨c, fun f => ?_⟩
        rw [List.foldl_cons, d, b, List.any_cons, Bool.or_assoc]
    obtain ⟨a, b⟩ := key xs x (hd x (by simp)) (fun y hy => hd y (by simp [hy]))
    exact ⟨a, fun f => by rw [b, List.any_cons]⟩

theorem mkRel_wf {op : PyCmp} {l r x : E} (h : mkRel op l r = .ok x) (hl : l.WF) (hr : r.WF) :
    x.isLit = true ∧ x.WF := by
  have mk : ∀ (c : RelOp) (a b : E), a.WF → b.WF → (E.node (.rel c) [a, b] []).isLit = true ∧
      (E.node (.rel c) [a, b] []).WF := by
    intro c a b ha hb
    refine ⟨rfl, .mk _ _ _ ⟨rfl, a, b, rfl⟩ ?_ (by simp)⟩
    intro y hy
    rcases List.mem_cons.1 hy with rfl | hy
    · exact ha
    · have : y = b := by simpa using hy
      subst this; exact hb
  have s2 : (sort2 l r).1.WF ∧ (sort2 l r).2.WF := by
    unfold sort2; split_ifs
    · exact ⟨hr, hl⟩
    · exact ⟨hl, hr⟩
  cases op <;> simp only [mkRel] at h <;> try split_ifs at h
  all_goals (have := (Except.ok.inj h).symm; subst this)
  · exact mk _ _ _ s2.1 s2.2
  · exact mk _ _ _ s2.1 s2.2
  · exact mk _ _ _ hl hr
  · exact mk _ _ _ hl hr
  · exact mk _ _ _ hr hl
  · exact mk _ _ _ hr hl
  · exact mk _ _ _ hl hr
  · exact mk _ _ _ hl hr

theorem wf_pred (s : String) (b : Bool) : (E.node (.pred s b) [] []).WF :=
  .mk _ _ _ ⟨rfl, rfl⟩ (by simp) (by simp)

theorem logicalNot_wf {e x : E} (h : logicalNot e = .ok x) (w : e.WF) : x.WF ∧ x.isLog = true := by
  unfold logicalNot at h
  split at h
  · have := (Except.ok.inj h).symm; subst this
    exact ⟨wf_pred _ _, rfl⟩
  · obtain ⟨o, h1, h2⟩ := exBind h
    have := (Except.ok.inj h2).symm; subst this
    obtain ⟨a, b, _⟩ := orSimplify_val (negateOr_val (asOr_dnf h1 w)).1
    exact ⟨a, b⟩

theorem unary_wf {e x : E} (w : e.WF) (hl : e.isAr = true ∨ e.setOf.isSome = true) :
    (unaryMinus e = .ok x → x.WF ∧ x.isAr = true) ∧
    (unaryInvert e = .ok x → x.WF ∧ x.isAr = true) := by
  constructor
  · intro h
    unfold unaryMinus at h
    split at h
    · have := (Except.ok.inj h).symm; subst this; exact ⟨wf_const _, rfl⟩
    · split_ifs at h with hs
      have := (Except.ok.inj h).symm; subst this
      exact (w.asPoly (hl.resolve_right hs)).negate.simplify
  · intro h
    unfold unaryInvert at h
    split at h
    · split_ifs at h
      have := (Except.ok.inj h).symm; subst this; exact ⟨wf_const _, rfl⟩
    · split_ifs at h

theorem reduceAnd_wf {os : List E} {x : E} (h : (reduceE andCombine os).map orSimplify = .ok x)
    (hd : ∀ o ∈ os, IsDnf o) :
    x.WF ∧ x.isLog = true ∧ ∀ f, logVal f x = os.all (dnfVal f) := by
  obtain ⟨o, h1, rfl⟩ := exMap h
  obtain ⟨a, b⟩ := reduceE_and h1 hd
  obtain ⟨c, d, e⟩ := orSimplify_val a
  exact ⟨c, d, fun f => by rw [e, b]⟩

theorem reduceOr_wf {os : List E} {x : E} (h : (reduceE orCombine os).map orSimplify = .ok x)
    (hd : ∀ o ∈ os, IsDnf o) :
    x.WF ∧ x.isLog = true ∧ ∀ f, logVal f x = os.any (dnfVal f) := by
  obtain ⟨o, h1, rfl⟩ := exMap h
  obtain ⟨a, b⟩ := reduceE_or h1 hd
  obtain ⟨c, d, e⟩ := orSimplify_val a
  exact ⟨c, d, fun f => by rw [e, b]⟩

theorem lit_asOr {x : E} (h : x.isLit = true) : x.asOr = .ok (mkOr [mkAnd [x]]) := by
  obtain ⟨hd, p, n⟩ := x
  cases hd <;> simp [E.isLit] at h <;> rfl

theorem rels_asOr {rs os : List E} (h : rs.mapM E.asOr = .ok os)
    (hl : ∀ x ∈ rs, x.isLit = true ∧ x.WF) :
    (∀ o ∈ os, IsDnf o) ∧ ∀ f, os.all (dnfVal f) = rs.all f := by
  induction rs generalizing os with
  | nil =>
    have : os = [] := by
      have h2 : (Except.ok [] : Except Err (List E)) = .ok os := h
      simpa using h2.symm
    subst this; simp
  | cons x xs ih =>
    rw [List.mapM_cons] at h
    obtain ⟨o, h1, h2⟩ := exBind h
    obtain ⟨os', h3, h4⟩ := exBind h2
    have : os = o :: os' := by
      have h5 : (Except.ok (o :: os') : Except Err (List E)) = .ok os := h4
      simpa using h5.symm
    subst this
    obtain ⟨a, b⟩ := ih h3 (fun y hy => hl y (by simp [hy]))
    obtain ⟨c, d⟩ := hl x (by simp)
    constructor
    · intro y hy
      rcases List.mem_cons.1 hy with rfl | hy
      · exact asOr_dnf h1 d
      · exact a y hy
    · intro f
      rw [List.all_cons, List.all_cons, b, asOr_val f h1, logVal_lit c]

/-- The elements of a set, each once and sorted. -/
def canonSet (l : List ℚ) : List ℚ := l.dedup.insertionSort (· ≤ ·)

/-- A set display becomes a constant set, everything else (without conditions) arithmetic. -/
def Kind (s : Py) (e : E) : Prop :=
  (s.isSet = true ∧ e.setOf = some (canonSet s.elements)) ∨ (s.isSet = false ∧ e.isAr = true)

theorem Kind.or {s : Py} {e : E} (h : Kind s e) : e.isAr = true ∨ e.setOf.isSome = true := by
  rcases h with ⟨_, h⟩ | ⟨_, h⟩
  · right; rw [h]; rfl
  · exact .inl h

mutual
theorem parse_wf (known : String → Bool) : ∀ (rel : Bool) (s : Py) (e : E),
    Py.parse (plainScope known) rel s = .ok e → e.WF ∧ (rel = false → Kind s e)
  | rel, .num q, e, h => by
    simp only [Py.parse] at h
    have := (Except.ok.inj h).symm; subst this; exact ⟨wf_const _, fun _ => .inr ⟨rfl, rfl⟩⟩
  | rel, .set l, e, h => by
    simp only [Py.parse] at h
    have := (Except.ok.inj h).symm; subst this
    exact ⟨.mk _ _ _ ⟨rfl, rfl⟩ (by simp) (by simp), fun _ => .inl ⟨rfl, rfl⟩⟩
  | rel, .name s, e, h => by
    simp only [Py.parse, plainScope, Option.getD_none] at h
    have := (Except.ok.inj h).symm; subst this
    exact ⟨.mk _ _ _ ⟨rfl, rfl⟩ (by simp) (by simp), fun _ => .inr ⟨rfl, rfl⟩⟩
  | rel, .neg a, e, h => by
    simp only [Py.parse] at h
    obtain ⟨x, h1, h2⟩ := exBind h
    obtain ⟨w, hl⟩ := parse_wf known false a x h1
    have := (unary_wf w (hl rfl).or).1 h2
    exact ⟨this.1, fun _ => .inr ⟨rfl, this.2⟩⟩
  | rel, .plus a, e, h => by
    simp only [Py.parse] at h
    obtain ⟨w, hl⟩ := parse_wf known false a e h
    exact ⟨w, fun _ => hl rfl⟩
  | rel, .invert a, e, h => by
    simp only [Py.parse] at h
    obtain ⟨x, h1, h2⟩ := exBind h
    obtain ⟨w, hl⟩ := parse_wf known false a x h1
    have := (unary_wf w (hl rfl).or).2 h2
    exact ⟨this.1, fun _ => .inr ⟨rfl, this.2⟩⟩
  | rel, .bin op a b, e, h => by
    simp only [Py.parse] at h
    obtain ⟨x, h1, h2⟩ := exBind h
    obtain ⟨y, h3, h4⟩ := exBind h2
    obtain ⟨w, hl⟩ := parse_wf known false a x h1
    obtain ⟨w', hl'⟩ := parse_wf known false b y h3
    have := binary_wf h4 w (hl rfl).or w' (hl' rfl).or
    exact ⟨this.1, fun _ => .inr ⟨rfl, this.2⟩⟩
  | true, .compare a ops cs, e, h => by
    simp only [Py.parse] at h
    obtain ⟨x, h1, h2⟩ := exBind h
    obtain ⟨rs, h3, h4⟩ := exBind h2
    obtain ⟨w, _⟩ := parse_wf known false a x h1
    have hl := parseChain_wf known x w ops cs rs h3
    refine ⟨?_, by simp⟩
    split at h4
    · have := (Except.ok.inj h4).symm; subst this
      exact (hl _ (by simp)).2
    · obtain ⟨os, h5, h6⟩ := exBind h4
      exact (reduceAnd_wf h6 (rels_asOr h5 hl).1).1
  | false, .compare a ops cs, e, h => by simp [Py.parse] at h
  | true, .lnot a, e, h => by
    simp only [Py.parse] at h
    obtain ⟨x, h1, h2⟩ := exBind h
    obtain ⟨w, _⟩ := parse_wf known true a x h1
    exact ⟨(logicalNot_wf h2 w).1, by simp⟩
  | false, .lnot a, e, h => by simp [Py.parse] at h
  | true, .land l, e, h => by
    simp only [Py.parse] at h
    obtain ⟨os, h1, h2⟩ := exBind h
    exact ⟨(reduceAnd_wf h2 (parseOrs_wf known l os h1)).1, by simp⟩
  | false, .land l, e, h => by simp [Py.parse] at h
  | true, .lor l, e, h => by
    simp only [Py.parse] at h
    obtain ⟨os, h1, h2⟩ := exBind h
    exact ⟨(reduceOr_wf h2 (parseOrs_wf known l os h1)).1, by simp⟩
  | false, .lor l, e, h => by simp [Py.parse] at h
  | rel, .call f args, e, h => by
    simp only [Py.parse] at h
    split_ifs at h
    obtain ⟨as, h1, h2⟩ := exBind h
    have := (Except.ok.inj h2).symm; subst this
    exact ⟨.mk _ _ _ rfl (parseArgs_wf known _ args as h1) (by simp), fun _ => .inr ⟨rfl, rfl⟩⟩
theorem parseChain_wf (known : String → Bool) : ∀ (l : E), l.WF → ∀ (ops : List PyCmp) (cs : List Py)
    (rs : List E), Py.parseChain (plainScope known) l ops cs = .ok rs →
    ∀ x ∈ rs, x.isLit = true ∧ x.WF
  | l, w, ops, [], rs, h => by
    have : rs = [] := by cases ops <;> simpa [Py.parseChain] using h.symm
    subst this; simp
  | l, w, [], c :: cs, rs, h => by
    have : rs = [] := by simpa [Py.parseChain] using h.symm
    subst this; simp
  | l, w, op :: ops, c :: cs, rs, h => by
    simp only [Py.parseChain] at h
    obtain ⟨r, h1, h2⟩ := exBind h
    obtain ⟨x, h3, h4⟩ := exBind h2
    obtain ⟨xs, h5, h6⟩ := exBind h4
    have := (Except.ok.inj h6).symm; subst this
    obtain ⟨w', _⟩ := parse_wf known false c r h1
    intro y hy
    rcases List.mem_cons.1 hy with rfl | hy
    · exact mkRel_wf h3 w w'
    · exact parseChain_wf known r w' ops cs xs h5 y hy
theorem parseOrs_wf (known : String → Bool) : ∀ (l : List Py) (os : List E),
    Py.parseOrs (plainScope known) l = .ok os → ∀ o ∈ os, IsDnf o
  | [], os, h => by
    have : os = [] := by simpa [Py.parseOrs] using h.symm
    subst this; simp
  | a :: as, os, h => by
    simp only [Py.parseOrs] at h
    obtain ⟨e, h1, h2⟩ := exBind h
    obtain ⟨o, h3, h4⟩ := exBind h2
    obtain ⟨os', h5, h6⟩ := exBind h4
    have := (Except.ok.inj h6).symm; subst this
    intro y hy
    rcases List.mem_cons.1 hy with rfl | hy
    · exact asOr_dnf h3 (parse_wf known true a e h1).1
    · exact parseOrs_wf known as os' h5 y hy
theorem parseArgs_wf (known : String → Bool) : ∀ (rel : Bool) (l : List Py) (es : List E),
    Py.parseArgs (plainScope known) rel l = .ok es → ∀ x ∈ es, x.WF
  | rel, [], es, h => by
    have : es = [] := by simpa [Py.parseArgs] using h.symm
    subst this; simp
  | rel, a :: as, es, h => by
    simp only [Py.parseArgs] at h
    obtain ⟨e, h1, h2⟩ := exBind h
    obtain ⟨es', h3, h4⟩ := exBind h2
    have := (Except.ok.inj h4).symm; subst this
    intro y hy
    rcases List.mem_cons.1 hy with rfl | hy
    · exact (parse_wf known rel a y h1).1
    · exact parseArgs_wf known false as es' h3 y hy
end

/-! ## Conditions -/

/-- Parsing keeps the value of this operand. -/
def OperandExact (env : RowEnv) (known : String → Bool) (s : Py) : Prop :=
  ∀ e, Py.parse (plainScope known) false s = .ok e → e.eval env = Py.val env env.field s

mutual
/-- The operands of the comparisons keep their values; and below an odd number of `not` the operands
of order comparisons have a value. -/
def Py.Cond (env : RowEnv) (known : String → Bool) : Bool → Py → Prop
  | flag, .compare a ops cs =>
    OperandExact env known a ∧ (∀ c ∈ cs, OperandExact env known c) ∧
      (flag = false → ordDef (Py.val env env.field a) ops (Py.vals env env.field cs))
  | flag, .lnot a => Py.Cond env known (!flag) a
  | flag, .land l => Py.CondL env known flag l
  | flag, .lor l => Py.CondL env known flag l
  | _, s => OperandExact env known s
/-- The same for all elements of a list. -/
def Py.CondL (env : RowEnv) (known : String → Bool) : Bool → List Py → Prop
  | _, [] => True
  | flag, s :: ss => Py.Cond env known flag s ∧ Py.CondL env known flag ss
end

/-- The row's valuation, or what a negation sees of it. -/
def rowF (env : RowEnv) (flag : Bool) : E → Bool := if flag then rowVal env else dual (rowVal env)

theorem rowF_dual {env : RowEnv} {flag : Bool} {x : E} (h : x.isLit = true) :
    dual (rowF env flag) x = rowF env (!flag) x := by
  cases flag
  · simp only [rowF, Bool.not_false, if_true, Bool.false_eq_true, if_false]; exact dual_dual h
  · rfl

/-- The set on the right of a relation. -/
def pairSet (l r : E) : Option (List ℚ) := [l, r].findSome? E.setOf

theorem rowVal_rel (env : RowEnv) (c : RelOp) (l r : E) :
    rowVal env (.node (.rel c) [l, r] []) = c.holds (l.eval env) (r.eval env) (pairSet l r) := by
  simp only [rowVal, E.eval, Head.apply, E.evalL, truth_ofBool]; rfl

theorem holds_eq_comm (a b : Option ℚ) (s t : Option (List ℚ)) :
    RelOp.holds .eq a b s = RelOp.holds .eq b a t ∧ RelOp.holds .ne a b s = RelOp.holds .ne b a t := by
  cases a <;> cases b <;> simp [RelOp.holds, eq_comm]

theorem mem_canonSet {l : List ℚ} {x : ℚ} : x ∈ canonSet l ↔ x ∈ l := by
  unfold canonSet
  rw [(List.perm_insertionSort _ _).mem_iff]
  exact List.mem_dedup

theorem setOf_eval {env : RowEnv} {e : E} (h : e.setOf.isSome = true) : e.eval env = none := by
  obtain ⟨hd, p, n⟩ := e
  cases hd <;> first | rfl | simp [E.setOf] at h

/-- One comparison has the truth value it is written with, seen directly or through a negation. -/
theorem rel_val {env : RowEnv} {op : PyCmp} {l r x : E} {c : Py} {vl vr : Option ℚ} {flag : Bool}
    (h : mkRel op l r = .ok x) (kr : Kind c r) (hl : l.eval env = vl) (hr : r.eval env = vr)
    (hd : flag = false → op.isOrder = true → vl.isSome = true ∧ vr.isSome = true) :
    rowF env flag x = op.sem vl vr c.elements := by
  have key : ∀ a b : E, (a, b) = sort2 l r → (a = l ∧ b = r) ∨ (a = r ∧ b = l) := by
    intro a b hab
    unfold sort2 at hab
    split_ifs at hab <;> simp_all
  have set : r.setOf.isSome = true → vl.isSome = true →
      pairSet l r = some (canonSet c.elements) := by
    intro h1 h2
    have : l.setOf = none := by
      by_contra hn
      rw [setOf_eval (by cases hs : l.setOf <;> simp_all)] at hl
      subst hl; simp at h2
    rcases kr with ⟨_, k⟩ | ⟨_, k⟩
    · simp [pairSet, this, k]
    · rw [E.isAr_setOf k] at h1; simp at h1
  have eqs : ∀ a b : E, (a = l ∧ b = r) ∨ (a = r ∧ b = l) → ∀ s,
      RelOp.holds .eq (a.eval env) (b.eval env) s = PyCmp.sem .eq vl vr c.elements ∧
      RelOp.holds .ne (a.eval env) (b.eval env) s = PyCmp.sem .ne vl vr c.elements := by
    intro a b hab s
    have base : RelOp.holds .eq vl vr s = PyCmp.sem .eq vl vr c.elements ∧
      RelOp.holds .ne vl vr s = PyCmp.sem .ne vl vr c.elements := by
      cases vl <;> cases vr <;> simp [RelOp.holds, PyCmp.sem]
    rcases hab with ⟨rfl, rfl⟩ | ⟨rfl, rfl⟩
    · rw [hl, hr]; exact base
    · rw [hl, hr, (holds_eq_comm vr vl s s).1, (holds_eq_comm vr vl s s).2]; exact base
  cases op <;> simp only [mkRel] at h
  · have := (Except.ok.inj h).symm; subst this
    cases flag
    · simp only [rowF, Bool.false_eq_true, if_false, dual, E.negLit, rowVal_rel]
      rw [(eqs _ _ (key (sort2 l r).1 (sort2 l r).2 rfl) _).2]
      cases vl <;> cases vr <;> simp [PyCmp.sem]
    · simp only [rowF, if_true, rowVal_rel]
      exact (eqs _ _ (key (sort2 l r).1 (sort2 l r).2 rfl) _).1
  · have := (Except.ok.inj h).symm; subst this
    cases flag
    · simp only [rowF, Bool.false_eq_true, if_false, dual, E.negLit, rowVal_rel]
      rw [(eqs _ _ (key (sort2 l r).1 (sort2 l r).2 rfl) _).1]
      cases vl <;> cases vr <;> simp [PyCmp.sem]
    · simp only [rowF, if_true, rowVal_rel]
      exact (eqs _ _ (key (sort2 l r).1 (sort2 l r).2 rfl) _).2
  · have := (Except.ok.inj h).symm; subst this
    cases flag
    · obtain ⟨h1, h2⟩ := hd rfl rfl
      simp only [rowF, Bool.false_eq_true, if_false, dual, E.negLit, List.reverse_cons,
        List.reverse_nil, List.nil_append, List.singleton_append, rowVal_rel, hl, hr]
      clear eqs set
      cases vl <;> cases vr <;> simp_all [PyCmp.sem, RelOp.holds]
      rw [Bool.eq_iff_iff]; simp
    · simp only [rowF, if_true, rowVal_rel, hl, hr]
      cases vl <;> cases vr <;> simp [PyCmp.sem, RelOp.holds]
  · have := (Except.ok.inj h).symm; subst this
    cases flag
    · obtain ⟨h1, h2⟩ := hd rfl rfl
      simp only [rowF, Bool.false_eq_true, if_false, dual, E.negLit, List.reverse_cons,
        List.reverse_nil, List.nil_append, List.singleton_append, rowVal_rel, hl, hr]
      clear eqs set
      cases vl <;> cases vr <;> simp_all [PyCmp.sem, RelOp.holds]
      rw [Bool.eq_iff_iff]; simp
    · simp only [rowF, if_true, rowVal_rel, hl, hr]
      cases vl <;> cases vr <;> simp [PyCmp.sem, RelOp.holds]
  · have := (Except.ok.inj h).symm; subst this
    cases flag
    · obtain ⟨h1, h2⟩ := hd rfl rfl
      simp only [rowF, Bool.false_eq_true, if_false, dual, E.negLit, List.reverse_cons,
        List.reverse_nil, List.nil_append, List.singleton_append, rowVal_rel, hl, hr]
      clear eqs set
      cases vl <;> cases vr <;> simp_all [PyCmp.sem, RelOp.holds]
      rw [Bool.eq_iff_iff]; simp
    · simp only [rowF, if_true, rowVal_rel, hl, hr]
      cases vl <;> cases vr <;> simp [PyCmp.sem, RelOp.holds]
  · have := (Except.ok.inj h).symm; subst this
    cases flag
    · obtain ⟨h1, h2⟩ := hd rfl rfl
      simp only [rowF, Bool.false_eq_true, if_false, dual, E.negLit, List.reverse_cons,
        List.reverse_nil, List.nil_append, List.singleton_append, rowVal_rel, hl, hr]
      clear eqs set
      cases vl <;> cases vr <;> simp_all [PyCmp.sem, RelOp.holds]
      rw [Bool.eq_iff_iff]; simp
    · simp only [rowF, if_true, rowVal_rel, hl, hr]
      cases vl <;> cases vr <;> simp [PyCmp.sem, RelOp.holds]
  · split_ifs at h with hs
    have := (Except.ok.inj h).symm; subst this
    cases flag
    · simp only [rowF, Bool.false_eq_true, if_false, dual, E.negLit, rowVal_rel, hl, hr]
      cases vl with
      | none => simp [RelOp.holds, PyCmp.sem]
      | some v => simp [RelOp.holds, PyCmp.sem, set hs rfl, mem_canonSet]
    · simp only [rowF, if_true, rowVal_rel, hl, hr]
      cases vl with
      | none => simp [RelOp.holds, PyCmp.sem]
      | some v => simp [RelOp.holds, PyCmp.sem, set hs rfl, mem_canonSet]
  · split_ifs at h with hs
    have := (Except.ok.inj h).symm; subst this
    cases flag
    · simp only [rowF, Bool.false_eq_true, if_false, dual, E.negLit, rowVal_rel, hl, hr]
      cases vl with
      | none => simp [RelOp.holds, PyCmp.sem]
      | some v => simp [RelOp.holds, PyCmp.sem, set hs rfl, mem_canonSet]
    · simp only [rowF, if_true, rowVal_rel, hl, hr]
      cases vl with
      | none => simp [RelOp.holds, PyCmp.sem]
      | some v => simp [RelOp.holds, PyCmp.sem, set hs rfl, mem_canonSet]

/-- What the theorem on conditions says about one parsed condition. -/
def CondVal (env : RowEnv) (flag : Bool) (e : E) (v : Option ℚ) : Prop :=
  (∀ o, e.asOr = .ok o → logVal (rowF env flag) e = truth v) ∧ (flag = true → e.eval env = v)

theorem name_truth (env : RowEnv) (flag : Bool) (s : String) :
    rowF env flag (.node (.pred s true) [] []) = truth (env.field s) := by
  cases flag
  · simp only [rowF, Bool.false_eq_true, if_false, dual, E.negLit, rowVal, E.eval, Head.apply,
      truth_ofBool]
    cases truth (env.field s) <;> rfl
  · simp only [rowF, if_true, rowVal, E.eval, Head.apply, truth_ofBool]
    cases truth (env.field s) <;> rfl

theorem leaf_val {env : RowEnv} {flag : Bool} {s : Py} {e : E} {v : Option ℚ} (k : Kind s e)
    (h : e.eval env = v) : CondVal env flag e v := by
  refine ⟨fun o ho => ?_, fun _ => h⟩
  obtain ⟨hd, p, n⟩ := e
  have hl : (E.node hd p n).isLog = false := by
    rcases k with ⟨_, k⟩ | ⟨_, k⟩
    · cases hd <;> first | rfl | simp [E.setOf] at k
    · exact E.isAr_isLog k
  cases hd <;> first | (simp [E.asOr] at ho; done) | (simp [E.isLog] at hl; done) | skip
  rename_i s'
  have hv : env.field s' = v := by simpa [E.eval, Head.apply] using h
  rw [← hv]; exact name_truth env flag s'

theorem asOr_of_isLog {e : E} (h : e.isLog = true) : ∃ o, e.asOr = .ok o := by
  obtain ⟨hd, p, n⟩ := e
  cases hd <;> first | exact ⟨_, rfl⟩ | simp [E.isLog] at h

theorem log_val {env : RowEnv} {flag : Bool} {e : E} {b : Bool} (w : e.WF) (hl : e.isLog = true)
    (h : logVal (rowF env flag) e = b) : CondVal env flag e (ofBool b) := by
  refine ⟨fun o _ => by rw [h, truth_ofBool], fun hf => ?_⟩
  subst hf
  rw [eval_logVal w hl, ← h]; rfl

mutual
theorem cond_val (env : RowEnv) (known : String → Bool) : ∀ (flag : Bool) (s : Py) (e : E),
    Py.parse (plainScope known) true s = .ok e → Py.Cond env known flag s →
    CondVal env flag e (Py.val env env.field s)
  | flag, .num q, e, h, c => leaf_val ((parse_wf known false (.num q) e (by simpa only [Py.parse] using h)).2 rfl) (c e (by simpa only [Py.parse] using h))
  | flag, .set l, e, h, c => leaf_val ((parse_wf known false (.set l) e (by simpa only [Py.parse] using h)).2 rfl) (c e (by simpa only [Py.parse] using h))
  | flag, .name s, e, h, c => leaf_val ((parse_wf known false (.name s) e (by simpa only [Py.parse] using h)).2 rfl) (c e (by simpa only [Py.parse] using h))
  | flag, .neg a, e, h, c => leaf_val ((parse_wf known false (.neg a) e (by simpa only [Py.parse] using h)).2 rfl) (c e (by simpa only [Py.parse] using h))
  | flag, .plus a, e, h, c => leaf_val ((parse_wf known false (.plus a) e (by simpa only [Py.parse] using h)).2 rfl) (c e (by simpa only [Py.parse] using h))
  | flag, .invert a, e, h, c => leaf_val ((parse_wf known false (.invert a) e (by simpa only [Py.parse] using h)).2 rfl) (c e (by simpa only [Py.parse] using h))
  | flag, .bin op a b, e, h, c => leaf_val ((parse_wf known false (.bin op a b) e (by simpa only [Py.parse] using h)).2 rfl) (c e (by simpa only [Py.parse] using h))
  | flag, .call f as, e, h, c => leaf_val ((parse_wf known false (.call f as) e (by simpa only [Py.parse] using h)).2 rfl) (c e (by simpa only [Py.parse] using h))
  | flag, .compare a ops cs, e, h, c => by
    simp only [Py.parse] at h
    obtain ⟨x, h1, h2⟩ := exBind h
    obtain ⟨rs, h3, h4⟩ := exBind h2
    obtain ⟨c1, c2, c3⟩ := c
    obtain ⟨w, _⟩ := parse_wf known false a x h1
    have hl := parseChain_wf known x w ops cs rs h3
    have hv := chain_val env known flag x _ (c1 x h1) ops cs rs h3 c2 c3
    simp only [Py.val]
    split at h4
    · have := (Except.ok.inj h4).symm; subst this
      refine log_val (hl _ (by simp)).2 (isLog_of_isLit (hl _ (by simp)).1) ?_
      rw [logVal_lit (hl _ (by simp)).1, ← hv]; simp
    · obtain ⟨os, h5, h6⟩ := exBind h4
      obtain ⟨d1, d2⟩ := rels_asOr h5 hl
      obtain ⟨w1, w2, w3⟩ := reduceAnd_wf h6 d1
      exact log_val w1 w2 (by rw [w3, d2, hv])
  | flag, .lnot a, e, h, c => by
    simp only [Py.parse] at h
    obtain ⟨x, h1, h2⟩ := exBind h
    obtain ⟨w, _⟩ := parse_wf known true a x h1
    have ih := cond_val env known (!flag) a x h1 c
    simp only [Py.val]
    unfold logicalNot at h2
    split at h2
    · have := (Except.ok.inj h2).symm; subst this
      refine log_val (wf_pred _ _) rfl ?_
      have := ih.1 _ rfl
      rw [← this]
      simp only [logVal]
      rw [← rowF_dual rfl]
      simp [dual, E.negLit]
    · obtain ⟨o, h3, h4⟩ := exBind h2
      have := (Except.ok.inj h4).symm; subst this
      have hd := asOr_dnf h3 w
      obtain ⟨n1, n2⟩ := negateOr_val hd
      obtain ⟨s1, s2, s3⟩ := orSimplify_val n1
      refine log_val s1 s2 ?_
      rw [s3, n2, asOr_val _ h3, ← ih.1 o h3]
      rw [logVal_congr (fun y hy => rowF_dual hy) w h3]
  | flag, .land l, e, h, c => by
    simp only [Py.parse] at h
    obtain ⟨os, h1, h2⟩ := exBind h
    obtain ⟨w1, w2, w3⟩ := reduceAnd_wf h2 (parseOrs_wf known l os h1)
    simp only [Py.val]
    refine log_val w1 w2 ?_
    rw [w3]
    have := ors_val env known flag l os h1 c
    have := congrArg (fun l => l.all id) this
    simpa [List.all_map] using this
  | flag, .lor l, e, h, c => by
    simp only [Py.parse] at h
    obtain ⟨os, h1, h2⟩ := exBind h
    obtain ⟨w1, w2, w3⟩ := reduceOr_wf h2 (parseOrs_wf known l os h1)
    simp only [Py.val]
    refine log_val w1 w2 ?_
    rw [w3]
    have := ors_val env known flag l os h1 c
    have := congrArg (fun l => l.any id) this
    simpa [List.any_map] using this
theorem chain_val (env : RowEnv) (known : String → Bool) : ∀ (flag : Bool) (l : E) (v : Option ℚ),
    l.eval env = v → ∀ (ops : List PyCmp) (cs : List Py) (rs : List E),
    Py.parseChain (plainScope known) l ops cs = .ok rs → (∀ c ∈ cs, OperandExact env known c) →
    (flag = false → ordDef v ops (Py.vals env env.field cs)) →
    rs.all (rowF env flag) = Py.chain env env.field v ops cs
  | flag, l, v, hv, ops, [], rs, h, _, _ => by
    have : rs = [] := by cases ops <;> simpa [Py.parseChain] using h.symm
    subst this
    cases ops <;> simp [Py.chain]
  | flag, l, v, hv, [], c :: cs, rs, h, _, _ => by
    have : rs = [] := by simpa [Py.parseChain] using h.symm
    subst this
    simp [Py.chain]
  | flag, l, v, hv, op :: ops, c :: cs, rs, h, hc, ho => by
    simp only [Py.parseChain] at h
    obtain ⟨r, h1, h2⟩ := exBind h
    obtain ⟨x, h3, h4⟩ := exBind h2
    obtain ⟨xs, h5, h6⟩ := exBind h4
    have := (Except.ok.inj h6).symm; subst this
    have hr := hc c (by simp) r h1
    have ih := chain_val env known flag r _ hr ops cs xs h5 (fun y hy => hc y (by simp [hy]))
      (fun hf => (ho hf).2)
    rw [List.all_cons, ih, Py.chain]
    rw [rel_val h3 ((parse_wf known false c r h1).2 rfl) hv hr (fun hf => (ho hf).1)]
theorem ors_val (env : RowEnv) (known : String → Bool) : ∀ (flag : Bool) (l : List Py) (os : List E),
    Py.parseOrs (plainScope known) l = .ok os → Py.CondL env known flag l →
    os.map (dnfVal (rowF env flag)) = (Py.vals env env.field l).map truth
  | flag, [], os, h, _ => by
    have : os = [] := by simpa [Py.parseOrs] using h.symm
    subst this; rfl
  | flag, a :: as, os, h, c => by
    simp only [Py.parseOrs] at h
    obtain ⟨e, h1, h2⟩ := exBind h
    obtain ⟨o, h3, h4⟩ := exBind h2
    obtain ⟨os', h5, h6⟩ := exBind h4
    have := (Except.ok.inj h6).symm; subst this
    have i1 := (cond_val env known flag a e h1 c.1).1 o h3
    have i2 := ors_val env known flag as os' h5 c.2
    rw [List.map_cons, i2, Py.vals, List.map_cons, asOr_val _ h3, i1]
end

/-! ## Arithmetic -/

/-- The sum that is collected for `+`. -/
def addArg (l r : Poly) : Poly := ⟨l.c + r.c, sortM (l.pos ++ r.pos), sortM (l.neg ++ r.neg)⟩

/-- Where an operator on two parsed operands keeps the value: factors that occur both above and below
the fraction bar cancel correctly, and (unless two constants are multiplied) not both factors of a
product have a constant term. -/
def OpExact (op : PyOp) (l r : E) : Prop :=
  match op with
  | .add => TermsOK (addArg l.asPoly r.asPoly)
  | .sub => TermsOK (addArg l.asPoly r.asPoly.negate)
  | .mul => (l.constVal.isSome = true ∧ r.constVal.isSome = true) ∨
      (l.asPoly.c * r.asPoly.c = 0 ∧ TermsOK (distArg l.asPoly r.asPoly))
  | .div => (l.constVal.isSome = true ∧ r.constVal.isSome = true) ∨
      ∀ m, reciprocal r.asPoly = .ok m →
        l.asPoly.c * m.asPoly.c = 0 ∧ TermsOK (distArg l.asPoly m.asPoly)
  | .bitor => False
  | .bitand => False
  | _ => True

theorem constVal_eval {env : RowEnv} {e : E} {q : ℚ} (h : e.constVal = some q) :
    e.eval env = some q := by
  obtain ⟨hd, p, n⟩ := e
  cases hd <;> simp [E.constVal] at h
  subst h; rfl

theorem ofPoly {env : RowEnv} {x : Except Err Poly} {e : E} {z : ℚ} (h : x.map Poly.simplify = .ok e)
    (hv : ∀ p, x = .ok p → p.D env ∧ p.v env = z) : e.eval env = some z := by
  obtain ⟨p, h1, rfl⟩ := exMap h
  obtain ⟨a, b⟩ := hv p h1
  rw [Poly.simplify_val a, b]

theorem mkBinOp_eval (env : RowEnv) (op : PyOp) (l r : E) :
    (mkBinOp op l r).eval env = env.fn op.fcn [l.eval env, r.eval env] := rfl

theorem int_of_den {q : ℚ} (h : q.den = 1) : q = (q.num : ℚ) := (Rat.coe_int_num_of_den_eq_one h).symm

theorem binary_val {env : RowEnv} (hp : PowLaw env) {op : PyOp} {l r e : E} {x y z : ℚ}
    (h : binary op l r = .ok e) (hl : l.eval env = some x) (hr : r.eval env = some y)
    (hz : op.sem env (some x) (some y) = some z) (ho : OpExact op l r) : e.eval env = some z := by
  obtain ⟨dl, vl⟩ := E.D_v_of_eval hl
  obtain ⟨dr, vr⟩ := E.D_v_of_eval hr
  obtain ⟨pl, ql⟩ := E.asPoly_val dl (E.setOf_of_D dl)
  obtain ⟨pr, qr⟩ := E.asPoly_val dr (E.setOf_of_D dr)
  rw [vl] at ql
  rw [vr] at qr
  unfold binary at h
  split at h
  · rename_i a b ha hb
    have e1 : x = a := by simpa using hl.symm.trans (constVal_eval ha)
    have e2 : y = b := by simpa using hr.symm.trans (constVal_eval hb)
    subst e1; subst e2
    cases op <;> simp only [foldConst] at h <;> try (cases h; done)
    · have := (Except.ok.inj h).symm; subst this
      simpa [PyOp.sem, E.eval, Head.apply, E.const] using hz
    · have := (Except.ok.inj h).symm; subst this
      simpa [PyOp.sem, E.eval, Head.apply, E.const] using hz
    · have := (Except.ok.inj h).symm; subst this
      simpa [PyOp.sem, E.eval, Head.apply, E.const] using hz
    · split_ifs at h with hy
      have := (Except.ok.inj h).symm; subst this
      simpa [PyOp.sem, E.eval, Head.apply, E.const, hy] using hz
    · exact ho.elim
    · exact ho.elim
  · rename_i hnc
    by_cases hc : ((l.constVal.isSome || l.setOf.isSome) &&
        (r.constVal.isSome || r.setOf.isSome)) = true
    · rw [if_pos hc] at h; cases h
    rw [if_neg hc] at h
    have nc : ¬ (l.constVal.isSome = true ∧ r.constVal.isSome = true) := by
      rintro ⟨h1, h2⟩
      simp [h1, h2] at hc
    have ns : ¬ (l.setOf.isSome = true ∨ r.setOf.isSome = true) := by
      rw [E.setOf_of_D dl, E.setOf_of_D dr]; simp
    cases op <;> simp only at h
    · rw [if_neg ns] at h
      have : z = x + y := by simpa [PyOp.sem] using hz.symm
      subst this
      refine ofPoly h (fun p hq => ?_)
      obtain ⟨a, b⟩ := combine_val hq ho pl pr
      exact ⟨a, by rw [b, ql, qr]⟩
    · rw [if_neg ns] at h
      have : z = x - y := by simpa [PyOp.sem] using hz.symm
      subst this
      refine ofPoly h (fun p hq => ?_)
      obtain ⟨n1, n2⟩ := Poly.negate_val pr
      obtain ⟨a, b⟩ := combine_val hq ho pl n1
      exact ⟨a, by rw [b, ql, n2, qr]; ring⟩
    · rw [if_neg ns] at h
      have : z = x * y := by simpa [PyOp.sem] using hz.symm
      subst this
      obtain ⟨o1, o2⟩ := ho.resolve_left nc
      refine ofPoly h (fun p hq => ?_)
      obtain ⟨a, b⟩ := distribute_val hq o2 pl pr
      exact ⟨a, by rw [b, ql, qr, o1]; ring⟩
    · rw [if_neg ns] at h
      obtain ⟨m, h1, h2⟩ := exBind h
      simp only [PyOp.sem] at hz
      split_ifs at hz with hy
      have : z = x / y := by simpa using hz.symm
      subst this
      obtain ⟨o1, o2⟩ := ho.resolve_left nc m h1
      obtain ⟨m1, m2⟩ := reciprocal_val h1 pr (by rw [qr]; exact hy)
      obtain ⟨m3, m4⟩ := Mono.asPoly_val m1
      refine ofPoly h2 (fun p hq => ?_)
      obtain ⟨a, b⟩ := distribute_val hq o2 pl m3
      exact ⟨a, by rw [b, ql, m4, m2, qr, o1]; ring⟩
    · have := (Except.ok.inj h).symm; subst this
      rw [mkBinOp_eval, hl, hr]; exact hz
    · have := (Except.ok.inj h).symm; subst this
      rw [mkBinOp_eval, hl, hr]; exact hz
    · unfold binPow at h
      split at h
      · split_ifs at h
        have := (Except.ok.inj h).symm; subst this
        rw [mkBinOp_eval, hl, hr]; exact hz
      · rename_i q hq
        have e2 : y = q := by simpa using hr.symm.trans (constVal_eval hq)
        subst e2
        split_ifs at h with c1 c2
        · have := (Except.ok.inj h).symm; subst this
          rw [powPos_val pl, ql]
          have e3 := int_of_den c1.1
          have pos : 1 ≤ y.num := by
            have := c1.2.1; rw [e3] at this; exact_mod_cast this
          simp only [PyOp.sem] at hz
          rw [e3, hp, if_neg (by omega)] at hz
          rw [← hz]
          congr 1
          rw [← zpow_natCast, Int.toNat_of_nonneg (by omega)]
        · have e3 := int_of_den c2.1
          have pos : y.num ≤ -1 := by
            have := c2.2.2; rw [e3] at this; exact_mod_cast this
          simp only [PyOp.sem] at hz
          rw [e3, hp] at hz
          split_ifs at hz with hx
          have hx0 : x ≠ 0 := fun h0 => hx ⟨h0, by omega⟩
          rw [powNeg_val h pl (by rw [ql]; exact hx0), ql, ← hz]
          congr 1
          rw [one_div, ← zpow_natCast, Int.toNat_of_nonneg (by omega), ← zpow_neg]
          simp
        · have := (Except.ok.inj h).symm; subst this
          rw [mkBinOp_eval, hl, hr]; exact hz
    · cases h
    · cases h
    · have := (Except.ok.inj h).symm; subst this
      rw [mkBinOp_eval, hl, hr]; exact hz

mutual
/-- Every operator in the expression is applied where it keeps the value (`OpExact`). -/
def Py.Exact (known : String → Bool) : Py → Prop
  | .num _ => True
  | .set _ => True
  | .name _ => True
  | .neg a => a.Exact known
  | .plus a => a.Exact known
  | .invert _ => False
  | .bin op a b => a.Exact known ∧ b.Exact known ∧
      ∀ l r, Py.parse (plainScope known) false a = .ok l →
        Py.parse (plainScope known) false b = .ok r → OpExact op l r
  | .compare a _ cs => a.Exact known ∧ Py.ExactL known cs
  | .lnot a => a.Exact known
  | .land l => Py.ExactL known l
  | .lor l => Py.ExactL known l
  | .call _ l => Py.ExactL known l
/-- The same for all elements of a list. -/
def Py.ExactL (known : String → Bool) : List Py → Prop
  | [] => True
  | a :: as => a.Exact known ∧ Py.ExactL known as
end

theorem args_val {env : RowEnv} {known : String → Bool} {args : List Py} {rel : Bool} {es : List E}
    (h : Py.parseArgs (plainScope known) rel args = .ok es)
    (h1 : ∀ c ∈ args, OperandExact env known c) (h2 : Py.CondL env known true args) :
    E.evalL env es = Py.vals env env.field args := by
  induction args generalizing rel es with
  | nil =>
    have : es = [] := by simpa [Py.parseArgs] using h.symm
    subst this; rfl
  | cons a as ih =>
    simp only [Py.parseArgs] at h
    obtain ⟨e, g1, g2⟩ := exBind h
    obtain ⟨es', g3, g4⟩ := exBind g2
    have := (Except.ok.inj g4).symm; subst this
    rw [E.evalL, Py.vals, ih g3 (fun c hc => h1 c (by simp [hc])) h2.2]
    congr 1
    cases rel
    · exact h1 a (by simp) e g1
    · exact (cond_val env known true a e g1 h2.1).2 rfl

mutual
theorem exact_cond {env : RowEnv} (hp : PowLaw env) (known : String → Bool) : ∀ (s : Py),
    s.AllDef env → s.Exact known → OperandExact env known s ∧ ∀ flag, Py.Cond env known flag s
  | .num q, _, _ => by
    have : OperandExact env known (.num q) := by
      intro e h
      simp only [Py.parse] at h
      have := (Except.ok.inj h).symm; subst this; rfl
    exact ⟨this, fun _ => this⟩
  | .set l, _, _ => by
    have : OperandExact env known (.set l) := by
      intro e h
      simp only [Py.parse] at h
      have := (Except.ok.inj h).symm; subst this; rfl
    exact ⟨this, fun _ => this⟩
  | .name n, _, _ => by
    have : OperandExact env known (.name n) := by
      intro e h
      simp only [Py.parse, plainScope, Option.getD_none] at h
      have := (Except.ok.inj h).symm; subst this; rfl
    exact ⟨this, fun _ => this⟩
  | .neg a, hd, he => by
    have ih := (exact_cond hp known a hd.1 he).1
    have : OperandExact env known (.neg a) := by
      intro e h
      simp only [Py.parse] at h
      obtain ⟨x, h1, h2⟩ := exBind h
      have ev := ih x h1
      obtain ⟨v, hv⟩ := Option.isSome_iff_exists.1 hd.2
      rw [hv] at ev
      simp only [Py.val, hv, Option.map_some]
      unfold unaryMinus at h2
      split at h2
      · rename_i q hq
        have := (Except.ok.inj h2).symm; subst this
        have : v = q := by simpa using ev.symm.trans (constVal_eval hq)
        subst this; rfl
      · obtain ⟨d, dv⟩ := E.D_v_of_eval ev
        rw [E.setOf_of_D d] at h2
        simp only [Option.isSome_none, Bool.false_eq_true, if_false] at h2
        have := (Except.ok.inj h2).symm; subst this
        obtain ⟨p1, p2⟩ := E.asPoly_val d (E.setOf_of_D d)
        obtain ⟨n1, n2⟩ := Poly.negate_val p1
        rw [Poly.simplify_val n1, n2, p2, dv]
    exact ⟨this, fun _ => this⟩
  | .plus a, hd, he => by
    have ih := (exact_cond hp known a hd he).1
    have : OperandExact env known (.plus a) := by
      intro e h
      simp only [Py.parse] at h
      exact ih e h
    exact ⟨this, fun _ => this⟩
  | .invert a, hd, he => he.elim
  | .bin op a b, hd, he => by
    obtain ⟨d1, d2, d3, d4, d5⟩ := hd
    obtain ⟨e1, e2, e3⟩ := he
    have i1 := (exact_cond hp known a d1 e1).1
    have i2 := (exact_cond hp known b d2 e2).1
    have : OperandExact env known (.bin op a b) := by
      intro e h
      simp only [Py.parse] at h
      obtain ⟨x, h1, h2⟩ := exBind h
      obtain ⟨y, h3, h4⟩ := exBind h2
      obtain ⟨u, hu⟩ := Option.isSome_iff_exists.1 d3
      obtain ⟨v, hv⟩ := Option.isSome_iff_exists.1 d4
      obtain ⟨w, hw⟩ := Option.isSome_iff_exists.1 d5
      rw [hw]
      simp only [Py.val, hu, hv] at hw
      exact binary_val hp h4 ((i1 x h1).trans hu) ((i2 y h3).trans hv) hw (e3 x y h1 h3)
    exact ⟨this, fun _ => this⟩
  | .compare a ops cs, hd, he => by
    have i1 := (exact_cond hp known a hd.1 he.1).1
    have i2 := (exactL_cond hp known cs hd.2.1 he.2).1
    refine ⟨fun e h => by simp [Py.parse] at h, fun flag => ⟨i1, i2, fun _ => hd.2.2⟩⟩
  | .lnot a, hd, he =>
    ⟨fun e h => by simp [Py.parse] at h, fun flag => (exact_cond hp known a hd he).2 (!flag)⟩
  | .land l, hd, he =>
    ⟨fun e h => by simp [Py.parse] at h, fun flag => (exactL_cond hp known l hd he).2 flag⟩
  | .lor l, hd, he =>
    ⟨fun e h => by simp [Py.parse] at h, fun flag => (exactL_cond hp known l hd he).2 flag⟩
  | .call f args, hd, he => by
    obtain ⟨i1, i2⟩ := exactL_cond hp known args hd he
    have : OperandExact env known (.call f args) := by
      intro e h
      simp only [Py.parse] at h
      split_ifs at h
      obtain ⟨as, h1, h2⟩ := exBind h
      have := (Except.ok.inj h2).symm; subst this
      simp only [E.eval, Head.apply, Py.val]
      rw [args_val h1 i1 (i2 true)]
    exact ⟨this, fun _ => this⟩
theorem exactL_cond {env : RowEnv} (hp : PowLaw env) (known : String → Bool) : ∀ (l : List Py),
    Py.AllDefL env l → Py.ExactL known l →
    (∀ c ∈ l, OperandExact env known c) ∧ ∀ flag, Py.CondL env known flag l
  | [], _, _ => ⟨by simp, fun _ => trivial⟩
  | a :: as, hd, he => by
    have i1 := exact_cond hp known a hd.1 he.1
    have i2 := exactL_cond hp known as hd.2 he.2
    refine ⟨?_, fun flag => ⟨i1.2 flag, i2.2 flag⟩⟩
    intro c hc
    rcases List.mem_cons.1 hc with rfl | hc
    · exact i1.1
    · exact i2.1 c hc
end

end Verif
