import Verif.UnparseLemmas
import Mathlib.Tactic.Linarith

/-!
# C126: what a refused expression is quoted as

Property theorems.
-/

namespace Verif

/-! ## Texts of syntax trees -/

/-- **C126** before Python 3.8: the text of every syntax tree is read as that syntax tree. -/
theorem C126_text_partial (t : PyTree) (h : t.formed = true) : ∃ ts, t.quote false = .ok ts ∧ ReadsAs ts t :=
  ⟨t.toks, quote_ok false t h (by simp), readsAs_toks t h⟩

/-- **C126** for every version of Python, if the refused part has no literal. -/
theorem C126_names_partial (py38 : Bool) (t : PyTree) (h : t.formed = true) (hl : t.literal = false) :
    ∃ ts, t.quote py38 = .ok ts ∧ ReadsAs ts t :=
  ⟨t.toks, quote_ok py38 t h (fun _ => hl), readsAs_toks t h⟩

/-- Two different syntax trees have different texts. -/
theorem C126_distinct_partial (t u : PyTree) (ht : t.formed = true) (hu : u.formed = true)
    (h : t.quote false = u.quote false) : t = u := by
  rw [quote_ok false t ht (by simp), quote_ok false u hu (by simp)] at h
  have e : t.toks = u.toks := by simpa using h
  obtain ⟨N, hN⟩ := (reads_prim t ht).whole
  obtain ⟨M, hM⟩ := (reads_prim u hu).whole
  have a := hN (N + M) (by omega) 0 [] ⟨trivial, rfl⟩
  have b := hM (N + M) (by omega) 0 [] ⟨trivial, rfl⟩
  rw [e, b] at a
  simpa using a.symm

/-! ## Which part is quoted -/

/-- The exception without the quoted part. -/
def forget {α : Type} : Quoting α → Except Err α
  | .ok a => .ok a
  | .error (.inl _) => .error .expression
  | .error (.inr e) => .error e

theorem forget_plainly {α : Type} (x : Except Err α) : forget (plainly x) = x := by cases x <;> rfl

theorem forget_bind {α β : Type} (x : Quoting α) (f : α → Quoting β) :
    forget (x >>= f) = (forget x >>= fun a => forget (f a)) := by
  cases x with
  | ok a => rfl
  | error e => cases e <;> rfl

theorem mkRel_error {o : PyCmp} {l r : E} {e : Err} (h : mkRel o l r = .error e) : e = .expression := by
  cases o with
  | isin => simp only [mkRel] at h; split at h <;> cases h; rfl
  | notin => simp only [mkRel] at h; split at h <;> cases h; rfl
  | _ => cases h

mutual
theorem forget_parseQ (sc : Scope) : ∀ (rel : Bool) (s : Py), forget (Py.parseQ sc rel s) = Py.parse sc rel s
  | rel, .num q => by cases rel <;> rfl
  | rel, .set l => by cases rel <;> rfl
  | rel, .name s => by cases rel <;> rfl
  | rel, .neg a => by
    cases rel <;> simp only [Py.parseQ, Py.parse, forget_bind, forget_plainly, forget_parseQ sc false a]
  | rel, .plus a => by
    cases rel <;> simp only [Py.parseQ, Py.parse, forget_parseQ sc false a]
  | rel, .invert a => by
    cases rel <;> simp only [Py.parseQ, Py.parse, forget_bind, forget_plainly, forget_parseQ sc false a]
  | rel, .bin op a b => by
    cases rel <;> simp only [Py.parseQ, Py.parse, forget_bind, forget_plainly, forget_parseQ sc false a,
      forget_parseQ sc false b]
  | true, .compare a ops cs => by
    simp only [Py.parseQ, Py.parse, forget_bind, forget_parseQ sc false a]
    cases Py.parse sc false a with
    | error e => rfl
    | ok l =>
      change (forget (Py.parseChainQ sc a l ops cs) >>= _) = (Py.parseChain sc l ops cs >>= _)
      rw [forget_parseChainQ sc a l ops cs]
      cases Py.parseChain sc l ops cs with
      | error e => rfl
      | ok rels =>
        cases rels with
        | nil => rfl
        | cons r rs =>
          cases rs with
          | nil => rfl
          | cons r' rs =>
            change forget (plainly ((r :: r' :: rs).mapM E.asOr) >>= fun os =>
              plainly ((reduceE andCombine os).map orSimplify)) = _
            rw [forget_bind]
            simp only [forget_plainly]
            rfl
  | false, .compare a ops cs => rfl
  | true, .lnot a => by
    simp only [Py.parseQ, Py.parse, forget_bind, forget_plainly, forget_parseQ sc true a]
  | false, .lnot a => rfl
  | true, .land l => by
    simp only [Py.parseQ, Py.parse, forget_bind, forget_plainly, forget_parseOrsQ sc l]
  | false, .land l => rfl
  | true, .lor l => by
    simp only [Py.parseQ, Py.parse, forget_bind, forget_plainly, forget_parseOrsQ sc l]
  | false, .lor l => rfl
  | rel, .call f args => by
    have h : forget (if sc.known f then do
        let as ← Py.parseArgsQ sc (f = "where") args
        .ok (.node (.call f) as []) else .error (.inl (.call f args)) : Quoting E) = (if sc.known f then do
        let as ← Py.parseArgs sc (f = "where") args
        .ok (.node (.call f) as []) else .error .expression : Except Err E) := by
      split
      · rw [forget_bind, forget_parseArgsQ sc _ args]; rfl
      · rfl
    cases rel <;> simpa only [Py.parseQ, Py.parse] using h
theorem forget_parseChainQ (sc : Scope) : ∀ (a : Py) (l : E) (ops : List PyCmp) (cs : List Py),
    forget (Py.parseChainQ sc a l ops cs) = Py.parseChain sc l ops cs
  | a, l, [], cs => by cases cs <;> rfl
  | a, l, op :: ops, [] => rfl
  | a, l, op :: ops, c :: cs => by
    simp only [Py.parseChainQ, Py.parseChain, forget_bind, forget_parseQ sc false c]
    cases Py.parse sc false c with
    | error e => rfl
    | ok r =>
      change forget (match mkRel op l r with
        | .error _ => .error (.inl (.compare a [op] [c]))
        | .ok x => do
          let xs ← Py.parseChainQ sc c r ops cs
          .ok (x :: xs)) = (mkRel op l r >>= fun x => Py.parseChain sc r ops cs >>= fun xs => .ok (x :: xs))
      cases hm : mkRel op l r with
      | error e => rw [mkRel_error hm]; rfl
      | ok x =>
        change forget (Py.parseChainQ sc c r ops cs >>= fun xs => .ok (x :: xs)) = _
        rw [forget_bind, forget_parseChainQ sc c r ops cs]
        rfl
theorem forget_parseOrsQ (sc : Scope) : ∀ l : List Py, forget (Py.parseOrsQ sc l) = Py.parseOrs sc l
  | [] => rfl
  | a :: as => by
    simp only [Py.parseOrsQ, Py.parseOrs, forget_bind, forget_plainly, forget_parseQ sc true a, forget_parseOrsQ sc as]
    rfl
theorem forget_parseArgsQ (sc : Scope) : ∀ (rel : Bool) (l : List Py),
    forget (Py.parseArgsQ sc rel l) = Py.parseArgs sc rel l
  | _, [] => rfl
  | rel, a :: as => by
    simp only [Py.parseArgsQ, Py.parseArgs, forget_bind, forget_parseQ sc rel a, forget_parseArgsQ sc false as]
    rfl
end

/-! ## Only what is quoted is refused with `ExpressionError` -/

/-- Not an `ExpressionError`. -/
def NotEx {α : Type} (x : Except Err α) : Prop := x ≠ .error .expression

theorem NotEx.map {α β : Type} {x : Except Err α} (h : NotEx x) (f : α → β) : NotEx (x.map f) := by
  cases x with
  | ok a => intro e; cases e
  | error e => intro e'; apply h; cases e'; rfl

theorem NotEx.bind {α β : Type} {x : Except Err α} (h : NotEx x) {f : α → Except Err β} (hf : ∀ a, NotEx (f a)) :
    NotEx (x >>= f) := by
  cases x with
  | ok a => exact hf a
  | error e => intro e'; apply h; cases e'; rfl

theorem notEx_ok {α : Type} (a : α) : NotEx (.ok a) := by intro e; cases e

theorem notEx_mapM {α β : Type} (f : α → Except Err β) (l : List α) (h : ∀ a, NotEx (f a)) : NotEx (l.mapM f) := by
  induction l with
  | nil => exact notEx_ok _
  | cons x l ih =>
    rw [List.mapM_cons]
    exact (h x).bind fun a => ih.bind fun b => notEx_ok _

theorem notEx_cancelLoop (orig : List E) : ∀ l p n, NotEx (cancelLoop orig l p n) := by
  intro l
  induction l with
  | nil => intro p n; exact notEx_ok _
  | cons x l ih =>
    intro p n
    unfold cancelLoop
    split
    · exact ih _ _
    · split
      · exact ih _ _
      · intro e; cases e

theorem notEx_collect (p : Poly) : NotEx p.collect := by
  have hc : ∀ m : Mono, NotEx m.cancel := fun m => (notEx_cancelLoop _ _ _ _).map _
  exact (notEx_mapM _ _ hc).bind fun _ => (notEx_mapM _ _ hc).bind fun _ => notEx_ok _

theorem notEx_inv (m : Mono) : NotEx m.inv := by
  unfold Mono.inv
  split <;> intro e <;> cases e

theorem notEx_reciprocal (r : Poly) : NotEx (reciprocal r) := by
  unfold reciprocal
  split
  · split <;> intro e <;> cases e
  · split
    · exact notEx_inv _
    · exact notEx_ok _
  · split
    · exact (notEx_inv _).map _
    · exact notEx_ok _
  · exact notEx_ok _

theorem notEx_powNegN (m : Mono) (n : ℕ) : NotEx (m.powNegN n) := by
  unfold Mono.powNegN
  split <;> intro e <;> cases e

theorem notEx_binPow (l r : E) : NotEx (binPow l r) := by
  unfold binPow
  split
  · split <;> intro e <;> cases e
  · split
    · exact notEx_ok _
    · split
      · unfold powNeg
        split
        · split
          · exact (notEx_powNegN _ _).map _
          · exact notEx_ok _
        · split
          · exact (notEx_powNegN _ _).map _
          · exact notEx_ok _
        · exact notEx_ok _
      · exact notEx_ok _

theorem notEx_type {α : Type} : NotEx (.error .typeError : Except Err α) := by intro e; cases e

theorem notEx_binary (op : PyOp) (l r : E) : NotEx (binary op l r) := by
  unfold binary
  split
  · cases op with
    | div => simp only [foldConst]; split <;> intro e <;> cases e
    | _ => intro e; cases e
  · split
    · cases op <;> intro e <;> cases e
    · cases op with
      | add =>
        change NotEx (ite _ _ _)
        split
        · exact notEx_type
        · exact (notEx_collect _).map _
      | sub =>
        change NotEx (ite _ _ _)
        split
        · exact notEx_type
        · exact (notEx_collect _).map _
      | mul =>
        change NotEx (ite _ _ _)
        split
        · exact notEx_type
        · exact (notEx_collect _).map _
      | div =>
        change NotEx (ite _ _ _)
        split
        · exact notEx_type
        · exact (notEx_reciprocal _).bind fun m => (notEx_collect _).map _
      | pow => exact notEx_binPow l r
      | _ => intro e; cases e

theorem notEx_unaryMinus (e : E) : NotEx (unaryMinus e) := by
  unfold unaryMinus
  split
  · exact notEx_ok _
  · split <;> intro e <;> cases e

theorem notEx_unaryInvert (e : E) : NotEx (unaryInvert e) := by
  unfold unaryInvert
  split <;> split <;> intro e <;> cases e

theorem notEx_asOr (e : E) : NotEx e.asOr := by
  unfold E.asOr
  split <;> intro e <;> cases e

theorem notEx_logicalNot (e : E) : NotEx (logicalNot e) := by
  unfold logicalNot
  split
  · exact notEx_ok _
  · exact (notEx_asOr _).bind fun _ => notEx_ok _

theorem notEx_reduce (f : E → E → E) (l : List E) : NotEx (reduceE f l) := by
  cases l <;> intro e <;> cases e

/-! ## The quoted part -/

/-- What is quoted is written in the expression, and is what `Expr.parse` refuses. -/
def Culprit (sc : Scope) (t : Py) : Prop := t.formed = true ∧ ∃ rel, Py.parse sc rel t = .error .expression

/-- An outcome of reading a part of `s`: what is quoted is in it, and nothing else is an `ExpressionError`. -/
def Blames {α : Type} (sc : Scope) (inside : Py → Prop) (x : Quoting α) : Prop :=
  (∀ t, x = .error (.inl t) → inside t ∧ Culprit sc t) ∧ x ≠ .error (.inr .expression)

theorem Blames.mono {α : Type} {sc : Scope} {P Q : Py → Prop} {x : Quoting α} (h : Blames sc P x)
    (hpq : ∀ t, P t → Q t) : Blames sc Q x := ⟨fun t ht => ⟨hpq t (h.1 t ht).1, (h.1 t ht).2⟩, h.2⟩

theorem blames_ok {α : Type} {sc : Scope} {P : Py → Prop} (a : α) : Blames sc P (.ok a) :=
  ⟨fun _ h => (by cases h), fun h => (by cases h)⟩

theorem blames_plainly {α : Type} {sc : Scope} {P : Py → Prop} {x : Except Err α} (h : NotEx x) :
    Blames sc P (plainly x) := by
  cases x with
  | ok a => exact blames_ok a
  | error e => exact ⟨fun _ h => (by cases h), fun h' => h (by cases h'; rfl)⟩

theorem Blames.bind {α β : Type} {sc : Scope} {P : Py → Prop} {x : Quoting α} (h : Blames sc P x)
    {f : α → Quoting β} (hf : ∀ a, x = .ok a → Blames sc P (f a)) : Blames sc P (x >>= f) := by
  cases x with
  | ok a => exact hf a rfl
  | error e =>
    refine ⟨fun t ht => h.1 t ?_, fun h' => h.2 ?_⟩
    · cases ht; rfl
    · cases h'; rfl

theorem blames_self {α : Type} {sc : Scope} {P : Py → Prop} {t : Py} (hp : P t) (hf : t.formed = true)
    (h : ∃ rel, Py.parse sc rel t = .error .expression) : Blames sc P (.error (.inl t) : Quoting α) := by
  refine ⟨fun u hu => ?_, fun h' => by cases h'⟩
  cases hu
  exact ⟨hp, hf, h⟩

theorem formedPL_mem : ∀ {l : List Py}, Py.formedL l = true → ∀ c ∈ l, c.formed = true
  | x :: xs, w, c, hc => by
    simp only [Py.formedL, Bool.and_eq_true] at w
    rcases List.mem_cons.1 hc with rfl | h
    · exact w.1
    · exact formedPL_mem w.2 c h

mutual
theorem blames_parse (sc : Scope) : ∀ (rel : Bool) (s : Py), s.formed = true →
    Blames sc (fun t => PartOf t s) (Py.parseQ sc rel s)
  | rel, .num q, _ => by cases rel <;> exact blames_ok _
  | rel, .set l, _ => by cases rel <;> exact blames_ok _
  | rel, .name s, _ => by cases rel <;> exact blames_ok _
  | rel, .neg a, w => by
    have := ((blames_parse sc false a w).mono (fun t => PartOf.neg)).bind
      (fun e _ => blames_plainly (notEx_unaryMinus e))
    cases rel <;> simpa only [Py.parseQ] using this
  | rel, .plus a, w => by
    have := (blames_parse sc false a w).mono (fun t => PartOf.plus)
    cases rel <;> simpa only [Py.parseQ] using this
  | rel, .invert a, w => by
    have := ((blames_parse sc false a w).mono (fun t => PartOf.invert)).bind
      (fun e _ => blames_plainly (notEx_unaryInvert e))
    cases rel <;> simpa only [Py.parseQ] using this
  | rel, .bin op a b, w => by
    simp only [Py.formed, Bool.and_eq_true] at w
    have := ((blames_parse sc false a w.1).mono (fun t => PartOf.left (o := op) (b := b))).bind
      (fun e _ => ((blames_parse sc false b w.2).mono (fun t => PartOf.right (o := op) (a := a))).bind
        (fun r _ => blames_plainly (notEx_binary op e r)))
    cases rel <;> simpa only [Py.parseQ] using this
  | true, .compare a ops cs, w => by
    simp only [Py.formed, Bool.and_eq_true, decide_eq_true_eq] at w
    rw [Py.parseQ]
    refine ((blames_parse sc false a w.1.1.1).mono (fun t => PartOf.first)).bind fun l hl => ?_
    have hpl : Py.parse sc false a = .ok l := by rw [← forget_parseQ, hl]; rfl
    refine ((blames_chain sc a l ops cs w.1.1.1 w.2 hpl).mono ?_).bind fun rels _ => ?_
    · rintro t (⟨c, hc, ht⟩ | ⟨i, o, x, y, ht, h1, h2, h3⟩)
      · exact .other hc ht
      · exact .link i o x y ht h1 h2 h3
    · cases rels with
      | nil =>
        exact (blames_plainly (notEx_mapM _ _ notEx_asOr)).bind fun os _ =>
          blames_plainly ((notEx_reduce _ _).map _)
      | cons r rs =>
        cases rs with
        | nil => exact blames_ok _
        | cons r' rs =>
          exact (blames_plainly (notEx_mapM _ _ notEx_asOr)).bind fun os _ =>
            blames_plainly ((notEx_reduce _ _).map _)
  | false, .compare a ops cs, w => blames_self .self w ⟨false, rfl⟩
  | true, .lnot a, w => by
    rw [Py.parseQ]
    exact ((blames_parse sc true a w).mono (fun t => PartOf.lnot)).bind
      (fun e _ => blames_plainly (notEx_logicalNot e))
  | false, .lnot a, w => blames_self .self w ⟨false, rfl⟩
  | true, .land l, w => by
    simp only [Py.formed, Bool.and_eq_true] at w
    rw [Py.parseQ]
    exact ((blames_ors sc l w.2).mono (fun t ⟨c, hc, ht⟩ => PartOf.land hc ht)).bind
      (fun e _ => blames_plainly ((notEx_reduce _ _).map _))
  | false, .land l, w => blames_self .self w ⟨false, rfl⟩
  | true, .lor l, w => by
    simp only [Py.formed, Bool.and_eq_true] at w
    rw [Py.parseQ]
    exact ((blames_ors sc l w.2).mono (fun t ⟨c, hc, ht⟩ => PartOf.lor hc ht)).bind
      (fun e _ => blames_plainly ((notEx_reduce _ _).map _))
  | false, .lor l, w => blames_self .self w ⟨false, rfl⟩
  | rel, .call f args, w => by
    have h : Blames sc (fun t => PartOf t (.call f args)) (if sc.known f then do
        let as ← Py.parseArgsQ sc (f = "where") args
        .ok (.node (.call f) as []) else .error (.inl (.call f args)) : Quoting E) := by
      split
      · exact ((blames_args sc _ args w).mono (fun t ⟨c, hc, ht⟩ => PartOf.arg hc ht)).bind fun e _ => blames_ok _
      · next hk => exact blames_self .self w ⟨false, by simp [Py.parse, hk]⟩
    cases rel <;> simpa only [Py.parseQ] using h
theorem blames_chain (sc : Scope) : ∀ (a : Py) (l : E) (ops : List PyCmp) (cs : List Py), a.formed = true →
    Py.formedL cs = true → Py.parse sc false a = .ok l →
    Blames sc (fun t => (∃ c ∈ cs, PartOf t c) ∨ ∃ (i : ℕ) (o : PyCmp) (x y : Py), t = .compare x [o] [y] ∧
      (a :: cs)[i]? = some x ∧ ops[i]? = some o ∧ cs[i]? = some y) (Py.parseChainQ sc a l ops cs)
  | a, l, [], cs, _, _, _ => by cases cs <;> exact blames_ok _
  | a, l, op :: ops, [], _, _, _ => blames_ok _
  | a, l, op :: ops, c :: cs, wa, w, hl => by
    simp only [Py.formedL, Bool.and_eq_true] at w
    rw [Py.parseChainQ]
    refine ((blames_parse sc false c w.1).mono (fun t ht => Or.inl ⟨c, by simp, ht⟩)).bind fun r hr => ?_
    have hpr : Py.parse sc false c = .ok r := by rw [← forget_parseQ, hr]; rfl
    cases hm : mkRel op l r with
    | error e =>
      refine blames_self (.inr ⟨0, op, a, c, rfl, rfl, rfl, rfl⟩) ?_ ⟨true, ?_⟩
      · simp [Py.formed, Py.formedL, wa, w.1]
      · have he := mkRel_error hm
        simp only [Py.parse, hl, Py.parseChain]
        change ((Py.parse sc false c >>= fun r => mkRel op l r >>= _) >>= _) = _
        rw [hpr]
        change ((mkRel op l r >>= _) >>= _) = _
        rw [hm, he]
        rfl
    | ok x =>
      refine ((blames_chain sc c r ops cs w.1 w.2 hpr).mono ?_).bind fun xs _ => blames_ok _
      rintro t (⟨d, hd, ht⟩ | ⟨i, o, x, y, ht, h1, h2, h3⟩)
      · exact .inl ⟨d, by simp [hd], ht⟩
      · exact .inr ⟨i + 1, o, x, y, ht, by simpa using h1, by simpa using h2, by simpa using h3⟩
theorem blames_ors (sc : Scope) : ∀ l : List Py, Py.formedL l = true →
    Blames sc (fun t => ∃ c ∈ l, PartOf t c) (Py.parseOrsQ sc l)
  | [], _ => blames_ok _
  | a :: as, w => by
    simp only [Py.formedL, Bool.and_eq_true] at w
    rw [Py.parseOrsQ]
    refine ((blames_parse sc true a w.1).mono (fun t ht => ⟨a, by simp, ht⟩)).bind fun e _ => ?_
    refine (blames_plainly (notEx_asOr e)).bind fun o _ => ?_
    exact ((blames_ors sc as w.2).mono (fun t ⟨c, hc, ht⟩ => ⟨c, by simp [hc], ht⟩)).bind fun os _ => blames_ok _
theorem blames_args (sc : Scope) : ∀ (rel : Bool) (l : List Py), Py.formedL l = true →
    Blames sc (fun t => ∃ c ∈ l, PartOf t c) (Py.parseArgsQ sc rel l)
  | _, [], _ => blames_ok _
  | rel, a :: as, w => by
    simp only [Py.formedL, Bool.and_eq_true] at w
    rw [Py.parseArgsQ]
    refine ((blames_parse sc rel a w.1).mono (fun t ht => ⟨a, by simp, ht⟩)).bind fun e _ => ?_
    exact ((blames_args sc false as w.2).mono (fun t ⟨c, hc, ht⟩ => ⟨c, by simp [hc], ht⟩)).bind fun os _ => blames_ok _
end

theorem numSyn_formed (q : ℚ) : (numSyn q).formed = true := by
  unfold numSyn
  split
  · next h => simp only [PyTree.formed, decide_eq_true_eq]; linarith
  · next h => simp only [PyTree.formed, decide_eq_true_eq]; linarith

theorem synL_eq (l : List Py) : Py.synL l = l.map Py.syn := by
  induction l with
  | nil => rfl
  | cons x l ih => simp [Py.synL, ih]

mutual
theorem syn_formed : ∀ s : Py, s.formed = true → s.syn.formed = true
  | .num q, _ => numSyn_formed q
  | .set [], _ => rfl
  | .set (q :: l), _ => by
    have : ∀ l : List ℚ, PyTree.formedL (l.map numSyn) = true := by
      intro l
      rw [formedL_iff]
      intro t ht
      obtain ⟨q, _, rfl⟩ := List.mem_map.1 ht
      exact numSyn_formed q
    simp only [Py.syn, PyTree.formed, this, Bool.and_true]
    rfl
  | .name s, _ => rfl
  | .neg a, w => syn_formed a w
  | .plus a, w => syn_formed a w
  | .invert a, w => syn_formed a w
  | .bin o a b, w => by
    simp only [Py.formed, Bool.and_eq_true] at w
    simp only [Py.syn, PyTree.formed, syn_formed a w.1, syn_formed b w.2]; rfl
  | .compare a ops cs, w => by
    simp only [Py.formed, Bool.and_eq_true, decide_eq_true_eq] at w
    simp only [Py.syn, PyTree.formed, syn_formed a w.1.1.1, synL_formed cs w.2, Bool.and_true, Bool.true_and]
    rw [synL_eq]
    simp only [List.length_map, w.1.2, decide_true, Bool.and_true]
    have := w.1.1.2
    cases ops <;> simp at this ⊢
  | .lnot a, w => syn_formed a w
  | .land l, w => by
    simp only [Py.formed, Bool.and_eq_true] at w
    simp only [Py.syn, PyTree.formed, synL_formed l w.2, Bool.and_true]
    rw [synL_eq, List.length_map]; exact w.1
  | .lor l, w => by
    simp only [Py.formed, Bool.and_eq_true] at w
    simp only [Py.syn, PyTree.formed, synL_formed l w.2, Bool.and_true]
    rw [synL_eq, List.length_map]; exact w.1
  | .call f args, w => by
    simp only [Py.syn, PyTree.formed, synL_formed args w, PyTree.formedL]; rfl
theorem synL_formed : ∀ l : List Py, Py.formedL l = true → PyTree.formedL (Py.synL l) = true
  | [], _ => rfl
  | x :: xs, w => by
    simp only [Py.formedL, Bool.and_eq_true] at w
    simp only [Py.synL, PyTree.formedL, syn_formed x w.1, synL_formed xs w.2]; rfl
end

/-! ## Messages -/

/-- **C126** before Python 3.8: whatever `Expr.parse` refuses with `ExpressionError`, the message has a text that
Python reads as a part of what was written, and that part is itself refused. -/
theorem C126_message_partial (sc : Scope) (s : Py) (hs : s.formed = true)
    (h : parseExpr sc s = .error .expression) :
    ∃ t ts, PartOf t s ∧ (∃ rel, Py.parse sc rel t = .error .expression) ∧ parseText false sc s = .refused ts ∧
      ReadsAs ts t.syn := by
  obtain ⟨b1, b2⟩ := blames_parse sc true s hs
  rw [parseExpr, ← forget_parseQ] at h
  cases hx : Py.parseQ sc true s with
  | ok e => rw [hx] at h; cases h
  | error e =>
    cases e with
    | inr e => rw [hx] at h; cases h; exact absurd hx b2
    | inl t =>
      obtain ⟨p, hf, hr⟩ := b1 t hx
      obtain ⟨ts, h1, h2⟩ := C126_text_partial t.syn (syn_formed t hf)
      exact ⟨t, ts, p, hr, by simp only [parseText, hx, h1], h2⟩

/-- **C126**: apart from the message, nothing depends on the version of Python; accepted expressions are the
same, and so are all exceptions but `ExpressionError`. -/
theorem C126_same_partial (py38 : Bool) (sc : Scope) (s : Py) :
    (∀ e, parseExpr sc s = .ok e → parseText py38 sc s = .ok e) ∧
    (∀ x, parseExpr sc s = .error x → x ≠ .expression → parseText py38 sc s = .raised x) := by
  constructor
  · intro e h
    rw [parseExpr, ← forget_parseQ] at h
    cases hx : Py.parseQ sc true s with
    | ok e' => rw [hx] at h; cases h; simp [parseText, hx]
    | error e' => rw [hx] at h; cases e' <;> cases h
  · intro x h hne
    rw [parseExpr, ← forget_parseQ] at h
    cases hx : Py.parseQ sc true s with
    | ok e' => rw [hx] at h; cases h
    | error e' =>
      rw [hx] at h
      cases e' with
      | inl t => cases h; exact absurd rfl hne
      | inr e' => cases h; simp [parseText, hx]

/-! ## Since Python 3.8 -/

mutual
theorem quote_literal : ∀ t : PyTree, t.formed = true → t.literal = true → t.quote true = .error .attributeError
  | .num q, _, _ => rfl
  | .str q, _, _ => rfl
  | .sing q, _, _ => rfl
  | .name q, _, h => by cases h
  | .attr v a, w, h => by simp only [PyTree.quote, quote_literal v w h]; rfl
  | .call f args keys vals, w, h => by
    simp only [PyTree.formed, Bool.and_eq_true] at w
    simp only [PyTree.literal, Bool.or_eq_true] at h
    simp only [PyTree.quote]
    rcases Bool.eq_false_or_eq_true f.literal with h1 | h1
    · rw [quote_literal f w.1.1.1 h1]; rfl
    rw [quote_ok true f w.1.1.1 (fun _ => h1)]
    rcases Bool.eq_false_or_eq_true (PyTree.literalL args) with h2 | h2
    · rw [quoteL_literal args w.1.1.2 h2]; rfl
    rw [quoteL_ok true args w.1.1.2 (fun _ => h2)]
    rw [quoteL_literal vals w.2 (by simpa [h1, h2] using h)]; rfl
  | .subscript v i, w, h => by
    simp only [PyTree.formed, Bool.and_eq_true] at w
    simp only [PyTree.literal, Bool.or_eq_true] at h
    simp only [PyTree.quote]
    rcases Bool.eq_false_or_eq_true v.literal with h1 | h1
    · rw [quote_literal v w.1 h1]; rfl
    rw [quote_ok true v w.1 (fun _ => h1), quote_literal i w.2 (by simpa [h1] using h)]; rfl
  | .unary o a, w, h => by simp only [PyTree.quote, quote_literal a w h]; rfl
  | .bin o v i, w, h => by
    simp only [PyTree.formed, Bool.and_eq_true] at w
    simp only [PyTree.literal, Bool.or_eq_true] at h
    simp only [PyTree.quote]
    rcases Bool.eq_false_or_eq_true v.literal with h1 | h1
    · rw [quote_literal v w.1 h1]; rfl
    rw [quote_ok true v w.1 (fun _ => h1), quote_literal i w.2 (by simpa [h1] using h)]; rfl
  | .compare v ops cs, w, h => by
    simp only [PyTree.formed, Bool.and_eq_true] at w
    simp only [PyTree.literal, Bool.or_eq_true] at h
    simp only [PyTree.quote]
    rcases Bool.eq_false_or_eq_true v.literal with h1 | h1
    · rw [quote_literal v w.1.1.1 h1]; rfl
    rw [quote_ok true v w.1.1.1 (fun _ => h1), quoteL_literal cs w.2 (by simpa [h1] using h)]; rfl
  | .bool b l, w, h => by
    simp only [PyTree.formed, Bool.and_eq_true] at w
    simp only [PyTree.quote, quoteL_literal l w.2 h]; rfl
  | .ifexp b t e, w, h => by
    simp only [PyTree.formed, Bool.and_eq_true] at w
    simp only [PyTree.literal, Bool.or_eq_true] at h
    simp only [PyTree.quote]
    rcases Bool.eq_false_or_eq_true b.literal with h1 | h1
    · rw [quote_literal b w.1.1 h1]; rfl
    rw [quote_ok true b w.1.1 (fun _ => h1)]
    rcases Bool.eq_false_or_eq_true t.literal with h2 | h2
    · rw [quote_literal t w.1.2 h2]; rfl
    rw [quote_ok true t w.1.2 (fun _ => h2), quote_literal e w.2 (by simpa [h1, h2] using h)]; rfl
  | .set l, w, h => by
    simp only [PyTree.formed, Bool.and_eq_true] at w
    cases l with
    | nil => simp at w
    | cons x l =>
      simp only [PyTree.quote, quoteL_literal (x :: l) w.2 h]; rfl
  | .list l, w, h => by simp only [PyTree.quote, quoteL_literal l w h]; rfl
  | .tuple l, w, h => by simp only [PyTree.quote, quoteL_literal l w h]; rfl
  | .dict ks vs, w, h => by
    simp only [PyTree.formed, Bool.and_eq_true] at w
    simp only [PyTree.literal, Bool.or_eq_true] at h
    simp only [PyTree.quote]
    rcases Bool.eq_false_or_eq_true (PyTree.literalL ks) with h1 | h1
    · rw [quoteL_literal ks w.1.2 h1]; rfl
    rw [quoteL_ok true ks w.1.2 (fun _ => h1), quoteL_literal vs w.2 (by simpa [h1] using h)]; rfl
  | .lam _ _ b, w, h => by
    simp only [PyTree.formed, Bool.and_eq_true] at w
    simp only [PyTree.quote, quote_literal b w.2 h]; rfl
theorem quoteL_literal : ∀ l : List PyTree, PyTree.formedL l = true → PyTree.literalL l = true →
    PyTree.quoteL true l = .error .attributeError
  | [], _, h => by cases h
  | x :: xs, w, h => by
    simp only [PyTree.formedL, Bool.and_eq_true] at w
    simp only [PyTree.literalL, Bool.or_eq_true] at h
    simp only [PyTree.quoteL]
    rcases Bool.eq_false_or_eq_true x.literal with h1 | h1
    · rw [quote_literal x w.1 h1]; rfl
    rw [quote_ok true x w.1 (fun _ => h1), quoteL_literal xs w.2 (by simpa [h1] using h)]; rfl
end

/-- **C126** since Python 3.8, where the refused part has no literal: the message is as before. -/
theorem C126_modern_partial (sc : Scope) (s : Py) (hs : s.formed = true) (t : Py)
    (h : Py.parseQ sc true s = .error (.inl t)) (hl : t.syn.literal = false) :
    parseText true sc s = parseText false sc s := by
  have hf := ((blames_parse sc true s hs).1 t h).2.1
  have w := syn_formed t hf
  simp only [parseText, h, quote_ok true t.syn w (fun _ => hl), quote_ok false t.syn w (by simp)]

/-- **C126** fails since Python 3.8 wherever the refused part has a literal: what the user gets is no
`ExpressionError` but an `AttributeError`, since the unparser has no method for `ast.Constant`. -/
theorem C126_refuted_literal (sc : Scope) (s : Py) (hs : s.formed = true) (t : Py)
    (h : Py.parseQ sc true s = .error (.inl t)) (hl : t.syn.literal = true) :
    parseExpr sc s = .error .expression ∧ parseText true sc s = .raised .attributeError := by
  have hf := ((blames_parse sc true s hs).1 t h).2.1
  refine ⟨by rw [parseExpr, ← forget_parseQ, h]; rfl, ?_⟩
  simp only [parseText, h, quote_literal t.syn (syn_formed t hf) hl]

/-- **C126** fails for a `lambda` with positional-only parameters: the text has other parameters than what was
written. -/
theorem C126_refuted_lambda (p : String) (body : PyTree) (hb : body.formed = true) :
    ∃ ts, (PyTree.lam [p] [] body).quote false = .ok ts ∧ ReadsAs ts (.lam [] [] body) := by
  have hf : (PyTree.lam [] [] body).formed = true := by simpa [PyTree.formed] using hb
  refine ⟨(PyTree.lam [] [] body).toks, ?_, readsAs_toks _ hf⟩
  simp only [PyTree.quote, quote_ok false body hb (by simp)]
  rfl

/-- **C126** for numbers: a number without a sign is quoted as this number, a negative one as the sign and the number without it;
a set without elements, which Python cannot write, is an `AssertionError`. -/
theorem C126_number (q : ℚ) :
    (0 ≤ q → (Py.num q).syn.quote false = .ok [.num q]) ∧
    (q < 0 → (Py.num q).syn.quote false = (PyTree.unary .usub (.num (-q))).quote false ∧ ReadsAs [.num (-q)] (.num (-q))) ∧
    ∀ py38, (PyTree.set []).quote py38 = .error .assertion := by
  refine ⟨fun h => ?_, fun h => ⟨?_, ?_⟩, fun _ => rfl⟩
  · simp only [Py.syn, numSyn, if_neg (not_lt.2 h)]
    rfl
  · simp only [Py.syn, numSyn, if_pos h]
  · exact readsAs_toks (.num (-q)) (by simp only [PyTree.formed, decide_eq_true_eq]; linarith)

theorem asOp_bop (o : PyOp) : o.bop.asOp = some o := by cases o <;> rfl

theorem asCmp_cop : ∀ l : List PyCmp, (l.map PyCmp.cop).mapM COp.asCmp = some l
  | [] => rfl
  | o :: l => by
    rw [List.map_cons, List.mapM_cons, asCmp_cop l]
    cases o <;> rfl

theorem constant_numSyn : ∀ l : List ℚ, (l.map numSyn).mapM PyTree.constant = some l
  | [] => rfl
  | q :: l => by
    rw [List.map_cons, List.mapM_cons, constant_numSyn l]
    unfold numSyn
    split <;> simp [PyTree.constant]

mutual
/-- **C126**: the syntax tree of an expression stands for this expression (so that a text that is read as this tree is read as the
expression). -/
theorem C126_tree : ∀ s : Py, s.unsigned = true → s.syn.asPy = some s
  | .num q, h => by
    have h : 0 ≤ q := by simpa [Py.unsigned] using h
    simp [Py.syn, numSyn, not_lt.2 h, PyTree.asPy]
  | .set [], _ => rfl
  | .set (q :: l), _ => by
    simp only [Py.syn, PyTree.asPy, constant_numSyn, Option.map]
  | .name s, _ => rfl
  | .neg a, h => by simp only [Py.syn, PyTree.asPy, C126_tree a h]
  | .plus a, h => by simp only [Py.syn, PyTree.asPy, C126_tree a h]
  | .invert a, h => by simp only [Py.syn, PyTree.asPy, C126_tree a h]
  | .bin o a b, h => by
    simp only [Py.unsigned, Bool.and_eq_true] at h
    simp only [Py.syn, PyTree.asPy, asOp_bop, C126_tree a h.1, C126_tree b h.2]
  | .compare a ops cs, h => by
    simp only [Py.unsigned, Bool.and_eq_true] at h
    simp only [Py.syn, PyTree.asPy, asCmp_cop, C126_tree a h.1, asPyL_synL cs h.2]
  | .lnot a, h => by simp only [Py.syn, PyTree.asPy, C126_tree a h]
  | .land l, h => by simp only [Py.syn, PyTree.asPy, asPyL_synL l h]
  | .lor l, h => by simp only [Py.syn, PyTree.asPy, asPyL_synL l h]
  | .call f args, h => by simp only [Py.syn, PyTree.asPy, asPyL_synL args h, Option.map]

theorem asPyL_synL : ∀ l : List Py, Py.unsignedL l = true → PyTree.asPyL (Py.synL l) = some l
  | [], _ => rfl
  | x :: xs, h => by
    simp only [Py.unsignedL, Bool.and_eq_true] at h
    simp only [Py.synL, PyTree.asPyL, C126_tree x h.1, asPyL_synL xs h.2]
end

/-! ## Examples -/

/-- `max(x, y > z) + 1` -/
def exRefused : Py := .bin .add (.call "max" [.name "x", .compare (.name "y") [.gt] [.name "z"]]) (.num 1)

/-- `1 + max(x, y > 2)` -/
def exLiteral : Py := .bin .add (.num 1) (.call "max" [.name "x", .compare (.name "y") [.gt] [.num 2]])

/-- A scope with `max`. -/
def exScope : Scope := ⟨fun f => decide (f = "max"), fun _ => none⟩

example : exRefused.formed = true ∧ exLiteral.formed = true ∧ exRefused.unsigned = true := by decide +kernel

/-- The comparison is quoted; with a literal in it, Python 3.8 gives an `AttributeError`. -/
example : parseText true exScope exRefused =
      .refused [.s .lpar, .name "y", .s .gt, .name "z", .s .rpar] ∧
    parseText false exScope exLiteral = .refused [.s .lpar, .name "y", .s .gt, .num 2, .s .rpar] ∧
    parseText true exScope exLiteral = .raised .attributeError := ⟨rfl, rfl, rfl⟩

/-- `(a if not (b < c is not d) else {e, f.g})[h(i, **j, k=(l,))]`: a syntax tree with its text. -/
def exSyn : PyTree := .subscript
  (.ifexp (.name "a") (.unary .not (.compare (.name "b") [.lt, .isnot] [.name "c", .name "d"]))
    (.set [.name "e", .attr (.name "f") "g"]))
  (.call (.name "h") [.name "i"] [none, some "k"] [.name "j", .tuple [.name "l"]])

example : exSyn.formed = true ∧ exSyn.literal = false := by decide +kernel

example : rdE 40 0 exSyn.toks = some (exSyn, []) := rfl

end Verif
