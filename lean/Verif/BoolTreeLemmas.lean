import Verif.BoolTree
import Verif.TreeLemmas

/-!
# Lemmas about boolean arrays in computation trees
-/

namespace Verif

/-! ## Which expressions are boolean -/

mutual
/-- Whether an expression gives a boolean array, given which fields are boolean. -/
def E.boolean (Γ : String → Bool) : E → Bool
  | .node h p n =>
    match h with
    | .const _ => false
    | .cset _ => false
    | .name s => Γ s
    | .pred s _ => Γ s
    | .call f => boolResult f (E.booleanL Γ p)
    | .binop f => boolResult f (E.booleanL Γ p)
    | .rel _ => true
    | .land => decide (2 ≤ p.length) || (E.booleanL Γ p).all id
    | .lor => decide (2 ≤ p.length) || (E.booleanL Γ p).all id
    | .plus c => decide (c = 0) && n.isEmpty && !p.isEmpty && (E.booleanL Γ p).all id
    | .times c => decide (c = 1) && n.isEmpty && !p.isEmpty && (E.booleanL Γ p).all id
/-- The same for each element. -/
def E.booleanL (Γ : String → Bool) : List E → List Bool
  | [] => []
  | x :: xs => E.boolean Γ x :: E.booleanL Γ xs
end

mutual
/-- No sum has two boolean terms: at most one of the added and one of the subtracted terms is boolean, and
a boolean term is not subtracted from nothing but a boolean term. -/
def E.fair (Γ : String → Bool) : E → Bool
  | .node h p n =>
    E.fairL Γ p && E.fairL Γ n &&
    match h with
    | .plus c => decide ((E.booleanL Γ p).count true ≤ 1) && decide ((E.booleanL Γ n).count true ≤ 1) &&
        !(decide (c = 0) && !p.isEmpty && !n.isEmpty && (E.booleanL Γ p).all id && (E.booleanL Γ n).all id)
    | _ => true
/-- The same for each element. -/
def E.fairL (Γ : String → Bool) : List E → Bool
  | [] => true
  | x :: xs => E.fair Γ x && E.fairL Γ xs
end

theorem booleanL_eq (Γ : String → Bool) (l : List E) : E.booleanL Γ l = l.map (E.boolean Γ) := by
  induction l with
  | nil => rfl
  | cons x l ih => simp [E.booleanL, ih]

theorem fairL_iff (Γ : String → Bool) (l : List E) : E.fairL Γ l = true ↔ ∀ x ∈ l, x.fair Γ = true := by
  induction l with
  | nil => simp [E.fairL]
  | cons x l ih => simp [E.fairL, ih]

/-! ## Which trees are boolean -/

mutual
/-- Whether a tree gives a boolean array. -/
def treeBool (Γ : String → Bool) : E → Bool
  | .node h p _ =>
    match h with
    | .name s => Γ s
    | .pred s _ => Γ s
    | .call f =>
      if f = "numpy.add" ∨ f = "numpy.multiply" then (treeBoolL Γ p).all id else boolResult f (treeBoolL Γ p)
    | _ => false
def treeBoolL (Γ : String → Bool) : List E → List Bool
  | [] => []
  | x :: xs => treeBool Γ x :: treeBoolL Γ xs
end

/-- No addition or subtraction in the tree has only boolean arguments. -/
inductive NoClash (Γ : String → Bool) : E → Prop
  | const (q : ℚ) (p n) : NoClash Γ (.node (.const q) p n)
  | cset (l) (p n) : NoClash Γ (.node (.cset l) p n)
  | name (s) (p n) : NoClash Γ (.node (.name s) p n)
  | pred (s b) (p n) : NoClash Γ (.node (.pred s b) p n)
  | call (f : String) (p n) : (∀ x ∈ p, NoClash Γ x) →
      (f = "numpy.add" ∨ f = "numpy.subtract" → (treeBoolL Γ p).all id = false) → NoClash Γ (.node (.call f) p n)

theorem treeBoolL_eq (Γ : String → Bool) (l : List E) : treeBoolL Γ l = l.map (treeBool Γ) := by
  induction l with
  | nil => rfl
  | cons x l ih => simp [treeBoolL, ih]

/-- A number that stands for a truth value. -/
def IsTruth (v : Option ℚ) : Prop := v = some 0 ∨ v = some 1

theorem isTruth_ofBool (b : Bool) : IsTruth (ofBool b) := by cases b <;> simp [IsTruth, ofBool]

theorem IsTruth.eq {v : Option ℚ} (h : IsTruth v) : ofBool (truth v) = v := by
  rcases h with rfl | rfl <;> simp [ofBool, truth]

/-- The functions that give boolean arrays give truth values: `isnan`, `isinf` and `isfinite` always, `abs`,
`max`, `min` and `where` if they are given truth values. -/
def KeepsTruth (more : More) : Prop :=
  ∀ f g (bs : List Bool) (vs : List (Option ℚ)), more f = some g → boolResult f bs = true →
    List.Forall₂ (fun b v => b = true → IsTruth v) bs vs → IsTruth (g vs)

theorem builtin_isnum {f : String} {g : List RowVal → Except Err RowVal} (h : builtin f = some g) {l : List RowVal}
    {v : RowVal} (hv : g l = .ok v) : ∃ q, v = .num q := by
  have u2 : ∀ k, ufunc2 k l = .ok v → ∃ q, v = .num q := by
    intro k hk
    unfold ufunc2 at hk
    split at hk
    · exact ⟨_, (Except.ok.inj hk).symm⟩
    · simp at hk
  unfold builtin at h
  split at h <;> first
    | (cases h; exact u2 _ hv)
    | (cases h; unfold isinFn at hv; split at hv <;> first | exact ⟨_, (Except.ok.inj hv).symm⟩ | simp at hv)
    | (cases h; unfold notFn at hv; split at hv <;> first | exact ⟨_, (Except.ok.inj hv).symm⟩ | simp at hv)
    | simp at h

theorem builtin_truth {f : String} {g : List RowVal → Except Err RowVal} (h : builtin f = some g) {bs : List Bool}
    (hb : boolResult f bs = true) {l : List RowVal}
    {q : Option ℚ} (hv : g l = .ok (.num q)) : IsTruth q := by
  have u2 : ∀ k : Option ℚ → Option ℚ → Bool, ufunc2 (fun a b => ofBool (k a b)) l = .ok (.num q) → IsTruth q := by
    intro k hk
    unfold ufunc2 at hk
    split at hk
    · cases hk; exact isTruth_ofBool _
    · simp at hk
  unfold builtin at h
  split at h <;> first
    | (simp [boolResult, boolFns, keepFns] at hb; done)
    | (cases h; exact u2 _ hv)
    | (cases h; unfold isinFn at hv; split at hv <;> first | (cases hv; exact isTruth_ofBool _) | simp at hv)
    | (cases h; unfold notFn at hv; split at hv <;> first | (cases hv; exact isTruth_ofBool _) | simp at hv)
    | simp at h

theorem rowNums_ok {l : List RowVal} {xs : List (Option ℚ)} (h : rowNums l = .ok xs) : l = xs.map .num := by
  induction l generalizing xs with
  | nil => cases h; rfl
  | cons a l ih =>
    cases a with
    | obj c => simp [rowNums] at h
    | num v =>
      simp only [rowNums] at h
      cases h' : rowNums l with
      | error e => rw [h'] at h; simp [Except.map] at h
      | ok ys => rw [h'] at h; cases h; rw [ih h']; rfl

/-- A boolean value without its type is a truth value. -/
theorem TVal.truth_of {w : TVal} {v : Option ℚ} (h : w.erase = .num v) (hb : w.isBool = true) : IsTruth v := by
  cases w with
  | bool b => cases h; exact isTruth_ofBool b
  | num _ => simp [TVal.isBool] at hb
  | obj _ => simp [TVal.isBool] at hb

theorem typed_ok {b : Bool} {q : Option ℚ} (h : b = true → IsTruth q) :
    (typed b (.num q)).erase = .num q ∧ (typed b (.num q)).isBool = b := by
  cases b
  · exact ⟨rfl, rfl⟩
  · refine ⟨?_, rfl⟩
    change RowVal.num (ofBool (truth q)) = _
    rw [(h rfl).eq]

/-- One function: where it does not add or subtract booleans, it gives the same number. -/
theorem typedFn_ok {more : More} (hk : KeepsTruth more) {f : String} {g : List RowVal → Except Err RowVal}
    (hg : (rowLib more).fn f = some g) {args : List TVal} {v : RowVal} (hv : g (args.map TVal.erase) = .ok v)
    (hc : f = "numpy.add" ∨ f = "numpy.subtract" → (args.map TVal.isBool).all id = false) :
    ∃ w, typedFn f g args = .ok w ∧ w.erase = v ∧
      w.isBool = (if f = "numpy.add" ∨ f = "numpy.multiply" then (args.map TVal.isBool).all id
        else boolResult f (args.map TVal.isBool)) := by
  -- the result on numbers
  have num : ∃ q, v = .num q := by
    simp only [rowLib] at hg
    split at hg
    · rename_i g' hb
      cases hg
      exact builtin_isnum hb hv
    · cases hm : more f with
      | none => rw [hm] at hg; simp at hg
      | some k =>
        rw [hm] at hg
        simp only [Option.map_some, Option.some.injEq] at hg
        subst hg
        simp only at hv
        cases hr : rowNums (args.map TVal.erase) with
        | error e => rw [hr] at hv; simp [Except.map] at hv
        | ok xs => rw [hr] at hv; cases hv; exact ⟨_, rfl⟩
  obtain ⟨q, rfl⟩ := num
  have tr : boolResult f (args.map TVal.isBool) = true → IsTruth q := by
    intro hb
    simp only [rowLib] at hg
    split at hg
    · rename_i g' hb'
      cases hg
      exact builtin_truth hb' hb hv
    · cases hm : more f with
      | none => rw [hm] at hg; simp at hg
      | some k =>
        rw [hm] at hg
        simp only [Option.map_some, Option.some.injEq] at hg
        subst hg
        simp only at hv
        cases hr : rowNums (args.map TVal.erase) with
        | error e => rw [hr] at hv; simp [Except.map] at hv
        | ok xs =>
          rw [hr] at hv; cases hv
          refine hk f k _ xs hm hb ?_
          have := rowNums_ok hr
          clear hb hc hr
          induction args generalizing xs with
          | nil =>
            cases xs with
            | nil => exact .nil
            | cons => simp at this
          | cons a as ih =>
            cases xs with
            | nil => simp at this
            | cons x xs =>
              simp only [List.map_cons, List.cons.injEq] at this
              exact .cons (fun hb => TVal.truth_of this.1 hb) (ih xs this.2)
  have gen : (typedFn f g args = (g (args.map TVal.erase)).map (typed (boolResult f (args.map TVal.isBool)))) →
      ((if f = "numpy.add" ∨ f = "numpy.multiply" then (args.map TVal.isBool).all id
        else boolResult f (args.map TVal.isBool)) = boolResult f (args.map TVal.isBool)) →
      ∃ w, typedFn f g args = .ok w ∧ w.erase = .num q ∧
        w.isBool = (if f = "numpy.add" ∨ f = "numpy.multiply" then (args.map TVal.isBool).all id
          else boolResult f (args.map TVal.isBool)) := by
    intro h1 h2
    refine ⟨typed (boolResult f (args.map TVal.isBool)) (.num q), ?_, ?_⟩
    · rw [h1, hv]; rfl
    · rw [h2]; exact typed_ok tr
  by_cases ha : f = "numpy.add"
  · subst ha
    have hall := hc (.inl rfl)
    refine gen ?_ ?_
    · unfold typedFn
      split
      · simp [TVal.isBool] at hall
      · rfl
    · rw [if_pos (.inl rfl), hall]; rfl
  by_cases hs : f = "numpy.subtract"
  · subst hs
    have hall := hc (.inr rfl)
    refine gen ?_ ?_
    · unfold typedFn
      split
      · simp [TVal.isBool] at hall
      · rfl
    · rw [if_neg (by decide)]
  by_cases hm : f = "numpy.multiply"
  · subst hm
    have hg' : g = ufunc2 fun a b => do return (← a) * (← b) := by
      have : (rowLib more).fn "numpy.multiply" = some (ufunc2 fun a b => do return (← a) * (← b)) := rfl
      rw [this] at hg
      exact (Option.some.inj hg).symm
    match args, hv, gen, tr with
    | [.bool a, .bool b], hv, _, _ =>
      refine ⟨.bool (a && b), rfl, ?_, rfl⟩
      rw [hg'] at hv
      cases hv
      cases a <;> cases b <;> simp [TVal.erase, ofBool]
    | [], hv, _, _ => rw [hg'] at hv; simp [ufunc2] at hv
    | [_], hv, _, _ => rw [hg'] at hv; simp [ufunc2] at hv
    | _ :: _ :: _ :: _, hv, _, _ => rw [hg'] at hv; simp [ufunc2] at hv
    | [.obj _, _], hv, gen, _ => exact gen rfl rfl
    | [.num _, _], hv, gen, _ => exact gen rfl rfl
    | [.bool _, .num _], hv, gen, _ => exact gen rfl rfl
    | [.bool _, .obj _], hv, gen, _ => exact gen rfl rfl
  · refine gen ?_ (by rw [if_neg (by simp [ha, hm])])
    unfold typedFn
    have : onBools f = none := by
      unfold onBools
      split <;> first | contradiction | rfl
    rw [this]

/-! ## Calculating a tree -/

variable {more : More} {field : String → Bool ⊕ Option ℚ}

/-- The fields without their types. -/
def plainField (field : String → Bool ⊕ Option ℚ) (s : String) : Option ℚ :=
  match field s with
  | .inl b => ofBool b
  | .inr v => v

/-- Which fields are boolean. -/
def isFlagField (field : String → Bool ⊕ Option ℚ) (s : String) : Bool := (field s).isLeft

mutual
theorem typed_calc (hk : KeepsTruth more) : ∀ (t : E) (v : RowVal), NoClash (isFlagField field) t →
    calculate (rowLib more) (rowSymbols (plainField field)) t.toT = .ok v →
    ∃ w, calculate (boolLib more) (boolSymbols field) t.toT = .ok w ∧ w.erase = v ∧
      w.isBool = treeBool (isFlagField field) t
  | .node h p n, v, nc, hv => by
    have sym : ∀ s, rowSymbols (plainField field) s = .ok v → ∃ w, boolSymbols field s = .ok w ∧ w.erase = v ∧
        w.isBool = isFlagField field s := by
      intro s hs
      unfold rowSymbols plainField at hs
      unfold boolSymbols isFlagField
      cases hf : field s with
      | inl b => rw [hf] at hs; cases hs; exact ⟨.bool b, rfl, rfl, rfl⟩
      | inr x => rw [hf] at hs; cases hs; exact ⟨.num x, rfl, rfl, rfl⟩
    cases nc with
    | const q => cases hv; exact ⟨.num (some q), rfl, rfl, rfl⟩
    | cset l => cases hv; exact ⟨.obj _, rfl, rfl, rfl⟩
    | name s => exact sym s hv
    | pred s b => exact sym s hv
    | call f _ _ hp hc =>
      simp only [E.toT, calculate] at hv ⊢
      cases hg : (rowLib more).fn f with
      | none => rw [hg] at hv; simp at hv
      | some g =>
        rw [hg] at hv
        have hg' : (boolLib more).fn f = some (typedFn f g) := by simp only [boolLib, hg, Option.map_some]
        rw [hg']
        simp only at hv ⊢
        cases hl : calculateL (rowLib more) (rowSymbols (plainField field)) (E.toTL p) with
        | error e => rw [hl] at hv; cases hv
        | ok vs =>
          rw [hl] at hv
          obtain ⟨ws, h1, h2, h3⟩ := typed_calcL hk p vs hp hl
          rw [h1]
          simp only [bind, Except.bind] at hv ⊢
          subst h2
          obtain ⟨w, e1, e2, e3⟩ := typedFn_ok hk hg hv (fun hf => by rw [h3]; exact hc hf)
          refine ⟨w, e1, e2, ?_⟩
          rw [e3, h3]
          simp only [treeBool]
theorem typed_calcL (hk : KeepsTruth more) : ∀ (l : List E) (vs : List RowVal),
    (∀ t ∈ l, NoClash (isFlagField field) t) →
    calculateL (rowLib more) (rowSymbols (plainField field)) (E.toTL l) = .ok vs →
    ∃ ws, calculateL (boolLib more) (boolSymbols field) (E.toTL l) = .ok ws ∧ ws.map TVal.erase = vs ∧
      ws.map TVal.isBool = treeBoolL (isFlagField field) l
  | [], vs, _, hv => by cases hv; exact ⟨[], rfl, rfl, rfl⟩
  | t :: ts, vs, nc, hv => by
    simp only [E.toTL, calculateL] at hv ⊢
    cases h1 : calculate (rowLib more) (rowSymbols (plainField field)) t.toT with
    | error e => rw [h1] at hv; cases hv
    | ok v =>
      rw [h1] at hv
      cases h2 : calculateL (rowLib more) (rowSymbols (plainField field)) (E.toTL ts) with
      | error e => rw [h2] at hv; cases hv
      | ok vs' =>
        rw [h2] at hv
        cases hv
        obtain ⟨w, a1, a2, a3⟩ := typed_calc hk t v (nc t (by simp)) h1
        obtain ⟨ws, b1, b2, b3⟩ := typed_calcL hk ts vs' (fun x hx => nc x (by simp [hx])) h2
        refine ⟨w :: ws, by rw [a1, b1]; rfl, by simp [a2, b2], by simp [a3, b3, treeBoolL]⟩
end

/-! ## Trees of expressions -/

variable {Γ : String → Bool}

theorem treeBool_call (f : String) (p : List E) (hf : ¬ (f = "numpy.add" ∨ f = "numpy.multiply")) :
    treeBool Γ (E.callE f p) = boolResult f (p.map (treeBool Γ)) := by
  simp only [treeBool, treeBoolL_eq]
  rw [if_neg hf]

theorem treeBool_all (f : String) (p : List E) (hf : f = "numpy.add" ∨ f = "numpy.multiply") :
    treeBool Γ (E.callE f p) = (p.map (treeBool Γ)).all id := by
  simp only [treeBool, treeBoolL_eq]
  rw [if_pos hf]

/-- A sum of terms of which at most one is boolean. -/
theorem reduceT_add : ∀ (n : ℕ) (args : List E), args ≠ [] → args.length ≤ n →
    (∀ a ∈ args, NoClash Γ a) → (args.map (treeBool Γ)).count true ≤ 1 → ∀ t, reduceT "numpy.add" n args = .ok t →
    NoClash Γ t ∧ treeBool Γ t = (args.map (treeBool Γ)).all id
  | _, [], h, _, _, _, _, _ => absurd rfl h
  | n, [a], _, _, hok, _, t, ht => by
    have : t = a := by cases n <;> cases ht <;> rfl
    subst this
    exact ⟨hok _ (by simp), by simp⟩
  | 0, a :: b :: as, _, hn, _, _, _, _ => by simp at hn
  | n + 1, a :: b :: as, _, hn, hok, h1, t, ht => by
    have hlen : 1 ≤ (a :: b :: as).length / 2 ∧ (a :: b :: as).length / 2 < (a :: b :: as).length := by
      simp only [List.length_cons]; omega
    have h2 : 2 ≤ (a :: b :: as).length := by simp
    generalize hargs : a :: b :: as = args at *
    generalize hk : args.length / 2 = k at hlen
    have htl : (args.take k).length = k := by rw [List.length_take]; omega
    have hdl : (args.drop k).length = args.length - k := List.length_drop
    have hne1 : args.take k ≠ [] := by
      intro h; rw [h] at htl; simp at htl; omega
    have hne2 : args.drop k ≠ [] := by
      intro h; rw [h] at hdl; simp at hdl; omega
    have hsplit : args.map (treeBool Γ) = (args.take k).map (treeBool Γ) ++ (args.drop k).map (treeBool Γ) := by
      rw [← List.map_append, List.take_append_drop]
    rw [hsplit, List.count_append] at h1
    have hred : reduceT "numpy.add" (n + 1) args = (do
        let l ← reduceT "numpy.add" n (args.take k)
        let r ← reduceT "numpy.add" n (args.drop k)
        .ok (E.callE "numpy.add" [l, r])) := by
      subst hargs
      conv_lhs => unfold reduceT
      rw [hk, if_neg (by simpa using hne1)]
    rw [hred] at ht
    cases hl : reduceT "numpy.add" n (args.take k) with
    | error e => rw [hl] at ht; cases ht
    | ok l =>
      rw [hl] at ht
      cases hr : reduceT "numpy.add" n (args.drop k) with
      | error e => rw [hr] at ht; cases ht
      | ok r =>
        rw [hr] at ht
        cases ht
        obtain ⟨l1, l2⟩ := reduceT_add n (args.take k) hne1 (by omega)
          (fun x hx => hok x (List.mem_of_mem_take hx)) (by omega) l hl
        obtain ⟨r1, r2⟩ := reduceT_add n (args.drop k) hne2 (by omega)
          (fun x hx => hok x (List.mem_of_mem_drop hx)) (by omega) r hr
        have not2 : ((args.take k).map (treeBool Γ)).all id = true →
            ((args.drop k).map (treeBool Γ)).all id = false := by
          intro ha
          by_contra hb
          rw [Bool.not_eq_false] at hb
          have c1 : ∀ l : List Bool, l.all id = true → l.count true = l.length := by
            intro l hl
            rw [List.count_eq_length]
            intro b hb
            have := List.all_eq_true.1 hl b hb
            exact (by simpa using this : b = true).symm
          rw [c1 _ ha, c1 _ hb] at h1
          simp only [List.length_map] at h1
          omega
        refine ⟨.call _ _ _ ?_ ?_, ?_⟩
        · intro x hx
          simp only [List.mem_cons, List.not_mem_nil, or_false] at hx
          rcases hx with rfl | rfl
          · exact l1
          · exact r1
        · intro _
          rw [treeBoolL_eq]
          simp only [List.map_cons, List.map_nil, l2, r2, List.all_cons, List.all_nil, id, Bool.and_true]
          cases h : ((args.take k).map (treeBool Γ)).all id
          · rfl
          · have := not2 h
            rw [Bool.and_eq_false_iff]; right; exact this
        · rw [treeBool_all _ _ (.inl rfl), hsplit, List.all_append]
          simp only [List.map_cons, List.map_nil, l2, r2, List.all_cons, List.all_nil, id, Bool.and_true]

theorem ofBool_inj {a b : Bool} (h : ofBool a = ofBool b) : a = b := by
  cases a <;> cases b <;> simp [ofBool] at h ⊢

theorem noClash_call2 {f : String} (hf : ¬ (f = "numpy.add" ∨ f = "numpy.subtract")) {p : List E}
    (h : ∀ x ∈ p, NoClash Γ x) : NoClash Γ (E.callE f p) := .call _ _ _ h fun h' => absurd h' hf

/-- A product. -/
theorem duplicatesT_bool {args : List E} (hne : args ≠ []) (hok : ∀ a ∈ args, NoClash Γ a) :
    ∃ t, duplicatesT "numpy.multiply" args = .ok t ∧ NoClash Γ t ∧
      treeBool Γ t = (args.map (treeBool Γ)).all id := by
  have hf : Acts (NoClash Γ) (fun t => ofBool (treeBool Γ t)) "numpy.multiply"
      fun a b => do return (← a) * (← b) := by
    intro a b ha hb
    refine ⟨noClash_call2 (by decide) (by simp [ha, hb]), ?_⟩
    simp only [treeBool_all (Γ := Γ) _ _ (Or.inr (rfl : "numpy.multiply" = "numpy.multiply"))]
    cases h1 : treeBool Γ a <;> cases h2 : treeBool Γ b <;> simp [ofBool, h1, h2]
  obtain ⟨t, h1, h2, h3⟩ := duplicatesT_gen hf hne hok
  refine ⟨t, h1, h2, ?_⟩
  have key : ∀ l : List E, prodO (l.map fun t => ofBool (treeBool Γ t)) = ofBool ((l.map (treeBool Γ)).all id) := by
    intro l
    induction l with
    | nil => simp [prodO, ofBool]
    | cons x l ih =>
      rw [List.map_cons, prodO, ih]
      rw [List.map_cons, List.all_cons]
      cases treeBool Γ x <;> cases (l.map (treeBool Γ)).all id <;> simp [ofBool]
  rw [key] at h3
  exact ofBool_inj h3

/-- A conjunction or disjunction. -/
theorem reduceT_logic {f : String} (hf : f = "numpy.logical_and" ∨ f = "numpy.logical_or") :
    ∀ (n : ℕ) (args : List E), args ≠ [] →
    (∀ a ∈ args, NoClash Γ a) → ∀ t, reduceT f n args = .ok t →
    NoClash Γ t ∧ treeBool Γ t = (decide (2 ≤ args.length) || (args.map (treeBool Γ)).all id)
  | _, [], h, _, _, _ => absurd rfl h
  | n, [a], _, hok, t, ht => by
    have : t = a := by cases n <;> cases ht <;> rfl
    subst this
    exact ⟨hok _ (by simp), by simp⟩
  | 0, a :: b :: as, _, _, _, ht => by simp [reduceT] at ht
  | n + 1, a :: b :: as, _, hok, t, ht => by
    have hlen : 1 ≤ (a :: b :: as).length / 2 ∧ (a :: b :: as).length / 2 < (a :: b :: as).length := by
      simp only [List.length_cons]; omega
    have h2 : 2 ≤ (a :: b :: as).length := by simp
    generalize hargs : a :: b :: as = args at *
    generalize hk : args.length / 2 = k at hlen
    have htl : (args.take k).length = k := by rw [List.length_take]; omega
    have hdl : (args.drop k).length = args.length - k := List.length_drop
    have hne1 : args.take k ≠ [] := by
      intro h; rw [h] at htl; simp at htl; omega
    have hne2 : args.drop k ≠ [] := by
      intro h; rw [h] at hdl; simp at hdl; omega
    have hred : reduceT f (n + 1) args = (do
        let l ← reduceT f n (args.take k)
        let r ← reduceT f n (args.drop k)
        .ok (E.callE f [l, r])) := by
      subst hargs
      conv_lhs => unfold reduceT
      rw [hk, if_neg (by simpa using hne1)]
    rw [hred] at ht
    cases hl : reduceT f n (args.take k) with
    | error e => rw [hl] at ht; cases ht
    | ok l =>
      rw [hl] at ht
      cases hr : reduceT f n (args.drop k) with
      | error e => rw [hr] at ht; cases ht
      | ok r =>
        rw [hr] at ht
        cases ht
        obtain ⟨l1, _⟩ := reduceT_logic hf n (args.take k) hne1
          (fun x hx => hok x (List.mem_of_mem_take hx)) l hl
        obtain ⟨r1, _⟩ := reduceT_logic hf n (args.drop k) hne2
          (fun x hx => hok x (List.mem_of_mem_drop hx)) r hr
        have hnf : ¬ (f = "numpy.add" ∨ f = "numpy.subtract") := by rcases hf with rfl | rfl <;> decide
        have hnm : ¬ (f = "numpy.add" ∨ f = "numpy.multiply") := by rcases hf with rfl | rfl <;> decide
        refine ⟨noClash_call2 hnf (by simp [l1, r1]), ?_⟩
        rw [treeBool_call _ _ hnm, decide_eq_true h2]
        rcases hf with rfl | rfl <;> simp [boolResult, boolFns]

theorem noClash_const (q : ℚ) : NoClash Γ (E.const q) := .const _ _ _

theorem treeBool_const (q : ℚ) : treeBool Γ (E.const q) = false := rfl

mutual
/-- The tree of a fair expression adds and subtracts no booleans, and is boolean if the expression is. -/
theorem totree_bool : ∀ (e : E), e.WF → e.All (RunHead more (plainField field)) → e.fair Γ = true →
    ∀ t, totree e = .ok t → NoClash Γ t ∧ treeBool Γ t = e.boolean Γ
  | .node h p n, w, a, hf, t, ht => by
    simp only [E.fair, Bool.and_eq_true] at hf
    obtain ⟨⟨fp, fn⟩, fh⟩ := hf
    simp only [totree] at ht
    cases hp : totreeL p with
    | error e => rw [hp] at ht; cases ht
    | ok p' =>
      rw [hp] at ht
      cases hn : totreeL n with
      | error e => rw [hn] at ht; cases ht
      | ok n' =>
        rw [hn] at ht
        obtain ⟨np, bp⟩ := totreeL_bool p w.pos a.pos fp p' hp
        obtain ⟨nn, bn⟩ := totreeL_bool n w.neg a.neg fn n' hn
        have lp : p'.length = p.length := by
          have := congrArg List.length bp; simpa using this
        have ln : n'.length = n.length := by
          have := congrArg List.length bn; simpa using this
        have hempty : ∀ {l l' : List E}, l'.length = l.length → l'.isEmpty = l.isEmpty := by
          intro l l' h
          cases l <;> cases l' <;> simp at h ⊢
        change headTree h p' n' = _ at ht
        simp only [E.boolean, booleanL_eq]
        cases h with
        | const q => cases ht; exact ⟨.const _ _ _, rfl⟩
        | cset l => exact a.head.elim
        | name s => cases ht; exact ⟨.name _ _ _, rfl⟩
        | pred s b => cases ht; exact ⟨.pred _ _ _ _, rfl⟩
        | call f =>
          cases ht
          have hb := a.head.1
          have h1 : ¬ (f = "numpy.add" ∨ f = "numpy.subtract") := by rintro (rfl | rfl) <;> cases hb
          have h2 : ¬ (f = "numpy.add" ∨ f = "numpy.multiply") := by rintro (rfl | rfl) <;> cases hb
          exact ⟨noClash_call2 h1 np, by rw [treeBool_call _ _ h2, bp]⟩
        | binop f =>
          cases ht
          have hb := a.head.1
          have h1 : ¬ (f = "numpy.add" ∨ f = "numpy.subtract") := by rintro (rfl | rfl) <;> cases hb
          have h2 : ¬ (f = "numpy.add" ∨ f = "numpy.multiply") := by rintro (rfl | rfl) <;> cases hb
          exact ⟨noClash_call2 h1 np, by rw [treeBool_call _ _ h2, bp]⟩
        | rel c =>
          cases ht
          have step : ∀ f, f ∈ boolFns → ∀ l : List E, (∀ x ∈ l, NoClash Γ x) →
              NoClash Γ (E.callE f l) ∧ treeBool Γ (E.callE f l) = true := by
            intro f hf l hl
            have h1 : ¬ (f = "numpy.add" ∨ f = "numpy.subtract") := by rintro (rfl | rfl) <;> revert hf <;> decide
            have h2 : ¬ (f = "numpy.add" ∨ f = "numpy.multiply") := by rintro (rfl | rfl) <;> revert hf <;> decide
            refine ⟨noClash_call2 h1 hl, ?_⟩
            rw [treeBool_call _ _ h2]
            simp [boolResult, hf]
          cases c <;> simp only [relTree]
          · exact step _ (by decide) _ np
          · exact step _ (by decide) _ np
          · exact step _ (by decide) _ np
          · exact step _ (by decide) _ np
          · exact step _ (by decide) _ np
          · exact step _ (by decide) _ (by simp [(step "numpy.isin" (by decide) _ np).1])
        | land =>
          obtain ⟨_, hne, _⟩ := w.local
          have hne' : p' ≠ [] := by
            rintro rfl; exact hne (List.length_eq_zero_iff.1 lp.symm)
          obtain ⟨k1, k2⟩ := reduceT_logic (.inl rfl) _ p' hne' np t ht
          exact ⟨k1, by rw [k2, bp, lp]⟩
        | lor =>
          obtain ⟨_, hne, _⟩ := w.local
          have hne' : p' ≠ [] := by
            rintro rfl; exact hne (List.length_eq_zero_iff.1 lp.symm)
          obtain ⟨k1, k2⟩ := reduceT_logic (.inr rfl) _ p' hne' np t ht
          exact ⟨k1, by rw [k2, bp, lp]⟩
        | plus c =>
          simp only [Bool.and_eq_true, decide_eq_true_eq, Bool.not_eq_true', booleanL_eq] at fh
          obtain ⟨⟨cp, cn⟩, clash⟩ := fh
          rw [← bp] at cp clash ⊢
          rw [← bn] at cn clash
          rw [← hempty lp, ← hempty ln] at clash ⊢
          simp only [headTree] at ht
          -- the added terms and the constant
          obtain ⟨out, ho, n1, b1⟩ : ∃ out, posPart (reduceT "numpy.add" p'.length p') p' = .ok out ∧
              NoClash Γ (withConst "numpy.add" 0 c out) ∧ treeBool Γ (withConst "numpy.add" 0 c out) =
                (decide (c = 0) && !p'.isEmpty && (p'.map (treeBool Γ)).all id) := by
            by_cases hne : p' = []
            · subst hne
              exact ⟨none, rfl, noClash_const _, by simp [withConst, treeBool_const]⟩
            · cases hr : reduceT "numpy.add" p'.length p' with
              | error e =>
                unfold posPart at ht
                rw [if_neg (by simpa using hne), hr] at ht; cases ht
              | ok s =>
                obtain ⟨k1, k2⟩ := reduceT_add _ p' hne le_rfl np cp s hr
                refine ⟨some s, by unfold posPart; rw [if_neg (by simpa using hne)]; rfl, ?_⟩
                simp only [withConst]
                by_cases hc : c = 0
                · rw [if_pos hc]
                  refine ⟨k1, ?_⟩
                  rw [k2, decide_eq_true hc]
                  simp [hne]
                · rw [if_neg hc]
                  refine ⟨.call _ _ _ ?_ ?_, ?_⟩
                  · intro x hx
                    simp only [List.mem_cons, List.not_mem_nil, or_false] at hx
                    rcases hx with rfl | rfl
                    · exact k1
                    · exact noClash_const _
                  · intro _
                    simp [treeBoolL, treeBool_const]
                  · rw [treeBool_all _ _ (.inl rfl), decide_eq_false hc]
                    simp [treeBool_const]
          rw [ho] at ht
          change negPart _ _ _ _ = _ at ht
          unfold negPart at ht
          by_cases hne : n' = []
          · subst hne
            cases ht
            exact ⟨n1, by rw [b1]; simp⟩
          · rw [if_neg (by simpa using hne)] at ht
            cases hr : reduceT "numpy.add" n'.length n' with
            | error e => rw [hr] at ht; cases ht
            | ok d =>
              rw [hr] at ht
              cases ht
              obtain ⟨k1, k2⟩ := reduceT_add _ n' hne le_rfl nn cn d hr
              have hce : n'.isEmpty = false := by simpa using hne
              refine ⟨.call _ _ _ ?_ ?_, ?_⟩
              · intro x hx
                simp only [List.mem_cons, List.not_mem_nil, or_false] at hx
                rcases hx with rfl | rfl
                · exact n1
                · exact k1
              · intro _
                rw [hce] at clash
                rw [treeBoolL_eq, List.map_cons, List.map_cons, List.map_nil, b1, k2]
                rw [← clash]
                simp [Bool.and_assoc]
              · rw [treeBool_call _ _ (by decide), hce]
                simp [boolResult, boolFns, keepFns]
        | times c =>
          rw [← bp, ← hempty lp, ← hempty ln]
          simp only [headTree] at ht
          obtain ⟨out, ho, n1, b1⟩ : ∃ out, posPart (duplicatesT "numpy.multiply" p') p' = .ok out ∧
              NoClash Γ (withConst "numpy.multiply" 1 c out) ∧ treeBool Γ (withConst "numpy.multiply" 1 c out) =
                (decide (c = 1) && !p'.isEmpty && (p'.map (treeBool Γ)).all id) := by
            by_cases hne : p' = []
            · subst hne
              exact ⟨none, rfl, noClash_const _, by simp [withConst, treeBool_const]⟩
            · obtain ⟨s, hr, k1, k2⟩ := duplicatesT_bool hne np
              refine ⟨some s, by unfold posPart; rw [if_neg (by simpa using hne), hr]; rfl, ?_⟩
              simp only [withConst]
              by_cases hc : c = 1
              · rw [if_pos hc]
                refine ⟨k1, ?_⟩
                rw [k2, decide_eq_true hc]
                simp [hne]
              · rw [if_neg hc]
                refine ⟨noClash_call2 (by decide) (by simp [k1, noClash_const]), ?_⟩
                rw [treeBool_all _ _ (.inr rfl), decide_eq_false hc]
                simp [treeBool_const]
          rw [ho] at ht
          change negPart _ _ _ _ = _ at ht
          unfold negPart at ht
          by_cases hne : n' = []
          · subst hne
            cases ht
            exact ⟨n1, by rw [b1]; simp⟩
          · rw [if_neg (by simpa using hne)] at ht
            obtain ⟨d, hr, k1, k2⟩ := duplicatesT_bool hne nn
            rw [hr] at ht
            cases ht
            have hce : n'.isEmpty = false := by simpa using hne
            refine ⟨noClash_call2 (by decide) (by simp [n1, k1]), ?_⟩
            rw [treeBool_call _ _ (by decide), hce]
            simp [boolResult, boolFns, keepFns]
theorem totreeL_bool : ∀ (l : List E), (∀ x ∈ l, x.WF) → (∀ x ∈ l, x.All (RunHead more (plainField field))) →
    E.fairL Γ l = true → ∀ ts, totreeL l = .ok ts → (∀ t ∈ ts, NoClash Γ t) ∧
      ts.map (treeBool Γ) = l.map (E.boolean Γ)
  | [], _, _, _, ts, ht => by cases ht; simp
  | x :: xs, w, a, hf, ts, ht => by
    simp only [E.fairL, Bool.and_eq_true] at hf
    simp only [totreeL] at ht
    cases hx : totree x with
    | error e => rw [hx] at ht; cases ht
    | ok t =>
      rw [hx] at ht
      cases hxs : totreeL xs with
      | error e => rw [hxs] at ht; cases ht
      | ok ts' =>
        rw [hxs] at ht
        cases ht
        obtain ⟨k1, k2⟩ := totree_bool x (w x (by simp)) (a x (by simp)) hf.1 t hx
        obtain ⟨l1, l2⟩ := totreeL_bool xs (fun y hy => w y (by simp [hy])) (fun y hy => a y (by simp [hy])) hf.2 ts' hxs
        refine ⟨?_, by simp [k2, l2]⟩
        intro y hy
        rcases List.mem_cons.1 hy with rfl | hy
        · exact k1
        · exact l1 y hy
end

end Verif
