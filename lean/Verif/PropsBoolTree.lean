import Verif.BoolTreeLemmas
import Verif.PropsTree
import Verif.ExprPoly
import Mathlib.Data.List.Induction

/-!
# C113: boolean arrays in arithmetic

Property theorems.  `computedB` parses an expression, turns it into a tree of function calls and calculates
the tree on one row, as filling does, with data in which some fields are boolean.
-/

namespace Verif

/-- What filling computes for an expression on one row with boolean and numeric fields. -/
def computedB (more : More) (field : String → Bool ⊕ Option ℚ) (s : Py) : Except Err TVal := do
  let e ← parseExpr (plainScope recognized) s
  let t ← totree e
  calculate (boolLib more) (boolSymbols field) t.toT

/-! ## Where booleans count as 0 and 1 -/

/-- **C113** for every accepted expression whose sums, after like terms are collected, have at most one
boolean term on each side and are not a boolean minus a boolean (`E.fair`): on every row, filling computes
the value of the expression, with 0 and 1 for the boolean fields; and the result is boolean exactly where
the expression is a boolean field, a comparison, `isnan` and the like, or a product of these.  Missing: sums
of two booleans (`C113_refuted_flags`) and their differences (`C113_refuted_difference`). -/
theorem C113_fair_partial {more : More} {field : String → Bool ⊕ Option ℚ} (hm : Full more)
    (hk : KeepsTruth more) (s : Py) (e : E) (h : parseExpr (plainScope recognized) s = .ok e)
    (hr : s.runs inLibrary = true ∨ s.runsCond inLibrary (plainField field) true = true)
    (hf : e.fair (isFlagField field) = true) :
    ∃ w, computedB more field s = .ok w ∧ w.erase = .num (e.eval (treeEnv more (plainField field))) ∧
      w.isBool = e.boolean (isFlagField field) := by
  have ha : e.All (RunHead more (plainField field)) := by
    rcases hr with hr | hr
    · exact parse_ar runHead_ar runHead_log recognized true s e h (runs_ar hm s hr)
    · exact (parse_lo runHead_ar runHead_log recognized true s e h (runsCond_lo hm true s hr)).1 rfl
  obtain ⟨t, h1, h2⟩ := C52_tree_partial hm recognized s e h hr
  obtain ⟨n1, n2⟩ := totree_bool e (parse_wf recognized true s e h).1 ha hf t h1
  obtain ⟨w, w1, w2, w3⟩ := typed_calc hk t _ n1 h2
  refine ⟨w, ?_, w2, by rw [w3, n2]⟩
  unfold computedB
  rw [h]
  change (totree e >>= _) = _
  rw [h1]; exact w1

/-- Which functions give a boolean array, as NumPy documents them, for functions a user can write: the three
tests always do; absolute value, largest and smallest do for boolean arguments; `where` does if both
alternatives are boolean; every other function gives numbers (`ceil`, `floor` and `trunc` only before NumPy
2.1).  `fabs`, `fmax` and `fmin` stand for `numpy.absolute`, `maximum` and `minimum` here. -/
def givesFlags (f : String) (args : List Bool) : Bool :=
  match f with
  | "isfinite" | "isinf" | "isnan" => true
  | "abs" | "fabs" | "max" | "fmax" | "min" | "fmin" => decide (args ≠ []) && !args.contains false
  | "where" => match args with
    | [_, a, b] => a && b
    | _ => false
  | _ => false

theorem boolResult_givesFlags (f : String) (hf : recognized f = true) (args : List Bool) :
    boolResult f args = givesFlags f args := by
  have hall : ∀ l : List Bool, l.all id = !l.contains false := by
    intro l
    induction l with
    | nil => rfl
    | cons b l ih => cases b <;> simp [ih]
  have hemp : ∀ l : List Bool, (!l.isEmpty) = decide (l ≠ []) := by intro l; cases l <;> simp
  have hr : f ∈ recognizedNames := by simpa [recognized] using hf
  simp only [recognizedNames, List.mem_cons, List.not_mem_nil, or_false] at hr
  rcases hr with h | h | h | h | h | h | h | h | h | h | h | h | h | h | h | h | h | h | h | h | h | h | h | h |
    h | h | h | h | h | h | h | h | h | h | h | h | h | h | h | h | h | h | h | h | h | h | h | h | h | h | h |
    h | h <;> subst h <;>
    first
    | (simp [boolResult, boolFns, keepFns, givesFlags]; done)
    | (simp only [boolResult, boolFns, keepFns, givesFlags, hall, hemp]; simp; done)
    | (rcases args with _ | ⟨a, _ | ⟨b, _ | ⟨c, _ | ⟨d, l⟩⟩⟩⟩ <;> simp [boolResult, boolFns, keepFns, givesFlags])

/-- **C113** for a written function of fields: on every row the result is boolean exactly where the
documentation of the function says so. -/
theorem C113_functions {more : More} {field : String → Bool ⊕ Option ℚ} (hm : Full more)
    (hk : KeepsTruth more) (f : String) (hl : inLibrary f = true) (hf : recognized f = true)
    (l : List String) :
    ∃ w, computedB more field (.call f (l.map .name)) = .ok w ∧
      w.isBool = givesFlags f (l.map (isFlagField field)) := by
  have hr : (Py.call f (l.map .name)).runs inLibrary = true := by
    have : ∀ l : List String, Py.runsL inLibrary (l.map .name) = true := by
      intro l
      induction l with
      | nil => rfl
      | cons s l ih => simp [Py.runsL, Py.runs, ih]
    simp [Py.runs, hl, this]
  have hp : ∀ (l : List String) (b : Bool),
      Py.parseArgs (plainScope recognized) b (l.map .name) = .ok (l.map fun s => .node (.name s) [] []) := by
    intro l
    induction l with
    | nil => intro b; rfl
    | cons s l ih =>
      intro b
      simp only [List.map_cons, Py.parseArgs, ih]
      cases b <;> rfl
  have h : parseExpr (plainScope recognized) (.call f (l.map .name)) =
      .ok (.node (.call f) (l.map fun s => .node (.name s) [] []) []) := by
    simp only [parseExpr, Py.parse, plainScope, hf, if_true]
    have := hp l (f = "where")
    simp only [plainScope] at this
    rw [this]
    rfl
  have hb : E.booleanL (isFlagField field) (l.map fun s => .node (.name s) [] []) =
      l.map (isFlagField field) := by
    rw [booleanL_eq, List.map_map]
    apply List.map_congr_left
    intro s _
    simp [E.boolean]
  have hfair : E.fair (isFlagField field) (.node (.call f) (l.map fun s => .node (.name s) [] []) []) = true := by
    simp only [E.fair, E.fairL, Bool.and_true]
    rw [fairL_iff]
    intro x hx
    obtain ⟨s, _, rfl⟩ := List.mem_map.1 hx
    simp [E.fair, E.fairL]
  obtain ⟨w, w1, _, w3⟩ := C113_fair_partial hm hk _ _ h (.inl hr) hfair
  refine ⟨w, w1, ?_⟩
  rw [w3, ← boolResult_givesFlags f hf]
  simp [E.boolean, hb]

/-- **C113** from the written expression: arithmetic with quotients is computed to the value it is written
with. -/
theorem C113_written_partial {more : More} {field : String → Bool ⊕ Option ℚ} (hm : Full more)
    (hk : KeepsTruth more) (hp : PowLaw (treeEnv more (plainField field))) (s : Py)
    (h : s.safe recognized = true) (hr : s.runs inLibrary = true)
    (hd : s.AllDef (treeEnv more (plainField field)))
    (hf : ∀ e, parseExpr (plainScope recognized) s = .ok e → e.fair (isFlagField field) = true) :
    ∃ w, computedB more field s = .ok w ∧
      w.erase = .num (Py.val (treeEnv more (plainField field)) (plainField field) s) := by
  obtain ⟨e, h1, h2⟩ := C48_safe_partial hp recognized s h hd
  obtain ⟨w, w1, w2, _⟩ := C113_fair_partial hm hk s e h1 (.inl hr) (hf e h1)
  exact ⟨w, w1, by rw [w2, h2]; rfl⟩

/-! ## Numbers only -/

/-- What an expression without booleans mentions: numeric fields and functions that give numbers. -/
def NumHead (Γ : String → Bool) : Head → Prop
  | .name s => Γ s = false
  | .call f => f ∉ boolFns
  | .binop f => f ∉ boolFns
  | .pred _ _ => False
  | .rel _ => False
  | .cset _ => False
  | _ => True

mutual
theorem numHead_not_boolean {Γ : String → Bool} : ∀ e : E, e.WF → e.All (NumHead Γ) →
    (e.head ≠ .land ∧ e.head ≠ .lor → e.boolean Γ = false) ∧ e.head ≠ .land ∧ e.head ≠ .lor ∧ e.fair Γ = true
  | .node h p n, w, a => by
    have ip := numHeadL_not_boolean p w.pos a.pos
    have jn := numHeadL_not_boolean n w.neg a.neg
    have all_false : ∀ l : List E, l ≠ [] → (∀ x ∈ l, x.boolean Γ = false) → (l.map (E.boolean Γ)).all id = false := by
      intro l hl hx
      cases l with
      | nil => exact absurd rfl hl
      | cons x l => simp [hx x (by simp)]
    have cnt : ∀ l : List E, (∀ x ∈ l, x.boolean Γ = false) → (l.map (E.boolean Γ)).count true = 0 := by
      intro l hx
      rw [List.count_eq_zero]
      intro hm
      obtain ⟨x, h1, h2⟩ := List.mem_map.1 hm
      rw [hx x h1] at h2; cases h2
    have nland : h ≠ .land := by
      rintro rfl
      obtain ⟨_, hne, hlit⟩ := w.local
      obtain ⟨x, hx⟩ := List.exists_mem_of_ne_nil p hne
      have hl := hlit x hx
      have hx' := a.pos x hx
      obtain ⟨hd, px, nx⟩ := x
      have := hx'.head
      cases hd <;> simp [E.isLit] at hl <;> exact this
    have nlor : h ≠ .lor := by
      rintro rfl
      obtain ⟨_, hne, hland⟩ := w.local
      obtain ⟨x, hx⟩ := List.exists_mem_of_ne_nil p hne
      exact (ip x hx).2.1 (hland x hx)
    have bf : ∀ x ∈ p, x.boolean Γ = false := fun x hx => (ip x hx).1 ⟨(ip x hx).2.1, (ip x hx).2.2.1⟩
    have bn : ∀ x ∈ n, x.boolean Γ = false := fun x hx => (jn x hx).1 ⟨(jn x hx).2.1, (jn x hx).2.2.1⟩
    have notAll : (!p.isEmpty && (p.map (E.boolean Γ)).all id) = false := by
      by_cases hp : p = []
      · subst hp; rfl
      · rw [all_false p hp bf, Bool.and_false]
    have call : ∀ f, f ∉ boolFns → boolResult f (p.map (E.boolean Γ)) = false := by
      intro f hf
      unfold boolResult
      rw [if_neg hf]
      split_ifs
      · by_cases hp : p = []
        · subst hp; rfl
        · rw [all_false p hp bf, Bool.and_false]
      · by_cases h3 : p.length = 3
        · obtain ⟨x, y, z, rfl⟩ : ∃ x y z, p = [x, y, z] := by
            match p, h3 with
            | [x, y, z], _ => exact ⟨x, y, z, rfl⟩
          simp [bf y (by simp)]
        · simp [h3]
      · rfl
    refine ⟨fun _ => ?_, nland, nlor, ?_⟩
    · simp only [E.boolean, booleanL_eq]
      cases h with
      | const => rfl
      | cset => rfl
      | name s => exact a.head
      | pred => exact a.head.elim
      | rel => exact a.head.elim
      | call f => exact call f a.head
      | binop f => exact call f a.head
      | land => exact absurd rfl nland
      | lor => exact absurd rfl nlor
      | plus c => simp only; rw [Bool.and_assoc, notAll, Bool.and_false]
      | times c => simp only; rw [Bool.and_assoc, notAll, Bool.and_false]
    · have fp : E.fairL Γ p = true := (fairL_iff Γ p).2 fun x hx => (ip x hx).2.2.2
      have fn : E.fairL Γ n = true := (fairL_iff Γ n).2 fun x hx => (jn x hx).2.2.2
      cases h with
      | plus c =>
        simp only [E.fair, fp, fn, booleanL_eq, cnt p bf, cnt n bn]
        by_cases hp : p = []
        · subst hp; simp
        · rw [all_false p hp bf]; simp
      | _ => simp [E.fair, fp, fn]
theorem numHeadL_not_boolean {Γ : String → Bool} : ∀ l : List E, (∀ x ∈ l, x.WF) → (∀ x ∈ l, x.All (NumHead Γ)) →
    ∀ x ∈ l, (x.head ≠ .land ∧ x.head ≠ .lor → x.boolean Γ = false) ∧ x.head ≠ .land ∧ x.head ≠ .lor ∧
      x.fair Γ = true
  | [], _, _ => by simp
  | y :: ys, w, a => by
    intro x hx
    rcases List.mem_cons.1 hx with h | hx
    · have := numHead_not_boolean y (w y (by simp)) (a y (by simp))
      rw [h]; exact this
    · exact numHeadL_not_boolean ys (fun z hz => w z (by simp [hz])) (fun z hz => a z (by simp [hz])) x hx
end

/-- **C113** for arithmetic on numeric fields without `isnan`, `isinf` and `isfinite`: the other fields
may be boolean or not, the computed value is the one in the model without types (C52), and a number. -/
theorem C113_numeric_partial {more : More} {field : String → Bool ⊕ Option ℚ} (hm : Full more)
    (hk : KeepsTruth more) (s : Py) (e : E) (h : parseExpr (plainScope recognized) s = .ok e)
    (hr : s.runs inLibrary = true) (hn : s.Ar (NumHead (isFlagField field))) :
    computedB more field s = .ok (.num (e.eval (treeEnv more (plainField field)))) ∧
    computed more (plainField field) s = .ok (.num (e.eval (treeEnv more (plainField field)))) := by
  refine ⟨?_, computed_of hm h (.inl hr) rfl⟩
  have ha : e.All (NumHead (isFlagField field)) :=
    parse_ar ⟨fun _ => trivial, fun _ => trivial, fun _ => trivial⟩ ⟨trivial, trivial⟩ recognized true s e h hn
  obtain ⟨k1, k2, k3, k4⟩ := numHead_not_boolean e (parse_wf recognized true s e h).1 ha
  obtain ⟨w, w1, w2, w3⟩ := C113_fair_partial hm hk s e h (.inl hr) k4
  rw [k1 ⟨k2, k3⟩] at w3
  cases w with
  | bool b => simp [TVal.isBool] at w3
  | obj c => simp [TVal.erase] at w2
  | num v => simp only [TVal.erase, RowVal.num.injEq] at w2; rw [w1, w2]

/-! ## Sums of flags -/

/-- `a + b + c + …` as it is written. -/
def flagSum (a : String) (l : List String) : Py := l.foldl (fun s b => .bin .add s (.name b)) (.name a)

/-- The term of one field. -/
def nameTerm (s : String) : Mono := ⟨1, [E.name s], []⟩

theorem nameTerm_inj : Function.Injective nameTerm := by
  intro a b h
  simpa [nameTerm, E.name] using h

theorem mergeTerm_new {x : Mono} {l : List Mono} (h : ∀ y ∈ l, x.similar y = false) : mergeTerm x l = l ++ [x] := by
  induction l with
  | nil => rfl
  | cons y l ih =>
    simp only [mergeTerm, h y (by simp)]
    rw [if_neg (by simp), ih fun z hz => h z (by simp [hz])]
    rfl

theorem fold_names (c : ℚ) : ∀ (l acc : List String), (acc ++ l).Nodup →
    (l.map nameTerm).foldl addTerm (c, acc.map nameTerm) = (c, (acc ++ l).map nameTerm)
  | [], acc, _ => by simp
  | s :: l, acc, hn => by
    have h1 : addTerm (c, acc.map nameTerm) (nameTerm s) = (c, (acc ++ [s]).map nameTerm) := by
      unfold addTerm
      rw [if_neg (by simp [nameTerm]), if_neg (by simp [nameTerm])]
      simp only
      rw [mergeTerm_new, List.map_append]
      · rfl
      · intro y hy
        obtain ⟨t, ht, rfl⟩ := List.mem_map.1 hy
        rw [← Bool.not_eq_true, similar_key]
        intro h
        have : s = t := by simpa [Mono.key, nameTerm, E.name] using h
        subst this
        have := (List.nodup_append.1 hn).2.2 s ht s (by simp)
        exact this rfl
    rw [List.map_cons, List.foldl_cons, h1]
    have := fold_names c l (acc ++ [s]) (by simpa using hn)
    rw [this]
    simp

theorem collect_names {l : List String} (hn : l.Nodup) :
    (⟨0, l.map nameTerm, []⟩ : Poly).collect = .ok ⟨0, sortM (l.map nameTerm), []⟩ := by
  unfold Poly.collect
  rw [mapM_cancel_self (l := l.map nameTerm)]
  · have h := fold_names 0 l [] (by simpa using hn)
    simp only [List.map_nil, List.nil_append] at h
    change Except.ok (splitTerms ((l.map nameTerm).foldl addTerm (0, [])).1
      ((l.map nameTerm).foldl addTerm (0, [])).2) = _
    rw [h]
    congr 1
    simp only [splitTerms]
    have h1 : (l.map nameTerm).filter (fun x => decide (0 < x.c)) = l.map nameTerm := by
      rw [List.filter_eq_self]
      intro x hx
      obtain ⟨t, _, rfl⟩ := List.mem_map.1 hx
      simp [nameTerm]
    have h2 : (l.map nameTerm).filter (fun x => decide (x.c < 0)) = [] := by
      rw [List.filter_eq_nil_iff]
      intro x hx
      obtain ⟨t, _, rfl⟩ := List.mem_map.1 hx
      simp only [nameTerm, decide_eq_true_eq, not_lt]
      norm_num
    rw [h1, h2]
    rfl
  · intro m hm
    obtain ⟨t, _, rfl⟩ := List.mem_map.1 hm
    rfl

/-- The sum of different fields, as it is parsed. -/
def nameSum (l : List String) : E := Poly.simplify ⟨0, sortM (l.map nameTerm), []⟩

theorem nameSum_one (a : String) : nameSum [a] = E.name a := by
  have : sortM [nameTerm a] = [nameTerm a] := rfl
  unfold nameSum
  rw [List.map_cons, List.map_nil, this]
  simp [Poly.simplify, Mono.simplify, nameTerm]

theorem nameSum_more {l : List String} (h : 2 ≤ l.length) :
    nameSum l = Poly.toE ⟨0, sortM (l.map nameTerm), []⟩ := by
  have hl : 2 ≤ (sortM (l.map nameTerm)).length := by
    rw [(sortM_perm _).length_eq]; simpa using h
  unfold nameSum Poly.simplify
  simp only
  split
  · rename_i h1 _; rw [h1] at hl; simp at hl
  · rename_i h1 _; rw [h1] at hl; simp at hl
  · rename_i h2; simp at h2
  · rfl

theorem nameSum_facts {l : List String} (h : l ≠ []) :
    (nameSum l).asPoly = ⟨0, sortM (l.map nameTerm), []⟩ ∧ (nameSum l).constVal = none ∧
      (nameSum l).setOf = none := by
  match l, h with
  | [a], _ =>
    rw [nameSum_one]
    exact ⟨basic_asPoly rfl, rfl, rfl⟩
  | a :: b :: l, _ =>
    rw [nameSum_more (by simp)]
    exact ⟨Poly.toE_asPoly _, rfl, rfl⟩

theorem flagSum_snoc (a : String) (l : List String) (b : String) :
    flagSum a (l ++ [b]) = .bin .add (flagSum a l) (.name b) := by
  simp [flagSum, List.foldl_append]

theorem flagSum_parse (a : String) (l : List String) (hn : (a :: l).Nodup) (rel : Bool) :
    Py.parse (plainScope recognized) rel (flagSum a l) = .ok (nameSum (a :: l)) := by
  induction l using List.reverseRecOn generalizing rel with
  | nil =>
    rw [nameSum_one]
    cases rel <;> rfl
  | append_singleton l b ih =>
    have hn' : (a :: l).Nodup := by
      rw [← List.cons_append] at hn
      exact (List.nodup_append.1 hn).1
    obtain ⟨f1, f2, f3⟩ := nameSum_facts (l := a :: l) (by simp)
    rw [flagSum_snoc]
    simp only [Py.parse]
    rw [ih hn' false]
    change binary .add (nameSum (a :: l)) (E.name b) = _
    unfold binary
    rw [f2]
    simp only
    have hs : (E.name b).setOf = none := rfl
    have hc : (E.name b).constVal = none := rfl
    rw [f3, hs, hc, f1, basic_asPoly (e := E.name b) rfl]
    simp only [Option.isSome_none, Bool.or_self, Bool.and_self, Bool.false_eq_true, if_false, or_self]
    have hcomb : Poly.combine ⟨0, sortM ((a :: l).map nameTerm), []⟩ ⟨0, [⟨1, [E.name b], []⟩], []⟩ =
        Poly.collect ⟨0, (a :: (l ++ [b])).map nameTerm, []⟩ := by
      unfold Poly.combine
      refine collect_perm (by simp) ?_ ?_
      · simp only
        refine (sortM_perm _).trans ?_
        have : (a :: (l ++ [b])).map nameTerm = (a :: l).map nameTerm ++ [nameTerm b] := by simp
        rw [this]
        exact (sortM_perm _).append_right _
      · exact List.Perm.refl _
    rw [hcomb, collect_names hn]
    rfl

/-- What a tree of booleans calculates to. -/
def flagVal (more : More) (field : String → Bool ⊕ Option ℚ) (t : E) : Option ℚ :=
  match calculate (boolLib more) (boolSymbols field) t.toT with
  | .ok (.bool b) => ofBool b
  | _ => none

theorem nameTerm_tree (l : List Mono) (h : ∀ m ∈ l, ∃ s, m = nameTerm s) :
    ∃ ns : List String, l = ns.map nameTerm ∧ totreeL (l.map Mono.toE) = .ok (ns.map E.name) := by
  induction l with
  | nil => exact ⟨[], rfl, rfl⟩
  | cons m l ih =>
    obtain ⟨s, rfl⟩ := h m (by simp)
    obtain ⟨ns, h1, h2⟩ := ih fun x hx => h x (by simp [hx])
    refine ⟨s :: ns, by rw [h1]; rfl, ?_⟩
    have : totree (nameTerm s).toE = .ok (E.name s) := rfl
    simp only [List.map_cons, totreeL]
    rw [this, h2]; rfl

/-- **C113** fails for sums of boolean fields: whatever the fields, two or more, `a + b + c + …` is computed
to whether any of them is set, and is itself boolean, not the number of those that are set. -/
theorem C113_refuted_flags (more : More) (field : String → Bool ⊕ Option ℚ) (flag : String → Bool)
    (a : String) (l : List String) (hn : (a :: l).Nodup) (hf : ∀ s ∈ a :: l, field s = .inl (flag s)) :
    computedB more field (flagSum a l) = .ok (.bool ((a :: l).any flag)) := by
  have name_val : ∀ s ∈ a :: l, calculate (boolLib more) (boolSymbols field) (E.name s).toT =
      .ok (.bool (flag s)) := by
    intro s hs
    change boolSymbols field s = _
    unfold boolSymbols
    rw [hf s hs]
  unfold computedB
  have hp : parseExpr (plainScope recognized) (flagSum a l) = _ := flagSum_parse a l hn true
  rw [hp]
  change (totree (nameSum (a :: l)) >>= _) = _
  by_cases hl : l = []
  · subst hl
    rw [nameSum_one]
    change calculate (boolLib more) (boolSymbols field) (E.name a).toT = _
    rw [name_val a (by simp)]
    simp
  · have h2 : 2 ≤ (a :: l).length := by
      cases l with
      | nil => exact absurd rfl hl
      | cons => simp
    rw [nameSum_more h2]
    obtain ⟨ns, n1, n2⟩ := nameTerm_tree (sortM ((a :: l).map nameTerm)) (by
      intro m hm
      obtain ⟨s, _, rfl⟩ := List.mem_map.1 ((sortM_perm _).mem_iff.1 hm)
      exact ⟨s, rfl⟩)
    have hperm : ns.Perm (a :: l) := by
      have := sortM_perm ((a :: l).map nameTerm)
      rw [n1] at this
      exact (List.map_perm_map_iff nameTerm_inj).1 this
    have hne : ns ≠ [] := by
      rintro rfl
      exact absurd hperm.symm.eq_nil (by simp)
    have hacts : Acts (fun t => ∃ b, calculate (boolLib more) (boolSymbols field) t.toT = .ok (.bool b))
        (flagVal more field) "numpy.add" (fun x y => ofBool (truth x || truth y)) := by
      rintro x y ⟨b, hb⟩ ⟨c, hc⟩
      have : calculate (boolLib more) (boolSymbols field) (E.callE "numpy.add" [x, y]).toT = .ok (.bool (b || c)) := by
        have hfn : (boolLib more).fn "numpy.add" =
            some (typedFn "numpy.add" (ufunc2 fun a b => do return (← a) + (← b))) := rfl
        simp only [E.toT, E.toTL, calculate, calculateL, hfn, hb, hc]
        rfl
      refine ⟨⟨_, this⟩, ?_⟩
      simp only [flagVal, this, hb, hc, truth_ofBool]
    obtain ⟨t, t1, ⟨b, tb⟩, t3⟩ := reduceT_gen hacts orLaw ns.length (ns.map E.name) (by simpa using hne)
      (by simp) (by
        intro x hx
        obtain ⟨s, hs, rfl⟩ := List.mem_map.1 hx
        exact ⟨_, name_val s (hperm.mem_iff.1 hs)⟩) (by
        intro x hx
        obtain ⟨s, hs, rfl⟩ := List.mem_map.1 hx
        simp only [flagVal, name_val s (hperm.mem_iff.1 hs)]
        simp [truth_ofBool])
    have htree : totree (Poly.toE ⟨0, sortM ((a :: l).map nameTerm), []⟩) = .ok t := by
      simp only [Poly.toE, totree, List.map_nil, totreeL]
      rw [n2]
      change headTree (.plus 0) (ns.map E.name) [] = _
      simp only [headTree, posPart, List.length_map]
      rw [if_neg (by simpa using hne), t1]
      rfl
    rw [htree]
    change calculate (boolLib more) (boolSymbols field) t.toT = _
    rw [tb]
    have hb : ofBool b = ofBool ((a :: l).any flag) := by
      have : flagVal more field t = ofBool b := by simp only [flagVal, tb]
      rw [← this, t3, List.map_map]
      congr 1
      rw [List.any_map]
      have hany : ns.any (truth ∘ flagVal more field ∘ E.name) = ns.any flag := by
        have hc : ∀ s ∈ ns, (truth ∘ flagVal more field ∘ E.name) s = flag s := by
          intro s hs
          simp only [Function.comp, flagVal, name_val s (hperm.mem_iff.1 hs), truth_ofBool]
        rw [Bool.eq_iff_iff, List.any_eq_true, List.any_eq_true]
        constructor
        · rintro ⟨s, hs, h⟩; exact ⟨s, hs, by rw [← hc s hs]; exact h⟩
        · rintro ⟨s, hs, h⟩; exact ⟨s, hs, by rw [hc s hs]; exact h⟩
      rw [hany]
      exact hperm.any_eq
    rw [ofBool_inj hb]

/-- What the sum is written to be: the number of fields that are set. -/
theorem flagSum_val (env : RowEnv) (flag : String → Bool) (a : String) (l : List String)
    (hf : ∀ s ∈ a :: l, env.field s = ofBool (flag s)) :
    Py.val env env.field (flagSum a l) = some ((a :: l).countP flag : ℚ) := by
  induction l using List.reverseRecOn with
  | nil =>
    change env.field a = _
    rw [hf a (by simp)]
    cases h : flag a <;> simp [ofBool, h]
  | append_singleton l b ih =>
    rw [flagSum_snoc]
    have h1 := ih fun s hs => hf s (by
      rcases List.mem_cons.1 hs with rfl | h
      · simp
      · simp [h])
    simp only [Py.val]
    rw [h1, hf b (by simp), ← List.cons_append, List.countP_append]
    cases hb : flag b <;> simp [PyOp.sem, ofBool, hb]

/-- Two flags that are set: the sum is written to be 2 and computed to be `True`. -/
example : Py.val (treeEnv treeMore (plainField fun _ => .inl true)) (plainField fun _ => .inl true) (flagSum "b" ["a"]) =
      some 2 ∧
    computedB treeMore (fun _ => .inl true) (flagSum "b" ["a"]) = .ok (.bool true) := by decide +kernel

/-- **C113** fails for the difference of two boolean fields, which raises TypeError. -/
theorem C113_refuted_difference (more : More) (field : String → Bool ⊕ Option ℚ) (a b : String) (hab : a ≠ b)
    (x y : Bool) (ha : field a = .inl x) (hb : field b = .inl y) :
    computedB more field (.bin .sub (.name a) (.name b)) = .error .typeError := by
  have hne : (nameTerm b).opp.similar (nameTerm a) = false := by
    rw [← Bool.not_eq_true, similar_key]
    intro h
    have : b = a := by simpa [Mono.key, nameTerm, Mono.opp, E.name] using h
    exact hab this.symm
  have hcol : Poly.combine ⟨0, [nameTerm a], []⟩ ⟨-0, [], [nameTerm b]⟩ =
      .ok ⟨0, [nameTerm a], [nameTerm b]⟩ := by
    have s1 : ∀ m : Mono, sortM [m] = [m] := fun _ => rfl
    have s0 : sortM [] = [] := rfl
    unfold Poly.combine Poly.collect
    simp only [List.append_nil, List.nil_append, s1]
    rw [mapM_cancel_self (l := [nameTerm a]) (by simp [nameTerm]),
      mapM_cancel_self (l := [nameTerm b]) (by simp [nameTerm])]
    have f1 : addTerm (0 + -0, []) (nameTerm a) = (0, [nameTerm a]) := by
      unfold addTerm
      rw [if_neg (by simp [nameTerm]), if_neg (by simp [nameTerm])]
      simp [mergeTerm]
    have f2 : addTerm (0, [nameTerm a]) (nameTerm b).opp = (0, [nameTerm a, (nameTerm b).opp]) := by
      unfold addTerm
      rw [if_neg (by simp [nameTerm, Mono.opp]), if_neg (by simp [nameTerm, Mono.opp])]
      simp [mergeTerm, hne]
    change Except.ok (splitTerms (addTerm (addTerm (0 + -0, []) (nameTerm a)) (nameTerm b).opp).1
      (addTerm (addTerm (0 + -0, []) (nameTerm a)) (nameTerm b).opp).2) = _
    rw [f1, f2]
    have p1 : (0 : ℚ) < (nameTerm a).c := by simp [nameTerm]
    have p2 : ¬ (0 : ℚ) < (nameTerm b).opp.c := by simp only [nameTerm, Mono.opp]; norm_num
    have p3 : ¬ (nameTerm a).c < 0 := by simp only [nameTerm]; norm_num
    have p4 : (nameTerm b).opp.c < 0 := by simp only [nameTerm, Mono.opp]; norm_num
    simp only [splitTerms, List.filter_cons, List.filter_nil, decide_eq_true p1, decide_eq_false p2,
      decide_eq_false p3, decide_eq_true p4]
    simp only [if_true, Bool.false_eq_true, if_false, List.map_cons, List.map_nil, s1]
    simp [Mono.opp, nameTerm]
  have hp : parseExpr (plainScope recognized) (.bin .sub (.name a) (.name b)) =
      .ok (Poly.toE ⟨0, [nameTerm a], [nameTerm b]⟩) := by
    change binary .sub (E.name a) (E.name b) = _
    have b1 : binary .sub (E.name a) (E.name b) =
        (Poly.combine (E.name a).asPoly (E.name b).asPoly.negate).map Poly.simplify := rfl
    rw [b1, basic_asPoly (e := E.name a) rfl, basic_asPoly (e := E.name b) rfl]
    change (Poly.combine ⟨0, [nameTerm a], []⟩ ⟨-0, [], [nameTerm b]⟩).map Poly.simplify = _
    rw [hcol]; rfl
  unfold computedB
  rw [hp]
  have ht : totree (Poly.toE ⟨0, [nameTerm a], [nameTerm b]⟩) =
      .ok (E.callE "numpy.subtract" [E.name a, E.name b]) := rfl
  change (totree (Poly.toE ⟨0, [nameTerm a], [nameTerm b]⟩) >>= fun t =>
    calculate (boolLib more) (boolSymbols field) t.toT) = _
  rw [ht]
  have va : boolSymbols field a = .ok (.bool x) := by unfold boolSymbols; rw [ha]
  have vb : boolSymbols field b = .ok (.bool y) := by unfold boolSymbols; rw [hb]
  change calculate (boolLib more) (boolSymbols field) (.call "numpy.subtract" [.name a, .name b]) = _
  have hfn : (boolLib more).fn "numpy.subtract" =
      some (typedFn "numpy.subtract" (ufunc2 fun a b => do return (← a) - (← b))) := rfl
  simp only [calculate, calculateL, hfn, va, vb]
  rfl

/-- A row with the flags `a`, `b` and `z` set and the numbers `x = 3` and `y = 4`. -/
def exFlags (s : String) : Bool ⊕ Option ℚ :=
  if s = "x" then .inr (some 3) else if s = "y" then .inr (some 4) else .inl true

/-- A library with `isnan`, `max` and `where`. -/
def flagMore : More := fun f =>
  if f = "isnan" then some fun vs => ofBool (decide (vs.head? = some none))
  else if f = "where" then some fun vs => match vs with | [c, y, n] => if truth c then y else n | _ => none
  else if f = "max" then some fun vs => match vs with | [some x, some y] => some (max x y) | _ => some 0
  else if f ∈ boolFns ∨ f ∈ keepFns then some fun _ => some 0
  else if f ∈ libraryNames then some fun _ => some 5
  else none

/-- **C113**: the value of a sum depends on the names of the fields.  With two flags and two numbers,
`a + b + x + y` is 8 on a row with both flags set and `x = 3`, `y = 4`, because `a` and `b` are added first;
`a + x + y + z` is 9. -/
theorem C113_refuted_names :
    computedB treeMore exFlags (flagSum "a" ["b", "x", "y"]) = .ok (.num (some 8)) ∧
    computedB treeMore exFlags (flagSum "a" ["z", "x", "y"]) = .ok (.num (some 9)) := by decide +kernel

/-- **C113**: adding a flag to itself gives 2, adding it to its square 1; adding the results of two `isnan`
gives a truth value. -/
theorem C113_refuted_square :
    computedB treeMore exFlags (.bin .add (.name "a") (.name "a")) = .ok (.num (some 2)) ∧
    computedB treeMore exFlags (.bin .add (.name "a") (.bin .mul (.name "a") (.name "a"))) = .ok (.bool true) ∧
    computedB flagMore (fun _ => .inr none)
      (.bin .add (.call "isnan" [.name "x"]) (.call "isnan" [.name "y"])) = .ok (.bool true) := by
  decide +kernel

/-! ## Examples -/

theorem flagMore_full : Full flagMore := by
  have h : ∀ f ∈ libraryNames, (flagMore f).isSome = true := by decide +kernel
  exact h

theorem flagMore_keeps : KeepsTruth flagMore := by
  intro f g bs vs hf hb hv
  unfold flagMore at hf
  split_ifs at hf with h1 h2 h3 h4 h5
  · cases hf; exact isTruth_ofBool _
  · subst h2
    cases hf
    have hb' : bs.length = 3 ∧ (bs.drop 1).all id = true := by
      have : boolResult "where" bs = (decide (bs.length = 3) && (bs.drop 1).all id) := rfl
      rw [this] at hb; simpa using hb
    obtain ⟨a, b, c, rfl⟩ : ∃ a b c, bs = [a, b, c] := by
      match bs, hb'.1 with
      | [a, b, c], _ => exact ⟨a, b, c, rfl⟩
    simp only [List.drop_succ_cons, List.drop_zero, List.all_cons, List.all_nil, id, Bool.and_true,
      Bool.and_eq_true] at hb'
    cases hv with
    | cons _ hv =>
      cases hv with
      | cons hy hv =>
        cases hv with
        | cons hn hv =>
          cases hv
          simp only
          split_ifs
          · exact hy hb'.2.1
          · exact hn hb'.2.2
  · subst h3
    cases hf
    simp only
    split
    · rename_i x y
      have hb' : (!bs.isEmpty && bs.all id) = true := hb
      cases hv with
      | cons hx hv =>
        cases hv with
        | cons hy hv =>
          cases hv
          simp only [List.isEmpty_cons, Bool.not_false, Bool.true_and, List.all_cons, List.all_nil, id,
            Bool.and_true, Bool.and_eq_true] at hb'
          rcases hx hb'.1 with h | h <;> rcases hy hb'.2 with k | k <;>
            simp only [Option.some.injEq] at h k <;> subst h <;> subst k <;> simp [IsTruth]
    · exact .inl rfl
  · cases hf; exact .inl rfl
  · exfalso
    simp only [not_or] at h4
    unfold boolResult at hb
    rw [if_neg h4.1, if_neg h4.2, if_neg h2] at hb
    cases hb

/-- `C113_fair_partial` and `C113_written_partial` apply to `x * a + y * b + a * b + 2`: it has one boolean
term, `a * b`. -/
def exFair : Py :=
  .bin .add (.bin .add (.bin .add (.bin .mul (.name "x") (.name "a")) (.bin .mul (.name "y") (.name "b")))
    (.bin .mul (.name "a") (.name "b"))) (.num 2)

example : ((parseExpr (plainScope recognized) exFair).toOption.map (E.fair (isFlagField exFlags))) = some true ∧
    exFair.runs inLibrary = true ∧ exFair.safe recognized = true ∧
    computedB flagMore exFlags exFair = .ok (.num (some 10)) := by decide +kernel

/-- `max(a, b) * x - isnan(y)` on the same row. -/
example : computedB flagMore exFlags
    (.bin .sub (.bin .mul (.call "max" [.name "a", .name "b"]) (.name "x")) (.call "isnan" [.name "y"])) =
      .ok (.num (some 3)) := by decide +kernel

/-- `C113_functions` on the same row: the largest of two flags is a flag, `sqrt` of one is not, and the functions are
in the library. -/
example : (["max", "abs", "sqrt", "isnan"].all fun f => inLibrary f && recognized f) = true ∧
    computedB flagMore exFlags (.call "max" [.name "a", .name "b"]) = .ok (.bool true) ∧
    givesFlags "max" (["a", "b"].map (isFlagField exFlags)) = true ∧ givesFlags "abs" [isFlagField exFlags "x"] = false ∧
    givesFlags "sqrt" [isFlagField exFlags "a"] = false := by decide +kernel

/-- `C113_numeric_partial` applies to `x * y - 1` on a row that also has flags. -/
example : (Py.bin .sub (.bin .mul (.name "x") (.name "y")) (.num 1)).Ar (NumHead (isFlagField exFlags)) ∧
    computedB flagMore exFlags (.bin .sub (.bin .mul (.name "x") (.name "y")) (.num 1)) = .ok (.num (some 11)) := by
  refine ⟨⟨fun h => by simp [PyOp.stays] at h, ⟨fun h => by simp [PyOp.stays] at h, ?_, ?_⟩, trivial⟩, ?_⟩
  · change isFlagField exFlags "x" = false
    decide +kernel
  · change isFlagField exFlags "y" = false
    decide +kernel
  · decide +kernel

end Verif
