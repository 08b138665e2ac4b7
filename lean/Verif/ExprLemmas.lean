import Verif.ExprOrder
import Verif.SpecExpr
import Mathlib.Algebra.BigOperators.Group.List.Basic
import Mathlib.Algebra.BigOperators.Ring.List
import Mathlib.Tactic.Ring
import Mathlib.Tactic.FieldSimp

/-!
# Values of normal forms

Lemmas: what the ring algebra of expr.py does to the value of an expression.
-/

namespace Verif

/-- The expression has a value on this row. -/
def E.D (env : RowEnv) (e : E) : Prop := (e.eval env).isSome = true

/-- The value, if there is one. -/
def E.v (env : RowEnv) (e : E) : ℚ := (e.eval env).getD 0

theorem E.eval_of_D {env : RowEnv} {e : E} (h : e.D env) : e.eval env = some (e.v env) := by
  unfold E.D at h; unfold E.v
  cases h' : e.eval env <;> simp_all

theorem E.D_v_of_eval {env : RowEnv} {e : E} {x : ℚ} (h : e.eval env = some x) :
    e.D env ∧ e.v env = x := by
  unfold E.D E.v; simp [h]

theorem E.evalL_eq (env : RowEnv) (l : List E) : E.evalL env l = l.map (E.eval env) := by
  induction l with
  | nil => rfl
  | cons x xs ih => simp [E.evalL, ih]

theorem prodO_map {env : RowEnv} {l : List E} (h : ∀ x ∈ l, x.D env) :
    prodO (l.map (E.eval env)) = some ((l.map (E.v env)).prod) := by
  induction l with
  | nil => rfl
  | cons x xs ih =>
    simp only [List.map_cons, prodO, List.prod_cons]
    rw [E.eval_of_D (h x (by simp)), ih (fun y hy => h y (by simp [hy]))]; rfl

theorem sumO_map {env : RowEnv} {l : List E} (h : ∀ x ∈ l, x.D env) :
    sumO (l.map (E.eval env)) = some ((l.map (E.v env)).sum) := by
  induction l with
  | nil => rfl
  | cons x xs ih =>
    simp only [List.map_cons, sumO, List.sum_cons]
    rw [E.eval_of_D (h x (by simp)), ih (fun y hy => h y (by simp [hy]))]; rfl

theorem prodO_some {env : RowEnv} {l : List E} {v : ℚ} (h : prodO (l.map (E.eval env)) = some v) :
    ∀ x ∈ l, x.D env := by
  induction l generalizing v with
  | nil => simp
  | cons x xs ih =>
    simp only [List.map_cons, prodO] at h
    cases h1 : E.eval env x with
    | none => simp [h1] at h
    | some a =>
      cases h2 : prodO (xs.map (E.eval env)) with
      | none => simp [h1, h2] at h
      | some b =>
        intro y hy
        rcases List.mem_cons.1 hy with rfl | hy
        · unfold E.D; simp [h1]
        · exact ih h2 y hy

theorem sumO_some {env : RowEnv} {l : List E} {v : ℚ} (h : sumO (l.map (E.eval env)) = some v) :
    ∀ x ∈ l, x.D env := by
  induction l generalizing v with
  | nil => simp
  | cons x xs ih =>
    simp only [List.map_cons, sumO] at h
    cases h1 : E.eval env x with
    | none => simp [h1] at h
    | some a =>
      cases h2 : sumO (xs.map (E.eval env)) with
      | none => simp [h1, h2] at h
      | some b =>
        intro y hy
        rcases List.mem_cons.1 hy with rfl | hy
        · unfold E.D; simp [h1]
        · exact ih h2 y hy

/-- The product has a value: all factors have one, and the denominator is not zero. -/
def Mono.D (env : RowEnv) (m : Mono) : Prop :=
  (∀ x ∈ m.pos, x.D env) ∧ (∀ x ∈ m.neg, x.D env) ∧ (m.neg.map (E.v env)).prod ≠ 0

/-- The value of a product. -/
def Mono.v (env : RowEnv) (m : Mono) : ℚ :=
  m.c * ((m.pos.map (E.v env)).prod / (m.neg.map (E.v env)).prod)

theorem Mono.eval_toE {env : RowEnv} {m : Mono} (h : m.D env) :
    m.toE.eval env = some (m.v env) := by
  obtain ⟨h1, h2, h3⟩ := h
  simp [Mono.toE, E.eval, Head.apply, E.evalL_eq, prodO_map h1, prodO_map h2, divO, h3, Mono.v]

theorem Mono.D_of_eval {env : RowEnv} {m : Mono} {v : ℚ} (h : m.toE.eval env = some v) :
    m.D env := by
  simp only [Mono.toE, E.eval, Head.apply, E.evalL_eq] at h
  cases h1 : prodO (m.pos.map (E.eval env)) with
  | none => simp [h1] at h
  | some a =>
    cases h2 : prodO (m.neg.map (E.eval env)) with
    | none => simp [h1, h2] at h
    | some b =>
      have e2 := prodO_some h2
      refine ⟨prodO_some h1, e2, ?_⟩
      rw [prodO_map e2] at h2
      intro h3
      rw [h3] at h2
      have hb : b = 0 := by simpa using h2.symm
      simp [h1, h2, divO] at h
      rw [prodO_map e2] at h
      simp [h3, hb] at h

theorem Mono.D_toE {env : RowEnv} {m : Mono} : m.toE.D env ↔ m.D env := by
  constructor
  · intro h; exact Mono.D_of_eval (E.eval_of_D h)
  · intro h; exact (E.D_v_of_eval (Mono.eval_toE h)).1

theorem Mono.v_toE {env : RowEnv} {m : Mono} (h : m.D env) : m.toE.v env = m.v env :=
  (E.D_v_of_eval (Mono.eval_toE h)).2

/-- The sum has a value. -/
def Poly.D (env : RowEnv) (p : Poly) : Prop := (∀ m ∈ p.pos, m.D env) ∧ (∀ m ∈ p.neg, m.D env)

/-- The value of a sum. -/
def Poly.v (env : RowEnv) (p : Poly) : ℚ :=
  p.c + (p.pos.map (Mono.v env)).sum - (p.neg.map (Mono.v env)).sum

theorem map_v_toE {env : RowEnv} {l : List Mono} (h : ∀ m ∈ l, m.D env) :
    ((l.map Mono.toE).map (E.v env)) = l.map (Mono.v env) := by
  rw [List.map_map]
  exact List.map_congr_left fun m hm => Mono.v_toE (h m hm)

theorem Poly.eval_toE {env : RowEnv} {p : Poly} (h : p.D env) :
    p.toE.eval env = some (p.v env) := by
  obtain ⟨h1, h2⟩ := h
  have d1 : ∀ x ∈ p.pos.map Mono.toE, x.D env := by
    intro x hx; obtain ⟨m, hm, rfl⟩ := List.mem_map.1 hx; exact Mono.D_toE.2 (h1 m hm)
  have d2 : ∀ x ∈ p.neg.map Mono.toE, x.D env := by
    intro x hx; obtain ⟨m, hm, rfl⟩ := List.mem_map.1 hx; exact Mono.D_toE.2 (h2 m hm)
  simp only [Poly.toE, E.eval, Head.apply, E.evalL_eq, sumO_map d1, sumO_map d2,
    map_v_toE h1, map_v_toE h2, Poly.v]
  rfl

theorem E.asMono_val {env : RowEnv} {e : E} (h : e.D env) (hs : e.setOf = none) :
    e.asMono.D env ∧ e.asMono.v env = e.v env := by
  have gen : (⟨1, [e], []⟩ : Mono).D env ∧ (⟨1, [e], []⟩ : Mono).v env = e.v env := by
    constructor
    · refine ⟨?_, by simp, by simp⟩
      simpa using h
    · simp [Mono.v]
  obtain ⟨hd, p, n⟩ := e
  cases hd <;> try exact gen
  · rename_i q
    simp only [E.asMono]
    refine ⟨⟨by simp, by simp, by simp⟩, ?_⟩
    simp [Mono.v, E.v, E.eval, Head.apply]
  · rename_i c
    simp only [E.asMono]
    have := Mono.D_toE (m := ⟨c, p, n⟩).1 h
    exact ⟨this, (Mono.v_toE this).symm⟩

theorem Mono.asPoly_val {env : RowEnv} {m : Mono} (h : m.D env) :
    m.asPoly.D env ∧ m.asPoly.v env = m.v env := by
  unfold Mono.asPoly
  split_ifs with h1 h2
  · refine ⟨⟨by simp, by simp⟩, ?_⟩
    simp [Poly.v, Mono.v, h1.1, h1.2]
  · refine ⟨⟨by simp, ?_⟩, ?_⟩
    · intro x hx
      have : x = ⟨-m.c, m.pos, m.neg⟩ := by simpa using hx
      subst this; exact h
    · simp [Poly.v, Mono.v]
  · refine ⟨⟨?_, by simp⟩, ?_⟩
    · intro x hx
      have : x = m := by simpa using hx
      subst this; exact h
    · simp [Poly.v]

theorem E.asMono_toE_of_times (c : ℚ) (p n : List E) :
    (E.asMono (.node (.times c) p n)).toE = .node (.times c) p n := rfl

theorem E.asPoly_val {env : RowEnv} {e : E} (h : e.D env) (hs : e.setOf = none) :
    e.asPoly.D env ∧ e.asPoly.v env = e.v env := by
  have gen : e.asMono.asPoly.D env ∧ e.asMono.asPoly.v env = e.v env := by
    obtain ⟨h1, h2⟩ := E.asMono_val h hs
    obtain ⟨h3, h4⟩ := Mono.asPoly_val h1
    exact ⟨h3, h4.trans h2⟩
  obtain ⟨hd, p, n⟩ := e
  cases hd <;> try exact gen
  rename_i c
  simp only [E.asPoly]
  clear gen
  -- every summand has a value
  have h' := E.eval_of_D h
  simp only [E.eval, Head.apply, E.evalL_eq] at h'
  cases h1 : sumO (p.map (E.eval env)) with
  | none => simp [h1] at h'
  | some a =>
    cases h2 : sumO (n.map (E.eval env)) with
    | none => simp [h1, h2] at h'
    | some b =>
      have d1 := sumO_some h1
      have d2 := sumO_some h2
      have key : ∀ l : List E, (∀ x ∈ l, x.D env) →
          (∀ m ∈ l.map E.asMono, m.D env) ∧
            (l.map E.asMono).map (Mono.v env) = l.map (E.v env) := by
        intro l hl
        have hset : ∀ x ∈ l, x.setOf = none := by
          intro x hx
          have := E.eval_of_D (hl x hx)
          obtain ⟨hd, p, n⟩ := x
          cases hd <;> first | rfl | skip
          simp [E.eval, Head.apply] at this
        refine ⟨?_, ?_⟩
        · intro m hm
          obtain ⟨x, hx, rfl⟩ := List.mem_map.1 hm
          exact (E.asMono_val (hl x hx) (hset x hx)).1
        · rw [List.map_map]
          exact List.map_congr_left fun x hx => (E.asMono_val (hl x hx) (hset x hx)).2
      refine ⟨⟨(key p d1).1, (key n d2).1⟩, ?_⟩
      simp only [Poly.v, (key p d1).2, (key n d2).2]
      rw [sumO_map d1] at h1
      rw [sumO_map d2] at h2
      rw [sumO_map d1, sumO_map d2] at h'
      simpa using h'

theorem E.setOf_of_D {env : RowEnv} {e : E} (h : e.D env) : e.setOf = none := by
  have := E.eval_of_D h
  obtain ⟨hd, p, n⟩ := e
  cases hd <;> first | rfl | skip
  simp [E.eval, Head.apply] at this

/-- A product and its cancelled form have the same numerator and denominator up to common factors
that stand on both sides: exactly what stood in the denominator and in the numerator is gone. -/
def CancelOK (m : Mono) : Prop :=
  ∀ m', m.cancel = .ok m' → (m'.pos ++ m.neg.filter (· ∈ m.pos)).Perm m.pos

theorem findE_none {y : E} {l : List E} : findE y l = none ↔ y ∉ l := by
  induction l with
  | nil => simp [findE]
  | cons x xs ih =>
    simp only [findE]
    by_cases h : E.same x y = true
    · have := E.same_iff.1 h; subst this; simp [h]
    · simp only [h, Bool.false_eq_true, if_false, Option.map_eq_none_iff, ih, List.mem_cons, not_or]
      have : x ≠ y := fun e => h (E.same_iff.2 e)
      constructor
      · intro h'; exact ⟨fun e => this e.symm, h'⟩
      · exact fun h' => h'.2

theorem cancelLoop_neg {orig todo pos neg : List E} {r : List E × List E}
    (h : cancelLoop orig todo pos neg = .ok r) :
    r.2 = neg ++ todo.filter (· ∉ orig) ∧ r.1.Sublist pos := by
  induction todo generalizing pos neg with
  | nil => simp [cancelLoop] at h; subst h; simp
  | cons y ys ih =>
    simp only [cancelLoop] at h
    cases hf : findE y orig with
    | none =>
      rw [hf] at h
      have hy := findE_none.1 hf
      have := ih h
      refine ⟨?_, this.2⟩
      rw [this.1]; simp [hy]
    | some i =>
      rw [hf] at h
      have hy : y ∈ orig := by
        by_contra hc; rw [findE_none.2 hc] at hf; simp at hf
      by_cases hi : i < pos.length
      · simp only [hi, if_true] at h
        have := ih h
        refine ⟨?_, this.2.trans (List.eraseIdx_sublist ..)⟩
        rw [this.1]; simp [hy]
      · simp [hi] at h

theorem Mono.cancel_neg {m m' : Mono} (h : m.cancel = .ok m') :
    m'.c = m.c ∧ m'.neg = m.neg.filter (· ∉ m.pos) ∧ m'.pos.Sublist m.pos := by
  unfold Mono.cancel at h
  cases hc : cancelLoop m.pos m.neg m.pos [] with
  | error e => simp [hc, Except.map] at h
  | ok r =>
    simp [hc, Except.map] at h
    subst h
    have := cancelLoop_neg hc
    refine ⟨rfl, ?_, this.2⟩
    simpa using this.1

theorem Mono.cancel_val {env : RowEnv} {m m' : Mono} (h : m.cancel = .ok m') (hok : CancelOK m)
    (hd : m.D env) : m'.D env ∧ m'.v env = m.v env := by
  obtain ⟨hc, hn, hs⟩ := Mono.cancel_neg h
  have hp := hok m' h
  obtain ⟨d1, d2, d3⟩ := hd
  have hneg : (m'.neg ++ m.neg.filter (· ∈ m.pos)).Perm m.neg := by
    rw [hn]
    have := List.filter_append_perm (fun x => decide (x ∉ m.pos)) m.neg
    simpa using this
  have e1 : (m.pos.map (E.v env)).prod =
      (m'.pos.map (E.v env)).prod * ((m.neg.filter (· ∈ m.pos)).map (E.v env)).prod := by
    rw [← (hp.map (E.v env)).prod_eq]; simp
  have e2 : (m.neg.map (E.v env)).prod =
      (m'.neg.map (E.v env)).prod * ((m.neg.filter (· ∈ m.pos)).map (E.v env)).prod := by
    rw [← (hneg.map (E.v env)).prod_eq]; simp
  rw [e2] at d3
  have f1 := left_ne_zero_of_mul d3
  have f2 := right_ne_zero_of_mul d3
  refine ⟨⟨fun x hx => d1 x (hs.subset hx), ?_, f1⟩, ?_⟩
  · intro x hx
    refine d2 x ?_
    rw [hn] at hx
    exact (List.mem_filter.1 hx).1
  · unfold Mono.v
    rw [e1, e2, hc]
    field_simp

/-- Value of a list of terms. -/
def termsV (env : RowEnv) (l : List Mono) : ℚ := (l.map (Mono.v env)).sum

theorem mergeTerm_val {env : RowEnv} {x : Mono} {l : List Mono} (hx : x.D env)
    (hl : ∀ m ∈ l, m.D env) :
    (∀ m ∈ mergeTerm x l, m.D env) ∧ termsV env (mergeTerm x l) = x.v env + termsV env l := by
  induction l with
  | nil => simp [mergeTerm, termsV, hx]
  | cons y ys ih =>
    simp only [mergeTerm]
    have hy := hl y (by simp)
    have hys : ∀ m ∈ ys, m.D env := fun m hm => hl m (by simp [hm])
    by_cases h : x.similar y = true
    · obtain ⟨h1, h2⟩ := Mono.similar_iff.1 h
      simp only [h, if_true]
      constructor
      · intro m hm
        rcases List.mem_cons.1 hm with rfl | hm
        · exact hy
        · exact hys m hm
      · simp only [termsV, List.map_cons, List.sum_cons, Mono.v, h1, h2]
        ring
    · simp only [h, Bool.false_eq_true, if_false]
      obtain ⟨i1, i2⟩ := ih hys
      constructor
      · intro m hm
        rcases List.mem_cons.1 hm with rfl | hm
        · exact hy
        · exact i1 m hm
      · simp only [termsV, List.map_cons, List.sum_cons] at i2 ⊢
        rw [i2]; ring

theorem addTerm_val {env : RowEnv} {acc : ℚ × List Mono} {x : Mono} (hx : x.D env)
    (hl : ∀ m ∈ acc.2, m.D env) :
    (∀ m ∈ (addTerm acc x).2, m.D env) ∧
      (addTerm acc x).1 + termsV env (addTerm acc x).2 = acc.1 + termsV env acc.2 + x.v env := by
  unfold addTerm
  split_ifs with h1 h2
  · refine ⟨hl, ?_⟩
    simp [Mono.v, h1]
  · refine ⟨hl, ?_⟩
    simp [Mono.v, h2.1, h2.2]; ring
  · obtain ⟨i1, i2⟩ := mergeTerm_val hx hl
    exact ⟨i1, by simp only [i2]; ring⟩

theorem foldTerms_val {env : RowEnv} {l : List Mono} {acc : ℚ × List Mono}
    (hx : ∀ x ∈ l, x.D env) (hl : ∀ m ∈ acc.2, m.D env) :
    (∀ m ∈ (l.foldl addTerm acc).2, m.D env) ∧
      (l.foldl addTerm acc).1 + termsV env (l.foldl addTerm acc).2
        = acc.1 + termsV env acc.2 + termsV env l := by
  induction l generalizing acc with
  | nil => exact ⟨hl, by simp [termsV]⟩
  | cons x xs ih =>
    obtain ⟨i1, i2⟩ := addTerm_val (hx x (by simp)) hl
    obtain ⟨j1, j2⟩ := ih (acc := addTerm acc x) (fun y hy => hx y (by simp [hy])) i1
    refine ⟨j1, ?_⟩
    simp only [List.foldl_cons]
    rw [j2, i2]
    simp only [termsV, List.map_cons, List.sum_cons]; ring

theorem Mono.opp_val {env : RowEnv} {m : Mono} : (m.opp.D env ↔ m.D env) ∧ m.opp.v env = -m.v env := by
  refine ⟨Iff.rfl, ?_⟩
  simp [Mono.opp, Mono.v]

theorem termsV_opp (env : RowEnv) (l : List Mono) : termsV env (l.map Mono.opp) = -termsV env l := by
  induction l with
  | nil => simp [termsV]
  | cons x xs ih =>
    simp only [termsV, List.map_cons, List.sum_cons] at ih ⊢
    rw [ih, Mono.opp_val.2]; ring

theorem termsV_perm {env : RowEnv} {l l' : List Mono} (h : l.Perm l') : termsV env l = termsV env l' :=
  (h.map _).sum_eq

theorem splitTerms_val {env : RowEnv} {c : ℚ} {l : List Mono} (hl : ∀ m ∈ l, m.D env) :
    (splitTerms c l).D env ∧ (splitTerms c l).v env = c + termsV env l := by
  refine ⟨⟨?_, ?_⟩, ?_⟩
  · intro m hm
    have := (sortM_perm _).mem_iff.1 hm
    exact hl m (List.mem_filter.1 this).1
  · intro m hm
    have := (sortM_perm _).mem_iff.1 hm
    obtain ⟨x, hx, rfl⟩ := List.mem_map.1 this
    exact Mono.opp_val.1.2 (hl x (List.mem_filter.1 hx).1)
  · have e1 : (splitTerms c l).v env = c + termsV env (l.filter fun x => 0 < x.c)
        + termsV env (l.filter fun x => x.c < 0) := by
      have a1 := termsV_perm (env := env) (sortM_perm (l.filter fun x => 0 < x.c))
      have a2 := termsV_perm (env := env) (sortM_perm ((l.filter fun x => x.c < 0).map Mono.opp))
      rw [termsV_opp] at a2
      unfold termsV at a1 a2
      simp only [Poly.v, splitTerms, termsV]
      rw [a1, a2]; ring
    rw [e1, add_assoc]
    congr 1
    induction l with
    | nil => simp [termsV]
    | cons x xs ih =>
      have ih := ih (fun m hm => hl m (by simp [hm])) (by
        have := e1; clear this
        have a1 := termsV_perm (env := env) (sortM_perm (xs.filter fun x => 0 < x.c))
        have a2 := termsV_perm (env := env) (sortM_perm ((xs.filter fun x => x.c < 0).map Mono.opp))
        rw [termsV_opp] at a2
        unfold termsV at a1 a2
        simp only [Poly.v, splitTerms, termsV]
        rw [a1, a2]; ring)
      simp only [List.filter_cons]
      rcases lt_trichotomy x.c 0 with h | h | h
      · have h' : ¬ 0 < x.c := not_lt.2 h.le
        simp only [h, h', decide_true, decide_false, if_true, Bool.false_eq_true, if_false]
        simp only [termsV, List.map_cons, List.sum_cons] at ih ⊢
        linarith
      · simp only [h, lt_irrefl, decide_false, Bool.false_eq_true, if_false]
        have : x.v env = 0 := by simp [Mono.v, h]
        simp only [termsV, List.map_cons, List.sum_cons, this] at ih ⊢
        linarith
      · have h' : ¬ x.c < 0 := not_lt.2 h.le
        simp only [h, h', decide_true, decide_false, if_true, Bool.false_eq_true, if_false]
        simp only [termsV, List.map_cons, List.sum_cons] at ih ⊢
        linarith

theorem mapM_cancel_val {env : RowEnv} {l l' : List Mono} (h : l.mapM Mono.cancel = .ok l')
    (hok : ∀ m ∈ l, CancelOK m) (hd : ∀ m ∈ l, m.D env) :
    (∀ m ∈ l', m.D env) ∧ termsV env l' = termsV env l := by
  induction l generalizing l' with
  | nil =>
    have : l' = [] := by
      have h2 : (Except.ok [] : Except Err (List Mono)) = .ok l' := h
      simpa using h2.symm
    subst this; simp
  | cons x xs ih =>
    rw [List.mapM_cons] at h
    cases h1 : x.cancel with
    | error e => rw [h1] at h; cases h
    | ok y =>
      cases h2 : xs.mapM Mono.cancel with
      | error e => rw [h1, h2] at h; cases h
      | ok ys =>
        rw [h1, h2] at h
        have : l' = y :: ys := by
          have h3 : (Except.ok (y :: ys) : Except Err (List Mono)) = .ok l' := h
          simpa using h3.symm
        subst this
        obtain ⟨i1, i2⟩ := ih h2 (fun m hm => hok m (by simp [hm])) (fun m hm => hd m (by simp [hm]))
        obtain ⟨j1, j2⟩ := Mono.cancel_val h1 (hok x (by simp)) (hd x (by simp))
        constructor
        · intro m hm
          rcases List.mem_cons.1 hm with rfl | hm
          · exact j1
          · exact i1 m hm
        · simp only [termsV, List.map_cons, List.sum_cons] at i2 ⊢
          rw [i2, j2]

/-- The cancellation goes right in every term. -/
def TermsOK (p : Poly) : Prop := (∀ m ∈ p.pos, CancelOK m) ∧ (∀ m ∈ p.neg, CancelOK m)

theorem collect_val {env : RowEnv} {p p' : Poly} (h : p.collect = .ok p') (hok : TermsOK p)
    (hd : p.D env) : p'.D env ∧ p'.v env = p.v env := by
  unfold Poly.collect at h
  cases h1 : p.pos.mapM Mono.cancel with
  | error e => rw [h1] at h; cases h
  | ok ps =>
    cases h2 : p.neg.mapM Mono.cancel with
    | error e => rw [h1, h2] at h; cases h
    | ok ns =>
      rw [h1, h2] at h
      have h3 : p' = splitTerms ((ns.map Mono.opp).foldl addTerm (ps.foldl addTerm (p.c, []))).1
          ((ns.map Mono.opp).foldl addTerm (ps.foldl addTerm (p.c, []))).2 := by
        have h4 : (Except.ok _ : Except Err Poly) = .ok p' := h
        simpa using h4.symm
      obtain ⟨i1, i2⟩ := mapM_cancel_val h1 hok.1 hd.1
      obtain ⟨j1, j2⟩ := mapM_cancel_val h2 hok.2 hd.2
      obtain ⟨k1, k2⟩ := foldTerms_val (env := env) (acc := (p.c, [])) i1 (by simp)
      have j1' : ∀ m ∈ ns.map Mono.opp, m.D env := by
        intro m hm
        obtain ⟨x, hx, rfl⟩ := List.mem_map.1 hm
        exact Mono.opp_val.1.2 (j1 x hx)
      obtain ⟨l1, l2⟩ := foldTerms_val (env := env) j1' k1
      obtain ⟨m1, m2⟩ := splitTerms_val (c := ((ns.map Mono.opp).foldl addTerm
        (ps.foldl addTerm (p.c, []))).1) l1
      subst h3
      refine ⟨m1, ?_⟩
      rw [m2, l2, k2, termsV_opp, i2, j2]
      simp only [termsV, Poly.v, List.map_nil, List.sum_nil]; ring

theorem combine_arg_val {env : RowEnv} {l r : Poly} (hl : l.D env) (hr : r.D env) :
    (⟨l.c + r.c, sortM (l.pos ++ r.pos), sortM (l.neg ++ r.neg)⟩ : Poly).D env ∧
    (⟨l.c + r.c, sortM (l.pos ++ r.pos), sortM (l.neg ++ r.neg)⟩ : Poly).v env
      = l.v env + r.v env := by
  refine ⟨⟨?_, ?_⟩, ?_⟩
  · intro m hm
    rcases List.mem_append.1 ((sortM_perm _).mem_iff.1 hm) with h | h
    · exact hl.1 m h
    · exact hr.1 m h
  · intro m hm
    rcases List.mem_append.1 ((sortM_perm _).mem_iff.1 hm) with h | h
    · exact hl.2 m h
    · exact hr.2 m h
  · have a1 := termsV_perm (env := env) (sortM_perm (l.pos ++ r.pos))
    have a2 := termsV_perm (env := env) (sortM_perm (l.neg ++ r.neg))
    unfold termsV at a1 a2
    simp only [Poly.v]
    rw [a1, a2]
    simp only [List.map_append, List.sum_append]; ring

theorem Poly.negate_val {env : RowEnv} {p : Poly} (h : p.D env) :
    p.negate.D env ∧ p.negate.v env = -p.v env := by
  refine ⟨⟨h.2, h.1⟩, ?_⟩
  simp only [Poly.negate, Poly.v]; ring

theorem Mono.combine_val {env : RowEnv} {x y : Mono} (hx : x.D env) (hy : y.D env) :
    (x.combine y).D env ∧ (x.combine y).v env = x.v env * y.v env := by
  have p1 : ((sortE (x.pos ++ y.pos)).map (E.v env)).prod
      = (x.pos.map (E.v env)).prod * (y.pos.map (E.v env)).prod := by
    rw [((sortE_perm _).map _).prod_eq]; simp
  have p2 : ((sortE (x.neg ++ y.neg)).map (E.v env)).prod
      = (x.neg.map (E.v env)).prod * (y.neg.map (E.v env)).prod := by
    rw [((sortE_perm _).map _).prod_eq]; simp
  refine ⟨⟨?_, ?_, ?_⟩, ?_⟩
  · intro e he
    rcases List.mem_append.1 ((sortE_perm _).mem_iff.1 he) with h | h
    · exact hx.1 e h
    · exact hy.1 e h
  · intro e he
    rcases List.mem_append.1 ((sortE_perm _).mem_iff.1 he) with h | h
    · exact hx.2.1 e h
    · exact hy.2.1 e h
  · simp only [Mono.combine]; rw [p2]; exact mul_ne_zero hx.2.2 hy.2.2
  · simp only [Mono.combine, Mono.v]; rw [p1, p2]
    rw [mul_div_mul_comm]; ring

theorem scale_val {env : RowEnv} {c : ℚ} {l : List Mono} (hl : ∀ m ∈ l, m.D env) :
    (∀ m ∈ scale c l, m.D env) ∧ termsV env (scale c l) = c * termsV env l := by
  have hc : (⟨c, [], []⟩ : Mono).D env ∧ (⟨c, [], []⟩ : Mono).v env = c := by
    refine ⟨⟨by simp, by simp, by simp⟩, by simp [Mono.v]⟩
  induction l with
  | nil => simp [scale, termsV]
  | cons x xs ih =>
    obtain ⟨i1, i2⟩ := ih (fun m hm => hl m (by simp [hm]))
    obtain ⟨j1, j2⟩ := Mono.combine_val (hl x (by simp)) hc.1
    constructor
    · intro m hm
      rcases List.mem_cons.1 hm with rfl | hm
      · exact j1
      · exact i1 m hm
    · simp only [termsV, scale, List.map_cons, List.sum_cons] at i2 ⊢
      rw [i2, j2, hc.2]; ring

theorem prods_val {env : RowEnv} {l r : List Mono} (hl : ∀ m ∈ l, m.D env) (hr : ∀ m ∈ r, m.D env) :
    (∀ m ∈ prods l r, m.D env) ∧ termsV env (prods l r) = termsV env l * termsV env r := by
  have row : ∀ x : Mono, x.D env → ∀ r : List Mono, (∀ m ∈ r, m.D env) →
      (∀ m ∈ r.map (fun y => x.combine y), m.D env) ∧
        termsV env (r.map fun y => x.combine y) = x.v env * termsV env r := by
    intro x hx r hr
    induction r with
    | nil => simp [termsV]
    | cons y ys ih =>
      obtain ⟨i1, i2⟩ := ih (fun m hm => hr m (by simp [hm]))
      obtain ⟨j1, j2⟩ := Mono.combine_val hx (hr y (by simp))
      constructor
      · intro m hm
        rcases List.mem_cons.1 hm with rfl | hm
        · exact j1
        · exact i1 m hm
      · simp only [termsV, List.map_cons, List.sum_cons] at i2 ⊢
        rw [i2, j2]; ring
  induction l with
  | nil => simp [prods, termsV]
  | cons x xs ih =>
    obtain ⟨i1, i2⟩ := ih (fun m hm => hl m (by simp [hm]))
    obtain ⟨j1, j2⟩ := row x (hl x (by simp)) r hr
    constructor
    · intro m hm
      simp only [prods, List.flatMap_cons] at hm
      rcases List.mem_append.1 hm with h | h
      · exact j1 m h
      · exact i1 m h
    · simp only [prods, List.flatMap_cons]
      have e : ∀ a b : List Mono, termsV env (a ++ b) = termsV env a + termsV env b := by
        intro a b; simp [termsV]
      rw [e, j2]
      have : termsV env (List.flatMap (fun x => r.map fun y => x.combine y) xs)
          = termsV env xs * termsV env r := i2
      rw [this]
      simp only [termsV, List.map_cons, List.sum_cons]; ring

/-- The argument that `distribute` gives to `collect`. -/
def distArg (l r : Poly) : Poly :=
  ⟨0, scale r.c l.pos ++ scale l.c r.pos ++ prods l.pos r.pos ++ prods l.neg r.neg,
      scale r.c l.neg ++ scale l.c r.neg ++ prods l.pos r.neg ++ prods l.neg r.pos⟩

theorem distArg_val {env : RowEnv} {l r : Poly} (hl : l.D env) (hr : r.D env) :
    (distArg l r).D env ∧ (distArg l r).v env = l.v env * r.v env - l.c * r.c := by
  obtain ⟨a1, a2⟩ := scale_val (c := r.c) hl.1
  obtain ⟨b1, b2⟩ := scale_val (c := l.c) hr.1
  obtain ⟨c1, c2⟩ := prods_val hl.1 hr.1
  obtain ⟨d1, d2⟩ := prods_val hl.2 hr.2
  obtain ⟨e1, e2⟩ := scale_val (c := r.c) hl.2
  obtain ⟨f1, f2⟩ := scale_val (c := l.c) hr.2
  obtain ⟨g1, g2⟩ := prods_val hl.1 hr.2
  obtain ⟨h1, h2⟩ := prods_val hl.2 hr.1
  refine ⟨⟨?_, ?_⟩, ?_⟩
  · intro m hm
    simp only [distArg, List.mem_append] at hm
    rcases hm with ((hm | hm) | hm) | hm
    · exact a1 m hm
    · exact b1 m hm
    · exact c1 m hm
    · exact d1 m hm
  · intro m hm
    simp only [distArg, List.mem_append] at hm
    rcases hm with ((hm | hm) | hm) | hm
    · exact e1 m hm
    · exact f1 m hm
    · exact g1 m hm
    · exact h1 m hm
  · simp only [termsV] at a2 b2 c2 d2 e2 f2 g2 h2
    simp only [distArg, Poly.v, List.map_append, List.sum_append]
    rw [a2, b2, c2, d2, e2, f2, g2, h2]; ring

theorem distribute_val {env : RowEnv} {l r p : Poly} (h : l.distribute r = .ok p)
    (hok : TermsOK (distArg l r)) (hl : l.D env) (hr : r.D env) :
    p.D env ∧ p.v env = l.v env * r.v env - l.c * r.c := by
  obtain ⟨a, b⟩ := distArg_val hl hr
  obtain ⟨c, d⟩ := collect_val (p := distArg l r) h hok a
  exact ⟨c, d.trans b⟩

theorem combine_val {env : RowEnv} {l r p : Poly} (h : l.combine r = .ok p)
    (hok : TermsOK ⟨l.c + r.c, sortM (l.pos ++ r.pos), sortM (l.neg ++ r.neg)⟩)
    (hl : l.D env) (hr : r.D env) : p.D env ∧ p.v env = l.v env + r.v env := by
  obtain ⟨a, b⟩ := combine_arg_val hl hr
  obtain ⟨c, d⟩ := collect_val h hok a
  exact ⟨c, d.trans b⟩

theorem Mono.simplify_val {env : RowEnv} {m : Mono} (h : m.D env) :
    m.simplify.eval env = some (m.v env) := by
  obtain ⟨c, p, n⟩ := m
  unfold Mono.simplify
  split
  · rename_i h1 h2
    simp only at h1 h2; subst h1 h2
    simp [E.eval, Head.apply, Mono.v]
  · rename_i e h1 h2
    simp only at h1 h2; subst h1 h2
    split_ifs with h3
    · simp only at h3; subst h3
      rw [E.eval_of_D (h.1 e (by simp))]
      simp [Mono.v]
    · exact Mono.eval_toE h
  · exact Mono.eval_toE h

theorem Poly.simplify_val {env : RowEnv} {p : Poly} (h : p.D env) :
    p.simplify.eval env = some (p.v env) := by
  obtain ⟨c, ps, ns⟩ := p
  unfold Poly.simplify
  split
  · rename_i h1 h2
    simp only at h1 h2; subst h1 h2
    simp [E.eval, Head.apply, Poly.v]
  · rename_i m h1 h2
    simp only at h1 h2; subst h1 h2
    split_ifs with h3
    · simp only at h3; subst h3
      rw [Mono.simplify_val (h.1 m (by simp))]
      simp [Poly.v]
    · exact Poly.eval_toE h
  · rename_i m h1 h2
    simp only at h1 h2; subst h1 h2
    split_ifs with h3
    · simp only at h3; subst h3
      rw [Mono.simplify_val (Mono.opp_val.1.2 (h.2 m (by simp))), Mono.opp_val.2]
      simp [Poly.v]
    · exact Poly.eval_toE h
  · exact Poly.eval_toE h

theorem Mono.inv_val {env : RowEnv} {m m' : Mono} (h : m.inv = .ok m') (hd : m.D env)
    (hz : m.v env ≠ 0) : m'.D env ∧ m'.v env = 1 / m.v env := by
  unfold Mono.inv at h
  split_ifs at h with hc
  have : m' = ⟨1 / m.c, m.neg, m.pos⟩ := by simpa using h.symm
  subst this
  have hp : (m.pos.map (E.v env)).prod ≠ 0 := by
    intro h0; apply hz; simp [Mono.v, h0]
  refine ⟨⟨hd.2.1, hd.1, hp⟩, ?_⟩
  have := hd.2.2
  simp only [Mono.v]
  field_simp

theorem sumDen_val {env : RowEnv} {p : Poly} (n : ℕ) (h : p.D env) (hz : p.v env ≠ 0) :
    (⟨1, [], List.replicate n p.toE⟩ : Mono).D env ∧
      (⟨1, [], List.replicate n p.toE⟩ : Mono).v env = 1 / p.v env ^ n := by
  obtain ⟨a, b⟩ := E.D_v_of_eval (Poly.eval_toE h)
  refine ⟨⟨by simp, ?_, ?_⟩, ?_⟩
  · intro x hx; rw [List.eq_of_mem_replicate hx]; exact a
  · simp only [List.map_replicate, List.prod_replicate, b]; exact pow_ne_zero n hz
  · simp only [Mono.v, List.map_replicate, List.prod_replicate, b, List.map_nil, List.prod_nil]; ring

theorem reciprocal_val {env : RowEnv} {r : Poly} {m : Mono} (h : reciprocal r = .ok m)
    (hd : r.D env) (hz : r.v env ≠ 0) : m.D env ∧ m.v env = 1 / r.v env := by
  have gen := sumDen_val 1 hd hz
  simp only [List.replicate_one, pow_one] at gen
  obtain ⟨c, ps, ns⟩ := r
  unfold reciprocal at h
  split at h
  · rename_i h1 h2
    simp only at h1 h2; subst h1 h2
    simp only at h
    split_ifs at h with hc
    have : m = ⟨1 / c, [], []⟩ := by simpa using h.symm
    subst this
    refine ⟨⟨by simp, by simp, by simp⟩, ?_⟩
    simp [Mono.v, Poly.v]
  · rename_i x h1 h2
    simp only at h1 h2; subst h1 h2
    simp only at h
    split_ifs at h with hc
    · subst hc
      have e : (⟨0, [x], []⟩ : Poly).v env = x.v env := by simp [Poly.v]
      rw [e] at hz ⊢
      exact Mono.inv_val h (hd.1 x (by simp)) hz
    · have : m = ⟨1, [], [(⟨c, [x], []⟩ : Poly).toE]⟩ := by simpa using h.symm
      subst this; exact gen
  · rename_i x h1 h2
    simp only at h1 h2; subst h1 h2
    simp only at h
    split_ifs at h with hc
    · subst hc
      have e : (⟨0, [], [x]⟩ : Poly).v env = -x.v env := by simp [Poly.v]
      rw [e] at hz ⊢
      cases hi : x.inv with
      | error e => simp [hi, Except.map] at h
      | ok y =>
        have : m = y.opp := by simpa [hi, Except.map] using h.symm
        subst this
        obtain ⟨a, b⟩ := Mono.inv_val hi (hd.2 x (by simp)) (by simpa using hz)
        refine ⟨Mono.opp_val.1.2 a, ?_⟩
        rw [Mono.opp_val.2, b, div_neg]
    · have : m = ⟨1, [], [(⟨c, [], [x]⟩ : Poly).toE]⟩ := by simpa using h.symm
      subst this; exact gen
  · have : m = ⟨1, [], [(⟨c, ps, ns⟩ : Poly).toE]⟩ := by simpa using h.symm
    subst this; exact gen

theorem repeatL_prod (env : RowEnv) (n : ℕ) (l : List E) :
    ((sortE (repeatL n l)).map (E.v env)).prod = (l.map (E.v env)).prod ^ n := by
  rw [((sortE_perm _).map _).prod_eq]
  induction n with
  | zero => simp [repeatL]
  | succ n ih =>
    simp only [repeatL, List.replicate_succ, List.flatten_cons, List.map_append, List.prod_append] at ih ⊢
    rw [ih]; ring

theorem mem_repeatL {n : ℕ} {l : List E} {x : E} (h : x ∈ sortE (repeatL n l)) : x ∈ l := by
  have := (sortE_perm _).mem_iff.1 h
  simp only [repeatL, List.mem_flatten] at this
  obtain ⟨a, ha, hx⟩ := this
  rw [List.eq_of_mem_replicate ha] at hx; exact hx

theorem Mono.powN_val {env : RowEnv} {m : Mono} (n : ℕ) (h : m.D env) :
    (m.powN n).D env ∧ (m.powN n).v env = m.v env ^ n := by
  refine ⟨⟨fun x hx => h.1 x (mem_repeatL hx), fun x hx => h.2.1 x (mem_repeatL hx), ?_⟩, ?_⟩
  · simp only [Mono.powN]; rw [repeatL_prod]; exact pow_ne_zero n h.2.2
  · simp only [Mono.powN, Mono.v]; rw [repeatL_prod, repeatL_prod, mul_pow, div_pow]

theorem powPos_val {env : RowEnv} {l : Poly} {n : ℕ} (h : l.D env) :
    (powPos l n).eval env = some (l.v env ^ n) := by
  have sing : ∀ m : Mono, m.D env →
      (Poly.simplify ⟨0, [m], []⟩).eval env = some (m.v env) := by
    intro m hm
    rw [Poly.simplify_val ⟨by simpa using hm, by simp⟩]; simp [Poly.v]
  have singn : ∀ m : Mono, m.D env →
      (Poly.simplify ⟨0, [], [m]⟩).eval env = some (-m.v env) := by
    intro m hm
    rw [Poly.simplify_val ⟨by simp, by simpa using hm⟩]; simp [Poly.v]
  have gen : (Poly.simplify ⟨0, [⟨1, List.replicate n l.toE, []⟩], []⟩).eval env
      = some (l.v env ^ n) := by
    obtain ⟨a, b⟩ := E.D_v_of_eval (Poly.eval_toE h)
    rw [sing]
    · simp [Mono.v, b]
    · refine ⟨?_, by simp, by simp⟩
      intro x hx; rw [List.eq_of_mem_replicate hx]; exact a
  obtain ⟨c, ps, ns⟩ := l
  unfold powPos
  split
  · rename_i m h1 h2
    simp only at h1 h2; subst h1 h2
    split_ifs with hc
    · simp only at hc; subst hc
      obtain ⟨a, b⟩ := Mono.powN_val n (h.1 m (by simp))
      rw [sing _ a, b]; simp [Poly.v]
    · exact gen
  · rename_i m h1 h2
    simp only at h1 h2; subst h1 h2
    split_ifs with hc hn
    · simp only at hc; subst hc
      obtain ⟨a, b⟩ := Mono.powN_val n (h.2 m (by simp))
      rw [sing _ a, b]
      have : Even n := Nat.even_iff.2 hn
      simp [Poly.v, this.neg_pow]
    · simp only at hc; subst hc
      obtain ⟨a, b⟩ := Mono.powN_val n (h.2 m (by simp))
      rw [singn _ a, b]
      have : Odd n := Nat.odd_iff.2 (by omega)
      simp [Poly.v, this.neg_pow]
    · exact gen
  · exact gen

theorem Mono.powNegN_val {env : RowEnv} {m m' : Mono} {n : ℕ} (he : m.powNegN n = .ok m')
    (h : m.D env) (hz : m.v env ≠ 0) : m'.D env ∧ m'.v env = 1 / m.v env ^ n := by
  unfold Mono.powNegN at he
  split_ifs at he with hc
  have : m' = ⟨1 / m.c ^ n, sortE (repeatL n m.neg), sortE (repeatL n m.pos)⟩ := by
    simpa using he.symm
  subst this
  have hp : (m.pos.map (E.v env)).prod ≠ 0 := by
    intro h0; apply hz; simp [Mono.v, h0]
  have hn := h.2.2
  refine ⟨⟨fun x hx => h.2.1 x (mem_repeatL hx), fun x hx => h.1 x (mem_repeatL hx), ?_⟩, ?_⟩
  · rw [repeatL_prod]; exact pow_ne_zero n hp
  · simp only [Mono.v]; rw [repeatL_prod, repeatL_prod, mul_pow, div_pow]
    field_simp

theorem powNeg_val {env : RowEnv} {l : Poly} {n : ℕ} {e : E} (he : powNeg l n = .ok e) (h : l.D env)
    (hz : l.v env ≠ 0) : e.eval env = some (1 / l.v env ^ n) := by
  have sing : ∀ m : Mono, m.D env →
      (Poly.simplify ⟨0, [m], []⟩).eval env = some (m.v env) := by
    intro m hm
    rw [Poly.simplify_val ⟨by simpa using hm, by simp⟩]; simp [Poly.v]
  have singn : ∀ m : Mono, m.D env →
      (Poly.simplify ⟨0, [], [m]⟩).eval env = some (-m.v env) := by
    intro m hm
    rw [Poly.simplify_val ⟨by simp, by simpa using hm⟩]; simp [Poly.v]
  have gen : (Poly.simplify ⟨0, [⟨1, [], List.replicate n l.toE⟩], []⟩).eval env
      = some (1 / l.v env ^ n) := by
    obtain ⟨a, b⟩ := sumDen_val n h hz
    rw [sing _ a, b]
  obtain ⟨c, ps, ns⟩ := l
  unfold powNeg at he
  split at he
  · rename_i m h1 h2
    simp only at h1 h2; subst h1 h2
    simp only at he
    split_ifs at he with hc
    · subst hc
      cases hi : m.powNegN n with
      | error e => simp [hi, Except.map] at he
      | ok y =>
        have : e = Poly.simplify ⟨0, [y], []⟩ := by simpa [hi, Except.map] using he.symm
        subst this
        have e' : (⟨0, [m], []⟩ : Poly).v env = m.v env := by simp [Poly.v]
        rw [e'] at hz ⊢
        obtain ⟨a, b⟩ := Mono.powNegN_val hi (h.1 m (by simp)) hz
        rw [sing _ a, b]
    · have := (Except.ok.inj he).symm; subst this; exact gen
  · rename_i m h1 h2
    simp only at h1 h2; subst h1 h2
    simp only at he
    by_cases hc : c = 0
    · rw [if_pos hc] at he
      subst hc
      have e' : (⟨0, [], [m]⟩ : Poly).v env = -m.v env := by simp [Poly.v]
      rw [e'] at hz ⊢
      have hz' : m.v env ≠ 0 := by simpa using hz
      cases hi : m.powNegN n with
      | error e => simp [hi, Except.map] at he
      | ok y =>
        obtain ⟨a, b⟩ := Mono.powNegN_val hi (h.2 m (by simp)) hz'
        simp only [hi, Except.map] at he
        have := (Except.ok.inj he).symm; subst this
        split_ifs with hn
        · rw [sing _ a, b]
          have : Even n := Nat.even_iff.2 hn
          rw [this.neg_pow]
        · rw [singn _ a, b]
          have : Odd n := Nat.odd_iff.2 (by omega)
          rw [this.neg_pow, div_neg]
    · rw [if_neg hc] at he
      have := (Except.ok.inj he).symm; subst this; exact gen
  · have := (Except.ok.inj he).symm; subst this; exact gen

end Verif
