import Verif.ExprTextMain
import Verif.ExprAll

/-!
# Helper lemmas: which parsed expressions are shown with all parentheses that they need
-/

namespace Verif

/-- A name, a call or a power. -/
def E.atomic : E → Bool
  | .node (.name _) _ _ => true
  | .node (.call _) _ _ => true
  | .node (.binop f) _ _ => decide (f = "pow")
  | _ => false

/-- A name or a call. -/
def E.simple : E → Bool
  | .node (.name _) _ _ => true
  | .node (.call _) _ _ => true
  | _ => false

/-- A factor that needs no parentheses. -/
def Tight (x : E) : Prop := x.shown = true ∧ x.atomic = true

/-- All factors are. -/
def Mono.Tight (m : Mono) : Prop := (∀ x ∈ m.pos, Verif.Tight x) ∧ (∀ x ∈ m.neg, Verif.Tight x)

/-- All factors of all terms are. -/
def Poly.Tight (p : Poly) : Prop := (∀ m ∈ p.pos, m.Tight) ∧ (∀ m ∈ p.neg, m.Tight)

/-- A single term or a constant. -/
def Poly.Single (p : Poly) : Prop := (p.c = 0 ∧ p.pos.length + p.neg.length ≤ 1) ∨ p.pos.length + p.neg.length = 0

theorem simple_atomic {e : E} (h : e.simple = true) : e.atomic = true := by
  obtain ⟨hd, p, n⟩ := e
  cases hd <;> simp_all [E.simple, E.atomic]

theorem simple_level {e : E} (h : e.simple = true) : e.level = 11 := by
  obtain ⟨hd, p, n⟩ := e
  cases hd <;> simp_all [E.simple, E.level, Head.level]

theorem atomic_level {e : E} (h : e.atomic = true) : 10 ≤ e.level := by
  obtain ⟨hd, p, n⟩ := e
  cases hd <;> simp_all [E.atomic, E.level, Head.level, opOf, PyOp.prec]

theorem atomic_facts {e : E} (h : e.atomic = true) :
    e.asPoly = ⟨0, [⟨1, [e], []⟩], []⟩ ∧ e.asMono = ⟨1, [e], []⟩ ∧ e.setOf = none ∧ e.constVal = none := by
  obtain ⟨hd, p, n⟩ := e
  have h1 : ¬ (1 : ℚ) < 0 := by norm_num
  cases hd <;> simp_all [E.atomic, E.asPoly, E.asMono, Mono.asPoly, E.setOf, E.constVal, -not_lt]

/-! ## Arithmetic keeps the factors -/

theorem Tight.asMono {e : E} (h : Verif.Tight e) : e.asMono.Tight := by
  rw [(atomic_facts h.2).2.1]
  exact ⟨by simpa using h, by simp⟩

theorem Mono.Tight.asPoly {m : Mono} (h : m.Tight) : m.asPoly.Tight := by
  unfold Mono.asPoly
  split_ifs
  · exact ⟨by simp, by simp⟩
  · exact ⟨by simp, by simpa using (show (⟨-m.c, m.pos, m.neg⟩ : Mono).Tight from h)⟩
  · exact ⟨by simpa using h, by simp⟩

theorem Mono.single (m : Mono) : m.asPoly.Single := by
  unfold Mono.asPoly Poly.Single
  split_ifs <;> simp

theorem Mono.Tight.cancel {m m' : Mono} (h : m.Tight) (hc : m.cancel = .ok m') : m'.Tight := by
  obtain ⟨_, hn, hs⟩ := Mono.cancel_neg hc
  refine ⟨fun x hx => h.1 x (hs.subset hx), fun x hx => h.2 x ?_⟩
  rw [hn] at hx; exact (List.mem_filter.1 hx).1

theorem Mono.Tight.combine {x y : Mono} (hx : x.Tight) (hy : y.Tight) : (x.combine y).Tight := by
  constructor <;> intro e he <;>
    rcases List.mem_append.1 ((sortE_perm _).mem_iff.1 he) with h | h
  · exact hx.1 e h
  · exact hy.1 e h
  · exact hx.2 e h
  · exact hy.2 e h

theorem Mono.Tight.opp {m : Mono} (h : m.Tight) : m.opp.Tight := h

theorem Poly.Tight.negate {p : Poly} (h : p.Tight) : p.negate.Tight := ⟨h.2, h.1⟩

theorem Poly.Single.negate {p : Poly} (h : p.Single) : p.negate.Single := by
  unfold Poly.Single Poly.negate at *
  simp only [neg_eq_zero]
  rcases h with ⟨h1, h2⟩ | h
  · exact Or.inl ⟨h1, by omega⟩
  · exact Or.inr (by omega)

theorem Poly.Tight.collect {p p' : Poly} (w : p.Tight) (h : p.collect = .ok p') : p'.Tight := by
  have := collect_terms (P := Mono.Tight) (fun _ _ _ _ h => h) h (by
    rintro m m' (hm | hm) hc
    · exact (w.1 m hm).cancel hc
    · exact (w.2 m hm).cancel hc)
  exact ⟨fun m hm => (this.1 m hm).1, fun m hm => (this.2 m hm).1⟩

theorem Poly.Tight.combine {l r p : Poly} (hl : l.Tight) (hr : r.Tight) (h : l.combine r = .ok p) : p.Tight := by
  refine Poly.Tight.collect ⟨?_, ?_⟩ h
  · intro m hm
    rcases List.mem_append.1 ((sortM_perm _).mem_iff.1 hm) with h | h
    · exact hl.1 m h
    · exact hr.1 m h
  · intro m hm
    rcases List.mem_append.1 ((sortM_perm _).mem_iff.1 hm) with h | h
    · exact hl.2 m h
    · exact hr.2 m h

theorem scale_tight {c : ℚ} {l : List Mono} (hl : ∀ m ∈ l, m.Tight) : ∀ m ∈ scale c l, m.Tight := by
  intro m hm
  obtain ⟨x, hx, rfl⟩ := List.mem_map.1 hm
  exact (hl x hx).combine ⟨by simp, by simp⟩

theorem prods_tight {l r : List Mono} (hl : ∀ m ∈ l, m.Tight) (hr : ∀ m ∈ r, m.Tight) : ∀ m ∈ prods l r, m.Tight := by
  intro m hm
  obtain ⟨x, hx, hm⟩ := List.mem_flatMap.1 hm
  obtain ⟨y, hy, rfl⟩ := List.mem_map.1 hm
  exact (hl x hx).combine (hr y hy)

theorem Poly.Tight.distribute {l r p : Poly} (hl : l.Tight) (hr : r.Tight) (h : l.distribute r = .ok p) : p.Tight := by
  refine Poly.Tight.collect (p := distArg l r) ⟨?_, ?_⟩ h
  · intro m hm
    simp only [distArg, List.mem_append] at hm
    rcases hm with ((hm | hm) | hm) | hm
    · exact scale_tight hl.1 m hm
    · exact scale_tight hr.1 m hm
    · exact prods_tight hl.1 hr.1 m hm
    · exact prods_tight hl.2 hr.2 m hm
  · intro m hm
    simp only [distArg, List.mem_append] at hm
    rcases hm with ((hm | hm) | hm) | hm
    · exact scale_tight hl.2 m hm
    · exact scale_tight hr.2 m hm
    · exact prods_tight hl.1 hr.2 m hm
    · exact prods_tight hl.2 hr.1 m hm

/-! ## Products stay products -/

/-- The number of terms that do not vanish. -/
def nz (l : List Mono) : ℕ := l.countP fun m => decide (m.c ≠ 0)

theorem fold_zero : ∀ (l : List Mono) (acc : ℚ × List Mono), nz l = 0 → l.foldl addTerm acc = acc
  | [], _, _ => rfl
  | x :: xs, acc, h => by
    have hx : x.c = 0 := by
      by_contra hc
      simp [nz, hc] at h
    have hxs : nz xs = 0 := by
      simp only [nz, List.countP_cons] at h ⊢
      omega
    rw [List.foldl_cons, fold_zero xs _ hxs, addTerm, if_pos hx]

theorem fold_one : ∀ (l : List Mono), nz l ≤ 1 →
    (l.foldl addTerm (0, [])).2 = [] ∨ ((l.foldl addTerm (0, [])).1 = 0 ∧ ∃ m, (l.foldl addTerm (0, [])).2 = [m])
  | [], _ => Or.inl rfl
  | x :: xs, h => by
    by_cases hx : x.c = 0
    · have hxs : nz xs ≤ 1 := by
        simp only [nz, List.countP_cons] at h ⊢
        omega
      rw [List.foldl_cons, show addTerm (0, []) x = (0, []) by simp [addTerm, hx]]
      exact fold_one xs hxs
    · have hxs : nz xs = 0 := by
        simp [nz, hx] at h ⊢
        exact h
      rw [List.foldl_cons, fold_zero xs _ hxs]
      unfold addTerm
      rw [if_neg hx]
      split_ifs
      · exact Or.inl rfl
      · exact Or.inr ⟨rfl, x, rfl⟩

theorem nz_append (a b : List Mono) : nz (a ++ b) = nz a + nz b := by simp [nz]

theorem mapM_cancel_nz : ∀ {l r : List Mono}, l.mapM Mono.cancel = .ok r → nz r = nz l
  | [], r, h => by
    have := (Except.ok.inj (show (Except.ok [] : Except Err (List Mono)) = .ok r from h)).symm
    subst this; rfl
  | x :: xs, r, h => by
    rw [List.mapM_cons] at h
    cases h1 : x.cancel with
    | error e => rw [h1] at h; cases h
    | ok y =>
      rw [h1] at h
      cases h2 : xs.mapM Mono.cancel with
      | error e => rw [h2] at h; cases h
      | ok ys =>
        rw [h2] at h
        have := (Except.ok.inj (show (Except.ok (y :: ys) : Except Err (List Mono)) = .ok r from h)).symm
        subst this
        have hy : y.c = x.c := (Mono.cancel_neg h1).1
        have ih := mapM_cancel_nz h2
        simp only [nz, List.countP_cons, hy] at ih ⊢
        omega

theorem nz_opp (l : List Mono) : nz (l.map Mono.opp) = nz l := by
  induction l with
  | nil => rfl
  | cons x xs ih => simp_all [nz, List.countP_cons, Mono.opp]

theorem single_split {c : ℚ} {terms : List Mono} (h : terms = [] ∨ (c = 0 ∧ ∃ m, terms = [m])) :
    (splitTerms c terms).Single := by
  rcases h with rfl | ⟨rfl, m, rfl⟩
  · exact Or.inr (by simp [splitTerms, sortM])
  · refine Or.inl ⟨rfl, ?_⟩
    by_cases h1 : 0 < m.c
    · have : ¬ m.c < 0 := by linarith
      simp [splitTerms, sortM, h1, this]
    · by_cases h2 : m.c < 0 <;> simp [splitTerms, sortM, h1, h2]

theorem collect_single {p p' : Poly} (h : p.collect = .ok p') (hc : p.c = 0) (hn : nz p.pos + nz p.neg ≤ 1) : p'.Single := by
  unfold Poly.collect at h
  cases h1 : p.pos.mapM Mono.cancel with
  | error e => rw [h1] at h; cases h
  | ok ps =>
    cases h2 : p.neg.mapM Mono.cancel with
    | error e => rw [h1, h2] at h; cases h
    | ok ns =>
      rw [h1, h2] at h
      have h3 : p' = splitTerms ((ns.map Mono.opp).foldl addTerm (ps.foldl addTerm (p.c, []))).1
          ((ns.map Mono.opp).foldl addTerm (ps.foldl addTerm (p.c, []))).2 := by
        have h4 : (Except.ok _ : Except Err Poly) = .ok p' := h
        simpa using h4.symm
      subst h3
      have e : (ns.map Mono.opp).foldl addTerm (ps.foldl addTerm (p.c, [])) =
          (ps ++ ns.map Mono.opp).foldl addTerm (0, []) := by rw [List.foldl_append, hc]
      rw [e]
      refine single_split (fold_one _ ?_)
      rw [nz_append, nz_opp, mapM_cancel_nz h1, mapM_cancel_nz h2]
      exact hn

theorem nz_le (l : List Mono) : nz l ≤ l.length := List.countP_le_length

theorem nz_scale0 (l : List Mono) : nz (scale 0 l) = 0 := by
  unfold nz scale
  rw [List.countP_eq_zero]
  intro m hm
  obtain ⟨x, _, rfl⟩ := List.mem_map.1 hm
  simp [Mono.combine]

theorem length_prods (l r : List Mono) : (prods l r).length = l.length * r.length := by
  induction l with
  | nil => simp [prods]
  | cons x xs ih =>
    have : prods (x :: xs) r = r.map (fun y => x.combine y) ++ prods xs r := rfl
    rw [this, List.length_append, List.length_map, ih, List.length_cons]
    ring

theorem length_scale (c : ℚ) (l : List Mono) : (scale c l).length = l.length := by simp [scale]

theorem distribute_single {l r p : Poly} (hl : l.Single) (hr : r.Single) (h : l.distribute r = .ok p) : p.Single := by
  refine collect_single (p := distArg l r) h rfl ?_
  simp only [distArg, nz_append]
  have a1 := nz_le (scale r.c l.pos)
  have a2 := nz_le (scale l.c r.pos)
  have a3 := nz_le (prods l.pos r.pos)
  have a4 := nz_le (prods l.neg r.neg)
  have b1 := nz_le (scale r.c l.neg)
  have b2 := nz_le (scale l.c r.neg)
  have b3 := nz_le (prods l.pos r.neg)
  have b4 := nz_le (prods l.neg r.pos)
  rw [length_scale] at a1 a2 b1 b2
  rw [length_prods] at a3 a4 b3 b4
  rcases hl with ⟨hl0, hl⟩ | hl
  · have z1 : nz (scale l.c r.pos) = 0 := by rw [hl0]; exact nz_scale0 _
    have z2 : nz (scale l.c r.neg) = 0 := by rw [hl0]; exact nz_scale0 _
    rcases hr with ⟨hr0, hr⟩ | hr
    · have z3 : nz (scale r.c l.pos) = 0 := by rw [hr0]; exact nz_scale0 _
      have z4 : nz (scale r.c l.neg) = 0 := by rw [hr0]; exact nz_scale0 _
      generalize l.pos.length = a at *
      generalize l.neg.length = b at *
      generalize r.pos.length = c at *
      generalize r.neg.length = d at *
      have key : a * c + b * d + a * d + b * c ≤ 1 := by
        calc a * c + b * d + a * d + b * c = (a + b) * (c + d) := by ring
          _ ≤ 1 * 1 := Nat.mul_le_mul hl hr
      omega
    · have c0 : r.pos.length = 0 := by omega
      have d0 : r.neg.length = 0 := by omega
      rw [c0] at a3 b4
      rw [d0] at a4 b3
      omega
  · have c0 : l.pos.length = 0 := by omega
    have d0 : l.neg.length = 0 := by omega
    rw [c0] at a3 b3
    rw [d0] at a4 b4
    rcases hr with ⟨hr0, hr⟩ | hr <;> omega

/-! ## What is made of a sum is shown -/

/-- The result of parsing a sum. -/
structure SumOK (e : E) : Prop where
  shown : e.shown = true
  level : 7 ≤ e.level
  tight : e.asPoly.Tight
  noset : e.setOf = none

/-- The result of parsing a product. -/
structure ProdOK (e : E) : Prop extends SumOK e where
  single : e.asPoly.Single
  some : e.constVal = none → e.asPoly.pos.length + e.asPoly.neg.length ≠ 0

theorem numLevel_le (q : ℚ) : 9 ≤ numLevel q := by
  unfold numLevel; split_ifs <;> omega

theorem const_ok (q : ℚ) : ProdOK (E.const q) where
  shown := by simp [E.shown, E.shownL, Head.fits]
  level := by
    have := numLevel_le q
    simp only [E.level, Head.level]; omega
  tight := by
    simp only [E.asPoly, E.asMono, Mono.asPoly]
    exact ⟨by simp, by simp⟩
  noset := rfl
  single := Or.inr (by simp [E.asPoly, E.asMono, Mono.asPoly])
  some := by simp [E.constVal]

theorem tight_ok {e : E} (h : Verif.Tight e) : ProdOK e where
  shown := h.1
  level := by have := atomic_level h.2; omega
  tight := by
    rw [(atomic_facts h.2).1]
    refine ⟨?_, by simp⟩
    intro m hm
    have : m = ⟨1, [e], []⟩ := by simpa using hm
    subst this
    exact ⟨by simpa using h, by simp⟩
  noset := (atomic_facts h.2).2.2.1
  single := by rw [(atomic_facts h.2).1]; exact Or.inl ⟨rfl, by simp⟩
  some := by rw [(atomic_facts h.2).1]; simp

theorem shownL_of {l : List E} (h : ∀ x ∈ l, x.shown = true) : E.shownL l = true := by
  rw [shownL_eq, List.all_eq_true]; exact h

theorem ring_shown {lvl : ℕ} {identity c : ℚ} {pos neg : List ℕ} (hl : lvl ≤ 9) (hp : ∀ x ∈ pos, lvl < x)
    (hn : ∀ x ∈ neg, lvl < x) : ringShown lvl identity c pos neg = true := by
  have := numLevel_le c
  have an : neg.all (fun l => decide (lvl < l)) = true := by simpa using hn
  have ap : pos.all (fun l => decide (lvl < l)) = true := by simpa using hp
  unfold ringShown
  rw [an, Bool.and_true]
  split_ifs
  · rw [ap, Bool.and_true]
    exact decide_eq_true (by omega)
  · rcases pos with _ | ⟨x, xs⟩
    · rfl
    · have h1 := hp x (by simp)
      have h2 : xs.all (fun l => decide (lvl < l)) = true := by
        simpa using fun y hy => hp y (by simp [hy])
      simp only [h2, Bool.and_true]
      exact decide_eq_true (by omega)

theorem ring_level {lvl : ℕ} {identity c : ℚ} {pos : List ℕ} {n : ℕ} (hl : lvl ≤ 9) (hp : ∀ x ∈ pos, lvl ≤ x) :
    lvl ≤ ringLevel lvl identity c pos n := by
  have := numLevel_le c
  unfold ringLevel
  split
  · omega
  · split_ifs
    · exact hp _ (by simp)
    · omega
  · omega

theorem Mono.Tight.shown {m : Mono} (h : m.Tight) : m.toE.shown = true ∧ 8 ≤ m.toE.level := by
  have hp : ∀ x ∈ E.levels m.pos, 8 < x := by
    intro x hx
    rw [levels_eq] at hx
    obtain ⟨e, he, rfl⟩ := List.mem_map.1 hx
    have := atomic_level (h.1 e he).2
    omega
  have hn : ∀ x ∈ E.levels m.neg, 8 < x := by
    intro x hx
    rw [levels_eq] at hx
    obtain ⟨e, he, rfl⟩ := List.mem_map.1 hx
    have := atomic_level (h.2 e he).2
    omega
  constructor
  · rw [Mono.toE, E.shown, shownL_of fun x hx => (h.1 x hx).1, shownL_of fun x hx => (h.2 x hx).1]
    exact ring_shown (by omega) hp hn
  · rw [Mono.toE, E.level]
    exact ring_level (by omega) fun x hx => (hp x hx).le

theorem Poly.Tight.shown {p : Poly} (h : p.Tight) : p.toE.shown = true ∧ 7 ≤ p.toE.level := by
  have hp : ∀ x ∈ E.levels (p.pos.map Mono.toE), 7 < x := by
    intro x hx
    rw [levels_eq, List.map_map] at hx
    obtain ⟨m, hm, rfl⟩ := List.mem_map.1 hx
    have := (h.1 m hm).shown.2
    simp only [Function.comp]; omega
  have hn : ∀ x ∈ E.levels (p.neg.map Mono.toE), 7 < x := by
    intro x hx
    rw [levels_eq, List.map_map] at hx
    obtain ⟨m, hm, rfl⟩ := List.mem_map.1 hx
    have := (h.2 m hm).shown.2
    simp only [Function.comp]; omega
  have s1 : E.shownL (p.pos.map Mono.toE) = true := shownL_of fun x hx => by
    obtain ⟨m, hm, rfl⟩ := List.mem_map.1 hx
    exact (h.1 m hm).shown.1
  have s2 : E.shownL (p.neg.map Mono.toE) = true := shownL_of fun x hx => by
    obtain ⟨m, hm, rfl⟩ := List.mem_map.1 hx
    exact (h.2 m hm).shown.1
  constructor
  · rw [Poly.toE, E.shown, s1, s2]
    exact ring_shown (by omega) hp hn
  · rw [Poly.toE, E.level]
    exact ring_level (by omega) fun x hx => (hp x hx).le

theorem Mono.asPoly_toE (m : Mono) : m.toE.asPoly = m.asPoly := rfl

theorem mono_ok {m : Mono} (h : m.Tight) (hne : ¬ (m.pos = [] ∧ m.neg = [])) : ProdOK m.toE where
  shown := h.shown.1
  level := by have := h.shown.2; omega
  tight := by rw [Mono.asPoly_toE]; exact h.asPoly
  noset := rfl
  single := by rw [Mono.asPoly_toE]; exact m.single
  some := by
    intro _
    rw [Mono.asPoly_toE, Mono.asPoly, if_neg hne]
    split_ifs <;> simp

theorem Mono.Tight.simplify {m : Mono} (h : m.Tight) : ProdOK m.simplify := by
  obtain ⟨c, p, n⟩ := m
  unfold Mono.simplify
  split
  · exact const_ok _
  · rename_i e h1 h2
    simp only at h1 h2; subst h1 h2
    split_ifs
    · exact tight_ok (h.1 e (by simp))
    · exact mono_ok h (by simp)
  · rename_i h1 _
    exact mono_ok h fun hh => h1 hh.1 hh.2

theorem Poly.Tight.simplify {p : Poly} (h : p.Tight) : SumOK p.simplify := by
  have gen : SumOK p.toE := ⟨h.shown.1, h.shown.2, by rw [Poly.toE_asPoly]; exact h, rfl⟩
  obtain ⟨c, ps, ns⟩ := p
  unfold Poly.simplify
  split
  · exact (const_ok _).toSumOK
  · rename_i m h1 h2
    simp only at h1 h2; subst h1 h2
    split_ifs
    · exact (h.1 m (by simp)).simplify.toSumOK
    · exact gen
  · rename_i m h1 h2
    simp only at h1 h2; subst h1 h2
    split_ifs
    · exact (h.2 m (by simp)).opp.simplify.toSumOK
    · exact gen
  · exact gen

theorem Poly.Tight.simplify_single {p : Poly} (h : p.Tight) (hs : p.Single) : ProdOK p.simplify := by
  obtain ⟨c, ps, ns⟩ := p
  unfold Poly.Single at hs
  unfold Poly.simplify
  split
  · exact const_ok _
  · rename_i m h1 h2
    simp only at h1 h2; subst h1 h2
    rw [if_pos (by simpa using hs)]
    exact (h.1 m (by simp)).simplify
  · rename_i m h1 h2
    simp only at h1 h2; subst h1 h2
    rw [if_pos (by simpa using hs)]
    exact (h.2 m (by simp)).opp.simplify
  · rename_i h1 h2 h3
    simp only at h1 h2 h3
    exfalso
    rcases ps with _ | ⟨x, _ | ⟨y, ps⟩⟩ <;> rcases ns with _ | ⟨z, _ | ⟨w, ns⟩⟩ <;> simp_all
    all_goals omega

theorem reciprocal_tight {r : Poly} {m : Mono} (h : reciprocal r = .ok m) (w : r.Tight) (hs : r.Single) : m.Tight := by
  have inv : ∀ x y : Mono, x.Tight → x.inv = .ok y → y.Tight := by
    intro x y hx hi
    unfold Mono.inv at hi
    split_ifs at hi
    have := (Except.ok.inj hi).symm; subst this
    exact ⟨hx.2, hx.1⟩
  obtain ⟨c, ps, ns⟩ := r
  unfold Poly.Single at hs
  unfold reciprocal at h
  split at h
  · split_ifs at h
    have := (Except.ok.inj h).symm; subst this
    exact ⟨by simp, by simp⟩
  · rename_i x h1 h2
    simp only at h1 h2; subst h1 h2
    rw [if_pos (by simpa using hs)] at h
    exact inv x m (w.1 x (by simp)) h
  · rename_i x h1 h2
    simp only at h1 h2; subst h1 h2
    rw [if_pos (by simpa using hs)] at h
    cases hi : x.inv with
    | error e => simp [hi, Except.map] at h
    | ok y =>
      have : m = y.opp := by simpa [hi, Except.map] using h.symm
      subst this; exact (inv x y (w.2 x (by simp)) hi).opp
  · rename_i h1 h2 h3
    simp only at h1 h2 h3
    exfalso
    rcases ps with _ | ⟨x, _ | ⟨y, ps⟩⟩ <;> rcases ns with _ | ⟨z, _ | ⟨w, ns⟩⟩ <;> simp_all
    all_goals omega

theorem powN_tight {m : Mono} (h : m.Tight) (n : ℕ) (c : ℚ) :
    (⟨c, sortE (repeatL n m.pos), sortE (repeatL n m.neg)⟩ : Mono).Tight ∧
    (⟨c, sortE (repeatL n m.neg), sortE (repeatL n m.pos)⟩ : Mono).Tight :=
  ⟨⟨fun x hx => h.1 x (mem_repeatL hx), fun x hx => h.2 x (mem_repeatL hx)⟩,
   ⟨fun x hx => h.2 x (mem_repeatL hx), fun x hx => h.1 x (mem_repeatL hx)⟩⟩

theorem sing_ok {m : Mono} (h : m.Tight) :
    ProdOK (Poly.simplify ⟨0, [m], []⟩) ∧ ProdOK (Poly.simplify ⟨0, [], [m]⟩) := by
  constructor
  · exact Poly.Tight.simplify_single ⟨by simpa using h, by simp⟩ (Or.inl ⟨rfl, by simp⟩)
  · exact Poly.Tight.simplify_single ⟨by simp, by simpa using h⟩ (Or.inl ⟨rfl, by simp⟩)

theorem powPos_ok {l : Poly} {n : ℕ} (w : l.Tight) (hs : l.Single) (hne : l.pos.length + l.neg.length ≠ 0) :
    ProdOK (powPos l n) := by
  obtain ⟨c, ps, ns⟩ := l
  have hc : c = 0 := by
    rcases hs with hs | hs
    · exact hs.1
    · exact (hne hs).elim
  have hlen : ps.length + ns.length ≤ 1 := by
    rcases hs with hs | hs
    · exact hs.2
    · exact (hne hs).elim
  have hne' : ps.length + ns.length ≠ 0 := hne
  subst hc
  unfold powPos
  split
  · rename_i m h1 h2
    simp only at h1 h2; subst h1 h2
    rw [if_pos rfl]
    exact (sing_ok (powN_tight (w.1 m (by simp)) n _).1).1
  · rename_i m h1 h2
    simp only at h1 h2; subst h1 h2
    rw [if_pos rfl]
    split_ifs
    · exact (sing_ok (powN_tight (w.2 m (by simp)) n _).1).1
    · exact (sing_ok (powN_tight (w.2 m (by simp)) n _).1).2
  · rename_i h1 h2
    simp only at h1 h2
    exfalso
    rcases ps with _ | ⟨x, _ | ⟨y, ps⟩⟩ <;> rcases ns with _ | ⟨z, _ | ⟨w, ns⟩⟩ <;> simp_all
    omega

theorem powNeg_prod {l : Poly} {n : ℕ} {e : E} (h : powNeg l n = .ok e) (w : l.Tight) (hs : l.Single)
    (hne : l.pos.length + l.neg.length ≠ 0) : ProdOK e := by
  have inv : ∀ x y : Mono, x.Tight → x.powNegN n = .ok y → y.Tight := by
    intro x y hx hi
    unfold Mono.powNegN at hi
    split_ifs at hi
    have := (Except.ok.inj hi).symm; subst this
    exact (powN_tight hx n _).2
  obtain ⟨c, ps, ns⟩ := l
  have hc : c = 0 := by
    rcases hs with hs | hs
    · exact hs.1
    · exact (hne hs).elim
  have hlen : ps.length + ns.length ≤ 1 := by
    rcases hs with hs | hs
    · exact hs.2
    · exact (hne hs).elim
  have hne' : ps.length + ns.length ≠ 0 := hne
  subst hc
  unfold powNeg at h
  split at h
  · rename_i m h1 h2
    simp only at h1 h2; subst h1 h2
    simp only [if_true] at h
    cases hi : m.powNegN n with
    | error e => simp [hi, Except.map] at h
    | ok y =>
      simp only [hi, Except.map] at h
      have := (Except.ok.inj h).symm; subst this
      exact (sing_ok (inv m y (w.1 m (by simp)) hi)).1
  · rename_i m h1 h2
    simp only at h1 h2; subst h1 h2
    simp only [if_true] at h
    cases hi : m.powNegN n with
    | error e => simp [hi, Except.map] at h
    | ok y =>
      simp only [hi, Except.map] at h
      have := (Except.ok.inj h).symm; subst this
      split_ifs
      · exact (sing_ok (inv m y (w.2 m (by simp)) hi)).1
      · exact (sing_ok (inv m y (w.2 m (by simp)) hi)).2
  · rename_i h1 h2
    simp only at h1 h2
    exfalso
    rcases ps with _ | ⟨x, _ | ⟨y, ps⟩⟩ <;> rcases ns with _ | ⟨z, _ | ⟨w, ns⟩⟩ <;> simp_all
    omega

/-! ## Parsing -/

/-- What is true of the result, depending on where the expression stands. -/
def Part.OK : Part → E → Prop
  | .product, e => ProdOK e
  | .sum, e => SumOK e
  | .whole, e => e.shown = true

theorem SumOK.toOK {e : E} (h : SumOK e) {m : Part} (hm : m ≠ .product) : m.OK e := by
  cases m with
  | product => exact (hm rfl).elim
  | sum => exact h
  | whole => exact h.shown

theorem ProdOK.toOK {e : E} (h : ProdOK e) (m : Part) : m.OK e := by
  cases m with
  | product => exact h
  | sum => exact h.toSumOK
  | whole => exact h.shown

/-- Where the operands of `*` and of a sign stand. -/
def Part.inner (m : Part) : Part := if m = .whole then .sum else m

theorem Part.OK.sum {m : Part} {e : E} (h : m.inner.OK e) : SumOK e := by
  cases m with
  | product => exact h.toSumOK
  | sum => exact h
  | whole => exact h

theorem map_simplify {x : Except Err Poly} {e : E} (h : x.map Poly.simplify = .ok e) : ∃ q, x = .ok q ∧ e = q.simplify := by
  cases x with
  | error _ => simp [Except.map] at h
  | ok q => exact ⟨q, rfl, by simpa [Except.map] using h.symm⟩

/-- The operators of arithmetic. -/
theorem ok_binary {op : PyOp} (hop : op = .add ∨ op = .sub ∨ op = .mul ∨ op = .div) {l r e : E} (h : binary op l r = .ok e)
    (hl : SumOK l) (hr : SumOK r) (hd : op = .div → ProdOK r) : SumOK e := by
  have fc : ∀ a b, foldConst op a b = .ok e → SumOK e := by
    intro a b h
    rcases hop with rfl | rfl | rfl | rfl <;> simp only [foldConst] at h
    · have := (Except.ok.inj h).symm; subst this; exact (const_ok _).toSumOK
    · have := (Except.ok.inj h).symm; subst this; exact (const_ok _).toSumOK
    · have := (Except.ok.inj h).symm; subst this; exact (const_ok _).toSumOK
    · split_ifs at h
      have := (Except.ok.inj h).symm; subst this; exact (const_ok _).toSumOK
  unfold binary at h
  split at h
  · exact fc _ _ h
  · by_cases hc : ((l.constVal.isSome || l.setOf.isSome) && (r.constVal.isSome || r.setOf.isSome)) = true
    · rw [if_pos hc] at h; cases h
    rw [if_neg hc] at h
    rcases hop with rfl | rfl | rfl | rfl <;> simp only at h
    · split_ifs at h
      obtain ⟨q, hq, rfl⟩ := map_simplify h
      exact (hl.tight.combine hr.tight hq).simplify
    · split_ifs at h
      obtain ⟨q, hq, rfl⟩ := map_simplify h
      exact (hl.tight.combine hr.tight.negate hq).simplify
    · split_ifs at h
      obtain ⟨q, hq, rfl⟩ := map_simplify h
      exact (hl.tight.distribute hr.tight hq).simplify
    · split_ifs at h
      cases hm : reciprocal r.asPoly with
      | error _ => rw [hm] at h; cases h
      | ok m =>
        rw [hm] at h
        obtain ⟨q, hq, rfl⟩ := map_simplify h
        exact (hl.tight.distribute (reciprocal_tight hm hr.tight (hd rfl).single).asPoly hq).simplify

theorem ok_binary_prod {op : PyOp} (hop : op = .mul ∨ op = .div) {l r e : E} (h : binary op l r = .ok e)
    (hl : ProdOK l) (hr : ProdOK r) : ProdOK e := by
  have fc : ∀ a b, foldConst op a b = .ok e → ProdOK e := by
    intro a b h
    rcases hop with rfl | rfl <;> simp only [foldConst] at h
    · have := (Except.ok.inj h).symm; subst this; exact const_ok _
    · split_ifs at h
      have := (Except.ok.inj h).symm; subst this; exact const_ok _
  unfold binary at h
  split at h
  · exact fc _ _ h
  · by_cases hc : ((l.constVal.isSome || l.setOf.isSome) && (r.constVal.isSome || r.setOf.isSome)) = true
    · rw [if_pos hc] at h; cases h
    rw [if_neg hc] at h
    rcases hop with rfl | rfl <;> simp only at h
    · split_ifs at h
      obtain ⟨q, hq, rfl⟩ := map_simplify h
      exact (hl.tight.distribute hr.tight hq).simplify_single (distribute_single hl.single hr.single hq)
    · split_ifs at h
      cases hm : reciprocal r.asPoly with
      | error _ => rw [hm] at h; cases h
      | ok m =>
        rw [hm] at h
        obtain ⟨q, hq, rfl⟩ := map_simplify h
        exact (hl.tight.distribute (reciprocal_tight hm hr.tight hr.single).asPoly hq).simplify_single
          (distribute_single hl.single m.single hq)

/-- The operands of `**`, `//`, `%` and `^`: names, calls and numbers. -/
def Plain (e : E) : Prop := e.shown = true ∧ (e.simple = true ∨ ∃ q, e = E.const q)

theorem Plain.level {e : E} (h : Plain e) : 9 ≤ e.level := by
  rcases h.2 with h | ⟨q, rfl⟩
  · rw [simple_level h]; omega
  · simpa [E.level, Head.level] using numLevel_le q

theorem shown_binop {op : PyOp} {l r : E} (hs : op.stays = true) (hl : l.shown = true) (hr : r.shown = true)
    (h1 : (if op = .pow then 11 else op.prec) ≤ l.level) (h2 : op.right ≤ r.level) : (mkBinOp op l r).shown = true := by
  have ho : opOf op.fcn = op := by cases op <;> first | rfl | simp [PyOp.stays] at hs
  have hm : op.fcn ∈ ["numpy.floor_divide", "fmod", "pow", "xor"] := by
    cases op <;> first | (simp [PyOp.stays] at hs; done) | simp [PyOp.fcn]
  simp only [mkBinOp, E.shown, E.shownL, hl, hr, Head.fits, ho, Bool.and_true, Bool.true_and, Bool.and_eq_true,
    Bool.or_eq_true, decide_eq_true_eq]
  exact ⟨hm, Or.inr h1, Or.inr h2⟩

theorem ok_pow {l r e : E} (h : binary .pow l r = .ok e) (hl : ProdOK l)
    (hr : (∃ q, r = E.const q ∧ q.den = 1 ∧ ((1 ≤ q ∧ q < 5) ∨ (-5 < q ∧ q ≤ -1))) ∨ (l.simple = true ∧ Plain r)) :
    ProdOK e := by
  unfold binary at h
  split at h
  · cases h
  · by_cases hc : ((l.constVal.isSome || l.setOf.isSome) && (r.constVal.isSome || r.setOf.isSome)) = true
    · rw [if_pos hc] at h; cases h
    rw [if_neg hc] at h
    simp only at h
    have hlc : r.constVal.isSome = true → l.constVal = none := by
      intro hr
      cases hl : l.constVal with
      | none => rfl
      | some a => simp [hl, hr] at hc
    unfold binPow at h
    cases hrc : r.constVal with
    | none =>
      rw [hrc] at h
      simp only at h
      rcases hr with ⟨q, rfl, _⟩ | ⟨hls, hrp⟩
      · simp [E.constVal] at hrc
      split_ifs at h
      have := (Except.ok.inj h).symm; subst this
      refine tight_ok ⟨shown_binop rfl hl.shown hrp.1 ?_ ?_, rfl⟩
      · rw [simple_level hls]; decide
      · exact hrp.level
    | some q =>
      have hne := hl.some (hlc (by simp [hrc]))
      rw [hrc] at h
      simp only at h
      split_ifs at h with h1 h2
      · have := (Except.ok.inj h).symm; subst this
        exact powPos_ok hl.tight hl.single hne
      · exact powNeg_prod h hl.tight hl.single hne
      · rcases hr with ⟨q', rfl, hq1, hq2⟩ | ⟨hls, hrp⟩
        · have : q' = q := by simpa [E.constVal] using hrc
          subst this
          rcases hq2 with hq2 | hq2
          · exact (h1 ⟨hq1, hq2⟩).elim
          · exact (h2 ⟨hq1, hq2⟩).elim
        have := (Except.ok.inj h).symm; subst this
        refine tight_ok ⟨shown_binop rfl hl.shown hrp.1 ?_ ?_, rfl⟩
        · rw [simple_level hls]; decide
        · exact hrp.level

theorem ok_stays {op : PyOp} (hop : op = .floordiv ∨ op = .mod ∨ op = .xor) {l r e : E} (h : binary op l r = .ok e)
    (hl : Plain l) (hr : Plain r) : e.shown = true := by
  unfold binary at h
  split at h
  · rcases hop with rfl | rfl | rfl <;> cases h
  · by_cases hc : ((l.constVal.isSome || l.setOf.isSome) && (r.constVal.isSome || r.setOf.isSome)) = true
    · rw [if_pos hc] at h; cases h
    rw [if_neg hc] at h
    have h1 := hl.level
    have h2 := hr.level
    rcases hop with rfl | rfl | rfl <;> simp only at h <;>
      (have := (Except.ok.inj h).symm; subst this; refine shown_binop rfl hl.1 hr.1 ?_ ?_) <;>
      simp [PyOp.prec, PyOp.right] <;> omega

theorem ok_minus {e x : E} (h : unaryMinus e = .ok x) : (SumOK e → SumOK x) ∧ (ProdOK e → ProdOK x) := by
  unfold unaryMinus at h
  split at h
  · have := (Except.ok.inj h).symm; subst this
    exact ⟨fun _ => (const_ok _).toSumOK, fun _ => const_ok _⟩
  · split_ifs at h
    have := (Except.ok.inj h).symm; subst this
    exact ⟨fun w => w.tight.negate.simplify, fun w => w.tight.negate.simplify_single w.single.negate⟩

theorem shown_rel {c : RelOp} {l r : E} (hl : l.shown = true) (hr : r.shown = true) (h1 : 7 ≤ l.level) (h2 : 3 ≤ r.level)
    (hc : (c = .isin ∨ c = .notin) → r.setOf.isSome = true) (hls : l.setOf = none) :
    (E.node (.rel c) [l, r] []).shown = true := by
  have h1' : 3 ≤ l.level := by omega
  simp only [E.shown, E.shownL, hl, hr, Head.fits, Bool.and_true, Bool.true_and, Bool.and_eq_true, decide_eq_true_eq]
  exact ⟨⟨⟨h1', h2⟩, hc⟩, hls⟩

theorem ok_rel {op : PyCmp} {l r e : E} (h : mkRel op l r = .ok e) (hop : ¬ (op = .isin ∨ op = .notin)) (hl : SumOK l)
    (hr : SumOK r) : e.shown = true := by
  have key : ∀ c : RelOp, ¬ (c = .isin ∨ c = .notin) → ∀ a b : E, SumOK a → SumOK b →
      (E.node (.rel c) [a, b] []).shown = true := fun c hc a b ha hb =>
    shown_rel ha.shown hb.shown ha.level (by have := hb.level; omega) (fun h => (hc h).elim) ha.noset
  have s : SumOK (sort2 l r).1 ∧ SumOK (sort2 l r).2 := by
    unfold sort2
    split_ifs
    · exact ⟨hr, hl⟩
    · exact ⟨hl, hr⟩
  cases op <;> simp only [mkRel] at h <;> first
    | exact absurd (Or.inl rfl) hop
    | exact absurd (Or.inr rfl) hop
    | (have := (Except.ok.inj h).symm; subst this
       first
       | exact key _ (by simp) _ _ s.1 s.2
       | exact key _ (by simp) _ _ hl hr
       | exact key _ (by simp) _ _ hr hl)

theorem parse_numVal {sc : Scope} {b : Bool} {s : Py} {q : ℚ} (hs : s.numVal = some q) {e : E}
    (h : Py.parse sc b s = .ok e) : e = E.const q := by
  unfold Py.numVal at hs
  split at hs
  · have := Option.some.inj hs; subst this
    rw [Py.parse] at h
    exact (Except.ok.inj h).symm
  · have := Option.some.inj hs; subst this
    rw [Py.parse, Py.parse] at h
    exact (Except.ok.inj h).symm
  · cases hs

theorem parse_base {sc : Scope} (hd : ∀ s, sc.defs s = none) {b : Bool} {s : Py} (hs : s.isBase = true) {e : E}
    (h : Py.parse sc b s = .ok e) : e.simple = true := by
  cases s <;> simp only [Py.isBase, Bool.false_eq_true] at hs
  · rw [Py.parse, hd] at h
    have := (Except.ok.inj h).symm; subst this; rfl
  · rw [Py.parse] at h
    split_ifs at h
    rename_i f args _
    cases ha : Py.parseArgs sc (decide (f = "where")) args with
    | error _ => rw [ha] at h; cases h
    | ok as =>
      rw [ha] at h
      have := (Except.ok.inj h).symm; subst this; rfl

theorem plain_of {sc : Scope} (hd : ∀ s, sc.defs s = none) {b : Bool} {s : Py} (hs : (s.isBase || s.numVal.isSome) = true) {e : E}
    (h : Py.parse sc b s = .ok e) (he : e.shown = true) : Plain e := by
  refine ⟨he, ?_⟩
  rw [Bool.or_eq_true] at hs
  rcases hs with hs | hs
  · exact Or.inl (parse_base hd hs h)
  · obtain ⟨q, hq⟩ := Option.isSome_iff_exists.1 hs
    exact Or.inr ⟨q, parse_numVal hq h⟩

mutual
theorem parse_flat {sc : Scope} (hd : ∀ s, sc.defs s = none) : ∀ (s : Py) (b : Bool) (m : Part) (e : E),
    Py.parse sc b s = .ok e → s.flat m = true → m.OK e
  | .num q, b, m, e, h, _ => by
    rw [Py.parse] at h
    have := (Except.ok.inj h).symm; subst this
    exact (const_ok q).toOK m
  | .set l, b, m, e, _, hf => by simp [Py.flat] at hf
  | .name s, b, m, e, h, _ => by
    rw [Py.parse, hd] at h
    have := (Except.ok.inj h).symm; subst this
    exact (tight_ok ⟨by simp [E.shown, E.shownL, Head.fits], rfl⟩).toOK m
  | .neg a, b, m, e, h, hf => by
    rw [Py.parse] at h
    cases ha : Py.parse sc false a with
    | error _ => rw [ha] at h; cases h
    | ok x =>
      rw [ha] at h
      rw [Py.flat] at hf
      have ih : m.inner.OK x := parse_flat hd a false m.inner x ha hf
      have hm := ok_minus (show unaryMinus x = .ok e from h)
      cases m with
      | product => exact hm.2 ih
      | sum => exact hm.1 ih
      | whole => exact (hm.1 ih).shown
  | .plus a, b, m, e, h, hf => by
    rw [Py.parse] at h
    rw [Py.flat] at hf
    have ih : m.inner.OK e := parse_flat hd a false m.inner e h hf
    cases m with
    | product => exact ih
    | sum => exact ih
    | whole => exact ih.sum.shown
  | .invert a, b, m, e, _, hf => by simp [Py.flat] at hf
  | .bin op a c, b, m, e, h, hf => by
    rw [Py.parse] at h
    cases ha : Py.parse sc false a with
    | error _ => rw [ha] at h; cases h
    | ok l =>
      cases hb : Py.parse sc false c with
      | error _ => rw [ha, hb] at h; cases h
      | ok r =>
        rw [ha, hb] at h
        have h : binary op l r = .ok e := h
        have ia := fun m => parse_flat hd a false m l ha
        have ib := fun m => parse_flat hd c false m r hb
        cases op with
        | add =>
          simp only [Py.flat, Bool.and_eq_true, decide_eq_true_eq] at hf
          exact (ok_binary (by simp) h (ia .sum hf.1.2) (ib .sum hf.2) (by simp)).toOK hf.1.1
        | sub =>
          simp only [Py.flat, Bool.and_eq_true, decide_eq_true_eq] at hf
          exact (ok_binary (by simp) h (ia .sum hf.1.2) (ib .sum hf.2) (by simp)).toOK hf.1.1
        | mul =>
          simp only [Py.flat, Bool.and_eq_true] at hf
          have i1 : m.inner.OK l := ia m.inner hf.1
          have i2 : m.inner.OK r := ib m.inner hf.2
          cases m with
          | product => exact ok_binary_prod (by simp) h i1 i2
          | sum => exact ok_binary (by simp) h i1 i2 (by simp)
          | whole => exact (ok_binary (by simp) h i1.sum i2.sum (by simp)).shown
        | div =>
          simp only [Py.flat, Bool.and_eq_true] at hf
          have i1 : m.inner.OK l := ia m.inner hf.1
          have i2 : ProdOK r := ib .product hf.2
          cases m with
          | product => exact ok_binary_prod (by simp) h i1 i2
          | sum => exact ok_binary (by simp) h i1 i2.toSumOK (fun _ => i2)
          | whole => exact (ok_binary (by simp) h i1.sum i2.toSumOK (fun _ => i2)).shown
        | pow =>
          simp only [Py.flat, Bool.and_eq_true] at hf
          obtain ⟨⟨h1, h2⟩, h3⟩ := hf
          have i1 : ProdOK l := ia .product h1
          have i2 : ProdOK r := ib .product h2
          refine (ok_pow h i1 ?_).toOK m
          rw [Bool.or_eq_true, Bool.and_eq_true] at h3
          rcases h3 with h3 | ⟨h3, h4⟩
          · left
            unfold Py.smallExp at h3
            cases hq : c.numVal with
            | none => rw [hq] at h3; cases h3
            | some q =>
              rw [hq] at h3
              exact ⟨q, parse_numVal hq hb, by simpa using h3⟩
          · exact Or.inr ⟨parse_base hd h3 ha, plain_of hd h4 hb i2.shown⟩
        | floordiv =>
          simp only [Py.flat, Bool.and_eq_true, decide_eq_true_eq] at hf
          obtain ⟨⟨⟨⟨rfl, h1⟩, h2⟩, h3⟩, h4⟩ := hf
          exact ok_stays (by simp) h (plain_of hd h3 ha (ia .product h1).shown) (plain_of hd h4 hb (ib .product h2).shown)
        | mod =>
          simp only [Py.flat, Bool.and_eq_true, decide_eq_true_eq] at hf
          obtain ⟨⟨⟨⟨rfl, h1⟩, h2⟩, h3⟩, h4⟩ := hf
          exact ok_stays (by simp) h (plain_of hd h3 ha (ia .product h1).shown) (plain_of hd h4 hb (ib .product h2).shown)
        | xor =>
          simp only [Py.flat, Bool.and_eq_true, decide_eq_true_eq] at hf
          obtain ⟨⟨⟨⟨rfl, h1⟩, h2⟩, h3⟩, h4⟩ := hf
          exact ok_stays (by simp) h (plain_of hd h3 ha (ia .product h1).shown) (plain_of hd h4 hb (ib .product h2).shown)
        | bitor => simp [Py.flat] at hf
        | bitand => simp [Py.flat] at hf
  | .compare a [op] [c], b, m, e, h, hf => by
    rw [Py.flat] at hf
    simp only [Bool.and_eq_true, decide_eq_true_eq] at hf
    obtain ⟨⟨rfl, h1⟩, h2⟩ := hf
    cases b with
    | false => rw [Py.parse] at h; cases h
    | true =>
      rw [Py.parse] at h
      cases ha : Py.parse sc false a with
      | error _ => rw [ha] at h; cases h
      | ok l =>
        have i1 : SumOK l := parse_flat hd a false .sum l ha h1
        cases hb : Py.parse sc false c with
        | error _ =>
          rw [ha] at h
          simp only [Py.parseChain, hb] at h
          cases h
        | ok r =>
          rw [ha] at h
          cases hx : mkRel op l r with
          | error _ =>
            simp only [Py.parseChain, hb, bind, Except.bind, hx] at h
            cases h
          | ok x =>
            have hex : e = x := by
              simp only [Py.parseChain, hb, bind, Except.bind, hx] at h
              exact (Except.ok.inj h).symm
            subst hex
            by_cases hop : op = .isin ∨ op = .notin
            · rw [if_pos hop] at h2
              cases c <;> simp only [Py.isDisplay, Bool.false_eq_true] at h2
              rename_i ls
              rw [Py.parse] at hb
              have := (Except.ok.inj hb).symm; subst this
              have hne : ls ≠ [] := by rintro rfl; simp at h2
              have hne' : ls.dedup.insertionSort (· ≤ ·) ≠ [] := by
                intro hh
                have h3 := List.perm_insertionSort (· ≤ ·) ls.dedup
                rw [hh] at h3
                have h4 := h3.nil_eq
                exact hne ((List.dedup_eq_nil _).1 h4.symm)
              have hshow : (E.node (.cset (ls.dedup.insertionSort (· ≤ ·))) [] []).shown = true := by
                simpa [E.shown, E.shownL, Head.fits] using hne'
              have hlev : 3 ≤ (E.node (.cset (ls.dedup.insertionSort (· ≤ ·))) [] []).level := by
                simp [E.level, Head.level]
              rcases hop with rfl | rfl
              · have := (Except.ok.inj (show (Except.ok _ : Except Err E) = .ok e from hx)).symm; subst this
                exact shown_rel i1.shown hshow i1.level hlev (fun _ => rfl) i1.noset
              · have := (Except.ok.inj (show (Except.ok _ : Except Err E) = .ok e from hx)).symm; subst this
                exact shown_rel i1.shown hshow i1.level hlev (fun _ => rfl) i1.noset
            · rw [if_neg hop] at h2
              exact ok_rel hx hop i1 (parse_flat hd c false .sum r hb h2)
  | .compare a [] cs, b, m, e, h, hf => by simp [Py.flat] at hf
  | .compare a (_ :: _ :: _) cs, b, m, e, h, hf => by simp [Py.flat] at hf
  | .compare a [_] [], b, m, e, h, hf => by simp [Py.flat] at hf
  | .compare a [_] (_ :: _ :: _), b, m, e, h, hf => by simp [Py.flat] at hf
  | .lnot a, b, m, e, h, hf => by
    cases b with
    | false => rw [Py.parse] at h; cases h
    | true =>
      cases a <;> simp only [Py.flat, Bool.and_false, Bool.false_eq_true, Bool.and_true, decide_eq_true_eq] at hf
      subst hf
      rw [Py.parse, Py.parse, hd] at h
      have := (Except.ok.inj (show (Except.ok _ : Except Err E) = .ok e from h)).symm
      subst this
      show E.shown _ = true
      simp [E.shown, E.shownL, Head.fits]
  | .land l, b, m, e, h, hf => by simp [Py.flat] at hf
  | .lor l, b, m, e, h, hf => by simp [Py.flat] at hf
  | .call f args, b, m, e, h, hf => by
    rw [Py.parse] at h
    split_ifs at h
    cases ha : Py.parseArgs sc (decide (f = "where")) args with
    | error _ => rw [ha] at h; cases h
    | ok as =>
      rw [ha] at h
      have := (Except.ok.inj h).symm; subst this
      rw [Py.flat] at hf
      have ih := parse_flatL hd args _ as ha hf
      exact (tight_ok ⟨by simp [E.shown, ih, E.shownL, Head.fits], rfl⟩).toOK m
theorem parse_flatL {sc : Scope} (hd : ∀ s, sc.defs s = none) : ∀ (l : List Py) (b : Bool) (es : List E),
    Py.parseArgs sc b l = .ok es → Py.flatL l = true → E.shownL es = true
  | [], b, es, h, _ => by
    rw [Py.parseArgs] at h
    have := (Except.ok.inj h).symm; subst this
    simp [E.shownL]
  | a :: as, b, es, h, hf => by
    rw [Py.flatL, Bool.and_eq_true] at hf
    rw [Py.parseArgs] at h
    cases ha : Py.parse sc b a with
    | error _ => rw [ha] at h; cases h
    | ok e =>
      cases hb : Py.parseArgs sc false as with
      | error _ => rw [ha, hb] at h; cases h
      | ok es' =>
        rw [ha, hb] at h
        have := (Except.ok.inj (show (Except.ok _ : Except Err (List E)) = .ok es from h)).symm; subst this
        have i1 : e.shown = true := parse_flat hd a b .whole e ha hf.1
        rw [E.shownL, i1, parse_flatL hd as false es' hb hf.2]
        rfl
end

end Verif
