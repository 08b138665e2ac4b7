import Verif.ExprLemmas

/-!
# Shapes of parsed expressions

Lemmas: what `Expr.parse` returns without definitions is well formed (`E.WF`): conditions are in
disjunctive normal form and never stand inside arithmetic.
-/

namespace Verif

/-- A relation or a predicate. -/
def E.isLit : E → Bool
  | .node (.rel _) _ _ => true
  | .node (.pred _ _) _ _ => true
  | _ => false

/-- A relation, a predicate, a conjunction or a disjunction. -/
def E.isLog : E → Bool
  | .node (.rel _) _ _ => true
  | .node (.pred _ _) _ _ => true
  | .node .land _ _ => true
  | .node .lor _ _ => true
  | _ => false

/-- Arithmetic: neither a condition nor a set. -/
def E.isAr : E → Bool
  | .node (.binop _) _ _ => true
  | .node (.call _) _ _ => true
  | .node (.const _) _ _ => true
  | .node (.name _) _ _ => true
  | .node (.plus _) _ _ => true
  | .node (.times _) _ _ => true
  | _ => false

theorem E.isAr_setOf {e : E} (h : e.isAr = true) : e.setOf = none := by
  obtain ⟨hd, p, n⟩ := e
  cases hd <;> first | rfl | simp [E.isAr] at h

theorem E.isAr_isLog {e : E} (h : e.isAr = true) : e.isLog = false := by
  obtain ⟨hd, p, n⟩ := e
  cases hd <;> first | rfl | simp [E.isAr] at h

/-- Conditions on one node. -/
def LocalWF : Head → List E → List E → Prop
  | .land, p, n => n = [] ∧ p ≠ [] ∧ ∀ x ∈ p, x.isLit = true
  | .lor, p, n => n = [] ∧ p ≠ [] ∧ ∀ x ∈ p, x.head = .land
  | .rel _, p, n => n = [] ∧ ∃ l r, p = [l, r]
  | .pred _ _, p, n => p = [] ∧ n = []
  | .name _, p, n => p = [] ∧ n = []
  | .const _, p, n => p = [] ∧ n = []
  | .cset _, p, n => p = [] ∧ n = []
  | .plus _, p, n => (∀ x ∈ p, ∃ m : Mono, x = m.toE) ∧ (∀ x ∈ n, ∃ m : Mono, x = m.toE)
  | .times _, p, n => (∀ x ∈ p, x.isAr = true) ∧ (∀ x ∈ n, x.isAr = true)
  | .binop _, _, n => n = []
  | .call _, _, n => n = []

/-- Well-formed expressions. -/
inductive E.WF : E → Prop
  | mk (h : Head) (p n : List E) : LocalWF h p n → (∀ x ∈ p, E.WF x) → (∀ x ∈ n, E.WF x) →
      E.WF (.node h p n)

theorem E.WF.local {h : Head} {p n : List E} (w : E.WF (.node h p n)) : LocalWF h p n := by
  cases w; assumption

theorem E.WF.pos {h : Head} {p n : List E} (w : E.WF (.node h p n)) : ∀ x ∈ p, x.WF := by
  cases w; assumption

theorem E.WF.neg {h : Head} {p n : List E} (w : E.WF (.node h p n)) : ∀ x ∈ n, x.WF := by
  cases w; assumption

/-- Factors are well-formed and not conditions. -/
def Mono.WF (m : Mono) : Prop :=
  (∀ x ∈ m.pos, x.WF ∧ x.isAr = true) ∧ (∀ x ∈ m.neg, x.WF ∧ x.isAr = true)

/-- Terms are well-formed. -/
def Poly.WF (p : Poly) : Prop := (∀ m ∈ p.pos, m.WF) ∧ (∀ m ∈ p.neg, m.WF)

theorem wf_const (q : ℚ) : (E.const q).WF :=
  .mk _ _ _ ⟨rfl, rfl⟩ (by simp) (by simp)

theorem Mono.WF.toE {m : Mono} (h : m.WF) : m.toE.WF ∧ m.toE.isAr = true :=
  ⟨.mk _ _ _ ⟨fun x hx => (h.1 x hx).2, fun x hx => (h.2 x hx).2⟩ (fun x hx => (h.1 x hx).1)
    (fun x hx => (h.2 x hx).1), rfl⟩

theorem Poly.WF.toE {p : Poly} (h : p.WF) : p.toE.WF ∧ p.toE.isAr = true := by
  refine ⟨.mk _ _ _ ⟨?_, ?_⟩ ?_ ?_, rfl⟩
  · intro x hx; obtain ⟨m, _, rfl⟩ := List.mem_map.1 hx; exact ⟨m, rfl⟩
  · intro x hx; obtain ⟨m, _, rfl⟩ := List.mem_map.1 hx; exact ⟨m, rfl⟩
  · intro x hx; obtain ⟨m, hm, rfl⟩ := List.mem_map.1 hx; exact (h.1 m hm).toE.1
  · intro x hx; obtain ⟨m, hm, rfl⟩ := List.mem_map.1 hx; exact (h.2 m hm).toE.1

theorem E.WF.asMono {e : E} (h : e.WF) (hl : e.isAr = true) : e.asMono.WF := by
  have gen : (⟨1, [e], []⟩ : Mono).WF := by
    refine ⟨?_, by simp⟩
    intro x hx; have : x = e := by simpa using hx
    subst this; exact ⟨h, hl⟩
  obtain ⟨hd, p, n⟩ := e
  cases hd <;> try exact gen
  · exact ⟨by simp [E.asMono], by simp [E.asMono]⟩
  · exact ⟨fun x hx => ⟨h.pos x hx, h.local.1 x hx⟩, fun x hx => ⟨h.neg x hx, h.local.2 x hx⟩⟩

theorem Mono.WF.asPoly {m : Mono} (h : m.WF) : m.asPoly.WF := by
  unfold Mono.asPoly
  split_ifs
  · exact ⟨by simp, by simp⟩
  · refine ⟨by simp, ?_⟩
    intro x hx
    have : x = ⟨-m.c, m.pos, m.neg⟩ := by simpa using hx
    subst this; exact h
  · refine ⟨?_, by simp⟩
    intro x hx
    have : x = m := by simpa using hx
    subst this; exact h

theorem E.WF.asPoly {e : E} (h : e.WF) (hl : e.isAr = true) : e.asPoly.WF := by
  obtain ⟨hd, p, n⟩ := e
  cases hd <;> try exact (E.WF.asMono h hl).asPoly
  refine ⟨?_, ?_⟩
  · intro m hm
    obtain ⟨x, hx, rfl⟩ := List.mem_map.1 hm
    obtain ⟨y, rfl⟩ := h.local.1 x hx
    exact (h.pos _ hx).asMono rfl
  · intro m hm
    obtain ⟨x, hx, rfl⟩ := List.mem_map.1 hm
    obtain ⟨y, rfl⟩ := h.local.2 x hx
    exact (h.neg _ hx).asMono rfl

theorem Mono.WF.cancel {m m' : Mono} (h : m.WF) (hc : m.cancel = .ok m') : m'.WF := by
  obtain ⟨_, hn, hs⟩ := Mono.cancel_neg hc
  refine ⟨fun x hx => h.1 x (hs.subset hx), fun x hx => h.2 x ?_⟩
  rw [hn] at hx; exact (List.mem_filter.1 hx).1

theorem Mono.WF.combine {x y : Mono} (hx : x.WF) (hy : y.WF) : (x.combine y).WF := by
  constructor <;> intro e he <;>
    rcases List.mem_append.1 ((sortE_perm _).mem_iff.1 he) with h | h
  · exact hx.1 e h
  · exact hy.1 e h
  · exact hx.2 e h
  · exact hy.2 e h

theorem Mono.WF.opp {m : Mono} (h : m.WF) : m.opp.WF := h

theorem mapM_mem {α β : Type} {f : α → Except Err β} {l : List α} {l' : List β}
    (h : l.mapM f = .ok l') : ∀ y ∈ l', ∃ x ∈ l, f x = .ok y := by
  induction l generalizing l' with
  | nil =>
    have : l' = [] := by
      have h2 : (Except.ok [] : Except Err (List β)) = .ok l' := h
      simpa using h2.symm
    subst this; simp
  | cons x xs ih =>
    rw [List.mapM_cons] at h
    cases h1 : f x with
    | error e => rw [h1] at h; cases h
    | ok y =>
      cases h2 : xs.mapM f with
      | error e => rw [h1, h2] at h; cases h
      | ok ys =>
        rw [h1, h2] at h
        have : l' = y :: ys := by
          have h3 : (Except.ok (y :: ys) : Except Err (List β)) = .ok l' := h
          simpa using h3.symm
        subst this
        intro z hz
        rcases List.mem_cons.1 hz with rfl | hz
        · exact ⟨x, by simp, h1⟩
        · obtain ⟨w, hw, e⟩ := ih h2 z hz
          exact ⟨w, by simp [hw], e⟩

theorem mergeTerm_wf {P : Mono → Prop} (hP : ∀ c p n c', P ⟨c, p, n⟩ → P ⟨c', p, n⟩) {x : Mono}
    {l : List Mono} (hx : P x) (hl : ∀ m ∈ l, P m) : ∀ m ∈ mergeTerm x l, P m := by
  induction l with
  | nil => simpa [mergeTerm] using hx
  | cons y ys ih =>
    simp only [mergeTerm]
    have hy := hl y (by simp)
    split_ifs with h
    · intro m hm
      rcases List.mem_cons.1 hm with rfl | hm
      · exact hP y.c y.pos y.neg _ hy
      · exact hl m (by simp [hm])
    · intro m hm
      rcases List.mem_cons.1 hm with rfl | hm
      · exact hy
      · exact ih (fun m hm => hl m (by simp [hm])) m hm

theorem foldTerms_wf {P : Mono → Prop} (hP : ∀ c p n c', P ⟨c, p, n⟩ → P ⟨c', p, n⟩)
    {l : List Mono} {acc : ℚ × List Mono} (hx : ∀ m ∈ l, P m) (hl : ∀ m ∈ acc.2, P m) :
    ∀ m ∈ (l.foldl addTerm acc).2, P m := by
  induction l generalizing acc with
  | nil => exact hl
  | cons x xs ih =>
    refine ih (acc := addTerm acc x) (fun m hm => hx m (by simp [hm])) ?_
    unfold addTerm
    split_ifs
    · exact hl
    · exact hl
    · exact mergeTerm_wf hP (hx x (by simp)) hl

/-- What holds for all cancelled terms, whatever the coefficient, holds for the collected terms. -/
theorem collect_terms {P : Mono → Prop} (hP : ∀ c p n c', P ⟨c, p, n⟩ → P ⟨c', p, n⟩) {p p' : Poly}
    (h : p.collect = .ok p') (hc : ∀ m m', (m ∈ p.pos ∨ m ∈ p.neg) → m.cancel = .ok m' → P m') :
    (∀ m ∈ p'.pos, P m ∧ 0 < m.c) ∧ (∀ m ∈ p'.neg, P m ∧ 0 < m.c) := by
  unfold Poly.collect at h
  cases h1 : p.pos.mapM Mono.cancel with
  | error e => rw [h1] at h; cases h
  | ok ps =>
    cases h2 : p.neg.mapM Mono.cancel with
    | error e => rw [h1, h2] at h; cases h
    | ok ns =>
      rw [h1, h2] at h
      have h3 : p' = splitTerms ((ns.map Mono.opp).foldl addTerm (ps.foldl addTerm (p.c, []))).1
          ((ns.map Mono.opp).foldl addTerm (ps.foldl addTerm (p.c, []))).2 := by
        have h4 : (Except.ok _ : Except Err Poly) = .ok p' := h
        simpa using h4.symm
      have a : ∀ m ∈ ((ns.map Mono.opp).foldl addTerm (ps.foldl addTerm (p.c, []))).2, P m := by
        refine foldTerms_wf hP ?_ (foldTerms_wf hP ?_ (by simp))
        · intro m hm
          obtain ⟨y, hy, rfl⟩ := List.mem_map.1 hm
          obtain ⟨x, hx, e⟩ := mapM_mem h2 y hy
          exact hP y.c y.pos y.neg _ (hc x y (.inr hx) e)
        · intro m hm
          obtain ⟨x, hx, e⟩ := mapM_mem h1 m hm
          exact hc x m (.inl hx) e
      subst h3
      constructor
      · intro m hm
        have := (sortM_perm _).mem_iff.1 hm
        obtain ⟨g1, g2⟩ := List.mem_filter.1 this
        exact ⟨a m g1, by simpa using g2⟩
      · intro m hm
        have := (sortM_perm _).mem_iff.1 hm
        obtain ⟨x, hx, rfl⟩ := List.mem_map.1 this
        obtain ⟨g1, g2⟩ := List.mem_filter.1 hx
        refine ⟨hP x.c x.pos x.neg _ (a x g1), ?_⟩
        have : x.c < 0 := by simpa using g2
        simpa [Mono.opp] using this

theorem Poly.WF.collect {p p' : Poly} (w : p.WF) (h : p.collect = .ok p') : p'.WF := by
  have := collect_terms (P := Mono.WF) (fun _ _ _ _ h => h) h (by
    rintro m m' (hm | hm) hc
    · exact (w.1 m hm).cancel hc
    · exact (w.2 m hm).cancel hc)
  exact ⟨fun m hm => (this.1 m hm).1, fun m hm => (this.2 m hm).1⟩

theorem Poly.WF.combine {l r p : Poly} (hl : l.WF) (hr : r.WF) (h : l.combine r = .ok p) : p.WF := by
  refine Poly.WF.collect ⟨?_, ?_⟩ h
  · intro m hm
    rcases List.mem_append.1 ((sortM_perm _).mem_iff.1 hm) with h | h
    · exact hl.1 m h
    · exact hr.1 m h
  · intro m hm
    rcases List.mem_append.1 ((sortM_perm _).mem_iff.1 hm) with h | h
    · exact hl.2 m h
    · exact hr.2 m h

theorem scale_wf {c : ℚ} {l : List Mono} (hl : ∀ m ∈ l, m.WF) : ∀ m ∈ scale c l, m.WF := by
  intro m hm
  obtain ⟨x, hx, rfl⟩ := List.mem_map.1 hm
  exact (hl x hx).combine ⟨by simp, by simp⟩

theorem prods_wf {l r : List Mono} (hl : ∀ m ∈ l, m.WF) (hr : ∀ m ∈ r, m.WF) :
    ∀ m ∈ prods l r, m.WF := by
  intro m hm
  obtain ⟨x, hx, hm⟩ := List.mem_flatMap.1 hm
  obtain ⟨y, hy, rfl⟩ := List.mem_map.1 hm
  exact (hl x hx).combine (hr y hy)

theorem Poly.WF.distribute {l r p : Poly} (hl : l.WF) (hr : r.WF) (h : l.distribute r = .ok p) :
    p.WF := by
  refine Poly.WF.collect (p := distArg l r) ⟨?_, ?_⟩ h
  · intro m hm
    simp only [distArg, List.mem_append] at hm
    rcases hm with ((hm | hm) | hm) | hm
    · exact scale_wf hl.1 m hm
    · exact scale_wf hr.1 m hm
    · exact prods_wf hl.1 hr.1 m hm
    · exact prods_wf hl.2 hr.2 m hm
  · intro m hm
    simp only [distArg, List.mem_append] at hm
    rcases hm with ((hm | hm) | hm) | hm
    · exact scale_wf hl.2 m hm
    · exact scale_wf hr.2 m hm
    · exact prods_wf hl.1 hr.2 m hm
    · exact prods_wf hl.2 hr.1 m hm

theorem Mono.WF.simplify {m : Mono} (h : m.WF) : m.simplify.WF ∧ m.simplify.isAr = true := by
  obtain ⟨c, p, n⟩ := m
  unfold Mono.simplify
  split
  · exact ⟨wf_const _, rfl⟩
  · rename_i e h1 h2
    simp only at h1 h2; subst h1 h2
    split_ifs
    · exact h.1 e (by simp)
    · exact h.toE
  · exact h.toE

theorem Poly.WF.simplify {p : Poly} (h : p.WF) : p.simplify.WF ∧ p.simplify.isAr = true := by
  obtain ⟨c, ps, ns⟩ := p
  unfold Poly.simplify
  split
  · exact ⟨wf_const _, rfl⟩
  · rename_i m h1 h2
    simp only at h1 h2; subst h1 h2
    split_ifs
    · exact (h.1 m (by simp)).simplify
    · exact h.toE
  · rename_i m h1 h2
    simp only at h1 h2; subst h1 h2
    split_ifs
    · exact (h.2 m (by simp)).opp.simplify
    · exact h.toE
  · exact h.toE

theorem Poly.WF.negate {p : Poly} (h : p.WF) : p.negate.WF := ⟨h.2, h.1⟩

theorem sing_wf {m : Mono} (h : m.WF) (c : ℚ) : (⟨c, [m], []⟩ : Poly).WF ∧ (⟨c, [], [m]⟩ : Poly).WF := by
  constructor
  · exact ⟨by simpa using h, by simp⟩
  · exact ⟨by simp, by simpa using h⟩

theorem replicate_wf {p : Poly} (h : p.WF) (n : ℕ) (c : ℚ) :
    (⟨c, List.replicate n p.toE, []⟩ : Mono).WF ∧ (⟨c, [], List.replicate n p.toE⟩ : Mono).WF := by
  constructor
  · refine ⟨?_, by simp⟩
    intro x hx; rw [List.eq_of_mem_replicate hx]; exact h.toE
  · refine ⟨by simp, ?_⟩
    intro x hx; rw [List.eq_of_mem_replicate hx]; exact h.toE

theorem reciprocal_wf {r : Poly} {m : Mono} (h : reciprocal r = .ok m) (w : r.WF) : m.WF := by
  have gen := (replicate_wf w 1 1).2
  simp only [List.replicate_one] at gen
  have inv : ∀ x y : Mono, x.WF → x.inv = .ok y → y.WF := by
    intro x y hx hi
    unfold Mono.inv at hi
    split_ifs at hi
    have := (Except.ok.inj hi).symm; subst this
    exact ⟨hx.2, hx.1⟩
  obtain ⟨c, ps, ns⟩ := r
  unfold reciprocal at h
  split at h
  · split_ifs at h
    have := (Except.ok.inj h).symm; subst this
    exact ⟨by simp, by simp⟩
  · rename_i x h1 h2
    simp only at h1 h2; subst h1 h2
    split_ifs at h
    · exact inv x m (w.1 x (by simp)) h
    · have := (Except.ok.inj h).symm; subst this; exact gen
  · rename_i x h1 h2
    simp only at h1 h2; subst h1 h2
    split_ifs at h
    · cases hi : x.inv with
      | error e => simp [hi, Except.map] at h
      | ok y =>
        have : m = y.opp := by simpa [hi, Except.map] using h.symm
        subst this; exact inv x y (w.2 x (by simp)) hi
    · have := (Except.ok.inj h).symm; subst this; exact gen
  · have := (Except.ok.inj h).symm; subst this; exact gen

theorem powN_wf {m : Mono} (h : m.WF) (n : ℕ) (c : ℚ) :
    (⟨c, sortE (repeatL n m.pos), sortE (repeatL n m.neg)⟩ : Mono).WF ∧
    (⟨c, sortE (repeatL n m.neg), sortE (repeatL n m.pos)⟩ : Mono).WF :=
  ⟨⟨fun x hx => h.1 x (mem_repeatL hx), fun x hx => h.2 x (mem_repeatL hx)⟩,
   ⟨fun x hx => h.2 x (mem_repeatL hx), fun x hx => h.1 x (mem_repeatL hx)⟩⟩

theorem powPos_wf {l : Poly} {n : ℕ} (w : l.WF) : (powPos l n).WF ∧ (powPos l n).isAr = true := by
  have gen := (sing_wf (replicate_wf w n 1).1 0).1.simplify
  obtain ⟨c, ps, ns⟩ := l
  unfold powPos
  split
  · rename_i m h1 h2
    simp only at h1 h2; subst h1 h2
    split_ifs
    · exact (sing_wf (powN_wf (w.1 m (by simp)) n _).1 0).1.simplify
    · exact gen
  · rename_i m h1 h2
    simp only at h1 h2; subst h1 h2
    split_ifs
    · exact (sing_wf (powN_wf (w.2 m (by simp)) n _).1 0).1.simplify
    · exact (sing_wf (powN_wf (w.2 m (by simp)) n _).1 0).2.simplify
    · exact gen
  · exact gen

theorem powNeg_wf {l : Poly} {n : ℕ} {e : E} (h : powNeg l n = .ok e) (w : l.WF) :
    e.WF ∧ e.isAr = true := by
  have gen := (sing_wf (replicate_wf w n 1).2 0).1.simplify
  have inv : ∀ x y : Mono, x.WF → x.powNegN n = .ok y → y.WF := by
    intro x y hx hi
    unfold Mono.powNegN at hi
    split_ifs at hi
    have := (Except.ok.inj hi).symm; subst this
    exact (powN_wf hx n _).2
  obtain ⟨c, ps, ns⟩ := l
  unfold powNeg at h
  split at h
  · rename_i m h1 h2
    simp only at h1 h2; subst h1 h2
    simp only at h
    by_cases hc : c = 0
    · rw [if_pos hc] at h
      cases hi : m.powNegN n with
      | error e => simp [hi, Except.map] at h
      | ok y =>
        simp only [hi, Except.map] at h
        have := (Except.ok.inj h).symm; subst this
        exact (sing_wf (inv m y (w.1 m (by simp)) hi) 0).1.simplify
    · rw [if_neg hc] at h
      have := (Except.ok.inj h).symm; subst this; exact gen
  · rename_i m h1 h2
    simp only at h1 h2; subst h1 h2
    simp only at h
    by_cases hc : c = 0
    · rw [if_pos hc] at h
      cases hi : m.powNegN n with
      | error e => simp [hi, Except.map] at h
      | ok y =>
        simp only [hi, Except.map] at h
        have := (Except.ok.inj h).symm; subst this
        split_ifs
        · exact (sing_wf (inv m y (w.2 m (by simp)) hi) 0).1.simplify
        · exact (sing_wf (inv m y (w.2 m (by simp)) hi) 0).2.simplify
    · rw [if_neg hc] at h
      have := (Except.ok.inj h).symm; subst this; exact gen
  · have := (Except.ok.inj h).symm; subst this; exact gen

theorem mkBinOp_wf (op : PyOp) {l r : E} (hl : l.WF) (hr : r.WF) :
    (mkBinOp op l r).WF ∧ (mkBinOp op l r).isAr = true := by
  refine ⟨.mk _ _ _ rfl ?_ (by simp), rfl⟩
  intro x hx
  rcases List.mem_cons.1 hx with rfl | hx
  · exact hl
  · have : x = r := by simpa using hx
    subst this; exact hr

theorem isAr_of_constVal {e : E} {q : ℚ} (h : e.constVal = some q) : e.isAr = true := by
  obtain ⟨hd, p, n⟩ := e
  cases hd <;> first | rfl | simp [E.constVal] at h

theorem binary_wf {op : PyOp} {l r e : E} (h : binary op l r = .ok e) (hl : l.WF)
    (hl' : l.isAr = true ∨ l.setOf.isSome = true) (hr : r.WF)
    (hr' : r.isAr = true ∨ r.setOf.isSome = true) : e.WF ∧ e.isAr = true := by
  have bo : ∀ op, (mkBinOp op l r).WF ∧ (mkBinOp op l r).isAr = true := fun op => mkBinOp_wf op hl hr
  have done : ∀ {x : Except Err Poly}, x.map Poly.simplify = .ok e →
      (∀ q, x = .ok q → q.WF) → e.WF ∧ e.isAr = true := by
    intro x hx hw
    cases x with
    | error _ => simp [Except.map] at hx
    | ok q =>
      have : e = q.simplify := by simpa [Except.map] using hx.symm
      subst this; exact (hw q rfl).simplify
  have fc : ∀ a b, foldConst op a b = .ok e → e.WF ∧ e.isAr = true := by
    intro a b h
    cases op <;> simp only [foldConst] at h <;> try (cases h; done)
    all_goals try (have := (Except.ok.inj h).symm; subst this; exact ⟨wf_const _, rfl⟩)
    split_ifs at h
    have := (Except.ok.inj h).symm; subst this; exact ⟨wf_const _, rfl⟩
  have two : ¬ (l.setOf.isSome = true ∨ r.setOf.isSome = true) →
      l.asPoly.WF ∧ r.asPoly.WF := by
    intro hn
    rw [not_or] at hn
    exact ⟨hl.asPoly (hl'.resolve_right hn.1), hr.asPoly (hr'.resolve_right hn.2)⟩
  unfold binary at h
  split at h
  · exact fc _ _ h
  · by_cases hc : ((l.constVal.isSome || l.setOf.isSome) &&
        (r.constVal.isSome || r.setOf.isSome)) = true
    · rw [if_pos hc] at h; cases h
    rw [if_neg hc] at h
    cases op <;> simp only at h
    · split_ifs at h with hs
      obtain ⟨pl, pr⟩ := two hs
      exact done h (fun q hq => pl.combine pr hq)
    · split_ifs at h with hs
      obtain ⟨pl, pr⟩ := two hs
      exact done h (fun q hq => pl.combine pr.negate hq)
    · split_ifs at h with hs
      obtain ⟨pl, pr⟩ := two hs
      exact done h (fun q hq => pl.distribute pr hq)
    · split_ifs at h with hs
      obtain ⟨pl, pr⟩ := two hs
      cases hm : reciprocal r.asPoly with
      | error _ => rw [hm] at h; cases h
      | ok m =>
        rw [hm] at h
        exact done h (fun q hq => pl.distribute (reciprocal_wf hm pr).asPoly hq)
    · have := (Except.ok.inj h).symm; subst this; exact bo _
    · have := (Except.ok.inj h).symm; subst this; exact bo _
    · unfold binPow at h
      split at h
      · split_ifs at h
        have := (Except.ok.inj h).symm; subst this; exact bo _
      · rename_i q hq
        have pl : l.asPoly.WF := by
          refine hl.asPoly (hl'.resolve_right ?_)
          intro hs
          simp [hs, hq] at hc
        split_ifs at h
        · have := (Except.ok.inj h).symm; subst this; exact powPos_wf pl
        · exact powNeg_wf h pl
        · have := (Except.ok.inj h).symm; subst this; exact bo _
    · cases h
    · cases h
    · have := (Except.ok.inj h).symm; subst this; exact bo _

end Verif
