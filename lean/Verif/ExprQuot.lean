import Verif.ExprPoly

/-!
# Quotients

Lemmas: in every parsed expression numerators and denominators have no common factor, so that adding
never has to cancel anything, and dividing by a single factor cancels at most once.
-/

namespace Verif

/-- Numerators and denominators of all terms have no common factor, and the same holds inside the
factors. -/
inductive FixE : E → Prop
  | leaf {e : E} (h : e.asPoly = ⟨0, [⟨1, [e], []⟩], []⟩) : FixE e
  | poly {e : E} (hd : ∀ m, m ∈ e.asPoly.pos ∨ m ∈ e.asPoly.neg → ∀ x ∈ m.pos, x ∉ m.neg)
      (hp : ∀ m, m ∈ e.asPoly.pos ∨ m ∈ e.asPoly.neg → ∀ x ∈ m.pos, FixE x)
      (hn : ∀ m, m ∈ e.asPoly.pos ∨ m ∈ e.asPoly.neg → ∀ x ∈ m.neg, FixE x) : FixE e

structure Mono.Atoms (m : Mono) : Prop where
  pos : ∀ x ∈ m.pos, FixE x
  neg : ∀ x ∈ m.neg, FixE x

structure Mono.Fix (m : Mono) : Prop extends m.Atoms where
  dis : ∀ x ∈ m.pos, x ∉ m.neg

structure Poly.Fix (p : Poly) : Prop where
  pos : ∀ m ∈ p.pos, m.Fix
  neg : ∀ m ∈ p.neg, m.Fix

theorem Poly.Fix.toFixE {e : E} (h : e.asPoly.Fix) : FixE e := by
  refine .poly ?_ ?_ ?_
  · rintro m (hm | hm)
    · exact (h.pos m hm).dis
    · exact (h.neg m hm).dis
  · rintro m (hm | hm)
    · exact (h.pos m hm).pos
    · exact (h.neg m hm).pos
  · rintro m (hm | hm)
    · exact (h.pos m hm).neg
    · exact (h.neg m hm).neg

theorem single_fix {x : E} (h : FixE x) (c : ℚ) : Mono.Fix ⟨c, [x], []⟩ :=
  ⟨⟨fun y hy => by rw [List.mem_singleton] at hy; rw [hy]; exact h, by simp⟩, by simp⟩

theorem FixE.asPoly_fix {e : E} (h : FixE e) : e.asPoly.Fix := by
  cases h with
  | leaf he =>
    rw [he]
    refine ⟨?_, by simp⟩
    intro m hm
    rw [List.mem_singleton] at hm; subst hm
    exact single_fix (.leaf he) 1
  | poly hd hp hn =>
    exact ⟨fun m hm => ⟨⟨hp m (.inl hm), hn m (.inl hm)⟩, hd m (.inl hm)⟩,
      fun m hm => ⟨⟨hp m (.inr hm), hn m (.inr hm)⟩, hd m (.inr hm)⟩⟩

theorem Mono.asPoly_fix {m : Mono} (h : m.Fix) : m.asPoly.Fix := by
  unfold Mono.asPoly
  split_ifs
  · exact ⟨by simp, by simp⟩
  · refine ⟨by simp, ?_⟩
    intro x hx
    rw [List.mem_singleton] at hx; subst hx
    exact ⟨⟨h.pos, h.neg⟩, h.dis⟩
  · refine ⟨?_, by simp⟩
    intro x hx
    rw [List.mem_singleton] at hx; subst hx
    exact h

theorem Mono.toE_fix {m : Mono} (h : m.Fix) : FixE m.toE := by
  refine Poly.Fix.toFixE ?_
  change m.asPoly.Fix
  exact Mono.asPoly_fix h

theorem const_fix (q : ℚ) : FixE (E.const q) := by
  refine Poly.Fix.toFixE ?_
  rw [asPoly_const]; exact ⟨by simp, by simp⟩

theorem Mono.simplify_fix {m : Mono} (h : m.Fix) : FixE m.simplify := by
  unfold Mono.simplify
  split
  · exact const_fix _
  · rename_i e h1 h2
    split_ifs
    · exact h.pos e (by rw [h1]; simp)
    · exact Mono.toE_fix h
  · exact Mono.toE_fix h

theorem Poly.toE_fix {p : Poly} (h : p.Fix) : FixE p.toE :=
  Poly.Fix.toFixE (by rw [Poly.toE_asPoly]; exact h)

theorem Poly.simplify_fix {p : Poly} (h : p.Fix) : FixE p.simplify := by
  unfold Poly.simplify
  split
  · exact const_fix _
  · rename_i m h1 h2
    split_ifs
    · exact Mono.simplify_fix (h.pos m (by rw [h1]; simp))
    · exact Poly.toE_fix h
  · rename_i m h1 h2
    split_ifs
    · have := h.neg m (by rw [h2]; simp)
      exact Mono.simplify_fix ⟨⟨this.pos, this.neg⟩, this.dis⟩
    · exact Poly.toE_fix h
  · exact Poly.toE_fix h

theorem Poly.Fix.negate {p : Poly} (h : p.Fix) : p.negate.Fix := ⟨h.neg, h.pos⟩

/-- What remains of the numerator stood there before. -/
theorem cancelLoop_sub {orig : List E} : ∀ (todo pos neg : List E) {r : List E × List E},
    cancelLoop orig todo pos neg = .ok r → (∀ x ∈ r.1, x ∈ pos) ∧
      (∀ x ∈ r.2, x ∈ neg ∨ (x ∈ todo ∧ x ∉ orig))
  | [], pos, neg, r, h => by
    have := (Except.ok.inj h).symm; subst this
    exact ⟨fun _ h => h, fun _ h => .inl h⟩
  | y :: ys, pos, neg, r, h => by
    simp only [cancelLoop] at h
    split at h
    · rename_i hf
      obtain ⟨h1, h2⟩ := cancelLoop_sub ys pos (neg ++ [y]) h
      refine ⟨h1, ?_⟩
      intro x hx
      rcases h2 x hx with h3 | ⟨h3, h4⟩
      · rcases List.mem_append.1 h3 with h5 | h5
        · exact .inl h5
        · rw [List.mem_singleton] at h5; subst h5
          exact .inr ⟨by simp, findE_none.1 hf⟩
      · exact .inr ⟨by simp [h3], h4⟩
    · split_ifs at h
      obtain ⟨h1, h2⟩ := cancelLoop_sub ys _ neg h
      refine ⟨fun x hx => List.mem_of_mem_eraseIdx (h1 x hx), ?_⟩
      intro x hx
      rcases h2 x hx with h3 | ⟨h3, h4⟩
      · exact .inl h3
      · exact .inr ⟨by simp [h3], h4⟩

theorem Mono.cancel_fix {m m' : Mono} (h : m.cancel = .ok m') (ha : m.Atoms) : m'.Fix := by
  unfold Mono.cancel at h
  obtain ⟨r, h1, h2⟩ := exMap h
  subst h2
  obtain ⟨g1, g2⟩ := cancelLoop_sub _ _ _ h1
  refine ⟨⟨fun x hx => ha.pos x (g1 x hx), ?_⟩, ?_⟩
  · intro x hx
    rcases g2 x hx with g | ⟨g, _⟩
    · simp at g
    · exact ha.neg x g
  · intro x hx hn
    rcases g2 x hn with g | ⟨_, g⟩
    · simp at g
    · exact g (g1 x hx)

theorem Poly.collect_fix {p q : Poly} (h : p.collect = .ok q) (hp : ∀ m ∈ p.pos, m.Atoms)
    (hn : ∀ m ∈ p.neg, m.Atoms) : q.Fix := by
  obtain ⟨h1, h2⟩ := collect_terms (P := Mono.Fix) (fun c p n c' h => ⟨⟨h.pos, h.neg⟩, h.dis⟩) h (by
    rintro m m' (hm | hm) hc
    · exact Mono.cancel_fix hc (hp m hm)
    · exact Mono.cancel_fix hc (hn m hm))
  exact ⟨fun m hm => (h1 m hm).1, fun m hm => (h2 m hm).1⟩

theorem combine_atoms {x y : Mono} (hx : x.Atoms) (hy : y.Atoms) : (x.combine y).Atoms := by
  constructor
  · intro z hz
    rcases List.mem_append.1 ((sortE_perm _).mem_iff.1 hz) with h | h
    · exact hx.pos z h
    · exact hy.pos z h
  · intro z hz
    rcases List.mem_append.1 ((sortE_perm _).mem_iff.1 hz) with h | h
    · exact hx.neg z h
    · exact hy.neg z h

theorem scale_atoms {c : ℚ} {l : List Mono} (h : ∀ m ∈ l, m.Atoms) : ∀ m ∈ scale c l, m.Atoms := by
  intro m hm
  obtain ⟨x, hx, rfl⟩ := List.mem_map.1 hm
  exact combine_atoms (h x hx) ⟨by simp, by simp⟩

theorem prods_atoms {l r : List Mono} (hl : ∀ m ∈ l, m.Atoms) (hr : ∀ m ∈ r, m.Atoms) :
    ∀ m ∈ prods l r, m.Atoms := by
  intro m hm
  obtain ⟨x, hx, hm⟩ := List.mem_flatMap.1 hm
  obtain ⟨y, hy, rfl⟩ := List.mem_map.1 hm
  exact combine_atoms (hl x hx) (hr y hy)

theorem Poly.Fix.atoms {p : Poly} (h : p.Fix) : (∀ m ∈ p.pos, m.Atoms) ∧ ∀ m ∈ p.neg, m.Atoms :=
  ⟨fun m hm => (h.pos m hm).toAtoms, fun m hm => (h.neg m hm).toAtoms⟩

theorem addArg_fix {l r : Poly} (hl : l.Fix) (hr : r.Fix) : (addArg l r).Fix := by
  constructor
  · intro m hm
    rcases List.mem_append.1 ((sortM_perm _).mem_iff.1 hm) with h | h
    · exact hl.pos m h
    · exact hr.pos m h
  · intro m hm
    rcases List.mem_append.1 ((sortM_perm _).mem_iff.1 hm) with h | h
    · exact hl.neg m h
    · exact hr.neg m h

theorem distArg_atoms {l r : Poly} (hl : l.Fix) (hr : r.Fix) :
    (∀ m ∈ (distArg l r).pos, m.Atoms) ∧ ∀ m ∈ (distArg l r).neg, m.Atoms := by
  obtain ⟨l1, l2⟩ := hl.atoms
  obtain ⟨r1, r2⟩ := hr.atoms
  constructor
  · intro m hm
    simp only [distArg, List.mem_append] at hm
    rcases hm with ((hm | hm) | hm) | hm
    · exact scale_atoms l1 m hm
    · exact scale_atoms r1 m hm
    · exact prods_atoms l1 r1 m hm
    · exact prods_atoms l2 r2 m hm
  · intro m hm
    simp only [distArg, List.mem_append] at hm
    rcases hm with ((hm | hm) | hm) | hm
    · exact scale_atoms l2 m hm
    · exact scale_atoms r2 m hm
    · exact prods_atoms l1 r2 m hm
    · exact prods_atoms l2 r1 m hm

theorem distribute_fix {l r q : Poly} (hl : l.Fix) (hr : r.Fix) (h : l.distribute r = .ok q) : q.Fix :=
  Poly.collect_fix (p := distArg l r) h (distArg_atoms hl hr).1 (distArg_atoms hl hr).2

theorem combine_fix {l r q : Poly} (hl : l.Fix) (hr : r.Fix) (h : l.combine r = .ok q) : q.Fix :=
  Poly.collect_fix (p := addArg l r) h (addArg_fix hl hr).atoms.1 (addArg_fix hl hr).atoms.2

theorem inv_fix {m m' : Mono} (h : m.inv = .ok m') (hm : m.Fix) : m'.Fix := by
  unfold Mono.inv at h
  split_ifs at h
  have := (Except.ok.inj h).symm; subst this
  exact ⟨⟨hm.neg, hm.pos⟩, fun x hx hn => hm.dis x hn hx⟩

theorem whole_fix {x : E} (h : FixE x) (n : ℕ) :
    Mono.Fix ⟨1, List.replicate n x, []⟩ ∧ Mono.Fix ⟨1, [], List.replicate n x⟩ := by
  have : ∀ y ∈ List.replicate n x, FixE y := fun y hy => by rw [List.eq_of_mem_replicate hy]; exact h
  exact ⟨⟨⟨this, by simp⟩, by simp⟩, ⟨⟨by simp, this⟩, by simp⟩⟩

theorem reciprocal_fix {r : Poly} {m : Mono} (h : reciprocal r = .ok m) (hr : r.Fix) : m.Fix := by
  have whole : Mono.Fix ⟨1, [], [r.toE]⟩ := (whole_fix (Poly.toE_fix hr) 1).2
  unfold reciprocal at h
  split at h
  · split_ifs at h
    have := (Except.ok.inj h).symm; subst this
    exact ⟨⟨by simp, by simp⟩, by simp⟩
  · rename_i x h1 h2
    split_ifs at h
    · exact inv_fix h (hr.pos x (by rw [h1]; simp))
    · have := (Except.ok.inj h).symm; subst this; exact whole
  · rename_i x h1 h2
    split_ifs at h
    · obtain ⟨y, h3, h4⟩ := exMap h
      subst h4
      have := inv_fix h3 (hr.neg x (by rw [h2]; simp))
      exact ⟨⟨this.pos, this.neg⟩, this.dis⟩
    · have := (Except.ok.inj h).symm; subst this; exact whole
  · have := (Except.ok.inj h).symm; subst this; exact whole

theorem powN_fix {m : Mono} (h : m.Fix) (n : ℕ) : (m.powN n).Fix := by
  have a : ∀ x ∈ (m.powN n).pos, x ∈ m.pos := fun x hx => mem_repeatL hx
  have b : ∀ x ∈ (m.powN n).neg, x ∈ m.neg := fun x hx => mem_repeatL hx
  exact ⟨⟨fun x hx => h.pos x (a x hx), fun x hx => h.neg x (b x hx)⟩,
    fun x hx hn => h.dis x (a x hx) (b x hn)⟩

theorem powNegN_fix {m m' : Mono} {n : ℕ} (hm : m.powNegN n = .ok m') (h : m.Fix) : m'.Fix := by
  unfold Mono.powNegN at hm
  split_ifs at hm
  have := (Except.ok.inj hm).symm; subst this
  have a : ∀ x ∈ sortE (repeatL n m.neg), x ∈ m.neg := fun x hx => mem_repeatL hx
  have b : ∀ x ∈ sortE (repeatL n m.pos), x ∈ m.pos := fun x hx => mem_repeatL hx
  exact ⟨⟨fun x hx => h.neg x (a x hx), fun x hx => h.pos x (b x hx)⟩,
    fun x hx hn => h.dis x (b x hn) (a x hx)⟩

theorem one_pos_fix {m : Mono} (h : m.Fix) : Poly.Fix ⟨0, [m], []⟩ ∧ Poly.Fix ⟨0, [], [m]⟩ := by
  constructor
  · exact ⟨fun x hx => by rw [List.mem_singleton] at hx; rw [hx]; exact h, by simp⟩
  · exact ⟨by simp, fun x hx => by rw [List.mem_singleton] at hx; rw [hx]; exact h⟩

theorem powPos_fix {l : Poly} (h : l.Fix) (n : ℕ) : FixE (powPos l n) := by
  have whole := Poly.simplify_fix (one_pos_fix (whole_fix (Poly.toE_fix h) n).1).1
  unfold powPos
  split
  · rename_i m h1 h2
    by_cases hc : l.c = 0
    · rw [if_pos hc]
      exact Poly.simplify_fix (one_pos_fix (powN_fix (h.pos m (by rw [h1]; simp)) n)).1
    · rw [if_neg hc]; exact whole
  · rename_i m h1 h2
    have f := one_pos_fix (powN_fix (h.neg m (by rw [h2]; simp)) n)
    by_cases hc : l.c = 0
    · rw [if_pos hc]
      by_cases hn : n % 2 = 0
      · rw [if_pos hn]; exact Poly.simplify_fix f.1
      · rw [if_neg hn]; exact Poly.simplify_fix f.2
    · rw [if_neg hc]; exact whole
  · exact whole

theorem powNeg_fix {l : Poly} {n : ℕ} {e : E} (he : powNeg l n = .ok e) (h : l.Fix) : FixE e := by
  have whole := Poly.simplify_fix (one_pos_fix (whole_fix (Poly.toE_fix h) n).2).1
  unfold powNeg at he
  split at he
  · rename_i m h1 h2
    by_cases hc : l.c = 0
    · rw [if_pos hc] at he
      obtain ⟨y, h3, h4⟩ := exMap he
      subst h4
      exact Poly.simplify_fix (one_pos_fix (powNegN_fix h3 (h.pos m (by rw [h1]; simp)))).1
    · rw [if_neg hc] at he
      have := (Except.ok.inj he).symm; subst this; exact whole
  · rename_i m h1 h2
    by_cases hc : l.c = 0
    · rw [if_pos hc] at he
      obtain ⟨y, h3, h4⟩ := exMap he
      subst h4
      have f := one_pos_fix (powNegN_fix h3 (h.neg m (by rw [h2]; simp)))
      by_cases hn : n % 2 = 0
      · simp only [hn, if_true]; exact Poly.simplify_fix f.1
      · simp only [hn, if_false]; exact Poly.simplify_fix f.2
    · rw [if_neg hc] at he
      have := (Except.ok.inj he).symm; subst this; exact whole
  · have := (Except.ok.inj he).symm; subst this; exact whole

theorem leaf_asPoly {e : E} (h : e.asMono = ⟨1, [e], []⟩) (h2 : e.asPoly = e.asMono.asPoly) : FixE e := by
  refine .leaf ?_
  rw [h2, h]
  unfold Mono.asPoly
  simp only [List.cons_ne_nil, and_true, if_false]
  rw [if_neg (by norm_num)]

theorem binop_fix (op : PyOp) (l r : E) : FixE (mkBinOp op l r) := leaf_asPoly rfl rfl

theorem binPow_fix {l r e : E} (h : binPow l r = .ok e) (hl : FixE l) : FixE e := by
  unfold binPow at h
  split at h
  · split_ifs at h
    have := (Except.ok.inj h).symm; subst this; exact binop_fix _ _ _
  · split_ifs at h
    · have := (Except.ok.inj h).symm; subst this; exact powPos_fix hl.asPoly_fix _
    · exact powNeg_fix h hl.asPoly_fix
    · have := (Except.ok.inj h).symm; subst this; exact binop_fix _ _ _

theorem foldConst_fix {op : PyOp} {a b : ℚ} {e : E} (h : foldConst op a b = .ok e) : FixE e := by
  cases op <;> simp only [foldConst] at h <;> first
    | (cases h; done)
    | (have := (Except.ok.inj h).symm; subst this; exact const_fix _)
    | (split_ifs at h; have := (Except.ok.inj h).symm; subst this; exact const_fix _)

theorem binary_fix {op : PyOp} {l r e : E} (h : binary op l r = .ok e) (hl : FixE l) (hr : FixE r) :
    FixE e := by
  unfold binary at h
  split at h
  · exact foldConst_fix h
  · by_cases hc : ((l.constVal.isSome || l.setOf.isSome) && (r.constVal.isSome || r.setOf.isSome)) = true
    · rw [if_pos hc] at h; cases h
    rw [if_neg hc] at h
    split at h
    · split_ifs at h
      obtain ⟨q, h1, h2⟩ := exMap h
      subst h2
      exact Poly.simplify_fix (combine_fix hl.asPoly_fix hr.asPoly_fix h1)
    · split_ifs at h
      obtain ⟨q, h1, h2⟩ := exMap h
      subst h2
      exact Poly.simplify_fix (combine_fix hl.asPoly_fix hr.asPoly_fix.negate h1)
    · split_ifs at h
      obtain ⟨q, h1, h2⟩ := exMap h
      subst h2
      exact Poly.simplify_fix (distribute_fix hl.asPoly_fix hr.asPoly_fix h1)
    · split_ifs at h
      obtain ⟨m, h3, h4⟩ := exBind h
      obtain ⟨q, h1, h2⟩ := exMap h4
      subst h2
      exact Poly.simplify_fix (distribute_fix hl.asPoly_fix
        (Mono.asPoly_fix (reciprocal_fix h3 hr.asPoly_fix)) h1)
    · exact binPow_fix h hl
    · cases h
    · cases h
    · have := (Except.ok.inj h).symm; subst this; exact binop_fix _ _ _
    · have := (Except.ok.inj h).symm; subst this; exact binop_fix _ _ _
    · have := (Except.ok.inj h).symm; subst this; exact binop_fix _ _ _

/-- Every parsed arithmetic expression is fully cancelled. -/
theorem parse_fix (known : String → Bool) : ∀ (s : Py) (e : E),
    Py.parse (plainScope known) false s = .ok e → FixE e
  | .num q, e, h => by
    simp only [Py.parse] at h
    have := (Except.ok.inj h).symm; subst this; exact const_fix q
  | .set l, e, h => by
    simp only [Py.parse] at h
    have := (Except.ok.inj h).symm; subst this; exact leaf_asPoly rfl rfl
  | .name n, e, h => by
    simp only [Py.parse, plainScope, Option.getD_none] at h
    have := (Except.ok.inj h).symm; subst this; exact leaf_asPoly rfl rfl
  | .neg a, e, h => by
    simp only [Py.parse] at h
    obtain ⟨x, h1, h2⟩ := exBind h
    have ih := parse_fix known a x h1
    unfold unaryMinus at h2
    split at h2
    · have := (Except.ok.inj h2).symm; subst this; exact const_fix _
    · split_ifs at h2
      have := (Except.ok.inj h2).symm; subst this
      exact Poly.simplify_fix ih.asPoly_fix.negate
  | .plus a, e, h => by
    simp only [Py.parse] at h
    exact parse_fix known a e h
  | .invert a, e, h => by
    simp only [Py.parse] at h
    obtain ⟨x, h1, h2⟩ := exBind h
    unfold unaryInvert at h2
    split at h2
    · split_ifs at h2
      have := (Except.ok.inj h2).symm; subst this; exact const_fix _
    · split_ifs at h2
  | .bin op a b, e, h => by
    simp only [Py.parse] at h
    obtain ⟨l, h1, h2⟩ := exBind h
    obtain ⟨r, h3, h4⟩ := exBind h2
    exact binary_fix h4 (parse_fix known a l h1) (parse_fix known b r h3)
  | .compare _ _ _, e, h => by simp [Py.parse] at h
  | .lnot _, e, h => by simp [Py.parse] at h
  | .land _, e, h => by simp [Py.parse] at h
  | .lor _, e, h => by simp [Py.parse] at h
  | .call f args, e, h => by
    simp only [Py.parse] at h
    split_ifs at h
    obtain ⟨as, h1, h2⟩ := exBind h
    have := (Except.ok.inj h2).symm; subst this
    exact leaf_asPoly rfl rfl

theorem cancelLoop_none {orig : List E} : ∀ (todo pos neg : List E), (∀ y ∈ todo, y ∉ orig) →
    cancelLoop orig todo pos neg = .ok (pos, neg ++ todo)
  | [], pos, neg, _ => by simp [cancelLoop]
  | y :: ys, pos, neg, h => by
    simp only [cancelLoop]
    rw [findE_none.2 (h y (by simp))]
    simp only
    rw [cancelLoop_none ys pos (neg ++ [y]) (fun z hz => h z (by simp [hz]))]
    simp

theorem findE_some {y : E} : ∀ {l : List E} {i : ℕ}, findE y l = some i →
    ∃ h : i < l.length, l[i] = y
  | [], i, h => by simp [findE] at h
  | x :: xs, i, h => by
    simp only [findE] at h
    by_cases hs : E.same x y = true
    · rw [if_pos hs] at h
      have := (Option.some.inj h).symm; subst this
      exact ⟨by simp, by simpa using E.same_iff.1 hs⟩
    · rw [if_neg hs] at h
      obtain ⟨j, h1, h2⟩ := Option.map_eq_some_iff.1 h
      subst h2
      obtain ⟨h3, h4⟩ := findE_some h1
      exact ⟨by simpa using h3, by simpa using h4⟩

/-- With at most one factor to cancel, the cancellation goes right. -/
theorem cancelLoop_one {orig : List E} : ∀ (todo neg : List E),
    (todo.filter (· ∈ orig)).length ≤ 1 → ∃ r, cancelLoop orig todo orig neg = .ok r ∧
      (r.1 ++ todo.filter (· ∈ orig)).Perm orig
  | [], neg, _ => ⟨(orig, neg), rfl, by simp⟩
  | y :: ys, neg, h => by
    simp only [cancelLoop]
    cases hf : findE y orig with
    | none =>
      have hy := findE_none.1 hf
      rw [List.filter_cons_of_neg (by simpa using hy)] at h ⊢
      exact cancelLoop_one ys (neg ++ [y]) h
    | some i =>
      obtain ⟨h1, h2⟩ := findE_some hf
      have hy : y ∈ orig := by rw [← h2]; exact List.getElem_mem h1
      rw [List.filter_cons_of_pos (by simpa using hy)] at h ⊢
      have h0 : ys.filter (· ∈ orig) = [] := by
        simp only [List.length_cons] at h
        exact List.length_eq_zero_iff.1 (by omega)
      have hn : ∀ z ∈ ys, z ∉ orig := by
        intro z hz hm
        have : z ∈ ys.filter (· ∈ orig) := List.mem_filter.2 ⟨hz, by simpa using hm⟩
        rw [h0] at this; simp at this
      simp only [h1, if_true]
      refine ⟨_, cancelLoop_none ys _ neg hn, ?_⟩
      rw [h0]
      simp only
      have : (orig.eraseIdx i ++ [y]).Perm (y :: orig.eraseIdx i) := List.perm_append_singleton _ _
      refine this.trans ?_
      rw [← h2]
      exact List.getElem_cons_eraseIdx_perm h1

theorem cancel_one {m : Mono} (h : (m.neg.filter (· ∈ m.pos)).length ≤ 1) :
    (∃ m', m.cancel = .ok m') ∧ CancelOK m := by
  obtain ⟨r, h1, h2⟩ := cancelLoop_one (orig := m.pos) m.neg [] h
  have e : m.cancel = .ok ⟨m.c, r.1, r.2⟩ := by unfold Mono.cancel; rw [h1]; rfl
  refine ⟨⟨_, e⟩, ?_⟩
  intro m' hm
  rw [e] at hm
  have := (Except.ok.inj hm).symm; subst this
  exact h2

/-- At most one factor stands on both sides. -/
def Mono.Near (m : Mono) : Prop := (m.neg.filter (· ∈ m.pos)).length ≤ 1

theorem Mono.Fix.near {m : Mono} (h : m.Fix) : m.Near := by
  unfold Mono.Near
  have : m.neg.filter (· ∈ m.pos) = [] := by
    rw [List.filter_eq_nil_iff]
    intro x hx hm
    exact h.dis x (by simpa using hm) hx
  rw [this]; simp

theorem mapM_cancel_near {l : List Mono} (h : ∀ m ∈ l, m.Near) : ∃ r, l.mapM Mono.cancel = .ok r := by
  induction l with
  | nil => exact ⟨[], rfl⟩
  | cons x xs ih =>
    obtain ⟨r, hr⟩ := ih (fun m hm => h m (by simp [hm]))
    obtain ⟨⟨y, hy⟩, _⟩ := cancel_one (h x (by simp))
    exact ⟨y :: r, by rw [List.mapM_cons, hy, hr]; rfl⟩

theorem collect_near {p : Poly} (hp : ∀ m ∈ p.pos, m.Near) (hn : ∀ m ∈ p.neg, m.Near) :
    (∃ q, p.collect = .ok q) ∧ TermsOK p := by
  refine ⟨?_, fun m hm => (cancel_one (hp m hm)).2, fun m hm => (cancel_one (hn m hm)).2⟩
  obtain ⟨a, ha⟩ := mapM_cancel_near hp
  obtain ⟨b, hb⟩ := mapM_cancel_near hn
  exact ⟨_, by rw [collect_eq, ha, hb]; rfl⟩

theorem add_near {l r : E} (hl : FixE l) (hr : FixE r) : (∃ q, l.asPoly.combine r.asPoly = .ok q) ∧
    TermsOK (addArg l.asPoly r.asPoly) ∧ (∃ q, l.asPoly.combine r.asPoly.negate = .ok q) ∧
    TermsOK (addArg l.asPoly r.asPoly.negate) := by
  have a := addArg_fix hl.asPoly_fix hr.asPoly_fix
  have b := addArg_fix hl.asPoly_fix hr.asPoly_fix.negate
  obtain ⟨a1, a2⟩ := collect_near (fun m hm => (a.pos m hm).near) (fun m hm => (a.neg m hm).near)
  obtain ⟨b1, b2⟩ := collect_near (fun m hm => (b.pos m hm).near) (fun m hm => (b.neg m hm).near)
  exact ⟨a1, a2, b1, b2⟩

theorem filter_len_perm {P Q : List E} {p q : List E} (hp : P.Perm p) (hq : Q.Perm q) :
    (Q.filter (· ∈ P)).length = (q.filter (· ∈ p)).length := by
  have : (fun x => decide (x ∈ P)) = fun x => decide (x ∈ p) := by
    funext x; exact decide_eq_decide.2 hp.mem_iff
  rw [this]
  exact (hq.filter _).length_eq

/-- Multiplying by a term with a single denominator and no numerator. -/
theorem combine_near {x y : Mono} (hx : x.Fix) (hp : y.pos = []) (hn : y.neg.length ≤ 1) :
    (x.combine y).Near ∧ (y.combine x).Near := by
  have key : (x.combine y).Near := by
    unfold Mono.Near Mono.combine
    simp only
    rw [filter_len_perm (sortE_perm (x.pos ++ y.pos)) (sortE_perm (x.neg ++ y.neg)), hp, List.append_nil,
      List.filter_append, List.length_append]
    have h0 : x.neg.filter (· ∈ x.pos) = [] := by
      rw [List.filter_eq_nil_iff]
      intro z hz hm
      exact hx.dis z (by simpa using hm) hz
    rw [h0, List.length_nil, zero_add]
    exact (List.length_filter_le _ _).trans hn
  exact ⟨key, by rw [Mono.combine_comm]; exact key⟩

theorem scale_near {c : ℚ} {l : List Mono} (h : ∀ m ∈ l, m.Fix) : ∀ m ∈ scale c l, m.Near := by
  intro m hm
  obtain ⟨x, hx, rfl⟩ := List.mem_map.1 hm
  exact (combine_near (h x hx) rfl (by simp)).1

/-- Dividing by a single factor. -/
theorem dist_near {l : Poly} (hl : l.Fix) {m : Mono} (hm : m.Fix) (hp : m.pos = []) (hn : m.neg.length ≤ 1) :
    (∃ q, l.distribute m.asPoly = .ok q) ∧ TermsOK (distArg l m.asPoly) := by
  have hr := Mono.asPoly_fix hm
  have shape : ∀ y, (y ∈ m.asPoly.pos ∨ y ∈ m.asPoly.neg) → y.pos = [] ∧ y.neg.length ≤ 1 := by
    intro y hy
    unfold Mono.asPoly at hy
    split_ifs at hy
    · simp at hy
    · simp only [List.not_mem_nil, List.mem_singleton, false_or] at hy
      subst hy; exact ⟨hp, hn⟩
    · simp only [List.not_mem_nil, List.mem_singleton, or_false] at hy
      subst hy; exact ⟨hp, hn⟩
  have prod : ∀ a b : List Mono, (∀ x ∈ a, x.Fix) → (∀ y ∈ b, y ∈ m.asPoly.pos ∨ y ∈ m.asPoly.neg) →
      ∀ z ∈ prods a b, z.Near := by
    intro a b ha hb z hz
    obtain ⟨x, hx, hz⟩ := List.mem_flatMap.1 hz
    obtain ⟨y, hy, rfl⟩ := List.mem_map.1 hz
    obtain ⟨s1, s2⟩ := shape y (hb y hy)
    exact (combine_near (ha x hx) s1 s2).1
  refine collect_near (p := distArg l m.asPoly) ?_ ?_
  · intro z hz
    simp only [distArg, List.mem_append] at hz
    rcases hz with ((hz | hz) | hz) | hz
    · exact scale_near hl.pos z hz
    · exact scale_near hr.pos z hz
    · exact prod _ _ hl.pos (fun y hy => .inl hy) z hz
    · exact prod _ _ hl.neg (fun y hy => .inr hy) z hz
  · intro z hz
    simp only [distArg, List.mem_append] at hz
    rcases hz with ((hz | hz) | hz) | hz
    · exact scale_near hl.neg z hz
    · exact scale_near hr.neg z hz
    · exact prod _ _ hl.pos (fun y hy => .inr hy) z hz
    · exact prod _ _ hl.neg (fun y hy => .inl hy) z hz

/-- A single term with a single factor, besides a constant. -/
def OneTerm (p : Poly) : Prop := ∃ m : Mono, m.pos.length = 1 ∧
  ((p.pos = [m] ∧ p.neg = []) ∨ (p.pos = [] ∧ p.neg = [m]))

theorem OneTerm.reciprocal {p : Poly} (h : OneTerm p) (hc : p.Canon) :
    ∃ m, reciprocal p = .ok m ∧ m.pos = [] ∧ m.neg.length = 1 := by
  obtain ⟨c, ps, ns⟩ := p
  obtain ⟨m, h1, ⟨h2, h3⟩ | ⟨h2, h3⟩⟩ := h <;> simp only at h2 h3 <;> subst h2 h3
  · obtain ⟨s, sc⟩ := hc.shape m (by simp)
    unfold Verif.reciprocal
    simp only
    by_cases h0 : c = 0
    · rw [if_pos h0]
      unfold Mono.inv
      rw [if_neg sc.ne']
      exact ⟨_, rfl, s.1, h1⟩
    · rw [if_neg h0]; exact ⟨_, rfl, rfl, rfl⟩
  · obtain ⟨s, sc⟩ := hc.shape m (by simp)
    unfold Verif.reciprocal
    simp only
    by_cases h0 : c = 0
    · rw [if_pos h0]
      unfold Mono.inv
      rw [if_neg sc.ne']
      exact ⟨_, rfl, s.1, h1⟩
    · rw [if_neg h0]; exact ⟨_, rfl, rfl, rfl⟩

theorem Poly.Canon.withC {p : Poly} (h : p.Canon) (c : ℚ) : Poly.Canon ⟨c, p.pos, p.neg⟩ :=
  ⟨h.spos, h.sneg, h.keys, h.shape⟩

theorem oneTerm_shift {p l : Poly} (hp : p.Canon) (hl : l.Canon) (h : OneTerm l)
    (hk : ∀ k, p.net k = l.net k) : OneTerm p := by
  have : p = ⟨p.c, l.pos, l.neg⟩ := canon_ext hp (hl.withC p.c) rfl hk
  rw [this]; exact h

theorem oneTerm_scale {p l : Poly} (hp : p.Canon) (hl : l.Canon) (h : OneTerm l) {q : ℚ} (hq : q ≠ 0)
    (hk : ∀ k, p.net k = q * l.net k) : OneTerm p := by
  obtain ⟨m, h1, h2⟩ := h
  have key : ∀ (s : ℚ), m.Shape → 0 < m.c → s ≠ 0 → (∀ k, p.net k = s * ksum [m] k) → OneTerm p := by
    intro s hs hc s0 hk
    have shape : ∀ c : ℚ, Mono.Shape ⟨c, m.pos, m.neg⟩ := fun _ => hs
    rcases lt_or_gt_of_ne s0 with hneg | hpos
    · have e : p = ⟨p.c, [], [⟨-s * m.c, m.pos, m.neg⟩]⟩ := by
        refine canon_ext hp (canon_single (shape _) (mul_pos (by linarith) hc) _).2 rfl ?_
        intro k
        rw [hk]
        by_cases hm : (m.pos, m.neg) = k
        · simp [Poly.net, ksum, Mono.key, hm]
        · simp [Poly.net, ksum, Mono.key, hm]
      rw [e]; exact ⟨⟨-s * m.c, m.pos, m.neg⟩, h1, .inr ⟨rfl, rfl⟩⟩
    · have e : p = ⟨p.c, [⟨s * m.c, m.pos, m.neg⟩], []⟩ := by
        refine canon_ext hp (canon_single (shape _) (mul_pos hpos hc) _).1 rfl ?_
        intro k
        rw [hk]
        by_cases hm : (m.pos, m.neg) = k
        · simp [Poly.net, ksum, Mono.key, hm]
        · simp [Poly.net, ksum, Mono.key, hm]
      rw [e]; exact ⟨⟨s * m.c, m.pos, m.neg⟩, h1, .inl ⟨rfl, rfl⟩⟩
  rcases h2 with ⟨h2, h3⟩ | ⟨h2, h3⟩
  · obtain ⟨s, sc⟩ := hl.shape m (by rw [h2]; simp)
    refine key q s sc hq ?_
    intro k; rw [hk, Poly.net, h2, h3]; simp [ksum]
  · obtain ⟨s, sc⟩ := hl.shape m (by rw [h3]; simp)
    refine key (-q) s sc (neg_ne_zero.2 hq) ?_
    intro k; rw [hk, Poly.net, h2, h3]
    have : ksum [] k = 0 := rfl
    rw [this]; ring

theorem basic_oneTerm {e : E} (h : e.basic = true) : OneTerm e.asPoly := by
  rw [basic_asPoly h]; exact ⟨_, rfl, .inl ⟨rfl, rfl⟩⟩

theorem ok_inj {α : Type} {a b : α} {x : Except Err α} (h : x = .ok a) (h' : x = .ok b) : a = b :=
  Except.ok.inj (h.symm.trans h')

theorem fcn_basic {known : String → Bool} {op : PyOp} {a b : Py} {e : E}
    (hop : op = .floordiv ∨ op = .mod ∨ op = .xor)
    (h : Py.parse (plainScope known) false (.bin op a b) = .ok e) : e.basic = true := by
  simp only [Py.parse] at h
  obtain ⟨l, h1, h2⟩ := exBind h
  obtain ⟨r, h3, h4⟩ := exBind h2
  unfold binary at h4
  split at h4
  · rcases hop with rfl | rfl | rfl <;> cases h4
  · by_cases hc : ((l.constVal.isSome || l.setOf.isSome) && (r.constVal.isSome || r.setOf.isSome)) = true
    · rw [if_pos hc] at h4; cases h4
    rw [if_neg hc] at h4
    rcases hop with rfl | rfl | rfl
    · have := (Except.ok.inj h4).symm; subst this; rfl
    · have := (Except.ok.inj h4).symm; subst this; rfl
    · have := (Except.ok.inj h4).symm; subst this; rfl

theorem oneFactor_parsed (known : String → Bool) : ∀ (b : Py) (r : E), b.divFree known = true →
    b.oneFactor = true → Parsed known b r → OneTerm r.asPoly
  | .name n, r, _, _, p => by
    have : E.name n = r := ok_inj (by simp [Py.parse, plainScope]) p.ok
    subst this; exact basic_oneTerm rfl
  | .call f l, r, _, _, p => by
    have h := p.ok
    simp only [Py.parse] at h
    split_ifs at h
    obtain ⟨as, h1, h2⟩ := exBind h
    have := (Except.ok.inj h2).symm; subst this
    exact basic_oneTerm rfl
  | .bin .floordiv _ _, r, _, _, p => basic_oneTerm (fcn_basic (.inl rfl) p.ok)
  | .bin .mod _ _, r, _, _, p => basic_oneTerm (fcn_basic (.inr (.inl rfl)) p.ok)
  | .bin .xor _ _, r, _, _, p => basic_oneTerm (fcn_basic (.inr (.inr rfl)) p.ok)
  | .neg a, r, h, ho, p => by
    have h' : a.divFree known = true := by simpa [Py.divFree] using h
    obtain ⟨⟨l, pl⟩, _⟩ := parse_divFree known a h'
    have ih := oneFactor_parsed known a l h' (by simpa [Py.oneFactor] using ho) pl
    obtain ⟨x, h1, h2, h3, h4⟩ := unaryMinus_good pl.good
    have : r = x := ok_inj p.ok (by simp only [Py.parse, pl.ok]; exact h1)
    subst this
    exact oneTerm_scale h2.canon pl.good.canon ih (q := -1) (by norm_num) (fun k => by rw [h4]; ring)
  | .plus a, r, h, ho, p => by
    have h' : a.divFree known = true := by simpa [Py.divFree] using h
    refine oneFactor_parsed known a r h' (by simpa [Py.oneFactor] using ho) ?_
    obtain ⟨⟨l, pl⟩, _⟩ := parse_divFree known a h'
    have : l = r := ok_inj pl.ok (by have := p.ok; simp only [Py.parse] at this; exact this)
    subst this; exact pl
  | .bin .add a b, r, h, ho, p => by
    simp only [Py.divFree, Bool.and_eq_true] at h
    obtain ⟨⟨x, px⟩, _⟩ := parse_divFree known a h.1
    obtain ⟨⟨y, py⟩, _⟩ := parse_divFree known b h.2
    obtain ⟨⟨e, he, hn⟩, _⟩ := parsed_ring px py (.inl rfl)
    have : r = e := ok_inj p.ok he.ok
    subst this
    simp only [if_true] at hn
    simp only [Py.oneFactor, Bool.or_eq_true, Bool.and_eq_true] at ho
    rcases ho with ⟨h1, h2⟩ | ⟨h1, h2⟩
    · refine oneTerm_shift he.good.canon px.good.canon (oneFactor_parsed known a x h.1 h1 px) (fun k => ?_)
      rw [hn, py.closed h2, net_const, add_zero]
    · refine oneTerm_shift he.good.canon py.good.canon (oneFactor_parsed known b y h.2 h2 py) (fun k => ?_)
      rw [hn, px.closed h1, net_const, zero_add]
  | .bin .sub a b, r, h, ho, p => by
    simp only [Py.divFree, Bool.and_eq_true] at h
    obtain ⟨⟨x, px⟩, _⟩ := parse_divFree known a h.1
    obtain ⟨⟨y, py⟩, _⟩ := parse_divFree known b h.2
    obtain ⟨⟨e, he, hn⟩, _⟩ := parsed_ring px py (.inr (.inl rfl))
    have : r = e := ok_inj p.ok he.ok
    subst this
    simp only [reduceCtorEq, if_false, if_true] at hn
    simp only [Py.oneFactor, Bool.or_eq_true, Bool.and_eq_true] at ho
    rcases ho with ⟨h1, h2⟩ | ⟨h1, h2⟩
    · refine oneTerm_shift he.good.canon px.good.canon (oneFactor_parsed known a x h.1 h1 px) (fun k => ?_)
      rw [hn, py.closed h2, net_const, sub_zero]
    · refine oneTerm_scale he.good.canon py.good.canon (oneFactor_parsed known b y h.2 h2 py)
        (q := -1) (by norm_num) (fun k => ?_)
      rw [hn, px.closed h1, net_const]; ring
  | .bin .mul a b, r, h, ho, p => by
    simp only [Py.divFree, Bool.and_eq_true, Bool.or_eq_true, decide_eq_true_eq] at h
    obtain ⟨⟨x, px⟩, _⟩ := parse_divFree known a h.1.1
    obtain ⟨⟨y, py⟩, _⟩ := parse_divFree known b h.1.2
    simp only [Py.oneFactor, Bool.or_eq_true, Bool.and_eq_true, decide_eq_true_eq] at ho
    rcases ho with ⟨⟨h1, h2⟩, h3⟩ | ⟨⟨h1, h2⟩, h3⟩
    · obtain ⟨⟨e, he, hn⟩, _⟩ := parsed_ring px py (.inr (.inr ⟨rfl, h.2⟩))
      have : r = e := ok_inj p.ok he.ok
      subst this
      simp only [reduceCtorEq, if_false] at hn
      refine oneTerm_scale he.good.canon px.good.canon (oneFactor_parsed known a x h.1.1 h1 px) h3 (fun k => ?_)
      rw [hn, py.closed h2, asPoly_const, distArg_const px.good.canon]
    · obtain ⟨⟨e, he, hn⟩, _⟩ := parsed_ring py px (op := .mul)
        (.inr (.inr ⟨rfl, by rcases h.2 with h | h; exact .inl ⟨h.2, h.1⟩; exact .inr (by rw [mul_comm]; exact h)⟩))
      have hb : binary .mul x y = .ok r := by
        have := p.ok
        simp only [Py.parse, px.ok, py.ok] at this; exact this
      have hb' : binary .mul y x = .ok e := by
        have := he.ok
        simp only [Py.parse, px.ok, py.ok] at this; exact this
      rw [binary_mul_comm] at hb'
      have : r = e := ok_inj hb hb'
      subst this
      simp only [reduceCtorEq, if_false] at hn
      refine oneTerm_scale he.good.canon py.good.canon (oneFactor_parsed known b y h.1.2 h2 py) h3 (fun k => ?_)
      rw [hn, px.closed h1, asPoly_const, distArg_const py.good.canon]
  | .num _, _, _, h, _ => by simp [Py.oneFactor] at h
  | .set _, _, _, h, _ => by simp [Py.oneFactor] at h
  | .invert _, _, _, h, _ => by simp [Py.oneFactor] at h
  | .compare _ _ _, _, _, h, _ => by simp [Py.oneFactor] at h
  | .lnot _, _, _, h, _ => by simp [Py.oneFactor] at h
  | .land _, _, _, h, _ => by simp [Py.oneFactor] at h
  | .lor _, _, _, h, _ => by simp [Py.oneFactor] at h
  | .bin .div _ _, _, _, h, _ => by simp [Py.oneFactor] at h
  | .bin .pow _ _, _, _, h, _ => by simp [Py.oneFactor] at h
  | .bin .bitor _ _, _, _, h, _ => by simp [Py.oneFactor] at h
  | .bin .bitand _ _, _, _, h, _ => by simp [Py.oneFactor] at h

theorem closed_divFree (known : String → Bool) : ∀ (a : Py), a.closed = true → a.divFree known = true
  | .num _, _ => rfl
  | .neg a, h => by
    simp only [Py.closed] at h; simp only [Py.divFree]; exact closed_divFree known a h
  | .plus a, h => by
    simp only [Py.closed] at h; simp only [Py.divFree]; exact closed_divFree known a h
  | .bin .add a b, h => by
    simp only [Py.closed, Bool.and_eq_true] at h
    simp only [Py.divFree, closed_divFree known a h.1, closed_divFree known b h.2, Bool.and_self]
  | .bin .sub a b, h => by
    simp only [Py.closed, Bool.and_eq_true] at h
    simp only [Py.divFree, closed_divFree known a h.1, closed_divFree known b h.2, Bool.and_self]
  | .bin .mul a b, h => by
    simp only [Py.closed, Bool.and_eq_true] at h
    simp [Py.divFree, closed_divFree known a h.1, closed_divFree known b h.2, h.1, h.2]
  | .bin .div _ _, h => by simp [Py.closed] at h
  | .bin .pow _ _, h => by simp [Py.closed] at h
  | .bin .floordiv _ _, h => by simp [Py.closed] at h
  | .bin .mod _ _, h => by simp [Py.closed] at h
  | .bin .xor _ _, h => by simp [Py.closed] at h
  | .bin .bitor _ _, h => by simp [Py.closed] at h
  | .bin .bitand _ _, h => by simp [Py.closed] at h
  | .name _, h => by simp [Py.closed] at h
  | .set _, h => by simp [Py.closed] at h
  | .invert _, h => by simp [Py.closed] at h
  | .compare _ _ _, h => by simp [Py.closed] at h
  | .lnot _, h => by simp [Py.closed] at h
  | .land _, h => by simp [Py.closed] at h
  | .lor _, h => by simp [Py.closed] at h
  | .call _ _, h => by simp [Py.closed] at h

theorem binary_addsub {op : PyOp} {l r : E} (hop : op = .add ∨ op = .sub) (al : l.isAr = true)
    (ar : r.isAr = true) (fl : FixE l) (fr : FixE r) : (∃ e, binary op l r = .ok e) ∧ OpExact op l r := by
  obtain ⟨⟨q, a1⟩, a2, ⟨q', b1⟩, b2⟩ := add_near fl fr
  have hs : ¬ (l.setOf.isSome = true ∨ r.setOf.isSome = true) := by
    rw [E.isAr_setOf al, E.isAr_setOf ar]; simp
  refine ⟨?_, by rcases hop with rfl | rfl; exact a2; exact b2⟩
  unfold binary
  split
  · rcases hop with rfl | rfl
    · exact ⟨_, rfl⟩
    · exact ⟨_, rfl⟩
  · rename_i hnc
    have hc : ¬ (((l.constVal.isSome || l.setOf.isSome) &&
        (r.constVal.isSome || r.setOf.isSome)) = true) := by
      rw [E.isAr_setOf al, E.isAr_setOf ar]
      intro h
      simp only [Option.isSome_none, Bool.or_false, Bool.and_eq_true] at h
      obtain ⟨a, ha⟩ := Option.isSome_iff_exists.1 h.1
      obtain ⟨b, hb⟩ := Option.isSome_iff_exists.1 h.2
      exact hnc a b ha hb
    rw [if_neg hc]
    rcases hop with rfl | rfl
    · simp only [hs, if_false]; rw [a1]; exact ⟨_, rfl⟩
    · simp only [hs, if_false]; rw [b1]; exact ⟨_, rfl⟩

theorem binary_div_ok {l r : E} {m : Mono} (al : l.isAr = true) (ar : r.isAr = true)
    (hnc : ¬ (l.constVal.isSome = true ∧ r.constVal.isSome = true))
    (hm : reciprocal r.asPoly = .ok m) (hq : ∃ q, l.asPoly.distribute m.asPoly = .ok q) :
    ∃ e, binary .div l r = .ok e := by
  have hs : ¬ (l.setOf.isSome = true ∨ r.setOf.isSome = true) := by
    rw [E.isAr_setOf al, E.isAr_setOf ar]; simp
  obtain ⟨q, hq⟩ := hq
  unfold binary
  split
  · rename_i a b ha hb
    exact absurd ⟨by rw [ha]; rfl, by rw [hb]; rfl⟩ hnc
  · have hc : ¬ (((l.constVal.isSome || l.setOf.isSome) &&
        (r.constVal.isSome || r.setOf.isSome)) = true) := by
      rw [E.isAr_setOf al, E.isAr_setOf ar]
      intro h
      simp only [Option.isSome_none, Bool.or_false, Bool.and_eq_true] at h
      exact hnc h
    rw [if_neg hc]
    simp only [hs, if_false, hm]
    change ∃ e, (l.asPoly.distribute m.asPoly).map Poly.simplify = .ok e
    rw [hq]; exact ⟨_, rfl⟩

theorem unaryMinus_ok {l : E} (ar : l.isAr = true) : ∃ e, unaryMinus l = .ok e := by
  unfold unaryMinus
  split
  · exact ⟨_, rfl⟩
  · rw [E.isAr_setOf ar]; exact ⟨_, rfl⟩

theorem safe_notSet {known : String → Bool} : ∀ {s : Py}, s.safe known = true → s.isSet = false
  | .plus a, h => by
    simp only [Py.safe] at h; simp only [Py.isSet]; exact safe_notSet h
  | .set _, h => by simp [Py.safe] at h
  | .num _, _ => rfl
  | .name _, _ => rfl
  | .neg _, _ => rfl
  | .invert _, _ => rfl
  | .bin _ _ _, _ => rfl
  | .compare _ _ _, _ => rfl
  | .lnot _, _ => rfl
  | .land _, _ => rfl
  | .lor _, _ => rfl
  | .call _ _, _ => rfl

theorem safe_ar {known : String → Bool} {s : Py} {e : E} (h : s.safe known = true)
    (hp : Py.parse (plainScope known) false s = .ok e) : e.isAr = true := by
  rcases (parse_wf known false s e hp).2 rfl with ⟨h1, _⟩ | ⟨_, h1⟩
  · rw [safe_notSet h] at h1; cases h1
  · exact h1

theorem powNeg_ok {l : Poly} (h : l.Canon) (n : ℕ) : ∃ e, powNeg l n = .ok e := by
  unfold powNeg
  split
  · rename_i m h1 h2
    by_cases hc : l.c = 0
    · rw [if_pos hc]
      obtain ⟨_, sc⟩ := h.shape m (by rw [h1]; simp)
      unfold Mono.powNegN
      rw [if_neg sc.ne']; exact ⟨_, rfl⟩
    · rw [if_neg hc]; exact ⟨_, rfl⟩
  · rename_i m h1 h2
    by_cases hc : l.c = 0
    · rw [if_pos hc]
      obtain ⟨_, sc⟩ := h.shape m (by rw [h2]; simp)
      unfold Mono.powNegN
      rw [if_neg sc.ne']; exact ⟨_, rfl⟩
    · rw [if_neg hc]; exact ⟨_, rfl⟩
  · exact ⟨_, rfl⟩

theorem bin_exact {known : String → Bool} {op : PyOp} {a b : Py} {l r : E}
    (hl : Py.parse (plainScope known) false a = .ok l) (hr : Py.parse (plainScope known) false b = .ok r)
    (ea : a.Exact known) (eb : b.Exact known) (h : OpExact op l r) : (Py.bin op a b).Exact known := by
  refine ⟨ea, eb, ?_⟩
  intro l' r' h1 h2
  rw [ok_inj h1 hl, ok_inj h2 hr]; exact h

mutual
theorem parse_safe (known : String → Bool) : ∀ (s : Py), s.safe known = true →
    (∃ e, Py.parse (plainScope known) false s = .ok e) ∧ s.Exact known
  | .num q, _ => ⟨⟨E.const q, by simp only [Py.parse]⟩, trivial⟩
  | .name n, _ => ⟨⟨E.name n, by simp [Py.parse, plainScope]⟩, trivial⟩
  | .neg a, h => by
    have h' : a.safe known = true := by simpa [Py.safe] using h
    obtain ⟨⟨l, hl⟩, ex⟩ := parse_safe known a h'
    obtain ⟨e, he⟩ := unaryMinus_ok (safe_ar h' hl)
    exact ⟨⟨e, by simp only [Py.parse, hl]; exact he⟩, ex⟩
  | .plus a, h => by
    obtain ⟨⟨l, hl⟩, ex⟩ := parse_safe known a (by simpa [Py.safe] using h)
    exact ⟨⟨l, by simp only [Py.parse]; exact hl⟩, ex⟩
  | .bin op a b, h => by
    have viaFree : (Py.bin op a b).divFree known = true →
        (∃ e, Py.parse (plainScope known) false (.bin op a b) = .ok e) ∧ (Py.bin op a b).Exact known := by
      intro hd
      obtain ⟨⟨e, p⟩, ex⟩ := parse_divFree known _ hd
      exact ⟨⟨e, p.ok⟩, ex⟩
    have addsub : (op = .add ∨ op = .sub) → a.safe known = true → b.safe known = true →
        (∃ e, Py.parse (plainScope known) false (.bin op a b) = .ok e) ∧ (Py.bin op a b).Exact known := by
      intro hop h1 h2
      obtain ⟨⟨l, hl⟩, el⟩ := parse_safe known a h1
      obtain ⟨⟨r, hr⟩, er⟩ := parse_safe known b h2
      obtain ⟨⟨e, he⟩, ho⟩ := binary_addsub hop (safe_ar h1 hl) (safe_ar h2 hr)
        (parse_fix known a l hl) (parse_fix known b r hr)
      exact ⟨⟨e, by simp only [Py.parse, hl, hr]; exact he⟩, bin_exact hl hr el er ho⟩
    cases op with
    | add => simp only [Py.safe, Bool.and_eq_true] at h; exact addsub (.inl rfl) h.1 h.2
    | sub => simp only [Py.safe, Bool.and_eq_true] at h; exact addsub (.inr rfl) h.1 h.2
    | mul => exact viaFree (by simpa only [Py.safe] using h)
    | floordiv => exact viaFree (by simpa only [Py.safe] using h)
    | mod => exact viaFree (by simpa only [Py.safe] using h)
    | xor => exact viaFree (by simpa only [Py.safe] using h)
    | bitor => simp [Py.safe] at h
    | bitand => simp [Py.safe] at h
    | div =>
      simp only [Py.safe, Bool.or_eq_true, Bool.and_eq_true, decide_eq_true_eq] at h
      rcases h with ⟨⟨h1, h2⟩, h3⟩ | ⟨⟨⟨h1, h2⟩, h3⟩, h4⟩
      · obtain ⟨⟨l, hl⟩, el⟩ := parse_safe known a h1
        obtain ⟨⟨r, pr⟩, er⟩ := parse_divFree known b h2
        have one := oneFactor_parsed known b r h2 h3 pr
        obtain ⟨m, m1, m2, m3⟩ := one.reciprocal pr.good.canon
        have mf := reciprocal_fix m1 (parse_fix known b r pr.ok).asPoly_fix
        obtain ⟨d1, d2⟩ := dist_near (parse_fix known a l hl).asPoly_fix mf m2 (by omega)
        have hrc : r.constVal = none := by
          obtain ⟨x, _, ⟨h, _⟩ | ⟨_, h⟩⟩ := one
          · exact constVal_none_of_terms (.inl (by rw [h]; simp))
          · exact constVal_none_of_terms (.inr (by rw [h]; simp))
        obtain ⟨e, he⟩ := binary_div_ok (safe_ar h1 hl) pr.good.ar (by rw [hrc]; simp) m1 d1
        refine ⟨⟨e, by simp only [Py.parse, hl, pr.ok]; exact he⟩, bin_exact hl pr.ok el er ?_⟩
        refine .inr ?_
        intro m' hm'
        rw [ok_inj hm' m1]
        refine ⟨?_, d2⟩
        have : m.asPoly.c = 0 := by
          unfold Mono.asPoly
          rw [if_neg (by
            rintro ⟨_, h⟩
            rw [h] at m3; simp at m3)]
          split_ifs <;> rfl
        rw [this, mul_zero]
      · obtain ⟨⟨l, pl⟩, el⟩ := parse_divFree known a h1
        obtain ⟨⟨r, pr⟩, er⟩ := parse_divFree known b (closed_divFree known b h2)
        have hr := pr.closed h2
        subst hr
        have m1 : reciprocal (E.const b.constTerm).asPoly = .ok ⟨1 / b.constTerm, [], []⟩ := by
          rw [asPoly_const]; simp only [reciprocal]; rw [if_neg h3]
        obtain ⟨d1, d2⟩ := dist_near (parse_fix known a l pl.ok).asPoly_fix
          (m := ⟨1 / b.constTerm, [], []⟩) ⟨⟨by simp, by simp⟩, by simp⟩ rfl (by simp)
        by_cases hlc : l.constVal.isSome = true
        · refine ⟨?_, bin_exact pl.ok pr.ok el er (.inl ⟨hlc, rfl⟩)⟩
          obtain ⟨q, hq⟩ := Option.isSome_iff_exists.1 hlc
          have := constVal_eq pl.good hq
          subst this
          refine ⟨E.const (q / b.constTerm), ?_⟩
          simp only [Py.parse, pl.ok, pr.ok]
          change foldConst .div q b.constTerm = _
          simp only [foldConst]; rw [if_neg h3]
        · obtain ⟨e, he⟩ := binary_div_ok pl.good.ar pr.good.ar (fun h => hlc h.1) m1 d1
          refine ⟨⟨e, by simp only [Py.parse, pl.ok, pr.ok]; exact he⟩, bin_exact pl.ok pr.ok el er ?_⟩
          refine .inr ?_
          intro m' hm'
          rw [ok_inj hm' m1]
          refine ⟨?_, d2⟩
          rcases h4 with h4 | h4
          · rw [pl.closed h4] at hlc; exact absurd rfl hlc
          · rw [pl.const, h4, zero_mul]
    | pow =>
      by_cases hq : ∃ q, b = .num q
      · obtain ⟨q, rfl⟩ := hq
        simp only [Py.safe, Bool.and_eq_true] at h
        by_cases hn : negExp q = true
        · obtain ⟨⟨l, pl⟩, el⟩ := parse_divFree known a h.1
          have hl := pl.dep h.2
          refine ⟨?_, el, trivial, fun _ _ _ _ => trivial⟩
          have hb' : binary .pow l (E.const q) = binPow l (E.const q) := by
            unfold binary
            rw [hl, E.isAr_setOf pl.good.ar]
            rfl
          have h2 : q.den = 1 ∧ -5 < q ∧ q ≤ -1 := by simpa [negExp] using hn
          have h1 : ¬ (q.den = 1 ∧ 1 ≤ q ∧ q < 5) := by rintro ⟨_, h, _⟩; linarith [h2.2.2]
          obtain ⟨e, he⟩ := powNeg_ok pl.good.canon (-q.num).toNat
          refine ⟨e, ?_⟩
          simp only [Py.parse, pl.ok]
          change binary .pow l (E.const q) = _
          rw [hb']
          unfold binPow
          have cv : (E.const q).constVal = some q := rfl
          rw [cv]
          simp only
          rw [if_neg h1, if_pos h2]; exact he
        · exact viaFree (by simp [Py.divFree, h.1, h.2, hn])
      · refine viaFree ?_
        cases b <;> first
          | (exact absurd ⟨_, rfl⟩ hq)
          | (simpa only [Py.safe] using h)
  | .call f args, h => by
    simp only [Py.safe, Bool.and_eq_true] at h
    obtain ⟨p, ex⟩ := parseArgs_safe known args h.2
    refine ⟨?_, ex⟩
    obtain ⟨as, has⟩ := p (decide (f = "where"))
    refine ⟨.node (.call f) as [], ?_⟩
    simp only [Py.parse, plainScope, h.1, if_true]
    have : Py.parseArgs (plainScope known) (decide (f = "where")) args = .ok as := has
    simp only [plainScope] at this
    rw [this]; rfl
  | .set _, h => by simp [Py.safe] at h
  | .invert _, h => by simp [Py.safe] at h
  | .compare _ _ _, h => by simp [Py.safe] at h
  | .lnot _, h => by simp [Py.safe] at h
  | .land _, h => by simp [Py.safe] at h
  | .lor _, h => by simp [Py.safe] at h
theorem parseArgs_safe (known : String → Bool) : ∀ (l : List Py), Py.safeL known l = true →
    (∀ rel, ∃ es, Py.parseArgs (plainScope known) rel l = .ok es) ∧ Py.ExactL known l
  | [], _ => ⟨fun rel => ⟨[], by simp [Py.parseArgs]⟩, trivial⟩
  | a :: as, h => by
    simp only [Py.safeL, Bool.and_eq_true] at h
    obtain ⟨⟨l, hl⟩, el⟩ := parse_safe known a h.1
    obtain ⟨p, ex⟩ := parseArgs_safe known as h.2
    refine ⟨?_, el, ex⟩
    intro rel
    obtain ⟨es, he⟩ := p false
    refine ⟨l :: es, ?_⟩
    have : Py.parse (plainScope known) rel a = .ok l := by
      cases rel
      · exact hl
      · exact parse_false_true hl
    simp only [Py.parseArgs, this, he]; rfl
end

end Verif
