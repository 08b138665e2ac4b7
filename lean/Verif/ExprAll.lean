import Verif.TreeLemmas
import Verif.PropsExprQuot

/-!
# What occurs in a parsed expression

Everything that occurs in a parsed expression comes from the expression as written.
-/

namespace Verif

variable {P : Head → Prop}

/-- The heads that arithmetic itself creates. -/
structure ArHeads (P : Head → Prop) : Prop where
  const : ∀ q, P (.const q)
  plus : ∀ c, P (.plus c)
  times : ∀ c, P (.times c)

/-- All factors satisfy `P` throughout. -/
def Mono.All (P : Head → Prop) (m : Mono) : Prop := (∀ x ∈ m.pos, x.All P) ∧ (∀ x ∈ m.neg, x.All P)

/-- All terms satisfy `P` throughout. -/
def Poly.All (P : Head → Prop) (p : Poly) : Prop := (∀ m ∈ p.pos, m.All P) ∧ (∀ m ∈ p.neg, m.All P)

theorem ArHeads.constE (a : ArHeads P) (q : ℚ) : (E.const q).All P := .mk _ _ _ (a.const q) (by simp) (by simp)

theorem Mono.All.toE (a : ArHeads P) {m : Mono} (h : m.All P) : m.toE.All P := .mk _ _ _ (a.times _) h.1 h.2

theorem Poly.All.toE (a : ArHeads P) {p : Poly} (h : p.All P) : p.toE.All P := by
  refine .mk _ _ _ (a.plus _) ?_ ?_
  · intro x hx; obtain ⟨m, hm, rfl⟩ := List.mem_map.1 hx; exact (h.1 m hm).toE a
  · intro x hx; obtain ⟨m, hm, rfl⟩ := List.mem_map.1 hx; exact (h.2 m hm).toE a

theorem E.All.asMono {e : E} (h : e.All P) : e.asMono.All P := by
  have gen : (⟨1, [e], []⟩ : Mono).All P := by
    refine ⟨?_, by simp⟩
    intro x hx; have : x = e := by simpa using hx
    subst this; exact h
  obtain ⟨hd, p, n⟩ := e
  cases hd <;> try exact gen
  · exact ⟨by simp [E.asMono], by simp [E.asMono]⟩
  · exact ⟨h.pos, h.neg⟩

theorem Mono.All.asPoly {m : Mono} (h : m.All P) : m.asPoly.All P := by
  unfold Mono.asPoly
  split_ifs
  · exact ⟨by simp, by simp⟩
  · refine ⟨by simp, ?_⟩
    intro x hx
    have : x = ⟨-m.c, m.pos, m.neg⟩ := by simpa using hx
    subst this; exact h
  · refine ⟨?_, by simp⟩
    intro x hx
    have : x = m := by simpa using hx
    subst this; exact h

theorem E.All.asPoly {e : E} (h : e.All P) : e.asPoly.All P := by
  obtain ⟨hd, p, n⟩ := e
  cases hd <;> try exact (E.All.asMono h).asPoly
  refine ⟨?_, ?_⟩
  · intro m hm
    obtain ⟨x, hx, rfl⟩ := List.mem_map.1 hm
    exact (h.pos _ hx).asMono
  · intro m hm
    obtain ⟨x, hx, rfl⟩ := List.mem_map.1 hm
    exact (h.neg _ hx).asMono

theorem Mono.All.cancel {m m' : Mono} (h : m.All P) (hc : m.cancel = .ok m') : m'.All P := by
  obtain ⟨_, hn, hs⟩ := Mono.cancel_neg hc
  refine ⟨fun x hx => h.1 x (hs.subset hx), fun x hx => h.2 x ?_⟩
  rw [hn] at hx; exact (List.mem_filter.1 hx).1

theorem Mono.All.combine {x y : Mono} (hx : x.All P) (hy : y.All P) : (x.combine y).All P := by
  constructor <;> intro e he <;>
    rcases List.mem_append.1 ((sortE_perm _).mem_iff.1 he) with h | h
  · exact hx.1 e h
  · exact hy.1 e h
  · exact hx.2 e h
  · exact hy.2 e h

theorem Mono.All.opp {m : Mono} (h : m.All P) : m.opp.All P := h

theorem Poly.All.collect {p p' : Poly} (w : p.All P) (h : p.collect = .ok p') : p'.All P := by
  have := collect_terms (P := Mono.All P) (fun _ _ _ _ h => h) h (by
    rintro m m' (hm | hm) hc
    · exact (w.1 m hm).cancel hc
    · exact (w.2 m hm).cancel hc)
  exact ⟨fun m hm => (this.1 m hm).1, fun m hm => (this.2 m hm).1⟩

theorem Poly.All.combine {l r p : Poly} (hl : l.All P) (hr : r.All P) (h : l.combine r = .ok p) :
    p.All P := by
  refine Poly.All.collect ⟨?_, ?_⟩ h
  · intro m hm
    rcases List.mem_append.1 ((sortM_perm _).mem_iff.1 hm) with h | h
    · exact hl.1 m h
    · exact hr.1 m h
  · intro m hm
    rcases List.mem_append.1 ((sortM_perm _).mem_iff.1 hm) with h | h
    · exact hl.2 m h
    · exact hr.2 m h

theorem scale_all {c : ℚ} {l : List Mono} (hl : ∀ m ∈ l, m.All P) : ∀ m ∈ scale c l, m.All P := by
  intro m hm
  obtain ⟨x, hx, rfl⟩ := List.mem_map.1 hm
  exact (hl x hx).combine ⟨by simp, by simp⟩

theorem prods_all {l r : List Mono} (hl : ∀ m ∈ l, m.All P) (hr : ∀ m ∈ r, m.All P) :
    ∀ m ∈ prods l r, m.All P := by
  intro m hm
  obtain ⟨x, hx, hm⟩ := List.mem_flatMap.1 hm
  obtain ⟨y, hy, rfl⟩ := List.mem_map.1 hm
  exact (hl x hx).combine (hr y hy)

theorem Poly.All.distribute {l r p : Poly} (hl : l.All P) (hr : r.All P) (h : l.distribute r = .ok p) :
    p.All P := by
  refine Poly.All.collect (p := distArg l r) ⟨?_, ?_⟩ h
  · intro m hm
    simp only [distArg, List.mem_append] at hm
    rcases hm with ((hm | hm) | hm) | hm
    · exact scale_all hl.1 m hm
    · exact scale_all hr.1 m hm
    · exact prods_all hl.1 hr.1 m hm
    · exact prods_all hl.2 hr.2 m hm
  · intro m hm
    simp only [distArg, List.mem_append] at hm
    rcases hm with ((hm | hm) | hm) | hm
    · exact scale_all hl.2 m hm
    · exact scale_all hr.2 m hm
    · exact prods_all hl.1 hr.2 m hm
    · exact prods_all hl.2 hr.1 m hm

theorem Mono.All.simplify (a : ArHeads P) {m : Mono} (h : m.All P) : m.simplify.All P := by
  obtain ⟨c, p, n⟩ := m
  unfold Mono.simplify
  split
  · exact a.constE _
  · rename_i e h1 h2
    simp only at h1 h2; subst h1 h2
    split_ifs
    · exact h.1 e (by simp)
    · exact h.toE a
  · exact h.toE a

theorem Poly.All.simplify (a : ArHeads P) {p : Poly} (h : p.All P) : p.simplify.All P := by
  obtain ⟨c, ps, ns⟩ := p
  unfold Poly.simplify
  split
  · exact a.constE _
  · rename_i m h1 h2
    simp only at h1 h2; subst h1 h2
    split_ifs
    · exact (h.1 m (by simp)).simplify a
    · exact h.toE a
  · rename_i m h1 h2
    simp only at h1 h2; subst h1 h2
    split_ifs
    · exact (h.2 m (by simp)).opp.simplify a
    · exact h.toE a
  · exact h.toE a

theorem Poly.All.negate {p : Poly} (h : p.All P) : p.negate.All P := ⟨h.2, h.1⟩

theorem sing_all {m : Mono} (h : m.All P) (c : ℚ) :
    (⟨c, [m], []⟩ : Poly).All P ∧ (⟨c, [], [m]⟩ : Poly).All P := by
  constructor
  · exact ⟨by simpa using h, by simp⟩
  · exact ⟨by simp, by simpa using h⟩

theorem replicate_all (a : ArHeads P) {p : Poly} (h : p.All P) (n : ℕ) (c : ℚ) :
    (⟨c, List.replicate n p.toE, []⟩ : Mono).All P ∧ (⟨c, [], List.replicate n p.toE⟩ : Mono).All P := by
  constructor
  · refine ⟨?_, by simp⟩
    intro x hx; rw [List.eq_of_mem_replicate hx]; exact h.toE a
  · refine ⟨by simp, ?_⟩
    intro x hx; rw [List.eq_of_mem_replicate hx]; exact h.toE a

theorem reciprocal_all (a : ArHeads P) {r : Poly} {m : Mono} (h : reciprocal r = .ok m) (w : r.All P) :
    m.All P := by
  have gen := (replicate_all a w 1 1).2
  simp only [List.replicate_one] at gen
  have inv : ∀ x y : Mono, x.All P → x.inv = .ok y → y.All P := by
    intro x y hx hi
    unfold Mono.inv at hi
    split_ifs at hi
    have := (Except.ok.inj hi).symm; subst this
    exact ⟨hx.2, hx.1⟩
  obtain ⟨c, ps, ns⟩ := r
  unfold reciprocal at h
  split at h
  · split_ifs at h
    have := (Except.ok.inj h).symm; subst this
    exact ⟨by simp, by simp⟩
  · rename_i x h1 h2
    simp only at h1 h2; subst h1 h2
    split_ifs at h
    · exact inv x m (w.1 x (by simp)) h
    · have := (Except.ok.inj h).symm; subst this; exact gen
  · rename_i x h1 h2
    simp only at h1 h2; subst h1 h2
    split_ifs at h
    · cases hi : x.inv with
      | error e => simp [hi, Except.map] at h
      | ok y =>
        have : m = y.opp := by simpa [hi, Except.map] using h.symm
        subst this; exact inv x y (w.2 x (by simp)) hi
    · have := (Except.ok.inj h).symm; subst this; exact gen
  · have := (Except.ok.inj h).symm; subst this; exact gen

theorem powN_all {m : Mono} (h : m.All P) (n : ℕ) (c : ℚ) :
    (⟨c, sortE (repeatL n m.pos), sortE (repeatL n m.neg)⟩ : Mono).All P ∧
    (⟨c, sortE (repeatL n m.neg), sortE (repeatL n m.pos)⟩ : Mono).All P :=
  ⟨⟨fun x hx => h.1 x (mem_repeatL hx), fun x hx => h.2 x (mem_repeatL hx)⟩,
   ⟨fun x hx => h.2 x (mem_repeatL hx), fun x hx => h.1 x (mem_repeatL hx)⟩⟩

theorem powPos_all (a : ArHeads P) {l : Poly} {n : ℕ} (w : l.All P) : (powPos l n).All P := by
  have gen := (sing_all (replicate_all a w n 1).1 0).1.simplify a
  obtain ⟨c, ps, ns⟩ := l
  unfold powPos
  split
  · rename_i m h1 h2
    simp only at h1 h2; subst h1 h2
    split_ifs
    · exact (sing_all (powN_all (w.1 m (by simp)) n _).1 0).1.simplify a
    · exact gen
  · rename_i m h1 h2
    simp only at h1 h2; subst h1 h2
    split_ifs
    · exact (sing_all (powN_all (w.2 m (by simp)) n _).1 0).1.simplify a
    · exact (sing_all (powN_all (w.2 m (by simp)) n _).1 0).2.simplify a
    · exact gen
  · exact gen

theorem powNeg_all (a : ArHeads P) {l : Poly} {n : ℕ} {e : E} (h : powNeg l n = .ok e) (w : l.All P) :
    e.All P := by
  have gen := (sing_all (replicate_all a w n 1).2 0).1.simplify a
  have inv : ∀ x y : Mono, x.All P → x.powNegN n = .ok y → y.All P := by
    intro x y hx hi
    unfold Mono.powNegN at hi
    split_ifs at hi
    have := (Except.ok.inj hi).symm; subst this
    exact (powN_all hx n _).2
  obtain ⟨c, ps, ns⟩ := l
  unfold powNeg at h
  split at h
  · rename_i m h1 h2
    simp only at h1 h2; subst h1 h2
    simp only at h
    by_cases hc : c = 0
    · rw [if_pos hc] at h
      cases hi : m.powNegN n with
      | error e => simp [hi, Except.map] at h
      | ok y =>
        simp only [hi, Except.map] at h
        have := (Except.ok.inj h).symm; subst this
        exact (sing_all (inv m y (w.1 m (by simp)) hi) 0).1.simplify a
    · rw [if_neg hc] at h
      have := (Except.ok.inj h).symm; subst this; exact gen
  · rename_i m h1 h2
    simp only at h1 h2; subst h1 h2
    simp only at h
    by_cases hc : c = 0
    · rw [if_pos hc] at h
      cases hi : m.powNegN n with
      | error e => simp [hi, Except.map] at h
      | ok y =>
        simp only [hi, Except.map] at h
        have := (Except.ok.inj h).symm; subst this
        split_ifs
        · exact (sing_all (inv m y (w.2 m (by simp)) hi) 0).1.simplify a
        · exact (sing_all (inv m y (w.2 m (by simp)) hi) 0).2.simplify a
    · rw [if_neg hc] at h
      have := (Except.ok.inj h).symm; subst this; exact gen
  · have := (Except.ok.inj h).symm; subst this; exact gen

/-- The operators that stay a `BinOp`. -/
def PyOp.stays : PyOp → Bool
  | .floordiv => true | .mod => true | .pow => true | .xor => true | _ => false

theorem binary_all (a : ArHeads P) {op : PyOp} {l r e : E} (h : binary op l r = .ok e) (hl : l.All P)
    (hr : r.All P) (ho : op.stays = true → P (.binop op.fcn)) : e.All P := by
  have bo : op.stays = true → (mkBinOp op l r).All P := by
    intro hs
    refine .mk _ _ _ (ho hs) ?_ (by simp)
    intro x hx
    rcases List.mem_cons.1 hx with rfl | hx
    · exact hl
    · have : x = r := by simpa using hx
      subst this; exact hr
  have done : ∀ {x : Except Err Poly}, x.map Poly.simplify = .ok e →
      (∀ q, x = .ok q → q.All P) → e.All P := by
    intro x hx hw
    cases x with
    | error _ => simp [Except.map] at hx
    | ok q =>
      have : e = q.simplify := by simpa [Except.map] using hx.symm
      subst this; exact (hw q rfl).simplify a
  have fc : ∀ a b, foldConst op a b = .ok e → e.All P := by
    intro a b h
    cases op <;> simp only [foldConst] at h <;> try (cases h; done)
    all_goals try (have := (Except.ok.inj h).symm; subst this; exact ArHeads.constE ‹_› _)
    split_ifs at h
    have := (Except.ok.inj h).symm; subst this; exact ArHeads.constE ‹_› _
  have pl := hl.asPoly
  have pr := hr.asPoly
  unfold binary at h
  split at h
  · exact fc _ _ h
  · by_cases hc : ((l.constVal.isSome || l.setOf.isSome) &&
        (r.constVal.isSome || r.setOf.isSome)) = true
    · rw [if_pos hc] at h; cases h
    rw [if_neg hc] at h
    cases op <;> simp only at h
    · split_ifs at h with hs
      exact done h (fun q hq => pl.combine pr hq)
    · split_ifs at h with hs
      exact done h (fun q hq => pl.combine pr.negate hq)
    · split_ifs at h with hs
      exact done h (fun q hq => pl.distribute pr hq)
    · split_ifs at h with hs
      cases hm : reciprocal r.asPoly with
      | error _ => rw [hm] at h; cases h
      | ok m =>
        rw [hm] at h
        exact done h (fun q hq => pl.distribute (reciprocal_all a hm pr).asPoly hq)
    · have := (Except.ok.inj h).symm; subst this; exact bo rfl
    · have := (Except.ok.inj h).symm; subst this; exact bo rfl
    · unfold binPow at h
      split at h
      · split_ifs at h
        have := (Except.ok.inj h).symm; subst this; exact bo rfl
      · split_ifs at h
        · have := (Except.ok.inj h).symm; subst this; exact powPos_all a pl
        · exact powNeg_all a h pl
        · have := (Except.ok.inj h).symm; subst this; exact bo rfl
    · cases h
    · cases h
    · have := (Except.ok.inj h).symm; subst this; exact bo rfl

theorem unary_all (a : ArHeads P) {e x : E} (w : e.All P) :
    (unaryMinus e = .ok x → x.All P) ∧ (unaryInvert e = .ok x → x.All P) := by
  constructor
  · intro h
    unfold unaryMinus at h
    split at h
    · have := (Except.ok.inj h).symm; subst this; exact a.constE _
    · split_ifs at h with hs
      have := (Except.ok.inj h).symm; subst this
      exact w.asPoly.negate.simplify a
  · intro h
    unfold unaryInvert at h
    split at h
    · split_ifs at h
      have := (Except.ok.inj h).symm; subst this; exact a.constE _
    · split_ifs at h

/-! ## Conditions -/

/-- A literal, or its negation, satisfies `P` throughout. -/
def LitAll (P : Head → Prop) (flag : Bool) (x : E) : Prop := if flag then x.All P else x.negLit.All P

/-- All literals of a normal form do. -/
def DnfAll (P : Head → Prop) (flag : Bool) (o : E) : Prop := ∀ a ∈ o.args, ∀ x ∈ a.args, LitAll P flag x

theorem andCombine_all {flag : Bool} {l r : E} (hl : DnfAll P flag l) (hr : DnfAll P flag r) :
    DnfAll P flag (andCombine l r) := by
  intro a ha x hx
  have ha' := mem_sortU.1 ha
  obtain ⟨y, hy, h2⟩ := List.mem_flatMap.1 ha'
  obtain ⟨z, hz, rfl⟩ := List.mem_map.1 h2
  have hx' := mem_sortU.1 hx
  rcases List.mem_append.1 hx' with h | h
  · exact hl y hy x h
  · exact hr z hz x h

theorem orCombine_all {flag : Bool} {l r : E} (hl : DnfAll P flag l) (hr : DnfAll P flag r) :
    DnfAll P flag (orCombine l r) := by
  intro a ha x hx
  rcases List.mem_append.1 (mem_sortU.1 ha) with h | h
  · exact hl a h x hx
  · exact hr a h x hx

theorem reduceE_all {f : E → E → E} {flag : Bool}
    (hf : ∀ l r, DnfAll P flag l → DnfAll P flag r → DnfAll P flag (f l r)) {os : List E} {o : E}
    (h : reduceE f os = .ok o) (hd : ∀ x ∈ os, DnfAll P flag x) : DnfAll P flag o := by
  cases os with
  | nil => cases h
  | cons x xs =>
    have := (Except.ok.inj h).symm; subst this
    clear h
    have key : ∀ (xs : List E) (x : E), DnfAll P flag x → (∀ y ∈ xs, DnfAll P flag y) →
        DnfAll P flag (xs.foldl f x) := by
      intro xs
      induction xs with
      | nil => intro x hx _; exact hx
      | cons y ys ih =>
        intro x hx hy
        exact ih (f x y) (hf x y hx (hy y (by simp))) fun z hz => hy z (by simp [hz])
    exact key xs x (hd x (by simp)) fun y hy => hd y (by simp [hy])

theorem negateOr_all {flag : Bool} {o : E} (hd : IsDnf o) (h : DnfAll P flag o) :
    DnfAll P (!flag) (negateOr o) := by
  intro a ha x hx
  obtain ⟨ys, hys, rfl⟩ := List.mem_map.1 (mem_sortU.1 ha)
  have hx' := mem_sortU.1 hx
  have h2 := forall2_mem (mem_cartesian.1 hys) x hx'
  obtain ⟨l, hl, hxl⟩ := h2
  obtain ⟨b, hb, rfl⟩ := List.mem_map.1 hl
  obtain ⟨y, hy, rfl⟩ := List.mem_map.1 hxl
  have hlit : y.isLit = true := by
    obtain ⟨as, rfl, _, has⟩ := hd.form
    obtain ⟨ls, rfl, _, h3⟩ := has b hb
    exact (h3 y hy).1
  have := h b hb y hy
  unfold LitAll at this ⊢
  cases flag
  · simpa using this
  · simp only [Bool.not_true, Bool.false_eq_true, if_false, if_true] at this ⊢
    rw [negLit_negLit hlit]; exact this

/-- What is known of a parsed condition: all its literals, or all their negations, satisfy `P`. -/
def CondAll (P : Head → Prop) (flag : Bool) (e : E) : Prop :=
  (flag = true → e.All P) ∧ ∀ o, e.asOr = .ok o → DnfAll P flag o

/-- The heads that conditions create. -/
structure LogHeads (P : Head → Prop) : Prop where
  land : P .land
  lor : P .lor

theorem dnf_one {x : E} {flag : Bool} (h : LitAll P flag x) : DnfAll P flag (mkOr [mkAnd [x]]) := by
  intro a ha y hy
  have h1 := mem_sortU.1 ha
  have : a = mkAnd [x] := by simpa using h1
  subst this
  have h2 := mem_sortU.1 hy
  have : y = x := by simpa using h2
  subst this; exact h

theorem cond_lit {x : E} {flag : Bool} (hl : x.isLit = true) (h : LitAll P flag x) : CondAll P flag x := by
  refine ⟨fun hf => by subst hf; exact h, ?_⟩
  intro o ho
  obtain ⟨hd, p, n⟩ := x
  cases hd <;> simp [E.isLit] at hl
  all_goals
    simp only [E.asOr] at ho
    have := (Except.ok.inj ho).symm; subst this
    exact dnf_one h

theorem orSimplify_all (a : LogHeads P) {o : E} {flag : Bool} (hd : IsDnf o) (h : DnfAll P flag o) :
    CondAll P flag (orSimplify o) := by
  obtain ⟨as, rfl, hne, hl⟩ := hd.form
  have hl' : ∀ x ∈ as, x.head = .land := by
    intro x hx; obtain ⟨ls, rfl, _⟩ := hl x hx; rfl
  have conj : ∀ ls, E.node .land ls [] ∈ as → flag = true → (E.node .land ls []).All P := by
    intro ls hm hf
    subst hf
    exact .mk _ _ _ a.land (fun x hx => h _ hm x hx) (by simp)
  rw [orSimplify_eq hne hl']
  unfold onlyOr
  split
  · rename_i x
    obtain ⟨ls, rfl, hn2, hl2⟩ := hl x (by simp)
    rw [andSimplify_eq hn2 (fun y hy => (hl2 y hy).1)]
    unfold onlyOr
    split
    · rename_i y
      exact cond_lit (hl2 y (by simp)).1 (h (.node .land [y] []) (by simp [E.args]) y (by simp [E.args]))
    · refine ⟨conj ls (by simp), ?_⟩
      intro o ho
      simp only [E.asOr] at ho
      have := (Except.ok.inj ho).symm; subst this
      intro b hb
      have h1 := mem_sortU.1 hb
      have : b = .node .land ls [] := by simpa using h1
      subst this
      exact h _ (by simp [E.args])
  · refine ⟨?_, ?_⟩
    · intro hf
      refine .mk _ _ _ a.lor ?_ (by simp)
      intro x hx
      obtain ⟨ls, rfl, _⟩ := hl x hx
      exact conj ls hx hf
    · intro o ho
      simp only [E.asOr] at ho
      have := (Except.ok.inj ho).symm; subst this
      exact h

/-- The relation that a comparison becomes. -/
def PyCmp.rel : PyCmp → RelOp
  | .eq => .eq | .ne => .ne | .lt => .lt | .le => .le | .gt => .lt | .ge => .le
  | .isin => .isin | .notin => .notin

/-- The negated relation. -/
def RelOp.neg : RelOp → RelOp
  | .eq => .ne | .ne => .eq | .lt => .le | .le => .lt | .isin => .notin | .notin => .isin

/-- The relation that a comparison becomes, below an even or odd number of `not`. -/
def PyCmp.relAt (flag : Bool) (op : PyCmp) : RelOp := if flag then op.rel else op.rel.neg

theorem mkRel_all {op : PyCmp} {l r x : E} {flag : Bool} (h : mkRel op l r = .ok x) (hl : l.All P)
    (hr : r.All P) (hp : P (.rel (op.relAt flag))) : LitAll P flag x := by
  have lst : ∀ c, P (.rel c) → (E.node (.rel c) [l, r] []).All P ∧ (E.node (.rel c) [r, l] []).All P :=
    fun c hc => ⟨.mk _ _ _ hc (by simp [hl, hr]) (by simp), .mk _ _ _ hc (by simp [hl, hr]) (by simp)⟩
  have srt : ∀ c, P (.rel c) → (E.node (.rel c) [(sort2 l r).1, (sort2 l r).2] []).All P := by
    intro c hc
    unfold sort2
    split_ifs
    · exact (lst c hc).2
    · exact (lst c hc).1
  cases op <;> simp only [mkRel] at h
  case isin | notin =>
    split_ifs at h
    have := (Except.ok.inj h).symm; subst this
    cases flag <;> exact (lst _ hp).1
  all_goals have := (Except.ok.inj h).symm; subst this
  · cases flag <;> exact srt _ hp
  · cases flag <;> exact srt _ hp
  · cases flag
    · exact (lst _ hp).2
    · exact (lst _ hp).1
  · cases flag
    · exact (lst _ hp).2
    · exact (lst _ hp).1
  · cases flag
    · exact (lst _ hp).1
    · exact (lst _ hp).2
  · cases flag
    · exact (lst _ hp).1
    · exact (lst _ hp).2

theorem asOr_name_all {s : String} {flag : Bool} (h1 : flag = true → P (.name s)) (h2 : P (.pred s flag)) :
    CondAll P flag (E.name s) := by
  refine ⟨fun hf => .mk _ _ _ (h1 hf) (by simp) (by simp), ?_⟩
  intro o ho
  have := (Except.ok.inj ho).symm; subst this
  refine dnf_one ?_
  cases flag <;> exact .mk _ _ _ h2 (by simp) (by simp)

theorem logicalNot_all (a : LogHeads P) {e x : E} {flag : Bool} (h : logicalNot e = .ok x) (w : e.WF)
    (he : CondAll P (!flag) e) : CondAll P flag x := by
  have gen : ∀ e : E, e.WF → CondAll P (!flag) e → (e.asOr >>= fun o => .ok (orSimplify (negateOr o))) =
      .ok x → CondAll P flag x := by
    intro e w he h
    obtain ⟨o, h1, h2⟩ := exBind h
    have := (Except.ok.inj h2).symm; subst this
    have hd := asOr_dnf h1 w
    have := negateOr_all hd (he.2 o h1)
    rw [Bool.not_not] at this
    exact orSimplify_all a (negateOr_val hd).1 this
  obtain ⟨hd, p, n⟩ := e
  cases hd <;> exact gen _ w he h

mutual
/-- Everything that an arithmetic expression mentions satisfies `P`. -/
def Py.Ar (P : Head → Prop) : Py → Prop
  | .num _ => True
  | .set l => P (.cset (canonSet l))
  | .name s => P (.name s)
  | .neg a => Py.Ar P a
  | .plus a => Py.Ar P a
  | .invert a => Py.Ar P a
  | .bin op a b => (op.stays = true → P (.binop op.fcn)) ∧ Py.Ar P a ∧ Py.Ar P b
  | .call f args => P (.call f) ∧ Py.ArL P (f = "where") args
  | _ => False
/-- The same for arguments; the first one of `where` may be a condition. -/
def Py.ArL (P : Head → Prop) : Bool → List Py → Prop
  | _, [] => True
  | rel, a :: as => (Py.Ar P a ∨ (rel = true ∧ Py.Lo P true a)) ∧ Py.ArL P false as
/-- Everything that a condition mentions satisfies `P`, if it stands below an even (`true`) or odd
(`false`) number of `not`. -/
def Py.Lo (P : Head → Prop) : Bool → Py → Prop
  | flag, .name s => (flag = true → P (.name s)) ∧ P (.pred s flag)
  | flag, .compare a ops cs => Py.Ar P a ∧ Py.ArL P false cs ∧ ∀ op ∈ ops, P (.rel (op.relAt flag))
  | flag, .lnot a => Py.Lo P (!flag) a
  | flag, .land l => Py.LoL P flag l
  | flag, .lor l => Py.LoL P flag l
  | _, _ => False
/-- The same for several conditions. -/
def Py.LoL (P : Head → Prop) : Bool → List Py → Prop
  | _, [] => True
  | flag, a :: as => Py.Lo P flag a ∧ Py.LoL P flag as
end

theorem reduce_all (a : LogHeads P) {os : List E} {e : E} {flag : Bool} (hd : ∀ o ∈ os, IsDnf o)
    (h : ∀ o ∈ os, DnfAll P flag o) :
    ((reduceE andCombine os).map orSimplify = .ok e → CondAll P flag e) ∧
    ((reduceE orCombine os).map orSimplify = .ok e → CondAll P flag e) := by
  constructor
  · intro hr
    obtain ⟨o, h1, h2⟩ := exMap hr
    subst h2
    exact orSimplify_all a (reduceE_and h1 hd).1 (reduceE_all (fun _ _ => andCombine_all) h1 h)
  · intro hr
    obtain ⟨o, h1, h2⟩ := exMap hr
    subst h2
    exact orSimplify_all a (reduceE_or h1 hd).1 (reduceE_all (fun _ _ => orCombine_all) h1 h)

theorem rels_all {rs os : List E} {flag : Bool} (h : rs.mapM E.asOr = .ok os)
    (hl : ∀ x ∈ rs, x.isLit = true) (ha : ∀ x ∈ rs, LitAll P flag x) : ∀ o ∈ os, DnfAll P flag o := by
  intro o ho
  obtain ⟨x, hx, hxo⟩ := mapM_mem h o ho
  exact (cond_lit (hl x hx) (ha x hx)).2 o hxo

mutual
/-- Everything in a parsed arithmetic expression satisfies `P`, if everything it mentions does. -/
theorem parse_ar (a : ArHeads P) (b : LogHeads P) (known : String → Bool) : ∀ (rel : Bool) (s : Py) (e : E),
    Py.parse (plainScope known) rel s = .ok e → s.Ar P → e.All P
  | rel, .num q, e, h, _ => by
    have := (Except.ok.inj h).symm; subst this; exact a.constE q
  | rel, .set l, e, h, w => by
    have := (Except.ok.inj h).symm; subst this; exact .mk _ _ _ w (by simp) (by simp)
  | rel, .name s, e, h, w => by
    have := (Except.ok.inj h).symm; subst this; exact .mk _ _ _ w (by simp) (by simp)
  | rel, .neg s, e, h, w => by
    simp only [Py.parse] at h
    obtain ⟨x, h1, h2⟩ := exBind h
    exact (unary_all a (parse_ar a b known false s x h1 w)).1 h2
  | rel, .plus s, e, h, w => by
    simp only [Py.parse] at h
    exact parse_ar a b known false s e h w
  | rel, .invert s, e, h, w => by
    simp only [Py.parse] at h
    obtain ⟨x, h1, h2⟩ := exBind h
    exact (unary_all a (parse_ar a b known false s x h1 w)).2 h2
  | rel, .bin op s t, e, h, w => by
    simp only [Py.parse] at h
    obtain ⟨l, h1, h2⟩ := exBind h
    obtain ⟨r, h3, h4⟩ := exBind h2
    exact binary_all a h4 (parse_ar a b known false s l h1 w.2.1) (parse_ar a b known false t r h3 w.2.2) w.1
  | rel, .call f args, e, h, w => by
    simp only [Py.parse] at h
    split_ifs at h
    obtain ⟨as, h1, h2⟩ := exBind h
    have := (Except.ok.inj h2).symm; subst this
    exact .mk _ _ _ w.1 (parseArgs_ar a b known _ args as h1 w.2) (by simp)
  | _, .compare _ _ _, _, _, w => w.elim
  | _, .lnot _, _, _, w => w.elim
  | _, .land _, _, _, w => w.elim
  | _, .lor _, _, _, w => w.elim
theorem parseArgs_ar (a : ArHeads P) (b : LogHeads P) (known : String → Bool) :
    ∀ (rel : Bool) (l : List Py) (es : List E),
    Py.parseArgs (plainScope known) rel l = .ok es → Py.ArL P rel l → ∀ x ∈ es, x.All P
  | rel, [], es, h, _ => by
    have : es = [] := by simpa [Py.parseArgs] using h.symm
    subst this; simp
  | rel, s :: ss, es, h, w => by
    simp only [Py.parseArgs] at h
    obtain ⟨e, h1, h2⟩ := exBind h
    obtain ⟨es', h3, h4⟩ := exBind h2
    have := (Except.ok.inj h4).symm; subst this
    intro y hy
    rcases List.mem_cons.1 hy with rfl | hy
    · rcases w.1 with w1 | ⟨hr, w1⟩
      · exact parse_ar a b known rel s y h1 w1
      · subst hr; exact (parse_lo a b known true s y h1 w1).1 rfl
    · exact parseArgs_ar a b known false ss es' h3 w.2 y hy
/-- The same for conditions. -/
theorem parse_lo (a : ArHeads P) (b : LogHeads P) (known : String → Bool) :
    ∀ (flag : Bool) (s : Py) (e : E),
    Py.parse (plainScope known) true s = .ok e → s.Lo P flag → CondAll P flag e
  | flag, .name s, e, h, w => by
    have := (Except.ok.inj h).symm; subst this
    exact asOr_name_all w.1 w.2
  | flag, .compare s ops cs, e, h, w => by
    simp only [Py.parse] at h
    obtain ⟨x, h1, h2⟩ := exBind h
    obtain ⟨rs, h3, h4⟩ := exBind h2
    have hx := parse_ar a b known false s x h1 w.1
    have hwf := parseChain_wf known x (parse_wf known false s x h1).1 ops cs rs h3
    have hl := parseChain_all a b known flag x hx ops cs rs h3 w.2.1 w.2.2
    split at h4
    · have := (Except.ok.inj h4).symm; subst this
      exact cond_lit (hwf _ (by simp)).1 (hl _ (by simp))
    · obtain ⟨os, h5, h6⟩ := exBind h4
      exact (reduce_all b (rels_asOr h5 hwf).1 (rels_all h5 (fun x hx => (hwf x hx).1) hl)).1 h6
  | flag, .lnot s, e, h, w => by
    simp only [Py.parse] at h
    obtain ⟨x, h1, h2⟩ := exBind h
    exact logicalNot_all b h2 (parse_wf known true s x h1).1 (parse_lo a b known (!flag) s x h1 w)
  | flag, .land l, e, h, w => by
    simp only [Py.parse] at h
    obtain ⟨os, h1, h2⟩ := exBind h
    exact (reduce_all b (parseOrs_wf known l os h1) (parseOrs_all a b known flag l os h1 w)).1 h2
  | flag, .lor l, e, h, w => by
    simp only [Py.parse] at h
    obtain ⟨os, h1, h2⟩ := exBind h
    exact (reduce_all b (parseOrs_wf known l os h1) (parseOrs_all a b known flag l os h1 w)).2 h2
  | _, .num _, _, _, w => w.elim
  | _, .set _, _, _, w => w.elim
  | _, .neg _, _, _, w => w.elim
  | _, .plus _, _, _, w => w.elim
  | _, .invert _, _, _, w => w.elim
  | _, .bin _ _ _, _, _, w => w.elim
  | _, .call _ _, _, _, w => w.elim
theorem parseChain_all (a : ArHeads P) (b : LogHeads P) (known : String → Bool) (flag : Bool) :
    ∀ (l : E), l.All P → ∀ (ops : List PyCmp) (cs : List Py)
    (rs : List E), Py.parseChain (plainScope known) l ops cs = .ok rs → Py.ArL P false cs →
    (∀ op ∈ ops, P (.rel (op.relAt flag))) → ∀ x ∈ rs, LitAll P flag x
  | l, w, ops, [], rs, h, _, _ => by
    have : rs = [] := by cases ops <;> simpa [Py.parseChain] using h.symm
    subst this; simp
  | l, w, [], c :: cs, rs, h, _, _ => by
    have : rs = [] := by simpa [Py.parseChain] using h.symm
    subst this; simp
  | l, w, op :: ops, c :: cs, rs, h, wc, wo => by
    simp only [Py.parseChain] at h
    obtain ⟨r, h1, h2⟩ := exBind h
    obtain ⟨x, h3, h4⟩ := exBind h2
    obtain ⟨xs, h5, h6⟩ := exBind h4
    have := (Except.ok.inj h6).symm; subst this
    have w1 : c.Ar P := by
      rcases wc.1 with h | ⟨h, _⟩
      · exact h
      · cases h
    have w' := parse_ar a b known false c r h1 w1
    intro y hy
    rcases List.mem_cons.1 hy with rfl | hy
    · exact mkRel_all h3 w w' (wo op (by simp))
    · exact parseChain_all a b known flag r w' ops cs xs h5 wc.2 (fun o ho => wo o (by simp [ho])) y hy
theorem parseOrs_all (a : ArHeads P) (b : LogHeads P) (known : String → Bool) (flag : Bool) :
    ∀ (l : List Py) (os : List E),
    Py.parseOrs (plainScope known) l = .ok os → Py.LoL P flag l → ∀ o ∈ os, DnfAll P flag o
  | [], os, h, _ => by
    have : os = [] := by simpa [Py.parseOrs] using h.symm
    subst this; simp
  | s :: ss, os, h, w => by
    simp only [Py.parseOrs] at h
    obtain ⟨e, h1, h2⟩ := exBind h
    obtain ⟨o, h3, h4⟩ := exBind h2
    obtain ⟨os', h5, h6⟩ := exBind h4
    have := (Except.ok.inj h6).symm; subst this
    intro y hy
    rcases List.mem_cons.1 hy with rfl | hy
    · exact (parse_lo a b known flag s e h1 w.1).2 y h3
    · exact parseOrs_all a b known flag ss os' h5 w.2 y hy
end

end Verif
