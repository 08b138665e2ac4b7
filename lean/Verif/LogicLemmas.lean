import Verif.ExprWF

/-!
# Values of conditions in disjunctive normal form

Lemmas: `and`, `or` and `not` on normal forms, for an arbitrary valuation of the relations and
predicates.
-/

namespace Verif

/-- First one of each group of equal elements. -/
def dedupE (l : List E) : List E :=
  l.foldr (fun x acc => if acc.any (E.same x) then acc else x :: acc) []

theorem dedupE_cons (x : E) (l : List E) :
    dedupE (x :: l) = if (dedupE l).any (E.same x) then dedupE l else x :: dedupE l := rfl

theorem any_same {l : List E} {x : E} : l.any (E.same x) = true ↔ x ∈ l := by
  rw [List.any_eq_true]
  constructor
  · rintro ⟨y, hy, e⟩; rw [E.same_iff.1 e]; exact hy
  · intro h; exact ⟨x, h, E.same_iff.2 rfl⟩

theorem mem_dedupE {l : List E} {x : E} : x ∈ dedupE l ↔ x ∈ l := by
  induction l generalizing x with
  | nil => simp [dedupE]
  | cons y ys ih =>
    rw [dedupE_cons]
    split_ifs with h
    · rw [ih, List.mem_cons]
      rw [any_same, ih] at h
      constructor
      · exact .inr
      · rintro (rfl | h')
        · exact h
        · exact h'
    · rw [List.mem_cons, List.mem_cons, ih]

theorem nodup_dedupE (l : List E) : (dedupE l).Nodup := by
  induction l with
  | nil => simp [dedupE]
  | cons y ys ih =>
    rw [dedupE_cons]
    split_ifs with h
    · exact ih
    · rw [any_same] at h
      exact List.nodup_cons.2 ⟨h, ih⟩

theorem mem_sortU {l : List E} {x : E} : x ∈ sortU l ↔ x ∈ l := by
  unfold sortU
  rw [(sortE_perm _).mem_iff]
  exact mem_dedupE

theorem nodup_sortU (l : List E) : (sortU l).Nodup :=
  (sortE_perm _).nodup_iff.2 (nodup_dedupE l)

/-- Two lists with the same elements give the same sorted set. -/
theorem sortU_congr {l l' : List E} (h : ∀ x, x ∈ l ↔ x ∈ l') : sortU l = sortU l' := by
  refine sortE_eq_of_perm ?_
  refine (List.perm_ext_iff_of_nodup (nodup_dedupE l) (nodup_dedupE l')).2 ?_
  intro x; rw [mem_dedupE, mem_dedupE]; exact h x

theorem all_sortU (f : E → Bool) (l : List E) : (sortU l).all f = l.all f := by
  rw [Bool.eq_iff_iff, List.all_eq_true, List.all_eq_true]
  simp only [mem_sortU]

theorem any_sortU (f : E → Bool) (l : List E) : (sortU l).any f = l.any f := by
  rw [Bool.eq_iff_iff, List.any_eq_true, List.any_eq_true]
  simp only [mem_sortU]

theorem sortU_ne_nil {l : List E} (h : l ≠ []) : sortU l ≠ [] := by
  obtain ⟨x, hx⟩ := List.exists_mem_of_ne_nil l h
  exact List.ne_nil_of_mem (mem_sortU.2 hx)

theorem sortU_single (x : E) : sortU [x] = [x] := by
  simp [sortU, sortE]

/-- Value of a disjunctive normal form under a valuation of its literals. -/
def dnfVal (f : E → Bool) (o : E) : Bool := o.args.any fun a => a.args.all f

/-- Value of a condition under a valuation of the literals. -/
def logVal (f : E → Bool) : E → Bool
  | .node (.name s) _ _ => f (.node (.pred s true) [] [])
  | .node .land p _ => p.all f
  | .node .lor p _ => p.any fun a => a.args.all f
  | e => f e

/-- The valuation that a negation sees. -/
def dual (f : E → Bool) (e : E) : Bool := !f e.negLit

/-- A disjunction of conjunctions of literals. -/
def IsDnf (o : E) : Prop := o.head = .lor ∧ o.WF

theorem IsDnf.form {o : E} (h : IsDnf o) : ∃ as, o = .node .lor as [] ∧ as ≠ [] ∧
    ∀ a ∈ as, ∃ ls, a = .node .land ls [] ∧ ls ≠ [] ∧ (∀ x ∈ ls, x.isLit = true ∧ x.WF) := by
  obtain ⟨h1, w⟩ := h
  obtain ⟨hd, p, n⟩ := o
  have : hd = .lor := h1
  subst this
  obtain ⟨hn, hp, hl⟩ := w.local
  subst hn
  refine ⟨p, rfl, hp, ?_⟩
  intro a ha
  have wa := w.pos a ha
  have ha' := hl a ha
  obtain ⟨hd, p', n'⟩ := a
  have : hd = .land := ha'
  subst this
  obtain ⟨hn, hp, hl⟩ := wa.local
  subst hn
  exact ⟨p', rfl, hp, fun x hx => ⟨hl x hx, wa.pos x hx⟩⟩

theorem mkAnd_wf {l : List E} (hne : l ≠ []) (hl : ∀ x ∈ l, x.isLit = true ∧ x.WF) : (mkAnd l).WF :=
  .mk _ _ _ ⟨rfl, sortU_ne_nil hne, fun x hx => (hl x (mem_sortU.1 hx)).1⟩
    (fun x hx => (hl x (mem_sortU.1 hx)).2) (by simp)

theorem mkOr_dnf {l : List E} (hne : l ≠ []) (hl : ∀ x ∈ l, x.head = .land ∧ x.WF) : IsDnf (mkOr l) :=
  ⟨rfl, .mk _ _ _ ⟨rfl, sortU_ne_nil hne, fun x hx => (hl x (mem_sortU.1 hx)).1⟩
    (fun x hx => (hl x (mem_sortU.1 hx)).2) (by simp)⟩

theorem dnfVal_mkOr (f : E → Bool) (l : List E) :
    dnfVal f (mkOr l) = l.any fun a => a.args.all f := any_sortU _ l

theorem all_mkAnd (f : E → Bool) (l : List E) : (mkAnd l).args.all f = l.all f := all_sortU f l

theorem asOr_dnf {e o : E} (h : e.asOr = .ok o) (w : e.WF) : IsDnf o := by
  have lit : ∀ x : E, x.isLit = true → x.WF → IsDnf (mkOr [mkAnd [x]]) := by
    intro x h1 h2
    refine mkOr_dnf (by simp) ?_
    intro y hy
    have : y = mkAnd [x] := by simpa using hy
    subst this
    exact ⟨rfl, mkAnd_wf (by simp) (by simpa using ⟨h1, h2⟩)⟩
  obtain ⟨hd, p, n⟩ := e
  cases hd <;> simp only [E.asOr] at h <;> try (cases h; done)
  · have := (Except.ok.inj h).symm; subst this
    refine mkOr_dnf (by simp) ?_
    intro y hy
    have : y = .node .land p n := by simpa using hy
    subst this
    exact ⟨rfl, w⟩
  · have := (Except.ok.inj h).symm; subst this
    exact ⟨rfl, w⟩
  · have := (Except.ok.inj h).symm; subst this
    exact lit _ rfl (.mk _ _ _ ⟨rfl, rfl⟩ (by simp) (by simp))
  · have := (Except.ok.inj h).symm; subst this
    exact lit _ rfl w
  · have := (Except.ok.inj h).symm; subst this
    exact lit _ rfl w

theorem asOr_val {e o : E} (f : E → Bool) (h : e.asOr = .ok o) : dnfVal f o = logVal f e := by
  have lit : ∀ x : E, dnfVal f (mkOr [mkAnd [x]]) = f x := by
    intro x
    rw [dnfVal_mkOr]; simp [all_mkAnd]
  obtain ⟨hd, p, n⟩ := e
  cases hd <;> simp only [E.asOr] at h <;> try (cases h; done)
  · have := (Except.ok.inj h).symm; subst this
    rw [dnfVal_mkOr]; simp [logVal, E.args]
  · have := (Except.ok.inj h).symm; subst this
    rfl
  · have := (Except.ok.inj h).symm; subst this
    exact lit _
  · have := (Except.ok.inj h).symm; subst this
    exact lit _
  · have := (Except.ok.inj h).symm; subst this
    exact lit _

theorem isLit_ne_const {x : E} (h : x.isLit = true) (q : ℚ) : E.same (E.const q) x = false := by
  by_contra hc
  have := E.same_iff.1 (by simpa using hc)
  subst this
  simp [E.isLit] at h

theorem land_ne_const {x : E} (h : x.head = .land) (q : ℚ) : E.same (E.const q) x = false := by
  by_contra hc
  have := E.same_iff.1 (by simpa using hc)
  subst this
  simp [E.head] at h

/-- The only element, or a default. -/
def onlyOr (g : E → E) (d : E) : List E → E
  | [x] => g x
  | _ => d

theorem andSimplify_eq {ls : List E} (hne : ls ≠ []) (hl : ∀ x ∈ ls, x.isLit = true) :
    andSimplify (.node .land ls []) = onlyOr id (.node .land ls []) ls := by
  have h1 : ls.all (E.same (E.const 1)) = false := by
    obtain ⟨x, hx⟩ := List.exists_mem_of_ne_nil ls hne
    rw [List.all_eq_false]
    exact ⟨x, hx, by simp [isLit_ne_const (hl x hx)]⟩
  have h2 : ls.any (E.same (E.const 0)) = false := by
    rw [List.any_eq_false]
    intro x hx; simp [isLit_ne_const (hl x hx)]
  unfold andSimplify
  simp only [E.args, h1, h2, Bool.false_eq_true, if_false]
  rcases ls with _ | ⟨x, _ | ⟨y, l⟩⟩ <;> rfl

theorem orSimplify_eq {as : List E} (hne : as ≠ []) (hl : ∀ x ∈ as, x.head = .land) :
    orSimplify (.node .lor as []) = onlyOr andSimplify (.node .lor as []) as := by
  have h1 : as.all (E.same (E.const 0)) = false := by
    obtain ⟨x, hx⟩ := List.exists_mem_of_ne_nil as hne
    rw [List.all_eq_false]
    exact ⟨x, hx, by simp [land_ne_const (hl x hx)]⟩
  have h2 : as.any (E.same (E.const 1)) = false := by
    rw [List.any_eq_false]
    intro x hx; simp [land_ne_const (hl x hx)]
  unfold orSimplify
  simp only [E.args, h1, h2, Bool.false_eq_true, if_false]
  rcases as with _ | ⟨x, _ | ⟨y, l⟩⟩ <;> rfl

theorem logVal_lit {f : E → Bool} {x : E} (h : x.isLit = true) : logVal f x = f x := by
  obtain ⟨hd, p, n⟩ := x
  cases hd <;> simp [E.isLit] at h <;> rfl

theorem isLog_of_isLit {x : E} (h : x.isLit = true) : x.isLog = true := by
  obtain ⟨hd, p, n⟩ := x
  cases hd <;> simp [E.isLit] at h <;> rfl

/-- Simplifying a normal form keeps the value, for every valuation, and gives a condition whose
normal form has the same value. -/
theorem orSimplify_val {o : E} (h : IsDnf o) :
    (orSimplify o).WF ∧ (orSimplify o).isLog = true ∧ (∀ f, logVal f (orSimplify o) = dnfVal f o) := by
  obtain ⟨as, rfl, hne, hl⟩ := h.form
  have hl' : ∀ x ∈ as, x.head = .land := by
    intro x hx; obtain ⟨ls, rfl, _⟩ := hl x hx; rfl
  rw [orSimplify_eq hne hl']
  unfold onlyOr
  split
  · rename_i x
    obtain ⟨ls, rfl, hn2, hl2⟩ := hl x (by simp)
    have w := h.2.pos (.node .land ls []) (by simp)
    rw [andSimplify_eq hn2 (fun y hy => (hl2 y hy).1)]
    unfold onlyOr
    split
    · rename_i y
      obtain ⟨h1, h2⟩ := hl2 y (by simp)
      refine ⟨h2, isLog_of_isLit h1, ?_⟩
      intro f
      rw [id, logVal_lit h1]; simp [dnfVal, E.args]
    · refine ⟨w, rfl, ?_⟩
      intro f; simp [dnfVal, E.args, logVal]
  · exact ⟨h.2, rfl, fun f => rfl⟩

theorem andCombine_val {l r : E} (hl : IsDnf l) (hr : IsDnf r) :
    IsDnf (andCombine l r) ∧ ∀ f, dnfVal f (andCombine l r) = (dnfVal f l && dnfVal f r) := by
  obtain ⟨as, rfl, ha, hla⟩ := hl.form
  obtain ⟨bs, rfl, hb, hlb⟩ := hr.form
  constructor
  · refine mkOr_dnf ?_ ?_
    · obtain ⟨a, ha⟩ := List.exists_mem_of_ne_nil as ha
      obtain ⟨b, hb⟩ := List.exists_mem_of_ne_nil bs hb
      refine List.ne_nil_of_mem (a := mkAnd (a.args ++ b.args)) ?_
      exact List.mem_flatMap.2 ⟨a, ha, List.mem_map.2 ⟨b, hb, rfl⟩⟩
    · intro x hx
      obtain ⟨a, ha, hx⟩ := List.mem_flatMap.1 hx
      obtain ⟨b, hb, rfl⟩ := List.mem_map.1 hx
      obtain ⟨ls, rfl, hn, hl⟩ := hla a ha
      obtain ⟨ms, rfl, hn', hl'⟩ := hlb b hb
      refine ⟨rfl, mkAnd_wf (by simp [E.args, hn]) ?_⟩
      intro x hx
      rcases List.mem_append.1 hx with h | h
      · exact hl x h
      · exact hl' x h
  · intro f
    unfold andCombine
    rw [dnfVal_mkOr, Bool.eq_iff_iff]
    simp only [List.any_eq_true, List.mem_flatMap, List.mem_map, Bool.and_eq_true, dnfVal, E.args]
    constructor
    · rintro ⟨x, ⟨a, ha, b, hb, rfl⟩, h⟩
      have h := h
      change (mkAnd (a.args ++ b.args)).args.all f = true at h
      rw [all_mkAnd, List.all_append, Bool.and_eq_true] at h
      exact ⟨⟨a, ha, h.1⟩, ⟨b, hb, h.2⟩⟩
    · rintro ⟨⟨a, ha, h1⟩, ⟨b, hb, h2⟩⟩
      refine ⟨_, ⟨a, ha, b, hb, rfl⟩, ?_⟩
      change (mkAnd (a.args ++ b.args)).args.all f = true
      rw [all_mkAnd, List.all_append, Bool.and_eq_true]
      exact ⟨h1, h2⟩

theorem orCombine_val {l r : E} (hl : IsDnf l) (hr : IsDnf r) :
    IsDnf (orCombine l r) ∧ ∀ f, dnfVal f (orCombine l r) = (dnfVal f l || dnfVal f r) := by
  obtain ⟨as, rfl, ha, hla⟩ := hl.form
  obtain ⟨bs, rfl, hb, hlb⟩ := hr.form
  constructor
  · refine mkOr_dnf (by simp [E.args, ha]) ?_
    intro x hx
    rcases List.mem_append.1 hx with h | h
    · obtain ⟨ls, rfl, _⟩ := hla x h
      exact ⟨rfl, hl.2.pos _ h⟩
    · obtain ⟨ls, rfl, _⟩ := hlb x h
      exact ⟨rfl, hr.2.pos _ h⟩
  · intro f
    unfold orCombine
    rw [dnfVal_mkOr, List.any_append]; rfl

theorem mem_cartesian {ls : List (List E)} {x : List E} :
    x ∈ cartesian ls ↔ List.Forall₂ (fun y l => y ∈ l) x ls := by
  induction ls generalizing x with
  | nil => simp [cartesian]
  | cons l ls ih =>
    simp only [cartesian, List.mem_flatMap, List.mem_map]
    constructor
    · rintro ⟨y, hy, z, hz, rfl⟩
      exact .cons hy (ih.1 hz)
    · intro h
      cases h with
      | cons h1 h2 => exact ⟨_, h1, _, ih.2 h2, rfl⟩

theorem forall2_mem {x : List E} {ls : List (List E)} (h : List.Forall₂ (fun y l => y ∈ l) x ls) :
    ∀ y ∈ x, ∃ l ∈ ls, y ∈ l := by
  induction h with
  | nil => simp
  | cons h1 h2 ih =>
    intro y hy
    rcases List.mem_cons.1 hy with rfl | hy
    · exact ⟨_, by simp, h1⟩
    · obtain ⟨l, a, b⟩ := ih y hy
      exact ⟨l, by simp [a], b⟩

theorem cartesian_any (f : E → Bool) (ls : List (List E)) :
    (cartesian ls).any (fun x => x.all f) = ls.all fun l => l.any f := by
  induction ls with
  | nil => simp [cartesian]
  | cons l ls ih =>
    rw [Bool.eq_iff_iff]
    simp only [cartesian, List.any_eq_true, List.mem_flatMap, List.mem_map, List.all_cons,
      Bool.and_eq_true]
    rw [← ih]
    simp only [List.any_eq_true]
    constructor
    · rintro ⟨x, ⟨y, hy, z, hz, rfl⟩, h⟩
      rw [List.all_cons, Bool.and_eq_true] at h
      exact ⟨⟨y, hy, h.1⟩, ⟨z, hz, h.2⟩⟩
    · rintro ⟨⟨y, hy, h1⟩, ⟨z, hz, h2⟩⟩
      exact ⟨y :: z, ⟨y, hy, z, hz, rfl⟩, by rw [List.all_cons, h1, h2]; rfl⟩

theorem negLit_wf {x : E} (h : x.isLit = true) (w : x.WF) : x.negLit.isLit = true ∧ x.negLit.WF := by
  obtain ⟨hd, p, n⟩ := x
  cases hd <;> simp [E.isLit] at h
  · exact ⟨rfl, .mk _ _ _ w.local w.pos w.neg⟩
  · rename_i c
    obtain ⟨hn, l, r, hp⟩ := w.local
    subst hn hp
    have wp := w.pos
    cases c <;> refine ⟨rfl, .mk _ _ _ ⟨rfl, ?_⟩ ?_ (by simp)⟩ <;>
      first
      | exact ⟨_, _, rfl⟩
      | (intro y hy; exact wp y (by simpa [or_comm] using hy))

theorem negLit_negLit {x : E} (h : x.isLit = true) : x.negLit.negLit = x := by
  obtain ⟨hd, p, n⟩ := x
  cases hd <;> simp [E.isLit] at h
  · simp [E.negLit]
  · rename_i c
    cases c <;> simp [E.negLit]

theorem negateOr_val {o : E} (h : IsDnf o) :
    IsDnf (negateOr o) ∧ ∀ f, dnfVal f (negateOr o) = !dnfVal (dual f) o := by
  obtain ⟨as, rfl, hne, hl⟩ := h.form
  constructor
  · unfold negateOr
    have lits : ∀ x ∈ cartesian (as.map fun a => a.args.map E.negLit),
        x ≠ [] ∧ ∀ y ∈ x, y.isLit = true ∧ y.WF := by
      intro x hx
      rw [mem_cartesian] at hx
      constructor
      · intro he; subst he
        have := hx.length_eq
        exact hne (List.length_eq_zero_iff.1 (by simpa using this.symm))
      · intro y hy
        obtain ⟨l, hl', hyl⟩ := forall2_mem hx y hy
        obtain ⟨a, ha, rfl⟩ := List.mem_map.1 hl'
        obtain ⟨z, hz, rfl⟩ := List.mem_map.1 hyl
        obtain ⟨ls, rfl, _, hls⟩ := hl a ha
        exact negLit_wf (hls z hz).1 (hls z hz).2
    refine mkOr_dnf ?_ ?_
    · have : ∃ x, x ∈ cartesian (as.map fun a => a.args.map E.negLit) := by
        clear lits hne h
        induction as with
        | nil => exact ⟨[], by simp [cartesian]⟩
        | cons a as ih =>
          obtain ⟨x, hx⟩ := ih (fun b hb => hl b (by simp [hb]))
          obtain ⟨ls, rfl, hn, _⟩ := hl a (by simp)
          obtain ⟨y, hy⟩ := List.exists_mem_of_ne_nil ls hn
          refine ⟨y.negLit :: x, ?_⟩
          simp only [List.map_cons, cartesian, List.mem_flatMap, List.mem_map]
          exact ⟨_, ⟨y, hy, rfl⟩, x, hx, rfl⟩
      obtain ⟨x, hx⟩ := this
      exact List.ne_nil_of_mem (List.mem_map.2 ⟨x, hx, rfl⟩)
    · intro y hy
      obtain ⟨x, hx, rfl⟩ := List.mem_map.1 hy
      exact ⟨rfl, mkAnd_wf (lits x hx).1 (lits x hx).2⟩
  · intro f
    unfold negateOr
    rw [dnfVal_mkOr, List.any_map]
    have : ((fun a : E => a.args.all f) ∘ mkAnd) = fun x : List E => x.all f := by
      funext x; exact all_mkAnd f x
    rw [this, cartesian_any, List.all_map]
    simp only [dnfVal, E.args, List.not_any_eq_all_not, Function.comp_def, List.any_map,
      List.not_all_eq_any_not, dual, Bool.not_not]

/-- Valuations that agree on literals give the same value. -/
theorem logVal_congr {f g : E → Bool} (hfg : ∀ x : E, x.isLit = true → f x = g x) {e o : E} (w : e.WF)
    (h : e.asOr = .ok o) : logVal f e = logVal g e := by
  rw [← asOr_val f h, ← asOr_val g h]
  obtain ⟨as, rfl, hne, hl⟩ := (asOr_dnf h w).form
  rw [Bool.eq_iff_iff]
  simp only [dnfVal, E.args, List.any_eq_true]
  refine exists_congr fun a => and_congr_right fun ha => ?_
  obtain ⟨ls, rfl, _, hls⟩ := hl a ha
  rw [List.all_eq_true, List.all_eq_true]
  refine forall_congr' fun x => forall_congr' fun hx => ?_
  rw [hfg x (hls x hx).1]

theorem dual_dual {f : E → Bool} {x : E} (h : x.isLit = true) : dual (dual f) x = f x := by
  simp [dual, negLit_negLit h]

/-- The actual truth values of relations and predicates on a row. -/
def rowVal (env : RowEnv) (e : E) : Bool := truth (e.eval env)

theorem truth_ofBool (b : Bool) : truth (ofBool b) = b := by
  cases b <;> simp [truth, ofBool]

/-- The value of a condition is the truth value under the row's valuation. -/
theorem eval_logVal {env : RowEnv} {e : E} (w : e.WF) (h : e.isLog = true) :
    e.eval env = ofBool (logVal (rowVal env) e) := by
  have lit : ∀ x : E, x.isLit = true → x.WF → x.eval env = ofBool (rowVal env x) := by
    intro x hx wx
    obtain ⟨hd, p, n⟩ := x
    cases hd <;> simp [E.isLit] at hx
    · simp only [rowVal, E.eval, Head.apply, truth_ofBool]
    · obtain ⟨hn, l, r, hp⟩ := wx.local
      subst hn hp
      simp only [rowVal, E.eval, Head.apply, E.evalL, truth_ofBool]
  have conj : ∀ ls : List E, (∀ x ∈ ls, x.isLit = true ∧ x.WF) →
      (ls.map (E.eval env)).all truth = ls.all (rowVal env) := by
    intro ls _
    rw [List.all_map]; rfl
  obtain ⟨hd, p, n⟩ := e
  cases hd <;> simp [E.isLog] at h
  · simp only [E.eval, Head.apply, logVal, E.evalL_eq]
    rw [conj p (fun x hx => ⟨w.local.2.2 x hx, w.pos x hx⟩)]
  · simp only [E.eval, Head.apply, logVal, E.evalL_eq]
    congr 1
    rw [List.any_map, Bool.eq_iff_iff, List.any_eq_true, List.any_eq_true]
    refine exists_congr fun a => and_congr_right fun ha => ?_
    have wa := w.pos a ha
    have hh := w.local.2.2 a ha
    obtain ⟨hd, p', n'⟩ := a
    have : hd = .land := hh
    subst this
    simp only [Function.comp, E.eval, Head.apply, E.evalL_eq, truth_ofBool, E.args]
    rw [conj p' (fun x hx => ⟨wa.local.2.2 x hx, wa.pos x hx⟩)]
  · exact lit _ rfl w
  · exact lit _ rfl w

end Verif
