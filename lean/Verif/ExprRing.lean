import Verif.ExprPoly
import Mathlib.Algebra.MvPolynomial.Basic
import Mathlib.Algebra.MvPolynomial.CommRing
import Mathlib.Algebra.MvPolynomial.Eval
import Mathlib.Data.Finsupp.Multiset

/-!
# Parsed arithmetic as polynomials

Lemmas: collected sums correspond one to one to polynomials whose variables are the basic operands, and
the ring operations of the parser are the ring operations on polynomials.
-/

namespace Verif

open MvPolynomial

/-- The polynomial of a term without denominator. -/
noncomputable def Mono.mv (m : Mono) : MvPolynomial E ℚ := C m.c * (m.pos.map X).prod

/-- The polynomials of the terms, added up. -/
noncomputable def mvSum (l : List Mono) : MvPolynomial E ℚ := (l.map Mono.mv).sum

/-- The polynomial of a sum without denominators. -/
noncomputable def Poly.mv (p : Poly) : MvPolynomial E ℚ := C p.c + mvSum p.pos - mvSum p.neg

theorem mvSum_nil : mvSum [] = 0 := rfl

theorem mvSum_cons (x : Mono) (l : List Mono) : mvSum (x :: l) = x.mv + mvSum l := by simp [mvSum]

theorem mvSum_append (l r : List Mono) : mvSum (l ++ r) = mvSum l + mvSum r := by simp [mvSum]

theorem mvSum_perm {l r : List Mono} (h : l.Perm r) : mvSum l = mvSum r := (h.map _).sum_eq

theorem mvSum_sortM (l : List Mono) : mvSum (sortM l) = mvSum l := mvSum_perm (sortM_perm l)

theorem opp_mv (m : Mono) : m.opp.mv = -m.mv := by simp [Mono.mv, Mono.opp]

theorem mvSum_opp (l : List Mono) : mvSum (l.map Mono.opp) = -mvSum l := by
  induction l with
  | nil => simp [mvSum]
  | cons x xs ih => rw [List.map_cons, mvSum_cons, mvSum_cons, ih, opp_mv]; ring

theorem combine_mv (x y : Mono) : (x.combine y).mv = x.mv * y.mv := by
  unfold Mono.mv Mono.combine
  simp only
  rw [((sortE_perm (x.pos ++ y.pos)).map X).prod_eq, List.map_append, List.prod_append, C_mul]; ring

theorem scale_mv (c : ℚ) (l : List Mono) : mvSum (scale c l) = C c * mvSum l := by
  induction l with
  | nil => simp [mvSum, scale]
  | cons x xs ih =>
    have : scale c (x :: xs) = x.combine ⟨c, [], []⟩ :: scale c xs := rfl
    rw [this, mvSum_cons, mvSum_cons, ih, combine_mv]
    simp [Mono.mv]; ring

theorem prods_mv (l r : List Mono) : mvSum (prods l r) = mvSum l * mvSum r := by
  induction l with
  | nil => simp [mvSum, prods]
  | cons x xs ih =>
    have : prods (x :: xs) r = (r.map fun y => x.combine y) ++ prods xs r := rfl
    rw [this, mvSum_append, mvSum_cons, ih, add_mul]
    congr 1
    clear ih this
    induction r with
    | nil => simp [mvSum]
    | cons y ys ih => rw [List.map_cons, mvSum_cons, mvSum_cons, ih, combine_mv]; ring

theorem negate_mv (p : Poly) : p.negate.mv = -p.mv := by
  unfold Poly.mv Poly.negate; simp only [map_neg]; ring

theorem addArg_mv (l r : Poly) : (addArg l r).mv = l.mv + r.mv := by
  unfold Poly.mv addArg
  simp only [mvSum_sortM, mvSum_append, C_add]; ring

theorem distArg_mv (l r : Poly) : (distArg l r).mv = l.mv * r.mv - C (l.c * r.c) := by
  unfold Poly.mv distArg
  simp only [mvSum_append, scale_mv, prods_mv, C_mul, map_zero]; ring

theorem mergeTerm_mv (x : Mono) (l : List Mono) : mvSum (mergeTerm x l) = x.mv + mvSum l := by
  induction l with
  | nil => simp [mergeTerm, mvSum]
  | cons y ys ih =>
    simp only [mergeTerm]
    by_cases h : x.similar y = true
    · rw [if_pos h, mvSum_cons, mvSum_cons]
      have e := (Mono.similar_iff.1 h).1
      unfold Mono.mv
      simp only
      rw [e, C_add]; ring
    · rw [if_neg h, mvSum_cons, mvSum_cons, ih]; ring

theorem foldTerms_mv (l : List Mono) (acc : ℚ × List Mono) :
    C (l.foldl addTerm acc).1 + mvSum (l.foldl addTerm acc).2 = C acc.1 + mvSum acc.2 + mvSum l := by
  induction l generalizing acc with
  | nil => simp [mvSum]
  | cons x xs ih =>
    rw [List.foldl_cons, ih, mvSum_cons]
    have step : C (addTerm acc x).1 + mvSum (addTerm acc x).2 = C acc.1 + mvSum acc.2 + x.mv := by
      unfold addTerm
      by_cases h1 : x.c = 0
      · rw [if_pos h1]; simp [Mono.mv, h1]
      rw [if_neg h1]
      by_cases h2 : x.pos = [] ∧ x.neg = []
      · rw [if_pos h2]; simp only [Mono.mv, h2.1, C_add]; simp; ring
      · rw [if_neg h2]; simp only [mergeTerm_mv]; ring
    rw [step]; ring

theorem splitTerms_mv (c : ℚ) (l : List Mono) : (splitTerms c l).mv = C c + mvSum l := by
  unfold Poly.mv splitTerms
  simp only [mvSum_sortM, mvSum_opp]
  rw [sub_neg_eq_add, add_assoc]
  congr 1
  induction l with
  | nil => simp [mvSum]
  | cons x xs ih =>
    rw [mvSum_cons, ← ih]
    rcases lt_trichotomy x.c 0 with h | h | h
    · rw [List.filter_cons_of_neg (by simpa using h.le), List.filter_cons_of_pos (by simpa using h),
        mvSum_cons]; ring
    · rw [List.filter_cons_of_neg (by simp [h]), List.filter_cons_of_neg (by simp [h])]
      simp [Mono.mv, h]
    · rw [List.filter_cons_of_pos (by simpa using h), List.filter_cons_of_neg (by simpa using h.le),
        mvSum_cons]; ring

theorem collect_mv {p q : Poly} (hr : p.Raw) (h : p.collect = .ok q) : q.mv = p.mv := by
  rw [collect_gather (fun m hm => (hr.pos m hm).1) (fun m hm => (hr.neg m hm).1)] at h
  have := (Except.ok.inj h).symm; subst this
  have e : gather p.c p.pos p.neg = splitTerms
      ((p.neg.map Mono.opp).foldl addTerm (p.pos.foldl addTerm (p.c, []))).1
      ((p.neg.map Mono.opp).foldl addTerm (p.pos.foldl addTerm (p.c, []))).2 := rfl
  rw [e, splitTerms_mv, foldTerms_mv, foldTerms_mv, mvSum_opp]
  unfold Poly.mv
  simp only [mvSum_nil]; ring

/-- Multiplicities of the factors. -/
noncomputable def expo (l : List E) : E →₀ ℕ := Multiset.toFinsupp (l : Multiset E)

theorem mono_mv (m : Mono) : m.mv = monomial (expo m.pos) m.c := by
  obtain ⟨c, p, n⟩ := m
  unfold Mono.mv
  simp only
  have : ∀ l : List E, (l.map X).prod = (monomial (expo l) 1 : MvPolynomial E ℚ) := by
    intro l
    induction l with
    | nil => simp [expo]
    | cons x xs ih =>
      rw [List.map_cons, List.prod_cons, ih, X, monomial_mul, one_mul]
      congr 1
      unfold expo
      rw [← Multiset.cons_coe, ← Multiset.singleton_add, Multiset.toFinsupp_add,
        Multiset.toFinsupp_singleton]
  rw [this, C_mul_monomial, mul_one]

theorem expo_inj {a b : List E} (ha : a.Pairwise E.le) (hb : b.Pairwise E.le) (h : expo a = expo b) :
    a = b := by
  have : (a : Multiset E) = (b : Multiset E) := Multiset.toFinsupp.injective h
  exact List.Perm.eq_of_pairwise (fun _ _ _ _ => E.le_antisymm) ha hb (Multiset.coe_eq_coe.1 this)

theorem expo_zero {a : List E} (h : expo a = 0) : a = [] := by
  have : (a : Multiset E) = 0 := Multiset.toFinsupp.injective (by rw [map_zero]; exact h)
  exact (Multiset.coe_eq_zero a).1 this

theorem coeff_mvSum {l : List Mono} (hs : ∀ m ∈ l, m.Shape) {k : List E} (hk : k.Pairwise E.le) :
    coeff (expo k) (mvSum l) = ksum l (k, []) := by
  induction l with
  | nil => simp [mvSum, ksum]
  | cons x xs ih =>
    rw [mvSum_cons, coeff_add, ih (fun m hm => hs m (by simp [hm])), ksum_cons, mono_mv, coeff_monomial]
    congr 1
    obtain ⟨h1, _, h3, _⟩ := hs x (by simp)
    refine if_congr ?_ rfl rfl
    unfold Mono.key
    rw [h1]
    constructor
    · intro e; rw [expo_inj h3 hk e]
    · intro e; rw [(Prod.mk.inj e).1]

theorem coeff_mv {p : Poly} (h : p.Canon) {k : List E} (hk : k.Pairwise E.le) (hne : k ≠ []) :
    coeff (expo k) p.mv = p.net (k, []) := by
  unfold Poly.mv Poly.net
  rw [coeff_sub, coeff_add, coeff_mvSum h.shapes.1 hk, coeff_mvSum h.shapes.2 hk, coeff_C,
    if_neg (fun e => hne (expo_zero e.symm)), zero_add]

theorem coeff_zero_mv {p : Poly} (h : p.Canon) : coeff 0 p.mv = p.c := by
  have z : ∀ l : List Mono, (∀ m ∈ l, m.Shape) → coeff 0 (mvSum l) = 0 := by
    intro l hl
    have := coeff_mvSum hl (k := []) List.Pairwise.nil
    have e0 : expo [] = 0 := by simp [expo]
    rw [e0] at this
    rw [this]
    refine ksum_notin ?_
    intro hm
    obtain ⟨x, hx, e⟩ := List.mem_map.1 hm
    exact (hl x hx).key_ne e
  unfold Poly.mv
  rw [coeff_sub, coeff_add, z _ h.shapes.1, z _ h.shapes.2]; simp

/-- A collected sum is determined by its polynomial. -/
theorem canon_mv {p q : Poly} (hp : p.Canon) (hq : q.Canon) (h : p.mv = q.mv) : p = q := by
  refine canon_ext hp hq ?_ ?_
  · rw [← coeff_zero_mv hp, ← coeff_zero_mv hq, h]
  · intro k
    obtain ⟨a, b⟩ := k
    have zero : ∀ p : Poly, p.Canon → ¬ (b = [] ∧ a.Pairwise E.le ∧ a ≠ []) → p.net (a, b) = 0 := by
      intro p hp hn
      have : ∀ l : List Mono, (∀ m ∈ l, m.Shape) → ksum l (a, b) = 0 := by
        intro l hl
        refine ksum_notin ?_
        intro hm
        obtain ⟨x, hx, e⟩ := List.mem_map.1 hm
        obtain ⟨h1, h2, h3, _⟩ := hl x hx
        have ep : x.pos = a := (Prod.mk.inj e).1
        have en : x.neg = b := (Prod.mk.inj e).2
        exact hn ⟨en ▸ h1, ep ▸ h3, ep ▸ h2⟩
      unfold Poly.net
      rw [this _ hp.shapes.1, this _ hp.shapes.2, sub_zero]
    by_cases hc : b = [] ∧ a.Pairwise E.le ∧ a ≠ []
    · obtain ⟨rfl, h2, h3⟩ := hc
      rw [← coeff_mv hp h2 h3, ← coeff_mv hq h2 h3, h]
    · rw [zero p hp hc, zero q hq hc]

theorem net_of_mv {p q : Poly} (hp : p.Raw) (hq : q.Canon)
    (hk : ∀ k, q.net k = p.net k) (hc : q.c = p.c) : q.mv = p.mv := by
  obtain ⟨r, h1, h2, h3, h4⟩ := hp.collect
  have : q = r := canon_ext hq h2 (by rw [hc, h3]) (fun k => by rw [hk, h4])
  rw [this]; exact collect_mv hp h1

theorem good_mv_inj {e f : E} (he : Good e) (hf : Good f) (h : e.asPoly.mv = f.asPoly.mv) : e = f := by
  rw [← he.back, ← hf.back, canon_mv he.canon hf.canon h]

/-- Reading an expression as a polynomial: `+`, `-` and `*` are interpreted, and powers 1 to 4 of a
name; everything else counts as a variable. -/
noncomputable def Py.mv : Py → MvPolynomial Py ℚ
  | .num q => C q
  | .neg a => -a.mv
  | .plus a => a.mv
  | .bin .add a b => a.mv + b.mv
  | .bin .sub a b => a.mv - b.mv
  | .bin .mul a b => a.mv * b.mv
  | .bin .pow (.name s) (.num q) =>
    if q.den = 1 ∧ 1 ≤ q ∧ q < 5 then X (.name s) ^ q.num.toNat else X (.bin .pow (.name s) (.num q))
  | a => X a

/-- The polynomial of what the parser makes of an expression. -/
noncomputable def atomMv (known : String → Bool) (a : Py) : MvPolynomial E ℚ :=
  match Py.parse (plainScope known) false a with
  | .ok e => e.asPoly.mv
  | .error _ => 0

theorem atomMv_eq {known : String → Bool} {a : Py} {e : E}
    (h : Py.parse (plainScope known) false a = .ok e) : atomMv known a = e.asPoly.mv := by
  unfold atomMv; rw [h]

theorem ring_mv {known : String → Bool} {op : PyOp} {a b : Py} {l r : E}
    (ha : Parsed known a l) (hb : Parsed known b r)
    (hop : op = .add ∨ op = .sub ∨ (op = .mul ∧
      ((a.closed = true ∧ b.closed = true) ∨ a.constTerm * b.constTerm = 0))) :
    ∃ e, Parsed known (.bin op a b) e ∧ e.asPoly.mv =
      (if op = .add then l.asPoly.mv + r.asPoly.mv
       else if op = .sub then l.asPoly.mv - r.asPoly.mv else l.asPoly.mv * r.asPoly.mv) := by
  obtain ⟨⟨e, p, hn⟩, _⟩ := parsed_ring ha hb hop
  refine ⟨e, p, ?_⟩
  have hc := p.const
  rcases hop with rfl | rfl | ⟨rfl, _⟩
  · have := net_of_mv (addArg_raw ha.good.canon hb.good.canon) p.good.canon
      (fun k => by rw [hn, addArg_net]; simp) (by rw [hc, Py.constTerm, ← ha.const, ← hb.const]; rfl)
    rw [this, addArg_mv]; simp
  · have := net_of_mv (addArg_raw ha.good.canon hb.good.canon.negate) p.good.canon
      (fun k => by rw [hn, addArg_net]; simp [Poly.net, Poly.negate]; ring)
      (by rw [hc, Py.constTerm, ← ha.const, ← hb.const]; simp [addArg, Poly.negate]; ring)
    rw [this, addArg_mv, negate_mv]; simp [sub_eq_add_neg]
  · have raw := distArg_raw ha.good.canon hb.good.canon
    have raw' : Poly.Raw ⟨l.asPoly.c * r.asPoly.c, (distArg l.asPoly r.asPoly).pos,
        (distArg l.asPoly r.asPoly).neg⟩ := ⟨raw.pos, raw.neg⟩
    have := net_of_mv raw' p.good.canon (fun k => by rw [hn]; simp [Poly.net])
      (by rw [hc, Py.constTerm, ← ha.const, ← hb.const])
    rw [this]
    have e : Poly.mv ⟨l.asPoly.c * r.asPoly.c, (distArg l.asPoly r.asPoly).pos,
        (distArg l.asPoly r.asPoly).neg⟩ = C (l.asPoly.c * r.asPoly.c) + (distArg l.asPoly r.asPoly).mv := by
      simp [Poly.mv, distArg]
      ring
    rw [e, distArg_mv]; simp

theorem name_pow_mv (s : String) (n : ℕ) (hn : 1 ≤ n) :
    (powPos (E.name s).asPoly n).asPoly.mv = X (E.name s) ^ n := by
  have hb : (E.name s).basic = true := rfl
  rw [basic_asPoly hb]
  have e : powPos ⟨0, [⟨1, [E.name s], []⟩], []⟩ n =
      Poly.simplify ⟨0, [Mono.powN ⟨1, [E.name s], []⟩ n], []⟩ := by
    simp [powPos]
  obtain ⟨t, tc⟩ := powN_shape (basic_shape hb 1) hn (m := ⟨1, [E.name s], []⟩) one_pos
  rw [e, (canon_single t tc 0).1.simplify_asPoly]
  unfold Poly.mv
  simp only [mvSum_cons, mvSum_nil, map_zero]
  unfold Mono.mv Mono.powN
  simp only [one_pow, map_one]
  rw [((sortE_perm (repeatL n [E.name s])).map X).prod_eq]
  have : (repeatL n [E.name s]) = List.replicate n (E.name s) := by
    unfold repeatL
    induction n with
    | zero => rfl
    | succ n ih =>
      rcases Nat.eq_zero_or_pos n with rfl | h
      · rfl
      · have ih := ih (by omega) (by simp [powPos]) (powN_shape (basic_shape hb 1) (by omega) (m := ⟨1, [E.name s], []⟩) one_pos).1
          (powN_shape (basic_shape hb 1) (by omega) (m := ⟨1, [E.name s], []⟩) one_pos).2
        rw [List.replicate_succ, List.flatten_cons, ih, List.replicate_succ]; rfl
  rw [this]; simp

theorem atom_case {known : String → Bool} {a : Py} {e : E} (h : Parsed known a e) (hm : a.mv = X a) :
    aeval (atomMv known) a.mv = e.asPoly.mv := by
  rw [hm, aeval_X, atomMv_eq h.ok]

theorem Parsed.unique {known : String → Bool} {a : Py} {e f : E} (h : Parsed known a e)
    (h' : Parsed known a f) : e = f := by
  have := h.ok.symm.trans h'.ok
  exact Except.ok.inj this

/-- The polynomial of a parsed expression is the polynomial of the written one. -/
theorem mv_parsed (known : String → Bool) : ∀ (s : Py) (e : E), s.divFree known = true →
    Parsed known s e → aeval (atomMv known) s.mv = e.asPoly.mv
  | .num q, e, _, p => by
    have : E.const q = e := by
      have := p.ok; simp only [Py.parse] at this; exact Except.ok.inj this
    subst this
    rw [asPoly_const]
    simp [Py.mv, Poly.mv, mvSum]
  | .name s, e, _, p => atom_case p rfl
  | .call f l, e, _, p => atom_case p rfl
  | .neg a, e, h, p => by
    obtain ⟨⟨l, pl⟩, _⟩ := parse_divFree known a (by simpa [Py.divFree] using h)
    have ih := mv_parsed known a l (by simpa [Py.divFree] using h) pl
    obtain ⟨x, h1, h2, h3, h4⟩ := unaryMinus_good pl.good
    have hx : e = x := by
      have := p.ok
      simp only [Py.parse, pl.ok] at this
      have : unaryMinus l = .ok e := this
      rw [h1] at this; exact (Except.ok.inj this).symm
    subst hx
    have raw : l.asPoly.negate.Raw := ⟨pl.good.canon.negate.shapes.1, pl.good.canon.negate.shapes.2⟩
    have := net_of_mv raw h2.canon (fun k => by rw [h4]; simp [Poly.net, Poly.negate])
      (by rw [h3]; rfl)
    rw [this, negate_mv, ← ih]; simp [Py.mv]
  | .plus a, e, h, p => by
    have h' : a.divFree known = true := by simpa [Py.divFree] using h
    obtain ⟨⟨l, pl⟩, _⟩ := parse_divFree known a h'
    have : e = l := by
      have := p.ok
      simp only [Py.parse, pl.ok] at this
      exact (Except.ok.inj this).symm
    subst this
    exact mv_parsed known a e h' pl
  | .bin .add a b, e, h, p => by
    simp only [Py.divFree, Bool.and_eq_true] at h
    obtain ⟨⟨l, pl⟩, _⟩ := parse_divFree known a h.1
    obtain ⟨⟨r, pr⟩, _⟩ := parse_divFree known b h.2
    obtain ⟨x, hx, hv⟩ := ring_mv pl pr (.inl rfl)
    rw [p.unique hx, hv, ← mv_parsed known a l h.1 pl, ← mv_parsed known b r h.2 pr]; simp [Py.mv]
  | .bin .sub a b, e, h, p => by
    simp only [Py.divFree, Bool.and_eq_true] at h
    obtain ⟨⟨l, pl⟩, _⟩ := parse_divFree known a h.1
    obtain ⟨⟨r, pr⟩, _⟩ := parse_divFree known b h.2
    obtain ⟨x, hx, hv⟩ := ring_mv pl pr (.inr (.inl rfl))
    rw [p.unique hx, hv, ← mv_parsed known a l h.1 pl, ← mv_parsed known b r h.2 pr]; simp [Py.mv]
  | .bin .mul a b, e, h, p => by
    simp only [Py.divFree, Bool.and_eq_true, Bool.or_eq_true, decide_eq_true_eq] at h
    obtain ⟨⟨l, pl⟩, _⟩ := parse_divFree known a h.1.1
    obtain ⟨⟨r, pr⟩, _⟩ := parse_divFree known b h.1.2
    obtain ⟨x, hx, hv⟩ := ring_mv pl pr (.inr (.inr ⟨rfl, h.2⟩))
    rw [p.unique hx, hv, ← mv_parsed known a l h.1.1 pl, ← mv_parsed known b r h.1.2 pr]; simp [Py.mv]
  | .bin .pow (.name s) (.num q), e, h, p => by
    by_cases h1 : q.den = 1 ∧ 1 ≤ q ∧ q < 5
    · have hp : e = powPos (E.name s).asPoly q.num.toNat := by
        have h2 := p.ok
        simp only [Py.parse, plainScope, Option.getD_none] at h2
        have h3 : binary .pow (E.name s) (E.const q) = .ok e := h2
        have h4 : binary .pow (E.name s) (E.const q) = binPow (E.name s) (E.const q) := rfl
        rw [h4] at h3
        unfold binPow at h3
        have cv : (E.const q).constVal = some q := rfl
        rw [cv] at h3
        simp only at h3
        rw [if_pos h1] at h3
        exact (Except.ok.inj h3).symm
      have pos : 1 ≤ q.num := by
        have := h1.2.1; rw [int_of_den h1.1] at this; exact_mod_cast this
      rw [hp, name_pow_mv s _ (by omega)]
      simp only [Py.mv]
      rw [if_pos h1, map_pow, aeval_X]
      congr 1
      have : Py.parse (plainScope known) false (.name s) = .ok (E.name s) := by
        simp [Py.parse, plainScope]
      rw [atomMv_eq this, basic_asPoly rfl]
      simp [Poly.mv, mvSum, Mono.mv]
    · refine atom_case p ?_
      simp only [Py.mv]; rw [if_neg h1]
  | .bin .pow (.num _) (.num _), e, _, p => atom_case p rfl
  | .bin .pow (.set _) (.num _), e, _, p => atom_case p rfl
  | .bin .pow (.neg _) (.num _), e, _, p => atom_case p rfl
  | .bin .pow (.plus _) (.num _), e, _, p => atom_case p rfl
  | .bin .pow (.invert _) (.num _), e, _, p => atom_case p rfl
  | .bin .pow (.bin _ _ _) (.num _), e, _, p => atom_case p rfl
  | .bin .pow (.compare _ _ _) (.num _), e, _, p => atom_case p rfl
  | .bin .pow (.lnot _) (.num _), e, _, p => atom_case p rfl
  | .bin .pow (.land _) (.num _), e, _, p => atom_case p rfl
  | .bin .pow (.lor _) (.num _), e, _, p => atom_case p rfl
  | .bin .pow (.call _ _) (.num _), e, _, p => atom_case p rfl
  | .bin .pow a (.set _), e, _, p => atom_case p (by cases a <;> rfl)
  | .bin .pow a (.name _), e, _, p => atom_case p (by cases a <;> rfl)
  | .bin .pow a (.neg _), e, _, p => atom_case p (by cases a <;> rfl)
  | .bin .pow a (.plus _), e, _, p => atom_case p (by cases a <;> rfl)
  | .bin .pow a (.invert _), e, _, p => atom_case p (by cases a <;> rfl)
  | .bin .pow a (.bin _ _ _), e, _, p => atom_case p (by cases a <;> rfl)
  | .bin .pow a (.compare _ _ _), e, _, p => atom_case p (by cases a <;> rfl)
  | .bin .pow a (.lnot _), e, _, p => atom_case p (by cases a <;> rfl)
  | .bin .pow a (.land _), e, _, p => atom_case p (by cases a <;> rfl)
  | .bin .pow a (.lor _), e, _, p => atom_case p (by cases a <;> rfl)
  | .bin .pow a (.call _ _), e, _, p => atom_case p (by cases a <;> rfl)
  | .bin .floordiv _ _, e, _, p => atom_case p rfl
  | .bin .mod _ _, e, _, p => atom_case p rfl
  | .bin .xor _ _, e, _, p => atom_case p rfl
  | .bin .div _ _, _, h, _ => by simp [Py.divFree] at h
  | .bin .bitor _ _, _, h, _ => by simp [Py.divFree] at h
  | .bin .bitand _ _, _, h, _ => by simp [Py.divFree] at h
  | .set _, _, h, _ => by simp [Py.divFree] at h
  | .invert _, _, h, _ => by simp [Py.divFree] at h
  | .compare _ _ _, _, h, _ => by simp [Py.divFree] at h
  | .lnot _, _, h, _ => by simp [Py.divFree] at h
  | .land _, _, h, _ => by simp [Py.divFree] at h
  | .lor _, _, h, _ => by simp [Py.divFree] at h

/-- Expressions without division that are equal as polynomials are parsed to the same. -/
theorem same_of_mv {known : String → Bool} {s t : Py} (hs : s.divFree known = true)
    (ht : t.divFree known = true) (h : s.mv = t.mv) :
    ∃ e, Py.parse (plainScope known) false s = .ok e ∧ Py.parse (plainScope known) false t = .ok e := by
  obtain ⟨⟨e, p⟩, _⟩ := parse_divFree known s hs
  obtain ⟨⟨f, q⟩, _⟩ := parse_divFree known t ht
  have : e = f := by
    refine good_mv_inj p.good q.good ?_
    rw [← mv_parsed known s e hs p, ← mv_parsed known t f ht q, h]
  subst this
  exact ⟨e, p.ok, q.ok⟩

end Verif
