import Verif.ExprCanon

/-!
# Arithmetic without division

Lemmas: on the expressions described by `Py.divFree` the parser never raises, its results are in a
normal form, and all operators are exact.
-/

namespace Verif

/-- An operand that is neither a sum, a product nor a constant. -/
def E.basic : E → Bool
  | .node (.binop _) _ _ => true
  | .node (.call _) _ _ => true
  | .node (.name _) _ _ => true
  | _ => false

/-- A term without denominator, whatever its coefficient. -/
def Mono.Shape (m : Mono) : Prop :=
  m.neg = [] ∧ m.pos ≠ [] ∧ m.pos.Pairwise E.le ∧ ∀ x, m.pos = [x] → x.basic = true

/-- A collected sum of terms without denominators. -/
structure Poly.Canon (p : Poly) : Prop where
  spos : sortM p.pos = p.pos
  sneg : sortM p.neg = p.neg
  keys : ((p.pos ++ p.neg).map Mono.key).Nodup
  shape : ∀ m ∈ p.pos ++ p.neg, m.Shape ∧ 0 < m.c

theorem Mono.Shape.key_ne {m : Mono} (h : m.Shape) : m.key ≠ nilKey := by
  intro e
  exact h.2.1 (nilKey_iff.2 e).1

/-- The net coefficient of a product. -/
def Poly.net (p : Poly) (k : List E × List E) : ℚ := ksum p.pos k - ksum p.neg k

theorem sortM_sorted {l : List Mono} : sortM (sortM l) = sortM l := sortM_eq_of_perm (sortM_perm l)

theorem splitTerms_canon {c : ℚ} {T : List Mono} (hn : (T.map Mono.key).Nodup)
    (hs : ∀ m ∈ T, m.Shape) : (splitTerms c T).Canon := by
  have pp : (splitTerms c T).pos.Perm (T.filter fun x => 0 < x.c) := sortM_perm _
  have pn : (splitTerms c T).neg.Perm ((T.filter fun x => x.c < 0).map Mono.opp) := sortM_perm _
  refine ⟨sortM_sorted, sortM_sorted, ?_, ?_⟩
  · refine (((pp.append pn).map Mono.key).nodup_iff).2 ?_
    rw [List.map_append, List.map_map]
    have : (Mono.key ∘ Mono.opp) = Mono.key := rfl
    rw [this, List.nodup_append]
    refine ⟨hn.sublist (List.filter_sublist.map _), hn.sublist (List.filter_sublist.map _), ?_⟩
    intro a ha b hb e
    obtain ⟨x, hx, rfl⟩ := List.mem_map.1 ha
    obtain ⟨y, hy, rfl⟩ := List.mem_map.1 hb
    obtain ⟨x1, x2⟩ := List.mem_filter.1 hx
    obtain ⟨y1, y2⟩ := List.mem_filter.1 hy
    have h1 := ksum_mem hn x1
    have h2 := ksum_mem hn y1
    rw [e, h2] at h1
    have x3 : 0 < x.c := by simpa using x2
    have y3 : y.c < 0 := by simpa using y2
    rw [h1] at y3
    exact absurd y3 (not_lt.2 x3.le)
  · intro m hm
    rcases List.mem_append.1 hm with hm | hm
    · have := pp.mem_iff.1 hm
      obtain ⟨x1, x2⟩ := List.mem_filter.1 this
      exact ⟨hs m x1, by simpa using x2⟩
    · obtain ⟨y, hy, rfl⟩ := List.mem_map.1 (pn.mem_iff.1 hm)
      obtain ⟨y1, y2⟩ := List.mem_filter.1 hy
      refine ⟨hs y y1, ?_⟩
      have : y.c < 0 := by simpa using y2
      simpa [Mono.opp] using this

theorem gather_canon {c : ℚ} {ps ns : List Mono} (hp : ∀ m ∈ ps, m.Shape) (hn : ∀ m ∈ ns, m.Shape) :
    (gather c ps ns).Canon ∧ (gather c ps ns).c = c ∧
      ∀ k, (gather c ps ns).net k = ksum ps k - ksum ns k := by
  obtain ⟨a1, a2, a3, a4⟩ := foldTerms_ksum ps (c, []) (by simp) (by simp)
  obtain ⟨b1, b2, b3, b4⟩ := foldTerms_ksum (ns.map Mono.opp) _ a1 a2
  have nil0 : ∀ l : List Mono, (∀ m ∈ l, m.Shape) → ksum l nilKey = 0 := by
    intro l hl
    refine ksum_notin ?_
    intro hm
    obtain ⟨x, hx, e⟩ := List.mem_map.1 hm
    exact (hl x hx).key_ne e
  have shapes : ∀ m ∈ ((ns.map Mono.opp).foldl addTerm (ps.foldl addTerm (c, []))).2, m.Shape := by
    refine foldTerms_wf (P := Mono.Shape) (fun _ _ _ _ h => h) ?_
      (foldTerms_wf (P := Mono.Shape) (fun _ _ _ _ h => h) hp (by simp))
    intro m hm
    obtain ⟨y, hy, rfl⟩ := List.mem_map.1 hm
    exact hn y hy
  have hc := splitTerms_canon
    (c := ((ns.map Mono.opp).foldl addTerm (ps.foldl addTerm (c, []))).1) b1 shapes
  refine ⟨hc, ?_, ?_⟩
  · change ((ns.map Mono.opp).foldl addTerm (ps.foldl addTerm (c, []))).1 = c
    rw [b3, a3, ksum_opp, nil0 ps hp, nil0 ns hn]; simp
  · intro k
    have split : ∀ T : List Mono, (T.map Mono.key).Nodup → ∀ c k, (splitTerms c T).net k = ksum T k := by
      intro T _ c k
      unfold Poly.net splitTerms
      rw [ksum_perm (sortM_perm _), ksum_perm (sortM_perm _), ksum_opp]
      clear * - T
      induction T with
      | nil => simp [ksum]
      | cons x xs ih =>
        rw [ksum_cons, ← ih]
        rcases lt_trichotomy x.c 0 with h | h | h
        · rw [List.filter_cons_of_neg (by simpa using h.le), List.filter_cons_of_pos (by simpa using h),
            ksum_cons]; ring
        · rw [List.filter_cons_of_neg (by simp [h]), List.filter_cons_of_neg (by simp [h]), h]; simp
        · rw [List.filter_cons_of_pos (by simpa using h), List.filter_cons_of_neg (by simpa using h.le),
            ksum_cons]; ring
    unfold gather
    rw [split _ b1]
    by_cases hk : k = nilKey
    · subst hk
      rw [ksum_notin b2, nil0 ps hp, nil0 ns hn]; simp
    · rw [b4 k hk, a4 k hk, ksum_opp]; simp [ksum]; ring

theorem Poly.Canon.shapes {p : Poly} (h : p.Canon) : (∀ m ∈ p.pos, m.Shape) ∧ ∀ m ∈ p.neg, m.Shape :=
  ⟨fun m hm => (h.shape m (by simp [hm])).1, fun m hm => (h.shape m (by simp [hm])).1⟩

theorem Poly.Canon.mem_pos {p : Poly} (h : p.Canon) (m : Mono) : m ∈ p.pos ↔ 0 < m.c ∧ p.net m.key = m.c := by
  have hk := h.keys
  rw [List.map_append, List.nodup_append] at hk
  obtain ⟨k1, k2, k3⟩ := hk
  unfold Poly.net
  constructor
  · intro hm
    refine ⟨(h.shape m (by simp [hm])).2, ?_⟩
    rw [ksum_mem k1 hm, ksum_notin (l := p.neg), sub_zero]
    intro hn
    exact k3 _ (List.mem_map_of_mem hm) _ hn rfl
  · rintro ⟨h0, hm⟩
    by_cases hp : m.key ∈ p.pos.map Mono.key
    · rw [ksum_notin (l := p.neg) (fun hn => k3 _ hp _ hn rfl), sub_zero] at hm
      exact (mem_iff_ksum k1 m h0.ne').2 hm
    · rw [ksum_notin hp] at hm
      by_cases hn : m.key ∈ p.neg.map Mono.key
      · obtain ⟨x, hx, e⟩ := List.mem_map.1 hn
        have h1 := ksum_mem k2 hx
        have h2 := (h.shape x (by simp [hx])).2
        rw [e] at h1
        rw [h1] at hm
        linarith
      · rw [ksum_notin hn] at hm; linarith

theorem Poly.Canon.mem_neg {p : Poly} (h : p.Canon) (m : Mono) : m ∈ p.neg ↔ 0 < m.c ∧ p.net m.key = -m.c := by
  have h' : p.negate.Canon := by
    refine ⟨h.sneg, h.spos, ?_, ?_⟩
    · exact ((List.perm_append_comm.map Mono.key).nodup_iff).1 h.keys
    · intro m hm
      refine h.shape m ?_
      simp only [Poly.negate, List.mem_append] at hm ⊢
      exact hm.symm
  have := h'.mem_pos m
  rw [show p.negate.pos = p.neg from rfl] at this
  rw [this]
  have e : p.negate.net m.key = -p.net m.key := by simp [Poly.net, Poly.negate]
  rw [e]
  constructor
  · rintro ⟨a, b⟩; exact ⟨a, by linarith⟩
  · rintro ⟨a, b⟩; exact ⟨a, by linarith⟩

theorem Poly.Canon.negate {p : Poly} (h : p.Canon) : p.negate.Canon := by
  refine ⟨h.sneg, h.spos, ?_, ?_⟩
  · exact ((List.perm_append_comm.map Mono.key).nodup_iff).1 h.keys
  · intro m hm
    refine h.shape m ?_
    simp only [Poly.negate, List.mem_append] at hm ⊢
    exact hm.symm

theorem Poly.Canon.nodup {p : Poly} (h : p.Canon) : p.pos.Nodup ∧ p.neg.Nodup := by
  have hk := nodup_of_keys h.keys
  rw [List.nodup_append] at hk
  exact ⟨hk.1, hk.2.1⟩

/-- A collected sum is determined by its constant and its coefficients. -/
theorem canon_ext {p q : Poly} (hp : p.Canon) (hq : q.Canon) (hc : p.c = q.c)
    (hk : ∀ k, p.net k = q.net k) : p = q := by
  have e1 : p.pos = q.pos := by
    rw [← hp.spos, ← hq.spos]
    refine sortM_eq_of_perm ((List.perm_ext_iff_of_nodup hp.nodup.1 hq.nodup.1).2 ?_)
    intro m
    rw [hp.mem_pos, hq.mem_pos, hk]
  have e2 : p.neg = q.neg := by
    rw [← hp.sneg, ← hq.sneg]
    refine sortM_eq_of_perm ((List.perm_ext_iff_of_nodup hp.nodup.2 hq.nodup.2).2 ?_)
    intro m
    rw [hp.mem_neg, hq.mem_neg, hk]
  obtain ⟨c, a, b⟩ := p
  obtain ⟨c', a', b'⟩ := q
  simp only at hc e1 e2
  rw [hc, e1, e2]

theorem canon_const (q : ℚ) : (⟨q, [], []⟩ : Poly).Canon := ⟨rfl, rfl, by simp, by simp⟩

theorem canon_single {m : Mono} (h : m.Shape) (hc : 0 < m.c) (c : ℚ) :
    (⟨c, [m], []⟩ : Poly).Canon ∧ (⟨c, [], [m]⟩ : Poly).Canon := by
  constructor
  · refine ⟨rfl, rfl, by simp, ?_⟩
    intro x hx
    have : x = m := by simpa using hx
    subst this; exact ⟨h, hc⟩
  · refine ⟨rfl, rfl, by simp, ?_⟩
    intro x hx
    have : x = m := by simpa using hx
    subst this; exact ⟨h, hc⟩

theorem basic_asPoly {e : E} (h : e.basic = true) : e.asPoly = ⟨0, [⟨1, [e], []⟩], []⟩ := by
  have gen : (⟨1, [e], []⟩ : Mono).asPoly = ⟨0, [⟨1, [e], []⟩], []⟩ := by
    unfold Mono.asPoly
    simp only [List.cons_ne_nil, and_true, if_false]
    rw [if_neg (by norm_num)]
  obtain ⟨hd, p, n⟩ := e
  cases hd <;> first | exact gen | simp [E.basic] at h

theorem basic_shape {e : E} (h : e.basic = true) (c : ℚ) : (⟨c, [e], []⟩ : Mono).Shape :=
  ⟨rfl, by simp, by simp, fun x hx => by
    have : e = x := by simpa using hx
    subst this; exact h⟩

theorem Mono.toE_asPoly {m : Mono} (h : m.Shape) (hc : 0 < m.c) :
    m.toE.asPoly = ⟨0, [m], []⟩ ∧ m.opp.toE.asPoly = ⟨0, [], [m]⟩ := by
  obtain ⟨c, p, n⟩ := m
  simp only at hc
  have hne : ¬ (p = [] ∧ n = []) := fun e => h.2.1 e.1
  constructor
  · change (⟨c, p, n⟩ : Mono).asPoly = _
    unfold Mono.asPoly
    simp only
    rw [if_neg hne, if_neg (not_lt.2 hc.le)]
  · change (⟨-c, p, n⟩ : Mono).asPoly = _
    unfold Mono.asPoly
    simp only
    rw [if_neg hne, if_pos (by linarith), neg_neg]

theorem Mono.simplify_asPoly {m : Mono} (h : m.Shape) (hc : 0 < m.c) :
    m.simplify.asPoly = ⟨0, [m], []⟩ ∧ m.opp.simplify.asPoly = ⟨0, [], [m]⟩ := by
  have t := Mono.toE_asPoly h hc
  obtain ⟨c, p, n⟩ := m
  have hn : n = [] := h.1
  subst hn
  match p, h with
  | [], h => exact absurd rfl h.2.1
  | [x], h =>
    have hb := h.2.2.2 x rfl
    constructor
    · simp only [Mono.simplify]
      split_ifs with h1
      · subst h1; exact basic_asPoly hb
      · exact t.1
    · have : Mono.simplify (Mono.opp ⟨c, [x], []⟩) = (Mono.opp ⟨c, [x], []⟩).toE := by
        simp only [Mono.simplify, Mono.opp]
        refine if_neg ?_
        simp only at hc ⊢
        intro h; linarith
      rw [this]
      exact t.2
  | _ :: _ :: _, h => exact ⟨t.1, t.2⟩

theorem Poly.toE_asPoly (p : Poly) : p.toE.asPoly = p := by
  obtain ⟨c, ps, ns⟩ := p
  have : ∀ l : List Mono, (l.map Mono.toE).map E.asMono = l := by
    intro l
    induction l with
    | nil => rfl
    | cons x xs ih => rw [List.map_cons, List.map_cons, ih]; rfl
  simp only [Poly.toE, E.asPoly, this]

/-- Simplifying a collected sum and reading it back gives the same sum. -/
theorem Poly.Canon.simplify_asPoly {p : Poly} (h : p.Canon) : p.simplify.asPoly = p := by
  obtain ⟨c, ps, ns⟩ := p
  unfold Poly.simplify
  split
  · rename_i h1 h2
    simp only at h1 h2; subst h1 h2
    simp [E.asPoly, E.asMono, Mono.asPoly]
  · rename_i m h1 h2
    simp only at h1 h2; subst h1 h2
    obtain ⟨s, hc⟩ := h.shape m (by simp)
    simp only
    split_ifs with h0
    · rw [(Mono.simplify_asPoly s hc).1, h0]
    · exact Poly.toE_asPoly _
  · rename_i m h1 h2
    simp only at h1 h2; subst h1 h2
    obtain ⟨s, hc⟩ := h.shape m (by simp)
    simp only
    split_ifs with h0
    · rw [(Mono.simplify_asPoly s hc).2, h0]
    · exact Poly.toE_asPoly _
  · exact Poly.toE_asPoly _

/-- What the parser makes of such an expression. -/
structure Good (e : E) : Prop where
  canon : e.asPoly.Canon
  back : e.asPoly.simplify = e
  ar : e.isAr = true

theorem Poly.simplify_isAr {p : Poly} (h : p.Canon) : p.simplify.isAr = true := by
  obtain ⟨c, ps, ns⟩ := p
  have ms : ∀ m : Mono, m.Shape → m.simplify.isAr = true := by
    intro m hm
    obtain ⟨c, p, n⟩ := m
    have hn : n = [] := hm.1
    subst hn
    match p, hm with
    | [], h => rfl
    | [x], h =>
      simp only [Mono.simplify]
      split_ifs
      · have := h.2.2.2 x rfl
        obtain ⟨hd, a, b⟩ := x
        cases hd <;> first | rfl | simp [E.basic] at this
      · rfl
    | _ :: _ :: _, h => rfl
  unfold Poly.simplify
  split
  · rfl
  · rename_i m h1 h2
    simp only at h1 h2; subst h1 h2
    obtain ⟨s, hc⟩ := h.shape m (by simp)
    split_ifs
    · exact ms m s
    · rfl
  · rename_i m h1 h2
    simp only at h1 h2; subst h1 h2
    obtain ⟨s, hc⟩ := h.shape m (by simp)
    split_ifs
    · exact ms m.opp s
    · rfl
  · rfl

theorem Poly.Canon.good {p : Poly} (h : p.Canon) : Good p.simplify :=
  ⟨by rw [h.simplify_asPoly]; exact h, by rw [h.simplify_asPoly], Poly.simplify_isAr h⟩

theorem good_basic {e : E} (h : e.basic = true) : Good e := by
  have ar : e.isAr = true := by
    obtain ⟨hd, p, n⟩ := e
    cases hd <;> first | rfl | simp [E.basic] at h
  refine ⟨?_, ?_, ar⟩
  · rw [basic_asPoly h]; exact (canon_single (basic_shape h 1) one_pos 0).1
  · rw [basic_asPoly h]; simp [Poly.simplify, Mono.simplify]

theorem good_const (q : ℚ) : Good (E.const q) := by
  have : (E.const q).asPoly = ⟨q, [], []⟩ := by simp [E.asPoly, E.asMono, Mono.asPoly]
  exact ⟨by rw [this]; exact canon_const q, by rw [this]; rfl, rfl⟩

theorem cancel_self {m : Mono} (h : m.neg = []) : m.cancel = .ok m := by
  obtain ⟨c, p, n⟩ := m
  simp only at h; subst h
  rfl

theorem mapM_cancel_self {l : List Mono} (h : ∀ m ∈ l, m.neg = []) : l.mapM Mono.cancel = .ok l := by
  induction l with
  | nil => rfl
  | cons x xs ih =>
    rw [List.mapM_cons, cancel_self (h x (by simp)), ih (fun m hm => h m (by simp [hm]))]; rfl

theorem collect_gather {p : Poly} (hp : ∀ m ∈ p.pos, m.neg = []) (hn : ∀ m ∈ p.neg, m.neg = []) :
    p.collect = .ok (gather p.c p.pos p.neg) := by
  rw [collect_eq, mapM_cancel_self hp, mapM_cancel_self hn]; rfl

theorem cancelOK_self {m : Mono} (h : m.neg = []) : CancelOK m := by
  intro m' hm
  rw [cancel_self h] at hm
  have := (Except.ok.inj hm).symm; subst this
  rw [h]; simp

/-- The parts of a sum that is about to be collected. -/
structure Poly.Raw (p : Poly) : Prop where
  pos : ∀ m ∈ p.pos, m.Shape
  neg : ∀ m ∈ p.neg, m.Shape

theorem Poly.Raw.termsOK {p : Poly} (h : p.Raw) : TermsOK p :=
  ⟨fun m hm => cancelOK_self (h.pos m hm).1, fun m hm => cancelOK_self (h.neg m hm).1⟩

theorem Poly.Raw.collect {p : Poly} (h : p.Raw) : ∃ q, p.collect = .ok q ∧ q.Canon ∧ q.c = p.c ∧
    ∀ k, q.net k = p.net k :=
  ⟨_, collect_gather (fun m hm => (h.pos m hm).1) (fun m hm => (h.neg m hm).1),
    (gather_canon h.pos h.neg).1, (gather_canon h.pos h.neg).2.1, (gather_canon h.pos h.neg).2.2⟩

theorem addArg_raw {l r : Poly} (hl : l.Canon) (hr : r.Canon) : (addArg l r).Raw := by
  constructor
  · intro m hm
    rcases List.mem_append.1 ((sortM_perm _).mem_iff.1 hm) with h | h
    · exact hl.shapes.1 m h
    · exact hr.shapes.1 m h
  · intro m hm
    rcases List.mem_append.1 ((sortM_perm _).mem_iff.1 hm) with h | h
    · exact hl.shapes.2 m h
    · exact hr.shapes.2 m h

theorem addArg_net (l r : Poly) (k : List E × List E) : (addArg l r).net k = l.net k + r.net k := by
  simp only [Poly.net, addArg]
  rw [ksum_perm (sortM_perm _), ksum_perm (sortM_perm _), ksum_append, ksum_append]; ring

theorem sortE_sorted {l : List E} (h : l.Pairwise E.le) : sortE l = l :=
  List.Perm.eq_of_pairwise (fun _ _ _ _ => E.le_antisymm) (sortE_pairwise l) h (sortE_perm l)

theorem scale_eq {c : ℚ} {l : List Mono} (h : ∀ m ∈ l, m.Shape) :
    scale c l = l.map fun m => ⟨m.c * c, m.pos, m.neg⟩ := by
  refine List.map_congr_left ?_
  intro m hm
  obtain ⟨h1, h2, h3, h4⟩ := h m hm
  unfold Mono.combine
  simp only [List.append_nil, h1]
  rw [sortE_sorted h3]; rfl

theorem scale_shape {c : ℚ} {l : List Mono} (h : ∀ m ∈ l, m.Shape) : ∀ m ∈ scale c l, m.Shape := by
  rw [scale_eq h]
  intro m hm
  obtain ⟨x, hx, rfl⟩ := List.mem_map.1 hm
  exact h x hx

theorem scale_ksum {c : ℚ} {l : List Mono} (h : ∀ m ∈ l, m.Shape) (k : List E × List E) :
    ksum (scale c l) k = c * ksum l k := by
  rw [scale_eq h]
  clear h
  induction l with
  | nil => simp [ksum]
  | cons x xs ih =>
    rw [List.map_cons, ksum_cons, ksum_cons, ih]
    have : (⟨x.c * c, x.pos, x.neg⟩ : Mono).key = x.key := rfl
    rw [this]
    split_ifs <;> ring

theorem combine_shape {x y : Mono} (hx : x.Shape) (hy : y.Shape) : (x.combine y).Shape := by
  obtain ⟨c, p, n⟩ := x
  obtain ⟨c', p', n'⟩ := y
  obtain ⟨h1, h2, h3, h4⟩ := hx
  obtain ⟨g1, g2, g3, g4⟩ := hy
  simp only at h1 h2 g1 g2; subst h1 g1
  refine ⟨rfl, ?_, sortE_pairwise _, ?_⟩
  · simp only [Mono.combine]
    intro e
    have := (sortE_perm (p ++ p')).length_eq
    rw [e] at this
    have : p = [] := by
      cases p with
      | nil => rfl
      | cons _ _ => simp at this
    exact h2 this
  · intro x e
    exfalso
    simp only [Mono.combine] at e
    have := (sortE_perm (p ++ p')).length_eq
    rw [e, List.length_append] at this
    have a := List.length_pos_iff.2 h2
    have b := List.length_pos_iff.2 g2
    simp only [List.length_singleton] at this
    omega

theorem prods_shape {l r : List Mono} (hl : ∀ m ∈ l, m.Shape) (hr : ∀ m ∈ r, m.Shape) :
    ∀ m ∈ prods l r, m.Shape := by
  intro m hm
  obtain ⟨x, hx, hm⟩ := List.mem_flatMap.1 hm
  obtain ⟨y, hy, rfl⟩ := List.mem_map.1 hm
  exact combine_shape (hl x hx) (hr y hy)

theorem distArg_raw {l r : Poly} (hl : l.Canon) (hr : r.Canon) : (distArg l r).Raw := by
  obtain ⟨l1, l2⟩ := hl.shapes
  obtain ⟨r1, r2⟩ := hr.shapes
  constructor
  · intro m hm
    simp only [distArg, List.mem_append] at hm
    rcases hm with ((hm | hm) | hm) | hm
    · exact scale_shape l1 m hm
    · exact scale_shape r1 m hm
    · exact prods_shape l1 r1 m hm
    · exact prods_shape l2 r2 m hm
  · intro m hm
    simp only [distArg, List.mem_append] at hm
    rcases hm with ((hm | hm) | hm) | hm
    · exact scale_shape l2 m hm
    · exact scale_shape r2 m hm
    · exact prods_shape l1 r2 m hm
    · exact prods_shape l2 r1 m hm

/-- Multiplying by a constant. -/
theorem distArg_const {l : Poly} (hl : l.Canon) (q : ℚ) (k : List E × List E) :
    (distArg l ⟨q, [], []⟩).net k = q * l.net k := by
  have : ∀ l : List Mono, prods l [] = [] := by
    intro l
    induction l with
    | nil => rfl
    | cons x xs ih => simp [prods]
  simp only [distArg, Poly.net, this, List.append_nil]
  have e : scale l.c ([] : List Mono) = [] := rfl
  rw [e, List.append_nil, List.append_nil, scale_ksum hl.shapes.1, scale_ksum hl.shapes.2]; ring


theorem constVal_none_of_terms {e : E} (h : e.asPoly.pos ≠ [] ∨ e.asPoly.neg ≠ []) :
    e.constVal = none := by
  obtain ⟨hd, p, n⟩ := e
  cases hd <;> first | rfl | skip
  rename_i q
  simp [E.asPoly, E.asMono, Mono.asPoly] at h

theorem terms_of_constVal_none {e : E} (g : Good e) (h : e.constVal = none) :
    e.asPoly.pos ≠ [] ∨ e.asPoly.neg ≠ [] := by
  by_contra hn
  rw [not_or, not_not, not_not] at hn
  have hb := g.back
  have : e.asPoly.simplify = E.const e.asPoly.c := by unfold Poly.simplify; rw [hn.1, hn.2]
  rw [this] at hb
  rw [← hb] at h
  simp [E.constVal] at h

theorem terms_iff_net {p : Poly} (h : p.Canon) : (p.pos ≠ [] ∨ p.neg ≠ []) ↔ ∃ k, p.net k ≠ 0 := by
  constructor
  · rintro (hp | hp)
    · obtain ⟨m, hm⟩ := List.exists_mem_of_ne_nil _ hp
      refine ⟨m.key, ?_⟩
      obtain ⟨a, b⟩ := (h.mem_pos m).1 hm
      rw [b]; exact a.ne'
    · obtain ⟨m, hm⟩ := List.exists_mem_of_ne_nil _ hp
      refine ⟨m.key, ?_⟩
      obtain ⟨a, b⟩ := (h.mem_neg m).1 hm
      rw [b]; exact (neg_lt_zero.2 a).ne
  · rintro ⟨k, hk⟩
    by_contra hn
    rw [not_or, not_not, not_not] at hn
    apply hk
    simp [Poly.net, hn.1, hn.2, ksum]

theorem constVal_none_iff {e : E} (g : Good e) : e.constVal = none ↔ ∃ k, e.asPoly.net k ≠ 0 := by
  rw [← terms_iff_net g.canon]
  exact ⟨terms_of_constVal_none g, constVal_none_of_terms⟩

theorem asPoly_const (q : ℚ) : (E.const q).asPoly = ⟨q, [], []⟩ := by
  simp [E.asPoly, E.asMono, Mono.asPoly]

theorem constVal_eq {e : E} {q : ℚ} (g : Good e) (h : e.constVal = some q) : e = E.const q := by
  have : e.asPoly = ⟨q, [], []⟩ := by
    obtain ⟨hd, p, n⟩ := e
    cases hd <;> simp [E.constVal] at h
    subst h
    simp [E.asPoly, E.asMono, Mono.asPoly]
  rw [← g.back, this]; rfl

/-- Adding, subtracting or multiplying two such expressions. -/
theorem binary_ring {op : PyOp} {l r : E} (gl : Good l) (gr : Good r) {p : Poly}
    (hop : (op = .add ∧ p = addArg l.asPoly r.asPoly) ∨ (op = .sub ∧ p = addArg l.asPoly r.asPoly.negate) ∨
      (op = .mul ∧ p = distArg l.asPoly r.asPoly ∧
        ((∃ a b, l.constVal = some a ∧ r.constVal = some b) ∨ l.asPoly.c * r.asPoly.c = 0))) :
    ∃ e, binary op l r = .ok e ∧ Good e ∧
      e.asPoly.c = (if op = .mul then l.asPoly.c * r.asPoly.c else p.c) ∧
      (∀ k, e.asPoly.net k = p.net k) ∧ OpExact op l r := by
  have raw : p.Raw := by
    rcases hop with ⟨_, rfl⟩ | ⟨_, rfl⟩ | ⟨_, rfl, _⟩
    · exact addArg_raw gl.canon gr.canon
    · exact addArg_raw gl.canon gr.canon.negate
    · exact distArg_raw gl.canon gr.canon
  have exact : OpExact op l r := by
    rcases hop with ⟨rfl, rfl⟩ | ⟨rfl, rfl⟩ | ⟨rfl, rfl, h⟩
    · exact raw.termsOK
    · exact raw.termsOK
    · rcases h with ⟨a, b, ha, hb⟩ | h
      · exact .inl ⟨by rw [ha]; rfl, by rw [hb]; rfl⟩
      · exact .inr ⟨h, raw.termsOK⟩
  unfold binary
  split
  · rename_i a b ha hb
    have el := constVal_eq gl ha
    have er := constVal_eq gr hb
    subst el er
    have nk : ∀ q k, (E.const q).asPoly.net k = 0 := by
      intro q k; rw [asPoly_const]; simp [Poly.net, ksum]
    rcases hop with ⟨rfl, rfl⟩ | ⟨rfl, rfl⟩ | ⟨rfl, rfl, _⟩
    · refine ⟨_, rfl, good_const _, ?_, ?_, exact⟩
      · simp only [asPoly_const, addArg, reduceCtorEq, if_false]
      · intro k; rw [nk, addArg_net, nk, nk]; simp
    · refine ⟨_, rfl, good_const _, ?_, ?_, exact⟩
      · simp only [asPoly_const, addArg, reduceCtorEq, if_false, Poly.negate]; ring
      · intro k; rw [nk, addArg_net, nk]; simp [asPoly_const, Poly.negate, Poly.net, ksum]
    · refine ⟨_, rfl, good_const _, ?_, ?_, exact⟩
      · simp only [asPoly_const, if_true]
      · intro k; rw [nk, asPoly_const b, distArg_const (by rw [asPoly_const]; exact canon_const a), nk, mul_zero]
  · rename_i hnc
    have hs : ¬ (l.setOf.isSome = true ∨ r.setOf.isSome = true) := by
      rw [E.isAr_setOf gl.ar, E.isAr_setOf gr.ar]; simp
    have hc : ¬ (((l.constVal.isSome || l.setOf.isSome) &&
        (r.constVal.isSome || r.setOf.isSome)) = true) := by
      rw [E.isAr_setOf gl.ar, E.isAr_setOf gr.ar]
      intro h
      simp only [Option.isSome_none, Bool.or_false, Bool.and_eq_true] at h
      obtain ⟨a, ha⟩ := Option.isSome_iff_exists.1 h.1
      obtain ⟨b, hb⟩ := Option.isSome_iff_exists.1 h.2
      exact hnc a b ha hb
    rw [if_neg hc]
    obtain ⟨q, c1, c2, c3, c4⟩ := raw.collect
    have fin : ∀ x : Except Err Poly, x = p.collect → ∃ e, x.map Poly.simplify = .ok e ∧ Good e ∧
        e.asPoly.c = p.c ∧ ∀ k, e.asPoly.net k = p.net k := by
      intro x hx
      refine ⟨q.simplify, by rw [hx, c1]; rfl, c2.good, ?_, ?_⟩
      · rw [c2.simplify_asPoly, c3]
      · intro k; rw [c2.simplify_asPoly, c4]
    rcases hop with ⟨rfl, rfl⟩ | ⟨rfl, rfl⟩ | ⟨rfl, rfl, h⟩
    · simp only [hs, if_false]
      obtain ⟨e, e1, e2, e3, e4⟩ := fin (l.asPoly.combine r.asPoly) rfl
      exact ⟨e, e1, e2, by simpa using e3, e4, exact⟩
    · simp only [hs, if_false]
      obtain ⟨e, e1, e2, e3, e4⟩ := fin (l.asPoly.combine r.asPoly.negate) rfl
      exact ⟨e, e1, e2, by simpa using e3, e4, exact⟩
    · simp only [hs, if_false]
      obtain ⟨e, e1, e2, e3, e4⟩ := fin (l.asPoly.distribute r.asPoly) rfl
      refine ⟨e, e1, e2, ?_, e4, exact⟩
      simp only [if_true]
      rw [e3]
      rcases h with ⟨a, b, ha, hb⟩ | h
      · exact absurd hb (fun hb => hnc a b ha hb)
      · rw [h]; rfl

theorem unaryMinus_good {e : E} (g : Good e) : ∃ x, unaryMinus e = .ok x ∧ Good x ∧
    x.asPoly.c = -e.asPoly.c ∧ ∀ k, x.asPoly.net k = -e.asPoly.net k := by
  unfold unaryMinus
  split
  · rename_i q hq
    have := constVal_eq g hq
    subst this
    refine ⟨_, rfl, good_const _, ?_, ?_⟩
    · simp only [asPoly_const]
    · intro k; simp only [asPoly_const, Poly.net, ksum]; simp
  · rw [E.isAr_setOf g.ar]
    simp only [Option.isSome_none, Bool.false_eq_true, if_false]
    have c := g.canon.negate
    refine ⟨_, rfl, c.good, ?_, ?_⟩
    · rw [c.simplify_asPoly]; rfl
    · intro k; rw [c.simplify_asPoly]; simp [Poly.net, Poly.negate]

theorem repeatL_length (n : ℕ) (p : List E) : (sortE (repeatL n p)).length = n * p.length := by
  rw [(sortE_perm _).length_eq]
  unfold repeatL
  induction n with
  | zero => simp
  | succ n ih => rw [List.replicate_succ, List.flatten_cons, List.length_append, ih]; ring

theorem powN_shape {m : Mono} (h : m.Shape) {n : ℕ} (hn : 1 ≤ n) (hc : 0 < m.c) :
    (m.powN n).Shape ∧ 0 < (m.powN n).c := by
  obtain ⟨c, p, ng⟩ := m
  obtain ⟨h1, h2, h3, h4⟩ := h
  simp only at h1 h2 h3 h4 hc; subst h1
  refine ⟨⟨?_, ?_, sortE_pairwise _, ?_⟩, pow_pos hc n⟩
  · simp only [Mono.powN, repeatL]
    have : (List.replicate n ([] : List E)).flatten = [] := by simp
    rw [this]; rfl
  · simp only [Mono.powN]
    intro e
    have := repeatL_length n p
    rw [e, List.length_nil] at this
    have a := List.length_pos_iff.2 h2
    have := Nat.mul_pos hn a
    omega
  · intro x e
    simp only [Mono.powN] at e
    have hl := repeatL_length n p
    rw [e, List.length_singleton] at hl
    have hd : n = 1 := Nat.eq_one_of_dvd_one ⟨_, hl⟩
    subst hd
    have hp : p.length = 1 := by omega
    obtain ⟨y, rfl⟩ := List.length_eq_one_iff.1 hp
    have : x = y := by
      have : sortE (repeatL 1 [y]) = [y] := rfl
      rw [this] at e; simpa using e.symm
    subst this; exact h4 x rfl

theorem powPos_good {l : Poly} (h : l.Canon) (hne : l.pos ≠ [] ∨ l.neg ≠ []) {n : ℕ} (hn : 1 ≤ n) :
    Good (powPos l n) ∧ (powPos l n).asPoly.c = (if n = 1 then l.c else 0) ∧
      ∃ k, (powPos l n).asPoly.net k ≠ 0 := by
  have fin : ∀ p : Poly, p.Canon → p.c = (if n = 1 then l.c else 0) → (p.pos ≠ [] ∨ p.neg ≠ []) →
      Good p.simplify ∧ p.simplify.asPoly.c = (if n = 1 then l.c else 0) ∧
        ∃ k, p.simplify.asPoly.net k ≠ 0 := by
    intro p hp hc hpn
    refine ⟨hp.good, by rw [hp.simplify_asPoly, hc], ?_⟩
    rw [hp.simplify_asPoly]; exact (terms_iff_net hp).1 hpn
  have whole : l.simplify = l.toE → Good (Poly.simplify ⟨0, [⟨1, List.replicate n l.toE, []⟩], []⟩) ∧
      (Poly.simplify ⟨0, [⟨1, List.replicate n l.toE, []⟩], []⟩).asPoly.c = (if n = 1 then l.c else 0) ∧
      ∃ k, (Poly.simplify ⟨0, [⟨1, List.replicate n l.toE, []⟩], []⟩).asPoly.net k ≠ 0 := by
    intro hl
    by_cases h1 : n = 1
    · subst h1
      have : Poly.simplify ⟨0, [⟨1, List.replicate 1 l.toE, []⟩], []⟩ = l.simplify := by
        rw [hl]; simp [Poly.simplify, Mono.simplify]
      rw [this]
      exact fin l h (by simp) hne
    · refine fin _ (canon_single ?_ one_pos 0).1 (by simp [h1]) (.inl (by simp))
      refine ⟨rfl, by simp; omega, ?_, ?_⟩
      · rw [List.pairwise_replicate]
        right
        rcases E.le_total l.toE l.toE with h | h <;> exact h
      · intro x e
        have := congrArg List.length e
        simp at this; omega
  obtain ⟨c, ps, ns⟩ := l
  unfold powPos
  split
  · rename_i m h1 h2
    simp only at h1 h2; subst h1 h2
    obtain ⟨s, sc⟩ := h.shape m (by simp)
    obtain ⟨t, tc⟩ := powN_shape s hn sc
    simp only
    by_cases h0 : c = 0
    · rw [if_pos h0]
      exact fin _ (canon_single t tc 0).1 (by simp [h0]) (.inl (by simp))
    · rw [if_neg h0]
      refine whole ?_
      simp [Poly.simplify, h0]
  · rename_i m h1 h2
    simp only at h1 h2; subst h1 h2
    obtain ⟨s, sc⟩ := h.shape m (by simp)
    obtain ⟨t, tc⟩ := powN_shape s hn sc
    simp only
    by_cases h0 : c = 0
    · rw [if_pos h0]
      by_cases h3 : n % 2 = 0
      · rw [if_pos h3]
        exact fin _ (canon_single t tc 0).1 (by simp [h0]) (.inl (by simp))
      · rw [if_neg h3]
        exact fin _ (canon_single t tc 0).2 (by simp [h0]) (.inr (by simp))
    · rw [if_neg h0]
      refine whole ?_
      simp [Poly.simplify, h0]
  · rename_i h1 h2
    refine whole ?_
    unfold Poly.simplify
    split
    · rename_i g1 g2
      simp only at g1 g2; subst g1 g2
      simp at hne
    · rename_i m g1 g2
      exact absurd g2 (fun g2 => h1 m g1 g2)
    · rename_i m g1 g2
      exact absurd g2 (fun g2 => h2 m g1 g2)
    · rfl

theorem parse_false_true {sc : Scope} {s : Py} {e : E} (h : Py.parse sc false s = .ok e) :
    Py.parse sc true s = .ok e := by
  cases s <;> first | (simpa only [Py.parse] using h) | (simp [Py.parse] at h)

/-- What the parser makes of an expression without division. -/
structure Parsed (known : String → Bool) (s : Py) (e : E) : Prop where
  ok : Py.parse (plainScope known) false s = .ok e
  good : Good e
  const : e.asPoly.c = s.constTerm
  closed : s.closed = true → e = E.const s.constTerm
  dep : s.nonConst = true → e.constVal = none

theorem parsed_basic {known : String → Bool} {s : Py} {e : E}
    (h : Py.parse (plainScope known) false s = .ok e) (hb : e.basic = true) (hc : s.constTerm = 0)
    (hcl : s.closed = false) : Parsed known s e :=
  ⟨h, good_basic hb, by rw [basic_asPoly hb, hc], fun h => (by rw [hcl] at h; cases h),
    fun _ => constVal_none_of_terms (.inl (by rw [basic_asPoly hb]; simp))⟩

theorem net_const (q : ℚ) (k : List E × List E) : (E.const q).asPoly.net k = 0 := by
  rw [asPoly_const]; simp [Poly.net, ksum]

/-- `+`, `-` and `*`. -/
theorem parsed_ring {known : String → Bool} {op : PyOp} {a b : Py} {l r : E}
    (ha : Parsed known a l) (hb : Parsed known b r)
    (hop : op = .add ∨ op = .sub ∨ (op = .mul ∧
      ((a.closed = true ∧ b.closed = true) ∨ a.constTerm * b.constTerm = 0))) :
    (∃ e, Parsed known (.bin op a b) e ∧ ∀ k, e.asPoly.net k =
      (if op = .add then l.asPoly.net k + r.asPoly.net k
       else if op = .sub then l.asPoly.net k - r.asPoly.net k
       else (distArg l.asPoly r.asPoly).net k)) ∧ OpExact op l r := by
  have parse : ∀ e, binary op l r = .ok e →
      Py.parse (plainScope known) false (.bin op a b) = .ok e := by
    intro e he
    simp only [Py.parse, ha.ok, hb.ok]; exact he
  rcases hop with rfl | rfl | ⟨rfl, hc⟩
  · obtain ⟨e, e1, e2, e3, e4, e5⟩ := binary_ring ha.good hb.good
      (p := addArg l.asPoly r.asPoly) (.inl ⟨rfl, rfl⟩)
    refine ⟨⟨e, ⟨parse e e1, e2, ?_, ?_, ?_⟩, ?_⟩, e5⟩
    · rw [e3, Py.constTerm, ← ha.const, ← hb.const]; rfl
    · intro h
      simp only [Py.closed, Bool.and_eq_true] at h
      rw [ha.closed h.1, hb.closed h.2] at e1
      have : e = E.const (a.constTerm + b.constTerm) := by
        have h5 : (Except.ok (E.const (a.constTerm + b.constTerm)) : Except Err E) = .ok e := e1
        simpa using h5.symm
      exact this
    · intro h
      rw [constVal_none_iff e2]
      simp only [Py.nonConst, Bool.or_eq_true, Bool.and_eq_true] at h
      rcases h with ⟨h1, h2⟩ | ⟨h1, h2⟩
      · obtain ⟨k, hk⟩ := (constVal_none_iff ha.good).1 (ha.dep h1)
        refine ⟨k, ?_⟩
        rw [e4, addArg_net, hb.closed h2, net_const, add_zero]; exact hk
      · obtain ⟨k, hk⟩ := (constVal_none_iff hb.good).1 (hb.dep h2)
        refine ⟨k, ?_⟩
        rw [e4, addArg_net, ha.closed h1, net_const, zero_add]; exact hk
    · intro k; rw [e4, addArg_net]; simp
  · obtain ⟨e, e1, e2, e3, e4, e5⟩ := binary_ring ha.good hb.good
      (p := addArg l.asPoly r.asPoly.negate) (.inr (.inl ⟨rfl, rfl⟩))
    have nn : ∀ k, r.asPoly.negate.net k = -r.asPoly.net k := by
      intro k; simp [Poly.net, Poly.negate]
    refine ⟨⟨e, ⟨parse e e1, e2, ?_, ?_, ?_⟩, ?_⟩, e5⟩
    · rw [e3, Py.constTerm, ← ha.const, ← hb.const]
      simp only [reduceCtorEq, if_false, addArg, Poly.negate]; ring
    · intro h
      simp only [Py.closed, Bool.and_eq_true] at h
      rw [ha.closed h.1, hb.closed h.2] at e1
      have : e = E.const (a.constTerm - b.constTerm) := by
        have h5 : (Except.ok (E.const (a.constTerm - b.constTerm)) : Except Err E) = .ok e := e1
        simpa using h5.symm
      exact this
    · intro h
      rw [constVal_none_iff e2]
      simp only [Py.nonConst, Bool.or_eq_true, Bool.and_eq_true] at h
      rcases h with ⟨h1, h2⟩ | ⟨h1, h2⟩
      · obtain ⟨k, hk⟩ := (constVal_none_iff ha.good).1 (ha.dep h1)
        refine ⟨k, ?_⟩
        rw [e4, addArg_net, nn, hb.closed h2, net_const, neg_zero, add_zero]; exact hk
      · obtain ⟨k, hk⟩ := (constVal_none_iff hb.good).1 (hb.dep h2)
        refine ⟨k, ?_⟩
        rw [e4, addArg_net, nn, ha.closed h1, net_const, zero_add]; exact neg_ne_zero.2 hk
    · intro k; rw [e4, addArg_net, nn]; simp [sub_eq_add_neg]
  · have cond : (∃ x y, l.constVal = some x ∧ r.constVal = some y) ∨ l.asPoly.c * r.asPoly.c = 0 := by
      rcases hc with ⟨h1, h2⟩ | h
      · left
        rw [ha.closed h1, hb.closed h2]
        exact ⟨_, _, rfl, rfl⟩
      · right; rw [ha.const, hb.const]; exact h
    obtain ⟨e, e1, e2, e3, e4, e5⟩ := binary_ring ha.good hb.good
      (p := distArg l.asPoly r.asPoly) (.inr (.inr ⟨rfl, rfl, cond⟩))
    refine ⟨⟨e, ⟨parse e e1, e2, ?_, ?_, ?_⟩, ?_⟩, e5⟩
    · rw [e3, Py.constTerm, ← ha.const, ← hb.const]; simp
    · intro h
      simp only [Py.closed, Bool.and_eq_true] at h
      rw [ha.closed h.1, hb.closed h.2] at e1
      have : e = E.const (a.constTerm * b.constTerm) := by
        have h5 : (Except.ok (E.const (a.constTerm * b.constTerm)) : Except Err E) = .ok e := e1
        simpa using h5.symm
      exact this
    · intro h
      rw [constVal_none_iff e2]
      simp only [Py.nonConst, Bool.or_eq_true, Bool.and_eq_true, decide_eq_true_eq] at h
      rcases h with ⟨⟨h1, h2⟩, h3⟩ | ⟨⟨h1, h2⟩, h3⟩
      · obtain ⟨k, hk⟩ := (constVal_none_iff ha.good).1 (ha.dep h1)
        refine ⟨k, ?_⟩
        rw [e4, hb.closed h2, asPoly_const, distArg_const ha.good.canon]
        exact mul_ne_zero h3 hk
      · obtain ⟨k, hk⟩ := (constVal_none_iff hb.good).1 (hb.dep h2)
        refine ⟨k, ?_⟩
        have sw : (distArg l.asPoly r.asPoly).net k = (distArg r.asPoly l.asPoly).net k := by
          simp only [Poly.net, distArg, ksum_append]
          rw [ksum_perm (prods_comm l.asPoly.pos r.asPoly.pos), ksum_perm (prods_comm l.asPoly.neg r.asPoly.neg),
            ksum_perm (prods_comm l.asPoly.pos r.asPoly.neg), ksum_perm (prods_comm l.asPoly.neg r.asPoly.pos)]
          ring
        rw [e4, sw, ha.closed h1, asPoly_const, distArg_const hb.good.canon]
        exact mul_ne_zero h3 hk
    · intro k; rw [e4]; simp

/-- `//`, `%` and `^`. -/
theorem parsed_fcn {known : String → Bool} {op : PyOp} {a b : Py} {l r : E}
    (ha : Parsed known a l) (hb : Parsed known b r) (hd : a.nonConst = true ∨ b.nonConst = true)
    (hop : op = .floordiv ∨ op = .mod ∨ op = .xor) :
    ∃ e, Parsed known (.bin op a b) e := by
  have hc : ¬ (((l.constVal.isSome || l.setOf.isSome) &&
      (r.constVal.isSome || r.setOf.isSome)) = true) := by
    rw [E.isAr_setOf ha.good.ar, E.isAr_setOf hb.good.ar]
    rcases hd with h | h
    · rw [ha.dep h]; simp
    · rw [hb.dep h]; simp
  have hb' : binary op l r = .ok (mkBinOp op l r) := by
    unfold binary
    split
    · rename_i x y hx hy
      rcases hd with h | h
      · rw [ha.dep h] at hx; cases hx
      · rw [hb.dep h] at hy; cases hy
    · rw [if_neg hc]
      rcases hop with rfl | rfl | rfl <;> rfl
  have hp : Py.parse (plainScope known) false (.bin op a b) = .ok (mkBinOp op l r) := by
    simp only [Py.parse, ha.ok, hb.ok]; exact hb'
  refine ⟨mkBinOp op l r, parsed_basic hp rfl ?_ ?_⟩
  · rcases hop with rfl | rfl | rfl <;> rfl
  · rcases hop with rfl | rfl | rfl <;> rfl

/-- `**` with a number as exponent. -/
theorem parsed_pow {known : String → Bool} {a : Py} {q : ℚ} {l : E} (ha : Parsed known a l)
    (hd : a.nonConst = true) (hq : negExp q = false) : ∃ e, Parsed known (.bin .pow a (.num q)) e := by
  have hl := ha.dep hd
  have hb' : binary .pow l (E.const q) = binPow l (E.const q) := by
    unfold binary
    rw [hl, E.isAr_setOf ha.good.ar]
    rfl
  have hp : ∀ e, binPow l (E.const q) = .ok e →
      Py.parse (plainScope known) false (.bin .pow a (.num q)) = .ok e := by
    intro e he
    simp only [Py.parse, ha.ok]
    change binary .pow l (E.const q) = .ok e
    rw [hb', he]
  have cv : (E.const q).constVal = some q := rfl
  by_cases h1 : q.den = 1 ∧ 1 ≤ q ∧ q < 5
  · have hb : binPow l (E.const q) = .ok (powPos l.asPoly q.num.toNat) := by
      unfold binPow; rw [cv]; simp only; rw [if_pos h1]
    have e3 := int_of_den h1.1
    have pos : 1 ≤ q.num := by
      have := h1.2.1; rw [e3] at this; exact_mod_cast this
    obtain ⟨g1, g2, g3⟩ := powPos_good ha.good.canon (terms_of_constVal_none ha.good hl)
      (n := q.num.toNat) (by omega)
    refine ⟨_, hp _ hb, g1, ?_, fun h => by simp [Py.closed] at h, fun _ => (constVal_none_iff g1).2 g3⟩
    rw [g2, Py.constTerm, ha.const]
    have : (q.num.toNat = 1) ↔ q = 1 := by
      constructor
      · intro h
        have : q.num = 1 := by omega
        rw [e3, this]; rfl
      · intro h; rw [h]; rfl
    simp only [this]
  · have h2 : ¬ (q.den = 1 ∧ -5 < q ∧ q ≤ -1) := by simpa [negExp] using hq
    have hb : binPow l (E.const q) = .ok (mkBinOp .pow l (E.const q)) := by
      unfold binPow; rw [cv]; simp only; rw [if_neg h1, if_neg h2]
    refine ⟨_, parsed_basic (hp _ hb) rfl ?_ rfl⟩
    rw [Py.constTerm, if_neg]
    rintro rfl
    exact h1 ⟨rfl, le_refl _, by norm_num⟩

/-- `**` with an exponent that depends on the row. -/
theorem parsed_pow' {known : String → Bool} {a b : Py} {l r : E} (ha : Parsed known a l)
    (hb : Parsed known b r) (hd : b.nonConst = true) (hn : ∀ q, b ≠ .num q) :
    ∃ e, Parsed known (.bin .pow a b) e := by
  have hr := hb.dep hd
  have hb' : binary .pow l r = .ok (mkBinOp .pow l r) := by
    unfold binary
    split
    · rename_i x y hx hy
      rw [hr] at hy; cases hy
    · rw [hr, E.isAr_setOf hb.good.ar]
      simp [binPow, hr, E.isAr_setOf hb.good.ar]
  have hp : Py.parse (plainScope known) false (.bin .pow a b) = .ok (mkBinOp .pow l r) := by
    simp only [Py.parse, ha.ok, hb.ok]; exact hb'
  refine ⟨mkBinOp .pow l r, parsed_basic hp rfl ?_ rfl⟩
  cases b <;> first | rfl | skip
  rename_i q
  exact absurd rfl (hn q)

mutual
theorem parse_divFree (known : String → Bool) : ∀ (s : Py), s.divFree known = true →
    (∃ e, Parsed known s e) ∧ s.Exact known
  | .num q, _ => ⟨⟨E.const q, ⟨by simp only [Py.parse], good_const q, by rw [asPoly_const]; rfl,
      fun _ => rfl, fun h => by simp [Py.nonConst] at h⟩⟩, trivial⟩
  | .name n, _ => ⟨⟨E.name n, parsed_basic (by simp [Py.parse, plainScope]) rfl rfl rfl⟩, trivial⟩
  | .neg a, h => by
    obtain ⟨⟨l, pl⟩, ex⟩ := parse_divFree known a (by simpa [Py.divFree] using h)
    obtain ⟨e, e1, e2, e3, e4⟩ := unaryMinus_good pl.good
    refine ⟨⟨e, ⟨?_, e2, ?_, ?_, ?_⟩⟩, ex⟩
    · simp only [Py.parse, pl.ok]; exact e1
    · rw [e3, pl.const]; rfl
    · intro hc
      simp only [Py.closed] at hc
      rw [pl.closed hc] at e1
      have h5 : (Except.ok (E.const (-a.constTerm)) : Except Err E) = .ok e := e1
      exact (Except.ok.inj h5).symm
    · intro hd
      obtain ⟨k, hk⟩ := (constVal_none_iff pl.good).1 (pl.dep (by simpa [Py.nonConst] using hd))
      refine (constVal_none_iff e2).2 ⟨k, ?_⟩
      rw [e4]; exact neg_ne_zero.2 hk
  | .plus a, h => by
    obtain ⟨⟨l, pl⟩, ex⟩ := parse_divFree known a (by simpa [Py.divFree] using h)
    exact ⟨⟨l, ⟨by simp only [Py.parse]; exact pl.ok, pl.good, pl.const, pl.closed, pl.dep⟩⟩, ex⟩
  | .bin op a b, h => by
    have ring2 : a.divFree known = true → b.divFree known = true →
        (op = .add ∨ op = .sub ∨ (op = .mul ∧
          ((a.closed = true ∧ b.closed = true) ∨ a.constTerm * b.constTerm = 0))) →
        (∃ e, Parsed known (.bin op a b) e) ∧ (Py.bin op a b).Exact known := by
      intro h1 h2 hop
      obtain ⟨⟨l, pl⟩, el⟩ := parse_divFree known a h1
      obtain ⟨⟨r, pr⟩, er⟩ := parse_divFree known b h2
      obtain ⟨⟨e, he, _⟩, ho⟩ := parsed_ring pl pr hop
      refine ⟨⟨e, he⟩, el, er, ?_⟩
      intro l' r' hl hr
      rw [pl.ok] at hl; rw [pr.ok] at hr
      have := Except.ok.inj hl; have := Except.ok.inj hr; subst l' r'
      exact ho
    have fcn2 : a.divFree known = true → b.divFree known = true →
        (a.nonConst = true ∨ b.nonConst = true) → (op = .floordiv ∨ op = .mod ∨ op = .xor) →
        (∃ e, Parsed known (.bin op a b) e) ∧ (Py.bin op a b).Exact known := by
      intro h1 h2 hd hop
      obtain ⟨⟨l, pl⟩, el⟩ := parse_divFree known a h1
      obtain ⟨⟨r, pr⟩, er⟩ := parse_divFree known b h2
      refine ⟨parsed_fcn pl pr hd hop, el, er, ?_⟩
      intro l' r' _ _
      rcases hop with rfl | rfl | rfl <;> trivial
    cases op with
    | add =>
      simp only [Py.divFree, Bool.and_eq_true] at h
      exact ring2 h.1 h.2 (.inl rfl)
    | sub =>
      simp only [Py.divFree, Bool.and_eq_true] at h
      exact ring2 h.1 h.2 (.inr (.inl rfl))
    | mul =>
      simp only [Py.divFree, Bool.and_eq_true, Bool.or_eq_true, decide_eq_true_eq] at h
      exact ring2 h.1.1 h.1.2 (.inr (.inr ⟨rfl, h.2⟩))
    | floordiv =>
      simp only [Py.divFree, Bool.and_eq_true, Bool.or_eq_true] at h
      exact fcn2 h.1.1 h.1.2 h.2 (.inl rfl)
    | mod =>
      simp only [Py.divFree, Bool.and_eq_true, Bool.or_eq_true] at h
      exact fcn2 h.1.1 h.1.2 h.2 (.inr (.inl rfl))
    | xor =>
      simp only [Py.divFree, Bool.and_eq_true, Bool.or_eq_true] at h
      exact fcn2 h.1.1 h.1.2 h.2 (.inr (.inr rfl))
    | div => simp [Py.divFree] at h
    | bitor => simp [Py.divFree] at h
    | bitand => simp [Py.divFree] at h
    | pow =>
      by_cases hq : ∃ q, b = .num q
      · obtain ⟨q, rfl⟩ := hq
        simp only [Py.divFree, Bool.and_eq_true, Bool.not_eq_true'] at h
        obtain ⟨⟨l, pl⟩, el⟩ := parse_divFree known a h.1.1
        exact ⟨parsed_pow pl h.1.2 h.2, el, trivial, fun _ _ _ _ => trivial⟩
      · have hn : ∀ q, b ≠ .num q := fun q e => hq ⟨q, e⟩
        have h' : a.divFree known = true ∧ b.divFree known = true ∧ b.nonConst = true := by
          cases b <;> first
            | (exact absurd rfl (hn _))
            | (simp only [Py.divFree, Bool.and_eq_true] at h; exact ⟨h.1.1, h.1.2, h.2⟩)
            | (simp [Py.divFree] at h; done)
            | (simp [Py.divFree] at h ⊢; tauto)
        obtain ⟨⟨l, pl⟩, el⟩ := parse_divFree known a h'.1
        obtain ⟨⟨r, pr⟩, er⟩ := parse_divFree known b h'.2.1
        exact ⟨parsed_pow' pl pr h'.2.2 hn, el, er, fun _ _ _ _ => trivial⟩
  | .call f args, h => by
    simp only [Py.divFree, Bool.and_eq_true] at h
    obtain ⟨p, ex⟩ := parseArgs_divFree known args h.2
    refine ⟨?_, ex⟩
    obtain ⟨as, has⟩ := p (decide (f = "where"))
    refine ⟨_, parsed_basic (e := .node (.call f) as []) ?_ rfl rfl rfl⟩
    simp only [Py.parse, plainScope, h.1, if_true]
    have : Py.parseArgs (plainScope known) (decide (f = "where")) args = .ok as := has
    simp only [plainScope] at this
    rw [this]; rfl
  | .set _, h => by simp [Py.divFree] at h
  | .invert _, h => by simp [Py.divFree] at h
  | .compare _ _ _, h => by simp [Py.divFree] at h
  | .lnot _, h => by simp [Py.divFree] at h
  | .land _, h => by simp [Py.divFree] at h
  | .lor _, h => by simp [Py.divFree] at h
theorem parseArgs_divFree (known : String → Bool) : ∀ (l : List Py), Py.divFreeL known l = true →
    (∀ rel, ∃ es, Py.parseArgs (plainScope known) rel l = .ok es) ∧ Py.ExactL known l
  | [], _ => ⟨fun rel => ⟨[], by simp [Py.parseArgs]⟩, trivial⟩
  | a :: as, h => by
    simp only [Py.divFreeL, Bool.and_eq_true] at h
    obtain ⟨⟨l, pl⟩, el⟩ := parse_divFree known a h.1
    obtain ⟨p, ex⟩ := parseArgs_divFree known as h.2
    refine ⟨?_, el, ex⟩
    intro rel
    obtain ⟨es, he⟩ := p false
    refine ⟨l :: es, ?_⟩
    have : Py.parse (plainScope known) rel a = .ok l := by
      cases rel
      · exact pl.ok
      · exact parse_false_true pl.ok
    simp only [Py.parseArgs, this, he]; rfl
end

end Verif
