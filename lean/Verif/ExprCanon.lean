import Verif.ParseLemmas

/-!
# Collecting like terms

Lemmas: the result of collecting does not depend on the order of the terms, only on the coefficient of
each product.
-/

namespace Verif

/-- What two similar terms share. -/
def Mono.key (m : Mono) : List E × List E := (m.pos, m.neg)

/-- The coefficient of a product in a list of terms. -/
def ksum (l : List Mono) (k : List E × List E) : ℚ :=
  (l.map fun m => if m.key = k then m.c else 0).sum

theorem ksum_cons (x : Mono) (l : List Mono) (k : List E × List E) :
    ksum (x :: l) k = (if x.key = k then x.c else 0) + ksum l k := by simp [ksum]

theorem ksum_append (l l' : List Mono) (k : List E × List E) :
    ksum (l ++ l') k = ksum l k + ksum l' k := by simp [ksum]

theorem ksum_perm {l l' : List Mono} (h : l.Perm l') (k : List E × List E) : ksum l k = ksum l' k :=
  (h.map _).sum_eq

theorem ksum_opp (l : List Mono) (k : List E × List E) : ksum (l.map Mono.opp) k = -ksum l k := by
  induction l with
  | nil => simp [ksum]
  | cons x xs ih =>
    rw [List.map_cons, ksum_cons, ksum_cons, ih]
    have : x.opp.key = x.key := rfl
    rw [this]
    split_ifs
    · simp only [Mono.opp]; ring
    · ring

theorem ksum_notin {l : List Mono} {k : List E × List E} (h : k ∉ l.map Mono.key) : ksum l k = 0 := by
  induction l with
  | nil => rfl
  | cons x xs ih =>
    simp only [List.map_cons, List.mem_cons, not_or] at h
    rw [ksum_cons, if_neg (fun e => h.1 e.symm), ih h.2, zero_add]

theorem ksum_mem {l : List Mono} (hn : (l.map Mono.key).Nodup) {m : Mono} (hm : m ∈ l) :
    ksum l m.key = m.c := by
  induction l with
  | nil => simp at hm
  | cons x xs ih =>
    rw [List.map_cons, List.nodup_cons] at hn
    rw [ksum_cons]
    rcases List.mem_cons.1 hm with rfl | hm
    · rw [if_pos rfl, ksum_notin hn.1, add_zero]
    · rw [if_neg, ih hn.2 hm, zero_add]
      intro e
      exact hn.1 (e ▸ List.mem_map_of_mem hm)

theorem similar_key {x y : Mono} : x.similar y = true ↔ x.key = y.key := by
  rw [Mono.similar_iff]; simp [Mono.key]

theorem mergeTerm_keys (x : Mono) (l : List Mono) :
    (x.key ∈ l.map Mono.key → (mergeTerm x l).map Mono.key = l.map Mono.key) ∧
    (x.key ∉ l.map Mono.key → (mergeTerm x l).map Mono.key = l.map Mono.key ++ [x.key]) := by
  induction l with
  | nil => simp [mergeTerm]
  | cons y ys ih =>
    simp only [mergeTerm]
    by_cases h : x.similar y = true
    · rw [if_pos h]
      have e := similar_key.1 h
      constructor
      · intro _; rfl
      · intro hn; exact absurd (by simp [e]) hn
    · rw [if_neg h]
      have e : x.key ≠ y.key := fun e => h (similar_key.2 e)
      constructor
      · intro hm
        rw [List.map_cons, List.map_cons, ih.1 (by simpa [e] using hm)]
      · intro hm
        rw [List.map_cons, List.map_cons, ih.2 (by simp only [List.map_cons, List.mem_cons, not_or] at hm; exact hm.2)]
        rfl

theorem mergeTerm_ksum (x : Mono) (l : List Mono) (k : List E × List E) :
    ksum (mergeTerm x l) k = (if x.key = k then x.c else 0) + ksum l k := by
  induction l with
  | nil => simp [mergeTerm, ksum]
  | cons y ys ih =>
    simp only [mergeTerm]
    by_cases h : x.similar y = true
    · rw [if_pos h, ksum_cons, ksum_cons, similar_key.1 h]
      have : (⟨x.c + y.c, y.pos, y.neg⟩ : Mono).key = y.key := rfl
      rw [this]
      split_ifs <;> ring
    · rw [if_neg h, ksum_cons, ksum_cons, ih]; ring

/-- The key of a constant term. -/
abbrev nilKey : List E × List E := ([], [])

theorem nilKey_iff {x : Mono} : (x.pos = [] ∧ x.neg = []) ↔ x.key = nilKey := by
  simp [Mono.key]

theorem foldTerms_ksum (l : List Mono) (acc : ℚ × List Mono) (hn : (acc.2.map Mono.key).Nodup)
    (h0 : nilKey ∉ acc.2.map Mono.key) :
    ((l.foldl addTerm acc).2.map Mono.key).Nodup ∧ nilKey ∉ (l.foldl addTerm acc).2.map Mono.key ∧
    (l.foldl addTerm acc).1 = acc.1 + ksum l nilKey ∧
    ∀ k, k ≠ nilKey → ksum (l.foldl addTerm acc).2 k = ksum acc.2 k + ksum l k := by
  induction l generalizing acc with
  | nil => exact ⟨hn, h0, by simp [ksum], fun k _ => by simp [ksum]⟩
  | cons x xs ih =>
    have step : ((addTerm acc x).2.map Mono.key).Nodup ∧ nilKey ∉ (addTerm acc x).2.map Mono.key ∧
        (addTerm acc x).1 = acc.1 + (if x.key = nilKey then x.c else 0) ∧
        ∀ k, k ≠ nilKey → ksum (addTerm acc x).2 k = ksum acc.2 k + (if x.key = k then x.c else 0) := by
      unfold addTerm
      by_cases h1 : x.c = 0
      · rw [if_pos h1]
        refine ⟨hn, h0, ?_, ?_⟩
        · simp [h1]
        · intro k _; simp [h1]
      rw [if_neg h1]
      by_cases h2 : x.pos = [] ∧ x.neg = []
      · rw [if_pos h2]
        have := nilKey_iff.1 h2
        refine ⟨hn, h0, by simp [this], ?_⟩
        intro k hk
        have : x.key ≠ k := by rw [this]; exact fun e => hk e.symm
        simp [this]
      · rw [if_neg h2]
        have hx : x.key ≠ nilKey := fun e => h2 (nilKey_iff.2 e)
        obtain ⟨m1, m2⟩ := mergeTerm_keys x acc.2
        refine ⟨?_, ?_, by simp [hx], ?_⟩
        · by_cases hm : x.key ∈ acc.2.map Mono.key
          · simp only; rw [m1 hm]; exact hn
          · simp only; rw [m2 hm]
            rw [List.nodup_append]
            refine ⟨hn, by simp, ?_⟩
            intro a ha b hb e
            have : b = x.key := by simpa using hb
            subst this; subst e; exact hm ha
        · by_cases hm : x.key ∈ acc.2.map Mono.key
          · simp only; rw [m1 hm]; exact h0
          · simp only; rw [m2 hm]
            simp only [List.mem_append, not_or]
            exact ⟨h0, by simpa using fun e => hx e.symm⟩
        · intro k _
          simp only; rw [mergeTerm_ksum, add_comm]
    obtain ⟨s1, s2, s3, s4⟩ := step
    obtain ⟨i1, i2, i3, i4⟩ := ih (addTerm acc x) s1 s2
    refine ⟨i1, i2, ?_, ?_⟩
    · rw [List.foldl_cons, i3, s3, ksum_cons]; ring
    · intro k hk
      rw [List.foldl_cons, i4 k hk, s4 k hk, ksum_cons]; ring

/-- Collecting after cancelling (expr.py 736-774). -/
def gather (c : ℚ) (ps ns : List Mono) : Poly :=
  splitTerms ((ns.map Mono.opp).foldl addTerm (ps.foldl addTerm (c, []))).1
    ((ns.map Mono.opp).foldl addTerm (ps.foldl addTerm (c, []))).2

theorem gather_spec (c : ℚ) (ps ns : List Mono) : ∃ T : List Mono, (T.map Mono.key).Nodup ∧
    nilKey ∉ T.map Mono.key ∧ gather c ps ns = splitTerms (c + ksum ps nilKey - ksum ns nilKey) T ∧
    ∀ k, k ≠ nilKey → ksum T k = ksum ps k - ksum ns k := by
  obtain ⟨a1, a2, a3, a4⟩ := foldTerms_ksum ps (c, []) (by simp) (by simp)
  obtain ⟨b1, b2, b3, b4⟩ := foldTerms_ksum (ns.map Mono.opp) _ a1 a2
  refine ⟨_, b1, b2, ?_, ?_⟩
  · unfold gather; rw [b3, a3, ksum_opp, sub_eq_add_neg]
  · intro k hk; rw [b4 k hk, a4 k hk, ksum_opp]; simp [ksum]; ring

theorem sortM_congr {l l' : List Mono} (h : l.Perm l') : sortM l = sortM l' := sortM_eq_of_perm h

theorem nodup_of_keys {l : List Mono} (h : (l.map Mono.key).Nodup) : l.Nodup := List.Nodup.of_map _ h

theorem mem_iff_ksum {T : List Mono} (hn : (T.map Mono.key).Nodup) (m : Mono) (hc : m.c ≠ 0) :
    m ∈ T ↔ ksum T m.key = m.c := by
  constructor
  · exact ksum_mem hn
  · intro h
    by_contra hm
    by_cases hk : m.key ∈ T.map Mono.key
    · obtain ⟨x, hx, e⟩ := List.mem_map.1 hk
      have := ksum_mem hn hx
      rw [e, h] at this
      apply hm
      have : m = x := by
        obtain ⟨c, p, n⟩ := m; obtain ⟨c', p', n'⟩ := x
        simp only [Mono.key, Prod.mk.injEq] at e
        simp only at this
        rw [this, e.1, e.2]
      exact this ▸ hx
    · rw [ksum_notin hk] at h; exact hc h.symm

theorem splitTerms_ext {c : ℚ} {T T' : List Mono} (h : (T.map Mono.key).Nodup)
    (h' : (T'.map Mono.key).Nodup) (hk : ∀ k, ksum T k = ksum T' k) :
    splitTerms c T = splitTerms c T' := by
  have mem : ∀ m : Mono, m.c ≠ 0 → (m ∈ T ↔ m ∈ T') := by
    intro m hm
    rw [mem_iff_ksum h m hm, mem_iff_ksum h' m hm, hk]
  have p1 : (T.filter fun x => 0 < x.c).Perm (T'.filter fun x => 0 < x.c) := by
    refine (List.perm_ext_iff_of_nodup ((nodup_of_keys h).filter _) ((nodup_of_keys h').filter _)).2 ?_
    intro m
    rw [List.mem_filter, List.mem_filter]
    constructor <;> rintro ⟨a, b⟩ <;> have : m.c ≠ 0 := ne_of_gt (by simpa using b)
    · exact ⟨(mem m this).1 a, b⟩
    · exact ⟨(mem m this).2 a, b⟩
  have p2 : (T.filter fun x => x.c < 0).Perm (T'.filter fun x => x.c < 0) := by
    refine (List.perm_ext_iff_of_nodup ((nodup_of_keys h).filter _) ((nodup_of_keys h').filter _)).2 ?_
    intro m
    rw [List.mem_filter, List.mem_filter]
    constructor <;> rintro ⟨a, b⟩ <;> have : m.c ≠ 0 := ne_of_lt (by simpa using b)
    · exact ⟨(mem m this).1 a, b⟩
    · exact ⟨(mem m this).2 a, b⟩
  unfold splitTerms
  rw [sortM_congr p1, sortM_congr (p2.map _)]

theorem gather_ext {c c' : ℚ} {ps ns ps' ns' : List Mono}
    (hc : c + ksum ps nilKey - ksum ns nilKey = c' + ksum ps' nilKey - ksum ns' nilKey)
    (hk : ∀ k, k ≠ nilKey → ksum ps k - ksum ns k = ksum ps' k - ksum ns' k) :
    gather c ps ns = gather c' ps' ns' := by
  obtain ⟨T, t1, t2, t3, t4⟩ := gather_spec c ps ns
  obtain ⟨T', u1, u2, u3, u4⟩ := gather_spec c' ps' ns'
  rw [t3, u3, hc]
  refine splitTerms_ext t1 u1 (fun k => ?_)
  by_cases h : k = nilKey
  · subst h; rw [ksum_notin t2, ksum_notin u2]
  · rw [t4 k h, u4 k h, hk k h]

theorem collect_eq (p : Poly) : p.collect = (do
    let ps ← p.pos.mapM Mono.cancel
    let ns ← p.neg.mapM Mono.cancel
    .ok (gather p.c ps ns)) := rfl

theorem cancel_error {m : Mono} {e : Err} (h : m.cancel = .error e) : e = .indexError := by
  have key : ∀ (orig todo pos neg : List E), cancelLoop orig todo pos neg = .error e →
      e = .indexError := by
    intro orig todo
    induction todo with
    | nil => intro pos neg h; simp [cancelLoop] at h
    | cons y ys ih =>
      intro pos neg h
      simp only [cancelLoop] at h
      split at h
      · exact ih _ _ h
      · split_ifs at h
        · exact ih _ _ h
        · simpa using h.symm
  unfold Mono.cancel at h
  cases hc : cancelLoop m.pos m.neg m.pos [] with
  | error e' =>
    rw [hc] at h
    have : e' = e := by simpa [Except.map] using h
    subst this; exact key _ _ _ _ hc
  | ok r => rw [hc] at h; simp [Except.map] at h

theorem mapM_cancel_cases (l : List Mono) :
    (∃ r, l.mapM Mono.cancel = .ok r) ∨ l.mapM Mono.cancel = .error .indexError := by
  induction l with
  | nil => exact .inl ⟨[], rfl⟩
  | cons x xs ih =>
    rw [List.mapM_cons]
    cases h : x.cancel with
    | error e => right; rw [cancel_error h]; rfl
    | ok y =>
      rcases ih with ⟨r, hr⟩ | hr
      · left; rw [hr]; exact ⟨y :: r, rfl⟩
      · right; rw [hr]; rfl

theorem mapM_cancel_perm {l l' : List Mono} (h : l.Perm l') {r : List Mono}
    (hr : l.mapM Mono.cancel = .ok r) : ∃ r', l'.mapM Mono.cancel = .ok r' ∧ r.Perm r' := by
  induction h generalizing r with
  | nil => exact ⟨r, hr, .refl _⟩
  | cons x _ ih =>
    rw [List.mapM_cons] at hr
    obtain ⟨y, h1, h2⟩ := exBind hr
    obtain ⟨ys, h3, h4⟩ := exBind h2
    have : r = y :: ys := by
      have h5 : (Except.ok (y :: ys) : Except Err (List Mono)) = .ok r := h4
      simpa using h5.symm
    subst this
    obtain ⟨r', g1, g2⟩ := ih h3
    refine ⟨y :: r', ?_, g2.cons y⟩
    rw [List.mapM_cons, h1, g1]; rfl
  | swap x y l =>
    rw [List.mapM_cons] at hr
    obtain ⟨a, h1, h2⟩ := exBind hr
    obtain ⟨as, h3, h4⟩ := exBind h2
    rw [List.mapM_cons] at h3
    obtain ⟨b, g1, g2⟩ := exBind h3
    obtain ⟨bs, g3, g4⟩ := exBind g2
    have e1 : as = b :: bs := by
      have h5 : (Except.ok (b :: bs) : Except Err (List Mono)) = .ok as := g4
      simpa using h5.symm
    have e2 : r = a :: as := by
      have h5 : (Except.ok (a :: as) : Except Err (List Mono)) = .ok r := h4
      simpa using h5.symm
    subst e1 e2
    refine ⟨b :: a :: bs, ?_, .swap _ _ _⟩
    rw [List.mapM_cons, List.mapM_cons, g1, h1, g3]; rfl
  | trans _ _ ih1 ih2 =>
    obtain ⟨r1, a, b⟩ := ih1 hr
    obtain ⟨r2, c, d⟩ := ih2 a
    exact ⟨r2, c, b.trans d⟩

/-- Collecting does not depend on the order of the terms. -/
theorem collect_perm {p q : Poly} (hc : p.c = q.c) (hp : p.pos.Perm q.pos) (hn : p.neg.Perm q.neg) :
    p.collect = q.collect := by
  rw [collect_eq, collect_eq]
  rcases mapM_cancel_cases p.pos with ⟨r, h1⟩ | h1
  · obtain ⟨r', h2, h3⟩ := mapM_cancel_perm hp h1
    rcases mapM_cancel_cases p.neg with ⟨s, g1⟩ | g1
    · obtain ⟨s', g2, g3⟩ := mapM_cancel_perm hn g1
      rw [h1, h2, g1, g2]
      change Except.ok _ = Except.ok _
      congr 1
      refine gather_ext ?_ ?_
      · rw [hc, ksum_perm h3, ksum_perm g3]
      · intro k _; rw [ksum_perm h3, ksum_perm g3]
    · have g2 : q.neg.mapM Mono.cancel = .error .indexError := by
        rcases mapM_cancel_cases q.neg with ⟨s, g2⟩ | g2
        · obtain ⟨s', g3, _⟩ := mapM_cancel_perm hn.symm g2
          rw [g3] at g1; cases g1
        · exact g2
      rw [h1, h2, g1, g2]; rfl
  · have h2 : q.pos.mapM Mono.cancel = .error .indexError := by
      rcases mapM_cancel_cases q.pos with ⟨s, h2⟩ | h2
      · obtain ⟨s', g3, _⟩ := mapM_cancel_perm hp.symm h2
        rw [g3] at h1; cases h1
      · exact h2
    rw [h1, h2]; rfl

theorem Mono.combine_comm (x y : Mono) : x.combine y = y.combine x := by
  unfold Mono.combine
  rw [mul_comm, sortE_eq_of_perm (List.perm_append_comm (l₁ := x.pos)),
    sortE_eq_of_perm (List.perm_append_comm (l₁ := x.neg))]

theorem prods_comm (l r : List Mono) : (prods l r).Perm (prods r l) := by
  unfold prods
  induction l with
  | nil => simp
  | cons x xs ih =>
    simp only [List.flatMap_cons]
    refine (List.Perm.append_left _ ih).trans ?_
    clear ih
    induction r with
    | nil => simp
    | cons y ys ih2 =>
      simp only [List.flatMap_cons, List.map_cons, List.cons_append]
      rw [Mono.combine_comm x y]
      refine List.Perm.cons _ ?_
      refine List.Perm.trans ?_ (List.Perm.append_left _ ih2)
      rw [← List.append_assoc, ← List.append_assoc]
      exact List.Perm.append_right _ List.perm_append_comm

theorem combine_comm (l r : Poly) : l.combine r = r.combine l := by
  unfold Poly.combine
  refine collect_perm (add_comm _ _) ?_ ?_
  · exact (sortM_perm _).trans (List.perm_append_comm.trans (sortM_perm _).symm)
  · exact (sortM_perm _).trans (List.perm_append_comm.trans (sortM_perm _).symm)

theorem distribute_comm (l r : Poly) : l.distribute r = r.distribute l := by
  unfold Poly.distribute
  refine collect_perm rfl ?_ ?_
  · simp only
    refine List.Perm.append (List.Perm.append List.perm_append_comm (prods_comm _ _)) (prods_comm _ _)
  · simp only
    rw [List.append_assoc, List.append_assoc (scale l.c r.neg ++ scale r.c l.neg)]
    refine List.Perm.append List.perm_append_comm ?_
    exact (List.perm_append_comm).trans (List.Perm.append (prods_comm _ _) (prods_comm _ _))

theorem binary_add_comm (l r : E) : binary .add l r = binary .add r l := by
  unfold binary
  rcases hl : l.constVal with _ | a <;> rcases hr : r.constVal with _ | b
  · simp only [Bool.and_comm, or_comm (a := l.setOf.isSome = true), combine_comm l.asPoly]
  · simp only [Bool.and_comm, or_comm (a := l.setOf.isSome = true), combine_comm l.asPoly]
  · simp only [Bool.and_comm, or_comm (a := l.setOf.isSome = true), combine_comm l.asPoly]
  · simp only [foldConst, add_comm]

theorem binary_mul_comm (l r : E) : binary .mul l r = binary .mul r l := by
  unfold binary
  rcases hl : l.constVal with _ | a <;> rcases hr : r.constVal with _ | b
  · simp only [Bool.and_comm, or_comm (a := l.setOf.isSome = true), distribute_comm l.asPoly]
  · simp only [Bool.and_comm, or_comm (a := l.setOf.isSome = true), distribute_comm l.asPoly]
  · simp only [Bool.and_comm, or_comm (a := l.setOf.isSome = true), distribute_comm l.asPoly]
  · simp only [foldConst, mul_comm]

end Verif
