import Verif.SelectLemmas

/-! # Lemmas about rebinning (helpers for C41) -/

namespace Verif

/-- The number of edges below `x`. -/
def pos (edges : List ℚ) (x : ℚ) : ℕ := (edges.takeWhile (· < x)).length

theorem takeWhile_drop : ∀ (l : List ℚ) (x : ℚ) (i : ℕ), l.Pairwise (· < ·) → i ≤ pos l x →
    i + ((l.drop i).takeWhile (· < x)).length = pos l x
  | [], _, i, _, hi => by
    simp [pos] at hi
    simp [pos, hi]
  | y :: ys, x, 0, _, _ => by simp [pos]
  | y :: ys, x, i + 1, hp, hi => by
    have hy : y < x := by
      by_contra hy
      simp [pos, hy] at hi
    have e : pos (y :: ys) x = pos ys x + 1 := by simp [pos, hy]
    rw [e] at hi ⊢
    have := takeWhile_drop ys x i (List.pairwise_cons.1 hp).2 (by omega)
    rw [List.drop_succ_cons]
    omega

theorem advance_eq (edges : List ℚ) (x : ℚ) (i : ℕ) (hs : edges.Pairwise (· < ·)) (hi : i ≤ pos edges x) : advance edges x i = pos edges x :=
  takeWhile_drop edges x i hs hi

theorem pos_get : ∀ (l : List ℚ), l.Pairwise (· < ·) → ∀ x ∈ l, l[pos l x]? = some x
  | [], _, _, h => by simp at h
  | y :: ys, hp, x, hx => by
    obtain ⟨h1, h2⟩ := List.pairwise_cons.1 hp
    rcases List.mem_cons.1 hx with rfl | hx
    · simp [pos]
    · have hy := h1 x hx
      have e : pos (y :: ys) x = pos ys x + 1 := by simp [pos, hy]
      rw [e, List.getElem?_cons_succ]
      exact pos_get ys h2 x hx

theorem pos_lt {l : List ℚ} (hs : l.Pairwise (· < ·)) {x y : ℚ} (hx : x ∈ l) (hy : y ∈ l) (hxy : x < y) : pos l x < pos l y := by
  obtain ⟨h1, h2⟩ := List.getElem?_eq_some_iff.1 (pos_get l hs x hx)
  obtain ⟨h3, h4⟩ := List.getElem?_eq_some_iff.1 (pos_get l hs y hy)
  by_contra hn
  rcases Nat.lt_or_ge (pos l y) (pos l x) with h | h
  · have := List.pairwise_iff_getElem.1 hs _ _ h3 h1 h
    rw [h2, h4] at this
    linarith
  · have : pos l x = pos l y := by omega
    have h5 := pos_get l hs x hx
    rw [this, pos_get l hs y hy] at h5
    cases h5
    exact lt_irrefl _ hxy

/-- The loop of `_rebinsplit`, in closed form. -/
theorem rebinLoop_eq (edges : List ℚ) (hs : edges.Pairwise (· < ·)) (u : Bool) : ∀ (es : List ℚ) (f : ℚ), f ∈ edges →
    (∀ e ∈ es, e ∈ edges) → (f :: es).Pairwise (· < ·) →
    rebinLoop edges u es (pos edges f + b2n u) (pos edges f + 1) =
      (List.zipWith (fun x y => (pos edges x + b2n u, pos edges y + b2n u)) (f :: es) es, pos edges ((f :: es).getLastD 0) + b2n u)
  | [], f, _, _, _ => rfl
  | e :: es, f, hf, he, hp => by
    obtain ⟨h1, h2⟩ := List.pairwise_cons.1 hp
    have hlt := pos_lt hs hf (he e (by simp)) (h1 e (by simp))
    have ha : advance edges e (pos edges f + 1) = pos edges e := advance_eq edges e _ hs (by omega)
    have hnext : (if u = true then pos edges e + b2n u else pos edges e + b2n u + 1) = pos edges e + 1 := by cases u <;> simp [b2n]
    unfold rebinLoop
    simp only [ha, hnext]
    rw [rebinLoop_eq edges hs u es e (he e (by simp)) (fun x hx => he x (by simp [hx])) h2]
    simp

theorem between (A : ℕ → Bool) (hA : ∀ k, A (k + 1) = true → A k = true) (p : ℕ) : ∀ q, p ≤ q →
    ((∃ k, p ≤ k ∧ k < q ∧ A k = true ∧ A (k + 1) = false) ↔ A p = true ∧ A q = false) := by
  have mono : ∀ d k, A (k + d) = true → A k = true := by
    intro d
    induction d with
    | zero => intro k h; exact h
    | succ d ih => intro k h; exact ih k (hA _ h)
  intro q hq
  constructor
  · rintro ⟨k, h1, h2, h3, h4⟩
    constructor
    · obtain ⟨d, rfl⟩ := Nat.exists_eq_add_of_le h1
      exact mono d p h3
    · cases h : A q with
      | false => rfl
      | true =>
        obtain ⟨d, hd⟩ := Nat.exists_eq_add_of_le (show k + 1 ≤ q from h2)
        rw [hd] at h
        rw [mono d _ h] at h4
        cases h4
  · rintro ⟨h1, h2⟩
    obtain ⟨d, rfl⟩ := Nat.exists_eq_add_of_le hq
    clear hq
    induction d with
    | zero => rw [Nat.add_zero, h1] at h2; cases h2
    | succ d ih =>
      cases h : A (p + d) with
      | false =>
        obtain ⟨k, k1, k2, k3⟩ := ih h
        exact ⟨k, k1, by omega, k3⟩
      | true => exact ⟨p + d, by omega, by omega, h, h2⟩

/-- Which values a bin of an axis with such bins holds. -/
theorem flow_holds (x : FixedAxis) (e : ℕ → ℚ) (n : ℕ) (u o na cl : Bool) (hk : x.keys = flowKeys e n u o na cl) (k : ℕ) (v : Val) :
    x.holds k v = true ↔ (u = true ∧ k = 0 ∧ v.toNum ≠ .nan ∧ above cl (e 0) v.toNum = false) ∨
      (∃ j, j < n ∧ k = j + b2n u ∧ v.toNum ≠ .nan ∧ above cl (e j) v.toNum = true ∧ above cl (e (j + 1)) v.toNum = false) ∨
      (o = true ∧ k = n + b2n u ∧ v.toNum ≠ .nan ∧ above cl (e n) v.toNum = true) ∨
      (na = true ∧ k = n + b2n u + b2n o ∧ v.toNum = .nan) := by
  have h0 : x.holds k v = true ↔ ∃ l, (flowKeys e n u o na cl)[k]? = some l ∧ l.mem v.toNum := by
    unfold FixedAxis.holds
    rw [hk]
    constructor
    · intro h
      split at h
      · rename_i l hl
        exact ⟨l, hl, (flow_in e n u o na cl l (List.mem_of_getElem? hl) v).1 h⟩
      · cases h
    · rintro ⟨l, hl, hm⟩
      rw [hl]
      exact (flow_in e n u o na cl l (List.mem_of_getElem? hl) v).2 hm
  rw [h0]
  simp only [flowKeys_get]
  constructor
  · rintro ⟨l, ⟨h1, h2, rfl⟩ | ⟨j, h1, h2, rfl⟩ | ⟨h1, h2, rfl⟩ | ⟨h1, h2, rfl⟩, hm⟩
    · exact Or.inl ⟨h1, h2, (mem_iv_under _ _ _).1 hm⟩
    · exact Or.inr (Or.inl ⟨j, h1, h2, (mem_iv_fin _ _ _ _).1 hm⟩)
    · exact Or.inr (Or.inr (Or.inl ⟨h1, h2, (mem_iv_over _ _ _).1 hm⟩))
    · exact Or.inr (Or.inr (Or.inr ⟨h1, h2, hm⟩))
  · rintro (⟨h1, h2, h3⟩ | ⟨j, h1, h2, h3⟩ | ⟨h1, h2, h3⟩ | ⟨h1, h2, h3⟩)
    · exact ⟨_, Or.inl ⟨h1, h2, rfl⟩, (mem_iv_under _ _ _).2 h3⟩
    · exact ⟨_, Or.inr (Or.inl ⟨j, h1, h2, rfl⟩), (mem_iv_fin _ _ _ _).2 h3⟩
    · exact ⟨_, Or.inr (Or.inr (Or.inl ⟨h1, h2, rfl⟩)), (mem_iv_over _ _ _).2 h3⟩
    · exact ⟨_, Or.inr (Or.inr (Or.inr ⟨h1, h2, rfl⟩)), h3⟩

section
variable (a b : SplitAxis) (hga : a.Good) (hgb : b.Good) (hsub : ∀ e ∈ b.edges, e ∈ a.edges)
include hga hgb hsub

/-- The ranges of old bins, in closed form. -/
theorem rebinRanges_eq (hu : b.underflow = a.underflow) :
    rebinRanges a b = (if b.underflow then [(0, pos a.edges (b.edges.headD 0) + 1)] else []) ++
      (List.range (b.edges.length - 1)).map (fun i => (pos a.edges (b.edges.getD i 0) + b2n a.underflow,
        pos a.edges (b.edges.getD (i + 1) 0) + b2n a.underflow)) ++
      (if b.overflow then [(pos a.edges (b.edges.getD (b.edges.length - 1) 0) + b2n a.underflow,
        a.edges.length - 1 + b2n a.underflow + b2n a.overflow)] else []) ++
      (if b.nanflow then [(a.edges.length - 1 + b2n a.underflow + b2n a.overflow, a.edges.length - 1 + b2n a.underflow + b2n a.overflow + 1)] else []) := by
  cases he : b.edges with
  | nil => exact absurd he hgb.1
  | cons f es =>
    have hpw := hgb.2
    rw [he] at hpw
    have hmem : ∀ e ∈ f :: es, e ∈ a.edges := fun e h => hsub e (he ▸ h)
    have h0 : advance a.edges f 0 = pos a.edges f := advance_eq a.edges f 0 hga.2 (Nat.zero_le _)
    unfold rebinRanges
    simp only [he, List.headD_cons, List.tail_cons, h0]
    rw [rebinLoop_eq a.edges hga.2 b.underflow es f (hmem f (by simp)) (fun e h => hmem e (by simp [h])) hpw]
    simp only
    have e1 : List.zipWith (fun x y => (pos a.edges x + b2n b.underflow, pos a.edges y + b2n b.underflow)) (f :: es) es =
        (List.range ((f :: es).length - 1)).map (fun i => (pos a.edges ((f :: es).getD i 0) + b2n a.underflow,
          pos a.edges ((f :: es).getD (i + 1) 0) + b2n a.underflow)) := by
      rw [hu]
      refine List.ext_getElem (by simp) fun i h1 h2 => ?_
      have hi : i < es.length := by simpa using h2
      simp only [List.getElem_zipWith, List.getElem_map, List.getElem_range]
      rw [getD_eq_of_getElem? (List.getElem?_eq_getElem (by simp; omega : i < (f :: es).length)) 0,
        getD_eq_of_getElem? (List.getElem?_eq_getElem (by simp; omega : i + 1 < (f :: es).length)) 0]
      simp
    have e2 : (f :: es).getLastD 0 = (f :: es).getD ((f :: es).length - 1) 0 := by
      simp [List.getLastD, List.getLast_eq_getElem]
    rw [e1, e2, hu]

theorem rebin_range (hu : b.underflow = a.underflow) (i : ℕ) :
    (a.underflow = true → i = 0 → (rebinRanges a b).getD i (0, 0) = (0, pos a.edges (b.edges.getD 0 0) + 1)) ∧
    (∀ j, j < b.edges.length - 1 → i = j + b2n a.underflow → (rebinRanges a b).getD i (0, 0) =
      (pos a.edges (b.edges.getD j 0) + b2n a.underflow, pos a.edges (b.edges.getD (j + 1) 0) + b2n a.underflow)) ∧
    (b.overflow = true → i = b.edges.length - 1 + b2n a.underflow → (rebinRanges a b).getD i (0, 0) =
      (pos a.edges (b.edges.getD (b.edges.length - 1) 0) + b2n a.underflow, a.edges.length - 1 + b2n a.underflow + b2n a.overflow)) ∧
    (b.nanflow = true → i = b.edges.length - 1 + b2n a.underflow + b2n b.overflow → (rebinRanges a b).getD i (0, 0) =
      (a.edges.length - 1 + b2n a.underflow + b2n a.overflow, a.edges.length - 1 + b2n a.underflow + b2n a.overflow + 1)) := by
  have hh : b.edges.headD 0 = b.edges.getD 0 0 := by cases b.edges <;> simp
  rw [rebinRanges_eq a b hga hgb hsub hu, hh, hu]
  simp only [List.getD_eq_getElem?_getD]
  refine ⟨?_, ?_, ?_, ?_⟩
  · intro h1 h2
    subst h2
    simp [h1]
  · intro j hj h2
    subst h2
    cases a.underflow <;> simp [b2n, List.getElem?_append, hj]
  · intro h1 h2
    subst h2
    cases a.underflow <;> simp [b2n, h1]
  · intro h1 h2
    subst h2
    cases a.underflow <;> cases b.overflow <;> simp [b2n, h1]

/-- The bins of the coarser axis are unions of the bins of the finer one. -/
theorem rebin_recombines (x : FixedAxis) (D : Val → Prop) (hx : ∀ v, D v → ∀ k, x.holds k v = (FixedAxis.split a).holds k v)
    (ht : x.totbins = a.totbins) (hu : b.underflow = a.underflow) (ho : b.overflow = a.overflow) (hn : b.nanflow = a.nanflow)
    (hc : b.closedlow = a.closedlow) (hinit : ∀ v : Val, (FixedAxis.split b).Sound v) :
    Recombines x (.split b) (fun i => List.range' ((rebinRanges a b).getD i (0, 0)).1
      (((rebinRanges a b).getD i (0, 0)).2 - ((rebinRanges a b).getD i (0, 0)).1)) (fun _ => true) D := by
  have hka := a.keys_eq hga.1
  have hkb := b.keys_eq hgb.1
  have hla := List.length_pos_iff.2 hga.1
  have hlb := List.length_pos_iff.2 hgb.1
  have hmem : ∀ j, j < b.edges.length → b.edges.getD j 0 ∈ b.edges := by
    intro j hj
    rw [getD_eq_of_getElem? (List.getElem?_eq_getElem hj) 0]
    exact List.getElem_mem hj
  have hpos : ∀ j, j < b.edges.length → a.edges.getD (pos a.edges (b.edges.getD j 0)) 0 = b.edges.getD j 0 := by
    intro j hj
    exact getD_eq_of_getElem? (pos_get a.edges hga.2 _ (hsub _ (hmem j hj))) 0
  have hposlt : ∀ j, j < b.edges.length → pos a.edges (b.edges.getD j 0) ≤ a.edges.length - 1 := by
    intro j hj
    have := (List.getElem?_eq_some_iff.1 (pos_get a.edges hga.2 _ (hsub _ (hmem j hj)))).1
    omega
  have hmono : ∀ j, j + 1 < b.edges.length → pos a.edges (b.edges.getD j 0) < pos a.edges (b.edges.getD (j + 1) 0) := by
    intro j hj
    refine pos_lt hga.2 (hsub _ (hmem j (by omega))) (hsub _ (hmem _ hj)) ?_
    rw [getD_eq_of_getElem? (List.getElem?_eq_getElem (by omega : j < b.edges.length)) 0,
      getD_eq_of_getElem? (List.getElem?_eq_getElem hj) 0]
    exact List.pairwise_iff_getElem.1 hgb.2 _ _ _ _ (Nat.lt_succ_self j)
  have hedge : ∀ k, k + 1 < a.edges.length → a.edges.getD k 0 ≤ a.edges.getD (k + 1) 0 := by
    intro k hk
    rw [getD_eq_of_getElem? (List.getElem?_eq_getElem (by omega : k < a.edges.length)) 0,
      getD_eq_of_getElem? (List.getElem?_eq_getElem hk) 0]
    exact (List.pairwise_iff_getElem.1 hga.2 _ _ _ _ (Nat.lt_succ_self k)).le
  have hcase : ∀ i < b.totbins, (a.underflow = true ∧ i = 0) ∨ (∃ j, j < b.edges.length - 1 ∧ i = j + b2n a.underflow) ∨
      (b.overflow = true ∧ i = b.edges.length - 1 + b2n a.underflow) ∨
      (b.nanflow = true ∧ i = b.edges.length - 1 + b2n a.underflow + b2n b.overflow) := by
    intro i hi
    unfold SplitAxis.totbins at hi
    rw [hu] at hi
    by_cases h1 : i < b2n a.underflow
    · left
      cases h : a.underflow with
      | false => rw [h] at h1; simp [b2n] at h1
      | true => rw [h] at h1; simp [b2n] at h1; exact ⟨rfl, h1⟩
    · by_cases h2 : i < b.edges.length - 1 + b2n a.underflow
      · exact Or.inr (Or.inl ⟨i - b2n a.underflow, by omega, by omega⟩)
      · cases h3 : b.overflow <;> cases h4 : b.nanflow <;> simp [h3, h4, b2n] at hi h1 h2 ⊢ <;> omega
  constructor
  · intro i
    exact List.nodup_range'
  · intro i hi k hk
    rw [ht]
    rw [List.mem_range'_1] at hk
    obtain ⟨r1, r2, r3, r4⟩ := rebin_range a b hga hgb hsub hu i
    unfold SplitAxis.totbins
    rcases hcase i hi with ⟨h1, h2⟩ | ⟨j, h1, h2⟩ | ⟨h1, h2⟩ | ⟨h1, h2⟩
    · rw [r1 h1 h2] at hk
      have := hposlt 0 hlb
      simp only at hk
      rw [h1]
      simp only [b2n, if_true]
      omega
    · rw [r2 j h1 h2] at hk
      have := hposlt (j + 1) (by omega)
      simp only at hk
      omega
    · rw [r3 h1 h2] at hk
      have := hposlt (b.edges.length - 1) (by omega)
      simp only at hk
      omega
    · rw [r4 h1 h2] at hk
      simp only at hk
      have : b2n a.nanflow = 1 := by rw [← hn, h1]; rfl
      omega
  · intro v hD _ i hi
    rw [Bool.and_true]
    simp only [hx v hD]
    set A : ℕ → Bool := fun k => decide (k < a.edges.length) && above a.closedlow (a.edges.getD k 0) v.toNum with hA
    have hAm : ∀ k, A (k + 1) = true → A k = true := by
      intro k hk
      simp only [hA, Bool.and_eq_true, decide_eq_true_eq] at hk ⊢
      refine ⟨by omega, ?_⟩
      by_contra h
      rw [Bool.not_eq_true] at h
      rw [above_mono' (hedge k hk.1) h] at hk
      simp at hk
    have hAe : ∀ k, k < a.edges.length → A k = above a.closedlow (a.edges.getD k 0) v.toNum := by
      intro k hk
      simp [hA, hk]
    have hAb : ∀ j, j < b.edges.length → above b.closedlow (b.edges.getD j 0) v.toNum = A (pos a.edges (b.edges.getD j 0)) := by
      intro j hj
      rw [hAe _ (by have := hposlt j hj; omega), hpos j hj, hc]
    have hfa : ∀ k, (FixedAxis.split a).holds k v = true ↔ (a.underflow = true ∧ k = 0 ∧ v.toNum ≠ .nan ∧ A 0 = false) ∨
        (∃ j, j < a.edges.length - 1 ∧ k = j + b2n a.underflow ∧ v.toNum ≠ .nan ∧ A j = true ∧ A (j + 1) = false) ∨
        (a.overflow = true ∧ k = a.edges.length - 1 + b2n a.underflow ∧ v.toNum ≠ .nan ∧ A (a.edges.length - 1) = true) ∨
        (a.nanflow = true ∧ k = a.edges.length - 1 + b2n a.underflow + b2n a.overflow ∧ v.toNum = .nan) := by
      intro k
      rw [flow_holds (.split a) _ _ _ _ _ _ hka k v, hAe 0 hla, hAe (a.edges.length - 1) (by omega)]
      refine or_congr Iff.rfl (or_congr ?_ Iff.rfl)
      refine exists_congr fun j => and_congr_right fun hj => ?_
      rw [hAe j (by omega), hAe (j + 1) (by omega)]
    have hfb := flow_holds (.split b) _ _ _ _ _ _ hkb i v
    rw [hAb 0 hlb, hAb (b.edges.length - 1) (by omega), hu, ho, hn] at hfb
    obtain ⟨r1, r2, r3, r4⟩ := rebin_range a b hga hgb hsub hu i
    rw [Bool.eq_iff_iff, hfb, List.any_eq_true]
    simp only [List.mem_range'_1, hfa]
    have hub : b2n a.underflow = 0 ∨ a.underflow = true ∧ b2n a.underflow = 1 := by cases a.underflow <;> simp [b2n]
    rcases hcase i hi with ⟨h1, h2⟩ | ⟨j, h1, h2⟩ | ⟨h1, h2⟩ | ⟨h1, h2⟩
    · -- underflow
      rw [r1 h1 h2]
      have hu1 : b2n a.underflow = 1 := by rw [h1]; rfl
      have hp := hposlt 0 hlb
      have hbt := between A hAm 0 (pos a.edges (b.edges.getD 0 0)) (Nat.zero_le _)
      constructor
      · rintro (⟨_, _, hv, hA0⟩ | ⟨j, _, hj, _⟩ | ⟨_, hj, _⟩ | ⟨_, hj, _⟩)
        · cases h0 : A 0 with
          | false => exact ⟨0, by simp, Or.inl ⟨h1, rfl, hv, rfl⟩⟩
          | true =>
            obtain ⟨k, _, k2, k3, k4⟩ := hbt.2 ⟨h0, hA0⟩
            exact ⟨k + 1, by simp only; omega, Or.inr (Or.inl ⟨k, by omega, by omega, hv, k3, k4⟩)⟩
        · omega
        · omega
        · omega
      · rintro ⟨k, hk, ⟨_, hk0, hv, hA0⟩ | ⟨j, hj, hkj, hv, hj1, hj2⟩ | ⟨_, hkj, _⟩ | ⟨_, hkj, _⟩⟩
        · refine Or.inl ⟨h1, h2, hv, ?_⟩
          cases h : A (pos a.edges (b.edges.getD 0 0)) with
          | false => rfl
          | true =>
            exfalso
            generalize pos a.edges (b.edges.getD 0 0) = m at h
            have : A 0 = true := by
              clear hbt
              induction m with
              | zero => exact h
              | succ m ih => exact ih (hAm m h)
            rw [hA0] at this
            cases this
        · simp only at hk
          exact Or.inl ⟨h1, h2, hv, (hbt.1 ⟨j, Nat.zero_le _, by omega, hj1, hj2⟩).2⟩
        · simp only at hk
          omega
        · simp only at hk
          omega
    · -- ordinary bin
      rw [r2 j h1 h2]
      have hp := hposlt (j + 1) (by omega)
      have hm := hmono j (by omega)
      have hbt := between A hAm (pos a.edges (b.edges.getD j 0)) (pos a.edges (b.edges.getD (j + 1) 0)) hm.le
      constructor
      · rintro (⟨hu1, hj, _⟩ | ⟨j', hj', hjj, hv, hA1, hA2⟩ | ⟨_, hj, _⟩ | ⟨_, hj, _⟩)
        · rw [hu1] at h2
          simp only [b2n, if_true] at h2
          omega
        · have : j' = j := by omega
          subst this
          rw [hAb j' (by omega)] at hA1
          rw [hAb (j' + 1) (by omega)] at hA2
          obtain ⟨k, k1, k2, k3, k4⟩ := hbt.2 ⟨hA1, hA2⟩
          exact ⟨k + b2n a.underflow, by simp only; omega, Or.inr (Or.inl ⟨k, by omega, rfl, hv, k3, k4⟩)⟩
        · omega
        · omega
      · rintro ⟨k, hk, ⟨hu1, hk0, _⟩ | ⟨j', hj', hkj, hv, hj1, hj2⟩ | ⟨_, hkj, _⟩ | ⟨_, hkj, _⟩⟩
        · rw [hu1] at hk
          simp only [b2n, if_true] at hk
          omega
        · simp only at hk
          obtain ⟨g1, g2⟩ := hbt.1 ⟨j', by omega, by omega, hj1, hj2⟩
          refine Or.inr (Or.inl ⟨j, h1, h2, hv, ?_, ?_⟩)
          · rw [hAb j (by omega)]; exact g1
          · rw [hAb (j + 1) (by omega)]; exact g2
        · simp only at hk
          omega
        · simp only at hk
          omega
    · -- overflow
      rw [r3 h1 h2]
      rw [ho] at h1
      have ho1 : b2n a.overflow = 1 := by rw [h1]; rfl
      have hp := hposlt (b.edges.length - 1) (by omega)
      have hbt := between A hAm (pos a.edges (b.edges.getD (b.edges.length - 1) 0)) (a.edges.length - 1) hp
      constructor
      · rintro (⟨hu1, hj, _⟩ | ⟨j', hj', hjj, _⟩ | ⟨_, _, hv, hA1⟩ | ⟨_, hj, _⟩)
        · rw [hu1] at h2
          simp only [b2n, if_true] at h2
          omega
        · omega
        · cases h0 : A (a.edges.length - 1) with
          | true => exact ⟨a.edges.length - 1 + b2n a.underflow, by simp only; omega, Or.inr (Or.inr (Or.inl ⟨h1, rfl, hv, rfl⟩))⟩
          | false =>
            obtain ⟨k, k1, k2, k3, k4⟩ := hbt.2 ⟨hA1, h0⟩
            exact ⟨k + b2n a.underflow, by simp only; omega, Or.inr (Or.inl ⟨k, by omega, rfl, hv, k3, k4⟩)⟩
        · omega
      · rintro ⟨k, hk, ⟨hu1, hk0, _⟩ | ⟨j', hj', hkj, hv, hj1, hj2⟩ | ⟨_, hkj, hv, hA1⟩ | ⟨_, hkj, _⟩⟩
        · rw [hu1] at hk
          simp only [b2n, if_true] at hk
          omega
        · simp only at hk
          exact Or.inr (Or.inr (Or.inl ⟨h1, h2, hv, (hbt.1 ⟨j', by omega, by omega, hj1, hj2⟩).1⟩))
        · refine Or.inr (Or.inr (Or.inl ⟨h1, h2, hv, ?_⟩))
          obtain ⟨d, hd⟩ := Nat.exists_eq_add_of_le hp
          rw [hd] at hA1
          have mono : ∀ d k, A (k + d) = true → A k = true := by
            intro d
            induction d with
            | zero => intro k h; exact h
            | succ d ih => intro k h; exact ih k (hAm _ h)
          exact mono _ _ hA1
        · simp only at hk
          omega
    · -- NaN
      rw [r4 h1 h2]
      rw [hn] at h1
      rw [ho] at h2
      constructor
      · rintro (⟨hu1, hj, _⟩ | ⟨j', hj', hjj, _⟩ | ⟨ho1, hj, _⟩ | ⟨_, _, hv⟩)
        · rw [hu1] at h2
          simp only [b2n, if_true] at h2
          omega
        · omega
        · rw [ho1] at h2
          simp only [b2n, if_true] at h2 hj
          omega
        · exact ⟨a.edges.length - 1 + b2n a.underflow + b2n a.overflow, by simp only; omega, Or.inr (Or.inr (Or.inr ⟨h1, rfl, hv⟩))⟩
      · rintro ⟨k, hk, ⟨hu1, hk0, _⟩ | ⟨j', hj', hkj, _⟩ | ⟨ho1, hkj, _⟩ | ⟨_, hkj, hv⟩⟩
        · rw [hu1] at hk
          simp only [b2n, if_true] at hk
          omega
        · simp only at hk
          omega
        · rw [ho1] at hk
          simp only [b2n, if_true] at hk hkj
          omega
        · exact Or.inr (Or.inr (Or.inr ⟨h1, h2, hv⟩))
  · intro v _ _ _
    exact hinit v

end

end Verif
