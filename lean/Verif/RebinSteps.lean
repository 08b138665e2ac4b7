import Verif.PropsRebin
import Verif.PropsShare

/-! # Lemmas about rebinning in steps (helpers for the property theorems) -/

namespace Verif

theorem sum_blocks (f : ℕ → ℚ) (B : ℕ → ℕ) (p : ℕ) : ∀ n, (∀ k, p ≤ k → k < p + n → B k ≤ B (k + 1)) → B p ≤ B (p + n) ∧
    ((List.range' p n).map fun k => ((List.range' (B k) (B (k + 1) - B k)).map f).sum).sum =
      ((List.range' (B p) (B (p + n) - B p)).map f).sum
  | 0, _ => by simp
  | n + 1, h => by
    obtain ⟨h1, ih⟩ := sum_blocks f B p n fun k h1 h2 => h k h1 (by omega)
    have h2 := h (p + n) (by omega) (by omega)
    refine ⟨h1.trans h2, ?_⟩
    rw [List.range'_concat, List.map_append, List.sum_append, ih]
    have e : B (p + (n + 1)) - B p = (B (p + n) - B p) + (B (p + n + 1) - B (p + n)) := by
      have : p + (n + 1) = p + n + 1 := by omega
      rw [this]
      omega
    rw [e, ← List.range'_append_1, List.map_append, List.sum_append]
    have e2 : B p + (B (p + n) - B p) = B (p + n) := by omega
    rw [e2]
    simp

theorem read_rebin (H : HistDef) (s : H.State) (j : ℕ) (R : List (ℕ × ℕ)) (n : ℕ) (a : FixedAxis) (gk : List Key) (idx : List ℕ) (col : ℕ) :
    (H.setFixed j a).read (s.map (mapLeaves (Arr.rebin j R n) H.groups.length) : Option (Content Arr H.groups.length)) gk idx col =
      ((List.range' (R.getD (idx.getD j 0) (0, 0)).1 ((R.getD (idx.getD j 0) (0, 0)).2 - (R.getD (idx.getD j 0) (0, 0)).1)).map
        fun i => H.read s gk (idx.set j i) col).sum := by
  cases s with
  | none =>
    show (0 : ℚ) = (List.map (fun _ => (0 : ℚ)) _).sum
    simp
  | some c =>
    refine (mapLeaves_lookup _ idx col H.groups.length c gk).trans ?_
    refine (lookupF_sum (List.range' (R.getD (idx.getD j 0) (0, 0)).1 _) (fun i (x : Arr) => x.get (idx.set j i) col) _ c gk).trans ?_
    refine congrArg List.sum (List.map_congr_left fun i _ => ?_)
    exact lookupF_get _ _ _ c gk

/-- the number of bins of the axis except the one for NaN -/
def SplitAxis.finite (a : SplitAxis) : ℕ := a.edges.length - 1 + b2n a.underflow + b2n a.overflow

/-- where bin `i` of the coarser axis begins, as a position on the finer one -/
def border (a b : SplitAxis) (i : ℕ) : ℕ :=
  if a.underflow = true ∧ i = 0 then 0
  else if i ≤ b.edges.length - 1 + b2n a.underflow then pos a.edges (b.edges.getD (i - b2n a.underflow) 0) + b2n a.underflow
  else a.finite

theorem pos_lt_length {l : List ℚ} (hs : l.Pairwise (· < ·)) {x : ℚ} (hx : x ∈ l) : pos l x < l.length :=
  (List.getElem?_eq_some_iff.1 (pos_get l hs x hx)).1

theorem border_zero (a b : SplitAxis) (h : a.underflow = true) : border a b 0 = 0 := by
  unfold border
  rw [if_pos ⟨h, rfl⟩]

theorem border_edge (a b : SplitAxis) (k : ℕ) (hk : k < b.edges.length) :
    border a b (k + b2n a.underflow) = pos a.edges (b.edges.getD k 0) + b2n a.underflow := by
  unfold border
  rw [if_neg (by cases a.underflow <;> simp [b2n]), if_pos (by omega), Nat.add_sub_cancel]

theorem border_end (a b : SplitAxis) (k : ℕ) (hl : 0 < b.edges.length) (hk : b.edges.length ≤ k) : border a b (k + b2n a.underflow) = a.finite := by
  unfold border
  rw [if_neg (by cases a.underflow <;> simp [b2n]), if_neg (by omega)]

theorem border_cases (u : Bool) (i : ℕ) : (u = true ∧ i = 0) ∨ ∃ k, i = k + b2n u := by
  cases u
  · exact Or.inr ⟨i, rfl⟩
  · cases i with
    | zero => exact Or.inl ⟨rfl, rfl⟩
    | succ k => exact Or.inr ⟨k, rfl⟩

section
variable (a b : SplitAxis) (hga : a.Good) (hgb : b.Good) (hsub : ∀ e ∈ b.edges, e ∈ a.edges) (hu : b.underflow = a.underflow)
  (ho : b.overflow = a.overflow) (hn : b.nanflow = a.nanflow)
include hga hgb hsub hu ho hn

theorem ranges_length : (rebinRanges a b).length = b.totbins := by
  rw [rebinRanges_eq a b hga hgb hsub hu]
  unfold SplitAxis.totbins
  cases b.underflow <;> cases b.overflow <;> cases b.nanflow <;> simp [b2n] <;> omega

theorem range_border (i : ℕ) (hi : i < b.finite) : (rebinRanges a b).getD i (0, 0) = (border a b i, border a b (i + 1)) := by
  obtain ⟨h1, h2, h3, _⟩ := rebin_range a b hga hgb hsub hu i
  have hlen : 0 < b.edges.length := List.length_pos_iff.2 hgb.1
  unfold SplitAxis.finite at hi
  rw [hu, ho] at hi
  rw [ho] at h3
  rcases border_cases a.underflow i with ⟨h, rfl⟩ | ⟨k, rfl⟩
  · have e := border_edge a b 0 hlen
    rw [h] at e
    rw [h1 h rfl, border_zero a b h]
    exact congrArg (Prod.mk 0) e.symm
  · have hk : k < b.edges.length := by
      have : b2n a.overflow ≤ 1 := by cases a.overflow <;> simp [b2n]
      omega
    have e1 : k + b2n a.underflow + 1 = (k + 1) + b2n a.underflow := by omega
    rw [e1, border_edge a b k hk]
    by_cases hl : k < b.edges.length - 1
    · rw [h2 k hl rfl, border_edge a b (k + 1) (by omega)]
    · have hk' : k = b.edges.length - 1 := by omega
      rw [border_end a b (k + 1) hlen (by omega)]
      have hov : a.overflow = true := by
        cases h : a.overflow
        · rw [h] at hi
          simp only [b2n, Bool.false_eq_true, if_false] at hi
          omega
        · rfl
      rw [h3 hov (by rw [hk']), hk']
      rfl

theorem range_nan (h : b.nanflow = true) : (rebinRanges a b).getD b.finite (0, 0) = (a.finite, a.finite + 1) := by
  obtain ⟨_, _, _, h4⟩ := rebin_range a b hga hgb hsub hu b.finite
  exact h4 h (by unfold SplitAxis.finite; rw [hu])

theorem edge_mem (i : ℕ) (hi : i < b.edges.length) : b.edges.getD i 0 ∈ b.edges := by
  rw [List.getD, List.getElem?_eq_getElem hi]
  exact List.getElem_mem hi

theorem border_le (i : ℕ) (hi : i < b.finite) : border a b i ≤ border a b (i + 1) := by
  have hlen : 0 < b.edges.length := List.length_pos_iff.2 hgb.1
  have hpl : ∀ k, k < b.edges.length → pos a.edges (b.edges.getD k 0) < a.edges.length := fun k hk =>
    pos_lt_length hga.2 (hsub _ (edge_mem a b hga hgb hsub hu ho hn k hk))
  have hmono : ∀ k, k + 1 < b.edges.length → pos a.edges (b.edges.getD k 0) < pos a.edges (b.edges.getD (k + 1) 0) := by
    intro k hk
    refine pos_lt hga.2 (hsub _ (edge_mem a b hga hgb hsub hu ho hn k (by omega))) (hsub _ (edge_mem a b hga hgb hsub hu ho hn _ hk)) ?_
    rw [List.getD, List.getD, List.getElem?_eq_getElem (by omega : k < b.edges.length), List.getElem?_eq_getElem hk]
    exact List.pairwise_iff_getElem.1 hgb.2 k (k + 1) (by omega) hk (by omega)
  unfold SplitAxis.finite at hi
  rw [hu, ho] at hi
  rcases border_cases a.underflow i with ⟨h, rfl⟩ | ⟨k, rfl⟩
  · rw [border_zero a b h]
    exact Nat.zero_le _
  · have hk : k < b.edges.length := by
      have : b2n a.overflow ≤ 1 := by cases a.overflow <;> simp [b2n]
      omega
    have e1 : k + b2n a.underflow + 1 = (k + 1) + b2n a.underflow := by omega
    rw [e1, border_edge a b k hk]
    by_cases hl : k + 1 < b.edges.length
    · rw [border_edge a b (k + 1) hl]
      exact Nat.add_le_add_right (hmono k hl).le _
    · rw [border_end a b (k + 1) hlen (by omega)]
      have := hpl k hk
      unfold SplitAxis.finite
      omega

end

/-- The border of the coarsest axis on the middle one, on the finest one. -/
theorem border_border (a b c : SplitAxis) (hgb : b.Good) (hgc : c.Good) (hbc : ∀ e ∈ c.edges, e ∈ b.edges)
    (hub : b.underflow = a.underflow) (hob : b.overflow = a.overflow) (i : ℕ) (hi : i ≤ c.finite) (huc : c.underflow = b.underflow)
    (hoc : c.overflow = b.overflow) : border a b (border b c i) = border a c i := by
  have hlen : 0 < c.edges.length := List.length_pos_iff.2 hgc.1
  have hlenb : 0 < b.edges.length := List.length_pos_iff.2 hgb.1
  unfold SplitAxis.finite at hi
  rw [huc, hub, hoc, hob] at hi
  have key : ∀ k, k < c.edges.length → pos b.edges (c.edges.getD k 0) < b.edges.length ∧
      b.edges.getD (pos b.edges (c.edges.getD k 0)) 0 = c.edges.getD k 0 := by
    intro k hk
    have hm : c.edges.getD k 0 ∈ b.edges := by
      refine hbc _ ?_
      rw [List.getD, List.getElem?_eq_getElem hk]
      exact List.getElem_mem hk
    refine ⟨pos_lt_length hgb.2 hm, ?_⟩
    rw [List.getD, pos_get _ hgb.2 _ hm]
    rfl
  rcases border_cases a.underflow i with ⟨h, rfl⟩ | ⟨k, rfl⟩
  · rw [border_zero b c (hub.trans h), border_zero a b h, border_zero a c h]
  · have e1 := fun h => border_edge b c k h
    have e2 := fun h => border_end b c k hlen h
    rw [hub] at e1 e2
    by_cases hl : k < c.edges.length
    · obtain ⟨k1, k2⟩ := key k hl
      rw [e1 hl, border_edge a b _ k1, k2, border_edge a c k hl]
    · rw [e2 (by omega), border_end a c k hlen (by omega)]
      have hov : a.overflow = true := by
        cases h : a.overflow
        · rw [h] at hi
          simp only [b2n, Bool.false_eq_true, if_false] at hi
          omega
        · rfl
      have e3 : b.finite = b.edges.length + b2n a.underflow := by
        unfold SplitAxis.finite
        rw [hub, hob, hov]
        simp only [b2n, if_true]
        omega
      rw [e3, border_end a b _ hlenb le_rfl]

/-- Sums of sums: what two steps of rebinning add up for a bin is what one step adds up. -/
theorem ranges_steps (a b c : SplitAxis) (hga : a.Good) (hgb : b.Good) (hgc : c.Good) (hab : ∀ e ∈ b.edges, e ∈ a.edges)
    (hbc : ∀ e ∈ c.edges, e ∈ b.edges) (hub : b.underflow = a.underflow) (hob : b.overflow = a.overflow) (hnb : b.nanflow = a.nanflow)
    (huc : c.underflow = b.underflow) (hoc : c.overflow = b.overflow) (hnc : c.nanflow = b.nanflow) (f : ℕ → ℚ) (i : ℕ) :
    let S := fun (R : List (ℕ × ℕ)) (g : ℕ → ℚ) (k : ℕ) => ((List.range' (R.getD k (0, 0)).1 ((R.getD k (0, 0)).2 - (R.getD k (0, 0)).1)).map g).sum
    S (rebinRanges b c) (S (rebinRanges a b) f) i = S (rebinRanges a c) f i := by
  intro S
  have hac : ∀ e ∈ c.edges, e ∈ a.edges := fun e he => hab e (hbc e he)
  by_cases hi : i < c.finite
  · have r1 := range_border b c hgb hgc hbc huc hoc hnc i hi
    have r2 := range_border a c hga hgc hac (huc.trans hub) (hoc.trans hob) (hnc.trans hnb) i hi
    simp only [S]
    rw [r1, r2]
    simp only
    have le1 := border_le b c hgb hgc hbc huc hoc hnc i hi
    have top : ∀ k, k ≤ c.finite → border b c k ≤ b.finite := by
      intro k hk
      unfold border
      have hpos : ∀ k, k < c.edges.length → pos b.edges (c.edges.getD k 0) < b.edges.length := by
        intro k hk
        refine pos_lt_length hgb.2 (hbc _ ?_)
        rw [List.getD, List.getElem?_eq_getElem hk]
        exact List.getElem_mem hk
      have hlen : 0 < c.edges.length := List.length_pos_iff.2 hgc.1
      split
      · omega
      · split
        · have := hpos (k - b2n b.underflow) (by omega)
          unfold SplitAxis.finite
          omega
        · exact le_rfl
    have hb := top (i + 1) (by omega)
    obtain ⟨n, hn⟩ : ∃ n, border b c (i + 1) = border b c i + n := ⟨_, (Nat.add_sub_cancel' le1).symm⟩
    obtain ⟨_, e⟩ := sum_blocks f (border a b) (border b c i) n fun k h1 h2 => border_le a b hga hgb hab hub hob hnb k (by omega)
    rw [← hn, border_border a b c hgb hgc hbc hub hob i (by omega) huc hoc, border_border a b c hgb hgc hbc hub hob (i + 1) (by omega) huc hoc] at e
    rw [← e, hn, Nat.add_sub_cancel_left]
    refine congrArg List.sum (List.map_congr_left fun k hk => ?_)
    have hk' := List.mem_range'_1.1 hk
    rw [range_border a b hga hgb hab hub hob hnb k (by omega)]
  · by_cases hnan : c.nanflow = true ∧ i = c.finite
    · obtain ⟨h1, rfl⟩ := hnan
      simp only [S]
      rw [range_nan b c hgb hgc hbc huc hoc hnc h1, range_nan a c hga hgc hac (huc.trans hub) (hoc.trans hob) (hnc.trans hnb) h1]
      simp only [Nat.add_sub_cancel_left, List.range'_one, List.map_cons, List.map_nil, List.sum_cons, List.sum_nil, add_zero]
      rw [range_nan a b hga hgb hab hub hob hnb (hnc ▸ h1)]
      simp
    · have out : c.totbins ≤ i := by
        unfold SplitAxis.totbins
        unfold SplitAxis.finite at hi hnan
        cases hc : c.nanflow
        · simp only [b2n, Bool.false_eq_true, if_false] at hi ⊢
          omega
        · simp only [hc, true_and] at hnan
          simp only [b2n, if_true] at hi hnan ⊢
          omega
      have z : ∀ (R : List (ℕ × ℕ)), R.length ≤ i → R.getD i (0, 0) = (0, 0) := by
        intro R hR
        rw [List.getD, List.getElem?_eq_none hR]
        rfl
      simp only [S]
      rw [z _ (by rw [ranges_length b c hgb hgc hbc huc hoc hnc]; exact out),
        z _ (by rw [ranges_length a c hga hgc hac (huc.trans hub) (hoc.trans hob) (hnc.trans hnb)]; exact out)]
      simp

end Verif
