import Verif.RebinSteps

/-!
# Property C132: rebinning in steps
-/

namespace Verif

/-! ## helpers -/

theorem asSplit_good (x : FixedAxis) (hx : ∀ a, x = .split a → a.Good) (a : SplitAxis) (h : x.asSplit = .ok a) : a.Good ∧ a.totbins = x.totbins := by
  cases x with
  | cut => cases h
  | split a' =>
    cases h
    exact ⟨hx _ rfl, rfl⟩
  | bin b =>
    have h' : SplitAxis.init ((List.range b.numbins).map (fun i => b.i2x i) ++ [b.high]) b.underflow b.overflow b.nanflow b.closedlow = .ok a := h
    obtain ⟨h1, h2, h3, h4, h5, _, _⟩ := SplitAxis.init_ok h'
    refine ⟨h1, ?_⟩
    have := h2.length_eq
    simp only [List.length_append, List.length_map, List.length_range, List.length_singleton] at this
    simp only [FixedAxis.totbins, SplitAxis.totbins, BinAxis.totbins, h3, h4, h5, this]
    omega
  | intbin n =>
    have h' : (match n.bin with | .error e => Except.error e | .ok b => b.split) = .ok a := h
    cases hb : n.bin with
    | error e => rw [hb] at h'; cases h'
    | ok b =>
      rw [hb] at h'
      have h'' : SplitAxis.init ((List.range b.numbins).map (fun i => b.i2x i) ++ [b.high]) b.underflow b.overflow b.nanflow b.closedlow = .ok a := h'
      obtain ⟨h1, h2, h3, h4, h5, _, _⟩ := SplitAxis.init_ok h''
      refine ⟨h1, ?_⟩
      have := h2.length_eq
      simp only [List.length_append, List.length_map, List.length_range, List.length_singleton] at this
      unfold IntbinAxis.bin at hb
      obtain ⟨rfl, _, hlh, _⟩ := BinAxis.init_ok hb
      simp only [FixedAxis.totbins, SplitAxis.totbins, IntbinAxis.totbins, IntbinAxis.numbins, h3, h4, h5, this, b2i_cast]
      have hle : n.min ≤ n.max + 1 := by
        have : (n.min : ℚ) ≤ n.max + 1 := by linarith
        exact_mod_cast this
      simp only [b2n, Bool.false_eq_true, if_false]
      omega

theorem rebin_eq {H : HistDef} {j : ℕ} {x : FixedAxis} (hj : H.fixed[j]? = some x) {a : SplitAxis} (ha : x.asSplit = .ok a) (edges : List ℚ) (s : H.State) :
    H.rebin j edges s = (a.rebinned edges).map fun b =>
      (⟨H.setFixed j (.split b), (s.map (mapLeaves (Arr.rebin j (rebinRanges a b) b.totbins) H.groups.length) : Option (Content Arr H.groups.length))⟩ :
        Σ H' : HistDef, H'.State) := by
  unfold HistDef.rebin
  rw [hj]
  simp only [HistDef.rebinAny, ha]
  cases a.rebinned edges <;> rfl

theorem has_rebin (H : HistDef) (s : H.State) (f : Arr → Arr) (gk : List Key) (H' : HistDef) (hg : H'.groups = H.groups) (s' : H'.State)
    (hs : HEq s' (s.map (mapLeaves f H.groups.length) : Option (Content Arr H.groups.length))) : H'.has s' gk ↔ H.has s gk := by
  obtain ⟨groups, fixed, nprof, wkind⟩ := H
  obtain ⟨groups', fixed', nprof', wkind'⟩ := H'
  simp only at hg
  subst hg
  cases eq_of_heq hs
  cases s with
  | none => exact Iff.rfl
  | some c => exact mapLeaves_has _ _ c gk

theorem read_rebin' (H : HistDef) (s : H.State) (j : ℕ) (R : List (ℕ × ℕ)) (n : ℕ) (gk : List Key) (idx : List ℕ) (col : ℕ) (H' : HistDef)
    (hg : H'.groups = H.groups) (s' : H'.State)
    (hs : HEq s' (s.map (mapLeaves (Arr.rebin j R n) H.groups.length) : Option (Content Arr H.groups.length))) :
    H'.read s' gk idx col =
      ((List.range' (R.getD (idx.getD j 0) (0, 0)).1 ((R.getD (idx.getD j 0) (0, 0)).2 - (R.getD (idx.getD j 0) (0, 0)).1)).map
        fun i => H.read s gk (idx.set j i) col).sum := by
  have e := read_rebin H s j R n (.cut) gk idx col
  obtain ⟨groups, fixed, nprof, wkind⟩ := H
  obtain ⟨groups', fixed', nprof', wkind'⟩ := H'
  simp only at hg
  subst hg
  cases eq_of_heq hs
  exact Eq.trans (by cases s <;> rfl) e

theorem getD_set_pos (idx : List ℕ) (j k : ℕ) (h : j < idx.length) : (idx.set j k).getD j 0 = k := by
  simp [List.getD, h]

theorem sorted_eq : ∀ {l l' : List ℚ}, l.Pairwise (· < ·) → l'.Pairwise (· < ·) → (∀ e, e ∈ l ↔ e ∈ l') → l = l' := by
  intro l l' h h' hm
  refine List.Perm.eq_of_pairwise (fun a b _ _ h1 h2 => (lt_asymm h1 h2).elim) h h' ?_
  exact (List.perm_ext_iff_of_nodup (h.imp ne_of_lt) (h'.imp ne_of_lt)).2 hm

theorem pos_at {l : List ℚ} (hs : l.Pairwise (· < ·)) (k : ℕ) (hk : k < l.length) : pos l (l.getD k 0) = k := by
  have hm : l.getD k 0 ∈ l := by
    rw [List.getD, List.getElem?_eq_getElem hk]
    exact List.getElem_mem hk
  have h1 := pos_lt_length hs hm
  have h2 := (List.getElem?_eq_some_iff.1 (pos_get l hs _ hm)).2
  have h3 : l.getD k 0 = l[k] := by
    rw [List.getD, List.getElem?_eq_getElem hk]
    rfl
  have hn : l.Nodup := hs.imp ne_of_lt
  exact (hn.getElem_inj_iff (hi := h1) (hj := hk)).1 (h2.trans h3)

/-- on equal edges, every bin begins where it began -/
theorem border_same (a b : SplitAxis) (hga : a.Good) (he : b.edges = a.edges) (i : ℕ) (hi : i ≤ a.finite) : border a b i = i := by
  have hlen : 0 < a.edges.length := List.length_pos_iff.2 hga.1
  rcases border_cases a.underflow i with ⟨h, rfl⟩ | ⟨k, rfl⟩
  · exact border_zero a b h
  · by_cases hk : k < a.edges.length
    · rw [border_edge a b k (he ▸ hk), he, pos_at hga.2 k hk]
    · rw [border_end a b k (he ▸ hlen) (by rw [he]; omega)]
      unfold SplitAxis.finite at hi ⊢
      have : b2n a.overflow ≤ 1 := by cases a.overflow <;> simp [b2n]
      omega

theorem totbins_finite (a : SplitAxis) : a.totbins = a.finite + b2n a.nanflow := by
  unfold SplitAxis.totbins SplitAxis.finite
  omega

theorem set_getD_self (idx : List ℕ) (j : ℕ) : idx.set j (idx.getD j 0) = idx := by
  by_cases h : j < idx.length
  · rw [List.getD, List.getElem?_eq_getElem h]
    exact List.set_getElem_self h
  · exact List.set_eq_of_length_le (by omega)

theorem sum_range_split (f : ℕ → ℚ) (m n : ℕ) : ((List.range (m + n)).map f).sum = ((List.range m).map f).sum + ((List.range n).map fun k => f (m + k)).sum := by
  rw [List.range_add, List.map_append, List.sum_append, List.map_map]
  rfl

theorem least_first {l : List ℚ} (hs : l.Pairwise (· < ·)) (h : 0 < l.length) {x : ℚ} (hx : x ∈ l) : l[0] ≤ x := by
  obtain ⟨k, hk, rfl⟩ := List.getElem_of_mem hx
  rcases Nat.eq_zero_or_pos k with rfl | hp
  · exact le_rfl
  · exact (List.pairwise_iff_getElem.1 hs 0 k h hk hp).le

theorem greatest_last {l : List ℚ} (hs : l.Pairwise (· < ·)) (h : l.length - 1 < l.length) {x : ℚ} (hx : x ∈ l) : x ≤ l[l.length - 1] := by
  obtain ⟨k, hk, rfl⟩ := List.getElem_of_mem hx
  by_cases he : k = l.length - 1
  · exact le_of_eq (by congr 1)
  · exact (List.pairwise_iff_getElem.1 hs k (l.length - 1) hk h (by omega)).le

theorem border_first (a b : SplitAxis) (hga : a.Good) (hgb : b.Good) (hsub : ∀ e ∈ b.edges, e ∈ a.edges)
    (h : a.underflow = true ∨ ∀ e ∈ a.edges, ∃ e' ∈ b.edges, e' ≤ e) : border a b 0 = 0 := by
  cases hu : a.underflow with
  | true => exact border_zero a b hu
  | false =>
    have h' := h.resolve_left (by simp [hu])
    have hlen : 0 < b.edges.length := List.length_pos_iff.2 hgb.1
    have hlena : 0 < a.edges.length := List.length_pos_iff.2 hga.1
    have e0 := border_edge a b 0 hlen
    rw [hu] at e0
    refine e0.trans ?_
    have same : b.edges.getD 0 0 = a.edges.getD 0 0 := by
      rw [List.getD, List.getD, List.getElem?_eq_getElem hlen, List.getElem?_eq_getElem hlena]
      obtain ⟨e', m, le⟩ := h' _ (List.getElem_mem hlena)
      refine le_antisymm (le_trans ?_ le) ?_
      · exact least_first hgb.2 hlen m
      · exact least_first hga.2 hlena (hsub _ (List.getElem_mem hlen))
    rw [same, pos_at hga.2 0 hlena]
    rfl

theorem border_last (a b : SplitAxis) (hga : a.Good) (hgb : b.Good) (hsub : ∀ e ∈ b.edges, e ∈ a.edges) (hub : b.underflow = a.underflow)
    (hob : b.overflow = a.overflow) (h : a.overflow = true ∨ ∀ e ∈ a.edges, ∃ e' ∈ b.edges, e ≤ e') : border a b b.finite = a.finite := by
  have hlen : 0 < b.edges.length := List.length_pos_iff.2 hgb.1
  have hlena : 0 < a.edges.length := List.length_pos_iff.2 hga.1
  cases ho : a.overflow with
  | true =>
    have : b.finite = b.edges.length + b2n a.underflow := by
      unfold SplitAxis.finite
      rw [hub, hob, ho]
      simp only [b2n, if_true]
      omega
    rw [this, border_end a b _ hlen le_rfl]
  | false =>
    have h' := h.resolve_left (by simp [ho])
    have : b.finite = b.edges.length - 1 + b2n a.underflow := by
      unfold SplitAxis.finite
      rw [hub, hob, ho]
      rfl
    rw [this, border_edge a b _ (by omega)]
    have same : b.edges.getD (b.edges.length - 1) 0 = a.edges.getD (a.edges.length - 1) 0 := by
      have h1 : b.edges.length - 1 < b.edges.length := by omega
      have h2 : a.edges.length - 1 < a.edges.length := by omega
      rw [List.getD, List.getD, List.getElem?_eq_getElem h1, List.getElem?_eq_getElem h2]
      obtain ⟨e', m, le⟩ := h' _ (List.getElem_mem h2)
      refine le_antisymm ?_ (le_trans le ?_)
      · exact greatest_last hga.2 h2 (hsub _ (List.getElem_mem h1))
      · exact greatest_last hgb.2 h1 m
    rw [same, pos_at hga.2 _ (by omega)]
    unfold SplitAxis.finite
    rw [ho]
    rfl

/-! ## C132 -/

/-- C132: rebinning twice is rebinning to the last edges.  If the first rebinning is accepted, then the second one is accepted exactly if the direct one is,
with the same exception otherwise, and the results have the same axes, the same groups, and the same entries. -/
theorem C132_steps (H : HistDef) (s : H.State) (j : ℕ) (x : FixedAxis) (hj : H.fixed[j]? = some x) (hx : ∀ a, x = .split a → a.Good)
    (first second : List ℚ) (hsub : ∀ e ∈ second, e ∈ first) (H1 : HistDef) (s1 : H1.State) (h1 : H.rebin j first s = .ok ⟨H1, s1⟩) :
    (∀ e, H1.rebin j second s1 = .error e → H.rebin j second s = .error e) ∧
    ∀ (H2 : HistDef) (s2 : H2.State), H1.rebin j second s1 = .ok ⟨H2, s2⟩ →
      ∃ s3 : H2.State, H.rebin j second s = .ok ⟨H2, s3⟩ ∧ (∀ gk, H2.has s2 gk ↔ H2.has s3 gk) ∧
        ∀ gk idx col, j < idx.length → H2.read s2 gk idx col = H2.read s3 gk idx col := by
  have jl : j < H.fixed.length := (List.getElem?_eq_some_iff.1 hj).1
  obtain ⟨a, b, st', ha, hab, rfl, hr⟩ := rebin_ok hj h1
  cases hr
  obtain ⟨hga, _⟩ := asSplit_good x hx a ha
  obtain ⟨hsubab, hinit⟩ := rebinned_ok hab
  obtain ⟨hgb, hperm, hub, hob, hnb, hcb, _⟩ := SplitAxis.init_ok hinit
  have hsubab' : ∀ e ∈ b.edges, e ∈ a.edges := fun e he => hsubab e (hperm.mem_iff.1 he)
  have hj1 : (H.setFixed j (.split b)).fixed[j]? = some (.split b) := by
    show (H.fixed.set j _)[j]? = _
    simp [jl]
  have hbs : b.rebinned second = a.rebinned second := by
    unfold SplitAxis.rebinned
    rw [if_pos, if_pos, hub, hob, hnb, hcb]
    · rw [List.all_eq_true]
      exact fun e he => by simpa using hsubab e (hsub e he)
    · rw [List.all_eq_true]
      exact fun e he => by simpa using hperm.mem_iff.2 (hsub e he)
  have r2 := rebin_eq hj1 (rfl : FixedAxis.asSplit (.split b) = .ok b) second
    (s.map (mapLeaves (Arr.rebin j (rebinRanges a b) b.totbins) H.groups.length) : Option (Content Arr H.groups.length))
  have r3 := rebin_eq hj ha second s
  rw [hbs] at r2
  cases hc : a.rebinned second with
  | error e =>
    rw [hc] at r2 r3
    exact ⟨fun e' h => r3.trans (r2.symm.trans h), fun H2 s2 h => by cases r2.symm.trans h⟩
  | ok c =>
    rw [hc] at r2 r3
    refine ⟨fun e' h => by (cases r2.symm.trans h), fun H2 s2 h => ?_⟩
    have h' := Except.ok.inj (r2.symm.trans h)
    cases h'
    obtain ⟨_, hinitc⟩ := rebinned_ok hc
    obtain ⟨hgc, hpermc, huc, hoc, hnc, _, _⟩ := SplitAxis.init_ok hinitc
    have hsubbc : ∀ e ∈ c.edges, e ∈ b.edges := fun e he => hperm.mem_iff.2 (hsub e (hpermc.mem_iff.1 he))
    refine ⟨(s.map (mapLeaves (Arr.rebin j (rebinRanges a c) c.totbins) H.groups.length) : Option (Content Arr H.groups.length)), ?_, ?_, ?_⟩
    · refine r3.trans (congrArg Except.ok ?_)
      exact sigma_fixed H _ _ _ _ (by show H.fixed.set j _ = (H.fixed.set j _).set j _; rw [List.set_set]) rfl
    · intro gk
      have k1 := has_rebin (H.setFixed j (.split b)) (s.map (mapLeaves (Arr.rebin j (rebinRanges a b) b.totbins) H.groups.length) : Option (Content Arr H.groups.length))
        (Arr.rebin j (rebinRanges b c) c.totbins) gk ((H.setFixed j (.split b)).setFixed j (.split c)) rfl _ HEq.rfl
      have k2 := has_rebin H s (Arr.rebin j (rebinRanges a b) b.totbins) gk (H.setFixed j (.split b)) rfl _ HEq.rfl
      have k3 := has_rebin H s (Arr.rebin j (rebinRanges a c) c.totbins) gk ((H.setFixed j (.split b)).setFixed j (.split c)) rfl _ HEq.rfl
      exact (k1.trans k2).trans k3.symm
    · intro gk idx col hi
      have e1 := read_rebin (H.setFixed j (.split b)) (s.map (mapLeaves (Arr.rebin j (rebinRanges a b) b.totbins) H.groups.length) : Option (Content Arr H.groups.length))
        j (rebinRanges b c) c.totbins (.split c) gk idx col
      have e2 := fun i => read_rebin H s j (rebinRanges a b) b.totbins (.split b) gk (idx.set j i) col
      have e3 := read_rebin' H s j (rebinRanges a c) c.totbins gk idx col ((H.setFixed j (.split b)).setFixed j (.split c)) rfl _ HEq.rfl
      simp only [getD_set_pos idx j _ hi, List.set_set] at e2
      refine e1.trans ?_
      refine Eq.trans ?_ e3.symm
      simp only [e2]
      exact ranges_steps a b c hga hgb hgc hsubab' hsubbc hub hob hnb (huc.trans hub.symm) (hoc.trans hob.symm) (hnc.trans hnb.symm)
        (fun i => H.read s gk (idx.set j i) col) (idx.getD j 0)

/-- C132: rebinning to all the edges the axis has, in any order, gives an axis with the same edges and changes no entry (if it is accepted). -/
theorem C132_same (H : HistDef) (s : H.State) (j : ℕ) (x : FixedAxis) (hj : H.fixed[j]? = some x) (hx : ∀ a, x = .split a → a.Good) (a : SplitAxis)
    (ha : x.asSplit = .ok a) (edges : List ℚ) (hall : ∀ e ∈ a.edges, e ∈ edges) (H1 : HistDef) (s1 : H1.State) (h1 : H.rebin j edges s = .ok ⟨H1, s1⟩) :
    (∃ b, H1.fixed = H.fixed.set j (.split b) ∧ b.edges = a.edges ∧ b.totbins = x.totbins) ∧ H1.groups = H.groups ∧
      (∀ gk, H1.has s1 gk ↔ H.has s gk) ∧
      ∀ gk idx col, idx.getD j 0 < x.totbins → H1.read s1 gk idx col = H.read s gk idx col := by
  obtain ⟨a', b, st', ha', hab, rfl, hr⟩ := rebin_ok hj h1
  cases ha.symm.trans ha'
  cases hr
  obtain ⟨hga, htot⟩ := asSplit_good x hx a ha
  obtain ⟨hsubab, hinit⟩ := rebinned_ok hab
  obtain ⟨hgb, hperm, hub, hob, hnb, hcb, _⟩ := SplitAxis.init_ok hinit
  have hsub : ∀ e ∈ b.edges, e ∈ a.edges := fun e he => hsubab e (hperm.mem_iff.1 he)
  have hedges : b.edges = a.edges := sorted_eq hgb.2 hga.2 fun e => ⟨hsub e, fun he => hperm.mem_iff.2 (hall e he)⟩
  have hfin : b.finite = a.finite := by
    unfold SplitAxis.finite
    rw [hedges, hub, hob]
  refine ⟨⟨b, rfl, hedges, ?_⟩, rfl, fun gk => has_rebin H s _ gk (H.setFixed j (.split b)) rfl _ HEq.rfl, fun gk idx col hi => ?_⟩
  · rw [← htot, totbins_finite, totbins_finite, hfin, hnb]
  · refine (read_rebin' H s j (rebinRanges a b) b.totbins gk idx col (H.setFixed j (.split b)) rfl _ HEq.rfl).trans ?_
    have one : (rebinRanges a b).getD (idx.getD j 0) (0, 0) = (idx.getD j 0, idx.getD j 0 + 1) := by
      rw [← htot, totbins_finite] at hi
      by_cases hf : idx.getD j 0 < a.finite
      · rw [range_border a b hga hgb hsub hub hob hnb _ (hfin ▸ hf), border_same a b hga hedges _ hf.le, border_same a b hga hedges _ hf]
      · have hn : a.nanflow = true := by
          cases h : a.nanflow
          · rw [h] at hi
            simp only [b2n, Bool.false_eq_true, if_false] at hi
            omega
          · rfl
        have hi' : idx.getD j 0 = a.finite := by
          rw [hn] at hi
          simp only [b2n, if_true] at hi
          omega
        have := range_nan a b hga hgb hsub hub hob hnb (hnb.trans hn)
        rw [hfin] at this
        rw [hi', this]
    rw [one]
    simp only [Nat.add_sub_cancel_left, List.range'_one, List.map_cons, List.map_nil, List.sum_cons, List.sum_nil, add_zero]
    rw [set_getD_self]

/-- C132: no entry is lost or counted twice by rebinning: along the axis the entries have the same sum before and after, if what lies below the new first
edge has somewhere to go (there is an underflow bin, or the first edge is kept), and likewise what lies above the new last edge. -/
theorem C132_total (H : HistDef) (s : H.State) (j : ℕ) (x : FixedAxis) (hj : H.fixed[j]? = some x) (hx : ∀ a, x = .split a → a.Good) (a : SplitAxis)
    (ha : x.asSplit = .ok a) (edges : List ℚ) (hlow : a.underflow = true ∨ ∀ e ∈ a.edges, ∃ e' ∈ edges, e' ≤ e)
    (hhigh : a.overflow = true ∨ ∀ e ∈ a.edges, ∃ e' ∈ edges, e ≤ e') (H1 : HistDef) (s1 : H1.State) (h1 : H.rebin j edges s = .ok ⟨H1, s1⟩) :
    ∃ b, H1.fixed = H.fixed.set j (.split b) ∧ ∀ gk (idx : List ℕ) col, j < idx.length →
      ((List.range b.totbins).map fun i => H1.read s1 gk (idx.set j i) col).sum =
        ((List.range x.totbins).map fun i => H.read s gk (idx.set j i) col).sum := by
  obtain ⟨a', b, st', ha', hab, rfl, hr⟩ := rebin_ok hj h1
  cases ha.symm.trans ha'
  cases hr
  obtain ⟨hga, htot⟩ := asSplit_good x hx a ha
  obtain ⟨hsubab, hinit⟩ := rebinned_ok hab
  obtain ⟨hgb, hperm, hub, hob, hnb, hcb, _⟩ := SplitAxis.init_ok hinit
  have hsub : ∀ e ∈ b.edges, e ∈ a.edges := fun e he => hsubab e (hperm.mem_iff.1 he)
  have first : border a b 0 = 0 := border_first a b hga hgb hsub (hlow.imp id fun h e he => by
    obtain ⟨e', h1, h2⟩ := h e he
    exact ⟨e', hperm.mem_iff.2 h1, h2⟩)
  have last : border a b b.finite = a.finite := border_last a b hga hgb hsub hub hob (hhigh.imp id fun h e he => by
    obtain ⟨e', h1, h2⟩ := h e he
    exact ⟨e', hperm.mem_iff.2 h1, h2⟩)
  refine ⟨b, rfl, fun gk idx col hi => ?_⟩
  have e2 := fun i => read_rebin' H s j (rebinRanges a b) b.totbins gk (idx.set j i) col (H.setFixed j (.split b)) rfl _ HEq.rfl
  simp only [getD_set_pos idx j _ hi, List.set_set] at e2
  refine (congrArg List.sum (List.map_congr_left fun i _ => e2 i)).trans ?_
  obtain ⟨_, e⟩ := sum_blocks (fun i => H.read s gk (idx.set j i) col) (border a b) 0 b.finite fun k _ h2 =>
    border_le a b hga hgb hsub hub hob hnb k (by omega)
  rw [Nat.zero_add, first, last, Nat.sub_zero, ← List.range_eq_range', ← List.range_eq_range'] at e
  rw [← htot, totbins_finite, totbins_finite, sum_range_split, sum_range_split, ← e]
  congr 1
  · refine congrArg List.sum (List.map_congr_left fun i h => ?_)
    rw [range_border a b hga hgb hsub hub hob hnb i (List.mem_range.1 h)]
  · rw [hnb]
    cases hn : a.nanflow
    · rfl
    · simp only [b2n, if_true, List.range_one, List.map_cons, List.map_nil, List.sum_cons, List.sum_nil, add_zero]
      rw [range_nan a b hga hgb hsub hub hob hnb (hnb.trans hn)]
      simp

/-! ## examples -/

/-- the entries along the axis after rebinning in steps, for group "a" and the middle bin of the other axis -/
def exRebins (first second : List ℚ) : List ℚ :=
  match exBinSplit.rebin 0 first exBinSplitState with
  | .ok ⟨H, s⟩ => match H.rebin 0 second s with
    | .ok ⟨H', s'⟩ => (List.range 7).map fun i => H'.read s' [.str "a"] [i, 2] 0
    | .error _ => []
  | .error _ => []

/-- the entries along the axis before rebinning -/
def exBefore : List ℚ := (List.range 7).map fun i => exBinSplit.read exBinSplitState [.str "a"] [i, 2] 0

/-- On the example of C128 (4 bins from 0 to 4): both steps are accepted, and they add up the bins of the histogram. -/
example : exRebins [3, 1, 0] [1, 3] = [14, 54, 94, 62, 0, 0, 0] ∧ exRebins [1, 3] [1, 3] = exRebins [3, 1, 0] [1, 3] := by decide +kernel

/-- All edges in another order: nothing changes. -/
example : exRebins [4, 0, 1, 3, 2] [0, 1, 2, 3, 4] = exBefore ∧ exBefore = [2, 12, 22, 32, 42, 52, 62] := by decide +kernel

/-- The sum along the axis of the example is kept. -/
example : (exRebins [3, 1, 0] [1, 3]).sum = exBefore.sum := by decide +kernel

/-- Without an underflow bin the condition of `C132_total` is needed: entries below the new first edge are lost. -/
theorem C132_lost : ∃ (H : HistDef) (s : H.State) (H1 : HistDef) (s1 : H1.State), H.rebin 0 [1, 2] s = .ok ⟨H1, s1⟩ ∧
    H.fixed = [.split ⟨[0, 1, 2], false, true, false, true⟩] ∧ H1.fixed = [.split ⟨[1, 2], false, true, false, true⟩] ∧
    [H.read s [] [0] 0, H.read s [] [1] 0, H.read s [] [2] 0] = [5, 6, 7] ∧ [H1.read s1 [] [0] 0, H1.read s1 [] [1] 0] = [6, 7] := by
  let H : HistDef := ⟨[], [.split ⟨[0, 1, 2], false, true, false, true⟩], 0, .none⟩
  let s : H.State := some (⟨[3], 1, fun idx _ => idx.getD 0 0 + 5⟩ : Arr)
  have hs : (SplitAxis.mk [0, 1, 2] false true false true).rebinned [1, 2] = .ok ⟨[1, 2], false, true, false, true⟩ := by decide +kernel
  have e := rebin_eq (H := H) (j := 0) rfl (rfl : FixedAxis.asSplit (.split _) = _) [1, 2] s
  rw [hs] at e
  refine ⟨H, s, _, _, e, rfl, rfl, by decide +kernel, ?_⟩
  decide +kernel

end Verif
