import Verif.Share

/-!
# Property C130: a selection and the opposite selection share out the entries

For the specification, the entries along an axis are added up: what one of the two selections does not have, the other has.
-/

namespace Verif

/-- the comparison that is true when the other is false (for values that are numbers) -/
def Cmp.opposite : Cmp → Cmp
  | .lt => .ge
  | .le => .gt
  | .gt => .le
  | .ge => .lt
  | .eq => .ne
  | .ne => .eq
  | .isin => .notin
  | .notin => .isin

/-- the entries of all bins of axis `j`, added up; the other bins are those of `idx` -/
def HistDef.across (H : HistDef) (s : H.State) (j : ℕ) (gk : List Key) (idx : List ℕ) (col : ℕ) : ℚ :=
  ((List.range ((H.fixed[j]?.map FixedAxis.totbins).getD 0)).map fun k => H.read s gk (idx.set j k) col).sum

/-- the entry in the bin for NaN of axis `j`, which is the last one -/
def HistDef.nanEntry (H : HistDef) (s : H.State) (j : ℕ) (gk : List Key) (idx : List ℕ) (col : ℕ) : ℚ :=
  match H.fixed[j]? with
  | some a => if a.nanBin then H.read s gk (idx.set j (a.totbins - 1)) col else 0
  | none => 0

/-! ## helpers -/

theorem select_sliced {H : HistDef} {j : ℕ} {a : FixedAxis} (hj : H.fixed[j]? = some a) {c : Cmp} {v : Num} {tol : ℚ} {s : H.State}
    {H1 : HistDef} {s1 : H1.State} (h : H.select j c v tol s = .ok ⟨H1, s1⟩) :
    ∃ a' t, a.select c v tol = .ok (.cut a' t) ∧
      (⟨H1, s1⟩ : Σ H' : HistDef, H'.State) = ⟨H.setFixed j a', H.sliced j a' t s⟩ := by
  unfold HistDef.select at h
  rw [hj] at h
  simp only at h
  cases ha : a.select c v tol with
  | error e => rw [ha] at h; cases h
  | ok r =>
    rw [ha] at h
    cases r with
    | no _ _ => cases h
    | cut a' t => exact ⟨a', t, rfl, (Except.ok.inj h).symm⟩

theorem across_sliced (H : HistDef) (s : H.State) (hs : H.Proper s) (j : ℕ) (a a' : FixedAxis) (hj : H.fixed[j]? = some a) (t : PySlice)
    (gk : List Key) (idx : List ℕ) (col : ℕ) :
    (H.setFixed j a').across (H.sliced j a' t s) j gk idx col =
      ((List.range a'.totbins).map fun k => H.read s gk (idx.set j (k + t.lo a.totbins)) col).sum := by
  have jl : j < H.fixed.length := (List.getElem?_eq_some_iff.1 hj).1
  unfold HistDef.across
  have e : (H.setFixed j a').fixed[j]? = some a' := by
    show (H.fixed.set j _)[j]? = _
    simp [jl]
  rw [e]
  show ((List.range a'.totbins).map _).sum = _
  congr 1
  refine List.map_congr_left fun k _ => ?_
  rw [read_sliced H s hs j a a' hj t, set_add]

theorem share_parts (H : HistDef) (s : H.State) (j : ℕ) (a : FixedAxis) (hj : H.fixed[j]? = some a) (p n : ℕ) (hp : n + p + b2n a.nanBin = a.totbins)
    (gk : List Key) (idx : List ℕ) (col : ℕ) :
    ((List.range p).map fun k => H.read s gk (idx.set j k) col).sum +
      ((List.range n).map fun k => H.read s gk (idx.set j (k + p)) col).sum + H.nanEntry s j gk idx col = H.across s j gk idx col := by
  unfold HistDef.across HistDef.nanEntry
  rw [hj]
  simp only [Option.map_some, Option.getD_some]
  cases hn : a.nanBin
  · rw [hn] at hp
    have : a.totbins = p + n := by simp only [b2n] at hp; simp at hp; omega
    rw [this, sum_range_add]
    simp
  · rw [hn] at hp
    have : a.totbins = p + n + 1 := by simp only [b2n] at hp; simp at hp; omega
    rw [this, List.range_succ, List.map_append, List.sum_append, sum_range_add]
    simp

theorem cutPos_opposite (a : FixedAxis) (c : Cmp) (v : ℚ) (hc : c ∈ [Cmp.lt, .le, .gt, .ge]) : a.cutPos c.opposite v = a.cutPos c v := by
  cases a with
  | intbin a =>
    simp only [List.mem_cons, List.not_mem_nil, or_false] at hc
    rcases hc with rfl | rfl | rfl | rfl <;> simp [FixedAxis.cutPos, Cmp.opposite]
  | _ => rfl

theorem filter_ok (H : HistDef) (test : Test) (i : ℕ) (c : Content Arr H.groups.length) (t : H.State) (h : H.filterState test i (some c) = .ok t) :
    Answers test i _ c ∧ t = some (keyPassing test i _ c) := by
  have h' : (filterGroup test i H.groups.length c).map some = Except.ok t := h
  cases hf : filterGroup test i H.groups.length c with
  | error e => rw [hf] at h'; cases h'
  | ok r =>
    have h1 := (filterGroup_iff test i _ c).2 r hf
    rw [(filterGroup_iff test i _ c).1 h1] at h'
    cases h'
    exact ⟨h1, rfl⟩

theorem selectOne (H : HistDef) (limit i : ℕ) (g : GTerm) (tol : ℚ) (s : H.State) :
    H.selectGroup limit i [[g]] tol s = H.selectTerm i g tol s := by
  show H.selectAnd i tol [g] s = _
  unfold HistDef.selectAnd
  cases H.selectTerm i g tol s <;> rfl

theorem term_ok {H : HistDef} {i : ℕ} {g : GTerm} {tol : ℚ} {s t : H.State} (h : H.selectTerm i g tol s = .ok t) :
    ∃ a test, H.groups[i]? = some a ∧ a.select g.cmp g.value tol = .ok (some test) ∧ H.filterState test i s = .ok t := by
  unfold HistDef.selectTerm at h
  cases ha : H.groups[i]? with
  | none => rw [ha] at h; cases h
  | some a =>
    rw [ha] at h
    simp only at h
    cases hs : a.select g.cmp g.value tol with
    | error e => rw [hs] at h; cases h
    | ok r =>
      rw [hs] at h
      cases r with
      | none => cases h
      | some test => exact ⟨a, test, rfl, hs, h⟩

theorem lt_le_opposite (x k : Key) (b b' : Bool) (h1 : x.lt k = .ok b) (h2 : Key.le k x = .ok b') : b' = !b := by
  have hlt : ∀ p q : ℚ, decide (q ≤ p) = !decide (p < q) := by
    intro p q
    by_cases h : p < q
    · simp [h, not_le.2 h]
    · simp [h, not_lt.1 h]
  have hst : ∀ s t : String, decide (t < s ∨ t = s) = !decide (s < t) := by
    intro s t
    by_cases h : s < t
    · have h' : ¬ (t < s ∨ t = s) := by
        rintro (h2 | h2)
        · exact absurd (String.lt_trans h h2) (String.lt_irrefl _)
        · exact absurd (h2 ▸ h) (String.lt_irrefl _)
      simp only [h, h', decide_true, decide_false, Bool.not_true]
    · have h' : t < s ∨ t = s := by
        by_cases h2 : t < s
        · exact Or.inl h2
        · exact Or.inr (String.le_antisymm (String.not_lt.1 h) (String.not_lt.1 h2))
      simp only [h, h', decide_true, decide_false, Bool.not_false]
  cases x <;> cases k <;> simp only [Key.lt, Key.le, Key.toNum?, Num.lt, Num.le, Except.ok.injEq, reduceCtorEq] at h1 h2 <;>
    rw [← h1, ← h2] <;> first | exact hlt _ _ | exact hst _ _ | rfl

theorem tests_opposite (a : GroupAxis) (c : Cmp) (v : SelVal) (tol : ℚ) (hv : v = .nan → c = .eq ∨ c = .ne) (f g : Test)
    (hf : a.select c v tol = .ok (some f)) (hg : a.select c.opposite v tol = .ok (some g)) (k : Key) (b b' : Bool)
    (h1 : f k = .ok b) (h2 : g k = .ok b') : b' = !b := by
  have key : ∀ x y : Key, ∀ b b', x.lt y = .ok b → Key.le y x = .ok b' → b' = !b := lt_le_opposite
  cases a with
  | groupby =>
    cases hf
    cases hg
    unfold groupbyTest at h1 h2
    cases c <;> cases v <;> simp only [Cmp.opposite, reduceCtorEq, Except.ok.injEq, or_self, imp_false, not_true_eq_false, forall_true_left] at h1 h2 hv
    all_goals first
      | (subst h1; subst h2; simp; done)
      | exact key _ _ _ _ h1 h2
      | exact (by rw [key _ _ _ _ h2 h1]; simp)
      | skip
    all_goals (rename_i k'; cases k' <;> first | (cases h1; done) | (cases h2; done))
  | groupbin a =>
    have sel : ∀ (c : Cmp) (f : Test), a.select c v tol = .ok (some f) →
        (v = .nan ∧ c = .ne ∧ f = fun x => .ok (decide (x ≠ .str "NaN"))) ∨ (v = .nan ∧ c = .eq ∧ f = fun x => .ok (decide (x = .str "NaN"))) ∨
        (v = .key .ninf ∧ (c = .ge ∨ c = .gt ∨ c = .ne)) ∨ (v = .key .pinf ∧ (c = .le ∨ c = .lt ∨ c = .ne)) ∨
        ∃ q, v = .key (.num q) ∧
          let close : ℚ := pyRound ((q - a.origin) / a.binwidth) * a.binwidth + a.origin
          ((c = .lt ∨ c = .le) ∧ f = fun x => x.lt (.num close)) ∨ ((c = .ge ∨ c = .gt) ∧ f = fun x => Key.le (.num close) x) := by
      intro c f h
      unfold GroupbinAxis.select at h
      split at h
      · split at h
        · rename_i hc; exact Or.inr (Or.inr (Or.inl ⟨rfl, hc⟩))
        · cases h
      · split at h
        · rename_i hc; exact Or.inr (Or.inr (Or.inr (Or.inl ⟨rfl, hc⟩)))
        · cases h
      · split at h
        · rename_i hc; cases h; exact Or.inl ⟨rfl, hc, rfl⟩
        · split at h
          · rename_i hc; cases h; exact Or.inr (Or.inl ⟨rfl, hc, rfl⟩)
          · cases h
      · rename_i q
        refine Or.inr (Or.inr (Or.inr (Or.inr ⟨q, rfl, ?_⟩)))
        simp only at h ⊢
        split at h
        · split at h
          · rename_i hc; cases h; exact Or.inl ⟨Or.inl hc.2, rfl⟩
          · split at h
            · rename_i hc; cases h; exact Or.inr ⟨Or.inl hc.2, rfl⟩
            · split at h
              · rename_i hc; cases h; exact Or.inr ⟨Or.inr hc.2, rfl⟩
              · split at h
                · rename_i hc; cases h; exact Or.inl ⟨Or.inr hc.2, rfl⟩
                · cases h
        · cases h
      · cases h
      · cases h
    have hg' : a.select c.opposite v tol = .ok (some g) := hg
    clear hg
    rcases sel c f hf with ⟨rfl, rfl, rfl⟩ | ⟨rfl, rfl, rfl⟩ | ⟨rfl, hc⟩ | ⟨rfl, hc⟩ | ⟨q, rfl, hc⟩
    · rcases sel _ g hg' with ⟨_, h, _⟩ | ⟨_, _, rfl⟩ | ⟨h, _⟩ | ⟨h, _⟩ | ⟨_, h, _⟩
      · cases h
      · simp only [Except.ok.injEq] at h1 h2
        rw [← h1, ← h2]
        simp
      · cases h
      · cases h
      · cases h
    · rcases sel _ g hg' with ⟨_, _, rfl⟩ | ⟨_, h, _⟩ | ⟨h, _⟩ | ⟨h, _⟩ | ⟨_, h, _⟩
      · simp only [Except.ok.injEq] at h1 h2
        rw [← h1, ← h2]
        simp
      · cases h
      · cases h
      · cases h
      · cases h
    · rcases sel _ g hg' with ⟨h, _⟩ | ⟨h, _⟩ | ⟨_, hc'⟩ | ⟨h, _⟩ | ⟨_, h, _⟩
      · cases h
      · cases h
      · rcases hc with rfl | rfl | rfl <;> simp [Cmp.opposite] at hc'
      · cases h
      · cases h
    · rcases sel _ g hg' with ⟨h, _⟩ | ⟨h, _⟩ | ⟨h, _⟩ | ⟨_, hc'⟩ | ⟨_, h, _⟩
      · cases h
      · cases h
      · cases h
      · rcases hc with rfl | rfl | rfl <;> simp [Cmp.opposite] at hc'
      · cases h
    · rcases sel _ g hg' with ⟨h, _⟩ | ⟨h, _⟩ | ⟨h, _⟩ | ⟨h, _⟩ | ⟨q', h, hc'⟩
      · cases h
      · cases h
      · cases h
      · cases h
      · cases h
        rcases hc with ⟨hc, rfl⟩ | ⟨hc, rfl⟩
        · rcases hc' with ⟨hc', rfl⟩ | ⟨hc', rfl⟩
          · rcases hc with rfl | rfl <;> simp [Cmp.opposite] at hc'
          · exact key _ _ _ _ h1 h2
        · rcases hc' with ⟨hc', rfl⟩ | ⟨hc', rfl⟩
          · rw [key _ _ _ _ h2 h1]
            simp
          · rcases hc with rfl | rfl <;> simp [Cmp.opposite] at hc'

theorem lookup_absent : ∀ (n : ℕ) (c : Content Arr n) (gk : List Key) (idx : List ℕ) (col : ℕ), gk.length = n → ¬ HasGroup n c gk →
    lookup n c gk idx col = 0
  | 0, c, gk, idx, col, hl, h => absurd (List.length_eq_zero_iff.1 hl) h
  | n + 1, c, [], idx, col, hl, h => rfl
  | n + 1, c, k :: gk, idx, col, hl, h => by
    show (match dget c k with | none => (0 : ℚ) | some c => lookup n c gk idx col) = 0
    cases hc : dget c k with
    | none => rfl
    | some c' => exact lookup_absent n c' gk idx col (by simpa using hl) (fun h' => h ⟨c', hc, h'⟩)

theorem opposite_accepted (a : FixedAxis) (c : Cmp) (v tol : ℚ) (hf : a.Fine tol) (hk : (∃ b, a = .bin b) ∨ ∃ b, a = .split b) (a1 : FixedAxis)
    (t1 : PySlice) (h : a.select c (.fin v) tol = .ok (.cut a1 t1)) :
    (∃ a2 t2, a.select c.opposite (.fin v) tol = .ok (.cut a2 t2)) ∨
      (a.select c.opposite (.fin v) tol = .error .valueError ∧ a1.totbins + b2n a.nanBin = a.totbins) := by
  have h0 : b2n false = 0 := rfl
  rcases hk with ⟨a, rfl⟩ | ⟨a, rfl⟩
  · obtain ⟨b, hsel, rfl⟩ := map_cut h
    clear h
    have hd : a.high - a.low ≠ 0 := by intro h; linarith [hf.2.1]
    have hN : (a.numbins : ℚ) ≠ 0 := by exact_mod_cast (by have := hf.1; omega : a.numbins ≠ 0)
    have hs : (a.numbins : ℚ) / (a.high - a.low) ≠ 0 := div_ne_zero hN hd
    show (∃ a2 t2, (a.select c.opposite (.fin v) tol).map (fun r => r.map FixedAxis.bin) = .ok (.cut a2 t2)) ∨
      ((a.select c.opposite (.fin v) tol).map (fun r => r.map FixedAxis.bin) = .error .valueError ∧ _)
    unfold BinAxis.select at hsel ⊢
    simp only [reduceCtorEq, false_and, or_self, if_false, hd, hs] at hsel ⊢
    split at hsel
    · rename_i hclose
      obtain ⟨m, hm, hz, hcl⟩ := bin_edge a hf.1 hf.2.1 v tol hf.2.2 _ rfl hclose
      rw [if_pos hclose]
      rw [hz] at hsel ⊢
      unfold checktot at hsel ⊢
      split at hsel
      · rename_i hcmp
        split at hsel
        · cases hsel
        · cases hsel
          have e1 : ¬ ((a.closedlow = true ∧ c.opposite = .lt) ∨ (a.closedlow = false ∧ c.opposite = .le)) := by
            rcases hcmp with ⟨h, rfl⟩ | ⟨h, rfl⟩ <;> simp [Cmp.opposite, h]
          have e2 : (a.closedlow = true ∧ c.opposite = .ge) ∨ (a.closedlow = false ∧ c.opposite = .gt) := by
            rcases hcmp with ⟨h, rfl⟩ | ⟨h, rfl⟩ <;> simp [Cmp.opposite, h]
          rw [if_neg e1, if_pos e2]
          split
          · rename_i hz0
            refine Or.inr ⟨rfl, ?_⟩
            simp only [BinAxis.totbins] at hz0
            simp only [FixedAxis.totbins, BinAxis.totbins, FixedAxis.nanBin]
            omega
          · exact Or.inl ⟨_, _, rfl⟩
      · split at hsel
        · rename_i hcmp
          split at hsel
          · cases hsel
          · cases hsel
            have e1 : (a.closedlow = true ∧ c.opposite = .lt) ∨ (a.closedlow = false ∧ c.opposite = .le) := by
              rcases hcmp with ⟨h, rfl⟩ | ⟨h, rfl⟩ <;> simp [Cmp.opposite, h]
            rw [if_pos e1]
            split
            · rename_i hz0
              refine Or.inr ⟨rfl, ?_⟩
              simp only [BinAxis.totbins] at hz0
              simp only [FixedAxis.totbins, BinAxis.totbins, FixedAxis.nanBin]
              omega
            · exact Or.inl ⟨_, _, rfl⟩
        · cases hsel
    · cases hsel
  · obtain ⟨b, hsel, rfl⟩ := map_cut h
    clear h
    show (∃ a2 t2, (a.select c.opposite (.fin v) tol).map (fun r => r.map FixedAxis.split) = .ok (.cut a2 t2)) ∨
      ((a.select c.opposite (.fin v) tol).map (fun r => r.map FixedAxis.split) = .error .valueError ∧ _)
    unfold SplitAxis.select at hsel ⊢
    simp only [reduceCtorEq, false_and, or_self, if_false] at hsel ⊢
    split at hsel
    · cases hsel
    · rename_i x m hx
      obtain ⟨_, hm, _⟩ := nearestEdge_get v _ _ _ _ hx
      rw [Nat.sub_zero] at hm
      obtain ⟨hml, hmx⟩ := List.getElem?_eq_some_iff.1 hm
      split at hsel
      · rename_i hclose
        rw [if_pos hclose]
        unfold checktot at hsel ⊢
        split at hsel
        · rename_i hcmp
          split at hsel
          · cases hsel
          · cases hsel
            have e1 : ¬ ((a.closedlow = true ∧ c.opposite = .lt) ∨ (a.closedlow = false ∧ c.opposite = .le)) := by
              rcases hcmp with ⟨h, rfl⟩ | ⟨h, rfl⟩ <;> simp [Cmp.opposite, h]
            have e2 : (a.closedlow = true ∧ c.opposite = .ge) ∨ (a.closedlow = false ∧ c.opposite = .gt) := by
              rcases hcmp with ⟨h, rfl⟩ | ⟨h, rfl⟩ <;> simp [Cmp.opposite, h]
            rw [if_neg e1, if_pos e2]
            split
            · rename_i hz0
              refine Or.inr ⟨rfl, ?_⟩
              simp only [SplitAxis.totbins, List.length_drop] at hz0
              simp only [FixedAxis.totbins, SplitAxis.totbins, FixedAxis.nanBin, List.length_take]
              omega
            · exact Or.inl ⟨_, _, rfl⟩
        · split at hsel
          · rename_i hcmp
            split at hsel
            · cases hsel
            · cases hsel
              have e1 : (a.closedlow = true ∧ c.opposite = .lt) ∨ (a.closedlow = false ∧ c.opposite = .le) := by
                rcases hcmp with ⟨h, rfl⟩ | ⟨h, rfl⟩ <;> simp [Cmp.opposite, h]
              rw [if_pos e1]
              split
              · rename_i hz0
                refine Or.inr ⟨rfl, ?_⟩
                simp only [SplitAxis.totbins, List.length_take] at hz0
                simp only [FixedAxis.totbins, SplitAxis.totbins, FixedAxis.nanBin, List.length_drop]
                omega
              · exact Or.inl ⟨_, _, rfl⟩
          · cases hsel
      · cases hsel

/-! ## C130 -/

/-- C130 for fixed axes (partial: the tolerance is at most half a bin).  If a comparison with a number and the opposite one are both accepted,
then for every group and all bins of the other axes, the entries of the two selections and those of the bin for NaN add up to the
entries of the histogram. -/
theorem C130_fixed_partial (H : HistDef) (s : H.State) (hs : H.Proper s) (j : ℕ) (a : FixedAxis) (hj : H.fixed[j]? = some a) (tol : ℚ)
    (hf : a.Fine tol) (c : Cmp) (v : ℚ) (H1 H2 : HistDef) (s1 : H1.State) (s2 : H2.State) (h1 : H.select j c (.fin v) tol s = .ok ⟨H1, s1⟩)
    (h2 : H.select j c.opposite (.fin v) tol s = .ok ⟨H2, s2⟩) (gk : List Key) (idx : List ℕ) (col : ℕ) :
    H1.across s1 j gk idx col + H2.across s2 j gk idx col + H.nanEntry s j gk idx col = H.across s j gk idx col := by
  obtain ⟨a1, t1, e1, k1⟩ := select_sliced hj h1
  obtain ⟨a2, t2, e2, k2⟩ := select_sliced hj h2
  cases k1
  cases k2
  rw [across_sliced H s hs j a a1 hj, across_sliced H s hs j a a2 hj]
  obtain ⟨_, p1⟩ := select_cutAt a c v tol hf a1 t1 e1
  obtain ⟨_, p2⟩ := select_cutAt a c.opposite v tol hf a2 t2 e2
  have hc : c ∈ [Cmp.lt, .le, .gt, .ge] := by
    rcases p1 with ⟨h | h, _⟩ | ⟨h | h, _⟩ <;> simp [h]
  rw [cutPos_opposite a c v hc] at p2
  set p := a.cutPos c v
  have bad : ∀ c : Cmp, (c = .lt ∨ c = .le) → ¬ (c.opposite = .lt ∨ c.opposite = .le) := by rintro _ (rfl | rfl) <;> decide
  have bad' : ∀ c : Cmp, (c = .gt ∨ c = .ge) → ¬ (c.opposite = .gt ∨ c.opposite = .ge) := by rintro _ (rfl | rfl) <;> decide
  rcases p1 with ⟨q1, l1, _, n1⟩ | ⟨q1, l1, _, n1⟩
  · rcases p2 with ⟨q2, _⟩ | ⟨_, l2, _, n2⟩
    · exact absurd q2 (bad c q1)
    · rw [l1, l2, n1]
      exact share_parts H s j a hj p a2.totbins n2 gk idx col
  · rcases p2 with ⟨_, l2, _, n2⟩ | ⟨q2, _⟩
    · rw [l1, l2, n2]
      have := share_parts H s j a hj p a1.totbins n1 gk idx col
      rw [← this]
      simp only [Nat.add_zero]
      ring
    · exact absurd q2 (bad' c q1)

/-- C130 for bin and split axes: if a comparison is accepted, the opposite one is too, or it raises `ValueError` and the first selection
has all the entries (except those for NaN). -/
theorem C130_refused_partial (H : HistDef) (s : H.State) (hs : H.Proper s) (j : ℕ) (a : FixedAxis) (hj : H.fixed[j]? = some a) (tol : ℚ)
    (hf : a.Fine tol) (hk : (∃ b, a = .bin b) ∨ ∃ b, a = .split b) (c : Cmp) (v : ℚ) (H1 : HistDef) (s1 : H1.State)
    (h1 : H.select j c (.fin v) tol s = .ok ⟨H1, s1⟩) :
    (∃ r, H.select j c.opposite (.fin v) tol s = .ok r) ∨
      (H.select j c.opposite (.fin v) tol s = .error .valueError ∧
        ∀ gk idx col, H1.across s1 j gk idx col + H.nanEntry s j gk idx col = H.across s j gk idx col) := by
  obtain ⟨a1, t1, e1, k1⟩ := select_sliced hj h1
  cases k1
  have up : ∀ r, a.select c.opposite (.fin v) tol = r → H.select j c.opposite (.fin v) tol s = match r with
      | .error e => .error e
      | .ok (.no _ _) => .error .valueError
      | .ok (.cut a' t) => .ok ⟨H.setFixed j a', H.sliced j a' t s⟩ := by
    rintro _ rfl
    unfold HistDef.select
    rw [hj]
    simp only
    cases a.select c.opposite (.fin v) tol with
    | error e => rfl
    | ok r => cases r <;> rfl
  rcases opposite_accepted a c v tol hf hk a1 t1 e1 with ⟨a2, t2, e2⟩ | ⟨e2, hall⟩
  · exact Or.inl ⟨_, up _ e2⟩
  · refine Or.inr ⟨up _ e2, fun gk idx col => ?_⟩
    rw [across_sliced H s hs j a a1 hj]
    obtain ⟨hp, p1⟩ := select_cutAt a c v tol hf a1 t1 e1
    have l1 : t1.lo a.totbins = 0 := by
      rcases p1 with ⟨_, l1, _⟩ | ⟨_, l1, _, n1⟩
      · exact l1
      · rw [l1]
        omega
    rw [l1]
    have := share_parts H s j a hj 0 a1.totbins (by omega) gk idx col
    rw [← this]
    simp

/-- Selecting on an intbin axis does not do that: for a histogram with entries below the smallest integer, `n >= min` is accepted, the opposite
selection `n < min` is refused, and the entries of the underflow bin are in neither. -/
theorem C130_refuted_intbin : ∃ (H : HistDef) (s : H.State), H.Proper s ∧ ∃ (a : IntbinAxis), H.fixed[0]? = some (.intbin a) ∧
    (H.select 0 .lt (.fin a.min) (1/1000) s).toBool = false ∧
    ∃ (H1 : HistDef) (s1 : H1.State), H.select 0 .ge (.fin a.min) (1/1000) s = .ok ⟨H1, s1⟩ ∧
      H1.across s1 0 [] [0] 0 = 5 ∧ H.across s 0 [] [0] 0 = 12 ∧ H.nanEntry s 0 [] [0] 0 = 0 := by
  let a : IntbinAxis := ⟨1, 3, true, true⟩
  let H : HistDef := ⟨[], [.intbin a], 0, .none⟩
  let s : H.State := some (⟨[5], 1, fun idx _ => if idx = [0] then 7 else if idx = [2] then 5 else 0⟩ : Arr)
  have e : a.select .ge (.fin a.min) (1/1000) = .ok (.cut ⟨1, 3, false, true⟩ ⟨1, none⟩) := by decide +kernel
  have e' : H.select 0 .ge (.fin a.min) (1/1000) s = .ok ⟨H.setFixed 0 (.intbin ⟨1, 3, false, true⟩), H.sliced 0 (.intbin ⟨1, 3, false, true⟩) ⟨1, none⟩ s⟩ := by
    have hj : H.fixed[0]? = some (.intbin a) := rfl
    unfold HistDef.select
    rw [hj]
    simp only [FixedAxis.select, e]
    rfl
  exact ⟨H, s, ⟨⟨rfl, rfl⟩, trivial⟩, a, rfl, by decide +kernel, _, _, e', by decide +kernel, by decide +kernel, by decide +kernel⟩

/-- C130 for cut axes: the entries of the two selections add up to the entries of the histogram, in all bins of the other axes. -/
theorem C130_cut (H : HistDef) (s : H.State) (hs : H.Proper s) (j : ℕ) (hj : H.fixed[j]? = some .cut) (c : Cmp) (b : Bool) (t1 t2 : PySlice)
    (h1 : cutSelect c b = some t1) (h2 : cutSelect c.opposite b = some t2) (gk : List Key) (idx : List ℕ) (hi : j ≤ idx.length) (col : ℕ) :
    (H.eraseFixed j).read (H.cutOut j t1 s) gk idx col + (H.eraseFixed j).read (H.cutOut j t2 s) gk idx col =
      H.across s j gk (idx.insertIdx j 0) col := by
  have e1 : ∀ t : PySlice, (H.eraseFixed j).read (H.cutOut j t s) gk idx col = H.read s gk (idx.insertIdx j (t.lo 2)) col := by
    intro t
    cases s with
    | none => rfl
    | some c0 =>
      refine (mapLeaves_lookup _ idx col _ c0 gk).trans ?_
      rw [lookupF_congr H.layout _ (fun x => x.get (idx.insertIdx j (t.lo 2)) col) (fun x hx => by
        show x.get (idx.insertIdx j (t.lo (x.shape.getD j 0))) col = _
        have : x.shape.getD j 0 = 2 := by
          rw [hx.1]
          refine getD_eq_of_getElem? ?_ 0
          show (H.fixed.map FixedAxis.totbins)[j]? = _
          rw [List.getElem?_map, hj]
          rfl
        rw [this]) _ c0 gk hs.1]
      exact lookupF_get _ col _ c0 gk
  have e2 : ∀ k, (idx.insertIdx j 0).set j k = idx.insertIdx j k := by
    intro k
    refine List.ext_getElem? fun i => ?_
    rw [List.getElem?_set, List.getElem?_insertIdx, List.getElem?_insertIdx, List.length_insertIdx]
    by_cases h : j = i
    · subst h
      simp [hi]
      omega
    · simp [h, Ne.symm h]
  have e3 : H.across s j gk (idx.insertIdx j 0) col = H.read s gk (idx.insertIdx j 0) col + H.read s gk (idx.insertIdx j 1) col := by
    unfold HistDef.across
    rw [hj]
    show ((List.range 2).map _).sum = _
    simp [List.range_succ, e2]
  rw [e1, e1, e3]
  have l0 : (⟨0, some 1⟩ : PySlice).lo 2 = 0 := by decide
  have l1 : (⟨1, some 2⟩ : PySlice).lo 2 = 1 := by decide
  cases c <;> cases b <;> simp only [cutSelect, Cmp.opposite] at h1 h2 <;> simp at h1 h2 <;> subst h1 <;> subst h2 <;> rw [l0, l1] <;> ring

/-- C130 for group axes.  If a comparison of a group axis with a constant and the opposite one are both accepted, then every group is in exactly
one of the two selections, with its entries.  (Inequalities with NaN are left out: they are false, and so are their opposites.) -/
theorem C130_groups (H : HistDef) (s t1 t2 : H.State) (limit i : ℕ) (c : Cmp) (v : SelVal) (hv : v = .nan → c = .eq ∨ c = .ne) (tol : ℚ)
    (h1 : H.selectGroup limit i [[⟨c, v⟩]] tol s = .ok t1) (h2 : H.selectGroup limit i [[⟨c.opposite, v⟩]] tol s = .ok t2)
    (gk : List Key) (hgk : gk.length = H.groups.length) :
    (H.has s gk ↔ H.has t1 gk ∨ H.has t2 gk) ∧ ¬ (H.has t1 gk ∧ H.has t2 gk) ∧
      ∀ idx col, H.read t1 gk idx col + H.read t2 gk idx col = H.read s gk idx col := by
  rw [selectOne] at h1 h2
  obtain ⟨a, f, ha, hf, h3⟩ := term_ok h1
  obtain ⟨a', g, ha', hg, h4⟩ := term_ok h2
  rw [ha] at ha'
  cases ha'
  cases s with
  | none =>
    cases h3
    cases h4
    exact ⟨⟨fun h => h.elim, fun h => h.elim id id⟩, fun h => h.1.elim, fun _ _ => add_zero _⟩
  | some c0 =>
    obtain ⟨r1, rfl⟩ := filter_ok H f i c0 t1 h3
    obtain ⟨r2, rfl⟩ := filter_ok H g i c0 t2 h4
    have hi : i < gk.length := by
      rw [hgk]
      exact (List.getElem?_eq_some_iff.1 ha).1
    have other : H.has (some c0) gk → passesAt g i gk = !passesAt f i gk := by
      intro hh
      have hk : gk[i]? = some gk[i] := List.getElem?_eq_getElem hi
      obtain ⟨b, hb⟩ := answers_has f i _ c0 r1 gk hh _ hk
      obtain ⟨b', hb'⟩ := answers_has g i _ c0 r2 gk hh _ hk
      unfold passesAt
      rw [hk]
      simp only [hb, hb', yes]
      exact tests_opposite a c v tol hv f g hf hg _ b b' hb hb'
    have e1 : H.has (some (keyPassing f i _ c0)) gk ↔ H.has (some c0) gk ∧ passesAt f i gk = true := hasGroup_keyPassing f i _ c0 gk
    have e2 : H.has (some (keyPassing g i _ c0)) gk ↔ H.has (some c0) gk ∧ passesAt g i gk = true := hasGroup_keyPassing g i _ c0 gk
    refine ⟨?_, ?_, ?_⟩
    · rw [e1, e2]
      constructor
      · intro hh
        cases hp : passesAt f i gk
        · exact Or.inr ⟨hh, by rw [other hh, hp]; rfl⟩
        · exact Or.inl ⟨hh, rfl⟩
      · rintro (h | h) <;> exact h.1
    · rw [e1, e2]
      rintro ⟨⟨hh, h5⟩, _, h6⟩
      rw [other hh, h5] at h6
      cases h6
    · intro idx col
      show lookup _ (keyPassing f i _ c0) gk idx col + lookup _ (keyPassing g i _ c0) gk idx col = lookup _ c0 gk idx col
      rw [lookup_keyPassing f idx col i _ c0 gk hgk, lookup_keyPassing g idx col i _ c0 gk hgk]
      by_cases hh : H.has (some c0) gk
      · rw [other hh]
        cases passesAt f i gk <;> simp
      · rw [lookup_absent _ c0 gk idx col hgk hh]
        simp

/-! ## examples -/

/-- the sum over the bins of the axis after the selection, for group "a" and the middle bin of the other axis -/
def exShare (c : Cmp) (v : ℚ) : Option ℚ :=
  match exBinSplit.select 0 c (.fin v) (1/1000) exBinSplitState with
  | .ok ⟨H, s⟩ => some (H.across s 0 [.str "a"] [0, 2] 0)
  | .error _ => none

/-- On the example of C128 `x < 1` and `x >= 1` are both accepted, with 2 and 4 of the 7 bins; the bin for NaN has the rest. -/
example : exShare .lt 1 = some 14 ∧ exShare .ge 1 = some 148 ∧ exBinSplit.nanEntry exBinSplitState 0 [.str "a"] [0, 2] 0 = 62 ∧
    exBinSplit.across exBinSplitState 0 [.str "a"] [0, 2] 0 = 224 ∧ (FixedAxis.bin ⟨4, 0, 4, true, true, true, true⟩).Fine (1/1000) :=
  ⟨by decide +kernel, by decide +kernel, by decide +kernel, by decide +kernel, by unfold FixedAxis.Fine; norm_num⟩

/-- An axis without an underflow bin: `x >= 0` is accepted and `x < 0`, which would leave no bin, is not. -/
example : let H : HistDef := ⟨[], [.bin ⟨4, 0, 4, false, true, true, true⟩], 0, .none⟩
    let s : H.State := some (⟨[6], 1, fun idx _ => idx.getD 0 0⟩ : Arr)
    (H.select 0 .ge (.fin 0) (1/1000) s).toBool = true ∧ (H.select 0 .lt (.fin 0) (1/1000) s).toBool = false := by decide +kernel

/-- `c == True` and `c != True` on a cut axis are both accepted. -/
example : cutSelect .eq true = some ⟨1, some 2⟩ ∧ cutSelect (Cmp.opposite .eq) true = some ⟨0, some 1⟩ := by decide

/-- `y >= 3` and `y < 3` on the second group axis of the example of C128: the key 3 is in the first, the keys 1 and 2 are in the second. -/
example : (match exTwoGroups.selectGroup 10 1 [[⟨.ge, .key (.num 3)⟩]] 0 exTwoGroupsState,
      exTwoGroups.selectGroup 10 1 [[⟨.lt, .key (.num 3)⟩]] 0 exTwoGroupsState with
    | .ok t1, .ok t2 => [exTwoGroups.read t1 [.str "b", .num 3] [0] 0, exTwoGroups.read t2 [.str "b", .num 3] [0] 0,
        exTwoGroups.read t1 [.str "b", .num 2] [0] 0, exTwoGroups.read t2 [.str "b", .num 2] [0] 0]
    | _, _ => []) = [40, 0, 0, 30] := by decide +kernel

/-- Inequalities with NaN: neither `y < nan` nor `y >= nan` keeps anything. -/
theorem C130_refuted_nan : ∃ (H : HistDef) (s t1 t2 : H.State), H.Proper s ∧ H.has s [.num 1] ∧
    H.selectGroup 10 0 [[⟨.lt, .nan⟩]] 0 s = .ok t1 ∧ H.selectGroup 10 0 [[⟨.ge, .nan⟩]] 0 s = .ok t2 ∧
    ¬ H.has t1 [.num 1] ∧ ¬ H.has t2 [.num 1] := by
  let H : HistDef := ⟨[.groupby], [], 0, .none⟩
  let s : H.State := some ([(Key.num 1, (⟨[], 1, fun _ _ => 7⟩ : Arr))] : List (Key × Arr))
  have no : ¬ H.has (some ([] : List (Key × Arr))) [.num 1] := by
    rintro ⟨_, h, _⟩
    cases h
  refine ⟨H, s, some ([] : List (Key × Arr)), some ([] : List (Key × Arr)), ⟨fun k c hk => ?_, ?_⟩, ⟨_, rfl, rfl⟩, rfl, rfl, no, no⟩
  · have hm : ((k, c) : Key × Arr) ∈ ([(Key.num 1, (⟨[], 1, fun _ _ => 7⟩ : Arr))] : List (Key × Arr)) := mem_of_dget _ _ _ hk
    cases List.mem_singleton.1 hm
    exact ⟨rfl, rfl⟩
  · exact ⟨by decide, fun _ _ => trivial⟩

end Verif
