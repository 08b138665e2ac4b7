import Verif.RebinLemmas
import Verif.PropsSelect

/-!
# Rebinning: property theorems C41 and C42
-/

namespace Verif

/-! ## helpers -/

theorem rowsWhere_true (j : ℕ) (rows : List Row) : rowsWhere j (fun _ => true) rows = rows := by
  unfold rowsWhere
  simp

theorem rebin_ok {H : HistDef} {j : ℕ} {edges : List ℚ} {st : H.State} {x : FixedAxis} (hx : H.fixed[j]? = some x)
    {r : Σ H' : HistDef, H'.State} (h : H.rebin j edges st = .ok r) :
    ∃ (a b : SplitAxis) (st' : (H.setFixed j (.split b)).State), x.asSplit = .ok a ∧ a.rebinned edges = .ok b ∧
      st' = st.map (mapLeaves (Arr.rebin j (rebinRanges a b) b.totbins) H.groups.length) ∧ r = ⟨H.setFixed j (.split b), st'⟩ := by
  unfold HistDef.rebin at h
  rw [hx] at h
  simp only [HistDef.rebinAny] at h
  split at h
  · cases h
  · rename_i a ha
    split at h
    · cases h
    · rename_i b hb
      exact ⟨a, b, _, ha, hb, rfl, (Except.ok.inj h).symm⟩

theorem rebinned_ok {a b : SplitAxis} {edges : List ℚ} (h : a.rebinned edges = .ok b) :
    (∀ e ∈ edges, e ∈ a.edges) ∧ SplitAxis.init edges a.underflow a.overflow a.nanflow a.closedlow = .ok b := by
  unfold SplitAxis.rebinned at h
  split at h
  · rename_i h1
    exact ⟨fun e he => by simpa using List.all_eq_true.1 h1 e he, h⟩
  · cases h

/-- The rows can fill a histogram in which axis `j` is replaced by a split axis. -/
theorem Fillable.setSplit {H : HistDef} {bs : List (List Row)} (hf : Fillable H bs) (j : ℕ) (b : SplitAxis)
    (hb : ∀ v : Val, (FixedAxis.split b).Handles v)
    (h : H.nprof = 0 ∨ ∀ rs ∈ bs, ∀ r ∈ rs, ¬ r.leftOut (H.setFixed j (.split b))) : Fillable (H.setFixed j (.split b)) bs := by
  constructor
  · intro rs hrs r hr
    have ho := hf.ok rs hrs r hr
    exact ⟨ho.groups, forall₂_set ho.fixed j _ (.num .nan) (fun _ => hb _), ho.xs⟩
  · exact h

/-- The common part of C41: the fixed axis `x` is, for values in `D`, the same as the split axis `a`. -/
theorem rebin_represents (x : FixedAxis) (a : SplitAxis) (hga : a.Good) (D : Val → Prop) (hx : ∀ v, D v → ∀ k, x.holds k v = (FixedAxis.split a).holds k v)
    (ht : x.totbins = a.totbins) (hax : x.asSplit = .ok a) (H : HistDef) (bs : List (List Row)) (hf : Fillable H bs) (st : H.State)
    (hst : H.fillAll none bs = .ok st) (j : ℕ) (hj : H.fixed[j]? = some x) (hD : ∀ r ∈ bs.flatten, D (r.fvals.getD j (.num .nan)))
    (edges : List ℚ) (r : Σ H' : HistDef, H'.State) (hr : H.rebin j edges st = .ok r) :
    ∃ b, SplitAxis.init edges a.underflow a.overflow a.nanflow a.closedlow = .ok b ∧ r.1 = H.setFixed j (.split b) ∧
      Represents r.1 bs.flatten r.2 ∧
      ((H.nprof = 0 ∨ ∀ rs ∈ bs, ∀ row ∈ rs, ¬ row.leftOut r.1) → r.1.ReadsLikeFill r.2 bs) := by
  obtain ⟨a', b, st', h1, h2, h3, rfl⟩ := rebin_ok hj hr
  rw [hax] at h1
  cases h1
  obtain ⟨h4, h5⟩ := rebinned_ok h2
  obtain ⟨hgb, hperm, hu, ho, hn, hc, htot⟩ := SplitAxis.init_ok h5
  have hhan : ∀ v : Val, (FixedAxis.split b).Handles v := handles_split _ _ _ _ _ b h5
  obtain ⟨st0, e1, e2⟩ := Represents.ofFill H bs hf
  rw [hst] at e1
  cases e1
  have hrec := rebin_recombines a b hga hgb (fun e he => h4 e (hperm.mem_iff.1 he)) x D hx ht hu ho hn hc (fun v => (hhan v).sound)
  have hrep := e2.recombine j x (.split b) hj _ _ D hrec hD (Arr.rebin j (rebinRanges a b) b.totbins)
    (fun y _ => ⟨rfl, rfl, fun _ _ => rfl⟩) st' h3
  rw [rowsWhere_true] at hrep
  exact ⟨b, h5, rfl, hrep, fun hp => hrep.readsLikeFill bs rfl (hf.setSplit j b hhan hp)⟩

/-! ## C41 -/

/-- C41, split axis.  Rebinning to any of the old edges gives the content that a histogram with the new
edges (and the same flow bins and closed side) gets from the same data.  With profiles the new axis must
not leave out a row, as filling such a row fails (C18). -/
theorem C41_rebin_split (edges : List ℚ) (u o n cl : Bool) (a : SplitAxis) (ha : SplitAxis.init edges u o n cl = .ok a)
    (H : HistDef) (bs : List (List Row)) (hf : Fillable H bs) (st : H.State) (hst : H.fillAll none bs = .ok st) (j : ℕ)
    (hj : H.fixed[j]? = some (.split a)) (new : List ℚ) (r : Σ H' : HistDef, H'.State) (hr : H.rebin j new st = .ok r) :
    ∃ b, SplitAxis.init new u o n cl = .ok b ∧ r.1 = H.setFixed j (.split b) ∧ Represents r.1 bs.flatten r.2 ∧
      ((H.nprof = 0 ∨ ∀ rs ∈ bs, ∀ row ∈ rs, ¬ row.leftOut r.1) → r.1.ReadsLikeFill r.2 bs) := by
  obtain ⟨hg, _, rfl, rfl, rfl, rfl, _⟩ := SplitAxis.init_ok ha
  exact rebin_represents (.split a) a hg (fun _ => True) (fun _ _ _ => rfl) rfl rfl H bs hf st hst j hj (fun _ _ => trivial) new r hr

/-- C41, bin axis. -/
theorem C41_rebin_bin (numbins : ℕ) (low high : ℚ) (u o n cl : Bool) (a : BinAxis)
    (ha : BinAxis.init numbins low high u o n cl = .ok a) (hn : 0 < numbins)
    (H : HistDef) (bs : List (List Row)) (hf : Fillable H bs) (st : H.State) (hst : H.fillAll none bs = .ok st) (j : ℕ)
    (hj : H.fixed[j]? = some (.bin a)) (new : List ℚ) (r : Σ H' : HistDef, H'.State) (hr : H.rebin j new st = .ok r) :
    ∃ b, SplitAxis.init new u o n cl = .ok b ∧ r.1 = H.setFixed j (.split b) ∧ Represents r.1 bs.flatten r.2 ∧
      ((H.nprof = 0 ∨ ∀ rs ∈ bs, ∀ row ∈ rs, ¬ row.leftOut r.1) → r.1.ReadsLikeFill r.2 bs) := by
  obtain ⟨s, h1, h2, h3, _⟩ := C07_bin_split_same numbins low high u o n cl a ha hn
  obtain ⟨rfl, _⟩ := BinAxis.init_ok ha
  obtain ⟨hg, _, hu, ho, hn', hc, _⟩ := SplitAxis.init_ok h1
  have := rebin_represents (.bin _) s hg (fun _ => True) (fun v _ k => by
      show (match (BinAxis.keys _)[k]? with | some l => v.In l | none => false) = _
      rw [← h2]; rfl) h3.symm h1 H bs hf st hst j hj (fun _ _ => trivial) new r hr
  rw [hu, ho, hn', hc] at this
  exact this

theorem three_get {α : Type} (u o : Bool) (x y : α) (f : ℕ → α) (n k : ℕ) (l : α) :
    ((if u = true then [x] else []) ++ (List.range n).map f ++ (if o = true then [y] else []))[k]? = some l ↔
      (u = true ∧ k = 0 ∧ l = x) ∨ (∃ j : ℕ, j < n ∧ k = j + b2n u ∧ l = f j) ∨ (o = true ∧ k = n + b2n u ∧ l = y) := by
  have hmid : ∀ q : ℕ, ((List.range n).map f)[q]? = some l ↔ q < n ∧ l = f q := by
    intro q
    by_cases hq : q < n
    · simp [hq, eq_comm]
    · simp [hq]
  have hend : ∀ q : ℕ, (if o = true then [y] else [])[q]? = some l ↔ o = true ∧ q = 0 ∧ l = y := by
    intro q
    cases o
    · simp
    · cases q <;> simp [eq_comm]
  cases u
  · simp only [Bool.false_eq_true, if_false, List.nil_append, List.getElem?_append, List.length_map, List.length_range, b2n, false_and,
      false_or, add_zero]
    split
    · rw [hmid]
      grind
    · rw [hend]
      grind
  · simp only [if_true, List.singleton_append, b2n]
    cases k with
    | zero => simp [eq_comm]
    | succ k =>
      simp only [List.cons_append, List.getElem?_cons_succ, List.getElem?_append, List.length_map, List.length_range]
      split
      · rw [hmid]
        grind
      · rw [hend]
        grind

/-- The bins of an intbin axis hold the same integers as those of the split axis it is turned into. -/
theorem intbin_asSplit (min max : ℤ) (u o : Bool) (a : IntbinAxis) (ha : IntbinAxis.init min max u o = .ok a) :
    ∃ s : SplitAxis, (FixedAxis.intbin a).asSplit = .ok s ∧ s.Good ∧ s.underflow = u ∧ s.overflow = o ∧ s.nanflow = false ∧ s.closedlow = true ∧
      (FixedAxis.intbin a).totbins = s.totbins ∧ s.edges = (List.range ((max - min + 1).toNat + 1)).map (fun i : ℕ => (min : ℚ) - 1 / 2 + i) ∧
      ∀ (v : Val) (i : ℤ), v.toNum = .fin i → ∀ k, (FixedAxis.intbin a).holds k v = (FixedAxis.split s).holds k v := by
  unfold IntbinAxis.init at ha
  split at ha
  · cases ha
  cases ha
  rename_i hmm
  obtain ⟨m, hm⟩ := Int.eq_ofNat_of_zero_le (show 0 ≤ max - min by omega)
  have hnb : (max - min + 1).toNat = m + 1 := by omega
  have hmq : (max : ℚ) = min + m := by
    have : max = min + m := by omega
    rw [this]; push_cast; rfl
  set b : BinAxis := ⟨m + 1, min - 1 / 2, max + 1 / 2, u, o, false, true⟩ with hb
  have hbi : BinAxis.init (m + 1) (min - 1 / 2) (max + 1 / 2) u o false true = .ok b := by
    refine BinAxis.init_of_lt b (Nat.succ_pos m) ?_
    show (min : ℚ) - 1 / 2 < max + 1 / 2
    rw [hmq]
    have : (0 : ℚ) ≤ m := Nat.cast_nonneg m
    linarith
  have hbin : IntbinAxis.bin ⟨min, max, u, o⟩ = .ok b := by
    unfold IntbinAxis.bin
    simp only [hnb]
    exact hbi
  obtain ⟨s, h1, h2, h3, _⟩ := C07_bin_split_same _ _ _ _ _ _ _ b hbi (Nat.succ_pos m)
  obtain ⟨hg, hperm, hu, ho, hn, hc, _⟩ := SplitAxis.init_ok h1
  have hi2x : ∀ i, b.i2x i = (min : ℚ) - 1 / 2 + i := by
    intro i
    unfold BinAxis.i2x
    simp only [hb]
    rw [hmq]
    have : ((m : ℚ) + 1) ≠ 0 := by positivity
    push_cast
    field_simp
    ring
  have hedges : s.edges = (List.range ((max - min + 1).toNat + 1)).map (fun i : ℕ => (min : ℚ) - 1 / 2 + i) := by
    have hlist : (List.range b.numbins).map (fun i => b.i2x i) ++ [b.high] = (List.range ((max - min + 1).toNat + 1)).map (fun i : ℕ => (min : ℚ) - 1 / 2 + i) := by
      rw [hnb, List.range_succ (n := m + 1), List.map_append]
      congr 1
      · exact List.map_congr_left fun i _ => hi2x i
      · simp only [List.map_cons, List.map_nil, hb, hmq]
        congr 1
        push_cast
        ring
    rw [hlist] at hperm
    refine List.Perm.eq_of_pairwise (le := (· < ·)) (fun _ _ _ _ h h' => absurd h (not_lt.2 h'.le)) hg.2 ?_ hperm
    rw [List.pairwise_map]
    refine (List.pairwise_lt_range).imp fun h => ?_
    have : ∀ x y : ℕ, x < y → (x : ℚ) < y := fun x y h => by exact_mod_cast h
    linarith [this _ _ h]
  refine ⟨s, ?_, hg, hu, ho, hn, hc, ?_, hedges, ?_⟩
  · unfold FixedAxis.asSplit
    simp only [hbin]
    exact h1
  · rw [h3]
    show (IntbinAxis.totbins _).toNat = _
    unfold IntbinAxis.totbins IntbinAxis.numbins BinAxis.totbins
    simp only [hb]
    cases u <;> cases o <;> simp [b2i, b2n] <;> omega
  · intro v i hv k
    have hsk : (FixedAxis.split s).keys = flowKeys b.i2x (m + 1) u o false true := by
      show s.keys = _
      rw [h2, BinAxis.keys_eq b (Nat.succ_pos m)]
    rw [Bool.eq_iff_iff, flow_holds (.split s) _ _ _ _ _ _ hsk k v]
    have hab : ∀ j : ℕ, above true (b.i2x j) v.toNum = decide (min + j ≤ i) := by
      intro j
      rw [hv, hi2x]
      simp only [above, if_true, Num.le]
      rw [Bool.eq_iff_iff, decide_eq_true_iff, decide_eq_true_iff]
      constructor
      · intro h
        have h' : (min : ℚ) + j - 1 < i := by linarith
        have : min + j - 1 < i := by exact_mod_cast h'
        omega
      · intro h
        have : (min : ℚ) + j ≤ i := by exact_mod_cast h
        linarith
    simp only [hab]
    have hh : (FixedAxis.intbin ⟨min, max, u, o⟩).holds k v = true ↔ ∃ l, (IntbinAxis.keys ⟨min, max, u, o⟩)[k]? = some l ∧ l.mem v.toNum := by
      unfold FixedAxis.holds
      constructor
      · intro h
        split at h
        · rename_i l hl
          exact ⟨l, hl, (IntbinAxis.in_keys _ l (List.mem_of_getElem? hl) v).1 h⟩
        · cases h
      · rintro ⟨l, hl, hm⟩
        have : (FixedAxis.intbin ⟨min, max, u, o⟩).keys[k]? = some l := hl
        rw [this]
        exact (IntbinAxis.in_keys _ l (List.mem_of_getElem? hl) v).2 hm
    rw [hh, hv]
    have hget : ∀ l, (IntbinAxis.keys ⟨min, max, u, o⟩)[k]? = some l ↔ (u = true ∧ k = 0 ∧ l = .iv .ninf (.fin min) true false) ∨
        (∃ j : ℕ, j < m + 1 ∧ k = j + b2n u ∧ l = .int (min + j)) ∨ (o = true ∧ k = m + 1 + b2n u ∧ l = .iv (.fin max) .pinf false true) := by
      intro l
      unfold IntbinAxis.keys IntbinAxis.numbins
      simp only [hnb]
      exact three_get u o _ _ (fun i : ℕ => BinLabel.int (min + i)) (m + 1) k l
    constructor
    · rintro ⟨l, hl, hm'⟩
      rcases (hget l).1 hl with ⟨g1, g2, rfl⟩ | ⟨j, g1, g2, rfl⟩ | ⟨g1, g2, rfl⟩
      · refine Or.inl ⟨g1, g2, by simp, ?_⟩
        simp only [BinLabel.mem, Num.lt, Bool.false_eq_true, if_false, decide_eq_true_eq] at hm'
        have : i < min := by exact_mod_cast hm'.2
        simp
        omega
      · refine Or.inr (Or.inl ⟨j, g1, g2, by simp, ?_, ?_⟩)
        · simp only [BinLabel.mem, Num.fin.injEq] at hm'
          have : i = min + j := by exact_mod_cast hm'
          simp
          omega
        · simp only [BinLabel.mem, Num.fin.injEq] at hm'
          have : i = min + j := by exact_mod_cast hm'
          simp
          omega
      · refine Or.inr (Or.inr (Or.inl ⟨g1, g2, by simp, ?_⟩))
        simp only [BinLabel.mem, Num.lt, Bool.false_eq_true, if_false, decide_eq_true_eq] at hm'
        have : max < i := by exact_mod_cast hm'.1
        simp
        omega
    · rintro (⟨g1, g2, _, g4⟩ | ⟨j, g1, g2, _, g4, g5⟩ | ⟨g1, g2, _, g4⟩ | ⟨g1, _⟩)
      · refine ⟨_, (hget _).2 (Or.inl ⟨g1, g2, rfl⟩), ?_⟩
        simp only [decide_eq_false_iff_not, add_zero, not_le, Nat.cast_zero] at g4
        have : (i : ℚ) < min := by exact_mod_cast g4
        simp [BinLabel.mem, Num.lt, Num.le, this]
      · refine ⟨_, (hget _).2 (Or.inr (Or.inl ⟨j, g1, g2, rfl⟩)), ?_⟩
        simp only [decide_eq_true_eq, decide_eq_false_iff_not] at g4 g5
        have : i = min + j := by push_cast at g5; omega
        simp [BinLabel.mem, this]
      · refine ⟨_, (hget _).2 (Or.inr (Or.inr ⟨g1, g2, rfl⟩)), ?_⟩
        simp only [decide_eq_true_eq] at g4
        have : (max : ℚ) < i := by
          have : max < i := by push_cast at g4; omega
          exact_mod_cast this
        simp [BinLabel.mem, Num.lt, Num.le, this]
      · cases g1

/-- C41, intbin axis with integer data.  (The new axis is a split axis whose edges lie between the
integers.) -/
theorem C41_rebin_intbin (min max : ℤ) (u o : Bool) (a : IntbinAxis) (ha : IntbinAxis.init min max u o = .ok a)
    (H : HistDef) (bs : List (List Row)) (hf : Fillable H bs) (st : H.State) (hst : H.fillAll none bs = .ok st) (j : ℕ)
    (hj : H.fixed[j]? = some (.intbin a)) (hint : ∀ rs ∈ bs, ∀ row ∈ rs, ∃ i : ℤ, (row.fvals.getD j (.num .nan)).toNum = .fin i)
    (new : List ℚ) (r : Σ H' : HistDef, H'.State) (hr : H.rebin j new st = .ok r) :
    ∃ b, SplitAxis.init new u o false true = .ok b ∧ r.1 = H.setFixed j (.split b) ∧ Represents r.1 bs.flatten r.2 ∧
      ((H.nprof = 0 ∨ ∀ rs ∈ bs, ∀ row ∈ rs, ¬ row.leftOut r.1) → r.1.ReadsLikeFill r.2 bs) := by
  obtain ⟨s, h1, hg, rfl, rfl, hn, hc, h3, _, h4⟩ := intbin_asSplit min max u o a ha
  have := rebin_represents (.intbin a) s hg (fun v => ∃ i : ℤ, v.toNum = .fin i) (fun v ⟨i, hi⟩ k => h4 v i hi k) h3 h1 H bs hf st hst j hj
    (fun row hrow => by
      obtain ⟨rs, hrs, hr'⟩ := List.mem_flatten.1 hrow
      exact hint rs hrs row hr') new r hr
  rw [hn, hc] at this
  exact this

/-- C41: which rebinnings are accepted.  All new edges must be old edges, at least one, none twice, and
the new axis must have a bin at all. -/
theorem C41_rebin_accepts (H : HistDef) (st : H.State) (j : ℕ) (x : FixedAxis) (hj : H.fixed[j]? = some x) (a : SplitAxis)
    (hx : x.asSplit = .ok a) (new : List ℚ) :
    (∃ r, H.rebin j new st = .ok r) ↔ (∀ e ∈ new, e ∈ a.edges) ∧ new ≠ [] ∧ new.Nodup ∧
      (2 ≤ new.length ∨ a.underflow = true ∨ a.overflow = true ∨ a.nanflow = true) := by
  have hinit : (∃ b, SplitAxis.init new a.underflow a.overflow a.nanflow a.closedlow = .ok b) ↔ new ≠ [] ∧ new.Nodup ∧
      (2 ≤ new.length ∨ a.underflow = true ∨ a.overflow = true ∨ a.nanflow = true) := by
    unfold SplitAxis.init
    have hnd : (new.insertionSort (· ≤ ·)).Nodup ↔ new.Nodup := (List.perm_insertionSort (· ≤ ·) new).nodup_iff
    have hl := (List.perm_insertionSort (· ≤ ·) new).length_eq
    simp only [hnd, SplitAxis.totbins, hl]
    split
    · rename_i h
      have : new = [] := List.length_eq_zero_iff.1 (by omega)
      simp [this]
    · rename_i h
      have hne : new ≠ [] := fun h' => h (by simp [h'])
      split
      · rename_i h2
        simp [h2]
      · rename_i h2
        rw [not_not] at h2
        split
        · rename_i h3
          refine iff_of_false (by simp) ?_
          rintro ⟨_, _, h4⟩
          revert h3 h4
          cases a.underflow <;> cases a.overflow <;> cases a.nanflow <;> simp [b2n] <;> omega
        · rename_i h3
          refine iff_of_true ⟨_, rfl⟩ ⟨hne, h2, ?_⟩
          revert h3
          cases a.underflow <;> cases a.overflow <;> cases a.nanflow <;> simp [b2n] <;> omega
  rw [← hinit]
  unfold HistDef.rebin HistDef.rebinAny SplitAxis.rebinned
  rw [hj]
  simp only [hx]
  by_cases hs : new.all (fun e => a.edges.contains e) = true
  · rw [if_pos hs]
    have hs' : ∀ e ∈ new, e ∈ a.edges := fun e he => by simpa using List.all_eq_true.1 hs e he
    cases SplitAxis.init new a.underflow a.overflow a.nanflow a.closedlow <;> simp
    exact hs'
  · rw [if_neg hs]
    refine iff_of_false (by simp) ?_
    rintro ⟨h, _⟩
    exact hs (List.all_eq_true.2 fun e he => by simpa using h e he)

/-- what a user sees of a one-dimensional histogram after filling it and rebinning, for examples -/
def rebinDemo (a : FixedAxis) (vs : List Val) (edges : List ℚ) : Except Err (List FixedAxis × List ℚ) :=
  let H : HistDef := ⟨[], [a], 0, .none⟩
  match H.fillAll none [vs.map (fun v => ⟨[], [v], [], none⟩)] with
  | .error e => .error e.1
  | .ok none => .error .assertion
  | .ok (some (x : Arr)) =>
    match H.rebin 0 edges (some x), a.asSplit with
    | .error e, _ => .error e
    | .ok r, .ok a =>
      match a.rebinned edges with
      | .error e => .error e
      | .ok b =>
        let y := x.rebin 0 (rebinRanges a b) b.totbins
        .ok (r.1.fixed, (List.range (y.shape.headD 0)).map (fun i => y.get [i] 0))
    | _, _ => .error .assertion

/-- `Hist(bin("x", 4, 0, 4)).rebin("x", [3, 1])` -/
example : rebinDemo (.bin ⟨4, 0, 4, true, true, true, true⟩)
    [.num (.fin (-3)), .num (.fin (1 / 2)), .num (.fin 1), .num (.fin 2), .num (.fin 3), .num (.fin 9), .num .nan] [3, 1]
    = .ok ([.split ⟨[1, 3], true, true, true, true⟩], [2, 2, 2, 1]) := by decide +kernel

/-- no underflow: rows below the first new edge are dropped -/
example : rebinDemo (.split ⟨[0, 1, 2, 5], false, true, false, false⟩)
    [.num (.fin 1), .num (.fin 2), .num (.fin 3), .num (.fin 9)] [1, 5]
    = .ok ([.split ⟨[1, 5], false, true, false, false⟩], [2, 1]) := by decide +kernel

/-- `Hist(intbin("n", 1, 4)).rebin("n", [0.5, 2.5])` -/
example : rebinDemo (.intbin ⟨1, 4, true, true⟩) [.int 0, .int 1, .int 2, .int 3, .int 9] [1 / 2, 5 / 2]
    = .ok ([.split ⟨[1 / 2, 5 / 2], true, true, false, true⟩], [1, 2, 2]) := by decide +kernel

/-- an edge that is not an edge of the axis -/
example : rebinDemo (.bin ⟨4, 0, 4, true, true, true, true⟩) [.num (.fin 1)] [1, 5 / 2] = .error .valueError := by decide +kernel

/-! ## C42 -/

/-- C42 is false: `rebinby` raises for every axis (group or fixed) and every positive factor, whatever the
content; for rebinnable fixed axes because the factor arrives where a list of edges is expected. -/
theorem C42_rebinby_refuted (H : HistDef) (i : ℕ) (factor : ℤ) (st : H.State) : ∃ e, H.rebinby i factor st = .error e := by
  unfold HistDef.rebinby
  split
  · exact ⟨_, rfl⟩
  · split
    · exact ⟨_, rfl⟩
    · exact ⟨_, rfl⟩
    · split
      · exact ⟨_, rfl⟩
      · exact ⟨_, rfl⟩
      · rename_i x _ _
        unfold HistDef.rebinAny
        split <;> exact ⟨_, rfl⟩

/-- C42: the error is a `TypeError` for a valid factor on any bin, intbin or split axis. -/
theorem C42_rebinby_typeError (H : HistDef) (j : ℕ) (x : FixedAxis) (hj : H.fixed[j]? = some x) (a : SplitAxis) (hx : x.asSplit = .ok a)
    (factor : ℤ) (hf : 0 < factor) (st : H.State) : H.rebinby (H.groups.length + j) factor st = .error .typeError := by
  unfold HistDef.rebinby HistDef.rebinAny
  rw [if_neg (by omega), List.getElem?_eq_none (by omega), Nat.add_sub_cancel_left, hj]
  cases x with
  | cut => cases hx
  | _ => simp only [hx]

example : HistDef.rebinby ⟨[], [.bin ⟨4, 0, 4, true, true, true, true⟩], 0, .none⟩ 0 2 none = .error .typeError :=
  C42_rebinby_typeError ⟨[], [.bin ⟨4, 0, 4, true, true, true, true⟩], 0, .none⟩ 0 _ rfl ⟨[0, 1, 2, 3, 4], true, true, true, true⟩
    (by decide +kernel) 2 (by norm_num) none

end Verif
