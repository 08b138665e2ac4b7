import Verif.SpecBin

/-! # Lemmas about axes (helpers for the property theorems) -/

namespace Verif

/-- Common shape of `bin.keys` and `split.keys`: edges `e 0 < ... < e n` and flow bins. -/
def flowKeys (e : ℕ → ℚ) (n : ℕ) (u o na cl : Bool) : List BinLabel :=
  (if u then [.iv .ninf (.fin (e 0)) true (!cl)] else []) ++
  (List.range n).map (fun i => .iv (.fin (e i)) (.fin (e (i + 1))) cl (!cl)) ++
  (if o then [.iv (.fin (e n)) .pinf cl true] else []) ++
  (if na then [.nan] else [])

theorem flowKeys_length (e : ℕ → ℚ) (n : ℕ) (u o na cl : Bool) :
    (flowKeys e n u o na cl).length = n + b2n u + b2n o + b2n na := by
  cases u <;> cases o <;> cases na <;> simp [flowKeys, b2n] <;> omega

theorem flowKeys_get (e : ℕ → ℚ) (n : ℕ) (u o na cl : Bool) (i : ℕ) (k : BinLabel) :
    (flowKeys e n u o na cl)[i]? = some k ↔
      (u = true ∧ i = 0 ∧ k = .iv .ninf (.fin (e 0)) true (!cl)) ∨
      (∃ j, j < n ∧ i = j + b2n u ∧ k = .iv (.fin (e j)) (.fin (e (j + 1))) cl (!cl)) ∨
      (o = true ∧ i = n + b2n u ∧ k = .iv (.fin (e n)) .pinf cl true) ∨
      (na = true ∧ i = n + b2n u + b2n o ∧ k = .nan) := by
  have key : ∀ (L1 L2 : List BinLabel) (i : ℕ), (L1 ++ L2)[i]? = some k ↔
      L1[i]? = some k ∨ (L1.length ≤ i ∧ L2[i - L1.length]? = some k) := by
    intro L1 L2 i
    rw [List.getElem?_append]
    split
    · constructor
      · exact Or.inl
      · rintro (h | ⟨h, _⟩)
        · exact h
        · omega
    · constructor
      · intro h; exact Or.inr ⟨by omega, h⟩
      · rintro (h | ⟨_, h⟩)
        · have := (List.getElem?_eq_some_iff.1 h).1; omega
        · exact h
  have hmap : ∀ i : ℕ, ((List.range n).map (fun i => BinLabel.iv (.fin (e i)) (.fin (e (i + 1))) cl (!cl)))[i]? = some k ↔
      i < n ∧ k = .iv (.fin (e i)) (.fin (e (i + 1))) cl (!cl) := by
    intro i
    rw [List.getElem?_map]
    by_cases h : i < n
    · simp [h, eq_comm]
    · simp [h]
  have hs : ∀ (x : BinLabel) (i : ℕ), ([x] : List BinLabel)[i]? = some k ↔ i = 0 ∧ k = x := by
    intro x i; cases i <;> simp [eq_comm]
  unfold flowKeys
  rw [key, key, key, hmap]
  cases u <;> cases o <;> cases na <;> simp [b2n, hs] <;> constructor <;> intro h
  all_goals
    first
    | (rcases h with h | h
       · grind
       · grind)
    | grind

/-- `v` is above an edge, in the sense that matters for the closedness. -/
def above (cl : Bool) (x : ℚ) (v : Num) : Bool := if cl then Num.le (.fin x) v else Num.lt (.fin x) v

theorem not_above (cl : Bool) (x : ℚ) (v : Num) (hv : v ≠ .nan) :
    above cl x v = false ↔ (if !cl then Num.le v (.fin x) else Num.lt v (.fin x)) = true := by
  cases v <;> cases cl <;> simp_all [above, Num.le, Num.lt]

/-- What `bin`/`split` make of a raw position `p` (number of edges below). -/
def finish (u o : Bool) (n p : ℕ) : Option ℤ :=
  if p = 0 then (if u then some 0 else none)
  else if p = n + 1 then (if o then some (n + b2i u) else none)
  else some ((p : ℤ) - 1 + b2i u)

theorem le_ninf (v : Num) (hv : v ≠ .nan) : Num.le .ninf v = true := by
  cases v <;> simp_all [Num.le]

theorem le_pinf (v : Num) (hv : v ≠ .nan) : Num.le v .pinf = true := by
  cases v <;> simp_all [Num.le]

theorem finish_correct (e : ℕ → ℚ) (n : ℕ) (u o na cl : Bool) (v : Num) (hv : v ≠ .nan)
    (p : ℕ) (hp : p ≤ n + 1) (hab : ∀ i, i ≤ n → (i < p ↔ above cl (e i) v = true)) :
    IndexCorrect (flowKeys e n u o na cl) v (finish u o n p) := by
  have hU : (BinLabel.iv .ninf (.fin (e 0)) true (!cl)).mem v ↔ p = 0 := by
    have := hab 0 (by omega)
    have h2 := not_above cl (e 0) v hv
    simp only [BinLabel.mem, le_ninf v hv, if_true, true_and]
    rw [← h2, ← Bool.not_eq_true, ← this]; omega
  have hR : ∀ j, j < n → ((BinLabel.iv (.fin (e j)) (.fin (e (j + 1))) cl (!cl)).mem v ↔ p = j + 1) := by
    intro j hj
    have h0 := hab j (by omega)
    have h1 := hab (j + 1) (by omega)
    have h2 := not_above cl (e (j + 1)) v hv
    simp only [BinLabel.mem]
    rw [← h2, ← Bool.not_eq_true, ← h1]
    unfold above at h0
    rw [← h0]; omega
  have hO : (BinLabel.iv (.fin (e n)) .pinf cl true).mem v ↔ p = n + 1 := by
    have h0 := hab n (by omega)
    simp only [BinLabel.mem, le_pinf v hv, if_true, and_true]
    unfold above at h0
    rw [← h0]; omega
  have hN : ¬ BinLabel.nan.mem v := hv
  unfold finish
  by_cases h0 : p = 0
  · simp only [h0, if_true]
    cases hu : u
    · simp only [IndexCorrect]
      intro k hk
      obtain ⟨i, hi⟩ := List.getElem?_of_mem hk
      rw [flowKeys_get] at hi
      rcases hi with ⟨h, _⟩ | ⟨j, hj, _, rfl⟩ | ⟨_, _, rfl⟩ | ⟨_, _, rfl⟩
      · cases h
      · rw [hR j hj]; omega
      · rw [hO]; omega
      · exact hN
    · simp only [IndexCorrect, if_true]
      refine ⟨le_refl _, ⟨_, (flowKeys_get ..).2 (Or.inl ⟨rfl, rfl, rfl⟩), hU.2 h0⟩, ?_⟩
      intro j k hj hm
      rw [flowKeys_get] at hj
      rcases hj with ⟨_, rfl, _⟩ | ⟨j', hj', _, rfl⟩ | ⟨_, _, rfl⟩ | ⟨_, _, rfl⟩
      · rfl
      · rw [hR j' hj'] at hm; omega
      · rw [hO] at hm; omega
      · exact absurd hm hN
  · simp only [h0, if_false]
    by_cases h1 : p = n + 1
    · simp only [h1, if_true]
      cases ho : o
      · simp only [IndexCorrect]
        intro k hk
        obtain ⟨i, hi⟩ := List.getElem?_of_mem hk
        rw [flowKeys_get] at hi
        rcases hi with ⟨_, _, rfl⟩ | ⟨j, hj, _, rfl⟩ | ⟨h, _⟩ | ⟨_, _, rfl⟩
        · rw [hU]; omega
        · rw [hR j hj]; omega
        · cases h
        · exact hN
      · simp only [IndexCorrect, if_true]
        have hbi : (n : ℤ) + b2i u = ((n + b2n u : ℕ) : ℤ) := by cases u <;> simp [b2i, b2n]
        rw [hbi]
        refine ⟨by omega, ⟨_, (flowKeys_get ..).2 (Or.inr (Or.inr (Or.inl ⟨rfl, Int.toNat_natCast _, rfl⟩))), hO.2 h1⟩, ?_⟩
        intro j k hj hm
        rw [flowKeys_get] at hj
        rcases hj with ⟨_, _, rfl⟩ | ⟨j', hj', _, rfl⟩ | ⟨_, rfl, _⟩ | ⟨_, _, rfl⟩
        · rw [hU] at hm; omega
        · rw [hR j' hj'] at hm; omega
        · rfl
        · exact absurd hm hN
    · simp only [h1, if_false, IndexCorrect]
      have hbi : (p : ℤ) - 1 + b2i u = ((p - 1 + b2n u : ℕ) : ℤ) := by
        cases u <;> simp [b2i, b2n] <;> omega
      rw [hbi]
      have hpn : p - 1 < n := by omega
      refine ⟨by omega, ⟨_, (flowKeys_get ..).2 (Or.inr (Or.inl ⟨p - 1, hpn, Int.toNat_natCast _, rfl⟩)),
        (hR _ hpn).2 (by omega)⟩, ?_⟩
      intro j k hj hm
      rw [flowKeys_get] at hj
      rcases hj with ⟨_, _, rfl⟩ | ⟨j', hj', rfl, rfl⟩ | ⟨_, _, rfl⟩ | ⟨_, _, rfl⟩
      · rw [hU] at hm; omega
      · rw [hR j' hj'] at hm; congr 1; omega
      · rw [hO] at hm; omega
      · exact absurd hm hN

/-- NaN goes to the NaN bin or nowhere. -/
theorem nan_correct (e : ℕ → ℚ) (n : ℕ) (u o na cl : Bool) :
    IndexCorrect (flowKeys e n u o na cl) .nan
      (if na then some ((n : ℤ) + b2i u + b2i o) else none) := by
  have hiv : ∀ lo hi cl ch, ¬ (BinLabel.iv lo hi cl ch).mem .nan := by
    intro lo hi cl ch h
    have h1 := h.1
    cases cl <;> cases lo <;> simp [Num.le, Num.lt] at h1
  cases hna : na
  · simp only [IndexCorrect]
    intro k hk
    obtain ⟨i, hi⟩ := List.getElem?_of_mem hk
    rw [flowKeys_get] at hi
    rcases hi with ⟨_, _, rfl⟩ | ⟨j, hj, _, rfl⟩ | ⟨_, _, rfl⟩ | ⟨h, _⟩
    · exact hiv _ _ _ _
    · exact hiv _ _ _ _
    · exact hiv _ _ _ _
    · cases h
  · simp only [IndexCorrect, if_true]
    have hbi : (n : ℤ) + b2i u + b2i o = ((n + b2n u + b2n o : ℕ) : ℤ) := by
      cases u <;> cases o <;> simp [b2i, b2n]
    rw [hbi]
    refine ⟨by omega, ⟨_, (flowKeys_get ..).2 (Or.inr (Or.inr (Or.inr ⟨rfl, Int.toNat_natCast _, rfl⟩))), rfl⟩, ?_⟩
    intro j k hj hm
    rw [flowKeys_get] at hj
    rcases hj with ⟨_, _, rfl⟩ | ⟨j', hj', _, rfl⟩ | ⟨_, _, rfl⟩ | ⟨_, rfl, _⟩
    · exact absurd hm (hiv _ _ _ _)
    · exact absurd hm (hiv _ _ _ _)
    · exact absurd hm (hiv _ _ _ _)
    · rfl

/-! ## bin -/

theorem BinAxis.i2x_zero (a : BinAxis) : a.i2x 0 = a.low := by simp [BinAxis.i2x]

theorem BinAxis.i2x_numbins (a : BinAxis) (h : 0 < a.numbins) : a.i2x a.numbins = a.high := by
  have : (a.numbins : ℚ) ≠ 0 := by exact_mod_cast (by omega : a.numbins ≠ 0)
  unfold BinAxis.i2x
  rw [div_self this]; ring

theorem BinAxis.keys_eq (a : BinAxis) (h : 0 < a.numbins) :
    a.keys = flowKeys a.i2x a.numbins a.underflow a.overflow a.nanflow a.closedlow := by
  simp [BinAxis.keys, flowKeys, a.i2x_zero, a.i2x_numbins h]

/-- `e_i ≤ q` iff `i ≤ (q - low) * numbins / (high - low)`. -/
theorem BinAxis.i2x_le (a : BinAxis) (hn : 0 < a.numbins) (hlh : a.low < a.high) (i : ℕ) (q : ℚ) :
    a.i2x i ≤ q ↔ (i : ℚ) ≤ (q - a.low) * ((a.numbins : ℚ) / (a.high - a.low)) := by
  have hN : (0 : ℚ) < a.numbins := by exact_mod_cast hn
  have hd : 0 < a.high - a.low := by linarith
  unfold BinAxis.i2x
  have h1 : (i : ℚ) / a.numbins * (a.high - a.low) = (i : ℚ) / (a.numbins / (a.high - a.low)) := by
    field_simp
  rw [h1, ← le_sub_iff_add_le, div_le_iff₀ (div_pos hN hd)]

theorem BinAxis.i2x_lt (a : BinAxis) (hn : 0 < a.numbins) (hlh : a.low < a.high) (i : ℕ) (q : ℚ) :
    a.i2x i < q ↔ (i : ℚ) < (q - a.low) * ((a.numbins : ℚ) / (a.high - a.low)) := by
  have hN : (0 : ℚ) < a.numbins := by exact_mod_cast hn
  have hd : 0 < a.high - a.low := by linarith
  unfold BinAxis.i2x
  have h1 : (i : ℚ) / a.numbins * (a.high - a.low) = (i : ℚ) / (a.numbins / (a.high - a.low)) := by
    field_simp
  rw [h1, ← lt_sub_iff_add_lt, div_lt_iff₀ (div_pos hN hd)]

/-- The scaled position of a finite value. -/
def BinAxis.scaled (a : BinAxis) (q : ℚ) : ℚ := (q - a.low) * ((a.numbins : ℚ) / (a.high - a.low))

/-- Discretised position of a finite value: floor, or ceiling minus one. -/
def BinAxis.cellZ (a : BinAxis) (q : ℚ) : ℤ :=
  if a.closedlow then ⌊a.scaled q⌋ else ⌈a.scaled q⌉ - 1

theorem BinAxis.position_fin (a : BinAxis) (hlh : a.low < a.high) (q : ℚ) :
    a.position (.fin q) = some (.fin ((a.cellZ q + b2i a.underflow : ℤ) : ℚ)) := by
  have hd : a.high - a.low ≠ 0 := by intro h; linarith
  unfold BinAxis.position BinAxis.cellZ BinAxis.scaled
  simp only [hd, if_false, Num.subFin, Num.mulFin]
  cases a.closedlow <;> simp [Num.floor, Num.ceil, Num.addFin, sub_eq_add_neg, add_assoc, add_comm]

/-- Number of edges below a finite value. -/
def BinAxis.edgesBelow (a : BinAxis) (q : ℚ) : ℕ := (min (a.cellZ q + 1) (a.numbins + 1)).toNat

theorem BinAxis.edgesBelow_le (a : BinAxis) (q : ℚ) : a.edgesBelow q ≤ a.numbins + 1 := by
  unfold BinAxis.edgesBelow; omega

theorem BinAxis.edgesBelow_above (a : BinAxis) (hn : 0 < a.numbins) (hlh : a.low < a.high) (q : ℚ)
    (i : ℕ) (hi : i ≤ a.numbins) :
    i < a.edgesBelow q ↔ above a.closedlow (a.i2x i) (.fin q) = true := by
  have h1 := a.i2x_le hn hlh i q
  have h2 := a.i2x_lt hn hlh i q
  unfold BinAxis.edgesBelow BinAxis.cellZ above
  cases a.closedlow
  · simp only [Num.lt, Bool.false_eq_true, if_false, decide_eq_true_eq]
    rw [h2]
    have : ((i : ℤ) : ℚ) < a.scaled q ↔ (i : ℤ) < ⌈a.scaled q⌉ := Int.lt_ceil.symm
    unfold BinAxis.scaled at this ⊢
    rw [Int.cast_natCast] at this
    rw [this]; omega
  · simp only [Num.le, if_true, decide_eq_true_eq]
    rw [h1]
    have : ((i : ℤ) : ℚ) ≤ a.scaled q ↔ (i : ℤ) ≤ ⌊a.scaled q⌋ := Int.le_floor.symm
    unfold BinAxis.scaled at this ⊢
    rw [Int.cast_natCast] at this
    rw [this]; omega

theorem Num.toI32_intCast_low (z : ℤ) (h : z < -2147483648) :
    Num.toI32 (.fin (z : ℚ)) = -2147483648 := by
  simp only [Num.toI32, Num.truncQ_intCast]
  rw [if_neg]; omega

theorem BinAxis.clamp_fin (a : BinAxis) (z : ℤ) (h2 : z + b2i a.underflow ≤ 2147483647) :
    a.clamp (.fin ((z + b2i a.underflow : ℤ) : ℚ)) =
      finish a.underflow a.overflow a.numbins (min (z + 1) (a.numbins + 1)).toNat := by
  unfold BinAxis.clamp finish
  by_cases h1 : -2147483648 ≤ z + b2i a.underflow
  · rw [Num.toI32_intCast _ h1 h2]
    cases hu : a.underflow <;> cases ho : a.overflow <;> simp [Num.isnan, b2i, hu] at * <;>
      (try split_ifs) <;> (try simp) <;> omega
  · rw [Num.toI32_intCast_low _ (by omega)]
    cases hu : a.underflow <;> cases ho : a.overflow <;> simp [Num.isnan, b2i, hu] at * <;>
      (try split_ifs) <;> (try simp) <;> omega

theorem BinAxis.index_fin (a : BinAxis) (hlh : a.low < a.high) (q : ℚ)
    (h2 : a.cellZ q + b2i a.underflow ≤ 2147483647) :
    a.index (.fin q) = .ok (finish a.underflow a.overflow a.numbins (a.edgesBelow q)) := by
  unfold BinAxis.index
  rw [a.position_fin hlh q]
  simp only
  rw [a.clamp_fin _ h2]; rfl

theorem BinAxis.init_ok {numbins : ℕ} {low high : ℚ} {u o n cl : Bool} {a : BinAxis}
    (h : BinAxis.init numbins low high u o n cl = .ok a) :
    a = ⟨numbins, low, high, u, o, n, cl⟩ ∧ (0 < numbins → low < high) ∧ low ≤ high ∧ a.totbins ≠ 0 := by
  unfold BinAxis.init at h
  split at h
  · cases h
  · rename_i hc
    simp only at h
    split at h
    · cases h
    · cases h
      rename_i ht
      refine ⟨rfl, ?_, ?_, ht⟩
      · intro hn; by_contra hh; exact hc (Or.inl ⟨hn, by linarith⟩)
      · by_contra hh; exact hc (Or.inr (by linarith))

/-! ## split -/

/-- Edges strictly increasing and non-empty: what the constructor guarantees. -/
def SplitAxis.Good (a : SplitAxis) : Prop := a.edges ≠ [] ∧ a.edges.Pairwise (· < ·)

theorem SplitAxis.init_ok {edges : List ℚ} {u o n cl : Bool} {a : SplitAxis}
    (h : SplitAxis.init edges u o n cl = .ok a) :
    a.Good ∧ a.edges.Perm edges ∧ a.underflow = u ∧ a.overflow = o ∧ a.nanflow = n ∧ a.closedlow = cl ∧
      a.totbins ≠ 0 := by
  unfold SplitAxis.init at h
  split at h
  · cases h
  · rename_i hl
    simp only at h
    split at h
    · cases h
    · rename_i hnd
      split at h
      · cases h
      · cases h
        rename_i ht
        have hp : (edges.insertionSort (· ≤ ·)).Perm edges := List.perm_insertionSort _ _
        refine ⟨⟨?_, ?_⟩, hp, rfl, rfl, rfl, rfl, ht⟩
        · intro h0
          simp only at h0
          have := hp.length_eq
          rw [h0] at this; simp at this; simp [← this] at hl
        · have hs := List.pairwise_insertionSort (· ≤ ·) edges
          have hnd' := not_not.1 hnd
          unfold List.Nodup at hnd'
          exact (hs.and hnd').imp (fun ⟨h1, h2⟩ => lt_of_le_of_ne (by simpa using h1) h2)

theorem SplitAxis.keys_eq (a : SplitAxis) (h : a.edges ≠ []) :
    a.keys = flowKeys (fun i => a.edges.getD i 0) (a.edges.length - 1) a.underflow a.overflow a.nanflow a.closedlow := by
  unfold SplitAxis.keys flowKeys
  have h0 : a.edges.headD 0 = a.edges.getD 0 0 := by cases hh : a.edges <;> simp
  have h1 : a.edges.getLastD 0 = a.edges.getD (a.edges.length - 1) 0 := by
    cases hh : a.edges with
    | nil => simp
    | cons x xs => simp [List.getLastD, List.getLast_eq_getElem]
  rw [h0, h1]
  congr 2
  congr 1
  apply List.ext_getElem?
  intro i
  rw [List.getElem?_map, List.getElem?_map]
  by_cases hi : i < a.edges.length - 1
  · rw [List.getElem?_range hi]
    have h2 : (List.zip a.edges.dropLast a.edges.tail)[i]? = some (a.edges[i], a.edges[i+1]) := by
      rw [List.getElem?_zip_eq_some]
      constructor
      · rw [List.getElem?_eq_some_iff]; exact ⟨by simp; omega, by simp⟩
      · rw [List.getElem?_eq_some_iff]; exact ⟨by simp; omega, by simp⟩
    rw [h2]
    simp [List.getD, List.getElem?_eq_getElem (show i < a.edges.length by omega),
      List.getElem?_eq_getElem (show i + 1 < a.edges.length by omega)]
  · rw [List.getElem?_eq_none, List.getElem?_eq_none]
    · simp
    · simp; omega
    · simp; omega

theorem countP_prefix {P : ℚ → Bool} : ∀ {l : List ℚ}, l.Pairwise (· < ·) →
    (∀ x y, x ≤ y → P y = true → P x = true) →
    ∀ i (hi : i < l.length), (i < l.countP P ↔ P l[i] = true)
  | [], _, _, i, hi => by simp at hi
  | x :: xs, hs, hd, i, hi => by
    have ih := countP_prefix (List.Pairwise.of_cons hs) hd
    have hx := (List.pairwise_cons.1 hs).1
    by_cases hPx : P x = true
    · rw [List.countP_cons_of_pos hPx]
      cases i with
      | zero => simp [hPx]
      | succ i =>
        have := ih i (by simpa using hi)
        simp only [List.getElem_cons_succ]
        rw [← this]; omega
    · rw [List.countP_cons_of_neg hPx]
      have hz : xs.countP P = 0 := by
        rw [List.countP_eq_zero]
        intro y hy hPy
        exact hPx (hd x y (le_of_lt (hx y hy)) hPy)
      rw [hz]
      constructor
      · intro h; omega
      · intro h
        exfalso
        apply hPx
        cases i with
        | zero => simpa using h
        | succ i =>
          simp only [List.getElem_cons_succ] at h
          exact hd x _ (le_of_lt (hx _ (List.getElem_mem _))) h

theorem above_mono (cl : Bool) (v : Num) : ∀ x y, x ≤ y → above cl y v = true → above cl x v = true := by
  intro x y hxy
  cases cl <;> cases v <;> simp [above, Num.le, Num.lt]
  · intro h; linarith
  · intro h; linarith

theorem digitize_lt (l : List ℚ) (hl : l.Nodup) (v : Num) (hv : v ≠ .nan) :
    (digitize l v : ℤ) - (if isinEdges l v then 1 else 0) = (l.countP (above false · v) : ℤ) := by
  have hd : digitize l v = l.countP (fun e => Num.le (.fin e) v) := by
    cases v <;> simp_all [digitize]
  rw [hd]
  cases v with
  | nan => exact absurd rfl hv
  | ninf => simp [isinEdges, above, Num.le, Num.lt]
  | pinf => simp [isinEdges, above, Num.le, Num.lt]
  | fin q =>
    simp only [isinEdges, above, Num.le, Num.lt, Bool.false_eq_true, if_false]
    have hkey : ∀ l : List ℚ, l.countP (fun e => decide (e ≤ q)) = l.countP (fun e => decide (e < q)) + l.count q := by
      intro l
      induction l with
      | nil => simp
      | cons x xs ih =>
        simp only [List.countP_cons, List.count_cons, ih]
        by_cases h1 : x < q
        · simp [h1, le_of_lt h1, ne_of_lt h1]; omega
        · by_cases h2 : x = q
          · simp [h2]; omega
          · have h3 : ¬ x ≤ q := fun h => h1 (lt_of_le_of_ne h h2)
            simp [h1, h2, h3]
    rw [hkey l]
    by_cases hm : q ∈ l
    · rw [List.count_eq_one_of_mem hl hm]; simp [hm]
    · rw [List.count_eq_zero_of_not_mem hm]; simp [hm]

theorem SplitAxis.index_eq (a : SplitAxis) (h : a.Good) (v : Num) (hv : v ≠ .nan) :
    a.index v = finish a.underflow a.overflow (a.edges.length - 1) (a.edges.countP (above a.closedlow · v)) := by
  have hnd : a.edges.Nodup := h.2.imp (fun h => ne_of_lt h)
  have hlen : 0 < a.edges.length := List.length_pos_iff.2 h.1
  have hle : a.edges.countP (above a.closedlow · v) ≤ a.edges.length := List.countP_le_length
  have hnan : v.isnan = false := by cases v <;> simp_all [Num.isnan]
  have hraw : (if a.closedlow = true then (some (digitize a.edges v : ℤ))
       else if isinEdges a.edges v = true then (some (digitize a.edges v : ℤ)).map (· - 1)
       else some (digitize a.edges v : ℤ)) = some (a.edges.countP (above a.closedlow · v) : ℤ) := by
    cases hc : a.closedlow
    · have := digitize_lt a.edges hnd v hv
      rw [← this]
      by_cases hi : isinEdges a.edges v = true <;> simp [hi]
    · have hd : digitize a.edges v = a.edges.countP (fun e => Num.le (.fin e) v) := by
        cases v <;> simp_all [digitize]
      simp [hd, above]
  unfold SplitAxis.index
  simp only [hraw, hnan]
  generalize a.edges.countP (above a.closedlow · v) = p at *
  unfold finish b2i
  cases hu : a.underflow <;> cases ho : a.overflow <;> simp <;>
      (try split_ifs) <;> (try simp) <;> omega

theorem SplitAxis.index_nan (a : SplitAxis) (h : a.Good) :
    a.index .nan = if a.nanflow then some (((a.edges.length - 1 : ℕ) : ℤ) + b2i a.underflow + b2i a.overflow) else none := by
  have hlen : 0 < a.edges.length := List.length_pos_iff.2 h.1
  obtain ⟨m, hm⟩ : ∃ m, a.edges.length = m + 1 := ⟨a.edges.length - 1, by omega⟩
  unfold SplitAxis.index b2i
  rw [hm]
  cases hu : a.underflow <;> cases ho : a.overflow <;> cases hn : a.nanflow <;> simp [Num.isnan] <;>
    (try split_ifs) <;> (try simp) <;> omega

end Verif
