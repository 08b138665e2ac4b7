import Verif.SelectLemmas
import Verif.PropsProject

/-!
# Selections: property theorems C34-C38 and C40

Each theorem starts from a histogram that was filled in any number of batches; `rowsWhere j p` are the
rows whose value on axis `j` satisfies `p`.  `Represents` (Verif.SpecProj) says that a content is what
the given rows should give.
-/

namespace Verif

/-! ## helpers -/

theorem flatten_filter (j : ℕ) (p : Val → Bool) (bs : List (List Row)) : (bs.map (rowsWhere j p)).flatten = rowsWhere j p bs.flatten := by
  unfold rowsWhere
  rw [List.filter_flatten]

/-- The content reads the same as that of a histogram filled with these batches. -/
def HistDef.ReadsLikeFill (H : HistDef) (st : H.State) (bs : List (List Row)) : Prop :=
  ∃ st', H.fillAll none bs = .ok st' ∧
    ∀ gk, gk.length = H.groups.length → ∀ idx, H.Cell idx → ∀ col, H.read st gk idx col = H.read st' gk idx col

theorem Represents.readsLikeFill {H : HistDef} {rows : List Row} {st : H.State} (h : Represents H rows st) (bs : List (List Row))
    (hbs : bs.flatten = rows) (hf : Fillable H bs) : H.ReadsLikeFill st bs := by
  obtain ⟨st', h1, h2⟩ := Represents.ofFill H bs hf
  refine ⟨st', h1, fun gk hgk idx hidx col => ?_⟩
  rw [h.totals gk hgk idx hidx col, h2.totals gk hgk idx hidx col, hbs]

theorem select_ok {H : HistDef} {j : ℕ} {cmp : Cmp} {value : Num} {tol : ℚ} {st : H.State} {a : FixedAxis} (ha : H.fixed[j]? = some a)
    {r : Σ H' : HistDef, H'.State} (h : H.select j cmp value tol st = .ok r) :
    ∃ a' s, a.select cmp value tol = .ok (.cut a' s) ∧ r = ⟨H.setFixed j a', H.sliced j a' s st⟩ := by
  unfold HistDef.select at h
  rw [ha] at h
  simp only at h
  split at h
  · cases h
  · cases h
  · rename_i a' s hs
    exact ⟨a', s, hs, by simpa using h.symm⟩

theorem map_cut {α β : Type} {f : α → β} {x : Except Err (SelRes α)} {b : β} {s : PySlice}
    (h : x.map (SelRes.map f) = .ok (.cut b s)) : ∃ a, x = .ok (.cut a s) ∧ f a = b := by
  cases x with
  | error e => cases h
  | ok r =>
    cases r with
    | cut a s' =>
      simp only [Except.map, SelRes.map, Except.ok.injEq, SelRes.cut.injEq] at h
      obtain ⟨rfl, rfl⟩ := h
      exact ⟨a, rfl, rfl⟩
    | no c w => cases h

theorem inBins'_holds : ∀ (as : List FixedAxis) (vs : List Val) (idx : List ℕ) (j : ℕ) (a : FixedAxis), as[j]? = some a →
    inBins' as vs idx = true → a.holds (idx.getD j 0) (vs.getD j (.num .nan)) = true
  | [], _, _, _, _, h, _ => by simp at h
  | _ :: _, [], _, _, _, _, h => by simp [inBins'] at h
  | _ :: _, _ :: _, [], _, _, _, h => by simp [inBins'] at h
  | a0 :: as, v :: vs, i :: idx, 0, a, ha, h => by
    simp only [List.getElem?_cons_zero, Option.some.injEq] at ha
    subst ha
    exact (Bool.and_eq_true_iff.1 h).1
  | a0 :: as, v :: vs, i :: idx, j + 1, a, ha, h =>
    inBins'_holds as vs idx j a (by simpa using ha) (Bool.and_eq_true_iff.1 h).2

theorem inBins'_set (a' : FixedAxis) (k : ℕ) : ∀ (as : List FixedAxis) (vs : List Val) (idx : List ℕ) (j : ℕ),
    a'.holds k (vs.getD j (.num .nan)) = true → inBins' as vs idx = true → inBins' (as.set j a') vs (idx.set j k) = true
  | [], [], [], _, _, _ => rfl
  | [], _ :: _, _, _, _, h => by simp [inBins'] at h
  | [], [], _ :: _, _, _, h => by simp [inBins'] at h
  | _ :: _, [], _, _, _, h => by simp [inBins'] at h
  | _ :: _, _ :: _, [], _, _, h => by simp [inBins'] at h
  | a0 :: as, v :: vs, i :: idx, 0, hk, h => Bool.and_eq_true_iff.2 ⟨hk, (Bool.and_eq_true_iff.1 h).2⟩
  | a0 :: as, v :: vs, i :: idx, j + 1, hk, h =>
    Bool.and_eq_true_iff.2 ⟨(Bool.and_eq_true_iff.1 h).1, inBins'_set a' k as vs idx j hk (Bool.and_eq_true_iff.1 h).2⟩

/-- Rows that the original histogram can be filled with can fill the histogram with the reduced axis, if
that axis handles their values. -/
theorem Fillable.setFixed {H : HistDef} {bs : List (List Row)} (hf : Fillable H bs) (j : ℕ) (a a' : FixedAxis) (p : Val → Bool)
    (ha : H.fixed[j]? = some a) (hred : a.Reduced a' p)
    (h : ∀ b ∈ bs, ∀ r ∈ b, p (r.fvals.getD j (.num .nan)) = true → a'.Handles (r.fvals.getD j (.num .nan))) :
    Fillable (H.setFixed j a') (bs.map (rowsWhere j p)) := by
  constructor
  · intro b hb r hr
    obtain ⟨b0, hb0, rfl⟩ := List.mem_map.1 hb
    obtain ⟨h1, h2⟩ := List.mem_filter.1 hr
    have ho := hf.ok b0 hb0 r h1
    exact ⟨ho.groups, forall₂_set ho.fixed j a' (.num .nan) (fun _ => h b0 hb0 r h1 h2), ho.xs⟩
  · refine hf.prof.imp id (fun hp b hb r hr hl => ?_)
    obtain ⟨b0, hb0, rfl⟩ := List.mem_map.1 hb
    obtain ⟨h1, h2⟩ := List.mem_filter.1 hr
    refine hp b0 hb0 r h1 fun idx => ?_
    by_contra hi
    rw [Bool.not_eq_false] at hi
    have h3 := inBins'_holds H.fixed r.fvals idx j a ha hi
    unfold FixedAxis.holds at h3
    split at h3
    · rename_i l hl'
      have h4 := hred.all _ l (List.mem_of_getElem? hl') h3 h2
      obtain ⟨k, hk⟩ := List.mem_iff_getElem?.1 h4
      have h5 : a'.holds k (r.fvals.getD j (.num .nan)) = true := by
        unfold FixedAxis.holds
        rw [hk]
        exact h3
      have h6 := inBins'_set a' k H.fixed r.fvals idx j h5 hi
      have h7 := hl (idx.set j k)
      cases (show false = true from h7.symm.trans h6)
    · cases h3

theorem SplitAxis.init_of_good (a : SplitAxis) (hg : a.Good) (ht : a.totbins ≠ 0) :
    SplitAxis.init a.edges a.underflow a.overflow a.nanflow a.closedlow = .ok a := by
  unfold SplitAxis.init
  have h1 : a.edges.insertionSort (· ≤ ·) = a.edges := List.Pairwise.insertionSort_eq (hg.2.imp (fun h => h.le))
  have h2 : ¬ a.edges.length < 1 := by
    have := List.length_pos_iff.2 hg.1
    omega
  have h3 : a.edges.Nodup := hg.2.imp (fun h => ne_of_lt h)
  rw [if_neg h2]
  simp only [h1, h3, not_true, if_false]
  rw [if_neg ht]

theorem BinAxis.init_of_lt (a : BinAxis) (hn : 0 < a.numbins) (h : a.low < a.high) :
    BinAxis.init a.numbins a.low a.high a.underflow a.overflow a.nanflow a.closedlow = .ok a := by
  unfold BinAxis.init
  rw [if_neg (by push Not; exact ⟨fun _ => h, h.le⟩)]
  simp only
  rw [if_neg]
  show a.numbins + _ + _ + _ ≠ 0
  omega

/-! ## C34 -/

/-- C34 (partial).  An accepted selection on a bin axis, with a tolerance of at most half a bin width:
there is an edge `x` of the axis within the tolerance of the threshold (the threshold itself if that is
an edge) such that the new axis has exactly the bins of values with `value cmp x`, and the content is
that of the rows with `value cmp x`.  The same content is obtained by filling a histogram with the new
axis with these rows (if at least one ordinary bin is left, see C10, and for values in the range of C01).

Full statement: the same for any tolerance, with the threshold itself in place of `x`.  It is false for
large tolerances, `C37_large_tolerance_refuted`; `C37_tolerance_harmless` says for which data the
threshold may replace `x`. -/
theorem C34_select_bin_partial (numbins : ℕ) (low high : ℚ) (u o n cl : Bool) (a : BinAxis)
    (ha : BinAxis.init numbins low high u o n cl = .ok a) (hn : 0 < numbins) (H : HistDef) (bs : List (List Row)) (hf : Fillable H bs)
    (st : H.State) (hst : H.fillAll none bs = .ok st) (j : ℕ) (hj : H.fixed[j]? = some (.bin a)) (cmp : Cmp) (v tol : ℚ)
    (htol : 2 * tol * numbins ≤ high - low) (r : Σ H' : HistDef, H'.State) (hr : H.select j cmp (.fin v) tol st = .ok r) :
    ∃ (a' : BinAxis) (x : ℚ), r.1 = H.setFixed j (.bin a') ∧
      (∃ m : ℕ, m ≤ numbins ∧ x = low + m * ((high - low) / numbins)) ∧ |v - x| < tol ∧
      ((∃ m : ℕ, m ≤ numbins ∧ v = low + m * ((high - low) / numbins)) → x = v) ∧
      (FixedAxis.bin a).Reduced (.bin a') (fun w => cmp.test w.toNum (.fin x)) ∧
      Represents r.1 (rowsWhere j (fun w => cmp.test w.toNum (.fin x)) bs.flatten) r.2 ∧
      (0 < a'.numbins → (∀ b ∈ bs, ∀ row ∈ b, ∀ q, (row.fvals.getD j (.num .nan)).toNum = .fin q →
          (q - low) * (numbins / (high - low)) ≤ 2147483645) →
        (∀ b ∈ bs, ∀ row ∈ b, (row.fvals.getD j (.num .nan)).toNum ≠ .ninf ∧ (row.fvals.getD j (.num .nan)).toNum ≠ .pinf) →
        r.1.ReadsLikeFill r.2 (bs.map (rowsWhere j (fun w => cmp.test w.toNum (.fin x))))) := by
  obtain ⟨rfl, hlt, _, _⟩ := BinAxis.init_ok ha
  have hlh := hlt hn
  have hN : (0 : ℚ) < numbins := by exact_mod_cast hn
  have hd : (0 : ℚ) < high - low := by linarith
  obtain ⟨a0, s, h1, rfl⟩ := select_ok hj hr
  obtain ⟨a', h2, rfl⟩ := map_cut h1
  obtain ⟨m, hm, hclose, hcmp, hk, htot, hred⟩ := bin_select_fin _ hn hlh cmp v tol htol a' s h2
  obtain ⟨st0, e1, e2⟩ := Represents.ofFill H bs hf
  rw [hst] at e1
  cases e1
  have hi2x : ∀ i : ℕ, BinAxis.i2x ⟨numbins, low, high, u, o, n, cl⟩ i = low + i * ((high - low) / numbins) := by
    intro i
    unfold BinAxis.i2x
    field_simp
    ring
  have hrep := e2.sliced j (.bin ⟨numbins, low, high, u, o, n, cl⟩) (.bin a') hj s _ hk
  refine ⟨a', _, rfl, ⟨m, hm, hi2x m⟩, hclose, ?_, hk.reduced, hrep, ?_⟩
  · rintro ⟨k, hk1, hk2⟩
    have : k = m := by
      rw [hk2, hi2x m] at hclose
      have e : low + k * ((high - low) / numbins) - (low + m * ((high - low) / numbins)) = ((k : ℚ) - m) * ((high - low) / numbins) := by ring
      rw [e, abs_mul, abs_of_pos (div_pos hd hN)] at hclose
      have h3 : |(k : ℚ) - m| < 1 := by
        have h4 : tol ≤ 1 / 2 * ((high - low) / numbins) := by
          rw [← mul_div_assoc, le_div_iff₀ hN]
          linarith
        have h5 := hclose.trans_le h4
        have h6 := (mul_lt_mul_iff_left₀ (div_pos hd hN)).1 h5
        linarith
      have h7 : |(k : ℤ) - m| < 1 := by exact_mod_cast h3
      rw [abs_lt] at h7
      omega
    rw [hi2x m, hk2, this]
  · intro hn' hb hinf
    obtain ⟨k1, k2, k3⟩ := hred hn'
    have hN' : (0 : ℚ) < a'.numbins := by exact_mod_cast hn'
    have hd' : (0 : ℚ) < a'.high - a'.low := by linarith
    refine hrep.readsLikeFill _ (flatten_filter _ _ _) (hf.setFixed j (.bin ⟨numbins, low, high, u, o, n, cl⟩) (.bin a') _ hj hk.reduced ?_)
    intro b hb' row hrow _
    refine handles_bin a'.numbins a'.low a'.high a'.underflow a'.overflow a'.nanflow a'.closedlow a' (a'.init_of_lt hn' k1) hn' _ ?_
    have hi := hinf b hb' row hrow
    have hq := hb b hb' row hrow
    cases hv : (row.fvals.getD j (.num .nan)).toNum with
    | nan => exact Or.inl rfl
    | ninf => exact absurd hv hi.1
    | pinf => exact absurd hv hi.2
    | fin q =>
      refine Or.inr ⟨q, rfl, ?_⟩
      refine le_trans ?_ (hq q hv)
      have e3 : (a'.numbins : ℚ) / (a'.high - a'.low) = numbins / (high - low) := by
        rw [div_eq_div_iff hd'.ne' hd.ne']
        exact k3
      rw [e3]
      refine mul_le_mul_of_nonneg_right ?_ (div_pos hN hd).le
      have : low ≤ a'.low := k2
      linarith

/-- what a user sees of a one-dimensional histogram after filling it and selecting (the axis and the
entries of the array), for examples -/
def selectDemo (a : FixedAxis) (vs : List Val) (cmp : Cmp) (v : Num) (tol : ℚ) : Except Err (List FixedAxis × List ℚ) :=
  let H : HistDef := ⟨[], [a], 0, .none⟩
  match H.fillAll none [vs.map (fun v => ⟨[], [v], [], none⟩)] with
  | .error e => .error e.1
  | .ok none => .error .assertion
  | .ok (some (x : Arr)) =>
    match H.select 0 cmp v tol (some x), a.select cmp v tol with
    | .error e, _ => .error e
    | .ok r, .ok (.cut _ s) => .ok (r.1.fixed, (List.range ((x.slice 0 s).shape.headD 0)).map (fun i => (x.slice 0 s).get [i] 0))
    | _, _ => .error .assertion

/-! ## C35 -/

/-- C35.  An accepted selection on a split axis: there is an edge `x` within the tolerance of the
threshold, the nearest one (so the threshold itself if that is an edge), such that the new axis has
exactly the bins of values with `value cmp x`, and the content is that of the rows with `value cmp x`,
the same as that of a histogram with the new axis filled with these rows. -/
theorem C35_select_split (edges : List ℚ) (u o n cl : Bool) (a : SplitAxis)
    (ha : SplitAxis.init edges u o n cl = .ok a) (H : HistDef) (bs : List (List Row)) (hf : Fillable H bs)
    (st : H.State) (hst : H.fillAll none bs = .ok st) (j : ℕ) (hj : H.fixed[j]? = some (.split a)) (cmp : Cmp) (v tol : ℚ)
    (r : Σ H' : HistDef, H'.State) (hr : H.select j cmp (.fin v) tol st = .ok r) :
    ∃ (a' : SplitAxis) (x : ℚ), r.1 = H.setFixed j (.split a') ∧ x ∈ edges ∧ |v - x| < tol ∧ (∀ y ∈ edges, |v - x| ≤ |v - y|) ∧
      (v ∈ edges → x = v) ∧
      (FixedAxis.split a).Reduced (.split a') (fun w => cmp.test w.toNum (.fin x)) ∧
      Represents r.1 (rowsWhere j (fun w => cmp.test w.toNum (.fin x)) bs.flatten) r.2 ∧
      r.1.ReadsLikeFill r.2 (bs.map (rowsWhere j (fun w => cmp.test w.toNum (.fin x)))) := by
  obtain ⟨hg, hperm, _⟩ := SplitAxis.init_ok ha
  obtain ⟨a0, s, h1, rfl⟩ := select_ok hj hr
  obtain ⟨a', h2, rfl⟩ := map_cut h1
  obtain ⟨x, hx, hclose, hnear, hcmp, hk, htot, hg'⟩ := split_select_fin a hg.2 cmp v tol a' s h2
  obtain ⟨st0, e1, e2⟩ := Represents.ofFill H bs hf
  rw [hst] at e1
  cases e1
  have hrep := e2.sliced j (.split a) (.split a') hj s _ hk
  refine ⟨a', x, rfl, hperm.mem_iff.1 hx, hclose, fun y hy => hnear y (hperm.mem_iff.2 hy), ?_, hk.reduced, hrep, ?_⟩
  · intro hv
    have := hnear v (hperm.mem_iff.2 hv)
    rw [sub_self, abs_zero] at this
    have := abs_eq_zero.1 (le_antisymm this (abs_nonneg _))
    linarith
  · refine hrep.readsLikeFill _ (flatten_filter _ _ _) (hf.setFixed j (.split a) (.split a') _ hj hk.reduced ?_)
    intro b hb row hrow _
    exact handles_split _ _ _ _ _ a' (a'.init_of_good hg' htot) _

/-! ## C36 -/

/-- C36.  An accepted selection on an intbin axis, with a tolerance of at most 1/2: the threshold is
within the tolerance of an integer `k` of the axis, the new axis has exactly the bins of values with
`value cmp k`, and the content is that of the rows with `value cmp k`, the same as that of a histogram
with the new axis filled with these rows (integers in the range of C04). -/
theorem C36_select_intbin_partial (min max : ℤ) (u o : Bool) (a : IntbinAxis)
    (ha : IntbinAxis.init min max u o = .ok a) (H : HistDef) (bs : List (List Row)) (hf : Fillable H bs)
    (st : H.State) (hst : H.fillAll none bs = .ok st) (j : ℕ) (hj : H.fixed[j]? = some (.intbin a)) (cmp : Cmp) (v : Num) (tol : ℚ)
    (htol : 2 * tol ≤ 1) (r : Σ H' : HistDef, H'.State) (hr : H.select j cmp v tol st = .ok r) :
    ∃ (a' : IntbinAxis) (k : ℤ) (q : ℚ), r.1 = H.setFixed j (.intbin a') ∧ v = .fin q ∧ min ≤ k ∧ k ≤ max ∧ |q - k| < tol ∧
      ((∃ i : ℤ, q = i) → q = k) ∧
      (FixedAxis.intbin a).Reduced (.intbin a') (fun w => cmp.test w.toNum (.fin k)) ∧
      Represents r.1 (rowsWhere j (fun w => cmp.test w.toNum (.fin k)) bs.flatten) r.2 ∧
      ((∀ b ∈ bs, ∀ row ∈ b, ∃ i : ℤ, -2147483648 ≤ i + (b2i u - min) ∧ i + (b2i u - min) ≤ 2147483647 ∧
          (row.fvals.getD j (.num .nan) = .int i ∨ row.fvals.getD j (.num .nan) = .num (.fin i))) →
        r.1.ReadsLikeFill r.2 (bs.map (rowsWhere j (fun w => cmp.test w.toNum (.fin k))))) := by
  have ha' : a = ⟨min, max, u, o⟩ := by
    unfold IntbinAxis.init at ha
    split at ha
    · cases ha
    · exact (Except.ok.inj ha).symm
  subst ha'
  obtain ⟨a0, s, h1, rfl⟩ := select_ok hj hr
  obtain ⟨a', h2, rfl⟩ := map_cut h1
  obtain ⟨q, k, hv, hk1, hk2, hclose, hcmp, hk, hmm, hmin⟩ := int_select _ cmp v tol htol a' s h2
  obtain ⟨st0, e1, e2⟩ := Represents.ofFill H bs hf
  rw [hst] at e1
  cases e1
  have hrep := e2.sliced j (.intbin ⟨min, max, u, o⟩) (.intbin a') hj s _ hk
  refine ⟨a', k, q, rfl, hv, hk1, hk2, hclose, ?_, hk.reduced, hrep, ?_⟩
  · rintro ⟨i, rfl⟩
    have h3 : |(i : ℚ) - k| < 1 := by linarith
    have h4 : |i - k| < 1 := by exact_mod_cast h3
    rw [abs_lt] at h4
    have : i = k := by omega
    rw [this]
  · intro hb
    refine hrep.readsLikeFill _ (flatten_filter _ _ _) (hf.setFixed j (.intbin ⟨min, max, u, o⟩) (.intbin a') _ hj hk.reduced ?_)
    intro b hb' row hrow hp
    obtain ⟨i, hi1, hi2, hi3⟩ := hb b hb' row hrow
    have hp' : cmp.test (.fin i) (.fin k) = true := by
      rcases hi3 with h | h <;> rw [h] at hp <;> exact hp
    have hu : 0 ≤ b2i a'.underflow := by cases a'.underflow <;> simp [b2i]
    have hu' : 0 ≤ b2i u := by cases u <;> simp [b2i]
    have hi4 : -2147483648 ≤ i + (b2i a'.underflow - a'.min) ∧ i + (b2i a'.underflow - a'.min) ≤ 2147483647 := by
      rcases hmin with ⟨h3, h4⟩ | ⟨h3, h4, h5⟩
      · rw [h3, h4]
        exact ⟨hi1, hi2⟩
      · have h6 := h5 i hp'
        simp only at h3
        rw [h4] at hu ⊢
        simp only [b2i, Bool.false_eq_true, if_false]
        omega
    refine handles_intbin a'.min a'.max a'.underflow a'.overflow a' ?_ i _ ?_ hi4.2
    · unfold IntbinAxis.init
      rw [if_neg (by omega)]
    · rcases hi3 with h | h
      · exact Or.inl ⟨h, hi4.1⟩
      · exact Or.inr h

/-! ## C37 -/

/-- The inequalities that do not cut through the edge of a bin. -/
def Cmp.fits (closedlow : Bool) (cmp : Cmp) : Prop :=
  if closedlow then cmp = .lt ∨ cmp = .ge else cmp = .le ∨ cmp = .gt

/-- C37.  For a value that is not within the tolerance of the edge `x`, comparing with the edge gives the
same as comparing with the threshold. -/
theorem C37_tolerance_harmless (cmp : Cmp) (hc : cmp ∈ [Cmp.lt, .le, .gt, .ge]) (v x tol q : ℚ) (h1 : |v - x| < tol) (h2 : tol ≤ |q - x|) :
    cmp.test (.fin q) (.fin v) = cmp.test (.fin q) (.fin x) := by
  rw [abs_lt] at h1
  rw [le_abs] at h2
  simp only [List.mem_cons, List.not_mem_nil, or_false] at hc
  rcases hc with rfl | rfl | rfl | rfl <;> simp only [Cmp.test, Num.lt, Num.le, decide_eq_decide] <;> rcases h2 with h2 | h2 <;>
    constructor <;> intro h <;> linarith [h1.1, h1.2]

example : (Cmp.lt ∈ [Cmp.lt, .le, .gt, .ge]) ∧ |(1 : ℚ) - 2| < 3 ∧ (3 : ℚ) ≤ |(5 : ℚ) - 2| := by decide +kernel

theorem select_no {H : HistDef} {j : ℕ} {a : FixedAxis} (ha : H.fixed[j]? = some a) {cmp : Cmp} {v : Num} {tol : ℚ} (st : H.State)
    (h : (∃ c w, a.select cmp v tol = .ok (.no c w)) ∨ a.select cmp v tol = .error .valueError) :
    H.select j cmp v tol st = .error .valueError := by
  unfold HistDef.select
  rw [ha]
  rcases h with ⟨c, w, h⟩ | h <;> simp [h]

/-- C37.  On a bin axis a threshold that is not within the tolerance of any edge, or an inequality of the
wrong kind, is rejected with `ValueError`. -/
theorem C37_bin_rejects (numbins : ℕ) (low high : ℚ) (u o n cl : Bool) (a : BinAxis)
    (ha : BinAxis.init numbins low high u o n cl = .ok a) (hn : 0 < numbins) (H : HistDef) (st : H.State) (j : ℕ)
    (hj : H.fixed[j]? = some (.bin a)) (cmp : Cmp) (v tol : ℚ)
    (h : (∀ m : ℕ, m ≤ numbins → tol ≤ |v - (low + m * ((high - low) / numbins))|) ∨ ¬ cmp.fits cl) :
    H.select j cmp (.fin v) tol st = .error .valueError := by
  obtain ⟨rfl, hlt, _, _⟩ := BinAxis.init_ok ha
  have hlh := hlt hn
  have hN : (numbins : ℚ) ≠ 0 := by exact_mod_cast (by omega : numbins ≠ 0)
  have hd : high - low ≠ 0 := by intro h; linarith
  have hs : (numbins : ℚ) / (high - low) ≠ 0 := div_ne_zero hN hd
  refine select_no hj st (Or.inl ?_)
  simp only [FixedAxis.select, BinAxis.select, reduceCtorEq, false_and, or_self, if_false, hd, hs]
  split
  · rename_i hclose
    have hclose' := hclose
    generalize pyRound ((v - low) * (numbins / (high - low))) = z at *
    have hnear : ∃ m : ℕ, m ≤ numbins ∧ |v - (low + m * ((high - low) / numbins))| < tol := by
      refine ⟨(min (numbins : ℤ) (max 0 z)).toNat, by omega, ?_⟩
      have e : (((min (numbins : ℤ) (max 0 z)).toNat : ℕ) : ℚ) = ((min (numbins : ℤ) (max 0 z) : ℤ) : ℚ) := by
        have : (((min (numbins : ℤ) (max 0 z)).toNat : ℕ) : ℤ) = min (numbins : ℤ) (max 0 z) := by omega
        exact_mod_cast this
      rw [e]
      refine lt_of_eq_of_lt ?_ hclose
      congr 1
      field_simp
      ring
    have hw : ¬ cmp.fits cl := by
      rcases h with h | h
      · obtain ⟨m, hm, hlt⟩ := hnear
        exact absurd hlt (not_lt.2 (h m hm))
      · exact h
    unfold Cmp.fits at hw
    have h1 : ¬ ((cl = true ∧ cmp = .lt) ∨ (cl = false ∧ cmp = .le)) := by
      rintro (⟨rfl, rfl⟩ | ⟨rfl, rfl⟩) <;> simp at hw
    have h2 : ¬ ((cl = true ∧ cmp = .ge) ∨ (cl = false ∧ cmp = .gt)) := by
      rintro (⟨rfl, rfl⟩ | ⟨rfl, rfl⟩) <;> simp at hw
    rw [if_neg h1, if_neg h2]
    exact ⟨_, _, rfl⟩
  · exact ⟨_, _, rfl⟩

/-- C37.  The same for a split axis. -/
theorem C37_split_rejects (edges : List ℚ) (u o n cl : Bool) (a : SplitAxis) (ha : SplitAxis.init edges u o n cl = .ok a)
    (H : HistDef) (st : H.State) (j : ℕ) (hj : H.fixed[j]? = some (.split a)) (cmp : Cmp) (v tol : ℚ)
    (h : (∀ x ∈ edges, tol ≤ |v - x|) ∨ ¬ cmp.fits cl) : H.select j cmp (.fin v) tol st = .error .valueError := by
  obtain ⟨hg, hperm, _, _, _, rfl, _⟩ := SplitAxis.init_ok ha
  refine select_no hj st (Or.inl ?_)
  simp only [FixedAxis.select, SplitAxis.select, reduceCtorEq, false_and, or_self, if_false]
  split
  · rename_i hnone
    exfalso
    have hne := hg.1
    cases he : a.edges with
    | nil => exact hne he
    | cons z zs =>
      rw [he] at hnone
      unfold nearestEdge at hnone
      split at hnone
      · cases hnone
      · split at hnone <;> cases hnone
  · rename_i x m hx
    split
    · rename_i hclose
      obtain ⟨_, hm, _⟩ := nearestEdge_get v _ _ _ _ hx
      have hw : ¬ cmp.fits a.closedlow := by
        rcases h with h | h
        · exact absurd hclose (not_lt.2 (h x (hperm.mem_iff.1 (List.mem_of_getElem? hm))))
        · exact h
      unfold Cmp.fits at hw
      have h1 : ¬ ((a.closedlow = true ∧ cmp = .lt) ∨ (a.closedlow = false ∧ cmp = .le)) := by
        rintro (⟨h3, rfl⟩ | ⟨h3, rfl⟩) <;> simp [h3] at hw
      have h2 : ¬ ((a.closedlow = true ∧ cmp = .ge) ∨ (a.closedlow = false ∧ cmp = .gt)) := by
        rintro (⟨h3, rfl⟩ | ⟨h3, rfl⟩) <;> simp [h3] at hw
      rw [if_neg h1, if_neg h2]
      exact ⟨_, _, rfl⟩
    · exact ⟨_, _, rfl⟩

/-- C37.  On an intbin axis a threshold that is not within the tolerance (at most 1/2) of an integer of
the axis, or a comparison other than the four inequalities, is rejected with `ValueError`. -/
theorem C37_intbin_rejects_partial (a : IntbinAxis) (H : HistDef) (st : H.State) (j : ℕ) (hj : H.fixed[j]? = some (.intbin a)) (cmp : Cmp)
    (v tol : ℚ) (htol : 2 * tol ≤ 1)
    (h : (∀ k : ℤ, a.min ≤ k → k ≤ a.max → tol ≤ |v - k|) ∨ cmp ∉ [Cmp.lt, .le, .gt, .ge]) :
    H.select j cmp (.fin v) tol st = .error .valueError := by
  refine select_no hj st ?_
  have hres : (∃ a' s, a.select cmp (.fin v) tol = .ok (.cut a' s)) ∨ (∃ c w, a.select cmp (.fin v) tol = .ok (.no c w)) ∨
      a.select cmp (.fin v) tol = .error .valueError := by
    unfold IntbinAxis.select IntbinAxis.checkSel
    simp only
    split
    · exact Or.inr (Or.inl ⟨_, _, rfl⟩)
    · split
      · exact Or.inr (Or.inl ⟨_, _, rfl⟩)
      · split
        · cases cmp <;> simp only <;> (try split) <;> simp
        · exact Or.inr (Or.inl ⟨_, _, rfl⟩)
  rcases hres with ⟨a', s, hs⟩ | ⟨c, w, hs⟩ | hs
  · exfalso
    obtain ⟨q, k, hq, h1, h2, h3, h4, _⟩ := int_select a cmp _ tol htol a' s hs
    cases hq
    rcases h with h | h
    · exact absurd h3 (not_lt.2 (h k h1 h2))
    · exact h h4
  · exact Or.inl ⟨c, w, by simp [FixedAxis.select, hs, Except.map, SelRes.map]⟩
  · exact Or.inr (by simp [FixedAxis.select, hs, Except.map])

/-- C37.  A number as threshold for a cut is rejected with `ValueError`. -/
theorem C37_cut_rejects (H : HistDef) (st : H.State) (j : ℕ) (hj : H.fixed[j]? = some .cut) (cmp : Cmp) (v : Num) (tol : ℚ) :
    H.select j cmp v tol st = .error .valueError :=
  select_no hj st (Or.inl ⟨_, _, rfl⟩)

example : ({ groups := [], fixed := [.cut], nprof := 0, wkind := .none } : HistDef).fixed[0]? = some .cut := rfl

/-- C37.  A threshold at an edge with the right inequality is accepted on a bin axis, unless no bin
would be left. -/
theorem C37_bin_accepts (numbins : ℕ) (low high : ℚ) (u o n cl : Bool) (a : BinAxis)
    (ha : BinAxis.init numbins low high u o n cl = .ok a) (hn : 0 < numbins) (H : HistDef) (st : H.State) (j : ℕ)
    (hj : H.fixed[j]? = some (.bin a)) (cmp : Cmp) (tol : ℚ) (htol : 0 < tol) (m : ℕ) (hm : m ≤ numbins) (hfit : cmp.fits cl)
    (hleft : (cmp = .lt ∨ cmp = .le) → 0 < m ∨ u = true) (hright : (cmp = .gt ∨ cmp = .ge) → m < numbins ∨ o = true) :
    ∃ r, H.select j cmp (.fin (low + m * ((high - low) / numbins))) tol st = .ok r := by
  obtain ⟨rfl, hlt, _, _⟩ := BinAxis.init_ok ha
  have hlh := hlt hn
  have hN : (numbins : ℚ) ≠ 0 := by exact_mod_cast (by omega : numbins ≠ 0)
  have hd : high - low ≠ 0 := by intro h; linarith
  have hs : (numbins : ℚ) / (high - low) ≠ 0 := div_ne_zero hN hd
  have hz : (low + m * ((high - low) / numbins) - low) * ((numbins : ℚ) / (high - low)) = ((m : ℤ) : ℚ) := by
    push_cast
    field_simp
    ring
  have hround : pyRound (((m : ℤ) : ℚ)) = m := by
    simp [pyRound]
  have hmin : min (numbins : ℤ) (max 0 (m : ℤ)) = m := by omega
  have hclose : ((m : ℤ) : ℚ) / ((numbins : ℚ) / (high - low)) + low = low + m * ((high - low) / numbins) := by
    push_cast
    field_simp
    ring
  unfold HistDef.select
  rw [hj]
  simp only [FixedAxis.select, BinAxis.select, reduceCtorEq, false_and, or_self, if_false, hd, hs, hz, hround, hmin, hclose, sub_self,
    abs_zero, htol, if_true]
  have hb : ∀ b : Bool, b2n b = if b then 1 else 0 := fun b => rfl
  unfold Cmp.fits at hfit
  cases cl
  · rcases hfit with rfl | rfl
    · have h1 := hleft (by simp)
      simp only [Bool.false_eq_true, false_and, and_self, or_true, if_true, checktot, BinAxis.totbins, Int.toNat_natCast, hb]
      rw [if_neg]
      · exact ⟨_, rfl⟩
      · rcases h1 with h | h
        · omega
        · simp [h]
    · have h1 := hright (by simp)
      simp only [Bool.false_eq_true, and_false, reduceCtorEq, and_self, or_false, or_true, if_true, if_false, checktot,
        BinAxis.totbins, hb]
      rw [if_neg]
      · exact ⟨_, rfl⟩
      · rcases h1 with h | h
        · omega
        · simp [h]
  · rcases hfit with rfl | rfl
    · have h1 := hleft (by simp)
      simp only [reduceCtorEq, and_self, or_false, if_true, checktot, BinAxis.totbins, Int.toNat_natCast, hb]
      rw [if_neg]
      · exact ⟨_, rfl⟩
      · rcases h1 with h | h
        · omega
        · simp [h]
    · have h1 := hright (by simp)
      simp only [and_false, reduceCtorEq, and_self, or_false, if_true, if_false, checktot, BinAxis.totbins, hb, Bool.true_eq_false]
      rw [if_neg]
      · exact ⟨_, rfl⟩
      · rcases h1 with h | h
        · omega
        · simp [h]

/-- C37.  On an intbin axis an integer of the axis is accepted as threshold of every inequality, unless no integer of the axis would be
left. -/
theorem C37_intbin_accepts (a : IntbinAxis) (H : HistDef) (st : H.State) (j : ℕ) (hj : H.fixed[j]? = some (.intbin a)) (cmp : Cmp)
    (hc : cmp ∈ [Cmp.lt, .le, .gt, .ge]) (tol : ℚ) (htol : 0 < tol) (k : ℤ) (h1 : a.min ≤ k) (h2 : k ≤ a.max)
    (hleft : cmp = .lt → a.min < k) (hright : cmp = .gt → k < a.max) : ∃ r, H.select j cmp (.fin k) tol st = .ok r := by
  have e1 : ¬ ((k : ℚ) + tol < a.min) := by
    have : (a.min : ℚ) ≤ k := by exact_mod_cast h1
    linarith
  have e2 : ¬ ((k : ℚ) - tol > a.max) := by
    have : (k : ℚ) ≤ a.max := by exact_mod_cast h2
    linarith
  have e3 : pyRound (k : ℚ) = k := by simp [pyRound]
  unfold HistDef.select
  rw [hj]
  simp only [FixedAxis.select, IntbinAxis.select, e1, e2, if_false, e3, sub_self, abs_zero, htol, if_true]
  simp only [List.mem_cons, List.not_mem_nil, or_false] at hc
  rcases hc with rfl | rfl | rfl | rfl
  · have := hleft rfl
    simp only [IntbinAxis.checkSel]
    rw [if_neg (by omega)]
    exact ⟨_, rfl⟩
  · simp only [IntbinAxis.checkSel]
    rw [if_neg (by omega)]
    exact ⟨_, rfl⟩
  · have := hright rfl
    simp only [IntbinAxis.checkSel]
    rw [if_neg (by omega)]
    exact ⟨_, rfl⟩
  · simp only [IntbinAxis.checkSel]
    rw [if_neg (by omega)]
    exact ⟨_, rfl⟩

/-- `Hist(intbin("n", 1, 4)).select("n < 2")` -/
example : ∃ r, HistDef.select ⟨[], [.intbin ⟨1, 4, true, true⟩], 0, .none⟩ 0 .lt (.fin ((2 : ℤ) : ℚ)) (1 / 1000) none = .ok r :=
  C37_intbin_accepts ⟨1, 4, true, true⟩ _ none 0 rfl .lt (by simp) _ (by norm_num) 2 (by decide) (by decide) (by decide) (by simp)

/-- C37 does not hold for intbin axes: values below the smallest integer, and values above the largest one, cannot be selected although
they have a bin (the underflow and the overflow bin) and the comparison cuts no bin. -/
theorem C37_refuted_intbin_flow (a : IntbinAxis) (hle : a.min ≤ a.max) (H : HistDef) (st : H.State) (j : ℕ) (hj : H.fixed[j]? = some (.intbin a))
    (tol : ℚ) (htol : 0 < tol) : H.select j .lt (.fin a.min) tol st = .error .valueError ∧
      H.select j .gt (.fin a.max) tol st = .error .valueError := by
  have hq : (a.min : ℚ) ≤ a.max := by exact_mod_cast hle
  have e3 : ∀ k : ℤ, pyRound (k : ℚ) = k := by simp [pyRound]
  constructor
  · refine select_no hj st (Or.inr ?_)
    simp only [FixedAxis.select, IntbinAxis.select]
    rw [if_neg (by linarith), if_neg (by linarith)]
    simp only [e3, sub_self, abs_zero, htol, if_true, IntbinAxis.checkSel]
    rw [if_pos (by omega)]
    rfl
  · refine select_no hj st (Or.inr ?_)
    simp only [FixedAxis.select, IntbinAxis.select]
    rw [if_neg (by linarith), if_neg (by linarith)]
    simp only [e3, sub_self, abs_zero, htol, if_true, IntbinAxis.checkSel]
    rw [if_pos (by omega)]
    rfl

/-- Three values below 1 are in the underflow bin, but cannot be selected. -/
example : selectDemo (.intbin ⟨1, 4, true, true⟩) [.int 0, .int (-3), .int 0] .lt (.fin 1) (1 / 1000) = .error .valueError ∧
    selectDemo (.bin ⟨4, 1, 5, true, true, true, true⟩) [.int 0, .int (-3), .int 0] .lt (.fin 1) (1 / 1000) =
      .ok ([.bin ⟨0, 1, 1, true, false, false, true⟩], [3]) := by decide +kernel

/-- C36 does not hold for infinite thresholds, which bin and split axes accept (C38): `x > -inf`, `x >= -inf`, `x < inf` and `x <= inf` raise
`AttributeError` (`self._numbins`). -/
theorem C36_refuted_infinite (a : IntbinAxis) (H : HistDef) (st : H.State) (j : ℕ) (hj : H.fixed[j]? = some (.intbin a)) (cmp : Cmp) (v : Num)
    (tol : ℚ) (h : (v = .ninf ∧ (cmp = .ge ∨ cmp = .gt)) ∨ v = .pinf ∧ (cmp = .le ∨ cmp = .lt)) :
    H.select j cmp v tol st = .error .attributeError := by
  unfold HistDef.select
  rw [hj]
  rcases h with ⟨rfl, h⟩ | ⟨rfl, h⟩ <;> simp [FixedAxis.select, IntbinAxis.select, h, Except.map]

example : selectDemo (.intbin ⟨1, 4, true, true⟩) [.int 2] .le .pinf (1 / 1000) = .error .attributeError := by decide +kernel

/-- C36 does not hold for tolerances above 1/2: of 1, 3, 9, 3 the selection `n <= 4.55` keeps four entries, and the 9 is counted as a 5, a new
integer of the axis. -/
theorem C36_refuted_tolerance : selectDemo (.intbin ⟨1, 4, true, true⟩) [.int 1, .int 3, .int 9, .int 3] .le (.fin (91 / 20)) (3 / 5) =
    .ok ([.intbin ⟨1, 5, true, false⟩], [0, 1, 0, 2, 0, 1]) := by decide +kernel

/-- C37.  On a split axis an edge is accepted as threshold of the right inequalities, unless no bin would be left. -/
theorem C37_split_accepts (edges : List ℚ) (u o n cl : Bool) (a : SplitAxis) (ha : SplitAxis.init edges u o n cl = .ok a)
    (H : HistDef) (st : H.State) (j : ℕ) (hj : H.fixed[j]? = some (.split a)) (cmp : Cmp) (tol : ℚ) (htol : 0 < tol) (v : ℚ) (hv : v ∈ edges)
    (hfit : cmp.fits cl) (hleft : (cmp = .lt ∨ cmp = .le) → (∃ x ∈ edges, x < v) ∨ u = true)
    (hright : (cmp = .gt ∨ cmp = .ge) → (∃ x ∈ edges, v < x) ∨ o = true) : ∃ r, H.select j cmp (.fin v) tol st = .ok r := by
  obtain ⟨hg, hperm, rfl, rfl, rfl, rfl, _⟩ := SplitAxis.init_ok ha
  unfold HistDef.select
  rw [hj]
  simp only [FixedAxis.select, SplitAxis.select, reduceCtorEq, false_and, or_self, if_false]
  cases hx : nearestEdge v a.edges 0 with
  | none =>
    exfalso
    cases he : a.edges with
    | nil => exact hg.1 he
    | cons z zs =>
      rw [he] at hx
      unfold nearestEdge at hx
      split at hx
      · cases hx
      · split at hx <;> cases hx
  | some p =>
    obtain ⟨x, m⟩ := p
    obtain ⟨_, hm, hnear⟩ := nearestEdge_get v _ _ _ _ hx
    have h0 := hnear v (hperm.mem_iff.2 hv)
    rw [sub_self, abs_zero] at h0
    have hxv : v = x := by
      have := abs_eq_zero.1 (le_antisymm h0 (abs_nonneg _))
      linarith
    subst hxv
    rw [Nat.sub_zero] at hm
    obtain ⟨hlt, hmx⟩ := List.getElem?_eq_some_iff.1 hm
    have hpos : ∀ (i : ℕ) (hi : i < a.edges.length), (a.edges[i] < v → i < m) ∧ (v < a.edges[i] → m < i) := by
      intro i hi
      have hp := List.pairwise_iff_getElem.1 hg.2
      constructor <;> intro h <;> by_contra hc
      · rcases Nat.lt_or_ge m i with h3 | h3
        · have := hp m i hlt hi h3
          rw [hmx] at this
          linarith
        · have : i = m := by omega
          subst this
          rw [hmx] at h
          exact lt_irrefl _ h
      · rcases Nat.lt_or_ge i m with h3 | h3
        · have := hp i m hi hlt h3
          rw [hmx] at this
          linarith
        · have : i = m := by omega
          subst this
          rw [hmx] at h
          exact lt_irrefl _ h
    have hL : (cmp = .lt ∨ cmp = .le) → 0 < m ∨ a.underflow = true := fun h => by
      rcases hleft h with ⟨y, hy, hyv⟩ | h
      · obtain ⟨i, hi, rfl⟩ := List.getElem_of_mem (hperm.mem_iff.2 hy)
        have := (hpos i hi).1 hyv
        exact Or.inl (by omega)
      · exact Or.inr h
    have hR : (cmp = .gt ∨ cmp = .ge) → m + 1 < a.edges.length ∨ a.overflow = true := fun h => by
      rcases hright h with ⟨y, hy, hyv⟩ | h
      · obtain ⟨i, hi, rfl⟩ := List.getElem_of_mem (hperm.mem_iff.2 hy)
        have := (hpos i hi).2 hyv
        exact Or.inl (by omega)
      · exact Or.inr h
    simp only [sub_self, abs_zero, htol, if_true]
    have hb : ∀ b : Bool, b2n b = if b then 1 else 0 := fun b => rfl
    unfold Cmp.fits at hfit
    by_cases hlo : cmp = .lt ∨ cmp = .le
    · rw [if_pos (by cases hcl : a.closedlow <;> rw [hcl] at hfit <;> rcases hlo with rfl | rfl <;> simp at hfit ⊢)]
      simp only [checktot, SplitAxis.totbins, hb, List.length_take]
      rw [if_neg]
      · exact ⟨_, rfl⟩
      · rcases hL hlo with h | h
        · omega
        · simp [h]
    · have hhi : cmp = .gt ∨ cmp = .ge := by
        cases hcl : a.closedlow <;> rw [hcl] at hfit <;> rcases hfit with rfl | rfl <;> simp at hlo ⊢
      rw [if_neg (by rintro (⟨_, h⟩ | ⟨_, h⟩) <;> exact hlo (by simp [h]))]
      rw [if_pos (by cases hcl : a.closedlow <;> rw [hcl] at hfit <;> rcases hhi with rfl | rfl <;> simp at hfit ⊢)]
      simp only [checktot, SplitAxis.totbins, hb, List.length_drop]
      rw [if_neg]
      · exact ⟨_, rfl⟩
      · rcases hR hhi with h | h
        · omega
        · simp [h]

/-- `Hist(split("x", [0, 1, 5])).select("x >= 1")` -/
example (a : SplitAxis) (ha : SplitAxis.init [0, 1, 5] true true true true = .ok a) :
    ∃ r, HistDef.select ⟨[], [.split a], 0, .none⟩ 0 .ge (.fin 1) (1 / 1000) none = .ok r :=
  C37_split_accepts _ _ _ _ _ a ha _ none 0 rfl .ge _ (by norm_num) 1 (by simp) (by simp [Cmp.fits]) (by simp) (fun _ => Or.inr rfl)

example : ∃ a, SplitAxis.init [0, 1, 5] true true true true = .ok a := ⟨⟨[0, 1, 5], true, true, true, true⟩, by decide +kernel⟩

/-- the hypotheses of C34 and C37 are met -/
example : ∃ st r, Fillable exH [[exRow "a" 1 (some 2)]] ∧ exH.fillAll none [[exRow "a" 1 (some 2)]] = .ok st ∧
    exH.select 0 .lt (.fin (0 + (1 : ℕ) * ((2 - 0) / (2 : ℕ)))) (1 / 1000) st = .ok r := by
  have hf : Fillable exH [[exRow "a" 1 (some 2)]] := by
    refine ⟨?_, Or.inl rfl⟩
    intro b hb r hr
    simp at hb
    subst hb
    simp at hr
    subst hr
    exact exRow_ok _ _ _ (by norm_num)
  obtain ⟨st, h1, _⟩ := Represents.ofFill exH _ hf
  obtain ⟨r, hr⟩ := C37_bin_accepts 2 0 2 true true true true ⟨2, 0, 2, true, true, true, true⟩ (by decide +kernel) (by norm_num) exH st 0 rfl
    .lt (1 / 1000) (by norm_num) 1 (by norm_num) (Or.inl rfl) (fun _ => Or.inl (by norm_num)) (fun h => by simp at h)
  exact ⟨st, r, hf, h1, hr⟩

/-- `Hist(bin("x", 2, 0, 2)).select("x < 1")` -/
example : selectDemo (.bin ⟨2, 0, 2, true, true, true, true⟩) [.num (.fin (-3)), .num (.fin (1 / 2)), .num (.fin 1), .num .nan] .lt (.fin 1) (1 / 1000)
    = .ok ([.bin ⟨1, 0, 1, true, false, false, true⟩], [1, 1]) := by decide +kernel

/-- `Hist(split("x", [0, 1, 5])).select("x >= 1")` -/
example : selectDemo (.split ⟨[0, 1, 5], true, true, true, true⟩) [.num (.fin (-3)), .num (.fin (1 / 2)), .num (.fin 1), .num (.fin 7)] .ge (.fin 1) (1 / 1000)
    = .ok ([.split ⟨[1, 5], false, true, false, true⟩], [1, 1]) := by decide +kernel

/-- `Hist(intbin("n", 1, 4)).select("n > 2")` -/
example : selectDemo (.intbin ⟨1, 4, true, true⟩) [.int 1, .int 3, .int 9, .int 3] .gt (.fin 2) (1 / 1000)
    = .ok ([.intbin ⟨3, 4, false, true⟩], [2, 0, 1]) := by decide +kernel

/-- C37: rejected, not an edge; and rejected, the wrong inequality -/
example : selectDemo (.bin ⟨2, 0, 2, true, true, true, true⟩) [.num (.fin 1)] .lt (.fin (3 / 2)) (1 / 1000) = .error .valueError ∧
    selectDemo (.bin ⟨2, 0, 2, true, true, true, true⟩) [.num (.fin 1)] .le (.fin 1) (1 / 1000) = .error .valueError := by decide +kernel

/-- C37, C34: with a large tolerance the axis gets a bin that the content does not have: six bins and
an underflow for an array of six. -/
theorem C37_large_tolerance_refuted : selectDemo (.bin ⟨5, 0, 5, true, false, false, true⟩) [.num (.fin 1)] .lt (.fin (111 / 20)) (3 / 5)
    = .ok ([.bin ⟨6, 0, 5, true, false, false, true⟩], [0, 0, 1, 0, 0, 0]) := by decide +kernel

/-! ## C38 -/

/-- C38 (partial).  `x != nan` on a bin or split axis (likewise `x >= -inf` and `x <= inf`) removes just
the NaN bin: the new axis has the bins without NaN, the content is that of the rows with a number, and
axis and content agree in size.

Full statement: also that `x == nan` keeps just the NaN bin.  It is false, `C38_eq_nan_refuted`. -/
theorem C38_not_nan_partial (a : FixedAxis) (ha : (∃ numbins low high u o n cl b, BinAxis.init numbins low high u o n cl = .ok b ∧ 0 < numbins ∧ a = .bin b) ∨
      ∃ edges u o n cl b, SplitAxis.init edges u o n cl = .ok b ∧ a = .split b)
    (H : HistDef) (bs : List (List Row)) (hf : Fillable H bs) (st : H.State) (hst : H.fillAll none bs = .ok st) (j : ℕ)
    (hj : H.fixed[j]? = some a) (cmp : Cmp) (v : Num) (tol : ℚ)
    (hv : (v = .ninf ∧ cmp = .ge) ∨ (v = .pinf ∧ cmp = .le) ∨ (v = .nan ∧ cmp = .ne)) (r : Σ H' : HistDef, H'.State)
    (hr : H.select j cmp v tol st = .ok r) :
    ∃ a', r.1 = H.setFixed j a' ∧ a.Reduced a' (fun w => !w.toNum.isnan) ∧ a'.keys = a.keys.filter (· ≠ .nan) ∧
      Represents r.1 (rowsWhere j (fun w => !w.toNum.isnan) bs.flatten) r.2 ∧ r.1.Good r.2 := by
  obtain ⟨st0, e1, e2⟩ := Represents.ofFill H bs hf
  rw [hst] at e1
  cases e1
  obtain ⟨a0, s, h1, rfl⟩ := select_ok hj hr
  have hfil : ∀ (e : ℕ → ℚ) (n : ℕ) (u o na cl : Bool), flowKeys e n u o false cl = (flowKeys e n u o na cl).filter (· ≠ .nan) := by
    intro e n u o na cl
    unfold flowKeys
    rw [List.filter_append, List.filter_append, List.filter_append]
    congr 1
    · congr 1
      · congr 1
        · cases u <;> simp
        · rw [List.filter_eq_self.2]
          intro l hl
          obtain ⟨i, _, rfl⟩ := List.mem_map.1 hl
          simp
      · cases o <;> simp
    · cases na <;> simp
  rcases ha with ⟨numbins, low, high, u, o, n, cl, b, hb, hn, rfl⟩ | ⟨edges, u, o, n, cl, b, hb, rfl⟩
  · obtain ⟨rfl, _⟩ := BinAxis.init_ok hb
    obtain ⟨a', h2, rfl⟩ := map_cut h1
    have hk := bin_select_nan _ hn cmp v tol hv a' s h2
    have hrep := e2.sliced j _ (.bin a') hj s _ hk
    refine ⟨.bin a', rfl, hk.reduced, ?_, hrep, hrep.good⟩
    unfold BinAxis.select checktot at h2
    simp only [hv, if_true] at h2
    split at h2
    · cases h2
    · simp only [Except.ok.injEq, SelRes.cut.injEq] at h2
      obtain ⟨rfl, _⟩ := h2
      refine (BinAxis.keys_eq _ hn).trans ?_
      refine (hfil _ _ _ _ n _).trans ?_
      exact congrArg _ (BinAxis.keys_eq ⟨numbins, low, high, u, o, n, cl⟩ hn).symm
  · obtain ⟨hg, _⟩ := SplitAxis.init_ok hb
    obtain ⟨a', h2, rfl⟩ := map_cut h1
    have hk := split_select_nan b hg.1 cmp v tol hv a' s h2
    have hrep := e2.sliced j _ (.split a') hj s _ hk
    refine ⟨.split a', rfl, hk.reduced, ?_, hrep, hrep.good⟩
    unfold SplitAxis.select checktot at h2
    simp only [hv, if_true] at h2
    split at h2
    · cases h2
    · simp only [Except.ok.injEq, SelRes.cut.injEq] at h2
      obtain ⟨rfl, _⟩ := h2
      refine (SplitAxis.keys_eq { b with nanflow := false } hg.1).trans ?_
      refine (hfil _ _ _ _ b.nanflow _).trans ?_
      exact congrArg _ (SplitAxis.keys_eq b hg.1).symm

/-- `x != nan` -/
example : selectDemo (.bin ⟨2, 0, 2, true, true, true, true⟩) [.num (.fin 1), .num .nan] .ne .nan (1 / 1000)
    = .ok ([.bin ⟨2, 0, 2, true, true, false, true⟩], [0, 0, 1, 0]) := by decide +kernel

/-- C38: after `x == nan` the axis has the two bins, underflow and overflow but not NaN, and the content
has one entry, that of the NaN bin. -/
theorem C38_eq_nan_refuted : selectDemo (.bin ⟨2, 0, 2, true, true, true, true⟩) [.num (.fin 1), .num .nan, .num .nan] .eq .nan (1 / 1000)
    = .ok ([.bin ⟨2, 0, 2, true, true, false, true⟩], [2]) := by decide +kernel

/-! ## C40 -/

theorem inBins'_erase : ∀ (as : List FixedAxis) (vs : List Val) (idx : List ℕ) (j : ℕ), inBins' as vs idx = true →
    inBins' (as.eraseIdx j) (vs.eraseIdx j) (idx.eraseIdx j) = true
  | [], [], [], _, _ => rfl
  | [], _ :: _, _, _, h => by simp [inBins'] at h
  | [], [], _ :: _, _, h => by simp [inBins'] at h
  | _ :: _, [], _, _, h => by simp [inBins'] at h
  | _ :: _, _ :: _, [], _, h => by simp [inBins'] at h
  | a0 :: as, v :: vs, i :: idx, 0, h => (Bool.and_eq_true_iff.1 h).2
  | a0 :: as, v :: vs, i :: idx, j + 1, h =>
    Bool.and_eq_true_iff.2 ⟨(Bool.and_eq_true_iff.1 h).1, inBins'_erase as vs idx j (Bool.and_eq_true_iff.1 h).2⟩

/-- C40 (partial).  Selecting the expression of a cut axis, or its negation, gives the content of a
histogram without the cut axis that is filled with the rows that pass (fail) the cut only.

The full statement is about the expressions that a user may write; here the selected axis and the
comparison with `True` or `False` are given. -/
theorem C40_select_cut_partial (H : HistDef) (bs : List (List Row)) (hf : Fillable H bs) (st : H.State)
    (hst : H.fillAll none bs = .ok st) (j : ℕ) (hj : H.fixed[j]? = some .cut) (cmp : Cmp) (value : Bool) (s : PySlice)
    (hs : cutSelect cmp value = some s) :
    ∃ pass : Bool, (cmp = .eq ∧ pass = value ∨ cmp = .ne ∧ pass = !value) ∧
      Represents (H.eraseFixed j) ((rowsWhere j (fun w => w == .bool pass) bs.flatten).map (Row.eraseFixed j)) (H.cutOut j s st) ∧
      (H.eraseFixed j).ReadsLikeFill (H.cutOut j s st) (bs.map (fun b => (rowsWhere j (fun w => w == .bool pass) b).map (Row.eraseFixed j))) := by
  obtain ⟨st0, e1, e2⟩ := Represents.ofFill H bs hf
  rw [hst] at e1
  cases e1
  have hin : ∀ (w : Val) (b : Bool), Val.In (.bool b) w = (w == .bool b) := by
    intro w b
    cases w with
    | num x => rfl
    | int x => rfl
    | bool x =>
      cases x <;> cases b <;> decide
  have key : ∃ pass : Bool, (cmp = .eq ∧ pass = value ∨ cmp = .ne ∧ pass = !value) ∧ s.lo FixedAxis.cut.totbins < FixedAxis.cut.totbins ∧
      ∀ w, FixedAxis.cut.holds (s.lo FixedAxis.cut.totbins) w = (w == .bool pass) := by
    unfold cutSelect at hs
    split at hs
    · rename_i h
      cases hs
      refine ⟨true, ?_, by decide, fun w => ?_⟩
      · rcases h with ⟨rfl, rfl⟩ | ⟨rfl, rfl⟩ <;> simp
      · exact hin w true
    · split at hs
      · rename_i h
        cases hs
        refine ⟨false, ?_, by decide, fun w => ?_⟩
        · rcases h with ⟨rfl, rfl⟩ | ⟨rfl, rfl⟩ <;> simp
        · exact hin w false
      · cases hs
  obtain ⟨pass, h1, h2, h3⟩ := key
  have hrep := e2.cutOut j .cut hj s h2
  have h3' : FixedAxis.cut.holds (s.lo FixedAxis.cut.totbins) = (fun w => w == .bool pass) := funext h3
  rw [h3'] at hrep
  refine ⟨pass, h1, hrep, hrep.readsLikeFill _ ?_ ?_⟩
  · rw [← flatten_filter, List.map_flatten, List.map_map]
    rfl
  · constructor
    · intro b hb r hr
      obtain ⟨b0, hb0, rfl⟩ := List.mem_map.1 hb
      obtain ⟨r0, hr0, rfl⟩ := List.mem_map.1 hr
      have ho := hf.ok b0 hb0 r0 (List.mem_filter.1 hr0).1
      exact ⟨ho.groups, forall₂_eraseIdx ho.fixed j, ho.xs⟩
    · refine hf.prof.imp id (fun hp b hb r hr hl => ?_)
      obtain ⟨b0, hb0, rfl⟩ := List.mem_map.1 hb
      obtain ⟨r0, hr0, rfl⟩ := List.mem_map.1 hr
      refine hp b0 hb0 r0 (List.mem_filter.1 hr0).1 fun idx => ?_
      by_contra hi
      rw [Bool.not_eq_false] at hi
      have h6 := inBins'_erase H.fixed r0.fvals idx j hi
      have h7 := hl (idx.eraseIdx j)
      cases (show false = true from h7.symm.trans h6)

/-- a cut axis that is selected -/
example : (let H : HistDef := ⟨[], [.cut, .bin ⟨2, 0, 2, true, true, true, true⟩], 0, .none⟩
    match H.fillAll none [[⟨[], [.bool true, .num (.fin 1)], [], none⟩, ⟨[], [.bool false, .num (.fin 0)], [], none⟩]] with
    | .ok st => (List.range 5).map (fun i => (H.eraseFixed 0).read (H.cutOut 0 ⟨1, some 2⟩ st) [] [i] 0)
    | .error _ => []) = [0, 0, 1, 0, 0] := by decide +kernel

end Verif
