import Verif.PropsShare
import Verif.PropsSelectExpr
import Verif.PropsBookFill

/-!
# Property C131: repeating a selection changes nothing

The selection that was made is made again on its result.
-/

namespace Verif

/-! ## helpers -/

/-- the slice has all positions -/
def PySlice.Whole (t : PySlice) (n : ℕ) : Prop := t.lo n = 0 ∧ t.hi n = n

theorem slice_again (j : ℕ) (t t' : PySlice) (n : ℕ) (x : Arr) (hj : j < x.shape.length) (hn : t.hi (x.shape.getD j 0) - t.lo (x.shape.getD j 0) = n)
    (hw : t'.Whole n) : (x.slice j t).slice j t' = x.slice j t := by
  rw [slice_twice j _ t t' x rfl hj, hn, hw.1, hw.2]
  unfold Arr.slice
  simp only [hn, Nat.sub_zero, Nat.zero_add]

theorem select_again (H : HistDef) (s : H.State) (hs : H.Proper s) (j : ℕ) (a a1 : FixedAxis) (hj : H.fixed[j]? = some a) (c : Cmp) (v : Num)
    (tol : ℚ) (t t' : PySlice) (h1 : a.select c v tol = .ok (.cut a1 t)) (hn : t.hi a.totbins - t.lo a.totbins = a1.totbins)
    (h2 : a1.select c v tol = .ok (.cut a1 t')) (hw : t'.Whole a1.totbins) (H1 : HistDef) (s1 : H1.State)
    (h : H.select j c v tol s = .ok ⟨H1, s1⟩) : H1.select j c v tol s1 = .ok ⟨H1, s1⟩ := by
  have jl : j < H.fixed.length := (List.getElem?_eq_some_iff.1 hj).1
  obtain ⟨a', t0, e, k⟩ := select_sliced hj h
  rw [h1] at e
  cases e
  cases k
  have hj1 : (H.setFixed j a1).fixed[j]? = some a1 := by
    show (H.fixed.set j _)[j]? = _
    simp [jl]
  have e2 : (H.setFixed j a1).select j c v tol (H.sliced j a1 t s) =
      .ok ⟨(H.setFixed j a1).setFixed j a1, (H.setFixed j a1).sliced j a1 t' (H.sliced j a1 t s)⟩ := by
    unfold HistDef.select
    rw [hj1]
    simp only [h2]
  rw [e2]
  congr 1
  refine sigma_fixed H _ _ _ _ (by show (H.fixed.set j a1).set j a1 = _; rw [List.set_set]) ?_
  cases s with
  | none => rfl
  | some c0 =>
    show some (mapLeaves (Arr.slice j t') H.groups.length (mapLeaves (Arr.slice j t) H.groups.length c0)) =
      some (mapLeaves (Arr.slice j t) H.groups.length c0)
    rw [mapLeaves_comp]
    congr 1
    refine mapLeaves_congr _ _ H.layout.dims H.layout.ncols (fun x hx _ => ?_) _ c0 (uniform_of_shaped H.layout _ c0 hs.2 hs.1)
    have hx' : x.shape = H.fixed.map FixedAxis.totbins := hx
    refine slice_again j t t' a1.totbins x (by rw [hx']; simpa using jl) ?_ hw
    have : x.shape.getD j 0 = a.totbins := by
      rw [hx', List.getD, List.getElem?_map, hj]
      rfl
    rw [this, hn]

theorem cutAt_size {a a' : FixedAxis} {t : PySlice} {c : Cmp} {p : ℕ} (h : CutAt a a' t c p) : t.hi a.totbins - t.lo a.totbins = a'.totbins := by
  obtain ⟨h0, ⟨_, h1, h2, h3⟩ | ⟨_, h1, h2, h3⟩⟩ := h
  · omega
  · omega

theorem whole_nat (n : ℕ) (z : ℤ) (h : z = n) : PySlice.Whole ⟨0, some z⟩ n := by
  subst h
  constructor
  · simp [PySlice.lo, sliceBound]
  · simp [PySlice.hi, sliceBound_nat]

theorem pyRound_zero (q : ℚ) (h : |q| < 1 / 2) : pyRound q = 0 := by
  have h1 := pyRound_spec q
  rw [abs_lt] at h
  rw [abs_le] at h1
  have a1 : ((pyRound q : ℤ) : ℚ) < 1 := by linarith [h.2, h1.1]
  have a2 : (-1 : ℚ) < ((pyRound q : ℤ) : ℚ) := by linarith [h.1, h1.2]
  have b1 : pyRound q < 1 := by exact_mod_cast a1
  have b2 : -1 < pyRound q := by exact_mod_cast a2
  omega

theorem bin_again (a : BinAxis) (c : Cmp) (v tol : ℚ) (hf : (FixedAxis.bin a).Fine tol) (a1 : BinAxis) (t : PySlice)
    (h : a.select c (.fin v) tol = .ok (.cut a1 t)) (hl : 0 < a1.numbins) :
    ∃ t', a1.select c (.fin v) tol = .ok (.cut a1 t') ∧ t'.Whole a1.totbins := by
  obtain ⟨hn, hlh, htol⟩ := hf
  have hd : a.high - a.low ≠ 0 := by intro h; linarith
  have hNp : (0 : ℚ) < a.numbins := by exact_mod_cast hn
  have hN : (a.numbins : ℚ) ≠ 0 := hNp.ne'
  have hs : (a.numbins : ℚ) / (a.high - a.low) ≠ 0 := div_ne_zero hN hd
  unfold BinAxis.select at h
  simp only [reduceCtorEq, false_and, or_self, if_false, hd, hs] at h
  split at h
  · rename_i hclose
    obtain ⟨m, hm, hz, hcl⟩ := bin_edge a hn hlh v tol htol _ rfl hclose
    rw [hz] at h hcl hclose
    rw [hcl] at h hclose
    unfold checktot at h
    split at h
    · rename_i hcmp
      split at h
      · cases h
      · rename_i htot
        simp only [Except.ok.injEq, SelRes.cut.injEq] at h
        obtain ⟨rfl, rfl⟩ := h
        simp only [Int.toNat_natCast] at hl htot ⊢
        have hmp : (0 : ℚ) < m := by exact_mod_cast hl
        have hw : a.i2x m - a.low = m / a.numbins * (a.high - a.low) := by unfold BinAxis.i2x; ring
        have hd' : a.i2x m - a.low ≠ 0 := by
          rw [hw]
          exact mul_ne_zero (div_ne_zero hmp.ne' hN) hd
        have hsc : (m : ℚ) / (a.i2x m - a.low) = a.numbins / (a.high - a.low) := by
          rw [hw]
          field_simp
        refine ⟨⟨0, some (m + b2i a.underflow)⟩, ?_, whole_nat _ _ ?_⟩
        · unfold BinAxis.select
          simp only [reduceCtorEq, false_and, or_self, if_false, hd', hsc, hs]
          rw [hz]
          have e : (((min (m : ℤ) (max 0 (m : ℤ)) : ℤ) : ℚ) / (a.numbins / (a.high - a.low)) + a.low) = a.i2x m := by
            rw [← hcl]
            congr 3
            omega
          rw [e, if_pos hclose, if_pos hcmp]
          unfold checktot
          simp only [Int.toNat_natCast]
          rw [if_neg htot]
        · simp only [FixedAxis.totbins, BinAxis.totbins, b2i_cast, b2n]
          push_cast
          simp
    · split at h
      · rename_i hnc hcmp
        split at h
        · cases h
        · rename_i htot
          simp only [Except.ok.injEq, SelRes.cut.injEq] at h
          obtain ⟨rfl, rfl⟩ := h
          simp only at hl htot ⊢
          have hmN : m < a.numbins := by omega
          have hk : (((a.numbins : ℤ) - (m : ℤ)).toNat : ℚ) = (a.numbins : ℚ) - m := by
            have : ((a.numbins : ℤ) - (m : ℤ)).toNat = a.numbins - m := by omega
            rw [this]
            push_cast [hm]
            rfl
          have hkp : (0 : ℚ) < (a.numbins : ℚ) - m := by
            have : (m : ℚ) < a.numbins := by exact_mod_cast hmN
            linarith
          have hw : a.high - a.i2x m = ((a.numbins : ℚ) - m) / a.numbins * (a.high - a.low) := by
            unfold BinAxis.i2x
            field_simp
            ring
          have hd' : a.high - a.i2x m ≠ 0 := by
            rw [hw]
            exact mul_ne_zero (div_ne_zero hkp.ne' hN) hd
          have hsc : ((a.numbins : ℚ) - m) / (a.high - a.i2x m) = a.numbins / (a.high - a.low) := by
            rw [hw]
            field_simp
          have hdp : 0 < a.high - a.low := by linarith
          have hr : pyRound ((v - a.i2x m) * (a.numbins / (a.high - a.low))) = 0 := by
            refine pyRound_zero _ ?_
            rw [abs_mul, abs_of_pos (div_pos hNp hdp)]
            have h1 : |v - a.i2x m| * (a.numbins / (a.high - a.low)) < tol * (a.numbins / (a.high - a.low)) :=
              mul_lt_mul_of_pos_right hclose (div_pos hNp hdp)
            have h2 : tol * (a.numbins / (a.high - a.low)) ≤ 1 / 2 := by
              rw [mul_div_assoc', div_le_iff₀ hdp]
              linarith
            linarith
          refine ⟨⟨0, some (((a.numbins : ℤ) - m).toNat + b2i a.overflow)⟩, ?_, whole_nat _ _ ?_⟩
          · unfold BinAxis.select
            simp only [reduceCtorEq, false_and, or_self, if_false, hk, hd', hsc, hs]
            rw [hr]
            have e : (((min ((((a.numbins : ℤ) - m).toNat : ℕ) : ℤ) (max 0 (0 : ℤ)) : ℤ) : ℚ) / (a.numbins / (a.high - a.low)) + a.i2x m) = a.i2x m := by
              rw [min_eq_right (by omega)]
              simp
            rw [e, if_pos hclose, if_neg hnc, if_pos hcmp]
            unfold checktot
            simp only [sub_zero, Int.toNat_natCast]
            rw [if_neg htot]
            simp [b2i]
          · simp only [FixedAxis.totbins, BinAxis.totbins, b2i_cast, b2n]
            push_cast
            simp
      · cases h
  · cases h

theorem nearestEdge_some (v : ℚ) : ∀ (l : List ℚ) (i : ℕ), l ≠ [] → ∃ r, nearestEdge v l i = some r
  | [], _, h => absurd rfl h
  | x :: xs, i, _ => by
    unfold nearestEdge
    split
    · exact ⟨_, rfl⟩
    · split <;> exact ⟨_, rfl⟩

theorem nearestEdge_least (v : ℚ) : ∀ (l : List ℚ) (i : ℕ) (x : ℚ) (k : ℕ), nearestEdge v l i = some (x, k) →
    ∀ y ∈ l, |v - x| < |v - y| ∨ (|v - x| = |v - y| ∧ x ≤ y)
  | [], _, _, _, h, _, _ => by cases h
  | z :: zs, i, x, k, h, y, hy => by
    unfold nearestEdge at h
    split at h
    · rename_i hnone
      cases h
      rcases List.mem_cons.1 hy with rfl | hy
      · exact Or.inr ⟨rfl, le_rfl⟩
      · obtain ⟨r, hr⟩ := nearestEdge_some v zs (i + 1) (List.ne_nil_of_mem hy)
        rw [hr] at hnone
        cases hnone
    · rename_i x' k' hx'
      have ih := nearestEdge_least v zs (i + 1) x' k' hx'
      split at h
      · rename_i hc
        cases h
        rcases List.mem_cons.1 hy with rfl | hy
        · rcases hc with hc | ⟨hc, hc'⟩
          · exact Or.inl hc
          · exact Or.inr ⟨hc, hc'.le⟩
        · exact ih y hy
      · rename_i hc
        cases h
        push Not at hc
        rcases List.mem_cons.1 hy with rfl | hy
        · exact Or.inr ⟨rfl, le_rfl⟩
        · rcases ih y hy with h1 | ⟨h1, h2⟩
          · exact Or.inl (lt_of_le_of_lt hc.1 h1)
          · rcases lt_or_eq_of_le hc.1 with h3 | h3
            · exact Or.inl (h1 ▸ h3)
            · exact Or.inr ⟨h3.trans h1, (hc.2 h3.symm).trans h2⟩

/-- A part of the edges that has the nearest one has it as the nearest one. -/
theorem nearestEdge_part (v : ℚ) (l l' : List ℚ) (hl : l.Pairwise (· < ·)) (x : ℚ) (m m' d : ℕ) (h : nearestEdge v l 0 = some (x, m))
    (hsub : ∀ i, i < l'.length → l'[i]? = l[i + d]?) (hm : m' + d = m) (hm' : m' < l'.length) : nearestEdge v l' 0 = some (x, m') := by
  obtain ⟨⟨x', k'⟩, hr⟩ := nearestEdge_some v l' 0 (by rintro rfl; simp at hm')
  obtain ⟨_, g1, _⟩ := nearestEdge_get v _ _ _ _ h
  obtain ⟨_, g2, _⟩ := nearestEdge_get v _ _ _ _ hr
  rw [Nat.sub_zero] at g1 g2
  have hk' : k' < l'.length := (List.getElem?_eq_some_iff.1 g2).1
  have x'mem : x' ∈ l := by
    have := hsub k' hk'
    rw [g2] at this
    exact List.mem_of_getElem? this.symm
  have g3 : l'[m']? = some x := by rw [hsub m' hm', hm, g1]
  have l1 := nearestEdge_least v _ _ _ _ h x' x'mem
  have l2 := nearestEdge_least v _ _ _ _ hr x (List.mem_of_getElem? g3)
  have hxx : x = x' := by
    rcases l1 with l1 | ⟨l1, l1'⟩
    · rcases l2 with l2 | ⟨l2, _⟩
      · exact absurd (l1.trans l2) (lt_irrefl _)
      · exact absurd l2.symm l1.ne
    · rcases l2 with l2 | ⟨_, l2'⟩
      · exact absurd l1.symm l2.ne
      · exact le_antisymm l1' l2'
  subst hxx
  have g4 : l[k' + d]? = some x := by rw [← hsub k' hk', g2]
  have : k' + d = m := by
    have hnd : l.Nodup := hl.imp (fun h => h.ne)
    exact (List.getElem?_inj (List.getElem?_eq_some_iff.1 g4).1 hnd).1 (g4.trans g1.symm)
  rw [hr]
  have : k' = m' := by omega
  rw [this]

theorem split_again (a : SplitAxis) (hs : a.edges.Pairwise (· < ·)) (c : Cmp) (v tol : ℚ) (a1 : SplitAxis) (t : PySlice)
    (h : a.select c (.fin v) tol = .ok (.cut a1 t)) :
    ∃ t', a1.select c (.fin v) tol = .ok (.cut a1 t') ∧ t'.Whole a1.totbins := by
  unfold SplitAxis.select at h
  simp only [reduceCtorEq, false_and, or_self, if_false] at h
  split at h
  · cases h
  · rename_i x m hx
    obtain ⟨_, hm, _⟩ := nearestEdge_get v _ _ _ _ hx
    rw [Nat.sub_zero] at hm
    obtain ⟨hml, hmx⟩ := List.getElem?_eq_some_iff.1 hm
    split at h
    · rename_i hclose
      unfold checktot at h
      split at h
      · rename_i hcmp
        split at h
        · cases h
        · rename_i htot
          simp only [Except.ok.injEq, SelRes.cut.injEq] at h
          obtain ⟨rfl, rfl⟩ := h
          have hx' : nearestEdge v (a.edges.take (m + 1)) 0 = some (x, m) := by
            refine nearestEdge_part v a.edges _ hs x m m 0 hx (fun i hi => ?_) rfl (by simp; omega)
            rw [List.length_take] at hi
            rw [List.getElem?_take, if_pos (by omega)]
            rfl
          refine ⟨⟨0, some (m + b2i a.underflow)⟩, ?_, whole_nat _ _ ?_⟩
          · unfold SplitAxis.select
            simp only [reduceCtorEq, false_and, or_self, if_false, hx']
            rw [if_pos hclose, if_pos hcmp]
            unfold checktot
            simp only [List.take_take, min_self]
            rw [if_neg htot]
          · simp only [FixedAxis.totbins, SplitAxis.totbins, b2i_cast, b2n, List.length_take]
            push_cast
            simp
            omega
      · split at h
        · rename_i hnc hcmp
          split at h
          · cases h
          · rename_i htot
            simp only [Except.ok.injEq, SelRes.cut.injEq] at h
            obtain ⟨rfl, rfl⟩ := h
            have hx' : nearestEdge v (a.edges.drop m) 0 = some (x, 0) := by
              refine nearestEdge_part v a.edges _ hs x m 0 m hx (fun i hi => ?_) (by omega) (by simp; omega)
              rw [List.getElem?_drop, Nat.add_comm]
            refine ⟨⟨0, some (((a.edges.drop m).length : ℤ) + b2i a.overflow - 1)⟩, ?_, whole_nat _ _ ?_⟩
            · unfold SplitAxis.select
              simp only [reduceCtorEq, false_and, or_self, if_false, hx']
              rw [if_pos hclose, if_neg hnc, if_pos hcmp]
              unfold checktot
              simp only [List.drop_zero]
              rw [if_neg htot]
              simp [b2i]
            · simp only [FixedAxis.totbins, SplitAxis.totbins, b2i_cast, b2n, List.length_drop]
              push_cast
              simp
              omega
        · cases h
    · cases h

theorem int_whole (a : IntbinAxis) (h : a.min ≤ a.max) (z : ℤ) (hz : z = a.max - a.min + b2i a.underflow + 1) (ho : a.overflow = false) :
    PySlice.Whole ⟨0, some z⟩ (FixedAxis.intbin a).totbins := by
  refine whole_nat _ _ ?_
  simp only [FixedAxis.totbins, IntbinAxis.totbins, IntbinAxis.numbins, ho, b2i_cast, b2n] at hz ⊢
  have hu : ((if a.underflow = true then 1 else 0 : ℕ) : ℤ) ≤ 1 := by split <;> simp
  simp only [Bool.false_eq_true, if_false] at hz ⊢
  omega

theorem int_again (a : IntbinAxis) (c : Cmp) (hcmp : c = .le ∨ c = .ge) (v tol : ℚ) (a1 : IntbinAxis) (t : PySlice)
    (e' : a.select c (.fin v) tol = .ok (.cut a1 t)) :
    ∃ t', a1.select c (.fin v) tol = .ok (.cut a1 t') ∧ t'.Whole (FixedAxis.intbin a1).totbins := by
  unfold IntbinAxis.select at e'
  simp only at e'
  split at e'
  · cases e'
  · rename_i hlo
    split at e'
    · cases e'
    · rename_i hhi
      split at e'
      · rename_i hclose
        have hclose' := abs_lt.1 hclose
        unfold IntbinAxis.checkSel at e'
        rcases hcmp with rfl | rfl
        · simp only at e'
          split at e'
          · cases e'
          · rename_i hmm
            simp only [Except.ok.injEq, SelRes.cut.injEq] at e'
            obtain ⟨rfl, rfl⟩ := e'
            refine ⟨⟨0, some (pyRound v - a.min + b2i a.underflow + 1)⟩, ?_, int_whole _ (not_lt.1 hmm) _ rfl rfl⟩
            unfold IntbinAxis.select IntbinAxis.checkSel
            simp only
            rw [if_neg hlo, if_neg (by linarith [hclose'.2]), if_pos hclose, if_neg hmm]
        · simp only at e'
          split at e'
          · cases e'
          · rename_i hmm
            simp only [Except.ok.injEq, SelRes.cut.injEq] at e'
            obtain ⟨rfl, rfl⟩ := e'
            refine ⟨⟨0, none⟩, ?_, ⟨by simp [PySlice.lo, sliceBound], rfl⟩⟩
            unfold IntbinAxis.select IntbinAxis.checkSel
            simp only
            rw [if_neg (by linarith [hclose'.1]), if_neg hhi, if_pos hclose, if_neg hmm]
            have : pyRound v - pyRound v + b2i false = 0 := by simp [b2i]
            rw [this]
      · cases e'

/-- every group of the content has a key, at the place of the axis, for which the test says yes -/
def AllPass (test : Test) : (i n : ℕ) → Content Arr n → Prop
  | _, 0, _ => True
  | 0, _ + 1, (d : List (Key × Content Arr _)) => ∀ p ∈ d, test p.1 = .ok true
  | i + 1, n + 1, (d : List (Key × Content Arr n)) => ∀ p ∈ d, AllPass test i n p.2

theorem allPass_kept (test : Test) : ∀ (i n : ℕ) (c : Content Arr n), AllPass test i n c → Answers test i n c ∧ keyPassing test i n c = c
  | 0, 0, _, _ => ⟨trivial, rfl⟩
  | _ + 1, 0, _, _ => ⟨trivial, rfl⟩
  | 0, n + 1, (d : List (Key × Content Arr n)), h => by
    constructor
    · intro k hk
      obtain ⟨p, hp, rfl⟩ := List.mem_map.1 hk
      exact ⟨_, h p hp⟩
    · show d.filter _ = d
      refine List.filter_eq_self.2 fun p hp => ?_
      rw [h p hp]
      rfl
  | i + 1, n + 1, (d : List (Key × Content Arr n)), h => by
    constructor
    · exact fun p hp => (allPass_kept test i n p.2 (h p hp)).1
    · show d.map (fun p => (p.1, keyPassing test i n p.2)) = d
      conv_rhs => rw [← List.map_id d]
      refine List.map_congr_left fun p hp => ?_
      rw [(allPass_kept test i n p.2 (h p hp)).2]
      rfl

theorem allPass_self (test : Test) : ∀ (i n : ℕ) (c : Content Arr n), Answers test i n c → AllPass test i n (keyPassing test i n c)
  | 0, 0, _, _ => trivial
  | _ + 1, 0, _, _ => trivial
  | 0, n + 1, (d : List (Key × Content Arr n)), h => by
    intro p hp
    have hp' := List.mem_filter.1 (show p ∈ d.filter (fun p => yes (test p.1)) from hp)
    obtain ⟨b, hb⟩ := h p.1 (List.mem_map_of_mem hp'.1)
    have := hp'.2
    rw [hb] at this ⊢
    simp only [yes] at this
    rw [this]
  | i + 1, n + 1, (d : List (Key × Content Arr n)), h => by
    intro p hp
    obtain ⟨q, hq, rfl⟩ := List.mem_map.1 (show p ∈ d.map (fun p => (p.1, keyPassing test i n p.2)) from hp)
    exact allPass_self test i n q.2 (h q hq)

theorem allPass_other (test f : Test) : ∀ (i n : ℕ) (c : Content Arr n), AllPass test i n c → AllPass test i n (keyPassing f i n c)
  | 0, 0, _, _ => trivial
  | _ + 1, 0, _, _ => trivial
  | 0, n + 1, (d : List (Key × Content Arr n)), h => by
    intro p hp
    exact h p (List.mem_filter.1 (show p ∈ d.filter (fun p => yes (f p.1)) from hp)).1
  | i + 1, n + 1, (d : List (Key × Content Arr n)), h => by
    intro p hp
    obtain ⟨q, hq, rfl⟩ := List.mem_map.1 (show p ∈ d.map (fun p => (p.1, keyPassing f i n p.2)) from hp)
    exact allPass_other test f i n q.2 (h q hq)

/-- all groups of the histogram pass (a histogram that was never filled has none) -/
def HistDef.allPass (H : HistDef) (test : Test) (i : ℕ) : H.State → Prop
  | none => True
  | some c => AllPass test i H.groups.length c

theorem filter_kept (H : HistDef) (test : Test) (i : ℕ) (s : H.State) (h : H.allPass test i s) : H.filterState test i s = .ok s := by
  cases s with
  | none => rfl
  | some c =>
    obtain ⟨h1, h2⟩ := allPass_kept test i _ c h
    have := (filterGroup_iff test i _ c).1 h1
    rw [h2] at this
    show (filterGroup test i H.groups.length c).map some = _
    rw [this]
    rfl

theorem filter_self (H : HistDef) (test : Test) (i : ℕ) (s t : H.State) (h : H.filterState test i s = .ok t) : H.allPass test i t := by
  cases s with
  | none => cases h; trivial
  | some c =>
    obtain ⟨h1, rfl⟩ := filter_ok H test i c t h
    exact allPass_self test i _ c h1

theorem filter_other (H : HistDef) (test f : Test) (i : ℕ) (s t : H.State) (h : H.filterState f i s = .ok t) (hp : H.allPass test i s) :
    H.allPass test i t := by
  cases s with
  | none => cases h; trivial
  | some c =>
    obtain ⟨h1, rfl⟩ := filter_ok H f i c t h
    exact allPass_other test f i _ c hp

/-- the comparison has been made -/
def HistDef.meets (H : HistDef) (i : ℕ) (tol : ℚ) (g : GTerm) (s : H.State) : Prop :=
  ∃ a test, H.groups[i]? = some a ∧ a.select g.cmp g.value tol = .ok (some test) ∧ H.allPass test i s

theorem term_again {H : HistDef} {i : ℕ} {tol : ℚ} {g : GTerm} {s : H.State} (h : H.meets i tol g s) : H.selectTerm i g tol s = .ok s := by
  obtain ⟨a, test, h1, h2, h3⟩ := h
  unfold HistDef.selectTerm
  rw [h1]
  simp only [h2]
  exact filter_kept H test i s h3

theorem and_again {H : HistDef} {i : ℕ} {tol : ℚ} : ∀ (ts : List GTerm) (s : H.State), (∀ g ∈ ts, H.meets i tol g s) → H.selectAnd i tol ts s = .ok s
  | [], _, _ => rfl
  | g :: ts, s, h => by
    unfold HistDef.selectAnd
    rw [term_again (h g (by simp))]
    exact and_again ts s fun g hg => h g (by simp [hg])

theorem and_meets {H : HistDef} {i : ℕ} {tol : ℚ} : ∀ (ts : List GTerm) (s t : H.State), H.selectAnd i tol ts s = .ok t →
    (∀ g ∈ ts, H.meets i tol g t) ∧ ∀ g, H.meets i tol g s → H.meets i tol g t
  | [], s, t, h => by
    cases h
    exact ⟨by simp, fun _ h => h⟩
  | g :: ts, s, t, h => by
    unfold HistDef.selectAnd at h
    cases hg : H.selectTerm i g tol s with
    | error e => rw [hg] at h; cases h
    | ok s' =>
      rw [hg] at h
      obtain ⟨ih1, ih2⟩ := and_meets ts s' t h
      obtain ⟨a, test, h1, h2, h3⟩ := term_ok hg
      constructor
      · intro g' hg'
        rcases List.mem_cons.1 hg' with rfl | hg'
        · exact ih2 _ ⟨a, test, h1, h2, filter_self H test i s s' h3⟩
        · exact ih1 g' hg'
      · rintro g' ⟨a', test', k1, k2, k3⟩
        exact ih2 g' ⟨a', test', k1, k2, filter_other H test' test i s s' h3 k3⟩

/-! ## C131 -/

/-- C131 for bin axes (partial: the tolerance is at most half a bin, and the selection left an ordinary bin). -/
theorem C131_bin_partial (H : HistDef) (s : H.State) (hs : H.Proper s) (j : ℕ) (a : BinAxis) (hj : H.fixed[j]? = some (.bin a)) (tol : ℚ)
    (hn : 0 < a.numbins) (hlh : a.low < a.high) (htol : 2 * tol * a.numbins ≤ a.high - a.low) (c : Cmp) (v : ℚ) (H1 : HistDef) (s1 : H1.State)
    (h : H.select j c (.fin v) tol s = .ok ⟨H1, s1⟩) (a1 : BinAxis) (hj1 : H1.fixed[j]? = some (.bin a1)) (hl : 0 < a1.numbins) :
    H1.select j c (.fin v) tol s1 = .ok ⟨H1, s1⟩ := by
  have hf : (FixedAxis.bin a).Fine tol := ⟨hn, hlh, htol⟩
  have jl : j < H.fixed.length := (List.getElem?_eq_some_iff.1 hj).1
  obtain ⟨b, t, e, k⟩ := select_sliced hj h
  have hc := cutAt_size (select_cutAt _ c v tol hf b t e)
  obtain ⟨b', e', rfl⟩ := map_cut e
  have hb : a1 = b' := by
    cases k
    have : (H.setFixed j (.bin b')).fixed[j]? = some (.bin b') := by
      show (H.fixed.set j _)[j]? = _
      simp [jl]
    rw [this] at hj1
    cases hj1
    rfl
  subst hb
  obtain ⟨t', e2, hw⟩ := bin_again a c v tol hf a1 t e' hl
  exact select_again H s hs j _ _ hj c _ tol t t' e hc (by simp only [FixedAxis.select, e2]; rfl) hw H1 s1 h

/-- C131 for split axes. -/
theorem C131_split (H : HistDef) (s : H.State) (hs : H.Proper s) (j : ℕ) (a : SplitAxis) (hj : H.fixed[j]? = some (.split a))
    (ha : a.edges ≠ []) (hp : a.edges.Pairwise (· < ·)) (tol : ℚ) (c : Cmp) (v : ℚ) (H1 : HistDef) (s1 : H1.State)
    (h : H.select j c (.fin v) tol s = .ok ⟨H1, s1⟩) : H1.select j c (.fin v) tol s1 = .ok ⟨H1, s1⟩ := by
  obtain ⟨b, t, e, k⟩ := select_sliced hj h
  have hc := cutAt_size (select_cutAt (.split a) c v tol ha b t e)
  obtain ⟨b', e', rfl⟩ := map_cut e
  obtain ⟨t', e2, hw⟩ := split_again a hp c v tol b' t e'
  exact select_again H s hs j _ _ hj c _ tol t t' e hc (by simp only [FixedAxis.select, e2]; rfl) hw H1 s1 h

/-- C131 for the selection of what is not NaN, on bin and split axes. -/
theorem C131_not_nan (H : HistDef) (s : H.State) (hs : H.Proper s) (j : ℕ) (a : FixedAxis) (hj : H.fixed[j]? = some a) (tol : ℚ)
    (hk : (∃ b, a = .bin b) ∨ ∃ b : SplitAxis, a = .split b ∧ b.edges ≠ []) (H1 : HistDef) (s1 : H1.State)
    (h : H.select j .ne .nan tol s = .ok ⟨H1, s1⟩) : H1.select j .ne .nan tol s1 = .ok ⟨H1, s1⟩ := by
  have h0 : b2n false = 0 := rfl
  obtain ⟨b, t, e, k⟩ := select_sliced hj h
  rcases hk with ⟨a, rfl⟩ | ⟨a, rfl, ha⟩
  · obtain ⟨b', e', rfl⟩ := map_cut e
    have e0 := e'
    unfold BinAxis.select checktot at e'
    simp only [and_self, or_true, if_true] at e'
    split at e'
    · cases e'
    · rename_i htot
      simp only [Except.ok.injEq, SelRes.cut.injEq] at e'
      obtain ⟨rfl, rfl⟩ := e'
      refine select_again H s hs j _ _ hj _ _ tol _ ⟨0, some (a.numbins + b2i a.underflow + b2i a.overflow)⟩ e ?_ ?_ ?_ H1 s1 h
      · simp only [PySlice.lo, PySlice.hi, FixedAxis.totbins, BinAxis.totbins, b2i_cast, sliceBound]
        rw [if_neg (by omega), if_neg (by omega)]
        omega
      · simp only [FixedAxis.select]
        unfold BinAxis.select checktot
        simp only [and_self, or_true, if_true]
        rw [if_neg htot]
        rfl
      · refine whole_nat _ _ ?_
        simp only [FixedAxis.totbins, BinAxis.totbins, b2i_cast]
        omega
  · obtain ⟨b', e', rfl⟩ := map_cut e
    unfold SplitAxis.select checktot at e'
    simp only [and_self, or_true, if_true] at e'
    have hlen : 0 < a.edges.length := List.length_pos_iff.2 ha
    split at e'
    · cases e'
    · rename_i htot
      simp only [Except.ok.injEq, SelRes.cut.injEq] at e'
      obtain ⟨rfl, rfl⟩ := e'
      refine select_again H s hs j _ _ hj _ _ tol _ ⟨0, some ((a.edges.length : ℤ) - 1 + b2i a.underflow + b2i a.overflow)⟩ e ?_ ?_ ?_ H1 s1 h
      · simp only [PySlice.lo, PySlice.hi, FixedAxis.totbins, SplitAxis.totbins, b2i_cast, sliceBound]
        rw [if_neg (by omega), if_neg (by omega)]
        omega
      · simp only [FixedAxis.select]
        unfold SplitAxis.select checktot
        simp only [and_self, or_true, if_true]
        rw [if_neg htot]
        rfl
      · refine whole_nat _ _ ?_
        simp only [FixedAxis.totbins, SplitAxis.totbins, b2i_cast]
        omega

/-- C131 for intbin axes (partial: the tolerance is at most a half, and the comparison is `<=` or `>=`). -/
theorem C131_intbin_partial (H : HistDef) (s : H.State) (hs : H.Proper s) (j : ℕ) (a : IntbinAxis) (hj : H.fixed[j]? = some (.intbin a))
    (hm : a.min ≤ a.max) (tol : ℚ) (htol : 2 * tol ≤ 1) (c : Cmp) (hcmp : c = .le ∨ c = .ge) (v : ℚ) (H1 : HistDef) (s1 : H1.State)
    (h : H.select j c (.fin v) tol s = .ok ⟨H1, s1⟩) : H1.select j c (.fin v) tol s1 = .ok ⟨H1, s1⟩ := by
  obtain ⟨b, t, e, k⟩ := select_sliced hj h
  have hc := cutAt_size (select_cutAt (.intbin a) c v tol ⟨hm, htol⟩ b t e)
  obtain ⟨b', e', rfl⟩ := map_cut e
  obtain ⟨t', e2, hw⟩ := int_again a c hcmp v tol b' t e'
  exact select_again H s hs j _ _ hj c _ tol t t' e hc (by simp only [FixedAxis.select, e2]; rfl) hw H1 s1 h

/-- C131 fails for `<` and `>` on intbin axes: whenever such a selection is accepted, the same selection of the result raises `ValueError`. -/
theorem C131_refuted_intbin (H : HistDef) (s : H.State) (j : ℕ) (a : IntbinAxis) (hj : H.fixed[j]? = some (.intbin a))
    (tol : ℚ) (htol : 2 * tol ≤ 1) (c : Cmp) (hcmp : c = .lt ∨ c = .gt) (v : ℚ) (H1 : HistDef) (s1 : H1.State)
    (h : H.select j c (.fin v) tol s = .ok ⟨H1, s1⟩) : H1.select j c (.fin v) tol s1 = .error .valueError := by
  have jl : j < H.fixed.length := (List.getElem?_eq_some_iff.1 hj).1
  obtain ⟨b, t, e, k⟩ := select_sliced hj h
  obtain ⟨b', e', rfl⟩ := map_cut e
  cases k
  have hj1 : (H.setFixed j (.intbin b')).fixed[j]? = some (.intbin b') := by
    show (H.fixed.set j _)[j]? = _
    simp [jl]
  refine select_no hj1 _ (Or.inl ?_)
  unfold IntbinAxis.select at e'
  simp only at e'
  split at e'
  · cases e'
  · rename_i hlo
    split at e'
    · cases e'
    · rename_i hhi
      split at e'
      · rename_i hclose
        have hclose' := abs_lt.1 hclose
        unfold IntbinAxis.checkSel at e'
        rcases hcmp with rfl | rfl
        · simp only at e'
          split at e'
          · cases e'
          · simp only [Except.ok.injEq, SelRes.cut.injEq] at e'
            obtain ⟨rfl, rfl⟩ := e'
            refine ⟨some (((pyRound v - 1 : ℤ)) : ℚ), false, ?_⟩
            simp only [FixedAxis.select]
            unfold IntbinAxis.select
            simp only
            rw [if_neg hlo, if_pos (by push_cast; linarith [hclose'.1])]
            rfl
        · simp only at e'
          split at e'
          · cases e'
          · simp only [Except.ok.injEq, SelRes.cut.injEq] at e'
            obtain ⟨rfl, rfl⟩ := e'
            refine ⟨some (((pyRound v + 1 : ℤ)) : ℚ), false, ?_⟩
            simp only [FixedAxis.select]
            unfold IntbinAxis.select
            simp only
            rw [if_pos (by push_cast; linarith [hclose'.2])]
            rfl
      · cases e'

/-- C131 fails if the selection leaves a flow bin only: the same selection of the result raises `ZeroDivisionError`. -/
theorem C131_refuted_flow (H : HistDef) (s : H.State) (j : ℕ) (a : BinAxis) (hj : H.fixed[j]? = some (.bin a)) (hN : 0 < a.numbins)
    (h : a.low < a.high) (ho : a.overflow = true) (tol : ℚ) (ht : 0 < tol) :
    ∃ H1 s1, H.select j (if a.closedlow then .ge else .gt) (.fin a.high) tol s = .ok ⟨H1, s1⟩ ∧
      H1.select j (if a.closedlow then .ge else .gt) (.fin a.high) tol s1 = .error .zeroDivision := by
  obtain ⟨⟨H1, s1, h1, h2⟩, _⟩ := C128_refuted_flow H s j a hj h ho 0 hN tol ht
  exact ⟨H1, s1, h1, h2 _ _⟩

/-- C131 for group axes, for all conditions. -/
theorem C131_groups (H : HistDef) (limit i : ℕ) (dnf : List (List GTerm)) (tol : ℚ) (s t : H.State) (h : H.selectGroup limit i dnf tol s = .ok t) :
    H.selectGroup limit i dnf tol t = .ok t := by
  by_cases hd : ∃ ts, dnf = [ts]
  · obtain ⟨ts, rfl⟩ := hd
    have h' : H.selectAnd i tol ts s = .ok t := h
    exact and_again ts t (and_meets ts s t h').1
  · unfold HistDef.selectGroup at h ⊢
    split at h
    · rename_i ts
      exact absurd ⟨ts, rfl⟩ hd
    · split at h
      · cases h
      · rename_i a ha
        split at h
        · cases h
        · cases h
        · cases h
        · rename_i F c ho
          exact filter_kept H _ i t (filter_self H _ i s t h)

/-- C131 fails for cut axes, which selections remove: `select("p")` of a histogram with the axes `bin("x", 4, 0, 4)` and `cut("p")` is accepted,
and `select("p")` of the result raises `ValueError`. -/
theorem C131_refuted_cut :
    let X : HistExprs := ⟨[], [(demoBin, goalsExpr (.name "x")), (.cut, goalsExpr (.name "p"))], [], none⟩
    let st : X.hist.State := some (Arr.zeros [7, 2] 1)
    ((selectExpr maybeconstants false 1000 (1/1000) (goalsExpr (.name "p")) ⟨X, st⟩).map fun r => r.1.fixed.map (·.1)) = .ok [demoBin] ∧
    ((selectExpr maybeconstants false 1000 (1/1000) (goalsExpr (.name "p")) ⟨X, st⟩).bind fun r =>
      (selectExpr maybeconstants false 1000 (1/1000) (goalsExpr (.name "p")) r).map fun r => r.1.fixed.map (·.1)) = .error .valueError :=
  ⟨by decide +kernel, by decide +kernel⟩

/-! ## examples -/

/-- the result of a selection, and whether the same selection of it is accepted and has the same bins and the same entry in the first one -/
def exAgain (H : HistDef) (s : H.State) (j : ℕ) (c : Cmp) (v : Num) (gk : List Key) (idx : List ℕ) : List (List ℕ × ℚ) :=
  match H.select j c v (1/1000) s with
  | .error _ => []
  | .ok ⟨H1, s1⟩ =>
    (H1.fixed.map FixedAxis.totbins, H1.read s1 gk idx 0) :: match H1.select j c v (1/1000) s1 with
      | .error _ => []
      | .ok ⟨H2, s2⟩ => [(H2.fixed.map FixedAxis.totbins, H2.read s2 gk idx 0)]

/-- bin, split and NaN on the histogram of C128 -/
example : exAgain exBinSplit exBinSplitState 0 .ge (.fin 1) [.str "a"] [0, 0] = [([4, 5], 20), ([4, 5], 20)] ∧
    exAgain exBinSplit exBinSplitState 1 .ge (.fin 1) [.str "a"] [0, 0] = [([7, 2], 2), ([7, 2], 2)] ∧
    exAgain exBinSplit exBinSplitState 0 .ne .nan [.str "a"] [5, 0] = [([6, 5], 50), ([6, 5], 50)] := by decide +kernel

/-- intbin: `n >= 2` can be repeated, `n > 2` cannot -/
example : exAgain ⟨[], [.intbin ⟨1, 4, true, true⟩], 0, .none⟩ (some (⟨[6], 1, fun idx _ => idx.getD 0 0⟩ : Arr)) 0 .ge (.fin 2) [] [0] =
      [([4], 2), ([4], 2)] ∧
    exAgain ⟨[], [.intbin ⟨1, 4, true, true⟩], 0, .none⟩ (some (⟨[6], 1, fun idx _ => idx.getD 0 0⟩ : Arr)) 0 .gt (.fin 2) [] [0] =
      [([3], 3)] := by decide +kernel

/-- groups: an "and" and an "or" -/
example : (exTwoGroups.selectGroup 10 1 [[⟨.ge, .key (.num 2)⟩, ⟨.ne, .key (.num 3)⟩]] 0 exTwoGroupsState).toBool = true ∧
    (exTwoGroups.selectGroup 10 1 [[⟨.eq, .key (.num 1)⟩], [⟨.eq, .key (.num 3)⟩]] 0 exTwoGroupsState).toBool = true := by decide +kernel

end Verif
