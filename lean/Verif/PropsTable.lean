import Verif.SpecTable
import Verif.PropsDrop

/-!
# Tables: property theorems C45 and C46
-/

namespace Verif

/-! ## helpers -/

theorem handle_lookup (f : Arr → Table) : ∀ (n : ℕ) (c : Content Arr n) (gk : List Key), gk.length = n → HasGroup n c gk →
    ∃ a : Arr, tlookup n (handle f n c) gk = some (f a) ∧ (∀ idx col, lookup n c gk idx col = a.get idx col) ∧
      ∀ L, Shaped L n c → Shaped L 0 a
  | 0, (a : Arr), [], _, _ => ⟨a, rfl, fun _ _ => rfl, fun _ h => h⟩
  | n + 1, (d : List (Key × Content Arr n)), k :: gk, hl, hg => by
    obtain ⟨c, hc, hg'⟩ := hg
    obtain ⟨a, h1, h2, h3⟩ := handle_lookup f n c gk (by simpa using hl) hg'
    refine ⟨a, ?_, fun idx col => ?_, fun L hL => h3 L (hL k c hc)⟩
    · show (match dget (d.map (fun p => (p.1, handle f n p.2))) k with | none => none | some c => tlookup n c gk) = _
      rw [dget_map (fun _ c => handle f n c) d k, hc]
      exact h1
    · rw [← h2 idx col]
      show (match dget d k with | none => 0 | some c => lookup n c gk idx col) = _
      rw [hc]

theorem handle_lookup_none (f : Arr → Table) : ∀ (n : ℕ) (c : Content Arr n) (gk : List Key), gk.length = n → ¬ HasGroup n c gk →
    tlookup n (handle f n c) gk = none
  | 0, (a : Arr), [], _, h => absurd rfl h
  | n + 1, (d : List (Key × Content Arr n)), k :: gk, hl, hg => by
    show (match dget (d.map (fun p => (p.1, handle f n p.2))) k with | none => none | some c => tlookup n c gk) = _
    rw [dget_map (fun _ c => handle f n c) d k]
    cases hc : dget d k with
    | none => rfl
    | some c => exact handle_lookup_none f n c gk (by simpa using hl) (fun h => hg ⟨c, hc, h⟩)

/-- The sums in terms of the columns. -/
theorem cell_sums (H : HistDef) (rows : List Row) (gk : List Key) (idx : List ℕ) :
    binTotal H rows gk idx (2 * H.nprof) = sumW H.wkind (rows.filter (Row.lands H gk idx)) ∧
    (H.wkind ≠ .none → binTotal H rows gk idx (2 * H.nprof + 1) = sumW2 H.wkind (rows.filter (Row.lands H gk idx))) ∧
    ∀ p, p < H.nprof →
      binTotal H rows gk idx (2 * p) = rsum (rows.filter (Row.lands H gk idx)) (fun r => r.weight H.wkind * r.xs.getD p 0) ∧
      binTotal H rows gk idx (2 * p + 1) = rsum (rows.filter (Row.lands H gk idx)) (fun r => r.weight H.wkind * r.xs.getD p 0 ^ 2) := by
  refine ⟨?_, fun hw => ?_, fun p hp => ⟨?_, ?_⟩⟩
  · exact congrArg List.sum (List.map_congr_left (fun r _ => by simp [Row.adds]))
  · exact congrArg List.sum (List.map_congr_left (fun r _ => by simp [Row.adds, hw]))
  · refine congrArg List.sum (List.map_congr_left (fun r _ => ?_))
    have h1 : 2 * p / 2 = p := by omega
    have h2 : 2 * p < 2 * H.nprof := by omega
    simp only [Row.adds, h2, if_true, h1, Nat.mul_mod_right]
  · refine congrArg List.sum (List.map_congr_left (fun r _ => ?_))
    have h1 : (2 * p + 1) / 2 = p := by omega
    have h2 : 2 * p + 1 < 2 * H.nprof := by omega
    have h3 : ¬ (2 * p + 1) % 2 = 0 := by omega
    simp only [Row.adds, h2, if_true, h1, h3, if_false]

theorem rsum_var (k : WKind) (rs : List Row) (p : ℕ) (m : ℚ) :
    rsum rs (fun r => r.weight k * (r.xs.getD p 0 - m) ^ 2) =
      rsum rs (fun r => r.weight k * r.xs.getD p 0 ^ 2) - 2 * m * rsum rs (fun r => r.weight k * r.xs.getD p 0) + m ^ 2 * sumW k rs := by
  unfold sumW rsum
  induction rs with
  | nil => simp
  | cons r rs ih =>
    simp only [List.map_cons, List.sum_cons]
    rw [ih]
    ring

/-- "mean of squares minus square of mean" is the variance. -/
theorem wvar_eq (k : WKind) (rs : List Row) (p : ℕ) (hW : 0 < sumW k rs) :
    wvar k rs p = rsum rs (fun r => r.weight k * r.xs.getD p 0 ^ 2) / sumW k rs - wmean k rs p ^ 2 := by
  unfold wvar
  rw [rsum_var]
  have hne : sumW k rs ≠ 0 := ne_of_gt hW
  have hm : rsum rs (fun r => r.weight k * r.xs.getD p 0) = wmean k rs p * sumW k rs := by
    unfold wmean
    field_simp
  rw [hm]
  field_simp
  ring

theorem sumW2_none (rs : List Row) : sumW2 .none rs = sumW .none rs := by
  unfold sumW2 sumW rsum
  exact congrArg List.sum (List.map_congr_left (fun r _ => by simp [Row.weight]))

theorem layout_pidx (H : HistDef) (p : ℕ) (hp : p < H.nprof) : H.layout.pidx.getD p 0 = 2 * p := by
  unfold HistDef.layout Layout.make
  rw [List.getD_eq_getElem?_getD, List.getElem?_map, List.getElem?_range hp]
  rfl

/-- One bin of the table, without normalization, from right sums. -/
theorem handlearray_spec (H : HistDef) (o : TableOpts) (ho : o.normalized = false) (hp : ∀ p ∈ o.profs, p < H.nprof) (b : Widths)
    (rows : List Row) (gk : List Key) (idx : List ℕ) (a : Arr) (ha : ∀ col, a.get idx col = binTotal H rows gk idx col) :
    handlearray H.layout o b a idx = tableSpec H.wkind o (rows.filter (Row.lands H gk idx)) := by
  set rs := rows.filter (Row.lands H gk idx) with hrs
  obtain ⟨h1, h2, h3⟩ := cell_sums H rows gk idx
  rw [← hrs] at h1 h2 h3
  have e1 : a.get idx H.layout.sumw = sumW H.wkind rs := by rw [ha]; exact h1
  have e2 : (if H.wkind = .none then a.get idx H.layout.sumw else a.get idx H.layout.sumw2) = sumW2 H.wkind rs := by
    split
    · rename_i hw
      rw [e1, hw, sumW2_none]
    · rename_i hw
      rw [ha]
      exact h2 hw
  have hwk : H.layout.wkind = H.wkind := rfl
  have e3 : a.get idx H.layout.sumw > 0 → effcnt H.layout (a.get idx) = effN H.wkind rs := by
    intro hpos
    rw [e1] at hpos
    unfold effcnt effN
    rw [hwk, e1]
    by_cases hw : H.wkind = .none
    · rw [if_pos hw, hw, sumW2_none]
      rw [hw] at hpos
      have := ne_of_gt hpos
      field_simp
    · rw [if_neg hw] at e2 ⊢
      rw [e2]
  have e4 : ∀ p ∈ o.profs, profColumns H.layout o (a.get idx) (H.layout.pidx.getD p 0) =
      if sumW H.wkind rs > 0 then some (wmean H.wkind rs p) :: (if o.error then [some (wvar H.wkind rs p / effN H.wkind rs)] else [])
      else some 0 :: (if o.error then [some 0] else []) := by
    intro p hpm
    have hlt := hp p hpm
    unfold profColumns
    rw [layout_pidx H p hlt]
    by_cases hpos : sumW H.wkind rs > 0
    · have hpos' : a.get idx H.layout.sumw > 0 := by rw [e1]; exact hpos
      rw [if_pos hpos', if_pos hpos, e3 hpos', e1]
      have m : a.get idx (2 * p) / sumW H.wkind rs = wmean H.wkind rs p := by
        rw [ha, (h3 p hlt).1]; rfl
      have v : a.get idx (2 * p + 1) / sumW H.wkind rs - wmean H.wkind rs p ^ 2 = wvar H.wkind rs p := by
        rw [wvar_eq _ _ _ hpos, ha, (h3 p hlt).2]
      simp only [m, v]
    · have hpos' : ¬ a.get idx H.layout.sumw > 0 := by rw [e1]; exact hpos
      rw [if_neg hpos', if_neg hpos]
  unfold handlearray tableSpec countColumns
  simp only [ho, Bool.false_eq_true, if_false, hwk]
  rw [e2, e1]
  congr 1
  · congr 1
    by_cases hpos : sumW H.wkind rs > 0
    · have hpos' : a.get idx H.layout.sumw > 0 := by rw [e1]; exact hpos
      rw [if_pos hpos, if_pos hpos, e3 hpos']
    · rw [if_neg hpos, if_neg hpos]
  · exact List.flatMap_congr e4

/-! ## C45 -/

/-- C45: the table of a filled histogram.  For every group and every bin it reports the sum of weights, the
sum of squared weights (as squared error), the effective number of entries, and the weighted mean and
weighted variance over effective number of every requested profile, of exactly the rows in that bin.
There are no other groups in the table. -/
theorem C45_table (H : HistDef) (bs : List (List Row)) (hf : Fillable H bs) (st : H.State) (hst : H.fillAll none bs = .ok st)
    (o : TableOpts) (ho : o.normalized = false) (hp : ∀ p ∈ o.profs, p < H.nprof) :
    ∃ t, H.table o st = .ok t ∧ ∀ gk, gk.length = H.groups.length →
      ((H.has st gk ∨ H.groups = []) → ∃ tab, tlookup H.groups.length t gk = some tab ∧ ∀ idx, H.Cell idx →
        tab idx = tableSpec H.wkind o (bs.flatten.filter (Row.lands H gk idx))) ∧
      (¬ H.has st gk → H.groups ≠ [] → tlookup H.groups.length t gk = none) := by
  obtain ⟨st0, e1, h⟩ := Represents.ofFill H bs hf
  rw [hst] at e1
  cases e1
  obtain ⟨p1, p2, p3⟩ := prefill_facts H st h.good
  have hany : o.profs.any (fun p => decide (H.nprof ≤ p)) = false := by
    rw [List.any_eq_false]
    intro p hpm
    have := hp p hpm
    simp; omega
  refine ⟨_, by unfold HistDef.table HistDef.tableWith; rw [hany, ho]; rfl, fun gk hgk => ⟨?_, ?_⟩⟩
  · intro hhas
    have hg : HasGroup H.groups.length (prefill H.layout st) gk := by
      rw [p3]
      rcases hhas with hh | hh
      · exact Or.inl hh
      · rw [hh] at hgk
        exact Or.inr (List.length_eq_zero_iff.1 hgk)
    obtain ⟨a, h1, h2, _⟩ := handle_lookup (handlearray H.layout o (fun _ => none)) _ _ gk hgk hg
    refine ⟨_, h1, fun idx hidx => ?_⟩
    refine handlearray_spec H o ho hp _ bs.flatten gk idx a fun col => ?_
    rw [← h2, p2]
    exact h.totals gk hgk idx hidx col
  · intro hno hne
    refine handle_lookup_none _ _ _ gk hgk ?_
    rw [p3]
    rintro (hc | rfl)
    · exact hno hc
    · exact hne (List.length_eq_zero_iff.1 hgk.symm)

theorem rsum_nonneg (rs : List Row) (f : Row → ℚ) (h : ∀ r ∈ rs, 0 ≤ f r) : 0 ≤ rsum rs f := by
  refine List.sum_nonneg fun x hx => ?_
  obtain ⟨r, hr, rfl⟩ := List.mem_map.1 hx
  exact h r hr

theorem rsum_le (rs : List Row) (f g : Row → ℚ) (h : ∀ r ∈ rs, f r ≤ g r) : rsum rs f ≤ rsum rs g := by
  unfold rsum
  induction rs with
  | nil => simp
  | cons r rs ih =>
    simp only [List.map_cons, List.sum_cons]
    exact add_le_add (h r (by simp)) (ih (fun r hr => h r (by simp [hr])))

theorem rsum_mul (rs : List Row) (c : ℚ) (f : Row → ℚ) : rsum rs (fun r => f r * c) = rsum rs f * c := by
  unfold rsum
  induction rs with
  | nil => simp
  | cons r rs ih =>
    simp only [List.map_cons, List.sum_cons]
    rw [ih]
    ring

theorem sumW2_pos (k : WKind) (rs : List Row) (hW : 0 < sumW k rs) : 0 < sumW2 k rs := by
  unfold sumW sumW2 at *
  unfold rsum at *
  induction rs with
  | nil => simp at hW
  | cons r rs ih =>
    simp only [List.map_cons, List.sum_cons] at *
    have hnn : 0 ≤ (rs.map (fun r => r.weight k ^ 2)).sum := rsum_nonneg rs _ (fun r _ => sq_nonneg _)
    by_cases hr : r.weight k = 0
    · rw [hr, zero_add] at hW
      have := ih hW
      have h2 := sq_nonneg (r.weight k)
      linarith
    · have := sq_pos_of_ne_zero hr
      linarith

/-- C45: in bins with positive weight the numbers make sense: the effective number of entries is
positive and at most the number of rows (for any weights); if no weight is negative, variances are not
negative (so that the root exists) and means are between the smallest and the largest value. -/
theorem C45_ranges (k : WKind) (rs : List Row) (hW : 0 < sumW k rs) :
    0 < effN k rs ∧ effN k rs ≤ rs.length ∧ ((∀ r ∈ rs, 0 ≤ r.weight k) → ∀ p,
      0 ≤ wvar k rs p / effN k rs ∧ ∀ lo hi : ℚ, (∀ r ∈ rs, lo ≤ r.xs.getD p 0 ∧ r.xs.getD p 0 ≤ hi) →
        lo ≤ wmean k rs p ∧ wmean k rs p ≤ hi) := by
  have h2 := sumW2_pos k rs hW
  have he : 0 < effN k rs := div_pos (pow_pos hW 2) h2
  refine ⟨he, ?_, fun hw p => ⟨?_, fun lo hi hx => ⟨?_, ?_⟩⟩⟩
  · unfold effN
    rw [div_le_iff₀ h2]
    have hc := cauchy (rs.map (fun r => (1, r.weight k))) (by
      intro q hq
      obtain ⟨r, _, rfl⟩ := List.mem_map.1 hq
      exact zero_le_one)
    have := hc.2.2
    simp only [List.map_map, Function.comp_def, one_mul, List.map_const', List.sum_replicate, nsmul_eq_mul, mul_one] at this
    exact this
  · refine div_nonneg (div_nonneg ?_ hW.le) he.le
    exact rsum_nonneg _ _ (fun r hr => mul_nonneg (hw r hr) (sq_nonneg _))
  · unfold wmean
    rw [le_div_iff₀ hW, mul_comm]
    unfold sumW
    rw [← rsum_mul]
    exact rsum_le _ _ _ (fun r hr => mul_le_mul_of_nonneg_left (hx r hr).1 (hw r hr))
  · unfold wmean
    rw [div_le_iff₀ hW, mul_comm]
    unfold sumW
    rw [← rsum_mul]
    exact rsum_le _ _ _ (fun r hr => mul_le_mul_of_nonneg_left (hx r hr).2 (hw r hr))

/-- C45: asking for a profile that the histogram does not have raises `IndexError`. -/
theorem C45_no_such_profile (H : HistDef) (o : TableOpts) (st : H.State) (p : ℕ) (hp : p ∈ o.profs) (hge : H.nprof ≤ p) :
    H.table o st = .error .indexError := by
  unfold HistDef.table HistDef.tableWith
  rw [if_pos]
  rw [List.any_eq_true]
  exact ⟨p, hp, by simpa using hge⟩

/-- three entries in a bin: weights 1, 2, 3, values 4, 7, 8 -/
def tableDemo : HistDef := ⟨[], [.bin ⟨2, 0, 2, true, true, true, true⟩], 1, .expr⟩
def tableRows : List Row :=
  [⟨[], [.num (.fin (1 / 2))], [4], some 1⟩, ⟨[], [.num (.fin (1 / 4))], [7], some 2⟩, ⟨[], [.num (.fin 0)], [8], some 3⟩]

example : (match tableDemo.fillAll none [tableRows] with
    | .error _ => none
    | .ok st => match tableDemo.table { effcount := true, profs := [0] } st with
      | .error _ => none
      | .ok t => some ((t : Table) [1], (t : Table) [2])) =
    some ([some 6, some 14, some (18 / 7), some 7, some ((12 / 6) / (18 / 7))], [some 0, some 0, some 0, some 0, some 0]) := by
  decide +kernel

example : 0 < sumW .expr tableRows := by decide +kernel

end Verif
