import Verif.PropsSelect
import Verif.PropsRebin
import Verif.PropsProject
import Verif.PropsDrop
import Verif.PropsGroupSel
import Verif.SelectExprSteps

/-!
# Filling a derived histogram further: property theorems C115

`project`, `select`, `rebin` and `drop` return histograms that can be filled.  The question is whether
filling the result with more data gives what the operation gives after the original was filled with all
data.
-/

namespace Verif

/-- Two contents read the same everywhere. -/
def HistDef.SameReads (H : HistDef) (s t : H.State) : Prop :=
  ∀ gk, gk.length = H.groups.length → ∀ idx, H.Cell idx → ∀ col, H.read s gk idx col = H.read t gk idx col

/-- The first content has in addition what these rows add. -/
def HistDef.ReadsMore (H : HistDef) (s t : H.State) (extra : List Row) : Prop :=
  ∀ gk, gk.length = H.groups.length → ∀ idx, H.Cell idx → ∀ col, H.read s gk idx col = H.read t gk idx col + binTotal H extra gk idx col

/-! ## helpers -/

theorem fillAll_two (H : HistDef) : ∀ (bs more : List (List Row)) (s t : H.State), H.fillAll s bs = .ok t →
    H.fillAll s (bs ++ more) = H.fillAll t more
  | [], more, s, t, h => by cases h; rfl
  | b :: bs, more, s, t, h => by
    simp only [HistDef.fillAll, List.cons_append] at h ⊢
    split at h
    · cases h
    · rename_i u hu
      exact fillAll_two H bs more u t h

theorem Fillable.left {H : HistDef} {bs more : List (List Row)} (h : Fillable H (bs ++ more)) : Fillable H bs :=
  ⟨fun b hb => h.ok b (by simp [hb]), h.prof.imp id (fun h b hb => h b (by simp [hb]))⟩

theorem Fillable.right {H : HistDef} {bs more : List (List Row)} (h : Fillable H (bs ++ more)) : Fillable H more :=
  ⟨fun b hb => h.ok b (by simp [hb]), h.prof.imp id (fun h b hb => h b (by simp [hb]))⟩

/-- After more data, the original has the content of all data. -/
theorem fill_more {H : HistDef} {bs more : List (List Row)} (hf : Fillable H (bs ++ more)) {st : H.State}
    (hst : H.fillAll none bs = .ok st) :
    Represents H bs.flatten st ∧
      ∃ st2, H.fillAll st more = .ok st2 ∧ H.fillAll none (bs ++ more) = .ok st2 ∧ Represents H (bs.flatten ++ more.flatten) st2 := by
  obtain ⟨st0, e1, e2⟩ := Represents.ofFill H bs hf.left
  rw [hst] at e1
  cases e1
  obtain ⟨st2, e3, e4⟩ := e2.fill more hf.right
  exact ⟨e2, st2, e3, by rw [fillAll_two H bs more none st hst, e3], e4⟩

/-- The result is filled further with `more`, and compared with the result for all data. -/
theorem refill {H : HistDef} {A B : List Row} {s t : H.State} (hs : Represents H A s) (ht : Represents H B t) (more : List (List Row))
    (hf : Fillable H more)
    (heq : ∀ gk idx col, binTotal H B gk idx col = binTotal H A gk idx col + binTotal H more.flatten gk idx col) :
    ∃ s', H.fillAll s more = .ok s' ∧ H.SameReads s' t := by
  obtain ⟨s', h1, h2⟩ := hs.fill more hf
  refine ⟨s', h1, fun gk hgk idx hidx col => ?_⟩
  rw [h2.totals gk hgk idx hidx col, ht.totals gk hgk idx hidx col, binTotal_append, heq]

/-- The result is filled further; `extra` is what it has in addition. -/
theorem refill_more {H : HistDef} {A B : List Row} {s t : H.State} (hs : Represents H A s) (ht : Represents H B t) (more : List (List Row))
    (hf : Fillable H more) (extra : List Row)
    (heq : ∀ gk idx col, binTotal H B gk idx col + binTotal H extra gk idx col = binTotal H A gk idx col + binTotal H more.flatten gk idx col) :
    ∃ s', H.fillAll s more = .ok s' ∧ H.ReadsMore s' t extra := by
  obtain ⟨s', h1, h2⟩ := hs.fill more hf
  refine ⟨s', h1, fun gk hgk idx hidx col => ?_⟩
  rw [h2.totals gk hgk idx hidx col, ht.totals gk hgk idx hidx col, binTotal_append, heq]

theorem binTotal_split (p : Row → Bool) (H : HistDef) (f : Row → Row) (rows : List Row) (gk : List Key) (idx : List ℕ) (col : ℕ) :
    binTotal H ((rows.filter p).map f) gk idx col + binTotal H ((rows.filter (fun r => !p r)).map f) gk idx col =
      binTotal H (rows.map f) gk idx col := by
  rw [← binTotal_append, ← List.map_append]
  exact binTotal_perm H (List.Perm.map f (List.filter_append_perm p rows)) gk idx col

theorem Fillable.erase {H : HistDef} {bs : List (List Row)} (hf : Fillable H bs) (j : ℕ) :
    Fillable (H.eraseFixed j) (bs.map (List.map (Row.eraseFixed j))) := by
  constructor
  · intro b hb r hr
    obtain ⟨b0, hb0, rfl⟩ := List.mem_map.1 hb
    obtain ⟨r0, hr0, rfl⟩ := List.mem_map.1 hr
    have ho := hf.ok b0 hb0 r0 hr0
    exact ⟨ho.groups, forall₂_eraseIdx ho.fixed j, ho.xs⟩
  · refine hf.prof.imp id (fun hp b hb r hr hl => ?_)
    obtain ⟨b0, hb0, rfl⟩ := List.mem_map.1 hb
    obtain ⟨r0, hr0, rfl⟩ := List.mem_map.1 hr
    refine hp b0 hb0 r0 hr0 fun idx => ?_
    by_contra hi
    rw [Bool.not_eq_false] at hi
    have h6 := inBins'_erase H.fixed r0.fvals idx j hi
    have h7 := hl (idx.eraseIdx j)
    cases (show false = true from h7.symm.trans h6)

/-- Rows that are in no bin do not count. -/
theorem binTotal_only (H : HistDef) (p : Row → Bool) (rows : List Row) (gk : List Key) (idx : List ℕ) (col : ℕ)
    (h : ∀ r ∈ rows, r.lands H gk idx = true → p r = true) :
    binTotal H (rows.filter p) gk idx col = binTotal H rows gk idx col := by
  unfold binTotal
  rw [List.filter_filter]
  congr 2
  refine List.filter_congr fun r hr => ?_
  cases hl : Row.lands H gk idx r
  · rfl
  · rw [h r hr hl]; rfl

theorem select_any {H : HistDef} {j : ℕ} {cmp : Cmp} {value : Num} {tol : ℚ} {a a' : FixedAxis} {s : PySlice} (ha : H.fixed[j]? = some a)
    (h : a.select cmp value tol = .ok (.cut a' s)) (st : H.State) :
    H.select j cmp value tol st = .ok ⟨H.setFixed j a', H.sliced j a' s st⟩ := by
  unfold HistDef.select
  rw [ha]
  simp only [h]

theorem rebin_any {H : HistDef} {j : ℕ} {edges : List ℚ} {x : FixedAxis} {a b : SplitAxis} (hx : H.fixed[j]? = some x)
    (ha : x.asSplit = .ok a) (hb : a.rebinned edges = .ok b) (st : H.State) :
    ∃ st', H.rebin j edges st = .ok ⟨H.setFixed j (.split b), st'⟩ := by
  unfold HistDef.rebin
  rw [hx]
  simp only [HistDef.rebinAny, ha]
  rw [hb]
  exact ⟨_, rfl⟩

theorem keeps_lands {H : HistDef} {j : ℕ} {a a' : FixedAxis} (hj : H.fixed[j]? = some a) {p : Val → Bool} (hr : a.Reduced a' p)
    (r : Row) (gk : List Key) (idx : List ℕ) (h : r.lands (H.setFixed j a') gk idx = true) :
    p (r.fvals.getD j (.num .nan)) = true := by
  unfold Row.lands at h
  rw [Bool.and_eq_true] at h
  have hlt : j < H.fixed.length := (List.getElem?_eq_some_iff.1 hj).1
  have := inBins'_holds (H.setFixed j a').fixed r.fvals idx j a' (by
    show (H.fixed.set j a')[j]? = _
    rw [List.getElem?_set_self hlt]) h.2
  unfold FixedAxis.holds at this
  split at this
  · rename_i l hl
    exact hr.only _ l (List.mem_of_getElem? hl) this
  · cases this

/-- The common part of the selections. -/
theorem refill_select {H : HistDef} {bs more : List (List Row)} (hf : Fillable H (bs ++ more)) {st : H.State}
    (hst : H.fillAll none bs = .ok st) {j : ℕ} {a a' : FixedAxis} (hj : H.fixed[j]? = some a) {cmp : Cmp} {value : Num} {tol : ℚ}
    {s : PySlice} (hs : a.select cmp value tol = .ok (.cut a' s)) {p : Val → Bool} (hk : Keeps a a' s p)
    (hm : Fillable (H.setFixed j a') more) :
    ∃ st2 c2 c3, H.fillAll st more = .ok st2 ∧ H.select j cmp value tol st2 = .ok ⟨H.setFixed j a', c2⟩ ∧
      (H.setFixed j a').fillAll (H.sliced j a' s st) more = .ok c3 ∧ (H.setFixed j a').SameReads c3 c2 := by
  obtain ⟨h1, st2, h2, _, h3⟩ := fill_more hf hst
  obtain ⟨c3, h4, h5⟩ := refill (h1.sliced j a a' hj s p hk) (h3.sliced j a a' hj s p hk) more hm (by
    intro gk idx col
    unfold rowsWhere
    rw [List.filter_append, binTotal_append]
    congr 1
    exact binTotal_only _ _ _ gk idx col (fun r _ h => keeps_lands hj hk.reduced r gk idx h))
  exact ⟨st2, _, c3, h2, select_any hj hs st2, h4, h5⟩

/-! ## C115 -/

/-- C115, selections on an axis that stays.  Filling a selection (`<`, `<=`, `>`, `>=` with a number, on a
`bin`, `intbin` or `split` axis) with more data gives what the selection of the histogram with all data
gives: later rows that fail the condition are not counted.  With profiles no later row may fail it, as
filling such a row raises (`C115_refuted_profile`). -/
theorem C115_select_partial (H : HistDef) (bs more : List (List Row)) (hf : Fillable H (bs ++ more)) (st : H.State)
    (hst : H.fillAll none bs = .ok st) (j : ℕ) (a : FixedAxis) (hj : H.fixed[j]? = some a) (hcut : a ≠ .cut) (cmp : Cmp) (v tol : ℚ)
    (hfit : a.Fits tol) (r : Σ H' : HistDef, H'.State) (hr : H.select j cmp (.fin v) tol st = .ok r) (hm : Fillable r.1 more) :
    ∃ st2 c2 c3, H.fillAll st more = .ok st2 ∧ H.select j cmp (.fin v) tol st2 = .ok ⟨r.1, c2⟩ ∧
      r.1.fillAll r.2 more = .ok c3 ∧ r.1.SameReads c3 c2 := by
  obtain ⟨a', s, hs, rfl⟩ := select_ok hj hr
  obtain ⟨x, _, _, _, hk, _⟩ := fixed_select_fin hcut hfit hs
  exact refill_select hf hst hj hs hk hm

/-- C115, selections that leave out NaN (`x != nan`, `x >= -inf`, `x <= inf`) on a `bin` or `split` axis: filling the selection further
does not count later NaN either. -/
theorem C115_not_nan_partial (a : FixedAxis) (ha : (∃ numbins low high u o n cl b, BinAxis.init numbins low high u o n cl = .ok b ∧ 0 < numbins ∧ a = .bin b) ∨
      ∃ edges u o n cl b, SplitAxis.init edges u o n cl = .ok b ∧ a = .split b)
    (H : HistDef) (bs more : List (List Row)) (hf : Fillable H (bs ++ more)) (st : H.State) (hst : H.fillAll none bs = .ok st) (j : ℕ)
    (hj : H.fixed[j]? = some a) (cmp : Cmp) (v : Num) (tol : ℚ)
    (hv : (v = .ninf ∧ cmp = .ge) ∨ (v = .pinf ∧ cmp = .le) ∨ (v = .nan ∧ cmp = .ne)) (r : Σ H' : HistDef, H'.State)
    (hr : H.select j cmp v tol st = .ok r) (hm : Fillable r.1 more) :
    ∃ st2 c2 c3, H.fillAll st more = .ok st2 ∧ H.select j cmp v tol st2 = .ok ⟨r.1, c2⟩ ∧
      r.1.fillAll r.2 more = .ok c3 ∧ r.1.SameReads c3 c2 := by
  obtain ⟨a', s, hs, rfl⟩ := select_ok hj hr
  have hk : Keeps a a' s (fun x => !x.toNum.isnan) := by
    rcases ha with ⟨numbins, low, high, u, o, n, cl, b, hb, hn, rfl⟩ | ⟨edges, u, o, n, cl, b, hb, rfl⟩
    · obtain ⟨rfl, _⟩ := BinAxis.init_ok hb
      obtain ⟨b', h2, rfl⟩ := map_cut hs
      exact bin_select_nan _ hn cmp v tol hv b' s h2
    · obtain ⟨hg, _⟩ := SplitAxis.init_ok hb
      obtain ⟨b', h2, rfl⟩ := map_cut hs
      exact split_select_nan b hg.1 cmp v tol hv b' s h2
  exact refill_select hf hst hj hs hk hm

/-- C115, rebinning: filling the rebinned histogram further gives what rebinning gives after all data. -/
theorem C115_rebin (H : HistDef) (bs more : List (List Row)) (hf : Fillable H (bs ++ more)) (st : H.State)
    (hst : H.fillAll none bs = .ok st) (j : ℕ) (edges : List ℚ) (u o n cl : Bool) (a : SplitAxis)
    (ha : SplitAxis.init edges u o n cl = .ok a)
    (hj : H.fixed[j]? = some (.split a) ∨
      (∃ (numbins : ℕ) (low high : ℚ) (b : BinAxis), BinAxis.init numbins low high u o n cl = .ok b ∧ 0 < numbins ∧ H.fixed[j]? = some (.bin b)))
    (new : List ℚ) (r : Σ H' : HistDef, H'.State) (hr : H.rebin j new st = .ok r)
    (hp : H.nprof = 0 ∨ ∀ rs ∈ more, ∀ row ∈ rs, ¬ row.leftOut r.1) :
    ∃ st2 c2 c3, H.fillAll st more = .ok st2 ∧ H.rebin j new st2 = .ok ⟨r.1, c2⟩ ∧ r.1.fillAll r.2 more = .ok c3 ∧ r.1.SameReads c3 c2 := by
  obtain ⟨_, st2, h2, h3, _⟩ := fill_more hf hst
  have key : ∃ b c2, SplitAxis.init new u o n cl = .ok b ∧ r.1 = H.setFixed j (.split b) ∧ Represents r.1 bs.flatten r.2 ∧
      H.rebin j new st2 = .ok ⟨r.1, c2⟩ ∧ Represents r.1 (bs ++ more).flatten c2 := by
    rcases hj with hj | ⟨m, lo, hi, b0, hb0, hm, hj⟩
    · obtain ⟨b, k1, k2, k3, _⟩ := C41_rebin_split edges u o n cl a ha H bs hf.left st hst j hj new r hr
      obtain ⟨a1, b1, s1, g1, g2, g3, rfl⟩ := rebin_ok hj hr
      obtain ⟨c2, e⟩ := rebin_any hj g1 g2 st2
      obtain ⟨_, _, _, k4, _⟩ := C41_rebin_split edges u o n cl a ha H (bs ++ more) hf st2 h3 j hj new _ e
      exact ⟨b, c2, k1, k2, k3, e, k4⟩
    · obtain ⟨b, k1, k2, k3, _⟩ := C41_rebin_bin m lo hi u o n cl b0 hb0 hm H bs hf.left st hst j hj new r hr
      obtain ⟨a1, b1, s1, g1, g2, g3, rfl⟩ := rebin_ok hj hr
      obtain ⟨c2, e⟩ := rebin_any hj g1 g2 st2
      obtain ⟨_, _, _, k4, _⟩ := C41_rebin_bin m lo hi u o n cl b0 hb0 hm H (bs ++ more) hf st2 h3 j hj new _ e
      exact ⟨b, c2, k1, k2, k3, e, k4⟩
  obtain ⟨b, c2, k1, k2, k3, k4, k5⟩ := key
  have hfm : Fillable r.1 more := by
    rw [k2] at hp ⊢
    exact hf.right.setSplit j b (handles_split _ _ _ _ _ b k1) hp
  obtain ⟨c3, h4, h5⟩ := refill k3 k5 more hfm (by
    intro gk idx col
    rw [List.flatten_append, binTotal_append])
  exact ⟨st2, c2, c3, h2, k4, h4, h5⟩

/-- C115, rebinning of an `intbin` axis, for integers. -/
theorem C115_rebin_intbin (H : HistDef) (bs more : List (List Row)) (hf : Fillable H (bs ++ more)) (st : H.State)
    (hst : H.fillAll none bs = .ok st) (j : ℕ) (min max : ℤ) (u o : Bool) (a : IntbinAxis) (ha : IntbinAxis.init min max u o = .ok a)
    (hj : H.fixed[j]? = some (.intbin a))
    (hint : ∀ rs ∈ bs ++ more, ∀ row ∈ rs, ∃ i : ℤ, (row.fvals.getD j (.num .nan)).toNum = .fin i)
    (new : List ℚ) (r : Σ H' : HistDef, H'.State) (hr : H.rebin j new st = .ok r)
    (hp : H.nprof = 0 ∨ ∀ rs ∈ more, ∀ row ∈ rs, ¬ row.leftOut r.1) :
    ∃ st2 c2 c3, H.fillAll st more = .ok st2 ∧ H.rebin j new st2 = .ok ⟨r.1, c2⟩ ∧ r.1.fillAll r.2 more = .ok c3 ∧ r.1.SameReads c3 c2 := by
  obtain ⟨_, st2, h2, h3, _⟩ := fill_more hf hst
  obtain ⟨b, k1, k2, k3, _⟩ := C41_rebin_intbin min max u o a ha H bs hf.left st hst j hj (fun rs h => hint rs (by simp [h])) new r hr
  obtain ⟨a1, b1, s1, g1, g2, g3, rfl⟩ := rebin_ok hj hr
  obtain ⟨c2, e⟩ := rebin_any hj g1 g2 st2
  obtain ⟨_, _, _, k4, _⟩ := C41_rebin_intbin min max u o a ha H (bs ++ more) hf st2 h3 j hj hint new _ e
  have hfm : Fillable (H.setFixed j (.split b1)) more := by
    have k2' : H.setFixed j (.split b1) = H.setFixed j (.split b) := k2
    simp only [k2'] at hp ⊢
    exact hf.right.setSplit j b (handles_split _ _ _ _ _ b k1) hp
  obtain ⟨c3, h4, h5⟩ := refill k3 k4 more hfm (by
    intro gk idx col
    rw [List.flatten_append, binTotal_append])
  exact ⟨st2, c2, c3, h2, e, h4, h5⟩

/-- C115, projections.  Filling a projection further gives what the projection gives after all data, plus
the later rows that have no bin (or group) on an axis that was projected away: before the projection they
would not have been counted.  With all flow bins there are no such rows.

Full statement: this for every content.  Missing are those for which `project` itself goes wrong (C31). -/
theorem C115_project_partial (H : HistDef) (bs more : List (List Row)) (hf : Fillable H (bs ++ more)) (st : H.State)
    (hst : H.fillAll none bs = .ok st) (kg kf : List Bool) (hkg : kg.length = H.groups.length) (hkf : kf.length = H.fixed.length)
    (hp : H.PowKeys kg st) (hp2 : ∀ st2, H.fillAll st more = .ok st2 → H.PowKeys kg st2) :
    ∃ st2, ∃ c c2 c3 : (H.project kg kf).State, H.fillAll st more = .ok st2 ∧
      H.projectState kg kf st = .ok ((H.project kg kf).toPV c) ∧ H.projectState kg kf st2 = .ok ((H.project kg kf).toPV c2) ∧
      (H.project kg kf).fillAll c (more.map (List.map (Row.project kg kf))) = .ok c3 ∧
      (H.project kg kf).ReadsMore c3 c2 ((more.flatten.filter (fun r => !r.coveredOn H kg kf)).map (Row.project kg kf)) := by
  obtain ⟨h1, st2, h2, _, h3⟩ := fill_more hf hst
  obtain ⟨c, k1, k2, _⟩ := h1.project kg kf hkg hkf hp
  obtain ⟨c2, k3, k4, _⟩ := h3.project kg kf hkg hkf (hp2 st2 h2)
  obtain ⟨c3, h4, h5⟩ := refill_more k2 k4 (more.map (List.map (Row.project kg kf))) (by
    have := hf.right.project kg kf (fun _ => true)
    simpa only [List.filter_true] using this) ((more.flatten.filter (fun r => !r.coveredOn H kg kf)).map (Row.project kg kf)) (by
    intro gk idx col
    rw [List.filter_append, List.map_append, binTotal_append, ← List.map_flatten, add_assoc, binTotal_split (Row.coveredOn H kg kf)])
  exact ⟨st2, c, c2, c3, h2, k1, k3, h4, h5⟩

/-- C115 is violated for cuts, in general: selecting on a cut axis removes the axis, and from then on the
condition is forgotten.  Filling the selection further counts the later rows that fail the cut as well, and
nothing else differs. -/
theorem C115_refuted_cut (H : HistDef) (bs more : List (List Row)) (hf : Fillable H (bs ++ more)) (st : H.State)
    (hst : H.fillAll none bs = .ok st) (j : ℕ) (hj : H.fixed[j]? = some .cut) (cmp : Cmp) (value : Bool) (s : PySlice)
    (hs : cutSelect cmp value = some s) :
    ∃ pass : Bool, (cmp = .eq ∧ pass = value ∨ cmp = .ne ∧ pass = !value) ∧ ∃ st2 c3, H.fillAll st more = .ok st2 ∧
      (H.eraseFixed j).fillAll (H.cutOut j s st) (more.map (List.map (Row.eraseFixed j))) = .ok c3 ∧
      (H.eraseFixed j).ReadsMore c3 (H.cutOut j s st2) ((rowsWhere j (fun w => !(w == .bool pass)) more.flatten).map (Row.eraseFixed j)) := by
  obtain ⟨h1, st2, h2, h2', h3⟩ := fill_more hf hst
  obtain ⟨pass, k1, k2, _⟩ := C40_select_cut_partial H bs hf.left st hst j hj cmp value s hs
  obtain ⟨pass', k1', k3, _⟩ := C40_select_cut_partial H (bs ++ more) hf st2 h2' j hj cmp value s hs
  have : pass' = pass := by
    rcases k1 with ⟨e1, e2⟩ | ⟨e1, e2⟩ <;> rcases k1' with ⟨e3, e4⟩ | ⟨e3, e4⟩
    · rw [e2, e4]
    · rw [e1] at e3; cases e3
    · rw [e1] at e3; cases e3
    · rw [e2, e4]
  subst this
  obtain ⟨c3, h4, h5⟩ := refill_more k2 k3 (more.map (List.map (Row.eraseFixed j))) (hf.right.erase j)
    ((rowsWhere j (fun w => !(w == .bool pass')) more.flatten).map (Row.eraseFixed j)) (by
    intro gk idx col
    unfold rowsWhere
    rw [List.flatten_append, List.filter_append, List.map_append, binTotal_append, ← List.map_flatten, add_assoc, binTotal_split
      (fun r : Row => r.fvals.getD j (.num .nan) == .bool pass')])
  exact ⟨pass', k1, st2, c3, h2, h4, h5⟩

/-- C115 is violated for group axes, in general: selecting keys of a `groupby` axis removes the other groups
but later rows with other keys make them again. -/
theorem C115_refuted_group (H : HistDef) (bs more : List (List Row)) (hf : Fillable H (bs ++ more)) (st : H.State)
    (hst : H.fillAll none bs = .ok st) (limit i : ℕ) (hi : H.groups[i]? = some .groupby) (ts : List GTerm) (tol : ℚ) (c : H.State)
    (hs : H.selectGroup limit i [ts] tol st = .ok c) :
    ∃ st2 c3, H.fillAll st more = .ok st2 ∧ H.fillAll c more = .ok c3 ∧ ∀ c2, H.selectGroup limit i [ts] tol st2 = .ok c2 →
      H.ReadsMore c3 c2 (more.flatten.filter (fun r => !ts.all (fun t => r.keySat H i (fun k => t.cmp.keyHolds k t.value)))) := by
  obtain ⟨h1, st2, h2, h2', h3⟩ := fill_more hf hst
  have k2 := C39_and_groupby H bs hf.left st hst limit i hi ts tol c hs
  obtain ⟨c3, h4, _⟩ := k2.fill more hf.right
  refine ⟨st2, c3, h2, h4, fun c2 hc2 => ?_⟩
  have k3 := C39_and_groupby H (bs ++ more) hf st2 h2' limit i hi ts tol c2 hc2
  obtain ⟨c3', h4', h5⟩ := refill_more k2 k3 more hf.right
    (more.flatten.filter (fun r => !ts.all (fun t => r.keySat H i (fun k => t.cmp.keyHolds k t.value)))) (by
    intro gk idx col
    rw [List.flatten_append, List.filter_append, binTotal_append, add_assoc]
    have := binTotal_split (fun r : Row => ts.all (fun t => r.keySat H i (fun k => t.cmp.keyHolds k t.value))) H id more.flatten gk idx col
    simp only [List.map_id] at this
    rw [this])
  rw [h4] at h4'
  cases h4'
  exact h5

/-- The common part for group axes that keep the rows with `p`. -/
theorem refill_group {H : HistDef} {bs more : List (List Row)} (hf : Fillable H (bs ++ more)) {c c2 : H.State} (p : Row → Bool)
    (k2 : Represents H (bs.flatten.filter p) c) (k3 : Represents H ((bs ++ more).flatten.filter p) c2) :
    ∃ c3, H.fillAll c more = .ok c3 ∧ H.ReadsMore c3 c2 (more.flatten.filter (fun r => !p r)) := by
  refine refill_more k2 k3 more hf.right _ fun gk idx col => ?_
  rw [List.flatten_append, List.filter_append, binTotal_append, add_assoc]
  have := binTotal_split p H id more.flatten gk idx col
  simp only [List.map_id] at this
  rw [this]

/-- C115 is violated for `groupbin` axes, in general: after a comparison with an edge of the axis, or `!= nan`, the later rows that
fail the comparison, and no others, are counted in addition. -/
theorem C115_refuted_groupbin (binwidth origin : ℚ) (n cl : Bool) (a : GroupbinAxis) (ha : GroupbinAxis.init binwidth origin n cl = .ok a)
    (H : HistDef) (bs more : List (List Row)) (hf : Fillable H (bs ++ more)) (st : H.State) (hst : H.fillAll none bs = .ok st)
    (limit i : ℕ) (hi : H.groups[i]? = some (.groupbin a)) (tol : ℚ) :
    (∀ (cmp : Cmp) (k : ℤ) (c : H.State), H.selectGroup limit i [[⟨cmp, .key (.num (origin + k * binwidth))⟩]] tol st = .ok c →
      ∃ st2 c3, H.fillAll st more = .ok st2 ∧ H.fillAll c more = .ok c3 ∧
        ∀ c2, H.selectGroup limit i [[⟨cmp, .key (.num (origin + k * binwidth))⟩]] tol st2 = .ok c2 →
          H.ReadsMore c3 c2 (more.flatten.filter (fun r => !cmp.test (r.groupNum i) (.fin (origin + k * binwidth))))) ∧
    ∀ c : H.State, H.selectGroup limit i [[⟨.ne, .nan⟩]] tol st = .ok c →
      ∃ st2 c3, H.fillAll st more = .ok st2 ∧ H.fillAll c more = .ok c3 ∧
        ∀ c2, H.selectGroup limit i [[⟨.ne, .nan⟩]] tol st2 = .ok c2 →
          H.ReadsMore c3 c2 (more.flatten.filter (fun r => (r.groupNum i).isnan)) := by
  obtain ⟨h1, st2, h2, h2', h3⟩ := fill_more hf hst
  constructor
  · intro cmp k c hs
    obtain ⟨m, _, hm, k2⟩ := C39_groupbin binwidth origin n cl a ha H bs hf.left st hst limit i hi cmp _ tol c hs
    obtain rfl := hm k rfl
    obtain ⟨c3, h4, _⟩ := k2.fill more hf.right
    refine ⟨st2, c3, h2, h4, fun c2 hc2 => ?_⟩
    obtain ⟨m', _, hm', k3⟩ := C39_groupbin binwidth origin n cl a ha H (bs ++ more) hf st2 h2' limit i hi cmp _ tol c2 hc2
    obtain rfl := hm' m rfl
    obtain ⟨c3', h4', h5⟩ := refill_group hf _ k2 k3
    rw [h4] at h4'
    cases h4'
    exact h5
  · intro c hs
    have k2 := C39_groupbin_nan binwidth origin n cl a ha H bs hf.left st hst limit i hi .ne (.inr rfl) tol c hs
    obtain ⟨c3, h4, _⟩ := k2.fill more hf.right
    refine ⟨st2, c3, h2, h4, fun c2 hc2 => ?_⟩
    have k3 := C39_groupbin_nan binwidth origin n cl a ha H (bs ++ more) hf st2 h2' limit i hi .ne (.inr rfl) tol c2 hc2
    obtain ⟨c3', h4', h5⟩ := refill_group hf _ k2 k3
    rw [h4] at h4'
    cases h4'
    simpa using h5

/-- C115, dropping all profiles of a histogram with a weight or without squared weights (other drops are
wrong anyway, C43). -/
theorem C115_drop_partial (H : HistDef) (bs more : List (List Row)) (hf : Fillable H (bs ++ more)) (st : H.State)
    (hst : H.fillAll none bs = .ok st) (keep : List Bool) (hlen : keep.length = H.nprof) (hpos : 0 < H.nprof)
    (hkeep : keep.count true = 0) (hasWeight : Bool) (hw : hasWeight = true ↔ H.wkind ≠ .none) :
    ∃ st2, ∃ c c2 c3 : (H.drop keep).State, H.fillAll st more = .ok st2 ∧ H.dropState keep hasWeight st = .ok c ∧
      H.dropState keep hasWeight st2 = .ok c2 ∧ (H.drop keep).fillAll c (more.map (List.map (Row.dropXs keep))) = .ok c3 ∧
      (H.drop keep).SameReads c3 c2 := by
  obtain ⟨_, st2, h2, h2', _⟩ := fill_more hf hst
  obtain ⟨c, k1, k2, _⟩ := C43_drop_all_partial H bs hf.left st hst keep hlen hpos hkeep hasWeight hw
  obtain ⟨c2, k3, k4, _⟩ := C43_drop_all_partial H (bs ++ more) hf st2 h2' keep hlen hpos hkeep hasWeight hw
  obtain ⟨c3, h4, h5⟩ := refill k2 k4 (more.map (List.map (Row.dropXs keep))) (by
    constructor
    · intro rs hrs r hr
      obtain ⟨rs0, hrs0, rfl⟩ := List.mem_map.1 hrs
      obtain ⟨r0, hr0, rfl⟩ := List.mem_map.1 hr
      have ho := hf.right.ok rs0 hrs0 r0 hr0
      refine ⟨ho.groups, ho.fixed, ?_⟩
      show (pick keep r0.xs).length = keep.count true
      rw [pick_nil_of_count _ _ hkeep, hkeep]; rfl
    · exact Or.inl hkeep) (by
    intro gk idx col
    rw [List.flatten_append, List.map_append, binTotal_append, ← List.map_flatten])
  exact ⟨st2, c, c2, c3, h2, k1, k3, h4, h5⟩

/-! ## C115: examples -/

/-- `Hist(cut("p"), bin("x", 2, 0, 2))` -/
def refillCut : HistDef := ⟨[], [.cut, .bin ⟨2, 0, 2, true, true, true, true⟩], 0, .none⟩

/-- a row of `refillCut` -/
def refillRow (p : Bool) (x : ℚ) : Row := ⟨[], [.bool p, .num (.fin x)], [], none⟩

/-- a cut is selected, and the selection filled with a row that fails the cut -/
example : (match refillCut.fillAll none [[refillRow true 0]] with
    | .ok st =>
      match (refillCut.eraseFixed 0).fillAll (refillCut.cutOut 0 ⟨1, some 2⟩ st) [[(refillRow false 1).eraseFixed 0]],
        refillCut.fillAll st [[refillRow false 1]] with
      | .ok c3, .ok st2 => (List.range 5).map (fun i => ((refillCut.eraseFixed 0).read c3 [] [i] 0,
          (refillCut.eraseFixed 0).read (refillCut.cutOut 0 ⟨1, some 2⟩ st2) [] [i] 0))
      | _, _ => []
    | .error _ => []) = [(0, 0), (1, 1), (1, 0), (0, 0), (0, 0)] := by decide +kernel

/-- a projection that removes an axis without overflow bin, filled with a row above its range -/
example : (let H : HistDef := ⟨[], [.bin ⟨2, 0, 2, true, false, true, true⟩, .bin ⟨1, 0, 1, true, true, true, true⟩], 0, .none⟩
    let row : ℚ → ℚ → Row := fun x y => ⟨[], [.num (.fin x), .num (.fin y)], [], none⟩
    ((row 5 0).coveredOn H [] [false, true], (row 1 0).coveredOn H [] [false, true])) = (false, true) := by decide +kernel

/-- `x < 1` is selected, and the selection filled with one row on each side -/
example : (let H : HistDef := exH
    match H.fillAll none [[exRow "a" 0 (some 2)]] with
    | .ok st =>
      match H.select 0 .lt (.fin 1) (1 / 1000) st with
      | .ok r =>
        match r.1.fillAll r.2 [[exRow "a" (1 / 2) (some 3), exRow "a" (3 / 2) (some 5)]] with
        | .ok c3 => (List.range 2).map (fun i => r.1.read c3 [.str "a"] [i] 0)
        | .error _ => []
      | .error _ => []
    | .error _ => []) = [0, 5] := by decide +kernel

/-- `x != nan` is selected, and the selection filled with a number and with NaN -/
example : (let H : HistDef := exH
    match H.fillAll none [[exRow "a" 0 (some 2)]] with
    | .ok st =>
      match H.select 0 .ne .nan (1 / 1000) st with
      | .ok r =>
        match r.1.fillAll r.2 [[exRow "a" (1 / 2) (some 3), ⟨[.key (.str "a")], [.num .nan], [], some 5⟩]] with
        | .ok c3 => (List.range 4).map (fun i => r.1.read c3 [.str "a"] [i] 0)
        | .error _ => []
      | .error _ => []
    | .error _ => []) = [0, 5, 0, 0] := by decide +kernel

/-- `x < 5` is selected on a `groupbin` axis, and the selection filled with 7, which is counted -/
example : (let H : HistDef := ⟨[.groupbin ⟨5, 0, true, true⟩], [.bin ⟨1, 0, 1, true, true, true, true⟩], 0, .none⟩
    let row : ℚ → Row := fun x => ⟨[.num (.fin x)], [.num (.fin 0)], [], none⟩
    match H.fillAll none [[row 1, row 6]] with
    | .ok st =>
      match H.selectGroup 1000 0 [[⟨.lt, .key (.num 5)⟩]] (1 / 1000) st with
      | .ok c =>
        match H.fillAll c [[row 2, row 7]] with
        | .ok c3 => [H.read c3 [.num 0] [1] 0, H.read c3 [.num 5] [1] 0]
        | .error _ => []
      | .error _ => []
    | .error _ => []) = [2, 1] := by decide +kernel

/-- The hypotheses of `C115_select_partial`: `x < 1` on the histogram `exH` and any rows below 1000. -/
example (x y : ℚ) (w v : Option ℚ) (hx : x ≤ 1000) (hy : y ≤ 1000) :
    ∃ st r st2 c2 c3, exH.fillAll none [[exRow "a" x w]] = .ok st ∧ exH.select 0 .lt (.fin 1) (1 / 1000) st = .ok r ∧
      exH.fillAll st [[exRow "b" y v]] = .ok st2 ∧ exH.select 0 .lt (.fin 1) (1 / 1000) st2 = .ok ⟨r.1, c2⟩ ∧
      r.1.fillAll r.2 [[exRow "b" y v]] = .ok c3 ∧ r.1.SameReads c3 c2 := by
  have hf : Fillable exH ([[exRow "a" x w]] ++ [[exRow "b" y v]]) := by
    refine ⟨fun b hb r hr => ?_, Or.inl rfl⟩
    simp only [List.singleton_append, List.mem_cons, List.not_mem_nil, or_false] at hb
    rcases hb with rfl | rfl <;> simp only [List.mem_cons, List.not_mem_nil, or_false] at hr <;> subst hr
    · exact exRow_ok _ _ _ hx
    · exact exRow_ok _ _ _ hy
  obtain ⟨st, h1, _⟩ := Represents.ofFill exH _ hf.left
  have hsel : (FixedAxis.bin ⟨2, 0, 2, true, true, true, true⟩).select .lt (.fin 1) (1 / 1000) =
      .ok (.cut (.bin ⟨1, 0, 1, true, false, false, true⟩) ⟨0, some 2⟩) := by decide +kernel
  have hr := select_any (H := exH) (j := 0) rfl hsel st
  obtain ⟨st2, c2, c3, k1, k2, k3, k4⟩ := C115_select_partial exH _ _ hf st h1 0 _ rfl (by simp) .lt 1 (1 / 1000) (Or.inr (by norm_num)) _ hr (by
    refine ⟨fun b hb r hr => ?_, Or.inl rfl⟩
    simp only [List.mem_cons, List.not_mem_nil, or_false] at hb
    subst hb
    simp only [List.mem_cons, List.not_mem_nil, or_false] at hr
    subst hr
    exact ⟨.cons ⟨.str "b", rfl⟩ .nil, .cons (handles_bin 1 0 1 true false false true _ (by decide +kernel) (by norm_num) _
      (Or.inr ⟨y, rfl, by norm_num; linarith⟩)) .nil, rfl⟩)
  exact ⟨st, _, st2, c2, c3, h1, hr, k1, k2, k3, k4⟩

/-- C115 is violated with profiles: a row that a selection would have left out makes filling the selection
fail (C18), although filling the original with it and then selecting works. -/
theorem C115_refuted_profile :
    (match exP.fillAll none [[exPRow 0 1]] with
      | .ok st =>
        match exP.select 0 .lt (.fin 1) (1 / 1000) st, exP.fillAll st [[exPRow 0 1, exPRow (3 / 2) 5]] with
        | .ok r, .ok st2 =>
          match r.1.fillAll r.2 [[exPRow 0 1, exPRow (3 / 2) 5]], exP.select 0 .lt (.fin 1) (1 / 1000) st2 with
          | .error (e, _), .ok r2 => some (e, r2.1.read r2.2 [] [1] 2)
          | _, _ => none
        | _, _ => none
      | .error _ => none) = some (.valueError, 2) := by decide +kernel

end Verif
