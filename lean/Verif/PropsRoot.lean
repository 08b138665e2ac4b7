import Verif.Export
import Verif.PropsTable
import Verif.PropsProject

/-!
# C73: ROOT export puts each bin in its place

The bins of a ROOT histogram are numbered: 0 is the underflow, 1 to `n` are the bins, `n + 1` is the overflow.
-/

namespace Verif

/-- The values that belong into bin `k` of an exported histogram: underflow, one of `n` equal bins from `low` to `high`, or
overflow; `none` if the axis has no such bin. -/
def rootSlot (x : RootAxis) (closedlow : Bool) (k : ℕ) : Option BinLabel :=
  if k = 0 then (if x.underflow then some (.iv .ninf (.fin x.low) true (!closedlow)) else none)
  else if k ≤ x.nbins then
    some (.iv (.fin (x.low + ((k - 1 : ℕ) : ℚ) * (x.high - x.low) / x.nbins)) (.fin (x.low + (k : ℚ) * (x.high - x.low) / x.nbins))
      closedlow (!closedlow))
  else if k = x.nbins + 1 then (if x.overflow then some (.iv (.fin x.high) .pinf closedlow true) else none)
  else none

/-- The value on the only axis is in the bin. -/
def inSlot : Option BinLabel → List Val → Bool
  | some l, [v] => v.In l
  | _, _ => false

/-- The rows that belong into a bin of a projection: on all axes that are projected away they are in some bin. -/
def slotRows (H : HistDef) (kg kf : List Bool) (rows : List Row) (l : Option BinLabel) : List Row :=
  rows.filter fun r => r.coveredOn H kg kf && inSlot l (pick kf r.fvals)

/-- What ROOT reports about bin `k` of a `TProfile`: `GetBinEntries`, `GetBinContent` (the sum over the entries), and the square of
`GetBinError` (with the default option and without a sum of squared weights: the spread over the entries). -/
def TProf.binEntries (p : TProf) (k : ℕ) : Option ℚ := p.entries.getD k none

def TProf.binContent (p : TProf) (k : ℕ) : Option ℚ :=
  (p.binEntries k).bind fun n => (p.content.getD k none).map fun c => if n = 0 then 0 else c / n

def TProf.binErr2 (p : TProf) (k : ℕ) : Option ℚ :=
  (p.binEntries k).bind fun n => (p.binContent k).bind fun m => (p.err2.getD k none).map fun e =>
    if n = 0 then 0 else |e / n - m ^ 2| / n

/-! ## helpers -/

theorem rsum_map (f : Row → Row) (rs : List Row) (g : Row → ℚ) : rsum (rs.map f) g = rsum rs (fun r => g (f r)) := by
  simp [rsum, List.map_map, Function.comp_def]

theorem sumW_project (k : WKind) (kg kf : List Bool) (rs : List Row) : sumW k (rs.map (Row.project kg kf)) = sumW k rs := by
  unfold sumW
  rw [rsum_map]
  rfl

theorem sumW2_project (k : WKind) (kg kf : List Bool) (rs : List Row) : sumW2 k (rs.map (Row.project kg kf)) = sumW2 k rs := by
  unfold sumW2
  rw [rsum_map]
  rfl

theorem wmean_project (k : WKind) (kg kf : List Bool) (rs : List Row) (p : ℕ) :
    wmean k (rs.map (Row.project kg kf)) p = wmean k rs p := by
  unfold wmean
  rw [rsum_map, sumW_project]
  rfl

theorem wvar_project (k : WKind) (kg kf : List Bool) (rs : List Row) (p : ℕ) :
    wvar k (rs.map (Row.project kg kf)) p = wvar k rs p := by
  unfold wvar
  rw [rsum_map, sumW_project, wmean_project]
  rfl

theorem tableSpec_project (k : WKind) (o : TableOpts) (kg kf : List Bool) (rs : List Row) :
    tableSpec k o (rs.map (Row.project kg kf)) = tableSpec k o rs := by
  unfold tableSpec effN
  simp only [sumW_project, sumW2_project, wmean_project, wvar_project]

theorem rootArr_read (H : HistDef) (hg : H.groups = []) (st : H.State) :
    ∃ arr, rootArr H.layout (H.toPV st) = .ok arr ∧ ∀ idx col, arr.get idx col = H.read st [] idx col := by
  obtain ⟨groups, fixed, nprof, wkind⟩ := H
  simp only at hg
  subst hg
  cases st with
  | none => exact ⟨_, rfl, fun _ _ => rfl⟩
  | some c => exact ⟨_, rfl, fun _ _ => rfl⟩

/-- The array of a projection onto one fixed axis: what the table says about bin `i`. -/
theorem root_row (H : HistDef) (bs : List (List Row)) (hf : Fillable H bs) (st : H.State) (hst : H.fillAll none bs = .ok st)
    (kg kf : List Bool) (hkg : kg.length = H.groups.length) (hkf : kf.length = H.fixed.length) (hp : H.PowKeys kg st)
    (a : FixedAxis) (hg : pick kg H.groups = []) (hfx : pick kf H.fixed = [a]) :
    ∃ pv arr, H.projectState kg kf st = .ok pv ∧ rootArr (H.project kg kf).layout pv = .ok arr ∧
      ∀ o : TableOpts, o.normalized = false → (∀ p ∈ o.profs, p < H.nprof) → ∀ i < a.totbins,
        handlearray (H.project kg kf).layout o (fun _ => none) arr [i] =
          tableSpec H.wkind o (slotRows H kg kf bs.flatten a.keys[i]?) := by
  obtain ⟨st0, e1, h⟩ := Represents.ofFill H bs hf
  rw [hst] at e1
  cases e1
  obtain ⟨st', e1, h', _⟩ := h.project kg kf hkg hkf hp
  obtain ⟨arr, e2, e3⟩ := rootArr_read (H.project kg kf) hg st'
  refine ⟨_, arr, e1, e2, fun o ho hpo i hi => ?_⟩
  have hcell : (H.project kg kf).Cell [i] := by
    show List.Forall₂ _ [i] ((pick kf H.fixed).map FixedAxis.totbins)
    rw [hfx]
    exact List.Forall₂.cons hi List.Forall₂.nil
  rw [handlearray_spec (H.project kg kf) o ho hpo (fun _ => none) _ [] [i] arr
    (fun col => by rw [e3]; exact h'.totals [] (by show _ = (pick kg H.groups).length; rw [hg]; rfl) [i] hcell col)]
  rw [List.filter_map, tableSpec_project, List.filter_filter]
  show tableSpec H.wkind o _ = _
  congr 1
  unfold slotRows
  refine List.filter_congr fun r hr => ?_
  by_cases hc : r.coveredOn H kg kf = true
  · have hs := h'.sound (r.project kg kf) (List.mem_map.2 ⟨r, List.mem_filter.2 ⟨hr, hc⟩, rfl⟩)
    have h1 : pick kg r.gvals = [] := by
      have := hs.groups
      rw [show (H.project kg kf).groups = [] from hg] at this
      exact List.length_eq_zero_iff.1 this
    have h2 : ∃ v, pick kf r.fvals = [v] := by
      have := hs.fixed
      rw [show (H.project kg kf).fixed = [a] from hfx] at this
      have := this.length_eq
      exact List.length_eq_one_iff.1 this.symm
    obtain ⟨v, h2⟩ := h2
    simp only [Function.comp_apply, hc, Bool.and_true, Bool.true_and]
    show (inGroup (pick kg H.groups) (pick kg r.gvals) [] && inBins' (pick kf H.fixed) (pick kf r.fvals) [i]) = _
    rw [hg, h1, hfx, h2]
    simp only [inGroup, inBins', FixedAxis.holds, Bool.true_and, Bool.and_true]
    cases a.keys[i]? <;> rfl
  · simp [hc]

theorem dropLast_range_map {α : Type} (n : ℕ) (f : ℕ → α) : ((List.range (n + 1)).map f).dropLast = (List.range n).map f := by
  rw [List.range_succ, List.map_append, List.map_singleton, List.dropLast_concat]

/-- Where the columns go. -/
theorem rootPlace_range (x : RootAxis) (f : ℕ → Option ℚ) :
    ∃ l, rootPlace x ((List.range (x.nbins + (if x.underflow then 1 else 0) + (if x.overflow then 1 else 0) + (if x.nanflow then 1 else 0))).map f) = .ok l ∧
      l.length = x.nbins + 2 ∧
      ∀ k < x.nbins + 2, l[k]? = some
        (if k = 0 ∧ x.underflow = false then some 0
         else if k = x.nbins + 1 ∧ x.overflow = false then some 0
         else f (k - (if x.underflow then 0 else 1))) := by
  obtain ⟨n, lo, hi, u, o, nn⟩ := x
  have key : ∀ (m a b : ℕ), a + m + b = n + 2 →
      (List.replicate a (some (0 : ℚ)) ++ (List.range m).map f ++ List.replicate b (some 0)).length = n + 2 ∧
      ∀ k < n + 2, (List.replicate a (some (0 : ℚ)) ++ (List.range m).map f ++ List.replicate b (some 0))[k]? =
        some (if k < a then some 0 else if a + m ≤ k then some 0 else f (k - a)) := by
    intro m a b hm
    refine ⟨by simp; omega, fun k hk => ?_⟩
    by_cases h1 : k < a
    · rw [if_pos h1, List.getElem?_append_left (by simp; omega), List.getElem?_append_left (by simp; omega),
        List.getElem?_replicate, if_pos h1]
    · rw [if_neg h1]
      by_cases h2 : a + m ≤ k
      · rw [if_pos h2, List.getElem?_append_right (by simp; omega), List.getElem?_replicate]
        simp only [List.length_append, List.length_replicate, List.length_map, List.length_range]
        rw [if_pos (by omega)]
      · rw [if_neg h2, List.getElem?_append_left (by simp; omega), List.getElem?_append_right (by simp; omega)]
        simp only [List.length_replicate, List.getElem?_map]
        rw [List.getElem?_range (by omega)]
        rfl
  have hsrc : (if nn then ((List.range (n + (if u then 1 else 0) + (if o then 1 else 0) + (if nn then 1 else 0))).map f).dropLast
      else (List.range (n + (if u then 1 else 0) + (if o then 1 else 0) + (if nn then 1 else 0))).map f)
      = (List.range (n + (if u then 1 else 0) + (if o then 1 else 0))).map f := by
    cases nn
    · rfl
    · exact dropLast_range_map _ f
  unfold rootPlace
  simp only [hsrc]
  rw [if_pos (by cases u <;> cases o <;> simp)]
  refine ⟨_, rfl, ?_⟩
  obtain ⟨k1, k2⟩ := key (n + (if u then 1 else 0) + (if o then 1 else 0)) (if u then 0 else 1) (if o then 0 else 1)
    (by cases u <;> cases o <;> simp <;> omega)
  refine ⟨k1, fun k hk => ?_⟩
  rw [k2 k hk]
  congr 1
  cases u <;> cases o <;> simp only [Bool.false_eq_true, if_false, if_true, and_true, and_false, Bool.true_eq_false] <;>
    (split_ifs <;> first | rfl | omega | (exfalso; omega) | skip)

/-- The published bins of a bin axis, by the number that they have in ROOT. -/
theorem rootSlot_keys (a : BinAxis) (k : ℕ) (hk : k < a.numbins + 2) :
    rootSlot ⟨a.numbins, a.low, a.high, a.underflow, a.overflow, a.nanflow⟩ a.closedlow k =
      if k = 0 ∧ a.underflow = false then none
      else if k = a.numbins + 1 ∧ a.overflow = false then none
      else a.keys[k - (if a.underflow then 0 else 1)]? := by
  have hreg : ∀ j, j < a.numbins → ((List.range a.numbins).map
      (fun i => BinLabel.iv (.fin (a.i2x i)) (.fin (a.i2x (i + 1))) a.closedlow (!a.closedlow)))[j]? =
      some (.iv (.fin (a.i2x j)) (.fin (a.i2x (j + 1))) a.closedlow (!a.closedlow)) := by
    intro j hj
    rw [List.getElem?_map, List.getElem?_range hj]
    rfl
  have hi : ∀ j : ℕ, a.i2x j = a.low + (j : ℚ) * (a.high - a.low) / a.numbins := by
    intro j
    unfold BinAxis.i2x
    ring
  unfold rootSlot BinAxis.keys
  obtain ⟨n, low, high, u, o, nn, cl⟩ := a
  simp only at *
  by_cases h0 : k = 0
  · subst h0
    cases u <;> simp
  · rw [if_neg h0, if_neg (show ¬ (k = 0 ∧ u = false) from fun h => h0 h.1)]
    by_cases h1 : k ≤ n
    · rw [if_pos h1, if_neg (show ¬ (k = n + 1 ∧ o = false) by omega)]
      obtain ⟨j, rfl⟩ : ∃ j, k = j + 1 := ⟨k - 1, by omega⟩
      have hr := hreg j (by omega)
      rw [hi, hi] at hr
      cases u
      · simp only [Bool.false_eq_true, if_false, List.nil_append, Nat.add_sub_cancel]
        rw [List.append_assoc, List.getElem?_append_left (by simp; omega), hr]
      · simp only [if_true, Nat.sub_zero, List.cons_append, List.nil_append, List.getElem?_cons_succ, Nat.add_sub_cancel]
        rw [List.append_assoc, List.getElem?_append_left (by simp; omega), hr]
    · obtain rfl : k = n + 1 := by omega
      rw [if_neg (show ¬ n + 1 ≤ n by omega), if_pos rfl]
      cases u <;> cases o <;> cases nn <;> simp

/-! ## C73 -/

/-- The columns of a table, for bin axes. -/
theorem rootPlace_bin (a : BinAxis) (f : ℕ → Option ℚ) (G : Option BinLabel → ℚ) (hn : G none = 0)
    (h : ∀ i < a.totbins, f i = some (G a.keys[i]?)) :
    ∃ l, rootPlace ⟨a.numbins, a.low, a.high, a.underflow, a.overflow, a.nanflow⟩ ((List.range a.totbins).map f) = .ok l ∧
      l = (List.range (a.numbins + 2)).map
        (fun k => some (G (rootSlot ⟨a.numbins, a.low, a.high, a.underflow, a.overflow, a.nanflow⟩ a.closedlow k))) := by
  obtain ⟨l, h1, h2, h3⟩ := rootPlace_range ⟨a.numbins, a.low, a.high, a.underflow, a.overflow, a.nanflow⟩ f
  have ht : a.totbins = a.numbins + (if a.underflow then 1 else 0) + (if a.overflow then 1 else 0) + (if a.nanflow then 1 else 0) := rfl
  refine ⟨l, h1, List.ext_getElem? fun k => ?_⟩
  by_cases hk : k < a.numbins + 2
  · rw [h3 k hk, List.getElem?_map, List.getElem?_range hk, Option.map_some, rootSlot_keys a k hk]
    congr 1
    by_cases c1 : k = 0 ∧ a.underflow = false
    · simp only [c1, and_self, if_true, hn]
    · rw [if_neg c1, if_neg c1]
      by_cases c2 : k = a.numbins + 1 ∧ a.overflow = false
      · simp only [c2, and_self, if_true, hn]
      · rw [if_neg c2, if_neg c2]
        refine h _ ?_
        rw [ht]
        rcases hu : a.underflow <;> rcases ho : a.overflow <;> simp only [hu, ho, and_true, and_false, Bool.true_eq_false, not_false_eq_true] at c1 c2 <;>
          simp only [Bool.false_eq_true, if_false, if_true] <;> omega
  · rw [List.getElem?_eq_none (by simp only at h2; omega), List.getElem?_eq_none (by simp; omega)]

theorem osum_some {α : Type} (l : List α) (f : α → ℚ) : osum (l.map fun x => some (f x)) = some (l.map f).sum := by
  unfold osum
  induction l with
  | nil => rfl
  | cons x l ih => simp only [List.map_cons, List.foldr_cons, ih, oadd, Option.bind_some, Option.map_some, List.sum_cons]

theorem tableColumn_eq (t : Table) (n c : ℕ) : tableColumn t n c = (List.range n).map fun i => (t [i]).getD c none := rfl

theorem slotRows_none (H : HistDef) (kg kf : List Bool) (rows : List Row) : slotRows H kg kf rows none = [] := by
  unfold slotRows
  simp [inSlot]

/-- C73, for bin axes: every bin of the exported histogram, underflow and overflow included, has the sum of weights (and the sum of
their squares as squared error, if there are weights) of exactly the rows in it; flow bins that the axis does not have are
zero, and rows with NaN are left out.  The number of entries is the sum of all of these.  Missing: split axes
(`C73_refuted_split`), integer axes (`C73_refuted_integer`) and projections over numbers of groups that `project` gets wrong. -/
theorem C73_counts_partial (H : HistDef) (bs : List (List Row)) (hf : Fillable H bs) (st : H.State) (hst : H.fillAll none bs = .ok st)
    (kg kf : List Bool) (hkg : kg.length = H.groups.length) (hkf : kf.length = H.fixed.length) (hp : H.PowKeys kg st)
    (a : BinAxis) (hg : pick kg H.groups = []) (hfx : pick kf H.fixed = [.bin a]) :
    let rows := fun k => slotRows H kg kf bs.flatten
      (rootSlot ⟨a.numbins, a.low, a.high, a.underflow, a.overflow, a.nanflow⟩ a.closedlow k)
    H.root kg kf none st = .ok (.th1
      { nbins := a.numbins, low := a.low, high := a.high
        content := (List.range (a.numbins + 2)).map fun k => some (sumW H.wkind (rows k))
        err2 := if H.wkind = .none then none else some ((List.range (a.numbins + 2)).map fun k => some (sumW2 H.wkind (rows k)))
        entries := some ((List.range (a.numbins + 2)).map fun k => sumW H.wkind (rows k)).sum }) := by
  intro rows
  obtain ⟨pv, arr, e1, e2, e3⟩ := root_row H bs hf st hst kg kf hkg hkf hp (.bin a) hg hfx
  unfold HistDef.root
  rw [e1]
  have hr : rootRejects (H.project kg kf).groups (H.project kg kf).fixed.length (none : Option ℕ).isSome = none := by
    rw [show (H.project kg kf).groups = [] from hg, show (H.project kg kf).fixed = [.bin a] from hfx]
    rfl
  simp only [Option.any_none, Bool.false_eq_true, if_false]
  rw [hr, e2, show (H.project kg kf).fixed = [.bin a] from hfx]
  simp only
  have e4 := e3 { count := true, error := decide (H.wkind ≠ .none) } rfl (by simp)
  generalize handlearray (H.project kg kf).layout { count := true, error := decide (H.wkind ≠ .none) } (fun _ => none) arr = t at e4 ⊢
  obtain ⟨l0, p1, p2⟩ := rootPlace_bin a (fun i => (t [i]).getD 0 none) (fun l => sumW H.wkind (slotRows H kg kf bs.flatten l))
    (by rw [slotRows_none]; rfl) (fun i hi => by rw [e4 i hi]; simp [tableSpec]; rfl)
  unfold rootTH1
  simp only [FixedAxis.rootAxis]
  rw [tableColumn_eq, tableColumn_eq, show FixedAxis.totbins (.bin a) = a.totbins from rfl, p1, p2]
  simp only [osum_some]
  by_cases hw : H.wkind = .none
  · simp only [hw, ne_eq, not_true_eq_false, decide_false, Bool.false_eq_true, if_false, if_true]
    simp only [rows, hw]
    rfl
  · obtain ⟨l1, q1, q2⟩ := rootPlace_bin a (fun i => (t [i]).getD 1 none) (fun l => sumW2 H.wkind (slotRows H kg kf bs.flatten l))
      (by rw [slotRows_none]; rfl) (fun i hi => by rw [e4 i hi]; simp [tableSpec, hw]; rfl)
    simp only [hw, ne_eq, not_false_eq_true, decide_true, if_true, if_false]
    rw [q1, q2]
    rfl

/-- What ROOT reports about a profile that was made from entries, contents and errors. -/
theorem prof_reading (n : ℕ) (lo hi : ℚ) (total : Option ℚ) (S M E : ℕ → ℚ) {k : ℕ} (hk : k < n + 2) :
    let q : TProf := ⟨n, lo, hi, (List.range (n + 2)).map fun k => some (S k),
      List.zipWith omul ((List.range (n + 2)).map fun k => some (M k)) ((List.range (n + 2)).map fun k => some (S k)),
      (List.zip ((List.range (n + 2)).map fun k => some (E k)) (List.zip ((List.range (n + 2)).map fun k => some (S k))
        ((List.range (n + 2)).map fun k => some (M k)))).map (fun p => rootErr2 p.1 p.2.1 p.2.2), total⟩
    q.binEntries k = some (S k) ∧ q.binContent k = some (if S k = 0 then 0 else M k * S k / S k) ∧
      q.binErr2 k = some (if S k = 0 then 0 else
        |(E k * S k + M k * M k) * S k / S k - (if S k = 0 then 0 else M k * S k / S k) ^ 2| / S k) := by
  intro q
  have g0 : ∀ f : ℕ → Option ℚ, ((List.range (n + 2)).map f).getD k none = f k := by
    intro f
    simp [List.getElem?_range hk]
  have h0 : q.binEntries k = some (S k) := g0 _
  have h1 : q.binContent k = some (if S k = 0 then 0 else M k * S k / S k) := by
    unfold TProf.binContent
    rw [h0]
    simp only [Option.bind_some, q]
    rw [List.zipWith_map, List.zipWith_self, g0]
    rfl
  refine ⟨h0, h1, ?_⟩
  unfold TProf.binErr2
  rw [h0, h1]
  simp only [Option.bind_some, q]
  rw [List.zip_map', List.zip_map', List.map_map, g0]
  rfl

/-- Fill a new histogram and export it. -/
def exRoot (H : HistDef) (bs : List (List Row)) (kg kf : List Bool) (p : Option ℕ) : Except Err RootObj :=
  match H.fillAll none bs with
  | .error (e, _) => .error e
  | .ok st => H.root kg kf p st

/-- One axis with profile and no overflow, and a histogram that is projected: entries at -1, 1/2 and 3/2, and at NaN and 7. -/
def exRootB : HistDef := ⟨[], [.bin ⟨2, 0, 2, true, false, true, true⟩], 1, .none⟩

example : exRoot exRootB [[⟨[], [.num (.fin (-1))], [1], none⟩, ⟨[], [.num (.fin (1/2))], [2], none⟩],
      [⟨[], [.num (.fin (1/2))], [4], none⟩, ⟨[], [.num .nan], [5], none⟩]] [] [true] none =
    .ok (.th1 ⟨2, 0, 2, [some 1, some 2, some 0, some 0], none, some 3⟩) := by decide +kernel

example : exRoot exH [[exRow "a" (1/2) (some 2), exRow "b" 1 (some 3)], [exRow "a" 7 (some 5)]] [false] [true] none =
    .ok (.th1 ⟨2, 0, 2, [some 0, some 2, some 3, some 5], some [some 0, some 4, some 9, some 25], some 10⟩) := by decide +kernel

/-- The hypotheses are met with two groups that are projected away. -/
example : ∃ st, exH.fillAll none [[exRow "a" 1 (some 2), exRow "b" 1 (some 3)]] = .ok st ∧
    ∃ h, exH.root [false] [true] none st = .ok (.th1 h) ∧ h.content[2]? = some (some 5) := by
  have hf : Fillable exH [[exRow "a" 1 (some 2), exRow "b" 1 (some 3)]] := by
    refine ⟨?_, Or.inl rfl⟩
    intro b hb r hr
    simp at hb
    subst hb
    simp at hr
    rcases hr with rfl | rfl <;> exact exRow_ok _ _ _ (by norm_num)
  obtain ⟨st, h1, h2⟩ := Represents.ofFill exH _ hf
  have hp : exH.PowKeys [false] st := by
    have e : (match exH.fillAll none [[exRow "a" 1 (some 2), exRow "b" 1 (some 3)]] with
      | .ok (some (c : List (Key × Arr))) => c.length
      | _ => 0) = 2 := by decide +kernel
    rw [h1] at e
    cases st with
    | none => trivial
    | some c => exact ⟨Or.inr ⟨0, e⟩, fun _ _ => trivial⟩
  refine ⟨st, h1, _, C73_counts_partial exH _ hf st h1 [false] [true] rfl rfl hp _ rfl rfl, ?_⟩
  decide +kernel

theorem wvar_nonneg (k : WKind) (rs : List Row) (p : ℕ) (h : ∀ r ∈ rs, 0 ≤ r.weight k) : 0 ≤ wvar k rs p := by
  unfold wvar
  refine div_nonneg (rsum_nonneg _ _ fun r hr => mul_nonneg (h r hr) (sq_nonneg _)) (rsum_nonneg _ _ h)

/-- C73 for profiles: ROOT reports for every bin the sum of weights of the rows in it, their weighted mean and the squared error of
the mean that the table has. -/
theorem C73_profile_partial (H : HistDef) (bs : List (List Row)) (hf : Fillable H bs) (st : H.State) (hst : H.fillAll none bs = .ok st)
    (kg kf : List Bool) (hkg : kg.length = H.groups.length) (hkf : kf.length = H.fixed.length) (hp : H.PowKeys kg st)
    (a : BinAxis) (hg : pick kg H.groups = []) (hfx : pick kf H.fixed = [.bin a]) (p : ℕ) (hpr : p < H.nprof)
    (hpos : ∀ r ∈ bs.flatten, 0 ≤ r.weight H.wkind) :
    let rows := fun k => slotRows H kg kf bs.flatten
      (rootSlot ⟨a.numbins, a.low, a.high, a.underflow, a.overflow, a.nanflow⟩ a.closedlow k)
    ∃ q : TProf, H.root kg kf (some p) st = .ok (.prof q) ∧ q.nbins = a.numbins ∧ q.low = a.low ∧ q.high = a.high ∧
      q.total = some ((List.range (a.numbins + 2)).map fun k => sumW H.wkind (rows k)).sum ∧
      ∀ k < a.numbins + 2, q.binEntries k = some (sumW H.wkind (rows k)) ∧
        q.binContent k = some (if 0 < sumW H.wkind (rows k) then wmean H.wkind (rows k) p else 0) ∧
        q.binErr2 k = some (if 0 < sumW H.wkind (rows k) then wvar H.wkind (rows k) p / effN H.wkind (rows k) else 0) := by
  intro rows
  obtain ⟨pv, arr, e1, e2, e3⟩ := root_row H bs hf st hst kg kf hkg hkf hp (.bin a) hg hfx
  unfold HistDef.root
  rw [e1]
  have hr : rootRejects (H.project kg kf).groups (H.project kg kf).fixed.length (some p).isSome = none := by
    rw [show (H.project kg kf).groups = [] from hg, show (H.project kg kf).fixed = [.bin a] from hfx]
    rfl
  simp only [Option.any_some, decide_eq_true_eq, Nat.not_le.2 hpr, if_false]
  rw [hr, e2, show (H.project kg kf).fixed = [.bin a] from hfx]
  simp only
  have e4 := e3 { count := true, error := true, profs := [p] } rfl (by simpa using hpr)
  generalize handlearray (H.project kg kf).layout { count := true, error := true, profs := [p] } (fun _ => none) arr = t at e4 ⊢
  have hno : ¬ (0 : ℚ) < sumW H.wkind (slotRows H kg kf bs.flatten none) := by
    rw [slotRows_none]; simp [sumW, rsum]
  obtain ⟨l0, p1, rfl⟩ := rootPlace_bin a (fun i => (t [i]).getD 0 none) (fun l => sumW H.wkind (slotRows H kg kf bs.flatten l))
    (by rw [slotRows_none]; rfl) (fun i hi => by rw [e4 i hi]; simp [tableSpec]; rfl)
  obtain ⟨l2, p2, rfl⟩ := rootPlace_bin a (fun i => (t [i]).getD 2 none)
    (fun l => if 0 < sumW H.wkind (slotRows H kg kf bs.flatten l) then wmean H.wkind (slotRows H kg kf bs.flatten l) p else 0)
    (by rw [if_neg hno]) (fun i hi => by
      rw [e4 i hi]
      simp only [tableSpec, if_true, Bool.false_eq_true, if_false, List.flatMap_cons, List.flatMap_nil, List.append_nil, gt_iff_lt]
      show _ = some (if 0 < sumW H.wkind (slotRows H kg kf bs.flatten (FixedAxis.bin a).keys[i]?) then _ else _)
      by_cases hc : 0 < sumW H.wkind (slotRows H kg kf bs.flatten (FixedAxis.bin a).keys[i]?)
      · rw [if_pos hc, if_pos hc]; rfl
      · rw [if_neg hc, if_neg hc]; rfl)
  obtain ⟨l3, p3, rfl⟩ := rootPlace_bin a (fun i => (t [i]).getD 3 none)
    (fun l => if 0 < sumW H.wkind (slotRows H kg kf bs.flatten l) then
      wvar H.wkind (slotRows H kg kf bs.flatten l) p / effN H.wkind (slotRows H kg kf bs.flatten l) else 0)
    (by rw [if_neg hno]) (fun i hi => by
      rw [e4 i hi]
      simp only [tableSpec, if_true, Bool.false_eq_true, if_false, List.flatMap_cons, List.flatMap_nil, List.append_nil, gt_iff_lt]
      show _ = some (if 0 < sumW H.wkind (slotRows H kg kf bs.flatten (FixedAxis.bin a).keys[i]?) then _ else _)
      by_cases hc : 0 < sumW H.wkind (slotRows H kg kf bs.flatten (FixedAxis.bin a).keys[i]?)
      · rw [if_pos hc, if_pos hc]; rfl
      · rw [if_neg hc, if_neg hc]; rfl)
  unfold rootProf
  simp only [FixedAxis.rootAxis]
  rw [tableColumn_eq, tableColumn_eq, tableColumn_eq, show FixedAxis.totbins (.bin a) = a.totbins from rfl, p1, p2, p3]
  simp only [osum_some]
  refine ⟨_, rfl, rfl, rfl, rfl, rfl, fun k hk => ?_⟩
  have hW : 0 ≤ sumW H.wkind (rows k) := rsum_nonneg _ _ fun r hr => hpos r (List.mem_filter.1 hr).1
  have hV : 0 ≤ wvar H.wkind (rows k) p := wvar_nonneg _ _ _ fun r hr => hpos r (List.mem_filter.1 hr).1
  have hE : 0 ≤ effN H.wkind (rows k) := div_nonneg (sq_nonneg _) (rsum_nonneg _ _ fun r _ => sq_nonneg _)
  obtain ⟨r0, r1, r2⟩ := prof_reading a.numbins a.low a.high
    (some ((List.range (a.numbins + 2)).map fun k => sumW H.wkind (rows k)).sum) (fun k => sumW H.wkind (rows k))
    (fun k => if 0 < sumW H.wkind (rows k) then wmean H.wkind (rows k) p else 0)
    (fun k => if 0 < sumW H.wkind (rows k) then wvar H.wkind (rows k) p / effN H.wkind (rows k) else 0) hk
  refine ⟨r0, r1.trans ?_, r2.trans ?_⟩
  · by_cases hc : 0 < sumW H.wkind (rows k)
    · simp only [if_neg hc.ne', if_pos hc, mul_div_assoc, div_self hc.ne', mul_one]
    · simp only [if_pos (le_antisymm (not_lt.1 hc) hW), if_neg hc]
  · by_cases hc : 0 < sumW H.wkind (rows k)
    · simp only [if_neg hc.ne', if_pos hc, mul_div_assoc, div_self hc.ne', mul_one]
      rw [show ∀ x y z : ℚ, x * z + y * y - y ^ 2 = x * z by intros; ring, abs_of_nonneg (mul_nonneg (div_nonneg hV hE) hW),
        mul_div_assoc, div_self hc.ne', mul_one]
    · simp only [if_pos (le_antisymm (not_lt.1 hc) hW), if_neg hc]

/-- What ROOT reports about a bin of an exported profile: entries, mean and squared error. -/
def exProf (R : Except Err RootObj) (k : ℕ) : Option (Option ℚ × Option ℚ × Option ℚ) :=
  match R with
  | .ok (.prof q) => some (q.binEntries k, q.binContent k, q.binErr2 k)
  | _ => none

example : (List.range 4).map (exProf (exRoot exP [[exPRow (1/2) 1, exPRow (1/2) 3, exPRow 9 4]] [] [true] (some 0))) =
    [some (some 0, some 0, some 0), some (some 2, some 2, some (1/2)), some (some 0, some 0, some 0), some (some 1, some 4, some 0)] := by
  decide +kernel

/-- The hypotheses are met. -/
example : ∃ st q, exP.fillAll none [[exPRow (1/2) 1, exPRow (1/2) 3]] = .ok st ∧ exP.root [] [true] (some 0) st = .ok (.prof q) ∧
    q.binContent 1 = some 2 := by
  have hf : Fillable exP [[exPRow (1/2) 1, exPRow (1/2) 3]] := by
    refine ⟨?_, Or.inr ?_⟩
    · intro b hb r hr
      simp only [List.mem_singleton] at hb
      subst hb
      simp only [List.mem_cons, List.not_mem_nil, or_false] at hr
      rcases hr with rfl | rfl <;> exact exPRow_ok _ _ (by norm_num)
    · intro b hb r hr h
      simp only [List.mem_singleton] at hb
      subst hb
      simp only [List.mem_cons, List.not_mem_nil, or_false] at hr
      rcases hr with rfl | rfl <;> exact absurd (h [1]) (by decide +kernel)
  obtain ⟨st, h1, _⟩ := Represents.ofFill exP _ hf
  have hp : exP.PowKeys [] st := by
    cases st <;> trivial
  obtain ⟨q, k1, _, _, _, _, k2⟩ := C73_profile_partial exP _ hf st h1 [] [true] rfl rfl hp _ rfl rfl 0 (by decide)
    (by intro r _; exact zero_le_one)
  refine ⟨st, q, h1, k1, (k2 1 (by decide)).2.1.trans ?_⟩
  decide +kernel

/-- The axis is a bin or a split axis. -/
def FixedAxis.inRoot : FixedAxis → Bool
  | .bin _ | .split _ => true
  | _ => false

theorem rootAxis_inRoot {a : FixedAxis} {x : RootAxis} (h : a.rootAxis = .ok x) : a.inRoot = true := by
  cases a <;> first | rfl | (cases h; done)

theorem rootTH1_inRoot {a : FixedAxis} {w : Bool} {t : Table} {x : TH1} (h : rootTH1 a w t = .ok x) : a.inRoot = true := by
  unfold rootTH1 at h
  cases hx : a.rootAxis with
  | error e => rw [hx] at h; cases h
  | ok y => exact rootAxis_inRoot hx

theorem rootProf_inRoot {a : FixedAxis} {t : Table} {x : TProf} (h : rootProf a t = .ok x) : a.inRoot = true := by
  unfold rootProf at h
  cases hx : a.rootAxis with
  | error e => rw [hx] at h; cases h
  | ok y => exact rootAxis_inRoot hx

theorem rootRejects_none {gs : List GroupAxis} {n : ℕ} {p : Bool} (h : rootRejects gs n p = none) : gs = [] ∧ n = 1 := by
  unfold rootRejects at h
  simp only at h
  split_ifs at h with h1 h2 h3 h4 h5 <;> first | (cases h; done) | skip
  rw [not_not] at h4
  subst h4
  exact ⟨rfl, by simpa using h5⟩

theorem except_map_ok {ε α β : Type} {x : Except ε α} {f : α → β} {y : β} (h : x.map f = .ok y) : ∃ a, x = .ok a ∧ f a = y := by
  cases x with
  | error e => cases h
  | ok a => exact ⟨a, rfl, by cases h; rfl⟩

/-- C73: what is exported.  If `root` returns an object, the histogram was projected onto exactly one axis, and that is a bin or a
split axis; the object is a profile exactly if one was asked for, and that profile exists.  Everything else raises. -/
theorem C73_only (H : HistDef) (st : H.State) (kg kf : List Bool) (profile : Option ℕ) (R : RootObj)
    (h : H.root kg kf profile st = .ok R) :
    pick kg H.groups = [] ∧ (∃ a, pick kf H.fixed = [a] ∧ a.inRoot = true) ∧
      (∀ p, profile = some p → p < H.nprof ∧ ∃ q, R = .prof q) ∧ (profile = none → ∃ q, R = .th1 q) := by
  unfold HistDef.root at h
  split at h
  · cases h
  rename_i hpr
  split at h
  · cases h
  split at h
  · cases h
  rename_i hrej
  obtain ⟨h1, h2⟩ := rootRejects_none hrej
  obtain ⟨a, h3⟩ := List.length_eq_one_iff.1 h2
  rw [h3] at h
  cases hA : rootArr (H.project kg kf).layout ‹Option PV› with
  | error e => rw [hA] at h; cases h
  | ok arr =>
    rw [hA] at h
    cases profile with
    | none =>
      simp only at h
      obtain ⟨x, hx, rfl⟩ := except_map_ok h
      exact ⟨h1, ⟨a, h3, rootTH1_inRoot hx⟩, fun p hp => (by cases hp), fun _ => ⟨x, rfl⟩⟩
    | some p =>
      simp only at h
      obtain ⟨x, hx, rfl⟩ := except_map_ok h
      refine ⟨h1, ⟨a, h3, rootProf_inRoot hx⟩, fun p' hp => ?_, fun hp => (by cases hp)⟩
      cases hp
      exact ⟨by simpa using hpr, x, rfl⟩

/-- C73 is false for integer axes (and cuts): the export raises `AttributeError`, whatever the content. -/
theorem C73_refuted_integer (H : HistDef) (st : H.State) (kg kf : List Bool) (a : IntbinAxis) (arr : Arr)
    (hg : pick kg H.groups = []) (hfx : pick kf H.fixed = [.intbin a]) (hp : H.projectState kg kf st = .ok (some (.arr arr))) :
    H.root kg kf none st = .error .attributeError := by
  unfold HistDef.root
  rw [hp]
  have hr : rootRejects (H.project kg kf).groups (H.project kg kf).fixed.length (none : Option ℕ).isSome = none := by
    rw [show (H.project kg kf).groups = [] from hg, show (H.project kg kf).fixed = [.intbin a] from hfx]
    rfl
  simp only [Option.any_none, Bool.false_eq_true, if_false]
  rw [hr, show (H.project kg kf).fixed = [.intbin a] from hfx]
  rfl

/-- Two histograms with one axis. -/
def exRootInt : HistDef := ⟨[], [.intbin ⟨0, 3, true, true⟩], 0, .none⟩
def exRootSplit : HistDef := ⟨[], [.split ⟨[0, 1, 10], true, true, true, true⟩], 0, .none⟩

def exRootRow (q : ℚ) : Row := ⟨[], [.num (.fin q)], [], some 1⟩

example : exRoot exRootInt [[exRootRow 1, exRootRow 2]] [] [true] none = .error .attributeError := by decide +kernel

example : ∃ c : exRootInt.State, ∃ arr, exRootInt.projectState [] [true] c = .ok (some (.arr arr)) := ⟨some (Arr.zeros [6] 1), _, rfl⟩

/-- C73 is false for a histogram of one group that is projected away: with a single group `project` leaves a list of the
array instead of the array (C33), and the export raises `AttributeError`. -/
theorem C73_refuted_one_group :
    exRoot exH [[exRow "a" (1/2) (some 2)]] [false] [true] none = .error .attributeError := by decide +kernel

/-- C73 is false for split axes: they are exported with equal bins.  For the edges 0, 1, 10 the exported histogram has the bins
0 to 5 and 5 to 10; an entry at 2 is counted in the latter. -/
theorem C73_refuted_split : ¬ ∀ (H : HistDef) (bs : List (List Row)) (st : H.State) (edges : List ℚ) (b : SplitAxis) (h : TH1), Fillable H bs →
    H.fillAll none bs = .ok st → SplitAxis.init edges b.underflow b.overflow b.nanflow b.closedlow = .ok b → H.groups = [] → H.fixed = [.split b] → H.root [] [true] none st = .ok (.th1 h) →
    ∀ k < h.nbins + 2, h.content[k]? = some (some (sumW H.wkind (slotRows H [] [true] bs.flatten
      (rootSlot ⟨h.nbins, h.low, h.high, b.underflow, b.overflow, b.nanflow⟩ b.closedlow k)))) := by
  intro hall
  have hF : Fillable exRootSplit [[exRootRow 2]] := by
    refine ⟨?_, Or.inl rfl⟩
    intro b hb r hr
    simp only [List.mem_singleton] at hb
    subst hb
    simp only [List.mem_singleton] at hr
    subst hr
    refine ⟨List.Forall₂.nil, List.Forall₂.cons ?_ List.Forall₂.nil, rfl⟩
    exact handles_split [0, 1, 10] true true true true _ (by decide +kernel) _
  obtain ⟨st, h1, _⟩ := Represents.ofFill exRootSplit _ hF
  have e : exRoot exRootSplit [[exRootRow 2]] [] [true] none =
      .ok (.th1 ⟨2, 0, 10, [some 0, some 0, some 1, some 0], none, some 1⟩) := by decide +kernel
  unfold exRoot at e
  rw [h1] at e
  have h := hall exRootSplit [[exRootRow 2]] st [0, 1, 10] ⟨[0, 1, 10], true, true, true, true⟩ _ hF h1 (by decide +kernel) rfl rfl e
    1 (by decide)
  revert h
  decide +kernel

/-- **C73**, the kinds of refusals: a projection onto numeric groups only cannot be exported, with `NotImplementedError` for counts
and `TypeError` for profiles; a projection onto nothing raises `TypeError`. -/
theorem C73_refused (H : HistDef) (st : H.State) (kg kf : List Bool) (profile : Option ℕ) (pv : Option PV)
    (hp : ∀ p, profile = some p → p < H.nprof) (hst : H.projectState kg kf st = .ok pv)
    (hno : GroupAxis.groupby ∉ pick kg H.groups) :
    (pick kg H.groups ≠ [] → H.root kg kf profile st = .error (if profile.isSome then .typeError else .notImplemented)) ∧
      (pick kg H.groups = [] → pick kf H.fixed = [] → H.root kg kf profile st = .error .typeError) := by
  have h0 : profile.any (fun p => decide (H.nprof ≤ p)) = false := by
    cases profile with
    | none => rfl
    | some p => simpa using hp p rfl
  have hany : (pick kg H.groups).any GroupAxis.isBy = false := by
    rw [List.any_eq_false]
    intro g hg
    cases g with
    | groupby => exact absurd hg hno
    | groupbin b => simp [GroupAxis.isBy]
  refine ⟨fun hg => ?_, fun hg hf => ?_⟩
  · have hr : rootRejects (H.project kg kf).groups (H.project kg kf).fixed.length profile.isSome =
        some (if profile.isSome then .typeError else .notImplemented) := by
      change rootRejects (pick kg H.groups) (pick kf H.fixed).length profile.isSome = _
      unfold rootRejects
      simp [hany, hg]
    unfold HistDef.root
    simp only [h0, hst, hr]
    simp
  · have hr : rootRejects (H.project kg kf).groups (H.project kg kf).fixed.length profile.isSome = some .typeError := by
      change rootRejects (pick kg H.groups) (pick kf H.fixed).length profile.isSome = _
      rw [hg, hf]
      rfl
    unfold HistDef.root
    simp only [h0, hst, hr]
    simp

example : (⟨[.groupbin ⟨1, 0, true, true⟩], [], 1, .none⟩ : HistDef).root [true] [] (some 0) none = .error .typeError ∧
    (⟨[.groupbin ⟨1, 0, true, true⟩], [], 1, .none⟩ : HistDef).root [true] [] none none = .error .notImplemented := ⟨rfl, rfl⟩

end Verif
