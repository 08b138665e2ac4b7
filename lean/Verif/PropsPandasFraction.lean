import Verif.PropsPandas
import Verif.PropsFraction

/-!
# C72: exported rows of fractions
-/

namespace Verif

/-! ## helpers -/

/-- The keys of the groups come from the data. -/
theorem group_from_row (H : HistDef) (bs : List (List Row)) (hf : Fillable H bs) (st : H.State) (hst : H.fillAll none bs = .ok st)
    (gk : List Key) (i : ℕ) (k : Key) (hg : HasGroup H.groups.length (prefill H.layout st) gk) (hk : gk[i]? = some k) :
    ∃ r ∈ bs.flatten, (List.zipWith GroupAxis.key H.groups r.gvals).getD i none = some k := by
  obtain ⟨st0, e0, hrep⟩ := Represents.ofFill H bs hf
  rw [hst] at e0
  cases e0
  obtain ⟨st0, e0, hseen⟩ := C20_groups_exactly H bs hf
  rw [hst] at e0
  cases e0
  obtain ⟨p1, p2, p3⟩ := prefill_facts H st hrep.good
  rcases (p3 gk).1 hg with hh | rfl
  · have hl : gk.length ≤ H.groups.length := by
      cases st with
      | none => exact absurd hh (by simp [HistDef.has])
      | some c => exact hasGroup_length _ _ _ hh
    obtain ⟨b, hb, hr⟩ := (hseen gk hl).1 hh
    obtain ⟨r, hr, e⟩ := hr i k hk
    exact ⟨r, List.mem_flatten.2 ⟨b, hb, hr⟩, e⟩
  · simp at hk

/-- The labels of some of the axes say what the groups and bins say. -/
theorem fits_cell (H : HistDef) (bs : List (List Row)) (hf : Fillable H bs) (st : H.State) (hst : H.fillAll none bs = .ok st)
    (hgr : ∀ a, GroupAxis.groupbin a ∈ H.groups → 0 < a.binwidth) (hbd : ∀ r ∈ bs.flatten, r.Bounded H) (fs : List FixedAxis)
    (hax : ∀ a ∈ fs, a.keys.length = a.totbins) (gk : List Key) (hl : gk.length = H.groups.length)
    (hg : HasGroup H.groups.length (prefill H.layout st) gk) (idx : List ℕ) (hc : InRange idx (fs.map FixedAxis.totbins))
    (r : Row) (hr : r ∈ bs.flatten) (vs : List Val) (hvl : fs.length = vs.length) (hvb : ∀ v ∈ vs, v.toNum.bounded) :
    fitsAll (List.zipWith GroupAxis.plabel H.groups gk ++ labelsAt fs idx) r.gvals vs = (inGroup H.groups r.gvals gk && inBins' fs vs idx) := by
  obtain ⟨st0, e0, hrep⟩ := Represents.ofFill H bs hf
  rw [hst] at e0
  cases e0
  have hrs := hrep.sound r hr
  have hrb := hbd r hr
  rw [fits_groups H.groups r.gvals gk _ _ hl hrs.groups, fits_fixed fs vs idx hc hax hvl hvb]
  intro i g v k e1 e2 e3
  obtain ⟨r0, hr0, e⟩ := group_from_row H bs hf st hst gk i k hg e3
  have hr0b := hbd r0 hr0
  have hi : i < r0.gvals.length := by
    rw [(hrep.sound r0 hr0).groups]
    exact (List.getElem?_eq_some_iff.1 e1).1
  have e4 : r0.gvals[i]? = some r0.gvals[i] := List.getElem?_eq_getElem hi
  have e5 : g.key r0.gvals[i] = some k := by
    have := e
    simp only [List.getD_eq_getElem?_getD, List.getElem?_zipWith, e1, e4] at this
    simpa using this
  have hget : ∀ (r : Row), r.Bounded H → ∀ v, r.gvals[i]? = some v → g ≠ .groupby → ∀ x, GVal.toNum v = .ok x → x.bounded := by
    intro r hb v hv
    exact forall₂_get hb.groups i e1 hv
  exact fits_key g (fun a ha => hgr a (ha ▸ List.mem_of_getElem? e1)) r0.gvals[i] v k e5 (hget r0 hr0b _ e4) (hget r hrb _ e2)

/-- Cuts cover everything: what remains of `landsOn` when only cuts are removed. -/
theorem landsOn_cuts : ∀ (kf : List Bool) (fs : List FixedAxis) (vs : List Val) (idx : List ℕ), kf.length = fs.length →
    List.Forall₂ FixedAxis.Handles fs vs → (∀ j : ℕ, kf[j]? = some false → fs[j]? = some FixedAxis.cut) →
    (pick (kf.map not) (List.zipWith FixedAxis.covers fs vs)).all id = true
  | [], _, _, _, _, _, _ => rfl
  | _ :: _, [], _, _, h, _, _ => by simp at h
  | b :: kf, a :: fs, _, idx, h, hv, hc => by
    cases hv with
    | cons h1 h2 =>
      rename_i v vs
      have ih := landsOn_cuts kf fs vs idx (by simpa using h) h2 fun j hj => by simpa using hc (j + 1) (by simpa using hj)
      cases b with
      | true => exact ih
      | false =>
        have ha : a = .cut := by simpa using hc 0 rfl
        subst ha
        obtain ⟨b, rfl⟩ := cut_handles h1
        show (FixedAxis.covers .cut (.bool b) :: pick (kf.map not) (List.zipWith FixedAxis.covers fs vs)).all id = true
        rw [List.all_cons, ih]
        cases b <;> decide +kernel

theorem mem_pick {α : Type} : ∀ (kf : List Bool) (l : List α) (x : α), x ∈ pick kf l → x ∈ l
  | [], l, x, h => by cases l <;> simp [pick] at h
  | _ :: _, [], _, h => by simp [pick] at h
  | true :: kf, a :: l, x, h => by
    rcases List.mem_cons.1 (show x ∈ a :: pick kf l from h) with rfl | h
    · simp
    · exact List.mem_cons_of_mem _ (mem_pick kf l x h)
  | false :: kf, a :: l, x, h => List.mem_cons_of_mem _ (mem_pick kf l x h)

/-! ## C72 -/

/-- C72 for fractions: if an axis is left that is neither a group axis nor one of the cuts, there are as many rows as labels, and a row
has the fractions (see C47) of exactly the data whose values on the axes that are left are what the labels say.  (The hypotheses are
those of C47 and of `C72_table_partial`.)  Missing: what is missing in them. -/
theorem C72_fraction_partial (H : HistDef) (bs : List (List Row)) (hf : Fillable H bs) (st : H.State) (hst : H.fillAll none bs = .ok st)
    (hpos : 0 < H.nprof) (hasWeight : Bool) (hw : hasWeight = true ↔ H.wkind ≠ .none)
    (cuts : List ℕ) (hcuts : ∀ c ∈ cuts, H.fixed[c]? = some .cut) (count : Bool) (zs : List ℚ) (kf : List Bool) (hlen : kf.length = H.fixed.length)
    (hkf : ∀ j, j < H.fixed.length → kf[j]? = some (decide (j ∉ cuts))) (hne : pick kf H.fixed ≠ [])
    (hax : H.AxesOk) (hkind : OneKind H bs.flatten) (hbd : ∀ r ∈ bs.flatten, r.Bounded H) :
    ∃ F : PFrame, H.pandasFraction hasWeight count zs cuts st = .ok F ∧ (F.rows.getD []).length = F.labels.length ∧
      (∀ (i : ℕ) (L : List PLabel) (cols : List (Option ℚ)), F.labels[i]? = some L → (F.rows.getD [])[i]? = some cols →
        L.length = H.groups.length + (pick kf H.fixed).length ∧
        ∀ all, all = bs.flatten.filter (fun r => fitsAll L r.gvals (pick kf r.fvals)) →
          cols = fractionSpec H.wkind count zs all (cuts.map fun c => all.filter fun r => decide (r.fvals[c]? = some (.bool true)))) ∧
      ∀ r ∈ bs.flatten, (∃ gk idx, r.lands H gk idx = true) →
        ∃! i : ℕ, ∃ L, F.labels[i]? = some L ∧ fitsAll L r.gvals (pick kf r.fvals) = true := by
  obtain ⟨t, ht, ⟨f, c, hte, hdist, hsame⟩, htab⟩ := fraction_of_fill H bs hf st hst hpos hasWeight hw cuts hcuts count zs kf hlen hkf
  obtain ⟨st0, e0, hrep⟩ := Represents.ofFill H bs hf
  rw [hst] at e0
  cases e0
  obtain ⟨p1, p2, p3⟩ := prefill_facts H st hrep.good
  have hku : keepUncut H.fixed.length cuts = kf := by
    refine List.ext_getElem? (fun j => ?_)
    unfold keepUncut
    by_cases hj : j < H.fixed.length
    · rw [hkf j hj, List.getElem?_map, List.getElem?_range hj]
      simp
    · rw [List.getElem?_eq_none (by simp; omega), List.getElem?_eq_none (by omega)]
  let fs := pick kf H.fixed
  have hfix : ∀ a ∈ fs, a.keys.length = a.totbins := fun a ha => hax.fixed a (mem_pick kf _ a ha)
  have hok : ∀ r ∈ bs.flatten, r.Ok H := by
    intro r hr
    obtain ⟨b, hb, hrb⟩ := List.mem_flatten.1 hr
    exact hf.ok b hb r hrb
  have hcut : ∀ j : ℕ, kf[j]? = some false → H.fixed[j]? = some FixedAxis.cut := by
    intro j hj
    have hjl : j < H.fixed.length := by
      rw [← hlen]
      exact (List.getElem?_eq_some_iff.1 hj).1
    have := hkf j hjl
    rw [hj] at this
    exact hcuts j (by simpa using this)
  have hlands : ∀ r ∈ bs.flatten, ∀ idx, landsOn kf H.fixed r.fvals idx = inBins' fs (pick kf r.fvals) idx := by
    intro r hr idx
    unfold landsOn
    rw [landsOn_cuts kf H.fixed r.fvals idx hlen (hok r hr).fixed hcut, Bool.and_true]
  have hfits : ∀ gk idx, gk.length = H.groups.length → HasGroup H.groups.length (prefill H.layout st) gk →
      InRange idx (fs.map FixedAxis.totbins) → ∀ r ∈ bs.flatten,
      fitsAll (List.zipWith GroupAxis.plabel H.groups gk ++ labelsAt fs idx) r.gvals (pick kf r.fvals) =
        (inGroup H.groups r.gvals gk && landsOn kf H.fixed r.fvals idx) := by
    intro gk idx hl hg hc r hr
    rw [hlands r hr]
    exact fits_cell H bs hf st hst hax.groups hbd fs hfix gk hl hg idx hc r hr _ (pick_forall₂ (hok r hr).fixed kf).length_eq
      fun v hv => (hbd r hr).fixed v (mem_pick kf _ v hv)
  have hgood : TGood H.groups.length t := by
    rw [hte]
    refine handle_good _ _ _ hdist fun i => ?_
    refine (hkind i).imp (fun h gk k hg hk => ?_) (fun h gk k hg hk => ?_)
    · obtain ⟨r, hr, e⟩ := group_from_row H bs hf st hst gk i k ((hsame gk).1 hg) hk
      exact h r hr k e
    · obtain ⟨r, hr, e⟩ := group_from_row H bs hf st hst gk i k ((hsame gk).1 hg) hk
      exact h r hr k e
  have hpl : ∀ a ∈ fs, a.plabels.length = a.totbins := by
    intro a ha
    rw [plabels_keys, List.length_map]
    exact hfix a ha
  let cells : List ((List Key × Table) × List ℕ) := (gcells H.groups.length t).flatMap fun c =>
    (tableCells (fs.map FixedAxis.totbins)).map fun idx => (c, idx)
  let lab : (List Key × Table) × List ℕ → List PLabel := fun x => List.zipWith GroupAxis.plabel H.groups x.1.1 ++ labelsAt fs x.2
  let val : (List Key × Table) × List ℕ → List (Option ℚ) := fun x => x.1.2 x.2
  have hix : indexGroups fs H.fixed.length H.groups t [] = .ok (cells.map lab, cells.map val) := by
    rw [indexGroups_ok' fs _ (Or.inl hne) H.groups t [] hgood]
    simp only [cells, List.map_flatMap, List.map_map]
    congr 2
    refine List.flatMap_congr fun c _ => ?_
    rw [List.nil_append, indexFixed_cells fs _ hpl]
    rfl
  have hmem : ∀ x ∈ cells, x.1.1.length = H.groups.length ∧ tlookup H.groups.length t x.1.1 = some x.1.2 ∧
      InRange x.2 (fs.map FixedAxis.totbins) := by
    intro x hx
    simp only [cells, List.mem_flatMap, List.mem_map] at hx
    obtain ⟨c, hc, idx, hidx, rfl⟩ := hx
    obtain ⟨h1, h2⟩ := (mem_gcells _ _ c.1 c.2).1 hc
    rw [tableCells_eq] at hidx
    exact ⟨h1, h2, (mem_allCells _ _).1 hidx⟩
  have hhas : ∀ gk tab, gk.length = H.groups.length → tlookup H.groups.length t gk = some tab →
      HasGroup H.groups.length (prefill H.layout st) gk := by
    intro gk tab hl h
    by_contra hc
    rw [hte, handle_lookup_none _ _ _ gk hl (fun h => hc ((hsame gk).1 h))] at h
    cases h
  have hframe : ∃ F : PFrame, mkFrame (H.groups.length + fs.length) (cells.map lab, cells.map val) = .ok F ∧
      F.labels = cells.map lab ∧ F.rows.getD [] = cells.map val := by
    unfold mkFrame
    rw [if_neg (by
      intro h0
      exact hne (List.length_eq_zero_iff.1 (by show fs.length = 0; omega)))]
    by_cases hc : cells = []
    · simp [hc]
    · rw [if_neg (by simpa using hc), if_pos (by simp)]
      exact ⟨_, rfl, rfl, rfl⟩
  obtain ⟨F, hF, hFl, hFr⟩ := hframe
  refine ⟨F, ?_, ?_, ?_, ?_⟩
  · unfold HistDef.pandasFraction
    rw [ht]
    simp only
    rw [hku, show indexGroups (pick kf H.fixed) H.fixed.length H.groups t [] = _ from hix]
    exact hF
  · rw [hFl, hFr]; simp
  · intro i L cols h1 h2
    rw [hFl, List.getElem?_map] at h1
    rw [hFr, List.getElem?_map] at h2
    obtain ⟨x, hx, rfl⟩ := Option.map_eq_some_iff.1 h1
    rw [hx] at h2
    cases h2
    obtain ⟨m1, m2, m3⟩ := hmem x (List.mem_of_getElem? hx)
    have hg := hhas _ _ m1 m2
    have m3' : x.2.length = fs.length := by
      have := List.Forall₂.length_eq m3
      simpa using this
    refine ⟨by simp [lab, labelsAt, m1, m3', fs], fun all hall => ?_⟩
    have hall' : all = bs.flatten.filter (fun r => inGroup H.groups r.gvals x.1.1 && landsOn kf H.fixed r.fvals x.2) := by
      rw [hall]
      exact List.filter_congr fun r hr => hfits _ _ m1 hg m3 r hr
    have := htab x.1.1 m1 ((p3 _).1 hg) x.2 m3 all hall'
    rw [m2] at this
    exact Option.some.inj this
  · rintro r hr ⟨gk, idx, hl⟩
    have hrs := hrep.sound r hr
    have hl' := hl
    unfold Row.lands at hl'
    rw [Bool.and_eq_true] at hl'
    have hgk := (inGroup_iff H.groups r.gvals gk hrs.groups.symm).1 hl'.1
    have hlg : gk.length = H.groups.length := by
      have := congrArg List.length hgk
      simp [hrs.groups] at this
      omega
    have hb2 : inBins' fs (pick kf r.fvals) (pick kf idx) = true := inBins'_pick H.fixed r.fvals idx kf hl'.2
    have hok2 := pick_forall₂ (hok r hr).fixed kf
    have hcell : InRange (pick kf idx) (fs.map FixedAxis.totbins) := by
      have := pick_forall₂ (inBins'_range H r (hok r hr) idx hl'.2) kf
      rwa [pick_map] at this
    have hg : HasGroup H.groups.length (prefill H.layout st) gk := (p3 gk).2 (Or.inl (hrep.groups r hr gk hl'.1))
    obtain ⟨tab, k1⟩ : ∃ tab, tlookup H.groups.length t gk = some tab := by
      have := htab gk hlg ((p3 _).1 hg) (pick kf idx) hcell _ rfl
      obtain ⟨tab, h, _⟩ := Option.map_eq_some_iff.1 this
      exact ⟨tab, h⟩
    have hx : ((gk, tab), pick kf idx) ∈ cells := by
      simp only [cells, List.mem_flatMap, List.mem_map]
      refine ⟨(gk, tab), (mem_gcells _ _ _ _).2 ⟨hlg, k1⟩, pick kf idx, ?_, rfl⟩
      rw [tableCells_eq]
      exact (mem_allCells _ _).2 hcell
    have hnodup : cells.Nodup := by
      have hn := gcells_nodup _ _ hgood
      simp only [cells]
      rw [List.nodup_flatMap]
      constructor
      · intro c _
        rw [tableCells_eq]
        exact (nodup_allCells _).map fun a b h => (Prod.mk.inj h).2
      · refine List.Pairwise.imp ?_ (List.Nodup.of_map _ hn)
        intro c c' hne
        rw [Function.onFun, List.disjoint_left]
        intro x hx hx'
        obtain ⟨_, _, rfl⟩ := List.mem_map.1 hx
        obtain ⟨_, _, e⟩ := List.mem_map.1 hx'
        exact hne (Prod.mk.inj e).1.symm
    obtain ⟨i, hi, hxi⟩ := List.getElem_of_mem hx
    have hone : ∀ x ∈ cells, fitsAll (lab x) r.gvals (pick kf r.fvals) = true → x = ((gk, tab), pick kf idx) := by
      intro x hxm hfit
      obtain ⟨h1, h2, h3⟩ := hmem x hxm
      have := hfits _ _ h1 (hhas _ _ h1 h2) h3 r hr
      rw [show fitsAll (List.zipWith GroupAxis.plabel H.groups x.1.1 ++ labelsAt fs x.2) r.gvals (pick kf r.fvals) = true from hfit] at this
      have hl2 := this.symm
      rw [hlands r hr, Bool.and_eq_true] at hl2
      have g1 := (inGroup_iff H.groups r.gvals x.1.1 hrs.groups.symm).1 hl2.1
      have g2 := (inBins'_iff fs _ hok2 x.2).1 hl2.2
      have g3 := (inBins'_iff fs _ hok2 (pick kf idx)).1 hb2
      have a1 : x.1.1 = gk := List.map_injective_iff.2 (Option.some_injective _) (g1.symm.trans hgk)
      have a2 : x.2 = pick kf idx := List.map_injective_iff.2 (fun a b h => by simpa using h) (g2.symm.trans g3)
      rw [a1, k1] at h2
      obtain ⟨⟨y1, y2⟩, y3⟩ := x
      simp only at a1 a2 h2
      subst a1 a2
      cases h2
      rfl
    refine ⟨i, ⟨lab ((gk, tab), pick kf idx), ?_, ?_⟩, ?_⟩
    · rw [hFl, List.getElem?_map, List.getElem?_eq_getElem hi, hxi]
      rfl
    · show fitsAll (List.zipWith GroupAxis.plabel H.groups gk ++ labelsAt fs (pick kf idx)) r.gvals (pick kf r.fvals) = true
      rw [hfits gk _ hlg hg hcell r hr, hlands r hr, hl'.1, hb2]
      rfl
    · rintro j ⟨L, h1, h2⟩
      rw [hFl, List.getElem?_map] at h1
      obtain ⟨x, hxj, rfl⟩ := Option.map_eq_some_iff.1 h1
      obtain ⟨hj, hxj'⟩ := List.getElem?_eq_some_iff.1 hxj
      have := hone x (List.mem_of_getElem? hxj) h2
      rw [this] at hxj'
      exact (List.Nodup.getElem_inj_iff hnodup).1 (hxj'.trans hxi.symm)

/-- C72 fails for every histogram with no other axes than groups and the given cuts: there is a label for each group but no row of
numbers, and without group axes there is no export at all. -/
theorem C72_refuted_only_cuts (H : HistDef) (cuts : List ℕ) (hone : H.fixed ≠ []) (hcuts : ∀ j, j < H.fixed.length → j ∈ cuts) (st : H.State)
    (hasWeight count : Bool) (zs : List ℚ) :
    (∀ F, H.pandasFraction hasWeight count zs cuts st = .ok F → F.rows = none) ∧
    (H.groups = [] → ∀ F, H.pandasFraction hasWeight count zs cuts st ≠ .ok F) := by
  have hk : pick (keepUncut H.fixed.length cuts) H.fixed = [] := by
    have e : keepUncut H.fixed.length cuts = List.replicate H.fixed.length false := by
      unfold keepUncut
      rw [List.eq_replicate_iff]
      refine ⟨by simp, fun b hb => ?_⟩
      obtain ⟨j, hj, rfl⟩ := List.mem_map.1 hb
      have := hcuts j (List.mem_range.1 hj)
      simp [this]
    rw [e]
    exact pick_none _ _
  have hl : H.fixed.length ≠ 0 := fun h => hone (List.length_eq_zero_iff.1 h)
  have hrows : ∀ (gs : List GroupAxis) (t : Content Table gs.length) (key : List PLabel) r,
      indexGroups [] H.fixed.length gs t key = .ok r → r.2 = [] := by
    intro gs
    induction gs with
    | nil =>
      intro (t : Table) key r h
      have h : Except.ok (indexFixed [] key, if ([] : List FixedAxis) ≠ [] ∨ H.fixed.length = 0 then _ else _) = Except.ok r := h
      rw [if_neg (by simp [hl])] at h
      cases h
      rfl
    | cons g gs ih =>
      intro (d : List (Key × Content Table gs.length)) key r h
      rw [indexGroups_cons] at h
      have hloop : ∀ (ks : List Key) r, indexLoop (fun k =>
          match dget d k with
          | none => .error .keyError
          | some c => indexGroups [] H.fixed.length gs c (key ++ [g.plabel k])) ks = .ok r → r.2 = [] := by
        intro ks
        induction ks with
        | nil => intro r h; cases h; rfl
        | cons k ks ihk =>
          intro r h
          unfold indexLoop at h
          cases hd : dget d k with
          | none => rw [hd] at h; cases h
          | some c =>
            rw [hd] at h
            simp only at h
            cases h1 : indexGroups [] H.fixed.length gs c (key ++ [g.plabel k]) with
            | error e => rw [h1] at h; cases h
            | ok r1 =>
              rw [h1] at h
              split at h
              · cases h
              · cases h
              · rename_i r1' r2 e1 h2
                cases e1
                cases h
                show r1.2 ++ r2.2 = []
                rw [ih c _ _ h1, ihk _ h2]
                rfl
      split at h
      · cases h
      · exact hloop _ _ h
  constructor
  · intro F hF
    unfold HistDef.pandasFraction at hF
    split at hF
    · cases hF
    · rw [hk] at hF
      simp only at hF
      split at hF
      · cases hF
      · rename_i r hr
        unfold mkFrame at hF
        rw [hrows _ _ _ _ hr] at hF
        split at hF
        · cases hF
        · rw [if_pos rfl] at hF
          cases hF
          rfl
  · intro hg F hF
    unfold HistDef.pandasFraction at hF
    split at hF
    · cases hF
    · rw [hk] at hF
      simp only at hF
      split at hF
      · cases hF
      · unfold mkFrame at hF
        rw [if_pos (by rw [hg]; rfl)] at hF
        cases hF

/-- Two groups, an axis with two bins and a cut. -/
def exFracBin : HistDef := ⟨[.groupby], [.bin ⟨2, 0, 4, false, false, false, true⟩, .cut], 1, .none⟩

def exFracRows : List (List Row) :=
  [[⟨[.key (.str "a")], [.num (.fin 1), .bool true], [5], none⟩, ⟨[.key (.str "a")], [.num (.fin 1), .bool false], [6], none⟩],
    [⟨[.key (.str "b")], [.num (.fin 3), .bool true], [6], none⟩]]

/-- The fractions as exported: 1/2 of the data of group "a" in the first bin pass, all of group "b" in the second. -/
example : exPandasFr exFracBin exFracRows [1] =
    .ok ⟨[[.key (.str "a"), .iv (.fin 0) (.fin 2) true], [.key (.str "a"), .iv (.fin 2) (.fin 4) true],
        [.key (.str "b"), .iv (.fin 0) (.fin 2) true], [.key (.str "b"), .iv (.fin 2) (.fin 4) true]],
      some [[some (1 / 2)], [some 0], [some 0], [some 1]]⟩ := by decide +kernel

theorem exFrac_rows : ∀ r ∈ exFracRows.flatten, ∃ k x b p, r = ⟨[.key (.str k)], [.num (.fin x), .bool b], [p], none⟩ ∧ 0 ≤ x ∧ x < 4 := by
  intro r hr
  simp only [exFracRows, List.flatten_cons, List.flatten_nil, List.append_nil, List.cons_append, List.nil_append, List.mem_cons,
    List.not_mem_nil, or_false] at hr
  rcases hr with rfl | rfl | rfl <;> exact ⟨_, _, _, _, rfl, by norm_num, by norm_num⟩

theorem exFrac_fill : Fillable exFracBin exFracRows := by
  refine ⟨fun b hb r hr => ?_, Or.inr fun b hb r hr => ?_⟩
  · obtain ⟨k, x, b', p, rfl, _, _⟩ := exFrac_rows r (List.mem_flatten.2 ⟨b, hb, hr⟩)
    exact ⟨List.Forall₂.cons ⟨_, rfl⟩ List.Forall₂.nil,
      List.Forall₂.cons (handles_bin 2 0 4 false false false true _ rfl (by norm_num) _
        (Or.inr ⟨x, rfl, by push_cast; linarith⟩)) (List.Forall₂.cons (handles_cut _) List.Forall₂.nil), rfl⟩
  · simp only [exFracRows, List.mem_cons, List.not_mem_nil, or_false] at hb
    rcases hb with rfl | rfl
    · simp only [List.mem_cons, List.not_mem_nil, or_false] at hr
      rcases hr with rfl | rfl
      · exact fun h => absurd (h [0, 1]) (by decide +kernel)
      · exact fun h => absurd (h [0, 0]) (by decide +kernel)
    · simp only [List.mem_cons, List.not_mem_nil, or_false] at hr
      subst hr
      exact fun h => absurd (h [1, 1]) (by decide +kernel)

/-- The hypotheses are met. -/
example : ∃ st F, exFracBin.fillAll none exFracRows = .ok st ∧ exFracBin.pandasFraction false false [] [1] st = .ok F ∧
    (F.rows.getD []).length = F.labels.length := by
  have hf := exFrac_fill
  have hmem := exFrac_rows
  obtain ⟨st, h1, _⟩ := Represents.ofFill exFracBin _ hf
  obtain ⟨F, a1, a2, _⟩ := C72_fraction_partial exFracBin exFracRows hf st h1 (by decide) false (by decide) [1] (by decide) false [] [true, false] rfl
    (by
      intro j hj
      have hj : j < 2 := hj
      have : j = 0 ∨ j = 1 := by omega
      rcases this with rfl | rfl <;> decide)
    (by simp [exFracBin, pick])
    ⟨fun a ha => by simp [exFracBin] at ha; rcases ha with rfl | rfl <;> decide +kernel, fun a ha => by simp [exFracBin] at ha⟩
    (fun i => Or.inl fun r hr k hk => by
      obtain ⟨k', x, b', p, rfl, _, _⟩ := hmem r hr
      cases i with
      | zero => cases hk; rfl
      | succ i => simp [exFracBin] at hk)
    (fun r hr => by
      obtain ⟨k', x, b', p, rfl, _, _⟩ := hmem r hr
      exact ⟨List.Forall₂.cons (fun h => absurd rfl h) List.Forall₂.nil, by simp [Val.toNum, Num.bounded]⟩)
  exact ⟨st, F, h1, a1, a2⟩

end Verif
