import Verif.AxisItems
import Verif.GoalsLemmas
import Verif.GroupSelLemmas
import Verif.VegaLegend

/-!
# C129: the items of axes
-/

namespace Verif

/-! ## helpers -/

/-- The values on `groupbin` axes are numbers that are neither infinite nor NaN. -/
def Row.FiniteBins (H : HistDef) (r : Row) : Prop :=
  List.Forall₂ (fun g v => g ≠ .groupby → ∃ q, GVal.toNum v = .ok (.fin q)) H.groups r.gvals

/-- The bins of a cell. -/
def binsAt (fs : List FixedAxis) (idx : List ℕ) : List ILabel := List.zipWith (fun a i => .bin (a.keys.getD i .nan)) fs idx

/-- The label of a key, where there is one. -/
def GroupAxis.ilabel' (g : GroupAxis) (k : Key) : ILabel :=
  match g.ilabel k with
  | .ok l => l
  | .error _ => .key k

theorem ilabel_ok {g : GroupAxis} {k : Key} (h : g ≠ .groupby → k.isStr = false) : g.ilabel k = .ok (g.ilabel' k) := by
  cases g with
  | groupby => rfl
  | groupbin a =>
    cases k with
    | str s => simp [Key.isStr] at h
    | _ => rfl

theorem fixed_items_ok {α : Type} (a : FixedAxis) (content : List α) (h : content.length = a.keys.length) :
    a.items content = .ok ((a.keys.zip content).map fun p => (.bin p.1, p.2)) := by
  unfold FixedAxis.items
  rw [if_neg (by omega)]

theorem overItems_ok {α β : Type} (f : α → Except Err (List (List ILabel × β))) (A : α → List (List ILabel × β)) (l : List (ILabel × α))
    (h : ∀ p ∈ l, f p.2 = .ok (A p.2)) : overItems f l = .ok (l.flatMap fun p => (A p.2).map fun x => (p.1 :: x.1, x.2)) := by
  unfold overItems
  rw [mapE_ok (below f) (fun p => (A p.2).map fun x => (p.1 :: x.1, x.2)) l (fun p hp => by unfold below; rw [h p hp])]
  simp only [List.flatMap_def]

theorem walkFixed_cells : ∀ (fs : List FixedAxis) (t : Table), (∀ a ∈ fs, a.keys.length = a.totbins) →
    walkFixed fs t = .ok ((tableCells (fs.map FixedAxis.totbins)).map fun idx => (binsAt fs idx, t idx))
  | [], t, _ => by simp [walkFixed, tableCells, expand, binsAt]
  | a :: fs, t, h => by
    have ha := h a (by simp)
    unfold walkFixed
    rw [fixed_items_ok a _ (by simp [ha])]
    simp only
    rw [overItems_ok (walkFixed fs) (fun t => (tableCells (fs.map FixedAxis.totbins)).map fun idx => (binsAt fs idx, t idx)) _
      (fun p _ => walkFixed_cells fs p.2 (fun b hb => h b (by simp [hb])))]
    have hz : (a.keys.zip ((List.range a.totbins).map fun i => (fun idx => t (i :: idx) : Table))) =
        (List.range a.totbins).map fun i => (a.keys.getD i .nan, (fun idx => t (i :: idx) : Table)) := by
      apply List.ext_getElem
      · simp [ha]
      · intro i h1 h2
        simp at h1 h2 ⊢
        rw [List.getElem?_eq_getElem (by omega)]
        rfl
    rw [hz, tableCells_eq, tableCells_eq]
    show _ = Except.ok (List.map _ ((List.range a.totbins).flatMap fun i => (allCells (fs.map FixedAxis.totbins)).map (i :: ·)))
    rw [List.map_flatMap, List.map_map, List.flatMap_map]
    congr 2
    funext i
    simp [List.map_map, binsAt, Function.comp_def]

/-- The dicts of a table have keys that the axes can label. -/
def Labelled : (gs : List GroupAxis) → Content Table gs.length → Prop
  | [], _ => True
  | g :: gs, (d : List (Key × Content Table gs.length)) =>
    (∀ k ∈ d.map (·.1), g ≠ .groupby → k.isStr = false) ∧ ∀ k c, dget d k = some c → Labelled gs c

theorem group_items_ok {α : Type} (g : GroupAxis) (d : List (Key × α))
    (h1 : (∀ k ∈ d.map (·.1), k.isStr = true) ∨ ∀ k ∈ d.map (·.1), k.isStr = false) (h2 : ∀ k ∈ d.map (·.1), g ≠ .groupby → k.isStr = false)
    (F : Key → α) (hF : ∀ k ∈ d.map (·.1), dget d k = some (F k)) :
    g.items d = .ok (((d.map (·.1)).insertionSort fun a b => a.leq b = true).map fun k => (g.ilabel' k, F k)) := by
  unfold GroupAxis.items
  rw [sortKeys_ok h1]
  simp only
  refine mapE_ok _ _ _ fun k hk => ?_
  have hk' := (List.perm_insertionSort _ _).mem_iff.1 hk
  rw [hF k hk', ilabel_ok (h2 k hk')]

theorem walkTable_cons (fs : List FixedAxis) (g : GroupAxis) (gs : List GroupAxis) (d : List (Key × Content Table gs.length)) :
    walkTable fs (g :: gs) d = match g.items d with
    | .error e => .error e
    | .ok l => overItems (walkTable fs gs) l := rfl

theorem walkTable_cells (fs : List FixedAxis) (hfs : ∀ a ∈ fs, a.keys.length = a.totbins) : ∀ (gs : List GroupAxis)
    (t : Content Table gs.length), TGood gs.length t → Labelled gs t →
    walkTable fs gs t = .ok ((gcells gs.length t).flatMap fun c => (tableCells (fs.map FixedAxis.totbins)).map fun idx =>
      (List.zipWith GroupAxis.ilabel' gs c.1 ++ binsAt fs idx, c.2 idx))
  | [], (t : Table), _, _ => by
    show walkFixed fs t = _
    rw [walkFixed_cells fs t hfs]
    simp [gcells]
  | g :: gs, (d : List (Key × Content Table gs.length)), h, hl => by
    obtain ⟨_, h2, h3⟩ := h
    obtain ⟨l1, l2⟩ := hl
    have hex : ∀ k, ∃ c : Option (Content Table gs.length), c = dget d k := fun k => ⟨_, rfl⟩
    by_cases hd : d = []
    · subst hd
      rfl
    have hne : Nonempty (Content Table gs.length) := by
      cases d with
      | nil => exact absurd rfl hd
      | cons p d => exact ⟨p.2⟩
    let F : Key → Content Table gs.length := fun k => (dget d k).getD hne.some
    have hF : ∀ k ∈ d.map (·.1), dget d k = some (F k) := by
      intro k hk
      obtain ⟨c, hc⟩ := mem_keys_dget hk
      simp [F, hc]
    rw [walkTable_cons, group_items_ok g d h2 l1 F hF]
    simp only
    rw [overItems_ok (walkTable fs gs) (fun c => (gcells gs.length c).flatMap fun c => (tableCells (fs.map FixedAxis.totbins)).map fun idx =>
      (List.zipWith GroupAxis.ilabel' gs c.1 ++ binsAt fs idx, c.2 idx)) _ (fun p hp => by
        obtain ⟨k, hk, rfl⟩ := List.mem_map.1 hp
        have hk' := hF k ((List.perm_insertionSort _ _).mem_iff.1 hk)
        exact walkTable_cells fs hfs gs _ (h3 k _ hk') (l2 k _ hk'))]
    show _ = Except.ok ((gcells (gs.length + 1) d).flatMap _)
    rw [gcells_succ, List.flatMap_assoc, List.flatMap_map]
    congr 1
    refine List.flatMap_congr fun k hk => ?_
    rw [hF k ((List.perm_insertionSort _ _).mem_iff.1 hk)]
    simp only [List.flatMap_map, List.map_flatMap, List.map_map]
    refine List.flatMap_congr fun c _ => ?_
    refine List.map_congr_left fun idx _ => ?_
    simp

theorem handle_labelled (f : Arr → Table) : ∀ (gs : List GroupAxis) (c : Content Arr gs.length),
    (∀ (i : ℕ) (g : GroupAxis), gs[i]? = some g → g ≠ .groupby → ∀ (gk : List Key) (k : Key), HasGroup gs.length c gk → gk[i]? = some k → k.isStr = false) →
    Labelled gs (handle f gs.length c)
  | [], _, _ => trivial
  | g :: gs, (d : List (Key × Content Arr gs.length)), h => by
    have hkeys : (d.map (fun p => (p.1, handle f gs.length p.2))).map (·.1) = d.map (·.1) := by simp [Function.comp_def]
    refine ⟨?_, ?_⟩
    · show ∀ k ∈ List.map (fun x => x.1) (d.map (fun p => (p.1, handle f gs.length p.2))), _
      rw [hkeys]
      intro k hk hg
      obtain ⟨c, hc⟩ := mem_keys_dget hk
      exact h 0 g rfl hg [k] k ⟨c, hc, hasGroup_nil _ _⟩ rfl
    · intro k c hc
      have hc' : dget (d.map (fun p => (p.1, handle f gs.length p.2))) k = some c := hc
      rw [dget_map (fun _ c => handle f gs.length c) d k] at hc'
      obtain ⟨c0, hc0, rfl⟩ := Option.map_eq_some_iff.1 hc'
      refine handle_labelled f gs c0 fun i g' hi hg gk k' hgk hk => ?_
      exact h (i + 1) g' (by simpa using hi) hg (k :: gk) k' ⟨c0, hc0, hgk⟩ (by simpa using hk)

theorem fit_fixed : ∀ (fs : List FixedAxis) (vs : List Val) (idx : List ℕ), InRange idx (fs.map FixedAxis.totbins) →
    (∀ a ∈ fs, a.keys.length = a.totbins) → fs.length = vs.length → allFit (binsAt fs idx) [] vs = inBins' fs vs idx
  | [], [], _, h, _, _ => by cases h; rfl
  | a :: fs, v :: vs, _, h, hk, hl => by
    cases h with
    | cons hi h =>
      rename_i i idx
      have hlt : i < a.keys.length := by rw [hk a (by simp)]; exact hi
      show (v.In (a.keys.getD i .nan) && allFit (binsAt fs idx) [] vs) = (a.holds i v && inBins' fs vs idx)
      rw [fit_fixed fs vs idx h (fun b hb => hk b (by simp [hb])) (by simpa using hl)]
      unfold FixedAxis.holds
      rw [List.getElem?_eq_getElem hlt, List.getD_eq_getElem?_getD, List.getElem?_eq_getElem hlt]
      rfl

theorem fit_key (g : GroupAxis) (hw : ∀ a, g = .groupbin a → 0 < a.binwidth) (v0 v : GVal) (k : Key) (h0 : g.key v0 = some k)
    (hb0 : g ≠ .groupby → ∃ q, v0.toNum = .ok (.fin q)) (hb : g ≠ .groupby → ∃ q, v.toNum = .ok (.fin q)) :
    (g.ilabel' k).hasG v = decide (g.key v = some k) := by
  cases g with
  | groupby => rfl
  | groupbin a =>
    have ha : GroupbinAxis.init a.binwidth a.origin a.nanflow a.closedlow = .ok a := by
      unfold GroupbinAxis.init
      rw [if_neg (not_le.2 (hw a rfl))]
    obtain ⟨q0, h1⟩ := hb0 (by simp)
    obtain ⟨q, h2⟩ := hb (by simp)
    obtain ⟨z, _, hz, _⟩ := C05_groupbin_interval_contains _ _ _ _ a ha q0
    simp only [GroupAxis.key, h1, h2, Except.toOption, Option.bind_some] at h0 ⊢
    have hs := C05_groupbin_same_key_iff _ _ _ _ a ha q0 q _ _ hz rfl
    rw [hz] at hs h0
    cases h0
    simp only [GroupAxis.ilabel', GroupAxis.ilabel, ILabel.hasG, h2]
    exact decide_eq_decide.2 hs.symm

theorem fit_groups : ∀ (gs : List GroupAxis) (vs : List GVal) (gk : List Key) (L : List ILabel) (fv : List Val),
    gk.length = gs.length → vs.length = gs.length →
    (∀ (i : ℕ) (g : GroupAxis) (v : GVal) (k : Key), gs[i]? = some g → vs[i]? = some v → gk[i]? = some k → (g.ilabel' k).hasG v = decide (g.key v = some k)) →
    allFit (List.zipWith GroupAxis.ilabel' gs gk ++ L) vs fv = (inGroup gs vs gk && allFit L [] fv)
  | [], [], [], L, fv, _, _, _ => by simp [inGroup]
  | g :: gs, v :: vs, k :: gk, L, fv, h1, h2, h => by
    show ((g.ilabel' k).hasG v && allFit (List.zipWith GroupAxis.ilabel' gs gk ++ L) vs fv) = (decide (g.key v = some k) && inGroup gs vs gk && _)
    rw [h 0 g v k rfl rfl rfl, fit_groups gs vs gk L fv (by simpa using h1) (by simpa using h2)
      (fun i g v k a b c => h (i + 1) g v k (by simpa using a) (by simpa using b) (by simpa using c)), Bool.and_assoc]

/-! ## C129 -/

/-- C129 for `bin`, `intbin`, `split` and `cut` axes: the items are the published bins in order, each with the element of its number; and
something that has not one element for each bin is rejected. -/
theorem C129_fixed {α : Type} (a : FixedAxis) (content : List α) :
    (content.length = a.keys.length → ∃ l, a.items content = .ok l ∧ l.length = content.length ∧
      ∀ (i : ℕ) (k : BinLabel) (x : α), a.keys[i]? = some k → content[i]? = some x → l[i]? = some (.bin k, x)) ∧
    (content.length ≠ a.keys.length → a.items content = .error .valueError) := by
  refine ⟨fun h => ⟨_, fixed_items_ok a content h, by simp [h], ?_⟩, fun h => ?_⟩
  · intro i k x h1 h2
    rw [List.getElem?_map, show (a.keys.zip content)[i]? = some (k, x) from List.getElem?_zip_eq_some.2 ⟨h1, h2⟩]
    rfl
  · unfold FixedAxis.items
    rw [if_pos (Ne.symm h)]

/-- C129 for `groupby` and `groupbin` axes: the items are all groups, once each, in the strict order of their keys (numbers by size, texts alphabetically), with their contents, if the
keys can be sorted and, for `groupbin` axes, none is the text that stands for NaN; otherwise a `TypeError` is raised. -/
theorem C129_group {α : Type} (g : GroupAxis) (d : List (Key × α)) (hd : (d.map (·.1)).Nodup) :
    ((∀ k ∈ d.map (·.1), k.isStr = false) ∨ g = .groupby ∧ (∀ k ∈ d.map (·.1), k.isStr = true) →
      ∃ ks l, g.items d = .ok l ∧ g.keysOf d = .ok (l.map (·.1)) ∧ ks.Perm (d.map (·.1)) ∧ ks.Pairwise Key.below ∧
        List.Forall₂ (fun k p => (k, p.2) ∈ d ∧ (g = .groupby → p.1 = .key k) ∧ ∀ a q, g = .groupbin a → k = .num q →
          p.1 = .bin (.iv (.fin q) (.fin (q + a.binwidth)) a.closedlow (!a.closedlow))) ks l) ∧
    (¬ (∀ k ∈ d.map (·.1), k.isStr = false) → ¬ (g = .groupby ∧ ∀ k ∈ d.map (·.1), k.isStr = true) →
      g.items d = .error .typeError ∧ g.keysOf d = .error .typeError) := by
  constructor
  · intro h
    have h1 : (∀ k ∈ d.map (·.1), k.isStr = true) ∨ ∀ k ∈ d.map (·.1), k.isStr = false := by tauto
    have h2 : ∀ k ∈ d.map (·.1), g ≠ .groupby → k.isStr = false := by
      rcases h with h | ⟨h, _⟩
      · exact fun k hk _ => h k hk
      · exact fun k hk hg => absurd h hg
    by_cases hne : d = []
    · subst hne
      exact ⟨[], [], rfl, rfl, List.Perm.refl _, List.Pairwise.nil, List.Forall₂.nil⟩
    have hα : Nonempty α := by
      cases d with
      | nil => exact absurd rfl hne
      | cons p d => exact ⟨p.2⟩
    let F : Key → α := fun k => (dget d k).getD hα.some
    have hF : ∀ k ∈ d.map (·.1), dget d k = some (F k) := by
      intro k hk
      obtain ⟨c, hc⟩ := mem_keys_dget hk
      simp [F, hc]
    have hi := group_items_ok g d h1 h2 F hF
    have hperm := List.perm_insertionSort (fun a b : Key => a.leq b = true) (d.map (·.1))
    refine ⟨_, _, hi, by unfold GroupAxis.keysOf; rw [hi], hperm,
      (pairwise_and_ne ?_ (hperm.nodup_iff.2 hd)).imp (fun h => Key.below_of_leq _ _ h.1 h.2), ?_⟩
    · rcases h1 with h1 | h1
      · exact insertionSort_pairwise _ (fun k => k.isStr = true) (fun a b ha hb => Key.leq_total a b (ha.trans hb.symm))
          (fun a b c _ _ _ => Key.leq_trans a b c) _ h1
      · exact insertionSort_pairwise _ (fun k => k.isStr = false) (fun a b ha hb => Key.leq_total a b (ha.trans hb.symm))
          (fun a b c _ _ _ => Key.leq_trans a b c) _ h1
    · rw [List.forall₂_map_right_iff, List.forall₂_same]
      intro k hk
      refine ⟨mem_dget (hF k (hperm.mem_iff.1 hk)), ?_, ?_⟩
      · rintro rfl
        rfl
      · rintro a q rfl rfl
        rfl
  · intro h1 h2
    have hi : g.items d = .error .typeError := by
      unfold GroupAxis.items
      by_cases hs : ∀ k ∈ d.map (·.1), k.isStr = true
      · rw [sortKeys_ok (Or.inl hs)]
        simp only
        cases g with
        | groupby => exact absurd ⟨rfl, hs⟩ h2
        | groupbin a =>
          cases hl : (d.map (·.1)).insertionSort fun a b => a.leq b = true with
          | nil =>
            have := congrArg List.length hl
            rw [List.length_insertionSort] at this
            exact absurd (fun k hk => by rw [List.length_eq_zero_iff.1 this] at hk; cases hk) h1
          | cons k ks =>
            have hk : k ∈ d.map (·.1) := (List.perm_insertionSort (fun a b : Key => a.leq b = true) _).mem_iff.1 (by rw [hl]; simp)
            obtain ⟨c, hc⟩ := mem_keys_dget hk
            have hks := hs k hk
            cases k with
            | str s => simp only [mapE, hc, GroupAxis.ilabel]
            | _ => cases hks
      · have : sortKeys (d.map (·.1)) = .error .typeError := by
          unfold sortKeys
          rw [if_neg]
          simp only [Bool.or_eq_true, List.all_eq_true, Bool.not_eq_true', not_or]
          exact ⟨hs, h1⟩
        rw [this]
    exact ⟨hi, by unfold GroupAxis.keysOf; rw [hi]⟩

/-- C129 for tables, where all values on `groupbin` axes are finite and the keys of each `groupby` axis can be compared.  One loop over
`items` for each axis finds rows with one label for each axis; the numbers of each row are those (see C45) of exactly the data whose
values are what the labels say, infinite values and NaN of the other axes included; and every entry that is in some group and some bin
is described by exactly one of them.  Missing: NaN (`C129_refuted_nan`) and infinite values (`C129_refuted_infinite`) on `groupbin`
axes, keys that cannot be sorted; for normalized tables see `C129_normalized_partial`. -/
theorem C129_table_partial (H : HistDef) (bs : List (List Row)) (hf : Fillable H bs) (st : H.State) (hst : H.fillAll none bs = .ok st)
    (o : TableOpts) (ho : o.normalized = false) (hp : ∀ p ∈ o.profs, p < H.nprof)
    (hax : H.AxesOk) (hkind : OneKind H bs.flatten) (hbd : ∀ r ∈ bs.flatten, r.FiniteBins H) :
    ∃ t w, H.table o st = .ok t ∧ walkTable H.fixed H.groups t = .ok w ∧
      (∀ x ∈ w, x.1.length = H.groups.length + H.fixed.length ∧
        x.2 = tableSpec H.wkind o (bs.flatten.filter fun r => allFit x.1 r.gvals r.fvals)) ∧
      ∀ r ∈ bs.flatten, (∃ gk idx, r.lands H gk idx = true) →
        ∃! i : ℕ, ∃ x, w[i]? = some x ∧ allFit x.1 r.gvals r.fvals = true := by
  obtain ⟨t, ht, htab⟩ := C45_table H bs hf st hst o ho hp
  obtain ⟨st0, e0, hrep⟩ := Represents.ofFill H bs hf
  rw [hst] at e0
  cases e0
  obtain ⟨st0, e0, hseen⟩ := C20_groups_exactly H bs hf
  rw [hst] at e0
  cases e0
  obtain ⟨p1, p2, p3⟩ := prefill_facts H st hrep.good
  have hdist : Distinct H.groups.length (prefill H.layout st) := by
    cases st with
    | none => exact distinct_empty _ _
    | some c => exact hrep.distinct
  -- keys come from rows
  have hfrom : ∀ (gk : List Key) (i : ℕ) (k : Key), HasGroup H.groups.length (prefill H.layout st) gk → gk[i]? = some k →
      ∃ r ∈ bs.flatten, (List.zipWith GroupAxis.key H.groups r.gvals).getD i none = some k := by
    intro gk i k hg hk
    rcases (p3 gk).1 hg with hh | rfl
    · have hl : gk.length ≤ H.groups.length := by
        cases st with
        | none => exact absurd hh (by simp [HistDef.has])
        | some c => exact hasGroup_length _ _ _ hh
      obtain ⟨b, hb, hr⟩ := (hseen gk hl).1 hh
      obtain ⟨r, hr, e⟩ := hr i k hk
      exact ⟨r, List.mem_flatten.2 ⟨b, hb, hr⟩, e⟩
    · simp at hk
  -- and these rows have values for them
  have hfrom' : ∀ (gk : List Key) (i : ℕ) (g : GroupAxis) (k : Key), H.groups[i]? = some g →
      HasGroup H.groups.length (prefill H.layout st) gk → gk[i]? = some k →
      ∃ v, g.key v = some k ∧ (g ≠ .groupby → ∃ q, GVal.toNum v = .ok (.fin q)) := by
    intro gk i g k e1 hg e3
    obtain ⟨r0, hr0, e⟩ := hfrom gk i k hg e3
    have hi : i < r0.gvals.length := by
      rw [(hrep.sound r0 hr0).groups]
      exact (List.getElem?_eq_some_iff.1 e1).1
    have e4 : r0.gvals[i]? = some r0.gvals[i] := List.getElem?_eq_getElem hi
    refine ⟨r0.gvals[i], ?_, forall₂_get (hbd r0 hr0) i e1 e4⟩
    simp only [List.getD_eq_getElem?_getD, List.getElem?_zipWith, e1, e4] at e
    simpa using e
  -- the labels say what the groups and bins say
  have hfits : ∀ gk idx, gk.length = H.groups.length → HasGroup H.groups.length (prefill H.layout st) gk → H.Cell idx →
      ∀ r ∈ bs.flatten, allFit (List.zipWith GroupAxis.ilabel' H.groups gk ++ binsAt H.fixed idx) r.gvals r.fvals = r.lands H gk idx := by
    intro gk idx hl hg hc r hr
    have hrs := hrep.sound r hr
    rw [fit_groups H.groups r.gvals gk _ _ hl hrs.groups, fit_fixed H.fixed r.fvals idx hc hax.fixed hrs.fixed.length_eq]
    · rfl
    · intro i g v k e1 e2 e3
      obtain ⟨v0, h1, h2⟩ := hfrom' gk i g k e1 hg e3
      exact fit_key g (fun a ha => hax.groups a (ha ▸ List.mem_of_getElem? e1)) v0 v k h1 h2 (forall₂_get (hbd r hr) i e1 e2)
  -- the table
  have hany : o.profs.any (fun p => decide (H.nprof ≤ p)) = false := by
    rw [List.any_eq_false]
    intro p hpm
    have := hp p hpm
    simp; omega
  have ht' : H.table o st = .ok (handle (handlearray H.layout o (fun _ => none)) H.groups.length (prefill H.layout st)) := by
    unfold HistDef.table HistDef.tableWith
    rw [hany, ho]
    rfl
  have hte : t = handle (handlearray H.layout o (fun _ => none)) H.groups.length (prefill H.layout st) := by
    rw [ht'] at ht
    cases ht
    rfl
  have hgood : TGood H.groups.length t := by
    rw [hte]
    refine handle_good _ _ _ hdist fun i => ?_
    refine (hkind i).imp (fun h gk k hg hk => ?_) (fun h gk k hg hk => ?_)
    · obtain ⟨r, hr, e⟩ := hfrom gk i k hg hk
      exact h r hr k e
    · obtain ⟨r, hr, e⟩ := hfrom gk i k hg hk
      exact h r hr k e
  have hlab : Labelled H.groups t := by
    rw [hte]
    refine handle_labelled _ _ _ fun i g hi hg gk k hgk hk => ?_
    obtain ⟨v, h1, h2⟩ := hfrom' gk i g k hi hgk hk
    obtain ⟨q, h3⟩ := h2 hg
    cases g with
    | groupby => exact absurd rfl hg
    | groupbin a =>
      have ha : GroupbinAxis.init a.binwidth a.origin a.nanflow a.closedlow = .ok a := by
        unfold GroupbinAxis.init
        rw [if_neg (not_le.2 (hax.groups a (List.mem_of_getElem? hi)))]
      obtain ⟨z, _, hz, _⟩ := C05_groupbin_interval_contains _ _ _ _ a ha q
      simp only [GroupAxis.key] at h1
      rw [h3] at h1
      have h1 : a.key (.fin q) = some k := h1
      rw [hz] at h1
      cases h1
      rfl
  -- the cells in the order of the loops
  let cells : List ((List Key × Table) × List ℕ) := (gcells H.groups.length t).flatMap fun c =>
    (tableCells (H.fixed.map FixedAxis.totbins)).map fun idx => (c, idx)
  let lab : (List Key × Table) × List ℕ → List ILabel := fun x => List.zipWith GroupAxis.ilabel' H.groups x.1.1 ++ binsAt H.fixed x.2
  have hw : walkTable H.fixed H.groups t = .ok (cells.map fun x => (lab x, x.1.2 x.2)) := by
    rw [walkTable_cells H.fixed hax.fixed H.groups t hgood hlab]
    simp only [cells, List.map_flatMap, List.map_map]
    rfl
  have hmem : ∀ x ∈ cells, x.1.1.length = H.groups.length ∧ tlookup H.groups.length t x.1.1 = some x.1.2 ∧ H.Cell x.2 := by
    intro x hx
    simp only [cells, List.mem_flatMap, List.mem_map] at hx
    obtain ⟨c, hc, idx, hidx, rfl⟩ := hx
    obtain ⟨h1, h2⟩ := (mem_gcells _ _ c.1 c.2).1 hc
    rw [tableCells_eq] at hidx
    exact ⟨h1, h2, (mem_allCells _ _).1 hidx⟩
  have hhas : ∀ gk tab, gk.length = H.groups.length → tlookup H.groups.length t gk = some tab →
      HasGroup H.groups.length (prefill H.layout st) gk := by
    intro gk tab hl h
    by_contra hc
    rw [hte, handle_lookup_none _ _ _ gk hl hc] at h
    cases h
  have hval : ∀ x ∈ cells, x.1.2 x.2 = tableSpec H.wkind o (bs.flatten.filter fun r => allFit (lab x) r.gvals r.fvals) := by
    intro x hx
    obtain ⟨h1, h2, h3⟩ := hmem x hx
    have hg := hhas _ _ h1 h2
    have hg' : H.has st x.1.1 ∨ H.groups = [] := by
      rcases (p3 _).1 hg with h | h
      · exact Or.inl h
      · rw [h] at h1
        exact Or.inr (List.length_eq_zero_iff.1 h1.symm)
    obtain ⟨tab, k1, k2⟩ := (htab x.1.1 h1).1 hg'
    rw [h2] at k1
    cases k1
    rw [k2 x.2 h3]
    congr 1
    exact List.filter_congr fun r hr => (hfits _ _ h1 hg h3 r hr).symm
  have hnodup : cells.Nodup := by
    have hn := gcells_nodup _ _ hgood
    simp only [cells]
    rw [List.nodup_flatMap]
    constructor
    · intro c _
      rw [tableCells_eq]
      exact (nodup_allCells _).map fun a b h => (Prod.mk.inj h).2
    · refine List.Pairwise.imp ?_ (List.Nodup.of_map _ hn)
      intro c c' hne
      rw [Function.onFun, List.disjoint_left]
      intro x hx hx'
      obtain ⟨_, _, rfl⟩ := List.mem_map.1 hx
      obtain ⟨_, _, e⟩ := List.mem_map.1 hx'
      exact hne (Prod.mk.inj e).1.symm
  refine ⟨t, _, ht, hw, ?_, ?_⟩
  · intro y hy
    obtain ⟨x, hx, rfl⟩ := List.mem_map.1 hy
    refine ⟨?_, hval x hx⟩
    obtain ⟨h1, _, h3⟩ := hmem x hx
    have h3' : x.2.length = H.fixed.length := by
      have := List.Forall₂.length_eq h3
      simpa using this
    simp [lab, binsAt, h1, h3']
  · rintro r hr ⟨gk, idx, hl⟩
    have hrs := hrep.sound r hr
    have hok : r.Ok H := by
      obtain ⟨b, hb, hrb⟩ := List.mem_flatten.1 hr
      exact hf.ok b hb r hrb
    have hl' := hl
    unfold Row.lands at hl'
    rw [Bool.and_eq_true] at hl'
    have hgk := (inGroup_iff H.groups r.gvals gk hrs.groups.symm).1 hl'.1
    have hlen : gk.length = H.groups.length := by
      have := congrArg List.length hgk
      simp [hrs.groups] at this
      omega
    have hcell : H.Cell idx := inBins'_range H r hok idx hl'.2
    obtain ⟨tab, k1, _⟩ := (htab gk hlen).1 (Or.inl (hrep.groups r hr gk hl'.1))
    have hx : ((gk, tab), idx) ∈ cells := by
      simp only [cells, List.mem_flatMap, List.mem_map]
      refine ⟨(gk, tab), (mem_gcells _ _ _ _).2 ⟨hlen, k1⟩, idx, ?_, rfl⟩
      rw [tableCells_eq]
      exact (mem_allCells _ _).2 hcell
    obtain ⟨i, hi, hxi⟩ := List.getElem_of_mem hx
    have hone : ∀ x ∈ cells, allFit (lab x) r.gvals r.fvals = true → x = ((gk, tab), idx) := by
      intro x hxm hfit
      obtain ⟨h1, h2, h3⟩ := hmem x hxm
      have hl2 := (hfits _ _ h1 (hhas _ _ h1 h2) h3 r hr).symm.trans hfit
      unfold Row.lands at hl2
      rw [Bool.and_eq_true] at hl2
      have g1 := (inGroup_iff H.groups r.gvals x.1.1 hrs.groups.symm).1 hl2.1
      have g2 := (inBins'_iff H.fixed r.fvals hok.fixed x.2).1 hl2.2
      have g3 := (inBins'_iff H.fixed r.fvals hok.fixed idx).1 hl'.2
      have a1 : x.1.1 = gk := List.map_injective_iff.2 (Option.some_injective _) (g1.symm.trans hgk)
      have a2 : x.2 = idx := List.map_injective_iff.2 (fun a b h => by simpa using h) (g2.symm.trans g3)
      rw [a1, k1] at h2
      obtain ⟨⟨y1, y2⟩, y3⟩ := x
      simp only at a1 a2 h2
      subst a1 a2
      cases h2
      rfl
    refine ⟨i, ⟨(lab ((gk, tab), idx), tab idx), ?_, ?_⟩, ?_⟩
    · rw [List.getElem?_map, List.getElem?_eq_getElem hi, hxi]
      rfl
    · show allFit (List.zipWith GroupAxis.ilabel' H.groups gk ++ binsAt H.fixed idx) r.gvals r.fvals = true
      rw [hfits gk idx hlen (hhas gk tab hlen k1) hcell r hr]
      exact hl
    · rintro j ⟨y, h1, h2⟩
      rw [List.getElem?_map] at h1
      obtain ⟨x, hxj, rfl⟩ := Option.map_eq_some_iff.1 h1
      obtain ⟨hj, hxj'⟩ := List.getElem?_eq_some_iff.1 hxj
      have := hone x (List.mem_of_getElem? hxj) h2
      rw [this] at hxj'
      exact (List.Nodup.getElem_inj_iff hnodup).1 (hxj'.trans hxi.symm)

/-! ## examples and refutations -/

/-- The loops over the table of a histogram after filling. -/
def exWalk (H : HistDef) (bs : List (List Row)) (o : TableOpts) : Except Err (List (List ILabel × List (Option ℚ))) :=
  match H.fillAll none bs with
  | .error (e, _) => .error e
  | .ok st =>
    match H.table o st with
    | .error e => .error e
    | .ok t => walkTable H.fixed H.groups t

/-- Groups of two texts, and a weighted axis. -/
example : exWalk exH [[exRow "b" (1/2) (some 2), exRow "a" 1 (some 3)], [exRow "b" 7 (some 5)]] {error := false} =
    .ok [([.key (.str "a"), .bin (.iv .ninf (.fin 0) true false)], [some 0]), ([.key (.str "a"), .bin (.iv (.fin 0) (.fin 1) true false)], [some 0]),
      ([.key (.str "a"), .bin (.iv (.fin 1) (.fin 2) true false)], [some 3]), ([.key (.str "a"), .bin (.iv (.fin 2) .pinf true true)], [some 0]),
      ([.key (.str "a"), .bin .nan], [some 0]),
      ([.key (.str "b"), .bin (.iv .ninf (.fin 0) true false)], [some 0]), ([.key (.str "b"), .bin (.iv (.fin 0) (.fin 1) true false)], [some 2]),
      ([.key (.str "b"), .bin (.iv (.fin 1) (.fin 2) true false)], [some 0]), ([.key (.str "b"), .bin (.iv (.fin 2) .pinf true true)], [some 5]),
      ([.key (.str "b"), .bin .nan], [some 0])] := by decide +kernel

/-- Infinite values of `split` axes are in the bins that say so (unlike the rows of data frames, C72). -/
example : exWalk exRootSplit exPandasInf {error := false} =
    .ok [([.bin (.iv .ninf (.fin 0) true false)], [some 0]), ([.bin (.iv (.fin 0) (.fin 1) true false)], [some 0]),
      ([.bin (.iv (.fin 1) (.fin 10) true false)], [some 0]), ([.bin (.iv (.fin 10) .pinf true true)], [some 1]), ([.bin .nan], [some 0])] ∧
    allFit [.bin (.iv (.fin 10) .pinf true true)] [] [.num .pinf] = true := by decide +kernel

example : exWalk exPandasBin [[⟨[.num (.fin 3)], [], [], none⟩, ⟨[.num (.fin (3/2))], [], [], none⟩]] {error := false} =
    .ok [([.bin (.iv (.fin 1) (.fin 2) true false)], [some 1]), ([.bin (.iv (.fin 3) (.fin 4) true false)], [some 1])] := by decide +kernel

/-- The hypotheses are met. -/
example : ∃ st t w, exH.fillAll none [[exRow "b" (1/2) (some 2), exRow "a" 1 (some 3)]] = .ok st ∧ exH.table {} st = .ok t ∧
    walkTable exH.fixed exH.groups t = .ok w ∧ ∃! i : ℕ, ∃ x, w[i]? = some x ∧ allFit x.1 [.key (.str "b")] [.num (.fin (1/2))] = true := by
  have hf : Fillable exH [[exRow "b" (1/2) (some 2), exRow "a" 1 (some 3)]] := by
    refine ⟨?_, Or.inl rfl⟩
    intro b hb r hr
    simp at hb
    subst hb
    simp at hr
    rcases hr with rfl | rfl <;> exact exRow_ok _ _ _ (by norm_num)
  obtain ⟨st, h1, _⟩ := Represents.ofFill exH _ hf
  have hrows : ∀ r ∈ [[exRow "b" (1/2) (some 2), exRow "a" 1 (some 3)]].flatten, r = exRow "b" (1/2) (some 2) ∨ r = exRow "a" 1 (some 3) := by
    intro r hr
    simpa using hr
  obtain ⟨t, w, a1, a2, _, a4⟩ := C129_table_partial exH _ hf st h1 {} rfl (by simp)
    ⟨fun a ha => by simp [exH] at ha; subst ha; decide +kernel, fun a ha => by simp [exH] at ha⟩
    (fun i => Or.inl fun r hr k hk => by
      rcases hrows r hr with rfl | rfl <;> rcases i with _ | _ | i <;> simp [exH, exRow, GroupAxis.key, GVal.toKey, Except.toOption] at hk <;>
        subst hk <;> rfl)
    (fun r hr => by
      rcases hrows r hr with rfl | rfl <;> exact List.Forall₂.cons (fun h => absurd rfl h) List.Forall₂.nil)
  refine ⟨st, t, w, h1, a1, a2, ?_⟩
  exact a4 (exRow "b" (1/2) (some 2)) (by simp) ⟨[.str "b"], [1], by decide +kernel⟩

example : (FixedAxis.cut).items ["no", "yes"] = .ok [(.bin (.bool false), "no"), (.bin (.bool true), "yes")] ∧
    (FixedAxis.cut).items ["no"] = .error .valueError := by decide +kernel

example : GroupAxis.groupby.items [(.num 2, "x"), (.num (1/2), "y")] = .ok [(.key (.num (1/2)), "y"), (.key (.num 2), "x")] ∧
    GroupAxis.groupby.items [(.num 2, "x"), (.str "a", "y")] = .error .typeError := by decide +kernel

def exItemsNan : List (List Row) := [[⟨[.num .nan], [], [], none⟩]]

/-- C129 fails for NaN on a `groupbin` axis even if nothing else is there: the items of an axis that counts NaN raise an exception. -/
theorem C129_refuted_nan : ¬ ∀ (H : HistDef) (bs : List (List Row)) (st : H.State) (o : TableOpts) (t : Content Table H.groups.length),
    Fillable H bs → H.fillAll none bs = .ok st → o.normalized = false → (∀ p ∈ o.profs, p < H.nprof) → H.AxesOk → OneKind H bs.flatten →
    H.table o st = .ok t → ∃ w, walkTable H.fixed H.groups t = .ok w := by
  intro hall
  have hF : Fillable exPandasBin exItemsNan := by
    refine ⟨?_, Or.inl rfl⟩
    intro b hb r hr
    simp only [exItemsNan, List.mem_singleton] at hb
    subst hb
    simp only [List.mem_singleton] at hr
    subst hr
    exact ⟨List.Forall₂.cons ⟨_, rfl⟩ List.Forall₂.nil, List.Forall₂.nil, rfl⟩
  obtain ⟨st, h1, _⟩ := Represents.ofFill exPandasBin _ hF
  obtain ⟨t, h2, _⟩ := C45_table exPandasBin _ hF st h1 {} rfl (by simp)
  have e : exWalk exPandasBin exItemsNan {} = .error .typeError := by decide +kernel
  unfold exWalk at e
  rw [h1] at e
  simp only [h2] at e
  obtain ⟨w, hw⟩ := hall exPandasBin exItemsNan st {} t hF h1 rfl (by simp)
    ⟨fun a ha => by simp [exPandasBin] at ha, fun a ha => by simp [exPandasBin] at ha; subst ha; norm_num⟩
    (fun i => Or.inl fun r hr k hk => by
      simp [exItemsNan] at hr
      subst hr
      rcases i with _ | i <;> simp [exPandasBin, GroupAxis.key, GVal.toNum, Except.toOption, GroupbinAxis.key, Num.mulFin, Num.floor] at hk
      subst hk
      rfl) h2
  exact absurd (e.symm.trans hw) (by simp)

def exItemsInf : List (List Row) := [[⟨[.num .pinf], [], [], none⟩]]

/-- C129 fails for infinite values on a `groupbin` axis: they are counted under the label `[inf, inf)`, which contains nothing. -/
theorem C129_refuted_infinite : exWalk exPandasBin exItemsInf {error := false} = .ok [([.bin (.iv .pinf .pinf true false)], [some 1])] ∧
    (∀ x, ¬ BinLabel.mem (.iv .pinf .pinf true false) x) ∧
    ¬ ∀ w, exWalk exPandasBin exItemsInf {error := false} = .ok w → ∀ x ∈ w,
      x.2 = tableSpec exPandasBin.wkind {error := false} (exItemsInf.flatten.filter fun r => allFit x.1 r.gvals r.fvals) := by
  have e : exWalk exPandasBin exItemsInf {error := false} = .ok [([.bin (.iv .pinf .pinf true false)], [some 1])] := by decide +kernel
  refine ⟨e, ?_, ?_⟩
  · intro x
    cases x <;> simp [BinLabel.mem, Num.le, Num.lt]
  · intro hall
    have h := hall _ e _ (List.mem_singleton.2 rfl)
    revert h
    decide +kernel

end Verif
