import Verif.PandasLemmas
import Verif.PropsArith
import Verif.PropsRoot

/-!
# C72: exported table rows carry the right labels
-/

namespace Verif

/-- A number is in a `pandas.Interval`. -/
def inInterval (lo hi : Num) (left : Bool) (x : Num) : Bool :=
  if left then Num.le lo x && Num.lt x hi else Num.lt lo x && Num.le x hi

/-- A value of a fixed axis is what the label says. -/
def PLabel.has (l : PLabel) (v : Val) : Bool :=
  match l, v with
  | .bool b, .bool b' => b == b'
  | .iv lo hi left, v => inInterval lo hi left v.toNum
  | .nan, v => decide (v.toNum = .nan)
  | .int i, v => decide (v.toNum = .fin i)
  | _, _ => false

/-- A value of a group axis is what the label says. -/
def PLabel.hasG (l : PLabel) (v : GVal) : Bool :=
  match l with
  | .key k => decide (v.toKey.toOption = some k)
  | .iv lo hi left => match v.toNum with
    | .ok x => inInterval lo hi left x
    | .error _ => false
  | .nan => decide (v.toNum.toOption = some .nan)
  | _ => false

/-- All values of a row are what its labels say. -/
def fitsAll : List PLabel → List GVal → List Val → Bool
  | l :: ls, g :: gs, vs => l.hasG g && fitsAll ls gs vs
  | l :: ls, [], v :: vs => l.has v && fitsAll ls [] vs
  | [], [], [] => true
  | _, _, _ => false

/-- The number is not infinite. -/
def Num.bounded : Num → Prop
  | .pinf | .ninf => False
  | _ => True

/-- No infinite values, except as keys of `groupby` axes. -/
structure Row.Bounded (H : HistDef) (r : Row) : Prop where
  groups : List.Forall₂ (fun g v => g ≠ .groupby → ∀ x, GVal.toNum v = .ok x → x.bounded) H.groups r.gvals
  fixed : ∀ v ∈ r.fvals, v.toNum.bounded

/-- On each group axis all keys are texts, or all are numbers. -/
def OneKind (H : HistDef) (rows : List Row) : Prop :=
  ∀ i, (∀ r ∈ rows, ∀ k, (List.zipWith GroupAxis.key H.groups r.gvals).getD i none = some k → k.isStr = true) ∨
    ∀ r ∈ rows, ∀ k, (List.zipWith GroupAxis.key H.groups r.gvals).getD i none = some k → k.isStr = false

/-- The axes are as their constructors leave them (C06 and axis.py 352-359). -/
structure HistDef.AxesOk (H : HistDef) : Prop where
  fixed : ∀ a ∈ H.fixed, a.keys.length = a.totbins
  groups : ∀ a, GroupAxis.groupbin a ∈ H.groups → 0 < a.binwidth

/-! ## helpers -/

theorem plabel_has_iv (c : Bool) (lo hi : Num) (v : Val) (hv : v.toNum.bounded) (l : BinLabel)
    (hl : l = .iv .ninf hi true (!c) ∧ lo = .ninf ∧ hi ≠ .pinf ∨ l = .iv lo hi c (!c) ∧ hi ≠ .pinf ∨ l = .iv lo .pinf c true ∧ hi = .pinf) :
    (PLabel.iv lo hi c).has v = v.In l := by
  rcases hl with ⟨rfl, rfl, hh⟩ | ⟨rfl, hh⟩ | ⟨rfl, rfl⟩
  · show inInterval _ _ _ _ = decide (BinLabel.mem _ _)
    cases hx : v.toNum <;> rw [hx] at hv <;> cases hi <;> cases c <;> simp_all [inInterval, BinLabel.mem, Num.le, Num.lt, Num.bounded]
  · show inInterval _ _ _ _ = decide (BinLabel.mem _ _)
    cases c <;> simp [inInterval, BinLabel.mem, Bool.decide_and]
  · show inInterval _ _ _ _ = decide (BinLabel.mem _ _)
    cases hx : v.toNum <;> rw [hx] at hv <;> cases lo <;> cases c <;> simp_all [inInterval, BinLabel.mem, Num.le, Num.lt, Num.bounded]

theorem plabel_has : ∀ (a : FixedAxis) (l : BinLabel), l ∈ a.keys → ∀ v : Val, v.toNum.bounded → l.plabel.has v = v.In l := by
  have hnan : ∀ v : Val, (BinLabel.nan).plabel.has v = v.In .nan := fun v => by cases v <;> rfl
  have hint : ∀ (i : ℤ) (v : Val), (BinLabel.int i).plabel.has v = v.In (.int i) := fun i v => by cases v <;> rfl
  have hu : ∀ (c : Bool) (q : ℚ) (v : Val), v.toNum.bounded → (BinLabel.iv .ninf (.fin q) true (!c)).plabel.has v = v.In (.iv .ninf (.fin q) true (!c)) := by
    intro c q v hv
    simp only [BinLabel.plabel, reduceCtorEq, if_false, Bool.not_not]
    exact plabel_has_iv c _ _ v hv _ (Or.inl ⟨rfl, rfl, by simp⟩)
  have hm : ∀ (c : Bool) (p q : ℚ) (v : Val), v.toNum.bounded → (BinLabel.iv (.fin p) (.fin q) c (!c)).plabel.has v = v.In (.iv (.fin p) (.fin q) c (!c)) := by
    intro c p q v hv
    simp only [BinLabel.plabel, reduceCtorEq, if_false, Bool.not_not]
    exact plabel_has_iv c _ _ v hv _ (Or.inr (Or.inl ⟨rfl, by simp⟩))
  have ho : ∀ (c : Bool) (p : ℚ) (v : Val), v.toNum.bounded → (BinLabel.iv (.fin p) .pinf c true).plabel.has v = v.In (.iv (.fin p) .pinf c true) := by
    intro c p v hv
    simp only [BinLabel.plabel, if_true]
    exact plabel_has_iv c _ _ v hv _ (Or.inr (Or.inr ⟨rfl, rfl⟩))
  intro a l hl v hv
  cases a with
  | bin a =>
    simp only [FixedAxis.keys, BinAxis.keys, List.mem_append, List.mem_map] at hl
    rcases hl with ((hl | ⟨i, _, rfl⟩) | hl) | hl
    · split at hl <;> simp at hl; subst hl; exact hu _ _ v hv
    · exact hm _ _ _ v hv
    · split at hl <;> simp at hl; subst hl; exact ho _ _ v hv
    · split at hl <;> simp at hl; subst hl; exact hnan v
  | split a =>
    simp only [FixedAxis.keys, SplitAxis.keys, List.mem_append, List.mem_map] at hl
    rcases hl with ((hl | ⟨i, _, rfl⟩) | hl) | hl
    · split at hl <;> simp at hl; subst hl; exact hu _ _ v hv
    · exact hm _ _ _ v hv
    · split at hl <;> simp at hl; subst hl; exact ho _ _ v hv
    · split at hl <;> simp at hl; subst hl; exact hnan v
  | intbin a =>
    simp only [FixedAxis.keys, IntbinAxis.keys, List.mem_append, List.mem_map] at hl
    rcases hl with (hl | ⟨i, _, rfl⟩) | hl
    · split at hl <;> simp at hl; subst hl; exact hu true _ v hv
    · exact hint _ v
    · split at hl <;> simp at hl; subst hl; exact ho false _ v hv
  | cut =>
    simp only [FixedAxis.keys, List.mem_cons, List.not_mem_nil, or_false] at hl
    rcases hl with rfl | rfl <;> cases v <;> rfl

/-- The labels of fixed axes say what the published bins say. -/
theorem fits_fixed : ∀ (fs : List FixedAxis) (vs : List Val) (idx : List ℕ), InRange idx (fs.map FixedAxis.totbins) →
    (∀ a ∈ fs, a.keys.length = a.totbins) → fs.length = vs.length → (∀ v ∈ vs, v.toNum.bounded) →
    fitsAll (labelsAt fs idx) [] vs = inBins' fs vs idx
  | [], [], _, h, _, _, _ => by cases h; rfl
  | a :: fs, v :: vs, _, h, hk, hl, hv => by
    cases h with
    | cons hi h =>
      rename_i i idx
      have hlt : i < a.keys.length := by rw [hk a (by simp)]; exact hi
      have e : a.plabels.getD i .nan = (a.keys[i]).plabel := by
        rw [plabels_keys]
        simp [hlt]
      show ((a.plabels.getD i .nan).has v && fitsAll (labelsAt fs idx) [] vs) = (a.holds i v && inBins' fs vs idx)
      rw [e, plabel_has a _ (List.getElem_mem hlt) v (hv v (by simp)),
        fits_fixed fs vs idx h (fun b hb => hk b (by simp [hb])) (by simpa using hl) (fun w hw => hv w (by simp [hw]))]
      unfold FixedAxis.holds
      rw [List.getElem?_eq_getElem hlt]

/-- The labels of group axes say what the keys say, for keys that were made from bounded values. -/
theorem fits_key (g : GroupAxis) (hw : ∀ a, g = .groupbin a → 0 < a.binwidth) (v0 v : GVal) (k : Key) (h0 : g.key v0 = some k)
    (hb0 : g ≠ .groupby → ∀ x, v0.toNum = .ok x → x.bounded) (hb : g ≠ .groupby → ∀ x, v.toNum = .ok x → x.bounded) :
    (g.plabel k).hasG v = decide (g.key v = some k) := by
  cases g with
  | groupby => rfl
  | groupbin a =>
    have ha : GroupbinAxis.init a.binwidth a.origin a.nanflow a.closedlow = .ok a := by
      unfold GroupbinAxis.init
      rw [if_neg (not_le.2 (hw a rfl))]
    have hb0 := hb0 (by simp)
    have hb := hb (by simp)
    obtain ⟨sp, _, _⟩ := C05_groupbin_special _ _ _ _ a ha
    simp only [GroupAxis.key] at h0
    rw [Bool.eq_iff_iff, decide_eq_true_iff]
    simp only [GroupAxis.key]
    cases h1 : v0.toNum with
    | error e => rw [h1] at h0; cases h0
    | ok x0 =>
      rw [h1] at h0
      have hx0 := hb0 x0 h1
      have h0 : a.key x0 = some k := h0
      have hkv : ∀ q, ∃ y, a.key (.fin q) = some (.num y) := by
        intro q
        obtain ⟨z, _, hz, _⟩ := C05_groupbin_interval_contains _ _ _ _ a ha q
        exact ⟨_, hz⟩
      cases x0 with
      | pinf => exact absurd hx0 (by simp [Num.bounded])
      | ninf => exact absurd hx0 (by simp [Num.bounded])
      | nan =>
        rw [sp] at h0
        split at h0
        · rename_i hn
          cases h0
          cases h2 : v.toNum with
          | error e => simp [GroupAxis.plabel, PLabel.hasG, h2, Except.toOption]
          | ok x =>
            have hx := hb x h2
            cases x with
            | pinf => exact absurd hx (by simp [Num.bounded])
            | ninf => exact absurd hx (by simp [Num.bounded])
            | nan =>
              simp [GroupAxis.plabel, PLabel.hasG, h2, Except.toOption, sp, hn]
            | fin q =>
              obtain ⟨y, hy⟩ := hkv q
              simp [GroupAxis.plabel, PLabel.hasG, h2, Except.toOption, hy]
        · cases h0
      | fin q0 =>
        obtain ⟨y, hy⟩ := hkv q0
        rw [hy] at h0
        cases h0
        cases h2 : v.toNum with
        | error e => simp [GroupAxis.plabel, PLabel.hasG, h2, Except.toOption]
        | ok x =>
          have hx := hb x h2
          cases x with
          | pinf => exact absurd hx (by simp [Num.bounded])
          | ninf => exact absurd hx (by simp [Num.bounded])
          | nan =>
            simp only [GroupAxis.plabel, PLabel.hasG, h2, Except.toOption, Option.bind_some, sp]
            cases a.closedlow <;> cases a.nanflow <;> simp [inInterval, Num.le, Num.lt]
          | fin q =>
            have hs := C05_groupbin_same_key_iff _ _ _ _ a ha q0 q y _ hy rfl
            rw [hy] at hs
            simp only [GroupAxis.plabel, PLabel.hasG, h2, Except.toOption, Option.bind_some]
            rw [hs]
            cases a.closedlow <;> simp [inInterval, BinLabel.mem, Bool.decide_and]

theorem fits_groups : ∀ (gs : List GroupAxis) (vs : List GVal) (gk : List Key) (L : List PLabel) (fv : List Val),
    gk.length = gs.length → vs.length = gs.length →
    (∀ (i : ℕ) (g : GroupAxis) (v : GVal) (k : Key), gs[i]? = some g → vs[i]? = some v → gk[i]? = some k → (g.plabel k).hasG v = decide (g.key v = some k)) →
    fitsAll (List.zipWith GroupAxis.plabel gs gk ++ L) vs fv = (inGroup gs vs gk && fitsAll L [] fv)
  | [], [], [], L, fv, _, _, _ => by simp [inGroup]
  | g :: gs, v :: vs, k :: gk, L, fv, h1, h2, h => by
    show ((g.plabel k).hasG v && fitsAll (List.zipWith GroupAxis.plabel gs gk ++ L) vs fv) = (decide (g.key v = some k) && inGroup gs vs gk && _)
    rw [h 0 g v k rfl rfl rfl, fits_groups gs vs gk L fv (by simpa using h1) (by simpa using h2)
      (fun i g v k a b c => h (i + 1) g v k (by simpa using a) (by simpa using b) (by simpa using c)), Bool.and_assoc]

theorem forall₂_get {α β : Type} {R : α → β → Prop} {l : List α} {m : List β} (h : List.Forall₂ R l m) : ∀ (i : ℕ) {a : α} {b : β},
    l[i]? = some a → m[i]? = some b → R a b := by
  induction h with
  | nil => intro i a b h1 _; simp at h1
  | cons h _ ih =>
    intro i a b h1 h2
    cases i with
    | zero => cases h1; cases h2; exact h
    | succ i => exact ih i h1 h2

/-! ## C72 -/

/-- C72 for tables, where no value is infinite and the keys of each group axis can be compared.  There are as many rows as labels; the
row with a combination of labels has the numbers (see C45) of exactly the data whose values are what the labels say, one label for
each axis; and every entry that is in some group and some bin is described by exactly one of them.  Missing: infinite values
(`C72_refuted_infinite`), keys that cannot be sorted (`C72_refuted_sorted`), fractions (`C72_refuted_fraction`) and normalized tables. -/
theorem C72_table_partial (H : HistDef) (bs : List (List Row)) (hf : Fillable H bs) (st : H.State) (hst : H.fillAll none bs = .ok st)
    (o : TableOpts) (ho : o.normalized = false) (hp : ∀ p ∈ o.profs, p < H.nprof) (hcols : o.count = true ∨ o.effcount = true ∨ o.profs ≠ [])
    (hne : H.groups ≠ [] ∨ H.fixed ≠ []) (hax : H.AxesOk) (hkind : OneKind H bs.flatten) (hbd : ∀ r ∈ bs.flatten, r.Bounded H) :
    ∃ F : PFrame, H.pandas o st = .ok F ∧ (F.rows.getD []).length = F.labels.length ∧
      (∀ (i : ℕ) (L : List PLabel) (cols : List (Option ℚ)), F.labels[i]? = some L → (F.rows.getD [])[i]? = some cols →
        L.length = H.groups.length + H.fixed.length ∧
        cols = tableSpec H.wkind o (bs.flatten.filter fun r => fitsAll L r.gvals r.fvals)) ∧
      ∀ r ∈ bs.flatten, (∃ gk idx, r.lands H gk idx = true) →
        ∃! i : ℕ, ∃ L, F.labels[i]? = some L ∧ fitsAll L r.gvals r.fvals = true := by
  have hcol : o.columns = true := by
    simp only [TableOpts.columns, Bool.or_eq_true, Bool.not_eq_true', List.isEmpty_eq_false_iff]
    tauto
  obtain ⟨t, ht, htab⟩ := C45_table H bs hf st hst o ho hp
  obtain ⟨st0, e0, hrep⟩ := Represents.ofFill H bs hf
  rw [hst] at e0
  cases e0
  obtain ⟨st0, e0, hseen⟩ := C20_groups_exactly H bs hf
  rw [hst] at e0
  cases e0
  obtain ⟨p1, p2, p3⟩ := prefill_facts H st hrep.good
  have hdist : Distinct H.groups.length (prefill H.layout st) := by
    cases st with
    | none => exact distinct_empty _ _
    | some c => exact hrep.distinct
  -- keys come from rows
  have hfrom : ∀ (gk : List Key) (i : ℕ) (k : Key), HasGroup H.groups.length (prefill H.layout st) gk → gk[i]? = some k →
      ∃ r ∈ bs.flatten, (List.zipWith GroupAxis.key H.groups r.gvals).getD i none = some k := by
    intro gk i k hg hk
    rcases (p3 gk).1 hg with hh | rfl
    · have hl : gk.length ≤ H.groups.length := by
        cases st with
        | none => exact absurd hh (by simp [HistDef.has])
        | some c => exact hasGroup_length _ _ _ hh
      obtain ⟨b, hb, hr⟩ := (hseen gk hl).1 hh
      obtain ⟨r, hr, e⟩ := hr i k hk
      exact ⟨r, List.mem_flatten.2 ⟨b, hb, hr⟩, e⟩
    · simp at hk
  -- the labels say what the groups and bins say
  have hfits : ∀ gk idx, gk.length = H.groups.length → HasGroup H.groups.length (prefill H.layout st) gk → H.Cell idx →
      ∀ r ∈ bs.flatten, fitsAll (List.zipWith GroupAxis.plabel H.groups gk ++ labelsAt H.fixed idx) r.gvals r.fvals = r.lands H gk idx := by
    intro gk idx hl hg hc r hr
    have hrs := hrep.sound r hr
    have hrb := hbd r hr
    rw [fits_groups H.groups r.gvals gk _ _ hl hrs.groups, fits_fixed H.fixed r.fvals idx hc hax.fixed hrs.fixed.length_eq hrb.fixed]
    · rfl
    · intro i g v k e1 e2 e3
      obtain ⟨r0, hr0, e⟩ := hfrom gk i k hg e3
      have hr0b := hbd r0 hr0
      have hi : i < r0.gvals.length := by
        rw [(hrep.sound r0 hr0).groups]
        exact (List.getElem?_eq_some_iff.1 e1).1
      have e4 : r0.gvals[i]? = some r0.gvals[i] := List.getElem?_eq_getElem hi
      have e5 : g.key r0.gvals[i] = some k := by
        have := e
        simp only [List.getD_eq_getElem?_getD, List.getElem?_zipWith, e1, e4] at this
        simpa using this
      have hget : ∀ (r : Row), r.Bounded H → ∀ v, r.gvals[i]? = some v → g ≠ .groupby → ∀ x, GVal.toNum v = .ok x → x.bounded := by
        intro r hb v hv
        exact forall₂_get hb.groups i e1 hv
      refine fits_key g (fun a ha => hax.groups a (ha ▸ List.mem_of_getElem? e1)) r0.gvals[i] v k e5 (hget r0 hr0b _ e4) (hget r hrb _ e2)
  -- the table
  have hany : o.profs.any (fun p => decide (H.nprof ≤ p)) = false := by
    rw [List.any_eq_false]
    intro p hpm
    have := hp p hpm
    simp; omega
  have ht' : H.table o st = .ok (handle (handlearray H.layout o (fun _ => none)) H.groups.length (prefill H.layout st)) := by
    unfold HistDef.table HistDef.tableWith
    rw [hany, ho]
    rfl
  have hte : t = handle (handlearray H.layout o (fun _ => none)) H.groups.length (prefill H.layout st) := by
    rw [ht'] at ht
    cases ht
    rfl
  have hgood : TGood H.groups.length t := by
    rw [hte]
    refine handle_good _ _ _ hdist fun i => ?_
    refine (hkind i).imp (fun h gk k hg hk => ?_) (fun h gk k hg hk => ?_)
    · obtain ⟨r, hr, e⟩ := hfrom gk i k hg hk
      exact h r hr k e
    · obtain ⟨r, hr, e⟩ := hfrom gk i k hg hk
      exact h r hr k e
  have hpl : ∀ a ∈ H.fixed, a.plabels.length = a.totbins := by
    intro a ha
    rw [plabels_keys, List.length_map]
    exact hax.fixed a ha
  -- the cells in the order of the export
  let cells : List ((List Key × Table) × List ℕ) := (gcells H.groups.length t).flatMap fun c =>
    (tableCells (H.fixed.map FixedAxis.totbins)).map fun idx => (c, idx)
  let lab : (List Key × Table) × List ℕ → List PLabel := fun x => List.zipWith GroupAxis.plabel H.groups x.1.1 ++ labelsAt H.fixed x.2
  let val : (List Key × Table) × List ℕ → List (Option ℚ) := fun x => x.1.2 x.2
  have hix : indexGroups H.fixed H.fixed.length H.groups t [] = .ok (cells.map lab, cells.map val) := by
    rw [indexGroups_ok H.fixed H.groups t [] hgood]
    simp only [cells, List.map_flatMap, List.map_map]
    congr 2
    refine List.flatMap_congr fun c _ => ?_
    rw [List.nil_append, indexFixed_cells H.fixed _ hpl]
    rfl
  have hmem : ∀ x ∈ cells, x.1.1.length = H.groups.length ∧ tlookup H.groups.length t x.1.1 = some x.1.2 ∧ H.Cell x.2 := by
    intro x hx
    simp only [cells, List.mem_flatMap, List.mem_map] at hx
    obtain ⟨c, hc, idx, hidx, rfl⟩ := hx
    obtain ⟨h1, h2⟩ := (mem_gcells _ _ c.1 c.2).1 hc
    rw [tableCells_eq] at hidx
    exact ⟨h1, h2, (mem_allCells _ _).1 hidx⟩
  have hhas : ∀ gk tab, gk.length = H.groups.length → tlookup H.groups.length t gk = some tab →
      HasGroup H.groups.length (prefill H.layout st) gk := by
    intro gk tab hl h
    by_contra hc
    rw [hte, handle_lookup_none _ _ _ gk hl hc] at h
    cases h
  have hval : ∀ x ∈ cells, val x = tableSpec H.wkind o (bs.flatten.filter fun r => fitsAll (lab x) r.gvals r.fvals) := by
    intro x hx
    obtain ⟨h1, h2, h3⟩ := hmem x hx
    have hg := hhas _ _ h1 h2
    have hg' : H.has st x.1.1 ∨ H.groups = [] := by
      rcases (p3 _).1 hg with h | h
      · exact Or.inl h
      · rw [h] at h1
        exact Or.inr (List.length_eq_zero_iff.1 h1.symm)
    obtain ⟨tab, k1, k2⟩ := (htab x.1.1 h1).1 hg'
    rw [h2] at k1
    cases k1
    show x.1.2 x.2 = _
    rw [k2 x.2 h3]
    congr 1
    exact List.filter_congr fun r hr => (hfits _ _ h1 hg h3 r hr).symm
  have hnodup : cells.Nodup := by
    have hn := gcells_nodup _ _ hgood
    simp only [cells]
    rw [List.nodup_flatMap]
    constructor
    · intro c _
      rw [tableCells_eq]
      exact (nodup_allCells _).map fun a b h => (Prod.mk.inj h).2
    · refine List.Pairwise.imp ?_ (List.Nodup.of_map _ hn)
      intro c c' hne
      rw [Function.onFun, List.disjoint_left]
      intro x hx hx'
      obtain ⟨_, _, rfl⟩ := List.mem_map.1 hx
      obtain ⟨_, _, e⟩ := List.mem_map.1 hx'
      exact hne (Prod.mk.inj e).1.symm
  have hlablen : ∀ x ∈ cells, (lab x).length = H.groups.length + H.fixed.length := by
    intro x hx
    obtain ⟨h1, _, h3⟩ := hmem x hx
    have h3' : x.2.length = H.fixed.length := by
      have := List.Forall₂.length_eq h3
      simpa using this
    simp [lab, labelsAt, h1, h3']
  have hframe : ∃ F : PFrame, mkFrame (H.groups.length + H.fixed.length) (cells.map lab, cells.map val) = .ok F ∧
      F.labels = cells.map lab ∧ F.rows.getD [] = cells.map val := by
    unfold mkFrame
    rw [if_neg (by
      intro h0
      rcases hne with h | h
      · exact h (List.length_eq_zero_iff.1 (by omega))
      · exact h (List.length_eq_zero_iff.1 (by omega)))]
    by_cases hc : cells = []
    · simp [hc]
    · rw [if_neg (by simpa using hc), if_pos (by simp)]
      exact ⟨_, rfl, rfl, rfl⟩
  obtain ⟨F, hF, hFl, hFr⟩ := hframe
  refine ⟨F, ?_, ?_, ?_, ?_⟩
  · unfold HistDef.pandas
    rw [if_pos hcol, ht]
    simp only
    rw [hix]
    exact hF
  · rw [hFl, hFr]; simp
  · intro i L cols h1 h2
    rw [hFl, List.getElem?_map] at h1
    rw [hFr, List.getElem?_map] at h2
    obtain ⟨x, hx, rfl⟩ := Option.map_eq_some_iff.1 h1
    rw [hx] at h2
    cases h2
    have hm := List.mem_of_getElem? hx
    exact ⟨hlablen x hm, hval x hm⟩
  · rintro r hr ⟨gk, idx, hl⟩
    have hrs := hrep.sound r hr
    have hok : r.Ok H := by
      obtain ⟨b, hb, hrb⟩ := List.mem_flatten.1 hr
      exact hf.ok b hb r hrb
    have hl' := hl
    unfold Row.lands at hl'
    rw [Bool.and_eq_true] at hl'
    have hgk := (inGroup_iff H.groups r.gvals gk hrs.groups.symm).1 hl'.1
    have hlen : gk.length = H.groups.length := by
      have := congrArg List.length hgk
      simp [hrs.groups] at this
      omega
    have hcell : H.Cell idx := inBins'_range H r hok idx hl'.2
    obtain ⟨tab, k1, _⟩ := (htab gk hlen).1 (Or.inl (hrep.groups r hr gk hl'.1))
    have hx : ((gk, tab), idx) ∈ cells := by
      simp only [cells, List.mem_flatMap, List.mem_map]
      refine ⟨(gk, tab), (mem_gcells _ _ _ _).2 ⟨hlen, k1⟩, idx, ?_, rfl⟩
      rw [tableCells_eq]
      exact (mem_allCells _ _).2 hcell
    obtain ⟨i, hi, hxi⟩ := List.getElem_of_mem hx
    have hone : ∀ x ∈ cells, fitsAll (lab x) r.gvals r.fvals = true → x = ((gk, tab), idx) := by
      intro x hxm hfit
      obtain ⟨h1, h2, h3⟩ := hmem x hxm
      have := hfits _ _ h1 (hhas _ _ h1 h2) h3 r hr
      rw [show fitsAll (List.zipWith GroupAxis.plabel H.groups x.1.1 ++ labelsAt H.fixed x.2) r.gvals r.fvals = true from hfit] at this
      have hl2 := this.symm
      unfold Row.lands at hl2
      rw [Bool.and_eq_true] at hl2
      have g1 := (inGroup_iff H.groups r.gvals x.1.1 hrs.groups.symm).1 hl2.1
      have g2 := (inBins'_iff H.fixed r.fvals hok.fixed x.2).1 hl2.2
      have g3 := (inBins'_iff H.fixed r.fvals hok.fixed idx).1 hl'.2
      have a1 : x.1.1 = gk := List.map_injective_iff.2 (Option.some_injective _) (g1.symm.trans hgk)
      have a2 : x.2 = idx := List.map_injective_iff.2 (fun a b h => by simpa using h) (g2.symm.trans g3)
      rw [a1, k1] at h2
      obtain ⟨⟨y1, y2⟩, y3⟩ := x
      simp only at a1 a2 h2
      subst a1 a2
      cases h2
      rfl
    refine ⟨i, ⟨lab ((gk, tab), idx), ?_, ?_⟩, ?_⟩
    · rw [hFl, List.getElem?_map, List.getElem?_eq_getElem hi, hxi]
      rfl
    · show fitsAll (List.zipWith GroupAxis.plabel H.groups gk ++ labelsAt H.fixed idx) r.gvals r.fvals = true
      rw [hfits gk idx hlen (hhas gk tab hlen k1) hcell r hr]
      exact hl
    · rintro j ⟨L, h1, h2⟩
      rw [hFl, List.getElem?_map] at h1
      obtain ⟨x, hxj, rfl⟩ := Option.map_eq_some_iff.1 h1
      obtain ⟨hj, hxj'⟩ := List.getElem?_eq_some_iff.1 hxj
      have := hone x (List.mem_of_getElem? hxj) h2
      rw [this] at hxj'
      exact (List.Nodup.getElem_inj_iff hnodup).1 (hxj'.trans hxi.symm)

/-! ## examples and refutations -/

/-- The data frame of a histogram after filling. -/
def exPandas (H : HistDef) (bs : List (List Row)) (o : TableOpts) : Except Err PFrame :=
  match H.fillAll none bs with
  | .error (e, _) => .error e
  | .ok st => H.pandas o st

/-- Groups of two texts, and a weighted axis; the columns are the counts and their squared errors. -/
example : exPandas exH [[exRow "b" (1/2) (some 2), exRow "a" 1 (some 3)], [exRow "b" 7 (some 5)]] {} =
    .ok ⟨[[.key (.str "a"), .iv .ninf (.fin 0) true], [.key (.str "a"), .iv (.fin 0) (.fin 1) true],
        [.key (.str "a"), .iv (.fin 1) (.fin 2) true], [.key (.str "a"), .iv (.fin 2) .pinf true], [.key (.str "a"), .nan],
        [.key (.str "b"), .iv .ninf (.fin 0) true], [.key (.str "b"), .iv (.fin 0) (.fin 1) true],
        [.key (.str "b"), .iv (.fin 1) (.fin 2) true], [.key (.str "b"), .iv (.fin 2) .pinf true], [.key (.str "b"), .nan]],
      some [[some 0, some 0], [some 0, some 0], [some 3, some 9], [some 0, some 0], [some 0, some 0],
        [some 0, some 0], [some 2, some 4], [some 0, some 0], [some 5, some 25], [some 0, some 0]]⟩ := by decide +kernel

/-- The hypotheses are met. -/
example : ∃ st F, exH.fillAll none [[exRow "b" (1/2) (some 2), exRow "a" 1 (some 3)]] = .ok st ∧ exH.pandas {} st = .ok F ∧
    ∃! i : ℕ, ∃ L, F.labels[i]? = some L ∧ fitsAll L [.key (.str "b")] [.num (.fin (1/2))] = true := by
  have hf : Fillable exH [[exRow "b" (1/2) (some 2), exRow "a" 1 (some 3)]] := by
    refine ⟨?_, Or.inl rfl⟩
    intro b hb r hr
    simp at hb
    subst hb
    simp at hr
    rcases hr with rfl | rfl <;> exact exRow_ok _ _ _ (by norm_num)
  obtain ⟨st, h1, _⟩ := Represents.ofFill exH _ hf
  have hrows : ∀ r ∈ [[exRow "b" (1/2) (some 2), exRow "a" 1 (some 3)]].flatten, r = exRow "b" (1/2) (some 2) ∨ r = exRow "a" 1 (some 3) := by
    intro r hr
    simpa using hr
  obtain ⟨F, a1, _, _, a4⟩ := C72_table_partial exH _ hf st h1 {} rfl (by simp) (Or.inl rfl) (Or.inl (by simp [exH]))
    ⟨fun a ha => by simp [exH] at ha; subst ha; decide +kernel, fun a ha => by simp [exH] at ha⟩
    (fun i => Or.inl fun r hr k hk => by
      rcases hrows r hr with rfl | rfl <;> rcases i with _ | _ | i <;> simp [exH, exRow, GroupAxis.key, GVal.toKey, Except.toOption] at hk <;>
        subst hk <;> rfl)
    (fun r hr => by
      rcases hrows r hr with rfl | rfl <;>
        exact ⟨List.Forall₂.cons (fun h => absurd rfl h) List.Forall₂.nil, by simp [exRow, Val.toNum, Num.bounded]⟩)
  refine ⟨st, F, h1, a1, ?_⟩
  exact a4 (exRow "b" (1/2) (some 2)) (by simp) ⟨[.str "b"], [1], by decide +kernel⟩

def exPandasInf : List (List Row) := [[⟨[], [.num .pinf], [], some 1⟩]]

/-- C72 fails for infinite values: they are counted in the row with the label `[10, inf)`, and are not in this interval. -/
theorem C72_refuted_infinite : ¬ ∀ (H : HistDef) (bs : List (List Row)) (st : H.State) (o : TableOpts) (F : PFrame), Fillable H bs →
    H.fillAll none bs = .ok st → o.normalized = false → (∀ p ∈ o.profs, p < H.nprof) → H.AxesOk → OneKind H bs.flatten → H.pandas o st = .ok F →
    ∀ (i : ℕ) (L : List PLabel) (cols : List (Option ℚ)), F.labels[i]? = some L → (F.rows.getD [])[i]? = some cols →
      cols = tableSpec H.wkind o (bs.flatten.filter fun r => fitsAll L r.gvals r.fvals) := by
  intro hall
  have hF : Fillable exRootSplit exPandasInf := by
    refine ⟨?_, Or.inl rfl⟩
    intro b hb r hr
    simp only [exPandasInf, List.mem_singleton] at hb
    subst hb
    simp only [List.mem_singleton] at hr
    subst hr
    refine ⟨List.Forall₂.nil, List.Forall₂.cons ?_ List.Forall₂.nil, rfl⟩
    exact handles_split [0, 1, 10] true true true true _ (by decide +kernel) _
  obtain ⟨st, h1, _⟩ := Represents.ofFill exRootSplit _ hF
  have e : exPandas exRootSplit exPandasInf {error := false} =
      .ok ⟨[[.iv .ninf (.fin 0) true], [.iv (.fin 0) (.fin 1) true], [.iv (.fin 1) (.fin 10) true], [.iv (.fin 10) .pinf true], [.nan]],
        some [[some 0], [some 0], [some 0], [some 1], [some 0]]⟩ := by decide +kernel
  unfold exPandas at e
  rw [h1] at e
  have h := hall exRootSplit exPandasInf st {error := false} _ hF h1 rfl (by simp)
    ⟨fun a ha => by simp [exRootSplit] at ha; subst ha; decide +kernel, fun a ha => by simp [exRootSplit] at ha⟩
    (fun i => Or.inl fun r hr k hk => by simp [exRootSplit] at hk) e 3 _ _ rfl rfl
  revert h
  decide +kernel

/-- Groups of width 1, with NaN. -/
def exPandasBin : HistDef := ⟨[.groupbin ⟨1, 0, true, true⟩], [], 0, .none⟩

def exPandasNan : List (List Row) := [[⟨[.num (.fin 3)], [], [], none⟩, ⟨[.num .nan], [], [], none⟩]]

example : exPandas exPandasBin [[⟨[.num (.fin 3)], [], [], none⟩, ⟨[.num (.fin (3/2))], [], [], none⟩]] {error := false} =
    .ok ⟨[[.iv (.fin 1) (.fin 2) true], [.iv (.fin 3) (.fin 4) true]], some [[some 1], [some 1]]⟩ := by decide +kernel

/-- C72 fails if there are numbers and NaN on a `groupbin` axis: the key of NaN is a text, so that the keys cannot be sorted. -/
theorem C72_refuted_sorted : ¬ ∀ (H : HistDef) (bs : List (List Row)) (st : H.State) (o : TableOpts), Fillable H bs →
    H.fillAll none bs = .ok st → o.normalized = false → (∀ p ∈ o.profs, p < H.nprof) → o.columns = true → (H.groups ≠ [] ∨ H.fixed ≠ []) → H.AxesOk →
    (∀ r ∈ bs.flatten, r.Bounded H) → ∃ F, H.pandas o st = .ok F := by
  intro hall
  have hF : Fillable exPandasBin exPandasNan := by
    refine ⟨?_, Or.inl rfl⟩
    intro b hb r hr
    simp only [exPandasNan, List.mem_singleton] at hb
    subst hb
    simp only [List.mem_cons, List.not_mem_nil, or_false] at hr
    rcases hr with rfl | rfl <;> exact ⟨List.Forall₂.cons ⟨_, rfl⟩ List.Forall₂.nil, List.Forall₂.nil, rfl⟩
  obtain ⟨st, h1, _⟩ := Represents.ofFill exPandasBin _ hF
  have e : exPandas exPandasBin exPandasNan {} = .error .typeError := by decide +kernel
  unfold exPandas at e
  rw [h1] at e
  obtain ⟨F, hFr⟩ := hall exPandasBin exPandasNan st {} hF h1 rfl (by simp) rfl (Or.inl (by simp [exPandasBin]))
    ⟨fun a ha => by simp [exPandasBin] at ha, fun a ha => by simp [exPandasBin] at ha; subst ha; norm_num⟩
    (fun r hr => by
      simp [exPandasNan] at hr
      rcases hr with rfl | rfl <;>
        exact ⟨List.Forall₂.cons (fun _ x hx => by cases hx; trivial) List.Forall₂.nil, by simp⟩)
  exact absurd (e.symm.trans hFr) (by simp)

/-- The data frame of fractions after filling. -/
def exPandasFr (H : HistDef) (bs : List (List Row)) (cuts : List ℕ) : Except Err PFrame :=
  match H.fillAll none bs with
  | .error (e, _) => .error e
  | .ok st => H.pandasFraction false false [] cuts st

/-- Groups, a cut and a profile. -/
def exPandasCut : HistDef := ⟨[.groupby], [.cut], 1, .none⟩

/-- Groups, two cuts and a profile. -/
def exPandasCut2 : HistDef := ⟨[.groupby], [.cut, .cut], 1, .none⟩

def exPandasRows : List (List Row) := [[⟨[.key (.str "a")], [.bool true], [5], none⟩, ⟨[.key (.str "a")], [.bool false], [6], none⟩]]

/-- With another axis the fractions are there: of three entries for which the second holds, two pass the first. -/
example : exPandasFr exPandasCut2 [[⟨[.key (.str "a")], [.bool true, .bool true], [5], none⟩, ⟨[.key (.str "a")], [.bool false, .bool true], [6], none⟩,
      ⟨[.key (.str "a")], [.bool true, .bool true], [5], none⟩]] [0] =
    .ok ⟨[[.key (.str "a"), .bool false], [.key (.str "a"), .bool true]], some [[some 0], [some (2/3)]]⟩ := by decide +kernel

/-- C72 fails for fractions if no axis besides the cuts and the groups is left: there are rows with labels but no numbers. -/
theorem C72_refuted_fraction : ¬ ∀ (H : HistDef) (bs : List (List Row)) (st : H.State) (cuts : List ℕ) (F : PFrame), Fillable H bs →
    H.fillAll none bs = .ok st → H.pandasFraction false false [] cuts st = .ok F → (F.rows.getD []).length = F.labels.length := by
  intro hall
  have hF : Fillable exPandasCut exPandasRows := by
    refine ⟨?_, Or.inr ?_⟩
    · intro b hb r hr
      simp only [exPandasRows, List.mem_singleton] at hb
      subst hb
      simp only [List.mem_cons, List.not_mem_nil, or_false] at hr
      rcases hr with rfl | rfl <;>
        exact ⟨List.Forall₂.cons ⟨_, rfl⟩ List.Forall₂.nil, List.Forall₂.cons (handles_cut _) List.Forall₂.nil, rfl⟩
    · intro b hb r hr h
      simp only [exPandasRows, List.mem_singleton] at hb
      subst hb
      simp only [List.mem_cons, List.not_mem_nil, or_false] at hr
      rcases hr with rfl | rfl
      · exact absurd (h [1]) (by decide +kernel)
      · exact absurd (h [0]) (by decide +kernel)
  obtain ⟨st, h1, _⟩ := Represents.ofFill exPandasCut _ hF
  have e : exPandasFr exPandasCut exPandasRows [0] = .ok ⟨[[.key (.str "a")]], none⟩ := by decide +kernel
  unfold exPandasFr at e
  rw [h1] at e
  have h := hall exPandasCut exPandasRows st [0] _ hF h1 e
  revert h
  decide +kernel

/-- **C72**, what is refused: a table without any column, and a histogram without axes. -/
theorem C72_refused (H : HistDef) (o : TableOpts) (st : H.State) :
    (o.count = false → o.effcount = false → o.profs = [] → H.pandas o st = .error .valueError) ∧
      (H.groups = [] → H.fixed = [] → ∀ F, H.pandas o st ≠ .ok F) := by
  refine ⟨fun h1 h2 h3 => by simp [HistDef.pandas, TableOpts.columns, h1, h2, h3], fun h1 h2 F h => ?_⟩
  unfold HistDef.pandas at h
  split at h
  · split at h
    · cases h
    · split at h
      · cases h
      · simp [mkFrame, h1, h2] at h
  · cases h

example : (⟨[], [.cut], 0, .none⟩ : HistDef).pandas {count := false} none = .error .valueError := rfl

end Verif
