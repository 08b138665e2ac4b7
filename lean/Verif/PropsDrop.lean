import Verif.PropsRebin

/-!
# Dropping profiles: property theorems C43

`drop` keeps the columns numbered like the *positions* of the kept profiles, but a profile has two
columns; and it keeps the sum of squared weights only if there is a `weight`, although a histogram with
only a `filter` has that column, too.
-/

namespace Verif

/-! ## helpers -/

/-- The row without the values of the dropped profiles. -/
def Row.dropXs (keep : List Bool) (r : Row) : Row := { r with xs := pick keep r.xs }

theorem keptPositions_nil {keep : List Bool} (h : keep.count true = 0) : keptPositions keep = [] := by
  unfold keptPositions
  rw [List.filter_eq_nil_iff]
  intro i _ hi
  rw [List.count_eq_zero] at h
  by_cases hk : i < keep.length
  · rw [List.getD_eq_getElem?_getD, List.getElem?_eq_getElem hk] at hi
    exact h (hi ▸ List.getElem_mem hk)
  · rw [List.getD_eq_getElem?_getD, List.getElem?_eq_none (by omega)] at hi
    cases hi

theorem keptPositions_length : ∀ keep : List Bool, (keptPositions keep).length = keep.count true := by
  intro keep
  induction keep with
  | nil => rfl
  | cons b bs ih =>
    unfold keptPositions at ih ⊢
    rw [List.length_cons, List.range_succ_eq_map, List.filter_cons]
    have : (List.filter (fun i => (b :: bs).getD i false) (List.map Nat.succ (List.range bs.length))).length =
        ((List.range bs.length).filter (fun i => bs.getD i false)).length := by
      rw [List.filter_map, List.length_map]
      rfl
    cases b
    · simp only [List.getD_cons_zero, Bool.false_eq_true, if_false]
      rw [this, ih]
      simp
    · simp only [List.getD_cons_zero, if_true, List.length_cons]
      rw [this, ih]
      simp

theorem pick_nil_of_count {α : Type} : ∀ (keep : List Bool) (l : List α), keep.count true = 0 → pick keep l = []
  | [], l, _ => by cases l <;> rfl
  | true :: _, _, h => by simp at h
  | false :: ks, [], _ => rfl
  | false :: ks, _ :: l, h => pick_nil_of_count ks l (by simpa using h)

/-- Some array of the content. -/
theorem shaped_leaf (L : Layout) : ∀ (n : ℕ) (c : Content Arr n) (f : Arr → Arr) (gk : List Key), gk.length = n → HasGroup n c gk →
    Shaped L n (mapLeaves f n c) → ∃ a : Arr, (∀ idx col, lookup n c gk idx col = a.get idx col) ∧ (∀ L', Shaped L' n c → Shaped L' 0 a) ∧ Shaped L 0 (f a)
  | 0, a, f, [], _, _, h => ⟨a, fun _ _ => rfl, fun _ h => h, h⟩
  | n + 1, d, f, k :: gk, hl, hg, h => by
    obtain ⟨c, hc, hg'⟩ := hg
    have h' : Shaped L n (mapLeaves f n c) := by
      refine h k _ ?_
      show dget (d.map (fun p => (p.1, mapLeaves f n p.2))) k = _
      rw [dget_map (fun _ c => mapLeaves f n c) d k, hc]
      rfl
    obtain ⟨a, h1, h2, h3⟩ := shaped_leaf L n c f gk (by simpa using hl) hg' h'
    refine ⟨a, fun idx col => ?_, fun L' hL' => h2 L' (hL' k c hc), h3⟩
    rw [← h1 idx col]
    show (match dget d k with | none => 0 | some c => lookup n c gk idx col) = _
    rw [hc]

/-- Dropping all profiles. -/
theorem Represents.dropAll {H : HistDef} {rows : List Row} {st : H.State} (h : Represents H rows st) (keep : List Bool)
    (hlen : keep.length = H.nprof) (hpos : 0 < H.nprof) (hkeep : keep.count true = 0) (hasWeight : Bool) (hw : hasWeight = true ↔ H.wkind ≠ .none) :
    H.dropState keep hasWeight st = .ok (st.map (mapLeaves (Arr.takeCols (dropColumns H.layout keep hasWeight)) H.groups.length)) ∧
    Represents (H.drop keep) (rows.map (Row.dropXs keep)) (st.map (mapLeaves (Arr.takeCols (dropColumns H.layout keep hasWeight)) H.groups.length)) := by
  have hall : keep.all id = false := by
    cases keep with
    | nil => simp at hlen; omega
    | cons b bs =>
      cases b
      · rfl
      · simp at hkeep
  have hd : H.dropState keep hasWeight st = .ok (st.map (mapLeaves (Arr.takeCols (dropColumns H.layout keep hasWeight)) H.groups.length)) := by
    unfold HistDef.dropState
    rw [hall]
    rfl
  set f := Arr.takeCols (dropColumns H.layout keep hasWeight) with hfdef
  have hidx : dropColumns H.layout keep hasWeight = [2 * H.nprof] ++ (if hasWeight then [2 * H.nprof + 1] else []) := by
    unfold dropColumns
    rw [keptPositions_nil hkeep]
    rfl
  have hcols : (dropColumns H.layout keep hasWeight).length = (H.drop keep).layout.ncols := by
    rw [hidx]
    show _ = 2 * keep.count true + (if H.wkind = .none then 1 else 2)
    rw [hkeep]
    cases hasWeight
    · have : H.wkind = .none := by by_contra hc; exact absurd (hw.2 hc) (by simp)
      simp [this]
    · have : H.wkind ≠ .none := hw.1 rfl
      simp [this]
  have hhas : ∀ gk, (H.drop keep).has (st.map (mapLeaves f H.groups.length)) gk ↔ H.has st gk := by
    intro gk
    cases st with
    | none => exact Iff.rfl
    | some c => exact mapLeaves_has f _ c gk
  have hrep : Represents (H.drop keep) (rows.map (Row.dropXs keep)) (st.map (mapLeaves f H.groups.length)) := by
    constructor
    · cases st with
      | none => trivial
      | some c =>
        refine mapLeaves_shaped H.layout (H.drop keep).layout f ?_ _ c h.good
        intro a ha
        exact ⟨ha.1, hcols⟩
    · cases st with
      | none => trivial
      | some c => exact mapLeaves_distinct f _ c h.distinct
    · intro r hr
      obtain ⟨r0, hr0, rfl⟩ := List.mem_map.1 hr
      have hs := h.sound r0 hr0
      exact ⟨hs.groups, hs.fixed⟩
    · intro r hr gk hgk
      obtain ⟨r0, hr0, rfl⟩ := List.mem_map.1 hr
      exact (hhas gk).2 (h.groups r0 hr0 gk hgk)
    · intro gk hgk idx hcell col
      have hbt : binTotal (H.drop keep) (rows.map (Row.dropXs keep)) gk idx col =
          match (dropColumns H.layout keep hasWeight)[col]? with
          | some k => binTotal H rows gk idx k
          | none => 0 := by
        unfold binTotal
        rw [List.filter_map, List.map_map]
        have hl : (Row.lands (H.drop keep) gk idx ∘ Row.dropXs keep) = Row.lands H gk idx := rfl
        rw [hl]
        have hadd : ∀ r : Row, (Row.dropXs keep r).adds (H.drop keep) col = match (dropColumns H.layout keep hasWeight)[col]? with
          | some k => r.adds H k
          | none => 0 := by
          intro r
          rw [hidx]
          have hn : (H.drop keep).nprof = 0 := hkeep
          have hwk : (H.drop keep).wkind = H.wkind := rfl
          have hwt : (Row.dropXs keep r).weight H.wkind = r.weight H.wkind := rfl
          unfold Row.adds
          rw [hn, hwk, hwt]
          match col with
          | 0 => simp
          | 1 =>
            cases hasWeight
            · have : H.wkind = .none := by by_contra hc; exact absurd (hw.2 hc) (by simp)
              simp [this]
            · have : H.wkind ≠ .none := hw.1 rfl
              simp [this]
          | c + 2 => cases hasWeight <;> simp
        cases hk : (dropColumns H.layout keep hasWeight)[col]? with
        | none =>
          rw [hk] at hadd
          refine List.sum_eq_zero ?_
          intro x hx
          obtain ⟨r, _, rfl⟩ := List.mem_map.1 hx
          exact hadd r
        | some k =>
          rw [hk] at hadd
          exact congrArg List.sum (List.map_congr_left (fun r _ => hadd r))
      rw [hbt]
      cases st with
      | none =>
        split
        · exact h.totals gk hgk idx hcell _
        · rfl
      | some c =>
        refine (mapLeaves_lookup f idx col _ c gk).trans ?_
        split
        · rename_i k hk
          refine Eq.trans ?_ (h.totals gk hgk idx hcell k)
          have : (fun a : Arr => (f a).get idx col) = fun a => a.get idx k := by
            funext a
            rw [hfdef]
            simp only [Arr.takeCols, hk]
          rw [this]
          exact lookupF_get _ _ _ _ _
        · rename_i hk
          have : (fun a : Arr => (f a).get idx col) = fun _ => 0 := by
            funext a
            rw [hfdef]
            simp only [Arr.takeCols, hk]
          rw [this]
          simpa using lookupF_sum ([] : List ℕ) (fun _ _ => 0) H.groups.length c gk
  exact ⟨hd, hrep⟩

/-! ## C43 -/

/-- The `weight` and the columns of a histogram belong together: no squared weights without `weight` or
`filter`; a number as `weight` is a `weight`. -/
def HistDef.WeightOk (H : HistDef) (hasWeight : Bool) : Prop :=
  (H.wkind = .none → hasWeight = false) ∧ ∀ q, H.wkind = .const q → hasWeight = true

/-- C43, the part that holds.  If all profiles are dropped from a histogram that has a `weight`, or
neither `weight` nor `filter`, the result is what filling a histogram without profiles gives.
Missing: keeping some profiles, and histograms that have a `filter` but no `weight`, both of which are
wrong (`C43_drop_shape`). -/
theorem C43_drop_all_partial (H : HistDef) (bs : List (List Row)) (hf : Fillable H bs) (st : H.State)
    (hst : H.fillAll none bs = .ok st) (keep : List Bool) (hlen : keep.length = H.nprof) (hpos : 0 < H.nprof)
    (hkeep : keep.count true = 0) (hasWeight : Bool) (hw : hasWeight = true ↔ H.wkind ≠ .none) :
    ∃ st' : (H.drop keep).State, H.dropState keep hasWeight st = .ok st' ∧
      Represents (H.drop keep) (bs.flatten.map (Row.dropXs keep)) st' ∧
      (H.drop keep).ReadsLikeFill st' (bs.map (List.map (Row.dropXs keep))) := by
  obtain ⟨st0, e1, h⟩ := Represents.ofFill H bs hf
  rw [hst] at e1
  cases e1
  obtain ⟨hd, hrep⟩ := h.dropAll keep hlen hpos hkeep hasWeight hw
  refine ⟨_, hd, hrep, hrep.readsLikeFill _ ?_ ?_⟩
  · rw [List.map_flatten]
  · constructor
    · intro rs hrs r hr
      obtain ⟨rs0, hrs0, rfl⟩ := List.mem_map.1 hrs
      obtain ⟨r0, hr0, rfl⟩ := List.mem_map.1 hr
      have ho := hf.ok rs0 hrs0 r0 hr0
      refine ⟨ho.groups, ho.fixed, ?_⟩
      show (pick keep r0.xs).length = keep.count true
      rw [pick_nil_of_count _ _ hkeep, hkeep]; rfl
    · exact Or.inl hkeep

/-- C43, when the result has the columns that its definition asks for: exactly if no profile is kept and
there is a `weight` or no squared weights.  In all other cases the columns are wrong. -/
theorem C43_drop_shape (H : HistDef) (st : H.State) (hg : H.Good st) (gk : List Key) (hl : gk.length = H.groups.length)
    (hgk : H.has st gk) (keep : List Bool) (hasWeight : Bool) (hw : H.WeightOk hasWeight) (st' : H.State)
    (h : H.dropState keep hasWeight st = .ok st') :
    (H.drop keep).Good st' ↔ keep.count true = 0 ∧ (hasWeight = true ∨ H.wkind = .none) := by
  unfold HistDef.dropState at h
  split at h
  · cases h
  cases h
  have hcols : (dropColumns H.layout keep hasWeight).length = keep.count true + 1 + b2n hasWeight := by
    unfold dropColumns
    rw [List.length_append, List.length_append, keptPositions_length]
    cases hasWeight <;> rfl
  have hnc : (H.drop keep).layout.ncols = 2 * keep.count true + (if H.wkind = .none then 1 else 2) := rfl
  have hiff : (dropColumns H.layout keep hasWeight).length = (H.drop keep).layout.ncols ↔
      keep.count true = 0 ∧ (hasWeight = true ∨ H.wkind = .none) := by
    rw [hcols, hnc]
    cases hasWeight
    · by_cases hk : H.wkind = .none
      · simp only [hk, if_true, b2n, or_true, and_true]; simp; omega
      · simp only [hk, if_false, b2n]; simp; omega
    · have hk : H.wkind ≠ .none := fun hk => absurd (hw.1 hk) (by simp)
      simp only [hk, if_false, b2n, true_or, and_true]; simp; omega
  rw [← hiff]
  cases st with
  | none => exact absurd hgk (by simp [HistDef.has])
  | some c =>
    constructor
    · intro hs
      obtain ⟨a, _, _, h3⟩ := shaped_leaf (H.drop keep).layout _ c _ gk hl hgk hs
      exact h3.2
    · intro hc
      refine mapLeaves_shaped H.layout (H.drop keep).layout _ ?_ _ c hg
      intro a ha
      exact ⟨ha.1, hc⟩

/-- C43, consequence of the wrong columns: if a profile is kept, the result cannot be added to a
histogram of the same definition that was filled directly. -/
theorem C43_dropped_not_addable (H : HistDef) (hgr : H.groups = []) (bs : List (List Row)) (hf : Fillable H bs)
    (st : H.State) (hst : H.fillAll none bs = .ok st) (hne : st ≠ none) (keep : List Bool) (hk : 0 < keep.count true) (hasWeight : Bool) (hw : H.WeightOk hasWeight) (st' : H.State)
    (h : H.dropState keep hasWeight st = .ok st') (other : (H.drop keep).State) (ho : (H.drop keep).Good other) (hon : other ≠ none) :
    addState (n := H.groups.length) st' other = .error .valueError := by
  obtain ⟨G, F, np, wk⟩ := H
  subst hgr
  obtain ⟨st0, e1, hrep⟩ := Represents.ofFill _ bs hf
  rw [hst] at e1
  cases e1
  unfold HistDef.dropState at h
  split at h
  · cases h
  cases h
  match st, other, hne, hon, hrep.good, ho with
  | some a, some b, _, _, ha, hb =>
    have ha' : Arr.shape a = F.map FixedAxis.totbins := ha.1
    have hb' : Arr.shape b = F.map FixedAxis.totbins := hb.1
    have hbc : Arr.ncols b = 2 * keep.count true + (if wk = .none then 1 else 2) := hb.2
    have hcols : (dropColumns (HistDef.layout ⟨[], F, np, wk⟩) keep hasWeight).length = keep.count true + 1 + b2n hasWeight := by
      unfold dropColumns
      rw [List.length_append, List.length_append, keptPositions_length]
      cases hasWeight <;> rfl
    show Except.map some (Arr.add (Arr.takeCols _ a) b) = _
    unfold Arr.add
    rw [if_pos (show (Arr.takeCols _ a).shape = Arr.shape b from ha'.trans hb'.symm)]
    have hac : (Arr.takeCols (dropColumns (HistDef.layout ⟨[], F, np, wk⟩) keep hasWeight) a).ncols = keep.count true + 1 + b2n hasWeight := hcols
    rw [hac, hbc]
    have h1 : ¬ (keep.count true + 1 + b2n hasWeight = 2 * keep.count true + (if wk = .none then 1 else 2)) := by
      cases hasWeight
      · by_cases hk : wk = .none <;> simp only [hk, if_true, if_false, b2n] <;> simp <;> omega
      · have hk : wk ≠ .none := fun hk => absurd (hw.1 hk) (by simp)
        simp only [hk, if_false, b2n]; simp; omega
    rw [if_neg h1, if_neg (by omega), if_neg (by split <;> omega)]
    rfl

/-- `drop` needs at least one profile to drop. -/
theorem C43_drop_nothing (H : HistDef) (keep : List Bool) (hk : ∀ b ∈ keep, b = true) (hasWeight : Bool) (st : H.State) :
    H.dropState keep hasWeight st = .error .indexError := by
  unfold HistDef.dropState
  rw [if_pos]
  rw [List.all_eq_true]
  exact hk

/-- Two profiles over one axis. -/
def dropDemo : HistDef := ⟨[], [.bin ⟨1, 0, 1, false, false, false, true⟩], 2, .expr⟩
def dropRows : List Row := [⟨[], [.num (.fin (1 / 2))], [3, 5], some 2⟩]


/-- Fill, `drop`, and read the columns of the (only) bin that the definition of the result has. -/
def dropDemoRead (keep : List Bool) (hasWeight : Bool) : Except Err (List ℚ) :=
  match dropDemo.fillAll none [dropRows] with
  | .error (e, _) => .error e
  | .ok st =>
    match dropDemo.dropState keep hasWeight st with
    | .error e => .error e
    | .ok st' => .ok ((List.range (dropDemo.drop keep).layout.ncols).map (fun c => (dropDemo.drop keep).read st' [] [0] c))

/-- What the columns should be. -/
def dropDemoSpec (keep : List Bool) : List ℚ :=
  (List.range (dropDemo.drop keep).layout.ncols).map (binTotal (dropDemo.drop keep) (dropRows.map (Row.dropXs keep)) [] [0])

/-- Fill, `drop`, add a histogram of the resulting definition that was filled directly. -/
def dropDemoAdd (keep : List Bool) (hasWeight : Bool) : Except Err (List ℚ) :=
  match dropDemo.fillAll none [dropRows], (dropDemo.drop keep).fillAll none [dropRows.map (Row.dropXs keep)] with
  | .ok st, .ok other =>
    match dropDemo.dropState keep hasWeight st with
    | .error e => .error e
    | .ok st' =>
      match addState (n := 0) st' other with
      | .error e => .error e
      | .ok sum => .ok ((List.range (dropDemo.drop keep).layout.ncols).map (fun c => (dropDemo.drop keep).read sum [] [0] c))
  | _, _ => .error .assertion

/-- C43 is violated: after dropping the second of two profiles (values 3 and 5, weight 2), the squares of
the first profile and the number of entries are wrong. -/
theorem C43_drop_one_refuted : dropDemoRead [true, false] true = .ok [6, 2, 4, 0] ∧ dropDemoSpec [true, false] = [6, 18, 2, 4] := by
  decide +kernel

/-- C43 is violated: after dropping the first of two profiles, the squares of the *dropped* profile are
what the kept profile reports. -/
theorem C43_drop_first_refuted : dropDemoRead [false, true] true = .ok [18, 2, 4, 0] ∧ dropDemoSpec [false, true] = [10, 50, 2, 4] := by
  decide +kernel

/-- C43 is violated: with a `filter` and no `weight`, the squared weights are lost even if all profiles are
dropped; adding a directly filled histogram (counts 2, squares 4) then adds *counts* to its squared
weights. -/
theorem C43_drop_filter_refuted : dropDemoRead [false, false] false = .ok [2, 0] ∧ dropDemoSpec [false, false] = [2, 4] ∧
    dropDemoAdd [false, false] false = .ok [2 + 2, 2 + 4] := by
  decide +kernel

/-- dropping both profiles of a weighted histogram is right -/
example : dropDemoRead [false, false] true = .ok (dropDemoSpec [false, false]) ∧ dropDemoSpec [false, false] = [2, 4] := by
  decide +kernel

/-- and a kept profile makes adding fail -/
example : dropDemoAdd [true, false] true = .error .valueError := by decide +kernel

end Verif
