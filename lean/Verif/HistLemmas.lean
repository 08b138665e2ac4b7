import Verif.SpecHist
import Verif.FillLemmas
import Verif.PropsBinning
import Verif.PropsKeys

/-!
# Lemmas about filling a histogram with rows
-/

namespace Verif

/-! ## which values the axes handle -/

theorem FixedAxis.handles_of_correct (a : FixedAxis) (v : Val) (r : Option ℤ) (h : a.index v = .ok r)
    (hlen : a.keys.length = a.totbins) (hin : ∀ l ∈ a.keys, v.In l = decide (l.mem v.toNum))
    (hc : IndexCorrect a.keys v.toNum r) : a.Handles v := by
  refine ⟨r, h, ?_, ?_⟩
  · intro z hz
    subst hz
    obtain ⟨h0, ⟨k, hk, _⟩, _⟩ := hc
    have := (List.getElem?_eq_some_iff.1 hk).1
    exact ⟨h0, by omega⟩
  · intro i
    constructor
    · intro hr
      subst hr
      obtain ⟨h0, ⟨k, hk, hm⟩, _⟩ := hc
      refine ⟨k, by simpa using hk, ?_⟩
      rw [hin k (List.mem_of_getElem? hk)]
      simpa using hm
    · rintro ⟨l, hl, hm⟩
      rw [hin l (List.mem_of_getElem? hl)] at hm
      have hm : l.mem v.toNum := by simpa using hm
      cases r with
      | none => exact absurd hm (hc l (List.mem_of_getElem? hl))
      | some z => rw [hc.2.2 i l hl hm]

theorem Val.in_iv (l : BinLabel) (v : Val) (h : ∀ b, l ≠ .bool b) : v.In l = decide (l.mem v.toNum) := by
  cases l <;> cases v <;> first | rfl | exact absurd rfl (h _)

theorem BinAxis.keys_not_bool (a : BinAxis) : ∀ l ∈ a.keys, ∀ b, l ≠ .bool b := by
  intro l hl b
  unfold BinAxis.keys at hl
  cases a.underflow <;> cases a.overflow <;> cases a.nanflow <;> simp at hl <;> grind

theorem SplitAxis.keys_not_bool (a : SplitAxis) : ∀ l ∈ a.keys, ∀ b, l ≠ .bool b := by
  intro l hl b
  unfold SplitAxis.keys at hl
  cases a.underflow <;> cases a.overflow <;> cases a.nanflow <;> simp at hl <;> grind

theorem IntbinAxis.keys_not_bool (a : IntbinAxis) : ∀ l ∈ a.keys, ∀ b, l ≠ .bool b := by
  intro l hl b
  unfold IntbinAxis.keys at hl
  cases a.underflow <;> cases a.overflow <;> simp at hl <;> grind

theorem handles_bin (numbins : ℕ) (low high : ℚ) (u o n cl : Bool) (a : BinAxis)
    (ha : BinAxis.init numbins low high u o n cl = .ok a) (hn : 0 < numbins) (v : Val)
    (hv : v.toNum = .nan ∨ ∃ q, v.toNum = .fin q ∧ (q - low) * (numbins / (high - low)) ≤ 2147483645) :
    (FixedAxis.bin a).Handles v := by
  have hr : ∃ r, a.index v.toNum = .ok r ∧ IndexCorrect a.keys v.toNum r := by
    rcases hv with hv | ⟨q, hv, hq⟩
    · rw [hv]; exact C01_bin_nan numbins low high u o n cl a ha hn
    · rw [hv]; exact C01_bin_fill_matches_keys numbins low high u o n cl a ha hn q hq
  obtain ⟨r, h1, h2⟩ := hr
  exact FixedAxis.handles_of_correct _ v r h1 (C06_bin_keys_partition numbins low high u o n cl a ha hn).1
    (fun l hl => Val.in_iv l v (a.keys_not_bool l hl)) h2

theorem handles_split (edges : List ℚ) (u o n cl : Bool) (a : SplitAxis)
    (ha : SplitAxis.init edges u o n cl = .ok a) (v : Val) : (FixedAxis.split a).Handles v := by
  have hlen : a.keys.length = a.totbins := by
    obtain ⟨hg, _⟩ := SplitAxis.init_ok ha
    have hlen : 0 < a.edges.length := List.length_pos_iff.2 hg.1
    unfold SplitAxis.keys SplitAxis.totbins
    cases a.underflow <;> cases a.overflow <;> cases a.nanflow <;> simp [b2n]
  exact FixedAxis.handles_of_correct _ v _ rfl hlen
    (fun l hl => Val.in_iv l v (a.keys_not_bool l hl)) (C03_split_fill_matches_keys edges u o n cl a ha v.toNum)

theorem handles_intbin (min max : ℤ) (u o : Bool) (a : IntbinAxis)
    (ha : IntbinAxis.init min max u o = .ok a) (i : ℤ) (v : Val)
    (hv : (v = .int i ∧ -2147483648 ≤ i + (b2i u - min)) ∨ v = .num (.fin i))
    (h2 : i + (b2i u - min) ≤ 2147483647) : (FixedAxis.intbin a).Handles v := by
  have hlen : a.keys.length = a.totbins.toNat := by
    have := (C06_intbin_keys_partition min max u o a ha).1
    omega
  have hvn : v.toNum = .fin i := by
    rcases hv with ⟨rfl, _⟩ | rfl <;> rfl
  have hr : ∃ r, (FixedAxis.intbin a).index v = .ok r ∧ IndexCorrect a.keys v.toNum r := by
    rw [hvn]
    rcases hv with ⟨rfl, h1⟩ | rfl
    · exact ⟨_, rfl, C04_intbin_ints_partial min max u o a ha i h1 h2⟩
    · exact ⟨_, rfl, C04_intbin_floats_partial min max u o a ha i h2⟩
  obtain ⟨r, h1, h3⟩ := hr
  exact FixedAxis.handles_of_correct _ v r h1 hlen
    (fun l hl => Val.in_iv l v (a.keys_not_bool l hl)) h3

theorem handles_cut (b : Bool) : FixedAxis.cut.Handles (.bool b) := by
  refine ⟨_, rfl, ?_, ?_⟩
  · intro z hz
    cases hz
    cases b <;> simp [b2i, FixedAxis.totbins]
  · intro i
    match i with
    | 0 => cases b <;> simp [b2i, FixedAxis.keys, Val.In]
    | 1 => cases b <;> simp [b2i, FixedAxis.keys, Val.In]
    | i + 2 => cases b <;> simp [b2i, FixedAxis.keys] <;> omega

/-! ## numpy.unique -/

theorem npUnique_isUnique (ks : List Key) : IsUnique (ks.map some) (npUnique ks).1 (npUnique ks).2 := by
  refine ⟨List.nodup_dedup ks, by simp [npUnique], by simp [npUnique], ?_⟩
  intro idx k hk
  simp only [npUnique, List.map_map]
  apply List.map_congr_left
  intro k' hk'
  simp only [npUnique] at hk
  obtain ⟨hlt, hk⟩ := List.getElem?_eq_some_iff.1 hk
  simp only [Function.comp, Option.some.injEq, decide_eq_decide, Nat.cast_inj]
  constructor
  · intro h
    have hm : k' ∈ ks.dedup := List.mem_dedup.2 hk'
    have := List.getElem_idxOf (List.idxOf_lt_length_of_mem hm)
    rw [← this, ← hk]
    congr 1
  · intro h
    rw [h, ← hk]
    exact List.Nodup.idxOf_getElem (List.nodup_dedup ks) idx hlt

theorem scatter_spec (d : ℤ) (f : Key → ℤ) : ∀ es : List (Option Key),
    scatter d (es.map Option.isSome) ((es.filterMap id).map f) = es.map (fun o => match o with | some k => f k | none => d)
  | [] => rfl
  | none :: es => congrArg (d :: ·) (scatter_spec d f es)
  | some k :: es => congrArg (f k :: ·) (scatter_spec d f es)

theorem npUnique_bounds (ks : List Key) (k : Key) (hk : k ∈ ks) :
    ((ks.dedup.idxOf k : ℕ) : ℤ) < ks.dedup.length := by
  have := List.idxOf_lt_length_of_mem (List.mem_dedup.2 hk)
  omega

theorem GroupbinAxis.edge_key (a : GroupbinAxis) (v : Num) :
    (∃ k, a.edge v = some k ∧ a.key v = some k ∧ k ≠ .str "NaN") ∨
    (a.edge v = none ∧ a.key v = if a.nanflow then some (.str "NaN") else none) := by
  unfold GroupbinAxis.edge GroupbinAxis.key
  simp only
  generalize (if a.origin = 0 then
      (if a.closedlow = true then (if a.origin = 0 then v.mulFin (1 / a.binwidth) else (v.subFin a.origin).mulFin (1 / a.binwidth)).floor
        else ((if a.origin = 0 then v.mulFin (1 / a.binwidth) else (v.subFin a.origin).mulFin (1 / a.binwidth)).ceil.addFin (-1))).mulFin a.binwidth
    else ((if a.closedlow = true then (if a.origin = 0 then v.mulFin (1 / a.binwidth) else (v.subFin a.origin).mulFin (1 / a.binwidth)).floor
        else ((if a.origin = 0 then v.mulFin (1 / a.binwidth) else (v.subFin a.origin).mulFin (1 / a.binwidth)).ceil.addFin (-1))).mulFin a.binwidth).addFin a.origin) = x
  cases x <;> simp

theorem groupbin_column_isUnique (a : GroupbinAxis) (vs : List Num) :
    IsUnique (vs.map a.key) (a.column vs).1 (a.column vs).2 := by
  set es := vs.map a.edge with hes
  set ks := es.filterMap id with hks
  have hkey : vs.map a.key = es.map (fun o => match o with
      | some k => some k
      | none => if a.nanflow then some (Key.str "NaN") else none) := by
    rw [hes, List.map_map]
    apply List.map_congr_left
    intro v _
    rcases a.edge_key v with ⟨k, h1, h2, _⟩ | ⟨h1, h2⟩ <;> simp [Function.comp, h1, h2]
  have hnan : ∀ k, some k ∈ es → k ≠ .str "NaN" := by
    intro k hk
    rw [hes] at hk
    obtain ⟨v, _, hv⟩ := List.mem_map.1 hk
    rcases a.edge_key v with ⟨k', h1, _, h3⟩ | ⟨h1, _⟩
    · rw [h1] at hv; cases hv; exact h3
    · rw [h1] at hv; cases hv
  have hmk : ∀ k, k ∈ ks ↔ some k ∈ es := by intro k; simp [hks]
  have hu := npUnique_isUnique ks
  have hcol : a.column vs = if (es.map Option.isSome).all id then npUnique ks
      else if a.nanflow then ((npUnique ks).1 ++ [.str "NaN"], scatter ((npUnique ks).1.length : ℤ) (es.map Option.isSome) (npUnique ks).2)
      else ((npUnique ks).1, scatter (-1) (es.map Option.isSome) (npUnique ks).2) := rfl
  rw [hcol]
  by_cases hall : (es.map Option.isSome).all id = true
  · rw [if_pos hall]
    have hsome : es = ks.map some := by
      have : ∀ l : List (Option Key), (l.map Option.isSome).all id = true → l = (l.filterMap id).map some := by
        intro l
        induction l with
        | nil => simp
        | cons o l ih =>
          cases o with
          | none => simp
          | some k => intro h; simp at h ⊢; simpa using ih (by simpa using h)
      exact this es hall
    have : vs.map a.key = ks.map some := by
      rw [hkey]
      conv_lhs => rw [hsome]
      simp
    rw [this]; exact hu
  · rw [if_neg hall]
    have hnone : none ∈ es := by
      by_contra hcon
      apply hall
      rw [List.all_eq_true]
      intro b hb
      obtain ⟨o, ho, rfl⟩ := List.mem_map.1 hb
      cases o with
      | none => exact absurd ho hcon
      | some k => rfl
    -- positions of a key
    have hinv : ∀ (d : ℤ), scatter d (es.map Option.isSome) (npUnique ks).2 =
        es.map (fun o => match o with | some k => ((ks.dedup.idxOf k : ℕ) : ℤ) | none => d) :=
      fun d => scatter_spec d _ es
    have hpos : ∀ (idx : ℕ) (k : Key), (npUnique ks).1[idx]? = some k → ∀ k', some k' ∈ es →
        (((ks.dedup.idxOf k' : ℕ) : ℤ) = (idx : ℤ) ↔ k' = k) := by
      intro idx k hk k' hk'
      have h := hu.inv idx k hk
      rw [npUnique] at h
      simp only [List.map_map] at h
      have := (List.map_inj_left.1 h) k' ((hmk k').2 hk')
      simpa using this
    cases hn : a.nanflow
    · simp only [Bool.false_eq_true, if_false, hinv]
      refine ⟨hu.nodup, by simp [hes], ?_, ?_⟩
      · intro k
        rw [hkey, hu.mem]
        simp only [hn, Bool.false_eq_true, if_false, List.mem_map, Option.some.injEq, exists_eq_right]
        rw [hmk]
        constructor
        · intro h; exact ⟨some k, h, rfl⟩
        · rintro ⟨o, ho, h⟩
          cases o with
          | none => cases h
          | some k' => cases h; exact ho
      · intro idx k hk
        rw [hkey, List.map_map (l := es), List.map_map (l := es)]
        apply List.map_congr_left
        intro o ho
        cases o with
        | none => simp [hn]
        | some k' => simp only [Function.comp, Option.some.injEq, decide_eq_decide]; exact hpos idx k hk k' ho
    · simp only [if_true, hinv]
      refine ⟨?_, by simp [hes], ?_, ?_⟩
      · rw [List.nodup_append]
        refine ⟨hu.nodup, by simp, ?_⟩
        intro k hk b hb
        simp at hb; subst hb
        rw [hu.mem] at hk
        simp at hk
        exact hnan k ((hmk k).1 hk)
      · intro k
        rw [hkey, List.mem_append, hu.mem]
        simp only [hn, if_true, List.mem_map, Option.some.injEq, exists_eq_right, List.mem_singleton]
        rw [hmk]
        constructor
        · rintro (h | h)
          · exact ⟨some k, h, rfl⟩
          · exact ⟨none, hnone, by simp [h]⟩
        · rintro ⟨o, ho, h⟩
          cases o with
          | none => right; simpa using h.symm
          | some k' => cases h; exact Or.inl ho
      · intro idx k hk
        rw [hkey, List.map_map (l := es), List.map_map (l := es)]
        apply List.map_congr_left
        intro o ho
        rw [List.getElem?_append] at hk
        by_cases hlt : idx < (npUnique ks).1.length
        · rw [if_pos hlt] at hk
          cases o with
          | none =>
            have hkn : k ≠ .str "NaN" := by
              have : k ∈ (npUnique ks).1 := List.mem_of_getElem? hk
              rw [hu.mem] at this
              simp at this
              exact hnan k ((hmk k).1 this)
            simp only [Function.comp, hn, if_true, Option.some.injEq, decide_eq_decide]
            constructor
            · intro h; omega
            · intro h; exact absurd h.symm hkn
          | some k' => simp only [Function.comp, Option.some.injEq, decide_eq_decide]; exact hpos idx k hk k' ho
        · rw [if_neg hlt] at hk
          have hidx : idx = (npUnique ks).1.length ∧ k = .str "NaN" := by
            have := (List.getElem?_eq_some_iff.1 hk).1
            simp at this
            have e : idx - (npUnique ks).1.length = 0 := by omega
            rw [e] at hk
            simp at hk
            exact ⟨by omega, hk.symm⟩
          obtain ⟨rfl, rfl⟩ := hidx
          cases o with
          | none => simp [hn]
          | some k' =>
            have h1 : k' ≠ .str "NaN" := hnan k' ho
            have h2 := npUnique_bounds ks k' ((hmk k').2 ho)
            simp only [Function.comp, Option.some.injEq, decide_eq_decide]
            constructor
            · intro h; simp only [npUnique] at h; omega
            · intro h; exact absurd h h1

/-! ## loops -/

theorem mapE_ok {α β : Type} (f : α → Except Err β) (g : α → β) : ∀ xs : List α,
    (∀ x ∈ xs, f x = .ok (g x)) → mapE f xs = .ok (xs.map g)
  | [], _ => rfl
  | x :: xs, h => by
    simp only [mapE, h x (by simp), mapE_ok f g xs (fun y hy => h y (by simp [hy])), List.map_cons]

/-- The bin number of a value, `none` also if the axis raises. -/
def FixedAxis.cell (a : FixedAxis) (v : Val) : Option ℤ :=
  match a.index v with
  | .ok r => r
  | .error _ => none

theorem FixedAxis.Handles.index {a : FixedAxis} {v : Val} (h : a.Handles v) : a.index v = .ok (a.cell v) := by
  obtain ⟨r, h1, _⟩ := h
  unfold FixedAxis.cell
  rw [h1]

/-- The row as `_postfill` sees it. -/
def Row.event (H : HistDef) (r : Row) : Event where
  gkeys := List.zipWith GroupAxis.key H.groups r.gvals
  cells := List.zipWith FixedAxis.cell H.fixed r.fvals
  xs := r.xs
  w := r.w

theorem GroupAxis.column_isUnique {α : Type} (a : GroupAxis) (rows : List α) (f : α → GVal)
    (h : ∀ r ∈ rows, a.Handles (f r)) :
    ∃ u inv, a.column (rows.map f) = .ok (u, inv) ∧ IsUnique (rows.map (fun r => a.key (f r))) u inv := by
  cases a with
  | groupby =>
    have h' : ∀ r ∈ rows, (f r).toKey = .ok ((f r).toKey.toOption.getD .pinf) := by
      intro r hr
      obtain ⟨k, hk⟩ := h r hr
      rw [hk]; rfl
    have := mapE_ok GVal.toKey (fun v => v.toKey.toOption.getD .pinf) (rows.map f)
      (by intro v hv; obtain ⟨r, hr, rfl⟩ := List.mem_map.1 hv; exact h' r hr)
    refine ⟨(npUnique ((rows.map f).map (fun v => v.toKey.toOption.getD .pinf))).1,
      (npUnique ((rows.map f).map (fun v => v.toKey.toOption.getD .pinf))).2, ?_, ?_⟩
    · simp only [GroupAxis.column]
      rw [this]
    · rw [show rows.map (fun r => GroupAxis.groupby.key (f r)) =
        ((rows.map f).map (fun v => v.toKey.toOption.getD .pinf)).map some by
          rw [List.map_map, List.map_map]
          apply List.map_congr_left
          intro r hr
          obtain ⟨k, hk⟩ := h r hr
          simp [GroupAxis.key, hk, Except.toOption]]
      exact npUnique_isUnique _
  | groupbin a =>
    have h' : ∀ r ∈ rows, (f r).toNum = .ok ((f r).toNum.toOption.getD .nan) := by
      intro r hr
      obtain ⟨k, hk⟩ := h r hr
      rw [hk]; rfl
    have := mapE_ok GVal.toNum (fun v => v.toNum.toOption.getD .nan) (rows.map f)
      (by intro v hv; obtain ⟨r, hr, rfl⟩ := List.mem_map.1 hv; exact h' r hr)
    refine ⟨(a.column ((rows.map f).map (fun v => v.toNum.toOption.getD .nan))).1,
      (a.column ((rows.map f).map (fun v => v.toNum.toOption.getD .nan))).2, ?_, ?_⟩
    · simp only [GroupAxis.column]
      rw [this]
    · rw [show rows.map (fun r => (GroupAxis.groupbin a).key (f r)) =
        ((rows.map f).map (fun v => v.toNum.toOption.getD .nan)).map a.key by
          rw [List.map_map, List.map_map]
          apply List.map_congr_left
          intro r hr
          obtain ⟨k, hk⟩ := h r hr
          simp [GroupAxis.key, hk, Except.toOption]]
      exact groupbin_column_isUnique a _

theorem forall₂_getD {α β : Type} {R : α → β → Prop} {as : List α} {bs : List β} (h : List.Forall₂ R as bs)
    (k : ℕ) (a : α) (hk : as[k]? = some a) (d : β) : R a (bs.getD k d) ∧ k < bs.length := by
  induction h generalizing k with
  | nil => simp at hk
  | cons h1 _ ih =>
    cases k with
    | zero => simp at hk; subst hk; simpa using h1
    | succ k => simpa using ih k (by simpa using hk)

theorem groupColumns_ok (H : HistDef) (rows : List Row) (h : ∀ r ∈ rows, r.Ok H) :
    ∀ (as : List GroupAxis) (k : ℕ), H.groups.drop k = as →
    ∃ cs, groupColumns rows as k = .ok cs ∧
      List.Forall₂ (fun (g : ℕ) (col : Option (List Key × List ℤ)) =>
        ∃ u inv, col = some (u, inv) ∧ IsUnique ((rows.map (Row.event H)).map (fun e => e.gkeys.getD g none)) u inv)
        ((List.range as.length).map (· + k)) cs
  | [], k, _ => ⟨[], rfl, by simp⟩
  | a :: as, k, hd => by
    have hk : H.groups[k]? = some a := by
      have := congrArg (fun l => l[0]?) hd
      simpa using this
    have hd' : H.groups.drop (k + 1) = as := by
      have := congrArg List.tail hd
      simpa using this
    obtain ⟨cs, h1, h2⟩ := groupColumns_ok H rows h as (k + 1) hd'
    obtain ⟨u, inv, h3, h4⟩ := a.column_isUnique rows (fun r => r.gvals.getD k (.num .nan))
      (fun r hr => (forall₂_getD (h r hr).groups k a hk _).1)
    refine ⟨some (u, inv) :: cs, ?_, ?_⟩
    · simp only [groupColumns, h3, h1]
    · rw [List.length_cons, List.range_succ_eq_map]
      simp only [List.map_cons, List.map_map]
      refine List.Forall₂.cons ⟨u, inv, rfl, ?_⟩ ?_
      · rw [show (List.map ((fun e => e.gkeys.getD (0 + k) none) ∘ Row.event H) rows) =
          rows.map (fun r => a.key (r.gvals.getD k (.num .nan))) by
            apply List.map_congr_left
            intro r hr
            have hlt := (forall₂_getD (h r hr).groups k a hk (.num .nan)).2
            simp only [Function.comp, Row.event, Nat.zero_add]
            rw [List.getD_eq_getElem?_getD, List.getElem?_zipWith, hk, List.getElem?_eq_getElem hlt]
            simp [List.getElem?_eq_getElem hlt]]
        exact h4
      · rw [show List.map ((fun x => x + k) ∘ Nat.succ) (List.range as.length) =
          List.map (fun x => x + (k + 1)) (List.range as.length) by
            apply List.map_congr_left; intro i _; simp only [Function.comp]; omega]
        simpa only [List.map_map] using h2

theorem fixedColumns_ok (H : HistDef) (rows : List Row) (h : ∀ r ∈ rows, r.Ok H) :
    ∀ (as : List FixedAxis) (k : ℕ), H.fixed.drop k = as →
    fixedColumns rows as k = .ok ((List.range as.length).map (fun j =>
      some ((rows.map (Row.event H)).map (fun e => e.cells.getD (j + k) none))))
  | [], k, _ => rfl
  | a :: as, k, hd => by
    have hk : H.fixed[k]? = some a := by
      have := congrArg (fun l => l[0]?) hd
      simpa using this
    have hd' : H.fixed.drop (k + 1) = as := by
      have := congrArg List.tail hd
      simpa using this
    have h1 := fixedColumns_ok H rows h as (k + 1) hd'
    have h3 := mapE_ok a.index a.cell (rows.map (fun r => r.fvals.getD k (.num .nan))) (by
      intro v hv
      obtain ⟨r, hr, rfl⟩ := List.mem_map.1 hv
      exact (forall₂_getD (h r hr).fixed k a hk _).1.index)
    simp only [fixedColumns, h3, h1]
    rw [List.length_cons, List.range_succ_eq_map]
    simp only [List.map_cons, List.map_map]
    congr 2
    · congr 1
      apply List.map_congr_left
      intro r hr
      have hlt := (forall₂_getD (h r hr).fixed k a hk (.num .nan)).2
      simp only [Function.comp, Row.event, Nat.zero_add]
      rw [List.getD_eq_getElem?_getD (l := List.zipWith _ _ _), List.getElem?_zipWith, hk, List.getElem?_eq_getElem hlt]
      simp [List.getElem?_eq_getElem hlt]
    · apply List.map_congr_left
      intro j _
      simp only [Function.comp]
      rw [show j + (k + 1) = j.succ + k by omega]

theorem columns_ok (H : HistDef) (rows : List Row) (h : ∀ r ∈ rows, r.Ok H) :
    ∃ d, H.columns rows = .ok d ∧ IsDest H.layout (rows.map (Row.event H)) d := by
  obtain ⟨gs, h1, h2⟩ := groupColumns_ok H rows h H.groups 0 (by simp)
  have h3 := fixedColumns_ok H rows h H.fixed 0 (by simp)
  refine ⟨_, by unfold HistDef.columns; rw [h1, h3], ?_⟩
  constructor
  · simpa [HistDef.layout, Layout.make] using h2
  · simp [HistDef.layout, Layout.make]
  · simp only [HistDef.layout, Layout.make, List.map_map]
    rfl
  · intro _
    simp only [List.map_map]
    rfl

theorem event_fits (H : HistDef) (r : Row) (h : r.Ok H) : (r.event H).Fits H.layout := by
  refine ⟨?_, ?_, ?_⟩
  · simp [Row.event, HistDef.layout, Layout.make, ← h.groups.length_eq]
  · exact h.xs
  · simp only [Row.event, HistDef.layout, Layout.make]
    have := h.fixed
    clear h
    revert this
    generalize H.fixed = as
    generalize r.fvals = vs
    intro hh
    induction hh with
    | nil => simp
    | cons h1 _ ih =>
      simp only [List.zipWith_cons_cons, List.map_cons]
      refine List.Forall₂.cons ?_ ih
      obtain ⟨r, e1, e2, _⟩ := h1
      intro i hi
      unfold FixedAxis.cell at hi
      rw [e1] at hi
      exact e2 i hi

theorem event_adds (H : HistDef) (r : Row) (col : ℕ) : (r.event H).acc H.layout col = r.adds H col := by
  unfold Event.acc Row.adds
  have : (r.event H).weight H.layout.wkind = r.weight H.wkind := by
    unfold Event.weight Row.weight
    simp only [HistDef.layout, Layout.make, Row.event]
    cases H.wkind <;> rfl
  rw [this]
  rfl

theorem inBins'_iff (as : List FixedAxis) (vs : List Val) (h : List.Forall₂ FixedAxis.Handles as vs) :
    ∀ idx : List ℕ, inBins' as vs idx = true ↔
      List.zipWith FixedAxis.cell as vs = idx.map (fun i : ℕ => some (i : ℤ)) := by
  induction h with
  | nil => intro idx; cases idx <;> simp [inBins']
  | cons h1 _ ih =>
    rename_i a v as vs _
    intro idx
    cases idx with
    | nil => simp [inBins']
    | cons i idx =>
      simp only [inBins', Bool.and_eq_true, ih, List.zipWith_cons_cons, List.map_cons, List.cons.injEq]
      have : a.holds i v = true ↔ a.cell v = some (i : ℤ) := by
        obtain ⟨r, e1, _, e3⟩ := h1
        unfold FixedAxis.cell FixedAxis.holds
        rw [e1]
        simp only
        rw [e3 i]
        cases a.keys[i]? <;> simp
      rw [this]

theorem inGroup_iff : ∀ (as : List GroupAxis) (vs : List GVal) (ks : List Key), as.length = vs.length →
    (inGroup as vs ks = true ↔ List.zipWith GroupAxis.key as vs = ks.map some)
  | [], [], ks, _ => by cases ks <;> simp [inGroup]
  | a :: as, v :: vs, [], _ => by simp [inGroup]
  | a :: as, v :: vs, k :: ks, h => by
    simp [inGroup, inGroup_iff as vs ks (by simpa using h)]

theorem event_lands (H : HistDef) (r : Row) (h : r.Ok H) (gk : List Key) (idx : List ℕ) :
    (r.event H).lands gk idx = r.lands H gk idx := by
  have h1 := inBins'_iff H.fixed r.fvals h.fixed idx
  have h2 := inGroup_iff H.groups r.gvals gk h.groups.length_eq
  unfold Event.lands Row.lands
  rw [Bool.eq_iff_iff, Bool.and_eq_true, Bool.and_eq_true, decide_eq_true_iff, decide_eq_true_iff, h1, h2]
  rfl

theorem total_events (H : HistDef) (rows : List Row) (h : ∀ r ∈ rows, r.Ok H) (gk : List Key) (idx : List ℕ) (col : ℕ) :
    total H.layout (rows.map (Row.event H)) gk idx col = binTotal H rows gk idx col := by
  unfold total binTotal
  rw [List.filter_map, List.map_map]
  have : rows.filter ((Event.lands gk idx) ∘ Row.event H) = rows.filter (Row.lands H gk idx) := by
    apply List.filter_congr
    intro r hr
    exact event_lands H r (h r hr) gk idx
  rw [this]
  congr 1

theorem not_leftOut (H : HistDef) (r : Row) (h : r.Ok H) (hl : ¬ r.leftOut H) : none ∉ (r.event H).cells := by
  unfold Row.leftOut at hl
  push Not at hl
  obtain ⟨idx, hi⟩ := hl
  have := (inBins'_iff H.fixed r.fvals h.fixed idx).1 (by simpa using hi)
  simp only [Row.event, this]
  simp

theorem hasGroup_nil : ∀ (n : ℕ) (c : Content Arr n), HasGroup n c []
  | 0, _ => rfl
  | _ + 1, _ => trivial

theorem prefill_facts (H : HistDef) (st : H.State) (hg : H.Good st) :
    Shaped H.layout H.groups.length (prefill H.layout st) ∧
    (∀ gk idx col, lookup H.groups.length (prefill H.layout st) gk idx col = H.read st gk idx col) ∧
    (∀ gk, HasGroup H.groups.length (prefill H.layout st) gk ↔ H.has st gk ∨ gk = []) := by
  cases st with
  | some c =>
    refine ⟨hg, fun _ _ _ => rfl, fun gk => ⟨Or.inl, ?_⟩⟩
    rintro (h | rfl)
    · exact h
    · exact hasGroup_nil _ _
  | none =>
    refine ⟨shaped_empty _ _ _ _ _, fun gk idx col => lookup_empty _ _ _ _ _, fun gk => ?_⟩
    have := hasGroup_empty H.layout H.groups.length gk
    simp only [HistDef.has, false_or]
    exact this

/-- `fill` adds every row to its group and bin. -/
theorem fill_rows (H : HistDef) (st : H.State) (hg : H.Good st) (rows : List Row) (h : ∀ r ∈ rows, r.Ok H)
    (hp : H.nprof = 0 ∨ ∀ r ∈ rows, ¬ r.leftOut H) :
    ∃ st', H.fill st rows = .ok st' ∧ st'.isSome = true ∧ H.Good st' ∧
      (∀ gk, gk.length ≤ H.groups.length → (H.has st' gk ↔ H.has st gk ∨
        ∀ (i : ℕ) (k : Key), gk[i]? = some k → ∃ r ∈ rows, (List.zipWith GroupAxis.key H.groups r.gvals).getD i none = some k)) ∧
      ∀ gk, gk.length = H.groups.length → ∀ idx, H.Cell idx → ∀ col,
        H.read st' gk idx col = H.read st gk idx col + binTotal H rows gk idx col := by
  obtain ⟨d, hd1, hd2⟩ := columns_ok H rows h
  obtain ⟨p1, p2, p3⟩ := prefill_facts H st hg
  obtain ⟨c', h1, h2, h3, h4⟩ := postfill_events H.groups.length (H.fixed.map FixedAxis.totbins) H.nprof H.wkind
    (rows.map (Row.event H)) (by
      intro e he
      obtain ⟨r, hr, rfl⟩ := List.mem_map.1 he
      exact event_fits H r (h r hr))
    (hp.imp id (by
      intro hp e he
      obtain ⟨r, hr, rfl⟩ := List.mem_map.1 he
      exact not_leftOut H r (h r hr) (hp r hr)))
    d hd2 (prefill H.layout st) p1
  refine ⟨some c', ?_, rfl, h2, ?_, ?_⟩
  · unfold HistDef.fill
    simp only [hd1]
    rw [List.length_map] at h1
    have : postfill H.layout rows.length d (prefill H.layout st) = .ok c' := h1
    rw [this]
  · intro gk hgk
    have := h3 gk hgk
    rw [p3 gk] at this
    simp only [HistDef.has] at this ⊢
    rw [this]
    simp only [List.mem_map, exists_exists_and_eq_and]
    have h0 : gk = [] → ∀ (i : ℕ) (k : Key), gk[i]? = some k →
        ∃ a ∈ rows, (List.zipWith GroupAxis.key H.groups a.gvals).getD i none = some k := by
      rintro rfl i k hi
      simp at hi
    constructor
    · rintro ((h | h) | h)
      · exact Or.inl h
      · exact Or.inr (h0 h)
      · exact Or.inr h
    · rintro (h | h)
      · exact Or.inl (Or.inl h)
      · exact Or.inr h
  · intro gk hgk idx hidx col
    have := h4 gk hgk idx hidx col
    rw [p2] at this
    have e := total_events H rows h gk idx col
    unfold HistDef.layout at e
    rw [e] at this
    exact this

end Verif
