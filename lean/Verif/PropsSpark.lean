import Verif.SparkLemmas

/-!
# Filling from Spark (C71)
-/

namespace Verif

/-- The bin of an axis that Spark counts a value in (`none`: in no bin). -/
def FixedAxis.sparkBin (a : FixedAxis) (v : Val) : Except Err (Option ℕ) :=
  match a.sparkIndex v with
  | .error e => .error e
  | .ok i => a.sparkPlace i

/-- C71, one axis: a value of a type that Spark can handle is counted in the published bin that it
belongs to, and in no bin if there is none — as long as no flow bin is switched off that it would
need (`sparkRight`).  Missing: the other values, for which it is false (`C71_refuted_under`,
`C71_refuted_over`, `C71_refuted_nan`, `C71_refuted_integer`, `C71_refuted_infinity`). -/
theorem C71_axis_partial (a : FixedAxis) (ha : a.Built) (v : Val) (hf : a.sparkFits v) (hr : a.sparkRight v) :
    ∃ r, a.sparkBin v = .ok r ∧ ∀ j, r = some j ↔ a.holds j v = true := by
  have flow : ∀ {e n u o na cl}, FlowAxis a e n u o na cl → v.isBool = false →
      (a.hasOver = true ∨ a.hasNan = false ∨ (a.isOver v = false ∧ v.isNaN = false)) →
      ∃ r, a.sparkBin v = .ok r ∧ ∀ j, r = some j ↔ a.holds j v = true := by
    intro e n u o na cl h hb ho
    rw [h.over, h.nan] at ho
    have hu := hr.1
    rw [h.under] at hu
    unfold FixedAxis.sparkBin
    by_cases hv : v.toNum = .nan
    · rw [h.isnan v hv]
      simp only
      rw [h.place, h.totbins]
      refine flow_axis_nan e n u o na cl a v h.keys hv ?_
      rcases ho with ho | ho | ⟨_, ho⟩
      · exact Or.inl ho
      · exact Or.inr ho
      · exfalso
        cases v <;> simp_all [Val.toNum, Val.isNaN]
    · obtain ⟨p, hp, hi, hab⟩ := h.number v hf hv
      rw [hi]
      simp only
      rw [h.place, h.totbins]
      obtain ⟨h1, h2, h3⟩ := flow_axis e n u o na cl a v h.keys hb hv p hp hab
      rw [← h.isUnder] at h1
      rw [← h.isOver] at h2
      refine h3 ?_ ?_
      · rcases hu with hu | hu
        · exact Or.inl hu
        · right; intro hp0; rw [h1.2 hp0] at hu; cases hu
      · rcases ho with ho | ho | ⟨ho, _⟩
        · exact Or.inl ho
        · exact Or.inr (Or.inl ho)
        · right; right; intro hp0; rw [h2.2 hp0] at ho; cases ho
  cases a with
  | bin a => exact flow (flowAxis_bin a ha) hf.1 hr.2
  | split a => exact flow (flowAxis_split a ha) hf hr.2
  | cut =>
    cases v with
    | bool b =>
      refine ⟨_, rfl, ?_⟩
      intro j
      match j with
      | 0 => cases b <;> simp [FixedAxis.holds, FixedAxis.keys, Val.In]
      | 1 => cases b <;> simp [FixedAxis.holds, FixedAxis.keys, Val.In]
      | j + 2 => cases b <;> simp [FixedAxis.holds, FixedAxis.keys]
    | num v => cases hf
    | int v => cases hf
  | intbin a =>
    obtain ⟨hb, i, hi⟩ := hf
    obtain ⟨m, M, u, o, ha⟩ := ha
    unfold IntbinAxis.init at ha
    split at ha
    · cases ha
    rename_i hm
    cases ha
    have hidx : FixedAxis.sparkIndex (.intbin ⟨m, M, u, o⟩) v = .ok (Max.max 0 (Min.min (M - m + 1) (i - m + 1))) := by
      have h := IntbinAxis.sparkIndex_fin ⟨m, M, u, o⟩ i
      simp only at h
      rw [← h, ← hi]
      cases v <;> first | rfl | cases hb
    have hin : ∀ l, (∀ b, l ≠ .bool b) → v.In l = decide (l.mem v.toNum) := fun l h => Val.in_iv l v h
    have hu : u = true ∨ m ≤ i := by
      rcases hr.1 with h | h
      · exact Or.inl h
      · right
        change v.In (.iv .ninf (.fin (m : ℤ)) true false) = false at h
        rw [hin _ (by simp), hi] at h
        simpa [BinLabel.mem, Num.le, Num.lt] using h
    have hover : i ≤ M := by
      have h := hr.2
      change v.In (.iv (.fin (M : ℤ)) .pinf false true) = false at h
      rw [hin _ (by simp), hi] at h
      simpa [BinLabel.mem, Num.le, Num.lt] using h
    unfold FixedAxis.sparkBin
    rw [hidx]
    simp only
    rw [intbin_place m M u o (by omega) i hover hu]
    refine ⟨_, rfl, ?_⟩
    refine holds_iff _ v _ (fun l hl => hin l (IntbinAxis.keys_not_bool _ l hl)) ?_
    rw [hi]
    exact IntbinAxis.clamp_correct _ (by simp only; omega) _ _ (Or.inl rfl)

example : (FixedAxis.bin ⟨2, 0, 1, true, true, true, true⟩).Built ∧
    (FixedAxis.bin ⟨2, 0, 1, true, true, true, true⟩).sparkFits (.num (.fin (3 / 4))) ∧
    (FixedAxis.bin ⟨2, 0, 1, true, true, true, true⟩).sparkRight (.num (.fin (3 / 4))) ∧
    (FixedAxis.bin ⟨2, 0, 1, true, true, true, true⟩).sparkBin (.num (.fin (3 / 4))) = .ok (some 2) := by
  refine ⟨⟨2, 0, 1, true, true, true, true, by omega, by decide +kernel⟩, ⟨rfl, by simp [Val.toNum], ?_⟩,
    ⟨Or.inl rfl, Or.inl rfl⟩, by decide +kernel⟩
  intro q hq
  simp [Val.toNum] at hq
  subst hq
  norm_num

/-- C71 is false of axes without an underflow bin: every value below such an axis, which belongs to
no bin, is counted in the last bin (the index -1). -/
theorem C71_refuted_under (a : FixedAxis) (ha : a.Built) (v : Val) (hf : a.sparkFits v) (hu : a.hasUnder = false)
    (hv : a.isUnder v = true) : a.sparkBin v = .ok (some (a.totbins - 1)) ∧ ∀ j, a.holds j v = false := by
  have flow : ∀ {e n u o na cl}, FlowAxis a e n u o na cl → v.isBool = false →
      a.sparkBin v = .ok (some (a.totbins - 1)) ∧ ∀ j, a.holds j v = false := by
    intro e n u o na cl h hb
    have hnn : v.toNum ≠ .nan := by
      intro hn
      rw [h.isUnder, Val.in_iv _ _ (by simp), hn] at hv
      simp [BinLabel.mem, Num.le] at hv
    rw [h.under] at hu
    subst hu
    obtain ⟨p, hp, hi, hab⟩ := h.number v hf hnn
    obtain ⟨h1, h2, h3⟩ := flow_axis e n _ o na cl a v h.keys hb hnn p hp hab
    rw [← h.isUnder] at h1
    have hp0 := h1.1 hv
    subst hp0
    constructor
    · unfold FixedAxis.sparkBin
      rw [hi]
      simp only
      have hpos := h.pos
      rw [h.totbins] at hpos
      rw [h.place, h.totbins]
      have := flow_under o na n hpos
      simp only [b2n, Bool.false_eq_true, if_false, Nat.add_zero] at this ⊢
      exact this
    · intro j
      have hc := finish_correct e n false o na cl v.toNum hnn 0 hp hab
      rw [← h.keys] at hc
      have := holds_iff a v _ (fun l hl => by
        refine Val.in_iv l v ?_
        rw [h.keys] at hl
        intro b hb'
        subst hb'
        obtain ⟨i, hi⟩ := List.getElem?_of_mem hl
        rw [flowKeys_get] at hi
        rcases hi with ⟨_, _, h⟩ | ⟨_, _, _, h⟩ | ⟨_, _, h⟩ | ⟨_, _, h⟩ <;> cases h) hc j
      rw [Bool.eq_false_iff, ne_eq, ← this]
      simp [finish]
  cases a with
  | bin a => exact flow (flowAxis_bin a ha) hf.1
  | split a => exact flow (flowAxis_split a ha) hf
  | cut => cases hv
  | intbin a =>
    obtain ⟨hb, i, hi⟩ := hf
    obtain ⟨m, M, u, o, ha⟩ := ha
    unfold IntbinAxis.init at ha
    split at ha
    · cases ha
    rename_i hm
    cases ha
    have hidx : FixedAxis.sparkIndex (.intbin ⟨m, M, u, o⟩) v = .ok (Max.max 0 (Min.min (M - m + 1) (i - m + 1))) := by
      have h := IntbinAxis.sparkIndex_fin ⟨m, M, u, o⟩ i
      simp only at h
      rw [← h, ← hi]
      cases v <;> first | rfl | cases hb
    have hin : ∀ l, (∀ b, l ≠ .bool b) → v.In l = decide (l.mem v.toNum) := fun l h => Val.in_iv l v h
    change v.In (.iv .ninf (.fin (m : ℤ)) true false) = true at hv
    rw [hin _ (by simp), hi] at hv
    have hlt : i < m := by simpa [BinLabel.mem, Num.le, Num.lt] using hv
    change u = false at hu
    subst hu
    constructor
    · unfold FixedAxis.sparkBin
      rw [hidx]
      have : Max.max 0 (Min.min (M - m + 1) (i - m + 1)) = 0 := by omega
      simp only [this]
      unfold FixedAxis.sparkPlace FixedAxis.sparkPlace.flow normIndex FixedAxis.totbins IntbinAxis.totbins IntbinAxis.numbins
      cases o <;> simp [b2i] <;> split_ifs <;> first | (exfalso; omega; done) | (simp; done) | (simp; omega)
    · intro j
      have hc := IntbinAxis.clamp_correct ⟨m, M, false, o⟩ (by simp only; omega) _ i (Or.inl rfl)
      rw [← hi] at hc
      have := holds_iff (.intbin ⟨m, M, false, o⟩) v _ (fun l hl => hin l (IntbinAxis.keys_not_bool _ l hl)) hc j
      rw [Bool.eq_false_iff, ne_eq, ← this]
      have hneg : i + (b2i false - m) < 0 := by simp [b2i]; omega
      have hcl : IntbinAxis.clamp ⟨m, M, false, o⟩ (i + (b2i false - m)) = none := by
        unfold IntbinAxis.clamp
        simp only [Bool.false_eq_true, if_false, Option.bind_some, if_pos hneg]
        cases o <;> rfl
      rw [hcl]
      simp

example : (FixedAxis.bin ⟨2, 0, 1, false, true, false, true⟩).sparkBin (.num (.fin (-1))) = .ok (some 2) ∧
    (FixedAxis.bin ⟨2, 0, 1, false, true, false, true⟩).isUnder (.num (.fin (-1))) = true := by decide +kernel

/-- C71 is false of axes with a NaN bin but no overflow bin: every value above such an axis, which
belongs to no bin, is counted as NaN. -/
theorem C71_refuted_over (a : FixedAxis) (ha : a.Built) (v : Val) (hf : a.sparkFits v) (ho : a.hasOver = false)
    (hna : a.hasNan = true) (hv : a.isOver v = true) :
    a.sparkBin v = .ok (some (a.totbins - 1)) ∧ a.keys[a.totbins - 1]? = some .nan ∧ ∀ j, a.holds j v = false := by
  have flow : ∀ {e n u o na cl}, FlowAxis a e n u o na cl → v.isBool = false →
      a.sparkBin v = .ok (some (a.totbins - 1)) ∧ a.keys[a.totbins - 1]? = some .nan ∧ ∀ j, a.holds j v = false := by
    intro e n u o na cl h hb
    have hnn : v.toNum ≠ .nan := by
      intro hn
      rw [h.isOver, Val.in_iv _ _ (by simp), hn] at hv
      simp [BinLabel.mem, Num.le] at hv
    rw [h.over] at ho
    rw [h.nan] at hna
    subst ho hna
    obtain ⟨p, hp, hi, hab⟩ := h.number v hf hnn
    obtain ⟨h1, h2, h3⟩ := flow_axis e n u _ _ cl a v h.keys hb hnn p hp hab
    rw [← h.isOver] at h2
    have hp0 := h2.1 hv
    subst hp0
    have htot : a.totbins - 1 = n + b2n u := by rw [h.totbins]; simp [b2n]
    refine ⟨?_, ?_, ?_⟩
    · unfold FixedAxis.sparkBin
      rw [hi, htot]
      simp only
      rw [h.place, h.totbins]
      have := flow_over u n
      push_cast
      exact this
    · rw [htot, h.keys, flowKeys_get]
      exact Or.inr (Or.inr (Or.inr ⟨rfl, by simp [b2n], rfl⟩))
    · intro j
      have hc := finish_correct e n u false true cl v.toNum hnn (n + 1) hp hab
      rw [← h.keys] at hc
      have := holds_iff a v _ (fun l hl => by
        refine Val.in_iv l v ?_
        rw [h.keys] at hl
        intro b hb'
        subst hb'
        obtain ⟨i, hi⟩ := List.getElem?_of_mem hl
        rw [flowKeys_get] at hi
        rcases hi with ⟨_, _, h⟩ | ⟨_, _, _, h⟩ | ⟨_, _, h⟩ | ⟨_, _, h⟩ <;> cases h) hc j
      rw [Bool.eq_false_iff, ne_eq, ← this]
      simp [finish]
  cases a with
  | bin a => exact flow (flowAxis_bin a ha) hf.1
  | split a => exact flow (flowAxis_split a ha) hf
  | cut => cases hv
  | intbin a => cases hna

/-- C71 is false of axes with a NaN bin but no overflow bin: NaN is not counted. -/
theorem C71_refuted_nan (a : FixedAxis) (ha : a.Built) (ho : a.hasOver = false) (hna : a.hasNan = true) :
    a.sparkBin (.num .nan) = .ok none ∧ a.holds (a.totbins - 1) (.num .nan) = true := by
  have flow : ∀ {e n u o na cl}, FlowAxis a e n u o na cl →
      a.sparkBin (.num .nan) = .ok none ∧ a.holds (a.totbins - 1) (.num .nan) = true := by
    intro e n u o na cl h
    rw [h.over] at ho
    rw [h.nan] at hna
    subst ho hna
    have htot : a.totbins - 1 = n + b2n u := by rw [h.totbins]; simp [b2n]
    constructor
    · unfold FixedAxis.sparkBin
      rw [h.isnan _ rfl]
      simp only
      rw [h.place, h.totbins]
      exact flow_nan_lost u n
    · have hk : a.keys[a.totbins - 1]? = some .nan := by
        rw [htot, h.keys, flowKeys_get]
        exact Or.inr (Or.inr (Or.inr ⟨rfl, by simp [b2n], rfl⟩))
      unfold FixedAxis.holds
      rw [hk]
      rfl
  cases a with
  | bin a => exact flow (flowAxis_bin a ha)
  | split a => exact flow (flowAxis_split a ha)
  | cut => cases hna
  | intbin a => cases hna

example : (FixedAxis.split ⟨[0, 1], true, false, true, true⟩).hasOver = false ∧
    (FixedAxis.split ⟨[0, 1], true, false, true, true⟩).hasNan = true ∧
    (FixedAxis.split ⟨[0, 1], true, false, true, true⟩).isOver (.num (.fin 5)) = true ∧
    (FixedAxis.split ⟨[0, 1], true, false, true, true⟩).sparkBin (.num (.fin 5)) = .ok (some 2) ∧
    (FixedAxis.split ⟨[0, 1], true, false, true, true⟩).sparkBin (.num .nan) = .ok none := by decide +kernel

/-- C71 is false of integer axes: every value above the axis is counted as if it were the largest
integer of the axis, whether or not there is an overflow bin. -/
theorem C71_refuted_integer (a : IntbinAxis) (ha : (FixedAxis.intbin a).Built) (v : Val)
    (hf : (FixedAxis.intbin a).sparkFits v) (hv : (FixedAxis.intbin a).isOver v = true) :
    ∃ j, (FixedAxis.intbin a).sparkBin v = .ok (some j) ∧ a.keys[j]? = some (.int a.max) ∧
      (FixedAxis.intbin a).holds j v = false := by
  obtain ⟨hb, i, hi⟩ := hf
  obtain ⟨m, M, u, o, ha⟩ := ha
  unfold IntbinAxis.init at ha
  split at ha
  · cases ha
  rename_i hm
  cases ha
  have hidx : FixedAxis.sparkIndex (.intbin ⟨m, M, u, o⟩) v = .ok (Max.max 0 (Min.min (M - m + 1) (i - m + 1))) := by
    have h := IntbinAxis.sparkIndex_fin ⟨m, M, u, o⟩ i
    simp only at h
    rw [← h, ← hi]
    cases v <;> first | rfl | cases hb
  have hin : ∀ l, (∀ b, l ≠ .bool b) → v.In l = decide (l.mem v.toNum) := fun l h => Val.in_iv l v h
  change v.In (.iv (.fin (M : ℤ)) .pinf false true) = true at hv
  rw [hin _ (by simp), hi] at hv
  have hlt : M < i := by simpa [BinLabel.mem, Num.le, Num.lt] using hv
  have hkey : (IntbinAxis.keys ⟨m, M, u, o⟩)[(M - m).toNat + b2n u]? = some (.int M) := by
    have h2 : (M - m).toNat < (M - m + 1).toNat := by omega
    have h3 : m + Max.max (M - m) 0 = M := by omega
    unfold IntbinAxis.keys IntbinAxis.numbins
    cases u <;> simp [b2n, List.getElem?_append, h2, h3]
  refine ⟨(M - m).toNat + b2n u, ?_, hkey, ?_⟩
  · unfold FixedAxis.sparkBin
    rw [hidx]
    have : Max.max 0 (Min.min (M - m + 1) (i - m + 1)) = M - m + 1 := by omega
    simp only [this]
    unfold FixedAxis.sparkPlace FixedAxis.sparkPlace.flow normIndex IntbinAxis.totbins IntbinAxis.numbins
    cases u <;> cases o <;> simp [b2i, b2n] <;> split_ifs <;>
      first | (exfalso; omega; done) | (simp; done) | (simp; omega)
  · unfold FixedAxis.holds FixedAxis.keys
    rw [hkey]
    simp only
    rw [hin _ (by simp), hi]
    simp [BinLabel.mem]
    omega

example : (FixedAxis.intbin ⟨0, 9, true, true⟩).isOver (.int 1000) = true ∧
    (FixedAxis.intbin ⟨0, 9, true, true⟩).sparkBin (.int 1000) = .ok (some 10) ∧
    (FixedAxis.intbin ⟨0, 9, true, true⟩).keys[10]? = some (.int 9) := by decide +kernel

/-- C71 is false of integer axes: NaN and infinity are counted as if they were the largest integer of the axis. -/
theorem C71_refuted_integer_nan (a : IntbinAxis) (ha : (FixedAxis.intbin a).Built) (v : Num) (hv : v = .nan ∨ v = .pinf) :
    ∃ j, (FixedAxis.intbin a).sparkBin (.num v) = .ok (some j) ∧ a.keys[j]? = some (.int a.max) ∧
      (FixedAxis.intbin a).holds j (.num v) = false := by
  obtain ⟨m, M, u, o, ha⟩ := ha
  unfold IntbinAxis.init at ha
  split at ha
  · cases ha
  rename_i hm
  cases ha
  have hidx : FixedAxis.sparkIndex (.intbin ⟨m, M, u, o⟩) (.num v) = .ok (Max.max 0 (M - m + 1)) := by
    rcases hv with rfl | rfl <;> rfl
  have hkey : (IntbinAxis.keys ⟨m, M, u, o⟩)[(M - m).toNat + b2n u]? = some (.int M) := by
    have h2 : (M - m).toNat < (M - m + 1).toNat := by omega
    have h3 : m + Max.max (M - m) 0 = M := by omega
    unfold IntbinAxis.keys IntbinAxis.numbins
    cases u <;> simp [b2n, List.getElem?_append, h2, h3]
  refine ⟨(M - m).toNat + b2n u, ?_, hkey, ?_⟩
  · unfold FixedAxis.sparkBin
    rw [hidx]
    have : Max.max 0 (M - m + 1) = M - m + 1 := by omega
    simp only [this]
    unfold FixedAxis.sparkPlace FixedAxis.sparkPlace.flow normIndex IntbinAxis.totbins IntbinAxis.numbins
    cases u <;> cases o <;> simp [b2i, b2n] <;> split_ifs <;>
      first | (exfalso; omega; done) | (simp; done) | (simp; omega)
  · unfold FixedAxis.holds FixedAxis.keys
    simp only [hkey]
    rcases hv with rfl | rfl <;> rfl

example : (FixedAxis.intbin ⟨0, 3, true, false⟩).Built := ⟨0, 3, true, false, rfl⟩

/-- C71 is false of infinity: on every `bin` axis that is closed below, `inf` is counted in the
underflow bin. -/
theorem C71_refuted_infinity (a : BinAxis) (ha : (FixedAxis.bin a).Built) (hu : a.underflow = true) (hc : a.closedlow = true) :
    (FixedAxis.bin a).sparkBin (.num .pinf) = .ok (some 0) ∧
    (FixedAxis.bin a).keys[0]? = some (.iv .ninf (.fin a.low) true false) ∧
    (FixedAxis.bin a).holds 0 (.num .pinf) = false := by
  have hfl := flowAxis_bin a ha
  obtain ⟨numbins, low, high, u, o, n, cl, hn, hi⟩ := ha
  obtain ⟨rfl, hlh, _, ht⟩ := BinAxis.init_ok hi
  have hlh := hlh hn
  simp only at hu hc
  subst hu hc
  have hk : (FixedAxis.bin ⟨numbins, low, high, true, o, n, true⟩).keys[0]? = some (.iv .ninf (.fin low) true false) := by
    rw [hfl.keys, flowKeys_get]
    exact Or.inl ⟨rfl, rfl, by rw [BinAxis.i2x_zero]; rfl⟩
  refine ⟨?_, hk, ?_⟩
  · unfold FixedAxis.sparkBin
    have : (FixedAxis.bin ⟨numbins, low, high, true, o, n, true⟩).sparkIndex (.num .pinf) = .ok 0 :=
      BinAxis.sparkIndex_pinf _ hn hlh rfl
    rw [this]
    simp only
    rw [hfl.place, hfl.totbins]
    have := flow_right true o n numbins 0 (by omega) (Or.inl rfl) (Or.inr (Or.inr (by omega)))
    exact this
  · unfold FixedAxis.holds
    rw [hk]
    rfl

/-- C71: filling a histogram with a Spark DataFrame adds every row to its group and bin, and nothing
else, whatever the order in which Spark returns the sums, for histograms of any number of axes and
profiles; and then every bin reads the same as after filling with the same rows as arrays.
Missing: values on axes without the flow bins that they need (`C71_axis_partial`); groups that the
histogram does not have yet (`C71_refuted_groups`); a filter without a weight (`C71_refuted_filter`,
`C71_refuted_filter_profile`); a NaN weight (`C71_refuted_nan_weight`). -/
theorem C71_fill_partial (H : HistDef) (weighted : Bool) (hw : weighted = decide (H.wkind ≠ .none))
    (collect : List (List Key × List ℤ) → List (List Key × List ℤ)) (hc : ∀ l, (collect l).Perm l)
    (st : H.State) (hg : H.Good st) (rows : List Row) (hr : ∀ r ∈ rows, r.SparkOk H)
    (hgk : H.groups = [] ∨ ∀ r ∈ rows, ∀ gk, inGroup H.groups r.gvals gk = true → H.has st gk) :
    ∃ st', H.fillspark weighted collect st rows = .ok st' ∧ H.Good st' ∧
      (∀ gk, H.has st' gk ↔ H.has st gk ∨ gk = []) ∧
      (∀ gk, gk.length = H.groups.length → ∀ idx, ∀ col < H.layout.ncols,
        H.read st' gk idx col = H.read st gk idx col + binTotal H rows gk idx col) ∧
      ((∀ r ∈ rows, r.Ok H) → (H.nprof = 0 ∨ ∀ r ∈ rows, ¬ r.leftOut H) →
        ∃ st2, H.fill st rows = .ok st2 ∧ ∀ gk, gk.length = H.groups.length → ∀ idx, H.Cell idx →
          ∀ col < H.layout.ncols, H.read st' gk idx col = H.read st2 gk idx col) := by
  -- the index of each row
  have hrow : ∀ r ∈ rows, ∃ k : List Key × List ℤ, r.sparkIndex H = .ok k ∧ k.1.length = H.groups.length ∧
      (∀ gk, inGroup H.groups r.gvals gk = true ↔ k.1 = gk) ∧
      ∃ p, sparkPlaces H.fixed k.2 = .ok p ∧ ∀ idx, p = some idx ↔ inBins' H.fixed r.fvals idx = true := by
    intro r hr'
    have hok := hr r hr'
    obtain ⟨ks, h1, h2, h3⟩ := sparkKeys_eq hok.groups
    obtain ⟨is, p, h4, h5, h6⟩ := sparkIndexes_eq (hok.fixed.imp (fun a v h => by
      obtain ⟨q, hq1, hq2⟩ := C71_axis_partial a h.1 v h.2.1 h.2.2
      unfold FixedAxis.sparkBin at hq1
      cases hi : a.sparkIndex v with
      | error e => rw [hi] at hq1; cases hq1
      | ok i => rw [hi] at hq1; exact ⟨q, ⟨i, rfl, hq1⟩, hq2⟩))
    exact ⟨(ks, is), by simp only [Row.sparkIndex, h1, h4], h2, h3, p, h5, h6⟩
  let ix : Row → List Key × List ℤ := fun r => match r.sparkIndex H with | .ok k => k | .error _ => ([], [])
  have hix : ∀ r ∈ rows, r.sparkIndex H = .ok (ix r) := by
    intro r hr'
    obtain ⟨k, hk, _⟩ := hrow r hr'
    simp only [ix, hk]
  have hrow' : ∀ r ∈ rows, (ix r).1.length = H.groups.length ∧
      (∀ gk, inGroup H.groups r.gvals gk = true ↔ (ix r).1 = gk) ∧
      ∃ p, sparkPlaces H.fixed (ix r).2 = .ok p ∧ ∀ idx, p = some idx ↔ inBins' H.fixed r.fvals idx = true := by
    intro r hr'
    obtain ⟨k, hk, h⟩ := hrow r hr'
    have : ix r = k := by simp only [ix, hk]
    rw [this]; exact h
  have hmap : mapE (Row.sparkIndex H) rows = .ok (rows.map ix) := mapE_ok _ _ _ hix
  have hperm := hc (rows.map ix).dedup
  have hnd : (collect (rows.map ix).dedup).Nodup := hperm.nodup_iff.2 (List.nodup_dedup _)
  have hmem : ∀ k, k ∈ collect (rows.map ix).dedup ↔ ∃ r ∈ rows, ix r = k := by
    intro k
    rw [hperm.mem_iff, List.mem_dedup, List.mem_map]
  -- the sums of the query
  let L : List ((List Key × List ℤ) × List ℚ) := (collect (rows.map ix).dedup).map (fun k =>
    (k, (List.range H.layout.ncols).map (fun c => ((rows.filter (fun r => ix r = k)).map (fun r => r.adds H c)).sum)))
  have hquery : (collect (rows.map ix).dedup).map (sparkQuery H weighted (rows.zip (rows.map ix))) =
      L.map (fun p => (p.1, p.2.map some)) := by
    simp only [L, List.map_map]
    apply List.map_congr_left
    intro k hk
    obtain ⟨r0, hr0, hk0⟩ := (hmem k).1 hk
    have hz : rows.zip (rows.map ix) = rows.map (fun r => (r, ix r)) := by
      clear hmap hperm hnd hmem hr0 hk hc hix hrow hrow' hr hgk L
      induction rows with
      | nil => rfl
      | cons r rows ih => simp only [List.map_cons, List.zip_cons_cons, ih]
    unfold sparkQuery
    simp only [Function.comp]
    congr 1
    rw [hz, List.filter_map, List.map_map]
    have hcols : (rows.filter ((fun p : Row × List Key × List ℤ => decide (p.2 = k)) ∘ fun r => (r, ix r))).map
        ((fun p : Row × List Key × List ℤ => p.1.sparkColumns H weighted) ∘ fun r => (r, ix r)) =
        (rows.filter (fun r => ix r = k)).map (fun r => (List.range H.layout.ncols).map (fun c => some (r.adds H c))) := by
      apply List.map_congr_left
      intro r hr'
      have hr'' := (List.mem_filter.1 hr').1
      exact sparkColumns_eq H weighted hw r (hr r hr'').xs (hr r hr'').weight
    rw [hcols, sumColumns_eq]
    · rw [List.map_map]; rfl
    · intro hnil
      have : r0 ∈ rows.filter (fun r => ix r = k) := List.mem_filter.2 ⟨hr0, by simpa using hk0⟩
      rw [hnil] at this
      simp at this
  obtain ⟨p1, p2, p3⟩ := prefill_facts H st hg
  obtain ⟨c', h1, h2, h3, h4⟩ := sparkLoop_eq H L (prefill H.layout st) p1 (by
    intro q hq
    obtain ⟨k, hk, rfl⟩ := List.mem_map.1 hq
    obtain ⟨r, hr', rfl⟩ := (hmem k).1 hk
    obtain ⟨a1, a2, p, a3, _⟩ := hrow' r hr'
    refine ⟨a1, ?_, ⟨p, a3⟩, by simp⟩
    rw [p3]
    rcases hgk with hgk | hgk
    · right
      apply List.length_eq_zero_iff.1
      rw [a1, hgk]; rfl
    · left
      exact hgk r hr' _ ((a2 _).2 rfl))
  have hread : ∀ gk, gk.length = H.groups.length → ∀ idx, ∀ col < H.layout.ncols,
        lookup H.groups.length c' gk idx col = H.read st gk idx col + binTotal H rows gk idx col := by
    intro gk hl idx col hcol
    rw [h4 gk hl idx col, p2]
    congr 1
    simp only [L, List.map_map]
    have e : ((fun p : (List Key × List ℤ) × List ℚ => if p.1.1 = gk ∧ sparkPlaces H.fixed p.1.2 = .ok (some idx) then p.2.getD col 0 else 0) ∘
        fun k => (k, (List.range H.layout.ncols).map (fun c => ((rows.filter (fun r => ix r = k)).map (fun r => r.adds H c)).sum))) =
        fun k => if k.1 = gk ∧ sparkPlaces H.fixed k.2 = .ok (some idx) then
          ((rows.filter (fun r => ix r = k)).map (fun r => r.adds H col)).sum else 0 := by
      funext k
      simp only [Function.comp]
      have : ((List.range H.layout.ncols).map (fun c => ((rows.filter (fun r => ix r = k)).map (fun r => r.adds H c)).sum)).getD col 0 =
          ((rows.filter (fun r => ix r = k)).map (fun r => r.adds H col)).sum := by
        simp [List.getD, hcol]
      rw [this]
    rw [e, sum_partition ix (fun k => k.1 = gk ∧ sparkPlaces H.fixed k.2 = .ok (some idx)) (fun r => r.adds H col) _ hnd rows
      (fun r hr' => (hmem _).2 ⟨r, hr', rfl⟩)]
    unfold binTotal
    congr 2
    apply List.filter_congr
    intro r hr'
    obtain ⟨_, a2, p, a3, a4⟩ := hrow' r hr'
    rw [Bool.eq_iff_iff, decide_eq_true_iff, Row.lands, Bool.and_eq_true, a2, a3, ← a4]
    simp only [Except.ok.injEq]
  refine ⟨some c', ?_, h2, ?_, hread, ?_⟩
  · unfold HistDef.fillspark
    rw [hmap]
    simp only
    rw [hquery, h1]
  · intro gk
    exact (h3 gk).trans (p3 gk)
  · intro hok hp
    obtain ⟨st2, k1, _, _, _, k5⟩ := fill_rows H st hg rows hok hp
    refine ⟨st2, k1, ?_⟩
    intro gk hl idx hcell col hcol
    rw [k5 gk hl idx hcell col]
    exact hread gk hl idx col hcol

/-- A histogram with a group axis, two fixed axes, a profile and a weight. -/
def exSpark : HistDef := ⟨[.groupby], [.bin ⟨2, 0, 1, true, true, true, true⟩, .cut], 1, .expr⟩

/-- Three rows of its data: two in the same bin, one in the underflow bin. -/
def exSparkRows : List Row :=
  [⟨[.key (.str "a")], [.num (.fin (3 / 4)), .bool true], [2], some 3⟩,
   ⟨[.key (.str "a")], [.num (.fin (4 / 5)), .bool true], [1], some 1⟩,
   ⟨[.key (.str "b")], [.num .ninf, .bool false], [5], some 2⟩]

/-- Its content with the two groups, still empty. -/
def exSparkState : exSpark.State := some (([(.str "a", Arr.zeros [5, 2] 4), (.str "b", Arr.zeros [5, 2] 4)] : List (Key × Arr)))

theorem exSparkRows_ok : ∀ r ∈ exSparkRows, r.SparkOk exSpark := by
  have hb : (FixedAxis.bin ⟨2, 0, 1, true, true, true, true⟩).Built :=
    ⟨2, 0, 1, true, true, true, true, by omega, by decide +kernel⟩
  have hf : ∀ x : Num, x ≠ .pinf → (∀ q, x = .fin q → q ≤ 1) →
      (FixedAxis.bin ⟨2, 0, 1, true, true, true, true⟩).sparkFits (.num x) := by
    intro x hx hq
    refine ⟨rfl, hx, ?_⟩
    intro q h
    have := hq q h
    norm_num
    linarith
  have hr : ∀ x : Num, (FixedAxis.bin ⟨2, 0, 1, true, true, true, true⟩).sparkRight (.num x) :=
    fun x => ⟨Or.inl rfl, Or.inl rfl⟩
  have hcut : ∀ b, FixedAxis.cut.Built ∧ FixedAxis.cut.sparkFits (.bool b) ∧ FixedAxis.cut.sparkRight (.bool b) :=
    fun b => ⟨trivial, rfl, Or.inr rfl, Or.inr (Or.inl rfl)⟩
  intro r hr'
  simp only [exSparkRows, List.mem_cons, List.not_mem_nil, or_false] at hr'
  rcases hr' with rfl | rfl | rfl
  · exact ⟨.cons ⟨_, rfl⟩ .nil, .cons ⟨hb, hf _ (by simp) (by rintro q ⟨⟩; norm_num), hr _⟩ (.cons (hcut _) .nil), rfl, fun _ => ⟨_, rfl⟩⟩
  · exact ⟨.cons ⟨_, rfl⟩ .nil, .cons ⟨hb, hf _ (by simp) (by rintro q ⟨⟩; norm_num), hr _⟩ (.cons (hcut _) .nil), rfl, fun _ => ⟨_, rfl⟩⟩
  · exact ⟨.cons ⟨_, rfl⟩ .nil, .cons ⟨hb, hf _ (by simp) (by rintro q ⟨⟩), hr _⟩ (.cons (hcut _) .nil), rfl, fun _ => ⟨_, rfl⟩⟩

/-- What is read after filling, or nothing if there was an exception. -/
def HistDef.readSpark (H : HistDef) (weighted : Bool) (collect : List (List Key × List ℤ) → List (List Key × List ℤ))
    (st : H.State) (rows : List Row) (gk : List Key) (idx : List ℕ) : Except Err (List ℚ) :=
  match H.fillspark weighted collect st rows with
  | .error (e, _) => .error e
  | .ok st => .ok ((List.range H.layout.ncols).map (H.read st gk idx))

example : exSpark.Good exSparkState ∧ (∀ r ∈ exSparkRows, r.SparkOk exSpark) ∧
    (∀ r ∈ exSparkRows, ∀ gk, inGroup exSpark.groups r.gvals gk = true → exSpark.has exSparkState gk) ∧
    exSpark.readSpark true List.reverse exSparkState exSparkRows [.str "a"] [2, 1] = .ok [7, 13, 4, 10] ∧
    exSpark.readSpark true List.reverse exSparkState exSparkRows [.str "b"] [0, 0] = .ok [10, 50, 2, 4] := by
  refine ⟨?_, exSparkRows_ok, ?_, by decide +kernel, by decide +kernel⟩
  · intro k c h
    obtain ⟨p, hp, rfl⟩ := Option.map_eq_some_iff.1 h
    have hm := List.mem_of_find?_eq_some hp
    rcases List.mem_cons.1 hm with rfl | hm
    · exact ⟨rfl, rfl⟩
    · rcases List.mem_cons.1 hm with rfl | hm
      · exact ⟨rfl, rfl⟩
      · cases hm
  · intro r hr gk h
    simp only [exSparkRows, List.mem_cons, List.not_mem_nil, or_false] at hr
    match gk with
    | [] => rcases hr with rfl | rfl | rfl <;> simp [inGroup, exSpark] at h
    | _ :: _ :: _ => rcases hr with rfl | rfl | rfl <;> simp [inGroup, exSpark] at h
    | [k] =>
      rcases hr with rfl | rfl | rfl <;> simp [inGroup, exSpark, GroupAxis.key, GVal.toKey, Except.toOption] at h <;> subst h
      · exact ⟨_, rfl, rfl⟩
      · exact ⟨_, rfl, rfl⟩
      · exact ⟨_, rfl, rfl⟩

/-- C71 is false of group axes: filling a new histogram that has any with a DataFrame that is not
empty raises, whatever the rows. -/
theorem C71_refuted_groups (H : HistDef) (weighted : Bool)
    (collect : List (List Key × List ℤ) → List (List Key × List ℤ)) (hc : ∀ l, (collect l).Perm l)
    (hg : H.groups ≠ []) (rows : List Row) (hne : rows ≠ []) (hr : ∀ r ∈ rows, r.SparkOk H) :
    ∃ st', H.fillspark weighted collect none rows = .error (.attributeError, st') := by
  have hrow : ∀ r ∈ rows, ∃ k : List Key × List ℤ, r.sparkIndex H = .ok k ∧ k.1.length = H.groups.length := by
    intro r hr'
    have hok := hr r hr'
    obtain ⟨ks, h1, h2, _⟩ := sparkKeys_eq hok.groups
    obtain ⟨is, _, h4, _⟩ := sparkIndexes_eq (hok.fixed.imp (fun a v h => by
      obtain ⟨q, hq1, hq2⟩ := C71_axis_partial a h.1 v h.2.1 h.2.2
      unfold FixedAxis.sparkBin at hq1
      cases hi : a.sparkIndex v with
      | error e => rw [hi] at hq1; cases hq1
      | ok i => rw [hi] at hq1; exact ⟨q, ⟨i, rfl, hq1⟩, hq2⟩))
    exact ⟨(ks, is), by simp only [Row.sparkIndex, h1, h4], h2⟩
  let ix : Row → List Key × List ℤ := fun r => match r.sparkIndex H with | .ok k => k | .error _ => ([], [])
  have hix : ∀ r ∈ rows, r.sparkIndex H = .ok (ix r) ∧ (ix r).1.length = H.groups.length := by
    intro r hr'
    obtain ⟨k, hk, hl⟩ := hrow r hr'
    have : ix r = k := by simp only [ix, hk]
    rw [this]
    exact ⟨hk, hl⟩
  have hmap : mapE (Row.sparkIndex H) rows = .ok (rows.map ix) := mapE_ok _ _ _ (fun r h => (hix r h).1)
  have hperm := hc (rows.map ix).dedup
  unfold HistDef.fillspark
  rw [hmap]
  simp only
  cases hcol : collect (rows.map ix).dedup with
  | nil =>
    exfalso
    rw [hcol] at hperm
    have := hperm.symm.eq_nil
    rw [List.dedup_eq_nil, List.map_eq_nil_iff] at this
    exact hne this
  | cons k rest =>
    have hk : k ∈ rows.map ix := by
      rw [← List.mem_dedup, ← hperm.mem_iff, hcol]; simp
    obtain ⟨r, hr', rfl⟩ := List.mem_map.1 hk
    have hl := (hix r hr').2
    rw [List.map_cons]
    have key : ∀ (n : ℕ) (ks : List Key) (is : List ℤ) (cols : List (Option ℚ)), n ≠ 0 → ks.length = n →
        sparkRecurse H n (emptyContent H.layout n) ks is cols = .error .attributeError := by
      intro n ks is cols hn hk
      cases n with
      | zero => exact absurd rfl hn
      | succ n =>
        cases ks with
        | nil => simp at hk
        | cons k ks => rfl
    have hrec := key H.groups.length (ix r).1 (ix r).2 (sparkQuery H weighted (rows.zip (rows.map ix)) (ix r)).2
      (by simpa using hg) hl
    have hloop : ∀ c : Content Arr H.groups.length, c = emptyContent H.layout H.groups.length →
        sparkLoop H c (sparkQuery H weighted (rows.zip (rows.map ix)) (ix r) ::
          rest.map (sparkQuery H weighted (rows.zip (rows.map ix)))) = .error (.attributeError, c) := by
      rintro c rfl
      unfold sparkLoop sparkQuery
      simp only
      unfold sparkQuery at hrec
      simp only at hrec
      rw [hrec]
    have hp : ∀ c : Content Arr H.groups.length, c = emptyContent H.layout H.groups.length → ∃ st' : H.State,
        (match sparkLoop H c (sparkQuery H weighted (rows.zip (rows.map ix)) (ix r) ::
          rest.map (sparkQuery H weighted (rows.zip (rows.map ix)))) with
        | .error (e, c) => (.error (e, some c) : Res H.State)
        | .ok c => .ok (some c)) = .error (.attributeError, st') := by
      intro c hc
      rw [hloop c hc]
      exact ⟨_, rfl⟩
    exact hp _ rfl

example : exSpark.readSpark true id none exSparkRows [.str "a"] [2, 1] = .error .attributeError := by decide +kernel

/-- A histogram with a filter and no weight; `p` profiles. -/
def exSparkFilter (p : ℕ) : HistDef := ⟨[], [.bin ⟨2, 0, 1, true, true, true, true⟩], p, .expr⟩

/-- C71 is false of filters: without a weight, a row that the filter leaves out is counted all the
same. -/
theorem C71_refuted_filter :
    ∃ r : Row, r.SparkOk (exSparkFilter 0) ∧ r.w = some 0 ∧
      (exSparkFilter 0).readSpark false id none [r] [] [2] = .ok [1, 1] ∧
      (List.range 2).map (binTotal (exSparkFilter 0) [r] [] [2]) = [0, 0] := by
  refine ⟨⟨[], [.num (.fin (3 / 4))], [], some 0⟩, ⟨.nil, .cons ⟨?_, ?_, ?_⟩ .nil, rfl, fun _ => ⟨_, rfl⟩⟩, rfl,
    by decide +kernel, by decide +kernel⟩
  · exact ⟨2, 0, 1, true, true, true, true, by omega, by decide +kernel⟩
  · refine ⟨rfl, by simp [Val.toNum], ?_⟩
    intro q hq
    simp [Val.toNum] at hq
    subst hq
    norm_num
  · exact ⟨Or.inl rfl, Or.inl rfl⟩

/-- C71 is false of filters: with a profile and a filter but no weight, `fill` raises. -/
theorem C71_refuted_filter_profile :
    ∃ r : Row, r.SparkOk (exSparkFilter 1) ∧ r.w = some 1 ∧
      (exSparkFilter 1).readSpark false id none [r] [] [2] = .error .valueError := by
  refine ⟨⟨[], [.num (.fin (3 / 4))], [7], some 1⟩, ⟨.nil, .cons ⟨?_, ?_, ?_⟩ .nil, rfl, fun _ => ⟨_, rfl⟩⟩, rfl,
    by decide +kernel⟩
  · exact ⟨2, 0, 1, true, true, true, true, by omega, by decide +kernel⟩
  · refine ⟨rfl, by simp [Val.toNum], ?_⟩
    intro q hq
    simp [Val.toNum] at hq
    subst hq
    norm_num
  · exact ⟨Or.inl rfl, Or.inl rfl⟩

theorem sumColumns_none (l : List (List (Option ℚ))) (n : ℕ) (hl : ∀ c ∈ l, c.length = n) (i : ℕ) (hi : i < n)
    (h : ∃ c ∈ l, c[i]? = some none) : (sumColumns l)[i]? = some none ∧ (sumColumns l).length = n := by
  induction l with
  | nil => obtain ⟨c, hc, _⟩ := h; simp at hc
  | cons c l ih =>
    have len : ∀ l : List (List (Option ℚ)), l ≠ [] → (∀ c ∈ l, c.length = n) → (sumColumns l).length = n := by
      intro l
      induction l with
      | nil => intro h; exact absurd rfl h
      | cons c l ih =>
        intro _ hl
        cases l with
        | nil => exact hl c (by simp)
        | cons d l =>
          rw [sumColumns, List.length_zipWith, ih (by simp) (fun c hc => hl c (by simp [hc])), hl c (by simp)]
          · simp
          · simp
    cases l with
    | nil =>
      obtain ⟨c', hc, h⟩ := h
      simp at hc
      subst hc
      exact ⟨h, hl c' (by simp)⟩
    | cons d l =>
      have hlen := len (d :: l) (by simp) (fun c hc => hl c (by simp [hc]))
      have e : sumColumns (c :: d :: l) = List.zipWith oadd c (sumColumns (d :: l)) := by
        rw [sumColumns]; simp
      have hc := hl c (by simp)
      have e1 : c[i]? = some c[i] := List.getElem?_eq_getElem (by omega)
      have e2 : (sumColumns (d :: l))[i]? = some (sumColumns (d :: l))[i] := List.getElem?_eq_getElem (by omega)
      constructor
      · rw [e, List.getElem?_zipWith, e1, e2]
        simp only
        obtain ⟨c', hc', h⟩ := h
        rcases List.mem_cons.1 hc' with rfl | hc'
        · rw [e1] at h
          rw [Option.some.inj h]; rfl
        · have := (ih (fun c hc => hl c (by simp [hc])) ⟨c', hc', h⟩).1
          rw [e2] at this
          rw [Option.some.inj this]
          cases c[i] <;> rfl
      · rw [e, List.length_zipWith, hlen, hc]; simp

/-- C71 is false of NaN weights: a single row whose weight is NaN makes the sum of weights of its bin
NaN, whatever else is in the bin (with arrays it counts as zero). -/
theorem C71_refuted_nan_weight (H : HistDef) (hw : H.wkind = .expr) (rows : List (Row × List Key × List ℤ)) (k : List Key × List ℤ)
    (hx : ∀ p ∈ rows, p.1.xs.length = H.nprof) (h : ∃ p ∈ rows, p.2 = k ∧ p.1.w = none) :
    (sparkQuery H true rows k).2[H.layout.sumw]? = some none := by
  have hflat : ∀ (f g : ℚ → Option ℚ) (xs : List ℚ), (xs.flatMap (fun x => [f x, g x])).length = 2 * xs.length := by
    intro f g xs
    rw [pairs_range]; simp
  have hlen : ∀ r : Row, r.xs.length = H.nprof → (r.sparkColumns H true).length = 2 * H.nprof + 2 := by
    intro r hr
    unfold Row.sparkColumns
    rw [if_pos rfl, List.length_append, hflat, hr]
    rfl
  refine (sumColumns_none _ (2 * H.nprof + 2) ?_ (2 * H.nprof) (by omega) ?_).1
  · intro c hc
    obtain ⟨p, hp, rfl⟩ := List.mem_map.1 hc
    exact hlen _ (hx p (List.mem_filter.1 hp).1)
  · obtain ⟨p, hp, hk, hn⟩ := h
    refine ⟨_, List.mem_map.2 ⟨p, List.mem_filter.2 ⟨hp, by simpa using hk⟩, rfl⟩, ?_⟩
    unfold Row.sparkColumns
    have : p.1.sparkWeight H = none := by unfold Row.sparkWeight; rw [hw]; exact hn
    rw [if_pos rfl, List.getElem?_append_right (by rw [hflat, hx p hp]), hflat, hx p hp, this]
    simp

example : ((⟨[], [], 0, .expr⟩ : HistDef).layout.sumw = 0) ∧
    (sparkQuery ⟨[], [], 0, .expr⟩ true [(⟨[], [], [], some 5⟩, [], []), (⟨[], [], [], none⟩, [], [])] ([], [])).2 = [none, none] := by
  decide +kernel

end Verif
