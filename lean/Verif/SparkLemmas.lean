import Verif.SpecSpark
import Verif.HistLemmas

/-! # Lemmas about filling from Spark (helpers for the property theorems) -/

namespace Verif

open FixedAxis

theorem flow_right (u o na : Bool) (n p : ℕ) (hp : p ≤ n + 1) (h1 : u = true ∨ p ≠ 0)
    (h2 : o = true ∨ na = false ∨ p ≠ n + 1) :
    sparkPlace.flow u (n + b2n u + b2n o + b2n na) (p : ℤ) = .ok ((finish u o n p).map Int.toNat) := by
  unfold sparkPlace.flow finish normIndex
  cases u <;> cases o <;> cases na <;> simp [b2n, b2i] at * <;> (try split_ifs) <;>
    first | (exfalso; omega; done) | (simp; done) | omega | (simp; omega)

theorem flow_nan (u o na : Bool) (n : ℕ) (h : o = true ∨ na = false) :
    sparkPlace.flow u (n + b2n u + b2n o + b2n na) ((n : ℤ) + 2) =
      .ok (if na then some (n + b2n u + b2n o) else none) := by
  unfold sparkPlace.flow normIndex
  cases u <;> cases o <;> cases na <;> simp [b2n] at * <;> (try split_ifs) <;>
    first | (exfalso; omega; done) | (simp; done) | omega | (simp; omega)

/-- Below an axis without underflow: the last bin, from the end. -/
theorem flow_under (o na : Bool) (n : ℕ) (hn : n + b2n false + b2n o + b2n na ≠ 0) :
    sparkPlace.flow false (n + b2n false + b2n o + b2n na) 0 = .ok (some (n + b2n o + b2n na - 1)) := by
  unfold sparkPlace.flow normIndex
  cases o <;> cases na <;> simp [b2n] at * <;> (try split_ifs) <;>
    first | (exfalso; omega; done) | (simp; done) | omega | (simp; omega)

/-- Above an axis with a NaN bin and no overflow bin: the NaN bin. -/
theorem flow_over (u : Bool) (n : ℕ) :
    sparkPlace.flow u (n + b2n u + b2n false + b2n true) ((n : ℤ) + 1) = .ok (some (n + b2n u)) := by
  unfold sparkPlace.flow normIndex
  cases u <;> simp [b2n] at * <;> (try split_ifs) <;>
    first | (exfalso; omega; done) | (simp; done) | omega | (simp; omega)

/-- NaN on an axis with a NaN bin and no overflow bin: nowhere. -/
theorem flow_nan_lost (u : Bool) (n : ℕ) :
    sparkPlace.flow u (n + b2n u + b2n false + b2n true) ((n : ℤ) + 2) = .ok none := by
  unfold sparkPlace.flow normIndex
  cases u <;> simp [b2n] at * <;> (try split_ifs) <;>
    first | (exfalso; omega; done) | (simp; done) | omega | (simp; omega)

/-! ## the index of each axis -/

theorem BinAxis.sparkIndex_fin (a : BinAxis) (hlh : a.low < a.high) (q : ℚ)
    (hq : (q - a.low) * (a.numbins / (a.high - a.low)) < 9223372036854775807) :
    a.sparkIndex (.fin q) = .ok (a.edgesBelow q : ℤ) := by
  have hd : ¬ (a.high - a.low = 0) := by intro h; linarith
  have hs : a.scaled q < ((9223372036854775807 : ℤ) : ℚ) := by
    unfold BinAxis.scaled; push_cast; exact hq
  have hf : ⌊a.scaled q⌋ < 9223372036854775807 := Int.floor_lt.2 hs
  have hc : ⌈a.scaled q⌉ ≤ 9223372036854775807 := Int.ceil_le.2 (le_of_lt hs)
  unfold BinAxis.sparkIndex
  rw [if_neg hd]
  simp only [Num.subFin, Num.mulFin, Num.isnan, Bool.false_eq_true, if_false, Num.sparkFloor, Num.sparkCeil]
  change Except.ok (max 0 (min ((a.numbins : ℤ) + 1) (if a.closedlow then wrapLong (satLong ⌊a.scaled q⌋ + 1) else satLong ⌈a.scaled q⌉))) = _
  congr 1
  unfold BinAxis.edgesBelow BinAxis.cellZ wrapLong satLong
  cases a.closedlow
  · simp only [Bool.false_eq_true, if_false]; omega
  · simp only [if_true]; omega

theorem BinAxis.sparkIndex_ninf (a : BinAxis) (hn : 0 < a.numbins) (hlh : a.low < a.high) :
    a.sparkIndex .ninf = .ok 0 := by
  have hd : ¬ (a.high - a.low = 0) := by intro h; linarith
  have hp : 0 < (a.numbins : ℚ) / (a.high - a.low) :=
    div_pos (by exact_mod_cast hn) (by linarith)
  unfold BinAxis.sparkIndex
  rw [if_neg hd]
  simp only [Num.subFin, Num.mulFin, if_pos hp, Num.isnan, Bool.false_eq_true, if_false, Num.sparkFloor, Num.sparkCeil]
  congr 1
  unfold wrapLong
  cases a.closedlow
  · simp only [Bool.false_eq_true, if_false]; omega
  · simp only [if_true]; omega

theorem BinAxis.sparkIndex_nan (a : BinAxis) (hlh : a.low < a.high) :
    a.sparkIndex .nan = .ok ((a.numbins : ℤ) + 2) := by
  have hd : ¬ (a.high - a.low = 0) := by intro h; linarith
  unfold BinAxis.sparkIndex
  rw [if_neg hd]
  simp [Num.isnan]

/-- On an axis with `closedlow`, infinity has the index of the values below. -/
theorem BinAxis.sparkIndex_pinf (a : BinAxis) (hn : 0 < a.numbins) (hlh : a.low < a.high) (hc : a.closedlow = true) :
    a.sparkIndex .pinf = .ok 0 := by
  have hd : ¬ (a.high - a.low = 0) := by intro h; linarith
  have hp : 0 < (a.numbins : ℚ) / (a.high - a.low) :=
    div_pos (by exact_mod_cast hn) (by linarith)
  unfold BinAxis.sparkIndex
  rw [if_neg hd]
  simp only [Num.subFin, Num.mulFin, if_pos hp, Num.isnan, Bool.false_eq_true, if_false, Num.sparkFloor, hc, if_true]
  rfl

theorem SplitAxis.sparkIndex_num (a : SplitAxis) (h : a.Good) (v : Num) (hv : v ≠ .nan) :
    a.sparkIndex v = (a.edges.countP (above a.closedlow · v) : ℤ) := by
  have hnan : v.isnan = false := by cases v <;> simp_all [Num.isnan]
  have key : ∀ l : List ℚ, l.Pairwise (· < ·) →
      l.findIdx (fun e => if a.closedlow then Num.lt v (.fin e) else Num.le v (.fin e)) =
        l.countP (above a.closedlow · v) := by
    intro l hl
    induction l with
    | nil => simp
    | cons x xs ih =>
      have hna := not_above a.closedlow x v hv
      have he : (if a.closedlow then Num.lt v (.fin x) else Num.le v (.fin x)) = !(above a.closedlow x v) := by
        rw [Bool.eq_iff_iff, Bool.not_eq_true', hna]
        cases a.closedlow <;> simp
      rw [List.findIdx_cons]
      simp only [he]
      cases hx : above a.closedlow x v
      · rw [List.countP_cons_of_neg (by simp [hx])]
        have hz : xs.countP (above a.closedlow · v) = 0 := by
          rw [List.countP_eq_zero]
          intro y hy hPy
          have := above_mono a.closedlow v x y (le_of_lt ((List.pairwise_cons.1 hl).1 y hy)) hPy
          rw [hx] at this; cases this
        rw [hz]; rfl
      · rw [List.countP_cons_of_pos (by simp [hx]), ← ih (List.Pairwise.of_cons hl)]
        rfl
  unfold SplitAxis.sparkIndex
  rw [hnan, key _ h.2]
  simp

theorem SplitAxis.sparkIndex_nan (a : SplitAxis) : a.sparkIndex .nan = (a.edges.length : ℤ) + 1 := by
  simp [SplitAxis.sparkIndex, Num.isnan]

theorem roundHalfUp_int (i : ℤ) : roundHalfUp (i : ℚ) = i := by
  unfold roundHalfUp
  split
  · rw [Int.floor_eq_iff]; constructor <;> push_cast <;> linarith
  · rw [Int.ceil_eq_iff]; constructor <;> push_cast <;> linarith

theorem IntbinAxis.sparkIndex_fin (a : IntbinAxis) (i : ℤ) :
    a.sparkIndex (.fin i) = Max.max 0 (Min.min (a.max - a.min + 1) (i - a.min + 1)) := by
  have : ((i : ℚ) - (a.min : ℚ) + 1) = (((i - a.min + 1) : ℤ) : ℚ) := by push_cast; ring
  simp only [IntbinAxis.sparkIndex, this, roundHalfUp_int]

theorem flow_ok (u : Bool) (tot : ℕ) (i : ℤ) (ht : tot ≠ 0) (hi : 0 ≤ i) : ∃ r, sparkPlace.flow u tot i = .ok r := by
  unfold sparkPlace.flow normIndex
  cases u <;> simp <;> split_ifs <;> first | (exfalso; omega; done) | simp

theorem holds_iff (a : FixedAxis) (v : Val) (r : Option ℤ) (hin : ∀ l ∈ a.keys, v.In l = decide (l.mem v.toNum))
    (hc : IndexCorrect a.keys v.toNum r) (j : ℕ) : r.map Int.toNat = some j ↔ a.holds j v = true := by
  unfold FixedAxis.holds
  constructor
  · intro h
    obtain ⟨z, rfl, rfl⟩ := Option.map_eq_some_iff.1 h
    obtain ⟨h0, ⟨k, hk, hm⟩, _⟩ := hc
    rw [hk]
    simp only
    rw [hin k (List.mem_of_getElem? hk)]
    simpa using hm
  · intro h
    cases hk : a.keys[j]? with
    | none => rw [hk] at h; cases h
    | some l =>
      rw [hk] at h
      simp only at h
      rw [hin l (List.mem_of_getElem? hk)] at h
      have hm : l.mem v.toNum := by simpa using h
      cases r with
      | none => exact absurd hm (hc l (List.mem_of_getElem? hk))
      | some z =>
        have := hc.2.2 j l hk hm
        rw [← this]; rfl

/-- Where `bin` and `split` put a value, given the number `p` of edges below it. -/
theorem flow_axis (e : ℕ → ℚ) (n : ℕ) (u o na cl : Bool) (a : FixedAxis) (v : Val) (hk : a.keys = flowKeys e n u o na cl)
    (hb : v.isBool = false) (hv : v.toNum ≠ .nan) (p : ℕ) (hp : p ≤ n + 1)
    (hab : ∀ i, i ≤ n → (i < p ↔ above cl (e i) v.toNum = true)) :
    (v.In (.iv .ninf (.fin (e 0)) true (!cl)) = true ↔ p = 0) ∧
    (v.In (.iv (.fin (e n)) .pinf cl true) = true ↔ p = n + 1) ∧
    ((u = true ∨ p ≠ 0) → (o = true ∨ na = false ∨ p ≠ n + 1) →
      ∃ r, sparkPlace.flow u (n + b2n u + b2n o + b2n na) (p : ℤ) = .ok r ∧ ∀ j, r = some j ↔ a.holds j v = true) := by
  have hin : ∀ l, (∀ b, l ≠ .bool b) → v.In l = decide (l.mem v.toNum) := fun l h => Val.in_iv l v h
  refine ⟨?_, ?_, ?_⟩
  · rw [hin _ (by simp), decide_eq_true_iff]
    have := hab 0 (by omega)
    have h2 := not_above cl (e 0) v.toNum hv
    simp only [BinLabel.mem, if_true, le_ninf _ hv, true_and]
    rw [← h2]
    cases hh : above cl (e 0) v.toNum <;> rw [hh] at this <;> simp at this <;> simp <;> omega
  · rw [hin _ (by simp), decide_eq_true_iff]
    have := hab n (by omega)
    simp only [BinLabel.mem, if_true, le_pinf _ hv, and_true]
    change above cl (e n) v.toNum = true ↔ _
    rw [← this]; omega
  · intro h1 h2
    refine ⟨_, flow_right u o na n p hp h1 h2, ?_⟩
    refine holds_iff a v _ ?_ ?_
    · intro l hl
      rw [hk] at hl
      apply hin
      intro b hb'
      subst hb'
      obtain ⟨i, hi⟩ := List.getElem?_of_mem hl
      rw [flowKeys_get] at hi
      rcases hi with ⟨_, _, h⟩ | ⟨_, _, _, h⟩ | ⟨_, _, h⟩ | ⟨_, _, h⟩ <;> cases h
    · rw [hk]
      exact finish_correct e n u o na cl v.toNum hv p hp hab

/-- Where `bin` and `split` put NaN. -/
theorem flow_axis_nan (e : ℕ → ℚ) (n : ℕ) (u o na cl : Bool) (a : FixedAxis) (v : Val) (hk : a.keys = flowKeys e n u o na cl)
    (hv : v.toNum = .nan) (h : o = true ∨ na = false) :
    ∃ r, sparkPlace.flow u (n + b2n u + b2n o + b2n na) ((n : ℤ) + 2) = .ok r ∧ ∀ j, r = some j ↔ a.holds j v = true := by
  have hn : v = .num .nan := by cases v <;> simp_all [Val.toNum]
  refine ⟨_, flow_nan u o na n h, ?_⟩
  have hc := nan_correct e n u o na cl
  rw [← hk] at hc
  have := holds_iff a v _ (fun l hl => ?_) (by rw [hv]; exact hc)
  · intro j
    rw [← this]
    cases na <;> cases u <;> cases o <;> simp [b2i, b2n] <;> omega
  · subst hn
    cases l <;> rfl

/-- What `bin` and `split` have in common. -/
structure FlowAxis (a : FixedAxis) (e : ℕ → ℚ) (n : ℕ) (u o na cl : Bool) : Prop where
  keys : a.keys = flowKeys e n u o na cl
  totbins : a.totbins = n + b2n u + b2n o + b2n na
  pos : a.totbins ≠ 0
  under : a.hasUnder = u
  over : a.hasOver = o
  nan : a.hasNan = na
  isUnder : ∀ v, a.isUnder v = v.In (.iv .ninf (.fin (e 0)) true (!cl))
  isOver : ∀ v, a.isOver v = v.In (.iv (.fin (e n)) .pinf cl true)
  place : ∀ i, a.sparkPlace i = sparkPlace.flow u a.totbins i
  isnan : ∀ v : Val, v.toNum = .nan → a.sparkIndex v = .ok ((n : ℤ) + 2)
  number : ∀ v : Val, a.sparkFits v → v.toNum ≠ .nan → ∃ p : ℕ, p ≤ n + 1 ∧ a.sparkIndex v = .ok (p : ℤ) ∧
    ∀ i, i ≤ n → (i < p ↔ above cl (e i) v.toNum = true)

theorem flowAxis_bin (a : BinAxis) (h : (FixedAxis.bin a).Built) :
    FlowAxis (.bin a) a.i2x a.numbins a.underflow a.overflow a.nanflow a.closedlow := by
  obtain ⟨numbins, low, high, u, o, n, cl, hn, hi⟩ := h
  obtain ⟨rfl, hlh, _, ht⟩ := BinAxis.init_ok hi
  have hlh := hlh hn
  have hb : ∀ v : Val, v.isBool = false → (FixedAxis.bin ⟨numbins, low, high, u, o, n, cl⟩).sparkIndex v =
      BinAxis.sparkIndex ⟨numbins, low, high, u, o, n, cl⟩ v.toNum := by
    intro v hv; cases v <;> first | rfl | cases hv
  refine ⟨BinAxis.keys_eq _ hn, rfl, ht, rfl, rfl, rfl, ?_, ?_, fun _ => rfl, ?_, ?_⟩
  · intro v; rw [BinAxis.i2x_zero]; rfl
  · intro v; rw [BinAxis.i2x_numbins _ hn]; rfl
  · intro v hv
    rw [hb v (by cases v <;> first | rfl | cases hv), hv]
    exact BinAxis.sparkIndex_nan _ hlh
  · intro v hf hv
    obtain ⟨h1, h2, h3⟩ := hf
    rw [hb v h1]
    cases hx : v.toNum with
    | nan => exact absurd hx hv
    | pinf => exact absurd hx h2
    | ninf =>
      refine ⟨0, by omega, BinAxis.sparkIndex_ninf _ hn hlh, ?_⟩
      intro i _
      cases cl <;> simp [above, Num.le, Num.lt]
    | fin q =>
      exact ⟨_, BinAxis.edgesBelow_le _ q, BinAxis.sparkIndex_fin _ hlh q (h3 q hx), fun i hi =>
        BinAxis.edgesBelow_above _ hn hlh q i hi⟩

theorem flowAxis_split (a : SplitAxis) (h : (FixedAxis.split a).Built) :
    FlowAxis (.split a) (fun i => a.edges.getD i 0) (a.edges.length - 1) a.underflow a.overflow a.nanflow a.closedlow := by
  obtain ⟨edges, u, o, n, cl, hi⟩ := h
  obtain ⟨hg, _, _, _, _, _, ht⟩ := SplitAxis.init_ok hi
  have hlen : 0 < a.edges.length := List.length_pos_iff.2 hg.1
  have hb : ∀ v : Val, v.isBool = false → (FixedAxis.split a).sparkIndex v = .ok (a.sparkIndex v.toNum) := by
    intro v hv; cases v <;> first | rfl | cases hv
  have h0 : a.edges.headD 0 = a.edges.getD 0 0 := by cases hh : a.edges <;> simp
  have h1 : a.edges.getLastD 0 = a.edges.getD (a.edges.length - 1) 0 := by
    cases hh : a.edges with
    | nil => simp
    | cons x xs => simp [List.getLastD, List.getLast_eq_getElem]
  refine ⟨SplitAxis.keys_eq _ hg.1, rfl, ht, rfl, rfl, rfl, ?_, ?_, fun _ => rfl, ?_, ?_⟩
  · intro v; rw [← h0]; rfl
  · intro v; rw [← h1]; rfl
  · intro v hv
    rw [hb v (by cases v <;> first | rfl | cases hv), hv, SplitAxis.sparkIndex_nan]
    congr 1; omega
  · intro v hf hv
    rw [hb v hf, SplitAxis.sparkIndex_num a hg _ hv]
    refine ⟨_, ?_, rfl, ?_⟩
    · have : a.edges.countP (above a.closedlow · v.toNum) ≤ a.edges.length := List.countP_le_length
      omega
    · intro i hi
      have hi' : i < a.edges.length := by omega
      rw [countP_prefix hg.2 (above_mono a.closedlow v.toNum) i hi']
      simp [List.getD, List.getElem?_eq_getElem hi']

theorem intbin_place (m M : ℤ) (u o : Bool) (hm : m ≤ M) (i : ℤ) (hi : i ≤ M) (hu : u = true ∨ m ≤ i) :
    FixedAxis.sparkPlace (.intbin ⟨m, M, u, o⟩) (Max.max 0 (Min.min (M - m + 1) (i - m + 1))) =
      .ok ((IntbinAxis.clamp ⟨m, M, u, o⟩ (i + (b2i u - m))).map Int.toNat) := by
  have hr : Max.max 0 (Min.min (M - m + 1) (i - m + 1)) = Max.max 0 (i - m + 1) := by omega
  rw [hr]
  unfold FixedAxis.sparkPlace sparkPlace.flow normIndex IntbinAxis.clamp IntbinAxis.totbins IntbinAxis.numbins
  cases u <;> cases o <;> simp [b2i] at * <;> (try split_ifs) <;>
    first | (exfalso; omega; done) | (simp; done) | omega | (simp; omega) | skip

/-! ## columns -/

theorem pairs_range (f g : ℚ → Option ℚ) : ∀ xs : List ℚ, xs.flatMap (fun x => [f x, g x]) =
    (List.range (2 * xs.length)).map (fun c => if c % 2 = 0 then f (xs.getD (c / 2) 0) else g (xs.getD (c / 2) 0))
  | [] => rfl
  | x :: xs => by
    rw [List.flatMap_cons, pairs_range f g xs, List.length_cons]
    have h2 : 2 * (xs.length + 1) = (2 * xs.length + 1) + 1 := by omega
    rw [h2, List.range_succ_eq_map, List.range_succ_eq_map]
    simp only [List.map_cons, List.map_map, List.cons_append, List.nil_append]
    congr 1
    congr 1
    apply List.map_congr_left
    intro c _
    have h3 : (c + 1 + 1) % 2 = c % 2 := by omega
    have h4 : (c + 1 + 1) / 2 = c / 2 + 1 := by omega
    simp only [Function.comp, Nat.succ_eq_add_one, h3, h4, List.getD_cons_succ]

theorem sparkColumns_eq (H : HistDef) (weighted : Bool) (hw : weighted = decide (H.wkind ≠ .none)) (r : Row)
    (hx : r.xs.length = H.nprof) (he : H.wkind = .expr → ∃ q, r.w = some q) :
    r.sparkColumns H weighted = (List.range H.layout.ncols).map (fun c => some (r.adds H c)) := by
  have hwt : r.sparkWeight H = some (r.weight H.wkind) := by
    unfold Row.sparkWeight Row.weight
    cases hk : H.wkind with
    | none => rfl
    | const q => rfl
    | expr => obtain ⟨q, hq⟩ := he hk; rw [hq]; rfl
  have hnp : H.layout.nprof = H.nprof := rfl
  have hwk : H.layout.wkind = H.wkind := rfl
  have h1 : ∀ c, c < 2 * H.nprof → some (r.adds H c) =
      if c % 2 = 0 then omul (some (r.xs.getD (c / 2) 0)) (some (r.weight H.wkind))
      else omul (some (r.xs.getD (c / 2) 0 * r.xs.getD (c / 2) 0)) (some (r.weight H.wkind)) := by
    intro c hc
    unfold Row.adds
    rw [if_pos hc]
    by_cases h : c % 2 = 0
    · simp only [if_pos h, omul, Option.bind_some, Option.map_some]
      congr 1; ring
    · simp only [if_neg h, omul, Option.bind_some, Option.map_some]
      congr 1; ring
  have h2 : some (r.adds H (2 * H.nprof)) = some (r.weight H.wkind) := by
    unfold Row.adds
    rw [if_neg (by omega), if_pos rfl]
  unfold Row.sparkColumns Layout.ncols
  rw [hnp, hwk]
  by_cases hk : H.wkind = .none
  · have : weighted = false := by rw [hw]; simp [hk]
    subst this
    simp only [Bool.false_eq_true, if_false, hk, if_true]
    rw [List.range_succ, List.map_append, pairs_range (fun x => some x) (fun x => some (x * x)), hx]
    congr 1
    · apply List.map_congr_left
      intro c hc
      rw [h1 c (List.mem_range.1 hc), hk]
      simp [Row.weight, omul]
    · simp only [List.map_cons, List.map_nil]
      rw [h2, hk]
      rfl
  · have : weighted = true := by rw [hw]; simp [hk]
    subst this
    simp only [if_true, if_neg hk, hwt]
    rw [List.range_succ, List.range_succ, List.map_append, List.map_append, List.append_assoc,
      pairs_range (fun x => omul (some x) (some (r.weight H.wkind))) (fun x => omul (some (x * x)) (some (r.weight H.wkind))), hx]
    congr 1
    · apply List.map_congr_left
      intro c hc
      rw [h1 c (List.mem_range.1 hc)]
    · simp only [List.map_cons, List.map_nil, List.cons_append, List.nil_append]
      rw [h2]
      congr 2
      unfold Row.adds
      rw [if_neg (by omega), if_neg (by omega), if_pos ⟨rfl, hk⟩]
      simp only [omul, Option.bind_some, Option.map_some]
      congr 1; ring

theorem sumColumns_eq {α : Type} (n : ℕ) (f : α → ℕ → ℚ) : ∀ l : List α, l ≠ [] →
    sumColumns (l.map (fun r => (List.range n).map (fun c => some (f r c)))) =
      (List.range n).map (fun c => some ((l.map (fun r => f r c)).sum))
  | [], h => absurd rfl h
  | [r], _ => by simp [sumColumns]
  | r :: s :: l, _ => by
    have ih := sumColumns_eq n f (s :: l) (by simp)
    simp only [List.map_cons] at ih ⊢
    rw [sumColumns, ih, List.zipWith_map]
    · simp [oadd, List.zipWith_self]
    · simp

/-! ## rows -/

theorem sparkKey_eq (g : GroupAxis) (v : GVal) (h : g.sparkFits v) : ∃ k, g.sparkKey v = .ok k ∧ g.key v = some k := by
  cases g with
  | groupby =>
    obtain ⟨k, hk⟩ := h
    exact ⟨k, hk, by simp only [GroupAxis.key, hk, Except.toOption]⟩
  | groupbin a =>
    obtain ⟨hb, q, hv, h1, h2⟩ := h
    have e1 : (-9223372036854775807 : ℤ) ≤ ⌊(q - a.origin) * (1 / a.binwidth)⌋ := Int.le_floor.2 (by push_cast; exact h1)
    have e2 : ⌊(q - a.origin) * (1 / a.binwidth)⌋ ≤ 9223372036854775807 := by
      have := Int.floor_le ((q - a.origin) * (1 / a.binwidth))
      have h3 : ((⌊(q - a.origin) * (1 / a.binwidth)⌋ : ℤ) : ℚ) ≤ ((9223372036854775807 : ℤ) : ℚ) := by push_cast; linarith
      exact_mod_cast h3
    have e3 : ⌈(q - a.origin) * (1 / a.binwidth)⌉ ≤ 9223372036854775807 := Int.ceil_le.2 (by push_cast; exact h2)
    have e4 : (-9223372036854775807 : ℤ) ≤ ⌈(q - a.origin) * (1 / a.binwidth)⌉ := by
      have := Int.le_ceil ((q - a.origin) * (1 / a.binwidth))
      have h3 : ((-9223372036854775807 : ℤ) : ℚ) ≤ ((⌈(q - a.origin) * (1 / a.binwidth)⌉ : ℤ) : ℚ) := by push_cast; linarith
      exact_mod_cast h3
    have f1 : satLong ⌊(q - a.origin) * (1 / a.binwidth)⌋ = ⌊(q - a.origin) * (1 / a.binwidth)⌋ := by unfold satLong; omega
    have f2 : wrapLong (satLong ⌈(q - a.origin) * (1 / a.binwidth)⌉ - 1) = ⌈(q - a.origin) * (1 / a.binwidth)⌉ - 1 := by
      unfold satLong wrapLong; omega
    simp only [GroupAxis.sparkKey, hv, Num.subFin, Num.mulFin, Num.sparkFloor, Num.sparkCeil, f1, f2]
    refine ⟨_, rfl, ?_⟩
    simp only [GroupAxis.key, hv, Except.toOption, Option.bind_some, GroupbinAxis.key]
    by_cases ho : a.origin = 0
    · cases a.closedlow <;> simp [ho, Num.mulFin, Num.floor, Num.ceil, Num.addFin, sub_eq_add_neg]
    · cases a.closedlow <;> simp [ho, Num.subFin, Num.mulFin, Num.floor, Num.ceil, Num.addFin, sub_eq_add_neg]

theorem sparkKeys_eq {gs : List GroupAxis} {vs : List GVal} (h : List.Forall₂ GroupAxis.sparkFits gs vs) :
    ∃ ks, sparkKeys gs vs = .ok ks ∧ ks.length = gs.length ∧ ∀ gk, inGroup gs vs gk = true ↔ ks = gk := by
  induction h with
  | nil => exact ⟨[], rfl, rfl, fun gk => by cases gk <;> simp [inGroup]⟩
  | cons h1 _ ih =>
    obtain ⟨k, hk1, hk2⟩ := sparkKey_eq _ _ h1
    obtain ⟨ks, hs1, hs2, hs3⟩ := ih
    refine ⟨k :: ks, by simp only [sparkKeys, hk1, hs1], by simp [hs2], ?_⟩
    intro gk
    cases gk with
    | nil => simp [inGroup]
    | cons k' gk => simp [inGroup, hk2, hs3 gk]

theorem sparkIndexes_eq {as : List FixedAxis} {vs : List Val}
    (h : List.Forall₂ (fun a v => ∃ r, (∃ i, a.sparkIndex v = .ok i ∧ a.sparkPlace i = .ok r) ∧ ∀ j, r = some j ↔ a.holds j v = true) as vs) :
    ∃ is r, sparkIndexes as vs = .ok is ∧ sparkPlaces as is = .ok r ∧ ∀ idx, r = some idx ↔ inBins' as vs idx = true := by
  induction h with
  | nil => exact ⟨[], some [], rfl, rfl, fun idx => by cases idx <;> simp [inBins']⟩
  | cons h1 _ ih =>
    obtain ⟨r, ⟨i, hi1, hi2⟩, hr⟩ := h1
    obtain ⟨is, rs, hs1, hs2, hs3⟩ := ih
    cases r with
    | none =>
      refine ⟨i :: is, none, by simp only [sparkIndexes, hi1, hs1], by simp only [sparkPlaces, hi2], ?_⟩
      intro idx
      cases idx with
      | nil => simp [inBins']
      | cons j js =>
        have := hr j
        simp at this
        simp [inBins', this]
    | some j =>
      cases rs with
      | none =>
        refine ⟨i :: is, none, by simp only [sparkIndexes, hi1, hs1], by simp only [sparkPlaces, hi2, hs2], ?_⟩
        intro idx
        cases idx with
        | nil => simp [inBins']
        | cons j js =>
          have := hs3 js
          simp at this
          simp [inBins', this]
      | some js =>
        refine ⟨i :: is, some (j :: js), by simp only [sparkIndexes, hi1, hs1], by simp only [sparkPlaces, hi2, hs2], ?_⟩
        intro idx
        cases idx with
        | nil => simp [inBins']
        | cons j' js' =>
          have h1 := hr j'
          have h2 := hs3 js'
          simp at h1 h2
          simp [inBins', ← h1, ← h2]

/-! ## content -/

theorem sparkRecurse_eq (H : HistDef) (L : Layout) (is : List ℤ) (r : Option (List ℕ)) (hr : sparkPlaces H.fixed is = .ok r)
    (vs : List ℚ) (hvs : vs.length = L.ncols) : ∀ (n : ℕ) (c : Content Arr n) (ks : List Key), ks.length = n → Shaped L n c →
    HasGroup n c ks → ∃ c', sparkRecurse H n c ks is (vs.map some) = .ok c' ∧ Shaped L n c' ∧
      (∀ gk, HasGroup n c' gk ↔ HasGroup n c gk) ∧
      ∀ gk, gk.length = n → ∀ idx col, lookup n c' gk idx col = lookup n c gk idx col +
        if ks = gk ∧ r = some idx then vs.getD col 0 else 0
  | 0, (a : Arr), ks, hl, hs, _ => by
    have hks : ks = [] := List.length_eq_zero_iff.1 hl
    subst hks
    cases r with
    | none =>
      refine ⟨a, by simp only [sparkRecurse, hr], hs, fun _ => Iff.rfl, ?_⟩
      intro gk _ idx col
      simp
    | some idx0 =>
      have hm : (vs.map some).mapM id = some vs := by
        clear hvs
        induction vs with
        | nil => rfl
        | cons v vs ih => simp [ih]
      have hn : a.ncols = vs.length := by rw [hvs]; exact hs.2
      refine ⟨{ a with get := fun i c => a.get i c + if i = idx0 then vs.getD c 0 else 0 }, ?_, hs, fun _ => Iff.rfl, ?_⟩
      · simp only [sparkRecurse, hr]
        unfold Arr.sparkAdd
        rw [hm]
        simp only [broadcastTo, hn, if_true]
        rfl
      · intro gk hgk idx col
        have : gk = [] := List.length_eq_zero_iff.1 hgk
        subst this
        simp only [lookup, true_and, Option.some.injEq]
        simp only [eq_comm]
  | n + 1, (d : List (Key × Content Arr n)), [], hl, _, _ => by simp at hl
  | n + 1, (d : List (Key × Content Arr n)), k :: ks, hl, hs, hg => by
    obtain ⟨c, hc1, hc2⟩ := hg
    obtain ⟨c', h1, h2, h3, h4⟩ := sparkRecurse_eq H L is r hr vs hvs n c ks (by simpa using hl) (hs k c hc1) hc2
    refine ⟨dset d k c', by simp only [sparkRecurse, hc1, h1], ?_, ?_, ?_⟩
    · intro k' c'' h
      rw [dget_dset] at h
      by_cases hk : k' = k
      · rw [if_pos hk] at h; cases h; exact h2
      · rw [if_neg hk] at h; exact hs k' c'' h
    · intro gk
      cases gk with
      | nil => exact Iff.rfl
      | cons k' gk =>
        simp only [HasGroup, dget_dset]
        by_cases hk : k' = k
        · subst hk
          simp only [if_true, hc1, Option.some.injEq, exists_eq_left']
          exact h3 gk
        · simp only [if_neg hk]
    · intro gk hgk idx col
      cases gk with
      | nil => simp at hgk
      | cons k' gk =>
        simp only [lookup, dget_dset]
        by_cases hk : k' = k
        · subst hk
          simp only [if_true, hc1]
          rw [h4 gk (by simpa using hgk) idx col]
          simp
        · have hk' : ¬ k = k' := fun h => hk h.symm
          simp [if_neg hk, hk']

theorem sparkLoop_eq (H : HistDef) : ∀ (l : List ((List Key × List ℤ) × List ℚ)) (c : Content Arr H.groups.length),
    Shaped H.layout H.groups.length c → (∀ p ∈ l, p.1.1.length = H.groups.length ∧ HasGroup H.groups.length c p.1.1 ∧
      (∃ r, sparkPlaces H.fixed p.1.2 = .ok r) ∧ p.2.length = H.layout.ncols) →
    ∃ c', sparkLoop H c (l.map fun p => (p.1, p.2.map some)) = .ok c' ∧ Shaped H.layout H.groups.length c' ∧
      (∀ gk, HasGroup H.groups.length c' gk ↔ HasGroup H.groups.length c gk) ∧
      ∀ gk, gk.length = H.groups.length → ∀ idx col, lookup H.groups.length c' gk idx col =
        lookup H.groups.length c gk idx col +
        (l.map fun p => if p.1.1 = gk ∧ sparkPlaces H.fixed p.1.2 = .ok (some idx) then p.2.getD col 0 else 0).sum
  | [], c, hs, _ => ⟨c, rfl, hs, fun _ => Iff.rfl, by simp⟩
  | p :: l, c, hs, h => by
    obtain ⟨h1, h2, ⟨r, h3⟩, h4⟩ := h p (by simp)
    obtain ⟨c1, k1, k2, k3, k4⟩ := sparkRecurse_eq H H.layout p.1.2 r h3 p.2 h4 H.groups.length c p.1.1 h1 hs h2
    obtain ⟨c2, m1, m2, m3, m4⟩ := sparkLoop_eq H l c1 k2 (fun q hq => by
      obtain ⟨a1, a2, a3, a4⟩ := h q (by simp [hq])
      exact ⟨a1, (k3 _).2 a2, a3, a4⟩)
    refine ⟨c2, ?_, m2, fun gk => (m3 gk).trans (k3 gk), ?_⟩
    · simp only [List.map_cons, sparkLoop, k1]
      exact m1
    · intro gk hgk idx col
      rw [m4 gk hgk idx col, k4 gk hgk idx col, List.map_cons, List.sum_cons, h3, add_assoc]
      simp only [Except.ok.injEq]

theorem sum_one_key {κ : Type} [DecidableEq κ] (k0 : κ) (f : κ → ℚ) : ∀ ks : List κ, ks.Nodup → k0 ∈ ks →
    (ks.map (fun k => if k0 = k then f k else 0)).sum = f k0
  | [], _, h => by simp at h
  | k :: ks, hn, h => by
    rw [List.map_cons, List.sum_cons]
    have hn' := List.nodup_cons.1 hn
    by_cases hk : k0 = k
    · subst hk
      have : (ks.map (fun k => if k0 = k then f k else 0)).sum = 0 := by
        apply List.sum_eq_zero
        intro x hx
        obtain ⟨k, hk, rfl⟩ := List.mem_map.1 hx
        rw [if_neg]
        rintro rfl
        exact hn'.1 hk
      simp [this]
    · rw [if_neg hk, zero_add]
      exact sum_one_key k0 f ks hn'.2 (by simpa [hk] using h)

/-- Summing first over the rows with the same key, then over the keys, is summing over the rows. -/
theorem sum_partition {α κ : Type} [DecidableEq κ] (ix : α → κ) (P : κ → Prop) [DecidablePred P] (g : α → ℚ) (ks : List κ)
    (hn : ks.Nodup) : ∀ rows : List α, (∀ r ∈ rows, ix r ∈ ks) →
    (ks.map (fun k => if P k then ((rows.filter (fun r => ix r = k)).map g).sum else 0)).sum =
      ((rows.filter (fun r => decide (P (ix r)))).map g).sum
  | [], _ => by simp
  | r :: rows, h => by
    have ih := sum_partition ix P g ks hn rows (fun r hr => h r (by simp [hr]))
    have e : ∀ k, (if P k then (((r :: rows).filter (fun r => ix r = k)).map g).sum else 0) =
        (if ix r = k then (if P k then g r else 0) else 0) + if P k then ((rows.filter (fun r => ix r = k)).map g).sum else 0 := by
      intro k
      by_cases hP : P k
      · by_cases hk : ix r = k
        · simp [hP, hk]
        · simp [hP, hk]
      · simp [hP]
    simp only [e]
    rw [List.sum_map_add, ih, sum_one_key (ix r) (fun k => if P k then g r else 0) ks hn (h r (by simp))]
    by_cases hP : P (ix r)
    · simp [hP]
    · simp [hP]

end Verif
