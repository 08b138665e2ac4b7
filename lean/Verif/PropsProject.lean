import Verif.ProjLemmas

/-!
# Properties of projections (C31-C33)
-/

namespace Verif

/-! ## C31 -/

theorem inBins'_pick : ∀ (as : List FixedAxis) (vs : List Val) (idx : List ℕ) (ks : List Bool), inBins' as vs idx = true →
    inBins' (pick ks as) (pick ks vs) (pick ks idx) = true
  | [], [], [], ks, _ => by
    cases ks with
    | nil => rfl
    | cons b ks => cases b <;> rfl
  | a :: as, v :: vs, i :: is, ks, h => by
    simp only [inBins', Bool.and_eq_true] at h
    cases ks with
    | nil => rfl
    | cons b ks =>
      have := inBins'_pick as vs is ks h.2
      cases b with
      | true => simp only [pick, inBins', Bool.and_eq_true]; exact ⟨h.1, this⟩
      | false => exact this
  | [], [], _ :: _, _, h => by simp [inBins'] at h
  | [], _ :: _, _, _, h => by simp [inBins'] at h
  | _ :: _, [], _, _, h => by simp [inBins'] at h
  | _ :: _, _ :: _, [], _, h => by simp [inBins'] at h

/-- The data of a histogram can be filled into its projection. -/
theorem Fillable.project {H : HistDef} {bs : List (List Row)} (hf : Fillable H bs) (kg kf : List Bool) (p : Row → Bool) :
    Fillable (H.project kg kf) (bs.map (fun b => (b.filter p).map (Row.project kg kf))) := by
  constructor
  · intro b hb r hr
    obtain ⟨b0, hb0, rfl⟩ := List.mem_map.1 hb
    obtain ⟨r0, hr0, rfl⟩ := List.mem_map.1 hr
    have h := hf.ok b0 hb0 r0 (List.mem_filter.1 hr0).1
    exact ⟨pick_forall₂ h.groups kg, pick_forall₂ h.fixed kf, h.xs⟩
  · refine hf.prof.imp id (fun h b hb r hr => ?_)
    obtain ⟨b0, hb0, rfl⟩ := List.mem_map.1 hb
    obtain ⟨r0, hr0, rfl⟩ := List.mem_map.1 hr
    have h1 := h b0 hb0 r0 (List.mem_filter.1 hr0).1
    intro hl
    apply h1
    intro idx
    cases hb : inBins' H.fixed r0.fvals idx with
    | false => rfl
    | true =>
      have h2 := hl (pick kf idx)
      have h3 : inBins' (pick kf H.fixed) (pick kf r0.fvals) (pick kf idx) = false := h2
      rw [inBins'_pick _ _ _ kf hb] at h3
      cases h3

theorem flatten_filter_map (bs : List (List Row)) (p : Row → Bool) (f : Row → Row) :
    (bs.map (fun b => (b.filter p).map f)).flatten = (bs.flatten.filter p).map f := by
  induction bs with
  | nil => rfl
  | cons b bs ih => simp [ih]

/-- C31 (partial).  `project` gives a histogram with the kept axes that reads, in every group, bin and
column, like one with only those axes that was filled with the same data, row by row: with those rows
that have a group and a bin on the axes that are removed (all of them, if no flow bin was switched
off).  Its groups are the kept parts of the groups that there were.

Full statement: this for every content.  Missing: contents in which a removed group axis has a number
of keys other than 2, 4, 8, ...; for these the property is false (`C32_right_iff_power_of_two`). -/
theorem C31_project_partial (H : HistDef) (bs : List (List Row)) (hf : Fillable H bs) (st : H.State)
    (hst : H.fillAll none bs = .ok st) (kg kf : List Bool) (hkg : kg.length = H.groups.length) (hkf : kf.length = H.fixed.length)
    (hp : H.PowKeys kg st) :
    ∃ st' st'' : (H.project kg kf).State, H.projectState kg kf st = .ok ((H.project kg kf).toPV st') ∧
      (H.project kg kf).fillAll none (bs.map (fun b => (b.filter (Row.coveredOn H kg kf)).map (Row.project kg kf))) = .ok st'' ∧
      (H.project kg kf).Proper st' ∧
      (∀ gk, gk.length = (H.project kg kf).groups.length → ∀ idx, (H.project kg kf).Cell idx → ∀ col,
        (H.project kg kf).read st' gk idx col = (H.project kg kf).read st'' gk idx col) ∧
      ∀ gk, gk.length = (H.project kg kf).groups.length →
        ((H.project kg kf).has st' gk ↔ ∃ full, full.length = H.groups.length ∧ pick kg full = gk ∧ H.has st full) := by
  obtain ⟨st0, h0, hr⟩ := Represents.ofFill H bs hf
  rw [hst] at h0
  cases h0
  obtain ⟨st', h1, h2, h3⟩ := hr.project kg kf hkg hkf hp
  obtain ⟨st'', g1, g2⟩ := Represents.ofFill _ _ (hf.project kg kf (Row.coveredOn H kg kf))
  refine ⟨st', st'', h1, g1, ⟨h2.good, h2.distinct⟩, fun gk hgk idx hidx col => ?_, h3⟩
  rw [h2.totals gk hgk idx hidx col, g2.totals gk hgk idx hidx col, flatten_filter_map]

theorem powKeys_replicate : ∀ (n m : ℕ) (c : Content Arr n), PowKeys n (List.replicate m true) c
  | 0, _, _ => trivial
  | n + 1, 0, (d : List (Key × Content Arr n)) => ⟨Or.inl rfl, fun p _ => powKeys_replicate n 0 p.2⟩
  | n + 1, m + 1, (d : List (Key × Content Arr n)) => ⟨Or.inl rfl, fun p _ => powKeys_replicate n m p.2⟩

theorem covered_all (H : HistDef) (kf : List Bool) (hkf : kf.length = H.fixed.length) (r : Row)
    (hc : List.Forall₂ (fun a v => FixedAxis.covers a v = true) H.fixed r.fvals) :
    r.coveredOn H (List.replicate H.groups.length true) kf = true := by
  unfold Row.coveredOn
  rw [Bool.and_eq_true]
  constructor
  · have : ∀ (n : ℕ) (l : List (Option Key)), pick ((List.replicate n true).map not) l = [] := by
      intro n
      induction n with
      | zero => intro l; cases l <;> rfl
      | succ n ih =>
        intro l
        cases l with
        | nil => rfl
        | cons x l => exact ih l
    rw [this]
    rfl
  · clear hkf
    generalize H.fixed = as at hc
    generalize r.fvals = vs at hc
    induction hc generalizing kf with
    | nil => cases kf with
      | nil => rfl
      | cons b kf => cases b <;> rfl
    | cons h1 _ ih => cases kf with
      | nil => rfl
      | cons b kf => cases b with
        | true => exact ih kf
        | false =>
          simp only [List.map_cons, Bool.not_false, List.zipWith_cons_cons, pick, List.all_cons, id, Bool.and_eq_true]
          exact ⟨h1, ih kf⟩

/-- C31 for fixed axes.  When only fixed axes are removed, `project` gives in every group, bin and
column what the smaller histogram has after it was filled with the same data, whatever the groups and
keys, provided that every value was in some bin of its axis (which is so with all flow bins on). -/
theorem C31_project_fixed (H : HistDef) (bs : List (List Row)) (hf : Fillable H bs) (st : H.State)
    (hst : H.fillAll none bs = .ok st) (kf : List Bool) (hkf : kf.length = H.fixed.length)
    (hc : ∀ b ∈ bs, ∀ r ∈ b, List.Forall₂ (fun a v => FixedAxis.covers a v = true) H.fixed r.fvals) :
    let kg := List.replicate H.groups.length true
    ∃ st' st'' : (H.project kg kf).State, H.projectState kg kf st = .ok ((H.project kg kf).toPV st') ∧
      (H.project kg kf).fillAll none (bs.map (fun b => b.map (Row.project kg kf))) = .ok st'' ∧
      (H.project kg kf).Proper st' ∧
      ∀ gk, gk.length = (H.project kg kf).groups.length → ∀ idx, (H.project kg kf).Cell idx → ∀ col,
        (H.project kg kf).read st' gk idx col = (H.project kg kf).read st'' gk idx col := by
  intro kg
  have hp : H.PowKeys kg st := by
    cases st with
    | none => trivial
    | some c => exact powKeys_replicate _ _ c
  obtain ⟨st', st'', h1, h2, h3, h4, _⟩ := C31_project_partial H bs hf st hst kg kf (by simp [kg]) hkf hp
  refine ⟨st', st'', h1, ?_, h3, h4⟩
  rw [← h2]
  congr 1
  refine List.map_congr_left fun b hb => ?_
  congr 1
  symm
  rw [List.filter_eq_self]
  intro r hr
  exact covered_all H kf hkf r (hc b hb r hr)

/-! ## C32 -/

/-- C32 (partial).  A group axis with 2, 4, 8, ... keys is projected away as it should be, together
with any other axes; and the result is again a proper histogram content (so that it can be projected
again, `Represents.project`). -/
theorem C32_power_of_two_partial (H : HistDef) (rows : List Row) (st : H.State) (h : Represents H rows st) (kg kf : List Bool)
    (hkg : kg.length = H.groups.length) (hkf : kf.length = H.fixed.length) (hp : H.PowKeys kg st) :
    ∃ st' : (H.project kg kf).State, H.projectState kg kf st = .ok ((H.project kg kf).toPV st') ∧
      Represents (H.project kg kf) ((rows.filter (Row.coveredOn H kg kf)).map (Row.project kg kf)) st' := by
  obtain ⟨st', h1, h2, _⟩ := h.project kg kf hkg hkf hp
  exact ⟨st', h1, h2⟩

theorem bshape_left : ∀ s : List ℕ, bshapeRev (s ++ [1]) s = some (s ++ [1])
  | [] => rfl
  | n :: s => by simp [bshapeRev, bdim, bshape_left s]

theorem bshape_right : ∀ s : List ℕ, bshapeRev s (s ++ [1]) = some (s ++ [1])
  | [] => rfl
  | n :: s => by simp [bshapeRev, bdim, bshape_right s]

theorem cons_ne_self (s : List ℕ) : 1 :: s ≠ s := by
  intro h
  have := congrArg List.length h
  simp at this

/-- shapes of the results of `addall` -/
theorem badd_shape (s : List ℕ) (nc : ℕ) (p q : Bool) (a b : Arr) (ha : a.shape = if p then s else 1 :: s)
    (hb : b.shape = if q then s else 1 :: s) (hac : a.ncols = nc) (hbc : b.ncols = nc) :
    ∃ c : Arr, a.badd b = .ok c ∧ c.shape = (if p && q then s else 1 :: s) ∧ c.ncols = nc := by
  have e1 : (1 :: s).reverse = s.reverse ++ [1] := by simp
  cases p <;> cases q <;> simp only [Bool.false_eq_true, if_false, if_true] at ha hb <;> unfold Arr.badd <;> rw [ha, hb]
  · rw [if_pos rfl]
    refine ⟨_, by unfold Arr.add; rw [if_pos (by rw [ha, hb]), if_pos (by rw [hac, hbc])], ?_, ?_⟩
    · exact ha
    · exact hac
  · rw [if_neg (cons_ne_self s), if_neg (by rw [hac, hbc]; simp), e1, bshape_left]
    exact ⟨_, rfl, by simp, hac⟩
  · rw [if_neg (cons_ne_self s).symm, if_neg (by rw [hac, hbc]; simp), e1, bshape_right]
    exact ⟨_, rfl, by simp, hac⟩
  · rw [if_pos rfl]
    refine ⟨_, by unfold Arr.add; rw [if_pos (by rw [ha, hb]), if_pos (by rw [hac, hbc])], ?_, ?_⟩
    · exact ha
    · exact hac

/-- 2, 4, 8, ... -/
def powTwo (n : ℕ) : Prop := ∃ k, n = 2 ^ (k + 1)

theorem powTwo_half {n : ℕ} (hn : 4 ≤ n) : powTwo n ↔ powTwo (n / 2) ∧ powTwo (n - n / 2) := by
  constructor
  · rintro ⟨k, rfl⟩
    cases k with
    | zero => simp at hn
    | succ k =>
      have : 2 ^ (k + 1 + 1) = 2 * 2 ^ (k + 1) := by rw [pow_succ]; ring
      rw [this]
      exact ⟨⟨k, by omega⟩, ⟨k, by omega⟩⟩
  · rintro ⟨⟨k, hk⟩, ⟨l, hl⟩⟩
    have e1 : 2 ^ (k + 1) = 2 * 2 ^ k := by rw [pow_succ]; ring
    have e2 : 2 ^ (l + 1) = 2 * 2 ^ l := by rw [pow_succ]; ring
    refine ⟨k + 1, ?_⟩
    have : 2 ^ (k + 1 + 1) = 2 * 2 ^ (k + 1) := by rw [pow_succ]; ring
    rw [this]
    omega

theorem addallN_one (N f : ℕ) (a : PV) : addallN N (f + 1) [a] = .ok (.list [a]) := by
  simp only [addallN, List.length_cons, List.length_nil, Nat.zero_add, Nat.reduceDiv, List.take_zero, List.drop_zero]

theorem addallN_two (N f : ℕ) (a b : PV) : addallN N (f + 1) [a, b] = addany N a b := by
  simp only [addallN, List.length_cons, List.length_nil, Nat.zero_add, Nat.reduceAdd,
    Nat.reduceDiv, List.take_succ_cons, List.take_zero, List.drop_succ_cons, List.drop_zero]

theorem addallN_three (N f : ℕ) (a b c : PV) : addallN N (f + 2) [a, b, c] =
    (addany N b c).bind (fun r => addany N (.list [a]) r) := by
  rw [addallN]
  simp only [List.length_cons, List.length_nil, Nat.zero_add, Nat.reduceAdd,
    Nat.reduceDiv, List.take_succ_cons, List.take_zero, List.drop_succ_cons, List.drop_zero, addallN_one, addallN_two]
  cases addany N b c <;> rfl

open Classical in
theorem addallN_shape (s : List ℕ) (nc N : ℕ) : ∀ (n fuel : ℕ) (vs : List Arr), n ≤ fuel → vs.length = n → 2 ≤ n →
    (∀ a ∈ vs, a.shape = s ∧ a.ncols = nc) →
    ∃ a : Arr, addallN N fuel (vs.map .arr) = .ok (.arr a) ∧ a.ncols = nc ∧ a.shape = if decide (powTwo n) then s else 1 :: s := by
  intro n
  induction n using Nat.strong_induction_on with
  | _ n ih =>
    intro fuel vs hf hl hn hv
    obtain ⟨fuel, rfl⟩ : ∃ f, fuel = f + 1 := ⟨fuel - 1, by omega⟩
    have hadd : ∀ a b : Arr, addany N (.arr a) (.arr b) = (a.badd b).map .arr := by
      intro a b
      cases N <;> rfl
    match vs, hl with
    | [], hl => simp at hl; omega
    | [_], hl => simp at hl; omega
    | [a, b], hl =>
      have ha := hv a (by simp)
      have hb := hv b (by simp)
      simp only [List.length_cons, List.length_nil, zero_add, Nat.reduceAdd] at hl
      subst hl
      obtain ⟨c, h1, h2, h3⟩ := badd_shape s nc true true a b ha.1 hb.1 ha.2 hb.2
      refine ⟨c, ?_, h3, ?_⟩
      · rw [List.map_cons, List.map_cons, List.map_nil, addallN_two, hadd, h1]
        rfl
      · have : powTwo 2 := ⟨0, rfl⟩
        simp only [this, decide_true]
        exact h2
    | [a, b, c], hl =>
      have ha := hv a (by simp)
      have hb := hv b (by simp)
      have hc := hv c (by simp)
      simp only [List.length_cons, List.length_nil, zero_add, Nat.reduceAdd] at hl
      subst hl
      obtain ⟨fuel, rfl⟩ : ∃ f, fuel = f + 1 := ⟨fuel - 1, by omega⟩
      obtain ⟨d, h1, h2, h3⟩ := badd_shape s nc true true b c hb.1 hc.1 hb.2 hc.2
      obtain ⟨x, k1, k2, k3⟩ := badd_shape s nc false true ⟨1 :: a.shape, a.ncols, fun i c => a.get i.tail c⟩ d
        (by simp [ha.1]) h2 ha.2 h3
      refine ⟨x, ?_, k3, ?_⟩
      · rw [List.map_cons, List.map_cons, List.map_cons, List.map_nil, addallN_three, hadd, h1]
        have e3 : addany N (.list [.arr a]) (.arr d) = (Arr.badd ⟨1 :: a.shape, a.ncols, fun i c => a.get i.tail c⟩ d).map .arr := by
          cases N <;> rfl
        show addany N (.list [.arr a]) (.arr d) = _
        rw [e3, k1]
        rfl
      · have : ¬ powTwo 3 := by
          rintro ⟨k, hk⟩
          rw [pow_succ] at hk
          omega
        simp only [this, decide_false]
        exact k2
    | a :: b :: c :: d :: vs, hl =>
      have hn4 : 4 ≤ n := by
        rw [← hl]
        simp
      generalize hW : a :: b :: c :: d :: vs = W at hv hl
      obtain ⟨x, x1, x2, x3⟩ := ih (n / 2) (by omega) fuel (W.take (n / 2)) (by omega) (by simp [hl]; omega) (by omega)
        (fun a ha => hv a (List.mem_of_mem_take ha))
      obtain ⟨y, y1, y2, y3⟩ := ih (n - n / 2) (by omega) fuel (W.drop (n / 2)) (by omega) (by simp [hl]) (by omega)
        (fun a ha => hv a (List.mem_of_mem_drop ha))
      obtain ⟨z, z1, z2, z3⟩ := badd_shape s nc _ _ x y x3 y3 x2 y2
      refine ⟨z, ?_, z3, ?_⟩
      · simp only [addallN, List.length_map, hl]
        rw [← List.map_take, ← List.map_drop]
        have e1 : ((W.take (n / 2)).map PV.arr).length = n / 2 := by simp [hl]; omega
        have e2 : ((W.drop (n / 2)).map PV.arr).length = n - n / 2 := by simp [hl]
        generalize (W.take (n / 2)).map PV.arr = A at e1 x1 ⊢
        generalize (W.drop (n / 2)).map PV.arr = B at e2 y1 ⊢
        match A, B, e1, e2, x1, y1 with
        | [], _, e1, _, _, _ => simp at e1; omega
        | _ :: _, [], _, e2, _, _ => simp at e2; omega
        | [_], _, e1, _, _, _ => simp at e1; omega
        | _ :: _ :: _, [_], _, e2, _, _ => simp at e2; omega
        | _ :: _ :: _, _ :: _ :: _, _, _, x1, y1 =>
          simp only [x1, y1, hadd, z1]
          rfl
      · rw [z2]
        by_cases hp : powTwo n
        · have := (powTwo_half hn4).1 hp
          simp only [hp, this.1, this.2, decide_true, Bool.and_self]
        · have : ¬ (powTwo (n / 2) ∧ powTwo (n - n / 2)) := fun h => hp ((powTwo_half hn4).2 h)
          have h2 : (decide (powTwo (n / 2)) && decide (powTwo (n - n / 2))) = false := by
            rw [Bool.and_eq_false_iff, decide_eq_false_iff_not, decide_eq_false_iff_not]
            tauto
          simp only [hp, h2, decide_false]

theorem mapDictE_arr (kf : List Bool) (kg : List Bool) : ∀ d : List (Key × Content Arr 0),
    mapDictE (projcontent kf 0 kg) d = .ok (d.map (fun p => (p.1, PV.arr (Arr.sumAxes kf p.2))))
  | [] => rfl
  | (k, a) :: d => by
    simp only [mapDictE, mapDictE_arr kf kg d]
    rfl

/-- C32 does not hold: when the only group axis is projected away, the result is the content of a
histogram (an array of the right shape) exactly if the number of keys is 2, 4, 8, 16, ....  With no
keys it raises, with one key it is a list, with other numbers of keys the array has a dimension too
many. -/
theorem C32_right_iff_power_of_two (g : GroupAxis) (fixed : List FixedAxis) (nprof : ℕ) (wkind : WKind) (d : List (Key × Arr))
    (hd : ∀ p ∈ d, p.2.shape = fixed.map FixedAxis.totbins) (hc : ∀ p ∈ d, p.2.ncols = (HistDef.mk [g] fixed nprof wkind).layout.ncols)
    (kf : List Bool) :
    (∃ a : Arr, HistDef.projectState ⟨[g], fixed, nprof, wkind⟩ [false] kf (some d) = .ok (some (.arr a)) ∧
      a.shape = (pick kf fixed).map FixedAxis.totbins) ↔ ∃ k, d.length = 2 ^ (k + 1) := by
  have hm : HistDef.projectState ⟨[g], fixed, nprof, wkind⟩ [false] kf (some d) =
      (addall 0 (d.map (fun p => PV.arr (p.2.sumAxes kf)))).map some := by
    refine Eq.trans (b := Except.map some (match (mapDictE (projcontent kf 0 []) d : Except Err (List (Key × PV))) with
      | .error e => (.error e : Except Err PV)
      | .ok d' => addall 0 (d'.map (·.2)))) rfl ?_
    have e : (mapDictE (projcontent kf 0 []) d : Except Err (List (Key × PV))) = _ := mapDictE_arr kf [] d
    rw [e]
    exact congrArg (fun l => Except.map some (addall 0 l)) (List.map_map (l := d) (f := fun p : Key × Content Arr 0 => (p.1, PV.arr (Arr.sumAxes kf p.2)))
      (g := fun x : Key × PV => x.2))
  rw [hm]
  match d, hd, hc with
  | [], _, _ =>
    simp only [List.map_nil, addall, List.length_nil]
    constructor
    · rintro ⟨a, h, _⟩; cases h
    · rintro ⟨k, hk⟩
      have : 0 < 2 ^ (k + 1) := by positivity
      omega
  | [p], _, _ =>
    constructor
    · rintro ⟨a, h, _⟩
      rw [List.map_cons, List.map_nil, addall, List.length_singleton, addallN_one] at h
      · cases h
      · simp
    · rintro ⟨k, hk⟩
      rw [pow_succ] at hk
      simp at hk
      omega
  | p :: q :: d, hd, hc =>
    obtain ⟨a, h1, _, h3⟩ := addallN_shape (pick kf (fixed.map FixedAxis.totbins)) (HistDef.mk [g] fixed nprof wkind).layout.ncols 0 (p :: q :: d).length (p :: q :: d).length
      ((p :: q :: d).map (fun p => p.2.sumAxes kf)) le_rfl (by simp) (by simp) (by
        intro a ha
        obtain ⟨x, hx, rfl⟩ := List.mem_map.1 ha
        exact ⟨by show pick kf x.2.shape = _; rw [hd x hx], hc x hx⟩)
    have h4 : addall 0 ((p :: q :: d).map (fun p => PV.arr (p.2.sumAxes kf))) = .ok (.arr a) := by
      rw [List.map_map] at h1
      have e : ((p :: q :: d).map (fun p => PV.arr (p.2.sumAxes kf))).length = (p :: q :: d).length := by simp
      rw [← e] at h1
      exact h1
    rw [h4, ← pick_map]
    constructor
    · rintro ⟨b, hb, hs⟩
      cases hb
      by_contra hn
      have : ¬ powTwo (p :: q :: d).length := hn
      simp only [this, decide_false] at h3
      rw [h3] at hs
      exact cons_ne_self _ hs
    · intro hk
      have : powTwo (p :: q :: d).length := hk
      simp only [this, decide_true] at h3
      exact ⟨a, rfl, h3⟩

/-! ## C33 -/

/-- The axes that are kept by two projections, one after the other. -/
def andThen : List Bool → List Bool → List Bool
  | true :: ks, b :: ls => b :: andThen ks ls
  | false :: ks, ls => false :: andThen ks ls
  | _, _ => []

theorem pick_andThen {α : Type} : ∀ (ks ls : List Bool) (xs : List α), ls.length = ks.count true → 
    pick (andThen ks ls) xs = pick ls (pick ks xs)
  | [], ls, xs, _ => by
    cases ls with
    | nil => cases xs <;> rfl
    | cons b ls => cases b <;> cases xs <;> rfl
  | false :: ks, ls, [], _ => by
    cases ls with
    | nil => rfl
    | cons b ls => cases b <;> rfl
  | false :: ks, ls, x :: xs, h => by
    simp only [andThen, pick]
    exact pick_andThen ks ls xs (by simpa using h)
  | true :: ks, [], xs, h => by simp at h
  | true :: ks, b :: ls, [], _ => by cases b <;> rfl
  | true :: ks, b :: ls, x :: xs, h => by
    cases b with
    | true => simp only [andThen, pick]; rw [pick_andThen ks ls xs (by simpa using h)]
    | false => simp only [andThen, pick]; exact pick_andThen ks ls xs (by simpa using h)

theorem andThen_length : ∀ (ks ls : List Bool), ls.length = ks.count true → (andThen ks ls).length = ks.length
  | [], ls, _ => by cases ls <;> rfl
  | false :: ks, ls, h => by simp only [andThen, List.length_cons]; rw [andThen_length ks ls (by simpa using h)]
  | true :: ks, [], h => by simp at h
  | true :: ks, b :: ls, h => by simp only [andThen, List.length_cons]; rw [andThen_length ks ls (by simpa using h)]

theorem all_andThen {α : Type} (p : α → Bool) : ∀ (ks ls : List Bool) (xs : List α), ls.length = ks.count true →
    (pick ((andThen ks ls).map not) xs).all p = ((pick (ks.map not) xs).all p && (pick (ls.map not) (pick ks xs)).all p)
  | [], ls, xs, h => by
    have : ls = [] := by simpa using h
    subst this
    cases xs <;> rfl
  | false :: ks, ls, [], _ => by
    cases ls with
    | nil => rfl
    | cons b ls => cases b <;> rfl
  | false :: ks, ls, x :: xs, h => by
    simp only [andThen, List.map_cons, Bool.not_false, pick, List.all_cons, Bool.and_assoc]
    rw [all_andThen p ks ls xs (by simpa using h)]
  | true :: ks, [], xs, h => by simp at h
  | true :: ks, b :: ls, [], _ => by cases b <;> rfl
  | true :: ks, b :: ls, x :: xs, h => by
    have ih := all_andThen p ks ls xs (by simpa using h)
    cases b with
    | true =>
      simp only [andThen, List.map_cons, Bool.not_true, pick]
      exact ih
    | false =>
      simp only [andThen, List.map_cons, Bool.not_false, Bool.not_true, pick, List.all_cons]
      rw [ih]
      cases p x <;> cases (pick (ks.map not) xs).all p <;> simp

theorem project_andThen (H : HistDef) (kg kf kg' kf' : List Bool) (hg : kg'.length = kg.count true) (hf : kf'.length = kf.count true) :
    (H.project kg kf).project kg' kf' = H.project (andThen kg kg') (andThen kf kf') := by
  simp only [HistDef.project, pick_andThen kg kg' _ hg, pick_andThen kf kf' _ hf]

theorem row_project_andThen (r : Row) (kg kf kg' kf' : List Bool) (hg : kg'.length = kg.count true) (hf : kf'.length = kf.count true) :
    (r.project kg kf).project kg' kf' = r.project (andThen kg kg') (andThen kf kf') := by
  simp only [Row.project, pick_andThen kg kg' _ hg, pick_andThen kf kf' _ hf]

theorem coveredOn_andThen (H : HistDef) (r : Row) (hr : r.Sound H) (kg kf kg' kf' : List Bool) (hg : kg'.length = kg.count true)
    (hf : kf'.length = kf.count true) :
    r.coveredOn H (andThen kg kg') (andThen kf kf') = (r.coveredOn H kg kf && (r.project kg kf).coveredOn (H.project kg kf) kg' kf') := by
  unfold Row.coveredOn
  rw [all_andThen _ kg kg' _ hg, all_andThen _ kf kf' _ hf, pick_zipWith _ kg _ _ hr.groups.symm, pick_zipWith _ kf _ _ hr.fixed.length_eq]
  simp only [HistDef.project, Row.project]
  generalize (pick (kg.map not) _).all Option.isSome = a
  generalize (pick (kg'.map not) _).all Option.isSome = b
  generalize (pick (kf.map not) _).all id = c
  generalize (pick (kf'.map not) _).all id = d
  cases a <;> cases b <;> cases c <;> cases d <;> rfl

theorem toPV_injective : ∀ n : ℕ, Function.Injective (toPV n)
  | 0, (a : Arr), (b : Arr), h => by
    have : PV.arr a = PV.arr b := h
    exact PV.arr.inj this
  | n + 1, (d : List (Key × Content Arr n)), (e : List (Key × Content Arr n)), h => by
    have h' : PV.dict (d.map (fun p => (p.1, toPV n p.2))) = PV.dict (e.map (fun p => (p.1, toPV n p.2))) := h
    refine List.map_injective_iff.2 ?_ (PV.dict.inj h')
    rintro ⟨k, x⟩ ⟨l, y⟩ hxy
    simp only [Prod.mk.injEq] at hxy
    rw [hxy.1, toPV_injective n hxy.2]

/-- C33 (partial: numbers of keys as in C32).  Projecting onto some axes and then onto some of these
gives the same histogram, entry by entry, as projecting onto the latter at once. -/
theorem C33_projections_compose_partial (H : HistDef) (rows : List Row) (st : H.State) (h : Represents H rows st)
    (kg kf kg' kf' : List Bool) (hkg : kg.length = H.groups.length) (hkf : kf.length = H.fixed.length)
    (hg : kg'.length = kg.count true) (hf : kf'.length = kf.count true)
    (st1 : (H.project kg kf).State) (h1 : H.projectState kg kf st = .ok ((H.project kg kf).toPV st1))
    (hp1 : H.PowKeys kg st) (hp : (H.project kg kf).PowKeys kg' st1) (hp' : H.PowKeys (andThen kg kg') st) :
    ∃ (st2 : ((H.project kg kf).project kg' kf').State) (st3 : (H.project (andThen kg kg') (andThen kf kf')).State),
      (H.project kg kf).projectState kg' kf' st1 = .ok (((H.project kg kf).project kg' kf').toPV st2) ∧
      H.projectState (andThen kg kg') (andThen kf kf') st = .ok ((H.project (andThen kg kg') (andThen kf kf')).toPV st3) ∧
      (H.project kg kf).project kg' kf' = H.project (andThen kg kg') (andThen kf kf') ∧
      ∀ gk, gk.length = ((H.project kg kf).project kg' kf').groups.length → ∀ idx, ((H.project kg kf).project kg' kf').Cell idx → ∀ col,
        ((H.project kg kf).project kg' kf').read st2 gk idx col = (H.project (andThen kg kg') (andThen kf kf')).read st3 gk idx col := by
  have hr1 : Represents (H.project kg kf) ((rows.filter (Row.coveredOn H kg kf)).map (Row.project kg kf)) st1 := by
    obtain ⟨st1', x1, x2, _⟩ := h.project kg kf hkg hkf hp1
    rw [x1] at h1
    have := Option.map_injective (toPV_injective _) (Except.ok.inj h1)
    exact this ▸ x2
  have lg : (H.project kg kf).groups.length = kg.count true := pick_length kg _ hkg
  have lf : (H.project kg kf).fixed.length = kf.count true := pick_length kf _ hkf
  obtain ⟨st2, a1, a2, _⟩ := hr1.project kg' kf' (by rw [hg, lg]) (by rw [hf, lf]) hp
  obtain ⟨st3, b1, b2, _⟩ := h.project (andThen kg kg') (andThen kf kf') (by rw [andThen_length _ _ hg, hkg])
    (by rw [andThen_length _ _ hf, hkf]) hp'
  have e := project_andThen H kg kf kg' kf' hg hf
  refine ⟨st2, st3, a1, b1, e, fun gk hgk idx hidx col => ?_⟩
  rw [a2.totals gk hgk idx hidx col, b2.totals gk (by rw [← e]; exact hgk) idx (by rw [← e]; exact hidx) col, e]
  congr 1
  rw [List.filter_map, List.map_map, List.filter_filter]
  have hfun : (Row.project kg' kf' ∘ Row.project kg kf) = Row.project (andThen kg kg') (andThen kf kf') := by
    funext r
    exact row_project_andThen r kg kf kg' kf' hg hf
  rw [hfun]
  congr 1
  refine List.filter_congr fun r hr => ?_
  rw [coveredOn_andThen H r (h.sound r hr) kg kf kg' kf' hg hf, Bool.and_comm]
  rfl

theorem sum_expand (f : List ℕ → ℚ) : ∀ (ks : List Bool) (ns : List ℕ), ks.length = ns.length →
    ((allCells (pick ks ns)).map (fun idx => ((expand ks ns idx).map f).sum)).sum = ((allCells ns).map f).sum := by
  intro ks
  induction ks generalizing f with
  | nil =>
    intro ns h
    have : ns = [] := by simpa [eq_comm] using h
    subst this
    simp [allCells, pick, expand]
  | cons b ks ih =>
    intro ns h
    match ns, h with
    | n :: ns, h =>
    have h' : ks.length = ns.length := by simpa using h
    have push : ∀ (l : List ℕ) (g : ℕ → List (List ℕ)) (F : List ℕ → ℚ),
        ((l.flatMap g).map F).sum = (l.map (fun i => ((g i).map F).sum)).sum := by
      intro l g F
      induction l with
      | nil => rfl
      | cons x l ihl => simp [ihl]
    have rhs : ((allCells (n :: ns)).map f).sum = ((List.range n).map (fun i => ((allCells ns).map (fun t => f (i :: t))).sum)).sum := by
      simp only [allCells]
      rw [push]
      simp only [List.map_map]
      rfl
    rw [rhs]
    cases b with
    | true =>
      simp only [pick, allCells]
      rw [push]
      congr 1
      refine List.map_congr_left fun i _ => ?_
      rw [← ih (fun t => f (i :: t)) ns h', List.map_map]
      congr 1
      refine List.map_congr_left fun idx _ => ?_
      simp only [Function.comp, expand, List.map_map]
      rfl
    | false =>
      simp only [pick]
      have swap : ∀ (A : List (List ℕ)) (B : List ℕ) (F : List ℕ → ℕ → ℚ),
          (A.map (fun a => (B.map (fun b => F a b)).sum)).sum = (B.map (fun b => (A.map (fun a => F a b)).sum)).sum := by
        intro A B F
        induction A with
        | nil => simp
        | cons a A ihA =>
          simp only [List.map_cons, List.sum_cons, ihA]
          rw [← List.sum_map_add]
      have e : ∀ idx, ((expand (false :: ks) (n :: ns) idx).map f).sum =
          ((List.range n).map (fun i => ((expand ks ns idx).map (fun t => f (i :: t))).sum)).sum := by
        intro idx
        simp only [expand]
        rw [push]
        simp only [List.map_map]
        rfl
      simp only [e]
      rw [swap]
      congr 1
      refine List.map_congr_left fun i _ => ?_
      exact ih (fun t => f (i :: t)) ns h'

theorem margin_replicate (f : Arr → ℚ) : ∀ (n m : ℕ) (c : Content Arr n) (gk : List Key),
    margin f n (List.replicate m true) c gk = lookupF f n c gk
  | 0, _, _, _ => rfl
  | n + 1, m, (d : List (Key × Content Arr n)), [] => by
    cases m <;> rfl
  | n + 1, m, (d : List (Key × Content Arr n)), k :: gk => by
    have ht : (List.replicate m true).tail = List.replicate (m - 1) true := by cases m <;> rfl
    have hh : (List.replicate m true).headD true = true := by cases m <;> rfl
    simp only [margin, lookupF, ht, hh, if_true]
    cases dget d k with
    | none => rfl
    | some c => exact margin_replicate f n (m - 1) c gk

/-- C33, second half.  Projecting fixed axes away leaves the sum over all bins unchanged, in every
group and every column, for any content of a histogram (filled, added, scaled or projected), with or
without flow bins. -/
theorem C33_total_unchanged (H : HistDef) (st : H.State) (hp : H.Proper st) (kf : List Bool) (hkf : kf.length = H.fixed.length) :
    let kg := List.replicate H.groups.length true
    ∃ st' : (H.project kg kf).State, H.projectState kg kf st = .ok ((H.project kg kf).toPV st') ∧ (H.project kg kf).Proper st' ∧
      ∀ gk, gk.length = H.groups.length → ∀ col,
        ((allCells ((H.project kg kf).fixed.map FixedAxis.totbins)).map (fun idx => (H.project kg kf).read st' gk idx col)).sum =
        ((allCells (H.fixed.map FixedAxis.totbins)).map (fun idx => H.read st gk idx col)).sum := by
  intro kg
  cases st with
  | none =>
    refine ⟨none, rfl, ⟨trivial, trivial⟩, fun gk _ col => ?_⟩
    simp [HistDef.read]
  | some c =>
    have hm : (H.project kg kf).groups.length = kg.count true := pick_length kg _ (by simp [kg])
    have hm' : (H.project kg kf).groups.length = H.groups.length := by rw [hm]; simp [kg]
    obtain ⟨c', h1, h2⟩ := projcontent_spec H.layout (H.project kg kf).layout kf
      (by show (pick kf H.fixed).map FixedAxis.totbins = pick kf (H.fixed.map FixedAxis.totbins); rw [pick_map]) rfl
      H.groups.length kg c (by simp [kg]) hp.2 hp.1 (powKeys_replicate _ _ c) (H.project kg kf).groups.length hm
    refine ⟨some c', ?_, ⟨h2.shaped, h2.distinct⟩, fun gk hgk col => ?_⟩
    · simp only [HistDef.projectState, h1]
      rfl
    · have hd : (H.project kg kf).fixed.map FixedAxis.totbins = pick kf (H.fixed.map FixedAxis.totbins) := (pick_map _ kf _).symm
      rw [hd, ← sum_expand _ kf (H.fixed.map FixedAxis.totbins) (by simpa using hkf)]
      congr 1
      refine List.map_congr_left fun idx _ => ?_
      refine (h2.value gk (by rw [hm', hgk]) idx col).trans ?_
      rw [margin_replicate]
      have hlk : lookupF (fun a => (a.sumAxes kf).get idx col) H.groups.length c gk =
          lookupF (fun a => ((expand kf (H.fixed.map FixedAxis.totbins) idx).map (fun i => a.get i col)).sum) H.groups.length c gk :=
        lookupF_congr H.layout _ _ (fun a ha => by
          show ((expand kf a.shape idx).map _).sum = _
          rw [ha.1]; rfl) _ c gk hp.1
      rw [hlk, lookupF_sum]
      congr 1
      refine List.map_congr_left fun i _ => ?_
      exact lookupF_get i col _ c gk

/-! ## examples -/

/-- `Hist(groupby("c"), bin("x", 2, 0, 2), weight="w")` with three keys -/
def exThree : Except (Err × exH.State) exH.State :=
  exH.fillAll none [[exRow "a" 1 (some 2), exRow "b" 0 (some 1), exRow "d" 1 (some 3)]]

/-- the shape of a result, for the examples below -/
def PV.shape? : PV → Option (List ℕ)
  | .arr a => some a.shape
  | _ => none

/-- two keys: fine -/
example : (match exH.fillAll none [[exRow "a" 1 (some 2), exRow "b" 1 (some 3)]] with
    | .ok st => (match exH.projectState [false] [true] st with
      | .ok (some (.arr a)) => some (a.shape, (List.range 5).map (fun i => a.get [i] 0))
      | _ => none)
    | .error _ => none) = some ([5], [0, 0, 5, 0, 0]) := by decide +kernel

/-- C32: three keys give an array with an extra dimension. -/
theorem C32_three_keys_refuted : (match exThree with
    | .ok st => (match exH.projectState [false] [true] st with
      | .ok (some v) => v.shape?
      | _ => none)
    | .error _ => none) = some [1, 5] := by decide +kernel

/-- C32: one key gives a list. -/
theorem C32_one_key_refuted : (match exH.fillAll none [[exRow "a" 1 (some 2)]] with
    | .ok st => (match exH.projectState [false] [true] st with
      | .ok (some (.list l)) => some l.length
      | _ => none)
    | .error _ => none) = some 1 := by decide +kernel

/-- C32: no keys (`fill` with empty arrays) raise `AssertionError`. -/
theorem C32_no_keys_refuted : (match exH.fillAll none [[]] with
    | .ok st => (match exH.projectState [false] [true] st with
      | .error e => some e
      | _ => none)
    | .error _ => none) = some .assertion := by decide +kernel

/-- the hypotheses of C31 are met by two keys -/
example : ∃ st st', exH.fillAll none [[exRow "a" 1 (some 2), exRow "b" 1 (some 3)]] = .ok st ∧
    exH.projectState [false] [true] st = .ok ((exH.project [false] [true]).toPV st') ∧
    (exH.project [false] [true]).read st' [] [2] 0 = 5 := by
  have hf : Fillable exH [[exRow "a" 1 (some 2), exRow "b" 1 (some 3)]] := by
    refine ⟨?_, Or.inl rfl⟩
    intro b hb r hr
    simp at hb
    subst hb
    simp at hr
    rcases hr with rfl | rfl <;> exact exRow_ok _ _ _ (by norm_num)
  obtain ⟨st, h1, h2⟩ := Represents.ofFill exH _ hf
  have hp : exH.PowKeys [false] st := by
    have e : (match exH.fillAll none [[exRow "a" 1 (some 2), exRow "b" 1 (some 3)]] with
      | .ok (some (c : List (Key × Arr))) => c.length
      | _ => 0) = 2 := by decide +kernel
    rw [h1] at e
    cases st with
    | none => trivial
    | some c => exact ⟨Or.inr ⟨0, e⟩, fun _ _ => trivial⟩
  obtain ⟨st', k1, k2, _⟩ := h2.project [false] [true] rfl rfl hp
  refine ⟨st, st', h1, k1, ?_⟩
  rw [k2.totals [] rfl [2] (.cons (by decide +kernel) .nil) 0]
  decide +kernel

/-- two projections of a histogram with two fixed axes -/
example : andThen [true, false, true] [false, true] = [false, false, true] := rfl

end Verif
