import Verif.PropsTable
import Verif.PropsDrop

/-!
# Tables of fractions: property theorems C47
-/

namespace Verif

/-! ## helpers -/

/-- A projection that keeps all group axes treats every array alike. -/
theorem projcontent_all (kf : List Bool) : ∀ (n m : ℕ) (c : Content Arr n),
    projcontent kf n (List.replicate m true) c = .ok (toPV n (mapLeaves (Arr.sumAxes kf) n c))
  | 0, _, _ => rfl
  | n + 1, m, (d : List (Key × Content Arr n)) => by
    have ht : (List.replicate m true).tail = List.replicate (m - 1) true := by cases m <;> simp
    have hh : (List.replicate m true).headD true = true := by cases m <;> rfl
    have hm : mapDictE (projcontent kf n (List.replicate m true).tail) d =
        .ok (d.map (fun p => (p.1, toPV n (mapLeaves (Arr.sumAxes kf) n p.2)))) := by
      rw [ht]
      induction d with
      | nil => rfl
      | cons p d ih =>
        obtain ⟨k, x⟩ := p
        simp only [mapDictE, List.map_cons]
        rw [projcontent_all kf n (m - 1) x, ih]
    simp only [projcontent]
    rw [hm]
    simp only [hh, if_true, toPV, mapLeaves, List.map_map]
    rfl

theorem pick_true {α : Type} : ∀ l : List α, pick (List.replicate l.length true) l = l
  | [] => rfl
  | x :: l => by simp [pick, List.replicate_succ, pick_true l]

/-- The histogram with some of the fixed axes. -/
def HistDef.keeping (H : HistDef) (kf : List Bool) : HistDef := { H with fixed := pick kf H.fixed }

theorem project_keeping (H : HistDef) (kf : List Bool) : H.project (List.replicate H.groups.length true) kf = H.keeping kf := by
  unfold HistDef.project HistDef.keeping
  rw [pick_true]

theorem Represents.keeping {H : HistDef} {rows : List Row} {c : Content Arr H.groups.length} (h : Represents H rows (some c)) (kf : List Bool)
    (hkf : kf.length = H.fixed.length) :
    Represents (H.keeping kf) ((rows.filter (Row.coveredOn H (List.replicate H.groups.length true) kf)).map
      (Row.project (List.replicate H.groups.length true) kf)) (some (mapLeaves (Arr.sumAxes kf) H.groups.length c)) := by
  obtain ⟨st', h1, h2, h9⟩ := h.project (List.replicate H.groups.length true) kf (by simp) hkf (powKeys_replicate _ _ c)
  clear * - h1 h2
  revert st'
  rw [project_keeping]
  intro st' h1 h2
  have h3 : H.projectState (List.replicate H.groups.length true) kf (some c) = .ok (some (toPV H.groups.length (mapLeaves (Arr.sumAxes kf) H.groups.length c))) := by
    show Except.map some (projcontent kf H.groups.length _ c) = _
    rw [projcontent_all]
    rfl
  rw [h1] at h3
  have h4 : (H.keeping kf).toPV st' = (H.keeping kf).toPV (some (mapLeaves (Arr.sumAxes kf) H.groups.length c)) := Except.ok.inj h3
  rw [← Option.map_injective (toPV_injective _) h4]
  exact h2

theorem collectKey_map {α β : Type} (k : Key) (fs : List (α → β)) (d : List (Key × α)) (x : α) (hx : dget d k = some x) :
    collectKey k (fs.map (fun f => d.map (fun p => (p.1, f p.2)))) = .ok (fs.map (· x)) := by
  induction fs with
  | nil => rfl
  | cons f fs ih =>
    simp only [List.map_cons, collectKey]
    rw [ih, dget_map (fun _ c => f c) d k, hx]
    rfl

theorem handleDict_map {α β γ : Type} (rec : β → List β → Except Err γ) (f0 : α → β) (fs : List (α → β)) (r : α → γ) (full : List (Key × α))
    (hn : (full.map (·.1)).Nodup) : ∀ d : List (Key × α), (∀ p ∈ d, p ∈ full) → (∀ p ∈ d, rec (f0 p.2) (fs.map (· p.2)) = .ok (r p.2)) →
    handleDict rec (fs.map (fun f => full.map (fun p => (p.1, f p.2)))) (d.map (fun p => (p.1, f0 p.2))) =
      .ok (d.map (fun p => (p.1, r p.2)))
  | [], _, _ => rfl
  | (k, x) :: d, hd, hr => by
    simp only [List.map_cons, handleDict]
    rw [collectKey_map k fs full x (dget_of_mem full hn (k, x) (hd _ List.mem_cons_self))]
    have h1 := hr (k, x) List.mem_cons_self
    simp only at h1 ⊢
    rw [h1, handleDict_map rec f0 fs r full hn d (fun p hp => hd p (List.mem_cons_of_mem _ hp)) (fun p hp => hr p (List.mem_cons_of_mem _ hp))]

theorem fraction_mem_dget {β : Type} {d : List (Key × β)} (hn : (d.map (·.1)).Nodup) (P : β → Prop) (h : ∀ k x, dget d k = some x → P x) : ∀ p ∈ d, P p.2 :=
  fun p hp => h p.1 p.2 (dget_of_mem d hn p hp)

theorem handleFr_map (L : Layout) (f : Arr → List Arr → Except Err Table) (f0 : Arr → Arr) (fs : List (Arr → Arr)) (r : Arr → Table)
    (hr : ∀ a : Arr, Shaped L 0 a → f (f0 a) (fs.map (· a)) = .ok (r a)) : ∀ (n : ℕ) (c : Content Arr n), Distinct n c → Shaped L n c →
    handleFr f n (mapLeaves f0 n c) (fs.map (fun g => mapLeaves g n c)) = .ok (handle r n c)
  | 0, (a : Arr), _, hs => hr a hs
  | n + 1, (d : List (Key × Content Arr n)), hd, hs => by
    have hrec := handleDict_map (handleFr f n) (mapLeaves f0 n) (fs.map (fun g => mapLeaves g n)) (handle r n) d hd.1 d (fun p hp => hp) (by
      intro p hp
      rw [List.map_map]
      exact handleFr_map L f f0 fs r hr n p.2 (hd.2 p hp) (fraction_mem_dget hd.1 (fun c => Shaped L n c) hs p hp))
    rw [List.map_map] at hrec
    exact hrec

/-! ### cuts -/

theorem cut_handles {v : Val} (h : FixedAxis.cut.Handles v) : ∃ b, v = .bool b := by
  obtain ⟨r, h1, h2, h3⟩ := h
  cases v with
  | bool b => exact ⟨b, rfl⟩
  | int i =>
    obtain ⟨h4, h5⟩ := h2 _ (Except.ok.inj h1).symm
    obtain ⟨l, h6, h7⟩ := (h3 (wrapI32 i).toNat).1 (by rw [← Except.ok.inj h1, Int.toNat_of_nonneg h4])
    have : l ∈ FixedAxis.cut.keys := List.mem_of_getElem? h6
    simp only [FixedAxis.keys, List.mem_cons, List.not_mem_nil, or_false] at this
    rcases this with rfl | rfl <;> simp [Val.In, BinLabel.mem] at h7 <;> exact absurd (of_decide_eq_true h7) id
  | num x =>
    obtain ⟨h4, h5⟩ := h2 _ (Except.ok.inj h1).symm
    obtain ⟨l, h6, h7⟩ := (h3 x.toI32.toNat).1 (by rw [← Except.ok.inj h1, Int.toNat_of_nonneg h4])
    have : l ∈ FixedAxis.cut.keys := List.mem_of_getElem? h6
    simp only [FixedAxis.keys, List.mem_cons, List.not_mem_nil, or_false] at this
    rcases this with rfl | rfl <;> simp [Val.In, BinLabel.mem] at h7 <;> exact absurd (of_decide_eq_true h7) id

theorem landsOn_set : ∀ (j : ℕ) (kf : List Bool) (fs : List FixedAxis) (vs : List Val) (idx : List ℕ) (b : Bool), kf.length = fs.length →
    vs.length = fs.length → kf[j]? = some false → fs[j]? = some .cut → vs[j]? = some (.bool b) →
    landsOn (kf.set j true) fs vs (idx.insertIdx ((kf.take j).count true) 1) = (landsOn kf fs vs idx && b)
  | 0, k :: kf, f :: fs, v :: vs, idx, b, _, _, hk, hf, hv => by
    simp only [List.getElem?_cons_zero, Option.some.injEq] at hk hf hv
    subst hk hf hv
    have hc : FixedAxis.cut.covers (.bool b) = true := by cases b <;> decide
    have hh : FixedAxis.cut.holds 1 (.bool b) = b := by cases b <;> decide
    simp only [landsOn, List.set_cons_zero, List.take_zero, List.count_nil, List.insertIdx_zero, pick, inBins', List.map_cons,
      List.zipWith_cons_cons, Bool.not_true, Bool.not_false, List.all_cons, hc, hh, id]
    cases b <;> simp
  | j + 1, k :: kf, f :: fs, v :: vs, idx, b, h1, h2, hk, hf, hv => by
    have ih := fun is => landsOn_set j kf fs vs is b (by simpa using h1) (by simpa using h2) (by simpa using hk) (by simpa using hf) (by simpa using hv)
    unfold landsOn at ih ⊢
    cases k with
    | false =>
      simp only [List.set_cons_succ, List.take_succ_cons, List.count_cons, pick, List.map_cons, List.zipWith_cons_cons, Bool.not_false, List.all_cons, id]
      have := ih idx
      simp only [beq_iff_eq, Bool.false_eq_true, if_false, Nat.add_zero]
      generalize FixedAxis.covers f v = y
      revert this
      generalize inBins' (pick (kf.set j true) fs) (pick (kf.set j true) vs) (idx.insertIdx (List.count true (List.take j kf)) 1) = p
      generalize (pick (List.map not (kf.set j true)) (List.zipWith FixedAxis.covers fs vs)).all id = q
      generalize inBins' (pick kf fs) (pick kf vs) idx = r
      generalize (pick (List.map not kf) (List.zipWith FixedAxis.covers fs vs)).all id = s
      intro this
      cases y <;> simp_all
    | true =>
      simp only [List.set_cons_succ, List.take_succ_cons, List.count_cons, pick, List.map_cons, List.zipWith_cons_cons, Bool.not_true]
      simp only [beq_self_eq_true, if_true]
      cases idx with
      | nil => simp [inBins']
      | cons i is =>
        rw [List.insertIdx_succ_cons]
        simp only [inBins']
        have := ih is
        generalize f.holds i v = y
        revert this
        generalize inBins' (pick (kf.set j true) fs) (pick (kf.set j true) vs) (is.insertIdx (List.count true (List.take j kf)) 1) = p
        generalize (pick (List.map not (kf.set j true)) (List.zipWith FixedAxis.covers fs vs)).all id = q
        generalize inBins' (pick kf fs) (pick kf vs) is = r
        generalize (pick (List.map not kf) (List.zipWith FixedAxis.covers fs vs)).all id = s
        intro this
        cases y <;> simp_all
  | 0, [], _, _, _, _, _, _, hk, _, _ => by simp at hk
  | 0, _ :: _, [], _, _, _, _, _, _, hf, _ => by simp at hf
  | 0, _ :: _, _ :: _, [], _, _, _, _, _, _, hv => by simp at hv
  | _ + 1, [], _, _, _, _, _, _, hk, _, _ => by simp at hk
  | _ + 1, _ :: _, [], _, _, _, _, _, _, hf, _ => by simp at hf
  | _ + 1, _ :: _, _ :: _, [], _, _, _, _, _, _, hv => by simp at hv

theorem pick_set {α : Type} : ∀ (j : ℕ) (kf : List Bool) (l : List α) (x : α), kf[j]? = some false → l[j]? = some x →
    pick (kf.set j true) l = (pick kf l).insertIdx ((kf.take j).count true) x
  | 0, k :: kf, y :: l, x, hk, hl => by
    simp only [List.getElem?_cons_zero, Option.some.injEq] at hk hl
    subst hk hl
    simp [pick]
  | j + 1, k :: kf, y :: l, x, hk, hl => by
    have ih := pick_set j kf l x (by simpa using hk) (by simpa using hl)
    cases k <;> simp [pick, ih]
  | 0, [], _, _, hk, _ => by simp at hk
  | 0, _ :: _, [], _, _, hl => by simp at hl
  | _ + 1, [], _, _, hk, _ => by simp at hk
  | _ + 1, _ :: _, [], _, _, hl => by simp at hl

theorem inRange_insert : ∀ (pos : ℕ) {idx dims : List ℕ} {i n : ℕ}, InRange idx dims → i < n → InRange (idx.insertIdx pos i) (dims.insertIdx pos n)
  | 0, _, _, _, _, h, hi => .cons hi h
  | _ + 1, _, _, _, _, .nil, _ => .nil
  | p + 1, _, _, _, _, .cons h1 h2, hi => .cons h1 (inRange_insert p h2 hi)

theorem insert_set : ∀ (pos : ℕ) (idx : List ℕ) (i k : ℕ), (idx.insertIdx pos i).set pos k = idx.insertIdx pos k ∨ idx.length < pos
  | 0, _, _, _ => Or.inl rfl
  | p + 1, [], _, _ => Or.inr (by simp)
  | p + 1, x :: idx, i, k => by
    rcases insert_set p idx i k with h | h
    · left; simp [h]
    · right; simpa using h

theorem insert_get (pos : ℕ) (idx : List ℕ) (i : ℕ) (h : pos ≤ idx.length) : (idx.insertIdx pos i).getD pos 0 = i := by
  rw [List.getD_eq_getElem?_getD, List.getElem?_insertIdx_self, if_pos h]
  rfl

theorem handle_leaf (f : Arr → Table) : ∀ (n : ℕ) (c : Content Arr n) (gk : List Key), gk.length = n → HasGroup n c gk →
    ∃ a : Arr, tlookup n (handle f n c) gk = some (f a) ∧ (∀ g : Arr → ℚ, lookupF g n c gk = g a) ∧ ∀ L, Shaped L n c → Shaped L 0 a
  | 0, (a : Arr), [], _, _ => ⟨a, rfl, fun _ => rfl, fun _ h => h⟩
  | n + 1, (d : List (Key × Content Arr n)), k :: gk, hl, hg => by
    obtain ⟨c, hc, hg'⟩ := hg
    obtain ⟨a, h1, h2, h3⟩ := handle_leaf f n c gk (by simpa using hl) hg'
    refine ⟨a, ?_, fun g => ?_, fun L hL => h3 L (hL k c hc)⟩
    · show (match dget (d.map (fun p => (p.1, handle f n p.2))) k with | none => none | some c => tlookup n c gk) = _
      rw [dget_map (fun _ c => handle f n c) d k, hc]
      exact h1
    · show (match dget d k with | none => 0 | some c => lookupF g n c gk) = _
      rw [hc]
      exact h2 g

theorem Represents.prefilled {H : HistDef} {rows : List Row} {st : H.State} (h : Represents H rows st) :
    Represents H rows (some (prefill H.layout st)) := by
  obtain ⟨p1, p2, p3⟩ := prefill_facts H st h.good
  refine ⟨p1, ?_, h.sound, fun r hr gk hgk => (p3 gk).2 (Or.inl (h.groups r hr gk hgk)), fun gk hgk idx hidx col => ?_⟩
  · cases st with
    | some c => exact h.distinct
    | none =>
      obtain ⟨g, f, np, wk⟩ := H
      cases g with
      | nil => trivial
      | cons g gs => exact ⟨List.nodup_nil, fun p hp => absurd hp (List.not_mem_nil)⟩
  · exact (p2 gk idx col).trans (h.totals gk hgk idx hidx col)

theorem sumW_map (k : WKind) (g : Row → Row) (hg : ∀ r, (g r).weight k = r.weight k) (l : List Row) : sumW k (l.map g) = sumW k l := by
  unfold sumW rsum
  rw [List.map_map]
  exact congrArg List.sum (List.map_congr_left (fun r _ => hg r))

theorem pick_none {α : Type} : ∀ (n : ℕ) (l : List α), pick (List.replicate n false) l = []
  | 0, l => by cases l <;> rfl
  | n + 1, [] => rfl
  | n + 1, _ :: l => pick_none n l

/-- The sum of weights in a bin of the histogram with some axes kept. -/
theorem keeping_read {H : HistDef} {rows : List Row} {c : Content Arr H.groups.length} (h : Represents H rows (some c)) (hn : H.nprof = 0) (kf : List Bool)
    (hkf : kf.length = H.fixed.length) (gk : List Key) (hgk : gk.length = H.groups.length) (idx : List ℕ) (hidx : InRange idx ((pick kf H.fixed).map FixedAxis.totbins)) :
    lookupF (fun a => (a.sumAxes kf).get idx 0) H.groups.length c gk =
      sumW H.wkind (rows.filter (fun r => inGroup H.groups r.gvals gk && landsOn kf H.fixed r.fvals idx)) := by
  have hr := h.keeping kf hkf
  have ht := hr.totals gk hgk idx hidx 0
  have h1 := (cell_sums (H.keeping kf) ((rows.filter (Row.coveredOn H (List.replicate H.groups.length true) kf)).map
      (Row.project (List.replicate H.groups.length true) kf)) gk idx).1
  rw [show 2 * (H.keeping kf).nprof = 0 from by show 2 * H.nprof = 0; rw [hn]] at h1
  rw [h1] at ht
  refine ((mapLeaves_lookup _ idx 0 _ c gk).symm.trans ht).trans ?_
  rw [List.filter_map, sumW_map _ (Row.project (List.replicate H.groups.length true) kf) (fun r => rfl), List.filter_filter]
  refine congrArg (sumW H.wkind) (List.filter_congr (fun r hr => ?_))
  have hs := h.sound r hr
  have hp : pick (List.replicate H.groups.length true) r.gvals = r.gvals := by rw [← hs.groups]; exact pick_true _
  show (inGroup H.groups (pick (List.replicate H.groups.length true) r.gvals) gk && inBins' (pick kf H.fixed) (pick kf r.fvals) idx &&
    ((pick ((List.replicate H.groups.length true).map not) _).all Option.isSome && _)) = _
  rw [hp, List.map_replicate, Bool.not_true, pick_none]
  simp only [List.all_nil, Bool.true_and, landsOn, Bool.and_assoc]

/-- The tables of fractions. -/
theorem fraction_of_fill (H : HistDef) (bs : List (List Row)) (hf : Fillable H bs) (st : H.State)
    (hst : H.fillAll none bs = .ok st) (hpos : 0 < H.nprof) (hasWeight : Bool) (hw : hasWeight = true ↔ H.wkind ≠ .none)
    (cuts : List ℕ) (hcuts : ∀ c ∈ cuts, H.fixed[c]? = some .cut) (count : Bool) (zs : List ℚ) (kf : List Bool) (hlen : kf.length = H.fixed.length)
    (hkf : ∀ j, j < H.fixed.length → kf[j]? = some (decide (j ∉ cuts))) :
    ∃ t, H.fraction hasWeight count zs cuts st = .ok t ∧
      (∃ (f : Arr → Table) (c : Content Arr H.groups.length), t = handle f H.groups.length c ∧ Distinct H.groups.length c ∧
        ∀ gk, HasGroup H.groups.length c gk ↔ HasGroup H.groups.length (prefill H.layout st) gk) ∧
      ∀ gk, gk.length = H.groups.length → (H.has st gk ∨ gk = []) → ∀ idx, InRange idx ((pick kf H.fixed).map FixedAxis.totbins) →
        ∀ all, all = bs.flatten.filter (fun r => inGroup H.groups r.gvals gk && landsOn kf H.fixed r.fvals idx) →
        (tlookup H.groups.length t gk).map (fun tab => tab idx) =
          some (fractionSpec H.wkind count zs all (cuts.map (fun c => all.filter (fun r => decide (r.fvals[c]? = some (.bool true)))))) := by
  obtain ⟨st0, e1, h⟩ := Represents.ofFill H bs hf
  rw [hst] at e1
  cases e1
  have hku : keepUncut H.fixed.length cuts = kf := by
    refine List.ext_getElem? (fun j => ?_)
    unfold keepUncut
    by_cases hj : j < H.fixed.length
    · rw [hkf j hj, List.getElem?_map, List.getElem?_range hj]
      simp
    · rw [List.getElem?_eq_none (by simp; omega), List.getElem?_eq_none (by omega)]
  have hany : cuts.any (fun c => decide (H.fixed[c]? ≠ some .cut)) = false := by
    rw [List.any_eq_false]
    intro c hc
    simp [hcuts c hc]
  have hkc : (List.replicate H.nprof false).count true = 0 := by simp [List.count_replicate]
  obtain ⟨d1, d2⟩ := h.prefilled.dropAll (List.replicate H.nprof false) (by simp) hpos hkc hasWeight hw
  set cd := mapLeaves (Arr.takeCols (dropColumns H.layout (List.replicate H.nprof false) hasWeight)) H.groups.length (prefill H.layout st) with hcd
  have d1' : H.dropState (List.replicate H.nprof false) hasWeight (some (prefill H.layout st)) = .ok (some cd) := d1
  have d2' : Represents (H.drop (List.replicate H.nprof false)) (bs.flatten.map (Row.dropXs (List.replicate H.nprof false))) (some cd) := d2
  let fs : List (Arr → Arr) := cuts.map (fun j a => (a.sumAxes (keepWith H.fixed.length cuts j)).slice (cutPosition H.fixed.length cuts j) ⟨1, some 2⟩)
  let r : Arr → Table := fun a => fractionTable count zs (cuts.map (cutPosition H.fixed.length cuts)) (a.sumAxes kf) (fs.map (· a))
  have hmain : H.fraction hasWeight count zs cuts st = .ok (handle r H.groups.length cd) := by
    unfold HistDef.fraction
    rw [hany, d1']
    simp only [Bool.false_eq_true, if_false]
    rw [hku]
    have := handleFr_map (H.drop (List.replicate H.nprof false)).layout
      (fractionArr (H.drop (List.replicate H.nprof false)).layout.ncols count zs (cuts.map (cutPosition H.fixed.length cuts)))
      (Arr.sumAxes kf) fs r (by
        intro a ha
        unfold fractionArr
        rw [if_neg]
        intro hc
        exact hc ha.2) H.groups.length cd d2'.distinct d2'.good
    rw [List.map_map] at this
    exact this
  refine ⟨_, hmain, ⟨r, cd, rfl, d2'.distinct, fun gk => by rw [hcd]; exact mapLeaves_has _ _ _ gk⟩, fun gk hgk hhas idx hidx all hall => ?_⟩
  have hg : HasGroup H.groups.length cd gk := by
    rw [hcd]
    refine (mapLeaves_has _ _ _ gk).2 ?_
    exact ((prefill_facts H st h.good).2.2 gk).2 hhas
  obtain ⟨a, t1, t2, t3⟩ := handle_leaf r H.groups.length cd gk hgk hg
  have hsh := t3 _ d2'.good
  rw [t1]
  show some (fractionTable count zs (cuts.map (cutPosition H.fixed.length cuts)) (a.sumAxes kf) (fs.map (· a)) idx) = _
  have hden : (a.sumAxes kf).get idx 0 = sumW H.wkind all := by
    rw [← t2 (fun a => (a.sumAxes kf).get idx 0)]
    refine (keeping_read d2' hkc kf hlen gk hgk idx hidx).trans ?_
    rw [hall, List.filter_map]
    exact sumW_map _ (Row.dropXs (List.replicate H.nprof false)) (fun r => rfl) _
  have hil : idx.length = kf.count true := by
    rw [hidx.length_eq, List.length_map, pick_length kf _ hlen]
  have hnum : ∀ j ∈ cuts, (((a.sumAxes (keepWith H.fixed.length cuts j)).slice (cutPosition H.fixed.length cuts j) ⟨1, some 2⟩).get
      (idx.insertIdx (cutPosition H.fixed.length cuts j) 0) 0) = sumW H.wkind (all.filter (fun r => decide (r.fvals[j]? = some (.bool true)))) := by
    intro j hj
    unfold keepWith cutPosition
    rw [hku]
    have hfj := hcuts j hj
    have hjl : j < H.fixed.length := by
      by_contra hc
      rw [List.getElem?_eq_none (by omega)] at hfj
      cases hfj
    have hkj : kf[j]? = some false := by rw [hkf j hjl]; simp [hj]
    set pos := (kf.take j).count true with hpdef
    have hpl : pos ≤ idx.length := by
      rw [hil]
      exact (List.take_sublist j kf).count_le true
    have hdim : (pick (kf.set j true) a.shape).getD pos 0 = 2 := by
      have : a.shape = H.fixed.map FixedAxis.totbins := hsh.1
      rw [this, pick_set j kf _ 2 hkj (by rw [List.getElem?_map, hfj]; rfl)]
      exact insert_get _ _ _ (by
        rw [pick_length kf _ (by rw [List.length_map]; exact hlen)]
        exact (List.take_sublist j kf).count_le true)
    have hslice : ((a.sumAxes (kf.set j true)).slice pos ⟨1, some 2⟩).get (idx.insertIdx pos 0) 0 = (a.sumAxes (kf.set j true)).get (idx.insertIdx pos 1) 0 := by
      show (a.sumAxes (kf.set j true)).get ((idx.insertIdx pos 0).set pos ((idx.insertIdx pos 0).getD pos 0 +
        PySlice.lo ⟨1, some 2⟩ ((pick (kf.set j true) a.shape).getD pos 0))) 0 = _
      rw [hdim, insert_get pos idx 0 hpl]
      have : 0 + PySlice.lo ⟨1, some 2⟩ 2 = 1 := by decide
      rw [this]
      rcases insert_set pos idx 0 1 with h1 | h1
      · rw [h1]
      · omega
    rw [hslice, ← t2 (fun a => (a.sumAxes (kf.set j true)).get (idx.insertIdx pos 1) 0)]
    refine (keeping_read d2' hkc (kf.set j true) (by rw [List.length_set]; exact hlen) gk hgk (idx.insertIdx pos 1) ?_).trans ?_
    · have : (pick (kf.set j true) H.fixed).map FixedAxis.totbins = ((pick kf H.fixed).map FixedAxis.totbins).insertIdx pos 2 := by
        rw [pick_set j kf H.fixed .cut hkj hfj, List.map_insertIdx]
        rfl
      show InRange _ ((pick (kf.set j true) H.fixed).map FixedAxis.totbins)
      rw [this]
      exact inRange_insert pos hidx (by decide)
    · rw [hall, List.filter_map, List.filter_filter]
      refine (sumW_map _ (Row.dropXs (List.replicate H.nprof false)) (fun r => rfl) _).trans ?_
      refine congrArg (sumW H.wkind) (List.filter_congr (fun r hr => ?_))
      obtain ⟨rs, hrs, hr'⟩ := List.mem_flatten.1 hr
      have hok := hf.ok rs hrs r hr'
      obtain ⟨b, hb⟩ : ∃ b, r.fvals[j]? = some (.bool b) := by
        have hl := hok.fixed.length_eq
        rw [List.getElem?_eq_getElem hjl] at hfj
        have := (List.forall₂_iff_get.1 hok.fixed).2 j hjl (by omega)
        simp only [List.get_eq_getElem] at this
        rw [Option.some.inj hfj] at this
        obtain ⟨b, hb⟩ := cut_handles this
        exact ⟨b, by rw [List.getElem?_eq_getElem (by omega), hb]⟩
      show (inGroup H.groups r.gvals gk && landsOn (kf.set j true) H.fixed r.fvals (idx.insertIdx pos 1)) = _
      rw [hpdef, landsOn_set j kf H.fixed r.fvals idx b hlen hok.fixed.length_eq.symm hkj hfj hb, hb]
      cases b <;> simp
  unfold fractionTable fractionSpec
  simp only [hden]
  congr 2
  have hz : List.zip (cuts.map (cutPosition H.fixed.length cuts)) (fs.map (· a)) = cuts.map (fun j => (cutPosition H.fixed.length cuts j,
      (a.sumAxes (keepWith H.fixed.length cuts j)).slice (cutPosition H.fixed.length cuts j) ⟨1, some 2⟩)) := by
    show List.zip _ ((cuts.map _).map _) = _
    rw [List.map_map, List.zip_map']
    rfl
  rw [hz, List.flatMap_map, List.flatMap_map]
  refine List.flatMap_congr (fun j hj => ?_)
  simp only [hnum j hj]

/-! ## C47 -/

/-- C47, the part that holds: for a histogram with at least one profile, and with a `weight` if it has a
`filter`, each bin of the remaining axes has (optionally) the count, and for each cut the ratio of the
rows that pass to all rows of the bin, with the binomial error; in bins without positive weight zeros.
Missing: histograms without profiles and those with a `filter` but no `weight`, which raise
(`C47_no_profile_refuted`, `C47_filter_refuted`).  Methods of computing errors other than "normal" are in C95. -/
theorem C47_fraction_partial (H : HistDef) (bs : List (List Row)) (hf : Fillable H bs) (st : H.State)
    (hst : H.fillAll none bs = .ok st) (hpos : 0 < H.nprof) (hasWeight : Bool) (hw : hasWeight = true ↔ H.wkind ≠ .none)
    (cuts : List ℕ) (hcuts : ∀ c ∈ cuts, H.fixed[c]? = some .cut) (count : Bool) (zs : List ℚ) (kf : List Bool) (hlen : kf.length = H.fixed.length)
    (hkf : ∀ j, j < H.fixed.length → kf[j]? = some (decide (j ∉ cuts))) :
    ∃ t, H.fraction hasWeight count zs cuts st = .ok t ∧
      ∀ gk, gk.length = H.groups.length → (H.has st gk ∨ gk = []) → ∀ idx, InRange idx ((pick kf H.fixed).map FixedAxis.totbins) →
        ∀ all, all = bs.flatten.filter (fun r => inGroup H.groups r.gvals gk && landsOn kf H.fixed r.fvals idx) →
        (tlookup H.groups.length t gk).map (fun tab => tab idx) =
          some (fractionSpec H.wkind count zs all (cuts.map (fun c => all.filter (fun r => decide (r.fvals[c]? = some (.bool true)))))) := by
  obtain ⟨t, h1, _, h2⟩ := fraction_of_fill H bs hf st hst hpos hasWeight hw cuts hcuts count zs kf hlen hkf
  exact ⟨t, h1, h2⟩

/-- C47: the fraction is between 0 and 1 if no weight is negative, and the fractions of passing and failing rows add
up to 1. -/
theorem C47_range (k : WKind) (rows : List Row) (p : Row → Bool) (hpos : 0 < sumW k rows) :
    sumW k (rows.filter p) / sumW k rows + sumW k (rows.filter (fun r => !p r)) / sumW k rows = 1 ∧
    ((∀ r ∈ rows, 0 ≤ r.weight k) → 0 ≤ sumW k (rows.filter p) / sumW k rows ∧ sumW k (rows.filter p) / sumW k rows ≤ 1) := by
  have hsum : ∀ l : List Row, sumW k (l.filter p) + sumW k (l.filter (fun r => !p r)) = sumW k l := by
    intro l
    induction l with
    | nil => simp [sumW, rsum]
    | cons r l ih =>
      unfold sumW rsum at ih ⊢
      cases hp : p r <;> simp [hp] <;> linarith
  have h := hsum rows
  refine ⟨by rw [← add_div, h, div_self (ne_of_gt hpos)], fun hw => ?_⟩
  have hnn : ∀ q : Row → Bool, 0 ≤ sumW k (rows.filter q) := fun q =>
    rsum_nonneg _ _ (fun r hr => hw r (List.mem_filter.1 hr).1)
  refine ⟨div_nonneg (hnn p) hpos.le, ?_⟩
  rw [div_le_one hpos]
  have := hnn (fun r => !p r)
  linarith

/-- C47 fails: without profiles `fraction` raises `IndexError`. -/
theorem C47_no_profile_refuted (H : HistDef) (hn : H.nprof = 0) (st : H.State) (hasWeight count : Bool) (zs : List ℚ) (cuts : List ℕ) :
    H.fraction hasWeight count zs cuts st = .error .indexError := by
  unfold HistDef.fraction
  split
  · rfl
  · rw [hn]
    rfl

/-- C47 fails: with a `filter` but no `weight`, `fraction` raises `ValueError` (without group axes; with group axes as soon
as there is a group). -/
theorem C47_filter_refuted (fixed : List FixedAxis) (np : ℕ) (hn : 0 < np) (st : HistDef.State ⟨[], fixed, np, .expr⟩) (count : Bool) (zs : List ℚ) (cuts : List ℕ)
    (hcuts : ∀ c ∈ cuts, fixed[c]? = some .cut) :
    HistDef.fraction ⟨[], fixed, np, .expr⟩ false count zs cuts st = .error .valueError := by
  unfold HistDef.fraction
  have hany : cuts.any (fun c => decide (fixed[c]? ≠ some .cut)) = false := by
    rw [List.any_eq_false]
    intro c hc
    simp [hcuts c hc]
  rw [if_neg (by rw [hany]; simp)]
  have hall : (List.replicate np false).all id = false := by
    cases np with
    | zero => omega
    | succ n => rfl
  unfold HistDef.dropState
  rw [if_neg (by rw [hall]; simp)]
  show fractionArr _ _ _ _ _ _ = _
  unfold fractionArr
  refine if_pos ?_
  show (dropColumns (HistDef.layout ⟨[], fixed, np, .expr⟩) (List.replicate np false) false).length ≠ 2 * (List.replicate np false).count true + 2
  unfold dropColumns
  rw [List.length_append, List.length_append, keptPositions_length]
  simp [List.count_replicate]

/-- a bin axis, a cut and a profile -/
def fracDemo : HistDef := ⟨[], [.bin ⟨2, 0, 2, false, false, false, true⟩, .cut], 1, .none⟩
def fracRows : List Row :=
  [⟨[], [.num (.fin 0), .bool true], [4], none⟩, ⟨[], [.num (.fin 0), .bool true], [5], none⟩, ⟨[], [.num (.fin 0), .bool false], [5], none⟩]

/-- Two of three pass: 2/3, error squared 2/27. -/
example : (match fracDemo.fillAll none [fracRows] with
    | .error _ => none
    | .ok st => match fracDemo.fraction false true [1] [1] st with
      | .error _ => none
      | .ok t => some ((t : Table) [0], (t : Table) [1])) = some ([some 3, some (2 / 3), some (2 / 27)], [some 0, some 0, some 0]) := by
  decide +kernel

example : 0 < sumW .none fracRows := by decide +kernel

end Verif
