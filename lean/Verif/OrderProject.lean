import Verif.PropsOrder

/-! # Lemmas about projections after operations on a kept axis (helpers for the property theorems) -/

namespace Verif

/-- the position of axis `j` among the kept ones -/
def keptPos (kf : List Bool) (j : ℕ) : ℕ := (kf.take j).count true

theorem keptPos_true (kf : List Bool) (j : ℕ) : keptPos (true :: kf) (j + 1) = keptPos kf j + 1 := by
  simp [keptPos]

theorem keptPos_false (kf : List Bool) (j : ℕ) : keptPos (false :: kf) (j + 1) = keptPos kf j := by
  simp [keptPos]

theorem pick_setAt {α : Type} (x : α) : ∀ (kf : List Bool) (j : ℕ) (l : List α), kf[j]? = some true →
    pick kf (l.set j x) = (pick kf l).set (keptPos kf j) x
  | [], _, _, h => by simp at h
  | true :: kf, 0, [], _ => rfl
  | true :: kf, 0, y :: l, _ => rfl
  | false :: kf, 0, _, h => by simp at h
  | true :: kf, j + 1, [], _ => rfl
  | false :: kf, j + 1, [], _ => rfl
  | true :: kf, j + 1, y :: l, h => by
    rw [keptPos_true]
    show y :: pick kf (l.set j x) = y :: (pick kf l).set _ x
    rw [pick_setAt x kf j l (by simpa using h)]
  | false :: kf, j + 1, y :: l, h => by
    rw [keptPos_false]
    exact pick_setAt x kf j l (by simpa using h)

theorem pick_get {α : Type} : ∀ (kf : List Bool) (j : ℕ) (l : List α), kf[j]? = some true → kf.length = l.length →
    (pick kf l)[keptPos kf j]? = l[j]?
  | [], _, _, h, _ => by simp at h
  | true :: kf, 0, [], _, h => by simp at h
  | true :: kf, 0, y :: l, _, _ => rfl
  | false :: kf, 0, _, h, _ => by simp at h
  | true :: kf, j + 1, [], _, h => by simp at h
  | false :: kf, j + 1, [], _, h => by simp at h
  | true :: kf, j + 1, y :: l, h, hl => by
    rw [keptPos_true]
    show (y :: pick kf l)[keptPos kf j + 1]? = _
    rw [List.getElem?_cons_succ, List.getElem?_cons_succ, pick_get kf j l (by simpa using h) (by simpa using hl)]
  | false :: kf, j + 1, y :: l, h, hl => by
    rw [keptPos_false, List.getElem?_cons_succ]
    exact pick_get kf j l (by simpa using h) (by simpa using hl)

/-- the multi-indexes with a fixed index on a kept axis -/
theorem expand_set (x n : ℕ) : ∀ (kf : List Bool) (j : ℕ) (sh idx : List ℕ), kf[j]? = some true →
    (expand kf (sh.set j n) idx).map (·.set j x) = expand kf sh (idx.set (keptPos kf j) x)
  | [], _, _, _, h => by simp at h
  | false :: kf, 0, _, _, h => by simp at h
  | true :: kf, 0, [], [], _ => rfl
  | true :: kf, 0, [], _ :: _, _ => rfl
  | true :: kf, 0, m :: sh, [], _ => rfl
  | true :: kf, 0, m :: sh, i :: is, _ => by
    show ((expand kf sh is).map (i :: ·)).map _ = (expand kf sh is).map (x :: ·)
    rw [List.map_map]
    rfl
  | true :: kf, j + 1, [], [], _ => rfl
  | true :: kf, j + 1, [], _ :: _, _ => by
    rw [keptPos_true]
    rfl
  | true :: kf, j + 1, m :: sh, [], _ => by
    rw [keptPos_true]
    rfl
  | true :: kf, j + 1, m :: sh, i :: is, h => by
    rw [keptPos_true]
    show ((expand kf (sh.set j n) is).map (i :: ·)).map _ = (expand kf sh (is.set (keptPos kf j) x)).map (i :: ·)
    rw [← expand_set x n kf j sh is (by simpa using h), List.map_map, List.map_map]
    rfl
  | false :: kf, j + 1, [], idx, _ => by
    cases idx <;> rfl
  | false :: kf, j + 1, m :: sh, idx, h => by
    rw [keptPos_false]
    have e : ∀ l, expand (false :: kf) (m :: l) idx = (List.range m).flatMap (fun i => (expand kf l idx).map (i :: ·)) := by
      intro l; simp only [expand]
    have e' : ∀ l is, expand (false :: kf) (m :: l) is = (List.range m).flatMap (fun i => (expand kf l is).map (i :: ·)) := by
      intro l is; simp only [expand]
    rw [List.set_cons_succ, e, e', List.map_flatMap]
    refine List.flatMap_congr fun i _ => ?_
    rw [← expand_set x n kf j sh idx (by simpa using h), List.map_map, List.map_map]
    rfl

/-- their index on that axis -/
theorem expand_getD : ∀ (kf : List Bool) (j : ℕ) (sh idx : List ℕ), kf[j]? = some true → j < sh.length →
    ∀ e ∈ expand kf sh idx, e.getD j 0 = idx.getD (keptPos kf j) 0
  | [], _, _, _, h, _ => by simp at h
  | false :: kf, 0, _, _, h, _ => by simp at h
  | _ :: kf, _, [], _, _, h => by simp at h
  | true :: kf, 0, m :: sh, [], _, _ => by
    intro e he
    rw [show expand (true :: kf) (m :: sh) [] = [[]] by simp only [expand]] at he
    cases List.mem_singleton.1 he
    rfl
  | true :: kf, 0, m :: sh, i :: is, _, _ => by
    intro e he
    rw [show expand (true :: kf) (m :: sh) (i :: is) = (expand kf sh is).map (i :: ·) by simp only [expand]] at he
    obtain ⟨e', _, rfl⟩ := List.mem_map.1 he
    rfl
  | true :: kf, j + 1, m :: sh, [], _, _ => by
    intro e he
    rw [show expand (true :: kf) (m :: sh) [] = [[]] by simp only [expand]] at he
    cases List.mem_singleton.1 he
    rfl
  | true :: kf, j + 1, m :: sh, i :: is, h, hj => by
    intro e he
    rw [show expand (true :: kf) (m :: sh) (i :: is) = (expand kf sh is).map (i :: ·) by simp only [expand]] at he
    obtain ⟨e', h', rfl⟩ := List.mem_map.1 he
    rw [keptPos_true]
    exact expand_getD kf j sh is (by simpa using h) (by simpa using hj) e' h'
  | false :: kf, j + 1, m :: sh, idx, h, hj => by
    intro e he
    rw [show expand (false :: kf) (m :: sh) idx = (List.range m).flatMap (fun i => (expand kf sh idx).map (i :: ·)) by simp only [expand]] at he
    obtain ⟨i, _, h1⟩ := List.mem_flatMap.1 he
    obtain ⟨e', h', rfl⟩ := List.mem_map.1 h1
    rw [keptPos_false]
    exact expand_getD kf j sh idx (by simpa using h) (by simpa using hj) e' h'

theorem sumAxes_slice (kf : List Bool) (j : ℕ) (t : PySlice) (a : Arr) (hk : kf[j]? = some true) (hl : kf.length = a.shape.length) :
    (a.slice j t).sumAxes kf = (a.sumAxes kf).slice (keptPos kf j) t := by
  have jl : j < a.shape.length := by
    have := (List.getElem?_eq_some_iff.1 hk).1
    omega
  have hn : (pick kf a.shape).getD (keptPos kf j) 0 = a.shape.getD j 0 := by
    rw [List.getD, List.getD, pick_get kf j _ hk hl]
  unfold Arr.slice Arr.sumAxes
  simp only [hn, pick_setAt _ kf j _ hk]
  congr 1
  funext idx c
  rw [← expand_set _ (t.hi (a.shape.getD j 0) - t.lo (a.shape.getD j 0)) kf j a.shape idx hk, List.map_map]
  refine congrArg List.sum (List.map_congr_left fun e he => ?_)
  simp only [Function.comp]
  rw [expand_getD kf j _ idx hk (by simpa using jl) e he]

theorem sumAxes_rebin (kf : List Bool) (j : ℕ) (r : List (ℕ × ℕ)) (n : ℕ) (a : Arr) (hk : kf[j]? = some true)
    (hl : kf.length = a.shape.length) : (a.rebin j r n).sumAxes kf = (a.sumAxes kf).rebin (keptPos kf j) r n := by
  have jl : j < a.shape.length := by
    have := (List.getElem?_eq_some_iff.1 hk).1
    omega
  unfold Arr.rebin Arr.sumAxes
  simp only [pick_setAt _ kf j _ hk]
  congr 1
  funext idx c
  have h1 : ∀ i, ((expand kf a.shape (idx.set (keptPos kf j) i)).map (fun e => a.get e c)).sum =
      ((expand kf (a.shape.set j n) idx).map (fun e => a.get (e.set j i) c)).sum := by
    intro i
    rw [← expand_set i n kf j a.shape idx hk, List.map_map]
    rfl
  simp only [h1]
  rw [sum_sum_comm]
  refine congrArg List.sum (List.map_congr_left fun e he => ?_)
  rw [expand_getD kf j _ idx hk (by simpa using jl) e he]

theorem margin_mapLeaves (f : Arr → Arr) (g : Arr → ℚ) : ∀ (n : ℕ) (kg : List Bool) (c : Content Arr n) (gk : List Key),
    margin g n kg (mapLeaves f n c) gk = margin (fun a => g (f a)) n kg c gk
  | 0, _, _, _ => rfl
  | n + 1, kg, (d : List (Key × Content Arr n)), gk => by
    have hm : mapLeaves f (n + 1) d = d.map (fun p => (p.1, mapLeaves f n p.2)) := rfl
    by_cases hk : kg.headD true = true
    · cases gk with
      | nil => simp only [margin, hk, if_true]
      | cons k gk =>
        simp only [margin, hk, if_true, hm, dget_map (fun _ c => mapLeaves f n c) d k]
        cases dget d k with
        | none => rfl
        | some c => exact margin_mapLeaves f g n kg.tail c gk
    · rw [Bool.not_eq_true] at hk
      simp only [margin, hk, hm, List.map_map, Bool.false_eq_true, if_false]
      refine congrArg List.sum (List.map_congr_left fun p _ => ?_)
      exact margin_mapLeaves f g n kg.tail p.2 gk

theorem margin_congr (g g' : Arr → ℚ) (sh : List ℕ) (nc : ℕ) (h : ∀ a : Arr, a.shape = sh → g a = g' a) :
    ∀ (n : ℕ) (kg : List Bool) (c : Content Arr n) (gk : List Key), Uniform sh nc n c → margin g n kg c gk = margin g' n kg c gk
  | 0, _, _, _, hu => h _ hu.1
  | n + 1, kg, (d : List (Key × Content Arr n)), gk, hu => by
    by_cases hk : kg.headD true = true
    · cases gk with
      | nil => simp only [margin, hk, if_true]
      | cons k gk =>
        simp only [margin, hk, if_true]
        cases hd : dget d k with
        | none => rfl
        | some c => exact margin_congr g g' sh nc h n kg.tail c gk (hu _ (mem_of_dget d k c hd))
    · rw [Bool.not_eq_true] at hk
      simp only [margin, hk, Bool.false_eq_true, if_false]
      refine congrArg List.sum (List.map_congr_left fun p hp => ?_)
      exact margin_congr g g' sh nc h n kg.tail p.2 gk (hu p hp)

theorem margin_sum {ι : Type} (g : ι → Arr → ℚ) (l : List ι) : ∀ (n : ℕ) (kg : List Bool) (c : Content Arr n) (gk : List Key),
    margin (fun a => (l.map (fun i => g i a)).sum) n kg c gk = (l.map (fun i => margin (g i) n kg c gk)).sum
  | 0, _, _, _ => rfl
  | n + 1, kg, (d : List (Key × Content Arr n)), gk => by
    by_cases hk : kg.headD true = true
    · cases gk with
      | nil => simp only [margin, hk, if_true]; simp
      | cons k gk =>
        simp only [margin, hk, if_true]
        cases hd : dget d k with
        | none => simp
        | some c => exact margin_sum g l n kg.tail c gk
    · rw [Bool.not_eq_true] at hk
      simp only [margin, hk, Bool.false_eq_true, if_false]
      simp only [margin_sum g l n kg.tail]
      rw [sum_sum_comm]

theorem powKeys_mapLeaves (f : Arr → Arr) : ∀ (n : ℕ) (kg : List Bool) (c : Content Arr n), PowKeys n kg c → PowKeys n kg (mapLeaves f n c)
  | 0, _, _, _ => trivial
  | n + 1, kg, (d : List (Key × Content Arr n)), h => by
    refine ⟨?_, ?_⟩
    · show _ ∨ ∃ k, (d.map _).length = _
      rw [List.length_map]
      exact h.1
    · intro p hp
      have hp : p ∈ d.map (fun p => (p.1, mapLeaves f n p.2)) := hp
      obtain ⟨q, hq, rfl⟩ := List.mem_map.1 hp
      exact powKeys_mapLeaves f n kg.tail q.2 (h.2 q hq)

theorem shaped_of_uniform (L : Layout) : ∀ (n : ℕ) (c : Content Arr n), Uniform L.dims L.ncols n c → Shaped L n c
  | 0, _, h => h
  | n + 1, (d : List (Key × Content Arr n)), h => fun k x hx => shaped_of_uniform L n x (h _ (mem_of_dget d k x hx))

/-- an array function whose result has sums of entries as its entries -/
def EntrySums (sh : List ℕ) (f : Arr → Arr) : Prop :=
  ∀ idx : List ℕ, ∃ l : List (List ℕ), ∀ a : Arr, a.shape = sh → ∀ col, (f a).get idx col = (l.map (fun i => a.get i col)).sum

/-- projecting before and after an operation on the arrays -/
theorem project_op (H : HistDef) (c : Content Arr H.groups.length) (hs : H.Proper (some c)) (kg kf : List Bool)
    (hkg : kg.length = H.groups.length) (hp : H.PowKeys kg (some c)) (f f' : Arr → Arr) (lin : LinearOp f)
    (hf : ∀ a : Arr, a.shape = H.layout.dims → (f a).sumAxes kf = f' (a.sumAxes kf))
    (nc : ∀ a : Arr, (f a).ncols = a.ncols)
    (hf' : EntrySums (pick kf H.layout.dims) f') :
    ∃ c' t' : Content Arr (H.project kg kf).groups.length,
      projcontent kf H.groups.length kg c = .ok (toPV _ c') ∧ projcontent kf H.groups.length kg (mapLeaves f _ c) = .ok (toPV _ t') ∧
      ∀ gk, gk.length = (H.project kg kf).groups.length → (HasGroup _ t' gk ↔ HasGroup _ (mapLeaves f' _ c') gk) ∧
        ∀ idx col, lookup _ t' gk idx col = lookup _ (mapLeaves f' _ c') gk idx col := by
  have hu := uniform_of_shaped H.layout _ c hs.2 hs.1
  have hm : (H.project kg kf).groups.length = kg.count true := pick_length kg _ hkg
  let z : Arr := Arr.zeros H.layout.dims H.layout.ncols
  let L1 : Layout := { H.layout with dims := (f z).shape }
  have hu1 : Uniform L1.dims L1.ncols _ (mapLeaves f _ c) :=
    mapLeaves_uniform f _ _ _ _ (fun a h1 h2 => ⟨(lin.shape a z h1 h2).1, (nc a).trans h2⟩) _ c hu
  obtain ⟨c', h1, h2⟩ := projcontent_spec H.layout { H.layout with dims := pick kf H.layout.dims } kf rfl rfl
    H.groups.length kg c hkg hs.2 hs.1 hp _ hm
  obtain ⟨t', h3, h4⟩ := projcontent_spec L1 { L1 with dims := pick kf L1.dims } kf rfl rfl
    H.groups.length kg (mapLeaves f _ c) hkg (mapLeaves_distinct f _ c hs.2) (shaped_of_uniform L1 _ _ hu1)
    (powKeys_mapLeaves f _ kg c hp) _ hm
  refine ⟨c', t', h1, h3, fun gk hgk => ⟨?_, fun idx col => ?_⟩⟩
  · rw [h4.has gk hgk, mapLeaves_has, h2.has gk hgk]
    simp only [mapLeaves_has]
  · rw [h4.value gk hgk, mapLeaves_lookup, margin_mapLeaves]
    obtain ⟨l, hl⟩ := hf' idx
    rw [lookupF_congr _ _ (fun a => (l.map (fun i => a.get i col)).sum) (fun a ha => hl a ha.1 col) _ c' gk h2.shaped,
      lookupF_sum l (fun i a => a.get i col)]
    have e : ∀ i, lookupF (fun a => a.get i col) _ c' gk = margin (fun a => (a.sumAxes kf).get i col) _ kg c gk := by
      intro i
      rw [lookupF_get, h2.value gk hgk]
    simp only [e]
    rw [← margin_sum (fun i a => (a.sumAxes kf).get i col) l]
    refine margin_congr _ _ _ _ (fun a ha => ?_) _ kg c gk hu
    rw [hf a ha]
    exact hl _ (by show pick kf a.shape = _; rw [ha]) col

theorem entrySums_slice (sh : List ℕ) (j : ℕ) (t : PySlice) : EntrySums sh (Arr.slice j t) := by
  intro idx
  refine ⟨[idx.set j (idx.getD j 0 + t.lo (sh.getD j 0))], fun a ha col => ?_⟩
  simp [Arr.slice, ha]

theorem entrySums_rebin (sh : List ℕ) (j : ℕ) (r : List (ℕ × ℕ)) (n : ℕ) : EntrySums sh (Arr.rebin j r n) := by
  intro idx
  let q := r.getD (idx.getD j 0) (0, 0)
  refine ⟨(List.range' q.1 (q.2 - q.1)).map (fun i => idx.set j i), fun a _ col => ?_⟩
  rw [List.map_map]
  rfl

/-- projecting before and after an operation on a kept axis -/
theorem project_applyAt (H : HistDef) (s : H.State) (hs : H.Proper s) (kg kf : List Bool) (hkg : kg.length = H.groups.length)
    (hkf : kf.length = H.fixed.length) (ps : H.PowKeys kg s) (j : ℕ) (hk : kf[j]? = some true) (miss : Err)
    (op op' : FixedAxis → Except Err (FixedAxis × (Arr → Arr)))
    (hop : ∀ a a' f, op a = .ok (a', f) → ∃ f', op' a = .ok (a', f') ∧ LinearOp f ∧ (∀ x, (f x).ncols = x.ncols) ∧
      EntrySums (pick kf H.layout.dims) f' ∧ ∀ x : Arr, x.shape = H.layout.dims → (f x).sumAxes kf = f' (x.sumAxes kf))
    (H1 : HistDef) (s1 : H1.State) (h : H.applyAt j miss op s = .ok ⟨H1, s1⟩) :
    ∃ (s' : (H.project kg kf).State) (t' u' : (H1.project kg kf).State),
      H.projectState kg kf s = .ok ((H.project kg kf).toPV s') ∧ H1.projectState kg kf s1 = .ok ((H1.project kg kf).toPV t') ∧
      (H.project kg kf).applyAt (keptPos kf j) miss op' s' = .ok ⟨H1.project kg kf, u'⟩ ∧
      ∀ gk, gk.length = (H1.project kg kf).groups.length → ((H1.project kg kf).has t' gk ↔ (H1.project kg kf).has u' gk) ∧
        ∀ idx col, (H1.project kg kf).read t' gk idx col = (H1.project kg kf).read u' gk idx col := by
  unfold HistDef.applyAt at h
  cases hj : H.fixed[j]? with
  | none => rw [hj] at h; cases h
  | some a =>
    rw [hj] at h
    simp only at h
    cases ha : op a with
    | error e => rw [ha] at h; cases h
    | ok r =>
      rw [ha] at h
      cases h
      obtain ⟨f', k1, k2, k3, k4, k5⟩ := hop a r.1 r.2 ha
      have hfix : (H.project kg kf).fixed[keptPos kf j]? = some a := by
        show (pick kf H.fixed)[keptPos kf j]? = _
        rw [pick_get kf j H.fixed hk hkf, hj]
      have ap : ∀ s' : (H.project kg kf).State, (H.project kg kf).applyAt (keptPos kf j) miss op' s' =
          .ok ⟨(H.project kg kf).setFixed (keptPos kf j) r.1, s'.map (mapLeaves f' (H.project kg kf).groups.length)⟩ := by
        intro s'
        unfold HistDef.applyAt
        rw [hfix]
        simp only [k1]
      have sg : ∀ z : Option (Content Arr (H.project kg kf).groups.length),
          (⟨(H.project kg kf).setFixed (keptPos kf j) r.1, z⟩ : Σ H' : HistDef, H'.State) =
          ⟨(H.setFixed j r.1).project kg kf, z⟩ := fun z =>
        sigma_fixed (H.project kg kf) ((pick kf H.fixed).set (keptPos kf j) r.1) (pick kf (H.fixed.set j r.1)) z z
          (pick_setAt r.1 kf j H.fixed hk).symm rfl
      cases s with
      | none =>
        refine ⟨none, none, none, rfl, rfl, ?_, fun gk _ => ⟨Iff.rfl, fun _ _ => rfl⟩⟩
        rw [ap]
        exact congrArg Except.ok (sg none)
      | some c =>
        obtain ⟨c', t', h1, h2, h3⟩ := project_op H c hs kg kf hkg ps r.2 f' k2 k5 k3 k4
        refine ⟨some c', some t', some (mapLeaves f' _ c'), ?_, ?_, ?_, h3⟩
        · simp only [HistDef.projectState, h1]
          rfl
        · have : (H.setFixed j r.1).projectState kg kf (some (mapLeaves r.2 H.groups.length c)) =
              (projcontent kf H.groups.length kg (mapLeaves r.2 H.groups.length c)).map some := rfl
          refine this.trans ?_
          rw [h2]
          rfl
        · rw [ap]
          exact congrArg Except.ok (sg _)

end Verif
