import Verif.SparkNull

/-!
# Property C133: missing values in Spark data
-/

namespace Verif

/-! ## specification -/

/-- What a missing value on an axis counts as: NaN, and not passing a cut. -/
def FixedAxis.missing : FixedAxis → Val
  | .cut => .bool false
  | _ => .num .nan

/-- The row with NaN in place of missing values of axes, and zero in place of missing profile values and weights. -/
def NullRow.row (H : HistDef) (r : NullRow) : Row where
  gvals := r.gvals.filterMap id
  fvals := List.zipWith (fun a v => v.getD a.missing) H.fixed r.fvals
  xs := r.xs.map (·.getD 0)
  w := r.w.getD (some 0)

/-- Among the rows that are summed up together, each profile has a row where it and the weight are given, and so has the weight. -/
def Known (H : HistDef) (rows : List NullRow) : Prop :=
  ∀ r ∈ rows, (∃ r' ∈ rows, r'.index H = r.index H ∧ r'.weight H ≠ none) ∧
    ∀ j < H.nprof, ∃ r' ∈ rows, r'.index H = r.index H ∧ r'.weight H ≠ none ∧ r'.xs[j]? ≠ some none

/-! ## helpers -/

/-- the struct without nulls as a struct with nulls -/
def liftKey (k : List Key × List ℤ) : List (Option Key) × List ℤ := (k.1.map some, k.2)

theorem liftKey_inj : Function.Injective liftKey := by
  rintro ⟨a, b⟩ ⟨c, d⟩ h
  simp only [liftKey, Prod.mk.injEq] at h
  rw [List.map_injective_iff.2 (Option.some_injective _) h.1, h.2]

theorem nullIndex_eq (a : FixedAxis) (v : Option Val) : a.nullIndex v = a.sparkIndex (v.getD a.missing) := by
  cases v with
  | some v => cases a <;> rfl
  | none => cases a <;> rfl

theorem nullIndexes_eq : ∀ (as : List FixedAxis) (vs : List (Option Val)),
    nullIndexes as vs = sparkIndexes as (List.zipWith (fun a v => v.getD a.missing) as vs)
  | [], _ => by simp [nullIndexes, sparkIndexes]
  | _ :: _, [] => by simp [nullIndexes, sparkIndexes]
  | a :: as, v :: vs => by
    simp only [nullIndexes, sparkIndexes, List.zipWith_cons_cons, nullIndex_eq, nullIndexes_eq as vs]
    rfl

theorem nullKeys_eq : ∀ (gs : List GroupAxis) (vs : List (Option GVal)), none ∉ vs →
    nullKeys gs vs = (sparkKeys gs (vs.filterMap id)).map (·.map some)
  | [], _, _ => by simp [nullKeys, sparkKeys, Except.map]
  | _ :: _, [], _ => by simp [nullKeys, sparkKeys, Except.map]
  | g :: gs, none :: vs, h => by simp at h
  | g :: gs, some v :: vs, h => by
    have ih := nullKeys_eq gs vs (fun hm => h (List.mem_cons_of_mem _ hm))
    simp only [nullKeys, GroupAxis.nullKey, List.filterMap_cons_some (rfl : id (some v) = some v), sparkKeys, ih]
    cases g.sparkKey v with
    | error e => rfl
    | ok k => cases sparkKeys gs (vs.filterMap id) <;> rfl

theorem index_eq (H : HistDef) (r : NullRow) (h : none ∉ r.gvals) : r.index H = ((r.row H).sparkIndex H).map liftKey := by
  unfold NullRow.index Row.sparkIndex
  rw [nullKeys_eq _ _ h, nullIndexes_eq]
  show _ = Except.map liftKey (match sparkKeys H.groups (r.gvals.filterMap id) with | .error e => _ | .ok ks => _)
  cases sparkKeys H.groups (r.gvals.filterMap id) with
  | error e => rfl
  | ok ks =>
    show (match sparkIndexes H.fixed (List.zipWith _ H.fixed r.fvals) with | .error e => _ | .ok is => _) = Except.map liftKey
      (match sparkIndexes H.fixed (List.zipWith _ H.fixed r.fvals) with | .error e => _ | .ok is => _)
    cases sparkIndexes H.fixed (List.zipWith _ H.fixed r.fvals) <;> rfl

theorem mapE_lift {α β γ δ : Type} (f : α → Except Err β) (g : γ → Except Err δ) (h : α → γ) (k : δ → β) : ∀ l : List α,
    (∀ x ∈ l, f x = (g (h x)).map k) → mapE f l = (mapE g (l.map h)).map (·.map k)
  | [], _ => rfl
  | x :: l, hx => by
    have ih := mapE_lift f g h k l (fun y hy => hx y (List.mem_cons_of_mem _ hy))
    simp only [mapE, List.map_cons, hx x (List.mem_cons_self ..), ih]
    cases g (h x) with
    | error e => rfl
    | ok y => cases mapE g (l.map h) <;> rfl

/-- null counts as zero -/
def zeroed (x : Option (Option ℚ)) : Option ℚ := x.getD (some 0)

theorem zeroed_nadd (x y : Option (Option ℚ)) : zeroed (nadd x y) = oadd (zeroed x) (zeroed y) := by
  rcases x with _ | _ | x <;> rcases y with _ | _ | y <;> simp [zeroed, nadd, oadd]

theorem zeroed_columns : ∀ l : List (List (Option (Option ℚ))), (nullColumns l).map zeroed = sumColumns (l.map (·.map zeroed))
  | [] => rfl
  | [c] => rfl
  | c :: d :: l => by
    have ih := zeroed_columns (d :: l)
    show (List.zipWith nadd c (nullColumns (d :: l))).map zeroed = List.zipWith oadd (c.map zeroed) (sumColumns ((d :: l).map (·.map zeroed)))
    rw [← ih, List.map_zipWith, List.zipWith_map]
    simp only [zeroed_nadd]

theorem nullColumns_length (n : ℕ) : ∀ l : List (List (Option (Option ℚ))), l ≠ [] → (∀ c ∈ l, c.length = n) → (nullColumns l).length = n
  | [], h, _ => (h rfl).elim
  | [c], _, h => h c (List.mem_cons_self ..)
  | c :: d :: l, _, h => by
    have ih := nullColumns_length n (d :: l) (by simp) (fun x hx => h x (List.mem_cons_of_mem _ hx))
    show (List.zipWith nadd c (nullColumns (d :: l))).length = n
    rw [List.length_zipWith, ih, h c (List.mem_cons_self ..), Nat.min_self]

theorem nadd_none (x y : Option (Option ℚ)) : nadd x y = none ↔ x = none ∧ y = none := by
  cases x <;> cases y <;> simp [nadd]

/-- the sum of a column is null exactly if all its values are -/
theorem nullColumns_null (n : ℕ) (i : ℕ) (hi : i < n) : ∀ l : List (List (Option (Option ℚ))), l ≠ [] → (∀ c ∈ l, c.length = n) →
    ((nullColumns l)[i]? = some none ↔ ∀ c ∈ l, c[i]? = some none)
  | [], h, _ => (h rfl).elim
  | [c], _, h => by simp [nullColumns]
  | c :: d :: l, _, h => by
    have hl := fun x hx => h x (List.mem_cons_of_mem _ hx)
    have ih := nullColumns_null n i hi (d :: l) (by simp) hl
    have len := nullColumns_length n (d :: l) (by simp) hl
    have hc := h c (List.mem_cons_self ..)
    show (List.zipWith nadd c (nullColumns (d :: l)))[i]? = some none ↔ _
    rw [List.forall_mem_cons, ← ih, List.getElem?_zipWith, List.getElem?_eq_getElem (by omega : i < c.length),
      List.getElem?_eq_getElem (by omega : i < (nullColumns (d :: l)).length)]
    simp only [Option.some.injEq, nadd_none]

theorem all_known : ∀ l : List (Option (Option ℚ)), (∀ i : ℕ, l[i]? ≠ some none) → l = (l.map zeroed).map some
  | [], _ => rfl
  | none :: l, h => (h 0 rfl).elim
  | some x :: l, h => by
    have ih := all_known l (fun i => h (i + 1))
    show some x :: l = some x :: (l.map zeroed).map some
    rw [← ih]

theorem nullRecurse_eq (H : HistDef) : ∀ (n : ℕ) (c : Content Arr n) (ks : List Key) (is : List ℤ) (cols : List (Option ℚ)),
    nullRecurse H n c (ks.map some) is (cols.map some) = sparkRecurse H n c ks is cols
  | 0, a, ks, is, cols => by
    have e : (cols.map some).mapM id = some cols := by
      clear a ks is
      induction cols with
      | nil => rfl
      | cons x l ih => simp [ih]
    simp only [nullRecurse, sparkRecurse, Arr.nullAdd, e]
    rfl
  | n + 1, c, [], is, cols => rfl
  | n + 1, c, k :: ks, is, cols => by
    simp only [List.map_cons, nullRecurse, sparkRecurse]
    cases hd : dget (c : List (Key × Content Arr n)) k with
    | none => rfl
    | some c' =>
      simp only
      rw [nullRecurse_eq H n c' ks is cols]
      rfl

theorem nullLoop_eq (H : HistDef) : ∀ (l : List ((List Key × List ℤ) × List (Option ℚ))) (c : Content Arr H.groups.length),
    nullLoop H c (l.map fun p => (liftKey p.1, p.2.map some)) = sparkLoop H c l
  | [], _ => rfl
  | (k, cols) :: l, c => by
    simp only [List.map_cons, nullLoop, sparkLoop, liftKey, nullRecurse_eq]
    cases sparkRecurse H H.groups.length c k.1 k.2 cols with
    | error e => rfl
    | ok c' => exact nullLoop_eq H l c'

theorem mapE_length' {α β : Type} (f : α → Except Err β) : ∀ (l : List α) (ys : List β), mapE f l = .ok ys → l.length = ys.length
  | [], ys, h => by cases h; rfl
  | x :: l, ys, h => by
    simp only [mapE] at h
    cases hx : f x with
    | error e => rw [hx] at h; cases h
    | ok y =>
      rw [hx] at h
      cases hl : mapE f l with
      | error e => rw [hl] at h; cases h
      | ok zs =>
        rw [hl] at h
        cases h
        simp only [List.length_cons, mapE_length' f l zs hl]

theorem mapE_zip {α β : Type} (f : α → Except Err β) : ∀ (l : List α) (ys : List β), mapE f l = .ok ys →
    (∀ x ∈ l, ∃ y, f x = .ok y ∧ (x, y) ∈ l.zip ys) ∧ ∀ p ∈ l.zip ys, f p.1 = .ok p.2
  | [], ys, h => by simp
  | x :: l, ys, h => by
    simp only [mapE] at h
    cases hx : f x with
    | error e => rw [hx] at h; cases h
    | ok y =>
      rw [hx] at h
      cases hl : mapE f l with
      | error e => rw [hl] at h; cases h
      | ok zs =>
        rw [hl] at h
        cases h
        obtain ⟨h1, h2⟩ := mapE_zip f l zs hl
        simp only [List.zip_cons_cons, List.mem_cons]
        refine ⟨?_, ?_⟩
        · rintro z (rfl | hz)
          · exact ⟨y, hx, Or.inl rfl⟩
          · obtain ⟨y', e1, e2⟩ := h1 z hz
            exact ⟨y', e1, Or.inr e2⟩
        · rintro p (rfl | hp)
          · exact hx
          · exact h2 p hp

theorem zeroed_nmul (x y : Option (Option ℚ)) (hx : x ≠ some none) (hy : y ≠ some none) : zeroed (nmul x y) = omul (zeroed x) (zeroed y) := by
  rcases x with _ | _ | x <;> rcases y with _ | _ | y <;> simp [zeroed, nmul, omul] at hx hy ⊢

theorem row_weight (H : HistDef) (r : NullRow) : (r.row H).sparkWeight H = zeroed (r.weight H) := by
  unfold Row.sparkWeight NullRow.weight
  cases H.wkind <;> rfl

theorem weight_number (H : HistDef) (r : NullRow) (h : H.wkind = .expr → r.w ≠ some none) : r.weight H ≠ some none := by
  unfold NullRow.weight
  cases hk : H.wkind with
  | none => simp
  | const q => simp
  | expr => exact h hk

theorem columns_eq (H : HistDef) (weighted : Bool) (r : NullRow) (h : H.wkind = .expr → r.w ≠ some none) :
    (r.columns H weighted).map zeroed = (r.row H).sparkColumns H weighted := by
  have hw := weight_number H r h
  have hm : ∀ (f : ℚ → ℚ) (x : Option ℚ), x.map (fun x => some (f x)) ≠ some none := by
    intro f x
    cases x <;> simp
  unfold NullRow.columns Row.sparkColumns
  cases weighted
  · simp only [Bool.false_eq_true, if_false, NullRow.row, List.map_append, List.map_flatMap, List.flatMap_map, List.map_cons, List.map_nil]
    congr 1
    refine congrArg (fun f => List.flatMap f r.xs) (funext fun x => ?_)
    cases x <;> simp [zeroed]
  · simp only [if_true, List.map_append, List.map_flatMap, List.map_cons, List.map_nil, row_weight]
    rw [zeroed_nmul _ _ hw hw]
    congr 1
    show _ = List.flatMap _ (r.xs.map (·.getD 0))
    rw [List.flatMap_map]
    refine congrArg (fun f => List.flatMap f r.xs) (funext fun x => ?_)
    rw [zeroed_nmul _ _ (by cases x <;> simp) hw, zeroed_nmul _ _ (hm (fun x => x * x) x) hw]
    cases x <;> simp [zeroed]

theorem pairs_get {α β : Type} (f g : α → β) : ∀ (l : List α) (i : ℕ), (l.flatMap fun x => [f x, g x])[i]? = l[i / 2]?.map (if i % 2 = 0 then f else g)
  | [], i => by simp
  | x :: l, 0 => by simp
  | x :: l, 1 => by simp
  | x :: l, i + 2 => by
    have e1 : (i + 2) / 2 = i / 2 + 1 := by omega
    have e2 : (i + 2) % 2 = i % 2 := by omega
    rw [e1, e2]
    simpa using pairs_get f g l i

theorem columns_length (H : HistDef) (weighted : Bool) (r : NullRow) (hx : r.xs.length = H.nprof) :
    (r.columns H weighted).length = 2 * H.nprof + (if weighted then 2 else 1) := by
  unfold NullRow.columns
  cases weighted <;> simp [List.length_flatMap, hx, Nat.mul_comm]

theorem column_known (H : HistDef) (weighted : Bool) (r : NullRow) (hx : r.xs.length = H.nprof) (i : ℕ) (hw : r.weight H ≠ none)
    (h : i / 2 < H.nprof → r.xs[i / 2]? ≠ some none) : (r.columns H weighted)[i]? ≠ some none := by
  obtain ⟨w, hw⟩ := Option.ne_none_iff_exists'.1 hw
  unfold NullRow.columns
  have len : ∀ f g : Option ℚ → Option (Option ℚ), (r.xs.flatMap fun x => [f x, g x]).length = 2 * H.nprof := by
    intro f g
    simp [List.length_flatMap, hx, Nat.mul_comm]
  by_cases hi : i < 2 * H.nprof
  · have hj : i / 2 < H.nprof := by omega
    have hx' := h hj
    have hget : r.xs[i / 2]? = some r.xs[i / 2] := List.getElem?_eq_getElem (by omega)
    rw [hget] at hx'
    obtain ⟨q, hq⟩ := Option.ne_none_iff_exists'.1 fun h => hx' (congrArg some h)
    cases weighted
    · simp only [Bool.false_eq_true, if_false]
      rw [List.getElem?_append_left (by rw [len]; exact hi), pairs_get, hget, hq]
      split <;> simp
    · simp only [if_true]
      rw [List.getElem?_append_left (by rw [len]; exact hi), pairs_get, hget, hq, hw]
      split <;> simp [nmul]
  · cases weighted
    · simp only [Bool.false_eq_true, if_false]
      rw [List.getElem?_append_right (by rw [len]; omega)]
      rcases i - (r.xs.flatMap _).length with _ | _ <;> simp
    · simp only [if_true]
      rw [List.getElem?_append_right (by rw [len]; omega), hw]
      rcases i - (r.xs.flatMap _).length with _ | _ | _ <;> simp [nmul]

/-- With enough values, filling is filling the rows with NaN and zero in place of nulls. -/
theorem fillnull_eq (H : HistDef) (weighted : Bool) (collect : List (List (Option Key) × List ℤ) → List (List (Option Key) × List ℤ))
    (hc : ∀ l, (collect l).Perm l) (st : H.State) (rows : List NullRow) (hg : ∀ r ∈ rows, none ∉ r.gvals)
    (hx : ∀ r ∈ rows, r.xs.length = H.nprof) (hw : ∀ r ∈ rows, H.wkind = .expr → r.w ≠ some none) (hk : Known H rows) :
    ∃ collect' : List (List Key × List ℤ) → List (List Key × List ℤ), (∀ l, (collect' l).Perm l) ∧
      H.fillnull weighted collect st rows = H.fillspark weighted collect' st (rows.map (NullRow.row H)) := by
  have hcol : ∀ l : List (List Key × List ℤ), ∃ l' : List (List Key × List ℤ), l'.Perm l ∧ collect (l.map liftKey) = l'.map liftKey := by
    intro l
    have hp := hc (l.map liftKey)
    have back : ∀ k : List Key × List ℤ, ((liftKey k).1.filterMap id, (liftKey k).2) = k := by
      rintro ⟨a, b⟩
      simp [liftKey, List.filterMap_map]
    refine ⟨(collect (l.map liftKey)).map fun k => (k.1.filterMap id, k.2), ?_, ?_⟩
    · have := hp.map fun k : List (Option Key) × List ℤ => (k.1.filterMap id, k.2)
      rw [List.map_map] at this
      refine this.trans (List.Perm.of_eq ?_)
      exact (List.map_congr_left fun k _ => back k).trans (List.map_id l)
    · rw [List.map_map]
      refine (List.map_id _).symm.trans (List.map_congr_left fun k hk => ?_)
      obtain ⟨k', _, rfl⟩ := List.mem_map.1 (hp.mem_iff.1 hk)
      exact (congrArg liftKey (back k')).symm
  choose collect' h1 h2 using hcol
  refine ⟨collect', h1, ?_⟩
  unfold HistDef.fillnull HistDef.fillspark
  have hm := mapE_lift (NullRow.index H) (Row.sparkIndex H) (NullRow.row H) liftKey rows (fun r hr => index_eq H r (hg r hr))
  rw [hm]
  cases his : mapE (Row.sparkIndex H) (rows.map (NullRow.row H)) with
  | error e => rfl
  | ok is =>
    rw [his] at hm
    obtain ⟨z1, z2⟩ := mapE_zip _ _ _ hm
    simp only [Except.map]
    rw [List.dedup_map_of_injective liftKey_inj, h2, List.map_map]
    have hq : (collect' is.dedup).map ((nullQuery H weighted (rows.zip (is.map liftKey))) ∘ liftKey) =
        ((collect' is.dedup).map (sparkQuery H weighted ((rows.map (NullRow.row H)).zip is))).map fun p => (liftKey p.1, p.2.map some) := by
      rw [List.map_map]
      refine List.map_congr_left fun k hk' => ?_
      have hkm : k ∈ is := List.mem_dedup.1 ((h1 _).mem_iff.1 hk')
      simp only [Function.comp, nullQuery, sparkQuery]
      congr 1
      have e1 : ((rows.zip (is.map liftKey)).filter fun p => p.2 = liftKey k) = ((rows.zip is).filter fun p => p.2 = k).map (Prod.map id liftKey) := by
        rw [List.zip_map_right, List.filter_map]
        refine congrArg (List.map _) (List.filter_congr fun p _ => ?_)
        simp [liftKey_inj.eq_iff]
      have e2 : (((rows.map (NullRow.row H)).zip is).filter fun p => p.2 = k) = ((rows.zip is).filter fun p => p.2 = k).map (Prod.map (NullRow.row H) id) := by
        rw [List.zip_map_left, List.filter_map]
        refine congrArg (List.map _) (List.filter_congr fun p _ => ?_)
        simp
      have mem : ∀ p ∈ (rows.zip is).filter fun p => p.2 = k, p.1 ∈ rows := fun p hp => (List.of_mem_zip (List.mem_filter.1 hp).1).1
      have hcols : (((rows.map (NullRow.row H)).zip is).filter fun p => p.2 = k).map (fun p => p.1.sparkColumns H weighted) =
          (((rows.zip (is.map liftKey)).filter fun p => p.2 = liftKey k).map fun p => p.1.columns H weighted).map (·.map zeroed) := by
        rw [e1, e2, List.map_map, List.map_map, List.map_map]
        refine List.map_congr_left fun p hp => ?_
        exact (columns_eq H weighted p.1 (hw _ (mem p hp))).symm
      rw [hcols, ← zeroed_columns]
      refine all_known _ fun i hi => ?_
      -- a row of this struct
      obtain ⟨r0, hr0, hrk⟩ : ∃ r0 ∈ rows, r0.index H = .ok (liftKey k) := by
        have : liftKey k ∈ is.map liftKey := List.mem_map_of_mem hkm
        obtain ⟨j, hj, hjk⟩ := List.getElem_of_mem this
        have hlen : rows.length = (is.map liftKey).length := by
          have := mapE_length' _ _ _ hm
          simpa using this
        have hz : (rows[j]'(by omega), liftKey k) ∈ rows.zip (is.map liftKey) := by
          rw [← hjk]
          refine List.mem_iff_getElem.2 ⟨j, by rw [List.length_zip]; omega, ?_⟩
          rw [List.getElem_zip]
        exact ⟨_, List.getElem_mem _, z2 _ hz⟩
      have inq : ∀ r' ∈ rows, r'.index H = r0.index H → r'.columns H weighted ∈
          ((rows.zip (is.map liftKey)).filter fun p => p.2 = liftKey k).map fun p => p.1.columns H weighted := by
        intro r' hr' he
        obtain ⟨y, ey, em⟩ := z1 r' hr'
        rw [he, hrk] at ey
        cases ey
        exact List.mem_map.2 ⟨_, List.mem_filter.2 ⟨em, by simp⟩, rfl⟩
      have lens : ∀ c ∈ ((rows.zip (is.map liftKey)).filter fun p => p.2 = liftKey k).map fun p => p.1.columns H weighted,
          c.length = 2 * H.nprof + (if weighted then 2 else 1) := by
        intro c hc'
        obtain ⟨p, hp, rfl⟩ := List.mem_map.1 hc'
        exact columns_length H weighted p.1 (hx _ (List.of_mem_zip (List.mem_filter.1 hp).1).1)
      have ne : (((rows.zip (is.map liftKey)).filter fun p => p.2 = liftKey k).map fun p => p.1.columns H weighted) ≠ [] := by
        intro h0
        have := inq r0 hr0 rfl
        rw [h0] at this
        cases this
      have hin : i < 2 * H.nprof + (if weighted then 2 else 1) := by
        have := (List.getElem?_eq_some_iff.1 hi).1
        rwa [nullColumns_length _ _ ne lens] at this
      have hall := (nullColumns_null _ i hin _ ne lens).1 hi
      obtain ⟨k1, k2⟩ := hk r0 hr0
      by_cases hj : i / 2 < H.nprof
      · obtain ⟨r', hr', he, hwt, hxj⟩ := k2 _ hj
        exact column_known H weighted r' (hx _ hr') i hwt (fun _ => hxj) (hall _ (inq r' hr' he))
      · obtain ⟨r', hr', he, hwt⟩ := k1
        exact column_known H weighted r' (hx _ hr') i hwt (fun h => (hj h).elim) (hall _ (inq r' hr' he))
    rw [hq]
    exact congrArg (fun r : Res (Content Arr H.groups.length) => (match r with
      | .error (e, c) => .error (e, some c)
      | .ok c => .ok (some c) : Res H.State)) (nullLoop_eq H _ (prefill H.layout st))

theorem nullLoop_fails (H : HistDef) (q : (List (Option Key) × List ℤ) × List (Option (Option ℚ)))
    (hq : ∀ c c', nullRecurse H H.groups.length c q.1.1 q.1.2 q.2 ≠ .ok c') : ∀ (l : List ((List (Option Key) × List ℤ) × List (Option (Option ℚ)))) (c c' : _),
    q ∈ l → nullLoop H c l ≠ .ok c'
  | [], _, _, h => by cases h
  | (k, cols) :: l, c, c', h => by
    intro he
    simp only [nullLoop] at he
    cases hr : nullRecurse H H.groups.length c k.1 k.2 cols with
    | error e => rw [hr] at he; cases he
    | ok c1 =>
      rw [hr] at he
      rcases List.mem_cons.1 h with rfl | h
      · exact hq _ _ hr
      · exact nullLoop_fails H q hq l c1 c' h he

theorem fillnull_fails (H : HistDef) (weighted : Bool) (collect : List (List (Option Key) × List ℤ) → List (List (Option Key) × List ℤ))
    (hc : ∀ l, (collect l).Perm l) (st : H.State) (rows : List NullRow) (r : NullRow) (hr : r ∈ rows) (k : List (Option Key) × List ℤ)
    (hk : r.index H = .ok k)
    (hq : ∀ is, mapE (NullRow.index H) rows = .ok is → ∀ c c', nullRecurse H H.groups.length c k.1 k.2 (nullQuery H weighted (rows.zip is) k).2 ≠ .ok c')
    (st' : H.State) : H.fillnull weighted collect st rows ≠ .ok st' := by
  intro he
  unfold HistDef.fillnull at he
  cases hm : mapE (NullRow.index H) rows with
  | error e => rw [hm] at he; cases he
  | ok is =>
    rw [hm] at he
    simp only at he
    obtain ⟨z1, _⟩ := mapE_zip _ _ _ hm
    obtain ⟨y, ey, em⟩ := z1 r hr
    rw [hk] at ey
    cases ey
    have hmem : nullQuery H weighted (rows.zip is) k ∈ (collect is.dedup).map (nullQuery H weighted (rows.zip is)) :=
      List.mem_map_of_mem ((hc _).mem_iff.2 (List.mem_dedup.2 (List.of_mem_zip em).2))
    cases hl : nullLoop H (prefill H.layout st) ((collect is.dedup).map (nullQuery H weighted (rows.zip is))) with
    | ok c => exact nullLoop_fails H _ (hq is hm) _ _ _ hmem hl
    | error e =>
      rw [hl] at he
      cases he

theorem nullRecurse_null (H : HistDef) (is : List ℤ) (cols : List (Option (Option ℚ))) : ∀ (n : ℕ) (ks : List (Option Key)) (c c' : Content Arr n),
    ks.length = n → none ∈ ks → nullRecurse H n c ks is cols ≠ .ok c'
  | 0, ks, c, c', hl, h => by
    rw [List.length_eq_zero_iff.1 hl] at h
    cases h
  | n + 1, [], _, _, hl, _ => by cases hl
  | n + 1, none :: ks, c, c', _, _ => by
    intro h
    cases h
  | n + 1, some k :: ks, c, c', hl, h => by
    intro he
    simp only [nullRecurse] at he
    cases hd : dget (c : List (Key × Content Arr n)) k with
    | none => rw [hd] at he; cases he
    | some c1 =>
      rw [hd] at he
      cases hr : nullRecurse H n c1 ks is cols with
      | error e => simp only [hr] at he; cases he
      | ok c2 => exact nullRecurse_null H is cols n ks c1 c2 (by simpa using hl) (by simpa using h) hr

theorem nullRecurse_unknown (H : HistDef) (is : List ℤ) (cols : List (Option (Option ℚ))) (idx : List ℕ) (hp : sparkPlaces H.fixed is = .ok (some idx))
    (hn : none ∈ cols) : ∀ (n : ℕ) (ks : List (Option Key)) (c c' : Content Arr n), nullRecurse H n c ks is cols ≠ .ok c'
  | 0, ks, c, c' => by
    have e : cols.mapM id = none := by
      clear hp c c' ks
      induction cols with
      | nil => cases hn
      | cons x l ih =>
        cases x with
        | none => simp
        | some x => simp [ih (by simpa using hn)]
    intro h
    simp only [nullRecurse, hp, Arr.nullAdd, e] at h
    cases h
  | n + 1, [], _, _ => by
    intro h
    cases h
  | n + 1, none :: ks, c, c' => by
    intro h
    cases h
  | n + 1, some k :: ks, c, c' => by
    intro he
    simp only [nullRecurse] at he
    cases hd : dget (c : List (Key × Content Arr n)) k with
    | none => rw [hd] at he; cases he
    | some c1 =>
      rw [hd] at he
      cases hr : nullRecurse H n c1 ks is cols with
      | error e => simp only [hr] at he; cases he
      | ok c2 => exact nullRecurse_unknown H is cols idx hp hn n ks c1 c2 hr

theorem nullKeys_null : ∀ (gs : List GroupAxis) (vs : List (Option GVal)) (ks : List (Option Key)), vs.length = gs.length → none ∈ vs →
    nullKeys gs vs = .ok ks → ks.length = gs.length ∧ none ∈ ks
  | [], vs, ks, hl, h, _ => by
    rw [List.length_eq_zero_iff.1 hl] at h
    cases h
  | _ :: _, [], _, hl, _, _ => by cases hl
  | g :: gs, v :: vs, ks, hl, h, he => by
    simp only [nullKeys] at he
    cases hk : g.nullKey v with
    | error e => rw [hk] at he; cases he
    | ok k =>
      rw [hk] at he
      cases hks : nullKeys gs vs with
      | error e => rw [hks] at he; cases he
      | ok ks' =>
        rw [hks] at he
        cases he
        have len : ∀ (gs : List GroupAxis) (vs : List (Option GVal)) (ks : List (Option Key)), vs.length = gs.length → nullKeys gs vs = .ok ks →
            ks.length = gs.length := by
          intro gs
          induction gs with
          | nil => intro vs ks _ h; cases vs <;> cases h <;> rfl
          | cons g gs ih =>
            intro vs ks hl h
            cases vs with
            | nil => cases hl
            | cons v vs =>
              simp only [nullKeys] at h
              cases hk : g.nullKey v with
              | error e => rw [hk] at h; cases h
              | ok k =>
                rw [hk] at h
                cases hks : nullKeys gs vs with
                | error e => rw [hks] at h; cases h
                | ok ks' =>
                  rw [hks] at h
                  cases h
                  simpa using ih vs ks' (by simpa using hl) hks
        refine ⟨by simpa using len gs vs ks' (by simpa using hl) hks, ?_⟩
        cases v with
        | none =>
          cases hk
          exact List.mem_cons_self ..
        | some v =>
          obtain ⟨_, hm⟩ := nullKeys_null gs vs ks' (by simpa using hl) (by simpa using h) hks
          exact List.mem_cons_of_mem _ hm

/-! ## C133 -/

/-- C133: a missing value on a bin or split axis is counted as NaN, a missing value on a cut axis as not passing, and a missing weight contributes
nothing; the groups of the rows must be there already, as in C71, and every sum needs a row in which it is not missing.  But a missing profile value
counts as the value zero (`NullRow.row`): see `C133_refuted_profile`.  Missing values on intbin axes are excluded by `SparkOk`: see `C133_refuted_integer`. -/
theorem C133_fill_partial (H : HistDef) (weighted : Bool) (hw : weighted = decide (H.wkind ≠ .none))
    (collect : List (List (Option Key) × List ℤ) → List (List (Option Key) × List ℤ)) (hc : ∀ l, (collect l).Perm l)
    (st : H.State) (hg : H.Good st) (rows : List NullRow) (hn : ∀ r ∈ rows, none ∉ r.gvals) (hr : ∀ r ∈ rows, (r.row H).SparkOk H) (hk : Known H rows)
    (hgk : H.groups = [] ∨ ∀ r ∈ rows, ∀ gk, inGroup H.groups (r.row H).gvals gk = true → H.has st gk) :
    ∃ st', H.fillnull weighted collect st rows = .ok st' ∧ H.Good st' ∧
      (∀ gk, H.has st' gk ↔ H.has st gk ∨ gk = []) ∧
      (∀ gk, gk.length = H.groups.length → ∀ idx, ∀ col < H.layout.ncols,
        H.read st' gk idx col = H.read st gk idx col + binTotal H (rows.map (NullRow.row H)) gk idx col) := by
  obtain ⟨collect', h1, h2⟩ := fillnull_eq H weighted collect hc st rows hn (fun r h => by
    have := (hr r h).xs
    simpa [NullRow.row] using this) (fun r h he => by
    obtain ⟨q, hq⟩ := (hr r h).weight he
    intro h0
    simp [NullRow.row, h0] at hq) hk
  obtain ⟨st', e1, e2, e3, e4, _⟩ := C71_fill_partial H weighted hw collect' h1 st hg (rows.map (NullRow.row H))
    (fun r h => by
      obtain ⟨r', h', rfl⟩ := List.mem_map.1 h
      exact hr r' h')
    (hgk.imp id fun h r hr' gk => by
      obtain ⟨r', h', rfl⟩ := List.mem_map.1 hr'
      exact h r' h' gk)
  exact ⟨st', h2.trans e1, e2, e3, e4⟩

/-- C133 is false of integer axes: a missing value is counted as the largest integer of the axis. -/
theorem C133_refuted_integer (a : IntbinAxis) (ha : (FixedAxis.intbin a).Built) :
    ∃ i j, (FixedAxis.intbin a).nullIndex none = .ok i ∧ (FixedAxis.intbin a).sparkPlace i = .ok (some j) ∧ a.keys[j]? = some (.int a.max) := by
  obtain ⟨j, h1, h2, _⟩ := C71_refuted_integer_nan a ha .nan (Or.inl rfl)
  exact ⟨max 0 (a.max - a.min + 1), j, rfl, h1, h2⟩

/-- C133 is false of group axes: with a missing value on a group axis in any row, filling raises, whatever the histogram has been filled with and
whatever the other rows. -/
theorem C133_refuted_groups (H : HistDef) (weighted : Bool) (collect : List (List (Option Key) × List ℤ) → List (List (Option Key) × List ℤ))
    (hc : ∀ l, (collect l).Perm l) (st : H.State) (rows : List NullRow) (r : NullRow) (hr : r ∈ rows) (hl : r.gvals.length = H.groups.length)
    (hn : none ∈ r.gvals) : ∃ e st', H.fillnull weighted collect st rows = .error (e, st') := by
  cases he : H.fillnull weighted collect st rows with
  | error e => exact ⟨e.1, e.2, rfl⟩
  | ok st' =>
    exfalso
    cases hi : r.index H with
    | error e =>
      unfold HistDef.fillnull at he
      cases hm : mapE (NullRow.index H) rows with
      | error e => rw [hm] at he; cases he
      | ok is =>
        obtain ⟨z1, _⟩ := mapE_zip _ _ _ hm
        obtain ⟨y, ey, _⟩ := z1 r hr
        rw [hi] at ey
        cases ey
    | ok k =>
      refine fillnull_fails H weighted collect hc st rows r hr k hi (fun is _ c c' => ?_) st' he
      unfold NullRow.index at hi
      cases hks : nullKeys H.groups r.gvals with
      | error e => rw [hks] at hi; cases hi
      | ok ks =>
        rw [hks] at hi
        simp only at hi
        obtain ⟨k1, k2⟩ := nullKeys_null _ _ _ hl hn hks
        cases hfs : nullIndexes H.fixed r.fvals with
        | error e => rw [hfs] at hi; cases hi
        | ok js =>
          rw [hfs] at hi
          cases hi
          exact nullRecurse_null H _ _ _ ks c c' k1 k2

/-- C133 is false of weights if there is no weight at all in a bin: filling raises, although a row without weight should contribute nothing. -/
theorem C133_refuted_weights (H : HistDef) (hw : H.wkind = .expr) (collect : List (List (Option Key) × List ℤ) → List (List (Option Key) × List ℤ))
    (hc : ∀ l, (collect l).Perm l) (st : H.State) (rows : List NullRow) (hx : ∀ r ∈ rows, r.xs.length = H.nprof) (r : NullRow) (hr : r ∈ rows)
    (hg : none ∉ r.gvals) (hok : (r.row H).SparkOk H) (idx : List ℕ) (hb : inBins' H.fixed (r.row H).fvals idx = true)
    (hnull : ∀ r' ∈ rows, r'.index H = r.index H → r'.w = none) : ∃ e st', H.fillnull true collect st rows = .error (e, st') := by
  obtain ⟨ks, h1, h2, h3⟩ := sparkKeys_eq hok.groups
  obtain ⟨js, p, h4, h5, h6⟩ := sparkIndexes_eq (hok.fixed.imp (fun a v h => by
    obtain ⟨q, hq1, hq2⟩ := C71_axis_partial a h.1 v h.2.1 h.2.2
    unfold FixedAxis.sparkBin at hq1
    cases hi : a.sparkIndex v with
    | error e => rw [hi] at hq1; cases hq1
    | ok i => rw [hi] at hq1; exact ⟨q, ⟨i, rfl, hq1⟩, hq2⟩))
  have hi : r.index H = .ok (liftKey (ks, js)) := by
    rw [index_eq H r hg]
    simp only [Row.sparkIndex, h1, h4, Except.map]
  rw [(h6 idx).2 hb] at h5
  cases he : H.fillnull true collect st rows with
  | error e => exact ⟨e.1, e.2, rfl⟩
  | ok st' =>
    exfalso
    refine fillnull_fails H true collect hc st rows r hr _ hi (fun is hm c c' => ?_) st' he
    refine nullRecurse_unknown H js _ idx h5 ?_ _ _ c c'
    obtain ⟨z1, z2⟩ := mapE_zip _ _ _ hm
    have ne : (((rows.zip is).filter fun p => p.2 = liftKey (ks, js)).map fun p => p.1.columns H true) ≠ [] := by
      intro h0
      obtain ⟨y, ey, em⟩ := z1 r hr
      rw [hi] at ey
      cases ey
      have : (r, liftKey (ks, js)) ∈ (rows.zip is).filter fun p => p.2 = liftKey (ks, js) := List.mem_filter.2 ⟨em, by simp⟩
      rw [List.map_eq_nil_iff.1 h0] at this
      cases this
    have := (nullColumns_null (2 * H.nprof + 2) (2 * H.nprof) (by omega) _ ne (fun c hc' => by
      obtain ⟨p, hp, rfl⟩ := List.mem_map.1 hc'
      exact columns_length H true p.1 (hx _ (List.of_mem_zip (List.mem_filter.1 hp).1).1))).2 (fun c hc' => by
      obtain ⟨p, hp, rfl⟩ := List.mem_map.1 hc'
      obtain ⟨hp1, hp2⟩ := List.mem_filter.1 hp
      have e1 := z2 p hp1
      have e2 : p.2 = liftKey (ks, js) := by simpa using hp2
      rw [e2, ← hi] at e1
      have hm' := (List.of_mem_zip hp1).1
      have hwt : p.1.weight H = none := by
        unfold NullRow.weight
        rw [hw]
        exact hnull _ hm' e1
      unfold NullRow.columns
      simp only [if_true]
      have len : (p.1.xs.flatMap fun x => [nmul (x.map some) (p.1.weight H), nmul (x.map fun x => some (x * x)) (p.1.weight H)]).length = 2 * H.nprof := by
        simp [List.length_flatMap, hx _ hm', Nat.mul_comm]
      rw [List.getElem?_append_right (by rw [len]), len, Nat.sub_self, hwt]
      rfl)
    exact List.mem_of_getElem? this

/-! ## examples -/

/-- What is read after filling, or the exception. -/
def HistDef.readNull (H : HistDef) (weighted : Bool) (collect : List (List (Option Key) × List ℤ) → List (List (Option Key) × List ℤ))
    (st : H.State) (rows : List NullRow) (gk : List Key) (idx : List ℕ) : Except Err (List ℚ) :=
  match H.fillnull weighted collect st rows with
  | .error (e, _) => .error e
  | .ok st => .ok ((List.range H.layout.ncols).map (H.read st gk idx))

/-- a bin axis from 0 to 1 with two bins, and a cut; a profile and a weight -/
def exNull : HistDef := ⟨[], [.bin ⟨2, 0, 1, true, true, true, true⟩, .cut], 1, .expr⟩

/-- four rows: a missing value on each axis, and a missing weight next to one that is given -/
def exNullRows : List NullRow :=
  [⟨[], [none, some (.bool true)], [some 2], some (some 3)⟩, ⟨[], [some (.num (.fin (3 / 4))), none], [some 5], some (some 2)⟩,
    ⟨[], [some (.num (.fin (1 / 4))), some (.bool true)], [some 1], some (some 7)⟩, ⟨[], [some (.num (.fin (1 / 5))), some (.bool true)], [some 4], none⟩]

theorem exNullRows_ok : ∀ r ∈ exNullRows, (r.row exNull).SparkOk exNull := by
  have hb : (FixedAxis.bin ⟨2, 0, 1, true, true, true, true⟩).Built := ⟨2, 0, 1, true, true, true, true, by omega, by decide +kernel⟩
  have hf : ∀ x : Num, x ≠ .pinf → (∀ q, x = .fin q → q ≤ 1) → (FixedAxis.bin ⟨2, 0, 1, true, true, true, true⟩).sparkFits (.num x) := by
    intro x hx hq
    refine ⟨rfl, hx, ?_⟩
    intro q h
    have := hq q h
    norm_num
    linarith
  have hr : ∀ x : Num, (FixedAxis.bin ⟨2, 0, 1, true, true, true, true⟩).sparkRight (.num x) := fun x => ⟨Or.inl rfl, Or.inl rfl⟩
  have hcut : ∀ b, FixedAxis.cut.Built ∧ FixedAxis.cut.sparkFits (.bool b) ∧ FixedAxis.cut.sparkRight (.bool b) :=
    fun b => ⟨trivial, rfl, Or.inr rfl, Or.inr (Or.inl rfl)⟩
  intro r hr'
  simp only [exNullRows, List.mem_cons, List.not_mem_nil, or_false] at hr'
  rcases hr' with rfl | rfl | rfl | rfl
  · exact ⟨.nil, .cons ⟨hb, hf _ (by simp) (by rintro q ⟨⟩), hr _⟩ (.cons (hcut _) .nil), rfl, fun _ => ⟨_, rfl⟩⟩
  · exact ⟨.nil, .cons ⟨hb, hf _ (by simp) (by rintro q ⟨⟩; norm_num), hr _⟩ (.cons (hcut _) .nil), rfl, fun _ => ⟨_, rfl⟩⟩
  · exact ⟨.nil, .cons ⟨hb, hf _ (by simp) (by rintro q ⟨⟩; norm_num), hr _⟩ (.cons (hcut _) .nil), rfl, fun _ => ⟨_, rfl⟩⟩
  · exact ⟨.nil, .cons ⟨hb, hf _ (by simp) (by rintro q ⟨⟩; norm_num), hr _⟩ (.cons (hcut _) .nil), rfl, fun _ => ⟨_, rfl⟩⟩

/-- The rows meet the conditions of `C133_fill_partial`, and are counted in the bin for NaN, as not passing, and not at all. -/
example : Known exNull exNullRows ∧ exNull.readNull true List.reverse none exNullRows [] [4, 1] = .ok [6, 12, 3, 9] ∧
    exNull.readNull true List.reverse none exNullRows [] [2, 0] = .ok [10, 50, 2, 4] ∧
    exNull.readNull true List.reverse none exNullRows [] [1, 1] = .ok [7, 7, 7, 49] := by
  refine ⟨?_, by decide +kernel, by decide +kernel, by decide +kernel⟩
  have hone : ∀ j, j < exNull.nprof → j = 0 := fun j hj => Nat.lt_one_iff.1 hj
  intro r hr
  simp only [exNullRows, List.mem_cons, List.not_mem_nil, or_false] at hr
  have self : ∀ r ∈ exNullRows, r.w ≠ none → r.xs[0]? ≠ some none → (∃ r' ∈ exNullRows, r'.index exNull = r.index exNull ∧ r'.weight exNull ≠ none) ∧
      ∀ j < exNull.nprof, ∃ r' ∈ exNullRows, r'.index exNull = r.index exNull ∧ r'.weight exNull ≠ none ∧ r'.xs[j]? ≠ some none := by
    intro r hm h1 h2
    refine ⟨⟨r, hm, rfl, h1⟩, fun j hj => ?_⟩
    rw [hone j hj]
    exact ⟨r, hm, rfl, h1, h2⟩
  have m3 : (⟨[], [some (.num (.fin (1 / 4))), some (.bool true)], [some 1], some (some 7)⟩ : NullRow) ∈ exNullRows := by simp [exNullRows]
  rcases hr with rfl | rfl | rfl | rfl
  · exact self _ (by simp [exNullRows]) (by simp) (by simp)
  · exact self _ (by simp [exNullRows]) (by simp) (by simp)
  · exact self _ m3 (by simp) (by simp)
  · have e : NullRow.index exNull ⟨[], [some (.num (.fin (1 / 4))), some (.bool true)], [some 1], some (some 7)⟩ =
        NullRow.index exNull ⟨[], [some (.num (.fin (1 / 5))), some (.bool true)], [some 4], none⟩ := by decide +kernel
    refine ⟨⟨_, m3, e, by simp [NullRow.weight, exNull]⟩, fun j hj => ?_⟩
    rw [hone j hj]
    exact ⟨_, m3, e, by simp [NullRow.weight, exNull], by simp⟩

/-- C133 is false of profiles: of two rows with the values 10 and missing, the mean is 5 (a sum of 10 over a count of 2), not 10. -/
theorem C133_refuted_profile :
    let H : HistDef := ⟨[], [.bin ⟨2, 0, 1, true, true, true, true⟩], 1, .none⟩
    let given : NullRow := ⟨[], [some (.num (.fin (1 / 4)))], [some 10], some (some 1)⟩
    let missing : NullRow := ⟨[], [some (.num (.fin (1 / 4)))], [none], some (some 1)⟩
    H.readNull false id none [given, missing] [] [1] = .ok [10, 100, 2] ∧ H.readNull false id none [given] [] [1] = .ok [10, 100, 1] := by
  decide +kernel

/-- A row with a missing value on a group axis, in a histogram that has the other groups: AttributeError. -/
example : exSpark.groups.length = 1 ∧
    exSpark.readNull true id exSparkState [⟨[none], [some (.num (.fin (3 / 4))), some (.bool true)], [some 2], some (some 3)⟩] [.str "a"] [2, 1] =
      .error .attributeError := by decide +kernel

/-- A bin in which the only weight is missing: TypeError. -/
example : exNull.readNull true id none [⟨[], [some (.num (.fin (1 / 5))), some (.bool true)], [some 4], none⟩] [] [1, 1] = .error .typeError := by
  decide +kernel

/-- `intbin("n", 1, 4)`: a missing value is counted as 4. -/
example : (FixedAxis.intbin ⟨1, 4, true, true⟩).nullIndex none = .ok 4 ∧ (FixedAxis.intbin ⟨1, 4, true, true⟩).sparkPlace 4 = .ok (some 4) := by decide

end Verif
