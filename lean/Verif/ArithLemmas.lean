import Verif.Arith
import Verif.SpecHist
import Verif.FillLemmas

/-! # Lemmas about the arithmetic of contents (helpers for the property theorems) -/

namespace Verif

theorem dget_nil {β : Type} (k : Key) : dget ([] : List (Key × β)) k = none := rfl

theorem dget_cons {β : Type} (k' : Key) (x : β) (d : List (Key × β)) (k : Key) :
    dget ((k', x) :: d) k = if k' = k then some x else dget d k := by
  unfold dget
  by_cases h : k' = k <;> simp [List.find?_cons, h]

theorem dget_append {β : Type} (d e : List (Key × β)) (k : Key) :
    dget (d ++ e) k = (dget d k).or (dget e k) := by
  induction d with
  | nil => simp [dget_nil]
  | cons p d ih =>
    obtain ⟨k', x⟩ := p
    simp only [List.cons_append, dget_cons, ih]
    by_cases h : k' = k <;> simp [h]

theorem dget_isSome_of_mem {β : Type} (d : List (Key × β)) (p : Key × β) (h : p ∈ d) : (dget d p.1).isSome = true := by
  induction d with
  | nil => simp at h
  | cons q d ih =>
    obtain ⟨k', x⟩ := q
    simp only [dget_cons]
    by_cases hk : k' = p.1
    · simp [hk]
    · simp only [hk, if_false]
      simp only [List.mem_cons] at h
      rcases h with rfl | h
      · simp at hk
      · exact ih h

theorem mem_of_dget {β : Type} (d : List (Key × β)) (k : Key) (x : β) (h : dget d k = some x) : (k, x) ∈ d := by
  induction d with
  | nil => simp [dget_nil] at h
  | cons q d ih =>
    obtain ⟨k', y⟩ := q
    simp only [dget_cons] at h
    by_cases hk : k' = k
    · simp only [hk, if_true, Option.some.injEq] at h
      subst hk; subst h; simp
    · simp only [hk, if_false] at h
      exact List.mem_cons_of_mem _ (ih h)

theorem dget_addRight {β : Type} (d e : List (Key × β)) (k : Key) (h : dget d k = none) :
    dget (addRight d e) k = dget e k := by
  unfold addRight
  induction e with
  | nil => rfl
  | cons q e ih =>
    obtain ⟨k', x⟩ := q
    simp only [List.filter_cons, dget_cons]
    by_cases hk : k' = k
    · subst hk
      simp [h, dget_cons]
    · simp only [hk, if_false]
      split
      · simp only [dget_cons, hk, if_false, ih]
      · exact ih

/-- the merged entry of a key -/
def mergeEntry {β : Type} (g : β → β → β) (e : List (Key × β)) (k : Key) (x : β) : β :=
  match dget e k with
  | some y => g x y
  | none => x

/-- `addLeft` succeeds if all the additions do, and then merges entry by entry. -/
theorem addLeft_ok {β : Type} (rec : β → β → Except Err β) (g : β → β → β) (e : List (Key × β)) : ∀ (d : List (Key × β)),
    (∀ p ∈ d, ∀ y, dget e p.1 = some y → rec p.2 y = .ok (g p.2 y)) →
    addLeft rec e d = .ok (d.map (fun p => (p.1, mergeEntry g e p.1 p.2)))
  | [], _ => rfl
  | (k, x) :: d, h => by
    have ih := addLeft_ok rec g e d (fun p hp => h p (by simp [hp]))
    simp only [addLeft, ih, List.map_cons]
    cases hk : dget e k with
    | none => simp [mergeEntry, hk]
    | some y => simp [h (k, x) (by simp) y hk, mergeEntry, hk]

theorem iaddLeft_ok {β : Type} (rec : β → β → Res β) (g : β → β → β) (e : List (Key × β)) : ∀ (d : List (Key × β)),
    (∀ p ∈ d, ∀ y, dget e p.1 = some y → rec p.2 y = .ok (g p.2 y)) →
    iaddLeft rec e d = .ok (d.map (fun p => (p.1, mergeEntry g e p.1 p.2)))
  | [], _ => rfl
  | (k, x) :: d, h => by
    have ih := iaddLeft_ok rec g e d (fun p hp => h p (by simp [hp]))
    simp only [iaddLeft, ih, List.map_cons]
    cases hk : dget e k with
    | none => simp [mergeEntry, hk]
    | some y => simp [h (k, x) (by simp) y hk, mergeEntry, hk]

theorem dget_map {β γ : Type} (f : Key → β → γ) (d : List (Key × β)) (k : Key) :
    dget (d.map (fun p => (p.1, f p.1 p.2))) k = (dget d k).map (f k) := by
  induction d with
  | nil => rfl
  | cons q d ih =>
    obtain ⟨k', x⟩ := q
    simp only [List.map_cons, dget_cons, ih]
    by_cases hk : k' = k
    · simp [hk]
    · simp [hk]

theorem dget_of_mem {β : Type} (d : List (Key × β)) (hd : (d.map (·.1)).Nodup) (p : Key × β) (h : p ∈ d) :
    dget d p.1 = some p.2 := by
  induction d with
  | nil => simp at h
  | cons q d ih =>
    obtain ⟨k', x⟩ := q
    simp only [List.map_cons, List.nodup_cons] at hd
    simp only [dget_cons]
    simp only [List.mem_cons] at h
    rcases h with rfl | h
    · simp
    · have : k' ≠ p.1 := by
        rintro rfl
        exact hd.1 (List.mem_map.2 ⟨p, h, rfl⟩)
      simp only [this, if_false]
      exact ih hd.2 h

/-- the sum of two arrays with the same shape -/
def Arr.plus (a b : Arr) : Arr := ⟨a.shape, a.ncols, fun i c => a.get i c + b.get i c⟩

/-- entry-by-entry merge of two dicts -/
def mergeWith {β : Type} (g : β → β → β) (d e : List (Key × β)) : List (Key × β) :=
  d.map (fun p => (p.1, mergeEntry g e p.1 p.2)) ++ addRight d e

/-- the sum of two contents, entry by entry -/
def plus : (n : ℕ) → Content Arr n → Content Arr n → Content Arr n
  | 0, (a : Arr), (b : Arr) => a.plus b
  | n + 1, (d : List (Key × Content Arr n)), (e : List (Key × Content Arr n)) =>
    mergeWith (plus n) d e

theorem shaped_mem {L : Layout} {n : ℕ} {d : List (Key × Content Arr n)} (hd : Distinct (n + 1) d) (h : Shaped L (n + 1) d)
    (p : Key × Content Arr n) (hp : p ∈ d) : Shaped L n p.2 :=
  h p.1 p.2 (dget_of_mem d hd.1 p hp)

theorem addContent_eq (L : Layout) : ∀ (n : ℕ) (a b : Content Arr n), Distinct n a → Distinct n b → Shaped L n a → Shaped L n b →
    addContent n a b = .ok (plus n a b)
  | 0, (a : Arr), (b : Arr), _, _, ha, hb => by
    show a.add b = _
    unfold Arr.add
    rw [if_pos (by rw [ha.1, hb.1]), if_pos (by rw [ha.2, hb.2])]
    rfl
  | n + 1, (d : List (Key × Content Arr n)), (e : List (Key × Content Arr n)), hda, hdb, ha, hb => by
    simp only [addContent]
    rw [addLeft_ok (addContent n) (plus n) e d (fun p hp y hy => addContent_eq L n p.2 y (hda.2 p hp)
      (hdb.2 _ (mem_of_dget e p.1 y hy)) (shaped_mem hda ha p hp) (hb _ _ hy))]
    rfl

theorem iaddContent_eq (L : Layout) : ∀ (n : ℕ) (a b : Content Arr n), Distinct n a → Distinct n b → Shaped L n a → Shaped L n b →
    iaddContent n a b = .ok (plus n a b)
  | 0, (a : Arr), (b : Arr), _, _, ha, hb => by
    simp only [iaddContent, Arr.iadd]
    rw [if_pos (by rw [ha.1, hb.1]), if_pos (by rw [ha.2, hb.2])]
    rfl
  | n + 1, (d : List (Key × Content Arr n)), (e : List (Key × Content Arr n)), hda, hdb, ha, hb => by
    simp only [iaddContent]
    rw [iaddLeft_ok (iaddContent n) (plus n) e d (fun p hp y hy => iaddContent_eq L n p.2 y (hda.2 p hp)
      (hdb.2 _ (mem_of_dget e p.1 y hy)) (shaped_mem hda ha p hp) (hb _ _ hy))]
    rfl

theorem dget_plus (n : ℕ) (d e : List (Key × Content Arr n)) (k : Key) :
    dget (plus (n + 1) d e : List (Key × Content Arr n)) k = match dget d k, dget e k with
      | some x, some y => some (plus n x y)
      | some x, none => some x
      | none, y => y := by
  show dget (mergeWith (plus n) d e) k = _
  unfold mergeWith
  rw [dget_append]
  have h1 := dget_map (mergeEntry (plus n) e) d k
  rw [h1]
  cases hd : dget d k with
  | none => simp [dget_addRight d e k hd]
  | some x => cases h : dget e k <;> simp [mergeEntry, h]

theorem plus_distinct : ∀ (n : ℕ) (a b : Content Arr n), Distinct n a → Distinct n b → Distinct n (plus n a b)
  | 0, _, _, _, _ => trivial
  | n + 1, (d : List (Key × Content Arr n)), (e : List (Key × Content Arr n)), hd, he => by
    constructor
    · show ((mergeWith (plus n) d e).map (·.1)).Nodup
      simp only [mergeWith, List.map_append, List.map_map]
      rw [List.nodup_append]
      refine ⟨hd.1, ?_, ?_⟩
      · exact List.Nodup.sublist (List.Sublist.map _ List.filter_sublist) he.1
      · intro k hk k' hk' hkk
        subst hkk
        obtain ⟨p, hp, rfl⟩ := List.mem_map.1 hk
        obtain ⟨q, hq, hqk⟩ := List.mem_map.1 hk'
        have := (List.mem_filter.1 hq).2
        have h2 := dget_isSome_of_mem d p hp
        simp only [Function.comp] at hqk
        rw [← hqk] at h2
        rw [Option.isNone_iff_eq_none] at this
        rw [this] at h2
        cases h2
    · intro p hp
      change p ∈ mergeWith (plus n) d e at hp
      simp only [mergeWith, List.mem_append, List.mem_map] at hp
      rcases hp with ⟨q, hq, rfl⟩ | hp
      · simp only [mergeEntry]
        cases hk : dget e q.1 with
        | none => exact hd.2 q hq
        | some y => exact plus_distinct n q.2 y (hd.2 q hq) (he.2 _ (mem_of_dget e _ _ hk))
      · exact he.2 p (List.mem_filter.1 hp).1

theorem plus_shaped (L : Layout) : ∀ (n : ℕ) (a b : Content Arr n), Shaped L n a → Shaped L n b → Shaped L n (plus n a b)
  | 0, _, _, ha, _ => ha
  | n + 1, (d : List (Key × Content Arr n)), (e : List (Key × Content Arr n)), hd, he => by
    intro k c hc
    rw [dget_plus] at hc
    cases h1 : dget d k with
    | none => rw [h1] at hc; exact he k c hc
    | some x =>
      cases h2 : dget e k with
      | none => rw [h1, h2] at hc; cases hc; exact hd k _ h1
      | some y => rw [h1, h2] at hc; cases hc; exact plus_shaped L n x y (hd k _ h1) (he k _ h2)

theorem plus_has : ∀ (n : ℕ) (a b : Content Arr n) (gk : List Key),
    HasGroup n (plus n a b) gk ↔ HasGroup n a gk ∨ HasGroup n b gk
  | 0, _, _, gk => by simp [HasGroup]
  | n + 1, _, _, [] => by simp [HasGroup]
  | n + 1, (d : List (Key × Content Arr n)), (e : List (Key × Content Arr n)), k :: gk => by
    simp only [HasGroup]
    rw [dget_plus]
    cases h1 : dget d k with
    | none => cases h2 : dget e k <;> simp
    | some x =>
      cases h2 : dget e k with
      | none => simp
      | some y => simp [plus_has n x y gk]

theorem plus_lookup : ∀ (n : ℕ) (a b : Content Arr n) (gk : List Key) (idx : List ℕ) (col : ℕ),
    lookup n (plus n a b) gk idx col = lookup n a gk idx col + lookup n b gk idx col
  | 0, _, _, _, _, _ => rfl
  | n + 1, _, _, [], _, _ => by simp [lookup]
  | n + 1, (d : List (Key × Content Arr n)), (e : List (Key × Content Arr n)), k :: gk, idx, col => by
    simp only [lookup]
    rw [dget_plus]
    cases h1 : dget d k with
    | none => cases h2 : dget e k <;> simp
    | some x =>
      cases h2 : dget e k with
      | none => simp
      | some y => simp [plus_lookup n x y gk]

/-! ## filling keeps keys distinct -/

theorem dset_distinct {n : ℕ} (d : List (Key × Content Arr n)) (hd : Distinct (n + 1) d) (k : Key) (c : Content Arr n)
    (hc : Distinct n c) : Distinct (n + 1) (dset d k c : List (Key × Content Arr n)) := by
  have hn := hd.1
  have hm := hd.2
  unfold dset
  split
  · refine ⟨?_, ?_⟩
    · rw [List.map_map]
      have : ((fun x : Key × Content Arr n => x.1) ∘ fun p => if p.1 = k then (k, c) else p) = (fun x => x.1) := by
        funext p
        simp only [Function.comp]
        split
        · rename_i h; exact h.symm
        · rfl
      rw [this]
      exact hn
    · intro p hp
      obtain ⟨q, hq, rfl⟩ := List.mem_map.1 hp
      split
      · exact hc
      · exact hm q hq
  · rename_i h
    refine ⟨?_, ?_⟩
    · rw [List.map_append, List.nodup_append]
      refine ⟨hn, by simp, ?_⟩
      intro a ha b hb hab
      simp only [List.map_cons, List.map_nil, List.mem_singleton] at hb
      subst hab; subst hb
      obtain ⟨q, hq, hqk⟩ := List.mem_map.1 ha
      apply h
      rw [List.any_eq_true]
      exact ⟨q, hq, by simp [hqk]⟩
    · intro p hp
      rw [List.mem_append, List.mem_singleton] at hp
      rcases hp with hp | rfl
      · exact hm p hp
      · exact hc

theorem distinct_empty (L : Layout) : ∀ n, Distinct n (emptyContent L n)
  | 0 => trivial
  | _ + 1 => ⟨List.nodup_nil, by intro p hp; cases hp⟩

theorem filldictLoop_distinct {n : ℕ} (L : Layout) (rec : Content Arr n → Rows → List Bool → Res (Content Arr n))
    (hrec : ∀ c r s c', Distinct n c → rec c r s = .ok c' → Distinct n c') (inverse : List ℤ) (r : Rows)
    (all : Option (List Bool)) : ∀ (us : List (ℕ × Key)) (d d' : List (Key × Content Arr n)),
    Distinct (n + 1) d → filldictLoop L rec inverse r all us d = .ok d' → Distinct (n + 1) d'
  | [], d, d', hd, h => by
    simp only [filldictLoop] at h
    cases h; exact hd
  | (idx, u) :: us, d, d', hd, h => by
    simp only [filldictLoop] at h
    split at h
    · cases h
    · rename_i inv _
      have he : Distinct (n + 1) (ensureKey d u (emptyContent L n) : List (Key × Content Arr n)) := by
        unfold ensureKey
        split
        · exact hd
        · exact dset_distinct d hd u _ (distinct_empty L n)
      split at h
      · cases h
      · rename_i sub hsub
        have hs : Distinct n sub := he.2 _ (mem_of_dget _ _ _ hsub)
        split at h
        · cases h
        · split at h
          · cases h
          · rename_i c' hc'
            exact filldictLoop_distinct L rec hrec inverse r all us _ d'
              (dset_distinct _ he u c' (hrec _ _ _ _ hs hc')) h

theorem filldict_distinct (L : Layout) (length : ℕ) : ∀ (n : ℕ) (gs : List (Option (List Key × List ℤ))) (c : Content Arr n)
    (r : Rows) (all : Option (List Bool)) (c' : Content Arr n), Distinct n c → filldict L length n gs c r all = .ok c' →
    Distinct n c'
  | 0, _, _, _, _, _, _, _ => trivial
  | n + 1, gs, (d : List (Key × Content Arr n)), r, all, c', hd, h => by
    match gs, h with
    | [], h => simp only [filldict] at h; cases h
    | none :: _, h => simp only [filldict] at h; cases h
    | some (u, inv) :: gs, h =>
      simp only [filldict] at h
      exact filldictLoop_distinct L _ (fun c r s c' hc h => filldict_distinct L length n gs c r (some s) c' hc h)
        inv r all _ d c' hd h

theorem fill_wellFormed (H : HistDef) (st st' : H.State) (rows : List Row) (hst : H.DistinctKeys st)
    (h : H.fill st rows = .ok st') : H.DistinctKeys st' := by
  have hp : Distinct H.groups.length (prefill H.layout st) := by
    cases st with
    | none => exact distinct_empty _ _
    | some c => exact hst
  unfold HistDef.fill at h
  simp only at h
  split at h
  · cases h
  · rename_i d _
    split at h
    · cases h
    · rename_i c hc
      cases h
      unfold postfill at hc
      split at hc
      · cases hc
      · split at hc
        · cases hc
        · exact filldict_distinct _ _ _ _ _ _ _ _ hp hc

theorem fillAll_wellFormed (H : HistDef) : ∀ (bs : List (List Row)) (st st' : H.State), H.DistinctKeys st →
    H.fillAll st bs = .ok st' → H.DistinctKeys st'
  | [], st, st', hst, h => by simp only [HistDef.fillAll] at h; cases h; exact hst
  | b :: bs, st, st', hst, h => by
    simp only [HistDef.fillAll] at h
    split at h
    · cases h
    · rename_i s hs
      exact fillAll_wellFormed H bs s st' (fill_wellFormed H st s b hst hs) h

/-! ## equality -/

theorem mem_multiIndexes : ∀ (dims idx : List ℕ), idx ∈ multiIndexes dims ↔ InRange idx dims
  | [], idx => by simp [multiIndexes, InRange]
  | n :: ns, idx => by
    simp only [multiIndexes, List.mem_flatMap, List.mem_range, List.mem_map, InRange]
    constructor
    · rintro ⟨i, hi, idx', h, rfl⟩
      exact .cons hi ((mem_multiIndexes ns idx').1 h)
    · intro h
      cases h with
      | cons h1 h2 => exact ⟨_, h1, _, (mem_multiIndexes ns _).2 h2, rfl⟩

theorem hasGroup_nil' : ∀ (n : ℕ) (c : Content Arr n), HasGroup n c []
  | 0, _ => rfl
  | _ + 1, _ => trivial

theorem eqContent_iff (L : Layout) : ∀ (n : ℕ) (a b : Content Arr n), Shaped L n a → Shaped L n b →
    (eqContent n a b = true ↔ (∀ gk, HasGroup n a gk ↔ HasGroup n b gk) ∧
      ∀ gk, gk.length = n → ∀ idx, InRange idx L.dims → ∀ col < L.ncols, lookup n a gk idx col = lookup n b gk idx col)
  | 0, (a : Arr), (b : Arr), ha, hb => by
    simp only [eqContent, Arr.equal, ha.1, hb.1, ha.2, hb.2, decide_true, Bool.true_and, List.all_eq_true,
      List.mem_range, mem_multiIndexes, decide_eq_true_eq, HasGroup, implies_true, true_and, lookup]
    constructor
    · intro h gk _ idx hi col hc
      exact h idx hi col hc
    · intro h idx hi col hc
      exact h [] rfl idx hi col hc
  | n + 1, (d : List (Key × Content Arr n)), (e : List (Key × Content Arr n)), hd, he => by
    have hsk : sameKeys d e = true ↔ ∀ k, (dget d k).isSome = true ↔ (dget e k).isSome = true := by
      simp only [sameKeys, Bool.and_eq_true, List.all_eq_true]
      constructor
      · rintro ⟨h1, h2⟩ k
        constructor
        · intro h
          obtain ⟨x, hx⟩ := Option.isSome_iff_exists.1 h
          exact h1 _ (mem_of_dget d k x hx)
        · intro h
          obtain ⟨x, hx⟩ := Option.isSome_iff_exists.1 h
          exact h2 _ (mem_of_dget e k x hx)
      · intro h
        exact ⟨fun p hp => (h p.1).1 (dget_isSome_of_mem d p hp), fun p hp => (h p.1).2 (dget_isSome_of_mem e p hp)⟩
    have hall : eqDict (eqContent n) d e = true ↔ ∀ k x, dget d k = some x → ∃ y, dget e k = some y ∧ eqContent n x y = true := by
      simp only [eqDict, List.all_eq_true]
      constructor
      · intro h k x hx
        have := h k (List.mem_map.2 ⟨_, mem_of_dget d k x hx, rfl⟩)
        rw [hx] at this
        cases hy : dget e k with
        | none => rw [hy] at this; cases this
        | some y => rw [hy] at this; exact ⟨y, rfl, this⟩
      · intro h k hk
        obtain ⟨p, hp, rfl⟩ := List.mem_map.1 hk
        obtain ⟨x, hx⟩ := Option.isSome_iff_exists.1 (dget_isSome_of_mem d p hp)
        obtain ⟨y, hy, hxy⟩ := h p.1 x hx
        rw [hx, hy]
        exact hxy
    show (sameKeys d e && eqDict (eqContent n) d e) = true ↔ _
    rw [Bool.and_eq_true, hsk, hall]
    constructor
    · rintro ⟨h1, h2⟩
      constructor
      · intro gk
        cases gk with
        | nil => simp [HasGroup]
        | cons k gk =>
          simp only [HasGroup]
          cases hx : dget d k with
          | none =>
            have := h1 k
            rw [hx] at this
            cases hy : dget e k with
            | none => simp
            | some y => rw [hy] at this; simp at this
          | some x =>
            obtain ⟨y, hy, hxy⟩ := h2 k x hx
            have := ((eqContent_iff L n x y (hd _ _ hx) (he _ _ hy)).1 hxy).1 gk
            rw [hy]
            simpa using this
      · intro gk hgk idx hi col hc
        cases gk with
        | nil => simp at hgk
        | cons k gk =>
          simp only [lookup]
          cases hx : dget d k with
          | none =>
            have := h1 k
            rw [hx] at this
            cases hy : dget e k with
            | none => simp
            | some y => rw [hy] at this; simp at this
          | some x =>
            obtain ⟨y, hy, hxy⟩ := h2 k x hx
            have := ((eqContent_iff L n x y (hd _ _ hx) (he _ _ hy)).1 hxy).2 gk (by simpa using hgk) idx hi col hc
            rw [hy]
            simpa using this
    · rintro ⟨h1, h2⟩
      have hk : ∀ k, (dget d k).isSome = true ↔ (dget e k).isSome = true := by
        intro k
        have := h1 [k]
        simp only [HasGroup, hasGroup_nil', and_true] at this
        rw [Option.isSome_iff_exists, Option.isSome_iff_exists]
        exact this
      refine ⟨hk, fun k x hx => ?_⟩
      obtain ⟨y, hy⟩ := Option.isSome_iff_exists.1 ((hk k).1 (by rw [hx]; rfl))
      refine ⟨y, hy, ?_⟩
      rw [eqContent_iff L n x y (hd _ _ hx) (he _ _ hy)]
      constructor
      · intro gk
        have := h1 (k :: gk)
        simp only [HasGroup, hx, hy] at this
        simpa using this
      · intro gk hgk idx hi col hc
        have := h2 (k :: gk) (by simpa using hgk) idx hi col hc
        simpa only [lookup, hx, hy] using this

/-! ## scaling -/

theorem mul_has (k : ℚ) : ∀ (n : ℕ) (a : Content Arr n) (gk : List Key), HasGroup n (mulContent k n a) gk ↔ HasGroup n a gk
  | 0, _, gk => by simp [HasGroup]
  | n + 1, _, [] => by simp [HasGroup]
  | n + 1, (d : List (Key × Content Arr n)), key :: gk => by
    simp only [HasGroup, mulContent]
    rw [dget_map (fun _ x => mulContent k n x) d key]
    cases h1 : dget d key with
    | none => simp
    | some x => simp [mul_has k n x gk]

theorem mul_lookup (k : ℚ) : ∀ (n : ℕ) (a : Content Arr n) (gk : List Key) (idx : List ℕ) (col : ℕ),
    lookup n (mulContent k n a) gk idx col = lookup n a gk idx col * k
  | 0, _, _, _, _ => rfl
  | n + 1, _, [], _, _ => by simp [lookup]
  | n + 1, (d : List (Key × Content Arr n)), key :: gk, idx, col => by
    simp only [lookup, mulContent]
    rw [dget_map (fun _ x => mulContent k n x) d key]
    cases h1 : dget d key with
    | none => simp
    | some x => simp [mul_lookup k n x gk]

theorem mul_shaped (L : Layout) (k : ℚ) : ∀ (n : ℕ) (a : Content Arr n), Shaped L n a → Shaped L n (mulContent k n a)
  | 0, _, ha => ha
  | n + 1, (d : List (Key × Content Arr n)), ha => by
    intro key c hc
    simp only [mulContent] at hc
    rw [dget_map (fun _ x => mulContent k n x) d key] at hc
    cases h1 : dget d key with
    | none => rw [h1] at hc; cases hc
    | some x => rw [h1] at hc; cases hc; exact mul_shaped L k n x (ha _ _ h1)

theorem mul_distinct (k : ℚ) : ∀ (n : ℕ) (a : Content Arr n), Distinct n a → Distinct n (mulContent k n a)
  | 0, _, _ => trivial
  | n + 1, (d : List (Key × Content Arr n)), ha => by
    constructor
    · simp only [mulContent, List.map_map]
      exact ha.1
    · intro p hp
      simp only [mulContent, List.mem_map] at hp
      obtain ⟨q, hq, rfl⟩ := hp
      exact mul_distinct k n q.2 (ha.2 q hq)

end Verif
