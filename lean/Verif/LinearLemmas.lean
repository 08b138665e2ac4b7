import Verif.GroupSelLemmas
import Verif.PropsArith

/-! # Lemmas about derived histograms of sums and multiples (helpers for the property theorems) -/

namespace Verif

/-- every array in the content has this shape and number of columns -/
def Uniform (sh : List ℕ) (nc : ℕ) : (n : ℕ) → Content Arr n → Prop
  | 0, (a : Arr) => a.shape = sh ∧ a.ncols = nc
  | n + 1, (d : List (Key × Content Arr n)) => ∀ p ∈ d, Uniform sh nc n p.2

theorem uniform_of_shaped (L : Layout) : ∀ (n : ℕ) (c : Content Arr n), Distinct n c → Shaped L n c → Uniform L.dims L.ncols n c
  | 0, _, _, h => h
  | n + 1, (d : List (Key × Content Arr n)), hd, h => fun p hp =>
    uniform_of_shaped L n p.2 (hd.2 p hp) (shaped_mem hd h p hp)

theorem addContent_uniform (sh : List ℕ) (nc : ℕ) : ∀ (n : ℕ) (a b : Content Arr n), Uniform sh nc n a → Uniform sh nc n b →
    addContent n a b = .ok (plus n a b)
  | 0, (a : Arr), (b : Arr), ha, hb => by
    show a.add b = _
    unfold Arr.add
    rw [if_pos (by rw [ha.1, hb.1]), if_pos (by rw [ha.2, hb.2])]
    rfl
  | n + 1, (d : List (Key × Content Arr n)), (e : List (Key × Content Arr n)), ha, hb => by
    simp only [addContent]
    rw [addLeft_ok (addContent n) (plus n) e d (fun p hp y hy => addContent_uniform sh nc n p.2 y (ha p hp)
      (hb _ (mem_of_dget e p.1 y hy)))]
    rfl

theorem mapLeaves_uniform (f : Arr → Arr) (sh sh' : List ℕ) (nc nc' : ℕ)
    (hf : ∀ a : Arr, a.shape = sh → a.ncols = nc → (f a).shape = sh' ∧ (f a).ncols = nc') :
    ∀ (n : ℕ) (c : Content Arr n), Uniform sh nc n c → Uniform sh' nc' n (mapLeaves f n c)
  | 0, _, h => hf _ h.1 h.2
  | n + 1, (d : List (Key × Content Arr n)), h => by
    intro p hp
    simp only [mapLeaves, List.mem_map] at hp
    obtain ⟨q, hq, rfl⟩ := hp
    exact mapLeaves_uniform f sh sh' nc nc' hf n q.2 (h q hq)

theorem mapLeaves_plus (f : Arr → Arr) (sh : List ℕ) (nc : ℕ)
    (hf : ∀ a b : Arr, a.shape = sh → b.shape = sh → f (a.plus b) = (f a).plus (f b)) :
    ∀ (n : ℕ) (a b : Content Arr n), Uniform sh nc n a → Uniform sh nc n b →
      mapLeaves f n (plus n a b) = plus n (mapLeaves f n a) (mapLeaves f n b)
  | 0, _, _, ha, hb => hf _ _ ha.1 hb.1
  | n + 1, (d : List (Key × Content Arr n)), (e : List (Key × Content Arr n)), ha, hb => by
    show (mergeWith (plus n) d e).map (fun p => (p.1, mapLeaves f n p.2)) =
      mergeWith (plus n) (d.map (fun p => (p.1, mapLeaves f n p.2))) (e.map (fun p => (p.1, mapLeaves f n p.2)))
    unfold mergeWith addRight
    rw [List.map_append, List.map_map, List.map_map, List.filter_map]
    congr 1
    · refine List.map_congr_left fun p hp => ?_
      simp only [Function.comp, mergeEntry]
      rw [dget_map (fun _ c => mapLeaves f n c) e p.1]
      cases hk : dget e p.1 with
      | none => rfl
      | some y => exact congrArg _ (mapLeaves_plus f sh nc hf n p.2 y (ha p hp) (hb _ (mem_of_dget e p.1 y hk)))
    · congr 1
      refine List.filter_congr fun p _ => ?_
      simp only [Function.comp]
      rw [dget_map (fun _ c => mapLeaves f n c) d p.1, Option.isNone_map]

theorem mapLeaves_mul (f : Arr → Arr) (k : ℚ) (hf : ∀ a : Arr, f (a.scale k) = (f a).scale k) :
    ∀ (n : ℕ) (c : Content Arr n), mapLeaves f n (mulContent k n c) = mulContent k n (mapLeaves f n c)
  | 0, c => hf c
  | n + 1, (d : List (Key × Content Arr n)) => by
    show (d.map (fun p => (p.1, mulContent k n p.2))).map (fun p => (p.1, mapLeaves f n p.2)) =
      (d.map (fun p => (p.1, mapLeaves f n p.2))).map (fun p => (p.1, mulContent k n p.2))
    rw [List.map_map, List.map_map]
    refine List.map_congr_left fun p _ => ?_
    simp only [Function.comp, mapLeaves_mul f k hf n p.2]

/-- a function on arrays that adds up and scales entry by entry -/
structure LinearOp (f : Arr → Arr) : Prop where
  plus : ∀ a b : Arr, a.shape = b.shape → f (a.plus b) = (f a).plus (f b)
  shape : ∀ a b : Arr, a.shape = b.shape → a.ncols = b.ncols → (f a).shape = (f b).shape ∧ (f a).ncols = (f b).ncols
  scale : ∀ (k : ℚ) (a : Arr), f (a.scale k) = (f a).scale k

theorem linear_slice (j : ℕ) (s : PySlice) : LinearOp (Arr.slice j s) where
  plus a b h := by
    unfold Arr.slice Arr.plus
    simp only [h]
  shape a b h hc := by
    unfold Arr.slice
    simp only [h, hc, and_self]
  scale k a := rfl

theorem linear_sliceOut (j : ℕ) (s : PySlice) : LinearOp (Arr.sliceOut j s) where
  plus a b h := by
    unfold Arr.sliceOut Arr.plus
    simp only [h]
  shape a b h hc := by
    unfold Arr.sliceOut
    simp only [h, hc, and_self]
  scale k a := rfl

theorem linear_takeCols (index : List ℕ) : LinearOp (Arr.takeCols index) where
  plus a b h := by
    unfold Arr.takeCols Arr.plus
    simp only [Arr.mk.injEq, true_and]
    funext i c
    cases index[c]? <;> simp
  shape a b h hc := by
    unfold Arr.takeCols
    simp only [h, and_self]
  scale k a := by
    unfold Arr.takeCols Arr.scale
    simp only [Arr.mk.injEq, true_and]
    funext i c
    cases index[c]? <;> simp

theorem linear_rebin (j : ℕ) (ranges : List (ℕ × ℕ)) (numbins : ℕ) : LinearOp (Arr.rebin j ranges numbins) where
  plus a b h := by
    unfold Arr.rebin Arr.plus
    simp only [Arr.mk.injEq, true_and]
    funext i c
    rw [← List.sum_map_add]
  shape a b h hc := by
    unfold Arr.rebin
    simp only [h, hc, and_self]
  scale k a := by
    unfold Arr.rebin Arr.scale
    simp only [Arr.mk.injEq, true_and]
    funext i c
    rw [← List.sum_map_mul_right]

/-- the derived content of a sum -/
theorem LinearOp.add {f : Arr → Arr} (hf : LinearOp f) {H : HistDef} {s t u : H.State} (hs : H.Proper s) (ht : H.Proper t)
    (hu : addState s t = .ok u) :
    addState (s.map (mapLeaves f H.groups.length)) (t.map (mapLeaves f H.groups.length)) = .ok (u.map (mapLeaves f H.groups.length)) := by
  cases s with
  | none =>
    cases t with
    | none => cases hu; rfl
    | some b => cases hu; rfl
  | some a =>
    cases t with
    | none => cases hu; rfl
    | some b =>
      have ua := uniform_of_shaped _ _ _ hs.2 hs.1
      have ub := uniform_of_shaped _ _ _ ht.2 ht.1
      simp only [addState, addContent_uniform _ _ _ _ _ ua ub] at hu
      cases hu
      have ha := fun (x : Arr) (h1 : x.shape = H.layout.dims) (h2 : x.ncols = H.layout.ncols) =>
        hf.shape x (Arr.zeros H.layout.dims H.layout.ncols) h1 h2
      simp only [Option.map_some, addState]
      rw [addContent_uniform _ _ _ _ _ (mapLeaves_uniform f _ _ _ _ ha _ _ ua) (mapLeaves_uniform f _ _ _ _ ha _ _ ub),
        mapLeaves_plus f _ _ (fun x y hx hy => hf.plus x y (by rw [hx, hy])) _ _ _ ua ub]
      rfl

/-- the derived content of a multiple -/
theorem LinearOp.mul {f : Arr → Arr} (hf : LinearOp f) {n : ℕ} (k : ℚ) {s u : Option (Content Arr n)} (hu : mulState k s = .ok u) :
    mulState k (s.map (mapLeaves f n)) = .ok (u.map (mapLeaves f n)) := by
  cases s with
  | none => cases hu
  | some a =>
    cases hu
    simp only [Option.map_some, mulState, mapLeaves_mul f k (hf.scale k)]

/-! ## selections of groups -/

/-- the test answers for every key of group axis `i` -/
def Answers (test : Test) : (i n : ℕ) → Content Arr n → Prop
  | _, 0, _ => True
  | 0, _ + 1, (d : List (Key × Content Arr _)) => ∀ k ∈ d.map (·.1), ∃ b, test k = .ok b
  | i + 1, n + 1, (d : List (Key × Content Arr n)) => ∀ p ∈ d, Answers test i n p.2

/-- the content with the groups that pass the test -/
def keyPassing (test : Test) : (i n : ℕ) → Content Arr n → Content Arr n
  | _, 0, a => a
  | 0, n + 1, (d : List (Key × Content Arr n)) => d.filter (fun p => yes (test p.1))
  | i + 1, n + 1, (d : List (Key × Content Arr n)) => d.map (fun p => (p.1, keyPassing test i n p.2))

theorem filterE_answers {β : Type} (test : Test) : ∀ d : List (Key × β), (∀ p ∈ d, ∃ b, test p.1 = .ok b) →
    filterE test d = .ok (d.filter (fun p => yes (test p.1)))
  | [], _ => rfl
  | (k, x) :: d, h => by
    obtain ⟨b, hb⟩ := h (k, x) (by simp)
    simp only [filterE, filterE_answers test d (fun p hp => h p (by simp [hp])), List.filter_cons]
    simp only at hb
    cases b <;> simp [hb, yes]

theorem mapValsE_all {β γ : Type} (f : β → Except Err γ) (g : β → γ) : ∀ d : List (Key × β), (∀ p ∈ d, f p.2 = .ok (g p.2)) →
    mapValsE f d = .ok (d.map (fun p => (p.1, g p.2)))
  | [], _ => rfl
  | (k, x) :: d, h => by
    simp only [mapValsE, mapValsE_all f g d (fun p hp => h p (by simp [hp])), List.map_cons]
    have := h (k, x) (by simp)
    simp only at this
    simp only [this]

theorem filterGroup_iff (test : Test) : ∀ (i n : ℕ) (c : Content Arr n),
    (Answers test i n c → filterGroup test i n c = .ok (keyPassing test i n c)) ∧
    ∀ c', filterGroup test i n c = .ok c' → Answers test i n c
  | 0, 0, _ => ⟨fun _ => rfl, fun _ _ => trivial⟩
  | _ + 1, 0, _ => ⟨fun _ => rfl, fun _ _ => trivial⟩
  | 0, n + 1, (d : List (Key × Content Arr n)) =>
    ⟨fun h => filterE_answers test d (fun p hp => h _ (List.mem_map_of_mem hp)), fun c' h k hk => by
      obtain ⟨p, hp, rfl⟩ := List.mem_map.1 hk
      exact (filterE_ok test d c' h).2 p hp⟩
  | i + 1, n + 1, (d : List (Key × Content Arr n)) => by
    constructor
    · intro h
      exact mapValsE_all _ _ d (fun p hp => (filterGroup_iff test i n p.2).1 (h p hp))
    · intro c' h p hp
      change List (Key × Content Arr n) at c'
      have := mapValsE_ok _ d c' h
      obtain ⟨q, _, hq⟩ : ∃ q ∈ c', p.1 = q.1 ∧ filterGroup test i n p.2 = .ok q.2 := by
        clear h
        induction this with
        | nil => cases hp
        | cons hxy _ ih =>
          rcases List.mem_cons.1 hp with rfl | hp
          · exact ⟨_, by simp, hxy⟩
          · obtain ⟨q, h1, h2⟩ := ih hp
            exact ⟨q, by simp [h1], h2⟩
      exact (filterGroup_iff test i n p.2).2 _ hq.2

theorem mem_mergeWith {β : Type} (g : β → β → β) (d e : List (Key × β)) (p : Key × β) (h : p ∈ mergeWith g d e) :
    (∃ x, (p.1, x) ∈ d ∧ (p.2 = x ∨ ∃ y, (p.1, y) ∈ e ∧ p.2 = g x y)) ∨ p ∈ e := by
  unfold mergeWith at h
  rcases List.mem_append.1 h with h | h
  · obtain ⟨q, hq, rfl⟩ := List.mem_map.1 h
    refine Or.inl ⟨q.2, hq, ?_⟩
    simp only [mergeEntry]
    cases hk : dget e q.1 with
    | none => exact Or.inl rfl
    | some y => exact Or.inr ⟨y, mem_of_dget e _ _ hk, rfl⟩
  · exact Or.inr (List.mem_filter.1 h).1

theorem answers_plus (test : Test) : ∀ (i n : ℕ) (a b : Content Arr n), Distinct n a → Distinct n b →
    (Answers test i n (plus n a b) ↔ Answers test i n a ∧ Answers test i n b)
  | 0, 0, _, _, _, _ => by simp [Answers]
  | _ + 1, 0, _, _, _, _ => by simp [Answers]
  | 0, n + 1, (d : List (Key × Content Arr n)), (e : List (Key × Content Arr n)), hd, he => by
    have hmem : ∀ k, k ∈ (mergeWith (plus n) d e).map (·.1) ↔ k ∈ d.map (·.1) ∨ k ∈ e.map (·.1) := by
      intro k
      constructor
      · intro hk
        obtain ⟨p, hp, rfl⟩ := List.mem_map.1 hk
        rcases mem_mergeWith (plus n) d e p hp with ⟨x, hx, _⟩ | hp
        · exact Or.inl (List.mem_map.2 ⟨_, hx, rfl⟩)
        · exact Or.inr (List.mem_map_of_mem hp)
      · rintro (hk | hk)
        · obtain ⟨p, hp, rfl⟩ := List.mem_map.1 hk
          exact List.mem_map.2 ⟨(p.1, mergeEntry (plus n) e p.1 p.2), List.mem_append.2 (Or.inl (List.mem_map.2 ⟨p, hp, rfl⟩)), rfl⟩
        · obtain ⟨p, hp, rfl⟩ := List.mem_map.1 hk
          cases hk : dget d p.1 with
          | none =>
            exact List.mem_map.2 ⟨p, List.mem_append.2 (Or.inr (List.mem_filter.2 ⟨hp, by simp [hk]⟩)), rfl⟩
          | some x =>
            exact List.mem_map.2 ⟨(p.1, mergeEntry (plus n) e p.1 x),
              List.mem_append.2 (Or.inl (List.mem_map.2 ⟨(p.1, x), mem_of_dget d _ _ hk, rfl⟩)), rfl⟩
    constructor
    · intro h
      exact ⟨fun k hk => h k ((hmem k).2 (Or.inl hk)), fun k hk => h k ((hmem k).2 (Or.inr hk))⟩
    · rintro ⟨h1, h2⟩ k hk
      exact ((hmem k).1 hk).elim (h1 k) (h2 k)
  | i + 1, n + 1, (d : List (Key × Content Arr n)), (e : List (Key × Content Arr n)), hd, he => by
    constructor
    · intro h
      constructor
      · intro p hp
        have := h (p.1, mergeEntry (plus n) e p.1 p.2) (List.mem_append.2 (Or.inl (List.mem_map.2 ⟨p, hp, rfl⟩)))
        simp only [mergeEntry] at this
        cases hk : dget e p.1 with
        | none => rw [hk] at this; exact this
        | some y =>
          rw [hk] at this
          exact ((answers_plus test i n p.2 y (hd.2 p hp) (he.2 _ (mem_of_dget e _ _ hk))).1 this).1
      · intro p hp
        cases hk : dget d p.1 with
        | none =>
          exact h p (List.mem_append.2 (Or.inr (List.mem_filter.2 ⟨hp, by simp [hk]⟩)))
        | some x =>
          have hx := mem_of_dget d _ _ hk
          have := h (p.1, mergeEntry (plus n) e p.1 x) (List.mem_append.2 (Or.inl (List.mem_map.2 ⟨(p.1, x), hx, rfl⟩)))
          simp only [mergeEntry, dget_of_mem e he.1 p hp] at this
          exact ((answers_plus test i n x p.2 (hd.2 _ hx) (he.2 _ hp)).1 this).2
    · rintro ⟨h1, h2⟩ p hp
      rcases mem_mergeWith (plus n) d e p hp with ⟨x, hx, h | ⟨y, hy, h⟩⟩ | hp
      · rw [h]; exact h1 _ hx
      · rw [h]
        exact (answers_plus test i n x y (hd.2 _ hx) (he.2 _ hy)).2 ⟨h1 _ hx, h2 _ hy⟩
      · exact h2 _ hp

theorem keyPassing_plus (test : Test) : ∀ (i n : ℕ) (a b : Content Arr n),
    keyPassing test i n (plus n a b) = plus n (keyPassing test i n a) (keyPassing test i n b)
  | 0, 0, _, _ => rfl
  | _ + 1, 0, _, _ => rfl
  | 0, n + 1, (d : List (Key × Content Arr n)), (e : List (Key × Content Arr n)) => by
    show (mergeWith (plus n) d e).filter (fun p => yes (test p.1)) =
      mergeWith (plus n) (d.filter (fun p => yes (test p.1))) (e.filter (fun p => yes (test p.1)))
    unfold mergeWith addRight
    rw [List.filter_append, List.filter_map, List.filter_filter, List.filter_filter]
    congr 1
    · refine List.map_congr_left fun p hp => ?_
      have hy : yes (test p.1) = true := (List.mem_filter.1 hp).2
      simp only [mergeEntry]
      rw [dget_filter (fun k => yes (test k)) e p.1, if_pos hy]
    · refine List.filter_congr fun p _ => ?_
      rw [dget_filter (fun k => yes (test k)) d p.1]
      cases yes (test p.1) <;> simp
  | i + 1, n + 1, (d : List (Key × Content Arr n)), (e : List (Key × Content Arr n)) => by
    show (mergeWith (plus n) d e).map (fun p => (p.1, keyPassing test i n p.2)) =
      mergeWith (plus n) (d.map (fun p => (p.1, keyPassing test i n p.2))) (e.map (fun p => (p.1, keyPassing test i n p.2)))
    unfold mergeWith addRight
    rw [List.map_append, List.map_map, List.map_map, List.filter_map]
    congr 1
    · refine List.map_congr_left fun p hp => ?_
      simp only [Function.comp, mergeEntry]
      rw [dget_map (fun _ c => keyPassing test i n c) e p.1]
      cases hk : dget e p.1 with
      | none => rfl
      | some y => exact congrArg _ (keyPassing_plus test i n p.2 y)
    · congr 1
      refine List.filter_congr fun p _ => ?_
      simp only [Function.comp]
      rw [dget_map (fun _ c => keyPassing test i n c) d p.1, Option.isNone_map]

theorem keyPassing_uniform (test : Test) (sh : List ℕ) (nc : ℕ) : ∀ (i n : ℕ) (c : Content Arr n),
    Uniform sh nc n c → Uniform sh nc n (keyPassing test i n c)
  | 0, 0, _, h => h
  | _ + 1, 0, _, h => h
  | 0, n + 1, (d : List (Key × Content Arr n)), h => fun p hp => h p (List.mem_filter.1 hp).1
  | i + 1, n + 1, (d : List (Key × Content Arr n)), h => by
    intro p hp
    obtain ⟨q, hq, rfl⟩ := List.mem_map.1 (show p ∈ d.map (fun p => (p.1, keyPassing test i n p.2)) from hp)
    exact keyPassing_uniform test sh nc i n q.2 (h q hq)

theorem mulContent_answers (test : Test) (k : ℚ) : ∀ (i n : ℕ) (c : Content Arr n),
    Answers test i n (mulContent k n c) ↔ Answers test i n c
  | 0, 0, _ => Iff.rfl
  | _ + 1, 0, _ => Iff.rfl
  | 0, n + 1, (d : List (Key × Content Arr n)) => by
    show (∀ q ∈ (d.map (fun p => (p.1, mulContent k n p.2))).map (·.1), ∃ b, test q = .ok b) ↔ ∀ q ∈ d.map (·.1), ∃ b, test q = .ok b
    rw [List.map_map]
    exact Iff.rfl
  | i + 1, n + 1, (d : List (Key × Content Arr n)) => by
    show (∀ p ∈ d.map (fun p => (p.1, mulContent k n p.2)), _) ↔ _
    simp only [List.mem_map, forall_exists_index, and_imp, forall_apply_eq_imp_iff₂]
    exact forall₂_congr fun p _ => mulContent_answers test k i n p.2

theorem keyPassing_mul (test : Test) (k : ℚ) : ∀ (i n : ℕ) (c : Content Arr n),
    keyPassing test i n (mulContent k n c) = mulContent k n (keyPassing test i n c)
  | 0, 0, _ => rfl
  | _ + 1, 0, _ => rfl
  | 0, n + 1, (d : List (Key × Content Arr n)) => by
    show (d.map (fun p => (p.1, mulContent k n p.2))).filter (fun p => yes (test p.1)) =
      (d.filter (fun p => yes (test p.1))).map (fun p => (p.1, mulContent k n p.2))
    rw [List.filter_map]
    rfl
  | i + 1, n + 1, (d : List (Key × Content Arr n)) => by
    show (d.map (fun p => (p.1, mulContent k n p.2))).map (fun p => (p.1, keyPassing test i n p.2)) =
      (d.map (fun p => (p.1, keyPassing test i n p.2))).map (fun p => (p.1, mulContent k n p.2))
    rw [List.map_map, List.map_map]
    refine List.map_congr_left fun p _ => ?_
    simp only [Function.comp, keyPassing_mul test k i n p.2]

/-! ## projections -/

theorem sum_addRight {β : Type} (m : β → ℚ) : ∀ (d e : List (Key × β)), (d.map (·.1)).Nodup → (e.map (·.1)).Nodup →
    (d.map (fun p => match dget e p.1 with | some y => m y | none => 0)).sum + ((addRight d e).map (fun p => m p.2)).sum =
      (e.map (fun p => m p.2)).sum
  | [], e, _, _ => by
    have : addRight [] e = e := by
      unfold addRight
      rw [List.filter_eq_self]
      intro p _; rfl
    rw [this]; simp
  | (k, x) :: d, e, hd, he => by
    simp only [List.map_cons, List.nodup_cons] at hd
    have ih := sum_addRight m d e hd.2 he
    rw [← ih]
    simp only [List.map_cons, List.sum_cons]
    have hk : dget d k = none := by
      cases h : dget d k with
      | none => rfl
      | some y => exact absurd (List.mem_map.2 ⟨(k, y), mem_of_dget d k y h, rfl⟩) hd.1
    have key : ∀ e : List (Key × β), (e.map (·.1)).Nodup →
        ((addRight d e).map (fun p => m p.2)).sum =
          (match dget e k with | some y => m y | none => 0) + ((addRight ((k, x) :: d) e).map (fun p => m p.2)).sum := by
      intro e he
      induction e with
      | nil => simp [addRight, dget_nil]
      | cons q e ih =>
        obtain ⟨k', y⟩ := q
        simp only [List.map_cons, List.nodup_cons] at he
        have ih := ih he.2
        unfold addRight at ih ⊢
        simp only [List.filter_cons, dget_cons]
        by_cases hkk : k' = k
        · subst hkk
          have hn : dget e k' = none := by
            cases h : dget e k' with
            | none => rfl
            | some z => exact absurd (List.mem_map.2 ⟨(k', z), mem_of_dget e k' z h, rfl⟩) he.1
          rw [hn] at ih
          simp only [zero_add] at ih
          simp only [hk, Option.isNone_none, if_true, List.map_cons, List.sum_cons, Option.isNone_some, Bool.false_eq_true, if_false]
          rw [ih]
          simp only [dget_cons]
        · have hkk' : k ≠ k' := fun h => hkk h.symm
          simp only [hkk, hkk', if_false]
          simp only [dget_cons] at ih
          by_cases hd' : (dget d k').isNone = true
          · simp only [hd', if_true, List.map_cons, List.sum_cons]
            rw [ih]; ring
          · simp only [hd', if_false]
            exact ih
    rw [key e he]
    ring

theorem margin_plus (f : Arr → ℚ) (sh : List ℕ) (nc : ℕ)
    (hf : ∀ a b : Arr, a.shape = sh → b.shape = sh → f (a.plus b) = f a + f b) :
    ∀ (n : ℕ) (kg : List Bool) (a b : Content Arr n) (gk : List Key), Distinct n a → Distinct n b → Uniform sh nc n a → Uniform sh nc n b →
      margin f n kg (plus n a b) gk = margin f n kg a gk + margin f n kg b gk
  | 0, _, _, _, _, _, _, ha, hb => hf _ _ ha.1 hb.1
  | n + 1, kg, (d : List (Key × Content Arr n)), (e : List (Key × Content Arr n)), gk, hda, hdb, ha, hb => by
    by_cases hk : kg.headD true = true
    · cases gk with
      | nil => simp only [margin, hk, if_true, add_zero, zero_mul]
      | cons k gk =>
        simp only [margin, hk, if_true]
        rw [dget_plus]
        cases h1 : dget d k with
        | none => cases h2 : dget e k <;> simp
        | some x =>
          cases h2 : dget e k with
          | none => simp
          | some y =>
            have m1 := mem_of_dget d k x h1
            have m2 := mem_of_dget e k y h2
            exact margin_plus f sh nc hf n kg.tail x y gk (hda.2 _ m1) (hdb.2 _ m2) (ha _ m1) (hb _ m2)
    · simp only [Bool.not_eq_true] at hk
      simp only [margin, hk, Bool.false_eq_true, if_false]
      show ((mergeWith (plus n) d e).map (fun p => margin f n kg.tail p.2 gk)).sum = _
      unfold mergeWith
      rw [List.map_append, List.sum_append, List.map_map, ← sum_addRight (fun c => margin f n kg.tail c gk) d e hda.1 hdb.1, ← add_assoc,
        ← List.sum_map_add]
      congr 2
      refine List.map_congr_left fun p hp => ?_
      simp only [Function.comp, mergeEntry]
      cases h2 : dget e p.1 with
      | none => simp
      | some y =>
        have m2 := mem_of_dget e _ y h2
        exact margin_plus f sh nc hf n kg.tail p.2 y gk (hda.2 _ hp) (hdb.2 _ m2) (ha _ hp) (hb _ m2)

theorem margin_mul (f : Arr → ℚ) (k : ℚ) (hf : ∀ a : Arr, f (a.scale k) = f a * k) :
    ∀ (n : ℕ) (kg : List Bool) (a : Content Arr n) (gk : List Key), margin f n kg (mulContent k n a) gk = margin f n kg a gk * k
  | 0, _, a, _ => hf a
  | n + 1, kg, (d : List (Key × Content Arr n)), gk => by
    by_cases hk : kg.headD true = true
    · cases gk with
      | nil => simp only [margin, hk, if_true, add_zero, zero_mul]
      | cons q gk =>
        simp only [margin, hk, if_true]
        show (match dget (d.map (fun p => (p.1, mulContent k n p.2))) q with
          | none => 0
          | some c => margin f n kg.tail c gk) = _
        rw [dget_map (fun _ c => mulContent k n c) d q]
        cases h1 : dget d q with
        | none => simp
        | some x => exact margin_mul f k hf n kg.tail x gk
    · simp only [Bool.not_eq_true] at hk
      simp only [margin, hk, Bool.false_eq_true, if_false]
      show ((d.map (fun p => (p.1, mulContent k n p.2))).map (fun p => margin f n kg.tail p.2 gk)).sum = _
      rw [List.map_map, ← List.sum_map_mul_right]
      congr 1
      refine List.map_congr_left fun p _ => ?_
      exact margin_mul f k hf n kg.tail p.2 gk

end Verif
