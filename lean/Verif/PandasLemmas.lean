import Verif.Export
import Verif.PropsTableNorm
import Mathlib.Data.List.Nodup

/-!
# Lemmas about the pandas export
-/

namespace Verif

/-! ## labels of fixed axes -/

/-- The label of a published bin. -/
def BinLabel.plabel : BinLabel → PLabel
  | .iv lo hi cl ch => .iv lo hi (if hi = .pinf then cl else !ch)
  | .nan => .nan
  | .int i => .int i
  | .bool b => .bool b

theorem lastThis_range (left : Bool) (n : ℕ) : ∀ f : ℕ → ℚ,
    lastThis left (f 0) ((List.range n).map fun i => f (i + 1)) =
      (List.range n).map fun i => .iv (.fin (f i)) (.fin (f (i + 1))) left := by
  induction n with
  | zero => intro f; rfl
  | succ n ih =>
    intro f
    rw [List.range_succ_eq_map, List.map_cons, List.map_cons, List.map_map, List.map_map]
    show _ :: lastThis left (f 1) _ = _
    congr 1
    exact ih fun i => f (i + 1)

theorem lastThis_zip (left : Bool) : ∀ (e : ℚ) (l : List ℚ),
    lastThis left e l = ((e :: l).dropLast.zip l).map fun p => .iv (.fin p.1) (.fin p.2) left
  | _, [] => rfl
  | e, t :: l => by
    show _ :: lastThis left t l = _
    rw [lastThis_zip left t l]
    rfl

theorem plabels_keys : ∀ a : FixedAxis, a.plabels = a.keys.map BinLabel.plabel
  | .bin a => by
    have h := lastThis_range a.closedlow a.numbins a.i2x
    have h0 : a.i2x 0 = a.low := by simp [BinAxis.i2x]
    rw [h0] at h
    have h' : lastThis a.closedlow a.low ((List.range a.numbins).map fun i => ((i + 1 : ℕ) : ℚ) / (a.numbins : ℚ) * (a.high - a.low) + a.low) =
        (List.range a.numbins).map fun i => .iv (.fin (a.i2x i)) (.fin (a.i2x (i + 1))) a.closedlow := h
    simp only [FixedAxis.plabels, FixedAxis.keys, BinAxis.keys, h']
    cases a.underflow <;> cases a.overflow <;> cases a.nanflow <;> simp [BinLabel.plabel]
  | .split a => by
    simp only [FixedAxis.plabels, FixedAxis.keys, SplitAxis.keys]
    have h : lastThis a.closedlow (a.edges.headD 0) a.edges.tail =
        (List.zip a.edges.dropLast a.edges.tail).map fun p => .iv (.fin p.1) (.fin p.2) a.closedlow := by
      cases he : a.edges with
      | nil => rfl
      | cons e l => exact lastThis_zip _ e l
    rw [h]
    cases a.underflow <;> cases a.overflow <;> cases a.nanflow <;> simp [BinLabel.plabel]
  | .intbin a => by
    simp only [FixedAxis.plabels, FixedAxis.keys, IntbinAxis.keys, IntbinAxis.numbins]
    rw [show a.max + 1 - a.min = a.max - a.min + 1 by ring]
    cases a.underflow <;> cases a.overflow <;> simp [BinLabel.plabel]
  | .cut => rfl

/-- The labels of a bin on each axis. -/
def labelsAt (fs : List FixedAxis) (idx : List ℕ) : List PLabel := List.zipWith (fun a i => a.plabels.getD i .nan) fs idx

theorem flatMap_range {α β : Type} (l : List α) (d : α) (f : α → List β) :
    l.flatMap f = (List.range l.length).flatMap fun i => f (l.getD i d) := by
  induction l with
  | nil => rfl
  | cons x l ih =>
    rw [List.flatMap_cons, List.length_cons, List.range_succ_eq_map, List.flatMap_cons, List.flatMap_map, ih]
    rfl

theorem indexFixed_cells : ∀ (fs : List FixedAxis) (key : List PLabel), (∀ a ∈ fs, a.plabels.length = a.totbins) →
    indexFixed fs key = (tableCells (fs.map FixedAxis.totbins)).map fun idx => key ++ labelsAt fs idx
  | [], key, _ => by simp [indexFixed, tableCells, expand, labelsAt]
  | a :: fs, key, h => by
    rw [tableCells_eq, indexFixed, flatMap_range _ .nan, h a (by simp)]
    show _ = List.map _ ((List.range a.totbins).flatMap fun i => (allCells (fs.map FixedAxis.totbins)).map (i :: ·))
    rw [List.map_flatMap]
    congr 1
    funext i
    rw [indexFixed_cells fs _ (fun b hb => h b (by simp [hb])), tableCells_eq, List.map_map]
    refine List.map_congr_left fun idx _ => ?_
    simp [labelsAt]

/-! ## groups -/

/-- Specification: the key is strictly below another one, as values.  Numbers are ordered by size between the two infinities, texts
alphabetically; a number and a text are not ordered. -/
def Key.below : Key → Key → Prop
  | .num a, .num b => a < b
  | .ninf, .num _ => True
  | .ninf, .pinf => True
  | .num _, .pinf => True
  | .str a, .str b => a < b
  | _, _ => False

theorem Key.below_of_leq (a b : Key) (h : a.leq b = true) (hne : a ≠ b) : a.below b := by
  cases a <;> cases b <;> simp_all [Key.leq, Key.below]
  · exact lt_of_le_of_ne h hne
  · by_contra hc
    exact hne (String.le_antisymm h (String.not_lt.1 hc))

theorem sortKeys_ok {ks : List Key} (h : (∀ k ∈ ks, k.isStr = true) ∨ ∀ k ∈ ks, k.isStr = false) :
    sortKeys ks = .ok (ks.insertionSort fun a b => a.leq b = true) := by
  unfold sortKeys
  rw [if_pos]
  rcases h with h | h
  · simp only [Bool.or_eq_true, List.all_eq_true]
    exact Or.inl h
  · simp only [Bool.or_eq_true, List.all_eq_true, Bool.not_eq_true']
    exact Or.inr h

/-- The dicts of a table have no key twice, and keys that can be sorted. -/
def TGood : (n : ℕ) → Content Table n → Prop
  | 0, _ => True
  | n + 1, (d : List (Key × Content Table n)) =>
    (d.map (·.1)).Nodup ∧ ((∀ k ∈ d.map (·.1), k.isStr = true) ∨ ∀ k ∈ d.map (·.1), k.isStr = false) ∧
      ∀ k c, dget d k = some c → TGood n c

/-- The groups of a table in the order of the export. -/
def gcells : (n : ℕ) → Content Table n → List (List Key × Table)
  | 0, (t : Table) => [([], t)]
  | n + 1, (d : List (Key × Content Table n)) =>
    ((d.map (·.1)).insertionSort fun a b => a.leq b = true).flatMap fun k =>
      match dget d k with
      | none => []
      | some c => (gcells n c).map fun p => (k :: p.1, p.2)

theorem gcells_succ (n : ℕ) (d : List (Key × Content Table n)) : gcells (n + 1) d =
    ((d.map (·.1)).insertionSort fun a b => a.leq b = true).flatMap fun k =>
      match dget d k with
      | none => []
      | some c => (gcells n c).map fun p => (k :: p.1, p.2) := rfl

theorem indexGroups_nil (fs : List FixedAxis) (m : ℕ) (t : Table) (key : List PLabel) : indexGroups fs m [] t key =
    .ok (indexFixed fs key, if fs ≠ [] ∨ m = 0 then (tableCells (fs.map FixedAxis.totbins)).map t else []) := rfl

theorem indexGroups_cons (fs : List FixedAxis) (m : ℕ) (g : GroupAxis) (gs : List GroupAxis) (d : List (Key × Content Table gs.length))
    (key : List PLabel) : indexGroups fs m (g :: gs) d key =
    match sortKeys (d.map (·.1)) with
    | .error e => .error e
    | .ok ks => indexLoop (fun k =>
        match dget d k with
        | none => .error .keyError
        | some c => indexGroups fs m gs c (key ++ [g.plabel k])) ks := rfl

theorem indexLoop_ok {α β : Type} (f : α → Except Err (List β × List (List (Option ℚ)))) (A : α → List β)
    (B : α → List (List (Option ℚ))) : ∀ (l : List α), (∀ x ∈ l, f x = .ok (A x, B x)) →
    indexLoop f l = .ok (l.flatMap A, l.flatMap B)
  | [], _ => rfl
  | x :: l, h => by
    unfold indexLoop
    rw [h x (by simp), indexLoop_ok f A B l (fun y hy => h y (by simp [hy]))]
    rfl

theorem mem_keys_dget {β : Type} {d : List (Key × β)} {k : Key} (h : k ∈ d.map (·.1)) : ∃ c, dget d k = some c := by
  obtain ⟨p, hp, rfl⟩ := List.mem_map.1 h
  exact Option.isSome_iff_exists.1 (dget_isSome_of_mem d p hp)

theorem dget_mem_keys {β : Type} {d : List (Key × β)} {k : Key} {c : β} (h : dget d k = some c) : k ∈ d.map (·.1) := by
  unfold dget at h
  obtain ⟨p, hp, _⟩ := Option.map_eq_some_iff.1 h
  have h1 := List.find?_some hp
  have h2 := List.mem_of_find?_eq_some hp
  simp only [decide_eq_true_eq] at h1
  exact List.mem_map.2 ⟨p, h2, h1⟩

theorem indexGroups_ok' (fs : List FixedAxis) (m : ℕ) (hm : fs ≠ [] ∨ m = 0) : ∀ (gs : List GroupAxis) (t : Content Table gs.length)
    (key : List PLabel), TGood gs.length t →
    indexGroups fs m gs t key =
      .ok ((gcells gs.length t).flatMap (fun c => indexFixed fs (key ++ List.zipWith GroupAxis.plabel gs c.1)),
        (gcells gs.length t).flatMap fun c => (tableCells (fs.map FixedAxis.totbins)).map c.2)
  | [], (t : Table), key, _ => by
    rw [indexGroups_nil, if_pos hm]
    simp [gcells]
  | g :: gs, (d : List (Key × Content Table gs.length)), key, h => by
    obtain ⟨_, h2, h3⟩ := h
    have hloop : ∀ k ∈ (d.map (·.1)).insertionSort (fun a b => a.leq b = true),
        (match dget d k with
          | none => Except.error Err.keyError
          | some c => indexGroups fs m gs c (key ++ [g.plabel k])) =
        .ok ((match dget d k with
          | none => []
          | some c => (gcells gs.length c).flatMap fun c => indexFixed fs (key ++ [g.plabel k] ++ List.zipWith GroupAxis.plabel gs c.1)),
          (match dget d k with
          | none => []
          | some c => (gcells gs.length c).flatMap fun c => (tableCells (fs.map FixedAxis.totbins)).map c.2)) := by
      intro k hk
      obtain ⟨c, hc⟩ := mem_keys_dget ((List.perm_insertionSort _ _).mem_iff.1 hk)
      rw [hc]
      exact indexGroups_ok' fs m hm gs c _ (h3 k c hc)
    rw [indexGroups_cons, sortKeys_ok h2]
    simp only
    rw [indexLoop_ok _ _ _ _ hloop]
    have e : ∀ {γ : Type} (F : List Key × Table → List γ), (gcells (gs.length + 1) d).flatMap F =
        ((d.map (·.1)).insertionSort fun a b => a.leq b = true).flatMap fun k =>
          match dget d k with
          | none => []
          | some c => (gcells gs.length c).flatMap fun p => F (k :: p.1, p.2) := by
      intro γ F
      rw [gcells_succ, List.flatMap_assoc]
      congr 1
      funext k
      cases dget d k with
      | none => rfl
      | some c => simp only [List.flatMap_map]
    show _ = Except.ok ((gcells (gs.length + 1) d).flatMap _, (gcells (gs.length + 1) d).flatMap _)
    rw [e, e]
    simp

theorem indexGroups_ok (fs : List FixedAxis) (gs : List GroupAxis) (t : Content Table gs.length) (key : List PLabel) (h : TGood gs.length t) :
    indexGroups fs fs.length gs t key =
      .ok ((gcells gs.length t).flatMap (fun c => indexFixed fs (key ++ List.zipWith GroupAxis.plabel gs c.1)),
        (gcells gs.length t).flatMap fun c => (tableCells (fs.map FixedAxis.totbins)).map c.2) := by
  refine indexGroups_ok' fs _ ?_ gs t key h
  cases fs with
  | nil => exact Or.inr rfl
  | cons a fs => exact Or.inl (by simp)

theorem gcells_nodup : ∀ (n : ℕ) (t : Content Table n), TGood n t → ((gcells n t).map (·.1)).Nodup
  | 0, (t : Table), _ => by simp [gcells]
  | n + 1, (d : List (Key × Content Table n)), h => by
    obtain ⟨h1, _, h3⟩ := h
    rw [gcells_succ, List.map_flatMap]
    rw [List.nodup_flatMap]
    constructor
    · intro k _
      cases hc : dget d k with
      | none => simp
      | some c =>
        simp only [List.map_map]
        have := gcells_nodup n c (h3 k c hc)
        have e : ((fun p : List Key × Table => p.1) ∘ fun p : List Key × Table => (k :: p.1, p.2)) = (fun l => k :: l) ∘ (·.1) := rfl
        rw [e, ← List.map_map]
        exact this.map (List.cons_injective)
    · have hn : ((d.map (·.1)).insertionSort fun a b => a.leq b = true).Nodup :=
        (List.perm_insertionSort _ _).nodup_iff.2 h1
      refine List.Pairwise.imp ?_ hn
      intro k k' hne
      rw [Function.onFun, List.disjoint_left]
      intro x hx hx'
      apply hne
      have hd : ∀ k x, x ∈ List.map (·.1) (match dget d k with
          | none => []
          | some c => (gcells n c).map fun p => (k :: p.1, p.2)) → x.head? = some k := by
        intro k x hx
        cases hc : dget d k with
        | none => rw [hc] at hx; simp at hx
        | some c =>
          rw [hc] at hx
          simp only [List.map_map, List.mem_map] at hx
          obtain ⟨p, _, rfl⟩ := hx
          rfl
      have := (hd k x hx).symm.trans (hd k' x hx')
      exact Option.some.inj this

theorem tlookup_cons (n : ℕ) (d : List (Key × Content Table n)) (k : Key) (gk : List Key) : tlookup (n + 1) d (k :: gk) =
    match dget d k with
    | none => none
    | some c => tlookup n c gk := rfl

theorem mem_gcells : ∀ (n : ℕ) (t : Content Table n) (gk : List Key) (tab : Table),
    (gk, tab) ∈ gcells n t ↔ gk.length = n ∧ tlookup n t gk = some tab
  | 0, (t : Table), gk, tab => by
    simp only [gcells, List.mem_singleton, Prod.mk.injEq, tlookup, Option.some.injEq, List.length_eq_zero_iff]
    constructor
    · rintro ⟨rfl, rfl⟩; exact ⟨rfl, rfl⟩
    · rintro ⟨rfl, rfl⟩; exact ⟨rfl, rfl⟩
  | n + 1, (d : List (Key × Content Table n)), gk, tab => by
    rw [gcells_succ, List.mem_flatMap]
    constructor
    · rintro ⟨k, _, hm⟩
      cases hc : dget d k with
      | none => rw [hc] at hm; simp at hm
      | some c =>
        rw [hc] at hm
        obtain ⟨p, hp, he⟩ := List.mem_map.1 hm
        cases he
        obtain ⟨h1, h2⟩ := (mem_gcells n c p.1 p.2).1 hp
        refine ⟨by simp [h1], ?_⟩
        rw [tlookup_cons, hc]
        exact h2
    · rintro ⟨hl, ht⟩
      cases gk with
      | nil => simp at hl
      | cons k gk =>
        rw [tlookup_cons] at ht
        cases hc : dget d k with
        | none => rw [hc] at ht; simp at ht
        | some c =>
          rw [hc] at ht
          refine ⟨k, (List.perm_insertionSort _ _).mem_iff.2 (dget_mem_keys hc), ?_⟩
          rw [hc]
          exact List.mem_map.2 ⟨(gk, tab), (mem_gcells n c gk tab).2 ⟨by simpa using hl, ht⟩, rfl⟩

/-- Tables of contents whose keys can be sorted. -/
theorem handle_good (f : Arr → Table) : ∀ (n : ℕ) (c : Content Arr n), Distinct n c →
    (∀ i : ℕ, (∀ (gk : List Key) (k : Key), HasGroup n c gk → gk[i]? = some k → k.isStr = true) ∨ ∀ (gk : List Key) (k : Key), HasGroup n c gk → gk[i]? = some k → k.isStr = false) →
    TGood n (handle f n c)
  | 0, _, _, _ => trivial
  | n + 1, (d : List (Key × Content Arr n)), hd, hs => by
    obtain ⟨h1, h2⟩ := hd
    have hkeys : (d.map (fun p => (p.1, handle f n p.2))).map (·.1) = d.map (·.1) := by simp [Function.comp_def]
    have hone : ∀ k ∈ d.map (·.1), HasGroup (n + 1) d [k] := by
      intro k hk
      obtain ⟨c, hc⟩ := mem_keys_dget hk
      exact ⟨c, hc, hasGroup_nil _ _⟩
    refine ⟨by show (List.map (fun x => x.1) (d.map (fun p => (p.1, handle f n p.2)))).Nodup; rw [hkeys]; exact h1, ?_, ?_⟩
    · show (∀ k ∈ List.map (fun x => x.1) (d.map (fun p => (p.1, handle f n p.2))), _) ∨ ∀ k ∈ List.map (fun x => x.1) (d.map (fun p => (p.1, handle f n p.2))), _
      rw [hkeys]
      exact (hs 0).imp (fun h k hk => h [k] k (hone k hk) rfl) (fun h k hk => h [k] k (hone k hk) rfl)
    · intro k c hc
      have hc' : dget (d.map (fun p => (p.1, handle f n p.2))) k = some c := hc
      rw [dget_map (fun _ c => handle f n c) d k] at hc'
      obtain ⟨c0, hc0, rfl⟩ := Option.map_eq_some_iff.1 hc'
      have hm : ∃ p ∈ d, p.2 = c0 := by
        unfold dget at hc0
        obtain ⟨p, hp, e⟩ := Option.map_eq_some_iff.1 hc0
        exact ⟨p, List.mem_of_find?_eq_some hp, e⟩
      obtain ⟨p, hp, rfl⟩ := hm
      refine handle_good f n p.2 (h2 p hp) fun i => ?_
      exact (hs (i + 1)).imp (fun h gk k' hg hk => h (k :: gk) k' ⟨_, hc0, hg⟩ (by simpa using hk))
        (fun h gk k' hg hk => h (k :: gk) k' ⟨_, hc0, hg⟩ (by simpa using hk))

end Verif
