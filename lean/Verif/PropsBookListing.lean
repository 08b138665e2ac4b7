import Verif.BookListing
import Verif.PropsBook

/-!
# C103: listing the entries of a book
-/

namespace Verif

variable {α : Type}

/-! ## Helpers -/

/-- The path as `_iteritems` has it. -/
def pathOf (q : List Str) : Option Str := if q = [] then none else some (joinS q)

theorem joinS_snoc (q : List Str) (n : Str) (h : q ≠ []) : joinS (q ++ [n]) = joinS q ++ '/' :: n := by
  induction q with
  | nil => exact absurd rfl h
  | cons a q ih =>
    cases q with
    | nil => rfl
    | cons b q =>
      show joinS (a :: b :: (q ++ [n])) = _
      rw [joinS, show b :: (q ++ [n]) = (b :: q) ++ [n] from rfl, ih (by simp), joinS]
      simp

theorem childPath_pathOf (q : List Str) (n : Str) : childPath (pathOf q) n = joinS (q ++ [n]) := by
  unfold pathOf
  split
  · rename_i h; subst h; rfl
  · rename_i h; rw [joinS_snoc q n h]; rfl

theorem pathOf_snoc (q : List Str) (n : Str) : pathOf (q ++ [n]) = some (joinS (q ++ [n])) := by
  unfold pathOf
  rw [if_neg (by simp)]

mutual
theorem iteritems_all_BL : ∀ (l : BL α) (q : List Str),
    l.iteritems true false (pathOf q) = (l.all q).map fun p => (joinS p.1, p.2)
  | .nil, q => rfl
  | .cons n x r, q => by
    rw [BL.iteritems, BL.all, childPath_pathOf, iteritems_all_BL r q, ← pathOf_snoc, iteritems_all_BT x (q ++ [n])]
    simp
theorem iteritems_all_BT : ∀ (x : BT α) (q : List Str),
    x.iteritems true false (pathOf q) = (x.all q).map fun p => (joinS p.1, p.2)
  | .hist _, q => rfl
  | .book _ _ c, q => iteritems_all_BL c q
end

mutual
theorem iteritems_onlyhist_BL : ∀ (l : BL α) (r : Bool) (path : Option Str),
    l.iteritems r true path = (l.iteritems r false path).filter fun p => p.2.hist?.isSome
  | .nil, _, _ => rfl
  | .cons n x l, r, path => by
    rw [BL.iteritems, BL.iteritems, iteritems_onlyhist_BL l r path, iteritems_onlyhist_BT x r]
    cases r <;> cases hx : x.hist? <;> simp [List.filter_cons, hx]
theorem iteritems_onlyhist_BT : ∀ (x : BT α) (r : Bool) (path : Option Str),
    x.iteritems r true path = (x.iteritems r false path).filter fun p => p.2.hist?.isSome
  | .hist _, _, _ => rfl
  | .book _ _ c, r, path => iteritems_onlyhist_BL c r path
end

theorem iteritems_flat : ∀ (l : BL α), l.iteritems false false none = l.items
  | .nil => rfl
  | .cons n x l => by
    rw [BL.iteritems, BL.items, iteritems_flat l]
    rfl

theorem mem_items_find : ∀ (l : BL α), l.keys.Nodup → ∀ n x, (n, x) ∈ l.items ↔ l.find n = some x
  | .nil, _, n, x => by simp [BL.items, BL.find]
  | .cons m y l, h, n, x => by
    rw [BL.keys, List.nodup_cons] at h
    have ih := mem_items_find l h.2 n x
    rw [BL.items, BL.find, List.mem_cons, ih]
    by_cases hm : m = n
    · subst hm
      rw [if_pos rfl]
      constructor
      · rintro (h1 | h1)
        · simp only [Prod.mk.injEq, true_and] at h1; rw [h1]
        · have h2 := (mem_items_find l h.2 m x).2 h1
          exfalso
          have : m ∈ l.keys := by
            clear ih h h1
            induction l using BL.rec (motive_1 := fun _ => True) with
            | hist _ => trivial
            | book _ _ _ _ => trivial
            | nil => simp [BL.items] at h2
            | cons a b c _ ihc =>
              simp only [BL.items, List.mem_cons, Prod.mk.injEq] at h2
              rw [BL.keys, List.mem_cons]
              exact h2.imp (fun h => h.1) ihc
          exact h.1 this
      · intro h1
        cases h1
        exact Or.inl rfl
    · rw [if_neg hm]
      constructor
      · rintro (h1 | h1)
        · simp only [Prod.mk.injEq] at h1
          exact absurd h1.1.symm hm
        · exact h1
      · exact Or.inr

theorem comps_of_noslash : ∀ (s : Str), '/' ∉ s → comps s = [s]
  | [], _ => rfl
  | c :: s, h => by
    simp only [List.mem_cons, not_or] at h
    rw [comps, if_neg (Ne.symm h.1), comps_of_noslash s h.2]

theorem keys_noslash : ∀ (l : BL α), l.WF → ∀ n x, l.find n = some x → '/' ∉ n
  | .nil, _, n, x, h => by simp [BL.find] at h
  | .cons m y l, hw, n, x, h => by
    obtain ⟨h1, _, h3⟩ : '/' ∉ m ∧ y.WF ∧ l.WF := hw
    rw [BL.find] at h
    by_cases hm : m = n
    · exact hm ▸ h1
    · rw [if_neg hm] at h
      exact keys_noslash l h3 n x h

theorem iteritems_false_path : ∀ (l : BL α), (l.iteritems false false none).map (·.1) = l.keys
  | .nil => rfl
  | .cons n x l => by
    rw [BL.iteritems, BL.keys, ← iteritems_false_path l]
    rfl

/-! ## Theorems -/

/-- The histogram is what is listed. -/
def IsHist (x : BT α) : Prop := ∃ h, x = .hist h

theorem isHist_iff (x : BT α) : x.hist?.isSome = true ↔ IsHist x := by
  cases x <;> simp [BT.hist?, IsHist]

/-- **C103**: for all options, a listing of a book has exactly the entries that are reached by their paths:
histograms and books, or with `onlyhist=True` only histograms; of all levels, or with `recursive=False` only of the
first level, whose paths have no slash.  No path is listed twice. -/
theorem C103_listing {b : BT α} (h : b.WF) (hb : b.isBook) (r o : Bool) :
    (b.keys ⟨some r, some o⟩).Nodup ∧
    ∀ name x, (name, x) ∈ b.items ⟨some r, some o⟩ ↔
      b.at (comps name) = some x ∧ (r = true ∨ '/' ∉ name) ∧ (o = true → IsHist x) := by
  have hfilter : b.items ⟨some r, some true⟩ = (b.items ⟨some r, some false⟩).filter fun p => p.2.hist?.isSome :=
    iteritems_onlyhist_BT b r none
  suffices hs : (b.keys ⟨some r, some false⟩).Nodup ∧ ∀ name x, (name, x) ∈ b.items ⟨some r, some false⟩ ↔
      b.at (comps name) = some x ∧ (r = true ∨ '/' ∉ name) by
    cases o with
    | false => exact ⟨hs.1, fun name x => by rw [hs.2]; simp⟩
    | true =>
      refine ⟨?_, fun name x => ?_⟩
      · unfold BT.keys
        rw [hfilter]
        exact hs.1.sublist (List.filter_sublist.map _)
      · rw [hfilter, List.mem_filter, hs.2, isHist_iff]
        simp [and_assoc]
  cases b with
  | hist k => exact absurd hb id
  | book c f l =>
    cases r with
    | true =>
      have e : (BT.book c f l).items ⟨some true, some false⟩ = l.allitems := iteritems_all_BL l []
      have hl := C57_listing h hb
      refine ⟨?_, fun name x => ?_⟩
      · unfold BT.keys; rw [e]; exact hl.1
      · rw [e]
        have := hl.2 name x
        simp only [BT.content] at this
        simpa using this
    | false =>
      have e : (BT.book c f l).items ⟨some false, some false⟩ = l.items := iteritems_flat l
      refine ⟨?_, fun name x => ?_⟩
      · show ((l.iteritems false false none).map (·.1)).Nodup
        rw [iteritems_false_path]; exact h.1
      · rw [e, mem_items_find l h.1]
        constructor
        · intro hf
          have hn := keys_noslash l h.2 name x hf
          refine ⟨?_, Or.inr hn⟩
          rw [comps_of_noslash name hn]
          simp [BT.at, hf]
        · rintro ⟨ha, hn⟩
          have hn : '/' ∉ name := by simpa using hn
          rw [comps_of_noslash name hn] at ha
          simpa [BT.at] using ha

/-- **C103**: the options only leave out: the listing with `onlyhist=True` is the listing without, in the same order,
less the books; the listing with `recursive=False` is part of that with `recursive=True`, in the same order. -/
theorem C103_options (b : BT α) (hb : b.isBook) (r o : Bool) :
    b.items ⟨some r, some true⟩ = (b.items ⟨some r, some false⟩).filter (fun p => p.2.hist?.isSome) ∧
    (b.items ⟨some false, some o⟩).Sublist (b.items ⟨some true, some o⟩) := by
  refine ⟨iteritems_onlyhist_BT b r none, ?_⟩
  cases b with
  | hist k => exact absurd hb id
  | book c f l =>
    show (l.iteritems false o none).Sublist (l.iteritems true o none)
    clear hb
    induction l using BL.rec (motive_1 := fun _ => True) with
    | hist _ => trivial
    | book _ _ _ _ => trivial
    | nil => exact List.Sublist.refl _
    | cons n x l _ ih =>
      rw [BL.iteritems, BL.iteritems]
      simp only [Bool.false_eq_true, if_false, if_true, List.append_nil]
      exact ((List.sublist_append_left _ _).append ih)

mutual
theorem parent_before_BL : ∀ (l : BL α) (q p : List Str) (n : Str) (x : BT α), p ≠ q →
    (p ++ [n], x) ∈ l.all q → ∃ before c f y after, l.all q = before ++ (p, BT.book c f y) :: after ∧
      (p ++ [n], x) ∈ after
  | .nil, q, p, n, x, _, h => by simp [BL.all] at h
  | .cons m y l, q, p, n, x, hp, h => by
    rw [BL.all] at h
    simp only [List.cons_append, List.mem_cons, List.mem_append, Prod.mk.injEq] at h
    rcases h with ⟨h1, _⟩ | h | h
    · exact absurd (List.append_inj' h1 rfl).1 hp
    · by_cases hpq : p = q ++ [m]
      · cases y with
        | hist k => simp [BT.all] at h
        | book c f y =>
          refine ⟨[], c, f, y, (BT.book c f y).all (q ++ [m]) ++ l.all q, ?_, ?_⟩
          · rw [BL.all, hpq]; rfl
          · exact List.mem_append.2 (Or.inl h)
      · obtain ⟨b, c, f, z, a, e1, e2⟩ := parent_before_BT y (q ++ [m]) p n x hpq h
        refine ⟨(q ++ [m], y) :: b, c, f, z, a ++ l.all q, ?_, List.mem_append.2 (Or.inl e2)⟩
        rw [BL.all, e1]; simp
    · obtain ⟨b, c, f, z, a, e1, e2⟩ := parent_before_BL l q p n x hp h
      refine ⟨(q ++ [m], y) :: y.all (q ++ [m]) ++ b, c, f, z, a, ?_, e2⟩
      rw [BL.all, e1]; simp
theorem parent_before_BT : ∀ (b : BT α) (q p : List Str) (n : Str) (x : BT α), p ≠ q →
    (p ++ [n], x) ∈ b.all q → ∃ before c f y after, b.all q = before ++ (p, BT.book c f y) :: after ∧
      (p ++ [n], x) ∈ after
  | .hist _, _, _, _, _, _, h => by simp [BT.all] at h
  | .book _ _ c, q, p, n, x, hp, h => parent_before_BL c q p n x hp h
end

/-- **C103**: in a recursive listing each book comes before its entries. -/
theorem C103_books_first {b : BT α} (h : b.WF) (hb : b.isBook) (path n : Str) (hn : '/' ∉ n) (x : BT α)
    (hx : (path ++ '/' :: n, x) ∈ b.items ⟨some true, some false⟩) :
    ∃ before c f l after, b.items ⟨some true, some false⟩ = before ++ (path, BT.book c f l) :: after ∧
      (path ++ '/' :: n, x) ∈ after := by
  have e : b.items ⟨some true, some false⟩ = (b.all []).map fun p => (joinS p.1, p.2) := iteritems_all_BT b []
  have hj : joinS (comps path ++ [n]) = path ++ '/' :: n := by
    rw [joinS_snoc _ _ (comps_ne_nil path), joinS_comps]
  have hmem : (comps path ++ [n], x) ∈ b.all [] := by
    have h1 := ((C103_listing h hb true false).2 _ _).1 hx
    have hc : comps (path ++ '/' :: n) = comps path ++ [n] := by
      rw [← hj, comps_joinS (by simp)]
      intro m hm
      rcases List.mem_append.1 hm with hm | hm
      · exact comps_noslash path m hm
      · simp at hm; exact hm ▸ hn
    rw [hc] at h1
    exact (mem_all_BT b [] (comps path ++ [n]) x h).mpr ⟨comps path ++ [n], by simp, rfl, h1.1⟩
  obtain ⟨before, c, f, l, after, h1, h2⟩ := parent_before_BT b [] (comps path) n x (comps_ne_nil path) hmem
  refine ⟨before.map fun p => (joinS p.1, p.2), c, f, l, after.map fun p => (joinS p.1, p.2), ?_, ?_⟩
  · rw [e, h1, List.map_append, List.map_cons, joinS_comps]
  · rw [← hj]
    exact List.mem_map.2 ⟨_, h2, rfl⟩

/-- **C103**: the other methods are these listings: `allitems`, `allkeys` and `allvalues` are recursive; `keys` and
`values` are the parts of `items`; without `onlyhist` books are listed too. -/
theorem C103_methods (b : BT α) (o : ListOpts) (oh : Option Bool) :
    (b.keys o).zip (b.values o) = b.items o ∧
    b.allitems oh = b.items ⟨some true, some (oh.getD false)⟩ ∧
    (b.allkeys oh).zip (b.allvalues oh) = b.allitems oh ∧
    b.items ⟨o.recursive, none⟩ = b.items ⟨o.recursive, some false⟩ := by
  have hz : ∀ l : List (Str × BT α), (l.map (·.1)).zip (l.map (·.2)) = l := by
    intro l
    rw [List.zip_map']
    simp
  exact ⟨hz _, rfl, hz _, rfl⟩

/-- The documentation of all six methods says that they descend into books unless told otherwise; they do not. -/
theorem C103_default_refuted : ¬ ∀ b : BT ℕ, b.WF → b.items {} = b.items { recursive := some true } := by
  intro h
  have := congrArg (List.map Prod.fst) (h demoBook demoBook_wf)
  exact absurd this (by decide +kernel)

example : demoBook.keys ⟨some true, some false⟩ = [nm "x", nm "a", nm "a/p", nm "a/q"] ∧
    demoBook.keys ⟨some true, some true⟩ = [nm "x", nm "a/p", nm "a/q"] ∧
    demoBook.keys ⟨some false, some false⟩ = [nm "x", nm "a"] ∧
    demoBook.keys ⟨some false, some true⟩ = [nm "x"] := by decide +kernel

example : demoBook.WF ∧ demoBook.isBook := ⟨demoBook_wf, trivial⟩

end Verif
