import Verif.BookCompat
import Verif.PropsBook
import Mathlib.Data.List.Pairwise

/-!
# Properties of compatible books (C63)
-/

namespace Verif

variable {α : Type}

/-! ## Specification -/

/-- What two books have at the same path: nothing, histograms that are related, or books of related classes. -/
def AlikeAt (R : α → α → Prop) (S : BClass → BClass → Prop) : Option (BT α) → Option (BT α) → Prop
  | none, none => True
  | some (.hist h), some (.hist k) => R h k
  | some (.book c _ _), some (.book d _ _) => S c d
  | _, _ => False

/-- Two books have the same paths, and at each of them related histograms or books. -/
def Alike (R : α → α → Prop) (S : BClass → BClass → Prop) (a b : BT α) : Prop :=
  ∀ q : List Str, AlikeAt R S (a.at q) (b.at q)

mutual
/-- No name has wildcards. -/
def BT.noGlob : BT α → Prop
  | .hist _ => True
  | .book _ _ c => c.noGlob
/-- The same for the entries. -/
def BL.noGlob : BL α → Prop
  | .nil => True
  | .cons n x r => isGlob n = false ∧ x.noGlob ∧ r.noGlob
end

theorem AlikeAt.symm {R : α → α → Prop} {S : BClass → BClass → Prop} (hR : ∀ x y, R x y → R y x)
    (hS : ∀ x y, S x y → S y x) {x y : Option (BT α)} (h : AlikeAt R S x y) : AlikeAt R S y x := by
  rcases x with _ | (_ | _) <;> rcases y with _ | (_ | _) <;> simp_all [AlikeAt]

theorem AlikeAt.trans {R : α → α → Prop} {S : BClass → BClass → Prop} (hR : ∀ x y z, R x y → R y z → R x z)
    (hS : ∀ x y z, S x y → S y z → S x z) {x y z : Option (BT α)} (h : AlikeAt R S x y) (h' : AlikeAt R S y z) :
    AlikeAt R S x z := by
  rcases x with _ | (_ | _) <;> rcases y with _ | (_ | _) <;> rcases z with _ | (_ | _) <;>
    simp_all only [AlikeAt]
  · exact hR _ _ _ h h'
  · exact hS _ _ _ h h'

theorem AlikeAt.refl {R : α → α → Prop} {S : BClass → BClass → Prop} (hR : ∀ x, R x x)
    (hS : ∀ x, S x x) (x : Option (BT α)) : AlikeAt R S x x := by
  rcases x with _ | (_ | _) <;> simp_all [AlikeAt]

theorem alike_book {R : α → α → Prop} {S : BClass → BClass → Prop} {c d : BClass} {f g : Fields α} {x y : BL α} :
    Alike R S (.book c f x) (.book d g y) ↔
      S c d ∧ (∀ n, n ∈ x.keys ↔ n ∈ y.keys) ∧ ∀ n u, x.find n = some u → ∃ v, y.find n = some v ∧ Alike R S u v := by
  constructor
  · intro h
    have hcons : ∀ n q, AlikeAt R S ((x.find n).bind (BT.at q)) ((y.find n).bind (BT.at q)) := fun n q => h (n :: q)
    have hfind : ∀ n, (x.find n).isSome ↔ (y.find n).isSome := by
      intro n
      have := hcons n []
      rcases hx : x.find n with _ | (_ | _) <;> rcases hy : y.find n with _ | (_ | _) <;>
        simp_all [AlikeAt, BT.at]
    refine ⟨h [], ?_, ?_⟩
    · intro n
      rw [mem_keys_iff, mem_keys_iff]
      have := hfind n
      rw [Option.isSome_iff_exists, Option.isSome_iff_exists] at this
      exact this
    · intro n u hu
      have h1 := (hfind n).mp (by rw [hu]; rfl)
      obtain ⟨v, hv⟩ := Option.isSome_iff_exists.mp h1
      refine ⟨v, hv, fun q => ?_⟩
      have := hcons n q
      rwa [hu, hv] at this
  · rintro ⟨h1, h2, h3⟩ q
    cases q with
    | nil => exact h1
    | cons n q =>
      change AlikeAt R S ((x.find n).bind (BT.at q)) ((y.find n).bind (BT.at q))
      cases hx : x.find n with
      | none =>
        have : y.find n = none := by
          rw [find_none_iff] at hx ⊢
          rwa [← h2 n]
        rw [this]; trivial
      | some u =>
        obtain ⟨v, hv, hav⟩ := h3 n u hx
        rw [hv]
        exact hav q

theorem sameNames_iff {x y : BL α} : sameNames x y = true ↔ ∀ n, n ∈ x.keys ↔ n ∈ y.keys := by
  simp only [sameNames, Bool.and_eq_true, List.all_eq_true, decide_eq_true_eq]
  exact ⟨fun h n => ⟨h.1 n, h.2 n⟩, fun h => ⟨fun n => (h n).mp, fun n => (h n).mpr⟩⟩

theorem find_cons {m n : Str} {x u : BT α} {r : BL α} : (BL.cons m x r).find n = some u ↔
    (m = n ∧ x = u) ∨ (m ≠ n ∧ r.find n = some u) := by
  by_cases h : m = n <;> simp [BL.find, h]

/-! ## The check of a systematics book -/

mutual
theorem compatRec_iff {o : HistOps α} : ∀ {a b : BT α}, a.WF → a.noGlob →
    (compatRec o a b = true ↔ Alike (fun h k => o.compat h k = true) (· = ·) a b)
  | .hist h, .hist k, _, _ => by
    simp only [compatRec]
    constructor
    · intro hc q
      cases q with
      | nil => exact hc
      | cons n q => trivial
    · intro hc; exact hc []
  | .hist h, .book d g y, _, _ => by
    simp only [compatRec, Bool.false_eq_true, false_iff]; intro hc; exact hc []
  | .book c f x, .hist k, _, _ => by
    simp only [compatRec, Bool.false_eq_true, false_iff]; intro hc; exact hc []
  | .book c f x, .book d g y, hw, hg => by
    simp only [compatRec, Bool.and_eq_true, decide_eq_true_eq, sameNames_iff, alike_book, and_assoc,
      compatAll_iff (y := y) hw.1 hw.2 hg]
theorem compatAll_iff {o : HistOps α} : ∀ {x y : BL α}, x.keys.Nodup → x.WF → x.noGlob →
    (compatAll o x y = true ↔ ∀ n u, x.find n = some u → ∃ v, y.find n = some v ∧
      Alike (fun h k => o.compat h k = true) (· = ·) u v)
  | .nil, y, _, _, _ => by simp [compatAll, BL.find]
  | .cons m u r, y, hn, hw, hg => by
    simp only [BL.keys, List.nodup_cons] at hn
    simp only [BL.WF] at hw
    simp only [BL.noGlob] at hg
    simp only [compatAll, hg.1, Bool.not_false, Bool.true_and, Bool.and_eq_true]
    rw [compatAll_iff hn.2 hw.2.2 hg.2.2]
    constructor
    · rintro ⟨h1, h2⟩ n v hv
      rcases find_cons.mp hv with ⟨rfl, rfl⟩ | ⟨_, hv⟩
      · cases hy : y.find m with
        | none => rw [hy] at h1; cases h1
        | some z =>
          rw [hy] at h1
          exact ⟨z, rfl, (compatRec_iff hw.2.1 hg.2.1).mp h1⟩
      · exact h2 n v hv
    · intro h
      refine ⟨?_, fun n v hv => ?_⟩
      · obtain ⟨z, hz, ha⟩ := h m u (find_cons.mpr (Or.inl ⟨rfl, rfl⟩))
        rw [hz]
        exact (compatRec_iff hw.2.1 hg.2.1).mpr ha
      · refine h n v (find_cons.mpr (Or.inr ⟨?_, hv⟩))
        rintro rfl
        exact hn.1 ((mem_keys_iff m r).mpr ⟨v, hv⟩)
end

theorem neighbours_pairwise {o : HistOps α} {P : BT α → BT α → Prop} : ∀ {l : List (BT α)},
    (∀ x ∈ l, ∀ y ∈ l, compatRec o x y = true → P x y) → (∀ {x y z}, P x y → P y z → P x z) →
    neighbours o l = true → l.Pairwise P
  | [], _, _, _ => List.Pairwise.nil
  | [x], _, _, _ => by simp
  | x :: y :: r, hP, ht, h => by
    simp only [neighbours, Bool.and_eq_true] at h
    have ih := neighbours_pairwise (l := y :: r)
      (fun a ha b hb => hP a (List.mem_cons_of_mem _ ha) b (List.mem_cons_of_mem _ hb)) ht h.2
    refine List.pairwise_cons.mpr ⟨?_, ih⟩
    have hxy : P x y := hP x (by simp) y (by simp) h.1
    intro z hz
    rcases List.mem_cons.mp hz with rfl | hz
    · exact hxy
    · exact ht hxy ((List.pairwise_cons.mp ih).1 z hz)

theorem items_wf {c : BL α} (h : c.WF) (hg : c.noGlob) : ∀ x ∈ c.items.map (·.2), x.WF ∧ x.noGlob := by
  match c with
  | .nil => intro x hx; simp [BL.items] at hx
  | .cons n y r =>
    intro x hx
    simp only [BL.WF] at h
    simp only [BL.noGlob] at hg
    simp only [BL.items, List.map_cons, List.mem_cons] at hx
    rcases hx with rfl | hx
    · exact ⟨h.2.1, hg.2.1⟩
    · exact items_wf h.2.2 hg.2.2 x hx

/-- **C63**, for books whose names have no wildcards.  If `compatible` of histograms is an equivalence
(`C63_hist_partial`) and the check of neighbours accepts a book, then each two of its entries have the same paths, with
compatible histograms or books of the same class at each path. -/
theorem C63_neighbours_partial {o : HistOps α} (hsym : ∀ {h k}, o.compat h k = true → o.compat k h = true)
    (htr : ∀ {h k l}, o.compat h k = true → o.compat k l = true → o.compat h l = true)
    (hrefl : ∀ h, o.compat h h = true)
    {c : BL α} (hw : c.WF) (hg : c.noGlob) (h : c.compatible o = true) :
    ∀ x ∈ c.items.map (·.2), ∀ y ∈ c.items.map (·.2),
      Alike (fun h k => o.compat h k = true) (· = ·) x y := by
  have hitems := items_wf hw hg
  have hpw : (c.items.map (·.2)).Pairwise (Alike (fun h k => o.compat h k = true) (· = ·)) := by
    refine neighbours_pairwise (o := o) ?_ ?_ h
    · intro x hx y _ hxy
      exact (compatRec_iff (hitems x hx).1 (hitems x hx).2).mp hxy
    · intro x y z h1 h2 q
      exact AlikeAt.trans (R := fun h k => o.compat h k = true) (S := (· = ·)) (fun _ _ _ => htr)
        (fun _ _ _ h h' => h.trans h') (h1 q) (h2 q)
  have hs : ∀ x y : BT α, Alike (fun h k => o.compat h k = true) (· = ·) x y →
      Alike (fun h k => o.compat h k = true) (· = ·) y x := by
    intro x y hxy q
    exact (hxy q).symm (fun _ _ => hsym) (fun _ _ h => h.symm)
  haveI : Std.Symm (Alike (fun h k => o.compat h k = true) ((· = ·) : BClass → BClass → Prop)) := ⟨hs⟩
  intro x hx y hy
  exact List.Pairwise.forall_of_forall (fun x _ q => AlikeAt.refl hrefl (fun _ => rfl) _) hpw hx hy

/-- The converse: if all entries are alike, the check accepts. -/
theorem C63_neighbours_complete {o : HistOps α} {c : BL α} (hw : c.WF) (hg : c.noGlob)
    (h : ∀ x ∈ c.items.map (·.2), ∀ y ∈ c.items.map (·.2), Alike (fun h k => o.compat h k = true) (· = ·) x y) :
    c.compatible o = true := by
  have hitems := items_wf hw hg
  rw [BL.compatible]
  generalize c.items.map (·.2) = l at h hitems
  induction l with
  | nil => rfl
  | cons x l ih =>
    cases l with
    | nil => rfl
    | cons y r =>
      simp only [neighbours, Bool.and_eq_true]
      refine ⟨(compatRec_iff (hitems x (by simp)).1 (hitems x (by simp)).2).mpr (h x (by simp) y (by simp)), ?_⟩
      exact ih (fun a ha b hb => h a (List.mem_cons_of_mem _ ha) b (List.mem_cons_of_mem _ hb))
        (fun a ha => hitems a (List.mem_cons_of_mem _ ha))

/-- Two variations of a book with histograms `p` and `q`. -/
def twoVariations : BL ℕ :=
  .cons (nm "up") (.book .book .none (.cons (nm "p") (.hist 2) (.cons (nm "q") (.hist 3) .nil)))
    (.cons (nm "down") (.book .book .none (.cons (nm "q") (.hist 5) (.cons (nm "p") (.hist 4) .nil))) .nil)

example : twoVariations.compatible numOps = true ∧ twoVariations.WF ∧ twoVariations.noGlob := by
  refine ⟨by decide +kernel, ?_, ?_⟩
  · simp only [twoVariations, BT.WF, BL.WF, BL.keys]
    repeat' apply And.intro
    all_goals first | trivial | decide +kernel
  · simp only [twoVariations, BT.noGlob, BL.noGlob]
    repeat' apply And.intro
    all_goals first | trivial | decide +kernel

/-! ## `compatible` of books -/

mutual
theorem compatT_iff {o : HistOps α} : ∀ {a b : BT α}, a.WF → a.noGlob →
    (compatT o a b = .ok true ↔ Alike (fun h k => o.compat h k = true) (fun _ _ => True) a b)
  | .hist h, .hist k, _, _ => by
    simp only [compatT, Except.ok.injEq]
    constructor
    · intro hc q
      cases q with
      | nil => exact hc
      | cons n q => trivial
    · intro hc; exact hc []
  | .hist h, .book d g y, _, _ => by
    simp only [compatT, reduceCtorEq, false_iff]; intro hc; exact hc []
  | .book c f x, .hist k, _, _ => by
    simp only [compatT, reduceCtorEq, false_iff]; intro hc; exact hc []
  | .book c f x, .book d g y, hw, hg => by
    simp only [compatT, alike_book, true_and]
    by_cases hs : sameNames x y = true
    · rw [if_pos hs, compatL_iff hw.1 hw.2 hg]
      exact ⟨fun h => ⟨sameNames_iff.mp hs, h⟩, fun h => h.2⟩
    · rw [if_neg hs]
      simp only [Except.ok.injEq, Bool.false_eq_true, false_iff, not_and]
      intro h; exact absurd (sameNames_iff.mpr h) hs
theorem compatL_iff {o : HistOps α} : ∀ {x y : BL α}, x.keys.Nodup → x.WF → x.noGlob →
    (compatL o x y = .ok true ↔ ∀ n u, x.find n = some u → ∃ v, y.find n = some v ∧
      Alike (fun h k => o.compat h k = true) (fun _ _ => True) u v)
  | .nil, y, _, _, _ => by simp [compatL, BL.find]
  | .cons m u r, y, hn, hw, hg => by
    simp only [BL.keys, List.nodup_cons] at hn
    simp only [BL.WF] at hw
    simp only [BL.noGlob] at hg
    simp only [compatL, hg.1, Bool.false_eq_true, if_false]
    have ih := compatL_iff (o := o) (y := y) hn.2 hw.2.2 hg.2.2
    have hsub : ∀ n v, r.find n = some v → (BL.cons m u r).find n = some v := by
      intro n v hv
      refine find_cons.mpr (Or.inr ⟨?_, hv⟩)
      rintro rfl
      exact hn.1 ((mem_keys_iff m r).mpr ⟨v, hv⟩)
    cases hy : y.find m with
    | none =>
      simp only [reduceCtorEq, false_iff]
      intro h
      obtain ⟨z, hz, _⟩ := h m u (find_cons.mpr (Or.inl ⟨rfl, rfl⟩))
      rw [hy] at hz; cases hz
    | some z =>
      have hu := compatT_iff (o := o) (b := z) hw.2.1 hg.2.1
      simp only []
      constructor
      · intro h
        have ht : compatT o u z = .ok true := by
          match hc : compatT o u z, h with
          | .ok true, _ => rfl
          | .ok false, h => cases h
          | .error e, h => cases h
        rw [ht] at h
        intro n v hv
        rcases find_cons.mp hv with ⟨rfl, rfl⟩ | ⟨_, hv⟩
        · exact ⟨z, hy, hu.mp ht⟩
        · exact ih.mp h n v hv
      · intro h
        obtain ⟨z', hz, ha⟩ := h m u (find_cons.mpr (Or.inl ⟨rfl, rfl⟩))
        rw [hy] at hz; cases hz
        rw [hu.mpr ha]
        exact ih.mpr fun n v hv => h n v (hsub n v hv)
end

/-- **C63**, for books whose names have no wildcards.  `compatible` gives `True` exactly if the two books have the same
paths, with compatible histograms or any books at each path; so on these books "`compatible` is `True`" is reflexive,
symmetric and transitive if it is for histograms. -/
theorem C63_books_partial {o : HistOps α} {a b c : BT α} (ha : a.WF) (ga : a.noGlob) (hb : b.WF) (gb : b.noGlob) :
    (compatT o a b = .ok true ↔ Alike (fun h k => o.compat h k = true) (fun _ _ => True) a b) ∧
      ((∀ h, o.compat h h = true) → compatT o a a = .ok true) ∧
      ((∀ {h k}, o.compat h k = true → o.compat k h = true) → compatT o a b = .ok true → compatT o b a = .ok true) ∧
      ((∀ {h k l}, o.compat h k = true → o.compat k l = true → o.compat h l = true) → compatT o a b = .ok true →
        compatT o b c = .ok true → compatT o a c = .ok true) := by
  refine ⟨compatT_iff ha ga, ?_, ?_, ?_⟩
  · intro h
    exact (compatT_iff ha ga).mpr fun q => AlikeAt.refl h (fun _ => trivial) _
  · intro h hab
    exact (compatT_iff hb gb).mpr fun q => ((compatT_iff ha ga).mp hab q).symm (fun _ _ => h) (fun _ _ _ => trivial)
  · intro h hab hbc
    exact (compatT_iff ha ga).mpr fun q =>
      AlikeAt.trans (R := fun h k => o.compat h k = true) (S := fun _ _ => True) (fun _ _ _ => h)
        (fun _ _ _ _ _ => trivial) ((compatT_iff ha ga).mp hab q) ((compatT_iff hb gb).mp hbc q)

/-- **C63 is violated** by books: whether the answer is `False` or an exception depends on the order in which the
entries are compared, so that `compatible` is not symmetric. -/
theorem C63_refuted_symmetry : ∃ a b : BT ℕ, a.WF ∧ b.WF ∧ compatT numOps a b = .ok false ∧
    compatT numOps b a = .error .attributeError := by
  refine ⟨.book .book .none (.cons (nm "x") (.hist 1) (.cons (nm "y") (.hist 1) .nil)),
    .book .book .none (.cons (nm "y") newBook (.cons (nm "x") (.hist 2) .nil)), ?_, ?_, by decide +kernel, by
    decide +kernel⟩
  all_goals
    simp only [BT.WF, BL.WF, BL.keys, newBook]
    repeat' apply And.intro
    all_goals first | trivial | decide +kernel

/-- **C63 is violated** by books with a name with wildcards: such a book is not compatible with itself. -/
theorem C63_refuted_wildcard (o : HistOps α) {n : Str} (hn : isGlob n = true) (c : BClass) (f : Fields α) (x : BT α)
    (r : BL α) : compatT o (.book c f (.cons n x r)) (.book c f (.cons n x r)) = .error .attributeError := by
  have : sameNames (BL.cons n x r) (.cons n x r) = true := sameNames_iff.mpr fun _ => Iff.rfl
  simp [compatT, this, compatL, hn]

/-- The same in a `SystematicsBook`: two equal books with such a name in it are refused as alternatives. -/
theorem C63_refuted_wildcard_checked (o : HistOps α) {n : Str} (hn : isGlob n = true) (c : BClass) (f : Fields α) (x : BT α)
    (r : BL α) (m m' : Str) :
    (BL.cons m (.book c f (.cons n x r)) (.cons m' (.book c f (.cons n x r)) .nil)).compatible o = false := by
  simp [BL.compatible, BL.items, neighbours, compatRec, compatAll, hn]

example : isGlob (nm "a*") = true ∧ isGlob (nm "a") = false := by decide +kernel

end Verif
