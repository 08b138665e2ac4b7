import Verif.BookCopyLemmas

/-!
# Copies of books: C82
-/

namespace Verif

variable {V : Type} {cv : V → V → Bool} {hv : V → Bool}

/-- New books, with `SystematicsBook`s that pass their checks. -/
theorem new_book_checked {g : V → Except Err V} {s : List V} {a : BT ℕ} (ha : InStore s a)
    (hc : Accepted (opsOf cv hv s) a) (hcv : ∀ u v y z, g u = .ok y → g v = .ok z → cv y z = cv u v)
    (hhv : ∀ u y, g u = .ok y → hv y = hv u)
    (hk : ∀ p i, a.at p = some (.hist i) → ∃ u z, s[i]? = some u ∧ g u = .ok z) :
    ∃ s' r, a.mapNew (opsOf cv hv) g s = .ok (s', r) ∧ InStore s' r ∧ (∀ p, MapAt g s s' (a.at p) (r.at p)) ∧
      r.flat.Nodup ∧ (∀ i ∈ r.flat, s.length ≤ i) ∧ ∀ p, (valueAt s a p).isSome → valueAt s' a p = valueAt s a p := by
  obtain ⟨s', r, h, -⟩ := mapNew_passes_T hcv hhv a s ha.wf hc fun i hi => by
    obtain ⟨p, hp⟩ := flat_has_path a ha.wf i hi
    exact hk p i hp
  obtain ⟨h1, h2, h3, h4, h5⟩ := mapNew_T g a s s' r ha.wf ha.flat h
  refine ⟨s', r, h, ⟨h2, fun p i hi => ?_⟩, h5, by rw [h4]; exact List.nodup_range', ?_, ?_⟩
  · have := flat_at hi
    rw [h4, List.mem_range'_1] at this
    omega
  · intro i hi
    rw [h4, List.mem_range'_1] at hi
    exact hi.1
  · intro p hv
    unfold valueAt at hv ⊢
    split
    · rename_i i hi
      exact prefix_get h1 (ha.range p i hi)
    · rfl

/-- New books pass the checks too. -/
theorem mapNew_still_accepted {g : V → Except Err V} {s s' : List V} {a r : BT ℕ} (ha : InStore s a)
    (hcv : ∀ u v y z, g u = .ok y → g v = .ok z → cv y z = cv u v) (hhv : ∀ u y, g u = .ok y → hv y = hv u)
    (h : a.mapNew (opsOf cv hv) g s = .ok (s', r)) : Accepted (opsOf cv hv s') r := by
  obtain ⟨-, h1, h2⟩ := mapNew_accepted_T hcv hhv a s s' r ha.wf ha.flat h
  obtain ⟨-, -, -, -, h3⟩ := mapNew_T g a s s' r ha.wf ha.flat h
  intro p f x hp
  have key : ∀ (p : List Str) (a r : BT ℕ), SimT (NewFor g s s') a r → ∀ f x,
      r.at p = some (.book .systematics f x) → ∃ f' y, a.at p = some (.book .systematics f' y) ∧ SimL (NewFor g s s') y x := by
    intro p
    induction p with
    | nil =>
      intro a r hs f x hr
      cases hr
      match a, hs with
      | .book c f' y, hs => obtain ⟨rfl, h⟩ := hs; exact ⟨f', y, rfl, h⟩
    | cons n t ih =>
      intro a r hs f x hr
      match a, r, hs with
      | .hist _, .hist _, _ => cases hr
      | .book c f1 y, .book d f2 z, hs =>
        rw [BT.at] at hr
        rcases SimL.find n y z hs.2 with ⟨e1, e2⟩ | ⟨u, v, e1, e2, e3⟩
        · rw [e2] at hr; cases hr
        · rw [e2] at hr
          obtain ⟨f', w, e4, e5⟩ := ih u v e3 f x hr
          exact ⟨f', w, by rw [BT.at, e1]; exact e4, e5⟩
  obtain ⟨f', y, e1, e2⟩ := key p a r h1 f x hp
  exact passes_sim (opsOf_compat hcv) (opsOf_sys hhv) e2 (h2 p f' y e1)

section
variable {α β : Type} [DecidableEq β] {axes : α → β}

/-- What a `SystematicsBook` asks: of the definitions and the settings (attachments are among them), not of the content. -/
def askDefs (cd : HistDef × α → HistDef × α → Bool) (hd : HistDef × α → Bool) : List (HistObj α) → HistOps ℕ :=
  opsOf (fun u v => cd (u.H, u.settings) (v.H, v.settings)) (fun u => hd (u.H, u.settings))

variable {cd : HistDef × α → HistDef × α → Bool} {hd : HistDef × α → Bool}

/-- **C82**, `a.copy()` of any book succeeds exactly if each `SystematicsBook` in it passes its own checks. -/
theorem C82_copies {s : List (HistObj α)} {a : BT ℕ} (ha : InStore s a) :
    (∃ q, a.copied (histArith axes) (askDefs cd hd) s = .ok q) ↔ Accepted (askDefs cd hd s) a := by
  constructor
  · rintro ⟨⟨s', r⟩, h⟩
    refine (mapNew_accepted_T ?_ ?_ a s s' r ha.wf ha.flat h).2.2
    · rintro u v _ _ ⟨⟩ ⟨⟩; rfl
    · rintro u _ ⟨⟩; rfl
  · intro hc
    obtain ⟨s', r, h, -⟩ := new_book_checked (g := fun u => .ok ((histArith axes).copy u)) ha hc
      (by rintro u v _ _ ⟨⟩ ⟨⟩; rfl) (by rintro u _ ⟨⟩; rfl) fun p i hp => by
        have hi := ha.range p i hp
        exact ⟨s[i], _, List.getElem?_eq_getElem hi, rfl⟩
    exact ⟨(s', r), h⟩

/-- **C82**, the copy: a book of the same classes under the same paths, with equal histograms, all of them new, so that
filling or scaling the histograms of one book does nothing to the other; its `SystematicsBook`s pass their checks; the
original is as before. -/
theorem C82_copy {s s' : List (HistObj α)} {a r : BT ℕ} (ha : InStore s a)
    (h : a.copied (histArith axes) (askDefs cd hd) s = .ok (s', r)) :
    InStore s' r ∧ r.flat.Nodup ∧ (∀ i ∈ r.flat, i ∉ a.flat) ∧
      (∀ p, (r.at p).map BT.cls? = (a.at p).map BT.cls?) ∧ (∀ p, valueAt s' r p = valueAt s a p) ∧
      (∀ p, valueAt s' a p = valueAt s a p) ∧ Accepted (askDefs cd hd s') r := by
  have hc := (C82_copies ha).1 ⟨_, h⟩
  obtain ⟨s1, r1, h1, h2, h3, h4, h5, h6⟩ := new_book_checked (g := fun u => .ok ((histArith axes).copy u)) ha hc
    (by rintro u v _ _ ⟨⟩ ⟨⟩; rfl) (by rintro u _ ⟨⟩; rfl) fun p i hp => by
      have hi := ha.range p i hp
      exact ⟨s[i], _, List.getElem?_eq_getElem hi, rfl⟩
  have he : (Except.ok (s', r) : Except Err _) = .ok (s1, r1) := h.symm.trans h1
  cases he
  have hv : ∀ p i, a.at p = some (.hist i) → (valueAt s a p).isSome := by
    intro p i hp
    simp [valueAt, hp, ha.range p i hp]
  refine ⟨h2, h4, fun i hi hi' => absurd (ha.flat i hi') (by have := h5 i hi; omega), fun p => ?_, fun p => ?_, fun p => ?_,
    mapNew_still_accepted ha (by rintro u v _ _ ⟨⟩ ⟨⟩; rfl) (by rintro u _ ⟨⟩; rfl) h⟩
  · have h3 := h3 p
    cases hp : a.at p with
    | none => rw [hp] at h3; rw [h3]
    | some y =>
      rw [hp] at h3
      cases y with
      | book _ _ _ => obtain ⟨_, _, e⟩ := h3; rw [e]; rfl
      | hist i => obtain ⟨j, u, z, e1, -⟩ := h3; rw [e1]; rfl
  · have h3 := h3 p
    unfold valueAt
    cases hp : a.at p with
    | none => rw [hp] at h3; rw [h3]
    | some y =>
      rw [hp] at h3
      cases y with
      | book _ _ _ => obtain ⟨_, _, e⟩ := h3; rw [e]
      | hist i =>
        obtain ⟨j, u, z, e1, -, e3, e4, e5⟩ := h3
        cases e5
        rw [e1]
        simp only [e3, e4]
        rfl
  · cases hp : a.at p with
    | none => simp only [valueAt, hp]
    | some y =>
      cases y with
      | book _ _ _ => simp only [valueAt, hp]
      | hist i => exact h6 p (hv p i hp)

/-- **C82**, `a.cleared()` succeeds under the same condition, with every histogram never filled; `a.clear()` does this to
all histograms of the book itself and no other, and always succeeds. -/
theorem C82_cleared {s : List (HistObj α)} {c : BClass} {f : Fields ℕ} {x : BL ℕ} (ha : InStore s (.book c f x))
    (hn : x.hists.Nodup) :
    ((∃ q, (BT.book c f x).clearedBook (histArith axes) (askDefs cd hd) s = .ok q) ↔
      Accepted (askDefs cd hd s) (.book c f x)) ∧
    (∀ s' r, (BT.book c f x).clearedBook (histArith axes) (askDefs cd hd) s = .ok (s', r) →
      InStore s' r ∧ r.flat.Nodup ∧ (∀ i ∈ r.flat, i ∉ x.hists) ∧
      (∀ p, (r.at p).map BT.cls? = ((BT.book c f x).at p).map BT.cls?) ∧
      (∀ p, valueAt s' (.book c f x) p = valueAt s (.book c f x) p) ∧
      ∀ p, valueAt s' r p = (valueAt s (.book c f x) p).map fun u => ⟨u.H, u.settings, none⟩) ∧
    ∃ s'', x.clearAll (histArith axes) s = .ok s'' ∧
      (∀ p, valueAt s'' (.book c f x) p = (valueAt s (.book c f x) p).map fun u => ⟨u.H, u.settings, none⟩) ∧
      ∀ i, i ∉ x.hists → s''[i]? = s[i]? := by
  have hw : ∀ p i, (BT.book c f x).at p = some (.hist i) →
      ∃ u z, s[i]? = some u ∧ (fun u => Except.ok (ε := Err) ((histArith axes).cleared u)) u = .ok z := fun p i hp => by
    have hi := ha.range p i hp
    exact ⟨s[i], _, List.getElem?_eq_getElem hi, rfl⟩
  have hacc : ∀ s' r, (BT.book c f x).clearedBook (histArith axes) (askDefs cd hd) s = .ok (s', r) →
      Accepted (askDefs cd hd s) (.book c f x) := by
    intro s' r h
    refine (mapNew_accepted_T ?_ ?_ _ s s' r ha.wf ha.flat h).2.2
    · rintro u v _ _ ⟨⟩ ⟨⟩; rfl
    · rintro u _ ⟨⟩; rfl
  refine ⟨⟨fun ⟨⟨s', r⟩, h⟩ => hacc s' r h, fun hc => ?_⟩, fun s' r h => ?_, ?_⟩
  · obtain ⟨s', r, h, -⟩ := new_book_checked ha hc (by rintro u v _ _ ⟨⟩ ⟨⟩; rfl) (by rintro u _ ⟨⟩; rfl) hw
    exact ⟨(s', r), h⟩
  · obtain ⟨s1, r1, h1, h2, h3, h4, h5, h6⟩ := new_book_checked ha (hacc s' r h)
      (by rintro u v _ _ ⟨⟩ ⟨⟩; rfl) (by rintro u _ ⟨⟩; rfl) hw
    have he : (Except.ok (s', r) : Except Err _) = .ok (s1, r1) := h.symm.trans h1
    cases he
    refine ⟨h2, h4, fun i hi hi' => absurd (ha.flat i (by rw [BT.flat, ← hists_flat]; exact hi'))
      (by have := h5 i hi; omega), fun p => ?_, fun p => ?_, fun p => ?_⟩
    · have h3 := h3 p
      cases hp : (BT.book c f x).at p with
      | none => rw [hp] at h3; rw [h3]
      | some y =>
        rw [hp] at h3
        cases y with
        | book _ _ _ => obtain ⟨_, _, e⟩ := h3; rw [e]; rfl
        | hist i => obtain ⟨j, u, z, e1, -⟩ := h3; rw [e1]; rfl
    · cases hp : (BT.book c f x).at p with
      | none => simp only [valueAt, hp]
      | some y =>
        cases y with
        | book _ _ _ => simp only [valueAt, hp]
        | hist i => exact h6 p (by simp [valueAt, hp, ha.range p i hp])
    · have h3 := h3 p
      unfold valueAt
      cases hp : (BT.book c f x).at p with
      | none => rw [hp] at h3; rw [h3]; rfl
      | some y =>
        rw [hp] at h3
        cases y with
        | book _ _ _ => obtain ⟨_, _, e⟩ := h3; rw [e]; rfl
        | hist i =>
          obtain ⟨j, u, z, e1, -, e3, e4, e5⟩ := h3
          cases e5
          rw [e1]
          simp only [e3, e4]
          rfl
  · have hr : ∀ i ∈ x.hists, i < s.length := fun i hi => ha.flat i (by rw [hists_flat] at hi; exact hi)
    obtain ⟨s'', h6⟩ := changeAll_isOk (g := fun u => .ok ((histArith axes).cleared u)) (s := s) hn fun i hi =>
      ⟨s[i]'(hr i hi), _, List.getElem?_eq_getElem (hr i hi), rfl⟩
    obtain ⟨-, h7, h8⟩ := changeAll_ok hn h6
    refine ⟨s'', h6, fun p => ?_, h7⟩
    cases hp : (BT.book c f x).at p with
    | none => simp only [valueAt, hp, Option.map_none]
    | some y =>
      cases y with
      | book _ _ _ => simp only [valueAt, hp, Option.map_none]
      | hist i =>
        obtain ⟨u, z, e1, e2, e3⟩ := h8 i (by rw [hists_flat]; exact flat_at hp)
        cases e2
        simp only [valueAt, hp, e1, e3, Option.map_some]
        rfl

/-- **C62**, `a * k` with `SystematicsBook`s that pass their checks, if each of the histograms can be multiplied. -/
theorem C62_product_checked_partial {s : List (HistObj α)} {a : BT ℕ} (k : ℚ) (ha : InStore s a)
    (hc : Accepted (askDefs cd hd s) a)
    (hk : ∀ p i, a.at p = some (.hist i) → ∃ u z, s[i]? = some u ∧ histMul k u = .ok z) :
    ∃ s' r, a.times (histArith axes) (askDefs cd hd) k s = .ok (s', r) ∧ InStore s' r ∧
      (∀ p, MapAt (histMul k) s s' (a.at p) (r.at p)) ∧ r.flat.Nodup ∧ (∀ i ∈ r.flat, s.length ≤ i) ∧
      (∀ p, (valueAt s a p).isSome → valueAt s' a p = valueAt s a p) ∧ Accepted (askDefs cd hd s') r := by
  have hm : ∀ (u y : HistObj α), histMul k u = .ok y → y.H = u.H ∧ y.settings = u.settings := by
    intro u y h
    unfold histMul at h
    cases hs : mulState k u.content with
    | error e => rw [hs] at h; cases h
    | ok c => rw [hs] at h; cases h; exact ⟨rfl, rfl⟩
  have h1 : ∀ u v y z : HistObj α, histMul k u = .ok y → histMul k v = .ok z →
      cd (y.H, y.settings) (z.H, z.settings) = cd (u.H, u.settings) (v.H, v.settings) := by
    intro u v y z e1 e2
    rw [(hm u y e1).1, (hm u y e1).2, (hm v z e2).1, (hm v z e2).2]
  have h2 : ∀ u y : HistObj α, histMul k u = .ok y → hd (y.H, y.settings) = hd (u.H, u.settings) := by
    intro u y e1
    rw [(hm u y e1).1, (hm u y e1).2]
  obtain ⟨s', r, h, h3⟩ := new_book_checked ha hc h1 h2 hk
  exact ⟨s', r, h, h3.1, h3.2.1, h3.2.2.1, h3.2.2.2.1, h3.2.2.2.2, mapNew_still_accepted ha h1 h2 h⟩

end

/-! ## Examples -/

/-- A histogram is a systematic variation if its setting says so; compatible means of the same definition. -/
def askName : List (HistObj Bool) → HistOps ℕ := askDefs (fun u v => decide (u.1 = v.1)) (fun u => u.2)

/-- Two variations, filled with one and with two numbers, and one that is not. -/
def variations : List (HistObj Bool) :=
  [⟨plainH, true, (plainFilled [1/2]).content⟩, ⟨plainH, true, (plainFilled [1/2, 1/3]).content⟩,
    ⟨plainH, false, (plainFilled [1/2]).content⟩]

/-- A book with a `SystematicsBook` of these histograms. -/
def systBook (l : List (String × ℕ)) : BT ℕ :=
  .book .book .none (.cons "s".toList (.book .systematics .absent (blOf (l.map fun p => (p.1.toList, .hist p.2)))) .nil)

/-- The hypotheses of `C82_copies` are met by a book whose `SystematicsBook` passes, and by one whose does not. -/
example : InStore variations (systBook [("up", 0), ("down", 1)]) ∧ InStore variations (systBook [("up", 0), ("no", 2)]) := by
  have key : ∀ (m : String) (k : ℕ), k < 3 → '/' ∉ m.toList → "up".toList ≠ m.toList →
      InStore variations (systBook [("up", 0), (m, k)]) := by
    intro m k hk hm hne
    have hk' : k < variations.length := hk
    refine ⟨?_, fun p i hp => ?_⟩
    · simp only [systBook, List.map_cons, List.map_nil, blOf, BT.WF, BL.WF, BL.keys, List.nodup_cons, List.mem_cons,
        List.not_mem_nil, or_false, not_false_eq_true, and_true, List.nodup_nil, true_and]
      exact ⟨by decide, hne, by decide, hm⟩
    · have := flat_at hp
      simp only [systBook, List.map_cons, List.map_nil, blOf, BT.flat, BL.flat, List.append_nil, List.cons_append,
        List.nil_append, List.mem_cons, List.not_mem_nil, or_false] at this
      rcases this with rfl | rfl
      · exact Nat.lt_of_le_of_lt (Nat.zero_le _) hk'
      · exact hk'
  exact ⟨key "down" 1 (by decide) (by decide) (by decide), key "no" 2 (by decide) (by decide) (by decide)⟩

/-- The first is copied, with new histograms of the same content; of the second, the copy raises. -/
example : (match (systBook [("up", 0), ("down", 1)]).copied (histArith fun _ : Bool => ()) askName variations with
      | .ok (s, r) => r.content.hists.map fun i => (i, (s[i]?.map fun u => u.H.read u.content [] [1] 0))
      | .error _ => []) = [(3, some 1), (4, some 2)] ∧
    (match (systBook [("up", 0), ("no", 2)]).copied (histArith fun _ : Bool => ()) askName variations with
      | .ok _ => none
      | .error e => some e) = some .valueError := by decide +kernel

end Verif
