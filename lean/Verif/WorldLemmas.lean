import Verif.HeapLemmas

/-!
# Lemmas about programs on histograms that may share objects (helpers)
-/

namespace Verif

/-- what an operation leaves behind, also when it raises -/
def Res.after {σ : Type} : Res σ → σ
  | .ok s => s
  | .error (_, s) => s

/-- which exception -/
def Res.exn {σ : Type} : Res σ → Option Err
  | .ok _ => none
  | .error (e, _) => some e

theorem filldictLoop_distinct' {n : ℕ} (L : Layout) (rec : Content Arr n → Rows → List Bool → Res (Content Arr n))
    (hrec : ∀ c r s, Distinct n c → Distinct n (rec c r s).after) (inverse : List ℤ) (r : Rows)
    (all : Option (List Bool)) : ∀ (us : List (ℕ × Key)) (d : List (Key × Content Arr n)),
    Distinct (n + 1) d → Distinct (n + 1) (filldictLoop L rec inverse r all us d).after
  | [], d, hd => hd
  | (idx, u) :: us, d, hd => by
    simp only [filldictLoop]
    split
    · exact hd
    · rename_i inv _
      have he : Distinct (n + 1) (ensureKey d u (emptyContent L n) : List (Key × Content Arr n)) := by
        unfold ensureKey
        split
        · exact hd
        · exact dset_distinct d hd u _ (distinct_empty L n)
      split
      · exact he
      · rename_i sub hsub
        have hs : Distinct n sub := he.2 _ (mem_of_dget _ _ _ hsub)
        split
        · exact he
        · rename_i r' _
          have hr := fun sel => hrec sub r' sel hs
          split
          · rename_i e c' hc'
            have hr := hr (nextSelection all inverse idx (List.map (fun i => decide (i = (idx : ℤ))) inv))
            rw [hc'] at hr
            exact dset_distinct _ he u c' hr
          · rename_i c' hc'
            have hr := hr (nextSelection all inverse idx (List.map (fun i => decide (i = (idx : ℤ))) inv))
            rw [hc'] at hr
            exact filldictLoop_distinct' L rec hrec inverse r all us _ (dset_distinct _ he u c' hr)

theorem filldict_distinct' (L : Layout) (length : ℕ) : ∀ (n : ℕ) (gs : List (Option (List Key × List ℤ))) (c : Content Arr n)
    (r : Rows) (all : Option (List Bool)), Distinct n c → Distinct n (filldict L length n gs c r all).after
  | 0, _, _, _, _, _ => trivial
  | n + 1, gs, (d : List (Key × Content Arr n)), r, all, hd => by
    match gs with
    | [] => simp only [filldict]; exact hd
    | none :: _ => simp only [filldict]; exact hd
    | some (u, inv) :: gs =>
      simp only [filldict]
      exact filldictLoop_distinct' L _ (fun c r s hc => filldict_distinct' L length n gs c r (some s) hc)
        inv r all _ d hd

theorem fill_distinct (H : HistDef) (st : H.State) (rows : List Row) (hst : H.DistinctKeys st) :
    H.DistinctKeys (H.fill st rows).after := by
  have hp : Distinct H.groups.length (prefill H.layout st) := by
    cases st with
    | none => exact distinct_empty _ _
    | some c => exact hst
  unfold HistDef.fill
  simp only
  split
  · exact hp
  · rename_i d _
    have hq : Distinct H.groups.length (postfill H.layout rows.length d (prefill H.layout st)).after := by
      unfold postfill
      split
      · exact hp
      · split
        · exact hp
        · exact filldict_distinct' _ _ _ _ _ _ _ hp
    split
    · rename_i e c hc
      rw [hc] at hq; exact hq
    · rename_i c hc
      rw [hc] at hq; exact hq

theorem iaddLeft_keys {β : Type} (rec : β → β → Res β) (other : List (Key × β)) : ∀ d : List (Key × β),
    ((iaddLeft rec other d).after).map (·.1) = d.map (·.1)
  | [] => rfl
  | (k, x) :: d => by
    have ih := iaddLeft_keys rec other d
    simp only [iaddLeft]
    split
    · split
      · simp [Res.after]
      · split <;> (rename_i h; rw [h] at ih; simpa [Res.after] using ih)
    · split <;> (rename_i h; rw [h] at ih; simpa [Res.after] using ih)

theorem iaddLeft_mem {n : ℕ} (rec : Content Arr n → Content Arr n → Res (Content Arr n))
    (hrec : ∀ x y, Distinct n x → Distinct n y → Distinct n (rec x y).after) (other : List (Key × Content Arr n))
    (ho : ∀ p ∈ other, Distinct n p.2) : ∀ d : List (Key × Content Arr n), (∀ p ∈ d, Distinct n p.2) →
    ∀ p ∈ (iaddLeft rec other d).after, Distinct n p.2
  | [], _ => by simp [iaddLeft, Res.after]
  | (k, x) :: d, hd => by
    have ih := iaddLeft_mem rec hrec other ho d (fun p hp => hd p (by simp [hp]))
    have hx := hd (k, x) (by simp)
    simp only [iaddLeft]
    split
    · rename_i y hy
      have hr := hrec x y hx (ho _ (mem_of_dget _ _ _ hy))
      split
      · rename_i h; rw [h] at hr
        intro p hp
        rcases List.mem_cons.1 hp with rfl | hp
        · exact hr
        · exact hd p (by simp [hp])
      · rename_i h'
        rw [h'] at hr
        split <;>
        · rename_i h; rw [h] at ih
          intro p hp
          rcases List.mem_cons.1 hp with rfl | hp
          · exact hr
          · exact ih p hp
    · split <;>
      · rename_i h; rw [h] at ih
        intro p hp
        rcases List.mem_cons.1 hp with rfl | hp
        · exact hx
        · exact ih p hp

theorem append_addRight_distinct {n : ℕ} (l d e : List (Key × Content Arr n)) (hl : ∀ p ∈ l, Distinct n p.2)
    (hk : l.map (·.1) = d.map (·.1)) (hd : Distinct (n + 1) d) (he : Distinct (n + 1) e) :
    Distinct (n + 1) (l ++ addRight d e : List (Key × Content Arr n)) := by
  have hd1 : (d.map (·.1)).Nodup := hd.1
  have he1 : (e.map (·.1)).Nodup := he.1
  refine ⟨?_, ?_⟩
  · rw [List.map_append, List.nodup_append, hk]
    refine ⟨hd1, List.Nodup.sublist (List.Sublist.map _ List.filter_sublist) he1, ?_⟩
    intro k hk k' hk' hkk
    subst hkk
    obtain ⟨p, hp, rfl⟩ := List.mem_map.1 hk
    obtain ⟨q, hq, hqk⟩ := List.mem_map.1 hk'
    have h5 := (List.mem_filter.1 hq).2
    have h6 := dget_isSome_of_mem d p hp
    rw [← hqk] at h6
    rw [Option.isNone_iff_eq_none] at h5
    rw [h5] at h6
    cases h6
  · intro p hp
    rcases List.mem_append.1 hp with hp | hp
    · exact hl p hp
    · exact he.2 p (List.mem_filter.1 hp).1

theorem iaddContent_distinct : ∀ (n : ℕ) (x y : Content Arr n), Distinct n x → Distinct n y →
    Distinct n (iaddContent n x y).after
  | 0, _, _, _, _ => trivial
  | n + 1, (d : List (Key × Content Arr n)), (e : List (Key × Content Arr n)), hd, he => by
    have hk := iaddLeft_keys (iaddContent n) e d
    have hm := iaddLeft_mem (iaddContent n) (fun x y hx hy => iaddContent_distinct n x y hx hy) e he.2 d hd.2
    simp only [iaddContent]
    split
    · rename_i l hl
      rw [hl] at hk hm
      exact append_addRight_distinct l d e hm hk hd he
    · rename_i er hl
      obtain ⟨er, l⟩ := er
      rw [hl] at hk hm
      refine ⟨?_, hm⟩
      show (l.map (·.1)).Nodup
      simp only [Res.after] at hk
      rw [hk]
      exact hd.1

theorem iadd_distinct (H : HistDef) (s t : H.State) (hs : H.DistinctKeys s) (ht : H.DistinctKeys t) :
    H.DistinctKeys (iaddState s t : Res H.State).after := by
  cases s with
  | none => cases t <;> exact ht
  | some a =>
    cases t with
    | none => exact hs
    | some b =>
      have := iaddContent_distinct _ a b hs ht
      simp only [iaddState]
      split
      · rename_i h; rw [h] at this; exact this
      · rename_i h; rw [h] at this; exact this

theorem mul_distinctKeys (H : HistDef) (k : ℚ) (c : Content Arr H.groups.length) (h : Distinct H.groups.length c) :
    Distinct H.groups.length (mulContent k _ c) := mul_distinct k _ c h

/-! ## worlds -/

/-- Every object has owners, and those of the objects of the histogram in variable `i` are in
`own i`. -/
def World.Sep (H : HistDef) (own : ℕ → Set ℕ) (w : World) : Prop :=
  ∃ m : Marks, HeapOk H.groups.length m w.heap ∧
    ∀ i v a, w.vars[i]? = some v → v.content = some a → a < w.heap.next ∧ (m a).1 = [] ∧ (m a).2 ⊆ own i

theorem World.Sep.weaken {H : HistDef} {own own' : ℕ → Set ℕ} {w : World} (h : w.Sep H own)
    (hf : ∀ i, i < w.vars.length → own i ⊆ own' i) : w.Sep H own' := by
  obtain ⟨m, ok, hv⟩ := h
  refine ⟨m, ok, ?_⟩
  intro i v a hi hc
  obtain ⟨h1, h2, h3⟩ := hv i v a hi hc
  exact ⟨h1, h2, h3.trans (hf i (List.getElem?_eq_some_iff.1 hi).1)⟩

theorem HObj.state_distinct {H : HistDef} {m : Marks} {h : Heap} (ok : HeapOk H.groups.length m h) (v : HObj) (c : Set ℕ)
    (hv : ∀ a, v.content = some a → a < h.next ∧ (m a).1 = [] ∧ (m a).2 ⊆ c) :
    ∃ s, v.state H h = some s ∧ H.DistinctKeys s := by
  unfold HObj.state
  cases hc : v.content with
  | none => exact ⟨none, rfl, trivial⟩
  | some a =>
    obtain ⟨h1, h2, _⟩ := hv a hc
    obtain ⟨c, hd, hdd⟩ := deref_isSome ok H.groups.length a h1 (by rw [h2]; simp)
    exact ⟨some c, by simp only [hd, Option.map_some], hdd⟩

theorem HObj.state_grows {H : HistDef} {m m' : Marks} {h h' : Heap} {W : ℕ → Prop} (ok : HeapOk H.groups.length m h)
    (g : Grows H.groups.length W m h m' h') (v : HObj) (c : Set ℕ)
    (hv : ∀ a, v.content = some a → a < h.next ∧ (m a).1 = [] ∧ (m a).2 ⊆ c)
    (hW : ∀ x, x < h.next → (m x).2 ⊆ c → ¬ W x) : v.state H h' = v.state H h := by
  unfold HObj.state
  cases hc : v.content with
  | none => rfl
  | some a =>
    obtain ⟨h1, _, h2⟩ := hv a hc
    simp only
    rw [g.deref ok _ a h1]
    intro x hx _ hcol
    exact hW x hx (hcol.trans h2)

/-- The variable `i` gets a new value, which may use the objects of its own. -/
theorem replace_spec {H : HistDef} {own : ℕ → Set ℕ} {w : World} {m m' : Marks} {h' : Heap} (ok : HeapOk H.groups.length m w.heap)
    (hv : ∀ i v a, w.vars[i]? = some v → v.content = some a → a < w.heap.next ∧ (m a).1 = [] ∧ (m a).2 ⊆ own i) (i : ℕ)
    (g : Grows H.groups.length (Below m [] (own i)) m w.heap m' h') (v' : HObj)
    (hv' : ∀ a, v'.content = some a → a < h'.next ∧ (m' a).1 = [] ∧ (m' a).2 ⊆ own i) :
    World.Sep H own ⟨h', w.vars.set i v'⟩ ∧
    (∀ k, k ≠ i → Disjoint (own k) (own i) → World.view H ⟨h', w.vars.set i v'⟩ k = w.view H k) ∧
    (i < w.vars.length → World.view H ⟨h', w.vars.set i v'⟩ i = v'.state H h') := by
  refine ⟨⟨m', g.ok, ?_⟩, ?_, ?_⟩
  · intro j u a hj hu
    simp only [List.getElem?_set] at hj
    split at hj
    · rename_i hij
      subst hij
      split at hj
      · cases hj; exact hv' a hu
      · cases hj
    · obtain ⟨h1, h2⟩ := hv j u a hj hu
      exact ⟨lt_of_lt_of_le h1 g.le, by rw [g.marks a h1]; exact h2⟩
  · intro k hki hk
    unfold World.view
    simp only
    rw [List.getElem?_set_ne (fun h => hki h.symm)]
    cases hu : w.vars[k]? with
    | none => rfl
    | some u =>
      simp only [Option.bind_some]
      apply HObj.state_grows ok g u (own k) (fun a ha => hv k u a hu ha)
      rintro x hx hxk ⟨_, hxi⟩
      obtain ⟨y, hy⟩ := ok.owned x hx
      exact Set.disjoint_left.1 hk (hxk hy) (hxi hy)
  · intro hi
    unfold World.view
    simp only
    rw [List.getElem?_set_self hi]
    rfl

/-- A new variable, without changes of existing objects. -/
theorem append_spec {H : HistDef} {own : ℕ → Set ℕ} {w : World} {m m' : Marks} {h' : Heap} (ok : HeapOk H.groups.length m w.heap)
    (hv : ∀ i v a, w.vars[i]? = some v → v.content = some a → a < w.heap.next ∧ (m a).1 = [] ∧ (m a).2 ⊆ own i)
    (g : Grows H.groups.length (fun _ => False) m w.heap m' h') (v' : HObj)
    (hv' : ∀ a, v'.content = some a → a < h'.next ∧ (m' a).1 = [] ∧ (m' a).2 ⊆ own w.vars.length) :
    World.Sep H own ⟨h', w.vars ++ [v']⟩ ∧
    (∀ k, k < w.vars.length → World.view H ⟨h', w.vars ++ [v']⟩ k = w.view H k) ∧
    World.view H ⟨h', w.vars ++ [v']⟩ w.vars.length = v'.state H h' := by
  refine ⟨⟨m', g.ok, ?_⟩, ?_, ?_⟩
  · intro j u a hj hu
    simp only at hj
    by_cases hlt : j < w.vars.length
    · rw [List.getElem?_append_left hlt] at hj
      obtain ⟨h1, h2⟩ := hv j u a hj hu
      exact ⟨lt_of_lt_of_le h1 g.le, by rw [g.marks a h1]; exact h2⟩
    · have hle : w.vars.length ≤ j := by omega
      rw [List.getElem?_append_right hle] at hj
      have hj0 : j = w.vars.length := by
        have := (List.getElem?_eq_some_iff.1 hj).1
        simp at this
        omega
      subst hj0
      simp only [Nat.sub_self, List.getElem?_cons_zero, Option.some.injEq] at hj
      subst hj
      exact hv' a hu
  · intro k hk
    unfold World.view
    simp only
    rw [List.getElem?_append_left hk]
    cases hu : w.vars[k]? with
    | none => rfl
    | some u =>
      simp only [Option.bind_some]
      exact HObj.state_grows ok g u (own k) (fun a ha => hv k u a hu ha) (fun _ _ _ h => h)
  · unfold World.view
    simp

theorem write_spec {H : HistDef} {m : Marks} {h : Heap} (ok : HeapOk H.groups.length m h) (v : HObj) (c : Set ℕ) (hc : c.Nonempty)
    (hv : ∀ a, v.content = some a → a < h.next ∧ (m a).1 = [] ∧ (m a).2 ⊆ c) (s : H.State) (hs : H.DistinctKeys s) :
    ∃ m', Grows H.groups.length (Below m [] c) m h m' (v.write H h s).1 ∧
      (∀ a, (v.write H h s).2.content = some a → a < (v.write H h s).1.next ∧ (m' a).1 = [] ∧ (m' a).2 ⊆ c) ∧
      (v.write H h s).2.state H (v.write H h s).1 = some s ∧ (v.write H h s).2.cof = v.cof ∧
      (v.content = none → Grows H.groups.length (fun _ => False) m h m' (v.write H h s).1) := by
  unfold HObj.write
  cases s with
  | none =>
    cases v.content <;> exact ⟨m, Grows.refl ok, by simp, rfl, rfl, fun _ => Grows.refl ok⟩
  | some x =>
    cases hvc : v.content with
    | none =>
      obtain ⟨m', g, h1, h2, h3, h4⟩ := newContent_spec c hc H.groups.length x [] m h ok (by simp) hs
      refine ⟨m', g.mono (fun _ _ h => h.elim), ?_, ?_, rfl, fun _ => g⟩
      · intro a ha
        simp only [Option.some.injEq] at ha
        subst ha
        rw [h3]
        exact ⟨h2, rfl, subset_rfl⟩
      · simp only [HObj.state]
        rw [h4]; rfl
    | some a =>
      obtain ⟨ha1, ha2, ha3⟩ := hv a hvc
      obtain ⟨m', g, hd⟩ := storeContent_spec H.groups.length x a [] (m a).2 m h ok (by simp) hs ha1 (Prod.ext ha2 rfl)
      refine ⟨m', g.mono (fun y _ hy => ⟨hy.1, hy.2.trans ha3⟩), ?_, ?_, rfl, fun h => by cases h⟩
      · intro b hb
        simp only [hvc, Option.some.injEq] at hb
        subst hb
        exact ⟨lt_of_lt_of_le ha1 g.le, by rw [g.marks a ha1]; exact ⟨ha2, ha3⟩⟩
      · simp only [HObj.state, hvc]
        rw [hd]; rfl

/-- An operation in place. -/
theorem inplace_spec {H : HistDef} {own : ℕ → Set ℕ} {w : World} (hw : w.Sep H own) (i : ℕ) (f : H.State → Res H.State)
    (hf : ∀ s, H.DistinctKeys s → H.DistinctKeys (f s).after) (hi : i < w.vars.length) (ho : (own i).Nonempty) :
    (w.inplace H i f).1.Sep H own ∧ (w.inplace H i f).1.vars.length = w.vars.length ∧
    (∀ k, k ≠ i → Disjoint (own k) (own i) → (w.inplace H i f).1.view H k = w.view H k) ∧
    ∃ s, w.view H i = some s ∧ (w.inplace H i f).1.view H i = some (f s).after ∧ (w.inplace H i f).2 = (f s).exn := by
  obtain ⟨m, ok, hv⟩ := hw
  have hvi : w.vars[i]? = some w.vars[i] := List.getElem?_eq_getElem hi
  obtain ⟨s, hs, hsd⟩ := HObj.state_distinct ok w.vars[i] (own i) (fun a ha => hv i _ a hvi ha)
  have hin : w.inplace H i f = (⟨(w.vars[i].write H w.heap (f s).after).1, w.vars.set i (w.vars[i].write H w.heap (f s).after).2⟩,
      (f s).exn) := by
    unfold World.inplace
    rw [hvi]
    simp only
    rw [hs]
    simp only
    cases hfs : f s with
    | ok s' => rfl
    | error e => rfl
  obtain ⟨m', g, h1, h2, _, _⟩ := write_spec ok w.vars[i] (own i) ho (fun a ha => hv i _ a hvi ha) (f s).after (hf s hsd)
  obtain ⟨r1, r2, r3⟩ := replace_spec ok hv i g _ h1
  rw [hin]
  refine ⟨r1, by simp, r2, s, ?_, ?_, rfl⟩
  · unfold World.view; rw [hvi]; exact hs
  · rw [r3 hi, h2]

theorem newVar_spec {H : HistDef} {own : ℕ → Set ℕ} {w : World} (hw : w.Sep H own) (ho : (own w.vars.length).Nonempty)
    (v : HObj) (s : H.State) (hs : H.DistinctKeys s) :
    (w.newVar H v s).1.Sep H own ∧ (w.newVar H v s).1.vars.length = w.vars.length + 1 ∧
    (∀ k, k < w.vars.length → (w.newVar H v s).1.view H k = w.view H k) ∧
    (w.newVar H v s).1.view H w.vars.length = some s ∧ (w.newVar H v s).2 = none := by
  obtain ⟨m, ok, hv⟩ := hw
  obtain ⟨m', _, h1, h2, _, g⟩ := write_spec ok { v with content := none } (own w.vars.length) ho (fun a ha => by cases ha) s hs
  obtain ⟨r1, r2, r3⟩ := append_spec ok hv (g rfl) _ h1
  refine ⟨r1, by simp [World.newVar], r2, ?_, rfl⟩
  show World.view H ⟨_, _⟩ _ = _
  refine r3.trans h2

/-- Making one's own copy before a fill: afterwards the histogram can have any owner. -/
theorem uncopy_spec {H : HistDef} {own : ℕ → Set ℕ} {w : World} (hw : w.Sep H own) (i : ℕ) (ho : (own i).Nonempty) :
    (w.uncopy H i).Sep H own ∧ (w.uncopy H i).vars.length = w.vars.length ∧
    (∀ k, (w.uncopy H i).view H k = w.view H k) ∧
    (∀ v, w.vars[i]? = some v → v.cof = true → ∀ c : Set ℕ, c.Nonempty → (w.uncopy H i).Sep H (Function.update own i c)) := by
  have key : ∀ v, w.vars[i]? = some v → v.cof = true → ∀ c : Set ℕ, c.Nonempty → (w.uncopy H i).Sep H (Function.update own i c) ∧
      (w.uncopy H i).vars.length = w.vars.length ∧ (∀ k, (w.uncopy H i).view H k = w.view H k) := by
    intro v hvi hcof c hc
    obtain ⟨m, ok, hv⟩ := hw
    obtain ⟨s, hs, hsd⟩ := HObj.state_distinct ok v (own i) (fun a ha => hv i _ a hvi ha)
    have hu : w.uncopy H i = ⟨(HObj.fresh H w.heap { v with cof := false } s).1,
        w.vars.set i (HObj.fresh H w.heap { v with cof := false } s).2⟩ := by
      unfold World.uncopy
      rw [hvi]
      simp only [hcof, if_true]
      rw [hs]
    obtain ⟨m', _, h1, h2, _, g⟩ := write_spec ok { v with content := none, cof := false } c hc (fun a ha => by cases ha) s hsd
    have g := g rfl
    have hil := (List.getElem?_eq_some_iff.1 hvi).1
    rw [hu]
    refine ⟨⟨m', g.ok, ?_⟩, by simp, ?_⟩
    · intro j u a hj hu
      simp only [List.getElem?_set, hil, if_true] at hj
      split at hj
      · rename_i hij
        subst hij
        cases hj
        rw [Function.update_self]
        exact h1 a hu
      · rename_i hij
        obtain ⟨h3, h4⟩ := hv j u a hj hu
        rw [Function.update_of_ne (fun h => hij h.symm)]
        refine ⟨lt_of_lt_of_le h3 g.le, ?_⟩
        rw [g.marks a h3]
        exact h4
    · intro k
      unfold World.view
      simp only
      by_cases hki : k = i
      · subst hki
        rw [List.getElem?_set_self hil, hvi]
        simp only [Option.bind_some]
        rw [hs]
        exact h2
      · rw [List.getElem?_set_ne (fun h => hki h.symm)]
        cases hu : w.vars[k]? with
        | none => rfl
        | some u =>
          simp only [Option.bind_some]
          exact HObj.state_grows ok g u (own k) (fun a ha => hv k u a hu ha) (fun _ _ _ h => h)
  cases hvi : w.vars[i]? with
  | none =>
    have hu : w.uncopy H i = w := by unfold World.uncopy; rw [hvi]
    rw [hu]
    exact ⟨hw, rfl, fun _ => rfl, fun v hv => by cases hv⟩
  | some v =>
    by_cases hcof : v.cof = true
    · obtain ⟨k1, k2, k3⟩ := key v hvi hcof (own i) ho
      rw [Function.update_eq_self] at k1
      refine ⟨k1, k2, k3, ?_⟩
      intro u hu _ c hc
      cases hu
      exact (key v hvi hcof c hc).1
    · have hu : w.uncopy H i = w := by
        unfold World.uncopy; rw [hvi]; simp only; rw [if_neg hcof]
      rw [hu]
      refine ⟨hw, rfl, fun _ => rfl, ?_⟩
      intro u hu hc
      cases hu
      exact absurd hc hcof

end Verif
