import Verif.HeapSelLemmas

/-!
# What a fill keeps

A fill changes arrays in place and adds entries to dicts, but takes none away: the array of a group stays
the same object.
-/

namespace Verif

/-- All keys of the first content are in the second one. -/
def KeysLe : (n : ℕ) → Content Arr n → Content Arr n → Prop
  | 0, _, _ => True
  | n + 1, (c : List (Key × Content Arr n)), (d : List (Key × Content Arr n)) =>
    ∀ k x, dget c k = some x → ∃ y, dget d k = some y ∧ KeysLe n x y

theorem KeysLe.refl : ∀ (n : ℕ) (c : Content Arr n), KeysLe n c c
  | 0, _ => trivial
  | n + 1, c => fun k x hx => ⟨x, hx, KeysLe.refl n x⟩

theorem KeysLe.trans : ∀ (n : ℕ) (a b c : Content Arr n), KeysLe n a b → KeysLe n b c → KeysLe n a c
  | 0, _, _, _, _, _ => trivial
  | n + 1, a, b, c, h, h' => by
    intro k x hx
    obtain ⟨y, hy, hxy⟩ := h k x hx
    obtain ⟨z, hz, hyz⟩ := h' k y hy
    exact ⟨z, hz, KeysLe.trans n x y z hxy hyz⟩

theorem keysLe_dset {n : ℕ} (d : List (Key × Content Arr n)) (k : Key) (v : Content Arr n) (h : ∀ x, dget d k = some x → KeysLe n x v) :
    KeysLe (n + 1) d (dset d k v) := by
  intro k' x hx
  rw [dget_dset]
  by_cases hk : k' = k
  · subst hk
    exact ⟨v, by simp, h x hx⟩
  · exact ⟨x, by simp [hk, hx], KeysLe.refl n x⟩

theorem filldictLoop_keysLe {n : ℕ} (L : Layout) (rec : Content Arr n → Rows → List Bool → Res (Content Arr n))
    (hrec : ∀ c r s, KeysLe n c (rec c r s).after) (inverse : List ℤ) (r : Rows)
    (all : Option (List Bool)) : ∀ (us : List (ℕ × Key)) (d : List (Key × Content Arr n)),
    KeysLe (n + 1) d (filldictLoop L rec inverse r all us d).after
  | [], d => KeysLe.refl (n + 1) d
  | (idx, u) :: us, d => by
    simp only [filldictLoop]
    split
    · exact KeysLe.refl (n + 1) d
    · rename_i inv _
      have he : KeysLe (n + 1) d (ensureKey d u (emptyContent L n) : List (Key × Content Arr n)) := by
        unfold ensureKey
        split
        · exact KeysLe.refl (n + 1) d
        · rename_i hn
          apply keysLe_dset
          intro x hx
          rw [hn] at hx
          cases hx
      split
      · exact he
      · rename_i sub hsub
        split
        · exact he
        · rename_i r' _
          have hr := fun sel => hrec sub r' sel
          have hds : ∀ c', KeysLe n sub c' → KeysLe (n + 1) d (dset (ensureKey d u (emptyContent L n)) u c' : List (Key × Content Arr n)) := by
            intro c' hc'
            refine KeysLe.trans (n + 1) _ _ _ he (keysLe_dset _ u c' ?_)
            intro x hx
            rw [hsub] at hx
            cases hx
            exact hc'
          split
          · rename_i e c' hc'
            have hr := hr (nextSelection all inverse idx (List.map (fun i => decide (i = (idx : ℤ))) inv))
            rw [hc'] at hr
            exact hds c' hr
          · rename_i c' hc'
            have hr := hr (nextSelection all inverse idx (List.map (fun i => decide (i = (idx : ℤ))) inv))
            rw [hc'] at hr
            exact KeysLe.trans (n + 1) _ _ _ (hds c' hr) (filldictLoop_keysLe L rec hrec inverse r all us _)

theorem filldict_keysLe (L : Layout) (length : ℕ) : ∀ (n : ℕ) (gs : List (Option (List Key × List ℤ))) (c : Content Arr n)
    (r : Rows) (all : Option (List Bool)), KeysLe n c (filldict L length n gs c r all).after
  | 0, _, _, _, _ => trivial
  | n + 1, gs, (d : List (Key × Content Arr n)), r, all => by
    match gs with
    | [] => simp only [filldict]; exact KeysLe.refl (n + 1) d
    | none :: _ => simp only [filldict]; exact KeysLe.refl (n + 1) d
    | some (u, inv) :: gs =>
      simp only [filldict]
      exact filldictLoop_keysLe L _ (fun c r s => filldict_keysLe L length n gs c r (some s)) inv r all _ d

theorem fill_keysLe (H : HistDef) (st : H.State) (rows : List Row) :
    ∃ c', (H.fill st rows).after = some c' ∧ KeysLe H.groups.length (prefill H.layout st) c' := by
  unfold HistDef.fill
  simp only
  split
  · exact ⟨_, rfl, KeysLe.refl _ _⟩
  · rename_i d _
    have hq : KeysLe H.groups.length (prefill H.layout st) (postfill H.layout rows.length d (prefill H.layout st)).after := by
      unfold postfill
      split
      · exact KeysLe.refl _ _
      · split
        · exact KeysLe.refl _ _
        · exact filldict_keysLe _ _ _ _ _ _ _
    split
    · rename_i e c' hc
      rw [hc] at hq; exact ⟨c', rfl, hq⟩
    · rename_i c' hc
      rw [hc] at hq; exact ⟨c', rfl, hq⟩

/-! ## objects -/

/-- Arrays stay arrays, and dicts keep their entries. -/
structure HeapKeeps (h h' : Heap) : Prop where
  arr : ∀ x y, h.get x = some (.arr y) → ∃ y', h'.get x = some (.arr y')
  dict : ∀ x d, h.get x = some (.dict d) → ∃ d', h'.get x = some (.dict d') ∧ ∀ k a, dget d k = some a → dget d' k = some a

theorem HeapKeeps.refl (h : Heap) : HeapKeeps h h := ⟨fun _ y hy => ⟨y, hy⟩, fun _ d hd => ⟨d, hd, fun _ _ h => h⟩⟩

theorem HeapKeeps.trans {h h' h'' : Heap} (k : HeapKeeps h h') (k' : HeapKeeps h' h'') : HeapKeeps h h'' := by
  constructor
  · intro x y hy
    obtain ⟨y', hy'⟩ := k.arr x y hy
    exact k'.arr x y' hy'
  · intro x d hd
    obtain ⟨d', hd', h1⟩ := k.dict x d hd
    obtain ⟨d'', hd'', h2⟩ := k'.dict x d' hd'
    exact ⟨d'', hd'', fun key a ha => h2 key a (h1 key a ha)⟩

theorem Grows.keeps {N : ℕ} {m m' : Marks} {h h' : Heap} (ok : HeapOk N m h) (g : Grows N (fun _ => False) m h m' h') : HeapKeeps h h' := by
  have key : ∀ x o, h.get x = some o → h'.get x = some o := by
    intro x o ho
    rw [g.frame x _ (fun h => h), ho]
    by_contra hx
    rw [ok.free x (by omega)] at ho
    cases ho
  exact ⟨fun x y hy => ⟨y, key x _ hy⟩, fun x d hd => ⟨d, key x _ hd, fun _ _ h => h⟩⟩

theorem HeapKeeps.leafAddr {h h' : Heap} (k : HeapKeeps h h') : ∀ (n a : ℕ) (gk : List Key) (x : ℕ), leafAddr h n a gk = some x →
    leafAddr h' n a gk = some x
  | 0, a, [], x, hx => by
    simp only [Verif.leafAddr] at hx ⊢
    split at hx
    · rename_i y hy
      obtain ⟨y', hy'⟩ := k.arr a y hy
      rw [hy']
      exact hx
    · cases hx
  | 0, a, _ :: _, x, hx => by simp [Verif.leafAddr] at hx
  | n + 1, a, [], x, hx => by simp [Verif.leafAddr] at hx
  | n + 1, a, key :: gk, x, hx => by
    simp only [Verif.leafAddr] at hx ⊢
    split at hx
    · rename_i d hd
      obtain ⟨d', hd', h1⟩ := k.dict a d hd
      rw [hd']
      simp only
      cases hg : dget d key with
      | none => rw [hg] at hx; cases hx
      | some b =>
        rw [hg] at hx
        rw [h1 key b hg]
        exact k.leafAddr n b gk x hx
    · cases hx

/-- What one reads in a group is in the array of the group. -/
theorem lookup_leafAddr {h : Heap} : ∀ (n a : ℕ) (c : Content Arr n) (gk : List Key) (x : ℕ), deref h n a = some c →
    Verif.leafAddr h n a gk = some x → ∃ y, h.get x = some (.arr y) ∧ ∀ idx col, lookup n c gk idx col = y.get idx col
  | 0, a, c, [], x, hc, hx => by
    cases hg : h.get a with
    | none => simp [deref, hg] at hc
    | some o =>
      cases o with
      | dict d => simp [deref, hg] at hc
      | arr y =>
        simp only [deref, hg] at hc
        cases hc
        simp only [leafAddr, hg, Option.some.injEq] at hx
        subst hx
        exact ⟨_, hg, fun _ _ => rfl⟩
  | 0, a, c, _ :: _, x, hc, hx => by simp [leafAddr] at hx
  | n + 1, a, c, [], x, hc, hx => by simp [leafAddr] at hx
  | n + 1, a, c, key :: gk, x, hc, hx => by
    cases hg : h.get a with
    | none => simp [deref, hg] at hc
    | some o =>
      cases o with
      | arr y => simp [deref, hg] at hc
      | dict d =>
        rw [deref_dict hg] at hc
        simp only [leafAddr, hg] at hx
        have hk := deref_dict_mem hc key
        cases hd : dget d key with
        | none => rw [hd] at hx; cases hx
        | some b =>
          rw [hd] at hx hk
          simp only [Option.bind_some] at hx hk
          cases hb : deref h n b with
          | none =>
            exfalso
            rw [hb] at hk
            have := dget_isSome_derefDict hc key
            rw [hd, ← hk] at this
            simp at this
          | some c' =>
            obtain ⟨y, h1, h2⟩ := lookup_leafAddr n b c' gk x hb hx
            refine ⟨y, h1, fun idx col => ?_⟩
            rw [← h2 idx col]
            rw [hb] at hk
            simp only [lookup]
            rw [← hk]

theorem storeDict_keeps {N n : ℕ} (l : List Key) (b : Set ℕ) (hb : b.Nonempty) (hl : l.length + (n + 1) = N) (old : List (Key × ℕ))
    (hrec : ∀ (c c0 : Content Arr n) (a : ℕ) (l : List Key) (b : Set ℕ) (m : Marks) (h : Heap), HeapOk N m h → l.length + n = N →
      Distinct n c → a < h.next → m a = (l, b) → deref h n a = some c0 → KeysLe n c0 c → HeapKeeps h (storeContent n c h a)) :
    ∀ (d : List (Key × Content Arr n)) (m : Marks) (h : Heap), HeapOk N m h → (d.map (·.1)).Nodup → (∀ p ∈ d, Distinct n p.2) →
      (∀ p ∈ old, p.2 < h.next ∧ (m p.2).1 = p.1 :: l ∧ (m p.2).2 ⊆ b) →
      (∀ p ∈ d, ∀ a, dget old p.1 = some a → ∃ x0, deref h n a = some x0 ∧ KeysLe n x0 p.2) →
      HeapKeeps h (storeDict (storeContent n) (newContent n) old d h).1 ∧
        ∀ k a, dget old k = some a → k ∈ d.map (·.1) → dget (storeDict (storeContent n) (newContent n) old d h).2 k = some a
  | [], m, h, _, _, _, _, _ => ⟨HeapKeeps.refl h, fun _ _ _ h => by cases h⟩
  | (k, x) :: d, m, h, ok, hn, hd, ho, hx => by
    simp only [List.map_cons, List.nodup_cons] at hn
    obtain ⟨h1, a, m1, hh1, g1, kp, ha⟩ : ∃ h1 a m1, storeDict (storeContent n) (newContent n) old ((k, x) :: d) h =
        ((storeDict (storeContent n) (newContent n) old d h1).1, (k, a) :: (storeDict (storeContent n) (newContent n) old d h1).2) ∧
        Grows N (Below m (k :: l) b) m h m1 h1 ∧ HeapKeeps h h1 ∧ (∀ a', dget old k = some a' → a' = a) := by
      simp only [storeDict]
      cases hk : dget old k with
      | some a =>
        obtain ⟨ha1, ha2⟩ := ho (k, a) (mem_of_dget old k a hk)
        obtain ⟨m1, g1, _⟩ := storeContent_spec n x a (k :: l) (m a).2 m h ok (by simp only [List.length_cons]; omega)
          (hd (k, x) (by simp)) ha1 (Prod.ext ha2.1 rfl)
        obtain ⟨x0, e1, e2⟩ := hx (k, x) (by simp) a hk
        refine ⟨_, a, m1, rfl, g1.mono (fun y _ hy => ⟨hy.1, hy.2.trans ha2.2⟩), ?_, fun a' h => by cases h; rfl⟩
        exact hrec x x0 a (k :: l) (m a).2 m h ok (by simp only [List.length_cons]; omega) (hd (k, x) (by simp)) ha1
          (Prod.ext ha2.1 rfl) e1 e2
      | none =>
        obtain ⟨m1, g1, _, _, _, _⟩ := newContent_spec b hb n x (k :: l) m h ok (by simp only [List.length_cons]; omega)
          (hd (k, x) (by simp))
        exact ⟨_, _, m1, rfl, g1.mono (fun _ _ h => h.elim), g1.keeps ok, fun a' h => by cases h⟩
    obtain ⟨k1, k2⟩ := storeDict_keeps l b hb hl old hrec d m1 h1 g1.ok hn.2 (fun p hp => hd p (by simp [hp]))
      (fun p hp => ⟨lt_of_lt_of_le (ho p hp).1 g1.le, by rw [g1.marks _ (ho p hp).1]; exact (ho p hp).2⟩) (by
        intro p hp a' ha'
        obtain ⟨x0, e1, e2⟩ := hx p (by simp [hp]) a' ha'
        refine ⟨x0, ?_, e2⟩
        obtain ⟨o1, o2, o3⟩ := ho (p.1, a') (mem_of_dget old p.1 a' ha')
        rw [g1.deref ok n a' o1, e1]
        rintro y _ h3 _ ⟨h4, _⟩
        simp only at o2
        rw [o2] at h3
        have : p.1 = k := suffix_cons_inj h3 h4
        exact hn.1 (this ▸ List.mem_map_of_mem (f := (·.1)) hp))
    rw [hh1]
    refine ⟨kp.trans k1, fun k' a' ha' hk' => ?_⟩
    simp only
    rw [dget_cons]
    split
    · rename_i hkk
      subst hkk
      rw [ha a' ha']
    · rename_i hkk
      apply k2 k' a' ha'
      simp only [List.map_cons, List.mem_cons] at hk'
      rcases hk' with h | h
      · exact absurd h.symm hkk
      · exact h

theorem storeContent_keeps {N : ℕ} : ∀ (n : ℕ) (c c0 : Content Arr n) (a : ℕ) (l : List Key) (b : Set ℕ) (m : Marks) (h : Heap), HeapOk N m h →
    l.length + n = N → Distinct n c → a < h.next → m a = (l, b) → deref h n a = some c0 → KeysLe n c0 c → HeapKeeps h (storeContent n c h a)
  | 0, c, c0, a, l, b, m, h, ok, hl, hd, ha, hm, hc, _ => by
    cases hg : h.get a with
    | none => simp [deref, hg] at hc
    | some o =>
      cases o with
      | dict d => simp [deref, hg] at hc
      | arr y =>
        constructor
        · intro x z hz
          by_cases hx : x = a
          · exact ⟨c, by simp [storeContent, Heap.set, hx]⟩
          · exact ⟨z, by simp [storeContent, Heap.set, hx, hz]⟩
        · intro x d hd
          by_cases hx : x = a
          · subst hx
            rw [hg] at hd
            cases hd
          · exact ⟨d, by simp [storeContent, Heap.set, hx, hd], fun _ _ h => h⟩
  | n + 1, (d : List (Key × Content Arr n)), c0, a, l, b, m, h, ok, hl, hd, ha, hm, hc, hk => by
    have hb : b.Nonempty := by have := ok.owned a ha; rw [hm] at this; exact this
    obtain ⟨old, hold⟩ := ok.not_arr ha (by rw [hm]; simp only; omega)
    obtain ⟨_, on, oe⟩ := ok.dict a old hold
    rw [hm] at oe
    rw [deref_dict hold] at hc
    obtain ⟨k1, k2⟩ := storeDict_keeps l b hb hl old
      (fun c c0 a l b m h => storeContent_keeps n c c0 a l b m h) d m h ok hd.1 hd.2 oe (by
        intro p hp a' ha'
        have h1 := deref_dict_mem hc p.1
        rw [ha'] at h1
        simp only [Option.bind_some] at h1
        have h2 := dget_isSome_derefDict hc p.1
        rw [ha'] at h2
        cases hx : dget (c0 : List (Key × Content Arr n)) p.1 with
        | none => rw [hx] at h2; simp at h2
        | some x0 =>
          rw [hx] at h1
          obtain ⟨y, hy, hxy⟩ := hk p.1 x0 hx
          rw [dget_of_mem d hd.1 p hp] at hy
          cases hy
          exact ⟨x0, h1, hxy⟩)
    have hst : storeContent (n + 1) d h a = (storeDict (storeContent n) (newContent n) old d h).1.set a
        (.dict (storeDict (storeContent n) (newContent n) old d h).2) := by
      simp only [storeContent, hold]
    rw [hst]
    constructor
    · intro x y hy
      by_cases hx : x = a
      · subst hx
        rw [hold] at hy
        cases hy
      · obtain ⟨y', hy'⟩ := k1.arr x y hy
        exact ⟨y', by simp [Heap.set, hx, hy']⟩
    · intro x e he
      by_cases hx : x = a
      · subst hx
        rw [hold] at he
        cases he
        refine ⟨_, by simp [Heap.set], fun key a' ha' => k2 key a' ha' ?_⟩
        have h2 := dget_isSome_derefDict hc key
        rw [ha'] at h2
        cases hx : dget (c0 : List (Key × Content Arr n)) key with
        | none => rw [hx] at h2; simp at h2
        | some x0 =>
          obtain ⟨y, hy, _⟩ := hk key x0 hx
          exact List.mem_map_of_mem (f := (·.1)) (mem_of_dget d key y hy)
      · obtain ⟨d', hd', h1⟩ := k1.dict x e he
        exact ⟨d', by simp [Heap.set, hx, hd'], h1⟩

theorem leafAddr_of_has {h : Heap} : ∀ (n a : ℕ) (c : Content Arr n) (gk : List Key), deref h n a = some c → gk.length = n →
    HasGroup n c gk → ∃ x, leafAddr h n a gk = some x
  | 0, a, c, [], hc, _, _ => by
    cases hg : h.get a with
    | none => simp [deref, hg] at hc
    | some o =>
      cases o with
      | dict d => simp [deref, hg] at hc
      | arr y => exact ⟨a, by simp only [leafAddr, hg]⟩
  | 0, a, c, _ :: _, hc, hl, hh => by cases hh
  | n + 1, a, c, [], hc, hl, hh => by simp at hl
  | n + 1, a, c, key :: gk, hc, hl, hh => by
    cases hg : h.get a with
    | none => simp [deref, hg] at hc
    | some o =>
      cases o with
      | arr y => simp [deref, hg] at hc
      | dict d =>
        rw [deref_dict hg] at hc
        obtain ⟨c', h1, h2⟩ := hh
        have hk := deref_dict_mem hc key
        cases hd : dget d key with
        | none => rw [hd, h1] at hk; cases hk
        | some b =>
          rw [hd, h1] at hk
          obtain ⟨x, hx⟩ := leafAddr_of_has n b c' gk hk (by simpa using hl) h2
          exact ⟨x, by simp only [leafAddr, hg, hd]; exact hx⟩

/-! ## fills in a program -/

theorem uncopy_keeps {H : HistDef} {own : ℕ → Set ℕ} {w : World} (hw : w.Sep H own) (i : ℕ) (ho : (own i).Nonempty) :
    HeapKeeps w.heap (w.uncopy H i).heap ∧ ∀ (k : ℕ) (v : HObj), w.vars[k]? = some v → v.cof = false → (w.uncopy H i).vars[k]? = some v := by
  unfold World.uncopy
  split
  · exact ⟨HeapKeeps.refl _, fun _ _ h _ => h⟩
  · rename_i u hu
    split
    · rename_i hcof
      obtain ⟨m, ok, hv⟩ := hw
      obtain ⟨s, hs, hsd⟩ := HObj.state_distinct ok u (own i) (fun a ha => hv i _ a hu ha)
      rw [hs]
      simp only
      obtain ⟨m', _, _, _, _, w5⟩ := write_at (H := H) ok [] (by simp) ⟨none, false⟩ (own i) ho (by simp) s hsd
      refine ⟨(w5 rfl).keeps ok, fun k v hk hf => ?_⟩
      rw [List.getElem?_set_ne, hk]
      rintro rfl
      rw [hu] at hk
      cases hk
      rw [hf] at hcof
      cases hcof
    · exact ⟨HeapKeeps.refl _, fun _ _ h _ => h⟩

theorem write_keeps {H : HistDef} {m : Marks} {h : Heap} (ok : HeapOk H.groups.length m h) (v : HObj) (c : Set ℕ) (hc : c.Nonempty)
    (hv : ∀ a, v.content = some a → a < h.next ∧ (m a).1 = [] ∧ (m a).2 ⊆ c) (s : H.State) (hs : v.state H h = some s) (rows : List Row) :
    HeapKeeps h (v.write H h (H.fill s rows).after).1 ∧
      ∀ a, v.content = some a → (v.write H h (H.fill s rows).after).2 = v := by
  have hsd : H.DistinctKeys s := by
    obtain ⟨s', h1, h2⟩ := HObj.state_distinct ok v c hv
    rw [hs] at h1
    cases h1
    exact h2
  have hfd := fill_distinct H s rows hsd
  obtain ⟨c', e1, e2⟩ := fill_keysLe H s rows
  rw [e1] at hfd ⊢
  unfold HObj.write
  cases hvc : v.content with
  | none =>
    obtain ⟨m', g, _⟩ := newContent_spec c hc H.groups.length c' [] m h ok (by simp) hfd
    exact ⟨g.keeps ok, fun a h => by cases h⟩
  | some a =>
    obtain ⟨h1, h2, h3⟩ := hv a hvc
    refine ⟨?_, fun _ _ => rfl⟩
    unfold HObj.state at hs
    rw [hvc] at hs
    simp only at hs
    cases hd : deref h H.groups.length a with
    | none => rw [hd] at hs; cases hs
    | some c0 =>
      rw [hd] at hs
      simp only [Option.map_some, Option.some.injEq] at hs
      subst hs
      exact storeContent_keeps H.groups.length c' c0 a [] (m a).2 m h ok (by simp) hfd h1 (Prod.ext h2 rfl) hd e2

theorem inplace_keeps {H : HistDef} {own : ℕ → Set ℕ} {w : World} (hw : w.Sep H own) (i : ℕ) (ho : (own i).Nonempty) (rows : List Row) :
    HeapKeeps w.heap (w.inplace H i (fun s => H.fill s rows)).1.heap ∧
    ∀ (k : ℕ) (v : HObj) (a : ℕ), w.vars[k]? = some v → v.content = some a → (w.inplace H i (fun s => H.fill s rows)).1.vars[k]? = some v := by
  unfold World.inplace
  split
  · exact ⟨HeapKeeps.refl _, fun _ _ _ h _ => h⟩
  · rename_i u hu
    obtain ⟨m, ok, hv⟩ := hw
    obtain ⟨s, hs, hsd⟩ := HObj.state_distinct ok u (own i) (fun a ha => hv i _ a hu ha)
    obtain ⟨k1, k2⟩ := write_keeps ok u (own i) ho (fun a ha => hv i _ a hu ha) s hs rows
    have key : ∀ (k : ℕ) (v : HObj) (a : ℕ), w.vars[k]? = some v → v.content = some a →
        (w.vars.set i (u.write H w.heap (H.fill s rows).after).2)[k]? = some v := by
      intro k v a hk hc
      by_cases hik : i = k
      · subst hik
        rw [hu] at hk
        cases hk
        rw [k2 a hc, List.getElem?_set_self (List.getElem?_eq_some_iff.1 hu).1]
      · rw [List.getElem?_set_ne hik, hk]
    rw [hs]
    simp only
    split
    · rename_i s' h'
      rw [h'] at k1 key
      exact ⟨k1, key⟩
    · rename_i e s' h'
      rw [h'] at k1 key
      exact ⟨k1, key⟩

/-- A fill of any histogram of a program keeps the objects of all groups of all histograms, except for
those that were made with `copyonfill`. -/
theorem fill_keeps {H : HistDef} {own : ℕ → Set ℕ} {w : World} (hw : w.Sep H own) (i : ℕ) (ho : (own i).Nonempty) (rows : List Row) :
    HeapKeeps w.heap (w.step H (.fill i rows)).1.heap ∧
    ∀ (k : ℕ) (v : HObj) (a : ℕ), w.vars[k]? = some v → v.cof = false → v.content = some a → (w.step H (.fill i rows)).1.vars[k]? = some v := by
  obtain ⟨h1, h2⟩ := uncopy_keeps hw i ho
  obtain ⟨h3, h4⟩ := inplace_keeps (uncopy_spec hw i ho).1 i ho rows
  exact ⟨h1.trans h3, fun k v a hk hf hc => h4 k v a (h2 k v hk hf) hc⟩

end Verif
