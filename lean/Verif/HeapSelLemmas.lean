import Verif.HeapSel
import Verif.WorldLemmas
import Verif.GroupSelLemmas

/-!
# Lemmas about objects of derived histograms (helpers for the property theorems)
-/

namespace Verif

/-! ## labels other than the empty one -/

theorem HObj.state_at {H : HistDef} {N : ℕ} {m : Marks} {h : Heap} (ok : HeapOk N m h) (l : List Key) (hl : l.length + H.groups.length = N)
    (v : HObj) (c : Set ℕ) (hv : ∀ a, v.content = some a → a < h.next ∧ (m a).1 = l ∧ (m a).2 ⊆ c) :
    ∃ s, v.state H h = some s ∧ H.DistinctKeys s := by
  unfold HObj.state
  cases hc : v.content with
  | none => exact ⟨none, rfl, trivial⟩
  | some a =>
    obtain ⟨h1, h2, _⟩ := hv a hc
    obtain ⟨c, hd, hdd⟩ := deref_isSome ok H.groups.length a h1 (by rw [h2]; exact hl)
    exact ⟨some c, by simp only [hd, Option.map_some], hdd⟩

theorem HObj.state_grows_at {H : HistDef} {N : ℕ} {m m' : Marks} {h h' : Heap} {W : ℕ → Prop} (ok : HeapOk N m h)
    (g : Grows N W m h m' h') (v : HObj) (c : Set ℕ)
    (hv : ∀ a, v.content = some a → a < h.next ∧ (m a).2 ⊆ c)
    (hW : ∀ x, x < h.next → (m x).2 ⊆ c → ¬ W x) : v.state H h' = v.state H h := by
  unfold HObj.state
  cases hc : v.content with
  | none => rfl
  | some a =>
    obtain ⟨h1, h2⟩ := hv a hc
    simp only
    rw [g.deref ok _ a h1]
    intro x hx _ hcol
    exact hW x hx (hcol.trans h2)

theorem write_at {H : HistDef} {N : ℕ} {m : Marks} {h : Heap} (ok : HeapOk N m h) (l : List Key) (hl : l.length + H.groups.length = N)
    (v : HObj) (c : Set ℕ) (hc : c.Nonempty)
    (hv : ∀ a, v.content = some a → a < h.next ∧ (m a).1 = l ∧ (m a).2 ⊆ c) (s : H.State) (hs : H.DistinctKeys s) :
    ∃ m', Grows N (Below m [] c) m h m' (v.write H h s).1 ∧
      (∀ a, (v.write H h s).2.content = some a → a < (v.write H h s).1.next ∧ (m' a).1 = l ∧ (m' a).2 ⊆ c) ∧
      (v.write H h s).2.state H (v.write H h s).1 = some s ∧ (v.write H h s).2.cof = v.cof ∧
      (v.content = none → Grows N (fun _ => False) m h m' (v.write H h s).1) := by
  unfold HObj.write
  cases s with
  | none =>
    cases v.content <;> exact ⟨m, Grows.refl ok, by simp, rfl, rfl, fun _ => Grows.refl ok⟩
  | some x =>
    cases hvc : v.content with
    | none =>
      obtain ⟨m', g, h1, h2, h3, h4⟩ := newContent_spec c hc H.groups.length x l m h ok hl hs
      refine ⟨m', g.mono (fun _ _ h => h.elim), ?_, ?_, rfl, fun _ => g⟩
      · intro a ha
        simp only [Option.some.injEq] at ha
        subst ha
        rw [h3]
        exact ⟨h2, rfl, subset_rfl⟩
      · simp only [HObj.state]
        rw [h4]; rfl
    | some a =>
      obtain ⟨ha1, ha2, ha3⟩ := hv a hvc
      obtain ⟨m', g, hd⟩ := storeContent_spec H.groups.length x a l (m a).2 m h ok hl hs ha1 (Prod.ext ha2 rfl)
      refine ⟨m', g.mono (fun y _ hy => ⟨List.nil_suffix, hy.2.trans ha3⟩), ?_, ?_, rfl, fun h => by cases h⟩
      · intro b hb
        simp only [hvc, Option.some.injEq] at hb
        subst hb
        exact ⟨lt_of_lt_of_le ha1 g.le, by rw [g.marks a ha1]; exact ⟨ha2, ha3⟩⟩
      · simp only [HObj.state, hvc]
        rw [hd]; rfl

/-- A fill of one histogram changes objects of its own only. -/
theorem fill_at {H : HistDef} {N : ℕ} {m : Marks} {h : Heap} (ok : HeapOk N m h) (l : List Key) (hl : l.length + H.groups.length = N)
    (v : HObj) (c : Set ℕ) (hc : c.Nonempty) (hv : ∀ a, v.content = some a → a < h.next ∧ (m a).1 = l ∧ (m a).2 ⊆ c) (rows : List Row)
    (s : H.State) (hs : v.state H h = some s) :
    ∃ m', Grows N (Below m [] c) m h m' (v.fill H h rows).1 ∧
      (∀ a, (v.fill H h rows).2.content = some a → a < (v.fill H h rows).1.next ∧ (m' a).1 = l ∧ (m' a).2 ⊆ c) ∧
      (v.fill H h rows).2.state H (v.fill H h rows).1 = some (H.fill s rows).after := by
  have hsd : H.DistinctKeys s := by
    obtain ⟨s', h1, h2⟩ := HObj.state_at ok l hl v c hv
    rw [hs] at h1
    cases h1
    exact h2
  have hfd := fill_distinct H s rows hsd
  have hform : v.fill H h rows = ((if v.cof then HObj.fresh H h { v with cof := false } s else (h, v)).2.write H
      (if v.cof then HObj.fresh H h { v with cof := false } s else (h, v)).1 (H.fill s rows).after) := by
    unfold HObj.fill
    rw [hs]
    simp only
    cases H.fill s rows with
    | ok s' => rfl
    | error e => rfl
  rw [hform]
  cases hcof : v.cof with
  | false =>
    simp only [Bool.false_eq_true, if_false]
    obtain ⟨m', g, h1, h2, _, _⟩ := write_at ok l hl v c hc hv (H.fill s rows).after hfd
    exact ⟨m', g, h1, h2⟩
  | true =>
    simp only [if_true]
    obtain ⟨m1, _, h1, h2, _, g1⟩ := write_at ok l hl { v with content := none, cof := false } c hc (fun a ha => by cases ha) s hsd
    have g1 := g1 rfl
    obtain ⟨m2, g2, k1, k2, _, _⟩ := write_at g1.ok l hl (HObj.fresh H h { v with cof := false } s).2 c hc h1 (H.fill s rows).after hfd
    refine ⟨m2, (g1.mono (fun _ _ h => h.elim)).trans g2 ?_, k1, k2⟩
    rintro x hx ⟨hx1, hx2⟩
    rw [g1.marks x hx] at hx1 hx2
    exact ⟨hx1, hx2⟩

/-! ## two histograms -/

/-- What two histograms look like that share nothing. -/
structure Pair.Shows (H H' : HistDef) (p : Pair) (s : H.State) (t : H'.State) : Prop where
  left : p.left.state H p.heap = some s
  right : p.right.state H' p.heap = some t

def Pair.Sep (H H' : HistDef) (A B : Set ℕ) (l : List Key) (p : Pair) : Prop :=
  ∃ m : Marks, HeapOk H.groups.length m p.heap ∧
    (∀ a, p.left.content = some a → a < p.heap.next ∧ (m a).1 = [] ∧ (m a).2 ⊆ A) ∧
    (∀ a, p.right.content = some a → a < p.heap.next ∧ (m a).1 = l ∧ (m a).2 ⊆ B)

theorem pair_step {H H' : HistDef} {A B : Set ℕ} {l : List Key} (hl : l.length + H'.groups.length = H.groups.length) (hA : A.Nonempty)
    (hB : B.Nonempty) (hd : Disjoint A B) {p : Pair} (hp : p.Sep H H' A B l) {s : H.State} {t : H'.State} (hs : p.Shows H H' s t)
    (op : Bool × List Row) :
    (p.step H H' op).Sep H H' A B l ∧
      (p.step H H' op).Shows H H' (if op.1 then (H.fill s op.2).after else s) (if op.1 then t else (H'.fill t op.2).after) := by
  obtain ⟨m, ok, hu, hv⟩ := hp
  obtain ⟨side, rows⟩ := op
  cases side with
  | true =>
    obtain ⟨m', g, h1, h2⟩ := fill_at ok [] (by simp) p.left A hA hu rows s hs.left
    refine ⟨⟨m', g.ok, h1, fun a ha => ?_⟩, ⟨h2, ?_⟩⟩
    · obtain ⟨k1, k2⟩ := hv a ha
      exact ⟨lt_of_lt_of_le k1 g.le, by rw [g.marks a k1]; exact k2⟩
    · refine (HObj.state_grows_at ok g p.right B (fun a ha => ⟨(hv a ha).1, (hv a ha).2.2⟩) ?_).trans hs.right
      rintro x hx hxB ⟨_, hxA⟩
      obtain ⟨y, hy⟩ := ok.owned x hx
      exact Set.disjoint_left.1 hd (hxA hy) (hxB hy)
  | false =>
    obtain ⟨m', g, h1, h2⟩ := fill_at ok l hl p.right B hB hv rows t hs.right
    refine ⟨⟨m', g.ok, fun a ha => ?_, h1⟩, ⟨?_, h2⟩⟩
    · obtain ⟨k1, k2⟩ := hu a ha
      exact ⟨lt_of_lt_of_le k1 g.le, by rw [g.marks a k1]; exact k2⟩
    · refine (HObj.state_grows_at ok g p.left A (fun a ha => ⟨(hu a ha).1, (hu a ha).2.2⟩) ?_).trans hs.left
      rintro x hx hxA ⟨_, hxB⟩
      obtain ⟨y, hy⟩ := ok.owned x hx
      exact Set.disjoint_left.1 hd (hxA hy) (hxB hy)

/-! ## selections on a group axis -/

theorem filterE_deref {β : Type} (test : Test) (f : ℕ → Option β) : ∀ (d : List (Key × ℕ)) (c : List (Key × β)), derefDict f d = some c →
    (∃ e, filterE test d = .error e ∧ filterE test c = .error e) ∨
    ∃ d' c', filterE test d = .ok d' ∧ filterE test c = .ok c' ∧ derefDict f d' = some c' ∧ d'.Sublist d
  | [], c, h => by
    simp only [derefDict, Option.some.injEq] at h
    subst h
    exact Or.inr ⟨[], [], rfl, rfl, rfl, .slnil⟩
  | (k, a) :: d, c, h => by
    simp only [derefDict] at h
    split at h
    · rename_i x rest hx hr
      simp only [Option.some.injEq] at h
      subst h
      simp only [filterE]
      cases ht : test k with
      | error e => exact Or.inl ⟨e, rfl, rfl⟩
      | ok b =>
        rcases filterE_deref test f d rest hr with ⟨e, h1, h2⟩ | ⟨d', c', h1, h2, h3, h4⟩
        · exact Or.inl ⟨e, by simp only [h1], by simp only [h2]⟩
        · right
          simp only [h1, h2]
          cases b
          · exact ⟨d', c', rfl, rfl, h3, h4.cons _⟩
          · exact ⟨(k, a) :: d', (k, x) :: c', rfl, rfl, by simp only [derefDict, hx, h3], h4.cons_cons _⟩
    · cases h

theorem leafAddr_frame {N : ℕ} {m : Marks} {h h' : Heap} (ok : HeapOk N m h) (hf : ∀ x, x < h.next → h'.get x = h.get x) :
    ∀ (n a : ℕ) (gk : List Key), a < h.next → leafAddr h' n a gk = leafAddr h n a gk
  | 0, a, [], ha => by simp only [leafAddr, hf a ha]
  | 0, a, _ :: _, ha => rfl
  | n + 1, a, [], ha => rfl
  | n + 1, a, k :: gk, ha => by
    simp only [leafAddr, hf a ha]
    cases hg : h.get a with
    | none => rfl
    | some o =>
      cases o with
      | arr x => rfl
      | dict d =>
        simp only
        cases hk : dget d k with
        | none => rfl
        | some b =>
          exact leafAddr_frame ok hf n b gk ((ok.dict a d hg).2.2 (k, b) (mem_of_dget d k b hk)).1

theorem dget_sublist : ∀ {d' d : List (Key × ℕ)}, d'.Sublist d → (d.map (·.1)).Nodup → ∀ k x, dget d' k = some x → dget d k = some x := by
  intro d' d hs hn k x h
  exact dget_of_mem d hn (k, x) (hs.subset (mem_of_dget d' k x h))

/-- What a selection on a group axis does with the objects. -/
def FilterSpec (N : ℕ) (test : Test) (i n : ℕ) : Prop :=
  ∀ (m : Marks) (h : Heap) (a : ℕ) (l : List Key) (b : Set ℕ) (c : Content Arr n), HeapOk N m h → l.length + n = N → a < h.next →
    m a = (l, b) → deref h n a = some c →
    (∃ e, filterHeap test i n h a = .error e ∧ filterGroup test i n c = .error e) ∨
    ∃ h' a' c' m', filterHeap test i n h a = .ok (h', a') ∧ filterGroup test i n c = .ok c' ∧ Grows N (fun _ => False) m h m' h' ∧
      a' < h'.next ∧ m' a' = (l, b) ∧ deref h' n a' = some c' ∧ ∀ gk x, leafAddr h' n a' gk = some x → leafAddr h n a gk = some x

theorem mapHeapDict_spec {N n i : ℕ} (test : Test) (hrec : FilterSpec N test i n) (l : List Key) (b : Set ℕ) (hl : l.length + (n + 1) = N) :
    ∀ (d : List (Key × ℕ)) (m : Marks) (h : Heap) (c : List (Key × Content Arr n)), HeapOk N m h →
      (∀ p ∈ d, p.2 < h.next ∧ (m p.2).1 = p.1 :: l ∧ (m p.2).2 ⊆ b) → derefDict (deref h n) d = some c →
      (∃ e, mapHeapDict (filterHeap test i n) d h = .error e ∧ mapValsE (filterGroup test i n) c = .error e) ∨
      ∃ h' d' c' m', mapHeapDict (filterHeap test i n) d h = .ok (h', d') ∧ mapValsE (filterGroup test i n) c = .ok c' ∧
        Grows N (fun _ => False) m h m' h' ∧ (∀ p ∈ d', p.2 < h'.next ∧ (m' p.2).1 = p.1 :: l ∧ (m' p.2).2 ⊆ b) ∧
        d'.map (·.1) = d.map (·.1) ∧ derefDict (deref h' n) d' = some c' ∧
        ∀ k y, dget d' k = some y → ∃ z, dget d k = some z ∧ ∀ gk x, leafAddr h' n y gk = some x → leafAddr h n z gk = some x
  | [], m, h, c, ok, _, hc => by
    simp only [derefDict, Option.some.injEq] at hc
    subst hc
    exact Or.inr ⟨h, [], [], m, rfl, rfl, Grows.refl ok, by simp, rfl, rfl, fun k y hy => by cases hy⟩
  | (k, a) :: d, m, h, c, ok, hd, hc => by
    simp only [derefDict] at hc
    split at hc
    · rename_i x rest hx hr
      simp only [Option.some.injEq] at hc
      subst hc
      obtain ⟨ha1, ha2, ha3⟩ := hd (k, a) (by simp)
      simp only [mapHeapDict, mapValsE]
      rcases hrec m h a (k :: l) (m a).2 x ok (by simp only [List.length_cons]; omega) ha1 (Prod.ext ha2 rfl) hx with
        ⟨e, h1, h2⟩ | ⟨h1, a', x', m1, r1, r2, g1, r3, r4, r5, r6⟩
      · exact Or.inl ⟨e, by simp only [h1], by simp only [h2]⟩
      · simp only [r1, r2]
        rcases mapHeapDict_spec test hrec l b hl d m1 h1 rest g1.ok (fun p hp => by
            obtain ⟨q1, q2, q3⟩ := hd p (by simp [hp])
            exact ⟨lt_of_lt_of_le q1 g1.le, by rw [g1.marks _ q1]; exact ⟨q2, q3⟩⟩) (by
            rw [← hr]
            exact derefDict_congr _ _ d (fun p hp => g1.deref ok n _ (hd p (by simp [hp])).1 (fun _ _ _ _ h => h))) with
          ⟨e, k1, k2⟩ | ⟨h2, d', c', m2, k1, k2, g2, k3, k4, k5, k6⟩
        · exact Or.inl ⟨e, by simp only [k1], by simp only [k2]⟩
        · right
          refine ⟨h2, (k, a') :: d', (k, x') :: c', m2, by simp only [k1], by simp only [k2], g1.trans g2 (fun _ _ h => h), ?_, by simp [k4], ?_, ?_⟩
          · intro p hp
            rcases List.mem_cons.1 hp with rfl | hp
            · exact ⟨lt_of_lt_of_le r3 g2.le, by simp only; rw [g2.marks _ r3, r4]; exact ⟨rfl, ha3⟩⟩
            · exact k3 p hp
          · simp only [derefDict]
            rw [k5, g2.deref g1.ok n _ r3 (fun _ _ _ _ h => h), r5]
          · intro k' y hy
            by_cases hkk : k = k'
            · subst hkk
              have hy : some a' = some y := by simpa [dget] using hy
              cases hy
              refine ⟨a, by simp [dget], fun gk z hz => r6 gk z ?_⟩
              rw [← hz]
              exact (leafAddr_frame g1.ok (fun w hw => g2.frame w hw (fun h => h)) n a' gk r3).symm
            · have hy : dget d' k' = some y := by simpa [dget, hkk] using hy
              obtain ⟨z, z1, z2⟩ := k6 k' y hy
              refine ⟨z, by simpa [dget, hkk] using z1, fun gk w hw => ?_⟩
              rw [← leafAddr_frame ok (fun w hw => g1.frame w hw (fun h => h)) n z gk (hd (k', z) (by simp [mem_of_dget d k' z z1])).1]
              exact z2 gk w hw
    · cases hc

theorem filterHeap_spec {N : ℕ} (test : Test) : ∀ (i n : ℕ), FilterSpec N test i n
  | i, 0, m, h, a, l, b, c, ok, hl, ha, hm, hc => by
    right
    refine ⟨h, a, c, m, ?_, ?_, Grows.refl ok, ha, hm, hc, fun _ _ h => h⟩
    · cases i <;> rfl
    · cases i <;> rfl
  | 0, n + 1, m, h, a, l, b, c, ok, hl, ha, hm, hc => by
    obtain ⟨d, hg⟩ := ok.not_arr ha (by rw [hm]; show l.length < N; omega)
    rw [deref_dict hg] at hc
    obtain ⟨o1, o2, o3⟩ := ok.dict a d hg
    simp only [filterHeap, hg, filterGroup]
    rcases filterE_deref test _ d c hc with ⟨e, h1, h2⟩ | ⟨d', c', h1, h2, h3, h4⟩
    · exact Or.inl ⟨e, by simp only [h1], h2⟩
    · right
      obtain ⟨m', g, e1, e2, e3, e4⟩ := alloc_spec ok (.dict d') l b (by have := ok.owned a ha; rw [hm] at this; exact this)
        (fun x hx => by cases hx) (fun d'' hd'' => by
          cases hd''
          refine ⟨by omega, (h4.map _).nodup o2, fun p hp => ?_⟩
          have := o3 p (h4.subset hp)
          rw [hm] at this
          exact this)
      refine ⟨_, _, c', m', by simp only [h1]; exact congrArg _ (Prod.ext rfl e1), h2, g, by rw [e3]; omega, e2, ?_, ?_⟩
      · rw [deref_dict e4]
        refine Eq.trans ?_ h3
        exact derefDict_congr _ _ d' (fun p hp => g.deref ok n _ (o3 p (h4.subset hp)).1 (fun _ _ _ _ h => h))
      · intro gk x hx
        cases gk with
        | nil => cases hx
        | cons k gk =>
          simp only [leafAddr, e4, hg] at hx ⊢
          obtain ⟨y, hy, hx⟩ := Option.bind_eq_some_iff.1 hx
          have hy' := dget_sublist h4 o2 k y hy
          rw [hy', Option.bind_some, ← hx]
          exact (leafAddr_frame ok (fun w hw => g.frame w hw (fun h => h)) n y gk (o3 (k, y) (mem_of_dget d k y hy')).1).symm
  | i + 1, n + 1, m, h, a, l, b, c, ok, hl, ha, hm, hc => by
    obtain ⟨d, hg⟩ := ok.not_arr ha (by rw [hm]; show l.length < N; omega)
    rw [deref_dict hg] at hc
    obtain ⟨o1, o2, o3⟩ := ok.dict a d hg
    rw [hm] at o3
    simp only [filterHeap, hg, filterGroup]
    rcases mapHeapDict_spec test (filterHeap_spec test i n) l b hl d m h c ok o3 hc with
      ⟨e, h1, h2⟩ | ⟨h1, d', c', m1, k1, k2, g1, k3, k4, k5, k6⟩
    · exact Or.inl ⟨e, by simp only [h1], h2⟩
    · right
      obtain ⟨m', g, e1, e2, e3, e4⟩ := alloc_spec g1.ok (.dict d') l b (by have := ok.owned a ha; rw [hm] at this; exact this)
        (fun x hx => by cases hx) (fun d'' hd'' => by
          cases hd''
          exact ⟨by omega, by rw [k4]; exact o2, k3⟩)
      refine ⟨_, _, c', m', by simp only [k1]; exact congrArg _ (Prod.ext rfl e1), k2, g1.trans g (fun _ _ h => h), by rw [e3]; omega, e2, ?_, ?_⟩
      · rw [deref_dict e4]
        refine Eq.trans ?_ k5
        exact derefDict_congr _ _ d' (fun p hp => g.deref g1.ok n _ (k3 p hp).1 (fun _ _ _ _ h => h))
      · intro gk x hx
        cases gk with
        | nil => cases hx
        | cons k gk =>
          simp only [leafAddr, e4, hg] at hx ⊢
          obtain ⟨y, hy, hx⟩ := Option.bind_eq_some_iff.1 hx
          obtain ⟨z, hz, hz2⟩ := k6 k y hy
          rw [hz, Option.bind_some]
          apply hz2 gk x
          rw [← hx]
          exact (leafAddr_frame g1.ok (fun w hw => g.frame w hw (fun h => h)) n y gk (k3 (k, y) (mem_of_dget d' k y hy)).1).symm

/-! ## operations that make new arrays -/

theorem newDict_frame {n : ℕ} (hrec : ∀ (c : Content Arr n) (h : Heap), h.next ≤ (newContent n c h).1.next ∧
      ∀ x, x < h.next → (newContent n c h).1.get x = h.get x) : ∀ (d : List (Key × Content Arr n)) (h : Heap),
    h.next ≤ (newDict (newContent n) d h).1.next ∧ ∀ x, x < h.next → (newDict (newContent n) d h).1.get x = h.get x
  | [], h => ⟨le_refl _, fun _ _ => rfl⟩
  | (k, c) :: d, h => by
    obtain ⟨h1, h2⟩ := hrec c h
    obtain ⟨h3, h4⟩ := newDict_frame hrec d (newContent n c h).1
    refine ⟨le_trans h1 h3, fun x hx => ?_⟩
    exact (h4 x (lt_of_lt_of_le hx h1)).trans (h2 x hx)

theorem alloc_frame (h : Heap) (o : Obj) : h.next ≤ (h.alloc o).1.next ∧ ∀ x, x < h.next → (h.alloc o).1.get x = h.get x := by
  refine ⟨Nat.le_succ _, fun x hx => ?_⟩
  simp only [Heap.alloc]
  rw [if_neg (by omega)]

theorem newContent_frame : ∀ (n : ℕ) (c : Content Arr n) (h : Heap), h.next ≤ (newContent n c h).1.next ∧
    ∀ x, x < h.next → (newContent n c h).1.get x = h.get x
  | 0, (x : Arr), h => alloc_frame h (.arr x)
  | n + 1, (d : List (Key × Content Arr n)), h => by
    obtain ⟨h1, h2⟩ := newDict_frame (fun c h => newContent_frame n c h) d h
    obtain ⟨h3, h4⟩ := alloc_frame (newDict (newContent n) d h).1 (.dict (newDict (newContent n) d h).2)
    exact ⟨le_trans h1 h3, fun x hx => (h4 x (lt_of_lt_of_le hx h1)).trans (h2 x hx)⟩

theorem mapHeapDict_new {n : ℕ} (f : Arr → Arr) (h0 : Heap)
    (hrec : ∀ (a : ℕ) (c : Content Arr n), a < h0.next → deref h0 n a = some c → ∀ h : Heap, h0.next ≤ h.next →
      (∀ x, x < h0.next → h.get x = h0.get x) → mapHeap f n h a = .ok (newContent n (mapLeaves f n c) h)) :
    ∀ (d : List (Key × ℕ)) (c : List (Key × Content Arr n)), (∀ p ∈ d, p.2 < h0.next) → derefDict (deref h0 n) d = some c →
      ∀ h : Heap, h0.next ≤ h.next → (∀ x, x < h0.next → h.get x = h0.get x) →
      mapHeapDict (mapHeap f n) d h = .ok (newDict (newContent n) (c.map (fun p => (p.1, mapLeaves f n p.2))) h)
  | [], c, _, hc, h, _, _ => by
    simp only [derefDict, Option.some.injEq] at hc
    subst hc
    rfl
  | (k, a) :: d, c, hd, hc, h, hle, hf => by
    simp only [derefDict] at hc
    split at hc
    · rename_i x rest hx hr
      simp only [Option.some.injEq] at hc
      subst hc
      simp only [List.map_cons, mapHeapDict, newDict]
      rw [hrec a x (hd (k, a) (by simp)) hx h hle hf]
      obtain ⟨h1, h2⟩ := newContent_frame n (mapLeaves f n x) h
      have := mapHeapDict_new f h0 hrec d rest (fun p hp => hd p (by simp [hp])) hr (newContent n (mapLeaves f n x) h).1 (le_trans hle h1)
        (fun y hy => (h2 y (lt_of_lt_of_le hy hle)).trans (hf y hy))
      simp only [this]
    · cases hc

/-- The arrays of the result are new, and no old object is changed. -/
theorem mapHeap_new {N : ℕ} {m : Marks} (f : Arr → Arr) (h0 : Heap) (ok : HeapOk N m h0) : ∀ (n a : ℕ) (c : Content Arr n), a < h0.next →
    deref h0 n a = some c → ∀ h : Heap, h0.next ≤ h.next → (∀ x, x < h0.next → h.get x = h0.get x) →
    mapHeap f n h a = .ok (newContent n (mapLeaves f n c) h)
  | 0, a, c, ha, hc, h, hle, hf => by
    cases hg : h0.get a with
    | none => simp [deref, hg] at hc
    | some o =>
      cases o with
      | dict d => simp [deref, hg] at hc
      | arr x =>
        simp only [deref, hg] at hc
        cases hc
        simp only [mapHeap, hf a ha, hg]
        rfl
  | n + 1, a, (c : List (Key × Content Arr n)), ha, hc, h, hle, hf => by
    cases hg : h0.get a with
    | none => simp [deref, hg] at hc
    | some o =>
      cases o with
      | arr x => simp [deref, hg] at hc
      | dict d =>
        rw [deref_dict hg] at hc
        obtain ⟨_, _, h3⟩ := ok.dict a d hg
        have := mapHeapDict_new f h0 (fun a c => mapHeap_new f h0 ok n a c) d c (fun p hp => (h3 p hp).1) hc h hle hf
        simp only [mapHeap, hf a ha, hg, this]
        rfl

end Verif
