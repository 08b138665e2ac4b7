import Verif.SpecBookArith
import Verif.BookLemmas
import Verif.PropsBookHistory

/-!
# Lemmas on the arithmetic of books
-/

namespace Verif

variable {α : Type}

/-! ## Entries as a list -/

/-- `items[n]`. -/
def lookupI (n : Str) (l : List (Str × BT α)) : Option (BT α) := (l.find? fun p => p.1 = n).map (·.2)

theorem find_items (n : Str) : ∀ x : BL α, x.find n = lookupI n x.items
  | .nil => rfl
  | .cons m y r => by
    rw [BL.find, BL.items, lookupI, List.find?_cons]
    by_cases h : m = n
    · simp [h]
    · simp only [h, if_false, decide_false]
      rw [find_items n r]; rfl

theorem keys_items : ∀ x : BL α, x.keys = x.items.map (·.1)
  | .nil => rfl
  | .cons m y r => by rw [BL.keys, BL.items, List.map_cons, keys_items r]

theorem wf_items : ∀ x : BL α, x.WF ↔ ∀ p ∈ x.items, '/' ∉ p.1 ∧ p.2.WF
  | .nil => by simp [BL.WF, BL.items]
  | .cons m y r => by simp [BL.WF, BL.items, wf_items r, and_assoc]

theorem flat_items : ∀ x : BL α, x.flat = x.items.flatMap fun p => p.2.flat
  | .nil => rfl
  | .cons m y r => by rw [BL.flat, BL.items, List.flatMap_cons, flat_items r]

theorem put_items {n : Str} {v : BT α} : ∀ {x : BL α}, n ∉ x.keys → (x.put n v).items = x.items ++ [(n, v)]
  | .nil, _ => rfl
  | .cons m y r, h => by
    simp only [BL.keys, List.mem_cons, not_or] at h
    rw [BL.put, if_neg (fun e => h.1 e.symm), BL.items, BL.items, put_items h.2]
    rfl

theorem lookupI_mem {n : Str} {v : BT α} {l : List (Str × BT α)} (hn : (l.map (·.1)).Nodup) :
    lookupI n l = some v ↔ (n, v) ∈ l := by
  induction l with
  | nil => simp [lookupI]
  | cons p r ih =>
    obtain ⟨m, y⟩ := p
    rw [List.map_cons, List.nodup_cons] at hn
    unfold lookupI at ih ⊢
    rw [List.find?_cons]
    by_cases h : m = n
    · subst h
      simp only [decide_true, Option.map_some, Option.some.injEq, List.mem_cons, Prod.mk.injEq, true_and]
      refine ⟨fun e => .inl e.symm, fun e => ?_⟩
      rcases e with e | e
      · exact e.symm
      · exact absurd (List.mem_map.2 ⟨_, e, rfl⟩) hn.1
    · simp only [h, decide_false, List.mem_cons, Prod.mk.injEq]
      rw [ih hn.2]
      refine ⟨.inr, fun e => ?_⟩
      rcases e with e | e
      · exact absurd e.1.symm h
      · exact e

theorem lookupI_none {n : Str} {l : List (Str × BT α)} : lookupI n l = none ↔ n ∉ l.map (·.1) := by
  unfold lookupI
  simp only [Option.map_eq_none_iff, List.find?_eq_none, decide_eq_true_eq, List.mem_map, not_exists, not_and]

theorem find_some_items {n : Str} {v : BT α} {x : BL α} (hn : x.keys.Nodup) : x.find n = some v ↔ (n, v) ∈ x.items := by
  rw [find_items, lookupI_mem (by rwa [← keys_items])]

/-- Making a book from entries with different names without slashes. -/
theorem setEach_items {o : HistOps α} {c : BClass} : ∀ (items : List (Str × BT α)) {f : Fields α} {x : BL α} {b : BT α},
    (∀ p ∈ items, '/' ∉ p.1) → ((x.items ++ items).map (·.1)).Nodup → setEach o items (.book c f x) = .ok b →
    ∃ f' x', b = .book c f' x' ∧ x'.items = x.items ++ items
  | [], f, x, b, _, _, h => by cases h; exact ⟨f, x, rfl, by simp⟩
  | (n, v) :: r, f, x, b, hs, hn, h => by
    rw [setEach, BT.setitem, comps_self (hs (n, v) (by simp)), BT.setP] at h
    cases hc : (BT.book c f (x.put n v)).changed o with
    | error e => rw [hc] at h; cases h
    | ok b1 =>
      rw [hc] at h
      obtain ⟨f1, rfl⟩ := changed_ok hc
      have hx : n ∉ x.keys := by
        rw [keys_items]
        rw [List.map_append, List.map_cons] at hn
        exact fun hm => (List.nodup_append.1 hn).2.2 _ hm _ List.mem_cons_self rfl
      have hp := put_items (v := v) hx
      obtain ⟨f2, x2, h1, h2⟩ := setEach_items r (x := x.put n v) (fun p hp => hs p (by simp [hp]))
        (by rw [hp]; simpa using hn) h
      exact ⟨f2, x2, h1, by rw [h2, hp]; simp⟩

theorem mkBook_items {o : HistOps α} {c : BClass} {items : List (Str × BT α)} {b : BT α} (hs : ∀ p ∈ items, '/' ∉ p.1)
    (hn : (items.map (·.1)).Nodup) (h : mkBook o c items = .ok b) : ∃ f x, b = .book c f x ∧ x.items = items := by
  unfold mkBook at h
  cases hx : setEach o items (.book c .absent .nil) with
  | error e => rw [hx] at h; cases h
  | ok b1 =>
    rw [hx] at h
    obtain ⟨f1, x1, rfl, h1⟩ := setEach_items items (x := .nil) hs (by simpa [BL.items] using hn) hx
    obtain ⟨f2, rfl⟩ := changed_ok h
    exact ⟨f2, x1, rfl, by simpa [BL.items] using h1⟩

theorem setEach_isOk {o : HistOps α} {c : BClass} (hc : c ≠ .systematics) : ∀ (items : List (Str × BT α)) (f : Fields α)
    (x : BL α), (∀ p ∈ items, '/' ∉ p.1) → ∃ b, setEach o items (.book c f x) = .ok b
  | [], f, x, _ => ⟨_, rfl⟩
  | (n, v) :: r, f, x, hs => by
    rw [setEach, BT.setitem, comps_self (hs (n, v) (by simp)), BT.setP]
    obtain ⟨b, hb⟩ := changed_isOk (o := o) hc f (x.put n v)
    obtain ⟨f', rfl⟩ := changed_ok hb
    rw [hb]
    exact setEach_isOk hc r f' _ fun p hp => hs p (by simp [hp])

theorem mkBook_isOk {o : HistOps α} {c : BClass} (hc : c ≠ .systematics) {items : List (Str × BT α)}
    (hs : ∀ p ∈ items, '/' ∉ p.1) (hn : (items.map (·.1)).Nodup) : ∃ b, mkBook o c items = .ok b := by
  obtain ⟨b, hb⟩ := setEach_isOk (o := o) hc items .absent .nil hs
  obtain ⟨f1, x1, rfl, -⟩ := setEach_items items (x := .nil) hs (by simpa [BL.items] using hn) hb
  obtain ⟨b', hb'⟩ := changed_isOk (o := o) hc f1 x1
  exact ⟨b', by unfold mkBook; rw [hb]; exact hb'⟩

theorem flat_find {n : Str} {y : BT α} {i : α} : ∀ {x : BL α}, x.find n = some y → i ∈ y.flat → i ∈ x.flat
  | .nil, hf, _ => by cases hf
  | .cons m z r, hf, hi => by
    rw [BL.find] at hf
    rw [BL.flat, List.mem_append]
    by_cases hm : m = n
    · rw [if_pos hm] at hf; cases hf; exact .inl hi
    · rw [if_neg hm] at hf; exact .inr (flat_find hf hi)

theorem flat_at : ∀ {p : List Str} {b : BT α} {i : α}, b.at p = some (.hist i) → i ∈ b.flat
  | [], b, i, h => by cases h; simp [BT.flat]
  | n :: p, .hist h, i, h' => by cases h'
  | n :: p, .book c f x, i, h => by
    rw [BT.at] at h
    cases hf : x.find n with
    | none => rw [hf] at h; cases h
    | some y =>
      rw [hf] at h
      exact flat_find hf (flat_at (b := y) h)

/-! ## Sums -/

section
variable {V : Type} {A : HistArith V} {o : List V → HistOps ℕ}

theorem prefix_get {s s' : List V} (h : s <+: s') {i : ℕ} (hi : i < s.length) : s'[i]? = s[i]? := by
  obtain ⟨t, rfl⟩ := h
  rw [List.getElem?_append_left hi]

theorem prefix_some {s s' : List V} (h : s <+: s') {i : ℕ} {u : V} (hu : s[i]? = some u) : s'[i]? = some u := by
  rw [prefix_get h (List.getElem?_eq_some_iff.1 hu).1, hu]

theorem SumAt.mono {s s1 s2 s' : List V} (h1 : s <+: s1) (h2 : s2 <+: s') {x y r : Option (BT ℕ)}
    (hx : ∀ i, x = some (.hist i) → i < s.length) (hy : ∀ i, y = some (.hist i) → i < s.length)
    (h : SumAt A s1 s2 x y r) : SumAt A s s' x y r := by
  match x, y with
  | some x, none => exact h
  | none, y => exact h
  | some (.hist i), some (.hist j) =>
    obtain ⟨k, u, v, z, e1, e2, e3, e4, e5, e6⟩ := h
    rw [prefix_get h1 (hx i rfl)] at e4
    rw [prefix_get h1 (hy j rfl)] at e5
    exact ⟨k, u, v, z, e1, h1.length_le.trans e2, prefix_some h2 e3, e4, e5, e6⟩
  | some (.book c _ _), some (.book _ _ _) => exact h
  | some (.hist i), some (.book _ _ _) => exact h
  | some (.book _ _ _), some (.hist _) => exact h

theorem newHist_ok {s s' : List V} {e : Except Err V} {r : BT ℕ} (h : newHist s e = .ok (s', r)) :
    ∃ z, e = .ok z ∧ s' = s ++ [z] ∧ r = .hist s.length := by
  cases e with
  | error e => cases h
  | ok z => cases h; exact ⟨z, rfl, rfl, rfl⟩

theorem fromItems_ok {c : BClass} {s s' : List V} {items : List (Str × BT ℕ)} {r : BT ℕ}
    (hs : ∀ p ∈ items, '/' ∉ p.1) (hn : (items.map (·.1)).Nodup) (h : fromItems o c (s, items) = .ok (s', r)) :
    s' = s ∧ ∃ f x, r = .book c f x ∧ x.items = items := by
  unfold fromItems at h
  simp only at h
  cases hm : mkBook (o s) c items with
  | error e => rw [hm] at h; cases h
  | ok b =>
    rw [hm] at h
    simp only [made] at h
    cases h
    exact ⟨rfl, mkBook_items hs hn hm⟩

theorem mem_onlyRight {x y : BL ℕ} {n : Str} {v : BT ℕ} : (n, v) ∈ onlyRight x y ↔
    (n, v) ∈ y.items ∧ isGlob n = false ∧ x.find n = none := by
  simp [onlyRight, List.mem_filter, Option.isNone_iff_eq_none]

mutual
theorem plus_T (a b : BT ℕ) (s s' : List V) (r : BT ℕ) (ha : a.WF) (hb : b.WF) (ra : ∀ i ∈ a.flat, i < s.length)
    (rb : ∀ i ∈ b.flat, i < s.length) (hg : ∀ p x, b.at p = some x → ∀ n ∈ p, isGlob n = false)
    (h : a.plus A o s b = .ok (s', r)) :
    s <+: s' ∧ r.WF ∧ (∀ i ∈ r.flat, i < s'.length) ∧ ∀ p, SumAt A s s' (a.at p) (b.at p) (r.at p) := by
  match a, b with
  | .hist i, .hist j =>
    rw [BT.plus] at h
    cases hi : s[i]? with
    | none => simp [hi] at h
    | some u =>
      cases hj : s[j]? with
      | none => simp [hi, hj] at h
      | some v =>
        rw [hi, hj] at h
        obtain ⟨z, hz, rfl, rfl⟩ := newHist_ok h
        refine ⟨List.prefix_append _ _, trivial, by simp [BT.flat], fun p => ?_⟩
        cases p with
        | nil => exact ⟨s.length, u, v, z, rfl, le_rfl, by simp, hi, hj, hz⟩
        | cons n t => rfl
  | .hist _, .book _ _ _ => cases h
  | .book _ _ _, .hist _ => cases h
  | .book c f x, .book d g y =>
    rw [BT.plus] at h
    cases hl : BL.plus A o s x y with
    | error e => rw [hl] at h; cases h
    | ok q =>
      obtain ⟨s1, L⟩ := q
      rw [hl] at h
      simp only at h
      have hgy : ∀ n v, y.find n = some v → isGlob n = false ∧ ∀ p x, v.at p = some x → ∀ m ∈ p, isGlob m = false := by
        intro n v hv
        refine ⟨hg [n] v (by simp [BT.at, hv]) n (by simp), fun p x hp m hm => ?_⟩
        exact hg (n :: p) x (by simp [BT.at, hv, hp]) m (by simp [hm])
      obtain ⟨h1, h2, h3, h4, h5⟩ := plus_L x y s s1 L ha.1 ha.2 hb.2 ra rb (fun n v hv => (hgy n v hv).2) hl
      have hyn : (y.items.map (·.1)).Nodup := by rw [← keys_items]; exact hb.1
      have hname : ∀ p ∈ L ++ onlyRight x y, '/' ∉ p.1 ∧ p.2.WF := by
        intro p hp
        rcases List.mem_append.1 hp with hp | hp
        · exact ⟨(by
            obtain ⟨u, hu, -⟩ := h5 p.1 p.2 hp
            exact (ha.2.find hu).1), (h3 p hp).1⟩
        · exact (wf_items y).1 hb.2 p (mem_onlyRight.1 hp).1
      have hnd : ((L ++ onlyRight x y).map (·.1)).Nodup := by
        rw [List.map_append, h2]
        refine List.nodup_append.2 ⟨ha.1, ?_, ?_⟩
        · exact List.Nodup.sublist (List.Sublist.map _ List.filter_sublist) hyn
        · rintro n hn m hm rfl
          obtain ⟨q, hq, rfl⟩ := List.mem_map.1 hm
          exact (find_none_iff _ _).1 (mem_onlyRight.1 hq).2.2 hn
      obtain ⟨rfl, f', z, rfl, hz⟩ := fromItems_ok (fun p hp => (hname p hp).1) hnd h
      have hzk : z.keys.Nodup := by rw [keys_items, hz]; exact hnd
      refine ⟨h1, ⟨hzk, (wf_items z).2 (by rw [hz]; exact hname)⟩, ?_, fun p => ?_⟩
      · intro i hi
        rw [BT.flat, flat_items, hz, List.mem_flatMap] at hi
        obtain ⟨q, hq, hi⟩ := hi
        rcases List.mem_append.1 hq with hq | hq
        · exact (h3 q hq).2 i hi
        · refine lt_of_lt_of_le (rb i ?_) h1.length_le
          rw [BT.flat, flat_items, List.mem_flatMap]
          exact ⟨q, (mem_onlyRight.1 hq).1, hi⟩
      · cases p with
        | nil => exact ⟨f', z, rfl⟩
        | cons n t =>
          simp only [BT.at]
          cases hx : x.find n with
          | none =>
            have hzn : z.find n = y.find n := by
              cases hy : y.find n with
              | none =>
                rw [find_items, lookupI_none, hz, List.map_append, h2, List.mem_append, not_or]
                refine ⟨(find_none_iff _ _).1 hx, fun hm => ?_⟩
                obtain ⟨q, hq, rfl⟩ := List.mem_map.1 hm
                exact (find_none_iff _ _).1 hy (by
                  rw [keys_items]; exact List.mem_map.2 ⟨q, (mem_onlyRight.1 hq).1, rfl⟩)
              | some v =>
                rw [find_some_items hzk, hz]
                exact List.mem_append_right _ (mem_onlyRight.2 ⟨(find_some_items hb.1).1 hy, (hgy n v hy).1, hx⟩)
            rw [hzn]
            simp only [Option.bind_none]
            cases (y.find n).bind (BT.at t) <;> rfl
          | some u =>
            have hmem : n ∈ L.map (·.1) := by rw [h2]; exact (mem_keys_iff n x).2 ⟨u, hx⟩
            obtain ⟨q, hq, rfl⟩ := List.mem_map.1 hmem
            have hzn : z.find q.1 = some q.2 := by
              rw [find_some_items hzk, hz]
              exact List.mem_append_left _ hq
            obtain ⟨u', hu', hcase⟩ := h5 q.1 q.2 hq
            rw [hx] at hu'
            cases hu'
            rw [hzn]
            simp only [Option.bind_some]
            cases hy : y.find q.1 with
            | none =>
              rw [hy] at hcase
              simp only at hcase
              rw [hcase]
              simp only [Option.bind_none]
              cases u.at t <;> rfl
            | some w =>
              rw [hy] at hcase
              exact hcase t
theorem plus_L (x y : BL ℕ) (s s' : List V) (L : List (Str × BT ℕ)) (hn : x.keys.Nodup) (hx : x.WF) (hy : y.WF)
    (rx : ∀ i ∈ x.flat, i < s.length) (ry : ∀ i ∈ y.flat, i < s.length)
    (hg : ∀ n v, y.find n = some v → ∀ p x, v.at p = some x → ∀ m ∈ p, isGlob m = false)
    (h : x.plus A o s y = .ok (s', L)) :
    s <+: s' ∧ L.map (·.1) = x.keys ∧ (∀ p ∈ L, p.2.WF ∧ ∀ i ∈ p.2.flat, i < s'.length) ∧
      (∀ p ∈ L, isGlob p.1 = false) ∧
      ∀ n v, (n, v) ∈ L → ∃ u, x.find n = some u ∧
        match y.find n with
        | none => v = u
        | some w => ∀ p, SumAt A s s' (u.at p) (w.at p) (v.at p) := by
  match x with
  | .nil =>
    cases h
    simp [BL.keys]
  | .cons n x r =>
    rw [BL.plus] at h
    rw [BL.keys, List.nodup_cons] at hn
    rw [BL.WF] at hx
    by_cases hgl : isGlob n = true
    · rw [if_pos hgl] at h; cases h
    rw [if_neg hgl] at h
    have rx' : ∀ i ∈ x.flat, i < s.length := fun i hi => rx i (by rw [BL.flat]; simp [hi])
    have rr' : ∀ i ∈ r.flat, i < s.length := fun i hi => rx i (by rw [BL.flat]; simp [hi])
    cases hf : y.find n with
    | none =>
      rw [hf] at h
      simp only at h
      cases hl : r.plus A o s y with
      | error e => rw [hl] at h; cases h
      | ok q =>
        obtain ⟨s1, L1⟩ := q
        rw [hl] at h
        simp only [consItem] at h
        cases h
        obtain ⟨h1, h2, h3, h4, h5⟩ := plus_L r y s s' L1 hn.2 hx.2.2 hy rr' ry hg hl
        refine ⟨h1, by rw [List.map_cons, h2, BL.keys], ?_, ?_, ?_⟩
        · intro p hp
          rcases List.mem_cons.1 hp with rfl | hp
          · exact ⟨hx.2.1, fun i hi => lt_of_lt_of_le (rx' i hi) h1.length_le⟩
          · exact h3 p hp
        · intro p hp
          rcases List.mem_cons.1 hp with rfl | hp
          · simpa using hgl
          · exact h4 p hp
        · intro m v hm
          rcases List.mem_cons.1 hm with e | hm
          · cases e
            exact ⟨x, by rw [BL.find, if_pos rfl], by rw [hf]⟩
          · obtain ⟨u, hu, hc⟩ := h5 m v hm
            have hne : n ≠ m := fun e => hn.1 (e ▸ (mem_keys_iff m r).2 ⟨u, hu⟩)
            exact ⟨u, by rw [BL.find, if_neg hne, hu], hc⟩
    | some w =>
      rw [hf] at h
      simp only at h
      cases ht : x.plus A o s w with
      | error e => rw [ht] at h; cases h
      | ok q =>
        obtain ⟨s1, b⟩ := q
        rw [ht] at h
        simp only at h
        cases hl : r.plus A o s1 y with
        | error e => rw [hl] at h; cases h
        | ok q =>
          obtain ⟨s2, L1⟩ := q
          rw [hl] at h
          simp only [consItem] at h
          cases h
          have rw' : ∀ i ∈ w.flat, i < s.length := fun i hi => ry i (flat_find hf hi)
          obtain ⟨g1, g2, g3, g4⟩ := plus_T x w s s1 b hx.2.1 (hy.find hf).2 rx' rw' (hg n w hf) ht
          have up : ∀ {i}, i < s.length → i < s1.length := fun hi => lt_of_lt_of_le hi g1.length_le
          obtain ⟨h1, h2, h3, h4, h5⟩ := plus_L r y s1 s' L1 hn.2 hx.2.2 hy (fun i hi => up (rr' i hi))
            (fun i hi => up (ry i hi)) hg hl
          refine ⟨g1.trans h1, by rw [List.map_cons, h2, BL.keys], ?_, ?_, ?_⟩
          · intro p hp
            rcases List.mem_cons.1 hp with rfl | hp
            · exact ⟨g2, fun i hi => lt_of_lt_of_le (g3 i hi) h1.length_le⟩
            · exact h3 p hp
          · intro p hp
            rcases List.mem_cons.1 hp with rfl | hp
            · simpa using hgl
            · exact h4 p hp
          · intro m v hm
            rcases List.mem_cons.1 hm with e | hm
            · cases e
              refine ⟨x, by rw [BL.find, if_pos rfl], ?_⟩
              rw [hf]
              intro p
              exact SumAt.mono (List.prefix_refl s) h1 (fun i hi => rx' i (flat_at hi)) (fun i hi => rw' i (flat_at hi)) (g4 p)
            · obtain ⟨u, hu, hc⟩ := h5 m v hm
              have hne : n ≠ m := fun e => hn.1 (e ▸ (mem_keys_iff m r).2 ⟨u, hu⟩)
              refine ⟨u, by rw [BL.find, if_neg hne, hu], ?_⟩
              cases hym : y.find m with
              | none => rw [hym] at hc; exact hc
              | some w' =>
                rw [hym] at hc
                intro p
                exact SumAt.mono g1 (List.prefix_refl s') (fun i hi => rr' i (flat_find hu (flat_at hi)))
                  (fun i hi => ry i (flat_find hym (flat_at hi))) (hc p)
end

/-! ## New books with new histograms -/

theorem AddOk.mono {s s' : List V} (h : s <+: s') {x y : BT ℕ} (hx : AddOk A s x y) : AddOk A s' x y := by
  match x, y with
  | .hist i, .hist j =>
    obtain ⟨u, v, z, h1, h2, h3⟩ := hx
    exact ⟨u, v, z, prefix_some h h1, prefix_some h h2, h3⟩
  | .book c _ _, .book _ _ _ => exact hx
  | .hist i, .book _ _ _ => exact hx
  | .book _ _ _, .hist j => exact hx

mutual
theorem plus_isOk_T (a b : BT ℕ) (s : List V) (ha : a.WF) (hb : b.WF) 
    (hg : ∀ p x, a.at p = some x → ∀ n ∈ p, isGlob n = false)
    (hk : ∀ p x y, a.at p = some x → b.at p = some y → AddOk A s x y) :
    ∃ s' r, a.plus A o s b = .ok (s', r) ∧ s <+: s' := by
  have h0 := hk [] a b rfl rfl
  match a, b with
  | .hist i, .hist j =>
    obtain ⟨u, v, z, h1, h2, h3⟩ := h0
    exact ⟨s ++ [z], .hist s.length, by rw [BT.plus, h1, h2]; simp only [h3, newHist], List.prefix_append _ _⟩
  | .hist _, .book _ _ _ => exact absurd h0 id
  | .book _ _ _, .hist _ => exact absurd h0 id
  | .book c f x, .book d g y =>
    obtain ⟨s1, L, h1, h2, h3⟩ := plus_isOk_L x y s ha.1 ha.2 hb.2 (fun n v hv p u hp m hm => by
        refine hg (n :: p) u ?_ m hm
        rw [BT.at, hv]; exact hp)
      (fun n u v hu hv p x' y' hp hq => hk (n :: p) x' y' (by rw [BT.at, hu]; exact hp) (by rw [BT.at, hv]; exact hq))
    have hs : ∀ p ∈ L ++ onlyRight x y, '/' ∉ p.1 := by
      intro p hp
      rcases List.mem_append.1 hp with hp | hp
      · have : p.1 ∈ x.keys := by rw [← h3]; exact List.mem_map.2 ⟨p, hp, rfl⟩
        obtain ⟨u, hu⟩ := (mem_keys_iff _ _).1 this
        exact (ha.2.find hu).1
      · exact ((wf_items y).1 hb.2 p (mem_onlyRight.1 hp).1).1
    have hnd : ((L ++ onlyRight x y).map (·.1)).Nodup := by
      rw [List.map_append, h3]
      refine List.nodup_append.2 ⟨ha.1, ?_, ?_⟩
      · have hyn : (y.items.map (·.1)).Nodup := by rw [← keys_items]; exact hb.1
        exact List.Nodup.sublist (List.Sublist.map _ List.filter_sublist) hyn
      · rintro n hn m hm rfl
        obtain ⟨q, hq, rfl⟩ := List.mem_map.1 hm
        exact (find_none_iff _ _).1 (mem_onlyRight.1 hq).2.2 hn
    obtain ⟨b, hb⟩ := mkBook_isOk (o := o s1) h0 hs hnd
    exact ⟨s1, b, by rw [BT.plus, h1]; simp only [fromItems, hb, made], h2⟩
theorem plus_isOk_L (x y : BL ℕ) (s : List V) (hn : x.keys.Nodup) (hx : x.WF) (hy : y.WF)
    (hg : ∀ n v, x.find n = some v → ∀ p u, v.at p = some u → ∀ m ∈ n :: p, isGlob m = false)
    (hk : ∀ n u v, x.find n = some u → y.find n = some v → ∀ p x' y', u.at p = some x' → v.at p = some y' →
      AddOk A s x' y') :
    ∃ s' L, x.plus A o s y = .ok (s', L) ∧ s <+: s' ∧ L.map (·.1) = x.keys := by
  match x with
  | .nil => exact ⟨s, [], rfl, List.prefix_refl _, rfl⟩
  | .cons n x r =>
    rw [BL.keys, List.nodup_cons] at hn
    rw [BL.WF] at hx
    have hself : (BL.cons n x r).find n = some x := by rw [BL.find, if_pos rfl]
    have hother : ∀ {m v}, r.find m = some v → (BL.cons n x r).find m = some v := by
      intro m v hv
      rw [BL.find, if_neg (fun (e : n = m) => hn.1 (e ▸ (mem_keys_iff m r).2 ⟨v, hv⟩)), hv]
    have hgl : ¬ isGlob n = true := by
      rw [hg n x hself [] x rfl n (by simp)]; decide
    rw [BL.plus, if_neg hgl]
    cases hf : y.find n with
    | none =>
      obtain ⟨s1, L, h1, h2, h3⟩ := plus_isOk_L r y s hn.2 hx.2.2 hy (fun m v hv => hg m v (hother hv))
        (fun m u v hu hv => hk m u v (hother hu) hv)
      exact ⟨s1, (n, x) :: L, by simp only [h1, consItem], h2, by rw [List.map_cons, h3, BL.keys]⟩
    | some w =>
      obtain ⟨s1, b, h1, h2⟩ := plus_isOk_T x w s hx.2.1 (hy.find hf).2
        (fun p u hp m hm => hg n x hself p u hp m (by simp [hm])) (hk n x w hself hf)
      obtain ⟨s2, L, h3, h4, h5⟩ := plus_isOk_L r y s1 hn.2 hx.2.2 hy (fun m v hv => hg m v (hother hv))
        (fun m u v hu hv p x' y' hp hq => (hk m u v (hother hu) hv p x' y' hp hq).mono h2)
      exact ⟨s2, (n, b) :: L, by simp only [h1, h3, consItem], h2.trans h4, by rw [List.map_cons, h5, BL.keys]⟩
end


theorem MapAt.mono {g : V → Except Err V} {s s1 s2 s' : List V} (h1 : s <+: s1) (h2 : s2 <+: s') {x r : Option (BT ℕ)}
    (hx : ∀ i, x = some (.hist i) → i < s.length) (h : MapAt g s1 s2 x r) : MapAt g s s' x r := by
  match x with
  | none => exact h
  | some (.hist i) =>
    obtain ⟨k, u, z, e1, e2, e3, e4, e5⟩ := h
    rw [prefix_get h1 (hx i rfl)] at e4
    exact ⟨k, u, z, e1, h1.length_le.trans e2, prefix_some h2 e3, e4, e5⟩
  | some (.book c _ _) => exact h

mutual
theorem mapNew_T (g : V → Except Err V) (a : BT ℕ) (s s' : List V) (r : BT ℕ) (ha : a.WF)
    (ra : ∀ i ∈ a.flat, i < s.length) (h : a.mapNew o g s = .ok (s', r)) :
    s <+: s' ∧ r.WF ∧ s'.length = s.length + a.flat.length ∧ r.flat = List.range' s.length a.flat.length ∧
      ∀ p, MapAt g s s' (a.at p) (r.at p) := by
  match a with
  | .hist i =>
    rw [BT.mapNew] at h
    cases hi : s[i]? with
    | none => simp [hi] at h
    | some u =>
      rw [hi] at h
      obtain ⟨z, hz, rfl, rfl⟩ := newHist_ok h
      refine ⟨List.prefix_append _ _, trivial, by simp [BT.flat], by simp [BT.flat], fun p => ?_⟩
      cases p with
      | nil => exact ⟨s.length, u, z, rfl, le_rfl, by simp, hi, hz⟩
      | cons n t => rfl
  | .book c f x =>
    rw [BT.mapNew] at h
    cases hl : BL.mapNew o g s x with
    | error e => rw [hl] at h; cases h
    | ok q =>
      obtain ⟨s1, L⟩ := q
      rw [hl] at h
      simp only at h
      obtain ⟨h1, h2, h3, h4, h5, h6⟩ := mapNew_L g x s s1 L ha.1 ha.2 ra hl
      have hnd : (L.map (·.1)).Nodup := by rw [h2]; exact ha.1
      have hslash : ∀ p ∈ L, '/' ∉ p.1 := by
        intro p hp
        obtain ⟨u, hu, -⟩ := h6 p.1 p.2 hp
        exact (ha.2.find hu).1
      obtain ⟨rfl, f', z, rfl, hz⟩ := fromItems_ok hslash hnd h
      have hzk : z.keys.Nodup := by rw [keys_items, hz]; exact hnd
      refine ⟨h1, ⟨hzk, (wf_items z).2 (by rw [hz]; exact fun p hp => ⟨hslash p hp, h3 p hp⟩)⟩, h4, ?_, fun p => ?_⟩
      · rw [BT.flat, flat_items, hz]; exact h5
      · cases p with
        | nil => exact ⟨f', z, rfl⟩
        | cons n t =>
          simp only [BT.at]
          cases hx : x.find n with
          | none =>
            have hzn : z.find n = none := by
              rw [find_items, lookupI_none, hz, h2]
              exact (find_none_iff _ _).1 hx
            rw [hzn]; rfl
          | some u =>
            have hmem : n ∈ L.map (·.1) := by rw [h2]; exact (mem_keys_iff n x).2 ⟨u, hx⟩
            obtain ⟨q, hq, rfl⟩ := List.mem_map.1 hmem
            have hzn : z.find q.1 = some q.2 := by
              rw [find_some_items hzk, hz]; exact hq
            obtain ⟨u', hu', hc⟩ := h6 q.1 q.2 hq
            rw [hx] at hu'
            cases hu'
            rw [hzn]
            exact hc t
theorem mapNew_L (g : V → Except Err V) (x : BL ℕ) (s s' : List V) (L : List (Str × BT ℕ)) (hn : x.keys.Nodup)
    (hx : x.WF) (rx : ∀ i ∈ x.flat, i < s.length) (h : x.mapNew o g s = .ok (s', L)) :
    s <+: s' ∧ L.map (·.1) = x.keys ∧ (∀ p ∈ L, p.2.WF) ∧ s'.length = s.length + x.flat.length ∧
      (L.flatMap fun p => p.2.flat) = List.range' s.length x.flat.length ∧
      ∀ n v, (n, v) ∈ L → ∃ u, x.find n = some u ∧ ∀ p, MapAt g s s' (u.at p) (v.at p) := by
  match x with
  | .nil => cases h; simp [BL.keys, BL.flat]
  | .cons n x r =>
    rw [BL.mapNew] at h
    rw [BL.keys, List.nodup_cons] at hn
    rw [BL.WF] at hx
    have rx' : ∀ i ∈ x.flat, i < s.length := fun i hi => rx i (by rw [BL.flat]; simp [hi])
    have rr' : ∀ i ∈ r.flat, i < s.length := fun i hi => rx i (by rw [BL.flat]; simp [hi])
    cases ht : x.mapNew o g s with
    | error e => rw [ht] at h; cases h
    | ok q =>
      obtain ⟨s1, b⟩ := q
      rw [ht] at h
      simp only at h
      cases hl : r.mapNew o g s1 with
      | error e => rw [hl] at h; cases h
      | ok q =>
        obtain ⟨s2, L1⟩ := q
        rw [hl] at h
        simp only [consItem] at h
        cases h
        obtain ⟨g1, g2, g3, g4, g5⟩ := mapNew_T g x s s1 b hx.2.1 rx' ht
        have up : ∀ {i}, i < s.length → i < s1.length := fun hi => lt_of_lt_of_le hi g1.length_le
        obtain ⟨h1, h2, h3, h4, h5, h6⟩ := mapNew_L g r s1 s' L1 hn.2 hx.2.2 (fun i hi => up (rr' i hi)) hl
        refine ⟨g1.trans h1, by rw [List.map_cons, h2, BL.keys], ?_, ?_, ?_, ?_⟩
        · intro p hp
          rcases List.mem_cons.1 hp with rfl | hp
          · exact g2
          · exact h3 p hp
        · rw [h4, g3, BL.flat, List.length_append]; omega
        · rw [List.flatMap_cons, g4, h5, g3, BL.flat, List.length_append, ← List.range'_append_1]
        · intro m v hm
          rcases List.mem_cons.1 hm with e | hm
          · cases e
            exact ⟨x, by rw [BL.find, if_pos rfl], fun p =>
              MapAt.mono (List.prefix_refl s) h1 (fun i hi => rx' i (flat_at hi)) (g5 p)⟩
          · obtain ⟨u, hu, hc⟩ := h6 m v hm
            have hne : n ≠ m := fun e => hn.1 (e ▸ (mem_keys_iff m r).2 ⟨u, hu⟩)
            exact ⟨u, by rw [BL.find, if_neg hne, hu], fun p =>
              MapAt.mono g1 (List.prefix_refl s') (fun i hi => rr' i (flat_find hu (flat_at hi))) (hc p)⟩
end

mutual
theorem mapNew_isOk_T (g : V → Except Err V) (a : BT ℕ) (s : List V) (ha : a.WF)
    (hc : ∀ p x, a.at p = some x → x.cls? ≠ some .systematics)
    (hk : ∀ i ∈ a.flat, ∃ u z, s[i]? = some u ∧ g u = .ok z) :
    ∃ s' r, a.mapNew o g s = .ok (s', r) ∧ s <+: s' := by
  match a with
  | .hist i =>
    obtain ⟨u, z, h1, h2⟩ := hk i (by simp [BT.flat])
    exact ⟨s ++ [z], .hist s.length, by rw [BT.mapNew, h1]; simp only [h2, newHist], List.prefix_append _ _⟩
  | .book c f x =>
    obtain ⟨s1, L, h1, h2, h3⟩ := mapNew_isOk_L g x s ha.1 ha.2 (fun n v hv p u hp => by
        refine hc (n :: p) u ?_
        rw [BT.at, hv]; exact hp) hk
    have hs : ∀ p ∈ L, '/' ∉ p.1 := by
      intro p hp
      have : p.1 ∈ x.keys := by rw [← h3]; exact List.mem_map.2 ⟨p, hp, rfl⟩
      obtain ⟨u, hu⟩ := (mem_keys_iff _ _).1 this
      exact (ha.2.find hu).1
    obtain ⟨b, hb⟩ := mkBook_isOk (o := o s1) (c := c) (fun e => hc [] _ rfl (by rw [BT.cls?, e])) hs (by rw [h3]; exact ha.1)
    exact ⟨s1, b, by rw [BT.mapNew, h1]; simp only [fromItems, hb, made], h2⟩
theorem mapNew_isOk_L (g : V → Except Err V) (x : BL ℕ) (s : List V) (hn : x.keys.Nodup) (hx : x.WF)
    (hc : ∀ n v, x.find n = some v → ∀ p u, v.at p = some u → u.cls? ≠ some .systematics)
    (hk : ∀ i ∈ x.flat, ∃ u z, s[i]? = some u ∧ g u = .ok z) :
    ∃ s' L, x.mapNew o g s = .ok (s', L) ∧ s <+: s' ∧ L.map (·.1) = x.keys := by
  match x with
  | .nil => exact ⟨s, [], rfl, List.prefix_refl _, rfl⟩
  | .cons n x r =>
    rw [BL.keys, List.nodup_cons] at hn
    rw [BL.WF] at hx
    have hself : (BL.cons n x r).find n = some x := by rw [BL.find, if_pos rfl]
    have hother : ∀ {m v}, r.find m = some v → (BL.cons n x r).find m = some v := by
      intro m v hv
      rw [BL.find, if_neg (fun (e : n = m) => hn.1 (e ▸ (mem_keys_iff m r).2 ⟨v, hv⟩)), hv]
    obtain ⟨s1, b, h1, h2⟩ := mapNew_isOk_T g x s hx.2.1 (hc n x hself) fun i hi => hk i (by rw [BL.flat]; simp [hi])
    obtain ⟨s2, L, h3, h4, h5⟩ := mapNew_isOk_L g r s1 hn.2 hx.2.2 (fun m v hv => hc m v (hother hv)) fun i hi => by
      obtain ⟨u, z, e1, e2⟩ := hk i (by rw [BL.flat]; simp [hi])
      exact ⟨u, z, prefix_some h2 e1, e2⟩
    exact ⟨s2, (n, b) :: L, by rw [BL.mapNew]; simp only [h1, h3, consItem], h2.trans h4,
      by rw [List.map_cons, h5, BL.keys]⟩
end

/-! ## In place -/

theorem change_ok {s s' : List V} {i : ℕ} {g : V → Except (Err × V) V} (h : change s i g = .ok s') :
    ∃ u z, s[i]? = some u ∧ g u = .ok z ∧ s' = s.set i z := by
  unfold change at h
  cases hi : s[i]? with
  | none => rw [hi] at h; cases h
  | some u =>
    rw [hi] at h
    simp only at h
    cases hg : g u with
    | error e => rw [hg] at h; cases h
    | ok z => rw [hg] at h; cases h; exact ⟨u, z, rfl, hg, rfl⟩

theorem changeAll_ok {g : V → Except (Err × V) V} : ∀ {is : List ℕ} {s s' : List V}, is.Nodup →
    changeAll g is s = .ok s' → s'.length = s.length ∧ (∀ k, k ∉ is → s'[k]? = s[k]?) ∧
      ∀ i ∈ is, ∃ u z, s[i]? = some u ∧ g u = .ok z ∧ s'[i]? = some z
  | [], s, s', _, h => by cases h; simp
  | i :: is, s, s', hn, h => by
    rw [List.nodup_cons] at hn
    rw [changeAll] at h
    cases hc : change s i g with
    | error e => rw [hc] at h; cases h
    | ok s1 =>
      rw [hc] at h
      simp only at h
      obtain ⟨u, z, h1, h2, rfl⟩ := change_ok hc
      obtain ⟨g1, g2, g3⟩ := changeAll_ok hn.2 h
      have hi : i < s.length := (List.getElem?_eq_some_iff.1 h1).1
      refine ⟨by simpa using g1, fun k hk => ?_, fun k hk => ?_⟩
      · simp only [List.mem_cons, not_or] at hk
        rw [g2 k hk.2, List.getElem?_set_ne (fun e => hk.1 e.symm)]
      · by_cases e : k = i
        · subst e
          exact ⟨u, z, h1, h2, by rw [g2 k hn.1]; simp [hi]⟩
        · have hk' := (List.mem_cons.1 hk).resolve_left e
          obtain ⟨u', z', e1, e2, e3⟩ := g3 k hk'
          rw [List.getElem?_set_ne (fun e' => e e'.symm)] at e1
          exact ⟨u', z', e1, e2, e3⟩

theorem changeAll_isOk {g : V → Except (Err × V) V} : ∀ {is : List ℕ} {s : List V}, is.Nodup →
    (∀ i ∈ is, ∃ u z, s[i]? = some u ∧ g u = .ok z) → ∃ s', changeAll g is s = .ok s'
  | [], s, _, _ => ⟨s, rfl⟩
  | i :: is, s, hn, h => by
    rw [List.nodup_cons] at hn
    obtain ⟨u, z, h1, h2⟩ := h i (by simp)
    obtain ⟨s', hs⟩ := changeAll_isOk (g := g) (s := s.set i z) hn.2 (fun k hk => by
      obtain ⟨u', z', e1, e2⟩ := h k (by simp [hk])
      exact ⟨u', z', by rw [List.getElem?_set_ne (fun (e : i = k) => hn.1 (e ▸ hk)), e1], e2⟩)
    exact ⟨s', by rw [changeAll, change, h1]; simp only [h2, hs]⟩

theorem IAddAt.mono {s s1 s2 s' : List V} {x y r : Option (BT ℕ)}
    (hx : ∀ i, x = some (.hist i) → s1[i]? = s[i]?) (hy : ∀ i, y = some (.hist i) → s1[i]? = s[i]?)
    (hx' : ∀ i, x = some (.hist i) → s'[i]? = s2[i]?) (h : IAddAt A s1 s2 x y r) : IAddAt A s s' x y r := by
  match x, y with
  | some (.hist i), none => exact ⟨h.1, by rw [hx' i rfl, h.2, hx i rfl]⟩
  | some (.book c f x), none => exact h
  | none, y => exact h
  | some (.hist i), some (.hist j) =>
    obtain ⟨e0, u, v, z, e1, e2, e3, e4⟩ := h
    rw [hx i rfl] at e1
    rw [hy j rfl] at e2
    rw [← hx' i rfl] at e4
    exact ⟨e0, u, v, z, e1, e2, e3, e4⟩
  | some (.book c _ _), some (.book _ _ _) => exact h
  | some (.hist i), some (.book _ _ _) => exact h
  | some (.book _ _ _), some (.hist j) => exact h

theorem setLoop_ok {s s' : List V} {c : BClass} {f : Fields ℕ} {x : BL ℕ} {n : Str} {v b' : BT ℕ} (hn : '/' ∉ n)
    (h : setLoop o s (.book c f x) n v = .ok (s', b')) : s' = s ∧ ∃ f', b' = .book c f' (x.put n v) := by
  unfold setLoop at h
  rw [BT.setitem, comps_self hn, BT.setP] at h
  cases hc : (BT.book c f (x.put n v)).changed (o s) with
  | error e => rw [hc] at h; cases h
  | ok b1 =>
    rw [hc] at h
    obtain ⟨f', rfl⟩ := changed_ok hc
    cases h
    exact ⟨rfl, f', rfl⟩

theorem nodup_find {n : Str} {u : BT α} : ∀ {x : BL α}, x.flat.Nodup → x.find n = some u → u.flat.Nodup
  | .nil, _, h => by cases h
  | .cons m y r, hn, h => by
    rw [BL.flat, List.nodup_append] at hn
    rw [BL.find] at h
    by_cases hm : m = n
    · rw [if_pos hm] at h; cases h; exact hn.1
    · rw [if_neg hm] at h; exact nodup_find hn.2.1 h

theorem disjoint_find {n m : Str} {u v : BT α} (hnm : n ≠ m) : ∀ {x : BL α}, x.flat.Nodup → x.find n = some u →
    x.find m = some v → ∀ k ∈ u.flat, k ∉ v.flat
  | .nil, _, h, _ => by cases h
  | .cons l y r, hn, h, h' => by
    rw [BL.flat, List.nodup_append] at hn
    rw [BL.find] at h h'
    intro k hk hk'
    by_cases h1 : l = n
    · rw [if_pos h1] at h
      rw [if_neg (fun e => hnm (h1 ▸ e))] at h'
      cases h
      exact hn.2.2 k hk k (flat_find h' hk') rfl
    · rw [if_neg h1] at h
      by_cases h2 : l = m
      · rw [if_pos h2] at h'
        cases h'
        exact hn.2.2 k hk' k (flat_find h hk) rfl
      · rw [if_neg h2] at h'
        exact disjoint_find hnm hn.2.1 h h' k hk hk'

mutual
theorem iplus_T (a b : BT ℕ) (s s' : List V) (r : BT ℕ) (ha : a.WF) (hb : b.WF) (hn : a.flat.Nodup)
    (hd : ∀ k ∈ a.flat, k ∉ b.flat) (h : a.iplus A o s b = .ok (s', r)) :
    s'.length = s.length ∧ r.WF ∧ (∀ k, k ∉ a.flat → s'[k]? = s[k]?) ∧
      ∀ p, IAddAt A s s' (a.at p) (b.at p) (r.at p) := by
  match b with
  | .hist j =>
    match a with
    | .hist i =>
      rw [BT.iplus] at h
      cases hj : s[j]? with
      | none => rw [hj] at h; cases h
      | some v =>
        rw [hj] at h
        simp only at h
        cases hc : change s i fun u => A.iadd u v with
        | error e => rw [hc] at h; cases h
        | ok s1 =>
          rw [hc] at h
          cases h
          obtain ⟨u, z, h1, h2, rfl⟩ := change_ok hc
          have hi : i < s.length := (List.getElem?_eq_some_iff.1 h1).1
          refine ⟨by simp, trivial, fun k hk => ?_, fun p => ?_⟩
          · simp only [BT.flat, List.mem_singleton] at hk
            rw [List.getElem?_set_ne (fun e => hk e.symm)]
          · cases p with
            | nil => exact ⟨rfl, u, v, z, h1, hj, h2, by simp [hi]⟩
            | cons n t => rfl
    | .book c f x => cases h
  | .book d g y =>
    match a with
    | .hist i => cases h
    | .book c f x =>
      rw [BT.iplus] at h
      obtain ⟨f', x', rfl, h1, h2, h3, h4, h5, h6⟩ := iplus_L y c f x s s' r ha.1 ha.2 hb.1 hb.2
        (fun n u v hu hv => ⟨nodup_find hn hu, fun k hk => hd k (flat_find hu hk), fun n' u' v' hne hu' _ =>
          disjoint_find (fun e => hne e.symm) hn hu hu'⟩) h
      refine ⟨h1, ⟨h2, h3⟩, fun k hk => h4 k fun ⟨n, u, v, hu, _, hku⟩ => hk (flat_find hu hku), fun p => ?_⟩
      cases p with
      | nil => exact ⟨f', x', rfl⟩
      | cons n t =>
        simp only [BT.at]
        cases hy : y.find n with
        | none =>
          rw [h5 n hy]
          simp only [Option.bind_none]
          cases hx : x.find n with
          | none => rfl
          | some u =>
            simp only [Option.bind_some]
            cases hq : u.at t with
            | none => rfl
            | some q =>
              cases q with
              | book _ _ _ => rfl
              | hist i =>
                refine ⟨rfl, h4 i ?_⟩
                rintro ⟨m, u', v', hu', hv', hi⟩
                have hne : n ≠ m := fun e => by rw [← e, hy] at hv'; cases hv'
                exact disjoint_find hne hn hx hu' i (flat_at hq) hi
        | some v =>
          have h6 := h6 n v hy
          cases hx : x.find n with
          | none =>
            rw [hx] at h6
            simp only at h6
            rw [h6]
            simp only [Option.bind_none, Option.bind_some]
            cases v.at t <;> rfl
          | some u =>
            rw [hx] at h6
            obtain ⟨w, hw, h6⟩ := h6
            rw [hw]
            exact h6 t
theorem iplus_L (y : BL ℕ) (c : BClass) (f : Fields ℕ) (x : BL ℕ) (s s' : List V) (r : BT ℕ) (hn : x.keys.Nodup)
    (hx : x.WF) (hyn : y.keys.Nodup) (hy : y.WF)
    (hd : ∀ n u v, x.find n = some u → y.find n = some v → u.flat.Nodup ∧ (∀ k ∈ u.flat, k ∉ y.flat) ∧
      ∀ n' u' v', n' ≠ n → x.find n' = some u' → y.find n' = some v' → ∀ k ∈ u.flat, k ∉ u'.flat)
    (h : y.iplus A o s (.book c f x) = .ok (s', r)) :
    ∃ f' x', r = .book c f' x' ∧ s'.length = s.length ∧ x'.keys.Nodup ∧ x'.WF ∧
      (∀ k, (¬ ∃ n u v, x.find n = some u ∧ y.find n = some v ∧ k ∈ u.flat) → s'[k]? = s[k]?) ∧
      (∀ n, y.find n = none → x'.find n = x.find n) ∧
      ∀ n v, y.find n = some v →
        match x.find n with
        | none => x'.find n = some v
        | some u => ∃ w, x'.find n = some w ∧ ∀ p, IAddAt A s s' (u.at p) (v.at p) (w.at p) := by
  match y with
  | .nil =>
    cases h
    exact ⟨f, x, rfl, rfl, hn, hx, fun _ _ => rfl, fun _ _ => rfl, fun n v hv => by cases hv⟩
  | .cons n y t =>
    rw [BL.iplus] at h
    rw [BL.keys, List.nodup_cons] at hyn
    rw [BL.WF] at hy
    by_cases hgl : isGlob n = true
    · rw [if_pos hgl] at h; cases h
    rw [if_neg hgl] at h
    have htn : t.find n = none := (find_none_iff _ _).2 hyn.1
    have hself : (BL.cons n y t).find n = some y := by rw [BL.find, if_pos rfl]
    have hother : ∀ {m v}, t.find m = some v → (BL.cons n y t).find m = some v := by
      intro m v hv
      rw [BL.find, if_neg (fun e => by rw [← e, htn] at hv; cases hv), hv]
    have hothern : ∀ {m}, m ≠ n → (BL.cons n y t).find m = t.find m := by
      intro m hm
      rw [BL.find, if_neg (fun e => hm e.symm)]
    have hne : ∀ {m v}, t.find m = some v → m ≠ n := fun hv e => by rw [e, htn] at hv; cases hv
    rw [BT.content] at h
    -- the hypothesis for the rest
    have hd' : ∀ w : BT ℕ, ∀ m u v, (x.put n w).find m = some u → t.find m = some v → u.flat.Nodup ∧
        (∀ k ∈ u.flat, k ∉ t.flat) ∧
        ∀ n' u' v', n' ≠ m → (x.put n w).find n' = some u' → t.find n' = some v' → ∀ k ∈ u.flat, k ∉ u'.flat := by
      intro w m u v hu hv
      rw [find_put_ne (hne hv)] at hu
      obtain ⟨e1, e2, e3⟩ := hd m u v hu (hother hv)
      refine ⟨e1, fun k hk hk' => e2 k hk (by rw [BL.flat]; simp [hk']), fun n' u' v' hn' hu' hv' => ?_⟩
      rw [find_put_ne (hne hv')] at hu'
      exact e3 n' u' v' hn' hu' (hother hv')
    cases hf : x.find n with
    | none =>
      rw [hf] at h
      simp only at h
      cases hl : setLoop o s (.book c f x) n y with
      | error e => rw [hl] at h; cases h
      | ok q =>
        obtain ⟨s1, b1⟩ := q
        rw [hl] at h
        simp only at h
        obtain ⟨rfl, f1, rfl⟩ := setLoop_ok hy.1 hl
        obtain ⟨f', x', h0, h1, h2, h3, h4, h5, h6⟩ := iplus_L t c f1 (x.put n y) s1 s' r (nodup_put hn n y)
          (hx.put hy.1 hy.2.1) hyn.2 hy.2.2 (hd' y) h
        refine ⟨f', x', h0, h1, h2, h3, fun k hk => h4 k ?_, fun m hm => ?_, fun m v hv => ?_⟩
        · rintro ⟨m, u, v, hu, hv, hku⟩
          rw [find_put_ne (hne hv)] at hu
          exact hk ⟨m, u, v, hu, hother hv, hku⟩
        · have hmn : m ≠ n := fun e => by rw [e, hself] at hm; cases hm
          rw [hothern hmn] at hm
          rw [h5 m hm, find_put_ne hmn]
        · by_cases hmn : m = n
          · subst hmn
            rw [hself] at hv
            cases hv
            rw [hf]
            simp only
            rw [h5 m htn, find_put_self]
          · rw [hothern hmn] at hv
            have := h6 m v hv
            rw [find_put_ne hmn] at this
            exact this
    | some u =>
      rw [hf] at h
      simp only at h
      obtain ⟨d1, d2, d3⟩ := hd n u y hf hself
      cases ht : u.iplus A o s y with
      | error e => obtain ⟨e, s1, b1⟩ := e; rw [ht] at h; cases h
      | ok q =>
        obtain ⟨s1, w⟩ := q
        rw [ht] at h
        simp only at h
        obtain ⟨g1, g2, g3, g4⟩ := iplus_T u y s s1 w (hx.find hf).2 hy.2.1 d1
          (fun k hk hk' => d2 k hk (by rw [BL.flat]; simp [hk'])) ht
        cases hl : setLoop o s1 (.book c f x) n w with
        | error e => rw [hl] at h; cases h
        | ok q =>
          obtain ⟨s2, b1⟩ := q
          rw [hl] at h
          simp only at h
          obtain ⟨rfl, f1, rfl⟩ := setLoop_ok hy.1 hl
          obtain ⟨f', x', h0, h1, h2, h3, h4, h5, h6⟩ := iplus_L t c f1 (x.put n w) s2 s' r (nodup_put hn n w)
            (hx.put hy.1 g2) hyn.2 hy.2.2 (hd' w) h
          -- the histograms of `u` are not changed any more
          have hu : ∀ k ∈ u.flat, s'[k]? = s2[k]? := by
            intro k hk
            refine h4 k ?_
            rintro ⟨m, u', v', hu', hv', hk'⟩
            rw [find_put_ne (hne hv')] at hu'
            exact d3 m u' v' (hne hv') hu' (hother hv') k hk hk'
          refine ⟨f', x', h0, h1.trans g1, h2, h3, fun k hk => ?_, fun m hm => ?_, fun m v hv => ?_⟩
          · rw [h4 k ?_, g3 k fun hk' => hk ⟨n, u, y, hf, hself, hk'⟩]
            rintro ⟨m, u', v', hu', hv', hk'⟩
            rw [find_put_ne (hne hv')] at hu'
            exact hk ⟨m, u', v', hu', hother hv', hk'⟩
          · have hmn : m ≠ n := fun e => by rw [e, hself] at hm; cases hm
            rw [hothern hmn] at hm
            rw [h5 m hm, find_put_ne hmn]
          · by_cases hmn : m = n
            · subst hmn
              rw [hself] at hv
              cases hv
              rw [hf]
              refine ⟨w, by rw [h5 m htn, find_put_self], fun p => ?_⟩
              exact IAddAt.mono (fun _ _ => rfl) (fun _ _ => rfl) (fun i hi => hu i (flat_at hi)) (g4 p)
            · rw [hothern hmn] at hv
              have h6 := h6 m v hv
              rw [find_put_ne hmn] at h6
              cases hxm : x.find m with
              | none => rw [hxm] at h6; exact h6
              | some u' =>
                rw [hxm] at h6
                obtain ⟨w', hw', h6⟩ := h6
                refine ⟨w', hw', fun p => IAddAt.mono (fun i hi => g3 i fun hi' => ?_) (fun i hi => g3 i fun hi' => ?_)
                  (fun _ _ => rfl) (h6 p)⟩
                · exact d3 m u' v hmn hxm (hother hv) i hi' (flat_at hi)
                · exact d2 i hi' (by rw [BL.flat]; simp [flat_find hv (flat_at hi)])
end

theorem setLoop_isOk (s : List V) {c : BClass} (f : Fields ℕ) (x : BL ℕ) {n : Str} (v : BT ℕ) (hn : '/' ∉ n)
    (hc : c ≠ .systematics) : ∃ f', setLoop o s (.book c f x) n v = .ok (s, .book c f' (x.put n v)) := by
  obtain ⟨b, hb⟩ := changed_isOk (o := o s) hc f (x.put n v)
  obtain ⟨f', rfl⟩ := changed_ok hb
  exact ⟨f', by unfold setLoop; rw [BT.setitem, comps_self hn, BT.setP, hb]⟩

theorem IAddOk.mono {s s' : List V} {x y : BT ℕ} (hx : ∀ i, x = .hist i → s'[i]? = s[i]?)
    (hy : ∀ i, y = .hist i → s'[i]? = s[i]?) (h : IAddOk A s x y) : IAddOk A s' x y := by
  match x, y with
  | .hist i, .hist j =>
    obtain ⟨u, v, z, h1, h2, h3⟩ := h
    exact ⟨u, v, z, by rw [hx i rfl, h1], by rw [hy j rfl, h2], h3⟩
  | .book c _ _, .book _ _ _ => exact h
  | .hist i, .book _ _ _ => exact h
  | .book _ _ _, .hist j => exact h

mutual
theorem iplus_isOk_T (a b : BT ℕ) (s : List V) (ha : a.WF) (hb : b.WF) (hn : a.flat.Nodup)
    (hd : ∀ k ∈ a.flat, k ∉ b.flat) (hg : ∀ p x, b.at p = some x → ∀ n ∈ p, isGlob n = false)
    (hk : ∀ p x y, a.at p = some x → b.at p = some y → IAddOk A s x y) :
    ∃ s' r, a.iplus A o s b = .ok (s', r) := by
  have h0 := hk [] a b rfl rfl
  match b with
  | .hist j =>
    match a with
    | .hist i =>
      obtain ⟨u, v, z, h1, h2, h3⟩ := h0
      exact ⟨s.set i z, .hist i, by rw [BT.iplus, h2]; simp only [change, h1, h3]⟩
    | .book _ _ _ => exact absurd h0 id
  | .book d g y =>
    match a with
    | .hist i => exact absurd h0 id
    | .book c f x =>
      obtain ⟨s', r, h⟩ := iplus_isOk_L y c f x s h0 ha.1 ha.2 hb.1 hb.2
        (fun n u v hu hv => ⟨nodup_find hn hu, fun k hk => hd k (flat_find hu hk), fun n' u' v' hne hu' _ =>
          disjoint_find (fun e => hne e.symm) hn hu hu'⟩)
        (fun n v hv p u hp m hm => by
          refine hg (n :: p) u ?_ m hm
          rw [BT.at, hv]; exact hp)
        (fun n u v hu hv p x' y' hp hq => hk (n :: p) x' y' (by rw [BT.at, hu]; exact hp) (by rw [BT.at, hv]; exact hq))
      exact ⟨s', r, by rw [BT.iplus, h]⟩
theorem iplus_isOk_L (y : BL ℕ) (c : BClass) (f : Fields ℕ) (x : BL ℕ) (s : List V) (hc : c ≠ .systematics)
    (hn : x.keys.Nodup) (hx : x.WF) (hyn : y.keys.Nodup) (hy : y.WF)
    (hd : ∀ n u v, x.find n = some u → y.find n = some v → u.flat.Nodup ∧ (∀ k ∈ u.flat, k ∉ y.flat) ∧
      ∀ n' u' v', n' ≠ n → x.find n' = some u' → y.find n' = some v' → ∀ k ∈ u.flat, k ∉ u'.flat)
    (hg : ∀ n v, y.find n = some v → ∀ p u, v.at p = some u → ∀ m ∈ n :: p, isGlob m = false)
    (hk : ∀ n u v, x.find n = some u → y.find n = some v → ∀ p x' y', u.at p = some x' → v.at p = some y' →
      IAddOk A s x' y') :
    ∃ s' r, y.iplus A o s (.book c f x) = .ok (s', r) := by
  match y with
  | .nil => exact ⟨s, _, rfl⟩
  | .cons n y t =>
    rw [BL.keys, List.nodup_cons] at hyn
    rw [BL.WF] at hy
    have htn : t.find n = none := (find_none_iff _ _).2 hyn.1
    have hself : (BL.cons n y t).find n = some y := by rw [BL.find, if_pos rfl]
    have hother : ∀ {m v}, t.find m = some v → (BL.cons n y t).find m = some v := by
      intro m v hv
      rw [BL.find, if_neg (fun e => by rw [← e, htn] at hv; cases hv), hv]
    have hne : ∀ {m v}, t.find m = some v → m ≠ n := fun hv e => by rw [e, htn] at hv; cases hv
    have hgl : ¬ isGlob n = true := by
      rw [hg n y hself [] y rfl n (by simp)]; decide
    have hd' : ∀ w : BT ℕ, ∀ m u v, (x.put n w).find m = some u → t.find m = some v → u.flat.Nodup ∧
        (∀ k ∈ u.flat, k ∉ t.flat) ∧
        ∀ n' u' v', n' ≠ m → (x.put n w).find n' = some u' → t.find n' = some v' → ∀ k ∈ u.flat, k ∉ u'.flat := by
      intro w m u v hu hv
      rw [find_put_ne (hne hv)] at hu
      obtain ⟨e1, e2, e3⟩ := hd m u v hu (hother hv)
      refine ⟨e1, fun k hk hk' => e2 k hk (by rw [BL.flat]; simp [hk']), fun n' u' v' hn' hu' hv' => ?_⟩
      rw [find_put_ne (hne hv')] at hu'
      exact e3 n' u' v' hn' hu' (hother hv')
    rw [BL.iplus, if_neg hgl, BT.content]
    cases hf : x.find n with
    | none =>
      obtain ⟨f1, h1⟩ := setLoop_isOk (o := o) s f x y hy.1 hc
      obtain ⟨s', r, h2⟩ := iplus_isOk_L t c f1 (x.put n y) s hc (nodup_put hn n y) (hx.put hy.1 hy.2.1) hyn.2 hy.2.2 (hd' y)
        (fun m v hv => hg m v (hother hv))
        (fun m u v hu hv => by
          rw [find_put_ne (hne hv)] at hu
          exact hk m u v hu (hother hv))
      exact ⟨s', r, by simp only [h1, h2]⟩
    | some u =>
      obtain ⟨d1, d2, d3⟩ := hd n u y hf hself
      have d2' : ∀ k ∈ u.flat, k ∉ y.flat := fun k hk hk' => d2 k hk (by rw [BL.flat]; simp [hk'])
      obtain ⟨s1, w, h1⟩ := iplus_isOk_T u y s (hx.find hf).2 hy.2.1 d1 d2'
        (fun p x' hp m hm => hg n y hself p x' hp m (by simp [hm])) (hk n u y hf hself)
      obtain ⟨g1, g2, g3, -⟩ := iplus_T u y s s1 w (hx.find hf).2 hy.2.1 d1 d2' h1
      obtain ⟨f1, h2⟩ := setLoop_isOk (o := o) s1 f x w hy.1 hc
      obtain ⟨s', r, h3⟩ := iplus_isOk_L t c f1 (x.put n w) s1 hc (nodup_put hn n w) (hx.put hy.1 g2) hyn.2 hy.2.2 (hd' w)
        (fun m v hv => hg m v (hother hv))
        (fun m u' v hu hv p x' y' hp hq => by
          rw [find_put_ne (hne hv)] at hu
          refine (hk m u' v hu (hother hv) p x' y' hp hq).mono (fun i e => g3 i fun hi => ?_) (fun i e => g3 i fun hi => ?_)
          · exact d3 m u' v (hne hv) hu (hother hv) i hi (flat_at (e ▸ hp))
          · exact d2 i hi (by rw [BL.flat]; simp [flat_find hv (flat_at (e ▸ hq))]))
      exact ⟨s', r, by simp only [h1, h2, h3]⟩
end

end

end Verif
