import Verif.HeapKeep
import Verif.PropsHeap
import Verif.SelectLemmas

/-!
# C116: whether a derived histogram has data of its own

The specification is again a pair of *values*: a fill of one of the two histograms changes that value only.
-/

namespace Verif

/-- What a sequence of fills makes of two separate values. -/
def twoValues (H H' : HistDef) : H.State × H'.State → List (Bool × List Row) → H.State × H'.State
  | p, [] => p
  | (s, t), (true, rows) :: ops => twoValues H H' ((H.fill s rows).after, t) ops
  | (s, t), (false, rows) :: ops => twoValues H H' (s, (H'.fill t rows).after) ops

theorem pair_run {H H' : HistDef} {A B : Set ℕ} {l : List Key} (hl : l.length + H'.groups.length = H.groups.length) (hA : A.Nonempty)
    (hB : B.Nonempty) (hd : Disjoint A B) : ∀ (ops : List (Bool × List Row)) (p : Pair) (s : H.State) (t : H'.State),
    p.Sep H H' A B l → p.Shows H H' s t →
    (p.run H H' ops).Shows H H' (twoValues H H' (s, t) ops).1 (twoValues H H' (s, t) ops).2
  | [], _, _, _, _, hs => hs
  | (side, rows) :: ops, p, s, t, hp, hs => by
    obtain ⟨h1, h2⟩ := pair_step hl hA hB hd hp hs (side, rows)
    cases side
    · exact pair_run hl hA hB hd ops _ _ _ h1 h2
    · exact pair_run hl hA hB hd ops _ _ _ h1 h2

/-- C116 for all operations that make new arrays (`project`, `rebin`, `drop`, `select` on an axis that is not
a group axis): whatever the program did before, with whatever sharing, the original and the derived histogram
are filled independently of each other.
The full statement is for every derived histogram; it is false for a selection on a group axis (below). -/
theorem C116_independent_partial (H H' : HistDef) (hg : H'.groups.length ≤ H.groups.length) (n : ℕ) (pre : List Op) (i : ℕ) (u : HObj)
    (hu : ((World.start n).run H pre).vars[i]? = some u) (s : H.State) (hs : ((World.start n).run H pre).view H i = some s)
    (t : H'.State) (ht : H'.DistinctKeys t) (ops : List (Bool × List Row)) :
    ((Pair.derive H' ((World.start n).run H pre).heap u t).run H H' ops).Shows H H'
      (twoValues H H' (s, t) ops).1 (twoValues H H' (s, t) ops).2 := by
  obtain ⟨own, ho, _, _⟩ := reachable_owned H n pre
  have hi : i < ((World.start n).run H pre).vars.length := (List.getElem?_eq_some_iff.1 hu).1
  obtain ⟨m, ok, hv⟩ := ho.sep
  have hl : (List.replicate (H.groups.length - H'.groups.length) (Key.num 0)).length + H'.groups.length = H.groups.length := by
    simp only [List.length_replicate]; omega
  have hus : u.state H ((World.start n).run H pre).heap = some s := by
    unfold World.view at hs
    rw [hu] at hs
    exact hs
  obtain ⟨m', _, w2, w3, _, w5⟩ := write_at (H := H') ok _ hl ⟨none, false⟩ {n + pre.length} ⟨_, rfl⟩ (by simp) t ht
  have g := w5 rfl
  apply pair_run hl (ho.nonempty i) ⟨_, rfl⟩ (B := {n + pre.length}) _ ops
  · refine ⟨m', g.ok, ?_, w2⟩
    intro a ha
    obtain ⟨h1, h2, h3⟩ := hv i u a hu ha
    exact ⟨lt_of_lt_of_le h1 g.le, by rw [g.marks a h1]; exact ⟨h2, h3⟩⟩
  · refine ⟨?_, w3⟩
    refine Eq.trans ?_ hus
    apply HObj.state_grows_at ok g u (own i)
    · intro a ha
      obtain ⟨h1, _, h3⟩ := hv i u a hu ha
      exact ⟨h1, h3⟩
    · intro x _ _ h; exact h
  · rw [Set.disjoint_right]
    intro x hx hx'
    rw [Set.mem_singleton_iff] at hx
    subst hx
    exact absurd (ho.lt i hi _ hx') (lt_irrefl _)

/-- `H` with other fixed axes and another number of profiles: the definitions that `select` on a fixed axis,
`rebin` and `drop` give. -/
def HistDef.reaxis (H : HistDef) (fx : List FixedAxis) (np : ℕ) : HistDef := { H with fixed := fx, nprof := np }

/-- C116 for the operations that go through the groups and make a new array of every array: they are done,
the derived histogram shows the new arrays, and the two are filled independently of each other. -/
theorem C116_arrays_partial (H : HistDef) (n : ℕ) (pre : List Op) (i : ℕ) (u : HObj)
    (hu : ((World.start n).run H pre).vars[i]? = some u) (s : H.State) (hs : ((World.start n).run H pre).view H i = some s)
    (f : Arr → Arr) (fx : List FixedAxis) (np : ℕ) :
    ∃ p, Pair.mapped H f ((World.start n).run H pre).heap u = .ok p ∧
      ∀ ops : List (Bool × List Row), (p.run H (H.reaxis fx np) ops).Shows H (H.reaxis fx np)
        (twoValues H (H.reaxis fx np) (s, s.map (mapLeaves f H.groups.length)) ops).1
        (twoValues H (H.reaxis fx np) (s, s.map (mapLeaves f H.groups.length)) ops).2 := by
  obtain ⟨own, ho, _, _⟩ := reachable_owned H n pre
  have hsd := view_distinct ho.sep hs
  obtain ⟨m, ok, hv⟩ := ho.sep
  have hus : u.state H ((World.start n).run H pre).heap = some s := by
    unfold World.view at hs
    rw [hu] at hs
    exact hs
  have hd : (H.reaxis fx np).DistinctKeys (s.map (mapLeaves f H.groups.length)) := by
    cases s with
    | none => trivial
    | some c => exact mapLeaves_distinct f _ c hsd
  refine ⟨Pair.derive (H.reaxis fx np) ((World.start n).run H pre).heap u (s.map (mapLeaves f H.groups.length)), ?_, fun ops =>
    C116_independent_partial H (H.reaxis fx np) (le_refl _) n pre i u hu s hs _ hd ops⟩
  unfold HObj.state at hus
  unfold Pair.mapped
  cases hc : u.content with
  | none =>
    rw [hc] at hus
    simp only [Option.some.injEq] at hus
    subst hus
    rfl
  | some a =>
    rw [hc] at hus
    simp only at hus
    obtain ⟨h1, h2, _⟩ := hv i u a hu hc
    cases hdr : deref ((World.start n).run H pre).heap H.groups.length a with
    | none => rw [hdr] at hus; cases hus
    | some c =>
      rw [hdr] at hus
      simp only [Option.map_some, Option.some.injEq] at hus
      subst hus
      simp only [mapHeap_new f _ ok H.groups.length a c h1 hdr _ (le_refl _) (fun _ _ => rfl)]
      rfl

/-- C116 for `select` with a comparison on an axis that is not a group axis. -/
theorem C116_select_partial (H : HistDef) (n : ℕ) (pre : List Op) (i : ℕ) (u : HObj)
    (hu : ((World.start n).run H pre).vars[i]? = some u) (s : H.State) (hs : ((World.start n).run H pre).view H i = some s)
    (j : ℕ) (cmp : Cmp) (v : Num) (tol : ℚ) (r : Σ H' : HistDef, H'.State) (hr : H.select j cmp v tol s = .ok r) :
    ∃ f p, Pair.mapped H f ((World.start n).run H pre).heap u = .ok p ∧
      ∀ ops : List (Bool × List Row), (p.run H r.1 ops).Shows H r.1 (twoValues H r.1 (s, r.2) ops).1 (twoValues H r.1 (s, r.2) ops).2 := by
  unfold HistDef.select at hr
  split at hr
  · cases hr
  · split at hr
    · cases hr
    · cases hr
    · rename_i a' sl _
      simp only [Except.ok.injEq] at hr
      subst hr
      obtain ⟨p, hp, h⟩ := C116_arrays_partial H n pre i u hu s hs (Arr.slice j sl) (H.fixed.set j a') H.nprof
      exact ⟨_, p, hp, h⟩

/-- C116 for `rebin`. -/
theorem C116_rebin_partial (H : HistDef) (n : ℕ) (pre : List Op) (i : ℕ) (u : HObj)
    (hu : ((World.start n).run H pre).vars[i]? = some u) (s : H.State) (hs : ((World.start n).run H pre).view H i = some s)
    (j : ℕ) (edges : List ℚ) (r : Σ H' : HistDef, H'.State) (hr : H.rebin j edges s = .ok r) :
    ∃ f p, Pair.mapped H f ((World.start n).run H pre).heap u = .ok p ∧
      ∀ ops : List (Bool × List Row), (p.run H r.1 ops).Shows H r.1 (twoValues H r.1 (s, r.2) ops).1 (twoValues H r.1 (s, r.2) ops).2 := by
  unfold HistDef.rebin HistDef.rebinAny at hr
  split at hr
  · cases hr
  · simp only at hr
    split at hr
    · cases hr
    · split at hr
      · cases hr
      · rename_i _ a _ _ b _
        simp only [Except.ok.injEq] at hr
        subst hr
        obtain ⟨p, hp, h⟩ := C116_arrays_partial H n pre i u hu s hs (Arr.rebin j (rebinRanges a b) b.totbins) (H.fixed.set j (.split b)) H.nprof
        exact ⟨_, p, hp, h⟩

/-- C116 for `drop`. -/
theorem C116_drop_partial (H : HistDef) (n : ℕ) (pre : List Op) (i : ℕ) (u : HObj)
    (hu : ((World.start n).run H pre).vars[i]? = some u) (s : H.State) (hs : ((World.start n).run H pre).view H i = some s)
    (keep : List Bool) (hasWeight : Bool) (t : (H.drop keep).State) (ht : H.dropState keep hasWeight s = .ok t) :
    ∃ f p, Pair.mapped H f ((World.start n).run H pre).heap u = .ok p ∧
      ∀ ops : List (Bool × List Row), (p.run H (H.drop keep) ops).Shows H (H.drop keep)
        (twoValues H (H.drop keep) (s, t) ops).1 (twoValues H (H.drop keep) (s, t) ops).2 := by
  unfold HistDef.dropState at ht
  split at ht
  · cases ht
  · have ht := Except.ok.inj ht
    subst ht
    obtain ⟨p, hp, h⟩ := C116_arrays_partial H n pre i u hu s hs (Arr.takeCols (dropColumns H.layout keep hasWeight)) H.fixed (keep.count true)
    exact ⟨_, p, hp, h⟩

/-! ## selections on a group axis -/

/-- A program of fills only: the variable and the data. -/
def World.fills (H : HistDef) (w : World) (ops : List (ℕ × List Row)) : World := w.run H (ops.map (fun p => Op.fill p.1 p.2))

/-- The histograms `j` and `k` have one array for the group `gk`. -/
structure World.SameArray (H : HistDef) (w : World) (j k : ℕ) (gk : List Key) : Prop where
  same : ∃ u v a b x, w.vars[j]? = some u ∧ w.vars[k]? = some v ∧ u.cof = false ∧ v.cof = false ∧ u.content = some a ∧ v.content = some b ∧
    leafAddr w.heap H.groups.length a gk = some x ∧ leafAddr w.heap H.groups.length b gk = some x

theorem World.SameArray.read {H : HistDef} {own : ℕ → Set ℕ} {w : World} (hw : w.Sep H own) {j k : ℕ} {gk : List Key}
    (h : w.SameArray H j k gk) (idx : List ℕ) (col : ℕ) :
    w.read H j gk idx col = w.read H k gk idx col ∧ (w.read H j gk idx col).isSome := by
  obtain ⟨u, v, a, b, x, hu, hv, _, _, ha, hb, la, lb⟩ := h.same
  obtain ⟨m, ok, hvs⟩ := hw
  obtain ⟨a1, a2, _⟩ := hvs j u a hu ha
  obtain ⟨b1, b2, _⟩ := hvs k v b hv hb
  obtain ⟨c, hc, _⟩ := deref_isSome ok H.groups.length a a1 (by rw [a2]; simp)
  obtain ⟨d, hd, _⟩ := deref_isSome ok H.groups.length b b1 (by rw [b2]; simp)
  obtain ⟨y, y1, y2⟩ := lookup_leafAddr H.groups.length a c gk x hc la
  obtain ⟨z, z1, z2⟩ := lookup_leafAddr H.groups.length b d gk x hd lb
  rw [y1] at z1
  cases z1
  have hj : w.view H j = some (some c) := by
    unfold World.view; rw [hu]; simp only [Option.bind_some, HObj.state, ha, hc, Option.map_some]
  have hk : w.view H k = some (some d) := by
    unfold World.view; rw [hv]; simp only [Option.bind_some, HObj.state, hb, hd, Option.map_some]
  unfold World.read
  rw [hj, hk]
  refine ⟨?_, rfl⟩
  show some (lookup H.groups.length c gk idx col) = some (lookup H.groups.length d gk idx col)
  rw [y2, z2]

theorem World.SameArray.fills {H : HistDef} : ∀ (ops : List (ℕ × List Row)) (own : ℕ → Set ℕ) (t : ℕ) (w : World), w.Owned H own t →
    ∀ j k gk, w.SameArray H j k gk → (w.fills H ops).SameArray H j k gk ∧ ∃ own' t', (w.fills H ops).Owned H own' t'
  | [], own, t, w, hw, j, k, gk, h => ⟨h, own, t, hw⟩
  | (i, rows) :: ops, own, t, w, hw, j, k, gk, h => by
    obtain ⟨u, v, a, b, x, hu, hv, fu, fv, ha, hb, la, lb⟩ := h.same
    obtain ⟨k1, k2⟩ := fill_keeps hw.sep i (hw.nonempty i) rows
    obtain ⟨own', h1, _⟩ := owned_step H own t w hw (.fill i rows)
    exact World.SameArray.fills ops own' _ _ h1 j k gk ⟨u, v, a, b, x, k2 j u a hu fu ha, k2 k v b hv fv hb, fu, fv, ha, hb,
      k1.leafAddr _ a gk x la, k1.leafAddr _ b gk x lb⟩

/-- C116 does not hold for a selection on a group axis.  Either the test raises (`select` raises then, and
nothing is changed), or the selection looks right and the other histograms are unchanged, but from then on
the original (unless made with `copyonfill`) and the selection have the same numbers in every group that was
selected, whatever histograms are filled with whatever data. -/
theorem C116_refuted_group (H : HistDef) (n : ℕ) (pre : List Op) (v : ℕ) (u : HObj)
    (hu : ((World.start n).run H pre).vars[v]? = some u) (s : H.State) (hs : ((World.start n).run H pre).view H v = some s)
    (i : ℕ) (test : Test) :
    let w := (World.start n).run H pre
    (∃ e, w.selectGroup H v i test = (w, some e) ∧ H.filterState test i s = .error e) ∨
    ∃ t w', w.selectGroup H v i test = (w', none) ∧ H.filterState test i s = .ok t ∧ w'.vars.length = w.vars.length + 1 ∧
      (∀ k, k < w.vars.length → w'.view H k = w.view H k) ∧ w'.view H w.vars.length = some t ∧
      (u.cof = false → ∀ ops gk, gk.length = H.groups.length → H.has t gk → ∀ idx col,
        (w'.fills H ops).read H v gk idx col = (w'.fills H ops).read H w.vars.length gk idx col ∧
        ((w'.fills H ops).read H v gk idx col).isSome) := by
  intro w
  obtain ⟨own, ho, _, _⟩ := reachable_owned H n pre
  have hvlt : v < w.vars.length := (List.getElem?_eq_some_iff.1 hu).1
  have hsep := ho.sep
  obtain ⟨m, ok, hv⟩ := ho.sep
  have hus : u.state H w.heap = some s := by
    unfold World.view at hs
    rw [hu] at hs
    exact hs
  -- the owners: those of the original also own the selection
  have howned : ∀ (m' : Marks) (h' : Heap) (b : HObj), Grows H.groups.length (fun _ => False) m w.heap m' h' →
      (∀ a, b.content = some a → a < h'.next ∧ (m' a).1 = [] ∧ (m' a).2 ⊆ own v) →
      World.Owned H (Function.update own w.vars.length (own v)) (n + pre.length) ⟨h', w.vars ++ [b]⟩ ∧
      (∀ k, k < w.vars.length → World.view H ⟨h', w.vars ++ [b]⟩ k = w.view H k) ∧
      World.view H ⟨h', w.vars ++ [b]⟩ w.vars.length = b.state H h' := by
    intro m' h' b g hb
    have hv' : ∀ i v' a, w.vars[i]? = some v' → v'.content = some a →
        a < w.heap.next ∧ (m a).1 = [] ∧ (m a).2 ⊆ Function.update own w.vars.length (own v) i := by
      intro j v' a hj ha
      have hjl : j < w.vars.length := (List.getElem?_eq_some_iff.1 hj).1
      rw [Function.update_of_ne (by omega)]
      exact hv j v' a hj ha
    obtain ⟨a1, a2, a3⟩ := append_spec (own := Function.update own w.vars.length (own v)) ok hv' g b (by
      rw [Function.update_self]; exact hb)
    refine ⟨⟨a1, ?_, ?_⟩, a2, a3⟩
    · intro j
      by_cases hj : j = w.vars.length
      · rw [hj, Function.update_self]; exact ho.nonempty v
      · rw [Function.update_of_ne hj]; exact ho.nonempty j
    · intro j hj x hx
      simp only [List.length_append, List.length_singleton] at hj
      by_cases hj' : j = w.vars.length
      · rw [hj', Function.update_self] at hx
        exact ho.lt v hvlt x hx
      · rw [Function.update_of_ne hj'] at hx
        exact ho.lt j (by show j < w.vars.length; omega) x hx
  unfold World.selectGroup
  rw [hu]
  simp only
  unfold HObj.state at hus
  cases hc : u.content with
  | none =>
    rw [hc] at hus
    simp only [Option.some.injEq] at hus
    subst hus
    right
    obtain ⟨_, a2, a3⟩ := howned m w.heap ⟨none, false⟩ (Grows.refl ok) (by simp)
    exact ⟨none, _, rfl, rfl, by simp, a2, a3, fun _ _ _ _ h => h.elim⟩
  | some a =>
    rw [hc] at hus
    simp only at hus
    obtain ⟨h1, h2, h3⟩ := hv v u a hu hc
    cases hdr : deref w.heap H.groups.length a with
    | none => rw [hdr] at hus; cases hus
    | some c =>
      rw [hdr] at hus
      simp only [Option.map_some, Option.some.injEq] at hus
      subst hus
      simp only [HistDef.filterState]
      rcases filterHeap_spec test i H.groups.length m w.heap a [] (m a).2 c ok (by simp) h1 (Prod.ext h2 rfl) hdr with
        ⟨e, e1, e2⟩ | ⟨h', b, c', m', e1, e2, g, b1, b2, b3, b4⟩
      · left
        exact ⟨e, by rw [e1], by rw [e2]; rfl⟩
      · right
        obtain ⟨a1, a2, a3⟩ := howned m' h' ⟨some b, false⟩ g (by
          intro x hx
          cases hx
          rw [b2]
          exact ⟨b1, rfl, h3⟩)
        rw [e1, e2]
        refine ⟨some c', _, rfl, rfl, by simp, a2, ?_, ?_⟩
        · rw [a3]
          simp only [HObj.state, b3, Option.map_some]
        · intro hcof ops gk hgk hhas idx col
          obtain ⟨x, hx⟩ := leafAddr_of_has H.groups.length b c' gk b3 hgk hhas
          have hsa : World.SameArray H ⟨h', w.vars ++ [⟨some b, false⟩]⟩ v w.vars.length gk := by
            refine ⟨u, ⟨some b, false⟩, a, b, x, ?_, by simp, hcof, rfl, hc, rfl, ?_, hx⟩
            · rw [List.getElem?_append_left hvlt]; exact hu
            · simp only
              rw [leafAddr_frame ok (fun y hy => g.frame y hy (fun h => h)) _ a gk h1]
              exact b4 gk x hx
          obtain ⟨k1, own', t', k2⟩ := World.SameArray.fills ops _ _ _ a1 v w.vars.length gk hsa
          exact k1.read k2.sep idx col

/-- The histogram of the examples: groups "a" (2) and "b" (3). -/
def exTwo : List Op := [.fill 0 [exRow "a" (1/2) (some 2), exRow "b" (1/2) (some 3)]]

/-- The full statement of C116 is false: a selection on a group axis and its original are not independent. -/
theorem C116_refuted : ¬ ∀ (H : HistDef) (n : ℕ) (pre : List Op) (v i : ℕ) (test : Test) (rows : List Row),
    let w := (World.start n).run H pre
    let w' := (w.selectGroup H v i test).1
    (w.selectGroup H v i test).2 = none →
    (w'.fills H [(w.vars.length, rows)]).view H v = w'.view H v ∧
    (w'.fills H [(v, rows)]).view H w.vars.length = w'.view H w.vars.length := by
  intro h
  have h1 := (h exH 1 exTwo 0 0 (groupbyTest .eq (.key (.str "a"))) [exRow "a" (1/2) (some 5)] (by decide +kernel)).1
  have h2 := congrArg (Option.map (fun s => exH.read s [.str "a"] [1] 0)) h1
  revert h2
  decide +kernel

/-- Filling the selection `c == "a"` with weight 5 makes 7 of the 2 of the original, and filling the original
makes 7 of the 2 of the selection; group "b" of the original stays. -/
example : let w := ((World.start 1).run exH exTwo)
    let w' := (w.selectGroup exH 0 0 (groupbyTest .eq (.key (.str "a")))).1
    w'.read exH 0 [.str "a"] [1] 0 = some 2 ∧ w'.read exH 1 [.str "a"] [1] 0 = some 2 ∧ w'.read exH 1 [.str "b"] [1] 0 = some 0 ∧
    (w'.fills exH [(1, [exRow "a" (1/2) (some 5)])]).read exH 0 [.str "a"] [1] 0 = some 7 ∧
    (w'.fills exH [(0, [exRow "a" (1/2) (some 5)])]).read exH 1 [.str "a"] [1] 0 = some 7 ∧
    (w'.fills exH [(1, [exRow "b" (1/2) (some 5)])]).read exH 0 [.str "b"] [1] 0 = some 3 := by decide +kernel

/-- `C116_refuted_group`: a histogram of a program that was not made with `copyonfill`. -/
example : ∃ u, ((World.start 1).run exH exTwo).vars[0]? = some u ∧ u.cof = false ∧
    (((World.start 1).run exH exTwo).view exH 0).isSome ∧
    ((World.start 1).run exH exTwo).read exH 0 [.str "a"] [1] 0 = some 2 :=
  ⟨⟨some 2, false⟩, by decide +kernel, rfl, by decide +kernel, by decide +kernel⟩

/-- A test that raises: `c < 5` with string keys. -/
example : (((World.start 1).run exH exTwo).selectGroup exH 0 0 (groupbyTest .lt (.key (.num 5)))).2 = some .typeError := by
  decide +kernel

/-- `C116_select_partial`, `C116_rebin_partial`: `x >= 1` and one bin only can be made of the histogram. -/
example : ∃ s, ((World.start 1).run exH exTwo).view exH 0 = some s ∧ (exH.select 0 .ge (.fin 1) (1/10) s).isOk ∧
    (exH.rebin 0 [0, 2] s).isOk := by
  have h1 : (((World.start 1).run exH exTwo).view exH 0).isSome := by decide +kernel
  obtain ⟨s, hs⟩ := Option.isSome_iff_exists.1 h1
  have h2 : ((((World.start 1).run exH exTwo).view exH 0).map (fun s => (exH.select 0 .ge (.fin 1) (1/10) s).isOk && (exH.rebin 0 [0, 2] s).isOk))
      = some true := by decide +kernel
  rw [hs] at h2
  simp only [Option.map_some, Option.some.injEq, Bool.and_eq_true] at h2
  exact ⟨s, hs, h2.1, h2.2⟩

/-- The derived histogram is filled with 5, the original with 11: 7 and 13 in the bin that had 2. -/
example : let w := ((World.start 1).run exH exTwo)
    let p := Pair.mapped exH id w.heap ⟨some 2, false⟩
    (p.map (fun p => ((p.run exH exH [(false, [exRow "a" (1/2) (some 5)]), (true, [exRow "a" (1/2) (some 11)])]).left.state exH
        (p.run exH exH [(false, [exRow "a" (1/2) (some 5)]), (true, [exRow "a" (1/2) (some 11)])]).heap).map
        (fun s => exH.read s [.str "a"] [1] 0))).toOption = some (some 13) ∧
    (p.map (fun p => ((p.run exH exH [(false, [exRow "a" (1/2) (some 5)]), (true, [exRow "a" (1/2) (some 11)])]).right.state exH
        (p.run exH exH [(false, [exRow "a" (1/2) (some 5)]), (true, [exRow "a" (1/2) (some 11)])]).heap).map
        (fun s => exH.read s [.str "a"] [1] 0))).toOption = some (some 7) := by decide +kernel

end Verif
