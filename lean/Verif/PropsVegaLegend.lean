import Verif.VegaLegend

/-!
# C89: legends, stacks and split pictures name what the records have
-/

namespace Verif

/-! ## lemmas -/

theorem item_dkey_text (F : Fmt) (g : GroupAxis) (k : Key) (l : GLabel) (h : g.item k = .ok l) : l.dkey.text F = g.legend F k := by
  rw [← item_text F g k l h]
  cases g with
  | groupby => cases h; rfl
  | groupbin a =>
    cases k with
    | str s => cases h
    | _ => cases h; rfl

/-- The key of an interval of a groupbin axis. -/
def BinLabel.startKey : BinLabel → Key
  | .iv (.fin q) _ _ _ => .num q
  | .iv .pinf _ _ _ => .pinf
  | .iv .ninf _ _ _ => .ninf
  | _ => .str ""

theorem startKey_item (a : GroupbinAxis) (k : Key) (l : BinLabel) (hk : k.isStr = false) (h : (GroupAxis.groupbin a).item k = .ok (.iv l)) :
    l.startKey = k := by
  cases k with
  | str s => cases hk
  | _ => cases h; rfl

/-- The keys of an axis can be sorted, and are the texts of the records. -/
theorem colour_domain (H : HistDef) (bs : List (List Row)) (st : H.State) (F : Fmt) (axes : List ℕ) (hok : H.Plottable bs st axes)
    (cells : List (List Key × List ℕ)) (hcells : H.PlotCells axes st cells) (doms : List (Option (List DKey))) (hd : H.DomainsOf axes bs.flatten cells doms)
    (hitem : ∀ c ∈ cells, ∀ (i : ℕ) (g : GroupAxis) (k : Key), (H.onAxes axes).groups[i]? = some g → c.1[i]? = some k → ∃ l, g.item k = .ok l)
    (hne : cells ≠ []) (n : ℕ) (hn : n ∈ axes) (hcut : H.axisAt n ≠ some (.inr .cut)) (hint : ∀ a, H.axisAt n ≠ some (.inr (.intbin a))) :
    ∃ ks sk, doms.getD (placeOf axes n) none = some ks ∧ sortDomain ks = .ok sk ∧ sk ≠ [] ∧
      (∀ c ∈ cells, ∃ dk ∈ sk, (cellTexts F (H.onAxes axes) c.1 c.2)[placeOf axes n]? = some (.str (dk.text F))) ∧
      (∀ dk ∈ sk, H.TextOf F bs.flatten n (dk.text F)) ∧ H.LegendOrder F n (sk.map (DKey.text F)) := by
  obtain ⟨c0, hc0⟩ := List.exists_mem_of_ne_nil _ hne
  have hnb := hok.within n hn
  by_cases hg : n < H.groups.length
  · have hpg := placeOf_group H axes n hg hn
    rw [List.getElem?_eq_getElem hg] at hpg
    have hlt := (List.getElem?_eq_some_iff.1 hpg).1
    have hat : H.axisAt n = some (.inl H.groups[n]) := by
      unfold HistDef.axisAt
      rw [List.getElem?_append_left (by simpa using hg), List.getElem?_map, List.getElem?_eq_getElem hg]
      rfl
    obtain ⟨ks, hks, hmem0⟩ := hd.shown c0 hc0 _ _ hpg
    have hreal : ∀ dk ∈ ks, ∃ k l, (H.groups[n]).item k = .ok l ∧ dk = l.dkey ∧
        ∃ r ∈ bs.flatten, (List.zipWith GroupAxis.key H.groups r.gvals).getD n none = some k := by
      intro dk hdk
      obtain ⟨k, l, h1, h2, j, hj1, hj2, hj3, r, hr, he⟩ := hd.real _ _ ks hpg hks dk hdk
      have hjn : j = n := by
        have h1 := (plotted_at H axes j (by omega) hj1 _).2 rfl
        have h2 := (plotted_at H axes n hnb hn _).2 rfl
        rw [hj3, h2] at h1
        exact (Option.some.inj h1).symm
      subst hjn
      exact ⟨k, l, h1, h2, r, hr, he⟩
    have hsort : ∃ sk, sortDomain ks = .ok sk ∧ (∀ x, x ∈ sk ↔ x ∈ ks) ∧ H.LegendOrder F n (sk.map (DKey.text F)) := by
      unfold HistDef.LegendOrder
      rw [hat]
      simp only
      cases hgn : H.groups[n] with
      | groupby =>
        rw [hgn] at hreal
        have hkeys : ∀ dk ∈ ks, ∃ k, dk = .key k := fun dk hdk => by
          obtain ⟨k, l, h1, rfl, _⟩ := hreal dk hdk
          cases h1
          exact ⟨k, rfl⟩
        have hkind : (∀ k, .key k ∈ ks → k.isStr = true) ∨ ∀ k, .key k ∈ ks → k.isStr = false := by
          refine (hok.kind n).imp (fun h k hk => ?_) (fun h k hk => ?_)
          all_goals
            obtain ⟨k', l, h1, h2, r, hr, he⟩ := hreal _ hk
            cases h1
            cases h2
            exact h r hr k he
        obtain ⟨sk, e1, e2⟩ := sortDomain_keys ks hkeys hkind
        obtain ⟨kl, e3, e4⟩ := sortDomain_keys_order ks sk hkeys hkind e1
        exact ⟨sk, e1, e2, kl, by rw [e3, List.map_map]; rfl, e4.imp fun h => Key.below_of_leq _ _ h.1 h.2⟩
      | groupbin a =>
        rw [hgn] at hreal
        have hlabs : ∀ dk ∈ ks, ∃ l, dk = .lab l ∧ l.sort = 0 := fun dk hdk => by
          obtain ⟨k, l, h1, rfl, _⟩ := hreal dk hdk
          cases k with
          | str s => cases h1
          | _ => cases h1; exact ⟨_, rfl, rfl⟩
        have hstart : ∀ dk ∈ ks, ∃ l, dk = .lab l ∧ l.Starts := fun dk hdk => by
          obtain ⟨k, l, h1, rfl, _⟩ := hreal dk hdk
          cases k with
          | str s => cases h1
          | _ => cases h1; exact ⟨_, rfl, by simp [BinLabel.Starts]⟩
        obtain ⟨sk, e1, e2⟩ := sortDomain_labs ks hlabs
        obtain ⟨ll, e3, _, e4⟩ := sortDomain_labs_order ks sk hstart e1
        have hback : ∀ l ∈ ll, ∃ k, k.isStr = false ∧ (GroupAxis.groupbin a).item k = .ok (.iv l) := by
          intro l hl
          obtain ⟨k, l', h1, h2, _⟩ := hreal (.lab l) ((e2 _).1 (by rw [e3]; exact List.mem_map.2 ⟨l, hl, rfl⟩))
          have hk : k.isStr = false := by
            cases k with
            | str s => cases h1
            | _ => rfl
          refine ⟨k, hk, ?_⟩
          rw [h1]
          cases l' with
          | key k' => cases h2
          | iv l' => cases h2; rfl
        refine ⟨sk, e1, e2, ll.map BinLabel.startKey, ?_, ?_⟩
        · rw [e3, List.map_map, List.map_map]
          refine List.map_congr_left fun l hl => ?_
          obtain ⟨k, hk, h1⟩ := hback l hl
          have := item_dkey_text F _ k _ h1
          rw [Function.comp_apply, Function.comp_apply, startKey_item a k l hk h1]
          exact this
        · refine List.Pairwise.imp (fun h => Key.below_of_leq _ _ h.1 h.2) (?_ : (ll.map BinLabel.startKey).Pairwise fun a b => a.leq b = true ∧ a ≠ b)
          rw [List.pairwise_map]
          refine List.Pairwise.imp_of_mem ?_ e4
          intro l l' hl hl' h
          obtain ⟨k, hk, h1⟩ := hback l hl
          obtain ⟨k', hk', h1'⟩ := hback l' hl'
          rw [startKey_item a k l hk h1, startKey_item a k' l' hk' h1']
          refine ⟨?_, ?_⟩
          · have h5 := h.1
            cases k <;> cases k' <;> cases h1 <;> cases h1' <;> first | exact h5 | rfl | cases hk | cases hk'
          · rintro rfl
            rw [h1] at h1'
            cases h1'
            exact h.2 rfl
    obtain ⟨sk, hsk, hmem, horder⟩ := hsort
    have hcov : ∀ c ∈ cells, ∃ dk ∈ sk, (cellTexts F (H.onAxes axes) c.1 c.2)[placeOf axes n]? = some (.str (dk.text F)) := by
      intro c hc
      obtain ⟨_, hgl, _⟩ := (hcells.mem c.1 c.2).1 hc
      have hk : c.1[placeOf axes n]? = some (c.1[placeOf axes n]'(by omega)) := List.getElem?_eq_getElem (by omega)
      obtain ⟨l, hl⟩ := hitem c hc _ _ _ hpg hk
      obtain ⟨ks', hks', hm⟩ := hd.shown c hc _ _ hpg
      rw [hks] at hks'
      cases hks'
      refine ⟨l.dkey, (hmem _).2 (hm _ l hk hl), ?_⟩
      unfold cellTexts
      rw [List.getElem?_append_left (by simp [hgl]; exact hlt), List.getElem?_zipWith, hpg, hk, item_dkey_text F _ _ l hl]
    refine ⟨ks, sk, ?_, hsk, ?_, hcov, ?_, horder⟩
    · rw [List.getD_eq_getElem?_getD, hks]
      rfl
    · obtain ⟨dk, hdk, _⟩ := hcov c0 hc0
      exact List.ne_nil_of_mem hdk
    · intro dk hdk
      obtain ⟨k, l, h1, rfl, r, hr, he⟩ := hreal dk ((hmem dk).1 hdk)
      unfold HistDef.TextOf
      rw [hat]
      exact ⟨r, hr, k, he, item_dkey_text F _ _ l h1⟩
  · obtain ⟨q, rfl⟩ : ∃ q, n = H.groups.length + q := ⟨n - H.groups.length, by omega⟩
    have hq : q < H.fixed.length := by omega
    obtain ⟨m, hm1, hm2, _⟩ := placeOf_fixed H axes q hq hn
    rw [List.getElem?_eq_getElem hq] at hm2
    have hml := (List.getElem?_eq_some_iff.1 hm2).1
    have hat : H.axisAt (H.groups.length + q) = some (.inr H.fixed[q]) := by
      unfold HistDef.axisAt
      rw [List.getElem?_append_right (by simp)]
      simp [hq]
    rw [hat] at hcut hint
    have hbuilt := hok.built _ (List.getElem_mem hq)
    generalize hfa : H.fixed[q] = a at *
    have hnum : a.numeric = true := by
      cases a with
      | cut => exact absurd rfl hcut
      | _ => rfl
    have hsk : a.shown = a.keys := by
      cases a with
      | intbin b => exact absurd rfl (hint b)
      | _ => rfl
    have hkl : a.keys.length = a.totbins := by rw [← hsk]; exact shown_length a hbuilt
    have hlab : ∀ l ∈ a.keys, l.sort = 0 ∧ (DKey.lab l).text F = l.text F := by
      intro l hl
      obtain ⟨i, hi⟩ := List.getElem?_of_mem hl
      obtain ⟨e, n, u, o, na, cl, h1, _⟩ := shown_flow a hbuilt hnum
      rw [← hsk, h1] at hi
      rcases (flowKeys_get e n u o na cl i l).1 hi with ⟨_, _, rfl⟩ | ⟨j, _, _, rfl⟩ | ⟨_, _, rfl⟩ | ⟨_, _, rfl⟩ <;> exact ⟨rfl, rfl⟩
    obtain ⟨sk, hs1, hs2⟩ := sortDomain_labs (a.keys.map .lab) (fun dk hdk => by
      obtain ⟨l, hl, rfl⟩ := List.mem_map.1 hdk
      exact ⟨l, rfl, (hlab l hl).1⟩)
    have hwr : ∀ i, i < a.totbins → a.keys[i]? = some (a.written i) := by
      intro i hi
      rw [← shown_written a hbuilt i hi, hsk, List.getD_eq_getElem?_getD, List.getElem?_eq_getElem (by omega)]
      rfl
    have hcov : ∀ c ∈ cells, ∃ dk ∈ sk, (cellTexts F (H.onAxes axes) c.1 c.2)[placeOf axes (H.groups.length + q)]? = some (.str (dk.text F)) := by
      intro c hc
      obtain ⟨hcell, hgl, _⟩ := (hcells.mem c.1 c.2).1 hc
      have hcl := cell_length hcell
      have hb : c.2[m]'(by omega) < a.totbins := by
        have h3 := (List.forall₂_iff_get.1 hcell).2 m (by omega) (by simpa using hml)
        simp only [List.get_eq_getElem, List.getElem_map] at h3
        have h4 : (H.onAxes axes).fixed[m] = a := by
          have := hm2
          rw [List.getElem?_eq_getElem hml] at this
          exact Option.some.inj this
        rw [h4] at h3
        exact h3
      have hin : a.written (c.2[m]'(by omega)) ∈ a.keys := List.mem_of_getElem? (hwr _ hb)
      refine ⟨.lab (a.written (c.2[m]'(by omega))), (hs2 _).2 (List.mem_map.2 ⟨_, hin, rfl⟩), ?_⟩
      unfold cellTexts
      rw [hm1, List.getElem?_append_right (by simp [hgl]), List.length_zipWith, hgl, Nat.min_self, Nat.add_sub_cancel_left, List.getElem?_zipWith, hm2,
        List.getElem?_eq_getElem (by omega), (hlab _ hin).2]
    refine ⟨_, sk, ?_, hs1, ?_, hcov, ?_, ?_⟩
    · rw [hm1, List.getD_eq_getElem?_getD, hd.fixed hne m a hm2]
      rfl
    · obtain ⟨dk, hdk, _⟩ := hcov c0 hc0
      exact List.ne_nil_of_mem hdk
    · intro dk hdk
      obtain ⟨l, hl, rfl⟩ := List.mem_map.1 ((hs2 dk).1 hdk)
      unfold HistDef.TextOf
      rw [hat]
      obtain ⟨i, hi⟩ := List.getElem?_of_mem hl
      have hi' : i < a.totbins := by
        have := (List.getElem?_eq_some_iff.1 hi).1
        omega
      refine ⟨i, hi', ?_⟩
      rw [hwr i hi'] at hi
      rw [(hlab l hl).2, Option.some.inj hi]
    · unfold HistDef.LegendOrder
      rw [hat]
      simp only
      obtain ⟨e, n, u, o, na, cl, h1, h2, _⟩ := shown_flow a hbuilt hnum
      have hpw : a.keys.Pairwise fun a b => a.before b = true ∧ a ≠ b := by
        rw [← hsk, h1]
        exact flowKeys_order e n u o na cl h2
      obtain ⟨ll, e3, e4, _⟩ := sortDomain_labs_order (a.keys.map .lab) sk (fun dk hdk => by
        obtain ⟨l, hl, rfl⟩ := List.mem_map.1 hdk
        obtain ⟨i, hi⟩ := List.getElem?_of_mem hl
        rw [← hsk, h1] at hi
        refine ⟨l, rfl, ?_⟩
        rcases (flowKeys_get e n u o na cl i l).1 hi with ⟨_, _, rfl⟩ | ⟨j, _, _, rfl⟩ | ⟨_, _, rfl⟩ | ⟨_, _, rfl⟩ <;> simp [BinLabel.Starts]) hs1
      have hnd : (a.keys.map DKey.lab).Nodup :=
        List.Nodup.map (fun x y h => by cases h; rfl) (List.Pairwise.imp (fun h => h.2) hpw)
      rw [List.dedup_eq_self.2 hnd] at e4
      have hfm : (a.keys.map DKey.lab).filterMap DKey.lab? = a.keys := by
        rw [List.filterMap_map]
        exact List.filterMap_some
      rw [hfm, List.Pairwise.insertionSort_eq (List.Pairwise.imp (fun h => h.1) hpw)] at e4
      rw [e3, e4, List.map_map]
      exact List.map_congr_left fun l hl => (hlab l hl).2

/-! ## C89 -/

/-- C89: a plot with records can be drawn.  Its `x` is the column of its axis, its `y` is the column after those of all axes, `beside` and `below` split by the columns of their
axes.  The colours of `overlay` and `stack` (without an order) are those of the column of their axis, and the legend has the text of every record, and only
texts of keys in the data or of bins of the axis, in the order of the axis; what is stacked is in the order of the legend, turned around.
Missing: `cut` axes (`C89_refuted_cut`), `intbin` axes (`C89_refuted_intbin`), `overlay` and `stack` together (`C89_refuted_both`), plots without records
(`C89_refuted_empty`). -/
theorem C89_legend_partial (H : HistDef) (bs : List (List Row)) (st : H.State) (F : Fmt) (P : Plot1d) (pre : Datum) (var : String)
    (hok : H.Plottable bs st P.axes) (hno : H.Normalizable P bs.flatten) (hprof : ∀ p, P.prof = some p → p < H.nprof)
    (hnd : (P.chain.map fun c => c.kind.method).Nodup) (hone : ∀ c ∈ P.chain, ∀ d ∈ P.chain, c.kind.colours = true → d.kind.colours = true → c = d)
    (hax : ∀ c ∈ P.chain, c.kind = .overlay ∨ c.kind = .stack none → c.axis ≠ P.axis ∧ H.axisAt c.axis ≠ some (.inr .cut) ∧
      ∀ a, H.axisAt c.axis ≠ some (.inr (.intbin a)))
    (hord : ∀ c ∈ P.chain, ∀ l, c.kind = .stack (some l) → l ≠ []) (D : PlotData) (hD : H.data1d F P pre var st = .ok D) (hne : D.data ≠ []) :
    ∃ (e : Encoding) (rest : List Drawn) (jx : ℕ), H.layers1d F P D.domains var = .ok (.one e :: rest) ∧
      e.x = .col var jx ∧ (H.plotted P.axes)[jx]? = some P.axis ∧ e.y = .col var (H.plotted P.axes).length ∧
      (∀ c ∈ P.chain, ∃ j, (H.plotted P.axes)[j]? = some c.axis ∧
        (c.kind = .beside → e.column = some (.col var j)) ∧ (c.kind = .below → e.row = some (.col var j)) ∧
        (c.kind = .overlay → ∃ dom, e.color = some (.col var j, dom) ∧ (∀ d ∈ D.data, ∃ s ∈ dom, (PName.col var j, DVal.str s) ∈ d) ∧
          (∀ s ∈ dom, H.TextOf F bs.flatten c.axis s) ∧ H.LegendOrder F c.axis dom) ∧
        (c.kind = .stack none → ∃ dom o, e.color = some (.col var j, dom) ∧ e.order = some (.col var j, o) ∧
          (∀ d ∈ D.data, ∃ s ∈ dom, (PName.col var j, DVal.str s) ∈ d) ∧ (∀ s ∈ dom, H.TextOf F bs.flatten c.axis s) ∧
          H.LegendOrder F c.axis dom.reverse ∧ ∀ s, o.eval s = dom.reverse.idxOf s) ∧
        ∀ l, c.kind = .stack (some l) → ∃ o, e.color = some (.col var j, l.reverse) ∧ e.order = some (.col var j, o) ∧ ∀ s, o.eval s = l.idxOf s) ∧
      ((∀ c ∈ P.chain, c.kind.colours = false) → e.color = none) ∧ ((∀ c ∈ P.chain, c.kind.isStack = false) → e.order = none) ∧
      ((∀ c ∈ P.chain, c.kind ≠ .beside) → e.column = none) ∧ ((∀ c ∈ P.chain, c.kind ≠ .below) → e.row = none) := by
  obtain ⟨cells, hcells, hdoms, hitem, hrec⟩ := record_text H bs st F P pre var hok hno hprof D hD
  have hcne : cells ≠ [] := by
    obtain ⟨d, hd⟩ := List.exists_mem_of_ne_nil _ hne
    obtain ⟨c, hc, _⟩ := hrec d hd
    exact List.ne_nil_of_mem hc
  have hlast : P.axis ∈ P.axes := by simp [Plot1d.axes]
  have hcm : ∀ c ∈ P.chain, c.axis ∈ P.axes := fun c hc => by simp only [Plot1d.axes, List.mem_append, List.mem_map]; exact Or.inl ⟨c, hc, rfl⟩
  have hdom : ∀ c ∈ P.chain, c.kind = .overlay ∨ c.kind = .stack none → ∃ ks sk, D.domains.getD (placeOf P.axes c.axis) none = some ks ∧ sortDomain ks = .ok sk ∧
      sk ≠ [] ∧ chanTexts F P.axes D.domains c = sk.map (DKey.text F) ∧
      (∀ d ∈ D.data, ∃ s ∈ sk.map (DKey.text F), (PName.col var (placeOf P.axes c.axis), DVal.str s) ∈ d) ∧
      (∀ s ∈ sk.map (DKey.text F), H.TextOf F bs.flatten c.axis s) ∧ H.LegendOrder F c.axis (sk.map (DKey.text F)) := by
    intro c hc hk
    obtain ⟨h1, h2, h3⟩ := hax c hc hk
    obtain ⟨ks, sk, e1, e2, e3, e4, e5, e7⟩ := colour_domain H bs st F P.axes hok cells hcells D.domains hdoms hitem hcne c.axis (hcm c hc) h2 h3
    refine ⟨ks, sk, e1, e2, e3, ?_, ?_, ?_, e7⟩
    · unfold chanTexts
      rcases hk with hk | hk <;> rw [hk] <;> simp only [e1, Option.bind_some, e2, Except.toOption, Option.getD_some]
    · intro d hd
      obtain ⟨cell, hcell, hv⟩ := hrec d hd
      obtain ⟨v, hv1, hv2⟩ := hv c.axis (hcm c hc) h1
      obtain ⟨dk, hdk, hv3⟩ := e4 cell hcell
      rw [hv1] at hv3
      cases hv3
      exact ⟨_, List.mem_map.2 ⟨dk, hdk, rfl⟩, hv2⟩
    · intro s hs
      obtain ⟨dk, hdk, rfl⟩ := List.mem_map.1 hs
      exact e5 dk hdk
  obtain ⟨e, i0, i1, i2, i3, i4, i5, i6, i7, i8, i9, i10, i11⟩ := encode_fold F P.axes D.domains var P.chain
    { x := .col var (placeOf P.axes P.axis), xtype := H.xtype P, y := .col var (H.plotAxes P.axes) } hnd hone
    (fun c hc hk => by
      obtain ⟨ks, sk, e1, e2, _⟩ := hdom c hc hk
      exact ⟨ks, sk, e1, e2⟩)
    (fun c hc hk => by
      cases hkk : c.kind with
      | stack o =>
        cases o with
        | none =>
          obtain ⟨ks, sk, _, _, e3, e4, _⟩ := hdom c hc (Or.inr hkk)
          rw [e4]
          simpa using e3
        | some l =>
          unfold chanTexts
          rw [hkk]
          exact hord c hc l hkk
      | _ => rw [hkk] at hk; cases hk)
  have hrest : ∃ rest, H.layers1d F P D.domains var = .ok (.one e :: rest) := by
    unfold HistDef.layers1d
    simp only [i0]
    cases P.error
    · exact ⟨_, rfl⟩
    · exact ⟨_, rfl⟩
  obtain ⟨rest, hrest⟩ := hrest
  refine ⟨e, rest, _, hrest, i1, (plotted_at H _ _ (hok.within _ hlast) hlast _).2 rfl, i3, ?_, i6, i7, i9, i11⟩
  intro c hc
  refine ⟨_, (plotted_at H _ _ (hok.within _ (hcm c hc)) (hcm c hc) _).2 rfl, i8 c hc, i10 c hc, ?_, ?_, ?_⟩
  · intro hk
    obtain ⟨ks, sk, _, _, _, e4, e5, e6, e7⟩ := hdom c hc (Or.inl hk)
    exact ⟨_, by rw [i4 c hc hk, e4], e5, e6, e7⟩
  · intro hk
    obtain ⟨ks, sk, _, _, e3, e4, e5, e6, e7⟩ := hdom c hc (Or.inr hk)
    obtain ⟨j1, o, j2, j3⟩ := i5 c hc (by rw [hk]; rfl)
    rw [e4] at j1 j2
    obtain ⟨o', k1, k2⟩ := makeorder_eval 0 (sk.map (DKey.text F)) (by simpa using e3)
    rw [j2] at k1
    cases k1
    refine ⟨_, o, j1, j3, ?_, ?_, by rw [List.reverse_reverse]; exact e7, ?_⟩
    · intro d hd
      obtain ⟨s, hs, hm⟩ := e5 d hd
      exact ⟨s, List.mem_reverse.2 hs, hm⟩
    · intro s hs
      exact e6 s (List.mem_reverse.1 hs)
    · intro s
      rw [k2, List.reverse_reverse, Nat.zero_add]
  · intro l hk
    have ht : chanTexts F P.axes D.domains c = l := by
      unfold chanTexts
      rw [hk]
    obtain ⟨j1, o, j2, j3⟩ := i5 c hc (by rw [hk]; rfl)
    rw [ht] at j1 j2
    obtain ⟨o', k1, k2⟩ := makeorder_eval 0 l (hord c hc l hk)
    rw [j2] at k1
    cases k1
    exact ⟨o, j1, j3, fun s => by rw [k2, Nat.zero_add]⟩

/-! ## examples -/

/-- The records and layers of a plot after filling. -/
def exDrawn (H : HistDef) (bs : List (List Row)) (P : Plot1d) : Except Err (List Datum × List Drawn) :=
  match H.fillAll none bs with
  | .error (e, _) => .error e
  | .ok st =>
    match H.data1d exFmt P [] "a" st with
    | .error e => .error e
    | .ok D => (H.layers1d exFmt P D.domains "a").map fun l => (D.data, l)

/-- Two groups, in two colours. -/
example : exDrawn exH exPlotBs ⟨[⟨.overlay, 0⟩], .bar, 1, none, false, false, true⟩ = .ok
    ([[(.col "a" 0, .str "a"), (.col "a" 1, .str "[1, 2)"), (.col "a" 2, .num (some 3))],
      [(.col "a" 0, .str "b"), (.col "a" 1, .str "[0, 1)"), (.col "a" 2, .num (some 2))],
      [(.col "a" 0, .str "b"), (.col "a" 1, .str "[2, inf]"), (.col "a" 2, .num (some 5))]],
     [.one { x := .col "a" 1, xtype := .ordinal, y := .col "a" 2, color := some (.col "a" 0, ["a", "b"]) }]) := by decide +kernel

/-- Stacked, the first group at the bottom of the legend. -/
example : (exDrawn exH exPlotBs ⟨[⟨.stack none, 0⟩], .bar, 1, none, false, false, true⟩).map Prod.snd = .ok
    [.one { x := .col "a" 1, xtype := .ordinal, y := .col "a" 2, color := some (.col "a" 0, ["b", "a"]),
            order := some (.col "a" 0, .ite "a" 0 (.ite "b" 1 (.num 2))) }] := by decide +kernel

/-- The hypotheses of C89 are met. -/
example (k : ChanKind) (hk : k = .overlay ∨ k = .stack none ∨ k = .stack (some ["b", "a"]) ∨ k = .beside ∨ k = .below) :
    ∃ st D e rest, exH.data1d exFmt ⟨[⟨k, 0⟩], .bar, 1, none, false, false, true⟩ [] "a" st = .ok D ∧
      exH.layers1d exFmt ⟨[⟨k, 0⟩], .bar, 1, none, false, false, true⟩ D.domains "a" = .ok (.one e :: rest) ∧ e.x = .col "a" 1 := by
  obtain ⟨st, h⟩ := exPlottable [0, 1] (Or.inl rfl)
  obtain ⟨D, _, hD, _⟩ := data1d_spec exH exPlotBs st exFmt ⟨[⟨k, 0⟩], .bar, 1, none, false, false, true⟩ [] "a" h (.of rfl) (by simp)
  have hne : D.data ≠ [] := by
    have e : (exData1d exH exPlotBs ⟨[⟨k, 0⟩], .bar, 1, none, false, false, true⟩).map List.length = .ok 3 := by
      rcases hk with rfl | rfl | rfl | rfl | rfl <;> decide +kernel
    unfold exData1d at e
    rw [h.filled] at e
    simp only [hD] at e
    intro h0
    simp [Except.map, h0] at e
  obtain ⟨e, rest, jx, h1, h2, h3, _⟩ := C89_legend_partial exH exPlotBs st exFmt ⟨[⟨k, 0⟩], .bar, 1, none, false, false, true⟩ [] "a" h (.of rfl) (by simp)
    (by simp) (by simp) (by simp [HistDef.axisAt, exH]) (by
      intro c hc l hl
      simp only [List.mem_singleton] at hc
      subst hc
      simp only at hl
      subst hl
      rcases hk with hk | hk | hk | hk | hk
      all_goals first
        | cases hk; simp
        | cases hk) D hD hne
  refine ⟨st, D, e, rest, hD, h1, ?_⟩
  have h4 : exH.plotted (⟨[⟨k, 0⟩], .bar, 1, none, false, false, true⟩ : Plot1d).axes = [0, 1] := rfl
  rw [h4] at h3
  rcases jx with _ | _ | jx
  · simp at h3
  · exact h2
  · simp at h3

/-! ## refutations -/

/-- Whether a plot has records and a legend, and no record has a text of the legend. -/
def legendWrong : Except Err (List Datum × List Drawn) → Bool
  | .ok (D, .one e :: _) =>
    match e.color with
    | some (f, dom) => !D.isEmpty && !dom.isEmpty && D.all fun d => dom.all fun s => !d.contains (f, .str s)
    | none => false
  | _ => false

/-- The texts of the legend. -/
def legendTexts : Except Err (List Datum × List Drawn) → List String
  | .ok (_, .one e :: _) => (e.color.map Prod.snd).getD []
  | _ => []

/-- C89 fails for `cut` axes: the legend has "False" and "True", the records have "fail" and "pass". -/
theorem C89_refuted_cut : legendWrong (exDrawn ⟨[], [.cut, .bin ⟨2, 0, 2, true, true, true, true⟩], 0, .none⟩
    [[⟨[], [.bool true, .num (.fin 1)], [], none⟩]] ⟨[⟨.overlay, 0⟩], .bar, 1, none, false, false, true⟩) = true ∧
    legendTexts (exDrawn ⟨[], [.cut, .bin ⟨2, 0, 2, true, true, true, true⟩], 0, .none⟩
      [[⟨[], [.bool true, .num (.fin 1)], [], none⟩]] ⟨[⟨.overlay, 0⟩], .bar, 1, none, false, false, true⟩) = ["False", "True"] := by decide +kernel

/-- C89 fails for `intbin` axes: the legend has "3", the record has "[2.5, 3.5)". -/
theorem C89_refuted_intbin : legendWrong (exDrawn ⟨[], [.intbin ⟨1, 3, false, false⟩, .bin ⟨2, 0, 2, true, true, true, true⟩], 0, .none⟩
    [[⟨[], [.num (.fin 3), .num (.fin 1)], [], none⟩]] ⟨[⟨.overlay, 0⟩], .bar, 1, none, false, false, true⟩) = true := by decide +kernel

/-- An `intbin` axis with underflow or overflow bins has integers and intervals in its legend, these cannot be sorted. -/
theorem C89_refuted_intflow : exDrawn ⟨[], [.intbin ⟨1, 3, true, true⟩, .bin ⟨2, 0, 2, true, true, true, true⟩], 0, .none⟩
    [[⟨[], [.num (.fin 3), .num (.fin 1)], [], none⟩]] ⟨[⟨.overlay, 0⟩], .bar, 1, none, false, false, true⟩ = .error .typeError := by decide +kernel

/-- C89 fails for histograms without content: stacks of groups raise `AssertionError`, colours for the bins of an axis beside groups raise `KeyError`. -/
theorem C89_refuted_empty : exDrawn exH [] ⟨[⟨.stack none, 0⟩], .bar, 1, none, false, false, true⟩ = .error .assertion ∧
    exDrawn ⟨[.groupby], [.bin ⟨2, 0, 2, true, true, true, true⟩, .bin ⟨2, 0, 2, true, true, true, true⟩], 0, .none⟩ []
      ⟨[⟨.overlay, 1⟩, ⟨.beside, 0⟩], .bar, 2, none, false, false, true⟩ = .error .keyError := by decide +kernel

/-- The axes of a histogram with two groups and an axis. -/
def exTwoH : HistDef := ⟨[.groupby, .groupby], [.bin ⟨2, 0, 2, true, true, true, true⟩], 0, .none⟩

/-- C89 fails for `overlay` and `stack` together: two groups with different texts on the axis of `overlay`, in the same bin, and no part of the drawing depends on
this axis. -/
theorem C89_refuted_both : exDrawn exTwoH [[⟨[.key (.str "u"), .key (.str "s")], [.num (.fin 1)], [], none⟩, ⟨[.key (.str "v"), .key (.str "s")], [.num (.fin 1)], [], none⟩]]
    ⟨[⟨.overlay, 0⟩, ⟨.stack none, 1⟩], .bar, 2, none, false, false, true⟩ = .ok
    ([[(.col "a" 0, .str "u"), (.col "a" 1, .str "s"), (.col "a" 2, .str "[1, 2)"), (.col "a" 3, .num (some 1))],
      [(.col "a" 0, .str "v"), (.col "a" 1, .str "s"), (.col "a" 2, .str "[1, 2)"), (.col "a" 3, .num (some 1))]],
     [.one { x := .col "a" 2, xtype := .ordinal, y := .col "a" 3, color := some (.col "a" 1, ["s"]), order := some (.col "a" 1, .ite "s" 0 (.num 1)) }]) := by
  decide +kernel

end Verif
