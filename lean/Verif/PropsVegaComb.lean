import Verif.VegaCombLemmas
import Verif.PropsVegaOutline
import Verif.PropsRoot

/-!
# C90: combinations show every plot as it is alone
-/

namespace Verif

/-! ## lemmas -/

theorem alone_iff (F : Fmt) (l : Leaf) (W : VegaLite) : (Comb.leaf l).vegalite F = .ok W →
    l.Ok F ∧ W.data = (l.aloneD F).data ∧ W.panel.layers = (l.aloneL F).map fun d => ⟨d, none⟩ := by
  intro h
  rw [Comb.vegalite] at h
  unfold Leaf.Ok Leaf.aloneL Leaf.aloneD
  cases hd : l.data F [] "a" with
  | error e => rw [hd] at h; cases h
  | ok D =>
    rw [hd] at h
    simp only at h
    simp only [Except.toOption, Option.getD_some]
    cases hl : l.layers F D.domains "a" with
    | error e => rw [hl] at h; cases h
    | ok ds =>
      rw [hl] at h
      cases h
      refine ⟨⟨⟨D, rfl⟩, ds, rfl⟩, rfl, ?_⟩
      simp only [Option.getD_some]
      match ds with
      | [] => rfl
      | [_] => rfl
      | _ :: _ :: _ => rfl

theorem alone_of_ok (F : Fmt) (l : Leaf) (h : l.Ok F) : ∃ W, (Comb.leaf l).vegalite F = .ok W := by
  obtain ⟨⟨D, hD⟩, ds, hds⟩ := h
  rw [Comb.vegalite, hD]
  unfold Leaf.aloneD at hds
  rw [hD] at hds
  simp only [Except.toOption, Option.getD_some] at hds
  simp only
  rw [hds]
  exact ⟨_, rfl⟩

theorem filter_tagged (names : ℕ → String) (hn : Function.Injective names) (g : VegaLite → List Datum) : ∀ (l : List VegaLite) (k i : ℕ),
    ((l.zipIdx k).flatMap fun p => (g p.1).map (Datum.tagged (names p.2))).filter (Datum.hasId (names (k + i))) =
      match l[i]? with
      | some W => (g W).map (Datum.tagged (names (k + i)))
      | none => []
  | [], _, _ => by simp
  | W :: l, k, i => by
    have hhas : ∀ (v w : String) (d : Datum), (d.tagged v).hasId w = decide (v = w) := by
      intro v w d
      simp [Datum.hasId, Datum.tagged, List.lookup]
    rw [List.zipIdx_cons, List.flatMap_cons, List.filter_append]
    cases i with
    | zero =>
      rw [Nat.add_zero, List.filter_eq_self.2 (fun d hd => by
        obtain ⟨x, _, rfl⟩ := List.mem_map.1 hd
        simp [hhas])]
      rw [List.filter_eq_nil_iff.2 (fun d hd => by
        obtain ⟨p, hp, hd⟩ := List.mem_flatMap.1 hd
        obtain ⟨x, _, rfl⟩ := List.mem_map.1 hd
        have := List.le_snd_of_mem_zipIdx hp
        rw [hhas, decide_eq_true_eq]
        intro h
        have := hn h
        omega)]
      simp
    | succ i =>
      rw [List.filter_eq_nil_iff.2 (fun d hd => by
        obtain ⟨x, _, rfl⟩ := List.mem_map.1 hd
        rw [hhas, decide_eq_true_eq]
        intro h
        have := hn h
        simp only at this
        omega)]
      have := filter_tagged names hn g l (k + 1) i
      rw [show k + 1 + i = k + (i + 1) by omega] at this
      rw [List.nil_append, this]
      rfl

theorem flatMap_alone {β : Type} (F : Fmt) (f : (Leaf × Bool) × ℕ → List β) (g : ((Leaf × Bool) × VegaLite) × ℕ → List β) :
    ∀ (ls : List (Leaf × Bool)) (alone : List VegaLite) (i : ℕ), List.Forall₂ (fun l W => (Comb.leaf l.1).vegalite F = .ok W) ls alone →
    (∀ l W j, (Comb.leaf l.1).vegalite F = .ok W → f (l, j) = g ((l, W), j)) → (ls.zipIdx i).flatMap f = ((ls.zip alone).zipIdx i).flatMap g
  | [], [], _, _, _ => rfl
  | l :: ls, W :: alone, i, h, hfg => by
    cases h with
    | cons h1 h2 =>
      rw [List.zip_cons_cons, List.zipIdx_cons, List.zipIdx_cons, List.flatMap_cons, List.flatMap_cons, hfg l W i h1, flatMap_alone F f g ls alone (i + 1) h2 hfg]

theorem flatMap_snd {β : Type} (g : VegaLite × ℕ → List β) : ∀ (ls : List (Leaf × Bool)) (alone : List VegaLite) (i : ℕ), ls.length = alone.length →
    ((ls.zip alone).zipIdx i).flatMap (fun p => g (p.1.2, p.2)) = (alone.zipIdx i).flatMap g
  | [], [], _, _ => rfl
  | l :: ls, W :: alone, i, h => by
    rw [List.zip_cons_cons, List.zipIdx_cons, List.zipIdx_cons, List.flatMap_cons, List.flatMap_cons, flatMap_snd g ls alone (i + 1) (by simpa using h)]

theorem domsFrom_all (F : Fmt) (ls : List (Leaf × Bool)) :
    DomsFrom F (((ls.zipIdx 0).map fun p => (⟨(p.1.1.aloneD F).data.map (Datum.tagged (varname p.2)), (p.1.1.aloneD F).domains⟩ : PlotData)).map PlotData.domains) ls 0 := by
  intro j l hl
  rw [Nat.zero_add, List.getD_eq_getElem?_getD, List.getElem?_map, List.getElem?_map, List.getElem?_zipIdx, hl]
  rfl

theorem comb_leaves (k : CKind) (cs : CombL) (b : Bool) : (Comb.node k cs).leaves b = cs.leaves (decide (k = .overlay)) := by
  cases k <;> rfl

theorem fillTop_ok (F : Fmt) (doms : List (List (Option (List DKey)))) (k : CKind) (cs : CombL) (hb : (Comb.node k cs).Built)
    (h : ∀ l ∈ (Comb.node k cs).leaves false, ∃ ds, l.1.layers F (l.1.aloneD F).domains "a" = .ok ds) (hd : DomsFrom F doms ((Comb.node k cs).leaves false) 0)
    (hk : ∀ n, k = .grid n → 0 < n) :
    ∃ p, fillTop F doms k cs = .ok p ∧ p.layers = panelLayers F ((Comb.node k cs).leaves false) 0 ∧ ((∀ n, k ≠ .grid n) → p.shape = (Comb.node k cs).shape) ∧
      ∀ n, k = .grid n → ∃ rows, p = .vconcat (rows.map .hconcat) ∧ RowsOk n rows ∧ Panel.shapes rows.flatten = cs.shapes ∧
        (rows.flatten ≠ [] → ∀ r ∈ rows, r ≠ []) := by
  rw [comb_leaves] at h hd ⊢
  have hacc := accepts_of_combine hb.2
  cases k with
  | overlay =>
    refine ⟨.layer (panelLayers F (cs.leaves true) 0), ?_, rfl, fun _ => rfl, fun n hn => by cases hn⟩
    rw [fillTop, fillOverlay_ok F doms cs 0 hacc h hd]
    rfl
  | beside =>
    obtain ⟨ps, h1, h2, h3⟩ := fillPanels_ok F doms cs 0 hb.1 (fun c hc => ⟨_, hacc c hc⟩) h hd
    refine ⟨.hconcat ps, ?_, h2, fun _ => by simp [Panel.shape, Comb.shape, h3], fun n hn => by cases hn⟩
    rw [fillTop, h1]
    rfl
  | below =>
    obtain ⟨ps, h1, h2, h3⟩ := fillPanels_ok F doms cs 0 hb.1 (fun c hc => ⟨_, hacc c hc⟩) h hd
    refine ⟨.vconcat ps, ?_, h2, fun _ => by simp [Panel.shape, Comb.shape, h3], fun n hn => by cases hn⟩
    rw [fillTop, h1]
    rfl
  | grid n =>
    obtain ⟨ps, h1, h2, h3⟩ := fillPanels_ok F doms cs 0 hb.1 (fun c hc => ⟨_, hacc c hc⟩) h hd
    obtain ⟨g1, g2, g3, g4⟩ := gridRows_spec n (hk n rfl) ps [[]] (by simp) ⟨by simp, by simp⟩
    refine ⟨.vconcat ((gridRows n [[]] ps).map .hconcat), ?_, ?_, fun hn => absurd rfl (hn n), ?_⟩
    · rw [fillTop, h1]
      rfl
    · rw [Panel.layers, Panel.layersL_rows, g1]
      exact h2
    · rintro m hm
      cases hm
      refine ⟨_, rfl, g2, by rw [g1]; exact h3, fun hne r hr => ?_⟩
      have hps : ps ≠ [] := by
        rw [g1] at hne
        simpa using hne
      rw [← dropLast_getLastD _ g3, List.mem_append, List.mem_singleton] at hr
      rcases hr with hr | rfl
      · have := g2.1 r hr
        intro h0
        rw [h0] at this
        have := hk n rfl
        have := hk n rfl
        simp at *
        omega
      · exact g4 (Or.inl hps)

theorem fillTop_inv (F : Fmt) (doms : List (List (Option (List DKey)))) (k : CKind) (cs : CombL) (hb : (Comb.node k cs).Built) (p : Panel)
    (hd : DomsFrom F doms ((Comb.node k cs).leaves false) 0) (hf : fillTop F doms k cs = .ok p) :
    ∀ l ∈ (Comb.node k cs).leaves false, ∃ ds, l.1.layers F (l.1.aloneD F).domains "a" = .ok ds := by
  rw [comb_leaves] at hd ⊢
  have hacc := accepts_of_combine hb.2
  cases k with
  | overlay =>
    obtain ⟨r, ho, _⟩ := except_map_ok hf
    exact fillOverlay_inv F _ cs 0 r hacc hd ho
  | beside =>
    obtain ⟨r, ho, _⟩ := except_map_ok hf
    exact (fillPanels_inv F _ cs 0 r hb.1 (fun c hc => ⟨_, hacc c hc⟩) hd ho).2
  | below =>
    obtain ⟨r, ho, _⟩ := except_map_ok hf
    exact (fillPanels_inv F _ cs 0 r hb.1 (fun c hc => ⟨_, hacc c hc⟩) hd ho).2
  | grid n =>
    obtain ⟨r, ho, _⟩ := except_map_ok hf
    exact (fillPanels_inv F _ cs 0 r hb.1 (fun c hc => ⟨_, hacc c hc⟩) hd ho).2

/-- what a success of a combination says -/
theorem vegalite_inv (F : Fmt) (k : CKind) (cs : CombL) (hb : (Comb.node k cs).Built) (V : VegaLite) (hV : (Comb.node k cs).vegalite F = .ok V) :
    (∀ l ∈ (Comb.node k cs).leaves false, l.1.Ok F) ∧ ∃ doms, DomsFrom F doms ((Comb.node k cs).leaves false) 0 ∧ fillTop F doms k cs = .ok V.panel := by
  rw [Comb.vegalite] at hV
  cases hc : cs.collect F 0 with
  | error e => rw [hc] at hV; cases hV
  | ok r =>
    have hd := collectL_inv F cs (decide (k = .overlay)) 0 r hc
    rw [collectL_ok F cs (decide (k = .overlay)) 0 hd] at hV
    simp only at hV
    rw [← comb_leaves k cs false] at hV hd
    obtain ⟨p, hf, rfl⟩ := except_map_ok hV
    have hdoms := domsFrom_all F ((Comb.node k cs).leaves false)
    exact ⟨fun l hl => ⟨hd l hl, fillTop_inv F _ k cs hb p hdoms hf l hl⟩, _, hdoms, hf⟩

theorem rename_lower (f : PName) (i : ℕ) : (f.rename (varname i)).Lower := by
  cases f with
  | id => trivial
  | col v n => exact varname_lower i
  | centre v n => exact varname_lower i

/-! ## C90 -/

/-- C90: a combination of plots that can each be drawn alone, with any nesting that the constructors accept.  Each plot gets another name; the records are those of
the plots, one after the other, each with the name of its plot (as `id`, and in the names of its fields), and the layers are those of the plots, drawing the same columns
of the records with this name.  A layer is limited to the records of its plot, and these are exactly those with its name, if it is in an `overlay` or the plot has
one layer only.
Missing: the layers of a plot with error bars are not limited otherwise (`C90_refuted_error`).  Titles, sizes and `config` are not modelled. -/
theorem C90_combination_partial (F : Fmt) (k : CKind) (cs : CombL) (hb : (Comb.node k cs).Built) (hk : ∀ n, k = .grid n → 0 < n) (alone : List VegaLite)
    (hal : List.Forall₂ (fun l W => (Comb.leaf l.1).vegalite F = .ok W) ((Comb.node k cs).leaves false) alone) :
    ∃ (V : VegaLite) (names : ℕ → String), (Comb.node k cs).vegalite F = .ok V ∧ Function.Injective names ∧
      (∀ (i j : ℕ) (f g : PName), (f.rename (names i)).text = (g.rename (names j)).text → f.rename (names i) = g.rename (names j)) ∧
      V.data = alone.zipIdx.flatMap (fun p => p.1.data.map (Datum.tagged (names p.2))) ∧
      (∀ (i : ℕ) (W : VegaLite), alone[i]? = some W → V.data.filter (Datum.hasId (names i)) = W.data.map (Datum.tagged (names i))) ∧
      V.panel.layers = (((Comb.node k cs).leaves false).zip alone).zipIdx.flatMap (fun p => p.1.2.panel.layers.map fun s =>
        ⟨s.drawn.rename (names p.2), if p.1.1.2 || decide (p.1.2.panel.layers.length = 1) then some (names p.2) else none⟩) := by
  set ls := (Comb.node k cs).leaves false with hls
  have hok : ∀ l ∈ ls, l.1.Ok F := by
    intro l hl
    obtain ⟨i, hi⟩ := List.getElem?_of_mem hl
    have h1 := (List.getElem?_eq_some_iff.1 hi).1
    have h2 := (List.forall₂_iff_get.1 hal).2 i h1 (by rw [← (List.forall₂_iff_get.1 hal).1]; exact h1)
    simp only [List.get_eq_getElem] at h2
    rw [(List.getElem?_eq_some_iff.1 hi).2] at h2
    exact (alone_iff F _ _ h2).1
  obtain ⟨p, hp1, hp2, _⟩ := fillTop_ok F _ k cs hb (fun l hl => (hok l hl).2) (domsFrom_all F ls) hk
  have hcol := collectL_ok F cs (decide (k = .overlay)) 0 (by rw [← comb_leaves k cs false]; exact fun l hl => (hok l hl).1)
  rw [← comb_leaves k cs false] at hcol
  have hdata : (ls.zipIdx.map fun p => (⟨(p.1.1.aloneD F).data.map (Datum.tagged (varname p.2)), (p.1.1.aloneD F).domains⟩ : PlotData)).flatMap PlotData.data =
      alone.zipIdx.flatMap fun p => p.1.data.map (Datum.tagged (varname p.2)) := by
    rw [List.flatMap_map, ← flatMap_snd _ ls alone 0 hal.length_eq]
    refine flatMap_alone F _ (fun p => p.1.2.data.map (Datum.tagged (varname p.2))) ls alone 0 hal fun l W j h => ?_
    simp only [(alone_iff F _ _ h).2.1]
  refine ⟨⟨_, p⟩, varname, ?_, varname_injective, fun i j f g => text_injective _ _ (rename_lower f i) (rename_lower g j), hdata, ?_, ?_⟩
  · rw [Comb.vegalite, hcol]
    simp only
    rw [hp1]
    rfl
  · intro i W hW
    show ((ls.zipIdx.map fun p => (⟨(p.1.1.aloneD F).data.map (Datum.tagged (varname p.2)), (p.1.1.aloneD F).domains⟩ : PlotData)).flatMap PlotData.data).filter _ = _
    rw [hdata]
    have := filter_tagged varname varname_injective VegaLite.data alone 0 i
    rw [Nat.zero_add, hW] at this
    exact this
  · rw [hp2]
    unfold panelLayers
    refine flatMap_alone F _ _ ls alone 0 hal fun l W j h => ?_
    simp only [(alone_iff F _ _ h).2.2, List.map_map, List.length_map, Function.comp_def]

/-- C90: the pictures are arranged as asked for: side by side, one below the other, nested in each other; overlays are one picture. -/
theorem C90_arrangement (F : Fmt) (k : CKind) (cs : CombL) (hb : (Comb.node k cs).Built) (hk : ∀ n, k ≠ .grid n) (V : VegaLite)
    (hV : (Comb.node k cs).vegalite F = .ok V) : V.panel.shape = (Comb.node k cs).shape := by
  obtain ⟨hok, doms, hd, hf⟩ := vegalite_inv F k cs hb V hV
  obtain ⟨p, h1, _, h3, _⟩ := fillTop_ok F doms k cs hb (fun l hl => (hok l hl).2) hd (fun n hn => absurd hn (hk n))
  rw [hf] at h1
  cases h1
  exact h3 hk

/-- C90: a grid has its pictures in order, row by row; every row but the last has `n` of them, the last has 1 to `n`. -/
theorem C90_grid (F : Fmt) (n : ℕ) (hn : 0 < n) (cs : CombL) (hb : (Comb.node (.grid n) cs).Built) (hcs : cs.shapes ≠ []) (V : VegaLite)
    (hV : (Comb.node (.grid n) cs).vegalite F = .ok V) :
    ∃ rows : List (List Panel), V.panel = .vconcat (rows.map .hconcat) ∧ Panel.shapes rows.flatten = cs.shapes ∧
      (∀ r ∈ rows.dropLast, r.length = n) ∧ ∀ r ∈ rows, 0 < r.length ∧ r.length ≤ n := by
  obtain ⟨hok, doms, hd, hf⟩ := vegalite_inv F _ cs hb V hV
  obtain ⟨p, h1, _, _, h4⟩ := fillTop_ok F doms _ cs hb (fun l hl => (hok l hl).2) hd (fun m hm => by cases hm; exact hn)
  rw [hf] at h1
  cases h1
  obtain ⟨rows, hr, hro, hsh, hne⟩ := h4 n rfl
  have hfl : rows.flatten ≠ [] := by
    intro h0
    rw [h0] at hsh
    exact hcs hsh.symm
  refine ⟨rows, hr, hsh, hro.1, fun r hr => ⟨List.length_pos_iff.2 (hne hfl r hr), ?_⟩⟩
  have hrn : rows ≠ [] := List.ne_nil_of_mem hr
  rw [← dropLast_getLastD _ hrn, List.mem_append, List.mem_singleton] at hr
  rcases hr with hr | rfl
  · exact (hro.1 r hr).le
  · exact hro.2

/-- C90: if one of the plots cannot be drawn alone, then the combination raises too. -/
theorem C90_raises (F : Fmt) (k : CKind) (cs : CombL) (hb : (Comb.node k cs).Built) (l : Leaf × Bool) (hl : l ∈ (Comb.node k cs).leaves false) (e : Err)
    (he : (Comb.leaf l.1).vegalite F = .error e) : ∃ e', (Comb.node k cs).vegalite F = .error e' := by
  cases hV : (Comb.node k cs).vegalite F with
  | error e' => exact ⟨e', rfl⟩
  | ok V =>
    obtain ⟨W, hW⟩ := alone_of_ok F l.1 ((vegalite_inv F k cs hb V hV).1 l hl)
    rw [hW] at he
    cases he

/-! ## examples and refutations -/

/-- Two groups and `bin("x", 2, 0, 2)`, with three rows: a plot of the bins that are not empty (`yscale="log"`). -/
def exLeaf (m : Mark) (chain : List Channel) (error : Bool) : Leaf :=
  .one exH (match exH.fillAll none exPlotBs with
    | .ok st => st
    | .error _ => none) ⟨chain, m, 1, none, error, false, true⟩

/-- `below(overlay(bars, points with error bars), bars)` -/
def exComb : CombL :=
  .cons (.node .overlay (.cons (.leaf (exLeaf .bar [] false)) (.cons (.leaf (exLeaf .marker [] true)) .nil))) (.cons (.leaf (exLeaf .bar [] false)) .nil)

theorem exComb_built : (Comb.node .below exComb).Built :=
  ⟨⟨⟨⟨trivial, trivial, trivial⟩, rfl⟩, trivial, trivial⟩, rfl⟩

/-- What all combinations give. -/
def Comb.shown (c : Comb) : Except Err (List Datum × List LayerSpec) := (c.vegalite exFmt).map fun V => (V.data, V.panel.layers)

/-- The three plots get the names `b`, `c` and `d`. -/
example : (Comb.node .below exComb).shown = .ok
    ([[(.id, .str "b"), (.col "b" 0, .str "[0, 1)"), (.col "b" 1, .num (some 2))],
      [(.id, .str "b"), (.col "b" 0, .str "[1, 2)"), (.col "b" 1, .num (some 3))],
      [(.id, .str "b"), (.col "b" 0, .str "[2, inf]"), (.col "b" 1, .num (some 5))],
      [(.id, .str "c"), (.col "c" 0, .num (some (1 / 2))), (.col "c" 1, .num (some 2)), (.col "c" 2, .num (some 4))],
      [(.id, .str "c"), (.col "c" 0, .num (some (3 / 2))), (.col "c" 1, .num (some 3)), (.col "c" 2, .num (some 9))],
      [(.id, .str "d"), (.col "d" 0, .str "[0, 1)"), (.col "d" 1, .num (some 2))],
      [(.id, .str "d"), (.col "d" 0, .str "[1, 2)"), (.col "d" 1, .num (some 3))],
      [(.id, .str "d"), (.col "d" 0, .str "[2, inf]"), (.col "d" 1, .num (some 5))]],
     [⟨.one { x := .col "b" 0, xtype := .ordinal, y := .col "b" 1 }, some "b"⟩,
      ⟨.one { x := .col "c" 0, xtype := .quantitative, y := .col "c" 1 }, some "c"⟩,
      ⟨.errors ⟨.col "c" 0, .quantitative, .col "c" 1, .col "c" 2⟩, some "c"⟩,
      ⟨.one { x := .col "d" 0, xtype := .ordinal, y := .col "d" 1 }, some "d"⟩]) := by decide +kernel

theorem exLeaf_alone (m : Mark) (error : Bool) (h : ((Comb.leaf (exLeaf m [] error)).vegalite exFmt).toOption.isSome = true) :
    ∃ W, (Comb.leaf (exLeaf m [] error)).vegalite exFmt = .ok W := by
  cases hc : (Comb.leaf (exLeaf m [] error)).vegalite exFmt with
  | ok W => exact ⟨W, rfl⟩
  | error e => rw [hc] at h; cases h

/-- The hypotheses are met. -/
example : ∃ V names, (Comb.node .below exComb).vegalite exFmt = .ok V ∧ Function.Injective names ∧
    ∃ W, (Comb.leaf (exLeaf .marker [] true)).vegalite exFmt = .ok W ∧ V.data.filter (Datum.hasId (names 1)) = W.data.map (Datum.tagged (names 1)) := by
  obtain ⟨W1, h1⟩ := exLeaf_alone .bar false (by decide +kernel)
  obtain ⟨W2, h2⟩ := exLeaf_alone .marker true (by decide +kernel)
  obtain ⟨V, names, hV, hi, _, _, hd, _⟩ := C90_combination_partial exFmt .below exComb exComb_built (fun n h => by cases h) [W1, W2, W1]
    (.cons h1 (.cons h2 (.cons h1 .nil)))
  exact ⟨V, names, hV, hi, W2, h2, hd 1 W2 rfl⟩

/-- One picture above another. -/
example : ∃ V, (Comb.node .below exComb).vegalite exFmt = .ok V ∧ V.panel.shape = .column [.plot, .plot] := by
  obtain ⟨W1, h1⟩ := exLeaf_alone .bar false (by decide +kernel)
  obtain ⟨W2, h2⟩ := exLeaf_alone .marker true (by decide +kernel)
  obtain ⟨V, names, hV, _⟩ := C90_combination_partial exFmt .below exComb exComb_built (fun n h => by cases h) [W1, W2, W1]
    (.cons h1 (.cons h2 (.cons h1 .nil)))
  exact ⟨V, hV, C90_arrangement exFmt .below exComb exComb_built (fun n h => by cases h) V hV⟩

/-- Three pictures in two columns. -/
example : ∃ (V : VegaLite) (rows : List (List Panel)), (Comb.node (.grid 2) (.cons (.leaf (exLeaf .bar [] false)) exComb)).vegalite exFmt = .ok V ∧ V.panel = .vconcat (rows.map .hconcat) ∧
    rows.flatten.length = 3 ∧ ∀ r ∈ rows.dropLast, r.length = 2 := by
  have hb : (Comb.node (.grid 2) (.cons (.leaf (exLeaf .bar [] false)) exComb)).Built :=
    ⟨⟨trivial, ⟨⟨trivial, trivial, trivial⟩, rfl⟩, trivial, trivial⟩, rfl⟩
  obtain ⟨W1, h1⟩ := exLeaf_alone .bar false (by decide +kernel)
  obtain ⟨W2, h2⟩ := exLeaf_alone .marker true (by decide +kernel)
  obtain ⟨V, names, hV, _⟩ := C90_combination_partial exFmt _ _ hb (fun n h => by cases h; decide) [W1, W1, W2, W1]
    (.cons h1 (.cons h1 (.cons h2 (.cons h1 .nil))))
  obtain ⟨rows, hr, hs, hd, _⟩ := C90_grid exFmt 2 (by decide) _ hb (by simp [CombL.shapes]) V hV
  refine ⟨V, rows, hV, hr, ?_, hd⟩
  have : ∀ ps : List Panel, (Panel.shapes ps).length = ps.length := by
    intro ps
    induction ps with
    | nil => rfl
    | cons p ps ih => simp [Panel.shapes, ih]
  rw [← this, hs]
  rfl

/-- A stack of nothing cannot be combined either. -/
example : ∃ e, (Comb.node .below (.cons (.leaf (exLeaf .bar [⟨.stack (some []), 0⟩] false)) exComb)).vegalite exFmt = .error e := by
  cases hc : (Comb.leaf (exLeaf .bar [⟨.stack (some []), 0⟩] false)).vegalite exFmt with
  | error e =>
    exact C90_raises exFmt .below _ ⟨⟨trivial, ⟨⟨trivial, trivial, trivial⟩, rfl⟩, trivial, trivial⟩, rfl⟩ (_, false) (List.mem_cons_self ..) e hc
  | ok V =>
    have h : ((Comb.leaf (exLeaf .bar [⟨.stack (some []), 0⟩] false)).vegalite exFmt).toOption.isSome = false := by decide +kernel
    rw [hc] at h
    cases h

/-- C90 does not hold in full: the layers of a plot with error bars, beside another plot, are not limited to its records. -/
theorem C90_refuted_error : ¬ ∀ (F : Fmt) (k : CKind) (cs : CombL) (V : VegaLite), (Comb.node k cs).Built → (Comb.node k cs).vegalite F = .ok V →
    ∀ s ∈ V.panel.layers, s.only ≠ none := by
  intro h
  have hb : (Comb.node .beside (.cons (.leaf (exLeaf .marker [] true)) (.cons (.leaf (exLeaf .bar [] false)) .nil))).Built :=
    ⟨⟨trivial, trivial, trivial⟩, rfl⟩
  have e : (((Comb.node .beside (.cons (.leaf (exLeaf .marker [] true)) (.cons (.leaf (exLeaf .bar [] false)) .nil))).vegalite exFmt).map fun V =>
      V.panel.layers.map LayerSpec.only) = .ok [none, none, some "c"] := by decide +kernel
  obtain ⟨V, hV, hl⟩ := except_map_ok e
  have hm : (none : Option String) ∈ V.panel.layers.map LayerSpec.only := by rw [hl]; simp
  obtain ⟨s, hs, ho⟩ := List.mem_map.1 hm
  exact h exFmt _ _ V hb hV s hs ho

/-- The constructors are meant to refuse plots that are split in the same direction already; they accept all of them. -/
theorem C90_refuted_split (H : HistDef) (st : H.State) (P : Plot1d) (k : CKind) :
    combine k (.cons (.leaf (.one H st P)) .nil) = .ok (.node k (.cons (.leaf (.one H st P)) .nil)) := by
  cases k <;> rfl

end Verif
