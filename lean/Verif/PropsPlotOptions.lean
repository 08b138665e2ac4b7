import Verif.PlotOptions
import Verif.PropsAttach

/-!
# C109: sizes, titles and settings of plots; C110: scales and titles of axes
-/

namespace Verif

/-! ## specification -/

/-- The option of an object. -/
def Attrs.look (a : Attrs) (name : String) : Option OVal := (a.find? fun p => p.1 = name).map (·.2)

/-- An object has exactly this size and title. -/
def HasOptions (o : PlotOpts) (a : Attrs) : Prop :=
  a.look "width" = o.width.map .json ∧ a.look "height" = o.height.map .json ∧ a.look "title" = o.title.map .json

/-- The options of the outermost object. -/
def SpecObj.attrs : SpecObj → Attrs
  | .unit a => a
  | .layer a _ => a
  | .concat _ a _ => a

/-- A setting in an object. -/
def SpecObj.setting (k : String) (p : SpecObj) : Option J :=
  match p.attrs.look "config" with
  | some (.config d) => d.get k
  | _ => none

mutual
/-- The objects with a mark, in the order in which they are shown. -/
def SpecObj.marks : SpecObj → List Attrs
  | .unit a => [a]
  | .layer _ us => us
  | .concat _ _ ps => ps.marks
def SpecObjL.marks : SpecObjL → List Attrs
  | .nil => []
  | .cons p ps => p.marks ++ ps.marks
end

mutual
/-- The objects that are neither outermost nor have a mark. -/
def SpecObj.inner : SpecObj → List Attrs
  | .unit _ => []
  | .layer a _ => [a]
  | .concat _ a ps => a :: ps.inner
def SpecObjL.inner : SpecObjL → List Attrs
  | .nil => []
  | .cons p ps => p.inner ++ ps.inner
end

/-- The same for all objects below the outermost one. -/
def SpecObj.parts : SpecObj → List Attrs
  | .unit _ => []
  | .layer _ _ => []
  | .concat _ _ ps => ps.inner

mutual
/-- The options of the plots in the order of the combination, each as often as the plot has layers. -/
def OComb.opts : OComb → List PlotOpts
  | .leaf n o => List.replicate (n + 1) o
  | .node _ _ cs => cs.opts
def OCombL.opts : OCombL → List PlotOpts
  | .nil => []
  | .cons c cs => c.opts ++ cs.opts
end

mutual
/-- The setting that is asked for: outer ones win over inner ones, later ones over earlier ones. -/
def OComb.wanted (k : String) : OComb → Option J
  | .leaf _ o => o.config.bind fun c => c.get k
  | .node _ c cs => (c.bind fun c => c.get k).or (cs.wanted k)
def OCombL.wanted (k : String) : OCombL → Option J
  | .nil => none
  | .cons c cs => (cs.wanted k).or (c.wanted k)
end

/-- The names of a dict are different. -/
def Dct.Distinct (d : Dct) : Prop := (d.map (·.1)).Nodup

mutual
/-- The settings are dicts. -/
def OComb.Dicts : OComb → Prop
  | .leaf _ o => ∀ c, o.config = some c → c.Distinct
  | .node _ c cs => (∀ d, c = some d → d.Distinct) ∧ cs.Dicts
def OCombL.Dicts : OCombL → Prop
  | .nil => True
  | .cons c cs => c.Dicts ∧ cs.Dicts
end

mutual
/-- Only plots have settings. -/
def OComb.PlotsOnly : OComb → Prop
  | .leaf _ _ => True
  | .node _ c cs => c = none ∧ cs.PlotsOnly
def OCombL.PlotsOnly : OCombL → Prop
  | .nil => True
  | .cons c cs => c.PlotsOnly ∧ cs.PlotsOnly
end

/-- The settings of what is inside a combination do not matter for where it is used. -/
def OComb.InnerPlotsOnly : OComb → Prop
  | .leaf _ _ => True
  | .node _ _ cs => cs.PlotsOnly

/-! ## lemmas -/

theorem look_put (o : PlotOpts) (b : Bool) : HasOptions o (o.put b []) ∧
    (o.put b []).look "config" = if b then o.config.map .config else none := by
  cases o with
  | mk w h t c => cases w <;> cases h <;> cases t <;> cases c <;> cases b <;> simp [HasOptions, PlotOpts.put, putOpt, Attrs.look]

theorem marks_ofList : ∀ ps : List SpecObj, (SpecObjL.ofList ps).marks = ps.flatMap SpecObj.marks
  | [] => rfl
  | p :: ps => by rw [SpecObjL.ofList, SpecObjL.marks, marks_ofList ps, List.flatMap_cons]

theorem inner_ofList : ∀ ps : List SpecObj, (SpecObjL.ofList ps).inner = ps.flatMap SpecObj.inner
  | [] => rfl
  | p :: ps => by rw [SpecObjL.ofList, SpecObjL.inner, inner_ofList ps, List.flatMap_cons]

/-- How the options of a plot look inside a combination. -/
def inside (o : PlotOpts) : Attrs := o.put false []

theorem fillOverlay_opts : ∀ {cs : OCombL} {us : List Attrs}, oFillOverlay cs = .ok us → us = cs.opts.map inside
  | .nil, us, h => by cases h; rfl
  | .cons (.leaf n o) cs, us, h => by
    rw [oFillOverlay] at h
    cases hr : oFillOverlay cs with
    | error e => rw [hr] at h; cases h
    | ok r =>
      rw [hr] at h
      cases h
      rw [OCombL.opts, OComb.opts, List.map_append, ← fillOverlay_opts hr, List.map_replicate]
      rfl
  | .cons (.node _ _ _) cs, us, h => by simp [oFillOverlay] at h

mutual
theorem fillPanels_opts : ∀ {cs : OCombL} {ps : List SpecObj}, oFillPanels cs = .ok ps →
    ps.flatMap SpecObj.marks = cs.opts.map inside ∧ ∀ a ∈ ps.flatMap SpecObj.inner, a = []
  | .nil, ps, h => by cases h; exact ⟨rfl, by simp⟩
  | .cons c cs, ps, h => by
    rw [oFillPanels] at h
    cases hp : oFillPanel c with
    | error e => rw [hp] at h; cases h
    | ok p =>
      rw [hp] at h
      cases hr : oFillPanels cs with
      | error e => simp only [hr] at h; cases h
      | ok r =>
        simp only [hr] at h
        cases h
        have h1 := fillPanel_opts hp
        have h2 := fillPanels_opts hr
        refine ⟨by rw [List.flatMap_cons, h1.1, h2.1, OCombL.opts, List.map_append], fun a ha => ?_⟩
        rw [List.flatMap_cons, List.mem_append] at ha
        exact ha.elim (h1.2 a) (h2.2 a)
theorem fillPanel_opts : ∀ {c : OComb} {p : SpecObj}, oFillPanel c = .ok p → p.marks = c.opts.map inside ∧ ∀ a ∈ p.inner, a = []
  | .leaf n o, p, h => by
    cases h
    unfold oLeafPanel
    cases n with
    | zero => exact ⟨rfl, by simp [SpecObj.inner]⟩
    | succ n =>
      rw [if_neg (by omega)]
      exact ⟨by rw [SpecObj.marks, OComb.opts, List.map_replicate]; rfl, by simp [SpecObj.inner]⟩
  | .node .overlay _ cs, p, h => by
    rw [oFillPanel] at h
    cases hr : oFillOverlay cs with
    | error e => rw [hr] at h; cases h
    | ok r =>
      rw [hr] at h
      cases h
      exact ⟨by rw [SpecObj.marks, OComb.opts, fillOverlay_opts hr], by simp [SpecObj.inner]⟩
  | .node .beside _ cs, p, h => by
    rw [oFillPanel] at h
    cases hr : oFillPanels cs with
    | error e => rw [hr] at h; cases h
    | ok r =>
      rw [hr] at h
      cases h
      have := fillPanels_opts hr
      refine ⟨by rw [SpecObj.marks, marks_ofList, OComb.opts, this.1], fun a ha => ?_⟩
      rw [SpecObj.inner, inner_ofList, List.mem_cons] at ha
      exact ha.elim id (this.2 a)
  | .node .below _ cs, p, h => by
    rw [oFillPanel] at h
    cases hr : oFillPanels cs with
    | error e => rw [hr] at h; cases h
    | ok r =>
      rw [hr] at h
      cases h
      have := fillPanels_opts hr
      refine ⟨by rw [SpecObj.marks, marks_ofList, OComb.opts, this.1], fun a ha => ?_⟩
      rw [SpecObj.inner, inner_ofList, List.mem_cons] at ha
      exact ha.elim id (this.2 a)
  | .node (.grid _) _ _, p, h => by rw [oFillPanel] at h; cases h
end

theorem oRows_flatten (n : ℕ) : ∀ (ps : List SpecObj) (rows : List (List SpecObj)), rows ≠ [] → (oRows n rows ps).flatten = rows.flatten ++ ps
  | [], rows, _ => by rw [oRows, List.append_nil]
  | p :: ps, rows, hr => by
    rw [oRows]
    split
    · rw [oRows_flatten n ps _ (by simp)]
      simp
    · rw [oRows_flatten n ps _ (by simp)]
      obtain ⟨init, l, rfl⟩ : ∃ init l, rows = init ++ [l] := ⟨_, _, (List.dropLast_append_getLast hr).symm⟩
      simp [List.getLastD_eq_getLast?]

theorem flatMap_rows {β : Type} (f : SpecObj → List β) : ∀ rows : List (List SpecObj), rows.flatMap (fun r => r.flatMap f) = rows.flatten.flatMap f
  | [] => rfl
  | r :: rows => by rw [List.flatMap_cons, flatMap_rows f rows, List.flatten_cons, List.flatMap_append]

/-- What a combination gives: its outermost options, and the rest. -/
theorem vegalite_node {k : CKind} {config : Option Dct} {cs : OCombL} {p : SpecObj} (h : (OComb.node k config cs).vegalite = .ok p) :
    p.attrs = combOptions config cs [] ∧ p.marks = cs.opts.map inside ∧ ∀ a ∈ p.parts, a = [] := by
  cases k with
  | overlay =>
    rw [OComb.vegalite] at h
    cases hr : oFillOverlay cs with
    | error e => rw [hr] at h; cases h
    | ok r => rw [hr] at h; cases h; exact ⟨rfl, fillOverlay_opts hr, by simp [SpecObj.parts]⟩
  | beside =>
    rw [OComb.vegalite] at h
    cases hr : oFillPanels cs with
    | error e => rw [hr] at h; cases h
    | ok r =>
      rw [hr] at h; cases h
      have := fillPanels_opts hr
      exact ⟨rfl, by rw [SpecObj.marks, marks_ofList, this.1], by rw [SpecObj.parts, inner_ofList]; exact this.2⟩
  | below =>
    rw [OComb.vegalite] at h
    cases hr : oFillPanels cs with
    | error e => rw [hr] at h; cases h
    | ok r =>
      rw [hr] at h; cases h
      have := fillPanels_opts hr
      exact ⟨rfl, by rw [SpecObj.marks, marks_ofList, this.1], by rw [SpecObj.parts, inner_ofList]; exact this.2⟩
  | grid n =>
    rw [OComb.vegalite] at h
    cases hr : oFillPanels cs with
    | error e => rw [hr] at h; cases h
    | ok r =>
      rw [hr] at h; cases h
      have := fillPanels_opts hr
      refine ⟨rfl, ?_, fun a ha => ?_⟩
      · rw [SpecObj.marks, marks_ofList, List.flatMap_map]
        have he : (fun r => (SpecObj.concat true [] (SpecObjL.ofList r)).marks) = fun r : List SpecObj => r.flatMap SpecObj.marks := by
          funext r; rw [SpecObj.marks, marks_ofList]
        rw [he, flatMap_rows, oRows_flatten n _ _ (by simp)]
        simpa using this.1
      · rw [SpecObj.parts, inner_ofList, List.flatMap_map, List.mem_flatMap] at ha
        obtain ⟨row, hrow, ha⟩ := ha
        rw [SpecObj.inner, inner_ofList, List.mem_cons] at ha
        rcases ha with ha | ha
        · exact ha
        · refine this.2 a ?_
          have hf := oRows_flatten n r [[]] (by simp)
          obtain ⟨q, hq, hqa⟩ := List.mem_flatMap.mp ha
          have hm : q ∈ (oRows n [[]] r).flatten := List.mem_flatten.mpr ⟨row, hrow, hq⟩
          rw [hf] at hm
          exact List.mem_flatMap.mpr ⟨q, by simpa using hm, hqa⟩

mutual
theorem configs_get (k : String) : ∀ (c : OComb) (d : Dct), c.Dicts → c.PlotsOnly → (c.configs d).get k = (c.wanted k).or (d.get k)
  | .leaf _ o, d, hd, _ => by
    rw [OComb.configs, OComb.wanted]
    rw [OComb.Dicts] at hd
    cases hc : o.config with
    | none => rfl
    | some c => simp only [Option.bind_some]; exact Dct.get_update c d k (hd c hc)
  | .node _ c cs, d, hd, hp => by
    rw [OComb.Dicts] at hd
    rw [OComb.PlotsOnly] at hp
    rw [OComb.configs, OComb.wanted, hp.1, configsL_get k cs d hd.2 hp.2]
    rfl
theorem configsL_get (k : String) : ∀ (cs : OCombL) (d : Dct), cs.Dicts → cs.PlotsOnly → (cs.configs d).get k = (cs.wanted k).or (d.get k)
  | .nil, d, _, _ => rfl
  | .cons c cs, d, hd, hp => by
    rw [OCombL.Dicts] at hd
    rw [OCombL.PlotsOnly] at hp
    rw [OCombL.configs, OCombL.wanted, configsL_get k cs _ hd.2 hp.2, configs_get k c d hd.1 hp.1, Option.or_assoc]
end

theorem Dct.get_nil (k : String) : Dct.get [] k = none := rfl

/-- The outermost settings are the dict that was put together. -/
theorem combOptions_setting (config : Option Dct) (cs : OCombL) (k : String) {p : SpecObj} (h : p.attrs = combOptions config cs []) :
    p.setting k = (ownConfig (cs.configs []) config).get k := by
  rw [SpecObj.setting, h, combOptions]
  by_cases hl : (ownConfig (cs.configs []) config).length ≠ 0
  · rw [if_pos hl]; rfl
  · rw [if_neg hl]
    rw [ne_eq, not_not, List.length_eq_zero_iff] at hl
    rw [hl]; rfl

/-! ## the properties -/

/-- **C109** (a plot of its own): the specification has its width, height, title and settings, where they are given, and the layers have none. -/
theorem C109_alone (n : ℕ) (o : PlotOpts) : ∃ p, (OComb.leaf n o).vegalite = .ok p ∧ HasOptions o p.attrs ∧
    p.attrs.look "config" = o.config.map .config ∧ p.marks.length = n + 1 ∧ (n ≠ 0 → ∀ a ∈ p.marks, a = []) := by
  refine ⟨_, rfl, ?_⟩
  have h := look_put o true
  cases n with
  | zero => exact ⟨h.1, h.2, rfl, fun h => absurd rfl h⟩
  | succ n =>
    rw [if_neg (by omega)]
    refine ⟨h.1, h.2, by rw [SpecObj.marks, List.length_replicate], fun _ a ha => ?_⟩
    rw [SpecObj.marks] at ha
    exact List.eq_of_mem_replicate ha

example : ∃ p, (OComb.leaf 1 { width := some (.int 300), config := some [("a", .int 1)] }).vegalite = .ok p ∧ p.attrs.length = 2 ∧
    p.marks.length = 2 := ⟨_, rfl, rfl, rfl⟩

/-- **C109** (sizes and titles in combinations): what is shown are the plots in their order, once for each layer, every one with its own width,
height and title where they are given, and with no others; all settings are on the outermost object, which has nothing else. -/
theorem C109_combined {k : CKind} {config : Option Dct} {cs : OCombL} {p : SpecObj} (h : (OComb.node k config cs).vegalite = .ok p) :
    List.Forall₂ (fun a o => HasOptions o a ∧ a.look "config" = none) p.marks (OComb.node k config cs).opts ∧
    (∀ a ∈ p.parts, a = []) ∧ (∀ name, name ≠ "config" → p.attrs.look name = none) := by
  obtain ⟨ha, hm, hb⟩ := vegalite_node h
  refine ⟨?_, hb, fun name hn => ?_⟩
  · rw [hm, OComb.opts, List.forall₂_map_left_iff, List.forall₂_same]
    exact fun o _ => look_put o false
  · rw [ha, combOptions]
    split
    · simp [putOpt, Attrs.look, hn.symm]
    · rfl

/-- Two plots, one with error bars, side by side with a plot below. -/
def sampleOpts : OComb := .node .below none (.cons (.node .beside none (.cons (.leaf 1 { width := some (.int 300), title := some (.str "a") })
  (.cons (.leaf 0 { height := some (.int 100), config := some [("s", .int 1), ("t", .int 2)] }) .nil)))
  (.cons (.leaf 0 { config := some [("t", .int 3)] }) .nil))

example : ∃ p, sampleOpts.vegalite = .ok p ∧ p.marks.length = 4 ∧ p.parts.length = 2 := ⟨_, rfl, rfl, rfl⟩

/-- **C109** (settings), where the combinations inside a combination have none.  Every setting is the one that is asked for. -/
theorem C109_settings_partial {c : OComb} {p : SpecObj} (h : c.vegalite = .ok p) (hd : c.Dicts) (hi : c.InnerPlotsOnly) (k : String) :
    p.setting k = c.wanted k := by
  cases c with
  | leaf n o =>
    obtain ⟨p', hp, _, hc, _⟩ := C109_alone n o
    obtain rfl := Except.ok.inj (h.symm.trans hp)
    rw [SpecObj.setting, hc, OComb.wanted]
    cases o.config <;> rfl
  | node kind config cs =>
    rw [combOptions_setting config cs k (vegalite_node h).1]
    rw [OComb.Dicts] at hd
    rw [OComb.InnerPlotsOnly] at hi
    have hg := configsL_get k cs [] hd.2 hi
    rw [Dct.get_nil, Option.or_none] at hg
    rw [OComb.wanted]
    cases config with
    | none => exact hg
    | some c => rw [ownConfig, Dct.get_update _ _ _ (hd.1 c rfl), hg]; rfl

example : ∃ p, sampleOpts.vegalite = .ok p ∧ p.setting "s" = some (.int 1) ∧ p.setting "t" = some (.int 3) ∧ sampleOpts.InnerPlotsOnly :=
  ⟨_, rfl, rfl, rfl, ⟨⟨rfl, trivial, trivial, trivial⟩, trivial, trivial⟩⟩

/-- **C109 is violated** by the settings of a combination that is used in another one: they are nowhere in the specification. -/
theorem C109_refuted_nested : ∃ (c : OComb) (p : SpecObj), c.vegalite = .ok p ∧ c.Dicts ∧ c.wanted "s" = some (.int 1) ∧ p.setting "s" = none ∧
    p.attrs = [] ∧ (∀ a ∈ p.parts, a = []) ∧ ∀ a ∈ p.marks, a = [] :=
  ⟨.node .below none (.cons (.node .beside (some [("s", .int 1)]) (.cons (.leaf 0 {}) (.cons (.leaf 0 {}) .nil))) (.cons (.leaf 0 {}) .nil)),
    _, rfl, ⟨by simp, ⟨by simp [Dct.Distinct], by simp [OComb.Dicts, OCombL.Dicts]⟩, by simp [OComb.Dicts, OCombL.Dicts]⟩, rfl, rfl, rfl, by
      decide +kernel, by decide +kernel⟩

/-! ### where the plots are -/

mutual
/-- The parts of a specification are arranged like the plots: one object for each plot or overlay, `beside` side by side, `below` one below the other. -/
inductive Laid : OComb → SpecObj → Prop
  | plot (o : PlotOpts) (a : Attrs) : Laid (.leaf 0 o) (.unit a)
  | layers (n : ℕ) (o : PlotOpts) (a : Attrs) (us : List Attrs) (h : us.length = n + 2) : Laid (.leaf (n + 1) o) (.layer a us)
  | overlay (config : Option Dct) (cs : OCombL) (a : Attrs) (us : List Attrs) : Laid (.node .overlay config cs) (.layer a us)
  | beside (config : Option Dct) (cs : OCombL) (a : Attrs) (ps : SpecObjL) (h : LaidL cs ps) : Laid (.node .beside config cs) (.concat true a ps)
  | beneath (config : Option Dct) (cs : OCombL) (a : Attrs) (ps : SpecObjL) (h : LaidL cs ps) : Laid (.node .below config cs) (.concat false a ps)
inductive LaidL : OCombL → SpecObjL → Prop
  | nil : LaidL .nil .nil
  | cons (c : OComb) (p : SpecObj) (cs : OCombL) (ps : SpecObjL) (h : Laid c p) (hs : LaidL cs ps) : LaidL (.cons c cs) (.cons p ps)
end

mutual
theorem fillPanel_laid : ∀ (c : OComb) (p : SpecObj), oFillPanel c = .ok p → Laid c p
  | .leaf 0 o, p, h => by rw [oFillPanel] at h; cases h; exact .plot _ _
  | .leaf (n + 1) o, p, h => by
    rw [oFillPanel, oLeafPanel, if_neg (by omega)] at h
    cases h
    exact .layers _ _ _ _ (by rw [List.length_replicate])
  | .node .overlay c cs, p, h => by
    rw [oFillPanel] at h
    cases hr : oFillOverlay cs with
    | error e => rw [hr] at h; cases h
    | ok r => rw [hr] at h; cases h; exact .overlay _ _ _ _
  | .node .beside c cs, p, h => by
    rw [oFillPanel] at h
    cases hr : oFillPanels cs with
    | error e => rw [hr] at h; cases h
    | ok r => rw [hr] at h; cases h; exact .beside _ _ _ _ (fillPanels_laid cs r hr)
  | .node .below c cs, p, h => by
    rw [oFillPanel] at h
    cases hr : oFillPanels cs with
    | error e => rw [hr] at h; cases h
    | ok r => rw [hr] at h; cases h; exact .beneath _ _ _ _ (fillPanels_laid cs r hr)
  | .node (.grid _) _ _, p, h => by rw [oFillPanel] at h; cases h
theorem fillPanels_laid : ∀ (cs : OCombL) (ps : List SpecObj), oFillPanels cs = .ok ps → LaidL cs (.ofList ps)
  | .nil, ps, h => by rw [oFillPanels] at h; cases h; exact .nil
  | .cons c cs, ps, h => by
    rw [oFillPanels] at h
    cases hc : oFillPanel c with
    | error e => rw [hc] at h; cases h
    | ok p =>
      rw [hc] at h
      cases hr : oFillPanels cs with
      | error e => rw [hr] at h; cases h
      | ok r =>
        rw [hr] at h
        cases h
        exact .cons _ _ _ _ (fillPanel_laid c p hc) (fillPanels_laid cs r hr)
end

/-- **C109** (arrangement): the objects with the options are arranged as asked for. -/
theorem C109_arrangement {c : OComb} {p : SpecObj} (hk : ∀ n config cs, c ≠ .node (.grid n) config cs) (h : c.vegalite = .ok p) : Laid c p := by
  cases c with
  | leaf n o =>
    rw [OComb.vegalite] at h
    cases n with
    | zero => cases h; exact .plot _ _
    | succ n =>
      rw [if_neg (by omega)] at h
      cases h
      exact .layers _ _ _ _ (by rw [List.length_replicate])
  | node k config cs =>
    cases k with
    | overlay =>
      rw [OComb.vegalite] at h
      cases hr : oFillOverlay cs with
      | error e => rw [hr] at h; cases h
      | ok r => rw [hr] at h; cases h; exact .overlay _ _ _ _
    | beside =>
      rw [OComb.vegalite] at h
      cases hr : oFillPanels cs with
      | error e => rw [hr] at h; cases h
      | ok r => rw [hr] at h; cases h; exact .beside _ _ _ _ (fillPanels_laid cs r hr)
    | below =>
      rw [OComb.vegalite] at h
      cases hr : oFillPanels cs with
      | error e => rw [hr] at h; cases h
      | ok r => rw [hr] at h; cases h; exact .beneath _ _ _ _ (fillPanels_laid cs r hr)
    | grid n => exact absurd rfl (hk n config cs)

/-- All rows but the last one are full, and no row is overfull. -/
def FullRows (n : ℕ) (rows : List (List SpecObj)) : Prop := ∃ init l, rows = init ++ [l] ∧ (∀ r ∈ init, r.length = n) ∧ l.length ≤ n

theorem oRows_full (n : ℕ) (hn : 0 < n) : ∀ (ps : List SpecObj) (rows : List (List SpecObj)), FullRows n rows → FullRows n (oRows n rows ps)
  | [], rows, h => h
  | p :: ps, rows, h => by
    obtain ⟨init, l, rfl, h1, h2⟩ := h
    have hl : (init ++ [l]).getLastD [] = l := by simp [List.getLastD_eq_getLast?]
    rw [oRows, hl]
    split
    · rename_i hle
      refine oRows_full n hn ps _ ⟨init ++ [l], [p], by simp, ?_, by rw [List.length_singleton]; omega⟩
      intro r hr
      rcases List.mem_append.mp hr with hr | hr
      · exact h1 r hr
      · rw [List.mem_singleton] at hr; rw [hr]; omega
    · exact oRows_full n hn ps _ ⟨init, l ++ [p], by simp, h1, by simp; omega⟩

/-- **C109** (grids): the plots are in order in rows side by side, one below the other; every row but the last has `n` plots, and none has more. -/
theorem C109_grid {n : ℕ} (hn : 0 < n) {config : Option Dct} {cs : OCombL} {p : SpecObj} (h : (OComb.node (.grid n) config cs).vegalite = .ok p) :
    ∃ rows : List (List SpecObj), p = .concat false p.attrs (.ofList (rows.map fun r => .concat true [] (.ofList r))) ∧ FullRows n rows ∧
      LaidL cs (.ofList rows.flatten) := by
  rw [OComb.vegalite] at h
  cases hr : oFillPanels cs with
  | error e => rw [hr] at h; cases h
  | ok r =>
    rw [hr] at h; cases h
    refine ⟨oRows n [[]] r, rfl, oRows_full n hn r _ ⟨[], [], rfl, by simp, by simp⟩, ?_⟩
    rw [oRows_flatten n r _ (by simp)]
    simpa using fillPanels_laid cs r hr

/-- Five plots in a grid of two columns, and a combination in another one. -/
example : (∃ p, (OComb.node (.grid 2) none (.cons (.leaf 0 {}) (.cons (.leaf 1 {}) (.cons (.leaf 0 {}) .nil)))).vegalite = .ok p ∧ p.marks.length = 4) ∧
    ∃ p, sampleOpts.vegalite = .ok p ∧ ∀ n config cs, sampleOpts ≠ .node (.grid n) config cs :=
  ⟨⟨_, rfl, rfl⟩, _, rfl, by intro n c cs h; cases h⟩

/-- **C109** (unknown options): a combination takes `config` and nothing else. -/
theorem C109_unknown (k : CKind) (cs : OCombL) (opts : List (String × Dct)) :
    ocombine k cs opts = (if ∃ p ∈ opts, p.1 ≠ "config" then .error .typeError
      else .ok (.node k (opts.head?.map (·.2)) cs)) := by
  unfold ocombine
  by_cases h : ∃ p ∈ opts, p.1 ≠ "config"
  · rw [if_pos h, if_pos]
    obtain ⟨p, hp, hn⟩ := h
    exact List.length_pos_of_mem (List.mem_filter.mpr ⟨hp, by simpa using hn⟩)
  · rw [if_neg h, if_neg]
    · cases opts with
      | nil => rfl
      | cons p r =>
        have : p.1 = "config" := by by_contra hn; exact h ⟨p, by simp, hn⟩
        rw [List.find?_cons, decide_eq_true this]; rfl
    · intro hl
      obtain ⟨p, hp⟩ := List.exists_mem_of_length_pos hl
      rw [List.mem_filter] at hp
      exact h ⟨p, hp.1, by simpa using hp.2⟩

/-! ## scales and titles: specification -/

/-- The scale that a channel gets: a dict is taken as it is, a name is the type of the scale. -/
inductive Asks : Option J → Option Scale → Option Scale → Prop
  | nothing (default : Option Scale) : Asks none default default
  | dict (d : List (Key × J)) (default : Option Scale) : Asks (some (.dict d)) default (some (.given d))
  | name (v : J) (default : Option Scale) (h : ∀ d, v ≠ .dict d) : Asks (some v) default (some (.type v))

/-- What the colours of a heatmap stand for. -/
def orEntries : Option String → String
  | some p => p
  | none => "entries per bin"

/-- The title and order of the colours: of the last channel that is shown in colours. -/
def colorOf : List SaidChannel → Option (String × List String)
  | [] => none
  | .overlay t o :: r => (colorOf r).or (some (t, o))
  | .stack t o :: r => (colorOf r).or (some (t, o.reverse))
  | _ :: r => colorOf r

/-- The title of the last channel that is shown side by side. -/
def columnTitle : List SaidChannel → Option String
  | [] => none
  | .beside t :: r => (columnTitle r).or (some t)
  | _ :: r => columnTitle r

/-- The title of the last channel that is shown one below the other. -/
def rowTitle : List SaidChannel → Option String
  | [] => none
  | .below t :: r => (rowTitle r).or (some t)
  | _ :: r => rowTitle r

/-! ## lemmas -/

theorem encGet_put (enc : List (String × Said)) (n n' : String) (v : Said) :
    encGet (encPut n v enc) n' = if n = n' then some v else encGet enc n' := by
  unfold encGet
  induction enc with
  | nil => by_cases h : n = n' <;> simp [encPut, h]
  | cons p r ih =>
    rw [encPut]
    by_cases hp : p.1 = n
    · rw [if_pos hp]
      by_cases h : n = n'
      · simp [h]
      · rw [if_neg h, List.find?_cons, List.find?_cons, hp, decide_eq_false h]
    · rw [if_neg hp]
      by_cases hp' : p.1 = n'
      · have : n ≠ n' := fun e => hp (hp'.trans e.symm)
        simp [hp', this]
      · simp only [List.find?_cons, hp', decide_false, ih]

/-- The scale of a channel after its option has been applied. -/
def rescaled (s : Option J) (e : Said) : Said :=
  match s with
  | none => e
  | some v => { e with scale := some (scaleOf v) }

theorem encScale_get (enc : List (String × Said)) (n n' : String) (s : Option J) :
    encGet (encScale n s enc) n' = if n = n' then (encGet enc n').map (rescaled s) else encGet enc n' := by
  unfold encScale
  cases s with
  | none => by_cases h : n = n' <;> simp [h]; cases encGet enc n' <;> rfl
  | some v =>
    cases hg : encGet enc n with
    | none => by_cases h : n = n' <;> simp [h]; rw [← h, hg]; rfl
    | some e =>
      simp only
      rw [encGet_put]
      by_cases h : n = n'
      · rw [if_pos h, if_pos h, ← h, hg]; rfl
      · rw [if_neg h, if_neg h]

theorem asks_rescaled (s : Option J) (e : Said) : Asks s e.scale (rescaled s e).scale ∧ (rescaled s e).title = e.title := by
  cases s with
  | none => exact ⟨.nothing _, rfl⟩
  | some v => cases v <;> exact ⟨by first | exact .dict _ _ | exact .name _ _ (by simp), rfl⟩

theorem chain_get : ∀ (chain : List SaidChannel) (enc : List (String × Said)),
    encGet (chain.foldl encChannel enc) "x" = encGet enc "x" ∧ encGet (chain.foldl encChannel enc) "y" = encGet enc "y" ∧
    encGet (chain.foldl encChannel enc) "shape" = encGet enc "shape" ∧
    encGet (chain.foldl encChannel enc) "color" = ((colorOf chain).map fun c => ⟨some (.domain c.2), c.1⟩).or (encGet enc "color") ∧
    encGet (chain.foldl encChannel enc) "column" = ((columnTitle chain).map fun c => ⟨none, c⟩).or (encGet enc "column") ∧
    encGet (chain.foldl encChannel enc) "row" = ((rowTitle chain).map fun c => ⟨none, c⟩).or (encGet enc "row")
  | [], enc => ⟨rfl, rfl, rfl, rfl, rfl, rfl⟩
  | c :: r, enc => by
    rw [List.foldl_cons]
    obtain ⟨h1, h2, h3, h4, h5, h6⟩ := chain_get r (encChannel enc c)
    rw [h1, h2, h3, h4, h5, h6]
    cases c <;> simp [encChannel, encGet_put, colorOf, columnTitle, rowTitle] <;>
      first
      | (cases colorOf r <;> rfl)
      | (cases columnTitle r <;> rfl)
      | (cases rowTitle r <;> rfl)

theorem chain2d_get : ∀ (chain : List SaidChannel) (enc enc' : List (String × Said)), foldE encChannel2d enc chain = .ok enc' →
    encGet enc' "x" = encGet enc "x" ∧ encGet enc' "y" = encGet enc "y" ∧ encGet enc' "color" = encGet enc "color" ∧
    encGet enc' "column" = ((columnTitle chain).map fun c => ⟨none, c⟩).or (encGet enc "column") ∧
    encGet enc' "row" = ((rowTitle chain).map fun c => ⟨none, c⟩).or (encGet enc "row")
  | [], enc, enc', h => by cases h; exact ⟨rfl, rfl, rfl, rfl, rfl⟩
  | c :: r, enc, enc', h => by
    rw [foldE] at h
    cases hc : encChannel2d enc c with
    | error e => rw [hc] at h; cases h
    | ok e =>
      rw [hc] at h
      obtain ⟨h1, h2, h3, h4, h5⟩ := chain2d_get r e enc' h
      rw [h1, h2, h3, h4, h5]
      cases c <;> simp only [encChannel2d, reduceCtorEq] at hc <;> cases hc <;> simp [encGet_put, columnTitle, rowTitle] <;>
        first
        | (cases columnTitle r <;> rfl)
        | (cases rowTitle r <;> rfl)

/-! ## the properties -/

/-- **C110** (plots of one variable), as far as the colours have no scale of their own.  The horizontal axis is named after its quantity, the
vertical one after the profile or the kind of count, the colours, columns and rows after the axes that they show; both axes have the scale that was
asked for; the colours stand in the order of what is shown. -/
theorem C110_one_partial (xt : String) (profile : Option String) (normalized : Bool) (chain : List SaidChannel) (s : ScaleOpts) :
    (∃ sc, encGet (said1d xt profile normalized chain s) "x" = some ⟨sc, xt⟩ ∧ Asks s.x (some (.zero false)) sc) ∧
    (∃ sc, encGet (said1d xt profile normalized chain s) "y" = some ⟨sc,
      match profile, normalized with
      | some p, _ => p
      | none, true => "probability per bin"
      | none, false => "entries per bin"⟩ ∧ Asks s.y none sc) ∧
    (colorOf chain = none → encGet (said1d xt profile normalized chain s) "color" = none) ∧
    (∀ t o, colorOf chain = some (t, o) → ∃ sc, encGet (said1d xt profile normalized chain s) "color" = some ⟨sc, t⟩ ∧
      Asks s.color (some (.domain o)) sc) ∧
    (encGet (said1d xt profile normalized chain s) "column" = (columnTitle chain).map fun t => ⟨none, t⟩) ∧
    (encGet (said1d xt profile normalized chain s) "row" = (rowTitle chain).map fun t => ⟨none, t⟩) := by
  unfold said1d
  obtain ⟨h1, h2, h3, h4, h5, h6⟩ := chain_get chain [("x", ⟨some (.zero false), xt⟩), ("y", ⟨none, ytitle profile normalized⟩)]
  simp only [encScale_get, h1, h2, h3, h4, h5, h6, reduceCtorEq, String.reduceEq, if_true, if_false]
  refine ⟨⟨_, ?_, (asks_rescaled s.x ⟨some (.zero false), xt⟩).1⟩, ⟨_, ?_, (asks_rescaled s.y ⟨none, ytitle profile normalized⟩).1⟩, ?_, ?_, ?_, ?_⟩
  · cases hs : s.x <;> simp [encGet, rescaled]
  · cases hs : s.y <;> cases profile <;> cases normalized <;> simp [encGet, rescaled, ytitle]
  · intro h; rw [h]; rfl
  · intro t o h
    rw [h]
    refine ⟨_, ?_, (asks_rescaled s.color ⟨some (.domain o), t⟩).1⟩
    cases hs : s.color <;> simp [rescaled]
  · cases columnTitle chain <;> rfl
  · cases rowTitle chain <;> rfl

/-- A stack in a given order, with a logarithmic axis. -/
example : (encGet (said1d "x" none false [.stack "c" ["a", "b"], .beside "d"] { y := some (.str "log") }) "color").map (·.title) = some "c" ∧
    colorOf [.stack "c" ["a", "b"], .beside "d"] = some ("c", ["b", "a"]) := ⟨rfl, rfl⟩

/-- **C110** (heatmaps): the axes and the colours are named after what they show and have the scales that were asked for. -/
theorem C110_heatmap {xt yt : String} {profile : Option String} {chain : List SaidChannel} {s : ScaleOpts} {enc : List (String × Said)}
    (h : said2d xt yt profile chain s = .ok enc) :
    (∃ sc, encGet enc "x" = some ⟨sc, xt⟩ ∧ Asks s.x (some (.zero false)) sc) ∧
    (∃ sc, encGet enc "y" = some ⟨sc, yt⟩ ∧ Asks s.y (some (.zero false)) sc) ∧
    (∃ sc, encGet enc "color" = some ⟨sc, orEntries profile⟩ ∧ Asks s.color (some (.zero (decide (profile = none)))) sc) ∧
    (encGet enc "column" = (columnTitle chain).map fun t => ⟨none, t⟩) ∧
    (encGet enc "row" = (rowTitle chain).map fun t => ⟨none, t⟩) := by
  unfold said2d at h
  cases hf : foldE encChannel2d [("x", ⟨some (.zero false), xt⟩), ("y", ⟨some (.zero false), yt⟩),
      ("color", ⟨some (.zero profile.isNone), profile.getD "entries per bin"⟩)] chain with
  | error e => rw [hf] at h; cases h
  | ok e =>
    rw [hf] at h
    cases h
    obtain ⟨h1, h2, h3, h5, h6⟩ := chain2d_get chain _ _ hf
    simp only [encScale_get, h1, h2, h3, h5, h6, String.reduceEq, if_true, if_false]
    refine ⟨⟨_, ?_, (asks_rescaled s.x ⟨some (.zero false), xt⟩).1⟩, ⟨_, ?_, (asks_rescaled s.y ⟨some (.zero false), yt⟩).1⟩,
      ⟨_, ?_, (asks_rescaled s.color ⟨some (.zero (decide (profile = none))), profile.getD "entries per bin"⟩).1⟩, ?_, ?_⟩
    · cases hs : s.x <;> simp [encGet, rescaled]
    · cases hs : s.y <;> simp [encGet, rescaled]
    · cases hs : s.color <;> cases profile <;> simp [encGet, rescaled, orEntries]
    · cases columnTitle chain <;> rfl
    · cases rowTitle chain <;> rfl

theorem encPut_keys (n : String) (v : Said) : ∀ enc : List (String × Said), (enc.map (·.1)).Nodup →
    ((encPut n v enc).map (·.1)).Nodup ∧ ∀ k, k ∈ (encPut n v enc).map (·.1) → k = n ∨ k ∈ enc.map (·.1)
  | [], _ => by simp [encPut]
  | p :: r, h => by
    simp only [List.map_cons, List.nodup_cons] at h
    obtain ⟨i1, i2⟩ := encPut_keys n v r h.2
    rw [encPut]
    by_cases hp : p.1 = n
    · rw [if_pos hp]
      simp only [List.map_cons, List.nodup_cons]
      refine ⟨⟨hp ▸ h.1, h.2⟩, fun k hk => ?_⟩
      rcases List.mem_cons.1 hk with rfl | hk
      · exact Or.inl rfl
      · exact Or.inr (List.mem_cons_of_mem _ hk)
    · rw [if_neg hp]
      simp only [List.map_cons, List.nodup_cons]
      refine ⟨⟨fun hm => ?_, i1⟩, fun k hk => ?_⟩
      · rcases i2 _ hm with h3 | h3
        · exact hp h3
        · exact h.1 h3
      · rcases List.mem_cons.1 hk with rfl | hk
        · exact Or.inr List.mem_cons_self
        · rcases i2 k hk with h3 | h3
          · exact Or.inl h3
          · exact Or.inr (List.mem_cons_of_mem _ h3)

theorem encScale_keys (n : String) (s : Option J) (enc : List (String × Said)) (h : (enc.map (·.1)).Nodup) :
    ((encScale n s enc).map (·.1)).Nodup := by
  unfold encScale
  split
  · exact (encPut_keys _ _ _ h).1
  · exact h

/-- **C110**: a plot says at most one thing about each channel (`x`, `y`, `color`, `row`, ...), also if two channels of
the chain use it. -/
theorem C110_once (xt yt : String) (profile : Option String) (normalized : Bool) (chain : List SaidChannel) (s : ScaleOpts) :
    ((said1d xt profile normalized chain s).map (·.1)).Nodup ∧
    ∀ enc, said2d xt yt profile chain s = .ok enc → (enc.map (·.1)).Nodup := by
  constructor
  · have h : ∀ (chain : List SaidChannel) (enc : List (String × Said)), (enc.map (·.1)).Nodup → ((chain.foldl encChannel enc).map (·.1)).Nodup := by
      intro chain
      induction chain with
      | nil => exact fun enc h => h
      | cons c r ih =>
        intro enc h
        refine ih _ ?_
        cases c with
        | stack t o => exact (encPut_keys _ _ _ (encPut_keys _ _ _ h).1).1
        | overlay t o => exact (encPut_keys _ _ _ h).1
        | beside t => exact (encPut_keys _ _ _ h).1
        | below t => exact (encPut_keys _ _ _ h).1
    exact encScale_keys _ _ _ (encScale_keys _ _ _ (encScale_keys _ _ _ (encScale_keys _ _ _ (h chain _ (by simp)))))
  · intro enc he
    have h : ∀ (chain : List SaidChannel) (enc enc' : List (String × Said)), (enc.map (·.1)).Nodup → foldE encChannel2d enc chain = .ok enc' →
        (enc'.map (·.1)).Nodup := by
      intro chain
      induction chain with
      | nil => intro enc enc' h he; cases he; exact h
      | cons c r ih =>
        intro enc enc' h he
        cases c with
        | stack t o => cases he
        | overlay t o => cases he
        | beside t => exact ih _ _ (encPut_keys _ _ _ h).1 he
        | below t => exact ih _ _ (encPut_keys _ _ _ h).1 he
    unfold said2d at he
    cases hf : foldE encChannel2d [("x", ⟨some (.zero false), xt⟩), ("y", ⟨some (.zero false), yt⟩),
        ("color", ⟨some (.zero profile.isNone), profile.getD "entries per bin"⟩)] chain with
    | error e => rw [hf] at he; cases he
    | ok e =>
      rw [hf] at he
      cases he
      exact encScale_keys _ _ _ (encScale_keys _ _ _ (encScale_keys _ _ _ (h chain _ _ (by simp) hf)))

/-- Two overlays: the second decides. -/
example : (said1d "x" none false [.overlay "c" ["a"], .overlay "d" ["b"]] { color := some (.str "ordinal") }).map (·.1) = ["x", "y", "color"] := rfl

/-- **C110** (heatmaps): channels that would be shown in colours are refused, all others are not. -/
theorem C110_heatmap_colors (xt yt : String) (profile : Option String) (chain : List SaidChannel) (s : ScaleOpts) :
    (colorOf chain ≠ none → said2d xt yt profile chain s = .error .assertion) ∧
    (colorOf chain = none → ∃ enc, said2d xt yt profile chain s = .ok enc) := by
  have h : ∀ (chain : List SaidChannel) (enc : List (String × Said)), (colorOf chain ≠ none → foldE encChannel2d enc chain = .error .assertion) ∧
      (colorOf chain = none → ∃ enc', foldE encChannel2d enc chain = .ok enc') := by
    intro chain
    induction chain with
    | nil => intro enc; exact ⟨fun h => absurd rfl h, fun _ => ⟨enc, rfl⟩⟩
    | cons c r ih =>
      intro enc
      cases c with
      | overlay t o => exact ⟨fun _ => rfl, fun h => by rw [colorOf] at h; cases hr : colorOf r <;> rw [hr] at h <;> cases h⟩
      | stack t o => exact ⟨fun _ => rfl, fun h => by rw [colorOf] at h; cases hr : colorOf r <;> rw [hr] at h <;> cases h⟩
      | beside t => exact ih _
      | below t => exact ih _
  unfold said2d
  refine ⟨fun hc => ?_, fun hc => ?_⟩
  · rw [(h chain _).1 hc]; rfl
  · obtain ⟨e, he⟩ := (h chain [("x", ⟨some (.zero false), xt⟩), ("y", ⟨some (.zero false), yt⟩),
      ("color", ⟨some (.zero profile.isNone), profile.getD "entries per bin"⟩)]).2 hc
    rw [he]
    exact ⟨_, rfl⟩

example : colorOf [.below "d", .overlay "c" ["a"]] ≠ none ∧ colorOf [.below "d", .beside "e"] = none := ⟨by decide, rfl⟩

example : ∃ enc, said2d "x" "y" (some "p") [.below "d"] { color := some (.str "log") } = .ok enc ∧ enc.length = 4 := ⟨_, rfl, rfl⟩

/-- **C110 is violated** by a scale for the colours: the order of the stack that was asked for is no longer that of the colours. -/
theorem C110_refuted_order : ∃ chain : List SaidChannel, ∃ sc, colorOf chain = some ("c", ["b", "a"]) ∧
    (encGet (said1d "x" none false chain {}) "color") = some ⟨some (.domain ["b", "a"]), "c"⟩ ∧
    (encGet (said1d "x" none false chain { color := some (.str "ordinal") }) "color") = some ⟨sc, "c"⟩ ∧
    sc = some (.type (.str "ordinal")) := ⟨[.stack "c" ["a", "b"]], _, rfl, rfl, rfl, rfl⟩

/-- **C110 is violated** by every scale for shapes: it has no effect. -/
theorem C110_refuted_shape (xt : String) (profile : Option String) (normalized : Bool) (chain : List SaidChannel) (s : ScaleOpts) :
    said1d xt profile normalized chain s = said1d xt profile normalized chain { s with shape := none } := by
  have h : ∀ enc, encGet enc "shape" = none → encScale "shape" s.shape enc = enc := by
    intro enc he
    unfold encScale
    rw [he]
    cases s.shape <;> rfl
  have h' : ∀ enc : List (String × Said), encScale "shape" none enc = enc := fun _ => rfl
  unfold said1d
  simp only
  rw [h', h]
  simp only [encScale_get, String.reduceEq, if_false]
  rw [(chain_get chain _).2.2.1]
  rfl

end Verif
