import Verif.TextLemmas

/-!
# Properties of text (C96)
-/

namespace Verif

variable {β : Type}

/-- **C96** (axes), for finite numbers.  The text of an axis is a call that makes the same axis. -/
theorem C96_axis_partial {a : AxisX} (hm : Made a) (hf : ∀ v ∈ a.numbers, ∃ q, v = .fin q) :
    axisOfText a.toks = .ok a := by
  rw [axisOfText, ← axis_toks, readText_toks _ (axis_good a)]
  exact axis_value hm hf

/-- An axis with options; its text is `split('x', (-1.0, 2.0), overflow=False)`. -/
example : Made (.split "x" [.fin (-1), .fin 2] true false true true) ∧
    (AxisX.split "x" [.fin (-1), .fin 2] true false true true).toks =
      [.name "split", .lpar, .str "x", .comma, .lpar, .minus, .float 1, .comma, .float 2, .rpar, .comma,
        .name "overflow", .eq, .name "False", .rpar] :=
  ⟨⟨.split, "x", [.list [.int 2, .int (-1)], .bool true, .bool false, .bool true, .bool true], by decide +kernel⟩,
    by decide +kernel⟩

/-- The values of the options in the text of a histogram. -/
theorem opt_values (h : HistX β) (hw : h.weight.Simple) :
    mapE (fun p : String × Syn => p.2.value.map fun v => (p.1, v)) h.optItems = .ok (weightEntry h.weight ++
      filterEntry h.filter ++ entryIf (h.defs.length > 0) "defs" (.obj (h.defs.map fun p => (p.1, .str p.2)))) := by
  have hval := synJ_value h.weight hw
  have hstr : ∀ s, (Syn.str s).value = .ok (.str s) := fun s => by simp [Syn.value]
  unfold HistX.optItems
  revert hval
  by_cases hd : h.defs.length > 0 <;> cases h.weight <;> cases h.filter <;> intro hval <;>
    simp [hd, mapE, hval, Except.map, weightEntry, filterEntry, entryIf, defArgs_value, hstr]

/-- **C96** (histograms), for histograms that were made from axes of their own, with finite numbers and weight.  The
text of a histogram is a call that makes the same histogram, but for its content and its attachments. -/
theorem C96_hist_partial {P : Parser β} {h : HistX β} (hb : BuiltHist P h)
    (hf : ∀ x ∈ h.axes, ∀ v ∈ x.1.numbers, ∃ q, v = .fin q) (hw : ∀ v, h.weight = .float v → ∃ q, v = .fin q) :
    histOfText P h.toks = .ok { h with content := .none, attachment := [] } := by
  have hs := Sound.of_built hb
  have hsim : h.weight.Simple := by
    have := hs.weight
    revert this hw
    cases h.weight with
    | list l => intro _ h'; exfalso; cases hfil : h.filter <;> simp [hfil, mkWeight, J.isNumber, J.strOf, weightText, bind, Except.bind] at h'
    | dict l => intro _ h'; exfalso; cases hfil : h.filter <;> simp [hfil, mkWeight, J.isNumber, J.strOf, weightText, bind, Except.bind] at h'
    | float v => intro hw _; exact hw v rfl
    | _ => intros; trivial
  have hs' : Sound P { h with attachment := [] } := ⟨hs.axes, hs.group, hs.fixed, hs.profile, hs.filter, hs.weight⟩
  rw [histOfText, ← hist_toks h hsim, readText_toks _ (hist_good h)]
  have hax := args_axes (h.axes.map (·.1)) h.optItems fun a ha => by
    obtain ⟨x, hx, rfl⟩ := List.mem_map.mp ha
    exact axis_value (hs.axes x hx).1 (hf x hx)
  have hmk := mkHist_axes hs'
  obtain ⟨v, hv, h1, h2, h3, h4, h5⟩ : ∃ v, mapE (fun p : String × Syn => p.2.value.map fun v => (p.1, v)) h.optItems = .ok v ∧
      (v.all fun p => p.1 ∈ ["weight", "filter", "defs", "attachment"]) = true ∧
      (J.obj v).getN "weight" = h.weight ∧ ((J.obj v).getN "filter").optStr = .ok h.filter ∧
      ((J.obj v).getN "defs").defsOf = .ok h.defs ∧ ((J.obj v).getN "attachment").objOf = .ok [] := by
    refine ⟨_, opt_values h hsim, ?_⟩
    have hnull : J.null.defsOf = .ok [] := rfl
    have hd : h.defs.length > 0 ↔ h.defs ≠ [] := List.length_pos_iff
    simp only [hd]
    cases h.weight <;> cases h.filter <;> by_cases hd : h.defs = [] <;>
      simp [weightEntry, filterEntry, entryIf, hd, J.getN, get_obj, foundJ, J.optStr, defsOf_obj, J.objOf, hnull]
  have hopt := args_options (h.axes.map fun x => x.1.syn) h.optItems v hv
  simp only [List.map_map, Function.comp_def] at hax hopt hmk
  simp only [HistX.syn, Syn.hist, hax, hopt, h1, bind, Except.bind, h2, h3, h4, h5, if_true, List.map_map, Function.comp_def]
  exact hmk

/-- A histogram with all kinds of settings. -/
example : BuiltHist namesParser sampleHist ∧ (∀ x ∈ sampleHist.axes, ∀ v ∈ x.1.numbers, ∃ q, v = .fin q) ∧
    (∀ v, sampleHist.weight = .float v → ∃ q, v = .fin q) := by
  refine ⟨sampleHist_built, ?_, ?_⟩
  · intro x hx v hv
    simp only [HistX.axes, sampleHist, List.cons_append, List.nil_append, List.mem_cons, List.not_mem_nil, or_false] at hx
    rcases hx with rfl | rfl | rfl | rfl <;> simp [AxisX.numbers] at hv
    rcases hv with rfl | rfl <;> exact ⟨_, rfl⟩
  · intro v hv
    simp [sampleHist] at hv

/-- **C96** (no confusion).  Such histograms with the same text are the same but for their contents and attachments. -/
theorem C96_told_apart_partial {P : Parser β} {g h : HistX β} (hg : BuiltHist P g) (hh : BuiltHist P h)
    (hgf : ∀ x ∈ g.axes, ∀ v ∈ x.1.numbers, ∃ q, v = .fin q) (hgw : ∀ v, g.weight = .float v → ∃ q, v = .fin q)
    (hhf : ∀ x ∈ h.axes, ∀ v ∈ x.1.numbers, ∃ q, v = .fin q) (hhw : ∀ v, h.weight = .float v → ∃ q, v = .fin q)
    (he : g.toks = h.toks) : { g with content := .none, attachment := [] } = { h with content := .none, attachment := [] } := by
  have h1 := C96_hist_partial hg hgf hgw
  have h2 := C96_hist_partial hh hhf hhw
  rw [he, h2] at h1
  exact (Except.ok.inj h1).symm

/-- **C96 is violated** by an infinite edge: the text has a name that Python does not know. -/
theorem C96_refuted_infinite : ∃ a : AxisX, Made a ∧ a.noNaN ∧
    a.toks = [.name "split", .lpar, .str "x", .comma, .lpar, .float 0, .comma, .name "inf", .rpar, .rpar] ∧
    axisOfText a.toks = .error .nameError :=
  ⟨.split "x" [.fin 0, .pinf] true true true true,
    ⟨.split, "x", [.list [.float .pinf, .int 0], .bool true, .bool true, .bool true, .bool true], by decide +kernel⟩,
    by decide +kernel, by decide +kernel, by decide +kernel⟩

/-- **C96 is violated** by what `select` leaves of an axis when a single flow bin is left: its name is not exported. -/
theorem C96_refuted_null : ∃ h : HistX String, mkHist namesParser [(.null, none)] .null none [] [] = .ok h ∧
    histOfText namesParser h.toks = .error .nameError := ⟨_, rfl, rfl⟩

/-- **C96 is violated** by a histogram made with an axis of another histogram: the text makes a histogram of another
quantity, here of `x` instead of `y+1`. -/
theorem C96_refuted_reused : ∃ (g h h' : HistX String) (a : AxisX × Option String),
    mkHist namesParser [(.cut "x", none)] .null none [("x", "y+1")] [] = .ok g ∧ g.fixed = [a] ∧
    mkHist namesParser [a] .null none [] [] = .ok h ∧ histOfText namesParser h.toks = .ok h' ∧
    h.fixed = [(.cut "x", some "y+1")] ∧ h'.fixed = [(.cut "x", some "x")] :=
  ⟨_, _, _, _, rfl, rfl, rfl, rfl, rfl, rfl⟩

end Verif
