import Verif.PlotText
import Verif.PropsText

/-!
# C111: the text of a plot
-/

namespace Verif

variable {β : Type}

/-! ## specification: how Python reads a chain of method calls -/

/-- A method call: the name, the axes among the arguments, and the named arguments. -/
structure MethodCall where
  method : String
  axes : List AxisX
  named : List (String × J)

/-- The method call that an expression after a dot stands for. -/
def Syn.methodCall : Syn → Except Err MethodCall
  | .call m l => (do
    let as ← l.axes
    let os ← l.options
    .ok ⟨m, as, os⟩)
  | _ => .error .attributeError

/-- The method call that a text describes. -/
def callOfText (l : List Tok) : Except Err MethodCall :=
  match readText l with
  | some a => a.methodCall
  | none => .error .expression

/-- The histogram and the method calls that a text describes, given the pieces between the dots. -/
def plotOfText (P : Parser β) : List (List Tok) → Except Err (HistX β × List MethodCall)
  | [] => .error .expression
  | h :: ms => (do
    let h ← histOfText P h
    let ms ← mapE callOfText ms
    .ok (h, ms))

/-- The method that makes a plot of each kind. -/
def TermKind.makes : TermKind → String
  | .bar => "bar"
  | .step => "step"
  | .area => "area"
  | .line => "line"
  | .marker => "marker"
  | .heatmap => "heatmap"

/-- The method calls that make a chain; the options of the last channel are left out, see `C111_refuted_options`. -/
def ChannelX.call : ChannelX → MethodCall
  | .overlay a => ⟨"overlay", [a], []⟩
  | .stack a none => ⟨"stack", [a], []⟩
  | .stack a (some o) => ⟨"stack", [a], [("order", .list (o.map .str))]⟩
  | .beside a => ⟨"beside", [a], []⟩
  | .below a => ⟨"below", [a], []⟩
  | .last k as _ => ⟨k.makes, as, []⟩

/-- The axes of a channel. -/
def ChannelX.axes : ChannelX → List AxisX
  | .overlay a => [a]
  | .stack a _ => [a]
  | .beside a => [a]
  | .below a => [a]
  | .last _ as _ => as

/-- A channel on one axis that, if it is the last one, has no options but defaults. -/
def ChannelX.NoOptions : ChannelX → Prop
  | .last k as o => o.toks k = [] ∧ as.length = 1
  | _ => True

/-- An axis as it was made, with finite numbers. -/
def PlainAxis (a : AxisX) : Prop := Made a ∧ ∀ v ∈ a.numbers, ∃ q, v = .fin q

/-! ## lemmas -/

theorem strTuple_toks (o : List String) : ∃ l : Args, (Syn.tuple l).toks = reprStrTuple o ∧ l.Good .tuple ∧
    l.values = .ok (o.map fun s => (none, .str s)) := by
  have hmore : ∀ r : List String, ∃ l : Args, l.more .tuple = (r.map fun s => [Tok.comma, .str s]).flatten ∧ l.Good .tuple ∧
      l.values = .ok (r.map fun s => (none, .str s)) ∧ (l = .nil ↔ r = []) := by
    intro r
    induction r with
    | nil => exact ⟨.nil, rfl, trivial, rfl, by simp⟩
    | cons s r ih =>
      obtain ⟨l, h1, h2, h3, _⟩ := ih
      exact ⟨.pos (.str s) l, by simp [Args.more, Syn.toks, h1], ⟨by simp, trivial, h2⟩, by
        simp [Args.values, Syn.value, h3, bind, Except.bind], by simp⟩
  cases o with
  | nil => exact ⟨.nil, rfl, trivial, rfl⟩
  | cons s r =>
    obtain ⟨l, h1, h2, h3, h4⟩ := hmore r
    refine ⟨.pos (.str s) l, ?_, ⟨by simp, trivial, h2⟩, by simp [Args.values, Syn.value, h3, bind, Except.bind]⟩
    cases r with
    | nil =>
      rw [h4.mpr rfl]
      rfl
    | cons s' r =>
      have hs : (Args.pos (.str s) l).single = false := by
        cases l with
        | nil => simp at h4
        | pos _ _ => rfl
        | kw _ _ _ => rfl
      simp only [Syn.toks, hs, Args.toks, h1, reprStrTuple, joinComma_cons, List.map_cons, List.map_map]
      simp [Function.comp_def]

theorem call_of_args (m : String) (l : Args) (hg : l.Good .call) (as : List AxisX) (os : List (String × J)) (ha : l.axes = .ok as)
    (ho : l.options = .ok os) : callOfText (.name m :: .lpar :: (l.toks .call ++ [.rpar])) = .ok ⟨m, as, os⟩ := by
  have h := readText_toks (.call m l) (by simpa [Syn.Good] using hg)
  rw [Syn.toks] at h
  rw [callOfText, h]
  simp [Syn.methodCall, ha, ho, bind, Except.bind]

theorem call_one (m : String) {a : AxisX} (ha : PlainAxis a) : callOfText (.name m :: .lpar :: (a.toks ++ [.rpar])) = .ok ⟨m, [a], []⟩ := by
  have h := call_of_args m (.pos a.syn .nil) ⟨by simp, axis_good a, trivial⟩ [a] []
    (by simp [Args.axes, axis_value ha.1 ha.2, bind, Except.bind]) rfl
  simpa [Args.toks, Args.more, axis_toks] using h

theorem channel_read {c : ChannelX} (ha : ∀ a ∈ c.axes, PlainAxis a) (hn : c.NoOptions) : callOfText c.toks = .ok c.call := by
  cases c with
  | overlay a => simpa [ChannelX.call, ChannelX.toks, callToks, joinComma] using call_one "overlay" (ha a (by simp [ChannelX.axes]))
  | beside a => simpa [ChannelX.call, ChannelX.toks, callToks, joinComma] using call_one "beside" (ha a (by simp [ChannelX.axes]))
  | below a => simpa [ChannelX.call, ChannelX.toks, callToks, joinComma] using call_one "below" (ha a (by simp [ChannelX.axes]))
  | stack a o =>
    have ha' : PlainAxis a := ha a (by simp [ChannelX.axes])
    clear ha
    cases o with
    | none => simpa [ChannelX.call, ChannelX.toks, callToks, joinComma] using call_one "stack" ha'
    | some o =>
      obtain ⟨l, h1, h2, h3⟩ := strTuple_toks o
      have h := call_of_args "stack" (.pos a.syn (.kw "order" (.tuple l) .nil)) ⟨by simp, axis_good a, by simp, by simpa [Syn.Good] using h2, trivial⟩
        [a] [("order", .list (o.map .str))] (by simp [Args.axes, axis_value ha'.1 ha'.2, bind, Except.bind])
        (by simp [Args.options, Syn.value, h3, bind, Except.bind, List.map_map, Function.comp_def])
      simpa [ChannelX.call, ChannelX.toks, callToks, joinComma, Args.toks, Args.more, axis_toks, h1, keyToks, keyword] using h
  | last k as o =>
    obtain ⟨ho, hl⟩ := hn
    obtain ⟨a, rfl⟩ := List.length_eq_one_iff.mp hl
    have hk : k.method = k.makes := by cases k <;> rfl
    simpa [ChannelX.call, ChannelX.toks, ho, hk] using call_one k.makes (ha a (by simp [ChannelX.axes]))

/-! ## the properties -/

/-- **C111**, for chains without options.  The text of a plot is the text of its histogram followed by the method calls that make the plot. -/
theorem C111_chain_partial {P : Parser β} {h : HistX β} (hb : BuiltHist P h)
    (hf : ∀ x ∈ h.axes, ∀ v ∈ x.1.numbers, ∃ q, v = .fin q) (hw : ∀ v, h.weight = .float v → ∃ q, v = .fin q)
    (chain : List ChannelX) (hc : ∀ c ∈ chain, (∀ a ∈ c.axes, PlainAxis a) ∧ c.NoOptions) :
    plotOfText P (plotToks h chain) = .ok ({ h with content := .none, attachment := [] }, chain.map ChannelX.call) := by
  have hm : mapE callOfText (chain.map ChannelX.toks) = .ok (chain.map ChannelX.call) := by
    induction chain with
    | nil => rfl
    | cons c r ih =>
      have h1 := channel_read (hc c (by simp)).1 (hc c (by simp)).2
      simp [mapE, h1, ih fun c hc' => hc c (by simp [hc'])]
  rw [plotToks, plotOfText, C96_hist_partial hb hf hw, hm]
  rfl

/-- A chain with an order, without options. -/
example : ∀ c ∈ [ChannelX.stack (.cut "y") (some ["a", "b"]), .last .marker [.groupby "x"] { error := some true }],
    (∀ a ∈ c.axes, PlainAxis a) ∧ c.NoOptions := by
  intro c hc
  simp only [List.mem_cons, List.not_mem_nil, or_false] at hc
  rcases hc with rfl | rfl
  · exact ⟨by simp only [ChannelX.axes, List.mem_singleton, forall_eq]; exact ⟨⟨.cut, "y", [], by decide +kernel⟩, by simp [AxisX.numbers]⟩, trivial⟩
  · exact ⟨by simp only [ChannelX.axes, List.mem_singleton, forall_eq]; exact ⟨⟨.groupby, "x", [], by decide +kernel⟩, by simp [AxisX.numbers]⟩, rfl, rfl⟩

/-- A call can be read whatever follows. -/
theorem readSyn_call (f : String) (l : Args) (n : ℕ) (r : List Tok) (hg : l.Good .call) (hn : 2 * (Syn.call f l).toks.length ≤ n) :
    readSyn n ((Syn.call f l).toks ++ r) = some (.call f l, r) := by
  obtain ⟨n, rfl⟩ : ∃ m, n = m + 1 := ⟨n - 1, by simp [Syn.toks] at hn; omega⟩
  simp only [Syn.toks, List.length_cons, List.length_append] at hn
  have := readArgs_toks .call l n [] r (Or.inl rfl) hg (by omega)
  simp only [Brack.close, List.nil_append] at this
  simp [Syn.toks, readSyn, this]

theorem axis_starts (a : AxisX) : ∃ f t, a.toks = .name f :: .lpar :: t := by
  rw [← axis_toks, AxisX.syn, Syn.toks]
  exact ⟨_, _, rfl⟩

/-- Something other than a comma or a closing parenthesis after the first axis. -/
theorem unreadable (m : String) (a : AxisX) (s : String) (t : List Tok) :
    readText (.name m :: .lpar :: (a.toks ++ (.name s :: t))) = none := by
  obtain ⟨f, u, hu⟩ := axis_starts a
  have hr : ∀ n, 2 * a.toks.length ≤ n → readSyn n (a.toks ++ (.name s :: t)) = some (a.syn, .name s :: t) := by
    intro n hn
    have := readSyn_call a.items.1 (argsFrom a.items.2) n (.name s :: t) (by simpa [AxisX.syn, Syn.Good] using axis_good a)
      (by rw [← AxisX.syn, axis_toks]; exact hn)
    rwa [← AxisX.syn, axis_toks] at this
  have h : ∀ n, 2 * a.toks.length + 2 ≤ n → readSyn n (.name m :: .lpar :: (a.toks ++ (.name s :: t))) = none := by
    intro n hn
    obtain ⟨n, rfl⟩ : ∃ k, n = k + 2 := ⟨n - 2, by omega⟩
    have hr' := hr n (by omega)
    obtain ⟨n, rfl⟩ : ∃ k, n = k + 1 := ⟨n - 1, by rw [hu] at hn; simp only [List.length_cons] at hn; omega⟩
    rw [hu] at hr' ⊢
    simp only [List.cons_append] at hr' ⊢
    rw [readSyn, readArgs]
    simp only [Brack.close, reduceCtorEq, if_false]
    rw [hr']
    simp [readThen, readNext, Brack.close]
    all_goals simp
  unfold readText
  rw [h _ (by simp only [List.length_cons, List.length_append]; omega)]

/-- **C111 is violated** by every option of the last channel and by every heatmap: Python cannot read the text, since the commas between the arguments
are missing. -/
theorem C111_refuted_options (k : TermKind) (a : AxisX) (as : List AxisX) (o : TermOpts) (h : as ≠ [] ∨ o.toks k ≠ []) :
    callOfText (ChannelX.last k (a :: as) o).toks = .error .expression := by
  have hn : ∃ s t, (as.map AxisX.toks ++ o.toks k).flatten = .name s :: t := by
    cases as with
    | cons b bs =>
      obtain ⟨f, u, hu⟩ := axis_starts b
      exact ⟨f, _, by rw [List.map_cons, List.cons_append, List.flatten_cons, hu]; rfl⟩
    | nil =>
      have ho : o.toks k ≠ [] := h.resolve_left (by simp)
      have hk : ∀ x ∈ o.toks k, ∃ s t, x = keyword s t := by
        have harg : ∀ n v, ∀ x ∈ argIf n v, ∃ s t, x = keyword s t := by
          intro n v x hx
          cases v with
          | none => simp [argIf] at hx
          | some t => simp only [argIf, List.mem_singleton] at hx; exact ⟨n, t, hx⟩
        intro x hx
        unfold TermOpts.toks at hx
        simp only [List.mem_append] at hx
        rcases hx with (((((((((hx | hx) | hx) | hx) | hx) | hx) | hx) | hx) | hx) | hx) | hx <;> exact harg _ _ x hx
      rw [List.map_nil, List.nil_append]
      generalize o.toks k = l at ho hk
      cases l with
      | nil => exact absurd rfl ho
      | cons x l =>
        obtain ⟨s, t, rfl⟩ := hk x (by simp)
        exact ⟨s, _, rfl⟩
  obtain ⟨s, t, hst⟩ := hn
  have he : (ChannelX.last k (a :: as) o).toks = .name k.method :: .lpar :: (a.toks ++ (.name s :: (t ++ [.rpar]))) := by
    simp [ChannelX.toks, List.map_cons, List.cons_append, List.flatten_cons, hst, List.append_assoc]
  rw [callOfText, he, unreadable]

example : callOfText (ChannelX.last .bar [.groupby "x"] { width := some (.int 300) }).toks = .error .expression ∧
    ((ChannelX.last .bar [.groupby "x"] { width := some (.int 300) }).toks) =
      [.name "bar", .lpar, .name "groupby", .lpar, .str "x", .rpar, .name "width", .eq, .int 300, .rpar] :=
  ⟨C111_refuted_options .bar _ [] _ (Or.inr (by decide +kernel)), rfl⟩

/-! ## which options are in the text -/

/-- Whether the text of a plot of kind `k` says something about error bars: if they are not as usual for the kind. -/
def TermKind.unusual (k : TermKind) (e : Option Bool) : Option Bool :=
  if k = .heatmap then none else if e = some (!(decide (k = .marker))) then e else none

/-- The named arguments that the text should have, with their texts; a heatmap has no `error`, `normalized` and `shapescale`. -/
def TermOpts.named (k : TermKind) (o : TermOpts) (name : String) : Option (List Tok) :=
  if name = "profile" then o.profile.map AxisX.toks
  else if name = "error" then (k.unusual o.error).map reprBool
  else if name = "normalized" then (if o.normalized = true ∧ k ≠ .heatmap then some (reprBool true) else none)
  else if name = "width" then o.width.map reprJ
  else if name = "height" then o.height.map reprJ
  else if name = "title" then o.title.map reprJ
  else if name = "config" then o.config.map reprJ
  else if name = "xscale" then o.xscale.map reprJ
  else if name = "yscale" then o.yscale.map reprJ
  else if name = "colorscale" then o.colorscale.map reprJ
  else if name = "shapescale" then (if k = .heatmap then none else o.shapescale.map reprJ)
  else none

theorem mem_argIf (k : String) (v : Option (List Tok)) (x : List Tok) : x ∈ argIf k v ↔ ∃ t, v = some t ∧ x = keyword k t := by
  cases v with
  | none => simp [argIf]
  | some t => simp [argIf]

/-- C111: every option that differs from its default is in the text with its name, and nothing else is (the commas between them are missing,
see `C111_refuted_options`). -/
theorem C111_options_shown (k : TermKind) (o : TermOpts) (x : List Tok) :
    x ∈ o.toks k ↔ ∃ name t, o.named k name = some t ∧ x = keyword name t := by
  have he : (k.unusual o.error).map reprBool = errorToks k o.error := by
    cases k <;> (rcases o.error with _ | _ | _) <;> rfl
  have hn : (if o.normalized = true ∧ k ≠ .heatmap then some (reprBool true) else none) =
      (if o.normalized && k ≠ .heatmap then some (reprBool true) else none) := by simp
  have hs : (if k = .heatmap then none else o.shapescale.map reprJ) = (if k ≠ .heatmap then o.shapescale.map reprJ else none) := by
    by_cases h : k = .heatmap <;> simp [h]
  unfold TermOpts.toks
  simp only [List.mem_append, mem_argIf]
  constructor
  · rintro ((((((((((h | h) | h) | h) | h) | h) | h) | h) | h) | h) | h) <;> obtain ⟨t, ht, rfl⟩ := h
    · exact ⟨"profile", t, by simpa [TermOpts.named] using ht, rfl⟩
    · exact ⟨"error", t, by rw [← he] at ht; simpa [TermOpts.named] using ht, rfl⟩
    · exact ⟨"normalized", t, by rw [← hn] at ht; simpa [TermOpts.named] using ht, rfl⟩
    · exact ⟨"width", t, by simpa [TermOpts.named] using ht, rfl⟩
    · exact ⟨"height", t, by simpa [TermOpts.named] using ht, rfl⟩
    · exact ⟨"title", t, by simpa [TermOpts.named] using ht, rfl⟩
    · exact ⟨"config", t, by simpa [TermOpts.named] using ht, rfl⟩
    · exact ⟨"xscale", t, by simpa [TermOpts.named] using ht, rfl⟩
    · exact ⟨"yscale", t, by simpa [TermOpts.named] using ht, rfl⟩
    · exact ⟨"colorscale", t, by simpa [TermOpts.named] using ht, rfl⟩
    · exact ⟨"shapescale", t, by rw [← hs] at ht; simpa [TermOpts.named] using ht, rfl⟩
  · rintro ⟨name, t, h, rfl⟩
    unfold TermOpts.named at h
    rw [he, hn, hs] at h
    by_cases h0 : name = "profile"
    · rw [if_pos h0] at h; subst h0; exact Or.inl <| Or.inl <| Or.inl <| Or.inl <| Or.inl <| Or.inl <| Or.inl <| Or.inl <| Or.inl <| Or.inl <| ⟨t, h, rfl⟩
    rw [if_neg h0] at h
    by_cases h1 : name = "error"
    · rw [if_pos h1] at h; subst h1; exact Or.inl <| Or.inl <| Or.inl <| Or.inl <| Or.inl <| Or.inl <| Or.inl <| Or.inl <| Or.inl <| Or.inr ⟨t, h, rfl⟩
    rw [if_neg h1] at h
    by_cases h2 : name = "normalized"
    · rw [if_pos h2] at h; subst h2; exact Or.inl <| Or.inl <| Or.inl <| Or.inl <| Or.inl <| Or.inl <| Or.inl <| Or.inl <| Or.inr ⟨t, h, rfl⟩
    rw [if_neg h2] at h
    by_cases h3 : name = "width"
    · rw [if_pos h3] at h; subst h3; exact Or.inl <| Or.inl <| Or.inl <| Or.inl <| Or.inl <| Or.inl <| Or.inl <| Or.inr ⟨t, h, rfl⟩
    rw [if_neg h3] at h
    by_cases h4 : name = "height"
    · rw [if_pos h4] at h; subst h4; exact Or.inl <| Or.inl <| Or.inl <| Or.inl <| Or.inl <| Or.inl <| Or.inr ⟨t, h, rfl⟩
    rw [if_neg h4] at h
    by_cases h5 : name = "title"
    · rw [if_pos h5] at h; subst h5; exact Or.inl <| Or.inl <| Or.inl <| Or.inl <| Or.inl <| Or.inr ⟨t, h, rfl⟩
    rw [if_neg h5] at h
    by_cases h6 : name = "config"
    · rw [if_pos h6] at h; subst h6; exact Or.inl <| Or.inl <| Or.inl <| Or.inl <| Or.inr ⟨t, h, rfl⟩
    rw [if_neg h6] at h
    by_cases h7 : name = "xscale"
    · rw [if_pos h7] at h; subst h7; exact Or.inl <| Or.inl <| Or.inl <| Or.inr ⟨t, h, rfl⟩
    rw [if_neg h7] at h
    by_cases h8 : name = "yscale"
    · rw [if_pos h8] at h; subst h8; exact Or.inl <| Or.inl <| Or.inr ⟨t, h, rfl⟩
    rw [if_neg h8] at h
    by_cases h9 : name = "colorscale"
    · rw [if_pos h9] at h; subst h9; exact Or.inl <| Or.inr ⟨t, h, rfl⟩
    rw [if_neg h9] at h
    by_cases h10 : name = "shapescale"
    · rw [if_pos h10] at h; subst h10; exact Or.inr ⟨t, h, rfl⟩
    rw [if_neg h10] at h
    cases h

example : (TermOpts.toks .marker { error := some false, yscale := some (.str "log") }).length = 2 ∧
    TermOpts.named .marker { error := some false } "error" = some (reprBool false) ∧
    TermOpts.named .bar { error := some false } "error" = none := by decide +kernel

end Verif
