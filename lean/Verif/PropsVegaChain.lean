import Verif.VegaLayers

/-!
# C91: which chains of plotting calls are allowed
-/

namespace Verif

/-! ## specification -/

/-- The methods of a chain. -/
inductive ChainMethod
  | overlay | stack | beside | below
  deriving DecidableEq

def ChanKind.method : ChanKind → ChainMethod
  | .overlay => .overlay
  | .stack _ => .stack
  | .beside => .beside
  | .below => .below

/-- One call after the other, from a histogram on. -/
def callChain (calls : List (ChanKind × ℕ)) : Except Err (List Channel) := foldE (fun ch c => addChannel ch c.1 c.2) [] calls

/-- A chain that ends in a plot of one variable. -/
def callPlot (nax : ℕ) (calls : List (ChanKind × ℕ)) (m : Mark) (axis prof : Option ℕ) (error normalized log : Bool) : Except Err Plot1d :=
  match callChain calls with
  | .error e => .error e
  | .ok ch => addMark nax ch m axis prof error normalized log

/-- A chain that ends in a heatmap. -/
def callHeatmap (nax : ℕ) (calls : List (ChanKind × ℕ)) (axes : Option ℕ × Option ℕ) (prof : Option ℕ) : Except Err Plot2d :=
  match callChain calls with
  | .error e => .error e
  | .ok ch => addHeatmap nax ch axes prof

/-! ## lemmas -/

theorem same_method (k l : ChanKind) : k.same l = decide (k.method = l.method) := by
  cases k <;> cases l <;> rfl

theorem foldChain (calls : List (ChanKind × ℕ)) : ∀ ch : List Channel, (ch.map fun c => c.kind.method).Nodup →
    foldE (fun ch c => addChannel ch c.1 c.2) ch calls =
      if ((ch.map fun c => c.kind.method) ++ calls.map fun c => c.1.method).Nodup then .ok (ch ++ calls.map fun c => ⟨c.1, c.2⟩) else .error .typeError := by
  induction calls with
  | nil => intro ch h; simp [foldE, h]
  | cons c calls ih =>
    intro ch h
    rw [foldE, show addChannel ch c.1 c.2 = if (ch.any fun d => c.1.same d.kind) = true then .error .typeError else .ok (ch ++ [⟨c.1, c.2⟩]) from rfl]
    by_cases hc : (ch.any fun d => c.1.same d.kind) = true
    · rw [if_pos hc]
      simp only
      rw [if_neg]
      obtain ⟨d, hd, hs⟩ := List.any_eq_true.1 hc
      rw [same_method, decide_eq_true_eq] at hs
      intro hn
      rw [List.nodup_append] at hn
      exact hn.2.2 d.kind.method (List.mem_map.2 ⟨d, hd, rfl⟩) c.1.method (by simp) hs.symm
    · rw [if_neg hc]
      simp only
      have hnew : c.1.method ∉ ch.map fun d => d.kind.method := by
        intro hm
        obtain ⟨d, hd, hs⟩ := List.mem_map.1 hm
        exact hc (List.any_eq_true.2 ⟨d, hd, by rw [same_method, decide_eq_true_eq]; exact hs.symm⟩)
      rw [ih _ (by
        rw [List.map_append, List.nodup_append]
        refine ⟨h, by simp, ?_⟩
        intro a ha b hb
        simp at hb
        subst hb
        intro hab
        exact hnew (hab ▸ ha))]
      simp [List.append_assoc]

theorem any_method (calls : List (ChanKind × ℕ)) (f : ChanKind → Bool) (m : ChainMethod) (hf : ∀ k, f k = decide (k.method = m)) :
    ((calls.map fun c => (⟨c.1, c.2⟩ : Channel)).any fun c => f c.kind) = decide (m ∈ calls.map fun c => c.1.method) := by
  rw [Bool.eq_iff_iff, List.any_eq_true, decide_eq_true_eq, List.mem_map]
  constructor
  · rintro ⟨d, hd, h⟩
    obtain ⟨c, hc, rfl⟩ := List.mem_map.1 hd
    rw [hf, decide_eq_true_eq] at h
    exact ⟨c, hc, h⟩
  · rintro ⟨c, hc, h⟩
    exact ⟨⟨c.1, c.2⟩, List.mem_map.2 ⟨c, hc, rfl⟩, by rw [hf, decide_eq_true_eq]; exact h⟩

/-! ## C91 -/

/-- C91: a chain is allowed exactly if no method is called twice, and keeps the calls in their order; else `TypeError`. -/
theorem C91_chain (calls : List (ChanKind × ℕ)) :
    ((calls.map fun c => c.1.method).Nodup → callChain calls = .ok (calls.map fun c => ⟨c.1, c.2⟩)) ∧
    (¬ (calls.map fun c => c.1.method).Nodup → callChain calls = .error .typeError) := by
  unfold callChain
  rw [foldChain calls [] (by simp)]
  simp only [List.map_nil, List.nil_append]
  exact ⟨fun h => if_pos h, fun h => if_neg h⟩

/-- C91 for plots of one variable: allowed exactly if no method is called twice, only bars and areas are stacked, plots with error bars are not split into several
ones, and the axis is given or the only one.  The plot has all of the chain, in order, and what was given for the last call. -/
theorem C91_plot (nax : ℕ) (calls : List (ChanKind × ℕ)) (m : Mark) (axis prof : Option ℕ) (error normalized log : Bool) (P : Plot1d) :
    callPlot nax calls m axis prof error normalized log = .ok P ↔
      (calls.map fun c => c.1.method).Nodup ∧ (ChainMethod.stack ∈ calls.map (fun c => c.1.method) → m = .bar ∨ m = .area) ∧
      (error = true → ChainMethod.beside ∉ calls.map (fun c => c.1.method) ∧ ChainMethod.below ∉ calls.map fun c => c.1.method) ∧
      ((axis = some P.axis) ∨ (axis = none ∧ nax = 1 ∧ P.axis = 0)) ∧
      P = ⟨calls.map fun c => ⟨c.1, c.2⟩, m, P.axis, prof, error, normalized, log⟩ := by
  unfold callPlot
  by_cases hn : (calls.map fun c => c.1.method).Nodup
  swap
  · rw [(C91_chain calls).2 hn]
    simp [hn]
  rw [(C91_chain calls).1 hn]
  simp only [hn, true_and]
  unfold addMark
  rw [any_method calls ChanKind.isStack .stack (fun k => by cases k <;> rfl)]
  have hsplit : ((calls.map fun c => (⟨c.1, c.2⟩ : Channel)).any fun c => c.kind.isBeside || c.kind.isBelow) =
      (decide (ChainMethod.beside ∈ calls.map fun c => c.1.method) || decide (ChainMethod.below ∈ calls.map fun c => c.1.method)) := by
    rw [← any_method calls ChanKind.isBeside .beside (fun k => by cases k <;> rfl), ← any_method calls ChanKind.isBelow .below (fun k => by cases k <;> rfl)]
    generalize (calls.map fun c => (⟨c.1, c.2⟩ : Channel)) = l
    induction l with
    | nil => rfl
    | cons x l ih =>
      simp only [List.any_cons, ih]
      cases x.kind.isBeside <;> cases x.kind.isBelow <;> simp
  rw [hsplit]
  have hm : m.stacks = true ↔ m = .bar ∨ m = .area := by cases m <;> simp [Mark.stacks]
  by_cases h1 : (!m.stacks && decide (ChainMethod.stack ∈ calls.map fun c => c.1.method)) = true
  · rw [if_pos h1]
    simp only [Bool.and_eq_true, Bool.not_eq_true', decide_eq_true_eq] at h1
    simp only [reduceCtorEq, false_iff]
    rintro ⟨h2, _⟩
    have := hm.2 (h2 h1.2)
    rw [h1.1] at this
    cases this
  rw [if_neg h1]
  have hs : ChainMethod.stack ∈ calls.map (fun c => c.1.method) → m = .bar ∨ m = .area := by
    intro h
    refine hm.1 ?_
    by_contra hc
    exact h1 (by simp only [Bool.and_eq_true, Bool.not_eq_true', decide_eq_true_eq]; exact ⟨by simpa using hc, h⟩)
  by_cases h2 : (error && (decide (ChainMethod.beside ∈ calls.map fun c => c.1.method) || decide (ChainMethod.below ∈ calls.map fun c => c.1.method))) = true
  · rw [if_pos h2]
    simp only [Bool.and_eq_true, Bool.or_eq_true, decide_eq_true_eq] at h2
    simp only [reduceCtorEq, false_iff]
    rintro ⟨_, h3, _⟩
    obtain ⟨h4, h5⟩ := h3 h2.1
    rcases h2.2 with h | h
    · exact h4 h
    · exact h5 h
  rw [if_neg h2]
  have he : error = true → ChainMethod.beside ∉ calls.map (fun c => c.1.method) ∧ ChainMethod.below ∉ calls.map fun c => c.1.method := by
    intro h
    simp only [h, Bool.true_and, Bool.or_eq_true, decide_eq_true_eq, not_or] at h2
    exact h2
  constructor
  · intro h
    refine ⟨hs, he, ?_⟩
    cases axis with
    | some a =>
      simp only [singleAxis, Except.map, Except.ok.injEq] at h
      subst h
      exact ⟨Or.inl rfl, rfl⟩
    | none =>
      unfold singleAxis at h
      by_cases h1 : nax = 1
      · rw [if_pos h1] at h
        simp only [Except.map, Except.ok.injEq] at h
        subst h
        exact ⟨Or.inr ⟨rfl, h1, rfl⟩, rfl⟩
      · rw [if_neg h1] at h
        cases h
  · rintro ⟨_, _, h3, h4⟩
    rw [h4]
    rcases h3 with h3 | ⟨h3, h5, h6⟩
    · rw [h3]
      rfl
    · rw [h3, h6]
      unfold singleAxis
      rw [if_pos h5]
      rfl

/-- C91 for heatmaps: allowed exactly if no method is called twice, nothing is overlaid or stacked, and both axes are given or the only two. -/
theorem C91_heatmap (nax : ℕ) (calls : List (ChanKind × ℕ)) (axes : Option ℕ × Option ℕ) (prof : Option ℕ) (P : Plot2d) :
    callHeatmap nax calls axes prof = .ok P ↔
      (calls.map fun c => c.1.method).Nodup ∧ ChainMethod.overlay ∉ calls.map (fun c => c.1.method) ∧ ChainMethod.stack ∉ calls.map (fun c => c.1.method) ∧
      (axes = (some P.xaxis, some P.yaxis) ∨ (axes = (none, none) ∧ nax = 2 ∧ P.xaxis = 0 ∧ P.yaxis = 1)) ∧
      P = ⟨calls.map fun c => ⟨c.1, c.2⟩, P.xaxis, P.yaxis, prof⟩ := by
  unfold callHeatmap
  by_cases hn : (calls.map fun c => c.1.method).Nodup
  swap
  · rw [(C91_chain calls).2 hn]
    simp [hn]
  rw [(C91_chain calls).1 hn]
  simp only [hn, true_and]
  unfold addHeatmap
  rw [any_method calls ChanKind.isStack .stack (fun k => by cases k <;> rfl), any_method calls ChanKind.isOverlay .overlay (fun k => by cases k <;> rfl)]
  by_cases h1 : ChainMethod.overlay ∈ calls.map fun c => c.1.method
  · rw [if_pos (by simpa using h1)]
    simp only [reduceCtorEq, false_iff]
    exact fun h => h.1 h1
  rw [if_neg (by simpa using h1)]
  by_cases h2 : ChainMethod.stack ∈ calls.map fun c => c.1.method
  · rw [if_pos (by simpa using h2)]
    simp only [reduceCtorEq, false_iff]
    exact fun h => h.2.1 h2
  rw [if_neg (by simpa using h2)]
  obtain ⟨x, y⟩ := axes
  obtain ⟨ch, px, py, pp⟩ := P
  cases x with
  | none =>
    cases y with
    | none =>
      simp only
      by_cases h3 : nax = 2
      · rw [if_pos h3]
        simp only [Except.ok.injEq, Plot2d.mk.injEq]
        constructor
        · rintro ⟨rfl, rfl, rfl, rfl⟩
          simp [h1, h2, h3]
        · rintro ⟨_, _, h | ⟨_, _, rfl, rfl⟩, rfl, _, _, rfl⟩
          · simp at h
          · exact ⟨rfl, rfl, rfl, rfl⟩
      · rw [if_neg h3]
        simp [h3]
    | some y => simp
  | some x =>
    cases y with
    | none => simp
    | some y =>
      simp only [Except.ok.injEq, Plot2d.mk.injEq, Prod.mk.injEq, Option.some.injEq, reduceCtorEq, false_and, or_false]
      constructor
      · rintro ⟨rfl, rfl, rfl, rfl⟩
        simp [h1, h2]
      · rintro ⟨_, _, ⟨rfl, rfl⟩, rfl, _, _, rfl⟩
        exact ⟨rfl, rfl, rfl, rfl⟩

/-- A chain that is allowed, and one that is not. -/
example : callPlot 3 [(.overlay, 0), (.beside, 1)] .step (some 2) none false false false =
    .ok ⟨[⟨.overlay, 0⟩, ⟨.beside, 1⟩], .step, 2, none, false, false, false⟩ := by decide
example : callPlot 3 [(.overlay, 0), (.overlay, 1)] .step (some 2) none false false false = .error .typeError := by decide
example : callHeatmap 2 [] (none, none) none = .ok ⟨[], 0, 1, none⟩ := by decide

end Verif
