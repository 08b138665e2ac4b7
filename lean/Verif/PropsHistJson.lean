import Verif.HistJsonLemmas

/-!
# Properties of restored histograms (C66, C67)
-/

namespace Verif

variable {β : Type}

/-! ## Pickling -/

/-- **C66**, for histograms that were made from axes of their own, without NaN among the numbers of the axes.  Whatever
the content and the attachments, the restored histogram has the same axes, the same parsed expressions of axes, weight
and filter, the same definitions, content and attachments: it is the same histogram. -/
theorem C66_restored_partial {P : Parser β} {h : HistX β} (hb : BuiltHist P h) :
    ∃ s, h.getstate = .ok s ∧ setstate P s = .ok h := by
  have hs := Sound.of_built hb
  obtain ⟨ps, h1, h2⟩ := mapE_inverse (l := h.axes) (f := fun x => AxisX.pack x.1) (g := unpack) (k := (·.1))
    fun x hx => (C76_restored_partial (hs.axes x hx).1 (hs.axes x hx).2.1).1
  refine ⟨_, by unfold HistX.getstate; rw [h1], ?_⟩
  unfold setstate
  simp only [h2, mkHist_axes hs]

/-! ## Equality -/

theorem axesEq_self : ∀ l : List AxisX, (∀ a ∈ l, a.noNaN) → axesEq l l = true
  | [], _ => rfl
  | a :: l, h => by
    simp only [axesEq, Bool.and_eq_true]
    exact ⟨eq_iff_noNaN.mpr ⟨h a (by simp), rfl⟩, axesEq_self l fun b hb => h b (List.mem_cons_of_mem _ hb)⟩

/-- The entries of the first are found in the second. -/
def CnL.within : CnL → CnL → Prop
  | .nil, _ => True
  | .cons k x r, b => b.find k = some x ∧ CnL.within r b

theorem CnL.within_cons {k : Key} {x : Cn} {b : CnL} : ∀ r : CnL, k ∉ r.keys → r.within b → r.within (.cons k x b)
  | .nil, _, _ => trivial
  | .cons k' x' r, hk, h => by
    simp only [CnL.keys, List.mem_cons, not_or] at hk
    refine ⟨?_, CnL.within_cons r hk.2 h.2⟩
    rw [CnL.find, if_neg hk.1]
    exact h.1

theorem CnL.within_self : ∀ r : CnL, r.plain → r.within r
  | .nil, _ => trivial
  | .cons k x r, h => ⟨by rw [CnL.find, if_pos rfl], CnL.within_cons r h.1 (CnL.within_self r h.2.2)⟩

mutual
theorem Cn.eq_self : ∀ x : Cn, x.plain → x.eq x = true
  | .none, _ => rfl
  | .arr s d, h => by
    simp only [Cn.eq, decide_true, Bool.true_and]
    exact (numsEq_iff d d).mpr ⟨h, rfl⟩
  | .dict d, h => by
    simp only [Cn.eq, Bool.and_eq_true]
    refine ⟨⟨by simp, by simp⟩, CnL.eq_within d d h (CnL.within_self d h)⟩
theorem CnL.eq_within : ∀ (d b : CnL), d.plain → d.within b → d.eq b = true
  | .nil, _, _, _ => rfl
  | .cons k x r, b, h, hw => by
    simp only [CnL.eq, hw.1, Bool.and_eq_true]
    exact ⟨Cn.eq_self x h.2.1, CnL.eq_within r b h.2.2 hw.2⟩
end

theorem find_self {l : List (Key × J)} (hn : (l.map (·.1)).Nodup) {p : Key × J} (hp : p ∈ l) :
    (l.find? fun q => decide (q.1 = p.1)) = some p := by
  induction l with
  | nil => simp at hp
  | cons q l ih =>
    simp only [List.map_cons, List.nodup_cons] at hn
    rcases List.mem_cons.mp hp with rfl | hp
    · simp
    · have : q.1 ≠ p.1 := fun h => hn.1 (h ▸ List.mem_map_of_mem hp)
      rw [List.find?_cons_of_neg (by simpa using this)]
      exact ih hn.2 hp

theorem plainD_nodup : ∀ l : List (Key × J), J.plainD l → (l.map (·.1)).Nodup
  | [], _ => by simp
  | p :: l, h => by
    rw [J.plainD] at h
    simp only [List.map_cons, List.nodup_cons]
    exact ⟨h.1, plainD_nodup l h.2.2⟩

mutual
theorem J.eq_self : ∀ j : J, j.plain → j.eq j = true
  | .null, _ => by rw [J.eq]
  | .bool b, _ => by simp [J.eq]
  | .int i, _ => by simp [J.eq]
  | .float v, h => by rw [J.eq]; exact Num.eq_iff.mpr ⟨by simpa [J.plain] using h, rfl⟩
  | .str s, _ => by simp [J.eq]
  | .list l, h => by rw [J.eq]; exact J.eqL_self l (by simpa [J.plain] using h)
  | .dict d, h => by
    have hd : J.plainD d := by simpa [J.plain] using h
    simp only [J.eq, decide_true, Bool.true_and]
    exact J.eqD_sub d d hd (fun p hp => find_self (plainD_nodup d hd) hp)
theorem J.eqL_self : ∀ l : List J, J.plainL l → J.eqL l l = true
  | [], _ => by rw [J.eqL]
  | j :: l, h => by
    rw [J.plainL] at h
    simp only [J.eqL, Bool.and_eq_true]
    exact ⟨J.eq_self j h.1, J.eqL_self l h.2⟩
theorem J.eqD_sub : ∀ l b : List (Key × J), J.plainD l →
    (∀ p ∈ l, (b.find? fun q => decide (q.1 = p.1)) = some p) → J.eqD l b = true
  | [], _, _, _ => by rw [J.eqD]
  | p :: l, b, h, hf => by
    rw [J.plainD] at h
    simp only [J.eqD, Bool.and_eq_true]
    exact ⟨J.eqP_self p b h.2.1 (hf p (by simp)), J.eqD_sub l b h.2.2 fun q hq => hf q (List.mem_cons_of_mem _ hq)⟩
theorem J.eqP_self : ∀ (p : Key × J) (b : List (Key × J)), J.plainP p →
    (b.find? fun q => decide (q.1 = p.1)) = some p → J.eqP p b = true
  | (k, j), b, h, hf => by
    rw [J.eqP]
    simp only [] at hf
    rw [hf]
    exact J.eq_self j (by simpa [J.plainP] using h)
end

/-- **C66, C67.**  Such a histogram is equal to itself, so what is restored is `==` to it, if there is no NaN in its
content or attachments. -/
theorem C66_equal [DecidableEq β] {P : Parser β} {h : HistX β} (hb : BuiltHist P h) (hc : h.content.plain)
    (ha : (J.obj h.attachment).plain) : h.eq h = true := by
  have hs := Sound.of_built hb
  have hx : ∀ l : List (AxisX × Option β), (∀ x ∈ l, x ∈ h.axes) → axesEq (l.map (·.1)) (l.map (·.1)) = true := by
    intro l hl
    refine axesEq_self _ fun a ha => ?_
    obtain ⟨x, hx, rfl⟩ := List.mem_map.mp ha
    exact (hs.axes x (hl x hx)).2.1
  have h1 := hx h.group fun x hx => by simp [HistX.axes, hx]
  have h2 := hx h.fixed fun x hx => by simp [HistX.axes, hx]
  have h3 := hx h.profile fun x hx => by simp [HistX.axes, hx]
  have h4 : defsEq h.defs h.defs = true := by
    simp [defsEq, List.all_eq_true]
  simp only [HistX.eq, h1, h2, h3, h4, Cn.eq_self _ hc, J.eq_self _ ha, decide_true, Bool.and_self]

/-! ## A histogram to show the hypotheses -/

/-- A parser that replaces names by their definitions. -/
def namesParser : Parser String where
  parse defs s := .ok (match defs.find? fun p => decide (p.1 = s) with
    | some p => p.2
    | none => s)
  logical s := decide (s = "ok")
  whereOne s := s ++ "?1:0"
  const _ := "const"
  combine f w := f ++ "?" ++ w ++ ":0"
  repr _ := "number"

/-- Two samples, each with an axis of ten bins and a cut, a weight, a filter, a definition and an attachment. -/
def sampleHist : HistX String :=
  { group := [(.groupby "source", some "source")]
    fixed := [(.bin "x" 1 (.fin 0) (.fin 1) true false false true, some "y+1"), (.cut "c", some "c")]
    profile := [(.profile "p", some "p")]
    weight := .str "w", filter := some "ok", weightP := some "ok?w:0", filterP := some "ok"
    defs := [("x", "y+1")]
    content := .dict (.cons (.str "a") (.arr [2, 2, 4] ((List.range 16).map fun (i : ℕ) => .fin i)) .nil)
    attachment := [("systematic", .list [.int 1, .float (.fin (1/2))])] }

/-- `Hist(groupby("source"), bin("x", ...), cut("c"), profile("p"), weight="w", filter="ok", defs={"x": "y+1"})`,
with the axes in another order. -/
theorem sampleHist_built : BuiltHist namesParser sampleHist :=
  ⟨⟨[.profile "p", .bin "x" 1 (.fin 0) (.fin 1) true false false true, .groupby "source", .cut "c"], .str "w", some "ok",
    [("x", "y+1")], [], _, by
      intro a ha
      simp only [List.mem_cons, List.not_mem_nil, or_false] at ha
      rcases ha with rfl | rfl | rfl | rfl
      · exact ⟨⟨.profile, "p", [], rfl⟩, by decide⟩
      · exact ⟨⟨.bin, "x", [.int 1, .int 0, .int 1, .bool true, .bool false, .bool false, .bool true],
          by decide +kernel⟩, by decide +kernel⟩
      · exact ⟨⟨.groupby, "source", [], rfl⟩, by decide⟩
      · exact ⟨⟨.cut, "c", [], rfl⟩, by decide⟩, rfl, rfl⟩,
    .inr (by
      intro p hp
      simp only [sampleHist, CnL.toList, List.mem_singleton] at hp
      subst hp
      exact ⟨rfl, rfl⟩)⟩

theorem BuiltHist.refill {P : Parser β} {h : HistX β} (hb : BuiltHist P h) {c : Cn}
    (hc : Fits h.group.length h.shape c) : BuiltHist P { h with content := c } := by
  obtain ⟨⟨axes, w, f, d, at_, h₀, h1, h2, h3⟩, -⟩ := hb
  refine ⟨⟨axes, w, f, d, at_, h₀, h1, h2, ?_⟩, .inr hc⟩
  rw [h3]

example : ∃ s, sampleHist.getstate = .ok s ∧ setstate namesParser s = .ok sampleHist :=
  C66_restored_partial sampleHist_built

example : sampleHist.eq sampleHist = true := by decide +kernel

/-- **C66**, what is made of a filter: without a weight the rows that pass count 1, and the others 0; with a weight both are put
together as text. -/
theorem C66_filter {P : Parser β} {axes : List (AxisX × Option β)} {f : String} {defs : List (String × String)}
    {at' : List (String × J)} {h : HistX β} :
    (mkHist P axes .null (some f) defs at' = .ok h → ∃ p, P.parse defs f = .ok p ∧ P.logical p = true ∧
      h.filterP = some p ∧ h.weightP = some (P.whereOne p)) ∧
    ∀ s : String, mkHist P axes (.str s) (some f) defs at' = .ok h → ∃ p q, P.parse defs f = .ok p ∧ P.logical p = true ∧
      h.filterP = some p ∧ P.parse defs (P.combine f s) = .ok q ∧ h.weightP = some q := by
  constructor
  · intro hh
    unfold mkHist mkFilter at hh
    cases hn : mapE (mkAxis P defs) axes with
    | error e => rw [hn] at hh; cases hh
    | ok new =>
      cases hp : P.parse defs f with
      | error e => simp only [hn, hp] at hh; cases hh
      | ok p =>
        simp only [hn, hp] at hh
        by_cases hl : P.logical p = true
        · simp only [hl, if_true, mkWeight] at hh
          cases hh
          exact ⟨p, rfl, hl, rfl, rfl⟩
        · simp only [hl] at hh; cases hh
  · intro s hh
    unfold mkHist mkFilter at hh
    cases hn : mapE (mkAxis P defs) axes with
    | error e => rw [hn] at hh; cases hh
    | ok new =>
      cases hp : P.parse defs f with
      | error e => simp only [hn, hp] at hh; cases hh
      | ok p =>
        simp only [hn, hp] at hh
        by_cases hl : P.logical p = true
        · cases hq : P.parse defs (P.combine f s) with
          | error e =>
            have : mkWeight P defs (.str s) (some f) (some p) = .error e := by
              change (P.parse defs (P.combine f s) >>= fun q => Except.ok (some q)) = _
              rw [hq]; rfl
            simp only [hl, if_true, this] at hh; cases hh
          | ok q =>
            have : mkWeight P defs (.str s) (some f) (some p) = .ok (some q) := by
              change (P.parse defs (P.combine f s) >>= fun q => Except.ok (some q)) = _
              rw [hq]; rfl
            simp only [hl, if_true, this] at hh
            cases hh
            exact ⟨p, q, rfl, hl, rfl, rfl, rfl⟩
        · simp only [hl] at hh; cases hh

example : ∃ h, mkHist namesParser [(.cut "x", none)] .null (some "ok") [] [] = .ok h := ⟨_, rfl⟩

/-! ## What is not restored -/

/-- **C66 is violated** by a histogram whose content has a NaN, as after filling a profile with NaN: the restored
histogram is the same but not equal. -/
theorem C66_refuted_nan : ∃ h : HistX String, BuiltHist namesParser h ∧ (∃ s, h.getstate = .ok s ∧
    setstate namesParser s = .ok h) ∧ h.eq h = false := by
  have hb : BuiltHist namesParser
      { sampleHist with content := .dict (.cons (.str "a") (.arr [2, 2, 4] (List.replicate 16 .nan)) .nil) } :=
    sampleHist_built.refill (by
      intro p hp
      simp only [CnL.toList, List.mem_singleton] at hp
      subst hp
      exact ⟨rfl, rfl⟩)
  exact ⟨_, hb, C66_restored_partial hb, by decide +kernel⟩

/-- **C66 is violated** by a histogram made with an axis of another histogram: the axis keeps what its label meant
there.  The restored histogram is `==` to it, but it computes another quantity: here `x` instead of `y+1`. -/
theorem C66_refuted_reused : ∃ (g h h' : HistX String) (a : AxisX × Option String) (s : Pickled),
    mkHist namesParser [(.cut "x", none)] .null none [("x", "y+1")] [] = .ok g ∧ g.fixed = [a] ∧
    mkHist namesParser [a] .null none [] [] = .ok h ∧ h.getstate = .ok s ∧ setstate namesParser s = .ok h' ∧
    h.eq h' = true ∧ h.fixed = [(.cut "x", some "y+1")] ∧ h'.fixed = [(.cut "x", some "x")] :=
  ⟨_, _, _, _, _, rfl, rfl, rfl, rfl, rfl, by decide +kernel, rfl, rfl⟩

/-- **C66, C67 are violated** by what `select` leaves of an axis when a single flow bin is left: such a histogram can
be neither pickled nor written. -/
theorem C66_refuted_null : ∃ h : HistX String, mkHist namesParser [(.null, none)] .null none [] [] = .ok h ∧
    h.getstate.toOption.isNone ∧ h.tojson.toOption.isNone := ⟨_, rfl, rfl, rfl⟩

/-! ## JSON -/

theorem weight_text {P : Parser β} {defs : List (String × String)} {w : J} {f : Option String} {fp wp : Option β}
    (h : mkWeight P defs w f fp = .ok wp) (render : Key → String) : w.text render = w := by
  cases w with
  | list l =>
    exfalso
    cases f <;> simp [mkWeight, J.isNumber, J.strOf, weightText, bind, Except.bind] at h
  | dict d =>
    exfalso
    cases f <;> simp [mkWeight, J.isNumber, J.strOf, weightText, bind, Except.bind] at h
  | _ => rw [J.text]

/-- The entries of the JSON of a histogram, given those of the axes and of the content. -/
def entriesOf (h : HistX β) (as : List J) (c : List (String × J)) : List (String × J) :=
  [("type", .str "Hist"), ("axis", .list as)] ++ weightEntry h.weight ++ filterEntry h.filter ++
    entryIf (!h.defs.isEmpty) "defs" (.obj (h.defs.map fun p => (p.1, .str p.2))) ++ c ++
    entryIf (!h.attachment.isEmpty) "attachment" (.obj h.attachment)

/-- The first value, or `None`. -/
def firstValue : List (String × J) → J
  | [] => .null
  | p :: _ => p.2

theorem find_entries (h : HistX β) (as : List J) (c : List (String × J))
    (hc : c = [] ∨ ∃ j, c = [("content", j)]) :
    let j := J.obj (entriesOf h as c)
    j.checkType = .ok () ∧ j.get "axis" = .ok (.list as) ∧ j.getN "weight" = h.weight ∧
      (j.getN "filter").optStr = .ok h.filter ∧ (j.getN "defs").defsOf = .ok h.defs ∧
      (j.getN "attachment").objOf = .ok h.attachment ∧
      j.getN "content" = firstValue c := by
  have hw : ∀ k, ((weightEntry h.weight).find? fun p : String × J => decide (p.1 = k))
      = if k = "weight" then (weightEntry h.weight).head? else none := by
    intro k
    cases h.weight <;> by_cases hk : k = "weight" <;> simp [hk, weightEntry] <;> exact fun e => hk e.symm
  have hf : ∀ k, ((filterEntry h.filter).find? fun p : String × J => decide (p.1 = k))
      = if k = "filter" then (filterEntry h.filter).head? else none := by
    intro k
    cases h.filter <;> by_cases hk : k = "filter" <;> simp [hk, filterEntry] <;> exact fun e => hk e.symm
  have he : ∀ (b : Bool) (n : String) (j : J) (k : String),
      ((entryIf b n j).find? fun p : String × J => decide (p.1 = k)) = if k = n ∧ b = true then some (n, j) else none := by
    intro b n j k
    cases b <;> by_cases hk : k = n <;> simp [entryIf, hk] <;> exact fun e => hk e.symm
  have hcc : ∀ k, (c.find? fun p : String × J => decide (p.1 = k)) = if k = "content" then c.head? else none := by
    intro k
    rcases hc with rfl | ⟨j, rfl⟩
    · simp
    · by_cases hk : k = "content" <;> simp [hk] <;> exact fun e => hk e.symm
  have key : ∀ k, (J.obj (entriesOf h as c)).get k = foundJ
      (((((([("type", J.str "Hist"), ("axis", J.list as)].find? fun p : String × J => decide (p.1 = k)).or
        (if k = "weight" then (weightEntry h.weight).head? else none)).or
        (if k = "filter" then (filterEntry h.filter).head? else none)).or
        (if k = "defs" ∧ (!h.defs.isEmpty) = true then
          some ("defs", J.obj (h.defs.map fun p => (p.1, .str p.2))) else none)).or
        (if k = "content" then c.head? else none)).or
        (if k = "attachment" ∧ (!h.attachment.isEmpty) = true then some ("attachment", .obj h.attachment) else none)) := by
    intro k
    rw [get_obj]
    unfold entriesOf
    simp only [List.find?_append, hw, hf, he, hcc]
  intro j
  refine ⟨?_, ?_, ?_, ?_, ?_, ?_, ?_⟩
  · unfold J.checkType; rw [key]; simp [foundJ]
  · rw [key]; simp [foundJ]
  · unfold J.getN; rw [key]; cases h.weight <;> simp [weightEntry, foundJ]
  · unfold J.getN; rw [key]; cases h.filter <;> simp [J.optStr, filterEntry, foundJ]
  · unfold J.getN; rw [key]
    by_cases hd : h.defs = []
    · simp [hd, foundJ, J.defsOf, J.objOf, mapE, bind, Except.bind]
    · simp [hd, defsOf_obj, foundJ]
  · unfold J.getN; rw [key]
    by_cases hd : h.attachment = []
    · simp [hd, J.objOf, foundJ]
    · simp [hd, objOf_obj, foundJ]
  · unfold J.getN; rw [key]
    rcases hc with rfl | ⟨j, rfl⟩ <;> simp [firstValue, foundJ]

theorem textD_append (render : Key → String) : ∀ l m : List (Key × J),
    J.textD render (l ++ m) = J.textD render l ++ J.textD render m
  | [], m => by rw [J.textD]; rfl
  | p :: l, m => by simp only [List.cons_append, J.textD, textD_append render l m]

theorem obj_text_append {render : Key → String} {l m : List (String × J)} (hl : (J.obj l).text render = .obj l)
    (hm : (J.obj m).text render = .obj m) : (J.obj (l ++ m)).text render = .obj (l ++ m) := by
  simp only [J.obj, J.text, J.dict.injEq] at hl hm ⊢
  rw [List.map_append, textD_append, hl, hm]

theorem obj_text_single {render : Key → String} (hr : ∀ s, render (.str s) = s) {k : String} {j : J}
    (h : j.text render = j) : (J.obj [(k, j)]).text render = .obj [(k, j)] := by
  simp only [J.obj, J.text, List.map_cons, List.map_nil, J.textD, J.textP, hr, h]

theorem defs_text {render : Key → String} (hr : ∀ s, render (.str s) = s) : ∀ d : List (String × String),
    (J.obj (d.map fun p => (p.1, J.str p.2))).text render = .obj (d.map fun p => (p.1, J.str p.2))
  | [] => by simp [J.obj, J.text, J.textD]
  | p :: d => obj_text_append (l := [(p.1, J.str p.2)]) (obj_text_single hr (by rw [J.text])) (defs_text hr d)

theorem axes_text {render : Key → String} (hr : ∀ s, render (.str s) = s) : ∀ {l : List (AxisX × Option β)}
    {as : List J}, mapE (fun x => AxisX.tojson x.1) l = .ok as → J.textL render as = as
  | [], as, h => by cases h; rw [J.textL]
  | x :: l, as, h => by
    simp only [mapE] at h
    cases hx : x.1.tojson with
    | error e => rw [hx] at h; cases h
    | ok j =>
      rw [hx] at h
      cases hl : mapE (fun x => AxisX.tojson x.1) l with
      | error e => simp only [hl] at h; cases h
      | ok as' =>
        simp only [hl] at h
        cases h
        rw [J.textL, Verif.tojson_text render hr hx, axes_text hr hl]

/-- The content entry of a filled histogram. -/
theorem content_entry {P : Parser β} {h : HistX β} (hs : Sound P h) (hf : h.Filled) :
    ∃ c, contentEntry h.content = .ok c ∧ (c = [] ∨ ∃ j, c = [("content", j)]) ∧
      cnOf (firstValue c) = .ok h.content ∧
      ∀ render : Key → String, (∀ s, render (.str s) = s) → h.content.strKeys → (J.obj c).text render = .obj c := by
  rcases hf with h0 | hf
  · exact ⟨[], by rw [h0]; rfl, .inl rfl, by rw [h0, firstValue, cnOf], fun render hr hk => by simp [J.obj, J.text, J.textD]⟩
  · obtain ⟨j, hj, hj'⟩ := cnOf_tojson _ _ (shape_pos hs) _ hf
    refine ⟨[("content", j)], ?_, .inr ⟨j, rfl⟩, hj', fun render hr hk =>
      obj_text_single hr (Cn.tojson_text render hr _ hk j hj)⟩
    unfold contentEntry
    split
    · rename_i h0; rw [h0] at hj; cases hj
    · rw [hj]

theorem fromjson_entries {P : Parser β} {h : HistX β} (hs : Sound P h) {as : List J} {c : List (String × J)}
    (ha : mapE axisFromjson as = .ok (h.axes.map (·.1))) (hc : c = [] ∨ ∃ j, c = [("content", j)])
    (hc' : cnOf (firstValue c) = .ok h.content) :
    histFromjson P (.obj (entriesOf h as c)) = .ok h := by
  obtain ⟨h1, h2, h3, h4, h5, h6, h7⟩ := find_entries h as c hc
  unfold histFromjson
  simp only [h1, h2, h3, h4, h5, h6, h7, J.listOf, ha, mkHist_axes hs, hc', bind, Except.bind]

/-- What is written of a histogram, and that text does not change it. -/
theorem hist_written {P : Parser β} {h : HistX β} (hb : BuiltHist P h) :
    ∃ j, h.tojson = .ok j ∧ histFromjson P j = .ok h ∧
      ∀ render : Key → String, (∀ s, render (.str s) = s) → h.content.strKeys →
        (J.obj h.attachment).text render = .obj h.attachment → j.text render = j := by
  have hs := Sound.of_built hb
  obtain ⟨as, h1, h2⟩ := mapE_inverse (l := h.axes) (f := fun x => AxisX.tojson x.1) (g := axisFromjson) (k := (·.1))
    fun x hx => by
      obtain ⟨j, h1, h2, -⟩ := (C76_restored_partial (hs.axes x hx).1 (hs.axes x hx).2.1).2.2.1
      exact ⟨j, h1, h2⟩
  obtain ⟨c, hc, hc1, hc2, hc3⟩ := content_entry hs hb.2
  have hj : h.tojson = .ok (.obj (entriesOf h as c)) := by
    unfold HistX.tojson HistX.entries
    simp only [h1, hc]
    rfl
  have hok := fromjson_entries hs h2 hc1 hc2
  refine ⟨_, hj, hok, fun render hr hk ha => ?_⟩
  have htext : (J.obj (entriesOf h as c)).text render = .obj (entriesOf h as c) := by
    unfold entriesOf
    have hnil : (J.obj []).text render = .obj [] := by simp [J.obj, J.text, J.textD]
    refine obj_text_append (obj_text_append (obj_text_append (obj_text_append (obj_text_append ?_ ?_) ?_) ?_)
      (hc3 render hr hk)) ?_
    · refine obj_text_append (l := [("type", .str "Hist")]) (obj_text_single hr (by rw [J.text]))
        (obj_text_single hr ?_)
      rw [J.text, axes_text hr h1]
    · have := weight_text hs.weight render
      revert this
      cases h.weight <;> intro this
      · exact hnil
      all_goals exact obj_text_single hr this
    · cases h.filter
      · exact hnil
      · exact obj_text_single hr (by rw [J.text])
    · unfold entryIf
      split
      · exact obj_text_single hr (defs_text hr _)
      · exact hnil
    · unfold entryIf
      split
      · exact obj_text_single hr ha
      · exact hnil
  exact htext

/-- **C67**, for histograms that were made from axes of their own, without NaN among the numbers of the axes.  Whatever
the content and the attachments, `fromjson(tojson(h))` is the same histogram, and it is still so after the object has
gone through JSON text, if the keys of its groups are strings and its attachments themselves survive JSON text. -/
theorem C67_restored_partial {P : Parser β} {h : HistX β} (hb : BuiltHist P h) :
    ∃ j, h.tojson = .ok j ∧ histFromjson P j = .ok h ∧
      ∀ render : Key → String, (∀ s, render (.str s) = s) → h.content.strKeys →
        (J.obj h.attachment).text render = .obj h.attachment → histFromjson P (j.text render) = .ok h := by
  obtain ⟨j, h1, h2, h3⟩ := hist_written hb
  exact ⟨j, h1, h2, fun render hr hk ha => by rw [h3 render hr hk ha]; exact h2⟩

example : ∃ j, sampleHist.tojson = .ok j ∧ histFromjson namesParser j = .ok sampleHist ∧
    histFromjson namesParser (j.text fun k => match k with | .str s => s | _ => "1.0") = .ok sampleHist := by
  obtain ⟨j, h1, h2, h3⟩ := C67_restored_partial sampleHist_built
  exact ⟨j, h1, h2, h3 _ (fun _ => rfl) ⟨⟨"a", rfl⟩, trivial, trivial⟩ (by rfl)⟩

/-- The same histogram with numbers as group keys. -/
def numberHist : HistX String :=
  { sampleHist with content := .dict (.cons (.num 1) (.arr [2, 2, 4] (List.replicate 16 (.fin 1))) .nil) }

theorem numberHist_built : BuiltHist namesParser numberHist :=
  sampleHist_built.refill (by
    intro p hp
    simp only [CnL.toList, List.mem_singleton] at hp
    subst hp
    exact ⟨rfl, rfl⟩)

/-- The same with a string. -/
def stringHist (s : String) : HistX String :=
  { sampleHist with content := .dict (.cons (.str s) (.arr [2, 2, 4] (List.replicate 16 (.fin 1))) .nil) }

theorem stringHist_built (s : String) : BuiltHist namesParser (stringHist s) :=
  sampleHist_built.refill (by
    intro p hp
    simp only [CnL.toList, List.mem_singleton] at hp
    subst hp
    exact ⟨rfl, rfl⟩)

/-- **C67 is violated** by numbers as group keys: whatever JSON text makes of them, they come back as strings, and the
restored histogram is another one. -/
theorem C67_refuted_keys : BuiltHist namesParser numberHist ∧ numberHist.eq numberHist = true ∧
    ∃ j, numberHist.tojson = .ok j ∧ histFromjson namesParser j = .ok numberHist ∧
      ∀ render : Key → String, (∀ s, render (.str s) = s) → ∃ h' : HistX String,
        histFromjson namesParser (j.text render) = .ok h' ∧ numberHist.eq h' = false := by
  refine ⟨numberHist_built, by decide +kernel, ?_⟩
  obtain ⟨j, h1, h2, -⟩ := C67_restored_partial numberHist_built
  refine ⟨j, h1, h2, fun render hr => ?_⟩
  obtain ⟨j', h1', h2', -⟩ := C67_restored_partial (stringHist_built (render (.num 1)))
  refine ⟨stringHist (render (.num 1)), ?_, ?_⟩
  · have : j.text render = j' := by
      have e1 := h1.symm
      have e2 := h1'.symm
      simp [HistX.tojson, HistX.entries, numberHist, stringHist, sampleHist, HistX.axes, mapE, AxisX.tojson,
        contentEntry, Cn.tojson, CnL.tojson, tolist, chunks, cells, entryIf, weightEntry, filterEntry,
        Except.map] at e1 e2
      rw [e1, e2]
      simp [J.text, J.textD, J.textP, J.textL, J.obj, hr]
    rw [this]
    exact h2'
  · simp [HistX.eq, Cn.eq, CnL.keys, numberHist, stringHist, sampleHist]

/-- **C67 is violated** by a group of histograms (`Hist.group`) of which one was never filled: it cannot be written. -/
theorem C67_refuted_unfilled : ∃ h : HistX String,
    mkHist namesParser [(.groupby "source", none), (.cut "c", none)] .null none [] [] = .ok h ∧
    ({ h with content := .dict (.cons (.str "a") .none .nil) } : HistX String).tojson.toOption.isNone :=
  ⟨_, rfl, rfl⟩

end Verif
