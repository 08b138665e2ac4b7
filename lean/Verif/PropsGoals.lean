import Verif.GoalsLemmas
import Verif.PropsFill

/-!
# C81: from the arguments of `fill` to the content

Property theorems.
-/

namespace Verif

/-! ## Specification -/

section
variable (more : More) (named : String → Option (Option ℚ)) (get : String → Option (Given (Option ℚ))) (n : ℕ)

/-- The value of a field in row `i`. -/
def fieldAt (i : ℕ) (s : String) : Option ℚ :=
  match fieldColumn (numConsts named) get n s with
  | some l => l[i]?.getD none
  | none => none

/-- The value of an expression in row `i`. -/
def valAt (i : ℕ) (e : E) : Option ℚ := e.eval (treeEnv more (fieldAt named get n i))

/-- The value of a fixed axis: a number, or the truth value of a condition. -/
def FixedAxis.valOf (a : FixedAxis) (v : Option ℚ) : Val :=
  match a with
  | .cut => if v = some 0 then .bool false else if v = some 1 then .bool true else .num (toNum v)
  | _ => .num (toNum v)

/-- Row `i` of the data as the histogram sees it: the values of its expressions. -/
def HistExprs.rowAt (X : HistExprs) (i : ℕ) : Row where
  gvals := X.groups.map fun p => .num (toNum (valAt more named get n i p.2))
  fvals := X.fixed.map fun p => p.1.valOf (valAt more named get n i p.2)
  xs := X.profs.map fun e => (valAt more named get n i e).getD 0
  w := X.weight.bind fun e => valAt more named get n i e

/-- All rows. -/
def HistExprs.rows (X : HistExprs) : List Row := (List.range n).map (X.rowAt more named get n)

/-- The expression is not a constant, contains no function of constants only (C54), and its tree can be
calculated to its value in each row (C52). -/
def Varies (e : E) : Prop :=
  e.constVal = none ∧ e.setOf = none ∧ ∃ t, totree e = .ok t ∧ t.toT.grounded = true ∧
    ∀ i < n, treeVal more (fieldAt named get n i) t = .ok (.num (valAt more named get n i e))

/-- The same for an expression that may be a constant. -/
def Computable (e : E) : Prop := Varies more named get n e ∨ ∃ q, e = E.const q

/-- What is asked of the expressions of the histogram. -/
structure HistExprs.Sound (X : HistExprs) : Prop where
  groups : ∀ p ∈ X.groups, Computable more named get n p.2
  fixed : ∀ p ∈ X.fixed, Computable more named get n p.2
  profs : ∀ e ∈ X.profs, Computable more named get n e ∧ ∀ i < n, (valAt more named get n i e).isSome = true
  weight : ∀ e, X.weight = some e → Varies more named get n e ∨ ∃ q t, e.constVal = some q ∧ totree e = .ok t ∧
    t.toT.isConst = true

end

/-! ## Helpers -/

mutual
theorem toT_noBroadcast : ∀ (e : E), ∀ x ∈ e.toT.subs, x.isBroadcast = false
  | .node h p q, x, hx => by
    cases h with
    | call f =>
      simp only [E.toT, T.subs, List.mem_cons] at hx
      rcases hx with rfl | hx
      · rfl
      · exact toTL_noBroadcast p x hx
    | _ =>
      simp only [E.toT, T.subs, T.subsL, List.mem_cons, List.not_mem_nil, or_false] at hx
      subst hx; rfl
theorem toTL_noBroadcast : ∀ (l : List E), ∀ x ∈ T.subsL (E.toTL l), x.isBroadcast = false
  | [], x, hx => by simp [E.toTL, T.subsL] at hx
  | a :: as, x, hx => by
    simp only [E.toTL, T.subsL, List.mem_append] at hx
    rcases hx with hx | hx
    · exact toT_noBroadcast a x hx
    · exact toTL_noBroadcast as x hx
end

section
variable {more : More} {named : String → Option (Option ℚ)} {get : String → Option (Given (Option ℚ))} {n : ℕ}

theorem columnOf_field {x : Node} {s : String} (hx : x.fieldName = some s)
    (h : (fieldColumn (numConsts named) get n s).isSome = true) :
    ∃ l : List (Option ℚ), columnOf Col.nums (numConsts named) get n x = .ok (.nums l) ∧ l.length = n ∧
      ∀ i < n, rowSymbols (fieldAt named get n i) s = .ok (.num (l[i]?.getD none)) := by
  obtain ⟨l, hl⟩ := Option.isSome_iff_exists.1 h
  have hlen : l.length = n := by
    unfold fieldColumn at hl
    split at hl
    · cases hl; simp
    · split_ifs at hl with h1; cases hl; exact h1
    · obtain ⟨v, _, rfl⟩ := Option.map_eq_some_iff.1 hl; simp
  refine ⟨l, ?_, hlen, fun i hi => ?_⟩
  · cases x <;> simp [T.fieldName] at hx <;> subst hx <;> simp [columnOf, T.fieldName, hl]
  · simp [rowSymbols, fieldAt, hl]

/-- The fields of one row. -/
def rowExt (named : String → Option (Option ℚ)) (get : String → Option (Given (Option ℚ))) (n i : ℕ) (x : Node) :
    Except Err RowVal :=
  match x.fieldName with
  | some s => rowSymbols (fieldAt named get n i) s
  | none => .error .assertion

/-- The column of an expression. -/
theorem own_expr (hm : ∀ f, (more f).isSome = true → axisFn f = none) (hn : 0 < n) {goals : List Node}
    (hd : Describes (numConsts named) get goals n) {e : E} (hc : Varies more named get n e) :
    ∃ a, argOf e = .ok a ∧ weightArg e = .ok a ∧ a.grounded = true ∧ a.isConst = false ∧
      (∀ x ∈ a.subs, x.isBroadcast = false) ∧
      ((∃ g ∈ goals, a ∈ g.subs) → own (colLib more) (columnOf .nums (numConsts named) get n) a =
        .ok (.nums ((List.range n).map fun i => valAt more named get n i e))) := by
  obtain ⟨h1, h2, t, h3, h4, h5⟩ := hc
  refine ⟨t.toT, ?_, ?_, h4, ?_, toT_noBroadcast t, ?_⟩
  · unfold argOf; rw [h1, h2, h3]; rfl
  · unfold weightArg; rw [h3]; rfl
  · cases hx : t.toT <;> rw [hx] at h4 <;> simp [T.grounded] at h4 <;> rfl
  · rintro ⟨g, hg, hag⟩
    obtain ⟨l, l1, l2, l3⟩ := own_col (axisFn_row hm) hn (ext := columnOf .nums (numConsts named) get n)
      (rext := rowExt named get n) t.toT (fun x hx hs => by
        have hb := toT_noBroadcast t x hx
        have : ∃ s, x.fieldName = some s := by
          cases x <;> simp [T.isSource, T.isBroadcast, T.fieldName] at hs hb ⊢
        obtain ⟨s, hs'⟩ := this
        obtain ⟨l, l1, l2, l3⟩ := columnOf_field (x := x) hs' (hd.1 s ⟨g, hg, x, subs_trans g _ hag x hx, hs'⟩)
        exact ⟨l, l1, l2, fun i hi => by unfold rowExt; rw [hs']; exact l3 i hi⟩)
      h4 (fun i => .num (valAt more named get n i e)) (fun i hi => by
        rw [own_calculate (sym := rowSymbols (fieldAt named get n i)) (fun _ => rfl) (fun _ _ => rfl)]
        exact h5 i hi)
    rw [l1]
    congr 2
    refine List.ext_getElem (by simp [l2]) ?_
    intro i h6 h7
    have hi : i < n := by omega
    have := l3 i hi
    simp only [RowVal.num.injEq] at this
    simp [this, h6]

end

/-! ### Columns of rows -/

theorem fixedColumns_eq {R : ℕ → Row} {val : ℕ → FixedAxis × E → Val} {n : ℕ} : ∀ (ps : List (FixedAxis × E)) (k : ℕ),
    (∀ i < n, (R i).fvals.drop k = ps.map (val i)) →
    fixedColumns ((List.range n).map R) (ps.map (·.1)) k =
      mapE (fun p => (mapE p.1.index ((List.range n).map fun i => val i p)).map some) ps
  | [], _, _ => rfl
  | p :: ps, k, h => by
    have h1 : ((List.range n).map R).map (fun r => r.fvals.getD k (.num .nan)) = (List.range n).map fun i => val i p := by
      rw [List.map_map]
      refine List.map_congr_left ?_
      intro i hi
      have := h i (by simpa using hi)
      have h2 : (R i).fvals[k]? = some (val i p) := by
        have h3 := congrArg (·[0]?) this
        simpa using h3
      simp [h2]
    have h2 : ∀ i < n, (R i).fvals.drop (k + 1) = ps.map (val i) := by
      intro i hi
      have h3 := congrArg List.tail (h i hi)
      simpa using h3
    simp only [List.map_cons, fixedColumns, h1, mapE]
    cases mapE p.1.index ((List.range n).map fun i => val i p) with
    | error e => rfl
    | ok c =>
      rw [fixedColumns_eq ps (k + 1) h2]
      generalize mapE (fun p : FixedAxis × E => (mapE p.1.index ((List.range n).map fun i => val i p)).map some) ps = z
      cases z <;> rfl

theorem groupColumns_eq {R : ℕ → Row} {val : ℕ → GroupAxis × E → GVal} {n : ℕ} : ∀ (ps : List (GroupAxis × E)) (k : ℕ),
    (∀ i < n, (R i).gvals.drop k = ps.map (val i)) →
    groupColumns ((List.range n).map R) (ps.map (·.1)) k =
      mapE (fun p => (p.1.column ((List.range n).map fun i => val i p)).map some) ps
  | [], _, _ => rfl
  | p :: ps, k, h => by
    have h1 : ((List.range n).map R).map (fun r => r.gvals.getD k (.num .nan)) = (List.range n).map fun i => val i p := by
      rw [List.map_map]
      refine List.map_congr_left ?_
      intro i hi
      have := h i (by simpa using hi)
      have h2 : (R i).gvals[k]? = some (val i p) := by
        have h3 := congrArg (·[0]?) this
        simpa using h3
      simp [h2]
    have h2 : ∀ i < n, (R i).gvals.drop (k + 1) = ps.map (val i) := by
      intro i hi
      have h3 := congrArg List.tail (h i hi)
      simpa using h3
    simp only [List.map_cons, groupColumns, h1, mapE]
    cases p.1.column ((List.range n).map fun i => val i p) with
    | error e => rfl
    | ok c =>
      rw [groupColumns_eq ps (k + 1) h2]
      generalize mapE (fun p : GroupAxis × E => (p.1.column ((List.range n).map fun i => val i p)).map some) ps = z
      cases z <;> rfl

/-- The weights do not matter for a histogram without weight or with a constant one. -/
theorem postfill_weight {L : Layout} {n : ℕ} {d d' : Dest} {c : Content Arr L.ngroup} (hg : d.groups = d'.groups)
    (hf : d.fixed = d'.fixed) (hp : d.prof = d'.prof) (hw : d.weight = d'.weight ∨ L.wkind ≠ .expr) :
    postfill L n d c = postfill L n d' c := by
  have : weights L n d = weights L n d' := by
    unfold weights
    rcases hw with h | h
    · rw [h]
    · cases hk : L.wkind <;> simp_all
  unfold postfill
  rw [hg, hf, hp, this]

theorem valOf_index (a : FixedAxis) (v : Option ℚ) : a.index (a.valOf v) = a.index (.num (toNum v)) := by
  cases a with
  | cut =>
    unfold FixedAxis.valOf
    split_ifs with h1 h2
    · subst h1; decide +kernel
    · subst h2; decide +kernel
    · rfl
  | _ => rfl

/-! ### Destinations -/

/-- The argument of the goal of an expression. -/
def argNode (e : E) : Node :=
  match argOf e with
  | .ok a => a
  | .error _ => .name ""

theorem goal_grounded {arg : Node} (h1 : arg.grounded = true) (h2 : arg.isConst = false) (f : String) (cs : List CVal) :
    (T.call f (arg :: cs.map T.const) : Node).grounded = true := by
  have : T.groundedL (cs.map T.const) = true := by
    induction cs with
    | nil => rfl
    | cons c cs ih => simp [T.groundedL, T.isConst, ih]
  simp [T.grounded, T.groundedL, h1, h2, this]

theorem goal_subs {arg x : Node} {f : String} {cs : List CVal} (h : x ∈ (T.call f (arg :: cs.map T.const) : Node).subs) :
    x = .call f (arg :: cs.map T.const) ∨ x ∈ arg.subs ∨ ∃ c, x = .const c := by
  simp only [T.subs, T.subsL, List.mem_cons, List.mem_append] at h
  rcases h with h | h | h
  · exact .inl h
  · exact .inr (.inl h)
  · refine .inr (.inr ?_)
    induction cs with
    | nil => simp [T.subsL] at h
    | cons c cs ih =>
      simp only [List.map_cons, T.subsL, T.subs, List.mem_append, List.mem_singleton] at h
      rcases h with h | h
      · exact ⟨c, h⟩
      · exact ih h

/-- A goal whose subexpressions are not made from broadcast constants. -/
def Clean (g : Node) : Prop := ∀ x ∈ g.subs, x.isBroadcast = false

theorem clean_call {arg : Node} (h : Clean arg) (f : String) (cs : List CVal) :
    Clean (T.call f (arg :: cs.map T.const)) := by
  intro x hx
  rcases goal_subs hx with rfl | hx | ⟨c, rfl⟩
  · rfl
  · exact h x hx
  · rfl

theorem FixedAxis.goal_form (a : FixedAxis) : ∃ (f : String) (cs : List CVal), ∀ arg, a.goal arg = .call f (arg :: cs.map T.const) := by
  cases a with
  | bin a => exact ⟨_, [.num a.numbins, .num a.low, .num a.high], fun _ => rfl⟩
  | split a => exact ⟨_, [.tuple a.edges], fun _ => rfl⟩
  | intbin a => exact ⟨_, [.num a.min, .num a.max], fun _ => rfl⟩
  | cut => exact ⟨_, [], fun _ => rfl⟩

theorem GroupAxis.goal_form (a : GroupAxis) : ∃ (f : String) (cs : List CVal), ∀ arg, a.goal arg = .call f (arg :: cs.map T.const) := by
  cases a with
  | groupby => exact ⟨_, [], fun _ => rfl⟩
  | groupbin a => exact ⟨_, [.num a.binwidth, .num a.origin], fun _ => rfl⟩

theorem destOf_ok {r : List (Node × Col)} {g : Node} {v : Col} (h1 : (g, v) ∈ r)
    (h2 : ∀ w, (g, w) ∈ r → w = v) : destOf r g = some v := by
  unfold destOf
  cases hf : r.find? (fun p => decide (p.1 = g)) with
  | none => exact absurd (List.find?_eq_none.1 hf (g, v) h1) (by simp)
  | some p =>
    have h3 := List.find?_some hf
    have h4 := List.mem_of_find?_eq_some hf
    obtain ⟨a, b⟩ := p
    simp only [decide_eq_true_eq] at h3
    subst h3
    rw [Option.map_some, h2 b h4]

theorem destOf_none {r : List (Node × Col)} {g : Node} (h : ∀ w, (g, w) ∉ r) : destOf r g = none := by
  unfold destOf
  rw [Option.map_eq_none_iff, List.find?_eq_none]
  rintro ⟨a, b⟩ hp he
  simp only [decide_eq_true_eq] at he
  subst he
  exact h b hp

section
variable {more : More} {named : String → Option (Option ℚ)} {get : String → Option (Given (Option ℚ))} {n : ℕ}

/-- The goals of a histogram whose expressions can be computed. -/
theorem goals_eq {X : HistExprs} (hS : X.Sound more named get n) {G : HistGoals} (hG : X.goals = .ok G) :
    (G.groups = X.groups.map fun p => p.1.goal (argNode p.2)) ∧ (G.fixed = X.fixed.map fun p => p.1.goal (argNode p.2)) ∧
    (G.profs = X.profs.map fun e => pairGoals (argNode e)) ∧
    weightGoals X.weight = .ok G.weight := by
  have hA : ∀ e, Computable more named get n e → argOf e = .ok (argNode e) := by
    rintro e (⟨h1, h2, t, h3, -⟩ | ⟨q, rfl⟩)
    · have : argOf e = .ok t.toT := by unfold argOf; rw [h1, h2, h3]; rfl
      unfold argNode; rw [this]
    · rfl
  unfold HistExprs.goals at hG
  rw [mapE_ok _ (fun p : GroupAxis × E => p.1.goal (argNode p.2)) _ (fun p hp => by rw [hA _ (hS.groups p hp)]; rfl),
    mapE_ok _ (fun p : FixedAxis × E => p.1.goal (argNode p.2)) _ (fun p hp => by rw [hA _ (hS.fixed p hp)]; rfl),
    mapE_ok _ (fun e => pairGoals (argNode e)) _ (fun e he => by rw [hA _ (hS.profs e he).1]; rfl)] at hG
  cases hw : weightGoals X.weight with
  | error e => rw [hw] at hG; cases hG
  | ok w =>
    rw [hw] at hG
    have := (Except.ok.inj hG).symm; subst this
    exact ⟨rfl, rfl, rfl, rfl⟩

theorem argNode_ok (hm : ∀ f, (more f).isSome = true → axisFn f = none) (hn : 0 < n) {goals : List Node}
    (hd : Describes (numConsts named) get goals n) {e : E} (hc : Computable more named get n e) :
    (argNode e).grounded = true ∧ (argNode e).isConst = false ∧
      ((∃ g ∈ goals, argNode e ∈ g.subs) → own (colLib more) (columnOf .nums (numConsts named) get n) (argNode e) =
        .ok (.nums ((List.range n).map fun i => valAt more named get n i e))) := by
  rcases hc with hc | ⟨q, rfl⟩
  · obtain ⟨a, h1, h2, h3, h4, h5, h6⟩ := own_expr hm hn hd hc
    have : argNode e = a := by unfold argNode; rw [h1]
    rw [this]
    exact ⟨h3, h4, h6⟩
  · refine ⟨rfl, rfl, fun _ => ?_⟩
    change Except.ok (Col.nums (List.replicate n (some q))) = _
    congr 2
    refine List.ext_getElem (by simp) ?_
    intro i h1 h2
    simp only [List.getElem_replicate, List.getElem_map]; rfl

/-- The goals of expressions that are not constants. -/
theorem argNode_varies (hm : ∀ f, (more f).isSome = true → axisFn f = none) (hn : 0 < n) {goals : List Node}
    (hd : Describes (numConsts named) get goals n) {e : E} (hc : Varies more named get n e) :
    weightArg e = .ok (argNode e) ∧ Clean (argNode e) := by
  obtain ⟨a, h1, h2, h3, h4, h5, h6⟩ := own_expr hm hn hd hc
  have : argNode e = a := by unfold argNode; rw [h1]
  rw [this]
  exact ⟨h2, h5⟩

end

theorem mem_all_group {G : HistGoals} {g : Node} (h : g ∈ G.groups) : g ∈ G.all := by simp [HistGoals.all, h]
theorem mem_all_fixed {G : HistGoals} {g : Node} (h : g ∈ G.fixed) : g ∈ G.all := by simp [HistGoals.all, h]
theorem mem_all_prof {G : HistGoals} {p : Node × Node} (h : p ∈ G.profs) : p.1 ∈ G.all ∧ p.2 ∈ G.all := by
  simp only [HistGoals.all, List.mem_append, List.mem_flatMap]
  exact ⟨.inl (.inr ⟨p, h, by simp⟩), .inl (.inr ⟨p, h, by simp⟩)⟩
theorem mem_all_weight {G : HistGoals} {p : Node × Node} (h : G.weight = some p) : p.1 ∈ G.all ∧ p.2 ∈ G.all := by
  simp [HistGoals.all, h]
theorem mem_all {G : HistGoals} {g : Node} (h : g ∈ G.all) : g ∈ G.groups ∨ g ∈ G.fixed ∨
    (∃ p ∈ G.profs, g = p.1 ∨ g = p.2) ∨ ∃ p, G.weight = some p ∧ (g = p.1 ∨ g = p.2) := by
  simp only [HistGoals.all, List.mem_append, List.mem_flatMap] at h
  rcases h with ((h | h) | ⟨p, hp, h⟩) | h
  · exact .inl h
  · exact .inr (.inl h)
  · exact .inr (.inr (.inl ⟨p, hp, by simpa using h⟩))
  · cases hw : G.weight with
    | none => rw [hw] at h; simp at h
    | some p => rw [hw] at h; exact .inr (.inr (.inr ⟨p, rfl, by simpa using h⟩))

theorem pair_grounded {a : Node} (h1 : a.grounded = true) (h2 : a.isConst = false) : (pairGoals a).2.grounded = true := by
  simp [pairGoals, T.grounded, T.groundedL, h1, h2]

theorem pair_clean {a : Node} (h : Clean a) : Clean (pairGoals a).2 := by
  intro x hx
  simp only [pairGoals, T.subs, T.subsL, List.mem_cons, List.mem_append, List.not_mem_nil, or_false] at hx
  rcases hx with rfl | hx | hx
  · rfl
  · exact h x hx
  · exact h x hx

theorem mapE_some {α β : Type} {f : α → Except Err (Option β)} {g : α → Except Err β} : ∀ {xs : List α},
    (∀ x ∈ xs, f x = (g x).map some) → mapE f xs = mapE (fun x => (g x).map some) xs :=
  fun h => mapE_congr h

theorem mapE_each {α β : Type} {f : α → Except Err β} {xs : List α} {ys : List β} (h : mapE f xs = .ok ys) :
    ∀ x ∈ xs, ∃ y, f x = .ok y := by
  rw [mapE_ok_iff] at h
  intro x hx
  obtain ⟨i, hi, rfl⟩ := List.getElem_of_mem hx
  have hl := h.length_eq
  exact ⟨_, (List.forall₂_iff_get.1 h).2 i hi (by omega)⟩

theorem subs_call_arg {arg : Node} (f : String) (as : List Node) : arg ∈ (T.call f (arg :: as) : Node).subs := by
  simp only [T.subs, T.subsL, List.mem_cons, List.mem_append]
  exact .inr (.inl (subs_self arg))

/-! ## C81 -/

/-- What is computed for the destinations, and that everything can be computed. -/
theorem dest_rows {more : More} {named : String → Option (Option ℚ)}
    {get : String → Option (Given (Option ℚ))} {n : ℕ} (hm : ∀ f, (more f).isSome = true → axisFn f = none)
    (hn : 0 < n) {X : HistExprs} (hS : X.Sound more named get n) {G : HistGoals} (hG : X.goals = .ok G)
    (hd : Describes (numConsts named) get G.all n) (hu : Unmixed G.all) {srcs : List Node} {ord : List Node → List Node}
    (ho : ∀ l, (ord l).Perm l) (hs : SourceOrder G.all srcs) {d : Dest}
    (hc : X.hist.columns (X.rows more named get n) = .ok d) :
    ∃ r w, fillFields (colLib more) .nums (numConsts named) get G.all srcs ord = .ok (r, n) ∧
      G.dest r = .ok ⟨d.groups, d.fixed, d.prof, w⟩ ∧ (w = d.weight ∨ X.hist.wkind ≠ .expr) ∧
      (∀ g ∈ G.all, ∀ x ∈ g.subs, x.grounded = true →
        ∃ v, own (colLib more) (columnOf .nums (numConsts named) get n) x = .ok v) := by
  obtain ⟨g1, g2, g3, g4⟩ := goals_eq hS hG
  -- the columns of the rows
  have hlen : (X.rows more named get n).length = n := by simp [HistExprs.rows]
  unfold HistDef.columns at hc
  have hgc := groupColumns_eq (R := X.rowAt more named get n) (n := n)
    (val := fun i p => .num (toNum (valAt more named get n i p.2))) X.groups 0 (fun i _ => rfl)
  have hfc := fixedColumns_eq (R := X.rowAt more named get n) (n := n)
    (val := fun i p => p.1.valOf (valAt more named get n i p.2)) X.fixed 0 (fun i _ => rfl)
  change groupColumns (X.rows more named get n) X.hist.groups 0 = _ at hgc
  change fixedColumns (X.rows more named get n) X.hist.fixed 0 = _ at hfc
  rw [hgc, hfc] at hc
  cases hgs : mapE (fun p : GroupAxis × E => (p.1.column ((List.range n).map fun i =>
      .num (toNum (valAt more named get n i p.2)))).map some) X.groups with
  | error e => rw [hgs] at hc; cases hc
  | ok gs =>
  cases hfs : mapE (fun p : FixedAxis × E => (mapE p.1.index ((List.range n).map fun i =>
      p.1.valOf (valAt more named get n i p.2))).map some) X.fixed with
  | error e => rw [hgs, hfs] at hc; cases hc
  | ok fs =>
  rw [hgs, hfs] at hc
  have hdd := (Except.ok.inj hc).symm
  -- each goal on its own
  have hmap : ∀ (e : E) {γ : Type} (F : Num → γ), ((List.range n).map fun i => valAt more named get n i e).map
      (fun v => F (toNum v)) = (List.range n).map fun i => F (toNum (valAt more named get n i e)) := by
    intro e γ F; rw [List.map_map]; rfl
  have ogrp : ∀ p ∈ X.groups, p.1.goal (argNode p.2) ∈ G.all ∧ (p.1.goal (argNode p.2)).grounded = true ∧
      own (colLib more) (columnOf .nums (numConsts named) get n)
        (p.1.goal (argNode p.2)) = (p.1.column ((List.range n).map fun i =>
          .num (toNum (valAt more named get n i p.2)))).map .grp := by
    intro p hp
    obtain ⟨a2, a3, a5⟩ := argNode_ok hm hn hd (hS.groups p hp)
    obtain ⟨f, cs, hf⟩ := p.1.goal_form
    have hmem : p.1.goal (argNode p.2) ∈ G.all := mem_all_group (by rw [g1]; exact List.mem_map.2 ⟨p, hp, rfl⟩)
    refine ⟨hmem, by rw [hf]; exact goal_grounded a2 a3 _ _, ?_⟩
    rw [own_group (a5 ⟨_, hmem, by rw [hf]; exact subs_call_arg _ _⟩), hmap]
  have ofix : ∀ p ∈ X.fixed, p.1.goal (argNode p.2) ∈ G.all ∧ (p.1.goal (argNode p.2)).grounded = true ∧
      own (colLib more) (columnOf .nums (numConsts named) get n)
        (p.1.goal (argNode p.2)) = (mapE p.1.index ((List.range n).map fun i =>
          p.1.valOf (valAt more named get n i p.2))).map .idx := by
    intro p hp
    obtain ⟨a2, a3, a5⟩ := argNode_ok hm hn hd (hS.fixed p hp)
    obtain ⟨f, cs, hf⟩ := p.1.goal_form
    have hmem : p.1.goal (argNode p.2) ∈ G.all := mem_all_fixed (by rw [g2]; exact List.mem_map.2 ⟨p, hp, rfl⟩)
    refine ⟨hmem, by rw [hf]; exact goal_grounded a2 a3 _ _, ?_⟩
    rw [own_fixed (a5 ⟨_, hmem, by rw [hf]; exact subs_call_arg _ _⟩), hmap, mapE_map, mapE_map]
    simp only [valOf_index]
  have opair : ∀ e, Computable more named get n e → (pairGoals (argNode e)).1 ∈ G.all →
      (pairGoals (argNode e)).1.grounded = true ∧ (pairGoals (argNode e)).2.grounded = true ∧
      own (colLib more) (columnOf .nums (numConsts named) get n) (pairGoals (argNode e)).1 =
        .ok (.nums ((List.range n).map fun i => valAt more named get n i e)) ∧
      own (colLib more) (columnOf .nums (numConsts named) get n) (pairGoals (argNode e)).2 =
        .ok (.nums ((List.range n).map fun i => (valAt more named get n i e).map (· ^ 2))) := by
    intro e he hmem
    obtain ⟨a2, a3, a5⟩ := argNode_ok hm hn hd he
    have h1 := a5 ⟨_, hmem, subs_self _⟩
    refine ⟨a2, pair_grounded a2 a3, h1, ?_⟩
    have h2 := own_square h1
    rw [List.map_map] at h2
    exact h2
  have hwt : ∀ p, G.weight = some p → ∃ e, X.weight = some e ∧ (Varies more named get n e → p = pairGoals (argNode e)) ∧
      ((∃ q t, e.constVal = some q ∧ totree e = .ok t ∧ t.toT.isConst = true) →
        p.1.isConst = true ∧ p.2 = .call "numpy.multiply" [p.1, p.1]) := by
    intro p hp
    rw [hp] at g4
    cases hw : X.weight with
    | none => rw [hw] at g4; cases g4
    | some e =>
      rw [hw] at g4
      refine ⟨e, rfl, ?_, ?_⟩
      · intro he
        obtain ⟨a1, -⟩ := argNode_varies hm hn hd he
        simp only [weightGoals, a1] at g4
        exact (Option.some.inj (Except.ok.inj g4)).symm
      · rintro ⟨q, t, h1, h2, h3⟩
        simp only [weightGoals, weightArg, h2] at g4
        have := (Option.some.inj (Except.ok.inj g4)).symm
        rw [this]
        exact ⟨h3, rfl⟩
  have hconst : ∀ p : Node × Node, p.1.isConst = true → p.2 = .call "numpy.multiply" [p.1, p.1] →
      p.1.grounded = false ∧ p.2.grounded = false ∧ (∀ x ∈ p.1.subs, x.grounded = false) ∧
      (∀ x ∈ p.2.subs, x.grounded = false) := by
    rintro ⟨a, b⟩ h1 h2
    dsimp only at h1 h2
    subst h2
    cases a <;> simp [T.isConst] at h1
    refine ⟨rfl, by simp [T.grounded, T.isConst], ?_, ?_⟩
    · intro x hx; simp [T.subs] at hx; subst hx; rfl
    · intro x hx
      simp [T.subs, T.subsL] at hx
      rcases hx with rfl | rfl <;> simp [T.grounded, T.isConst]
  have hall : ∀ g ∈ G.all, ∀ x ∈ g.subs, x.grounded = true →
      ∃ v, own (colLib more) (columnOf .nums (numConsts named) get n) x = .ok v := by
    intro g hg
    rcases mem_all hg with h | h | ⟨p, hp, h⟩ | ⟨p, hp, h⟩
    · rw [g1] at h
      obtain ⟨p, hp, rfl⟩ := List.mem_map.1 h
      obtain ⟨-, -, h4⟩ := ogrp p hp
      intro x hx _
      obtain ⟨y, hy⟩ := mapE_each hgs p hp
      cases hcol : p.1.column ((List.range n).map fun i => .num (toNum (valAt more named get n i p.2))) with
      | error e => rw [hcol] at hy; cases hy
      | ok c => rw [hcol] at h4; exact own_subs _ _ h4 x hx
    · rw [g2] at h
      obtain ⟨p, hp, rfl⟩ := List.mem_map.1 h
      obtain ⟨-, -, h4⟩ := ofix p hp
      intro x hx _
      obtain ⟨y, hy⟩ := mapE_each hfs p hp
      cases hcol : mapE p.1.index ((List.range n).map fun i => p.1.valOf (valAt more named get n i p.2)) with
      | error e => rw [hcol] at hy; cases hy
      | ok c => rw [hcol] at h4; exact own_subs _ _ h4 x hx
    · have hm1 := mem_all_prof hp
      rw [g3] at hp
      obtain ⟨e, he, rfl⟩ := List.mem_map.1 hp
      obtain ⟨-, -, b5, b6⟩ := opair e (hS.profs e he).1 hm1.1
      rcases h with rfl | rfl
      · exact fun x hx _ => own_subs _ _ b5 x hx
      · exact fun x hx _ => own_subs _ _ b6 x hx
    · have hm1 := mem_all_weight hp
      obtain ⟨e, he, h1, h2⟩ := hwt p hp
      rcases hS.weight e he with hce | hce
      · rw [h1 hce] at h hm1
        obtain ⟨-, -, b5, b6⟩ := opair e (.inl hce) hm1.1
        rcases h with rfl | rfl
        · exact fun x hx _ => own_subs _ _ b5 x hx
        · exact fun x hx _ => own_subs _ _ b6 x hx
      · obtain ⟨-, -, c1, c2⟩ := hconst p (h2 hce).1 (h2 hce).2
        rcases h with rfl | rfl
        · exact fun x hx hgr => by rw [c1 x hx] at hgr; cases hgr
        · exact fun x hx hgr => by rw [c2 x hx] at hgr; cases hgr
  obtain ⟨c1, -, c3⟩ := C75_columns ho hs hu (colLib more) Col.nums (numConsts named) get n hd
  obtain ⟨r, hr⟩ := c3 (fun t ht x hx hxg => hall t ht x hx hxg)
  obtain ⟨-, hrm⟩ := c1 r n hr
  have hval : ∀ g ∈ G.all, g.grounded = true → ∀ v,
      own (colLib more) (columnOf .nums (numConsts named) get n) g = .ok v → destOf r g = some v := by
    intro g hg hgr v hv
    refine destOf_ok ((hrm g v).2 ⟨hg, hgr, hv⟩) ?_
    intro w hw
    have := ((hrm g w).1 hw).2.2
    rw [hv] at this; exact (Except.ok.inj this).symm
  have hnone : ∀ g, g.grounded = false → destOf r g = none := by
    intro g hg
    refine destOf_none fun w hw => ?_
    have := ((hrm g w).1 hw).2.1
    rw [hg] at this; cases this
  -- the destinations
  have dg : mapE (fun g => grpOf (destOf r g)) G.groups = .ok gs := by
    rw [g1, mapE_map, ← hgs]
    refine mapE_congr fun p hp => ?_
    obtain ⟨h1, h2, h4⟩ := ogrp p hp
    obtain ⟨y, hy⟩ := mapE_each hgs p hp
    cases hcol : p.1.column ((List.range n).map fun i => .num (toNum (valAt more named get n i p.2))) with
    | error e => rw [hcol] at hy; cases hy
    | ok c => rw [hcol] at h4; rw [hval _ h1 h2 _ h4]; rfl
  have df : mapE (fun g => idxOf (destOf r g)) G.fixed = .ok fs := by
    rw [g2, mapE_map, ← hfs]
    refine mapE_congr fun p hp => ?_
    obtain ⟨h1, h2, h4⟩ := ofix p hp
    obtain ⟨y, hy⟩ := mapE_each hfs p hp
    cases hcol : mapE p.1.index ((List.range n).map fun i => p.1.valOf (valAt more named get n i p.2)) with
    | error e => rw [hcol] at hy; cases hy
    | ok c => rw [hcol] at h4; rw [hval _ h1 h2 _ h4]; rfl
  have dp : mapE (profsOf r) G.profs = .ok d.prof := by
    have h0 : d.prof = X.profs.map fun e => (some ((List.range n).map fun i => (valAt more named get n i e).getD 0),
        some ((List.range n).map fun i => (valAt more named get n i e).getD 0 ^ 2)) := by
      rw [hdd]
      refine List.ext_getElem (by simp [HistExprs.hist]) ?_
      intro k h1 h2
      have hk : k < X.profs.length := by simpa using h2
      simp [HistExprs.rows, HistExprs.rowAt, hk, Function.comp_def]
    rw [h0, g3, mapE_map]
    refine mapE_ok _ _ _ fun e he => ?_
    have hm1 := mem_all_prof (p := pairGoals (argNode e)) (by rw [g3]; exact List.mem_map.2 ⟨e, he, rfl⟩)
    obtain ⟨b1, b2, b5, b6⟩ := opair e (hS.profs e he).1 hm1.1
    have hsome := (hS.profs e he).2
    have e1 : profOf (destOf r (pairGoals (argNode e)).1) =
        .ok (some ((List.range n).map fun i => (valAt more named get n i e).getD 0)) := by
      rw [hval _ hm1.1 b1 _ b5]
      simp only [profOf]
      rw [if_pos (by simpa using hsome), List.map_map]; rfl
    have e2 : profOf (destOf r (pairGoals (argNode e)).2) =
        .ok (some ((List.range n).map fun i => (valAt more named get n i e).getD 0 ^ 2)) := by
      rw [hval _ hm1.2 b2 _ b6]
      simp only [profOf]
      rw [if_pos (by simpa using hsome), List.map_map]
      congr 2
      refine List.map_congr_left fun i hi => ?_
      have := hsome i (by simpa using hi)
      obtain ⟨q, hq⟩ := Option.isSome_iff_exists.1 this
      simp [hq]
    unfold profsOf
    rw [e1]
    change (profOf (destOf r (pairGoals (argNode e)).2) >>= _) = _
    rw [e2]; rfl
  have dw : ∃ w, weightOf r G.weight = .ok w ∧ (w = d.weight ∨ X.hist.wkind ≠ .expr) := by
    cases hw : G.weight with
    | none =>
      refine ⟨_, rfl, .inr ?_⟩
      have : X.weight = none := by
        rw [hw] at g4
        cases hx : X.weight with
        | none => rfl
        | some e =>
          rw [hx] at g4; simp only [weightGoals] at g4
          cases ha : weightArg e with
          | error e => rw [ha] at g4; cases g4
          | ok a => rw [ha] at g4; cases g4
      simp [HistExprs.hist, weightKind, this]
    | some p =>
      have hm1 := mem_all_weight hw
      obtain ⟨e, he, h1, h2⟩ := hwt p hw
      rcases hS.weight e he with hce | hce
      · have hp := h1 hce
        subst hp
        obtain ⟨b1, b2, b5, b6⟩ := opair e (.inl hce) hm1.1
        refine ⟨(some ((List.range n).map fun i => valAt more named get n i e),
          some ((List.range n).map fun i => (valAt more named get n i e).map (· ^ 2))), ?_, .inl ?_⟩
        · simp only [weightOf]
          rw [hval _ hm1.1 b1 _ b5]
          change (numsOf (destOf r (pairGoals (argNode e)).2) >>= _) = _
          rw [hval _ hm1.2 b2 _ b6]; rfl
        · rw [hdd]
          simp [HistExprs.rows, HistExprs.rowAt, he, Function.comp_def]
      · obtain ⟨c1, c2, -⟩ := hconst p (h2 hce).1 (h2 hce).2
        refine ⟨(none, none), ?_, .inr ?_⟩
        · simp only [weightOf]
          rw [hnone _ c1]
          change (numsOf (destOf r p.2) >>= _) = _
          rw [hnone _ c2]; rfl
        · obtain ⟨q, -, hq, -⟩ := hce
          simp [HistExprs.hist, weightKind, he, hq]
  obtain ⟨w, dw1, dw2⟩ := dw
  have hdest : G.dest r = .ok ⟨gs, fs, d.prof, w⟩ := by
    unfold HistGoals.dest
    rw [dg]
    change (mapE (fun g => idxOf (destOf r g)) G.fixed >>= _) = _
    rw [df]
    change (mapE (profsOf r) G.profs >>= _) = _
    rw [dp]
    change (weightOf r G.weight >>= _) = _
    rw [dw1]; rfl
  exact ⟨r, w, hr, by rw [hdest, hdd], dw2, hall⟩

/-- **C81**: `fill` with arguments that describe `n` rows is the filling with these rows, in each of which an axis,
profile or weight has the value of its expression in the row; whatever the order in which the quantities are
computed.  Expressions that are constants are C80, functions of constants C54, values of profiles that are not a
number are not modelled. -/
theorem C81_rows_partial {more : More} {named : String → Option (Option ℚ)}
    {get : String → Option (Given (Option ℚ))} {n : ℕ} (hm : ∀ f, (more f).isSome = true → axisFn f = none)
    (hn : 0 < n) {X : HistExprs} (hS : X.Sound more named get n) {G : HistGoals} (hG : X.goals = .ok G)
    (hd : Describes (numConsts named) get G.all n) (hu : Unmixed G.all) {srcs : List Node} {ord : List Node → List Node}
    (ho : ∀ l, (ord l).Perm l) (hs : SourceOrder G.all srcs) {d : Dest}
    (hc : X.hist.columns (X.rows more named get n) = .ok d) (st : X.hist.State) :
    X.fill more named get srcs ord st = X.hist.fill st (X.rows more named get n) := by
  obtain ⟨r, w, hr, hdest, dw2, -⟩ := dest_rows hm hn hS hG hd hu ho hs hc
  have hlen : (X.rows more named get n).length = n := by simp [HistExprs.rows]
  have hcomp : X.compute more named get srcs ord = .ok (⟨d.groups, d.fixed, d.prof, w⟩, n) := by
    unfold HistExprs.compute
    rw [hG]
    change (fillFields (colLib more) .nums (numConsts named) get G.all srcs ord >>= _) = _
    rw [hr]
    change (G.dest r >>= _) = _
    rw [hdest]; rfl
  unfold HistExprs.fill HistDef.fill
  rw [hcomp, hc, hlen]
  dsimp only
  rw [postfill_weight (d := ⟨d.groups, d.fixed, d.prof, w⟩) (d' := d) rfl rfl rfl dw2]
  cases postfill X.hist.layout n d (prefill X.hist.layout st) with
  | error p => cases p; rfl
  | ok c => rfl

/-- The expressions of the histogram are no constants, except for the weight. -/
structure HistExprs.NoConst (X : HistExprs) (more : More) (named : String → Option (Option ℚ))
    (get : String → Option (Given (Option ℚ))) (n : ℕ) : Prop where
  groups : ∀ p ∈ X.groups, Varies more named get n p.2
  fixed : ∀ p ∈ X.fixed, Varies more named get n p.2
  profs : ∀ e ∈ X.profs, Varies more named get n e ∧ ∀ i < n, (valAt more named get n i e).isSome = true
  weight : ∀ e, X.weight = some e → Varies more named get n e ∨ ∃ q t, e.constVal = some q ∧ totree e = .ok t ∧
    t.toT.isConst = true

theorem HistExprs.NoConst.sound {X : HistExprs} {more : More} {named : String → Option (Option ℚ)}
    {get : String → Option (Given (Option ℚ))} {n : ℕ} (h : X.NoConst more named get n) : X.Sound more named get n :=
  ⟨fun p hp => .inl (h.groups p hp), fun p hp => .inl (h.fixed p hp), fun e he => ⟨.inl (h.profs e he).1, (h.profs e he).2⟩,
    h.weight⟩

theorem const_clean {a : Node} (h : a.isConst = true) : Clean a := by
  cases a <;> simp [T.isConst] at h
  intro x hx; simp [T.subs] at hx; subst hx; rfl

theorem noConst_clean {X : HistExprs} {more : More} {named : String → Option (Option ℚ)}
    {get : String → Option (Given (Option ℚ))} {n : ℕ} (hm : ∀ f, (more f).isSome = true → axisFn f = none) (hn : 0 < n)
    (h : X.NoConst more named get n) {G : HistGoals} (hG : X.goals = .ok G)
    (hd : Describes (numConsts named) get G.all n) : ∀ g ∈ G.all, Clean g := by
  obtain ⟨g1, g2, g3, g4⟩ := goals_eq h.sound hG
  · intro g hg
    rcases mem_all hg with hg | hg | ⟨p, hp, hg⟩ | ⟨p, hp, hg⟩
    · rw [g1] at hg
      obtain ⟨p, hp, rfl⟩ := List.mem_map.1 hg
      obtain ⟨f, cs, hf⟩ := p.1.goal_form
      rw [hf]
      exact clean_call (argNode_varies hm hn hd (h.groups p hp)).2 _ _
    · rw [g2] at hg
      obtain ⟨p, hp, rfl⟩ := List.mem_map.1 hg
      obtain ⟨f, cs, hf⟩ := p.1.goal_form
      rw [hf]
      exact clean_call (argNode_varies hm hn hd (h.fixed p hp)).2 _ _
    · rw [g3] at hp
      obtain ⟨e, he, rfl⟩ := List.mem_map.1 hp
      have := (argNode_varies hm hn hd (h.profs e he).1).2
      rcases hg with rfl | rfl
      · exact this
      · exact pair_clean this
    · rw [hp] at g4
      cases hw : X.weight with
      | none => rw [hw] at g4; cases g4
      | some e =>
        rw [hw] at g4
        have hc : Clean p.1 ∧ p = pairGoals p.1 := by
          rcases h.weight e hw with he | ⟨q, t, _, ht, hc⟩
          · obtain ⟨a1, a2⟩ := argNode_varies hm hn hd he
            simp only [weightGoals, a1] at g4
            have := (Option.some.inj (Except.ok.inj g4)).symm
            rw [this]; exact ⟨a2, rfl⟩
          · simp only [weightGoals, weightArg, ht] at g4
            have := (Option.some.inj (Except.ok.inj g4)).symm
            rw [this]; exact ⟨const_clean hc, rfl⟩
        rcases hg with rfl | rfl
        · exact hc.1
        · rw [hc.2]; exact pair_clean hc.1

theorem unmixed_noConst {X : HistExprs} {more : More} {named : String → Option (Option ℚ)}
    {get : String → Option (Given (Option ℚ))} {n : ℕ} (hm : ∀ f, (more f).isSome = true → axisFn f = none) (hn : 0 < n)
    (h : X.NoConst more named get n) {G : HistGoals} (hG : X.goals = .ok G)
    (hd : Describes (numConsts named) get G.all n) : Unmixed G.all :=
  fun _ _ _ _ t' ht' y hy _ => noConst_clean hm hn h hG hd t' ht' y hy

/-- **C81** for the content: after filling a new histogram with arguments that describe `n` rows, each bin holds the
sum over the rows in which the values of the expressions belong to the bin. -/
theorem C81_content_partial {more : More} {named : String → Option (Option ℚ)}
    {get : String → Option (Given (Option ℚ))} {n : ℕ} (hm : ∀ f, (more f).isSome = true → axisFn f = none)
    (hn : 0 < n) {X : HistExprs} (hS : X.NoConst more named get n) {G : HistGoals} (hG : X.goals = .ok G)
    (hd : Describes (numConsts named) get G.all n) {srcs : List Node} {ord : List Node → List Node}
    (ho : ∀ l, (ord l).Perm l) (hs : SourceOrder G.all srcs) (hf : Fillable X.hist [X.rows more named get n])
    (st : X.hist.State) (hst : X.hist.Good st) :
    ∃ st', X.fill more named get srcs ord st = .ok st' ∧ X.hist.Good st' ∧
      ∀ gk, gk.length = X.hist.groups.length → ∀ idx, X.hist.Cell idx → ∀ col,
        X.hist.read st' gk idx col = X.hist.read st gk idx col +
          binTotal X.hist (X.rows more named get n) gk idx col := by
  obtain ⟨st', h1, h2, h3⟩ := C11_fill_adds X.hist st hst [X.rows more named get n] hf
  have h4 : X.hist.fill st (X.rows more named get n) = .ok st' := by
    simp only [HistDef.fillAll] at h1
    split at h1
    · cases h1
    · rename_i s hs'; rw [hs']; exact h1
  have hc : ∃ d, X.hist.columns (X.rows more named get n) = .ok d := by
    unfold HistDef.fill at h4
    cases hc : X.hist.columns (X.rows more named get n) with
    | error e => rw [hc] at h4; cases h4
    | ok d => exact ⟨d, rfl⟩
  obtain ⟨d, hc⟩ := hc
  refine ⟨st', ?_, h2, by simpa using h3⟩
  rw [C81_rows_partial hm hn hS.sound hG hd (unmixed_noConst hm hn hS hG hd) ho hs hc st]
  exact h4

/-- **C81** for weights: a row is counted with the value of the weight expression in it (nothing if that is NaN), a
number being its own value, and with one if there is no weight; there is a column of squared weights exactly if there is
a weight. -/
theorem C81_weights (more : More) (named : String → Option (Option ℚ)) (get : String → Option (Given (Option ℚ)))
    (n i : ℕ) (X : HistExprs) :
    (X.rowAt more named get n i).weight X.hist.wkind =
      (match X.weight with | none => 1 | some e => (valAt more named get n i e).getD 0) ∧
    (X.hist.wkind = .none ↔ X.weight = none) := by
  cases hw : X.weight with
  | none => simp [HistExprs.hist, weightKind, hw, Row.weight]
  | some e =>
    cases hc : e.constVal with
    | none => simp [HistExprs.hist, weightKind, hw, hc, Row.weight, HistExprs.rowAt]
    | some q =>
      have : valAt more named get n i e = some q := by
        unfold E.constVal at hc
        split at hc
        · cases hc; simp [valAt, E.eval, Head.apply]
        · cases hc
      simp [HistExprs.hist, weightKind, hw, hc, Row.weight, this]

/-- **C81** for written expressions: an expression of arithmetic with quotients over fields and library functions
can be computed (unless it contains a function of constants only), and its value is the one it is written with. -/
theorem C81_written_partial {more : More} {named : String → Option (Option ℚ)}
    {get : String → Option (Given (Option ℚ))} {n : ℕ} (hl : Full more)
    (hp : ∀ i < n, PowLaw (treeEnv more (fieldAt named get n i))) (s : Py) (h : s.safe recognized = true)
    (hr : s.runs inLibrary = true) (hd : ∀ i < n, s.AllDef (treeEnv more (fieldAt named get n i))) (e : E) (t : E)
    (he : parseExpr (plainScope recognized) s = .ok e) (ht : totree e = .ok t) (hg : t.toT.grounded = true)
    (hc : e.constVal = none) (hs : e.setOf = none) :
    Varies more named get n e ∧
    ∀ i < n, valAt more named get n i e =
      Py.val (treeEnv more (fieldAt named get n i)) (fieldAt named get n i) s := by
  refine ⟨⟨hc, hs, t, ht, hg, fun i hi => ?_⟩, fun i hi => ?_⟩
  · obtain ⟨t', h1, h2⟩ := C52_tree_partial (field := fieldAt named get n i) hl recognized s e he (.inl hr)
    rw [ht] at h1
    have := Except.ok.inj h1; subst this
    exact h2
  · obtain ⟨e', h1, h2⟩ := C48_safe_partial (hp i hi) recognized s h (hd i hi)
    rw [he] at h1
    have := Except.ok.inj h1; subst this
    exact h2

/-! ### An example -/

/-- `fill(x=[1, 4, 2], y=3)`. -/
def goalsGet (s : String) : Option (Given (Option ℚ)) :=
  if s = "x" then some (.array [some 1, some 4, some 2]) else if s = "y" then some (.scalar (some 3)) else none

/-- The parsed expression. -/
def goalsExpr (s : Py) : E :=
  match parseExpr (plainScope recognized) s with
  | .ok e => e
  | .error _ => .const 0

/-- `Hist(bin("x/y", 2, 0, 2), profile("x"), weight="y")`. -/
def goalsHist : HistExprs where
  groups := []
  fixed := [(.bin ⟨2, 0, 2, true, true, true, true⟩, goalsExpr (.bin .div (.name "x") (.name "y")))]
  profs := [goalsExpr (.name "x")]
  weight := some (goalsExpr (.name "y"))

theorem treeMore_axis (f : String) (h : (treeMore f).isSome = true) : axisFn f = none := by
  have key : ∀ f ∈ libraryNames, (axisFn f).isNone = true := by decide +kernel
  unfold treeMore at h
  split_ifs at h with h1
  · exact Option.isNone_iff_eq_none.1 (key f h1)
  · simp at h

/-- The expression is not a constant, and its tree is calculated to its value in each row. -/
theorem varies_of {more : More} {named : String → Option (Option ℚ)} {get : String → Option (Given (Option ℚ))} {n : ℕ}
    {e : E} (t : E) (h : e.constVal = none ∧ e.setOf = none ∧ totree e = .ok t ∧ t.toT.grounded = true ∧
      ∀ i < n, treeVal more (fieldAt named get n i) t = .ok (.num (valAt more named get n i e))) :
    Varies more named get n e := ⟨h.1, h.2.1, t, h.2.2.1, h.2.2.2.1, h.2.2.2.2⟩

theorem sourceOrder_of {goals srcs : List Node} (h1 : ∀ s ∈ srcs, ∃ t ∈ goals, s ∈ t.sources)
    (h2 : ∀ t ∈ goals, ∀ s ∈ t.sources, s ∈ srcs) : SourceOrder goals srcs :=
  fun s => ⟨h1 s, fun ⟨t, ht, hs⟩ => h2 t ht s hs⟩

theorem describes_of {α : Type} {c : Consts α} {get : String → Option (Given α)} {goals : List Node} {n : ℕ}
    (h1 : ∀ t ∈ goals, ∀ x ∈ t.subs, (match x.fieldName with
      | some s => (fieldColumn c get n s).isSome
      | none => true) = true)
    (h2 : (∃ t ∈ goals, ∃ x ∈ t.subs, (match x.fieldName.bind get with
      | some (.array _) => true
      | _ => false) = true) ∨ n = 1) : Describes c get goals n := by
  refine ⟨?_, ?_⟩
  · rintro s ⟨t, ht, x, hx, hs⟩
    have := h1 t ht x hx
    rw [hs] at this
    exact this
  · rcases h2 with ⟨t, ht, x, hx, h⟩ | h
    · left
      cases hf : x.fieldName with
      | none => rw [hf] at h; cases h
      | some s =>
        rw [hf] at h
        simp only [Option.bind_some] at h
        split at h
        · rename_i l hl; exact ⟨s, l, ⟨t, ht, x, hx, hf⟩, hl⟩
        · cases h
    · exact .inr h

/-- The goals of the example. -/
def goalsDemo : HistGoals :=
  match goalsHist.goals with
  | .ok G => G
  | .error _ => ⟨[], [], [], none⟩

/-- The hypotheses of `C81_content_partial` hold for the example. -/
theorem goalsHist_facts : goalsHist.NoConst treeMore (fun _ => none) goalsGet 3 ∧ goalsHist.goals = .ok goalsDemo ∧
    SourceOrder goalsDemo.all [.name "x", .name "y"] ∧
    Describes (numConsts fun _ => none) goalsGet goalsDemo.all 3 ∧
    Fillable goalsHist.hist [goalsHist.rows treeMore (fun _ => none) goalsGet 3] := by
  have hv : ∀ e ∈ [goalsExpr (.bin .div (.name "x") (.name "y")), goalsExpr (.name "x"),
      goalsExpr (.name "y")], Varies treeMore (fun _ => none) goalsGet 3 e := by
    intro e he
    refine varies_of ((totree e).toOption.getD (.const 0)) ?_
    revert e
    decide +kernel
  have hrows : goalsHist.rows treeMore (fun _ => none) goalsGet 3 = [⟨[], [.num (.fin (1/3))], [1], some 3⟩,
      ⟨[], [.num (.fin (4/3))], [4], some 3⟩, ⟨[], [.num (.fin (2/3))], [2], some 3⟩] := by decide +kernel
  refine ⟨⟨fun p hp => by simp [goalsHist] at hp, ?_, ?_, ?_⟩, by decide +kernel, ?_, ?_, ?_⟩
  · intro p hp
    have : p.2 = goalsExpr (.bin .div (.name "x") (.name "y")) := by
      simp [goalsHist] at hp; rw [hp]
    rw [this]; exact hv _ (by simp)
  · intro e he
    have : e = goalsExpr (.name "x") := by simpa [goalsHist] using he
    subst this
    exact ⟨hv _ (by simp), by decide +kernel⟩
  · intro e he
    have : e = goalsExpr (.name "y") := by simpa [goalsHist] using he.symm
    subst this
    exact .inl (hv _ (by simp))
  · exact sourceOrder_of (by decide +kernel) (by decide +kernel)
  · exact describes_of (by decide +kernel) (.inl (by decide +kernel))
  · refine ⟨?_, .inr ?_⟩
    · intro b hb r hr
      simp only [List.mem_singleton] at hb; subst hb
      rw [hrows] at hr
      simp only [List.mem_cons, List.not_mem_nil, or_false] at hr
      rcases hr with rfl | rfl | rfl <;>
        exact ⟨.nil, .cons (exH_handles _ (by norm_num)) .nil, rfl⟩
    · intro b hb r hr hl
      simp only [List.mem_singleton] at hb; subst hb
      rw [hrows] at hr
      simp only [List.mem_cons, List.not_mem_nil, or_false] at hr
      rcases hr with rfl | rfl | rfl
      · exact absurd (hl [1]) (by decide +kernel)
      · exact absurd (hl [2]) (by decide +kernel)
      · exact absurd (hl [1]) (by decide +kernel)

/-- The content of a bin after filling a new histogram. -/
def HistExprs.binAfter (X : HistExprs) (get : String → Option (Given (Option ℚ))) (srcs : List Node)
    (idx : List ℕ) (col : ℕ) : Except Err ℚ :=
  match X.fill treeMore (fun _ => none) get srcs id none with
  | .ok st => .ok (X.hist.read st [] idx col)
  | .error e => .error e.1

/-- The rows with `x/y = 1/3` and `2/3` are in one bin, with the sums of `y*x`, `y*x*x`, `y` and `y*y`; the row with
`4/3` is in the next one. -/
example : [0, 1, 2, 3].map (goalsHist.binAfter goalsGet [.name "x", .name "y"] [1]) = [.ok 9, .ok 15, .ok 6, .ok 18] ∧
    [0, 1, 2, 3].map (goalsHist.binAfter goalsGet [.name "x", .name "y"] [2]) = [.ok 12, .ok 48, .ok 3, .ok 9] ∧
    [0, 1, 2, 3].map (goalsHist.binAfter goalsGet [.name "x", .name "y"] [0]) = [.ok 0, .ok 0, .ok 0, .ok 0] := by
  decide +kernel

/-! ## C54 and C80: what becomes of the histogram -/

/-- `Hist(bin(s, 2, 0, 2))` with a weight. -/
def oneAxis (s : Py) (w : Option Py) : HistExprs where
  groups := []
  fixed := [(.bin ⟨2, 0, 2, true, true, true, true⟩, goalsExpr s)]
  profs := []
  weight := w.map goalsExpr

/-- **C54** fails for a histogram of `sqrt(2)*x`: filling with three rows raises no exception and adds 3 to every
bin, underflow, overflow and "not a number" included. -/
theorem C54_refuted_histogram :
    let X := oneAxis (.bin .mul (.call "sqrt" [.num 2]) (.name "x")) none
    ∀ i < 5, X.binAfter goalsGet [.name "x"] [i] 0 = .ok 3 := by
  decide +kernel

/-- **C54** fails for the weight `sqrt(2)`: filling raises a `TypeError`. -/
theorem C54_refuted_weight :
    (oneAxis (.name "x") (some (.call "sqrt" [.num 2]))).binAfter goalsGet [.name "x"] [0] 0 = .error .typeError := by
  decide +kernel

/-- **C80** fails for a histogram whose only expression is a constant: three rows are given, one is counted. -/
theorem C80_refuted_alone :
    let X := oneAxis (.num 1) none
    X.binAfter goalsGet [.bconst none (.num 1)] [2] 0 = .ok 1 := by
  decide +kernel

/-- **C80** fails for a constant axis next to a weight that uses a field: the first filling raises a `TypeError`. -/
theorem C80_refuted_weighted :
    let X := oneAxis (.num 1) (some (.name "y"))
    ∀ i < 5, X.binAfter goalsGet [.bconst none (.num 1), .name "y"] [i] 0 = .error .typeError := by
  decide +kernel

/-- All expressions of the histogram are constants. -/
structure HistExprs.AllConst (X : HistExprs) : Prop where
  groups : ∀ p ∈ X.groups, ∃ q, p.2 = E.const q
  fixed : ∀ p ∈ X.fixed, ∃ q, p.2 = E.const q
  profs : ∀ e ∈ X.profs, ∃ q, e = E.const q
  weight : ∀ e, X.weight = some e → ∃ q, e = E.const q

/-- **C80**, the part that holds: if all expressions are constants, then filling counts one row with these values,
whatever the arguments.  Missing: any field besides (`C80_refuted_mixed`), and more than one row
(`C80_refuted_alone`). -/
theorem C80_one_row_partial {more : More} {named : String → Option (Option ℚ)}
    {get : String → Option (Given (Option ℚ))} (hm : ∀ f, (more f).isSome = true → axisFn f = none)
    {X : HistExprs} (hX : X.AllConst) {G : HistGoals} (hG : X.goals = .ok G) {srcs : List Node}
    {ord : List Node → List Node} (ho : ∀ l, (ord l).Perm l) (hs : SourceOrder G.all srcs) {d : Dest}
    (hc : X.hist.columns [X.rowAt more named get 1 0] = .ok d) (st : X.hist.State) :
    X.fill more named get srcs ord st = X.hist.fill st [X.rowAt more named get 1 0] := by
  have hS : X.Sound more named get 1 := by
    refine ⟨fun p hp => .inr (hX.groups p hp), fun p hp => .inr (hX.fixed p hp), ?_, ?_⟩
    · intro e he
      obtain ⟨q, rfl⟩ := hX.profs e he
      exact ⟨.inr ⟨q, rfl⟩, fun i hi => rfl⟩
    · intro e he
      obtain ⟨q, rfl⟩ := hX.weight e he
      exact .inr ⟨q, .const q, rfl, rfl, rfl⟩
  obtain ⟨g1, g2, g3, g4⟩ := goals_eq hS hG
  have key : ∀ g ∈ G.all, ∀ x ∈ g.subs, x.fieldName = none := by
    have hcall : ∀ (f : String) (cs : List CVal) (q : ℚ), ∀ x ∈ (T.call f (argNode (E.const q) :: cs.map T.const) : Node).subs, x.fieldName = none := by
      intro f cs q x hx
      rcases goal_subs hx with rfl | hx | ⟨c, rfl⟩
      · rfl
      · have : x = .bconst none (.num q) := by simpa [argNode, argOf, E.const, E.constVal, T.subs] using hx
        subst this; rfl
      · rfl
    intro g hg
    rcases mem_all hg with hg | hg | ⟨p, hp, hg⟩ | ⟨p, hp, hg⟩
    · rw [g1] at hg
      obtain ⟨p, hp, rfl⟩ := List.mem_map.1 hg
      obtain ⟨f, cs, hf⟩ := p.1.goal_form
      obtain ⟨q, hq⟩ := hX.groups p hp
      rw [hf, hq]; exact hcall _ _ _
    · rw [g2] at hg
      obtain ⟨p, hp, rfl⟩ := List.mem_map.1 hg
      obtain ⟨f, cs, hf⟩ := p.1.goal_form
      obtain ⟨q, hq⟩ := hX.fixed p hp
      rw [hf, hq]; exact hcall _ _ _
    · rw [g3] at hp
      obtain ⟨e, he, rfl⟩ := List.mem_map.1 hp
      obtain ⟨q, rfl⟩ := hX.profs e he
      intro x hx
      rcases hg with rfl | rfl
      · have : x = .bconst none (.num q) := by simpa [pairGoals, argNode, argOf, E.const, E.constVal, T.subs] using hx
        subst this; rfl
      · simp [pairGoals, argNode, argOf, E.const, E.constVal, T.subs, T.subsL] at hx
        rcases hx with rfl | rfl <;> rfl
    · rw [hp] at g4
      cases hw : X.weight with
      | none => rw [hw] at g4; cases g4
      | some e =>
        obtain ⟨q, rfl⟩ := hX.weight e hw
        rw [hw] at g4
        have := (Option.some.inj (Except.ok.inj g4)).symm
        subst this
        intro x hx
        rcases hg with rfl | rfl
        · simp [pairGoals, E.const, E.toT, T.subs] at hx
          subst hx; rfl
        · simp [pairGoals, E.const, E.toT, T.subs, T.subsL] at hx
          rcases hx with rfl | rfl <;> rfl
  have hd : Describes (numConsts named) get G.all 1 := by
    refine ⟨?_, .inr rfl⟩
    rintro s ⟨t, ht, x, hx, hxs⟩
    rw [key t ht x hx] at hxs; cases hxs
  have hu : Unmixed G.all := by
    intro t ht x hx _ _ _ _ hs
    rw [key t ht x hx] at hs; cases hs
  have hr : X.rows more named get 1 = [X.rowAt more named get 1 0] := rfl
  have := C81_rows_partial hm (by omega) hS hG hd hu ho hs (d := d) (by rw [hr]; exact hc) st
  rw [hr] at this
  exact this

example : (oneAxis (.num 1) (some (.num 3))).AllConst ∧
    (oneAxis (.num 1) (some (.num 3))).binAfter goalsGet [.bconst none (.num 1)] [2] 0 = .ok 3 := by
  refine ⟨⟨by simp [oneAxis], ?_, by simp [oneAxis], ?_⟩, by decide +kernel⟩
  · intro p hp
    refine ⟨1, ?_⟩
    simp [oneAxis] at hp
    rw [hp]; decide +kernel
  · intro e he
    refine ⟨3, ?_⟩
    simp [oneAxis] at he
    rw [← he]; decide +kernel

end Verif
