import Verif.TextFields
import Verif.PropsGoals

/-!
# C81 with fields that hold texts

Property theorems.
-/

namespace Verif

/-! ## Specification -/

/-- The arguments as numbers; what becomes of the texts does not matter. -/
def numGet (get : String → Option (Given Fld)) (s : String) : Option (Given (Option ℚ)) :=
  match get s with
  | none => none
  | some (.scalar v) => some (.scalar v.toQ)
  | some (.array l) => some (.array (l.map Fld.toQ))

section
variable (more : More) (named : String → Option (Option ℚ)) (get : String → Option (Given Fld)) (n : ℕ)

/-- The values of the field are numbers. -/
def NumField (s : String) : Prop :=
  ∃ l : List (Option ℚ), fieldColumn (fldConsts named) get n s = some (l.map .num)

/-- The values of the field are texts. -/
def TextField (s : String) : Prop :=
  ∃ l : List String, fieldColumn (fldConsts named) get n s = some (l.map .str)

/-- The text in row `i` of a field. -/
def textAt (i : ℕ) (s : String) : Option String :=
  match (fieldColumn (fldConsts named) get n s).bind (·[i]?) with
  | some (.str t) => some t
  | _ => none

/-- The expression is nothing but a field. -/
def E.asField : E → Option String
  | .node (.name s) [] [] => some s
  | _ => none

/-- The value of a group axis in row `i`: the text, if a field of texts is grouped by. -/
def groupValAt (i : ℕ) (p : GroupAxis × E) : GVal :=
  match p.1, p.2.asField.bind (textAt named get n i) with
  | .groupby, some t => .key (.str t)
  | _, _ => .num (toNum (valAt more named (numGet get) n i p.2))

/-- Row `i` of the data as the histogram sees it. -/
def HistExprs.textRowAt (X : HistExprs) (i : ℕ) : Row where
  gvals := X.groups.map (groupValAt more named get n i)
  fvals := X.fixed.map fun p => p.1.valOf (valAt more named (numGet get) n i p.2)
  xs := X.profs.map fun e => (valAt more named (numGet get) n i e).getD 0
  w := X.weight.bind fun e => valAt more named (numGet get) n i e

/-- All rows. -/
def HistExprs.textRows (X : HistExprs) : List Row := (List.range n).map (X.textRowAt more named get n)

/-- The field is read to compute the expression. -/
def ReadsField (e : E) (s : String) : Prop :=
  ∃ a, (argOf e = .ok a ∨ weightArg e = .ok a) ∧ ∃ x ∈ a.subs, x.fieldName = some s

/-- The expression reads numbers only. -/
def ReadsNums (e : E) : Prop := ∀ s, ReadsField e s → NumField named get n s

/-- What is asked of the expressions: fields of texts are only grouped by. -/
structure HistExprs.Typed (X : HistExprs) : Prop where
  groups : ∀ p ∈ X.groups, (p.1 = .groupby ∧ ∃ s, p.2 = E.name s ∧ TextField named get n s) ∨
    (Computable more named (numGet get) n p.2 ∧ ReadsNums named get n p.2)
  fixed : ∀ p ∈ X.fixed, Computable more named (numGet get) n p.2 ∧ ReadsNums named get n p.2
  profs : ∀ e ∈ X.profs, (Computable more named (numGet get) n e ∧ ReadsNums named get n e) ∧
    ∀ i < n, (valAt more named (numGet get) n i e).isSome = true
  weight : ∀ e, X.weight = some e → (Varies more named (numGet get) n e ∨ ∃ q t, e.constVal = some q ∧
    totree e = .ok t ∧ t.toT.isConst = true) ∧ ReadsNums named get n e

end

/-! ## Helpers -/

theorem colOf_nums (l : List (Option ℚ)) : colOf (l.map .num) = .nums l := by
  have h1 : (l.map Fld.num).all Fld.isNum = true := by simp [Fld.isNum]
  have h2 : (l.map Fld.num).map Fld.toQ = l := by
    rw [List.map_map]; exact List.map_id'' (fun _ => rfl) l
  unfold colOf
  rw [if_pos h1, h2]

theorem colOf_texts {l : List String} (h : l ≠ []) : colOf (l.map .str) = .texts l := by
  have h1 : ¬ (l.map Fld.str).all Fld.isNum = true := by
    cases l with
    | nil => exact absurd rfl h
    | cons a as => simp [Fld.isNum]
  have h2 : (l.map Fld.str).all (fun f => !f.isNum) = true := by simp [Fld.isNum]
  have h3 : (l.map Fld.str).map Fld.text = l := by
    rw [List.map_map]; exact List.map_id'' (fun _ => rfl) l
  unfold colOf
  rw [if_neg h1, if_pos h2, h3]

section
variable {more : More} {named : String → Option (Option ℚ)} {get : String → Option (Given Fld)} {n : ℕ}

theorem fieldColumn_num (s : String) : fieldColumn (numConsts named) (numGet get) n s =
    (fieldColumn (fldConsts named) get n s).map (·.map Fld.toQ) := by
  unfold fieldColumn numGet
  cases h : get s with
  | none =>
    simp only [numConsts, fldConsts]
    cases named s with
    | none => rfl
    | some v => simp [Fld.toQ]
  | some g =>
    cases g with
    | scalar v => simp
    | array l =>
      simp only [List.length_map]
      split_ifs <;> rfl

theorem fieldColumn_length {s : String} {l : List Fld} (h : fieldColumn (fldConsts named) get n s = some l) :
    l.length = n := by
  unfold fieldColumn at h
  split at h
  · cases h; simp
  · split_ifs at h with h1; cases h; exact h1
  · obtain ⟨v, _, rfl⟩ := Option.map_eq_some_iff.1 h; simp

theorem columnOf_num {x : Node} (hs : x.isSource = true) (h : ∀ s, x.fieldName = some s → NumField named get n s) :
    columnOf colOf (fldConsts named) get n x = columnOf .nums (numConsts named) (numGet get) n x := by
  have key : ∀ s, NumField named get n s → ∀ y : Node, y.fieldName = some s → y.isBroadcast = false →
      columnOf colOf (fldConsts named) get n y = columnOf .nums (numConsts named) (numGet get) n y := by
    rintro s ⟨l, hl⟩ y hy hb
    have h2 : fieldColumn (numConsts named) (numGet get) n s = some l := by
      rw [fieldColumn_num, hl]
      simp only [Option.map_some, List.map_map]
      congr 1
      exact List.map_id'' (fun _ => rfl) l
    cases y <;> simp [T.fieldName] at hy <;> subst hy <;> simp [columnOf, T.fieldName, hl, h2, colOf_nums]
  cases x with
  | bconst m v =>
    change Except.ok (colOf (List.replicate n (Fld.num ((numConsts named).value v)))) = .ok (Col.nums _)
    rw [← List.map_replicate, colOf_nums]
  | name s => exact key s (h s rfl) _ rfl rfl
  | pred s b => exact key s (h s rfl) _ rfl rfl
  | const v => simp [T.isSource] at hs
  | call f as => simp [T.isSource] at hs

theorem own_num {t : Node} (h : ∀ x ∈ t.subs, ∀ s, x.fieldName = some s → NumField named get n s) :
    own (colLib more) (columnOf colOf (fldConsts named) get n) t =
      own (colLib more) (columnOf .nums (numConsts named) (numGet get) n) t :=
  own_congr t fun x hx hs => columnOf_num hs (h x hx)

/-- A field alone can be computed, whatever its values. -/
theorem field_varies {s : String} : Varies more named (numGet get) n (E.name s) :=
  ⟨rfl, rfl, E.name s, rfl, rfl, fun _ _ => rfl⟩

theorem HistExprs.Typed.sound {X : HistExprs} (h : X.Typed more named get n) :
    X.Sound more named (numGet get) n := by
  refine ⟨fun p hp => ?_, fun p hp => (h.fixed p hp).1, fun e he => ⟨(h.profs e he).1.1, (h.profs e he).2⟩,
    fun e he => (h.weight e he).1⟩
  rcases h.groups p hp with ⟨-, s, hs, -⟩ | h
  · rw [hs]; exact .inl field_varies
  · exact h.1

theorem describes_num {goals : List Node} (h : Describes (fldConsts named) get goals n) :
    Describes (numConsts named) (numGet get) goals n := by
  refine ⟨fun s hs => ?_, ?_⟩
  · rw [fieldColumn_num, Option.isSome_map]; exact h.1 s hs
  · rcases h.2 with ⟨s, l, h1, h2⟩ | h
    · refine .inl ⟨s, l.map Fld.toQ, h1, ?_⟩
      unfold numGet; rw [h2]
    · exact .inr h

theorem groupby_zeros (n : ℕ) : ∃ c, GroupAxis.column .groupby (List.replicate n (.num (.fin 0))) = .ok c := by
  have : mapE GVal.toKey (List.replicate n (.num (.fin 0))) = .ok ((List.replicate n (GVal.num (.fin 0))).map fun _ => Key.num 0) := by
    refine mapE_ok _ _ _ fun x hx => ?_
    rw [(List.mem_replicate.1 hx).2]; rfl
  exact ⟨npUnique ((List.replicate n (GVal.num (.fin 0))).map fun _ => Key.num 0), by
    simp only [GroupAxis.column, this]⟩

theorem mapE_total {α β : Type} {f : α → Except Err β} : ∀ {xs : List α}, (∀ x ∈ xs, ∃ y, f x = .ok y) →
    ∃ ys, mapE f xs = .ok ys
  | [], _ => ⟨[], rfl⟩
  | x :: xs, h => by
    obtain ⟨y, hy⟩ := h x (by simp)
    obtain ⟨ys, hys⟩ := mapE_total (xs := xs) (fun x hx => h x (by simp [hx]))
    exact ⟨y :: ys, by simp [mapE, hy, hys]⟩

theorem dest_inv {G : HistGoals} {r : List (Node × Col)} {d : Dest} (h : G.dest r = .ok d) :
    mapE (fun g => idxOf (destOf r g)) G.fixed = .ok d.fixed ∧ mapE (profsOf r) G.profs = .ok d.prof ∧
      weightOf r G.weight = .ok d.weight := by
  unfold HistGoals.dest at h
  cases h1 : mapE (fun g => grpOf (destOf r g)) G.groups with
  | error e => rw [h1] at h; cases h
  | ok gs =>
  cases h2 : mapE (fun g => idxOf (destOf r g)) G.fixed with
  | error e => rw [h1, h2] at h; cases h
  | ok fs =>
  cases h3 : mapE (profsOf r) G.profs with
  | error e => rw [h1, h2, h3] at h; cases h
  | ok ps =>
  cases h4 : weightOf r G.weight with
  | error e => rw [h1, h2, h3, h4] at h; cases h
  | ok w =>
  rw [h1, h2, h3, h4] at h
  have := (Except.ok.inj h).symm
  subst this
  exact ⟨rfl, rfl, rfl⟩

theorem argOf_computable {e : E} (h : Computable more named (numGet get) n e) : argOf e = .ok (argNode e) := by
  rcases h with ⟨h1, h2, t, h3, -⟩ | ⟨q, rfl⟩
  · have : argOf e = .ok t.toT := by unfold argOf; rw [h1, h2, h3]; rfl
    unfold argNode; rw [this]
  · rfl

/-- All fields of the tree hold numbers. -/
def AllNum (named : String → Option (Option ℚ)) (get : String → Option (Given Fld)) (n : ℕ) (g : Node) : Prop :=
  ∀ x ∈ g.subs, ∀ s, x.fieldName = some s → NumField named get n s

theorem allNum_call {arg : Node} (h : AllNum named get n arg) (f : String) (cs : List CVal) :
    AllNum named get n (T.call f (arg :: cs.map T.const)) := by
  intro x hx s hs
  rcases goal_subs hx with rfl | hx | ⟨c, rfl⟩
  · cases hs
  · exact h x hx s hs
  · cases hs

theorem allNum_pair {arg : Node} (h : AllNum named get n arg) : AllNum named get n (pairGoals arg).2 := by
  intro x hx s hs
  simp only [pairGoals, T.subs, T.subsL, List.mem_cons, List.mem_append, List.not_mem_nil, or_false] at hx
  rcases hx with rfl | hx | hx
  · cases hs
  · exact h x hx s hs
  · exact h x hx s hs

theorem textAt_num {s : String} (h : NumField named get n s) (i : ℕ) : textAt named get n i s = none := by
  obtain ⟨l, hl⟩ := h
  unfold textAt
  rw [hl]
  simp only [Option.bind_some, List.getElem?_map]
  cases l[i]? <;> rfl

theorem groupValAt_num {p : GroupAxis × E} (h : ReadsNums named get n p.2) (i : ℕ) :
    groupValAt more named get n i p = .num (toNum (valAt more named (numGet get) n i p.2)) := by
  have : p.2.asField.bind (textAt named get n i) = none := by
    cases hf : p.2.asField with
    | none => rfl
    | some s =>
      have he : p.2 = E.name s := by
        unfold E.asField at hf
        split at hf
        · rename_i heq; cases hf; exact heq
        · cases hf
      exact textAt_num (h s ⟨.name s, .inl (by rw [he]; rfl), .name s, subs_self _, rfl⟩) i
  unfold groupValAt
  rw [this]
  cases p.1 <;> rfl

theorem groupValAt_text {s : String} {l : List String}
    (hl : fieldColumn (fldConsts named) get n s = some (l.map .str)) :
    (List.range n).map (fun i => groupValAt more named get n i (.groupby, E.name s)) = l.map fun t => .key (.str t) := by
  have hlen : l.length = n := by simpa using fieldColumn_length hl
  refine List.ext_getElem (by simp [hlen]) ?_
  intro i h1 h2
  have hi : i < l.length := by simpa using h2
  have : textAt named get n i s = some l[i] := by
    unfold textAt
    rw [hl]
    simp [hi]
  have h3 : (E.name s).asField.bind (textAt named get n i) = some l[i] := this
  simp only [List.getElem_map, List.getElem_range]
  unfold groupValAt
  dsimp only
  rw [h3]

theorem text_zeros {s : String} (h : TextField named get n s) :
    (List.range n).map (fun i => GVal.num (toNum (valAt more named (numGet get) n i (E.name s)))) =
      List.replicate n (.num (.fin 0)) := by
  obtain ⟨l, hl⟩ := h
  have hlen : l.length = n := by simpa using fieldColumn_length hl
  refine List.ext_getElem (by simp) ?_
  intro i h1 h2
  have hi : i < l.length := by simpa [hlen] using h2
  have h3 : fieldColumn (numConsts named) (numGet get) n s = some (l.map fun _ => some 0) := by
    rw [fieldColumn_num, hl]
    simp [Fld.toQ, Function.comp_def]
  have h4 : fieldAt named (numGet get) n i s = some 0 := by
    unfold fieldAt
    rw [h3]
    simp [hi]
  have h5 : valAt more named (numGet get) n i (E.name s) = fieldAt named (numGet get) n i s := rfl
  simp [h5, h4, toNum]

end

/-! ## C81 -/

/-- **C81** with texts: `fill` with arguments that describe `n` rows is the filling with these rows, in which an axis that
groups by a field of texts has the text of the row. -/
theorem C81_text_rows_partial {more : More} {named : String → Option (Option ℚ)}
    {get : String → Option (Given Fld)} {n : ℕ} (hm : ∀ f, (more f).isSome = true → axisFn f = none)
    (hn : 0 < n) {X : HistExprs} (hT : X.Typed more named get n) {G : HistGoals} (hG : X.goals = .ok G)
    (hd : Describes (fldConsts named) get G.all n) (hu : Unmixed G.all) {srcs : List Node} {ord : List Node → List Node}
    (ho : ∀ l, (ord l).Perm l) (hs : SourceOrder G.all srcs) {d : Dest}
    (hc : X.hist.columns (X.textRows more named get n) = .ok d) (st : X.hist.State) :
    X.fillText more named get srcs ord st = X.hist.fill st (X.textRows more named get n) := by
  have hS := hT.sound
  have hdn := describes_num hd
  obtain ⟨g1, g2, g3, g4⟩ := goals_eq hS hG
  -- the columns of the rows, with and without texts
  have hc0 := hc
  unfold HistDef.columns at hc
  have hgc := groupColumns_eq (R := X.textRowAt more named get n) (n := n)
    (val := fun i p => groupValAt more named get n i p) X.groups 0 (fun i _ => rfl)
  have hgn := groupColumns_eq (R := X.rowAt more named (numGet get) n) (n := n)
    (val := fun i p => .num (toNum (valAt more named (numGet get) n i p.2))) X.groups 0 (fun i _ => rfl)
  have hfc := fixedColumns_eq (R := X.textRowAt more named get n) (n := n)
    (val := fun i p => p.1.valOf (valAt more named (numGet get) n i p.2)) X.fixed 0 (fun i _ => rfl)
  have hfn := fixedColumns_eq (R := X.rowAt more named (numGet get) n) (n := n)
    (val := fun i p => p.1.valOf (valAt more named (numGet get) n i p.2)) X.fixed 0 (fun i _ => rfl)
  change groupColumns (X.textRows more named get n) X.hist.groups 0 = _ at hgc
  change groupColumns (X.rows more named (numGet get) n) X.hist.groups 0 = _ at hgn
  change fixedColumns (X.textRows more named get n) X.hist.fixed 0 = _ at hfc
  change fixedColumns (X.rows more named (numGet get) n) X.hist.fixed 0 = _ at hfn
  rw [hgc, hfc] at hc
  cases hgs : mapE (fun p : GroupAxis × E => (p.1.column ((List.range n).map fun i =>
      groupValAt more named get n i p)).map some) X.groups with
  | error e => rw [hgs] at hc; cases hc
  | ok gs =>
  cases hfs : mapE (fun p : FixedAxis × E => (mapE p.1.index ((List.range n).map fun i =>
      p.1.valOf (valAt more named (numGet get) n i p.2))).map some) X.fixed with
  | error e => rw [hgs, hfs] at hc; cases hc
  | ok fs =>
  rw [hgs, hfs] at hc
  have hdd := (Except.ok.inj hc).symm
  have hgz : ∃ gz, mapE (fun p : GroupAxis × E => (p.1.column ((List.range n).map fun i =>
      .num (toNum (valAt more named (numGet get) n i p.2)))).map some) X.groups = .ok gz := by
    have : ∀ p ∈ X.groups, ∃ c, (p.1.column ((List.range n).map fun i =>
        .num (toNum (valAt more named (numGet get) n i p.2)))).map some = .ok c := by
      intro p hp
      rcases hT.groups p hp with ⟨h1, s, h2, h3⟩ | h
      · rw [h1, h2, text_zeros h3]
        obtain ⟨c, hc⟩ := groupby_zeros n
        exact ⟨some c, by rw [hc]; rfl⟩
      · obtain ⟨c, hc⟩ := mapE_each hgs p hp
        refine ⟨c, ?_⟩
        rw [← hc]
        congr 2
        exact List.map_congr_left fun i _ => (groupValAt_num h.2 i).symm
    exact mapE_total this
  obtain ⟨gz, hgz⟩ := hgz
  obtain ⟨dn, hdn1, hdn2, hdn3, hdn4⟩ : ∃ dn : Dest, X.hist.columns (X.rows more named (numGet get) n) = .ok dn ∧
      dn.fixed = d.fixed ∧ dn.prof = d.prof ∧ dn.weight = d.weight := by
    unfold HistDef.columns
    rw [hgn, hfn, hgz, hfs]
    refine ⟨_, rfl, by rw [hdd], ?_, ?_⟩
    · rw [hdd]; simp [HistExprs.rows, HistExprs.textRows, HistExprs.rowAt, HistExprs.textRowAt, Function.comp_def]
    · rw [hdd]; simp [HistExprs.rows, HistExprs.textRows, HistExprs.rowAt, HistExprs.textRowAt, Function.comp_def]
  obtain ⟨r, w, hr, hdest, hw, hall⟩ := dest_rows hm hn hS hG hdn hu ho hs hdn1
  -- the goals, with and without texts
  have nums : ∀ e, ReadsNums named get n e → ∀ a, (argOf e = .ok a ∨ weightArg e = .ok a) → AllNum named get n a :=
    fun e he a ha x hx s hxs => he s ⟨a, ha, x, hx, hxs⟩
  have ngrp : ∀ p ∈ X.groups, (Computable more named (numGet get) n p.2 ∧ ReadsNums named get n p.2) →
      AllNum named get n (p.1.goal (argNode p.2)) := by
    intro p _ h
    obtain ⟨f, cs, hf⟩ := p.1.goal_form
    rw [hf]
    exact allNum_call (nums p.2 h.2 _ (.inl (argOf_computable h.1))) _ _
  have nfix : ∀ p ∈ X.fixed, AllNum named get n (p.1.goal (argNode p.2)) := by
    intro p hp
    have h := hT.fixed p hp
    obtain ⟨f, cs, hf⟩ := p.1.goal_form
    rw [hf]
    exact allNum_call (nums p.2 h.2 _ (.inl (argOf_computable h.1))) _ _
  have nprf : ∀ e ∈ X.profs, AllNum named get n (pairGoals (argNode e)).1 ∧ AllNum named get n (pairGoals (argNode e)).2 := by
    intro e he
    have h := (hT.profs e he).1
    have := nums e h.2 _ (.inl (argOf_computable h.1))
    exact ⟨this, allNum_pair this⟩
  have nwgt : ∀ p, G.weight = some p → AllNum named get n p.1 ∧ AllNum named get n p.2 := by
    intro p hp
    rw [hp] at g4
    cases hw : X.weight with
    | none => rw [hw] at g4; cases g4
    | some e =>
      rw [hw] at g4
      simp only [weightGoals] at g4
      cases ha : weightArg e with
      | error e => rw [ha] at g4; cases g4
      | ok a =>
        rw [ha] at g4
        have := (Option.some.inj (Except.ok.inj g4)).symm
        subst this
        have := nums e (hT.weight e hw).2 a (.inr ha)
        exact ⟨this, allNum_pair this⟩
  have otxt : ∀ p ∈ X.groups, (p.1 = .groupby ∧ ∃ s, p.2 = E.name s ∧ TextField named get n s) →
      ∃ c, p.1.column ((List.range n).map fun i => groupValAt more named get n i p) = .ok c ∧
        own (colLib more) (columnOf colOf (fldConsts named) get n) (p.1.goal (argNode p.2)) = .ok (.grp c) ∧
        (p.1.goal (argNode p.2)).grounded = true := by
    rintro ⟨p1, p2⟩ hp ⟨h1, s, h2, l, hl⟩
    dsimp only at h1 h2
    subst h1; subst h2
    obtain ⟨y, hy⟩ := mapE_each hgs _ hp
    dsimp only at hy ⊢
    rw [groupValAt_text hl] at hy ⊢
    cases hcol : GroupAxis.groupby.column (l.map fun t => .key (.str t)) with
    | error e => rw [hcol] at hy; cases hy
    | ok c =>
      have hlen : l.length = n := by simpa using fieldColumn_length hl
      have hne : l ≠ [] := by rintro rfl; simp at hlen; omega
      have h3 : own (colLib more) (columnOf colOf (fldConsts named) get n) (argNode (E.name s)) = .ok (.texts l) := by
        change columnOf colOf (fldConsts named) get n (.name s) = _
        simp [columnOf, T.fieldName, hl, colOf_texts hne]
      refine ⟨c, rfl, ?_, rfl⟩
      have h4 := own_axis .groupby h3 []
      have h5 : AxisFn.run .groupby [.texts l] = .ok (.grp c) := by
        simp only [AxisFn.run, hcol]; rfl
      exact h4.trans h5
  have hkind : ∀ g ∈ G.all, AllNum named get n g ∨ ∃ p ∈ X.groups,
      (p.1 = .groupby ∧ ∃ s, p.2 = E.name s ∧ TextField named get n s) ∧ g = p.1.goal (argNode p.2) := by
    intro g hg
    rcases mem_all hg with h | h | ⟨p, hp, h⟩ | ⟨p, hp, h⟩
    · rw [g1] at h
      obtain ⟨p, hp, rfl⟩ := List.mem_map.1 h
      rcases hT.groups p hp with h | h
      · exact .inr ⟨p, hp, h, rfl⟩
      · exact .inl (ngrp p hp h)
    · rw [g2] at h
      obtain ⟨p, hp, rfl⟩ := List.mem_map.1 h
      exact .inl (nfix p hp)
    · rw [g3] at hp
      obtain ⟨e, he, rfl⟩ := List.mem_map.1 hp
      rcases h with rfl | rfl
      · exact .inl (nprf e he).1
      · exact .inl (nprf e he).2
    · rcases h with rfl | rfl
      · exact .inl (nwgt p hp).1
      · exact .inl (nwgt p hp).2
  have hall' : ∀ g ∈ G.all, ∀ x ∈ g.subs, x.grounded = true →
      ∃ v, own (colLib more) (columnOf colOf (fldConsts named) get n) x = .ok v := by
    intro g hg x hx hxg
    rcases hkind g hg with h | ⟨p, hp, hpt, rfl⟩
    · rw [own_num fun y hy => h y (subs_trans g x hx y hy)]
      exact hall g hg x hx hxg
    · obtain ⟨c, -, h2, -⟩ := otxt p hp hpt
      exact own_subs _ _ h2 x hx
  obtain ⟨c1, -, -⟩ := C75_columns ho hs hu (colLib more) Col.nums (numConsts named) (numGet get) n hdn
  obtain ⟨-, hrm⟩ := c1 r n hr
  obtain ⟨c1', -, c3'⟩ := C75_columns ho hs hu (colLib more) colOf (fldConsts named) get n hd
  obtain ⟨r', hr'⟩ := c3' hall'
  obtain ⟨-, hrm'⟩ := c1' r' n hr'
  have hval' : ∀ g ∈ G.all, g.grounded = true → ∀ v,
      own (colLib more) (columnOf colOf (fldConsts named) get n) g = .ok v → destOf r' g = some v := by
    intro g hg hgr v hv
    refine destOf_ok ((hrm' g v).2 ⟨hg, hgr, hv⟩) ?_
    intro w hw
    have := ((hrm' g w).1 hw).2.2
    rw [hv] at this; exact (Except.ok.inj this).symm
  have hsame : ∀ g ∈ G.all, AllNum named get n g → destOf r' g = destOf r g := by
    intro g hg hn'
    by_cases hgr : g.grounded = true
    · obtain ⟨v, hv⟩ := hall g hg g (subs_self g) hgr
      have h1 : destOf r g = some v := by
        refine destOf_ok ((hrm g v).2 ⟨hg, hgr, hv⟩) ?_
        intro w hw
        have := ((hrm g w).1 hw).2.2
        rw [hv] at this; exact (Except.ok.inj this).symm
      rw [h1]
      exact hval' g hg hgr v (by rw [own_num hn']; exact hv)
    · rw [destOf_none (r := r) fun w hw => hgr ((hrm g w).1 hw).2.1,
        destOf_none (r := r') fun w hw => hgr ((hrm' g w).1 hw).2.1]
  -- the destinations
  obtain ⟨df, dp, dw⟩ := dest_inv hdest
  have dg' : mapE (fun g => grpOf (destOf r' g)) G.groups = .ok gs := by
    rw [g1, mapE_map, ← hgs]
    refine mapE_congr fun p hp => ?_
    have hmem : p.1.goal (argNode p.2) ∈ G.all := mem_all_group (by rw [g1]; exact List.mem_map.2 ⟨p, hp, rfl⟩)
    rcases hT.groups p hp with h | h
    · obtain ⟨c, h1, h2, h3⟩ := otxt p hp h
      rw [hval' _ hmem h3 _ h2, h1]; rfl
    · have hA := ngrp p hp h
      obtain ⟨a2, a3, a5⟩ := argNode_ok hm hn hdn h.1
      obtain ⟨f, cs, hf⟩ := p.1.goal_form
      have h4 := own_group (a5 ⟨_, hmem, by rw [hf]; exact subs_call_arg _ _⟩) p.1
      have h6 : ((List.range n).map fun i => groupValAt more named get n i p) =
          ((List.range n).map fun i => valAt more named (numGet get) n i p.2).map fun v => .num (toNum v) := by
        rw [List.map_map]
        exact List.map_congr_left fun i _ => groupValAt_num h.2 i
      obtain ⟨y, hy⟩ := mapE_each hgs p hp
      rw [h6] at hy ⊢
      cases hcol : p.1.column (((List.range n).map fun i => valAt more named (numGet get) n i p.2).map
          fun v => .num (toNum v)) with
      | error e => rw [hcol] at hy; cases hy
      | ok c =>
        rw [hcol] at h4
        rw [hval' _ hmem (by rw [hf]; exact goal_grounded a2 a3 _ _) _ (by rw [own_num hA]; exact h4)]
        rfl
  have df' : mapE (fun g => idxOf (destOf r' g)) G.fixed = .ok dn.fixed := by
    rw [← df]
    refine mapE_congr fun g hg => ?_
    rw [hsame g (mem_all_fixed hg) (by
      rw [g2] at hg
      obtain ⟨p, hp, rfl⟩ := List.mem_map.1 hg
      exact nfix p hp)]
  have dp' : mapE (profsOf r') G.profs = .ok dn.prof := by
    rw [← dp]
    refine mapE_congr fun p hp => ?_
    have hm1 := mem_all_prof hp
    rw [g3] at hp
    obtain ⟨e, he, rfl⟩ := List.mem_map.1 hp
    unfold profsOf
    rw [hsame _ hm1.1 (nprf e he).1, hsame _ hm1.2 (nprf e he).2]
  have dw' : weightOf r' G.weight = .ok w := by
    rw [← dw]
    cases hw : G.weight with
    | none => rfl
    | some p =>
      have hm1 := mem_all_weight hw
      simp only [weightOf]
      rw [hsame _ hm1.1 (nwgt p hw).1, hsame _ hm1.2 (nwgt p hw).2]
  have hdest' : G.dest r' = .ok ⟨gs, dn.fixed, dn.prof, w⟩ := by
    unfold HistGoals.dest
    rw [dg']
    change (mapE (fun g => idxOf (destOf r' g)) G.fixed >>= _) = _
    rw [df']
    change (mapE (profsOf r') G.profs >>= _) = _
    rw [dp']
    change (weightOf r' G.weight >>= _) = _
    rw [dw']; rfl
  have hcomp : X.computeText more named get srcs ord = .ok (⟨gs, dn.fixed, dn.prof, w⟩, n) := by
    unfold HistExprs.computeText
    rw [hG]
    change (fillFields (colLib more) colOf (fldConsts named) get G.all srcs ord >>= _) = _
    rw [hr']
    change (G.dest r' >>= _) = _
    rw [hdest']; rfl
  have hlen : (X.textRows more named get n).length = n := by simp [HistExprs.textRows]
  unfold HistExprs.fillText HistDef.fill
  rw [hcomp, hc0, hlen]
  dsimp only
  rw [postfill_weight (d := ⟨gs, dn.fixed, dn.prof, w⟩) (d' := d) (by rw [hdd]) hdn2 hdn3 (by
    rcases hw with h | h
    · exact .inl (h.trans hdn4)
    · exact .inr h)]
  cases postfill X.hist.layout n d (prefill X.hist.layout st) with
  | error p => cases p; rfl
  | ok c => rfl

/-- **C81** with texts, for the content: each bin of each group grows by the sum over the rows whose text names the group
and whose values lie in the bin, and there is a group for each text (and each combination with the other group axes) that
was there or is in the rows. -/
theorem C81_text_content_partial {more : More} {named : String → Option (Option ℚ)}
    {get : String → Option (Given Fld)} {n : ℕ} (hm : ∀ f, (more f).isSome = true → axisFn f = none)
    (hn : 0 < n) {X : HistExprs} (hT : X.Typed more named get n) {G : HistGoals} (hG : X.goals = .ok G)
    (hd : Describes (fldConsts named) get G.all n) (hu : Unmixed G.all) {srcs : List Node} {ord : List Node → List Node}
    (ho : ∀ l, (ord l).Perm l) (hs : SourceOrder G.all srcs) (hf : Fillable X.hist [X.textRows more named get n])
    (st : X.hist.State) (hst : X.hist.Good st) :
    ∃ st', X.fillText more named get srcs ord st = .ok st' ∧ X.hist.Good st' ∧
      (∀ gk, gk.length ≤ X.hist.groups.length → (X.hist.has st' gk ↔ X.hist.has st gk ∨
        ∀ (i : ℕ) (k : Key), gk[i]? = some k → seenOn X.hist (X.textRows more named get n) i k)) ∧
      ∀ gk, gk.length = X.hist.groups.length → ∀ idx, X.hist.Cell idx → ∀ col,
        X.hist.read st' gk idx col = X.hist.read st gk idx col +
          binTotal X.hist (X.textRows more named get n) gk idx col := by
  obtain ⟨st', h1, h2, h5, h3⟩ := fillAll_rows X.hist [X.textRows more named get n] st hst hf
  have h4 : X.hist.fill st (X.textRows more named get n) = .ok st' := by
    simp only [HistDef.fillAll] at h1
    split at h1
    · cases h1
    · rename_i s hs'; rw [hs']; exact h1
  have hc : ∃ d, X.hist.columns (X.textRows more named get n) = .ok d := by
    unfold HistDef.fill at h4
    cases hc : X.hist.columns (X.textRows more named get n) with
    | error e => rw [hc] at h4; cases h4
    | ok d => exact ⟨d, rfl⟩
  obtain ⟨d, hc⟩ := hc
  refine ⟨st', ?_, h2, by simpa using h5, by simpa using h3⟩
  rw [C81_text_rows_partial hm hn hT hG hd hu ho hs hc st]
  exact h4

/-! ### An example -/

/-- `fill(c=["up", "down", "up"], x=[1, 1/2, 3/2])`. -/
def textGet (s : String) : Option (Given Fld) :=
  if s = "c" then some (.array [.str "up", .str "down", .str "up"])
  else if s = "x" then some (.array [.num (some 1), .num (some (1/2)), .num (some (3/2))]) else none

/-- `Hist(groupby("c"), bin("x", 2, 0, 2))`. -/
def textHist : HistExprs where
  groups := [(.groupby, goalsExpr (.name "c"))]
  fixed := [(.bin ⟨2, 0, 2, true, true, true, true⟩, goalsExpr (.name "x"))]
  profs := []
  weight := none

/-- The goals of the example. -/
def textDemo : HistGoals :=
  match textHist.goals with
  | .ok G => G
  | .error _ => ⟨[], [], [], none⟩

/-- The hypotheses of `C81_text_content_partial` hold for the example. -/
example : textHist.Typed treeMore (fun _ => none) textGet 3 ∧ textHist.goals = .ok textDemo ∧
    SourceOrder textDemo.all [.name "c", .name "x"] ∧ Unmixed textDemo.all ∧
    Describes (fldConsts fun _ => none) textGet textDemo.all 3 ∧
    Fillable textHist.hist [textHist.textRows treeMore (fun _ => none) textGet 3] := by
  have ec : goalsExpr (.name "c") = E.name "c" := by decide +kernel
  have ex : goalsExpr (.name "x") = E.name "x" := by decide +kernel
  have hrows : textHist.textRows treeMore (fun _ => none) textGet 3 =
      [⟨[.key (.str "up")], [.num (.fin 1)], [], none⟩, ⟨[.key (.str "down")], [.num (.fin (1/2))], [], none⟩,
        ⟨[.key (.str "up")], [.num (.fin (3/2))], [], none⟩] := by decide +kernel
  refine ⟨⟨?_, ?_, ?_, ?_⟩, by decide +kernel, ?_, ?_, ?_, ?_⟩
  · intro p hp
    simp only [textHist, List.mem_singleton] at hp
    subst hp
    exact .inl ⟨rfl, "c", ec, ["up", "down", "up"], by decide +kernel⟩
  · intro p hp
    simp only [textHist, List.mem_singleton] at hp
    subst hp
    rw [ex]
    refine ⟨.inl field_varies, ?_⟩
    rintro s ⟨a, ha, x, hx, hxs⟩
    have : a = .name "x" := by
      rcases ha with ha | ha <;> exact (Except.ok.inj ha).symm
    subst this
    simp only [T.subs, List.mem_singleton] at hx
    subst hx
    cases hxs
    exact ⟨[some 1, some (1/2), some (3/2)], by decide +kernel⟩
  · intro e he; simp [textHist] at he
  · intro e he; simp [textHist] at he
  · exact sourceOrder_of (by decide +kernel) (by decide +kernel)
  · have : ∀ t ∈ textDemo.all, ∀ y ∈ t.subs, y.isBroadcast = false := by decide +kernel
    exact fun _ _ _ _ t' ht' y hy _ => this t' ht' y hy
  · exact describes_of (by decide +kernel) (.inl (by decide +kernel))
  · refine ⟨?_, .inl rfl⟩
    intro b hb r hr
    simp only [List.mem_singleton] at hb; subst hb
    rw [hrows] at hr
    simp only [List.mem_cons, List.not_mem_nil, or_false] at hr
    rcases hr with rfl | rfl | rfl <;>
      exact ⟨.cons ⟨_, rfl⟩ .nil, .cons (exH_handles _ (by norm_num)) .nil, rfl⟩

/-- The content of a bin of a group after filling a new histogram. -/
def HistExprs.groupBinAfter (X : HistExprs) (get : String → Option (Given Fld)) (srcs : List Node)
    (gk : List Key) (idx : List ℕ) (col : ℕ) : Except Err ℚ :=
  match X.fillText treeMore (fun _ => none) get srcs id none with
  | .ok st => .ok (X.hist.read st gk idx col)
  | .error e => .error e.1

example : [1, 2].map (fun i => textHist.groupBinAfter textGet [.name "c", .name "x"] [.str "up"] [i] 0) = [.ok 0, .ok 2] ∧
    [1, 2].map (fun i => textHist.groupBinAfter textGet [.name "c", .name "x"] [.str "down"] [i] 0) = [.ok 1, .ok 0] := by
  decide +kernel

/-- One text for all rows: `fill(c="up", x=[…])` (fill.py 112-121). -/
example :
    let get := fun s => if s = "c" then some (Given.scalar (Fld.str "up")) else textGet s
    [1, 2].map (fun i => textHist.groupBinAfter get [.name "c", .name "x"] [.str "up"] [i] 0) = [.ok 1, .ok 2] := by
  decide +kernel

end Verif
