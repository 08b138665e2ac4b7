import Verif.Params
import Verif.PropsInstr

/-!
# C75: the arguments of `fill`

Property theorems.
-/

namespace Verif

variable {α V : Type}

/-! ## Specification -/

/-- The requested quantities use the field. -/
def Uses (goals : List Node) (s : String) : Prop := ∃ t ∈ goals, ∃ x ∈ t.subs, x.fieldName = some s

/-- The values of a field on `n` rows: a number counts for every row, `pi` and the like are used if nothing is
given, an array has one value for each row. -/
def fieldColumn (c : Consts α) (get : String → Option (Given α)) (n : ℕ) (s : String) : Option (List α) :=
  match get s with
  | some (.scalar v) => some (List.replicate n v)
  | some (.array l) => if l.length = n then some l else none
  | none => (c.named s).map (List.replicate n)

/-- The arguments describe `n` rows for all fields that are used; if there is no array at all, this is one
row. -/
def Describes (c : Consts α) (get : String → Option (Given α)) (goals : List Node) (n : ℕ) : Prop :=
  (∀ s, Uses goals s → (fieldColumn c get n s).isSome = true) ∧
  ((∃ s l, Uses goals s ∧ get s = some (.array l)) ∨ n = 1)

/-- Fields and constants as columns of values. -/
def columnOf (inj : List α → V) (c : Consts α) (get : String → Option (Given α)) (n : ℕ) (x : Node) : Except Err V :=
  match x with
  | .bconst _ v => .ok (inj (List.replicate n (c.value v)))
  | x =>
    match x.fieldName.bind (fieldColumn c get n) with
    | some l => .ok (inj l)
    | none => .error .valueError

/-- Fields and constants are not mixed (see `C80_constant_axis`). -/
def Unmixed (goals : List Node) : Prop :=
  ∀ t ∈ goals, ∀ x ∈ t.subs, ∀ t' ∈ goals, ∀ y ∈ t'.subs, x.fieldName.isSome = true → y.isBroadcast = false

/-- Every function in the quantities is in the library and never raises. -/
def NeverRaises (lib : Lib V) (goals : List Node) : Prop :=
  ∀ t ∈ goals, ∀ f args, T.call f args ∈ t.subs → ∃ g, lib.fn f = some g ∧ ∀ vs, ∃ v, g vs = .ok v

/-! ## Helpers -/

theorem emit_params (g : Graph) (goals : List Node) : ∀ (rest : List Node) (i : ℕ) (names : List (Node × ℕ))
    (live : List (ℕ × Node)) (is : List Ins), (∀ x ∈ rest, varOf names x = none) → rest.Nodup →
    emit g goals i names live rest = .ok is →
    ∀ e, (∃ k, Ins.param k e ∈ is) ↔ e ∈ rest ∧ e.isSource = true
  | [], i, names, live, is, _, _, h, e => by
    have := (Except.ok.inj h).symm; subst this; simp
  | n :: rest, i, names, live, is, hv, hd, h, e => by
    have hd' : n ∉ rest ∧ rest.Nodup := by simpa using hd
    simp only [emit] at h
    cases hh : headIns names i n with
    | error e => rw [hh] at h; cases h
    | ok head =>
      rw [hh] at h
      change (emit g goals (i + 1) _ _ rest >>= _) = _ at h
      cases ht : emit g goals (i + 1) (names ++ [(n, i)])
          ((live ++ [(i, n)]).filter fun p => neededBy g p.2 rest) rest with
      | error e => rw [ht] at h; cases h
      | ok tail =>
        rw [ht] at h
        have := (Except.ok.inj h).symm; subst this
        have hv' : ∀ x ∈ rest, varOf (names ++ [(n, i)]) x = none := by
          intro x hx
          have h1 := hv x (by simp [hx])
          unfold varOf at h1 ⊢
          rw [Option.map_eq_none_iff, List.find?_eq_none] at h1 ⊢
          intro p hp
          rcases List.mem_append.1 hp with h2 | h2
          · exact h1 p h2
          · have : p = (n, i) := by simpa using h2
            subst this
            have : n ≠ x := by rintro rfl; exact hd'.1 hx
            simpa using this
        have ih := emit_params g goals rest (i + 1) _ _ tail hv' hd'.2 ht e
        have hhead : (∃ k, Ins.param k e = head) ↔ e = n ∧ e.isSource = true := by
          cases n with
          | const v => cases hh
          | bconst m v => cases hh; simp; rintro rfl; rfl
          | name m => cases hh; simp; rintro rfl; rfl
          | pred m b => cases hh; simp; rintro rfl; rfl
          | call f args =>
            simp only [headIns, T.rename, hv _ (List.mem_cons_self ..)] at hh
            cases hr : T.renameL names args with
            | error e => rw [hr] at hh; cases hh
            | ok xs =>
              rw [hr] at hh; cases hh; simp
              rintro rfl; rfl
        simp only [List.mem_append, List.mem_cons, List.cons_append, List.mem_map, reduceCtorEq, and_false,
          exists_false, or_false]
        have hex : ∀ k, Ins.param k e ∉ (if n ∈ goals then [Ins.export i n] else []) := by
          intro k; split_ifs <;> simp
        constructor
        · rintro ⟨k, (h1 | h1 | h1)⟩
          · obtain ⟨h2, h3⟩ := hhead.1 ⟨k, h1⟩; exact ⟨.inl h2, h3⟩
          · exact absurd h1 (hex k)
          · obtain ⟨h2, h3⟩ := ih.1 ⟨k, h1⟩; exact ⟨.inr h2, h3⟩
        · rintro ⟨h1 | h1, h2⟩
          · obtain ⟨k, hk⟩ := hhead.2 ⟨h1, h2⟩; exact ⟨k, .inl hk⟩
          · obtain ⟨k, hk⟩ := ih.2 ⟨h1, h2⟩; exact ⟨k, .inr (.inr hk)⟩

/-- The parameters of the instructions are the fields and constants of the requested quantities. -/
theorem compile_params {goals srcs : List Node} {ord : List Node → List Node} (ho : ∀ l, (ord l).Perm l)
    (hs : SourceOrder goals srcs) {is : List Ins} (h : compile goals srcs ord = .ok is) (e : Node) :
    (∃ k, Ins.param k e ∈ is) ↔ (∃ t ∈ goals, e ∈ t.subs) ∧ e.isSource = true := by
  obtain ⟨h1, -⟩ := walk_complete goals srcs ord ho hs
  rw [emit_params (growAll goals) goals _ 0 [] [] is (fun _ _ => rfl) h1 h e, walk_iff ho hs]
  constructor
  · rintro ⟨⟨a, _⟩, b⟩; exact ⟨a, b⟩
  · rintro ⟨a, b⟩; exact ⟨⟨a, source_grounded b⟩, b⟩

theorem fieldName_source {x : Node} {s : String} (h : x.fieldName = some s) : x.isSource = true := by
  cases x <;> simp_all [T.fieldName, T.isSource]

theorem source_cases {x : Node} (h : x.isSource = true) : (∃ s, x.fieldName = some s) ∨ x.isBroadcast = true := by
  cases x <;> simp_all [T.fieldName, T.isSource, T.isBroadcast]

mutual
theorem own_congr {lib : Lib V} {ext ext' : Node → Except Err V} : ∀ (t : Node),
    (∀ x ∈ t.subs, x.isSource = true → ext x = ext' x) → own lib ext t = own lib ext' t
  | .const v, _ => rfl
  | .bconst m v, h => h _ (subs_self _) rfl
  | .name s, h => h _ (subs_self _) rfl
  | .pred s b, h => h _ (subs_self _) rfl
  | .call f args, h => by
    have := ownL_congr (lib := lib) args (fun a ha x hx => h x (by
      simp only [T.subs, List.mem_cons]; exact .inr (subsL_iff.2 ⟨a, ha, hx⟩)))
    simp only [own, this]
theorem ownL_congr {lib : Lib V} {ext ext' : Node → Except Err V} : ∀ (l : List Node),
    (∀ a ∈ l, ∀ x ∈ a.subs, x.isSource = true → ext x = ext' x) → ownL lib ext l = ownL lib ext' l
  | [], _ => rfl
  | a :: as, h => by
    simp only [ownL, own_congr a (h a (by simp)), ownL_congr as (fun b hb => h b (by simp [hb]))]
end

mutual
theorem own_raises {lib : Lib V} {ext : Node → Except Err V} {e : Err} : ∀ (t : Node),
    (∀ f args, T.call f args ∈ t.subs → ∃ g, lib.fn f = some g ∧ ∀ vs, ∃ v, g vs = .ok v) →
    own lib ext t = .error e → ∃ x ∈ t.subs, x.isSource = true ∧ ext x = .error e
  | .const v, _, he => by cases he
  | .bconst m v, _, he => ⟨_, subs_self _, rfl, he⟩
  | .name s, _, he => ⟨_, subs_self _, rfl, he⟩
  | .pred s b, _, he => ⟨_, subs_self _, rfl, he⟩
  | .call f args, h, he => by
    obtain ⟨g, hg, hgv⟩ := h f args (subs_self _)
    simp only [own, hg] at he
    cases hr : ownL lib ext args with
    | error e' =>
      rw [hr] at he
      have : e' = e := by cases he; rfl
      subst this
      obtain ⟨x, hx, h1⟩ := ownL_raises args (fun a ha f' args' hf => h f' args' (by
        simp only [T.subs, List.mem_cons]; exact .inr (subsL_iff.2 ⟨a, ha, hf⟩))) hr
      exact ⟨x, by simp [T.subs, hx], h1⟩
    | ok vs =>
      rw [hr] at he
      obtain ⟨v, hv⟩ := hgv vs
      change g vs = _ at he
      rw [hv] at he; cases he
theorem ownL_raises {lib : Lib V} {ext : Node → Except Err V} {e : Err} : ∀ (l : List Node),
    (∀ a ∈ l, ∀ f args, T.call f args ∈ a.subs → ∃ g, lib.fn f = some g ∧ ∀ vs, ∃ v, g vs = .ok v) →
    ownL lib ext l = .error e → ∃ x ∈ T.subsL l, x.isSource = true ∧ ext x = .error e
  | [], _, he => by cases he
  | a :: as, h, he => by
    simp only [ownL] at he
    cases ha : own lib ext a with
    | error e' =>
      rw [ha] at he
      have : e' = e := by cases he; rfl
      subst this
      obtain ⟨x, hx, h1⟩ := own_raises a (h a (by simp)) ha
      exact ⟨x, by simp [T.subsL, hx], h1⟩
    | ok v =>
      rw [ha] at he
      cases hr : ownL lib ext as with
      | error e' =>
        rw [hr] at he
        have : e' = e := by cases he; rfl
        subst this
        obtain ⟨x, hx, h1⟩ := ownL_raises as (fun b hb => h b (by simp [hb])) hr
        exact ⟨x, by simp [T.subsL, hx], h1⟩
      | ok vs => rw [hr] at he; cases he
end

/-- The array of a parameter is the column of the specification. -/
theorem paramArray_column (inj : List α → V) (c : Consts α) (get : String → Option (Given α)) (n : ℕ) {x : Node}
    (h : x.isSource = true) : (paramArray c get n x).map inj = columnOf inj c get n x := by
  have key : ∀ s, (paramArray.fieldArray c get n s).map inj =
      (match fieldColumn c get n s with | some l => .ok (inj l) | none => .error .valueError) := by
    intro s
    unfold paramArray.fieldArray fieldColumn
    cases get s with
    | none => cases c.named s <;> rfl
    | some v =>
      cases v with
      | scalar v => rfl
      | array l =>
        by_cases hl : l.length = n
        · simp [hl, Except.map]
        · have : n ≠ l.length := fun h => hl h.symm
          simp [hl, this, Except.map]
  cases x with
  | const v => simp [T.isSource] at h
  | call f args => simp [T.isSource] at h
  | bconst m v => rfl
  | name s => exact key s
  | pred s b => exact key s

theorem firstLength_ok {c : Consts α} {get : String → Option (Given α)} {n : ℕ} : ∀ (is : List Ins),
    (∀ k e s, Ins.param k e ∈ is → e.fieldName = some s → (fieldColumn c get n s).isSome = true) →
    firstLength c get is = .ok (some n) ∨ (firstLength c get is = .ok none ∧
      ∀ k e s l, Ins.param k e ∈ is → e.fieldName = some s → get s ≠ some (.array l))
  | [], _ => .inr ⟨rfl, by simp⟩
  | .assign m t :: is, h => by
    rcases firstLength_ok is (fun k e s hk hf => h k e s (by simp [hk]) hf) with h1 | ⟨h1, h2⟩
    · exact .inl h1
    · exact .inr ⟨h1, fun k e s l hk => h2 k e s l (by simpa using hk)⟩
  | .export m t :: is, h => by
    rcases firstLength_ok is (fun k e s hk hf => h k e s (by simp [hk]) hf) with h1 | ⟨h1, h2⟩
    · exact .inl h1
    · exact .inr ⟨h1, fun k e s l hk => h2 k e s l (by simpa using hk)⟩
  | .delete m :: is, h => by
    rcases firstLength_ok is (fun k e s hk hf => h k e s (by simp [hk]) hf) with h1 | ⟨h1, h2⟩
    · exact .inl h1
    · exact .inr ⟨h1, fun k e s l hk => h2 k e s l (by simpa using hk)⟩
  | .param m t :: is, h => by
    have ih := firstLength_ok is (fun k e s hk hf => h k e s (by simp [hk]) hf)
    simp only [firstLength]
    cases hf : t.fieldName with
    | none =>
      simp only
      rcases ih with h1 | ⟨h1, h2⟩
      · exact .inl h1
      · refine .inr ⟨h1, fun k e s l hk hs => ?_⟩
        rcases List.mem_cons.1 hk with h3 | h3
        · cases h3; rw [hf] at hs; cases hs
        · exact h2 k e s l h3 hs
    | some s =>
      have hc := h m t s (by simp) hf
      simp only
      unfold fieldColumn at hc
      cases hg : get s with
      | none =>
        rw [hg] at hc
        have hn : (c.named s).isSome = true := by simpa using hc
        simp only [hn, if_true]
        rcases ih with h1 | ⟨h1, h2⟩
        · exact .inl h1
        · refine .inr ⟨h1, fun k e s' l hk hs => ?_⟩
          rcases List.mem_cons.1 hk with h3 | h3
          · cases h3; rw [hf] at hs; cases hs; rw [hg]; simp
          · exact h2 k e s' l h3 hs
      | some v =>
        cases v with
        | scalar v =>
          simp only
          rcases ih with h1 | ⟨h1, h2⟩
          · exact .inl h1
          · refine .inr ⟨h1, fun k e s' l hk hs => ?_⟩
            rcases List.mem_cons.1 hk with h3 | h3
            · cases h3; rw [hf] at hs; cases hs; rw [hg]; simp
            · exact h2 k e s' l h3 hs
        | array l =>
          rw [hg] at hc
          have : l.length = n := by
            by_contra hne
            simp [hne] at hc
          exact .inl (by simp [this])

theorem firstLength_err {c : Consts α} {get : String → Option (Given α)} {e : Err} : ∀ (is : List Ins),
    firstLength c get is = .error e → e = .valueError
  | [], h => by cases h
  | .assign m t :: is, h => firstLength_err is h
  | .export m t :: is, h => firstLength_err is h
  | .delete m :: is, h => firstLength_err is h
  | .param m t :: is, h => by
    simp only [firstLength] at h
    split at h
    · exact firstLength_err is h
    · split at h
      · split_ifs at h
        · exact firstLength_err is h
        · cases h; rfl
      · exact firstLength_err is h
      · cases h

mutual
theorem sources_subs : ∀ (t s : Node), s ∈ t.sources → s ∈ t.subs ∧ s.isSource = true
  | .const _, s, h => by simp [T.sources] at h
  | .bconst m v, s, h => by
    have : s = .bconst m v := by simpa [T.sources] using h
    subst this; exact ⟨subs_self _, rfl⟩
  | .name n, s, h => by
    have : s = .name n := by simpa [T.sources] using h
    subst this; exact ⟨subs_self _, rfl⟩
  | .pred n b, s, h => by
    have : s = .pred n b := by simpa [T.sources] using h
    subst this; exact ⟨subs_self _, rfl⟩
  | .call f args, s, h => by
    obtain ⟨h1, h2⟩ := sourcesL_subs args s (by simpa [T.sources] using h)
    exact ⟨by simp [T.subs, h1], h2⟩
theorem sourcesL_subs : ∀ (l : List Node) (s : Node), s ∈ T.sourcesL l → s ∈ T.subsL l ∧ s.isSource = true
  | [], s, h => by simp [T.sourcesL] at h
  | a :: as, s, h => by
    simp only [T.sourcesL, List.mem_append] at h
    rcases h with h | h
    · split_ifs at h with hc
      · simp at h
      · obtain ⟨h1, h2⟩ := sources_subs a s h
        exact ⟨by simp [T.subsL, h1], h2⟩
    · obtain ⟨h1, h2⟩ := sourcesL_subs as s h
      exact ⟨by simp [T.subsL, h1], h2⟩
end

theorem unmixed_sorted {goals srcs : List Node} (hs : SourceOrder goals srcs) (hu : Unmixed goals) :
    ∃ l, sortedFields srcs = .ok l := by
  have hsub : ∀ s ∈ srcs, ∃ t ∈ goals, s ∈ t.subs ∧ s.isSource = true := by
    intro s h
    obtain ⟨t, ht, hst⟩ := (hs s).1 h
    exact ⟨t, ht, (sources_subs t s hst)⟩
  refine ⟨srcs.map T.fieldVal, ?_⟩
  unfold sortedFields
  rw [if_neg]
  simp only [Bool.and_eq_true, List.any_eq_true, not_and, not_exists]
  rintro ⟨x, hx, hxs⟩ y hy hyn
  obtain ⟨t, ht, h1, _⟩ := hsub x hx
  obtain ⟨t', ht', h2, h3⟩ := hsub y hy
  have := hu t ht x h1 t' ht' y h2 hxs
  rcases source_cases h3 with ⟨s, h4⟩ | h4
  · rw [h4] at hyn; cases hyn
  · rw [this] at h4; cases h4


/-- `fill` up to the execution of the instructions. -/
theorem fillFields_eq {lib : Lib V} {inj : List α → V} {c : Consts α} {get : String → Option (Given α)}
    {goals srcs : List Node} {ord : List Node → List Node} {is : List Ins} {l : List FieldVal}
    (h1 : compile goals srcs ord = .ok is) (h2 : sortedFields srcs = .ok l) :
    fillFields lib inj c get goals srcs ord = computeAll lib inj c get is := by
  unfold fillFields
  rw [h1]
  change (sortedFields srcs >>= _) = _
  rw [h2]; rfl

mutual
theorem subs_trans : ∀ (t y : Node), y ∈ t.subs → ∀ x ∈ y.subs, x ∈ t.subs
  | .const v, y, hy, x, hx => by simp [T.subs] at hy; subst hy; exact hx
  | .bconst m v, y, hy, x, hx => by simp [T.subs] at hy; subst hy; exact hx
  | .name n, y, hy, x, hx => by simp [T.subs] at hy; subst hy; exact hx
  | .pred n b, y, hy, x, hx => by simp [T.subs] at hy; subst hy; exact hx
  | .call f args, y, hy, x, hx => by
    simp only [T.subs, List.mem_cons] at hy
    rcases hy with rfl | hy
    · exact hx
    · simp only [T.subs, List.mem_cons]; exact .inr (subsL_trans args y hy x hx)
theorem subsL_trans : ∀ (l : List Node) (y : Node), y ∈ T.subsL l → ∀ x ∈ y.subs, x ∈ T.subsL l
  | [], y, hy, x, hx => by simp [T.subsL] at hy
  | a :: as, y, hy, x, hx => by
    simp only [T.subsL, List.mem_append] at hy ⊢
    rcases hy with hy | hy
    · exact .inl (subs_trans a y hy x hx)
    · exact .inr (subsL_trans as y hy x hx)
end

/-! ## C75: where the values of a field come from -/

/-- **C75**: a keyword argument takes precedence over the same field in the dict, which is used for all other
fields. -/
theorem C75_keyword_first (d : String → Option (Given α)) (more : List (String × Given α)) (s : String) :
    FillArgs.get ⟨some d, more⟩ s = (kwGet more s).or (d s) ∧ FillArgs.get ⟨none, more⟩ s = kwGet more s := by
  refine ⟨?_, rfl⟩
  simp only [FillArgs.get]
  split_ifs with h
  · have : more = [] := List.length_eq_zero_iff.1 h
    subst this; rfl
  · unfold chained
    split_ifs with ha
    · have : ∃ v, kwGet more s = some v := by
        unfold kwGet
        cases hf : more.find? (fun p => decide (p.1 = s)) with
        | none =>
          obtain ⟨p, hp, hps⟩ := List.any_eq_true.1 ha
          exact absurd hps (by simpa using List.find?_eq_none.1 hf p hp)
        | some p => exact ⟨p.2, rfl⟩
      obtain ⟨v, hv⟩ := this
      rw [hv]; rfl
    · have : kwGet more s = none := by
        unfold kwGet
        rw [Option.map_eq_none_iff, List.find?_eq_none]
        intro p hp hps
        exact ha (List.any_eq_true.2 ⟨p, hp, hps⟩)
      rw [this]; rfl

/-- **C75**: if the arguments describe `n` rows, then `fill` computes the requested quantities on these `n` rows:
each from the columns of its fields, in which a number counts for every row and `pi` and the like are only used
for fields that are not given. -/
theorem C75_columns {goals srcs : List Node} {ord : List Node → List Node} (ho : ∀ l, (ord l).Perm l)
    (hs : SourceOrder goals srcs) (hu : Unmixed goals) (lib : Lib V) (inj : List α → V) (c : Consts α)
    (get : String → Option (Given α)) (n : ℕ) (hd : Describes c get goals n) :
    (∀ r m, fillFields lib inj c get goals srcs ord = .ok (r, m) → m = n ∧
      ∀ t v, (t, v) ∈ r ↔ t ∈ goals ∧ t.grounded = true ∧ own lib (columnOf inj c get n) t = .ok v) ∧
    (∀ e, fillFields lib inj c get goals srcs ord = .error e →
      ∃ t ∈ goals, ∃ x ∈ t.subs, x.grounded = true ∧ own lib (columnOf inj c get n) x = .error e) ∧
    ((∀ t ∈ goals, ∀ x ∈ t.subs, x.grounded = true → ∃ v, own lib (columnOf inj c get n) x = .ok v) →
      ∃ r, fillFields lib inj c get goals srcs ord = .ok (r, n)) := by
  obtain ⟨l, hl⟩ := unmixed_sorted hs hu
  obtain ⟨is, h1, h2⟩ := C53_one_pass goals srcs ord ho hs
  rw [fillFields_eq h1 hl]
  have hlen : ∃ m, firstLength c get is = .ok m ∧ m.getD 1 = n := by
    rcases firstLength_ok (n := n) is (fun k e s hk hf => by
      obtain ⟨⟨t, ht, he⟩, _⟩ := (compile_params ho hs h1 e).1 ⟨k, hk⟩
      exact hd.1 s ⟨t, ht, e, he, hf⟩) with h | ⟨h, h3⟩
    · exact ⟨_, h, rfl⟩
    · refine ⟨_, h, ?_⟩
      rcases hd.2 with ⟨s, a, ⟨t, ht, x, hx, hxs⟩, ha⟩ | h4
      · obtain ⟨k, hk⟩ := (compile_params ho hs h1 x).2 ⟨⟨t, ht, hx⟩, fieldName_source hxs⟩
        exact absurd ha (h3 k x s a hk hxs)
      · exact h4.symm
  obtain ⟨m, hm, hmn⟩ := hlen
  obtain ⟨a1, a2, a3⟩ := h2 V lib (fun e => (paramArray c get n e).map inj)
  have hown : ∀ t, own lib (fun e => (paramArray c get n e).map inj) t = own lib (columnOf inj c get n) t :=
    fun t => own_congr t (fun x _ hx => paramArray_column inj c get n hx)
  have hcomp : computeAll lib inj c get is =
      (exec lib (fun e => (paramArray c get n e).map inj) [] is).map fun r => (r.1, n) := by
    unfold computeAll
    rw [hm, ← hmn]
    change (exec lib _ [] is >>= _) = _
    cases exec lib (fun e => (paramArray c get (m.getD 1) e).map inj) [] is <;> rfl
  rw [hcomp]
  refine ⟨?_, ?_, ?_⟩
  · intro r m' h
    cases hx : exec lib (fun e => (paramArray c get n e).map inj) [] is with
    | error e => rw [hx] at h; cases h
    | ok q =>
      rw [hx] at h
      obtain ⟨rfl, rfl⟩ := Prod.mk.inj (Except.ok.inj h)
      obtain ⟨-, -, b⟩ := a1 q.1 q.2 hx
      refine ⟨rfl, fun t v => ?_⟩
      rw [b, hown]
  · intro e h
    cases hx : exec lib (fun e => (paramArray c get n e).map inj) [] is with
    | error e' =>
      rw [hx] at h; cases h
      obtain ⟨t, ht, x, hxs, hxg, he⟩ := a2 e hx
      exact ⟨t, ht, x, hxs, hxg, by rw [← hown]; exact he⟩
    | ok q => rw [hx] at h; cases h
  · intro h
    obtain ⟨r, hr⟩ := a3 (fun t ht x hx hxg => by rw [hown]; exact h t ht x hx hxg)
    exact ⟨r, by rw [hr]; rfl⟩

/-- What is wrong with the arguments. -/
inductive BadArgs (c : Consts α) (get : String → Option (Given α)) (goals : List Node) : Prop
  | missing (s : String) (hu : Uses goals s) (hg : get s = none) (hc : c.named s = none)
  | lengths (s s' : String) (hu : Uses goals s) (hu' : Uses goals s') (l l' : List α)
      (hl : get s = some (.array l)) (hl' : get s' = some (.array l')) (hne : l.length ≠ l'.length)

theorem bad_column {c : Consts α} {get : String → Option (Given α)} {goals : List Node} (hb : BadArgs c get goals)
    (n : ℕ) : ∃ s, Uses goals s ∧ fieldColumn c get n s = none := by
  cases hb with
  | missing s hu hg hc => exact ⟨s, hu, by simp [fieldColumn, hg, hc]⟩
  | lengths s s' hu hu' l l' hl hl' hne =>
    by_cases h : l.length = n
    · refine ⟨s', hu', ?_⟩
      have : ¬ l'.length = n := fun h' => hne (h.trans h'.symm)
      simp [fieldColumn, hl', this]
    · exact ⟨s, hu, by simp [fieldColumn, hl, h]⟩

/-- **C75**: if a field that is used is given neither in the dict nor as a keyword, nor is one of `pi` and the
like, or if two arrays have different lengths, then `fill` raises; it is a `ValueError` if the functions
themselves never raise. -/
theorem C75_reported {goals srcs : List Node} {ord : List Node → List Node} (ho : ∀ l, (ord l).Perm l)
    (hs : SourceOrder goals srcs) (lib : Lib V) (inj : List α → V) (c : Consts α)
    (get : String → Option (Given α)) (hb : BadArgs c get goals) :
    ∃ e, fillFields lib inj c get goals srcs ord = .error e ∧
      (Unmixed goals → NeverRaises lib goals → e = .valueError) := by
  obtain ⟨is, h1, h2⟩ := compile_exec lib (fun e => (paramArray c get
    (((firstLength c get ((compile goals srcs ord).toOption.getD [])).toOption.getD none).getD 1) e).map inj) ho hs
  rw [h1] at h2
  simp only [Except.toOption, Option.getD_some] at h2
  cases hl : sortedFields srcs with
  | error e =>
    refine ⟨e, ?_, ?_⟩
    · unfold fillFields
      rw [h1]
      change (sortedFields srcs >>= _) = _
      rw [hl]; rfl
    · intro hu
      obtain ⟨l, hl'⟩ := unmixed_sorted hs hu
      rw [hl] at hl'; cases hl'
  | ok l =>
    rw [fillFields_eq h1 hl]
    unfold computeAll
    cases hf : firstLength c get is with
    | error e => exact ⟨e, rfl, fun _ _ => firstLength_err is hf⟩
    | ok m =>
      rw [hf] at h2
      simp only [Option.getD_some] at h2
      set n := m.getD 1 with hn
      change ∃ e, (exec lib (fun e => (paramArray c get n e).map inj) [] is >>= _) = _ ∧ _
      rw [h2]
      obtain ⟨s, ⟨t, ht, x, hx, hxs⟩, hcol⟩ := bad_column hb n
      have hxw : x ∈ walkdown (growAll goals) ord srcs :=
        (walk_iff ho hs x).2 ⟨⟨t, ht, hx⟩, source_grounded (fieldName_source hxs)⟩
      have hxe : own lib (fun e => (paramArray c get n e).map inj) x = .error .valueError := by
        have h3 : own lib (fun e => (paramArray c get n e).map inj) x = (paramArray c get n x).map inj := by
          have := fieldName_source hxs
          cases x <;> simp [T.isSource] at this <;> rfl
        rw [h3, paramArray_column inj c get n (fieldName_source hxs)]
        cases x <;> simp_all [T.fieldName, columnOf]
      cases hr : runAll lib (fun e => (paramArray c get n e).map inj) goals (walkdown (growAll goals) ord srcs) with
      | ok q =>
        obtain ⟨v, hv⟩ := (runAll_mem hr).2.2 x hxw
        rw [hxe] at hv; cases hv
      | error e =>
        refine ⟨e, rfl, ?_⟩
        intro _ hnr
        obtain ⟨y, hy, hye⟩ := runAll_err hr
        obtain ⟨⟨t', ht', hyt⟩, _⟩ := (walk_iff ho hs y).1 hy
        obtain ⟨z, hz, hzs, hze⟩ := own_raises y (fun f args hfa => hnr t' ht' f args (subs_trans t' y hyt _ hfa)) hye
        rw [paramArray_column inj c get n hzs] at hze
        cases z with
        | const v => simp [T.isSource] at hzs
        | call f args => simp [T.isSource] at hzs
        | bconst m v => cases hze
        | name s =>
          simp only [columnOf] at hze
          split at hze <;> cases hze; rfl
        | pred s b =>
          simp only [columnOf] at hze
          split at hze <;> cases hze; rfl

/-- Arguments for `sqrt(x) + y` and `sqrt(x) * 2`: the array `x` from the dict, the number `y` as a keyword,
which is also an array of another length in the dict. -/
def demoArgs : FillArgs ℚ where
  arrays := some fun s => if s = "x" then some (.array [1, 4, 9]) else if s = "y" then some (.array [7]) else none
  more := [("y", .scalar 5)]

def demoConsts : Consts ℚ where
  named s := if s = "pi" then some 3 else none
  value
    | .num q => q
    | _ => 0

/-- Columns of rationals, with a function that adds, one that multiplies and one in the place of `sqrt`. -/
def demoLib : Lib (List ℚ) where
  const
    | .num q => [q]
    | _ => []
  fn f :=
    if f = "numpy.sqrt" then some fun vs => .ok ((vs.getD 0 []).map (· + 1))
    else if f = "numpy.add" then some fun vs => .ok (List.zipWith (· + ·) (vs.getD 0 []) (vs.getD 1 []))
    else if f = "numpy.multiply" then
      some fun vs => .ok ((vs.getD 0 []).map fun q => q * ((vs.getD 1 []).getD 0 0))
    else none

theorem uses_instrGoals {s : String} (h : Uses instrGoals s) : s = "x" ∨ s = "y" := by
  obtain ⟨t, ht, x, hx, hs⟩ := h
  simp only [instrGoals, List.mem_cons, List.not_mem_nil, or_false] at ht
  rcases ht with rfl | rfl <;> simp [T.subs, T.subsL] at hx <;>
    (rcases hx with rfl | rfl | rfl | rfl) <;> simp [T.fieldName] at hs <;> simp [hs]

/-- The hypotheses of `C75_columns` hold: three rows, from the array `x`. -/
example : Describes demoConsts demoArgs.get instrGoals 3 ∧ Unmixed instrGoals := by
  refine ⟨⟨?_, .inl ⟨"x", [1, 4, 9], ?_, by decide +kernel⟩⟩, ?_⟩
  · intro s hs
    rcases uses_instrGoals hs with rfl | rfl <;> decide +kernel
  · exact ⟨_, by simp [instrGoals]; exact .inl rfl, .name "x", by simp [T.subs, T.subsL], rfl⟩
  · intro t _ x _ t' ht' y hy _
    simp only [instrGoals, List.mem_cons, List.not_mem_nil, or_false] at ht'
    rcases ht' with rfl | rfl <;> simp [T.subs, T.subsL] at hy <;> (rcases hy with rfl | rfl | rfl | rfl) <;> rfl

example : fillFields demoLib id demoConsts demoArgs.get instrGoals [.name "y", .name "x"] id =
    .ok ([(instrGoals.getD 0 (.name ""), [7, 10, 15]), (instrGoals.getD 1 (.name ""), [4, 10, 20])], 3) := by
  decide +kernel

/-- The hypotheses of `C75_reported` hold: without the keyword, `y` has another length than `x`; without the dict,
`x` is missing. -/
example : BadArgs demoConsts (FillArgs.get { demoArgs with more := [] }) instrGoals ∧
    BadArgs demoConsts (FillArgs.get { demoArgs with arrays := none }) instrGoals ∧
    NeverRaises demoLib instrGoals := by
  have ux : Uses instrGoals "x" := ⟨_, by simp [instrGoals]; exact .inl rfl, .name "x", by simp [T.subs, T.subsL], rfl⟩
  have uy : Uses instrGoals "y" := ⟨_, by simp [instrGoals]; exact .inl rfl, .name "y", by simp [T.subs, T.subsL], rfl⟩
  refine ⟨.lengths "x" "y" ux uy [1, 4, 9] [7] (by decide +kernel) (by decide +kernel) (by decide),
    .missing "x" ux (by decide +kernel) (by decide +kernel), ?_⟩
  intro t ht f args h
  simp only [instrGoals, List.mem_cons, List.not_mem_nil, or_false] at ht
  have : f = "numpy.sqrt" ∨ f = "numpy.add" ∨ f = "numpy.multiply" := by
    rcases ht with rfl | rfl <;> simp [T.subs, T.subsL] at h <;> rcases h with h | h <;> simp [h.1]
  rcases this with rfl | rfl | rfl
  · exact ⟨_, rfl, fun vs => ⟨_, rfl⟩⟩
  · exact ⟨_, rfl, fun vs => ⟨_, rfl⟩⟩
  · exact ⟨_, rfl, fun vs => ⟨_, rfl⟩⟩

/-! ## C80: constants as quantities -/

mutual
theorem subs_sources : ∀ (t x : Node), x ∈ t.subs → x.isSource = true → x ∈ t.sources
  | .const v, x, hx, h => by simp [T.subs] at hx; subst hx; simp [T.isSource] at h
  | .bconst m v, x, hx, h => by simpa [T.subs, T.sources] using hx
  | .name s, x, hx, h => by simpa [T.subs, T.sources] using hx
  | .pred s b, x, hx, h => by simpa [T.subs, T.sources] using hx
  | .call f args, x, hx, h => by
    simp only [T.subs, List.mem_cons] at hx
    rcases hx with rfl | hx
    · simp [T.isSource] at h
    · simpa [T.sources] using subsL_sources args x hx h
theorem subsL_sources : ∀ (l : List Node) (x : Node), x ∈ T.subsL l → x.isSource = true → x ∈ T.sourcesL l
  | [], x, hx, h => by simp [T.subsL] at hx
  | a :: as, x, hx, h => by
    simp only [T.subsL, List.mem_append] at hx
    simp only [T.sourcesL, List.mem_append]
    rcases hx with hx | hx
    · by_cases hc : a.isConst = true
      · cases a <;> simp [T.isConst] at hc
        simp [T.subs] at hx; subst hx; simp [T.isSource] at h
      · rw [if_neg hc]; exact .inl (subs_sources a x hx h)
    · exact .inr (subsL_sources as x hx h)
end

/-- **C80** fails: if one requested quantity is (made from) a constant and another one uses a field, then `fill`
raises a `TypeError`, whatever the arguments. -/
theorem C80_refuted_mixed {goals srcs : List Node} {ord : List Node → List Node} (ho : ∀ l, (ord l).Perm l)
    (hs : SourceOrder goals srcs) (lib : Lib V) (inj : List α → V) (c : Consts α) (get : String → Option (Given α))
    (h1 : ∃ s, Uses goals s) (h2 : ∃ t ∈ goals, ∃ x ∈ t.subs, x.isBroadcast = true) :
    fillFields lib inj c get goals srcs ord = .error .typeError := by
  obtain ⟨is, hc, -⟩ := C53_one_pass goals srcs ord ho hs
  have hsort : sortedFields srcs = .error .typeError := by
    obtain ⟨s, t, ht, x, hx, hxs⟩ := h1
    obtain ⟨t', ht', y, hy, hyb⟩ := h2
    unfold sortedFields
    refine if_pos ?_
    rw [Bool.and_eq_true, List.any_eq_true, List.any_eq_true]
    refine ⟨⟨x, (hs x).2 ⟨t, ht, subs_sources t x hx (fieldName_source hxs)⟩, by rw [hxs]; rfl⟩,
      ⟨y, (hs y).2 ⟨t', ht', subs_sources t' y hy ?_⟩, ?_⟩⟩ <;> cases y <;> simp_all [T.isBroadcast, T.isSource, T.fieldName]
  unfold fillFields
  rw [hc]
  change (sortedFields srcs >>= _) = _
  rw [hsort]; rfl

end Verif
