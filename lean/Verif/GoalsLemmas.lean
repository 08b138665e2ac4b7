import Verif.Goals
import Verif.PropsParams
import Verif.HistLemmas

/-!
# Lemmas about the quantities of a histogram
-/

namespace Verif

/-! ## Loops -/

theorem mapE_ok_iff {α β : Type} {f : α → Except Err β} : ∀ {xs : List α} {ys : List β},
    mapE f xs = .ok ys ↔ List.Forall₂ (fun x y => f x = .ok y) xs ys
  | [], ys => by
    simp only [mapE, List.forall₂_nil_left_iff]
    exact ⟨fun h => (Except.ok.inj h).symm, fun h => by rw [h]⟩
  | x :: xs, ys => by
    simp only [mapE]
    cases hx : f x with
    | error e =>
      constructor
      · intro h; cases h
      · intro h; cases h with | cons h1 _ => rw [hx] at h1; cases h1
    | ok y =>
      cases hr : mapE f xs with
      | error e =>
        constructor
        · intro h; cases h
        · intro h
          cases h with | cons h1 h2 => rw [mapE_ok_iff.2 h2] at hr; cases hr
      | ok zs =>
        constructor
        · intro h
          have := (Except.ok.inj h).symm; subst this
          exact .cons hx (mapE_ok_iff.1 hr)
        · intro h
          cases h with
          | cons h1 h2 =>
            rw [hx] at h1; cases h1
            rw [mapE_ok_iff.2 h2] at hr; cases hr; rfl

theorem mapE_congr {α β : Type} {f g : α → Except Err β} : ∀ {xs : List α}, (∀ x ∈ xs, f x = g x) → mapE f xs = mapE g xs
  | [], _ => rfl
  | x :: xs, h => by
    simp only [mapE, h x (by simp), mapE_congr (fun y hy => h y (List.mem_cons_of_mem x hy))]

theorem mapE_map {α β γ : Type} (f : β → Except Err γ) (g : α → β) : ∀ xs : List α, mapE f (xs.map g) = mapE (fun x => f (g x)) xs
  | [] => rfl
  | x :: xs => by simp only [List.map_cons, mapE, mapE_map f g xs]

/-! ## Subexpressions -/

theorem own_call {V : Type} {lib : Lib V} {ext : Node → Except Err V} {f : String} {g : List V → Except Err V}
    {args : List Node} {vs : List V} (hf : lib.fn f = some g) (ha : ownL lib ext args = .ok vs) :
    own lib ext (.call f args) = g vs := by
  simp only [own, hf, ha]; rfl

theorem ownL_cons {V : Type} {lib : Lib V} {ext : Node → Except Err V} {a : Node} {as : List Node} {v : V} {vs : List V}
    (h1 : own lib ext a = .ok v) (h2 : ownL lib ext as = .ok vs) : ownL lib ext (a :: as) = .ok (v :: vs) := by
  simp only [ownL, h1, h2]; rfl

theorem colLib_axis {more : More} (f : AxisFn) (h : axisFn f.name = some f) : (colLib more).fn f.name = some f.run := by
  simp only [colLib, h]

mutual
/-- If a tree can be computed, so can its subexpressions. -/
theorem own_subs {V : Type} {lib : Lib V} {ext : Node → Except Err V} : ∀ (t : Node) (v : V), own lib ext t = .ok v →
    ∀ x ∈ t.subs, ∃ w, own lib ext x = .ok w
  | .const c, v, h, x, hx => by simp [T.subs] at hx; subst hx; exact ⟨v, h⟩
  | .bconst m c, v, h, x, hx => by simp [T.subs] at hx; subst hx; exact ⟨v, h⟩
  | .name s, v, h, x, hx => by simp [T.subs] at hx; subst hx; exact ⟨v, h⟩
  | .pred s b, v, h, x, hx => by simp [T.subs] at hx; subst hx; exact ⟨v, h⟩
  | .call f args, v, h, x, hx => by
    simp only [T.subs, List.mem_cons] at hx
    rcases hx with rfl | hx
    · exact ⟨v, h⟩
    · simp only [own] at h
      cases hf : lib.fn f with
      | none => rw [hf] at h; cases h
      | some g =>
        rw [hf] at h
        cases ha : ownL lib ext args with
        | error e => simp only [ha] at h; cases h
        | ok vs => exact ownL_subs args vs ha x hx
theorem ownL_subs {V : Type} {lib : Lib V} {ext : Node → Except Err V} : ∀ (l : List Node) (vs : List V),
    ownL lib ext l = .ok vs → ∀ x ∈ T.subsL l, ∃ w, own lib ext x = .ok w
  | [], vs, h, x, hx => by simp [T.subsL] at hx
  | a :: as, vs, h, x, hx => by
    simp only [ownL] at h
    cases ha : own lib ext a with
    | error e => rw [ha] at h; cases h
    | ok v =>
      rw [ha] at h
      cases hr : ownL lib ext as with
      | error e => rw [hr] at h; cases h
      | ok ws =>
        simp only [T.subsL, List.mem_append] at hx
        rcases hx with hx | hx
        · exact own_subs a v ha x hx
        · exact ownL_subs as ws hr x hx
end

/-! ## Rows -/

theorem ufunc2_num {g : Option ℚ → Option ℚ → Option ℚ} {vs : List RowVal} {v : RowVal} (h : ufunc2 g vs = .ok v) :
    ∃ w, v = .num w := by
  unfold ufunc2 at h
  split at h
  · cases h; exact ⟨_, rfl⟩
  · cases h

theorem isinFn_num {vs : List RowVal} {v : RowVal} (h : isinFn vs = .ok v) : ∃ w, v = .num w := by
  unfold isinFn at h
  split at h
  · cases h; exact ⟨_, rfl⟩
  · cases h; exact ⟨_, rfl⟩
  · cases h

theorem notFn_num {vs : List RowVal} {v : RowVal} (h : notFn vs = .ok v) : ∃ w, v = .num w := by
  unfold notFn at h
  split at h
  · cases h; exact ⟨_, rfl⟩
  · cases h

theorem builtin_num {f : String} {g : List RowVal → Except Err RowVal} (hf : builtin f = some g) {vs : List RowVal}
    {v : RowVal} (h : g vs = .ok v) : ∃ w, v = .num w := by
  unfold builtin at hf
  split at hf <;> first
    | (cases hf; done)
    | (cases hf; exact ufunc2_num h)
    | (cases hf; exact isinFn_num h)
    | (cases hf; exact notFn_num h)

/-- Functions of one row give numbers. -/
theorem rowLib_num {more : More} {f : String} {g : List RowVal → Except Err RowVal} (hf : (rowLib more).fn f = some g)
    {vs : List RowVal} {v : RowVal} (h : g vs = .ok v) : ∃ w, v = .num w := by
  simp only [rowLib] at hf
  cases hb : builtin f with
  | some g' =>
    rw [hb] at hf; cases hf
    exact builtin_num hb h
  | none =>
    rw [hb] at hf
    obtain ⟨g', _, rfl⟩ := Option.map_eq_some_iff.1 hf
    change Except.map (fun xs => RowVal.num (g' xs)) (rowNums vs) = _ at h
    cases hr : rowNums vs with
    | error e => rw [hr] at h; cases h
    | ok xs => rw [hr] at h; cases h; exact ⟨_, rfl⟩

/-- Columns and rows agree on the fields and constants of a tree. -/
def Agree (n : ℕ) (ext : Node → Except Err Col) (rext : ℕ → Node → Except Err RowVal) (x : Node) : Prop :=
  ∃ l : List (Option ℚ), ext x = .ok (.nums l) ∧ l.length = n ∧ ∀ i < n, rext i x = .ok (.num (l[i]?.getD none))

theorem row_nums {l : List (Option ℚ)} {n i : ℕ} (hl : l.length = n) (hi : i < n) :
    Col.row i (.nums l) = .ok (.num (l[i]?.getD none)) := by
  have : l[i]? = some l[i] := List.getElem?_eq_getElem (by omega)
  simp [Col.row, this]

mutual
/-- A tree computed on columns has, in each row, the value computed on this row. -/
theorem own_col {more : More} (hm : ∀ f, ((rowLib more).fn f).isSome = true → axisFn f = none) {n : ℕ} (hn : 0 < n)
    {ext : Node → Except Err Col} {rext : ℕ → Node → Except Err RowVal} : ∀ (t : Node),
    (∀ x ∈ t.subs, x.isSource = true → Agree n ext rext x) → t.grounded = true → ∀ v : ℕ → RowVal,
    (∀ i < n, own (rowLib more) (rext i) t = .ok (v i)) →
    ∃ l, own (colLib more) ext t = .ok (.nums l) ∧ l.length = n ∧ ∀ i < n, v i = .num (l[i]?.getD none)
  | .const c, _, hg, _, _ => by simp [T.grounded] at hg
  | .bconst m c, ha, _, v, hv => by
    obtain ⟨l, h1, h2, h3⟩ := ha _ (subs_self _) rfl
    refine ⟨l, h1, h2, fun i hi => ?_⟩
    have := hv i hi
    change rext i _ = _ at this
    rw [h3 i hi] at this
    exact (Except.ok.inj this).symm
  | .name s, ha, _, v, hv => by
    obtain ⟨l, h1, h2, h3⟩ := ha _ (subs_self _) rfl
    refine ⟨l, h1, h2, fun i hi => ?_⟩
    have := hv i hi
    change rext i _ = _ at this
    rw [h3 i hi] at this
    exact (Except.ok.inj this).symm
  | .pred s b, ha, _, v, hv => by
    obtain ⟨l, h1, h2, h3⟩ := ha _ (subs_self _) rfl
    refine ⟨l, h1, h2, fun i hi => ?_⟩
    have := hv i hi
    change rext i _ = _ at this
    rw [h3 i hi] at this
    exact (Except.ok.inj this).symm
  | .call f args, ha, hg, v, hv => by
    have hfn : ∃ g, (rowLib more).fn f = some g := by
      have := hv 0 hn
      simp only [own] at this
      cases hf : (rowLib more).fn f with
      | none => rw [hf] at this; cases this
      | some g => exact ⟨g, rfl⟩
    obtain ⟨g, hf⟩ := hfn
    have hax := hm f (by rw [hf]; rfl)
    have hrow : ∀ i, ∃ vs, i < n → ownL (rowLib more) (rext i) args = .ok vs ∧ g vs = .ok (v i) := by
      intro i
      by_cases hi : i < n
      · have := hv i hi
        simp only [own, hf] at this
        cases hr : ownL (rowLib more) (rext i) args with
        | error e => rw [hr] at this; cases this
        | ok vs => rw [hr] at this; exact ⟨vs, fun _ => ⟨rfl, this⟩⟩
      · exact ⟨[], fun h => absurd h hi⟩
    choose vs hvs using hrow
    simp only [T.grounded, Bool.and_eq_true] at hg
    obtain ⟨cols, c1, c2, c3, c4⟩ := ownL_col hm hn args (fun a hx x hxx => ha x (by
      simp only [T.subs, List.mem_cons]; exact .inr (subsL_iff.2 ⟨a, hx, hxx⟩))) hg.2 vs (fun i hi => (hvs i hi).1)
    have hlen := c4 (by
      obtain ⟨a, h1, h2⟩ := List.any_eq_true.1 hg.1
      exact ⟨a, h1, by simpa using h2⟩)
    have hnum : ∀ i, ∃ w, i < n → v i = .num w := by
      intro i
      by_cases hi : i < n
      · obtain ⟨w, hw⟩ := rowLib_num hf (hvs i hi).2
        exact ⟨w, fun _ => hw⟩
      · exact ⟨none, fun h => absurd h hi⟩
    choose w hw using hnum
    refine ⟨(List.range n).map w, ?_, by simp, ?_⟩
    · rw [own_call (g := colFn g) (by simp only [colLib, hax, hf, Option.map_some]) c1]
      unfold colFn
      rw [hlen]
      simp only
      rw [mapE_ok (colRow g cols) w]
      · rfl
      · intro i hi
        have hi' : i < n := by simpa using hi
        unfold colRow
        rw [c2 i hi']
        simp only
        rw [(hvs i hi').2, hw i hi']; rfl
    · intro i hi
      simp [hi, hw i hi]
theorem ownL_col {more : More} (hm : ∀ f, ((rowLib more).fn f).isSome = true → axisFn f = none) {n : ℕ} (hn : 0 < n)
    {ext : Node → Except Err Col} {rext : ℕ → Node → Except Err RowVal} : ∀ (args : List Node),
    (∀ a ∈ args, ∀ x ∈ a.subs, x.isSource = true → Agree n ext rext x) → T.groundedL args = true →
    ∀ vs : ℕ → List RowVal, (∀ i < n, ownL (rowLib more) (rext i) args = .ok (vs i)) →
    ∃ cols, ownL (colLib more) ext args = .ok cols ∧ (∀ i < n, mapE (Col.row i) cols = .ok (vs i)) ∧
      (cols.findSome? Col.len = none ∨ cols.findSome? Col.len = some n) ∧
      ((∃ a ∈ args, a.isConst = false) → cols.findSome? Col.len = some n)
  | [], _, _, vs, hvs => by
    refine ⟨[], rfl, ?_, .inl rfl, by simp⟩
    intro i hi
    have := Except.ok.inj (hvs i hi)
    rw [← this]; rfl
  | a :: as, ha, hg, vs, hvs => by
    simp only [T.groundedL, Bool.and_eq_true, Bool.or_eq_true] at hg
    have hrow : ∀ i, ∃ p : RowVal × List RowVal, i < n → own (rowLib more) (rext i) a = .ok p.1 ∧
        ownL (rowLib more) (rext i) as = .ok p.2 ∧ vs i = p.1 :: p.2 := by
      intro i
      by_cases hi : i < n
      · have := hvs i hi
        simp only [ownL] at this
        cases h1 : own (rowLib more) (rext i) a with
        | error e => rw [h1] at this; cases this
        | ok v =>
          rw [h1] at this
          cases h2 : ownL (rowLib more) (rext i) as with
          | error e => rw [h2] at this; cases this
          | ok ws =>
            rw [h2] at this
            exact ⟨(v, ws), fun _ => ⟨rfl, rfl, (Except.ok.inj this).symm⟩⟩
      · exact ⟨(.num none, []), fun h => absurd h hi⟩
    choose p hp using hrow
    obtain ⟨cols, c1, c2, c3, c4⟩ := ownL_col hm hn as (fun b hb => ha b (by simp [hb])) hg.2 (fun i => (p i).2)
      (fun i hi => (hp i hi).2.1)
    by_cases hc : a.isConst = true
    · cases a <;> simp [T.isConst] at hc
      rename_i c
      refine ⟨.obj c :: cols, ?_, ?_, ?_, ?_⟩
      · simp only [ownL, c1, own]; rfl
      · intro i hi
        have h1 : p i = ((rowLib more).const c, (p i).2) := by
          have := (hp i hi).1
          simp only [own] at this
          rw [Except.ok.inj this]
        rw [(hp i hi).2.2]
        have h2 : Col.row i (.obj c) = .ok (p i).1 := by
          rw [h1]; cases c <;> rfl
        simp only [mapE, h2, c2 i hi]
      · simpa [List.findSome?, Col.len] using c3
      · rintro ⟨b, hb, hbc⟩
        rcases List.mem_cons.1 hb with rfl | hb
        · simp [T.isConst] at hbc
        · simpa [List.findSome?, Col.len] using c4 ⟨b, hb, hbc⟩
    · have hga : a.grounded = true := by
        rcases hg.1 with h | h
        · exact absurd h hc
        · exact h
      obtain ⟨l, l1, l2, l3⟩ := own_col hm hn a (ha a (by simp)) hga (fun i => (p i).1) (fun i hi => (hp i hi).1)
      have hfs : (Col.nums l :: cols).findSome? Col.len = some n := by
        simp [List.findSome?, Col.len, l2]
      refine ⟨.nums l :: cols, ?_, ?_, .inr hfs, fun _ => hfs⟩
      · simp only [ownL, c1, l1]; rfl
      · intro i hi
        rw [(hp i hi).2.2]
        simp only [mapE, row_nums l2 hi, c2 i hi, l3 i hi]
end

mutual
/-- A tree without broadcast constants is calculated to its own value. -/
theorem own_calculate {V : Type} {lib : Lib V} {sym : String → Except Err V} {ext : Node → Except Err V}
    (h1 : ∀ s, ext (.name s) = sym s) (h2 : ∀ s b, ext (.pred s b) = sym s) : ∀ e : E,
    own lib ext e.toT = calculate lib sym e.toT
  | .node hd p q => by
    cases hd with
    | const c => rfl
    | cset l => rfl
    | name s => exact h1 s
    | pred s b => exact h2 s b
    | call f =>
      simp only [E.toT, own, calculate, own_calculateL h1 h2 p]
      cases lib.fn f <;> rfl
    | binop f => rfl
    | rel c => rfl
    | plus c => rfl
    | times c => rfl
    | lor => rfl
    | land => rfl
theorem own_calculateL {V : Type} {lib : Lib V} {sym : String → Except Err V} {ext : Node → Except Err V}
    (h1 : ∀ s, ext (.name s) = sym s) (h2 : ∀ s b, ext (.pred s b) = sym s) : ∀ l : List E,
    ownL lib ext (E.toTL l) = calculateL lib sym (E.toTL l)
  | [] => rfl
  | a :: as => by
    simp only [E.toTL, ownL, calculateL, own_calculate h1 h2 a, own_calculateL h1 h2 as]
end

/-! ## Names of functions -/

/-- All axis functions. -/
def AxisFn.every : List AxisFn :=
  let bs := [true, false]
  [.groupby, .cut] ++ bs.flatMap (fun n => bs.map fun c => .groupbin n c) ++
    bs.flatMap (fun u => bs.map fun o => .intbin u o) ++
    bs.flatMap (fun u => bs.flatMap fun o => bs.flatMap fun n => bs.flatMap fun c => [.bin u o n c, .split u o n c])

theorem axisFn_name (f : AxisFn) : axisFn f.name = some f := by
  have key : ∀ f ∈ AxisFn.every, axisFn f.name = some f := by decide +kernel
  refine key f ?_
  cases f with
  | groupby => simp [AxisFn.every]
  | cut => simp [AxisFn.every]
  | groupbin n c => cases n <;> cases c <;> simp [AxisFn.every]
  | intbin u o => cases u <;> cases o <;> simp [AxisFn.every]
  | bin u o n c => cases u <;> cases o <;> cases n <;> cases c <;> simp [AxisFn.every]
  | split u o n c => cases u <;> cases o <;> cases n <;> cases c <;> simp [AxisFn.every]

theorem builtin_names {f : String} (h : (builtin f).isSome = true) : f ∈ ["numpy.add", "numpy.subtract",
    "numpy.multiply", "numpy.true_divide", "numpy.equal", "numpy.not_equal", "numpy.less", "numpy.less_equal",
    "numpy.isin", "numpy.logical_or", "numpy.logical_and", "numpy.logical_not"] := by
  unfold builtin at h
  split at h <;> simp at h ⊢

theorem axisFn_builtin {f : String} (h : (builtin f).isSome = true) : axisFn f = none := by
  have key : ∀ f ∈ ["numpy.add", "numpy.subtract", "numpy.multiply", "numpy.true_divide", "numpy.equal",
      "numpy.not_equal", "numpy.less", "numpy.less_equal", "numpy.isin", "numpy.logical_or", "numpy.logical_and",
      "numpy.logical_not"], axisFn f = none := by decide +kernel
  exact key f (builtin_names h)

theorem axisFn_row {more : More} (hm : ∀ f, (more f).isSome = true → axisFn f = none) (f : String)
    (h : ((rowLib more).fn f).isSome = true) : axisFn f = none := by
  simp only [rowLib] at h
  cases hb : builtin f with
  | some g => exact axisFn_builtin (by rw [hb]; rfl)
  | none =>
    rw [hb] at h
    exact hm f (by simpa using h)

/-! ## Axis functions -/

theorem ownL_consts {more : More} {ext : Node → Except Err Col} : ∀ cs : List CVal,
    ownL (colLib more) ext (cs.map T.const) = .ok (cs.map Col.obj)
  | [] => rfl
  | _ :: cs => ownL_cons rfl (ownL_consts cs)

theorem own_axis {more : More} {ext : Node → Except Err Col} {arg : Node} {v : Col} (f : AxisFn)
    (h : own (colLib more) ext arg = .ok v) (cs : List CVal) :
    own (colLib more) ext (.call f.name (arg :: cs.map T.const)) = f.run (v :: cs.map Col.obj) :=
  own_call (colLib_axis f (axisFn_name f)) (ownL_cons h (ownL_consts cs))

theorem own_fixed {more : More} {ext : Node → Except Err Col} {arg : Node} {l : List (Option ℚ)}
    (h : own (colLib more) ext arg = .ok (.nums l)) (a : FixedAxis) :
    own (colLib more) ext (a.goal arg) = (mapE a.index (l.map fun v => .num (toNum v))).map .idx := by
  cases a with
  | bin a =>
    refine (own_axis _ h [.num a.numbins, .num a.low, .num a.high]).trans ?_
    change (mapE (FixedAxis.index (.bin ⟨((a.numbins : ℚ)).num.toNat, _, _, _, _, _, _⟩)) _).map _ = _
    have : ((a.numbins : ℚ)).num.toNat = a.numbins := by simp
    rw [this]
  | split a => exact own_axis _ h [.tuple a.edges]
  | intbin a =>
    refine (own_axis _ h [.num a.min, .num a.max]).trans ?_
    change (mapE (FixedAxis.index (.intbin ⟨((a.min : ℚ)).num, ((a.max : ℚ)).num, _, _⟩)) _).map _ = _
    have h1 : ((a.min : ℚ)).num = a.min := by simp
    have h2 : ((a.max : ℚ)).num = a.max := by simp
    rw [h1, h2]
  | cut => exact own_axis _ h []

theorem own_group {more : More} {ext : Node → Except Err Col} {arg : Node} {l : List (Option ℚ)}
    (h : own (colLib more) ext arg = .ok (.nums l)) (a : GroupAxis) :
    own (colLib more) ext (a.goal arg) = (a.column (l.map fun v => .num (toNum v))).map .grp := by
  cases a with
  | groupby => exact own_axis _ h []
  | groupbin a => exact own_axis _ h [.num a.binwidth, .num a.origin]

theorem findSome_len (l : List (Option ℚ)) : [Col.nums l, Col.nums l].findSome? Col.len = some l.length := rfl

theorem own_square {more : More} {ext : Node → Except Err Col} {arg : Node} {l : List (Option ℚ)}
    (h : own (colLib more) ext arg = .ok (.nums l)) :
    own (colLib more) ext (.call "numpy.multiply" [arg, arg]) = .ok (.nums (l.map fun v => v.map (· ^ 2))) := by
  have hax : axisFn "numpy.multiply" = none := axisFn_builtin rfl
  obtain ⟨g, hg⟩ : ∃ g, builtin "numpy.multiply" = some g := ⟨_, rfl⟩
  have hmul : ∀ q : Option ℚ, g [.num q, .num q] = .ok (.num (q.map (· ^ 2))) := by
    have := Option.some.inj ((show builtin "numpy.multiply" = some _ from rfl).symm.trans hg)
    rw [← this]
    intro q
    cases q with
    | none => rfl
    | some q => rw [Option.map_some, pow_two]; rfl
  rw [own_call (g := colFn g) (by simp only [colLib, hax, rowLib, hg, Option.map_some])
    (ownL_cons h (ownL_cons h rfl))]
  unfold colFn
  rw [findSome_len]
  simp only
  rw [mapE_ok _ (fun i => (l[i]?.getD none).map (· ^ 2))]
  · simp only [Except.map]
    congr 2
    refine List.ext_getElem (by simp) ?_
    intro i h1 h2
    have hi : i < l.length := by simpa using h1
    simp [hi]
  · intro i hi
    have hi' : i < l.length := by simpa using hi
    unfold colRow
    simp only [mapE, row_nums rfl hi']
    simp only [hmul]; rfl

end Verif
