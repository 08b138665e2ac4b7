import Verif.HistLemmas
import Mathlib.Data.List.ProdSigma
import Mathlib.Algebra.BigOperators.Group.List.Lemmas
import Mathlib.Algebra.Order.BigOperators.Group.List
import Mathlib.Tactic.Ring
import Mathlib.Tactic.Positivity

/-!
# Properties C08, C11-C16, C19, C20: filling
-/

namespace Verif

/-! ## C08 -/

/-- C08.  For any fixed axes (at least one) of sizes `dims` and any events whose bin numbers are
within range, the flat position of an event is the row-major one, it lies inside the array, two
events have the same position only if they have the same bins, and an event has no position exactly
if some axis leaves it out. -/
theorem C08_flat_index {α : Type} (ng : ℕ) (dims : List ℕ) (np : ℕ) (wk : WKind) (hd : dims ≠ []) (es : List α)
    (cells : α → List (Option ℤ))
    (h : ∀ e ∈ es, List.Forall₂ (fun (c : Option ℤ) (n : ℕ) => ∀ i, c = some i → 0 ≤ i ∧ i < n) (cells e) dims) :
    ∃ pos : α → Option ℤ,
      flatIndexes (Layout.make ng dims np wk)
        ((List.range dims.length).map (fun k => some (es.map (fun e => (cells e).getD k none)))) = .ok (some (es.map pos)) ∧
      ∀ e ∈ es, (pos e = none ↔ none ∈ cells e) ∧
        (∀ p, pos e = some p → ∃ idx, InRange idx dims ∧ cells e = idx.map (fun i : ℕ => some (i : ℤ)) ∧
          p = ravel dims idx ∧ 0 ≤ p ∧ p < dims.prod) ∧
        (∀ e' ∈ es, ∀ p, pos e = some p → pos e' = some p → cells e = cells e') := by
  refine ⟨fun e => flatOf dims (cells e), ?_, ?_⟩
  · have := flatIndexes_map es cells ng dims np wk (fun e he => (h e he).length_eq)
    rw [if_neg hd] at this
    exact this
  · have key : ∀ e ∈ es, ∀ p, flatOf dims (cells e) = some p → ∃ idx, InRange idx dims ∧
        cells e = idx.map (fun i : ℕ => some (i : ℤ)) ∧ p = ravel dims idx ∧ 0 ≤ p ∧ p < dims.prod := by
      intro e he p hp
      rcases flatOf_eq hd (h e he) with ⟨_, h1⟩ | ⟨idx, h1, h2, h3⟩
      · rw [h1] at hp; cases hp
      · rw [h3] at hp
        cases hp
        exact ⟨idx, h1, h2, rfl, by omega, by exact_mod_cast ravel_lt h1⟩
    intro e he
    refine ⟨?_, key e he, ?_⟩
    · rcases flatOf_eq hd (h e he) with ⟨h1, h2⟩ | ⟨idx, h1, h2, h3⟩
      · simp [h1, h2]
      · simp only [h3]; rw [h2]; simp
    · intro e' he' p hp hp'
      obtain ⟨idx, a1, a2, a3, _⟩ := key e he p hp
      obtain ⟨idx', b1, b2, b3, _⟩ := key e' he' p hp'
      have : ravel dims idx = ravel dims idx' := by omega
      rw [a2, b2, ravel_inj a1 b1 this]

/-- A 2 x 3 histogram; the last event is left out by the second axis. -/
example : flatIndexes (Layout.make 0 [2, 3] 0 .none)
    [some [some 0, some 1, some 1], some [some 2, some 1, none]] = .ok (some [some 2, some 4, none]) := by
  decide +kernel

example : ∀ e ∈ [[some 0, some 2], [some 1, some 1], [some (1 : ℤ), none]],
    List.Forall₂ (fun (c : Option ℤ) (n : ℕ) => ∀ i, c = some i → 0 ≤ i ∧ i < n) e [2, 3] := by
  intro e he
  simp at he
  rcases he with rfl | rfl | rfl <;> simp

/-! ## sums over rows -/

theorem binTotal_append (H : HistDef) (r s : List Row) (gk : List Key) (idx : List ℕ) (col : ℕ) :
    binTotal H (r ++ s) gk idx col = binTotal H r gk idx col + binTotal H s gk idx col := by
  simp [binTotal]

theorem binTotal_perm (H : HistDef) {r s : List Row} (h : r.Perm s) (gk : List Key) (idx : List ℕ) (col : ℕ) :
    binTotal H r gk idx col = binTotal H s gk idx col :=
  ((h.filter _).map _).sum_eq

/-- Some row of the batch has key `k` on group axis `i`. -/
def seenOn (H : HistDef) (rows : List Row) (i : ℕ) (k : Key) : Prop :=
  ∃ r ∈ rows, (List.zipWith GroupAxis.key H.groups r.gvals).getD i none = some k

/-- The data can be filled: every row fits, and no row is left out if there are profiles. -/
structure Fillable (H : HistDef) (bs : List (List Row)) : Prop where
  ok : ∀ b ∈ bs, ∀ r ∈ b, r.Ok H
  prof : H.nprof = 0 ∨ ∀ b ∈ bs, ∀ r ∈ b, ¬ r.leftOut H

theorem fillAll_rows (H : HistDef) : ∀ (bs : List (List Row)) (st : H.State), H.Good st → Fillable H bs →
    ∃ st', H.fillAll st bs = .ok st' ∧ H.Good st' ∧
      (∀ gk, gk.length ≤ H.groups.length → (H.has st' gk ↔ H.has st gk ∨
        ∃ b ∈ bs, ∀ (i : ℕ) (k : Key), gk[i]? = some k → seenOn H b i k)) ∧
      ∀ gk, gk.length = H.groups.length → ∀ idx, H.Cell idx → ∀ col,
        H.read st' gk idx col = H.read st gk idx col + binTotal H bs.flatten gk idx col
  | [], st, hg, _ => ⟨st, rfl, hg, by simp, by simp [binTotal]⟩
  | b :: bs, st, hg, hf => by
    obtain ⟨st1, h1, _, h2, h3, h4⟩ := fill_rows H st hg b (hf.ok b (by simp))
      (hf.prof.imp id (fun h => h b (by simp)))
    obtain ⟨st2, k1, k2, k3, k4⟩ := fillAll_rows H bs st1 h2
      ⟨fun b hb => hf.ok b (by simp [hb]), hf.prof.imp id (fun h b hb => h b (by simp [hb]))⟩
    refine ⟨st2, ?_, k2, ?_, ?_⟩
    · simp only [HistDef.fillAll, h1, k1]
    · intro gk hgk
      rw [k3 gk hgk, h3 gk hgk]
      simp only [List.mem_cons, exists_eq_or_imp, seenOn]
      tauto
    · intro gk hgk idx hidx col
      rw [k4 gk hgk idx hidx col, h4 gk hgk idx hidx col, List.flatten_cons, binTotal_append]
      ring

/-! ## an example: a group axis, a bin axis and weights; a profile -/

/-- `Hist(groupby("c"), bin("x", 2, 0, 2), weight="w")` -/
def exH : HistDef := ⟨[.groupby], [.bin ⟨2, 0, 2, true, true, true, true⟩], 0, .expr⟩

/-- `Hist(bin("x", 2, 0, 2), profile("y"))` -/
def exP : HistDef := ⟨[], [.bin ⟨2, 0, 2, true, true, true, true⟩], 1, .none⟩

/-- a row of `exH` -/
def exRow (c : String) (x : ℚ) (w : Option ℚ) : Row := ⟨[.key (.str c)], [.num (.fin x)], [], w⟩

/-- a row of `exP` -/
def exPRow (x y : ℚ) : Row := ⟨[], [.num (.fin x)], [y], none⟩

theorem exH_handles (x : ℚ) (hx : x ≤ 1000) : (FixedAxis.bin ⟨2, 0, 2, true, true, true, true⟩).Handles (.num (.fin x)) :=
  handles_bin 2 0 2 true true true true _ (by decide +kernel) (by norm_num) _
    (Or.inr ⟨x, rfl, by norm_num; linarith⟩)

theorem exRow_ok (c : String) (x : ℚ) (w : Option ℚ) (hx : x ≤ 1000) : (exRow c x w).Ok exH :=
  ⟨.cons ⟨.str c, rfl⟩ .nil, .cons (exH_handles x hx) .nil, rfl⟩

theorem exPRow_ok (x y : ℚ) (hx : x ≤ 1000) : (exPRow x y).Ok exP :=
  ⟨.nil, .cons (exH_handles x hx) .nil, rfl⟩

/-! ## C11 -/

/-- C11.  After any sequence of `fill` calls on a new histogram, the entry in every group, bin and
column is the sum over all rows that belong to the group and to the published bins: for each profile
`w·x` and `w·x²`, then the sum of the weights (the number of rows, if there are none), then the sum
of their squares. -/
theorem C11_content_is_sum (H : HistDef) (bs : List (List Row)) (hf : Fillable H bs) :
    ∃ st, H.fillAll none bs = .ok st ∧
      ∀ gk, gk.length = H.groups.length → ∀ idx, H.Cell idx → ∀ col,
        H.read st gk idx col = binTotal H bs.flatten gk idx col := by
  obtain ⟨st, h1, _, _, h4⟩ := fillAll_rows H bs none trivial hf
  refine ⟨st, h1, fun gk hgk idx hidx col => ?_⟩
  rw [h4 gk hgk idx hidx col]
  simp [HistDef.read]

/-- The same for rows added to any earlier content. -/
theorem C11_fill_adds (H : HistDef) (st : H.State) (hg : H.Good st) (bs : List (List Row)) (hf : Fillable H bs) :
    ∃ st', H.fillAll st bs = .ok st' ∧ H.Good st' ∧
      ∀ gk, gk.length = H.groups.length → ∀ idx, H.Cell idx → ∀ col,
        H.read st' gk idx col = H.read st gk idx col + binTotal H bs.flatten gk idx col := by
  obtain ⟨st', h1, h2, _, h4⟩ := fillAll_rows H bs st hg hf
  exact ⟨st', h1, h2, h4⟩

/-- Two batches with two groups: the hypotheses hold, and the model computes the sums. -/
theorem exH_fillable : Fillable exH [[exRow "a" (1/2) (some 2), exRow "b" 1 (some 3)],
    [exRow "a" (1/3) (some 5), exRow "a" 7 none]] := by
  refine ⟨?_, Or.inl rfl⟩
  intro b hb r hr
  simp at hb
  rcases hb with rfl | rfl <;> simp at hr <;> rcases hr with rfl | rfl <;> exact exRow_ok _ _ _ (by norm_num)

example : (match exH.fillAll none [[exRow "a" (1/2) (some 2), exRow "b" 1 (some 3)],
      [exRow "a" (1/3) (some 5), exRow "a" 7 none]] with
    | .ok st => [exH.read st [.str "a"] [1] 0, exH.read st [.str "a"] [1] 1, exH.read st [.str "b"] [2] 0,
        exH.read st [.str "a"] [3] 0]
    | .error _ => []) = [7, 29, 3, 0] := by decide +kernel

theorem exP_fillable : Fillable exP [[exPRow (1/2) 4, exPRow 1 3], [exPRow (1/3) 5]] := by
  refine ⟨?_, Or.inr ?_⟩
  · intro b hb r hr
    simp at hb
    rcases hb with rfl | rfl <;> simp at hr
    · rcases hr with rfl | rfl <;> exact exPRow_ok _ _ (by norm_num)
    · subst hr; exact exPRow_ok _ _ (by norm_num)
  · intro b hb r hr hl
    simp at hb
    rcases hb with rfl | rfl <;> simp at hr
    · rcases hr with rfl | rfl
      · exact absurd (hl [1]) (by decide +kernel)
      · exact absurd (hl [2]) (by decide +kernel)
    · subst hr; exact absurd (hl [1]) (by decide +kernel)

example : (match exP.fillAll none [[exPRow (1/2) 4, exPRow 1 3], [exPRow (1/3) 5]] with
    | .ok st => [exP.read st [] [1] 0, exP.read st [] [1] 1, exP.read st [] [1] 2]
    | .error _ => []) = [9, 41, 2] := by decide +kernel

/-! ## C12 -/

/-- C12, for the entries: two sequences of batches that contain the same rows (in any order, cut
in any way) give the same entries in all groups, bins and columns; and if there is at most one group
axis they give the same groups.  What is missing is the equality of the groups for two and more group
axes, which does not hold (`C12_refuted`). -/
theorem C12_batches_partial (H : HistDef) (st : H.State) (hg : H.Good st) (bs bs' : List (List Row))
    (hf : Fillable H bs) (hf' : Fillable H bs') (hp : bs.flatten.Perm bs'.flatten) :
    ∃ s s', H.fillAll st bs = .ok s ∧ H.fillAll st bs' = .ok s' ∧
      (∀ gk, gk.length = H.groups.length → ∀ idx, H.Cell idx → ∀ col, H.read s gk idx col = H.read s' gk idx col) ∧
      (H.groups.length = 1 → ∀ gk, gk.length = 1 → (H.has s gk ↔ H.has s' gk)) := by
  obtain ⟨s, h1, _, h3, h4⟩ := fillAll_rows H bs st hg hf
  obtain ⟨s', k1, _, k3, k4⟩ := fillAll_rows H bs' st hg hf'
  refine ⟨s, s', h1, k1, ?_, ?_⟩
  · intro gk hgk idx hidx col
    rw [h4 gk hgk idx hidx col, k4 gk hgk idx hidx col, binTotal_perm H hp]
  · intro hl gk hgk
    rw [h3 gk (by omega), k3 gk (by omega)]
    have key : ∀ bs : List (List Row), (∃ b ∈ bs, ∀ (i : ℕ) (k : Key), gk[i]? = some k → seenOn H b i k) ↔
        ∀ (i : ℕ) (k : Key), gk[i]? = some k → seenOn H bs.flatten i k := by
      intro bs
      obtain ⟨k0, rfl⟩ := List.length_eq_one_iff.1 hgk
      constructor
      · rintro ⟨b, hb, h⟩ i k hi
        obtain ⟨r, hr, hk⟩ := h i k hi
        exact ⟨r, List.mem_flatten.2 ⟨b, hb, hr⟩, hk⟩
      · intro h
        obtain ⟨r, hr, hk⟩ := h 0 k0 rfl
        obtain ⟨b, hb, hr⟩ := List.mem_flatten.1 hr
        refine ⟨b, hb, fun i k hi => ?_⟩
        cases i with
        | zero => simp at hi; subst hi; exact ⟨r, hr, hk⟩
        | succ i => simp at hi
    rw [key bs, key bs']
    have : ∀ i k, seenOn H bs.flatten i k ↔ seenOn H bs'.flatten i k := by
      intro i k
      unfold seenOn
      constructor
      · rintro ⟨r, hr, h⟩; exact ⟨r, hp.mem_iff.1 hr, h⟩
      · rintro ⟨r, hr, h⟩; exact ⟨r, hp.mem_iff.2 hr, h⟩
    simp only [this]

example : ∃ s s', exH.fillAll none [[exRow "a" (1/2) (some 2), exRow "b" 1 (some 3)],
      [exRow "a" (1/3) (some 5), exRow "a" 7 none]] = .ok s ∧
    exH.fillAll none [[exRow "a" (1/3) (some 5), exRow "a" (1/2) (some 2), exRow "a" 7 none, exRow "b" 1 (some 3)]] = .ok s' ∧
    (∀ gk, gk.length = 1 → ∀ idx, exH.Cell idx → ∀ col, exH.read s gk idx col = exH.read s' gk idx col) ∧
    (exH.groups.length = 1 → ∀ gk, gk.length = 1 → (exH.has s gk ↔ exH.has s' gk)) := by
  apply C12_batches_partial exH none trivial _ _ exH_fillable
  · refine ⟨?_, Or.inl rfl⟩
    intro b hb r hr
    simp at hb; subst hb
    simp at hr
    rcases hr with rfl | rfl | rfl | rfl <;> exact exRow_ok _ _ _ (by norm_num)
  · decide +kernel

/-- `Hist(groupby("c"), groupby("d"))` -/
def exGG : HistDef := ⟨[.groupby, .groupby], [], 0, .none⟩

/-- a row of `exGG` -/
def exGGRow (c d : String) : Row := ⟨[.key (.str c), .key (.str d)], [], [], none⟩

theorem exGGRow_ok (c d : String) : (exGGRow c d).Ok exGG :=
  ⟨.cons ⟨.str c, rfl⟩ (.cons ⟨.str d, rfl⟩ .nil), .nil, rfl⟩

instance (n : ℕ) (c : Content Arr n) (gk : List Key) : Decidable (HasGroup n c gk) := by
  induction n generalizing gk with
  | zero => exact inferInstanceAs (Decidable (gk = []))
  | succ n ih =>
    cases gk with
    | nil => exact inferInstanceAs (Decidable True)
    | cons k gk =>
      unfold HasGroup
      match h : dget (show List (Key × Content Arr n) from c) k with
      | none => exact isFalse (by rintro ⟨c', h1, _⟩; rw [h] at h1; cases h1)
      | some c' =>
        match ih c' gk with
        | isTrue h' => exact isTrue ⟨c', h, h'⟩
        | isFalse h' => exact isFalse (by rintro ⟨c'', h1, h2⟩; rw [h] at h1; cases h1; exact h' h2)

instance (H : HistDef) (st : H.State) (gk : List Key) : Decidable (H.has st gk) := by
  cases st with
  | none => exact inferInstanceAs (Decidable False)
  | some c => exact inferInstanceAs (Decidable (HasGroup _ c gk))

/-- C12 and C20 do not hold with two group axes.  Filling (a, c) and (b, d) together also makes the
groups (a, d) and (b, c), which no row has; filling one after the other does not. -/
theorem C12_refuted : ¬ ∀ (H : HistDef) (bs bs' : List (List Row)), Fillable H bs → Fillable H bs' →
    bs.flatten = bs'.flatten → ∀ s s', H.fillAll none bs = .ok s → H.fillAll none bs' = .ok s' →
    ∀ gk, gk.length = H.groups.length → (H.has s gk ↔ H.has s' gk) := by
  intro h
  have hf : Fillable exGG [[exGGRow "a" "c", exGGRow "b" "d"]] := by
    refine ⟨?_, Or.inl rfl⟩
    intro b hb r hr
    simp at hb; subst hb; simp at hr
    rcases hr with rfl | rfl <;> exact exGGRow_ok _ _
  have hf' : Fillable exGG [[exGGRow "a" "c"], [exGGRow "b" "d"]] := by
    refine ⟨?_, Or.inl rfl⟩
    intro b hb r hr
    simp at hb
    rcases hb with rfl | rfl <;> simp at hr <;> subst hr <;> exact exGGRow_ok _ _
  obtain ⟨s, h1, _⟩ := fillAll_rows exGG _ none trivial hf
  obtain ⟨s', k1, _⟩ := fillAll_rows exGG _ none trivial hf'
  have := h exGG _ _ hf hf' rfl s s' h1 k1 [.str "a", .str "d"] rfl
  have e1 : (match exGG.fillAll none [[exGGRow "a" "c", exGGRow "b" "d"]] with
      | .ok st => decide (exGG.has st [.str "a", .str "d"])
      | .error _ => false) = true := by decide +kernel
  have e2 : (match exGG.fillAll none [[exGGRow "a" "c"], [exGGRow "b" "d"]] with
      | .ok st => decide (exGG.has st [.str "a", .str "d"])
      | .error _ => false) = false := by decide +kernel
  rw [h1] at e1
  rw [k1] at e2
  simp only [decide_eq_true_eq, decide_eq_false_iff_not] at e1 e2
  exact e2 (this.1 e1)

/-! ## C13 -/

/-- C13.  The order of the rows of a batch does not matter: same entries, same groups. -/
theorem C13_order_irrelevant (H : HistDef) (st : H.State) (hg : H.Good st) (rows rows' : List Row)
    (hf : Fillable H [rows]) (hp : rows.Perm rows') :
    ∃ s s', H.fill st rows = .ok s ∧ H.fill st rows' = .ok s' ∧
      (∀ gk, gk.length = H.groups.length → ∀ idx, H.Cell idx → ∀ col, H.read s gk idx col = H.read s' gk idx col) ∧
      (∀ gk, gk.length ≤ H.groups.length → (H.has s gk ↔ H.has s' gk)) := by
  obtain ⟨s, h1, _, _, h3, h4⟩ := fill_rows H st hg rows (hf.ok rows (by simp)) (hf.prof.imp id (fun h => h rows (by simp)))
  obtain ⟨s', k1, _, _, k3, k4⟩ := fill_rows H st hg rows' (fun r hr => hf.ok rows (by simp) r (hp.mem_iff.2 hr))
    (hf.prof.imp id (fun h r hr => h rows (by simp) r (hp.mem_iff.2 hr)))
  refine ⟨s, s', h1, k1, ?_, ?_⟩
  · intro gk hgk idx hidx col
    rw [h4 gk hgk idx hidx col, k4 gk hgk idx hidx col, binTotal_perm H hp]
  · intro gk hgk
    rw [h3 gk hgk, k3 gk hgk]
    simp only [hp.mem_iff]

example : ∃ s s', exH.fill none [exRow "a" (1/2) (some 2), exRow "b" 1 (some 3)] = .ok s ∧
    exH.fill none [exRow "b" 1 (some 3), exRow "a" (1/2) (some 2)] = .ok s' ∧
    (∀ gk, gk.length = 1 → ∀ idx, exH.Cell idx → ∀ col, exH.read s gk idx col = exH.read s' gk idx col) ∧
    (∀ gk, gk.length ≤ 1 → (exH.has s gk ↔ exH.has s' gk)) := by
  apply C13_order_irrelevant exH none trivial
  · exact ⟨fun b hb r hr => exH_fillable.ok b (by simp at hb ⊢; exact Or.inl hb) r hr, Or.inl rfl⟩
  · decide +kernel

/-! ## C14 -/

/-- All multi-indexes of bins. -/
def allCells : List ℕ → List (List ℕ)
  | [] => [[]]
  | n :: ns => (List.range n).flatMap (fun i => (allCells ns).map (i :: ·))

theorem mem_allCells : ∀ (dims idx : List ℕ), idx ∈ allCells dims ↔ InRange idx dims
  | [], idx => by simp [allCells, InRange]
  | n :: ns, idx => by
    simp only [allCells, List.mem_flatMap, List.mem_range, List.mem_map, InRange]
    constructor
    · rintro ⟨i, hi, idx', h, rfl⟩
      exact .cons hi ((mem_allCells ns idx').1 h)
    · intro h
      cases h with
      | cons h1 h2 => exact ⟨_, h1, _, (mem_allCells ns _).2 h2, rfl⟩

theorem nodup_allCells : ∀ dims : List ℕ, (allCells dims).Nodup
  | [] => by simp [allCells]
  | n :: ns => by
    simp only [allCells]
    rw [List.nodup_flatMap]
    refine ⟨fun i _ => (nodup_allCells ns).map (by intro a b h; simpa using h), ?_⟩
    refine List.Pairwise.imp_of_mem ?_ (List.nodup_range (n := n))
    intro i j _ _ hij
    simp only [Function.onFun, List.disjoint_left, List.mem_map, not_exists, not_and]
    rintro _ ⟨a, _, rfl⟩ b _ h
    simp at h
    exact hij h.1.symm

theorem countP_one {α : Type} [DecidableEq α] (l : List α) (hl : l.Nodup) (p : α → Bool) (a : α) (ha : a ∈ l)
    (h : ∀ b ∈ l, p b = true ↔ b = a) : l.countP p = 1 := by
  rw [List.countP_congr (q := (· == a)) (by intro b hb; simp [h b hb])]
  exact List.count_eq_one_of_mem hl ha

theorem sum_swap {α β : Type} (P : List α) (rows : List β) (l : α → β → Bool) (f : β → ℚ) :
    (P.map (fun p => ((rows.filter (l p)).map f).sum)).sum =
      (rows.map (fun r => (P.countP (fun p => l p r) : ℚ) * f r)).sum := by
  induction rows with
  | nil => simp
  | cons r rows ih =>
    rw [List.map_cons, List.sum_cons, ← ih]
    clear ih
    induction P with
    | nil => simp
    | cons p P ih =>
      rw [List.map_cons, List.sum_cons, ih, List.map_cons, List.sum_cons, List.countP_cons]
      cases h : l p r
      · simp [h]; ring
      · simp [h]; ring

/-- The sum of the counts (or weights) over a list of groups and all bins. -/
def HistDef.sumOver (H : HistDef) (st : H.State) (G : List (List Key)) (col : ℕ) : ℚ :=
  ((G ×ˢ allCells (H.fixed.map FixedAxis.totbins)).map (fun p => H.read st p.1 p.2 col)).sum

instance (H : HistDef) (r : Row) : Decidable (∃ idx ∈ allCells (H.fixed.map FixedAxis.totbins), inBins' H.fixed r.fvals idx = true) :=
  inferInstance

/-- The row is in some bin. -/
def Row.counted (H : HistDef) (r : Row) : Bool :=
  (allCells (H.fixed.map FixedAxis.totbins)).any (fun idx => inBins' H.fixed r.fvals idx)

theorem inBins'_range (H : HistDef) (r : Row) (h : r.Ok H) (idx : List ℕ) (hi : inBins' H.fixed r.fvals idx = true) :
    InRange idx (H.fixed.map FixedAxis.totbins) := by
  have hf := (event_fits H r h).2.2
  have := (inBins'_iff H.fixed r.fvals h.fixed idx).1 hi
  simp only [Row.event, this, HistDef.layout, Layout.make] at hf
  unfold InRange
  clear this hi
  generalize H.fixed.map FixedAxis.totbins = dims at hf
  induction idx generalizing dims with
  | nil => cases dims with
    | nil => simp
    | cons => simp at hf
  | cons i idx ih => cases dims with
    | nil => simp at hf
    | cons n dims =>
      simp only [List.map_cons, List.forall₂_cons] at hf
      exact .cons (by have := hf.1 i rfl; omega) (ih dims hf.2)

theorem counted_iff (H : HistDef) (r : Row) (h : r.Ok H) : r.counted H = true ↔ ¬ r.leftOut H := by
  unfold Row.counted Row.leftOut
  simp only [List.any_eq_true, not_forall, Bool.not_eq_false]
  constructor
  · rintro ⟨idx, _, hi⟩; exact ⟨idx, hi⟩
  · rintro ⟨idx, hi⟩; exact ⟨idx, (mem_allCells _ _).2 (inBins'_range H r h idx hi), hi⟩

/-- C14.  For every list of groups without duplicates that has the group of every row, every `fill`
raises the sum of the counts over these groups and all bins by exactly the sum of the weights
(without weights: the number) of the rows that are in a bin. -/
theorem C14_conservation (H : HistDef) (st : H.State) (hg : H.Good st) (rows : List Row) (hf : Fillable H [rows])
    (G : List (List Key)) (hG : G.Nodup) (hGl : ∀ gk ∈ G, gk.length = H.groups.length)
    (hGr : ∀ r ∈ rows, ∃ gk ∈ G, inGroup H.groups r.gvals gk = true) :
    ∃ st', H.fill st rows = .ok st' ∧
      H.sumOver st' G (2 * H.nprof) = H.sumOver st G (2 * H.nprof) +
        ((rows.filter (Row.counted H)).map (Row.weight H.wkind)).sum := by
  obtain ⟨s, h1, _, _, h3, h4⟩ := fill_rows H st hg rows (hf.ok rows (by simp)) (hf.prof.imp id (fun h => h rows (by simp)))
  clear h3
  refine ⟨s, h1, ?_⟩
  unfold HistDef.sumOver
  set P := G ×ˢ allCells (H.fixed.map FixedAxis.totbins) with hP
  have e1 : P.map (fun p => H.read s p.1 p.2 (2 * H.nprof)) =
      P.map (fun p => H.read st p.1 p.2 (2 * H.nprof) + binTotal H rows p.1 p.2 (2 * H.nprof)) := by
    apply List.map_congr_left
    rintro ⟨gk, idx⟩ hp
    rw [hP, List.mem_product] at hp
    exact h4 gk (hGl gk hp.1) idx ((mem_allCells _ _).1 hp.2) _
  rw [e1, List.sum_map_add]
  congr 1
  have e2 : P.map (fun p => binTotal H rows p.1 p.2 (2 * H.nprof)) =
      P.map (fun p => ((rows.filter (fun r => Row.lands H p.1 p.2 r)).map (Row.weight H.wkind)).sum) := by
    apply List.map_congr_left
    intro p _
    unfold binTotal
    congr 2
    funext r
    simp [Row.adds]
  rw [e2, sum_swap P rows (fun p r => Row.lands H p.1 p.2 r)]
  have hPn : P.Nodup := hG.product (nodup_allCells _)
  have key : ∀ r ∈ rows, (P.countP (fun p => Row.lands H p.1 p.2 r) : ℚ) * r.weight H.wkind =
      if r.counted H then r.weight H.wkind else 0 := by
    intro r hr
    have hok := hf.ok rows (by simp) r hr
    cases hc : r.counted H
    · have : P.countP (fun p => Row.lands H p.1 p.2 r) = 0 := by
        rw [List.countP_eq_zero]
        rintro ⟨gk, idx⟩ _ hl
        unfold Row.lands at hl
        simp only [Bool.and_eq_true] at hl
        have : ¬ r.leftOut H := fun h => by rw [h idx] at hl; simp at hl
        rw [(counted_iff H r hok).2 this] at hc
        cases hc
      simp [this]
    · obtain ⟨gk, hgk, hin⟩ := hGr r hr
      obtain ⟨idx, hidx, hi⟩ := List.any_eq_true.1 hc
      have : P.countP (fun p => Row.lands H p.1 p.2 r) = 1 := by
        refine countP_one P hPn _ (gk, idx) ?_ ?_
        · rw [hP, List.mem_product]; exact ⟨hgk, hidx⟩
        · rintro ⟨gk', idx'⟩ _
          simp only [Row.lands, Bool.and_eq_true, Prod.mk.injEq]
          have a1 := inGroup_iff H.groups r.gvals gk hok.groups.length_eq
          have a2 := inGroup_iff H.groups r.gvals gk' hok.groups.length_eq
          have b1 := inBins'_iff H.fixed r.fvals hok.fixed idx
          have b2 := inBins'_iff H.fixed r.fvals hok.fixed idx'
          constructor
          · rintro ⟨x, y⟩
            have x' := (a2.1 x).symm.trans (a1.1 hin)
            have y' := (b2.1 y).symm.trans (b1.1 hi)
            refine ⟨List.map_injective_iff.2 (Option.some_injective _) x', ?_⟩
            exact List.map_injective_iff.2 (fun i j h => by simpa using h) y'
          · rintro ⟨rfl, rfl⟩
            exact ⟨hin, hi⟩
      simp [this]
  rw [List.map_congr_left key]
  clear hf hGr key e1 e2 h1 h4
  induction rows with
  | nil => simp
  | cons r rows ih =>
    rw [List.map_cons, List.sum_cons, ih]
    cases hc : r.counted H <;> simp [hc]

/-- The axis has all its flow bins. -/
def FixedAxis.allFlow : FixedAxis → Bool
  | .bin a => a.underflow && a.overflow && a.nanflow
  | .split a => a.underflow && a.overflow && a.nanflow
  | .intbin a => a.underflow && a.overflow
  | .cut => true

/-- C14, second half: an axis with all its flow bins leaves no value out that it handles. -/
theorem C14_all_flow_on (a : FixedAxis) (ha : a.allFlow = true) (v : Val) (hv : a.Handles v) :
    ∃ i, a.holds i v = true := by
  obtain ⟨r, h1, h2, h3⟩ := hv
  have hr : r.isSome = true := by
    cases a with
    | bin a =>
      simp [FixedAxis.allFlow] at ha
      obtain ⟨⟨hu, ho⟩, hn⟩ := ha
      simp only [FixedAxis.index, BinAxis.index] at h1
      cases hp : a.position v.toNum with
      | none => rw [hp] at h1; simp at h1
      | some x =>
        rw [hp] at h1
        simp only [Except.ok.injEq] at h1
        rw [← h1]
        unfold BinAxis.clamp
        simp [hu, ho, hn]
        split <;> rfl
    | split a =>
      simp [FixedAxis.allFlow] at ha
      obtain ⟨⟨hu, ho⟩, hn⟩ := ha
      simp only [FixedAxis.index, Except.ok.injEq] at h1
      rw [← h1]
      unfold SplitAxis.index
      simp [hu, ho, hn]
      grind
    | intbin a =>
      simp [FixedAxis.allFlow] at ha
      obtain ⟨hu, ho⟩ := ha
      cases v <;> simp only [FixedAxis.index, Except.ok.injEq] at h1 <;> rw [← h1] <;>
        simp [IntbinAxis.indexInt, IntbinAxis.indexNum, IntbinAxis.clamp, hu, ho]
    | cut => cases v <;> simp only [FixedAxis.index, Except.ok.injEq] at h1 <;> rw [← h1] <;> rfl
  obtain ⟨z, rfl⟩ := Option.isSome_iff_exists.1 hr
  obtain ⟨hz, _⟩ := h2 z rfl
  obtain ⟨l, h4, h5⟩ := (h3 z.toNat).1 (by rw [Int.toNat_of_nonneg hz])
  exact ⟨z.toNat, by simp [FixedAxis.holds, h4, h5]⟩

/-- C14, with all flow bins on: every row is counted, whatever its values. -/
theorem C14_every_row_counted (H : HistDef) (hH : ∀ a ∈ H.fixed, a.allFlow = true) (st : H.State) (hg : H.Good st)
    (rows : List Row) (hf : ∀ r ∈ rows, r.Ok H)
    (G : List (List Key)) (hG : G.Nodup) (hGl : ∀ gk ∈ G, gk.length = H.groups.length)
    (hGr : ∀ r ∈ rows, ∃ gk ∈ G, inGroup H.groups r.gvals gk = true) :
    ∃ st', H.fill st rows = .ok st' ∧
      H.sumOver st' G (2 * H.nprof) = H.sumOver st G (2 * H.nprof) + (rows.map (Row.weight H.wkind)).sum := by
  have hno : ∀ r ∈ rows, ¬ r.leftOut H := by
    intro r hr hl
    have hfx := (hf r hr).fixed
    have : ∃ idx, inBins' H.fixed r.fvals idx = true := by
      clear hl
      revert hH
      generalize H.fixed = as at hfx
      generalize r.fvals = vs at hfx
      induction hfx with
      | nil => intro _; exact ⟨[], rfl⟩
      | cons h1 _ ih =>
        intro hH
        obtain ⟨idx, hi⟩ := ih (fun a ha => hH a (by simp [ha]))
        obtain ⟨i, hj⟩ := C14_all_flow_on _ (hH _ (by simp)) _ h1
        exact ⟨i :: idx, by simp [inBins', hi, hj]⟩
    obtain ⟨idx, hi⟩ := this
    rw [hl idx] at hi
    cases hi
  obtain ⟨st', h1, h2⟩ := C14_conservation H st hg rows
    ⟨fun b hb => by simp at hb; subst hb; exact hf, Or.inr (fun b hb => by simp at hb; subst hb; exact hno)⟩ G hG hGl hGr
  refine ⟨st', h1, ?_⟩
  rw [h2, List.filter_eq_self.2 (fun r hr => (counted_iff H r (hf r hr)).2 (hno r hr))]

example : ∃ st', exH.fill none [exRow "a" (1/2) (some 2), exRow "b" 9 (some 3)] = .ok st' ∧
    exH.sumOver st' [[.str "a"], [.str "b"]] 0 = exH.sumOver none [[.str "a"], [.str "b"]] 0 + (2 + (3 + 0)) := by
  apply C14_every_row_counted exH (by decide) none trivial
  · intro r hr; simp at hr; rcases hr with rfl | rfl <;> exact exRow_ok _ _ _ (by norm_num)
  · decide
  · decide
  · decide +kernel

/-! ## C15 -/

/-- C15, if all values of profiles are numbers: rows whose weight is NaN contribute nothing, filling
without them gives the same entries.  With NaN or infinite values of profiles this does not hold
(`C15_refuted` in PropsFloatFill). -/
theorem C15_nan_weight_ignored_partial (H : HistDef) (hw : H.wkind = .expr) (st : H.State) (hg : H.Good st) (rows : List Row)
    (hf : Fillable H [rows]) :
    ∃ s s', H.fill st rows = .ok s ∧ H.fill st (rows.filter (fun r => r.w.isSome)) = .ok s' ∧
      ∀ gk, gk.length = H.groups.length → ∀ idx, H.Cell idx → ∀ col, H.read s gk idx col = H.read s' gk idx col := by
  obtain ⟨s, h1, _, _, h3, h4⟩ := fill_rows H st hg rows (hf.ok rows (by simp)) (hf.prof.imp id (fun h => h rows (by simp)))
  obtain ⟨s', k1, _, _, k3, k4⟩ := fill_rows H st hg (rows.filter (fun r => r.w.isSome))
    (fun r hr => hf.ok rows (by simp) r (List.mem_of_mem_filter hr))
    (hf.prof.imp id (fun h r hr => h rows (by simp) r (List.mem_of_mem_filter hr)))
  refine ⟨s, s', h1, k1, ?_⟩
  intro gk hgk idx hidx col
  rw [h4 gk hgk idx hidx col, k4 gk hgk idx hidx col]
  congr 1
  clear h1 h3 h4 k1 k3 k4 hf
  unfold binTotal
  induction rows with
  | nil => rfl
  | cons r rows ih =>
    cases hrw : r.w with
    | some w =>
      have e : (r :: rows).filter (fun r => r.w.isSome) = r :: rows.filter (fun r => r.w.isSome) := by
        simp [hrw]
      rw [e, List.filter_cons, List.filter_cons]
      cases Row.lands H gk idx r
      · exact ih
      · simp only [if_true, List.map_cons, List.sum_cons]; rw [ih]
    | none =>
      have e : (r :: rows).filter (fun r => r.w.isSome) = rows.filter (fun r => r.w.isSome) := by
        simp [hrw]
      have h0 : r.adds H col = 0 := by
        have hw0 : r.weight .expr = 0 := by simp [Row.weight, hrw]
        unfold Row.adds
        rw [hw, hw0]
        simp
      rw [e, List.filter_cons, ← ih]
      cases Row.lands H gk idx r
      · rfl
      · simp only [if_true, List.map_cons, List.sum_cons, h0, zero_add]

example : ∃ s s', exH.fill none [exRow "a" (1/2) none, exRow "b" 1 (some 3)] = .ok s ∧
    exH.fill none [exRow "b" 1 (some 3)] = .ok s' ∧
    ∀ gk, gk.length = 1 → ∀ idx, exH.Cell idx → ∀ col, exH.read s gk idx col = exH.read s' gk idx col := by
  apply C15_nan_weight_ignored_partial exH rfl none trivial [exRow "a" (1/2) none, exRow "b" 1 (some 3)]
  refine ⟨?_, Or.inl rfl⟩
  intro b hb r hr
  simp at hb; subst hb; simp at hr
  rcases hr with rfl | rfl <;> exact exRow_ok _ _ _ (by norm_num)

/-! ## C16 -/

/-- hist.py:221-250: with a filter, the weight is `where(filter, 1, 0) * weight`, or
`where(filter, 1, 0)` if there is no weight. -/
def filterWeight (pass : Row → Bool) (weighted : Bool) (r : Row) : Row :=
  { r with w := if weighted then r.w.map ((if pass r then 1 else 0) * ·) else some (if pass r then 1 else 0) }

/-- The histogram without its filter: `weight` stays if there was one. -/
def unfiltered (H : HistDef) (weighted : Bool) : HistDef :=
  { H with wkind := if weighted then .expr else .none }

/-- C16, for the entries: a histogram with a filter has, in all groups, bins and columns, the
entries of the histogram without the filter filled with the rows that pass (the extra column with
the sum of squared weights that a filter adds to an unweighted histogram is the count again).  What
is missing is the equality of the groups, which does not hold (`C16_refuted`), and values of profiles
that are NaN or infinite, for which it does not hold either (`C16_refuted_profile` in PropsFloatFill). -/
theorem C16_filter_partial (H : HistDef) (weighted : Bool) (hw : H.wkind = .expr) (rows : List Row) (pass : Row → Bool)
    (hf : Fillable H [rows]) :
    ∃ (s : H.State) (s' : (unfiltered H weighted).State), H.fill none (rows.map (filterWeight pass weighted)) = .ok s ∧
      (unfiltered H weighted).fill none (rows.filter pass) = .ok s' ∧
      ∀ gk, gk.length = H.groups.length → ∀ idx, H.Cell idx →
        (∀ col, col ≤ 2 * H.nprof → H.read s gk idx col = (unfiltered H weighted).read s' gk idx col) ∧
        H.read s gk idx (2 * H.nprof + 1) = (unfiltered H weighted).read s' gk idx (2 * H.nprof + b2n weighted) := by
  obtain ⟨s, h1, _, _, h3, h4⟩ := fill_rows H none trivial (rows.map (filterWeight pass weighted)) (by
      intro r hr
      obtain ⟨r, hr', rfl⟩ := List.mem_map.1 hr
      obtain ⟨a, b, c⟩ := hf.ok rows (by simp) r hr'
      exact ⟨a, b, c⟩)
    (hf.prof.imp id (by
      intro h r hr
      obtain ⟨r, hr', rfl⟩ := List.mem_map.1 hr
      exact h rows (by simp) r hr'))
  obtain ⟨s', k1, _, _, k3, k4⟩ := fill_rows (unfiltered H weighted) none trivial (rows.filter pass)
    (fun r hr => by
      obtain ⟨a, b, c⟩ := hf.ok rows (by simp) r (List.mem_of_mem_filter hr)
      exact ⟨a, b, c⟩)
    (hf.prof.imp id (fun h r hr => h rows (by simp) r (List.mem_of_mem_filter hr)))
  refine ⟨s, s', h1, k1, ?_⟩
  intro gk hgk idx hidx
  have gen : ∀ (c c' : ℕ), (∀ r, pass r = true → (filterWeight pass weighted r).adds H c = r.adds (unfiltered H weighted) c') →
      (∀ r, pass r = false → (filterWeight pass weighted r).adds H c = 0) →
      binTotal H (rows.map (filterWeight pass weighted)) gk idx c = binTotal (unfiltered H weighted) (rows.filter pass) gk idx c' := by
    intro c c' ht hff
    clear h1 h3 h4 k1 k3 k4 hf
    induction rows with
    | nil => rfl
    | cons r rows ih =>
      have e0 : binTotal H ((filterWeight pass weighted r) :: rows.map (filterWeight pass weighted)) gk idx c =
          (if Row.lands H gk idx r then (filterWeight pass weighted r).adds H c else 0) +
            binTotal H (rows.map (filterWeight pass weighted)) gk idx c := by
        unfold binTotal
        rw [List.filter_cons]
        have : Row.lands H gk idx (filterWeight pass weighted r) = Row.lands H gk idx r := rfl
        rw [this]
        cases Row.lands H gk idx r <;> simp
      rw [List.map_cons, e0, ih, List.filter_cons]
      cases hp : pass r
      · rw [hff r hp]; simp
      · rw [ht r hp]
        simp only [if_true]
        conv_rhs => unfold binTotal
        rw [List.filter_cons]
        have : Row.lands (unfiltered H weighted) gk idx r = Row.lands H gk idx r := rfl
        rw [this]
        cases Row.lands H gk idx r <;> simp [binTotal]
  have hwt : ∀ r, pass r = true → (filterWeight pass weighted r).weight .expr = r.weight (unfiltered H weighted).wkind := by
    intro r hp
    cases weighted <;> simp [filterWeight, Row.weight, unfiltered, hp]
  have hwf : ∀ r, pass r = false → (filterWeight pass weighted r).weight .expr = 0 := by
    intro r hp
    cases weighted <;> simp [filterWeight, Row.weight, hp]
    cases r.w <;> simp
  have hnp : (unfiltered H weighted).nprof = H.nprof := rfl
  constructor
  · intro col hcol
    rw [h4 gk hgk idx hidx col, k4 gk hgk idx hidx col]
    simp only [HistDef.read, zero_add]
    apply gen
    · intro r hp
      unfold Row.adds
      rw [hw, hwt r hp, hnp]
      have : ¬ (col = 2 * H.nprof + 1) := by omega
      simp only [this, false_and, if_false]
      rfl
    · intro r hp
      unfold Row.adds
      rw [hw, hwf r hp]
      simp
  · rw [h4 gk hgk idx hidx _, k4 gk hgk idx hidx _]
    simp only [HistDef.read, zero_add]
    apply gen
    · intro r hp
      unfold Row.adds
      rw [hw, hwt r hp, hnp]
      have a1 : ¬ (2 * H.nprof + 1 < 2 * H.nprof) := by omega
      have a2 : ¬ (2 * H.nprof + 1 = 2 * H.nprof) := by omega
      cases weighted
      · simp [unfiltered, Row.weight, b2n, a1]
      · simp [unfiltered, b2n, a1]
    · intro r hp
      unfold Row.adds
      rw [hw, hwf r hp]
      simp

example : ∃ (s : exH.State) (s' : (unfiltered exH true).State),
    exH.fill none ([exRow "a" (1/2) (some 2), exRow "b" 1 (some 3)].map (filterWeight (fun r => r.w = some 3) true)) = .ok s ∧
    (unfiltered exH true).fill none ([exRow "a" (1/2) (some 2), exRow "b" 1 (some 3)].filter (fun r => r.w = some 3)) = .ok s' ∧
    ∀ gk, gk.length = 1 → ∀ idx, exH.Cell idx →
      (∀ col, col ≤ 0 → exH.read s gk idx col = (unfiltered exH true).read s' gk idx col) ∧
      exH.read s gk idx 1 = (unfiltered exH true).read s' gk idx 1 := by
  apply C16_filter_partial exH true rfl
  exact ⟨fun b hb r hr => exH_fillable.ok b (by simp at hb ⊢; exact Or.inl hb) r hr, Or.inl rfl⟩

/-- C16 does not hold for the groups: a row that does not pass the filter still makes its group. -/
theorem C16_refuted : ¬ ∀ (H : HistDef) (rows : List Row) (pass : Row → Bool), H.wkind = .expr → Fillable H [rows] →
    ∀ s (s' : (unfiltered H true).State), H.fill none (rows.map (filterWeight pass true)) = .ok s →
    (unfiltered H true).fill none (rows.filter pass) = .ok s' →
    ∀ gk, gk.length = H.groups.length → (H.has s gk ↔ (unfiltered H true).has s' gk) := by
  intro h
  have hf : Fillable exH [[exRow "a" (1/2) (some 2), exRow "b" 1 (some 3)]] :=
    ⟨fun b hb r hr => exH_fillable.ok b (by simp at hb ⊢; exact Or.inl hb) r hr, Or.inl rfl⟩
  obtain ⟨s, s', h1, h2, _⟩ := C16_filter_partial exH true rfl _ (fun r => r.w = some 3) hf
  have h := h exH _ _ rfl hf s s' h1 h2 [.str "a"] rfl
  have e1 : (match exH.fill none ([exRow "a" (1/2) (some 2), exRow "b" 1 (some 3)].map (filterWeight (fun r => r.w = some 3) true)) with
      | .ok st => decide (exH.has st [.str "a"])
      | .error _ => false) = true := by decide +kernel
  have e2 : (match (unfiltered exH true).fill none ([exRow "a" (1/2) (some 2), exRow "b" 1 (some 3)].filter (fun r => r.w = some 3)) with
      | .ok st => decide ((unfiltered exH true).has st [.str "a"])
      | .error _ => false) = false := by decide +kernel
  rw [h1] at e1
  rw [h2] at e2
  simp only [decide_eq_true_eq, decide_eq_false_iff_not] at e1 e2
  exact e2 (h.1 e1)

/-! ## C19 -/

theorem cauchy (l : List (ℚ × ℚ)) (hw : ∀ p ∈ l, 0 ≤ p.1) :
    0 ≤ (l.map (fun p => p.1)).sum ∧ 0 ≤ (l.map (fun p => p.1 * p.2 ^ 2)).sum ∧
    (l.map (fun p => p.1 * p.2)).sum ^ 2 ≤ (l.map (fun p => p.1)).sum * (l.map (fun p => p.1 * p.2 ^ 2)).sum := by
  induction l with
  | nil => simp
  | cons p l ih =>
    obtain ⟨hA, hC, hB⟩ := ih (fun q hq => hw q (by simp [hq]))
    have hp := hw p (by simp)
    simp only [List.map_cons, List.sum_cons]
    set A := (l.map (fun p => p.1)).sum
    set B := (l.map (fun p => p.1 * p.2)).sum
    set C := (l.map (fun p => p.1 * p.2 ^ 2)).sum
    obtain ⟨w, x⟩ := p
    simp only at hp ⊢
    refine ⟨by positivity, by positivity, ?_⟩
    have key : 2 * B * x ≤ A * x ^ 2 + C := by
      rcases hA.lt_or_eq with h | h
      · have : 0 ≤ A * (A * x ^ 2 + C - 2 * B * x) := by nlinarith [sq_nonneg (A * x - B)]
        nlinarith [nonneg_of_mul_nonneg_right this h]
      · have hB0 : B = 0 := by
          have : B ^ 2 ≤ 0 := by rw [← h] at hB; linarith
          nlinarith [sq_nonneg B]
        rw [hB0, ← h]; linarith
    nlinarith [mul_le_mul_of_nonneg_left key hp]

/-- C19.  After any sequence of fills of a new histogram, in every group and bin: without weights the
count is a natural number; with weights the sum of their squares is not negative; and if no weight is
negative, the sum of weights is not negative and, for every profile, the square of the sum of `w·x`
is at most the sum of weights times the sum of `w·x²` (so that the variance that `table` takes the
root of is not negative). -/
theorem C19_signs_and_bounds (H : HistDef) (bs : List (List Row)) (hf : Fillable H bs) :
    ∃ st, H.fillAll none bs = .ok st ∧ ∀ gk, gk.length = H.groups.length → ∀ idx, H.Cell idx →
      (H.wkind = .none → ∃ n : ℕ, H.read st gk idx (2 * H.nprof) = n) ∧
      (H.wkind ≠ .none → 0 ≤ H.read st gk idx (2 * H.nprof + 1)) ∧
      ((∀ b ∈ bs, ∀ r ∈ b, 0 ≤ r.weight H.wkind) →
        0 ≤ H.read st gk idx (2 * H.nprof) ∧ ∀ k, k < H.nprof →
          0 ≤ H.read st gk idx (2 * k + 1) ∧
          H.read st gk idx (2 * k) ^ 2 ≤ H.read st gk idx (2 * H.nprof) * H.read st gk idx (2 * k + 1)) := by
  obtain ⟨st, h1, h4⟩ := C11_content_is_sum H bs hf
  refine ⟨st, h1, fun gk hgk idx hidx => ?_⟩
  have h := h4 gk hgk idx hidx
  refine ⟨?_, ?_, ?_⟩
  · intro hw
    refine ⟨(bs.flatten.filter (Row.lands H gk idx)).length, ?_⟩
    rw [h]
    unfold binTotal
    rw [List.map_congr_left (g := fun _ => (1 : ℚ)) (by
      intro r _; simp [Row.adds, Row.weight, hw])]
    rw [List.map_const', List.sum_replicate, nsmul_eq_mul, mul_one]
  · intro hw
    rw [h]
    unfold binTotal
    apply List.sum_nonneg
    intro x hx
    obtain ⟨r, _, rfl⟩ := List.mem_map.1 hx
    unfold Row.adds
    have a1 : ¬ (2 * H.nprof + 1 < 2 * H.nprof) := by omega
    simp only [a1, if_false, Nat.succ_ne_self]
    simp
    positivity
  · intro hw
    have hw' : ∀ r ∈ bs.flatten, 0 ≤ r.weight H.wkind := by
      intro r hr
      obtain ⟨b, hb, hr⟩ := List.mem_flatten.1 hr
      exact hw b hb r hr
    have e0 : H.read st gk idx (2 * H.nprof) = ((bs.flatten.filter (Row.lands H gk idx)).map (fun r => r.weight H.wkind)).sum := by
      rw [h]; unfold binTotal; congr 1; apply List.map_congr_left; intro r _; simp [Row.adds]
    constructor
    · rw [e0]
      apply List.sum_nonneg
      intro x hx
      obtain ⟨r, hr, rfl⟩ := List.mem_map.1 hx
      exact hw' r (List.mem_of_mem_filter hr)
    · intro k hk
      have e1 : H.read st gk idx (2 * k) = ((bs.flatten.filter (Row.lands H gk idx)).map (fun r => r.weight H.wkind * r.xs.getD k 0)).sum := by
        rw [h]; unfold binTotal; congr 1; apply List.map_congr_left; intro r _
        have : 2 * k < 2 * H.nprof := by omega
        simp [Row.adds, this]
      have e2 : H.read st gk idx (2 * k + 1) = ((bs.flatten.filter (Row.lands H gk idx)).map (fun r => r.weight H.wkind * r.xs.getD k 0 ^ 2)).sum := by
        rw [h]; unfold binTotal; congr 1; apply List.map_congr_left; intro r _
        have : 2 * k + 1 < 2 * H.nprof := by omega
        have h2 : (2 * k + 1) / 2 = k := by omega
        have h3 : ¬ ((2 * k + 1) % 2 = 0) := by omega
        simp only [Row.adds, this, if_true, h2, h3, if_false]
      have := cauchy ((bs.flatten.filter (Row.lands H gk idx)).map (fun r => (r.weight H.wkind, r.xs.getD k 0)))
        (by
          intro p hp
          obtain ⟨r, hr, rfl⟩ := List.mem_map.1 hp
          exact hw' r (List.mem_of_mem_filter hr))
      simp only [List.map_map, Function.comp_def] at this
      rw [e0, e1, e2]
      exact this.2

example : ∃ st, exP.fillAll none [[exPRow (1/2) 4, exPRow 1 3], [exPRow (1/3) 5]] = .ok st ∧
    ∀ gk, gk.length = 0 → ∀ idx, exP.Cell idx →
      (exP.wkind = .none → ∃ n : ℕ, exP.read st gk idx 2 = n) ∧
      (exP.wkind ≠ .none → 0 ≤ exP.read st gk idx 3) ∧
      ((∀ b ∈ [[exPRow (1/2) 4, exPRow 1 3], [exPRow (1/3) 5]], ∀ r ∈ b, 0 ≤ r.weight exP.wkind) →
        0 ≤ exP.read st gk idx 2 ∧ ∀ k, k < 1 → 0 ≤ exP.read st gk idx (2 * k + 1) ∧
          exP.read st gk idx (2 * k) ^ 2 ≤ exP.read st gk idx 2 * exP.read st gk idx (2 * k + 1)) :=
  C19_signs_and_bounds exP _ exP_fillable

/-! ## C20 -/

/-- C20, one group axis: after any sequence of fills of a new histogram, a key is present exactly if
some row had it. -/
theorem C20_one_group_axis_partial (H : HistDef) (a : GroupAxis) (hH : H.groups = [a]) (bs : List (List Row)) (hf : Fillable H bs) :
    ∃ st, H.fillAll none bs = .ok st ∧
      ∀ k, H.has st [k] ↔ ∃ r ∈ bs.flatten, inGroup H.groups r.gvals [k] = true := by
  obtain ⟨st, h1, _, h3, _⟩ := fillAll_rows H bs none trivial hf
  refine ⟨st, h1, fun k => ?_⟩
  rw [h3 [k] (by simp [hH])]
  simp only [HistDef.has, false_or]
  have key : ∀ r ∈ bs.flatten, (inGroup H.groups r.gvals [k] = true ↔
      (List.zipWith GroupAxis.key H.groups r.gvals).getD 0 none = some k) := by
    intro r hr
    obtain ⟨b, hb, hr⟩ := List.mem_flatten.1 hr
    have hg := (hf.ok b hb r hr).groups
    rw [hH] at hg ⊢
    obtain ⟨v, hv⟩ : ∃ v, r.gvals = [v] := List.length_eq_one_iff.1 (by simpa using hg.length_eq.symm)
    rw [hv]
    simp [inGroup]
  constructor
  · rintro ⟨b, hb, h⟩
    obtain ⟨r, hr, hk⟩ := h 0 k rfl
    have hm : r ∈ bs.flatten := List.mem_flatten.2 ⟨b, hb, hr⟩
    exact ⟨r, hm, (key r hm).2 hk⟩
  · rintro ⟨r, hm, hk⟩
    obtain ⟨b, hb, hr⟩ := List.mem_flatten.1 hm
    refine ⟨b, hb, fun i k' hi => ?_⟩
    cases i with
    | zero => simp at hi; subst hi; exact ⟨r, hr, (key r hm).1 hk⟩
    | succ i => simp at hi

/-- C20, any number of group axes, exactly: a combination of keys (of all or of the first few group
axes) is present if and only if in some batch each of the keys occurred on its axis, be it in
different rows. -/
theorem C20_groups_exactly (H : HistDef) (bs : List (List Row)) (hf : Fillable H bs) :
    ∃ st, H.fillAll none bs = .ok st ∧ ∀ gk, gk.length ≤ H.groups.length →
      (H.has st gk ↔ ∃ b ∈ bs, ∀ (i : ℕ) (k : Key), gk[i]? = some k → ∃ r ∈ b,
        (List.zipWith GroupAxis.key H.groups r.gvals).getD i none = some k) := by
  obtain ⟨st, h1, _, h3, _⟩ := fillAll_rows H bs none trivial hf
  refine ⟨st, h1, fun gk hgk => ?_⟩
  rw [h3 gk hgk]
  simp [HistDef.has, seenOn]

example : ∃ st, exH.fillAll none [[exRow "a" (1/2) (some 2), exRow "b" 1 (some 3)],
      [exRow "a" (1/3) (some 5), exRow "a" 7 none]] = .ok st ∧
    ∀ k, exH.has st [k] ↔ ∃ r ∈ [[exRow "a" (1/2) (some 2), exRow "b" 1 (some 3)],
      [exRow "a" (1/3) (some 5), exRow "a" 7 none]].flatten, inGroup exH.groups r.gvals [k] = true :=
  C20_one_group_axis_partial exH .groupby rfl _ exH_fillable

/-- C20 does not hold with two group axes: the group (a, d) is present although no row has it. -/
theorem C20_refuted : ¬ ∀ (H : HistDef) (bs : List (List Row)), Fillable H bs → ∀ st, H.fillAll none bs = .ok st →
    ∀ gk, gk.length = H.groups.length → (H.has st gk ↔ ∃ r ∈ bs.flatten, inGroup H.groups r.gvals gk = true) := by
  intro h
  have hf : Fillable exGG [[exGGRow "a" "c", exGGRow "b" "d"]] := by
    refine ⟨?_, Or.inl rfl⟩
    intro b hb r hr
    simp at hb; subst hb; simp at hr
    rcases hr with rfl | rfl <;> exact exGGRow_ok _ _
  obtain ⟨s, h1, _⟩ := fillAll_rows exGG _ none trivial hf
  have := h exGG _ hf s h1 [.str "a", .str "d"] rfl
  have e1 : (match exGG.fillAll none [[exGGRow "a" "c", exGGRow "b" "d"]] with
      | .ok st => decide (exGG.has st [.str "a", .str "d"])
      | .error _ => false) = true := by decide +kernel
  rw [h1] at e1
  simp only [decide_eq_true_eq] at e1
  obtain ⟨r, hr, hk⟩ := this.1 e1
  simp at hr
  rcases hr with rfl | rfl <;> revert hk <;> decide +kernel

end Verif
