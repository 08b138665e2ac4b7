import Verif.SpecFill
import Mathlib.Algebra.BigOperators.Ring.List
import Mathlib.Algebra.BigOperators.Group.List.Lemmas
import Mathlib.Tactic.Ring
import Mathlib.Tactic.Linarith

/-! # Lemmas about filling (helpers for the property theorems) -/

namespace Verif

/-! ## flat index -/

theorem ravel_lt : ∀ {dims idx : List ℕ}, InRange idx dims → ravel dims idx < dims.prod
  | [], [], _ => by simp [ravel]
  | n :: ns, i :: is, h => by
    cases h with
    | cons h1 h2 =>
      have ih := ravel_lt h2
      simp only [ravel, List.prod_cons]
      calc i * ns.prod + ravel ns is < i * ns.prod + ns.prod := by omega
        _ = (i + 1) * ns.prod := by ring
        _ ≤ n * ns.prod := Nat.mul_le_mul_right _ h1

theorem ravel_inj : ∀ {dims idx idx' : List ℕ}, InRange idx dims → InRange idx' dims →
    ravel dims idx = ravel dims idx' → idx = idx'
  | [], [], [], _, _, _ => rfl
  | n :: ns, i :: is, j :: js, h, h', he => by
    cases h with
    | cons h1 h2 =>
      cases h' with
      | cons h1' h2' =>
        have a := ravel_lt h2
        have b := ravel_lt h2'
        simp only [ravel] at he
        have hij : i = j := by
          have e1 : (i * ns.prod + ravel ns is) / ns.prod = i := by
            rw [Nat.mul_comm, Nat.mul_add_div (by omega), Nat.div_eq_of_lt a]; simp
          have e2 : (j * ns.prod + ravel ns js) / ns.prod = j := by
            rw [Nat.mul_comm, Nat.mul_add_div (by omega), Nat.div_eq_of_lt b]; simp
          rw [← e1, ← e2, he]
        subst hij
        rw [ravel_inj h2 h2' (by omega)]

/-- Horner evaluation of the flat index, as the code does it. -/
def horner : List ℕ → List (Option ℤ) → Option ℤ → Option ℤ
  | n :: ns, c :: cs, acc => horner ns cs (flat1 n acc c)
  | _, _, acc => acc

/-- The flat index of an event. -/
def flatOf (dims : List ℕ) (cells : List (Option ℤ)) : Option ℤ :=
  match dims, cells with
  | _ :: ns, c :: cs => horner ns cs c
  | _, _ => none

theorem horner_none : ∀ (ns : List ℕ) (cs : List (Option ℤ)), horner ns cs none = none
  | [], [] => rfl
  | [], _ :: _ => rfl
  | _ :: _, [] => rfl
  | n :: ns, c :: cs => by simp [horner, flat1, horner_none ns cs]

theorem horner_some : ∀ (ns : List ℕ) (is : List ℕ) (acc : ℕ), ns.length = is.length →
    horner ns (is.map (fun i : ℕ => some (i : ℤ))) (some (acc : ℤ)) = some ((acc * ns.prod + ravel ns is : ℕ) : ℤ)
  | [], [], acc, _ => by simp [horner, ravel]
  | n :: ns, i :: is, acc, h => by
    have ih := horner_some ns is (acc * n + i) (by simpa using h)
    simp only [List.map_cons, horner, flat1, ravel, List.prod_cons]
    rw [show (acc : ℤ) * n + i = ((acc * n + i : ℕ) : ℤ) by push_cast; rfl, ih]
    congr 2; ring

theorem horner_masked : ∀ (ns : List ℕ) (cs : List (Option ℤ)) (acc : Option ℤ), ns.length = cs.length →
    none ∈ cs → horner ns cs acc = none
  | [], [], _, _, h => by simp at h
  | n :: ns, c :: cs, acc, hl, h => by
    simp only [horner]
    rcases List.mem_cons.1 h with h | h
    · subst h
      cases acc <;> exact horner_none ns cs
    · exact horner_masked ns cs _ (by simpa using hl) h

theorem cells_cases : ∀ {dims : List ℕ} {cells : List (Option ℤ)},
    List.Forall₂ (fun (c : Option ℤ) (n : ℕ) => ∀ i, c = some i → 0 ≤ i ∧ i < n) cells dims →
    none ∈ cells ∨ ∃ idx, InRange idx dims ∧ cells = idx.map (fun i : ℕ => some (i : ℤ))
  | [], [], _ => Or.inr ⟨[], List.Forall₂.nil, rfl⟩
  | n :: ns, c :: cs, h => by
    cases h with
    | cons h1 h2 =>
      rcases cells_cases h2 with h | ⟨idx, hr, rfl⟩
      · exact Or.inl (List.mem_cons_of_mem _ h)
      · cases c with
        | none => exact Or.inl (List.mem_cons_self)
        | some i =>
          have ⟨h0, h1⟩ := h1 i rfl
          refine Or.inr ⟨i.toNat :: idx, List.Forall₂.cons (by omega) hr, ?_⟩
          simp [Int.toNat_of_nonneg h0]

/-- The flat index is the row-major position when the event is in a bin of every axis and masked
otherwise. -/
theorem flatOf_eq {dims : List ℕ} {cells : List (Option ℤ)} (hd : dims ≠ [])
    (h : List.Forall₂ (fun (c : Option ℤ) (n : ℕ) => ∀ i, c = some i → 0 ≤ i ∧ i < n) cells dims) :
    (none ∈ cells ∧ flatOf dims cells = none) ∨
    ∃ idx, InRange idx dims ∧ cells = idx.map (fun i : ℕ => some (i : ℤ)) ∧
      flatOf dims cells = some ((ravel dims idx : ℕ) : ℤ) := by
  rcases cells_cases h with hm | ⟨idx, hr, rfl⟩
  · refine Or.inl ⟨hm, ?_⟩
    cases h with
    | nil => exact absurd rfl hd
    | cons h1 h2 =>
      simp only [flatOf]
      rcases List.mem_cons.1 hm with hm | hm
      · rw [← hm]; exact horner_none _ _
      · exact horner_masked _ _ _ h2.length_eq.symm hm
  · refine Or.inr ⟨idx, hr, rfl, ?_⟩
    cases hr with
    | nil => exact absurd rfl hd
    | cons h1 h2 =>
      simp only [List.map_cons, flatOf, ravel]
      exact horner_some _ _ _ h2.length_eq.symm

theorem flatOf_iff {dims : List ℕ} {cells : List (Option ℤ)} (hd : dims ≠ [])
    (h : List.Forall₂ (fun (c : Option ℤ) (n : ℕ) => ∀ i, c = some i → 0 ≤ i ∧ i < n) cells dims)
    {idx : List ℕ} (hi : InRange idx dims) :
    flatOf dims cells = some ((ravel dims idx : ℕ) : ℤ) ↔ cells = idx.map (fun i : ℕ => some (i : ℤ)) := by
  rcases flatOf_eq hd h with ⟨hm, he⟩ | ⟨idx', hr, rfl, he⟩
  · rw [he]
    constructor
    · intro h; cases h
    · rintro rfl; simp at hm
  · rw [he]
    constructor
    · intro h
      have h : ravel dims idx' = ravel dims idx := by simpa using h
      rw [ravel_inj hr hi h]
    · intro h
      have : idx' = idx := by
        have hinj : Function.Injective (fun i : ℕ => some (i : ℤ)) := by
          intro a b h; simpa using h
        exact List.map_injective_iff.2 hinj h
      rw [this]

theorem flatStep_map {α : Type} (es : List α) (n : ℕ) (f g : α → Option ℤ) :
    flatStep n (es.map f) (es.map g) = .ok (es.map (fun e => flat1 n (f e) (g e))) := by
  unfold flatStep
  simp only [List.length_map, if_true]
  congr 1
  induction es with
  | nil => rfl
  | cons e es ih => simp [ih]

theorem flatRest_map {α : Type} (es : List α) (cells : α → List (Option ℤ)) (shape : List ℕ) :
    ∀ (m k : ℕ) (ns : List ℕ), ∀ (t : List ℕ), shape.drop k = ns ++ t → ns.length = m →
    (∀ e ∈ es, (cells e).length = k + m) → ∀ (f : α → Option ℤ),
    flatRest shape ((List.range m).map (· + k))
      ((List.range m).map (fun i => some (es.map (fun e => (cells e).getD (i + k) none)))) (some (es.map f)) =
      .ok (some (es.map (fun e => horner ns ((cells e).drop k) (f e)))) := by
  intro m
  induction m with
  | zero =>
    intro k ns t hk hn hc f
    have : ns = [] := List.length_eq_zero_iff.1 hn
    subst this
    simp only [List.range_zero, List.map_nil, flatRest]
    simp [horner]
  | succ m ih =>
    intro k ns t hk hn hc f
    cases ns with
    | nil => simp at hn
    | cons n ns =>
      have hsk : shape[k]? = some n := by
        have : (shape.drop k)[0]? = some n := by rw [hk]; rfl
        simpa [List.getElem?_drop] using this
      have hk' : shape.drop (k + 1) = ns ++ t := by
        rw [← List.drop_drop, hk]; rfl
      rw [List.range_succ_eq_map]
      simp only [List.map_cons, List.map_map, flatRest, Nat.zero_add, hsk, flatStep_map]
      have ih := ih (k + 1) ns t hk' (by simpa using hn) (fun e he => by rw [hc e he]; omega)
        (fun e => flat1 n (f e) ((cells e).getD k none))
      have e1 : (List.range m).map ((fun x => x + k) ∘ Nat.succ) = (List.range m).map (· + (k + 1)) := by
        apply List.map_congr_left; intro i _; simp; omega
      have e2 : (List.range m).map ((fun i => some (es.map (fun e => (cells e).getD (i + k) none))) ∘ Nat.succ) =
          (List.range m).map (fun i => some (es.map (fun e => (cells e).getD (i + (k + 1)) none))) := by
        apply List.map_congr_left; intro i _; simp [Nat.succ_eq_add_one, Nat.add_right_comm, Nat.add_assoc, Nat.add_comm 1 k]
      rw [e1, e2, ih]
      congr 2
      apply List.map_congr_left
      intro e he
      have hl := hc e he
      have : (cells e).drop k = (cells e).getD k none :: (cells e).drop (k + 1) := by
        rw [List.drop_eq_getElem_cons (by omega)]
        simp [List.getElem?_eq_getElem (show k < (cells e).length by omega)]
      rw [this]
      rfl

/-- The flat indexes of a list of events. -/
theorem flatIndexes_map {α : Type} (es : List α) (cells : α → List (Option ℤ)) (ng : ℕ) (dims : List ℕ) (np : ℕ)
    (wk : WKind) (hc : ∀ e ∈ es, (cells e).length = dims.length) :
    flatIndexes (Layout.make ng dims np wk)
      ((List.range dims.length).map (fun k => some (es.map (fun e => (cells e).getD k none)))) =
    .ok (if dims = [] then none else some (es.map (fun e => flatOf dims (cells e)))) := by
  cases dims with
  | nil => rfl
  | cons n ns =>
    unfold flatIndexes
    simp only [Layout.make, List.length_cons, List.range_succ_eq_map, List.map_cons, List.map_map]
    have h := flatRest_map es cells (Layout.make ng (n :: ns) np wk).shape ns.length 1 ns [(Layout.make ng (n :: ns) np wk).ncols]
      (by simp [Layout.shape, Layout.make])
      rfl (fun e he => by rw [hc e he]; simp [Nat.add_comm]) (fun e => (cells e).getD 0 none)
    have e1 : (List.range ns.length).map Nat.succ = (List.range ns.length).map (· + 1) := rfl
    rw [e1]
    rw [if_neg (by simp)]
    simp only [Layout.make] at h
    have e2 : (List.range ns.length).map ((fun k => some (es.map (fun e => (cells e).getD k none))) ∘ Nat.succ) =
        (List.range ns.length).map (fun i => some (es.map (fun e => (cells e).getD (i + 1) none))) := rfl
    rw [e2]
    simp only [List.length_cons, List.range_succ_eq_map, List.map_map] at h
    rw [h]
    congr 2
    apply List.map_congr_left
    intro e he
    have hl := hc e he
    cases hce : cells e with
    | nil => rw [hce] at hl; simp at hl
    | cons c cs => simp [flatOf]

/-! ## numpy.add.at -/

/-- Sum of the values whose row is `r`. -/
def rowSum (l : List (ℕ × ℚ)) (r : ℕ) : ℚ := ((l.filter (fun p => decide (p.1 = r))).map (·.2)).sum

theorem addAtLoop_shape (col : ℕ) : ∀ (l : List (ℕ × ℚ)) (a : Arr),
    (addAtLoop col a l).shape = a.shape ∧ (addAtLoop col a l).ncols = a.ncols
  | [], _ => ⟨rfl, rfl⟩
  | (_, _) :: rest, a => addAtLoop_shape col rest _

theorem addAtLoop_get (col : ℕ) : ∀ (l : List (ℕ × ℚ)) (a : Arr) (idx : List ℕ) (c : ℕ),
    (addAtLoop col a l).get idx c = a.get idx c + if c = col then rowSum l (ravel a.shape idx) else 0
  | [], a, idx, c => by simp [addAtLoop, rowSum]
  | (r, v) :: rest, a, idx, c => by
    simp only [addAtLoop]
    rw [addAtLoop_get col rest]
    simp only [Arr.addRow, rowSum, List.filter_cons]
    by_cases hc : c = col
    · by_cases hr : ravel a.shape idx = r
      · simp [hc, hr]; ring
      · have : ¬ r = ravel a.shape idx := fun h => hr h.symm
        simp [hc, hr, this]
        rfl
    · simp [hc]

/-- `addAt` on checked indexes. -/
theorem addAt_ok (a : Arr) (col : ℕ) (rs : List ℕ) (vs vs' : List ℚ) (hrs : ∀ r ∈ rs, r < a.rows)
    (hvs : broadcastTo rs.length vs = some vs') :
    a.addAt col (rs.map (fun r : ℕ => (r : ℤ))) vs = .ok (addAtLoop col a (List.zip rs vs')) := by
  unfold Arr.addAt
  rw [List.length_map, hvs]
  have : (rs.map (fun r : ℕ => (r : ℤ))).mapM (normIndex a.rows) = some rs := by
    clear hvs
    induction rs with
    | nil => rfl
    | cons r rs ih =>
      have h1 : normIndex a.rows (r : ℤ) = some r := by
        have := hrs r (List.mem_cons_self)
        unfold normIndex
        rw [if_pos (by omega)]; simp
      have h2 := ih (fun r hr => hrs r (List.mem_cons_of_mem _ hr))
      simp [List.mapM_cons, h1, h2]
  rw [this]

/-! ## boolean selection -/

theorem compress_map {α β : Type} (es : List α) (f : α → β) (p : α → Bool) :
    compress (es.map f) (es.map p) = .ok ((es.filter p).map f) := by
  unfold compress
  simp only [List.length_map, if_true]
  congr 1
  induction es with
  | nil => rfl
  | cons e es ih =>
    simp only [List.map_cons, List.zip_cons_cons, List.filterMap_cons, List.filter_cons]
    cases p e <;> simp [ih]

/-! ## one block -/

/-- `weight` and `weight2` of a list of events. -/
def wOf (L : Layout) (es : List Event) : W :=
  if L.wkind = .none then .one else .arr (es.map (Event.weight L.wkind)) (es.map (fun e => e.weight L.wkind ^ 2))

/-- Flat row of an event, also when there are no fixed axes. -/
def rowOf (L : Layout) (e : Event) : Option ℤ := if L.dims = [] then some 0 else flatOf L.dims e.cells

theorem rowOf_eq (L : Layout) (e : Event) (h : e.Fits L) :
    (rowOf L e = none ∧ none ∈ e.cells) ∨ ∃ idx, InRange idx L.dims ∧
      e.cells = idx.map (fun i : ℕ => some (i : ℤ)) ∧ rowOf L e = some ((ravel L.dims idx : ℕ) : ℤ) := by
  unfold rowOf
  by_cases hd : L.dims = []
  · have h2 := h.2.2
    rw [hd] at h2 ⊢
    have hc := List.forall₂_nil_right_iff.1 h2
    exact Or.inr ⟨[], List.Forall₂.nil, hc, by simp [ravel]⟩
  · rw [if_neg hd]
    rcases flatOf_eq hd h.2.2 with ⟨h1, h2⟩ | h'
    · exact Or.inl ⟨h2, h1⟩
    · exact Or.inr h'

theorem rowOf_iff (L : Layout) (e : Event) (h : e.Fits L) {idx : List ℕ} (hi : InRange idx L.dims) :
    rowOf L e = some ((ravel L.dims idx : ℕ) : ℤ) ↔ e.cells = idx.map (fun i : ℕ => some (i : ℤ)) := by
  unfold rowOf
  by_cases hd : L.dims = []
  · have h2 := h.2.2
    rw [hd] at h2 hi ⊢
    have hc := List.forall₂_nil_right_iff.1 h2
    have hi' := List.forall₂_nil_right_iff.1 hi
    simp [ravel, hc, hi']
  · rw [if_neg hd]
    exact flatOf_iff hd h.2.2 hi

/-- The unmasked rows as natural numbers. -/
def natRows (L : Layout) (es : List Event) : List ℕ := (es.filterMap (rowOf L)).map Int.toNat

theorem compressed_rows (L : Layout) (es : List Event) (h : ∀ e ∈ es, e.Fits L) :
    compressed (es.map (rowOf L)) = (natRows L es).map (fun r : ℕ => (r : ℤ)) ∧
    ∀ r ∈ natRows L es, r < L.dims.prod := by
  have hnn : ∀ i ∈ es.filterMap (rowOf L), 0 ≤ i ∧ i < (L.dims.prod : ℤ) := by
    intro i hi
    obtain ⟨e, he, hei⟩ := List.mem_filterMap.1 hi
    rcases rowOf_eq L e (h e he) with ⟨h1, _⟩ | ⟨idx, hr, _, h1⟩
    · rw [h1] at hei; cases hei
    · rw [h1] at hei
      cases hei
      have := ravel_lt hr
      constructor <;> omega
  constructor
  · unfold compressed natRows
    rw [List.filterMap_map, List.map_map]
    have : (id ∘ rowOf L) = rowOf L := rfl
    rw [this]
    conv_lhs => rw [← List.map_id (es.filterMap (rowOf L))]
    apply List.map_congr_left
    intro i hi
    have := hnn i hi
    simp [Int.toNat_of_nonneg this.1]
  · intro r hr
    unfold natRows at hr
    obtain ⟨i, hi, rfl⟩ := List.mem_map.1 hr
    have := hnn i hi
    omega

/-- The unmasked events. -/
def inBins (L : Layout) (es : List Event) : List Event := es.filter (fun e => (rowOf L e).isSome)

theorem natRows_inBins (L : Layout) (es : List Event) :
    natRows L es = (inBins L es).map (fun e => ((rowOf L e).getD 0).toNat) := by
  unfold natRows inBins
  induction es with
  | nil => rfl
  | cons e es ih =>
    simp only [List.filterMap_cons, List.filter_cons]
    cases hr : rowOf L e with
    | none => simpa using ih
    | some i => simp [hr, ih]

/-- Sum over the events of a bin. -/
theorem rowSum_events (L : Layout) (es : List Event) (h : ∀ e ∈ es, e.Fits L) (v : Event → ℚ)
    {idx : List ℕ} (hi : InRange idx L.dims) :
    rowSum (List.zip (natRows L es) ((inBins L es).map v)) (ravel L.dims idx) =
      ((es.filter (fun e => decide (e.cells = idx.map (fun i : ℕ => some (i : ℤ))))).map v).sum := by
  rw [natRows_inBins]
  unfold rowSum inBins
  induction es with
  | nil => rfl
  | cons e es ih =>
    have ih := ih (fun e he => h e (List.mem_cons_of_mem _ he))
    have he := h e (List.mem_cons_self)
    have hiff := rowOf_iff L e he hi
    simp only [List.filter_cons]
    rcases rowOf_eq L e he with ⟨h1, h2⟩ | ⟨idx', hr', hc', h1⟩
    · have hne : ¬ e.cells = idx.map (fun i : ℕ => some (i : ℤ)) := by
        rw [← hiff, h1]; simp
      simp only [h1, Option.isSome_none, Bool.false_eq_true, if_false, hne, decide_false]
      exact ih
    · simp only [h1, Option.isSome_some, if_true, List.zip_cons_cons, List.map_cons, List.filter_cons]
      simp only [h1, Option.getD_some, Int.toNat_natCast]
      by_cases hh : ravel L.dims idx' = ravel L.dims idx
      · have : e.cells = idx.map (fun i : ℕ => some (i : ℤ)) := hiff.1 (by rw [h1, hh])
        simp only [hh, decide_true, if_true, List.map_cons, List.sum_cons, this]
        rw [← ih]
      · have : ¬ e.cells = idx.map (fun i : ℕ => some (i : ℤ)) := by
          rw [← hiff, h1]; simpa using hh
        simp only [hh, decide_false, Bool.false_eq_true, if_false, this]
        exact ih

theorem unmask_wOf (L : Layout) (es : List Event) :
    (wOf L es).unmask (es.map (rowOf L)) = .ok (wOf L (inBins L es)) := by
  unfold wOf
  by_cases h : L.wkind = .none
  · simp [h, W.unmask]
  · simp only [h, if_false, W.unmask, unmasked, List.map_map]
    rw [compress_map es _ (Option.isSome ∘ rowOf L), compress_map es _ (Option.isSome ∘ rowOf L)]
    rfl

theorem natRows_length (L : Layout) (es : List Event) : (natRows L es).length = (inBins L es).length := by
  rw [natRows_inBins, List.length_map]

/-- `addAt` of one value per event in a bin. -/
theorem addAt_events (L : Layout) (es : List Event) (h : ∀ e ∈ es, e.Fits L) (a : Arr) (ha : a.shape = L.dims)
    (col : ℕ) (v : Event → ℚ) :
    ∃ a', a.addAt col (compressed (es.map (rowOf L))) ((inBins L es).map v) = .ok a' ∧
      a'.shape = a.shape ∧ a'.ncols = a.ncols ∧
      ∀ idx, InRange idx L.dims → ∀ c, a'.get idx c = a.get idx c + if c = col then
        ((es.filter (fun e => decide (e.cells = idx.map (fun i : ℕ => some (i : ℤ))))).map v).sum else 0 := by
  obtain ⟨h1, h2⟩ := compressed_rows L es h
  refine ⟨addAtLoop col a (List.zip (natRows L es) ((inBins L es).map v)), ?_, ?_⟩
  · rw [h1]
    apply addAt_ok
    · intro r hr; rw [Arr.rows, ha]; exact h2 r hr
    · unfold broadcastTo; rw [if_pos]; simp [natRows_length]
  · refine ⟨(addAtLoop_shape col _ a).1, (addAtLoop_shape col _ a).2, ?_⟩
    intro idx hi c
    rw [addAtLoop_get, ha, rowSum_events L es h v hi]

/-- `addAt` of the number one. -/
theorem addAt_ones (L : Layout) (es : List Event) (h : ∀ e ∈ es, e.Fits L) (a : Arr) (ha : a.shape = L.dims)
    (col : ℕ) :
    ∃ a', a.addAt col (compressed (es.map (rowOf L))) [1] = .ok a' ∧
      a'.shape = a.shape ∧ a'.ncols = a.ncols ∧
      ∀ idx, InRange idx L.dims → ∀ c, a'.get idx c = a.get idx c + if c = col then
        ((es.filter (fun e => decide (e.cells = idx.map (fun i : ℕ => some (i : ℤ))))).map (fun _ => 1)).sum else 0 := by
  obtain ⟨a', h1, h2⟩ := addAt_events L es h a ha col (fun _ => 1)
  refine ⟨a', ?_, h2⟩
  rw [← h1]
  unfold Arr.addAt
  have hl : (compressed (es.map (rowOf L))).length = (inBins L es).length := by
    rw [(compressed_rows L es h).1, List.length_map, natRows_length]
  have e1 : broadcastTo (compressed (es.map (rowOf L))).length [1] = some (List.replicate (inBins L es).length 1) := by
    rw [hl]; unfold broadcastTo
    by_cases hh : (inBins L es).length = 1
    · simp [hh]
    · rw [if_neg (fun h => hh (by simpa using h.symm))]
  have e2 : broadcastTo (compressed (es.map (rowOf L))).length ((inBins L es).map (fun _ => (1 : ℚ))) =
      some (List.replicate (inBins L es).length 1) := by
    rw [hl]; unfold broadcastTo; simp
  rw [e1, e2]

/-- Sum over the events of a bin, by bin. -/
def binSum (es : List Event) (idx : List ℕ) (v : Event → ℚ) : ℚ :=
  ((es.filter (fun e => decide (e.cells = idx.map (fun i : ℕ => some (i : ℤ))))).map v).sum

/-- The profile columns that belong to a list of events. -/
def profCols (es : List Event) (k : ℕ) : Option (List ℚ) × Option (List ℚ) :=
  (some (es.map (fun e => e.xs.getD k 0)), some (es.map (fun e => e.xs.getD k 0 ^ 2)))

/-- The rows that belong to a list of events on a histogram with dimensions `dims`; `top` says that
no group axis has been seen yet. -/
def rowsOf (L : Layout) (es : List Event) (top : Bool) : Rows :=
  ⟨if L.dims = [] ∧ top = true then none else some (es.map (rowOf L)),
   (List.range L.nprof).map (profCols es), wOf L es⟩

theorem mulArr_map (es : List Event) (f g : Event → ℚ) :
    mulArr (es.map f) (es.map g) = .ok (es.map (fun e => f e * g e)) := by
  unfold mulArr
  simp only [List.length_map, if_true]
  congr 1
  induction es with
  | nil => rfl
  | cons e es ih => simp [ih]

theorem scale_wOf (L : Layout) (es : List Event) (f : Event → ℚ) :
    (wOf L es).scale (es.map f) = .ok (es.map (fun e => e.weight L.wkind * f e)) := by
  unfold wOf
  by_cases h : L.wkind = .none
  · simp [h, W.scale, Event.weight]
  · simp only [h, if_false, W.scale, mulArr_map]
    congr 2
    funext e; ring

theorem getD_rows (L : Layout) (es : List Event) (is : Option (List (Option ℤ)))
    (his : is = some (es.map (rowOf L)) ∨ (is = none ∧ L.dims = [])) (n : ℕ) (hn : n = es.length) :
    is.getD (List.replicate n (some 0)) = es.map (rowOf L) := by
  rcases his with h | ⟨h, hd⟩
  · rw [h]; rfl
  · rw [h]
    unfold rowOf
    simp [hd, hn]

theorem profLoop_events (L : Layout) (es : List Event) (h : ∀ e ∈ es, e.Fits L) (hall : inBins L es = es) :
    ∀ (ks : List ℕ) (a : Arr) (is : Option (List (Option ℤ))), a.shape = L.dims →
    (is = some (es.map (rowOf L)) ∨ (is = none ∧ L.dims = [])) →
    ∃ a' is', profLoop (ks.map (fun k => (profCols es k, 2 * k))) a is (wOf L es) = .ok (a', is', wOf L es) ∧
      a'.shape = a.shape ∧ a'.ncols = a.ncols ∧
      (is' = some (es.map (rowOf L)) ∨ (is' = none ∧ L.dims = [])) ∧ (is' = none → is = none) ∧
      ∀ idx, InRange idx L.dims → ∀ c, a'.get idx c = a.get idx c +
        (ks.map (fun k => (if c = 2 * k then binSum es idx (fun e => e.weight L.wkind * e.xs.getD k 0) else 0) +
          (if c = 2 * k + 1 then binSum es idx (fun e => e.weight L.wkind * e.xs.getD k 0 ^ 2) else 0))).sum := by
  intro ks
  induction ks with
  | nil =>
    intro a is ha his
    exact ⟨a, is, rfl, rfl, rfl, his, id, fun idx _ c => by simp⟩
  | cons k ks ih =>
    intro a is ha his
    obtain ⟨a1, e1, s1, n1, g1⟩ := addAt_events L es h a ha (2 * k) (fun e => e.weight L.wkind * e.xs.getD k 0)
    obtain ⟨a2, e2, s2, n2, g2⟩ := addAt_events L es h a1 (by rw [s1, ha]) (2 * k + 1)
      (fun e => e.weight L.wkind * e.xs.getD k 0 ^ 2)
    obtain ⟨a3, is3, e3, s3, n3, i3, j3, g3⟩ := ih a2 (some (es.map (rowOf L))) (by rw [s2, s1, ha]) (Or.inl rfl)
    refine ⟨a3, is3, ?_, by rw [s3, s2, s1], by rw [n3, n2, n1], i3, fun h => absurd (j3 h) (by simp), ?_⟩
    · have hg := getD_rows L es is his (es.map (fun e => e.xs.getD k 0)).length (by simp)
      rw [hall] at e1 e2
      simp only [List.map_cons, profCols, profLoop, hg, unmask_wOf, hall, scale_wOf, e1, e2]
      exact e3
    · intro idx hi c
      rw [g3 idx hi c, g2 idx hi c, g1 idx hi c]
      simp only [List.map_cons, List.sum_cons, binSum]
      ring

theorem sum_cols (n : ℕ) (S S2 : ℕ → ℚ) (c : ℕ) :
    ((List.range n).map (fun k => (if c = 2 * k then S k else 0) + (if c = 2 * k + 1 then S2 k else 0))).sum =
      if c < 2 * n then (if c % 2 = 0 then S (c / 2) else S2 (c / 2)) else 0 := by
  induction n with
  | zero => simp
  | succ n ih =>
    rw [List.range_succ, List.map_append, List.sum_append, ih]
    simp only [List.map_cons, List.map_nil, List.sum_cons, List.sum_nil, add_zero]
    by_cases h1 : c < 2 * n
    · have a1 : ¬ c = 2 * n := by omega
      have a2 : ¬ c = 2 * n + 1 := by omega
      have a3 : c < 2 * (n + 1) := by omega
      simp only [h1, a1, a2, a3, if_true, if_false, add_zero]
    · rw [if_neg h1]
      by_cases h2 : c = 2 * n
      · rw [if_pos h2, if_neg (by omega), if_pos (by omega), if_pos (by omega)]
        rw [show c / 2 = n by omega]; ring
      · by_cases h3 : c = 2 * n + 1
        · rw [if_neg h2, if_pos h3, if_pos (by omega), if_neg (by omega)]
          rw [show c / 2 = n by omega]; ring
        · rw [if_neg h2, if_neg h3, if_neg (by omega)]; ring

theorem fillCounts_events (L : Layout) (es : List Event) (h : ∀ e ∈ es, e.Fits L) (a : Arr)
    (is : Option (List (Option ℤ))) (ha : a.shape = L.dims) (len : ℕ) (hlen : is = none → len = es.length)
    (his : is = some (es.map (rowOf L)) ∨ (is = none ∧ L.dims = [])) :
    ∃ a', fillCounts L len a is (wOf L es) = .ok a' ∧ a'.shape = a.shape ∧ a'.ncols = a.ncols ∧
      ∀ idx, InRange idx L.dims → ∀ c, a'.get idx c = a.get idx c +
        ((if c = L.sumw then binSum es idx (Event.weight L.wkind) else 0) +
         (if c = L.sumw2 ∧ L.wkind ≠ .none then binSum es idx (fun e => e.weight L.wkind ^ 2) else 0)) := by
  by_cases hw : L.wkind = .none
  · have hone : (Event.weight L.wkind) = fun _ => 1 := by funext e; rw [hw]; rfl
    rcases his with h' | ⟨h', hd⟩
    · subst h'
      obtain ⟨a1, e1, s1, n1, g1⟩ := addAt_ones L es h a ha L.sumw
      refine ⟨a1, ?_, s1, n1, ?_⟩
      · simp only [wOf, hw, if_true, fillCounts, e1]
      · intro idx hi c
        rw [g1 idx hi c, hone]
        simp [hw, binSum]
    · subst h'
      refine ⟨a.addAllRows L.sumw len, by simp only [wOf, hw, if_true, fillCounts], rfl, rfl, ?_⟩
      intro idx hi c
      rw [hone]
      simp only [Arr.addAllRows, hw, ne_eq, not_true, and_false, if_false, add_zero]
      congr 1
      have hi' : idx = [] := by rw [hd] at hi; exact List.forall₂_nil_right_iff.1 hi
      have hf : es.filter (fun e => decide (e.cells = idx.map (fun i : ℕ => some (i : ℤ)))) = es := by
        rw [List.filter_eq_self]
        intro e he
        have := (h e he).2.2
        rw [hd] at this
        have := List.forall₂_nil_right_iff.1 this
        simp [this, hi']
      rw [binSum, hf, hlen rfl]
      simp
  · obtain ⟨a1, e1, s1, n1, g1⟩ := addAt_events L es h a ha L.sumw (Event.weight L.wkind)
    obtain ⟨a2, e2, s2, n2, g2⟩ := addAt_events L es h a1 (by rw [s1, ha]) L.sumw2 (fun e => e.weight L.wkind ^ 2)
    refine ⟨a2, ?_, by rw [s2, s1], by rw [n2, n1], ?_⟩
    · have hg := getD_rows L es is his (es.map (Event.weight L.wkind)).length (by simp)
      have hu := unmask_wOf L es
      simp only [wOf, hw, if_false] at hu
      simp only [wOf, hw, if_false, fillCounts, hg, hu, e1, e2]
    · intro idx hi c
      rw [g2 idx hi c, g1 idx hi c]
      simp only [binSum, hw, ne_eq, not_false_eq_true, and_true]
      ring

theorem binSum_acc (L : Layout) (es : List Event) (idx : List ℕ) (c : ℕ) :
    (if c < 2 * L.nprof then (if c % 2 = 0 then binSum es idx (fun e => e.weight L.wkind * e.xs.getD (c / 2) 0)
        else binSum es idx (fun e => e.weight L.wkind * e.xs.getD (c / 2) 0 ^ 2)) else 0) +
      ((if c = L.sumw then binSum es idx (Event.weight L.wkind) else 0) +
         (if c = L.sumw2 ∧ L.wkind ≠ .none then binSum es idx (fun e => e.weight L.wkind ^ 2) else 0)) =
    binSum es idx (fun e => e.acc L c) := by
  unfold Event.acc Layout.sumw Layout.sumw2
  by_cases h1 : c < 2 * L.nprof
  · have a1 : ¬ c = 2 * L.nprof := by omega
    have a2 : ¬ c = 2 * L.nprof + 1 := by omega
    by_cases h2 : c % 2 = 0 <;> simp [h1, h2, a1, a2]
  · by_cases h2 : c = 2 * L.nprof
    · have a2 : ¬ c = 2 * L.nprof + 1 := by omega
      simp only [h1, if_true, if_false, a2, false_and]
      simp [h2]
    · by_cases h3 : c = 2 * L.nprof + 1 ∧ L.wkind ≠ .none
      · simp only [h1, h2, if_false, if_true, h3]
        simp [h3.2]
      · simp only [h1, h2, if_false, h3]; simp [binSum]

/-- One block: every event is added to its bin. -/
theorem fillblock_events (ng : ℕ) (dims : List ℕ) (np : ℕ) (wk : WKind) (es : List Event)
    (h : ∀ e ∈ es, e.Fits (Layout.make ng dims np wk))
    (hp : np = 0 ∨ ∀ e ∈ es, none ∉ e.cells) (a : Arr) (ha : a.shape = dims) (len : ℕ)
    (is : Option (List (Option ℤ))) (hlen : is = none → len = es.length)
    (his : is = some (es.map (rowOf (Layout.make ng dims np wk))) ∨ (is = none ∧ dims = [])) :
    ∃ a', fillblock (Layout.make ng dims np wk) len a is ((List.range np).map (profCols es))
        (wOf (Layout.make ng dims np wk) es) = .ok a' ∧ a'.shape = a.shape ∧ a'.ncols = a.ncols ∧
      ∀ idx, InRange idx dims → ∀ c, a'.get idx c = a.get idx c +
        binSum es idx (fun e => e.acc (Layout.make ng dims np wk) c) := by
  set L := Layout.make ng dims np wk with hL
  have hzip : List.zip ((List.range np).map (profCols es)) L.pidx =
      (List.range np).map (fun k => (profCols es k, 2 * k)) := by
    simp only [hL, Layout.make, List.zip_map']
  have hstep : ∃ a1 is1, profLoop ((List.range np).map (fun k => (profCols es k, 2 * k))) a is (wOf L es) =
      .ok (a1, is1, wOf L es) ∧ a1.shape = a.shape ∧ a1.ncols = a.ncols ∧
      (is1 = some (es.map (rowOf L)) ∨ (is1 = none ∧ L.dims = [])) ∧ (is1 = none → is = none) ∧
      ∀ idx, InRange idx L.dims → ∀ c, a1.get idx c = a.get idx c +
        ((List.range np).map (fun k => (if c = 2 * k then binSum es idx (fun e => e.weight L.wkind * e.xs.getD k 0) else 0) +
          (if c = 2 * k + 1 then binSum es idx (fun e => e.weight L.wkind * e.xs.getD k 0 ^ 2) else 0))).sum := by
    rcases hp with hp | hp
    · subst hp
      exact ⟨a, is, rfl, rfl, rfl, his, id, fun idx _ c => by simp⟩
    · apply profLoop_events L es h _ _ a is ha his
      unfold inBins
      rw [List.filter_eq_self]
      intro e he
      rcases rowOf_eq L e (h e he) with ⟨_, h2⟩ | ⟨_, _, _, h2⟩
      · exact absurd h2 (hp e he)
      · rw [h2]; rfl
  obtain ⟨a1, is1, e1, s1, n1, i1, j1, g1⟩ := hstep
  obtain ⟨a2, e2, s2, n2, g2⟩ := fillCounts_events L es h a1 is1 (by rw [s1, ha]; rfl) len (fun h => hlen (j1 h)) i1
  refine ⟨a2, ?_, by rw [s2, s1], by rw [n2, n1], ?_⟩
  · unfold fillblock
    rw [hzip, e1]
    exact e2
  · intro idx hi c
    rw [g2 idx hi c, g1 idx hi c, sum_cols, ← binSum_acc, add_assoc]
    rfl

/-! ## nested groups -/

theorem dget_dset {β : Type} (d : List (Key × β)) (k k' : Key) (v : β) :
    dget (dset d k v) k' = if k' = k then some v else dget d k' := by
  unfold dset
  split
  · rename_i h
    induction d with
    | nil => simp at h
    | cons p d ih =>
      unfold dget at ih ⊢
      simp only [List.map_cons, List.find?_cons]
      by_cases hp : p.1 = k
      · simp only [hp, if_true]
        by_cases hk : k' = k
        · simp [hk]
        · have : ¬ k = k' := fun h => hk h.symm
          simp only [this, decide_false, hk, if_false]
          clear ih h
          induction d with
          | nil => rfl
          | cons q d ih2 =>
            simp only [List.map_cons, List.find?_cons]
            by_cases hq : q.1 = k
            · simp only [hq, if_true, this, decide_false]; exact ih2
            · simp only [hq, if_false]
              by_cases hq' : q.1 = k'
              · simp [hq']
              · simp only [hq', decide_false]; exact ih2
      · simp only [hp, if_false]
        by_cases hpk : p.1 = k'
        · have : ¬ k' = k := fun h => hp (hpk.trans h)
          simp [hpk, this]
        · simp only [hpk, decide_false]
          apply ih
          simpa [hp] using h
  · rename_i h
    unfold dget
    rw [List.find?_append]
    by_cases hk : k' = k
    · subst hk
      have : d.find? (fun p => decide (p.1 = k')) = none := by
        rw [List.find?_eq_none]
        intro p hp hh
        exact h (List.any_eq_true.2 ⟨p, hp, hh⟩)
      rw [this]; simp
    · have : ¬ k = k' := fun h => hk h.symm
      simp [hk, this]

theorem selectPs_map (es : List Event) (p : Event → Bool) : ∀ ks : List ℕ,
    selectPs (es.map p) (ks.map (profCols es)) = .ok (ks.map (profCols (es.filter p)))
  | [] => rfl
  | k :: ks => by
    simp only [List.map_cons, profCols, selectPs, compress_map]
    rw [selectPs_map es p ks]

theorem selectW_wOf (L : Layout) (es : List Event) (p : Event → Bool) :
    selectW (es.map p) (wOf L es) = .ok (wOf L (es.filter p)) := by
  unfold wOf
  by_cases h : L.wkind = .none
  · simp only [h, if_true, selectW]
  · simp only [h, if_false, selectW, compress_map]

theorem selectIs_none (L : Layout) (es : List Event) (p : Event → Bool) (h : L.dims = []) :
    selectIs (es.map p) none = .ok (some ((es.filter p).map (rowOf L))) := by
  have : (es.filter p).map (rowOf L) = List.replicate ((es.map p).count true) (some 0) := by
    have hr : rowOf L = fun _ => some 0 := by funext e; simp [rowOf, h]
    rw [hr]
    clear h hr
    induction es with
    | nil => rfl
    | cons e es ih =>
      simp only [List.filter_cons, List.map_cons]
      cases hp : p e
      · simpa using ih
      · simp only [if_true, List.map_cons, ih, List.count_cons_self, List.replicate_succ]
  rw [this]; rfl

theorem select_rowsOf (L : Layout) (es : List Event) (top : Bool) (p : Event → Bool) :
    (rowsOf L es top).select (es.map p) = .ok (rowsOf L (es.filter p) false) := by
  have his : selectIs (es.map p) (rowsOf L es top).is = .ok (some ((es.filter p).map (rowOf L))) := by
    unfold rowsOf
    by_cases h : L.dims = [] ∧ top = true
    · simp only [h, true_and, if_true]
      exact selectIs_none L es p h.1
    · simp only [h, if_false, selectIs, compress_map]
      rfl
  unfold Rows.select
  rw [his]
  simp only [rowsOf, selectPs_map, selectW_wOf]
  simp

/-- The event has the keys `gk` on the group axes from `g0` on and lies in the bin `idx`. -/
def landsFrom (g0 : ℕ) (gk : List Key) (idx : List ℕ) (e : Event) : Bool :=
  decide (e.gkeys.drop g0 = gk.map some) && decide (e.cells = idx.map (fun i : ℕ => some (i : ℤ)))

theorem lookup_empty (L : Layout) : ∀ (n : ℕ) (gk : List Key) (idx : List ℕ) (c : ℕ),
    lookup n (emptyContent L n) gk idx c = 0
  | 0, _, _, _ => rfl
  | _ + 1, [], _, _ => rfl
  | _ + 1, _ :: _, _, _ => rfl

theorem shaped_empty (ng : ℕ) (dims : List ℕ) (np : ℕ) (wk : WKind) : ∀ (n : ℕ),
    Shaped (Layout.make ng dims np wk) n (emptyContent (Layout.make ng dims np wk) n)
  | 0 => ⟨rfl, rfl⟩
  | _ + 1 => fun k c h => by simp [emptyContent, dget] at h

theorem hasGroup_empty (L : Layout) : ∀ (n : ℕ) (gk : List Key),
    HasGroup n (emptyContent L n) gk ↔ gk = []
  | 0, _ => by simp [HasGroup]
  | n + 1, [] => by simp [HasGroup]
  | n + 1, k :: gk => by simp [HasGroup, emptyContent, dget]

/-- The loop over the unique keys, given what the recursive call does. -/
theorem filldictLoop_events (ng : ℕ) (dims : List ℕ) (np : ℕ) (wk : WKind) (es0 : List Event) (g0 n : ℕ)
    (uniques : List Key) (inverse : List ℤ)
    (hu : IsUnique (es0.map (fun e => e.gkeys.getD g0 none)) uniques inverse)
    (p : Event → Bool) (all : Option (List Bool))
    (hall : all = some (es0.map p) ∨ (all = none ∧ ∀ e ∈ es0, p e = true)) (top : Bool)
    (rec : Content Arr n → Rows → List Bool → Res (Content Arr n))
    (ex : List Key → Prop)
    (hrec : ∀ k ∈ uniques, ∀ c, Shaped (Layout.make ng dims np wk) n c → ∃ c',
      rec c (rowsOf (Layout.make ng dims np wk) (es0.filter (fun e => p e && decide (e.gkeys.getD g0 none = some k))) false)
        (es0.map (fun e => p e && decide (e.gkeys.getD g0 none = some k))) = .ok c' ∧
      Shaped (Layout.make ng dims np wk) n c' ∧
      (∀ gk, gk.length ≤ n → (HasGroup n c' gk ↔ HasGroup n c gk ∨ ex gk)) ∧
      ∀ gk, gk.length = n → ∀ idx, InRange idx dims → ∀ col, lookup n c' gk idx col = lookup n c gk idx col +
        (((es0.filter (fun e => p e && decide (e.gkeys.getD g0 none = some k))).filter (landsFrom (g0 + 1) gk idx)).map
          (fun e => e.acc (Layout.make ng dims np wk) col)).sum) :
    ∀ (l : List (ℕ × Key)), (∀ q ∈ l, uniques[q.1]? = some q.2) → (l.map (·.2)).Nodup →
    ∀ (d : List (Key × Content Arr n)), (∀ k c, dget d k = some c → Shaped (Layout.make ng dims np wk) n c) →
    ∃ d', filldictLoop (Layout.make ng dims np wk) rec inverse
        (rowsOf (Layout.make ng dims np wk) (es0.filter p) top) all l d = .ok d' ∧
      (∀ k c, dget d' k = some c → Shaped (Layout.make ng dims np wk) n c) ∧
      (∀ k gk, gk.length ≤ n → ((∃ c, dget d' k = some c ∧ HasGroup n c gk) ↔
        (∃ c, dget d k = some c ∧ HasGroup n c gk) ∨ (k ∈ l.map (·.2) ∧ (gk = [] ∨ ex gk)))) ∧
      ∀ k gk, gk.length = n → ∀ idx, InRange idx dims → ∀ col,
        lookup (n + 1) d' (k :: gk) idx col = lookup (n + 1) d (k :: gk) idx col +
        if k ∈ l.map (·.2) then (((es0.filter (fun e => p e && decide (e.gkeys.getD g0 none = some k))).filter
          (landsFrom (g0 + 1) gk idx)).map (fun e => e.acc (Layout.make ng dims np wk) col)).sum else 0 := by
  intro l
  induction l with
  | nil =>
    intro _ _ d hd
    exact ⟨d, rfl, hd, fun k gk _ => by simp, fun k gk _ idx _ col => by simp⟩
  | cons q l ih =>
    obtain ⟨i, u⟩ := q
    intro hl hnd d hd
    have hiu : uniques[i]? = some u := hl (i, u) List.mem_cons_self
    have hmem : u ∈ uniques := List.mem_of_getElem? hiu
    have hinv := hu.inv i u hiu
    rw [List.map_map] at hinv
    have hund : u ∉ l.map (·.2) := (List.nodup_cons.1 hnd).1
    -- the selection
    have hsel : ∃ inv, subInverse inverse all = .ok inv ∧
        inv.map (fun j => decide (j = (i : ℤ))) = (es0.filter p).map (fun e => decide (e.gkeys.getD g0 none = some u)) ∧
        nextSelection all inverse i (inv.map (fun j => decide (j = (i : ℤ)))) =
          es0.map (fun e => p e && decide (e.gkeys.getD g0 none = some u)) := by
      have hlen : inverse.length = es0.length := by rw [hu.len, List.length_map]
      rcases hall with h | ⟨h, hp⟩
      · subst h
        refine ⟨(List.zip inverse (es0.map p)).filterMap (fun q => if q.2 then some q.1 else none), ?_, ?_, ?_⟩
        · simp [subInverse, compress, hlen]
        · clear hu hrec hl hnd ih hd hlen
          induction es0 generalizing inverse with
          | nil => simp
          | cons e es ih2 =>
            cases inverse with
            | nil => simp at hinv
            | cons j js =>
              simp only [List.map_cons, List.cons.injEq] at hinv
              have := ih2 js hinv.2
              simp only [List.map_cons, List.zip_cons_cons, List.filterMap_cons, List.filter_cons]
              cases hpe : p e
              · simpa using this
              · simp only [if_true, List.map_cons, this, hinv.1]; rfl
        · simp only [nextSelection]
          clear hu hrec hl hnd ih hd hlen
          induction es0 generalizing inverse with
          | nil => simp
          | cons e es ih2 =>
            cases inverse with
            | nil => simp at hinv
            | cons j js =>
              simp only [List.map_cons, List.cons.injEq] at hinv
              have := ih2 js hinv.2
              have h1 := hinv.1
              simp only [Function.comp] at h1
              simp only [List.map_cons, List.zipWith_cons_cons, this, List.cons.injEq, and_true]
              by_cases hj : j = (i : ℤ)
              · simp only [hj, decide_true] at h1
                rw [← h1]; simp [hj]
              · simp only [hj, decide_false] at h1
                rw [← h1]; simp [hj]
      · subst h
        refine ⟨inverse, rfl, ?_, ?_⟩
        · rw [hinv, List.filter_eq_self.2 hp]; rfl
        · simp only [nextSelection, hinv]
          apply List.map_congr_left
          intro e he
          simp [hp e he]
    obtain ⟨inv, hi1, hi2, hi3⟩ := hsel
    -- the entry
    set L := Layout.make ng dims np wk with hL
    obtain ⟨d1, hd1, hsh1, hget1, hlk1, hhg1⟩ : ∃ d1, ensureKey d u (emptyContent L n) = d1 ∧ (∀ k c, dget d1 k = some c → Shaped L n c) ∧
        (∃ sub, dget d1 u = some sub ∧ Shaped L n sub) ∧
        (∀ k gk idx col, lookup (n + 1) d1 (k :: gk) idx col = lookup (n + 1) d (k :: gk) idx col) ∧
        (∀ k gk, (∃ c, dget d1 k = some c ∧ HasGroup n c gk) ↔
          (∃ c, dget d k = some c ∧ HasGroup n c gk) ∨ (k = u ∧ gk = [])) := by
      cases hg : dget d u with
      | some sub =>
        refine ⟨d, by simp only [ensureKey, hg], hd, ⟨sub, hg, hd _ _ hg⟩, fun _ _ _ _ => rfl, fun k gk => ?_⟩
        constructor
        · exact Or.inl
        · rintro (h | ⟨rfl, hn⟩)
          · exact h
          · subst hn
            refine ⟨sub, hg, ?_⟩
            cases n with
            | zero => rfl
            | succ n => trivial
      | none =>
        refine ⟨dset d u (emptyContent L n), by simp only [ensureKey, hg], ?_, ⟨emptyContent L n, by rw [dget_dset]; simp, shaped_empty _ _ _ _ n⟩, ?_, ?_⟩
        · intro k c h
          rw [dget_dset] at h
          by_cases hk : k = u
          · simp only [hk, if_true] at h
            cases h; exact shaped_empty _ _ _ _ n
          · simp only [hk, if_false] at h
            exact hd _ _ h
        · intro k gk idx col
          simp only [lookup, dget_dset]
          by_cases hk : k = u
          · simp only [hk, if_true, hg, lookup_empty]
          · simp only [hk, if_false]
        · intro k gk
          simp only [dget_dset]
          by_cases hk : k = u
          · subst hk
            simp [hg, hasGroup_empty]
          · simp [hk]
    obtain ⟨sub, hsub, hsubs⟩ := hget1
    obtain ⟨c', hc1, hc2, hc3, hc4⟩ := hrec u hmem sub hsubs
    obtain ⟨d', hd'1, hd'2, hd'3, hd'4⟩ := ih (fun q hq => hl q (List.mem_cons_of_mem _ hq))
      (List.nodup_cons.1 hnd).2 (dset d1 u c') (by
        intro k c h
        rw [dget_dset] at h
        by_cases hk : k = u
        · simp only [hk, if_true] at h
          cases h; exact hc2
        · simp only [hk, if_false] at h
          exact hsh1 _ _ h)
    refine ⟨d', ?_, hd'2, ?_, ?_⟩
    · have hff : (es0.filter p).filter (fun e => decide (e.gkeys.getD g0 none = some u)) =
          es0.filter (fun e => p e && decide (e.gkeys.getD g0 none = some u)) := by
        rw [List.filter_filter]
        congr 1; funext e; exact Bool.and_comm _ _
      simp only [filldictLoop, hi1, hd1, hsub, hi3]
      simp only [hi2, select_rowsOf, hff, hc1]
      exact hd'1
    · intro k gk hgk
      rw [hd'3 k gk hgk]
      simp only [dget_dset]
      by_cases hk : k = u
      · subst hk
        have h0 := hhg1 k gk
        have h3 := hc3 gk hgk
        simp only [if_true, Option.some.injEq, exists_eq_left', h3, List.map_cons, List.mem_cons, true_or, true_and]
        rw [hsub] at h0
        simp only [Option.some.injEq, exists_eq_left', true_and] at h0
        rw [h0]
        constructor
        · rintro (((h | h) | h) | h)
          · exact Or.inl h
          · exact Or.inr (Or.inl h)
          · exact Or.inr (Or.inr h)
          · exact Or.inr h.2
        · rintro (h | h | h)
          · exact Or.inl (Or.inl (Or.inl h))
          · exact Or.inl (Or.inl (Or.inr h))
          · exact Or.inl (Or.inr h)
      · have h0 := hhg1 k gk
        simp only [hk, false_and, or_false] at h0
        simp only [hk, if_false, h0, List.map_cons, List.mem_cons, false_or]
    · intro k gk hgk idx hidx col
      rw [hd'4 k gk hgk idx hidx col]
      by_cases hk : k = u
      · subst hk
        have e1 : lookup (n + 1) (dset d1 k c') (k :: gk) idx col = lookup n c' gk idx col := by
          simp only [lookup, dget_dset, if_true]
        have e2 : lookup n sub gk idx col = lookup (n + 1) d (k :: gk) idx col := by
          rw [← hlk1]; simp only [lookup, hsub]
        rw [e1, hc4 gk hgk idx hidx col, e2]
        simp [hund]
      · have e1 : lookup (n + 1) (dset d1 u c') (k :: gk) idx col = lookup (n + 1) d (k :: gk) idx col := by
          rw [← hlk1]; simp only [lookup, dget_dset, hk, if_false]
        rw [e1]
        simp only [List.map_cons, List.mem_cons, hk, false_or]

/-- All groups: every event is added to its group and bin. -/
theorem filldict_events (ng : ℕ) (dims : List ℕ) (np : ℕ) (wk : WKind) (es0 : List Event)
    (hfit : ∀ e ∈ es0, e.Fits (Layout.make ng dims np wk))
    (hp : np = 0 ∨ ∀ e ∈ es0, none ∉ e.cells) (len : ℕ) :
    ∀ (n g0 : ℕ) (gs : List (Option (List Key × List ℤ))), g0 + n = ng →
    List.Forall₂ (fun (g : ℕ) (col : Option (List Key × List ℤ)) =>
      ∃ u inv, col = some (u, inv) ∧ IsUnique (es0.map (fun e => e.gkeys.getD g none)) u inv)
      ((List.range n).map (· + g0)) gs →
    ∀ (p : Event → Bool) (all : Option (List Bool)),
    (all = some (es0.map p) ∨ (all = none ∧ ∀ e ∈ es0, p e = true)) → ∀ (top : Bool),
    (top = true → len = (es0.filter p).length) → ∀ (c : Content Arr n), Shaped (Layout.make ng dims np wk) n c →
    ∃ c', filldict (Layout.make ng dims np wk) len n gs c
        (rowsOf (Layout.make ng dims np wk) (es0.filter p) top) all = .ok c' ∧
      Shaped (Layout.make ng dims np wk) n c' ∧
      (∀ gk, gk.length ≤ n → (HasGroup n c' gk ↔ HasGroup n c gk ∨
        ∀ (i : ℕ) (k : Key), gk[i]? = some k → ∃ e ∈ es0, e.gkeys.getD (g0 + i) none = some k)) ∧
      ∀ gk, gk.length = n → ∀ idx, InRange idx dims → ∀ col, lookup n c' gk idx col = lookup n c gk idx col +
        (((es0.filter p).filter (landsFrom g0 gk idx)).map (fun e => e.acc (Layout.make ng dims np wk) col)).sum := by
  intro n
  induction n with
  | zero =>
    intro g0 gs hg _ p all _ top htop a ha
    obtain ⟨a', h1, h2, h3, h4⟩ := fillblock_events ng dims np wk (es0.filter p)
      (fun e he => hfit e (List.mem_of_mem_filter he))
      (hp.imp id (fun h e he => h e (List.mem_of_mem_filter he))) a ha.1 len
      (if dims = [] ∧ top = true then none else some ((es0.filter p).map (rowOf (Layout.make ng dims np wk))))
      (by
        intro h
        by_cases hc : dims = [] ∧ top = true
        · exact htop hc.2
        · rw [if_neg hc] at h; cases h)
      (by
        by_cases hc : dims = [] ∧ top = true
        · rw [if_pos hc]; exact Or.inr ⟨rfl, hc.1⟩
        · rw [if_neg hc]; exact Or.inl rfl)
    refine ⟨a', h1, ⟨by rw [h2]; exact ha.1, by rw [h3]; exact ha.2⟩, ?_, ?_⟩
    · intro gk hgk
      have hgk : gk = [] := List.length_eq_zero_iff.1 (by omega)
      subst hgk
      simp [HasGroup]
    intro gk hgk idx hidx col
    have hgk : gk = [] := List.length_eq_zero_iff.1 hgk
    subst hgk
    simp only [lookup]
    rw [h4 idx hidx col]
    congr 1
    unfold binSum
    congr 1
    congr 1
    apply List.filter_congr
    intro e he
    have hf := (hfit e (List.mem_of_mem_filter he)).1
    unfold landsFrom
    have : e.gkeys.drop g0 = [] := by
      apply List.drop_of_length_le
      rw [hf]; simp only [Layout.make]; omega
    simp [this]
  | succ n ih =>
    intro g0 gs hg hgs p all hall top htop d hd
    rw [List.range_succ_eq_map] at hgs
    simp only [List.map_cons, List.map_map] at hgs
    cases hgs with
    | cons h1 h2 =>
      rename_i col gs
      obtain ⟨u, inv, rfl, hu⟩ := h1
      simp only [Nat.zero_add] at hu
      have h2' : List.Forall₂ (fun (g : ℕ) (col : Option (List Key × List ℤ)) =>
          ∃ u inv, col = some (u, inv) ∧ IsUnique (es0.map (fun e => e.gkeys.getD g none)) u inv)
          ((List.range n).map (· + (g0 + 1))) gs := by
        have : ((List.range n).map (· + (g0 + 1))) = (List.range n).map ((fun x => x + g0) ∘ Nat.succ) := by
          apply List.map_congr_left; intro i _; simp; omega
        rw [this]; exact h2
      obtain ⟨d', e1, e2, e3, e4⟩ := filldictLoop_events ng dims np wk es0 g0 n u inv hu p all hall top
        (fun c r sel => filldict (Layout.make ng dims np wk) len n gs c r (some sel))
        (fun gk => ∀ (i : ℕ) (k : Key), gk[i]? = some k → ∃ e ∈ es0, e.gkeys.getD (g0 + 1 + i) none = some k)
        (by
          intro k hk c hc
          exact ih (g0 + 1) gs (by omega) h2' (fun e => p e && decide (e.gkeys.getD g0 none = some k)) _ (Or.inl rfl)
            false (by simp) c hc)
        (List.zip (List.range u.length) u)
        (by
          intro q hq
          obtain ⟨i, hi⟩ := List.getElem?_of_mem hq
          rw [List.getElem?_zip_eq_some] at hi
          obtain ⟨h1, h2⟩ := hi
          have : q.1 = i := by
            have hh := List.getElem?_eq_some_iff.1 h1
            obtain ⟨hlt, hh⟩ := hh
            simpa using hh.symm
          rw [this]; exact h2)
        (by
          rw [← List.unzip_snd, List.unzip_zip (by simp)]
          exact hu.nodup)
        d hd
      have hmem : ∀ k, k ∈ (List.zip (List.range u.length) u).map (·.2) ↔ k ∈ u := by
        intro k
        rw [← List.unzip_snd, List.unzip_zip (by simp)]
      refine ⟨d', e1, e2, ?_, ?_⟩
      · intro gk hgk
        cases gk with
        | nil => simp [HasGroup]
        | cons k gk =>
          have hgk : gk.length ≤ n := by simpa using hgk
          simp only [HasGroup]
          rw [e3 k gk hgk, hmem, hu.mem]
          constructor
          · rintro (h | ⟨h, h'⟩)
            · exact Or.inl h
            · right
              intro i k' hi
              cases i with
              | zero =>
                simp at hi; subst hi
                obtain ⟨e, he, hk⟩ := List.mem_map.1 h
                exact ⟨e, he, hk⟩
              | succ i =>
                rcases h' with h' | h'
                · subst h'
                  simp at hi
                · obtain ⟨e, he, hk⟩ := h' i k' (by simpa using hi)
                  exact ⟨e, he, by rw [← hk]; congr 1; omega⟩
          · rintro (h | h)
            · exact Or.inl h
            · right
              constructor
              · obtain ⟨e, he, hk⟩ := h 0 k rfl
                exact List.mem_map.2 ⟨e, he, hk⟩
              · right
                intro i k' hi
                obtain ⟨e, he, hk⟩ := h (i + 1) k' (by simpa using hi)
                exact ⟨e, he, by rw [← hk]; congr 1; omega⟩
      · intro gk hgk idx hidx col
        cases gk with
        | nil => simp at hgk
        | cons k gk =>
          have hgk : gk.length = n := by simpa using hgk
          rw [e4 k gk hgk idx hidx col]
          congr 1
          have hfe : ∀ e ∈ es0, ((decide (e.gkeys.getD g0 none = some k)) && landsFrom (g0 + 1) gk idx e) =
              landsFrom g0 (k :: gk) idx e := by
            intro e he
            have hl := (hfit e he).1
            have hlt : g0 < e.gkeys.length := by rw [hl]; simp only [Layout.make]; omega
            unfold landsFrom
            rw [List.drop_eq_getElem_cons hlt]
            have : e.gkeys.getD g0 none = e.gkeys[g0] := by simp [List.getElem?_eq_getElem hlt]
            rw [this]
            simp only [List.map_cons, List.cons.injEq]
            by_cases a1 : e.gkeys[g0] = some k <;> by_cases a2 : e.gkeys.drop (g0 + 1) = gk.map some <;>
              simp [a1, a2]
          have hff : (es0.filter (fun e => p e && decide (e.gkeys.getD g0 none = some k))).filter (landsFrom (g0 + 1) gk idx) =
              (es0.filter p).filter (landsFrom g0 (k :: gk) idx) := by
            rw [List.filter_filter, List.filter_filter]
            apply List.filter_congr
            intro e he
            rw [← hfe e he]
            cases p e <;> cases decide (e.gkeys.getD g0 none = some k) <;> cases landsFrom (g0 + 1) gk idx e <;> rfl
          rw [hff]
          by_cases hk : k ∈ u
          · rw [if_pos ((hmem k).2 hk)]
          · rw [if_neg (fun h => hk ((hmem k).1 h))]
            have : (es0.filter p).filter (landsFrom g0 (k :: gk) idx) = [] := by
              rw [List.filter_eq_nil_iff]
              intro e he hl
              apply hk
              rw [hu.mem]
              rw [← hfe e (List.mem_of_mem_filter he)] at hl
              rw [Bool.and_eq_true] at hl
              exact List.mem_map.2 ⟨e, List.mem_of_mem_filter he, by simpa using hl.1⟩
            rw [this]; rfl

/-- `_postfill`: every event is added to its group and bin. -/
theorem postfill_events (ng : ℕ) (dims : List ℕ) (np : ℕ) (wk : WKind) (es : List Event)
    (hfit : ∀ e ∈ es, e.Fits (Layout.make ng dims np wk))
    (hp : np = 0 ∨ ∀ e ∈ es, none ∉ e.cells) (d : Dest) (hd : IsDest (Layout.make ng dims np wk) es d)
    (c : Content Arr ng) (hc : Shaped (Layout.make ng dims np wk) ng c) :
    ∃ c', postfill (Layout.make ng dims np wk) es.length d c = .ok c' ∧
      Shaped (Layout.make ng dims np wk) ng c' ∧
      (∀ gk, gk.length ≤ ng → (HasGroup ng c' gk ↔ HasGroup ng c gk ∨
        ∀ (i : ℕ) (k : Key), gk[i]? = some k → ∃ e ∈ es, e.gkeys.getD i none = some k)) ∧
      ∀ gk, gk.length = ng → ∀ idx, InRange idx dims → ∀ col, lookup ng c' gk idx col = lookup ng c gk idx col +
        total (Layout.make ng dims np wk) es gk idx col := by
  have hflat := flatIndexes_map es (·.cells) ng dims np wk (fun e he => (hfit e he).2.2.length_eq)
  have hfix : d.fixed = (List.range dims.length).map (fun k => some (es.map (fun e => e.cells.getD k none))) := hd.fixed
  rw [← hfix] at hflat
  have hw : weights (Layout.make ng dims np wk) es.length d = .ok (wOf (Layout.make ng dims np wk) es) := by
    unfold weights wOf
    cases wk with
    | none => simp [Layout.make]
    | const q => 
      simp only [Layout.make, reduceCtorEq, if_false]
      have : List.replicate es.length q = es.map (Event.weight (WKind.const q)) := by
        symm; exact List.map_const' ..
      simp [Event.weight, this]
    | expr =>
      have := hd.weight rfl
      simp only [Layout.make, this]
      simp only [reduceCtorEq, if_false, List.map_map]
      congr 2
      clear hfit hp hd hflat hfix this
      induction es with
      | nil => rfl
      | cons e es ih =>
        simp only [List.map_cons, List.zipWith_cons_cons, ih, List.cons.injEq, and_true]
        rcases hew : e.w with _ | q <;> simp [Event.weight, hew]
  have hrows : (⟨if dims = [] then none else some (es.map (fun e => flatOf dims e.cells)), d.prof,
      wOf (Layout.make ng dims np wk) es⟩ : Rows) = rowsOf (Layout.make ng dims np wk) (es.filter (fun _ => true)) true := by
    have : es.filter (fun _ => true) = es := List.filter_eq_self.2 (fun _ _ => rfl)
    rw [this]
    unfold rowsOf
    have hpr := hd.prof
    simp only [Rows.mk.injEq, and_true]
    constructor
    · by_cases hh : dims = []
      · simp [Layout.make, hh]
      · simp only [Layout.make, hh, if_false]
        congr 1
        apply List.map_congr_left
        intro e _
        simp [rowOf, hh]
    · exact hpr
  obtain ⟨c', h1, h2, h3, h4⟩ := filldict_events ng dims np wk es hfit hp es.length ng 0 d.groups (by omega)
    (by rw [show (List.range ng).map (· + 0) = List.range ng by simp]; exact hd.groups) (fun _ => true) none (Or.inr ⟨rfl, fun _ _ => rfl⟩) true
    (by intro _; rw [List.filter_eq_self.2 (fun _ _ => rfl)]) c hc
  refine ⟨c', ?_, h2, ?_, ?_⟩
  · unfold postfill
    rw [hflat]
    simp only [hw]
    rw [hrows]
    exact h1
  · intro gk hgk
    rw [h3 gk hgk]; simp
  · intro gk hgk idx hidx col
    rw [h4 gk hgk idx hidx col, List.filter_eq_self.2 (fun _ _ => rfl)]
    congr 1

end Verif
