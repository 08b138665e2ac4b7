import Verif.TypedOrder

/-!
# C123: parsed expressions do not depend on the order in which equal parts are written, types of constants included

The order of constants goes by the names of their types first, although `1 == 1.0 == True`, and sets are ordered by inclusion.  As long as no two
different constants of an expression are equal and no two sets are incomparable, the order of expressions is a strict total order and every
way of writing or of going through a set gives the same sorted tuple.  Otherwise the order has cycles and the result depends on the writing.
-/

namespace Verif

/-- The constants a user may mix safely: all numbers have one type, and of two sets one contains the other. -/
def KVal.Uniform (S : KVal → Prop) : Prop :=
  (∀ a b, S a → S b → a.isNum = true → b.isNum = true → a.tname = b.tname) ∧
  (∀ l m, S (.set l) → S (.set m) → l ≠ m → (l ⊆ m ∧ ¬ m ⊆ l) ∨ (m ⊆ l ∧ ¬ l ⊆ m))

theorem KVal.eq_iff_num {a b : KVal} : a.eq b = true ↔ a = b ∨ (a.isNum = true ∧ b.isNum = true ∧ a.num = b.num) := by
  constructor
  · intro h
    cases a <;> cases b <;> simp only [KVal.eq, KVal.isNum, Bool.and_eq_true, decide_eq_true_eq] at h <;>
      first
      | exact .inl (congrArg _ h)
      | exact .inr ⟨rfl, rfl, h.2⟩
      | (exact absurd h (by simp))
  · rintro (rfl | ⟨h1, h2, h3⟩)
    · exact a.eq_refl
    · cases a <;> cases b <;> first | (cases h1; done) | (cases h2; done) | (exact decide_eq_true h3)

/-- Uniform constants that are equal are the same, and different ones are ordered. -/
theorem C123_uniform_partial {S : KVal → Prop} (h : KVal.Uniform S) : KVal.Consistent S := by
  constructor
  · intro a b ha hb hab
    rcases KVal.eq_iff_num.1 hab with e | ⟨h1, h2, h3⟩
    · exact e
    · have ht := h.1 a b ha hb h1 h2
      cases a <;> cases b <;> simp [KVal.tname, KVal.num, KVal.isNum] at ht h1 h2 h3 ⊢
      · rename_i x y; revert h3; cases x <;> cases y <;> simp
      · exact h3
      · exact_mod_cast h3
  · intro a b ha hb hab
    by_cases ht : a.tname = b.tname
    · cases a <;> cases b <;> simp only [KVal.tname] at ht <;> (first | (exact absurd ht (by decide)) | skip)
      · rename_i x y; revert hab; cases x <;> cases y <;> simp [KVal.lt]
      · simp only [ne_eq, KVal.float.injEq] at hab
        simpa [KVal.lt] using lt_or_gt_of_ne hab
      · simp only [ne_eq, KVal.int.injEq] at hab
        simpa [KVal.lt] using lt_or_gt_of_ne hab
      · simp only [ne_eq, KVal.set.injEq] at hab
        simp only [KVal.lt, Bool.and_eq_true, Bool.not_eq_true', List.all_eq_true, List.contains_iff_mem, List.all_eq_false]
        rcases h.2 _ _ ha hb hab with ⟨h1, h2⟩ | ⟨h1, h2⟩
        · left
          refine ⟨fun x hx => h1 hx, ?_⟩
          by_contra hc
          push Not at hc
          exact h2 fun x hx => hc x hx
        · right
          refine ⟨fun x hx => h1 hx, ?_⟩
          by_contra hc
          push Not at hc
          exact h2 fun x hx => hc x hx
      · rename_i s t
        simp only [ne_eq, KVal.str.injEq] at hab
        simp only [KVal.lt, decide_eq_true_eq]
        cases hc : compare s t with
        | lt => exact .inl rfl
        | eq => exact absurd (Std.LawfulEqOrd.eq_of_compare hc) hab
        | gt => exact .inr (Std.OrientedCmp.gt_iff_lt.1 hc)
    · rw [KVal.lt_tname ht, KVal.lt_tname (Ne.symm ht)]
      simp only [decide_eq_true_eq]
      omega

/-- With uniform constants `==` is identity and `<` a strict total order. -/
theorem C123_order_partial {S : KVal → Prop} (h : KVal.Uniform S) :
    (∀ a b : TE, a.Over S → b.Over S → (a.eq b = true ↔ a = b)) ∧
    (∀ a : TE, a.lt a = false) ∧
    (∀ a b c : TE, a.Over S → b.Over S → c.Over S → a.lt b = true → b.lt c = true → a.lt c = true) ∧
    (∀ a b : TE, a.Over S → b.Over S → a.eq b = true ∨ a.lt b = true ∨ b.lt a = true) := by
  have hS := C123_uniform_partial h
  refine ⟨TE.eq_iff hS, TE.lt_irrefl, TE.lt_trans hS, fun a b ha hb => ?_⟩
  by_cases e : a = b
  · exact .inl ((TE.eq_iff hS a b ha hb).2 e)
  · exact .inr (TE.lt_total hS a b ha hb e)

/-- The factors of a product (of less than 64 factors) with uniform constants are the same in every order of writing. -/
theorem C123_product_partial {S : KVal → Prop} (h : KVal.Uniform S) {l m : List TE} (hl : ∀ x ∈ l, x.Over S) (hp : l.Perm m) :
    (TE.factors l).Perm l ∧ TE.factors l = TE.factors m := by
  have hS := C123_uniform_partial h
  refine ⟨TE.factors_perm l, InOrder.unique (TE.strictTotal hS) (fun x hx => hl x ((TE.factors_perm l).mem_iff.1 hx)) ?_ (TE.factors_sorted hS l hl)
    (TE.factors_sorted hS m fun x hx => hl x (hp.mem_iff.2 hx))⟩
  exact (TE.factors_perm l).trans (hp.trans (TE.factors_perm m).symm)

/-- The conditions of an `and` or `or` (of less than 64) with uniform constants are the same in every order and multiplicity of writing
and however Python goes through the set of them. -/
theorem C123_logical_partial {S : KVal → Prop} (h : KVal.Uniform S) {l m it it' : List TE} (hl : ∀ x ∈ l, x.Over S) (hlm : ∀ x, x ∈ l ↔ x ∈ m)
    (hit : TE.Iterates l it) (hit' : TE.Iterates m it') :
    (∀ x, x ∈ TE.logicalArgs it ↔ x ∈ l) ∧ TE.logicalArgs it = TE.logicalArgs it' := by
  have hS := C123_uniform_partial h
  have mem : ∀ {k j : List TE}, (∀ x ∈ k, x.Over S) → TE.Iterates k j → ∀ x, x ∈ j ↔ x ∈ k := by
    intro k j hk hj x
    refine ⟨hj.1 x, fun hx => ?_⟩
    obtain ⟨y, hy, e⟩ := hj.2.2 x hx
    rw [(TE.eq_iff hS x y (hk x hx) (hk y (hj.1 y hy))).1 e]
    exact hy
  have nodup : ∀ {k j : List TE}, TE.Iterates k j → j.Nodup := by
    intro k j hj
    refine hj.2.1.imp ?_
    rintro a b hab rfl
    rw [TE.eq_refl] at hab
    cases hab
  have hm : ∀ x ∈ m, x.Over S := fun x hx => hl x ((hlm x).2 hx)
  have hp : it.Perm it' := (List.perm_ext_iff_of_nodup (nodup hit) (nodup hit')).2 fun x => by rw [mem hl hit, mem hm hit', hlm]
  refine ⟨fun x => ?_, pySort_eq (TE.strictTotal hS) (fun x hx => hl x (hit.1 x hx)) hp⟩
  unfold TE.logicalArgs
  rw [(pySort_perm it).mem_iff, mem hl hit]

/-! ## With other constants -/

/-- A name. -/
def teName (s : String) : TE := .node (.name s) [] []

/-- `x > 1`, `y > 1.0`, `z > 0` as the parser turns them round: `1 < x`, `1.0 < y`, `0 < z`. -/
def teGreater (k : KVal) (s : String) : TE := .node (.rel .lt) [.const k, teName s] []

/-- `atan2(k, s)`. -/
def teAtan (k : KVal) (s : String) : TE := .node (.call "numpy.arctan2") [.const k, teName s] []

/-- `x in {…}`. -/
def teIn (l : List ℚ) : TE := .node (.rel .isin) [teName "x", .const (.set l)] []

/-- Two constants that are equal while one is less than the other. -/
theorem C123_refuted_equal_less : (TE.const (.int 1)).eq (.const (.float 1)) = true ∧ (TE.const (.float 1)).lt (.const (.int 1)) = true := by
  decide +kernel

/-- Three conditions, each less than the next in a circle. -/
theorem C123_refuted_cycle :
    (teGreater (.int 1) "x").lt (teGreater (.float 1) "y") = true ∧ (teGreater (.float 1) "y").lt (teGreater (.int 0) "z") = true ∧
    (teGreater (.int 0) "z").lt (teGreater (.int 1) "x") = true := by
  decide +kernel

/-- `atan2(1, a) * atan2(1.0, b) * atan2(0, c)` and `atan2(1.0, b) * atan2(0, c) * atan2(1, a)` have their factors in different orders and are not equal. -/
theorem C123_refuted_product :
    TE.eqL (TE.factors [teAtan (.int 1) "a", teAtan (.float 1) "b", teAtan (.int 0) "c"])
      (TE.factors [teAtan (.float 1) "b", teAtan (.int 0) "c", teAtan (.int 1) "a"]) = false := by
  decide +kernel

/-- `x in {1} or x in {2}`: Python may go through the set of the two conditions either way, and the results are not equal. -/
theorem C123_refuted_sets :
    TE.Iterates [teIn [1], teIn [2]] [teIn [1], teIn [2]] ∧ TE.Iterates [teIn [1], teIn [2]] [teIn [2], teIn [1]] ∧
    TE.eqL (TE.logicalArgs [teIn [1], teIn [2]]) (TE.logicalArgs [teIn [2], teIn [1]]) = false := by
  have e : (teIn [1]).eq (teIn [2]) = false := by decide +kernel
  have e' : (teIn [2]).eq (teIn [1]) = false := by decide +kernel
  refine ⟨⟨by simp, by simp [e], fun x hx => ⟨x, hx, TE.eq_refl x⟩⟩, ⟨by simp [or_comm], by simp [e'], fun x hx => ⟨x, by simpa [or_comm] using hx, TE.eq_refl x⟩⟩, ?_⟩
  decide +kernel

/-! ## Examples -/

/-- Integers are uniform. -/
theorem KVal.uniform_int : KVal.Uniform fun k => ∃ z, k = .int z := by
  refine ⟨?_, ?_⟩
  · rintro _ _ ⟨z, rfl⟩ ⟨w, rfl⟩ _ _; rfl
  · rintro l m ⟨z, h⟩; cases h

example : TE.factors [teAtan (.int 1) "a", teAtan (.int 2) "b", teAtan (.int 0) "c"] = TE.factors [teAtan (.int 2) "b", teAtan (.int 0) "c", teAtan (.int 1) "a"] :=
  (C123_product_partial KVal.uniform_int (by simp [teAtan, teName, TE.Over, TE.OverL]) (by
    exact (List.Perm.swap _ _ _).trans (List.Perm.cons _ (List.Perm.swap _ _ _)))).2

example : TE.eqL (TE.factors [teAtan (.int 1) "a", teAtan (.int 2) "b", teAtan (.int 0) "c"]) [teAtan (.int 0) "c", teAtan (.int 1) "a", teAtan (.int 2) "b"] = true := by
  decide +kernel

example : TE.logicalArgs [teGreater (.int 1) "x", teGreater (.int 0) "z"] = TE.logicalArgs [teGreater (.int 0) "z", teGreater (.int 1) "x"] := by
  have e : (teGreater (.int 1) "x").eq (teGreater (.int 0) "z") = false := by decide +kernel
  have e' : (teGreater (.int 0) "z").eq (teGreater (.int 1) "x") = false := by decide +kernel
  exact (C123_logical_partial KVal.uniform_int (l := [teGreater (.int 1) "x", teGreater (.int 0) "z", teGreater (.int 1) "x"])
    (m := [teGreater (.int 0) "z", teGreater (.int 1) "x"]) (by simp [teGreater, teName, TE.Over, TE.OverL]) (by intro x; simp; tauto)
    ⟨by simp, by simp [e], fun x hx => ⟨x, by simp at hx ⊢; tauto, TE.eq_refl x⟩⟩ ⟨by simp, by simp [e'], fun x hx => ⟨x, hx, TE.eq_refl x⟩⟩).2

/-- Nested sets and numbers of one type together are uniform. -/
example : KVal.Uniform fun k => k = .set [1] ∨ k = .set [1, 2] ∨ ∃ q, k = .float q := by
  refine ⟨?_, ?_⟩
  · rintro a b (rfl | rfl | ⟨q, rfl⟩) (rfl | rfl | ⟨q', rfl⟩) <;> simp [KVal.isNum, KVal.tname]
  · intro l m h1 h2 hne
    simp only [KVal.set.injEq, reduceCtorEq, exists_false, or_false] at h1 h2
    rcases h1 with rfl | rfl <;> rcases h2 with rfl | rfl <;> first | exact absurd rfl hne | decide +kernel

end Verif
