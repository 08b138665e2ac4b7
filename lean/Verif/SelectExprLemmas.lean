import Verif.SpecSelectExpr
import Verif.PropsGroupSel
import Verif.ExprOrder

/-!
# Selections with boolean expressions: lemmas
-/

namespace Verif

/-! ## constants -/

/-- The loop of `asconst` over numbers. -/
def foldNum (op : Num → Num → Except Err Num) : Num → List ℚ → Except Err Num
  | x, [] => .ok x
  | x, q :: qs =>
    match op x (.fin q) with
    | .error e => .error e
    | .ok y => foldNum op y qs

theorem foldNum_add : ∀ (qs : List ℚ) (a : ℚ) (y : Num), foldNum (fun x y => .ok (x + y)) (.fin a) qs = .ok y → y = .fin (a + qs.sum)
  | [], a, y, h => by simp only [foldNum, Except.ok.injEq] at h; simp [← h]
  | q :: qs, a, y, h => by
    simp only [foldNum, Num.fin_add_fin] at h
    rw [foldNum_add qs _ y h, List.sum_cons, add_assoc]

theorem foldNum_mul : ∀ (qs : List ℚ) (a : ℚ) (y : Num), foldNum (fun x y => .ok (x * y)) (.fin a) qs = .ok y → y = .fin (a * qs.prod)
  | [], a, y, h => by simp only [foldNum, Except.ok.injEq] at h; simp [← h]
  | q :: qs, a, y, h => by
    simp only [foldNum, Num.fin_mul_fin] at h
    rw [foldNum_mul qs _ y h, List.prod_cons, mul_assoc]

theorem foldNum_sub : ∀ (qs : List ℚ) (a : ℚ) (y : Num), foldNum Num.subE (.fin a) qs = .ok y → y = .fin (a - qs.sum)
  | [], a, y, h => by simp only [foldNum, Except.ok.injEq] at h; simp [← h]
  | q :: qs, a, y, h => by
    simp only [foldNum, Num.subE, Num.fin_mul_fin, Num.fin_add_fin] at h
    rw [foldNum_sub qs _ y h, List.sum_cons]
    congr 1
    ring

theorem foldNum_div : ∀ (qs : List ℚ) (a : ℚ) (y : Num), foldNum Num.divE (.fin a) qs = .ok y → y = .fin (a / qs.prod) ∧ qs.prod ≠ 0
  | [], a, y, h => by simp only [foldNum, Except.ok.injEq] at h; simp [← h]
  | q :: qs, a, y, h => by
    simp only [foldNum, Num.divE] at h
    split at h
    · cases h
    · rename_i z hz
      split at hz
      · cases hz
      · rename_i hq
        cases hz
        simp only [Num.fin_mul_fin] at h
        obtain ⟨h1, h2⟩ := foldNum_div qs _ y h
        refine ⟨?_, ?_⟩
        · rw [h1, List.prod_cons]
          congr 1
          field_simp
        · rw [List.prod_cons]
          exact mul_ne_zero hq h2

theorem sumO_map_some : ∀ (qs : List ℚ), sumO (qs.map some) = some qs.sum
  | [] => rfl
  | q :: qs => by simp [sumO, sumO_map_some qs]

theorem prodO_map_some : ∀ (qs : List ℚ), prodO (qs.map some) = some qs.prod
  | [] => rfl
  | q :: qs => by simp [prodO, prodO_map_some qs]

/-- What a constant is. -/
def ConstMeans (env : RowEnv) (e : E) (v : SelVal) : Prop :=
  (∃ q, v = .key (.num q) ∧ e.eval env = some q) ∨ ∃ l, v = .set (l.map .num) ∧ e.setOf = some l ∧ e.eval env = none

theorem asconstEnd_ok {x : Except Err (Option Num)} {v : SelVal} (h : asconstEnd x = .ok (some v)) : ∃ y, x = .ok (some y) ∧ v = y.toSel := by
  unfold asconstEnd at h
  split at h
  · cases h
  · cases h
  · rename_i y
    cases h
    exact ⟨y, rfl, rfl⟩

mutual
theorem asconst_names (mc : String → Option Num) : ∀ (e : E) (v : SelVal), asconst mc e = .ok (some v) → ∀ s ∈ e.names, (mc s).isSome = true
  | .node h p n, v, hv, s, hs => by
    unfold asconst at hv
    unfold E.names at hs
    cases h with
    | const q => simp at hs
    | cset q => simp at hs
    | name t =>
      simp only [List.mem_singleton] at hs
      subst hs
      simp only [Except.ok.injEq, Option.map_eq_some_iff] at hv
      obtain ⟨w, hw, _⟩ := hv
      rw [hw]; rfl
    | plus c =>
      simp only at hv hs
      split at hv
      · cases hv
      · cases hv
      · rename_i x hx
        obtain ⟨y, hy, _⟩ := asconstEnd_ok hv
        rcases List.mem_append.1 hs with hs | hs
        · exact asconstL_names mc _ p _ x hx s hs
        · exact asconstL_names mc _ n _ y hy s hs
    | times c =>
      simp only at hv hs
      split at hv
      · cases hv
      · cases hv
      · rename_i x hx
        obtain ⟨y, hy, _⟩ := asconstEnd_ok hv
        rcases List.mem_append.1 hs with hs | hs
        · exact asconstL_names mc _ p _ x hx s hs
        · exact asconstL_names mc _ n _ y hy s hs
    | _ => cases hv
theorem asconstL_names (mc : String → Option Num) (op : Num → Num → Except Err Num) : ∀ (es : List E) (x y : Num),
    asconstL mc op es x = .ok (some y) → ∀ s ∈ E.namesL es, (mc s).isSome = true
  | [], _, _, _, s, hs => by simp [E.namesL] at hs
  | e :: es, x, y, h, s, hs => by
    unfold asconstL at h
    simp only [E.namesL, List.mem_append] at hs
    split at h
    · cases h
    · cases h
    · rename_i v hv
      split at h
      · cases h
      · split at h
        · cases h
        · rcases hs with hs | hs
          · exact asconst_names mc e v hv s hs
          · exact asconstL_names mc op es _ y h s hs
end

mutual
theorem asconst_means (mc : String → Option Num) (env : RowEnv) : ∀ (e : E) (v : SelVal), asconst mc e = .ok (some v) →
    (∀ s ∈ e.names, ∃ q, mc s = some (.fin q) ∧ env.field s = some q) → ConstMeans env e v
  | .node h p n, v, hv, hc => by
    unfold asconst at hv
    unfold E.names at hc
    cases h with
    | const q =>
      cases hv
      exact Or.inl ⟨q, rfl, by simp [E.eval, Head.apply]⟩
    | cset l =>
      cases hv
      exact Or.inr ⟨l, rfl, rfl, by simp [E.eval, Head.apply]⟩
    | name t =>
      obtain ⟨q, h1, h2⟩ := hc t (by simp)
      simp only [h1, Option.map_some, Except.ok.injEq, Option.some.injEq] at hv
      subst hv
      exact Or.inl ⟨q, rfl, by simp [E.eval, Head.apply, h2]⟩
    | plus c =>
      simp only at hv hc
      split at hv
      · cases hv
      · cases hv
      · rename_i x hx
        obtain ⟨y, hy, rfl⟩ := asconstEnd_ok hv
        obtain ⟨ps, e1, e2⟩ := asconstL_means mc env _ p _ x hx (fun s hs => hc s (by simp [hs]))
        have e3 := foldNum_add _ _ _ e2
        subst e3
        obtain ⟨ns, e4, e5⟩ := asconstL_means mc env _ n _ y hy (fun s hs => hc s (by simp [hs]))
        have e6 := foldNum_sub _ _ _ e5
        subst e6
        refine Or.inl ⟨_, rfl, ?_⟩
        simp [E.eval, Head.apply, e1, e4, sumO_map_some]
    | times c =>
      simp only at hv hc
      split at hv
      · cases hv
      · cases hv
      · rename_i x hx
        obtain ⟨y, hy, rfl⟩ := asconstEnd_ok hv
        obtain ⟨ps, e1, e2⟩ := asconstL_means mc env _ p _ x hx (fun s hs => hc s (by simp [hs]))
        have e3 := foldNum_mul _ _ _ e2
        subst e3
        obtain ⟨ns, e4, e5⟩ := asconstL_means mc env _ n _ y hy (fun s hs => hc s (by simp [hs]))
        obtain ⟨e6, e7⟩ := foldNum_div _ _ _ e5
        subst e6
        refine Or.inl ⟨_, rfl, ?_⟩
        simp [E.eval, Head.apply, e1, e4, prodO_map_some, divO, e7, mul_div_assoc]
    | _ => cases hv
theorem asconstL_means (mc : String → Option Num) (env : RowEnv) (op : Num → Num → Except Err Num) : ∀ (es : List E) (x y : Num),
    asconstL mc op es x = .ok (some y) → (∀ s ∈ E.namesL es, ∃ q, mc s = some (.fin q) ∧ env.field s = some q) →
    ∃ qs : List ℚ, E.evalL env es = qs.map some ∧ foldNum op x qs = .ok y
  | [], x, y, h, _ => by
    simp only [asconstL, Except.ok.injEq, Option.some.injEq] at h
    exact ⟨[], rfl, by simp [foldNum, h]⟩
  | e :: es, x, y, h, hc => by
    unfold asconstL at h
    simp only [E.namesL, List.mem_append] at hc
    split at h
    · cases h
    · cases h
    · rename_i v hv
      split at h
      · cases h
      · rename_i w hw
        split at h
        · cases h
        · rename_i z hz
          obtain ⟨qs, e1, e2⟩ := asconstL_means mc env op es _ y h (fun s hs => hc s (Or.inr hs))
          rcases asconst_means mc env e v hv (fun s hs => hc s (Or.inl hs)) with ⟨q, rfl, hq⟩ | ⟨l, rfl, _⟩
          · cases hw
            exact ⟨q :: qs, by simp [E.evalL, hq, e1], by simp [foldNum, hz, e2]⟩
          · cases hw
end

theorem asconst_side {mc : String → Option Num} {env : RowEnv} {e : E} {v : SelVal} (h : asconst mc e = .ok (some v)) (hc : ConstSide mc env e) :
    ConstMeans env e v :=
  asconst_means mc env e v h (hc (asconst_names mc e v h))

/-! ## comparisons -/

/-- What a comparison with a constant says about the value of the other side. -/
def CutArg.holds (c : CutArg) (w : Option ℚ) : Bool :=
  match c.value with
  | .key (.num k) => c.cmp.test (toNum w) (.fin k)
  | .set ks =>
    match c.cmp with
    | .isin => match w with | some x => ks.contains (.num x) | none => false
    | .notin => match w with | some x => !ks.contains (.num x) | none => true
    | .ne => true
    | _ => false
  | _ => false

theorem evalL_two (env : RowEnv) (l r : E) : E.evalL env [l, r] = [l.eval env, r.eval env] := rfl

theorem setOf_none_of {env : RowEnv} {e : E} {q : ℚ} (h : e.eval env = some q) : e.setOf = none := by
  obtain ⟨hd, p, n⟩ := e
  cases hd <;> first | rfl | simp [E.eval, Head.apply] at h

theorem asconst_none_setOf {mc : String → Option Num} {e : E} (h : asconst mc e = .ok none) : e.setOf = none := by
  obtain ⟨hd, p, n⟩ := e
  cases hd <;> first | rfl | simp [asconst] at h

/-- A comparison means what its normal form says; the other side of the comparison is a constant. -/
theorem normalize_rel {mc : String → Option Num} {asBool : Bool} {env : RowEnv} {op : RelOp} {l r : E} {n : List E} {c : CutArg}
    (h : normalizeexpr mc asBool (.node (.rel op) [l, r] n) = .ok c) (hin : (op = .isin ∨ op = .notin) → r.setOf.isSome = true)
    (hl : ConstSide mc env l) (hr : ConstSide mc env r) :
    truth (E.eval env (.node (.rel op) [l, r] n)) = c.holds (c.expr.eval env) ∧
      ((c.expr = l ∧ ConstMeans env r c.value) ∨ (c.expr = r ∧ ConstMeans env l c.value)) ∧
      c.bool = c.value.asBool asBool := by
  simp only [normalizeexpr] at h
  have heval : truth (E.eval env (.node (.rel op) [l, r] n)) = op.holds (l.eval env) (r.eval env) ([l, r].findSome? E.setOf) := by
    rw [E.eval, evalL_two]
    simp only [Head.apply]
    exact truth_ofBool _
  split at h
  · cases h
  · cases h
  · rename_i v h1 h2
    cases h
    have hm := asconst_side h1 hl
    refine ⟨?_, Or.inr ⟨rfl, hm⟩, rfl⟩
    rw [heval]
    have hs := asconst_none_setOf h2
    have hin' : ¬ (op = .isin ∨ op = .notin) := fun h => by simpa [hs] using hin h
    rcases hm with ⟨q, rfl, hq⟩ | ⟨ks, rfl, _, hq⟩
    · rw [hq]
      cases hw : r.eval env <;> cases op <;>
        simp_all [CutArg.holds, RelOp.holds, RelOp.toCmp, Cmp.flip, Cmp.test, toNum, Num.lt, Num.le, Num.isnan] <;>
        constructor <;> intro h <;> simp_all
    · rw [hq]
      cases op <;> simp_all [CutArg.holds, RelOp.holds, RelOp.toCmp, Cmp.flip]
  · rename_i v h1 h2
    cases h
    have hm := asconst_side h2 hr
    refine ⟨?_, Or.inl ⟨rfl, hm⟩, rfl⟩
    rw [heval]
    have hs := asconst_none_setOf h1
    rcases hm with ⟨q, rfl, hq⟩ | ⟨ks, rfl, hk, hq⟩
    · have hs' := setOf_none_of hq
      have hin' : ¬ (op = .isin ∨ op = .notin) := fun h => by simpa [hs'] using hin h
      rw [hq]
      cases hw : l.eval env <;> cases op <;>
        simp_all [CutArg.holds, RelOp.holds, RelOp.toCmp, Cmp.test, toNum, Num.lt, Num.le, Num.isnan]
    · rw [hq]
      cases hw : l.eval env <;> cases op <;> simp_all [CutArg.holds, RelOp.holds, RelOp.toCmp, List.findSome?]
  · cases h
  · cases h

end Verif
