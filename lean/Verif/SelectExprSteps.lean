import Verif.SelectExprLemmas
import Verif.LogicLemmas

/-!
# Selections with boolean expressions: one axis at a time
-/

namespace Verif

/-! ## what is compared -/

/-- The value of a comparison is a number or a set of numbers; a truth value is the number 0 or 1. -/
def CutArg.Wf (c : CutArg) : Prop :=
  ((∃ k, c.value = .key (.num k)) ∨ ∃ ks : List ℚ, c.value = .set (ks.map .num)) ∧
    ∀ b, c.bool = some b → c.value = .key (.num (if b then 1 else 0))

/-- No edge is near the number that the comparison is with, without being equal to it, for this row. -/
def CutArg.Away (c : CutArg) (X : HistExprs) (tol : ℚ) (env : RowEnv) : Prop :=
  ∀ q v x, c.expr.eval env = some q → c.value = .key (.num v) → X.HasEdge c.expr x → |v - x| < tol → x = v ∨ tol ≤ |q - x|

theorem asBool_wf {v : SelVal} {a b : Bool} (h : v.asBool a = some b) : v = .key (.num (if b then 1 else 0)) := by
  unfold SelVal.asBool at h
  split at h
  · rename_i q
    split at h
    · rename_i h'
      cases h
      simp [h'.2]
    · split at h
      · rename_i h'
        cases h
        simp [h'.2]
      · cases h
  · cases h

theorem cutTrue_wf (e : E) (cmp : Cmp) : (cutTrue e cmp).Wf := by
  refine ⟨Or.inl ⟨1, rfl⟩, fun b h => ?_⟩
  simp only [cutTrue, Option.some.injEq] at h
  subst h
  rfl

/-- A condition means what its normal form says. -/
theorem normalize_clear {mc : String → Option Num} {asBool : Bool} {X : HistExprs} {tol : ℚ} {env : RowEnv} {e : E} {c : CutArg}
    (h : normalizeexpr mc asBool e = .ok c) (hc : Clear mc X tol env e) :
    truth (e.eval env) = c.holds (c.expr.eval env) ∧ c.Wf ∧ (c.Away X tol env ∨ c.cmp = .eq ∨ c.cmp = .ne) := by
  obtain ⟨hd, p, n⟩ := e
  cases hd with
  | rel op =>
    obtain ⟨l, r, rfl, _, _, hin, hl, hr, hlr, hrl⟩ := hc
    obtain ⟨h1, h2, h3⟩ := normalize_rel h hin hl hr
    refine ⟨h1, ⟨?_, fun b hb => asBool_wf (h3.symm.trans hb)⟩, Or.inl ?_⟩
    · rcases h2 with ⟨_, h2⟩ | ⟨_, h2⟩ <;> rcases h2 with ⟨q, hq, _⟩ | ⟨ks, hk, _⟩
      · exact Or.inl ⟨q, hq⟩
      · exact Or.inr ⟨ks, hk⟩
      · exact Or.inl ⟨q, hq⟩
      · exact Or.inr ⟨ks, hk⟩
    · intro q v x hq hv hx hlt
      rcases h2 with ⟨he, h2⟩ | ⟨he, h2⟩
      · rcases h2 with ⟨q', hq', hv'⟩ | ⟨ks, hk, _⟩
        · rw [hv] at hq'
          cases hq'
          rw [he] at hq hx
          exact hlr q v x hq hv' hx hlt
        · rw [hv] at hk; cases hk
      · rcases h2 with ⟨q', hq', hv'⟩ | ⟨ks, hk, _⟩
        · rw [hv] at hq'
          cases hq'
          rw [he] at hq hx
          exact hrl q v x hq hv' hx hlt
        · rw [hv] at hk; cases hk
  | pred s b =>
    cases h
    refine ⟨?_, cutTrue_wf _ _, by cases b <;> simp [cutTrue]⟩
    simp only [Clear] at hc
    simp only [E.eval, Head.apply, truth_ofBool, cutTrue, CutArg.holds]
    rcases hc with hc | hc <;> rw [hc] <;> cases b <;> decide +kernel
  | name s =>
    simp only [normalizeexpr] at h
    cases h
    refine ⟨?_, cutTrue_wf _ _, by simp [cutTrue]⟩
    simp only [Clear] at hc
    simp only [E.eval, Head.apply, cutTrue, CutArg.holds]
    rcases hc with hc | hc <;> rw [hc] <;> decide +kernel
  | _ => simp [Clear] at hc

/-- An "or" means that it is true. -/
theorem normalize_lor {mc : String → Option Num} {asBool : Bool} {env : RowEnv} {args n : List E} {c : CutArg}
    (h : normalizeexpr mc asBool (.node .lor args n) = .ok c) :
    c = cutTrue (.node .lor args n) .eq ∧ truth (E.eval env (.node .lor args n)) = c.holds (c.expr.eval env) ∧ c.Wf := by
  simp only [normalizeexpr, Except.ok.injEq] at h
  subst h
  refine ⟨rfl, ?_, cutTrue_wf _ _⟩
  simp only [cutTrue, CutArg.holds, E.eval, Head.apply, truth_ofBool]
  cases ((E.evalL env args).any truth) <;> decide +kernel

/-! ## group axes -/

theorem keyHolds_holds (c : CutArg) (hc : c.Wf) (q : ℚ) (b : Bool) (h : groupbyTest c.cmp c.value (.num q) = .ok b) :
    c.holds (some q) = b := by
  have h' := groupbyTest_ok _ _ _ _ h
  rcases hc.1 with ⟨k, hk⟩ | ⟨ks, hk⟩
  · rw [hk] at h h'
    subst h'
    simp only [CutArg.holds, hk, toNum]
    cases hcmp : c.cmp <;> simp_all [Cmp.keyHolds, Cmp.test, Num.isnan, Key.toNum?, groupbyTest]
  · rw [hk] at h h'
    subst h'
    simp only [CutArg.holds, hk]
    cases hcmp : c.cmp <;> simp_all [Cmp.keyHolds, groupbyTest]

/-- The test that a group axis makes of a comparison gives the truth of the comparison. -/
theorem group_means {X : HistExprs} {tol : ℚ} (hX : X.Fits tol) {env : RowEnv} {a : GroupAxis} {c : CutArg} (hc : c.Wf)
    (ha : (a, c.expr) ∈ X.groups) (hfar : c.Away X tol env ∨ c.cmp = .eq ∨ c.cmp = .ne) {test : Test}
    (h : a.select c.cmp c.value tol = .ok (some test)) {k : Key} {b : Bool}
    (hk : a.key (.num (toNum (c.expr.eval env))) = some k) (hb : test k = .ok b) : c.holds (c.expr.eval env) = b := by
  cases a with
  | groupby =>
    simp only [GroupAxis.select, Except.ok.injEq, Option.some.injEq] at h
    subst h
    cases hq : c.expr.eval env with
    | none => rw [hq] at hk; simp [GroupAxis.key, toNum, GVal.toKey, Except.toOption] at hk
    | some q =>
      rw [hq] at hk
      simp [GroupAxis.key, toNum, GVal.toKey, Except.toOption] at hk
      subst hk
      exact keyHolds_holds c hc q b hb
  | groupbin a =>
    have hw := hX.groups a (List.mem_map.2 ⟨_, ha, rfl⟩)
    have hinit : GroupbinAxis.init a.binwidth a.origin a.nanflow a.closedlow = .ok a := by
      simp [GroupbinAxis.init, not_le.2 hw]
    rcases hc.1 with ⟨v, hv⟩ | ⟨ks, hv⟩
    · simp only [GroupAxis.select] at h
      rw [hv] at h
      obtain ⟨m, h1, h2, h3⟩ := groupbin_select_fin _ _ _ _ a hinit c.cmp v tol test h
      have hcmp : c.cmp ∈ [Cmp.lt, .le, .gt, .ge] := by
        unfold GroupbinAxis.select at h
        simp only at h
        split at h
        · cases hcc : c.cmp <;> simp [hcc] at h ⊢
        · cases h
      have hk' : a.key (toNum (c.expr.eval env)) = some k := by
        simpa [GroupAxis.key, GVal.toNum, Except.toOption] using hk
      have h4 := h3 _ k b hk' hb
      rw [← h4]
      simp only [CutArg.holds, hv]
      cases hq : c.expr.eval env with
      | none =>
        simp only [List.mem_cons, List.not_mem_nil, or_false] at hcmp
        rcases hcmp with e | e | e | e <;> rw [e] <;> rfl
      | some q =>
        have hA : c.Away X tol env := by
          rcases hfar with hA | e | e
          · exact hA
          · rw [e] at hcmp; simp at hcmp
          · rw [e] at hcmp; simp at hcmp
        rcases hA q v _ hq hv (Or.inl ⟨_, ha, rfl, m, rfl⟩) h1 with e | e
        · rw [← e]
        · exact C37_tolerance_harmless c.cmp hcmp v _ tol q h1 e
    · simp only [GroupAxis.select] at h
      rw [hv] at h
      simp [GroupbinAxis.select] at h

/-- The search ends at an axis that can select. -/
theorem searchAxis_yes {α β : Type} {step : α → E → Miss → Except Err (Found β)} : ∀ {l : List (α × E)} {i : ℕ} {m : Miss} {j : ℕ} {b : β},
    searchAxis step l i m = .ok (.yes (j, b)) → ∃ k a e m', j = i + k ∧ l[k]? = some (a, e) ∧ step a e m' = .ok (.yes b)
  | [], _, _, _, _, h => by simp [searchAxis] at h
  | (a, e) :: rest, i, m, j, b, h => by
    simp only [searchAxis] at h
    split at h
    · cases h
    · rename_i b' hb
      cases h
      exact ⟨0, a, e, _, rfl, rfl, hb⟩
    · rename_i m' hb
      obtain ⟨k, a', e', m'', h1, h2, h3⟩ := searchAxis_yes h
      exact ⟨k + 1, a', e', m'', by omega, by simpa using h2, h3⟩

theorem groupOne_yes {c : CutArg} {tol : ℚ} {a : GroupAxis} {e : E} {m : Miss} {test : Test}
    (h : groupOne c tol a e m = .ok (.yes test)) : c.expr = e ∧ a.select c.cmp c.value tol = .ok (some test) := by
  unfold groupOne at h
  split at h
  · rename_i hs
    split at h
    · cases h
    · rename_i t ht
      cases h
      exact ⟨E.same_iff.1 hs, ht⟩
    · cases h
  · cases h

theorem orTerm_yes {mc : String → Option Num} {asBool : Bool} {tol : ℚ} {a : GroupAxis} {e t : E} {test : Test}
    (h : orTerm mc asBool tol a e t = .ok (some test)) :
    ∃ c, normalizeexpr mc asBool t = .ok c ∧ c.expr = e ∧ a.select c.cmp c.value tol = .ok (some test) := by
  unfold orTerm at h
  split at h
  · cases h
  · rename_i c hc
    split at h
    · rename_i hs
      exact ⟨c, hc, E.same_iff.1 hs, h⟩
    · cases h

/-- The test that `logical` makes for a group axis gives the truth of the condition. -/
theorem groupStep_means {mc : String → Option Num} {asBool : Bool} {limit : ℕ} (hl : 2 ≤ limit) {X : HistExprs} {tol : ℚ} (hX : X.Fits tol)
    {cond : E} {c : CutArg} (hn : normalizeexpr mc asBool cond = .ok c) {a : GroupAxis} {e : E} (ha : (a, e) ∈ X.groups) {m : Miss} {test : Test}
    (h : groupStep mc asBool limit c tol a e m = .ok (.yes test)) {env : RowEnv} (hc : ClearTerm mc X tol env cond) {k : Key} {b : Bool}
    (hk : a.key (.num (toNum (e.eval env))) = some k) (hb : test k = .ok b) : truth (cond.eval env) = b := by
  rcases hc with hc | ⟨args, n, rfl, hg | ⟨s, t, n1, n2, rfl, hs, ht⟩⟩
  · obtain ⟨h1, h2, h3⟩ := normalize_clear hn hc
    have hone : groupOne c tol a e m = .ok (.yes test) := by
      unfold groupStep at h
      split at h
      · rename_i args n he
        exfalso
        have : ∀ args n, c.expr ≠ .node .lor args n := by
          obtain ⟨hd, p, n⟩ := cond
          cases hd with
          | rel op =>
            obtain ⟨l, r, rfl, hl1, hl2, hin, hl, hr, _, _⟩ := hc
            intro args' n' he'
            rcases (normalize_rel hn hin hl hr).2.1 with ⟨h, _⟩ | ⟨h, _⟩ <;> rw [he'] at h <;> subst h
            · exact hl1 rfl
            · exact hl2 rfl
          | pred s b => cases hn; simp [cutTrue]
          | name s => simp only [normalizeexpr] at hn; cases hn; simp [cutTrue]
          | _ => simp [Clear] at hc
        exact this _ _ he
      · exact h
    obtain ⟨rfl, hsel⟩ := groupOne_yes hone
    rw [h1]
    exact group_means hX h2 ha h3 hsel hk hb
  · rw [hg] at ha; cases ha
  · obtain ⟨rfl, h1, h2⟩ := normalize_lor (env := env) hn
    simp only [groupStep, cutTrue, List.map_cons, List.map_nil, E.args] at h
    split at h
    · cases h
    · cases h
    · rename_i F f hloop
      cases h
      simp only [orLoop, andLoop] at hloop
      cases h3 : orTerm mc asBool tol a e s with
      | error er => rw [h3] at hloop; simp at hloop
      | ok o =>
        cases o with
        | none => rw [h3] at hloop; simp at hloop
        | some f1 =>
          rw [h3] at hloop
          cases h4 : orTerm mc asBool tol a e t with
          | error er => rw [h4] at hloop; simp at hloop
          | ok o =>
            cases o with
            | none => rw [h4] at hloop; simp at hloop
            | some f2 =>
              rw [h4] at hloop
              simp only [Except.ok.injEq, Option.some.injEq, Prod.mk.injEq] at hloop
              obtain ⟨rfl, rfl⟩ := hloop
              obtain ⟨c1, hc1, he1, hsel1⟩ := orTerm_yes h3
              obtain ⟨c2, hc2, he2, hsel2⟩ := orTerm_yes h4
              obtain ⟨g1, g2, g3⟩ := normalize_clear hc1 hs
              obtain ⟨k1, k2, k3⟩ := normalize_clear hc2 ht
              rw [call_or limit hl] at hb
              have ev : truth (E.eval env (.node .lor [.node .land [s] n1, .node .land [t] n2] n)) =
                  (truth (s.eval env) || truth (t.eval env)) := by
                simp [E.eval, Head.apply, E.evalL, truth_ofBool]
              rw [ev, g1, k1]
              subst he1
              cases hf2 : f2 k with
              | error er => rw [hf2] at hb; cases hb
              | ok b2 =>
                have hv2 := group_means hX k2 (by rw [he2]; exact ha) k3 hsel2 (by rw [he2]; exact hk) hf2
                rw [hf2] at hb
                cases b2 with
                | true =>
                  cases hb
                  rw [hv2, Bool.or_true]
                | false =>
                  rw [hv2, Bool.or_false]
                  exact group_means hX g2 ha g3 hsel1 hk hb
    · obtain ⟨rfl, hsel⟩ := groupOne_yes h
      rw [h1]
      exact group_means hX h2 ha (Or.inr (Or.inl rfl)) hsel hk hb

/-! ## fixed axes -/

theorem checktot_cut {α : Type} {n : ℕ} {r : SelRes α} {a : α} {s : PySlice} (h : checktot n r = .ok (.cut a s)) : r = .cut a s := by
  unfold checktot at h
  split at h
  · cases h
  · cases h; rfl

/-- The new bins have edges of the old ones, and the same width. -/
theorem bin_select_edges {a a' : BinAxis} {cmp : Cmp} {v tol : ℚ} {s : PySlice} (hf : FixedAxis.Fits tol (.bin a))
    (h : a.select cmp (.fin v) tol = .ok (.cut a' s)) :
    0 < a.numbins ∧ a.low < a.high ∧ 2 * tol * a.numbins ≤ a.high - a.low ∧ FixedAxis.Fits tol (.bin a') ∧
      ∀ x, FixedAxis.HasEdge x (.bin a') → FixedAxis.HasEdge x (.bin a) := by
  have hn : 0 < a.numbins := by
    by_contra h0
    have h0 : a.numbins = 0 := by omega
    unfold BinAxis.select at h
    simp only [reduceCtorEq, false_and, or_self, if_false, h0, Nat.cast_zero, zero_div, if_true] at h
    split at h <;> cases h
  rcases hf with hf | ⟨hlh, htol⟩
  · omega
  refine ⟨hn, hlh, htol, ?_⟩
  obtain ⟨_, _, _, _, _, _, hw⟩ := bin_select_fin a hn hlh cmp v tol htol a' s h
  have hN : (0 : ℚ) < a.numbins := by exact_mod_cast hn
  constructor
  · rcases Nat.eq_zero_or_pos a'.numbins with h0 | h0
    · exact Or.inl h0
    · obtain ⟨h1, h2, h3⟩ := hw h0
      refine Or.inr ⟨h1, ?_⟩
      have hN' : (0 : ℚ) < a'.numbins := by exact_mod_cast h0
      have h5 := mul_le_mul_of_nonneg_left htol hN'.le
      have : a.numbins * (2 * tol * a'.numbins) ≤ a.numbins * (a'.high - a'.low) := by rw [← h3]; linarith
      exact le_of_mul_le_mul_left this hN
  · have hd : a.high - a.low ≠ 0 := by intro h; linarith
    have hs : (a.numbins : ℚ) / (a.high - a.low) ≠ 0 := div_ne_zero hN.ne' hd
    unfold BinAxis.select at h
    simp only [reduceCtorEq, false_and, or_self, if_false, hd, hs] at h
    split at h
    · rename_i hclose
      obtain ⟨m, hm, hz, hcl⟩ := bin_edge a hn hlh v tol htol _ rfl hclose
      rw [hz] at h hcl
      rw [hcl] at h
      split at h
      · have e := checktot_cut h
        cases e
        rintro x ⟨i, hi, rfl⟩
        simp only [Int.toNat_natCast] at hi
        refine ⟨i, by omega, ?_⟩
        simp only [Int.toNat_natCast, BinAxis.i2x]
        rcases Nat.eq_zero_or_pos m with h0 | h0
        · have : i = 0 := by omega
          simp [this]
        · have : (m : ℚ) ≠ 0 := by exact_mod_cast h0.ne'
          field_simp
          ring
      · split at h
        · have e := checktot_cut h
          cases e
          rintro x ⟨i, hi, rfl⟩
          have hi' : i ≤ a.numbins - m := by simpa using hi
          refine ⟨m + i, by omega, ?_⟩
          have e2 : ((a.numbins : ℤ) - (m : ℤ)).toNat = a.numbins - m := by omega
          simp only [e2, BinAxis.i2x]
          rcases Nat.eq_zero_or_pos (a.numbins - m) with h0 | h0
          · have : i = 0 := by omega
            simp [this]
            field_simp
            try ring
          · have e3 : ((a.numbins - m : ℕ) : ℚ) = a.numbins - m := by push_cast [hm]; ring
            have e4 : (a.numbins : ℚ) - m ≠ 0 := by rw [← e3]; exact_mod_cast h0.ne'
            rw [e3]
            push_cast
            field_simp
            ring
        · cases h
    · cases h

theorem split_select_edges {a a' : SplitAxis} {cmp : Cmp} {v tol : ℚ} {s : PySlice} (h : a.select cmp (.fin v) tol = .ok (.cut a' s)) :
    ∀ x ∈ a'.edges, x ∈ a.edges := by
  unfold SplitAxis.select at h
  simp only [reduceCtorEq, false_and, or_self, if_false] at h
  split at h
  · cases h
  · split at h
    · split at h
      · have e := checktot_cut h
        cases e
        exact fun x hx => List.mem_of_mem_take hx
      · split at h
        · have e := checktot_cut h
          cases e
          exact fun x hx => List.mem_of_mem_drop hx
        · cases h
    · cases h

/-- A selection on an axis that is not a cut: the new axis has the bins of the values for which the
comparison with an edge near the number is true. -/
theorem fixed_select_fin {a : FixedAxis} (hcut : a ≠ .cut) {tol : ℚ} (hf : a.Fits tol) {cmp : Cmp} {v : ℚ} {a' : FixedAxis} {s : PySlice}
    (h : a.select cmp (.fin v) tol = .ok (.cut a' s)) :
    ∃ x, a.HasEdge x ∧ |v - x| < tol ∧ cmp ∈ [Cmp.lt, .le, .gt, .ge] ∧ Keeps a a' s (fun w => cmp.test w.toNum (.fin x)) ∧
      a' ≠ .cut ∧ a'.Fits tol ∧ ∀ y, a'.HasEdge y → a.HasEdge y := by
  cases a with
  | cut => exact absurd rfl hcut
  | bin a =>
    obtain ⟨b, hb, rfl⟩ := map_cut h
    obtain ⟨hn, hlh, htol, h1, h2⟩ := bin_select_edges hf hb
    obtain ⟨m, hm, g1, g2, g3, _⟩ := bin_select_fin a hn hlh cmp v tol htol b s hb
    refine ⟨_, ⟨m, hm, ?_⟩, g1, g2, g3, by simp, h1, h2⟩
    simp only [BinAxis.i2x]
    try ring
  | split a =>
    obtain ⟨b, hb, rfl⟩ := map_cut h
    obtain ⟨x, hx, g1, _, g2, g3, _, g5⟩ := split_select_fin a hf cmp v tol b s hb
    exact ⟨x, hx, g1, g2, g3, by simp, g5.2, split_select_edges hb⟩
  | intbin a =>
    obtain ⟨b, hb, rfl⟩ := map_cut h
    obtain ⟨q, r, hq, _, _, g1, g2, g3, _⟩ := int_select a cmp _ tol hf b s hb
    cases hq
    exact ⟨r, ⟨r, rfl⟩, g1, g2, g3, by simp, hf, fun y hy => hy⟩

/-! ## histograms -/

/-- Each axis of `Y` comes from an axis of `X` with the same expression. -/
structure HistExprs.Within (Y X : HistExprs) : Prop where
  groups : Y.groups = X.groups
  fixed : ∀ p ∈ Y.fixed, ∃ q ∈ X.fixed, p.2 = q.2 ∧ (p.1 = .cut → q.1 = .cut) ∧ ∀ y, p.1.HasEdge y → q.1.HasEdge y

theorem HistExprs.Within.refl (X : HistExprs) : X.Within X := ⟨rfl, fun p hp => ⟨p, hp, rfl, id, fun _ => id⟩⟩

theorem HistExprs.Within.trans {X Y Z : HistExprs} (h1 : Z.Within Y) (h2 : Y.Within X) : Z.Within X := by
  refine ⟨h1.groups.trans h2.groups, fun p hp => ?_⟩
  obtain ⟨q, hq, a1, a2, a3⟩ := h1.fixed p hp
  obtain ⟨r, hr, b1, b2, b3⟩ := h2.fixed q hq
  exact ⟨r, hr, a1.trans b1, fun h => b2 (a2 h), fun y hy => b3 y (a3 y hy)⟩

theorem HistExprs.Within.hasEdge {X Y : HistExprs} (h : Y.Within X) {e : E} {x : ℚ} (hx : Y.HasEdge e x) : X.HasEdge e x := by
  rcases hx with ⟨p, hp, h1, h2⟩ | ⟨p, hp, h1, h2⟩
  · exact Or.inl ⟨p, h.groups ▸ hp, h1, h2⟩
  · obtain ⟨q, hq, a1, a2, a3⟩ := h.fixed p hp
    exact Or.inr ⟨q, hq, a1.symm.trans h1, a3 x h2⟩

theorem HistExprs.Within.cutsDecide {X Y : HistExprs} (h : Y.Within X) {env : RowEnv} (hc : X.CutsDecide env) : Y.CutsDecide env := by
  intro p hp he
  obtain ⟨q, hq, a1, a2, _⟩ := h.fixed p hp
  rw [a1]
  exact hc q hq (a2 he)

theorem HistExprs.Within.clear {mc : String → Option Num} {X Y : HistExprs} (h : Y.Within X) {tol : ℚ} {env : RowEnv} {c : E}
    (hc : Clear mc X tol env c) : Clear mc Y tol env c := by
  obtain ⟨hd, p, n⟩ := c
  cases hd with
  | rel op =>
    obtain ⟨l, r, h1, h2, h3, h4, h5, h6, h7, h8⟩ := hc
    exact ⟨l, r, h1, h2, h3, h4, h5, h6, fun q v x a b c => h7 q v x a b (h.hasEdge c), fun q v x a b c => h8 q v x a b (h.hasEdge c)⟩
  | pred s b => exact hc
  | name s => exact hc
  | _ => simp [Clear] at hc

theorem HistExprs.Within.clearTerm {mc : String → Option Num} {X Y : HistExprs} (h : Y.Within X) {tol : ℚ} {env : RowEnv} {c : E}
    (hc : ClearTerm mc X tol env c) : ClearTerm mc Y tol env c := by
  rcases hc with hc | ⟨args, n, rfl, hg | ⟨s, t, m, k, rfl, hs, ht⟩⟩
  · exact Or.inl (h.clear hc)
  · exact Or.inr ⟨args, n, rfl, Or.inl (h.groups.trans hg)⟩
  · exact Or.inr ⟨_, n, rfl, Or.inr ⟨s, t, m, k, rfl, h.clear hs, h.clear ht⟩⟩

theorem Represents.congr_fixed {g : List GroupAxis} {f f' : List FixedAxis} {n : ℕ} {w : WKind} (hff : f = f') {rows : List Row}
    {st : Option (Content Arr g.length)} (h : Represents ⟨g, f, n, w⟩ rows st) : Represents ⟨g, f', n, w⟩ rows st := by
  subst hff
  exact h

theorem valOf_num {a : FixedAxis} (h : a ≠ .cut) (v : Option ℚ) : a.valOf v = .num (toNum v) := by
  cases a <;> first | rfl | exact absurd rfl h

/-- What is needed of the condition for one row. -/
def Decides (c : CutArg) (X : HistExprs) (tol : ℚ) (cond : E) (env : RowEnv) : Prop :=
  truth (cond.eval env) = c.holds (c.expr.eval env) ∧ c.Wf ∧ (c.Away X tol env ∨ c.cmp = .eq ∨ c.cmp = .ne)

theorem decides_of {mc : String → Option Num} {asBool : Bool} {X : HistExprs} {tol : ℚ} {env : RowEnv} {e : E} {c : CutArg}
    (h : normalizeexpr mc asBool e = .ok c) (hc : ClearTerm mc X tol env e) : Decides c X tol e env := by
  rcases hc with hc | ⟨args, n, rfl, _⟩
  · exact normalize_clear h hc
  · obtain ⟨h1, h2, h3⟩ := normalize_lor (env := env) h
    exact ⟨h2, h3, Or.inr (Or.inl (by rw [h1]; rfl))⟩

theorem filter_rows {X : HistExprs} {envs : List RowEnv} {p : Row → Bool} {P : RowEnv → Bool} (h : ∀ env ∈ envs, p (X.rowOf env) = P env) :
    (envs.map X.rowOf).filter p = (envs.filter P).map X.rowOf := by
  rw [List.filter_map]
  congr 1
  exact List.filter_congr h

theorem rowOf_gval {X : HistExprs} {i : ℕ} {a : GroupAxis} {e : E} (h : X.groups[i]? = some (a, e)) (env : RowEnv) :
    (X.rowOf env).gvals.getD i (.num .nan) = .num (toNum (e.eval env)) := by
  simp [HistExprs.rowOf, List.getD_eq_getElem?_getD, List.getElem?_map, h]

theorem rowOf_fval {X : HistExprs} {j : ℕ} {a : FixedAxis} {e : E} (h : X.fixed[j]? = some (a, e)) (env : RowEnv) :
    (X.rowOf env).fvals.getD j (.num .nan) = a.valOf (e.eval env) := by
  simp [HistExprs.rowOf, List.getD_eq_getElem?_getD, List.getElem?_map, h]

/-- The content after the selection. -/
structure Selected (X : HistExprs) (tol : ℚ) (envs : List RowEnv) (cond : E) (r : Filled) : Prop where
  rep : Represents r.1.hist ((envs.filter fun env => truth (cond.eval env)).map r.1.rowOf) r.2
  within : r.1.Within X
  fits : r.1.Fits tol

/-- A selection on a group axis gives the content of the rows for which the test is true; the rows are given by
an index. -/
theorem Represents.filterIndexed {ι : Type} {H : HistDef} {l : List ι} {f : ι → Row} {st st' : H.State} (h : Represents H (l.map f) st) (i : ℕ)
    (a : GroupAxis) (ha : H.groups[i]? = some a) (test : Test) (hst : H.filterState test i st = .ok st') (P : ι → Bool)
    (hp : ∀ x ∈ l, ∀ k b, a.key ((f x).gvals.getD i (.num .nan)) = some k → test k = .ok b → P x = b) :
    Represents H ((l.filter P).map f) st' := by
  have hi : i < H.groups.length := (List.getElem?_eq_some_iff.1 ha).1
  have hsub : ∀ r ∈ (l.filter P).map f, r ∈ l.map f := by
    intro r hr
    obtain ⟨x, hx, rfl⟩ := List.mem_map.1 hr
    exact List.mem_map.2 ⟨x, List.mem_of_mem_filter hx, rfl⟩
  cases st with
  | none =>
    simp only [HistDef.filterState, Except.ok.injEq] at hst
    subst hst
    refine ⟨trivial, trivial, fun r hr => h.sound r (hsub r hr), fun r hr => h.groups r (hsub r hr), ?_⟩
    intro gk hgk idx hidx col
    have hno : ∀ r ∈ l.map f, Row.lands H gk idx r = false := by
      intro r hr
      unfold Row.lands
      cases hg : inGroup H.groups r.gvals gk with
      | false => rfl
      | true => exact absurd (h.groups r hr gk hg) (by simp [HistDef.has])
    show (0 : ℚ) = _
    unfold binTotal
    rw [List.filter_eq_nil_iff.2 (fun r hr => by simp [hno r (hsub r hr)])]
    rfl
  | some c =>
    simp only [HistDef.filterState] at hst
    cases hc : filterGroup test i H.groups.length c with
    | error e => rw [hc] at hst; cases hst
    | ok c' =>
      rw [hc] at hst
      cases hst
      obtain ⟨s1, s2, s3⟩ := filterGroup_spec test H.layout i H.groups.length c c' hi hc
      refine ⟨s1 h.good, s2 h.distinct, fun r hr => h.sound r (hsub r hr), ?_, ?_⟩
      · intro r hr gk hgk
        obtain ⟨x, hx, rfl⟩ := List.mem_map.1 hr
        obtain ⟨hr1, hr2⟩ := List.mem_filter.1 hx
        obtain ⟨hl, hk⟩ := inGroup_key _ _ _ i a ha hgk
        have hh := h.groups _ (hsub _ hr) gk hgk
        obtain ⟨b, hb⟩ := (s3 gk hl).1 hh
        refine (s3 gk hl).2.1 hh ?_
        rw [hb]
        exact (hp x hr1 _ b hk hb).symm.trans hr2
      · intro gk hgk idx hidx col
        have e1 := (s3 gk hgk).2.2 idx col
        have e2 := h.totals gk hgk idx hidx col
        show lookup H.groups.length c' gk idx col = _
        rw [e1]
        change lookup H.groups.length c gk idx col = _ at e2
        rw [e2]
        unfold binTotal
        rw [List.filter_map, List.filter_map, List.filter_filter]
        have hrow : ∀ x ∈ l, Row.lands H gk idx (f x) = true → P x = yes (test (gk.getD i (.str ""))) := by
          intro x hx hl
          have hg : inGroup H.groups (f x).gvals gk = true := (Bool.and_eq_true_iff.1 hl).1
          obtain ⟨_, hk⟩ := inGroup_key _ _ _ i a ha hg
          obtain ⟨b, hb⟩ := (s3 gk hgk).1 (h.groups _ (List.mem_map.2 ⟨x, hx, rfl⟩) gk hg)
          rw [hp x hx _ b hk hb, hb]
          rfl
        cases hy : yes (test (gk.getD i (.str ""))) with
        | true =>
          rw [if_pos rfl]
          congr 3
          refine List.filter_congr fun x hx => ?_
          simp only [Function.comp]
          cases hl : Row.lands H gk idx (f x) with
          | false => rfl
          | true => rw [hrow x hx hl, hy]; rfl
        | false =>
          rw [if_neg (by simp)]
          rw [List.filter_eq_nil_iff.2]
          · rfl
          · intro x hx
            simp only [Function.comp]
            cases hl : Row.lands H gk idx (f x) with
            | false => simp
            | true => rw [hrow x hx hl, hy]; simp

/-- A selection on a group axis. -/
theorem select_group {mc : String → Option Num} {asBool : Bool} {limit : ℕ} (hl : 2 ≤ limit) {tol : ℚ} {cond : E} {X : HistExprs}
    {st st' : X.hist.State} {envs : List RowEnv} (hX : X.Fits tol) (hclear : ∀ env ∈ envs, ClearTerm mc X tol env cond)
    (hrep : Represents X.hist (envs.map X.rowOf) st) {c : CutArg} (hn : normalizeexpr mc asBool cond = .ok c) {i : ℕ} {a : GroupAxis} {e : E}
    (ha : X.groups[i]? = some (a, e)) {m : Miss} {test : Test} (hs : groupStep mc asBool limit c tol a e m = .ok (.yes test))
    (hst : X.hist.filterState test i st = .ok st') : Selected X tol envs cond ⟨X, st'⟩ := by
  refine ⟨?_, .refl X, hX⟩
  have ha' : X.hist.groups[i]? = some a := by simp [HistExprs.hist, List.getElem?_map, ha]
  -- the truth of the condition as a function of the row
  have hmean : ∀ env ∈ envs, ∀ k b, a.key ((X.rowOf env).gvals.getD i (.num .nan)) = some k → test k = .ok b → truth (cond.eval env) = b := by
    intro env henv k b hk hb
    rw [rowOf_gval ha] at hk
    exact groupStep_means hl hX hn (List.mem_of_getElem? ha) hs (hclear env henv) hk hb
  exact hrep.filterIndexed i a ha' test hst _ hmean

/-- A selection on a fixed axis that stays. -/
theorem select_fixed {tol : ℚ} {cond : E} {X : HistExprs} {st : X.hist.State} {envs envs0 : List RowEnv} (hsub : ∀ env ∈ envs, env ∈ envs0)
    (hne : envs0 ≠ []) (hX : X.Fits tol) {c : CutArg} (hdec : ∀ env ∈ envs0, Decides c X tol cond env)
    (hcuts : ∀ env ∈ envs0, X.CutsDecide env) (hrep : Represents X.hist (envs.map X.rowOf) st) {j : ℕ} {a : FixedAxis} {e : E}
    (ha : X.fixed[j]? = some (a, e)) {m : Miss} {a' : Option FixedAxis} {s : PySlice}
    (hs : fixedStep cond c tol a e m = .ok (.yes (a', s))) : Selected X tol envs cond (X.selectFixed j a' s st) := by
  have hmem := List.mem_of_getElem? ha
  have hj : j < X.fixed.length := (List.getElem?_eq_some_iff.1 ha).1
  have ha' : X.hist.fixed[j]? = some a := by simp [HistExprs.hist, List.getElem?_map, ha]
  obtain ⟨env0, he0⟩ := List.exists_mem_of_ne_nil _ hne
  have hwf := (hdec env0 he0).2.1
  -- a cut axis
  have hgone : a = .cut → a' = none → s.lo FixedAxis.cut.totbins < FixedAxis.cut.totbins →
      (∀ env ∈ envs, truth (cond.eval env) = FixedAxis.cut.holds (s.lo FixedAxis.cut.totbins) (FixedAxis.cut.valOf (e.eval env))) →
      Selected X tol envs cond (X.selectFixed j a' s st) := by
    intro hac han hlo hp
    subst hac
    subst han
    have h1 := hrep.cutOut j _ ha' s hlo
    have hrow : rowsWhere j (FixedAxis.cut.holds (s.lo FixedAxis.cut.totbins)) (envs.map X.rowOf) =
        (envs.filter fun env => truth (cond.eval env)).map X.rowOf :=
      filter_rows (fun env henv => by rw [rowOf_fval ha, hp env henv])
    rw [hrow, List.map_map] at h1
    refine ⟨?_, ⟨rfl, fun p hp => ⟨p, List.mem_of_mem_eraseIdx hp, rfl, id, fun _ => id⟩⟩,
      ⟨hX.groups, fun p hp => hX.fixed p (List.mem_of_mem_eraseIdx hp)⟩⟩
    have e1 : (Row.eraseFixed j ∘ X.rowOf) = HistExprs.rowOf { X with fixed := X.fixed.eraseIdx j } := by
      funext env
      simp only [Function.comp, Row.eraseFixed, HistExprs.rowOf, List.eraseIdx_map]
    rw [e1] at h1
    exact h1.congr_fixed (show (X.fixed.map (·.1)).eraseIdx j = (X.fixed.eraseIdx j).map (·.1) from List.eraseIdx_map ..)
  unfold fixedStep at hs
  split at hs
  · rename_i hh
    obtain ⟨hac, hsame⟩ := hh
    have he := E.same_iff.1 hsame
    subst he
    cases hs
    refine hgone hac rfl (by decide) fun env henv => ?_
    rcases hcuts env (hsub env henv) _ hmem hac with h0 | h0 <;> simp only at h0 <;> rw [h0] <;> decide +kernel
  · rename_i hnot
    split at hs
    · rename_i hsame
      have he := E.same_iff.1 hsame
      subst he
      split at hs
      · cases hs
      · rename_i a'' s' hsel
        cases hs
        cases hac : decide (a = .cut) with
        | true =>
          have hac := of_decide_eq_true hac
          subst hac
          simp only [FixedAxis.selectArg] at hsel
          cases hb : c.bool with
          | none => rw [hb] at hsel; cases hsel
          | some b =>
            rw [hb] at hsel
            simp only at hsel
            cases hcs : cutSelect c.cmp b with
            | none => rw [hcs] at hsel; cases hsel
            | some s' =>
              rw [hcs] at hsel
              cases hsel
              have hval := hwf.2 b hb
              have hcase : (c.cmp = .eq ∧ s = (if b then ⟨1, some 2⟩ else ⟨0, some 1⟩)) ∨
                  (c.cmp = .ne ∧ s = (if b then ⟨0, some 1⟩ else ⟨1, some 2⟩)) := by
                unfold cutSelect at hcs
                cases b <;> cases hcm : c.cmp <;> simp [hcm] at hcs ⊢ <;> exact hcs.symm
              refine hgone rfl rfl ?_ fun env henv => ?_
              · rcases hcase with ⟨_, rfl⟩ | ⟨_, rfl⟩ <;> cases b <;> decide
              · rw [(hdec env (hsub env henv)).1]
                simp only [CutArg.holds, hval]
                rcases hcuts env (hsub env henv) _ hmem rfl with h0 | h0 <;> simp only at h0 <;> rw [h0] <;>
                  rcases hcase with ⟨e1, rfl⟩ | ⟨e1, rfl⟩ <;> rw [e1] <;> cases b <;> decide +kernel
        | false =>
          have hac := of_decide_eq_false hac
          have hsel' : ∃ v, c.value.num? = some v ∧ (a.select c.cmp v tol).map (SelRes.map some) = .ok (.cut a' s) := by
            unfold FixedAxis.selectArg at hsel
            split at hsel
            · exact absurd rfl hac
            · split at hsel
              · cases hsel
              · rename_i v hv
                exact ⟨v, hv, hsel⟩
          obtain ⟨v, hv, hsel⟩ := hsel'
          obtain ⟨b, hb, rfl⟩ := map_cut hsel
          rcases hwf.1 with ⟨k, hk⟩ | ⟨ks, hk⟩
          · rw [hk] at hv
            cases hv
            obtain ⟨x, hx, g1, g2, g3, g4, g5, g6⟩ := fixed_select_fin hac (hX.fixed _ hmem) hb
            have hcomp : ∀ env ∈ envs, c.cmp.test (toNum (c.expr.eval env)) (.fin x) = truth (cond.eval env) := by
              intro env henv
              obtain ⟨d1, _, d3⟩ := hdec env (hsub env henv)
              rw [d1]
              simp only [CutArg.holds, hk]
              cases hq : c.expr.eval env with
              | none =>
                simp only [List.mem_cons, List.not_mem_nil, or_false] at g2
                rcases g2 with e | e | e | e <;> rw [e] <;> rfl
              | some q =>
                have hA : c.Away X tol env := by
                  rcases d3 with hA | e | e
                  · exact hA
                  · rw [e] at g2; simp at g2
                  · rw [e] at g2; simp at g2
                rcases hA q k x hq hk (Or.inr ⟨_, hmem, rfl, hx⟩) g1 with e | e
                · rw [← e]
                · exact (C37_tolerance_harmless c.cmp g2 k _ tol q g1 e).symm
            have h1 := hrep.sliced j a b ha' s _ g3
            have hrow : rowsWhere j (fun w => c.cmp.test w.toNum (.fin x)) (envs.map X.rowOf) =
                (envs.filter fun env => truth (cond.eval env)).map X.rowOf :=
              filter_rows (fun env henv => by rw [rowOf_fval ha, valOf_num hac, ← hcomp env henv]; rfl)
            rw [hrow] at h1
            have hmm : ∀ p ∈ X.fixed.modify j (fun p => (b, p.2)), p ∈ X.fixed ∨ p = (b, c.expr) := by
              intro p hp
              obtain ⟨i, hi, rfl⟩ := List.mem_iff_getElem.1 hp
              rw [List.getElem_modify]
              split
              · rename_i hji
                subst hji
                right
                have := (List.getElem?_eq_some_iff.1 ha).2
                rw [this]
              · exact Or.inl (List.getElem_mem _)
            refine ⟨?_, ⟨rfl, fun p hp => ?_⟩, ⟨hX.groups, fun p hp => ?_⟩⟩
            · have e1 : HistExprs.rowOf { X with fixed := X.fixed.modify j fun p => (b, p.2) } = X.rowOf := by
                funext env
                simp only [HistExprs.rowOf]
                congr 1
                refine List.ext_getElem (by simp) fun i h1 h2 => ?_
                simp only [List.getElem_map, List.getElem_modify]
                split
                · rename_i hji
                  subst hji
                  have := (List.getElem?_eq_some_iff.1 ha).2
                  rw [this]
                  simp only [valOf_num hac, valOf_num g4]
                · rfl
              show Represents _ (List.map (HistExprs.rowOf { X with fixed := X.fixed.modify j fun p => (b, p.2) }) _) _
              rw [e1]
              refine h1.congr_fixed (show (X.fixed.map (·.1)).set j b = (X.fixed.modify j fun p => (b, p.2)).map (·.1) from ?_)
              refine List.ext_getElem (by simp) fun i h1 h2 => ?_
              simp only [List.getElem_map, List.getElem_modify, List.getElem_set]
              split <;> rfl
            · rcases hmm p hp with h | rfl
              · exact ⟨p, h, rfl, id, fun _ => id⟩
              · exact ⟨_, hmem, rfl, fun h => absurd h g4, g6⟩
            · rcases hmm p hp with h | rfl
              · exact hX.fixed p h
              · exact g5
          · rw [hk] at hv; cases hv
      · cases hs
    · cases hs

/-! ## conditions -/

/-- One condition. -/
theorem selectTerm_selected {mc : String → Option Num} {asBool : Bool} {limit : ℕ} (hl : 2 ≤ limit) {tol : ℚ} {cond : E} {X : HistExprs}
    {st : X.hist.State} {envs envs0 : List RowEnv} (hsub : ∀ env ∈ envs, env ∈ envs0) (hne : envs0 ≠ []) (hX : X.Fits tol)
    (hclear : ∀ env ∈ envs0, ClearTerm mc X tol env cond) (hcuts : ∀ env ∈ envs0, X.CutsDecide env)
    (hrep : Represents X.hist (envs.map X.rowOf) st) {r : Filled} (h : HistExprs.selectTerm mc asBool limit tol cond ⟨X, st⟩ = .ok r) :
    Selected X tol envs cond r := by
  unfold HistExprs.selectTerm at h
  split at h
  · cases h
  · split at h
    · cases h
    · rename_i c hn
      split at h
      · cases h
      · rename_i i test hsearch
        obtain ⟨k, a, e, m, hk, ha, hs⟩ := searchAxis_yes hsearch
        rw [Nat.zero_add] at hk
        subst hk
        split at h
        · cases h
        · rename_i st' hst
          cases h
          exact select_group hl hX (fun env henv => hclear env (hsub env henv)) hrep hn ha hs hst
      · split at h
        · cases h
        · rename_i m' j a' s hsearch
          obtain ⟨k, a, e, m, hk, ha, hs⟩ := searchAxis_yes hsearch
          rw [Nat.zero_add] at hk
          subst hk
          cases h
          exact select_fixed hsub hne hX (fun env henv => decides_of hn (hclear env henv)) hcuts hrep ha hs
        · cases h

/-- An "and" of conditions. -/
theorem selectTerms_selected {mc : String → Option Num} {asBool : Bool} {limit : ℕ} (hl : 2 ≤ limit) {tol : ℚ} {envs0 : List RowEnv}
    (hne : envs0 ≠ []) : ∀ {conds : List E} {X : HistExprs} {st : X.hist.State} {envs : List RowEnv}, (∀ env ∈ envs, env ∈ envs0) → X.Fits tol →
    (∀ env ∈ envs0, ∀ c ∈ conds, ClearTerm mc X tol env c) → (∀ env ∈ envs0, X.CutsDecide env) →
    Represents X.hist (envs.map X.rowOf) st → ∀ {r : Filled}, selectTerms mc asBool limit tol conds ⟨X, st⟩ = .ok r →
    Represents r.1.hist ((envs.filter fun env => conds.all fun c => truth (c.eval env)).map r.1.rowOf) r.2 ∧ r.1.Within X ∧ r.1.Fits tol
  | [], X, st, envs, _, hX, _, _, hrep, r, h => by
    cases h
    exact ⟨by simpa using hrep, .refl X, hX⟩
  | c :: cs, X, st, envs, hsub, hX, hclear, hcuts, hrep, r, h => by
    simp only [selectTerms] at h
    split at h
    · cases h
    · rename_i F hF
      obtain ⟨Y, st1⟩ := F
      have h1 := selectTerm_selected hl hsub hne hX (fun env henv => hclear env henv c (by simp)) hcuts hrep hF
      obtain ⟨h2, h3, h4⟩ := selectTerms_selected hl hne (fun env henv => hsub env (List.mem_of_mem_filter henv)) h1.fits
        (fun env henv c hc => h1.within.clearTerm (hclear env henv c (by simp [hc]))) (fun env henv => h1.within.cutsDecide (hcuts env henv))
        h1.rep h
      refine ⟨?_, h3.trans h1.within, h4⟩
      rw [List.filter_filter] at h2
      refine cast ?_ h2
      congr 3
      funext env
      simp [Bool.and_comm]

theorem cut_handles_bool {v : Val} (h : FixedAxis.Handles .cut v) : ∃ b, v = .bool b := by
  obtain ⟨r, h1, h2, h3⟩ := h
  have hr : ∃ i : ℕ, r = some (i : ℤ) := by
    have : ∃ z, r = some z := by
      cases v <;> simp only [FixedAxis.index, Except.ok.injEq] at h1 <;> exact ⟨_, h1.symm⟩
    obtain ⟨z, hz⟩ := this
    exact ⟨z.toNat, by rw [hz, Int.toNat_of_nonneg (h2 z hz).1]⟩
  obtain ⟨i, hi⟩ := hr
  obtain ⟨l, hl, hin⟩ := (h3 i).1 hi
  have hlb : ∃ b, l = .bool b := by
    have := List.mem_of_getElem? hl
    simp only [FixedAxis.keys, List.mem_cons, List.not_mem_nil, or_false] at this
    rcases this with h | h <;> exact ⟨_, h⟩
  obtain ⟨b', rfl⟩ := hlb
  cases v with
  | bool b => exact ⟨b, rfl⟩
  | num x => exact absurd (of_decide_eq_true (p := False) hin) (fun h => h)
  | int x => exact absurd (of_decide_eq_true (p := False) hin) (fun h => h)

/-- The values that a cut axis takes are truth values. -/
theorem cutsDecide_of {X : HistExprs} {env : RowEnv} (h : (X.rowOf env).Ok X.hist) : X.CutsDecide env := by
  intro p hp he
  obtain ⟨j, hj, hpj⟩ := List.mem_iff_getElem.1 hp
  have h1 := List.forall₂_iff_get.1 h.fixed
  have h2 := h1.2 j (by simpa [HistExprs.hist] using hj) (by simpa [HistExprs.rowOf] using hj)
  simp only [HistExprs.hist, HistExprs.rowOf, List.get_eq_getElem, List.getElem_map, hpj, he] at h2
  obtain ⟨b, hb⟩ := cut_handles_bool h2
  simp only [FixedAxis.valOf] at hb
  split at hb
  · rename_i h; exact Or.inl h
  · split at hb
    · rename_i h; exact Or.inr h
    · cases hb

end Verif
