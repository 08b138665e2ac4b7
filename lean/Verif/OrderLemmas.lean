import Verif.LinearLemmas

/-! # Lemmas about the order of operations on different axes (helpers for the property theorems) -/

namespace Verif

/-- an operation that replaces fixed axis `j` and changes every array -/
def HistDef.applyAt (H : HistDef) (j : ℕ) (miss : Err) (op : FixedAxis → Except Err (FixedAxis × (Arr → Arr))) (st : H.State) :
    Except Err (Σ H' : HistDef, H'.State) :=
  match H.fixed[j]? with
  | none => .error miss
  | some a =>
    match op a with
    | .error e => .error e
    | .ok (a', f) =>
      let out : (H.setFixed j a').State := st.map (mapLeaves f H.groups.length)
      .ok ⟨H.setFixed j a', out⟩

/-- `select` as such an operation -/
def selectOp (j : ℕ) (cmp : Cmp) (value : Num) (tol : ℚ) (a : FixedAxis) : Except Err (FixedAxis × (Arr → Arr)) :=
  match a.select cmp value tol with
  | .error e => .error e
  | .ok (.no _ _) => .error .valueError
  | .ok (.cut a' s) => .ok (a', Arr.slice j s)

/-- `rebin` as such an operation -/
def rebinOp (j : ℕ) (edges : List ℚ) (a : FixedAxis) : Except Err (FixedAxis × (Arr → Arr)) :=
  match a.asSplit with
  | .error e => .error e
  | .ok a =>
    match a.rebinned edges with
    | .error e => .error e
    | .ok b => .ok (.split b, Arr.rebin j (rebinRanges a b) b.totbins)

theorem select_applyAt (H : HistDef) (j : ℕ) (cmp : Cmp) (value : Num) (tol : ℚ) (st : H.State) :
    H.select j cmp value tol st = H.applyAt j .valueError (selectOp j cmp value tol) st := by
  unfold HistDef.select HistDef.applyAt selectOp
  cases H.fixed[j]? with
  | none => rfl
  | some a =>
    simp only
    cases a.select cmp value tol with
    | error e => rfl
    | ok r => cases r <;> rfl

theorem rebin_applyAt (H : HistDef) (j : ℕ) (edges : List ℚ) (st : H.State) :
    H.rebin j edges st = H.applyAt j .indexError (rebinOp j edges) st := by
  unfold HistDef.rebin HistDef.applyAt rebinOp HistDef.rebinAny
  cases H.fixed[j]? with
  | none => rfl
  | some a =>
    simp only
    cases a.asSplit with
    | error e => rfl
    | ok b =>
      simp only
      cases b.rebinned edges with
      | error e => rfl
      | ok c => rfl

theorem mapLeaves_comm (f g : Arr → Arr) (h : ∀ a, f (g a) = g (f a)) : ∀ (n : ℕ) (c : Content Arr n),
    mapLeaves f n (mapLeaves g n c) = mapLeaves g n (mapLeaves f n c)
  | 0, c => h c
  | n + 1, (d : List (Key × Content Arr n)) => by
    show (d.map (fun p => (p.1, mapLeaves g n p.2))).map (fun p => (p.1, mapLeaves f n p.2)) =
      (d.map (fun p => (p.1, mapLeaves f n p.2))).map (fun p => (p.1, mapLeaves g n p.2))
    rw [List.map_map, List.map_map]
    refine List.map_congr_left fun p _ => ?_
    simp only [Function.comp, mapLeaves_comm f g h n p.2]

theorem applyAt_comm {H : HistDef} {i j : ℕ} (hij : i ≠ j) {m m' : Err} {op op' : FixedAxis → Except Err (FixedAxis × (Arr → Arr))}
    (hc : ∀ a b a' b' f g, op a = .ok (a', f) → op' b = .ok (b', g) → ∀ x, f (g x) = g (f x))
    {s : H.State} {H1 H2 : HistDef} {s1 : H1.State} {s2 : H2.State} (h1 : H.applyAt i m op s = .ok ⟨H1, s1⟩)
    (h2 : H1.applyAt j m' op' s1 = .ok ⟨H2, s2⟩) :
    ∃ H1' s1', H.applyAt j m' op' s = .ok ⟨H1', s1'⟩ ∧ H1'.applyAt i m op s1' = .ok ⟨H2, s2⟩ := by
  unfold HistDef.applyAt at h1
  cases hi : H.fixed[i]? with
  | none => rw [hi] at h1; cases h1
  | some a =>
    rw [hi] at h1
    simp only at h1
    cases ha : op a with
    | error e => rw [ha] at h1; cases h1
    | ok r =>
      obtain ⟨a', f⟩ := r
      rw [ha] at h1
      cases h1
      unfold HistDef.applyAt at h2
      have ej : (H.setFixed i a').fixed[j]? = H.fixed[j]? := List.getElem?_set_ne hij
      rw [ej] at h2
      cases hj : H.fixed[j]? with
      | none => rw [hj] at h2; cases h2
      | some b =>
        rw [hj] at h2
        simp only at h2
        cases hb : op' b with
        | error e => rw [hb] at h2; cases h2
        | ok r =>
          obtain ⟨b', g⟩ := r
          rw [hb] at h2
          cases h2
          refine ⟨H.setFixed j b', s.map (mapLeaves g H.groups.length), ?_, ?_⟩
          · unfold HistDef.applyAt
            rw [hj]
            simp only [hb]
          · unfold HistDef.applyAt
            have ei : (H.setFixed j b').fixed[i]? = H.fixed[i]? := List.getElem?_set_ne hij.symm
            rw [ei, hi]
            simp only [ha]
            have e2 : (s.map (mapLeaves g H.groups.length)).map (mapLeaves f H.groups.length) =
                (s.map (mapLeaves f H.groups.length)).map (mapLeaves g H.groups.length) := by
              cases s with
              | none => rfl
              | some c => exact congrArg some (mapLeaves_comm f g (hc a b a' b' f g ha hb) _ c)
            have key : ∀ (l l' : List FixedAxis) (x y : H.State), l = l' → x = y →
                (⟨{ H with fixed := l }, x⟩ : Σ H' : HistDef, H'.State) = ⟨{ H with fixed := l' }, y⟩ := by
              intro l l' x y hl hxy
              subst hl hxy
              rfl
            exact congrArg Except.ok (key _ _ _ _ (List.set_comm _ _ hij.symm) e2)

theorem getD_set_ne {α : Type} (l : List α) {i j : ℕ} (h : i ≠ j) (x d : α) : (l.set i x).getD j d = l.getD j d := by
  simp only [List.getD_eq_getElem?_getD, List.getElem?_set_ne h]

theorem slice_slice {i j : ℕ} (h : i ≠ j) (s t : PySlice) (a : Arr) : (a.slice j t).slice i s = (a.slice i s).slice j t := by
  unfold Arr.slice
  simp only [getD_set_ne _ h, getD_set_ne _ h.symm, List.set_comm _ _ h]

theorem rebin_slice {i j : ℕ} (h : i ≠ j) (s : PySlice) (r : List (ℕ × ℕ)) (n : ℕ) (a : Arr) :
    (a.slice j s).rebin i r n = (a.rebin i r n).slice j s := by
  unfold Arr.slice Arr.rebin
  simp only [getD_set_ne _ h, getD_set_ne _ h.symm, List.set_comm _ _ h]

theorem sum_sum_comm {α β : Type} (l : List α) (m : List β) (f : α → β → ℚ) :
    (l.map (fun x => (m.map (fun y => f x y)).sum)).sum = (m.map (fun y => (l.map (fun x => f x y)).sum)).sum := by
  induction l with
  | nil => simp
  | cons x l ih =>
    simp only [List.map_cons, List.sum_cons, ih]
    rw [← List.sum_map_add]

theorem rebin_rebin {i j : ℕ} (h : i ≠ j) (r r' : List (ℕ × ℕ)) (n n' : ℕ) (a : Arr) :
    (a.rebin j r' n').rebin i r n = (a.rebin i r n).rebin j r' n' := by
  unfold Arr.rebin
  simp only [getD_set_ne _ h, getD_set_ne _ h.symm, List.set_comm _ _ h, Arr.mk.injEq, true_and]
  funext idx c
  exact sum_sum_comm _ _ _

end Verif
