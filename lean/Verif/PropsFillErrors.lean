import Verif.PropsFill

/-!
# Properties C17 and C18: fills that raise
-/

namespace Verif

/-! ## lemmas -/

/-- `weight` and `weight2` have the same length. -/
def W.EqLen : W → Prop
  | .one => True
  | .arr w w2 => w.length = w2.length

/-- `weight` and `weight2` have length `n`. -/
def W.Len (n : ℕ) : W → Prop
  | .one => True
  | .arr w w2 => w.length = n ∧ w2.length = n

theorem compress_length {α β : Type} (xs : List α) (ys : List β) (m : List Bool) (h : xs.length = ys.length)
    (xs' : List α) (hx : compress xs m = .ok xs') : ∃ ys', compress ys m = .ok ys' ∧ xs'.length = ys'.length := by
  unfold compress at hx ⊢
  split at hx
  · rename_i hl
    rw [if_pos (by omega)]
    refine ⟨_, rfl, ?_⟩
    cases hx
    clear hl
    induction xs generalizing ys m with
    | nil => cases ys with
      | nil => simp
      | cons => simp at h
    | cons x xs ih => cases ys with
      | nil => simp at h
      | cons y ys => cases m with
        | nil => simp
        | cons b m => cases b <;> simp [ih ys m (by simpa using h)]
  · cases hx

theorem unmask_eqLen (w w' : W) (is : List (Option ℤ)) (h : w.EqLen) (hw : w.unmask is = .ok w') : w'.EqLen := by
  cases w with
  | one => simp [W.unmask] at hw; subst hw; trivial
  | arr w w2 =>
    simp only [W.unmask] at hw
    cases h1 : compress w (unmasked is) with
    | error e => simp [h1] at hw
    | ok v =>
      obtain ⟨v2, h2, h3⟩ := compress_length w w2 _ h v h1
      simp only [h1, h2, Except.ok.injEq] at hw
      subst hw
      exact h3

theorem compress_count {α : Type} (xs : List α) (is : List (Option ℤ)) (h : xs.length = is.length) :
    ∃ v, compress xs (unmasked is) = .ok v ∧ v.length = (compressed is).length := by
  unfold compress unmasked compressed
  rw [if_pos (by simpa using h)]
  refine ⟨_, rfl, ?_⟩
  induction xs generalizing is with
  | nil => cases is with
    | nil => simp
    | cons => simp at h
  | cons x xs ih => cases is with
    | nil => simp at h
    | cons i is =>
      have := ih is (by simpa using h)
      cases i <;> simpa using this

theorem unmask_len (w : W) (is : List (Option ℤ)) (h : w.Len is.length) :
    ∃ w', w.unmask is = .ok w' ∧ w'.Len (compressed is).length := by
  cases w with
  | one => exact ⟨.one, rfl, trivial⟩
  | arr w w2 =>
    obtain ⟨v, h1, h2⟩ := compress_count w is h.1
    obtain ⟨v2, h3, h4⟩ := compress_count w2 is h.2
    exact ⟨.arr v v2, by simp [W.unmask, h1, h3], h2, h4⟩

theorem addAt_empty (a a' : Arr) (col : ℕ) (vs : List ℚ) (h : a.addAt col [] vs = .ok a') : a' = a := by
  unfold Arr.addAt at h
  split at h
  · cases h
  · split at h
    · cases h
    · rename_i rs hrs
      simp at hrs
      subst hrs
      cases h
      rfl

theorem addAt_shape (a a' : Arr) (col : ℕ) (is : List ℤ) (vs : List ℚ) (h : a.addAt col is vs = .ok a') :
    a'.shape = a.shape := by
  unfold Arr.addAt at h
  split at h
  · cases h
  · split at h
    · cases h
    · cases h
      exact (addAtLoop_shape ..).1

theorem addAt_iff (a : Arr) (col : ℕ) (is : List ℤ) (vs : List ℚ) :
    (∃ a', a.addAt col is vs = .ok a') ↔ (vs.length = is.length ∨ vs.length = 1) ∧ (is.mapM (normIndex a.rows)).isSome = true := by
  unfold Arr.addAt broadcastTo
  by_cases h : vs.length = is.length
  · simp only [h, if_true, true_or, true_and]
    cases is.mapM (normIndex a.rows) <;> simp
  · simp only [h, if_false, false_or]
    cases vs with
    | nil => simp
    | cons v vs =>
      cases vs with
      | nil => cases is.mapM (normIndex a.rows) <;> simp
      | cons v' vs => simp

/-- The counts are added after the last thing that can go wrong. -/
theorem fillCounts_err (L : Layout) (length : ℕ) (a a' : Arr) (is : Option (List (Option ℤ))) (w : W) (hw : w.EqLen) (e : Err)
    (h : fillCounts L length a is w = .error (e, a')) : a' = a := by
  cases w with
  | one =>
    cases is with
    | none => simp [fillCounts] at h
    | some is =>
      simp only [fillCounts] at h
      split at h <;> simp at h
      exact h.2.symm
  | arr w w2 =>
    simp only [fillCounts] at h
    cases hu : (W.arr w w2).unmask (is.getD (List.replicate w.length (some 0))) with
    | error e => simp [hu] at h; exact h.2.symm
    | ok w' =>
      have := unmask_eqLen _ _ _ hw hu
      cases w' with
      | one => simp [hu] at h; exact h.2.symm
      | arr v v2 =>
        simp only [hu] at h
        cases h1 : a.addAt L.sumw (compressed (is.getD (List.replicate w.length (some 0)))) v with
        | error e => simp [h1] at h; exact h.2.symm
        | ok a1 =>
          have hs := addAt_shape _ _ _ _ _ h1
          have hi := (addAt_iff a L.sumw _ v).1 ⟨a1, h1⟩
          have : ∃ a2, a1.addAt L.sumw2 (compressed (is.getD (List.replicate w.length (some 0)))) v2 = .ok a2 := by
            rw [addAt_iff]
            have he : v.length = v2.length := this
            rw [← he]
            unfold Arr.rows at hi ⊢
            rw [hs]
            exact hi
          obtain ⟨a2, h2⟩ := this
          simp [h1, h2] at h

/-- Columns of length `n`. -/
def ProfLen (n : ℕ) (ps : List ((Option (List ℚ) × Option (List ℚ)) × ℕ)) : Prop :=
  ∀ p ∈ ps, ∃ x x2, p.1 = (some x, some x2) ∧ x.length = n ∧ x2.length = n

theorem scale_length (x : List ℚ) (w : W) (v : List ℚ) (h : w.scale x = .ok v) :
    match w with
    | .one => v = x
    | .arr w _ => (x.length = w.length ∧ v.length = x.length) ∨ (x.length = 1 ∧ v.length = w.length) ∨ (w.length = 1 ∧ v.length = x.length) := by
  cases w with
  | one => simp [W.scale] at h; exact h.symm
  | arr w w2 =>
    simp only [W.scale, mulArr] at h
    split at h
    · rename_i hl
      cases h
      left
      simp [hl]
    · split at h
      · cases h; right; left; simp
      · cases h; right; right; simp
      · cases h

/-- Everything is left out: nothing changes. -/
theorem profLoop_none (n : ℕ) (I : List (Option ℤ)) (hI : compressed I = []) : ∀ (ps : List ((Option (List ℚ) × Option (List ℚ)) × ℕ))
    (a : Arr) (is : Option (List (Option ℤ))) (w : W), ProfLen n ps → is.getD (List.replicate n (some 0)) = I → w.EqLen →
    (∀ e a', profLoop ps a is w = .error (e, a') → a' = a) ∧
    (∀ a' is' w', profLoop ps a is w = .ok (a', is', w') → a' = a ∧ w'.EqLen) := by
  intro ps
  induction ps with
  | nil =>
    intro a is w _ _ hw
    constructor
    · intro e a' h; simp [profLoop] at h
    · intro a' is' w' h
      simp only [profLoop, Except.ok.injEq, Prod.mk.injEq] at h
      obtain ⟨rfl, rfl, rfl⟩ := h
      exact ⟨rfl, hw⟩
  | cons p ps ih =>
    intro a is w hps his hw
    obtain ⟨x, x2, hp, hx, hx2⟩ := hps p (by simp)
    obtain ⟨⟨p1, p2⟩, pi⟩ := p
    simp only [Prod.mk.injEq] at hp
    obtain ⟨rfl, rfl⟩ := hp
    simp only [profLoop, hx, his, hI]
    cases h1 : w.unmask I with
    | error e => simp
    | ok w1 =>
      have hw1 := unmask_eqLen _ _ _ hw h1
      simp only
      cases h2 : w1.scale x with
      | error e => simp
      | ok v =>
        simp only
        cases h3 : a.addAt pi [] v with
        | error e => simp
        | ok a1 =>
          have := addAt_empty _ _ _ _ h3
          subst this
          simp only
          cases h4 : w1.scale x2 with
          | error e => simp
          | ok v2 =>
            simp only
            cases h5 : a1.addAt (pi + 1) [] v2 with
            | error e => simp
            | ok a2 =>
              have := addAt_empty _ _ _ _ h5
              subst this
              simp only
              exact ih a2 (some I) w1 (fun q hq => hps q (by simp [hq])) rfl hw1

/-- Some entries are left out, or the indexes are bad: the first profile raises. -/
theorem profLoop_first (n : ℕ) (I : List (Option ℤ)) (hn : I.length = n)
    (p : (Option (List ℚ) × Option (List ℚ)) × ℕ) (ps : List ((Option (List ℚ) × Option (List ℚ)) × ℕ))
    (a : Arr) (is : Option (List (Option ℤ))) (w : W) (hps : ProfLen n (p :: ps)) (his : is.getD (List.replicate n (some 0)) = I)
    (hw : w.Len n) (hbad : ((compressed I).length < n ∧ 2 ≤ n) ∨ (compressed I).mapM (normIndex a.rows) = none) :
    ∃ e, profLoop (p :: ps) a is w = .error (e, a) := by
  obtain ⟨x, x2, hp, hx, hx2⟩ := hps p (by simp)
  obtain ⟨⟨p1, p2⟩, pi⟩ := p
  simp only [Prod.mk.injEq] at hp
  obtain ⟨rfl, rfl⟩ := hp
  simp only [profLoop, hx, his]
  obtain ⟨w1, h1, hw1⟩ := unmask_len w I (by rw [hn]; exact hw)
  simp only [h1]
  cases h2 : w1.scale x with
  | error e => exact ⟨e, rfl⟩
  | ok v =>
    simp only
    cases h3 : a.addAt pi (compressed I) v with
    | error e => exact ⟨e, rfl⟩
    | ok a1 =>
      exfalso
      obtain ⟨g1, g2⟩ := (addAt_iff a pi _ v).1 ⟨a1, h3⟩
      rcases hbad with ⟨hb1, hb2⟩ | hb
      · have hs := scale_length x w1 v h2
        cases w1 with
        | one => simp only at hs; subst hs; omega
        | arr w w2 =>
          simp only at hs
          have hl := hw1.1
          omega
      · rw [hb] at g2; cases g2

/-- Nothing is left out and all indexes are good: nothing raises. -/
theorem profLoop_all (n : ℕ) (I : List (Option ℤ)) (hn : I.length = n) (hall : (compressed I).length = n)
    : ∀ (ps : List ((Option (List ℚ) × Option (List ℚ)) × ℕ))
    (a : Arr) (is : Option (List (Option ℤ))) (w : W), ProfLen n ps → is.getD (List.replicate n (some 0)) = I →
    w.Len n → ((compressed I).mapM (normIndex a.rows)).isSome = true →
    ∃ a' is' w', profLoop ps a is w = .ok (a', is', w') ∧ a'.shape = a.shape ∧
      (is' = is ∨ is' = some I) ∧ w'.Len n := by
  intro ps
  induction ps with
  | nil => intro a is w _ _ hw _; exact ⟨a, is, w, rfl, rfl, Or.inl rfl, hw⟩
  | cons p ps ih =>
    intro a is w hps his hw hm
    obtain ⟨x, x2, hp, hx, hx2⟩ := hps p (by simp)
    obtain ⟨⟨p1, p2⟩, pi⟩ := p
    simp only [Prod.mk.injEq] at hp
    obtain ⟨rfl, rfl⟩ := hp
    simp only [profLoop, hx, his]
    obtain ⟨w1, h1, hw1⟩ := unmask_len w I (by rw [hn]; exact hw)
    rw [hall] at hw1
    have hsc : ∀ y : List ℚ, y.length = n → ∃ v, w1.scale y = .ok v ∧ v.length = n := by
      intro y hy
      cases w1 with
      | one => exact ⟨y, rfl, hy⟩
      | arr w w2 =>
        refine ⟨_, by simp only [W.scale, mulArr]; rw [if_pos (by rw [hy]; exact hw1.1.symm)], ?_⟩
        simp [hy, hw1.1]
    obtain ⟨v, h2, hv⟩ := hsc x hx
    obtain ⟨v2, h4, hv2⟩ := hsc x2 hx2
    obtain ⟨a1, h3⟩ := (addAt_iff a pi (compressed I) v).2 ⟨Or.inl (by omega), hm⟩
    have hs1 := addAt_shape _ _ _ _ _ h3
    obtain ⟨a2, h5⟩ := (addAt_iff a1 (pi + 1) (compressed I) v2).2 ⟨Or.inl (by omega), by unfold Arr.rows at hm ⊢; rw [hs1]; exact hm⟩
    have hs2 := addAt_shape _ _ _ _ _ h5
    obtain ⟨a', is', w', k1, k2, k3, k4⟩ := ih a2 (some I) w1 (fun q hq => hps q (by simp [hq])) rfl hw1
      (by unfold Arr.rows at hm ⊢; rw [hs2, hs1]; exact hm)
    refine ⟨a', is', w', ?_, by rw [k2, hs2, hs1], Or.inr (by rcases k3 with h | h <;> exact h), k4⟩
    simp only [h1, h2, h3, h4, h5, k1]

theorem fillCounts_all (L : Layout) (length n : ℕ) (I : List (Option ℤ)) (hn : I.length = n) (hall : (compressed I).length = n)
    (a : Arr) (is : Option (List (Option ℤ))) (w : W) (his : is.getD (List.replicate n (some 0)) = I) (hw : w.Len n)
    (hm : ((compressed I).mapM (normIndex a.rows)).isSome = true) :
    ∃ a', fillCounts L length a is w = .ok a' := by
  cases w with
  | one =>
    cases is with
    | none => exact ⟨_, rfl⟩
    | some is =>
      simp only [Option.getD_some] at his
      subst his
      obtain ⟨a1, h1⟩ := (addAt_iff a L.sumw (compressed is) [1]).2 ⟨Or.inr rfl, hm⟩
      exact ⟨a1, by simp [fillCounts, h1]⟩
  | arr w w2 =>
    have hl := hw.1
    obtain ⟨w1, h1, hw1⟩ := unmask_len (.arr w w2) I (by rw [hn]; exact hw)
    rw [hall] at hw1
    cases w1 with
    | one =>
      simp only [W.unmask] at h1
      split at h1 <;> cases h1
    | arr v v2 =>
      obtain ⟨a1, h2⟩ := (addAt_iff a L.sumw (compressed I) v).2 ⟨Or.inl (by rw [hall]; exact hw1.1), hm⟩
      have hs1 := addAt_shape _ _ _ _ _ h2
      obtain ⟨a2, h3⟩ := (addAt_iff a1 L.sumw2 (compressed I) v2).2 ⟨Or.inl (by rw [hall]; exact hw1.2), by unfold Arr.rows at hm ⊢; rw [hs1]; exact hm⟩
      exact ⟨a2, by simp only [fillCounts, hl, his, h1, h2, h3]⟩

/-- `fillblock` with columns of one length changes nothing if it raises. -/
theorem fillblock_err (L : Layout) (length n : ℕ) (a a' : Arr) (is : Option (List (Option ℤ)))
    (ps : List (Option (List ℚ) × Option (List ℚ))) (w : W) (his : ∀ I, is = some I → I.length = n)
    (hps : ∀ p ∈ ps, ∃ x x2, p = (some x, some x2) ∧ x.length = n ∧ x2.length = n) (hw : w.Len n) (e : Err)
    (h : fillblock L length a is ps w = .error (e, a')) : a' = a := by
  have hpl : ProfLen n (List.zip ps L.pidx) := by
    intro p hp
    obtain ⟨x, x2, h1⟩ := hps p.1 (List.of_mem_zip hp).1
    exact ⟨x, x2, h1⟩
  have heq : w.EqLen := by
    cases w with
    | one => trivial
    | arr w w2 => exact hw.1.trans hw.2.symm
  set I := is.getD (List.replicate n (some 0)) with hI
  have hn : I.length = n := by
    cases is with
    | none => simp [hI]
    | some J => exact his J rfl
  unfold fillblock at h
  cases hz : List.zip ps L.pidx with
  | nil =>
    rw [hz] at h
    simp only [profLoop] at h
    exact fillCounts_err _ _ _ _ _ _ heq _ h
  | cons p rest =>
    rw [hz] at h hpl
    by_cases hbad : ((compressed I).length < n ∧ 2 ≤ n) ∨ (compressed I).mapM (normIndex a.rows) = none
    · obtain ⟨e', he⟩ := profLoop_first n I hn p rest a is w hpl hI.symm hw hbad
      rw [he] at h
      simp at h
      exact h.2.symm
    · rw [not_or] at hbad
      have hm : ((compressed I).mapM (normIndex a.rows)).isSome = true := by
        rw [Option.isSome_iff_ne_none]; exact hbad.2
      have hle : (compressed I).length ≤ n := by
        rw [← hn]; exact List.length_filterMap_le _ _
      by_cases hall : (compressed I).length = n
      · obtain ⟨a1, is1, w1, k1, k2, k3, k4⟩ := profLoop_all n I hn hall (p :: rest) a is w hpl hI.symm hw hm
        rw [k1] at h
        simp only at h
        obtain ⟨a2, h2⟩ := fillCounts_all L length n I hn hall a1 is1 w1
          (by rcases k3 with h | h <;> subst h <;> simp [hI]) k4
          (by unfold Arr.rows at hm ⊢; rw [k2]; exact hm)
        rw [h2] at h
        cases h
      · have h0 : compressed I = [] := by
          apply List.length_eq_zero_iff.1
          by_contra h0
          exact hbad.1 ⟨by omega, by omega⟩
        obtain ⟨q1, q2⟩ := profLoop_none n I h0 (p :: rest) a is w hpl hI.symm heq
        cases hpr : profLoop (p :: rest) a is w with
        | error ea =>
          obtain ⟨e1, a1⟩ := ea
          rw [hpr] at h
          simp at h
          rw [← h.2]
          exact q1 e1 a1 hpr
        | ok t =>
          obtain ⟨a1, is1, w1⟩ := t
          obtain ⟨ha1, hw1⟩ := q2 a1 is1 w1 hpr
          rw [hpr] at h
          simp only at h
          rw [fillCounts_err _ _ _ _ _ _ hw1 _ h, ha1]

theorem mapE_length {α β : Type} (f : α → Except Err β) : ∀ (xs : List α) (ys : List β), mapE f xs = .ok ys → ys.length = xs.length
  | [], ys, h => by simp [mapE] at h; subst h; rfl
  | x :: xs, ys, h => by
    simp only [mapE] at h
    split at h
    · cases h
    · split at h
      · cases h
      · cases h
        rename_i ys' h'
        simp [mapE_length f xs ys' h']

theorem fixedColumns_length (rows : List Row) : ∀ (as : List FixedAxis) (k : ℕ) (fs : List (Option (List (Option ℤ)))),
    fixedColumns rows as k = .ok fs → ∀ f ∈ fs, ∃ c, f = some c ∧ c.length = rows.length
  | [], k, fs, h => by simp [fixedColumns] at h; subst h; simp
  | a :: as, k, fs, h => by
    simp only [fixedColumns] at h
    split at h
    · cases h
    · split at h
      · cases h
      · cases h
        rename_i _ c hc _ cs hcs
        intro f hf
        simp at hf
        rcases hf with rfl | hf
        · exact ⟨c, rfl, by simpa using mapE_length _ _ _ hc⟩
        · exact fixedColumns_length rows as (k + 1) cs hcs f hf

theorem flatRest_length (n : ℕ) (shape : List ℕ) : ∀ (ss : List ℕ) (ds : List (Option (List (Option ℤ)))) (acc : Option (List (Option ℤ)))
    (r : Option (List (Option ℤ))), (∀ I, acc = some I → I.length = n) → (∀ f ∈ ds, ∃ c, f = some c ∧ c.length = n) →
    flatRest shape ss ds acc = .ok r → ∀ I, r = some I → I.length = n
  | [], ds, acc, r, ha, _, h => by simp [flatRest] at h; subst h; exact ha
  | s :: ss, [], acc, r, ha, _, h => by simp [flatRest] at h; subst h; exact ha
  | s :: ss, d :: ds, acc, r, ha, hd, h => by
    obtain ⟨c, rfl, hc⟩ := hd d (by simp)
    cases acc with
    | none => simp [flatRest] at h
    | some a =>
      have hl := ha a rfl
      simp only [flatRest] at h
      split at h
      · cases h
      · split at h
        · cases h
        · rename_i a' ha'
          refine flatRest_length n shape ss ds (some a') r ?_ (fun f hf => hd f (by simp [hf])) h
          intro I hI
          cases hI
          unfold flatStep at ha'
          split at ha'
          · cases ha'; simp [hl, hc]
          · cases ha'

theorem flatIndexes_length (L : Layout) (n : ℕ) (ds : List (Option (List (Option ℤ)))) (r : Option (List (Option ℤ)))
    (hd : ∀ f ∈ ds, ∃ c, f = some c ∧ c.length = n) (h : flatIndexes L ds = .ok r) (I : List (Option ℤ)) (hr : r = some I) :
    I.length = n := by
  unfold flatIndexes at h
  split at h
  · rename_i d ds hs
    refine flatRest_length n _ _ _ _ _ ?_ (fun f hf => hd f (by simp [hf])) h I hr
    intro J hJ
    obtain ⟨c, hc, hl⟩ := hd d (by simp)
    rw [hc] at hJ
    cases hJ
    exact hl
  · cases h
    cases hr

theorem weights_len (L : Layout) (n : ℕ) (d : Dest) (w : W) (hd : ∀ a b, d.weight = (some a, some b) → a.length = n ∧ b.length = n)
    (h : weights L n d = .ok w) : w.Len n := by
  unfold weights at h
  split at h
  · cases h; trivial
  · cases h; simp [W.Len]
  · split at h
    · rename_i a b hab
      cases h
      obtain ⟨h1, h2⟩ := hd a b hab
      simp [W.Len, h1, h2]
    · cases h

/-! ## C17 -/

/-- C17, without group axes: whatever the data, if `fill` raises then every entry of the histogram
reads as before.  Missing: histograms with group axes, for which it does not hold (`C17_refuted`),
and exceptions raised before the columns are complete, which are in `Verif.PropsInstr`. -/
theorem C17_no_groups_partial (H : HistDef) (hH : H.groups = []) (st st' : H.State) (rows : List Row) (e : Err)
    (h : H.fill st rows = .error (e, st')) (gk : List Key) (idx : List ℕ) (col : ℕ) :
    H.read st' gk idx col = H.read st gk idx col := by
  obtain ⟨gs, fs, np, wk⟩ := H
  simp only at hH
  subst hH
  have hpre : HistDef.read ⟨[], fs, np, wk⟩ (some (prefill (HistDef.layout ⟨[], fs, np, wk⟩) st)) gk idx col =
      HistDef.read ⟨[], fs, np, wk⟩ st gk idx col := by
    cases st <;> rfl
  rw [← hpre]
  unfold HistDef.fill at h
  simp only at h
  cases hc : HistDef.columns ⟨[], fs, np, wk⟩ rows with
  | error e => rw [hc] at h; simp at h; rw [← h.2]
  | ok d =>
    rw [hc] at h
    simp only at h
    cases hp : postfill (HistDef.layout ⟨[], fs, np, wk⟩) rows.length d (prefill (HistDef.layout ⟨[], fs, np, wk⟩) st) with
    | ok c => rw [hp] at h; cases h
    | error ec =>
      obtain ⟨e1, c1⟩ := ec
      rw [hp] at h
      simp only [Except.error.injEq, Prod.mk.injEq] at h
      rw [← h.2]
      have : c1 = prefill (HistDef.layout ⟨[], fs, np, wk⟩) st := by
        unfold HistDef.columns at hc
        simp only [groupColumns] at hc
        split at hc
        · cases hc
        · rename_i fcols hfc
          cases hc
          have hfl := fixedColumns_length rows fs 0 fcols hfc
          unfold postfill at hp
          simp only at hp
          split at hp
          · simp at hp; exact hp.2.symm
          · rename_i is his
            have hil := flatIndexes_length _ rows.length fcols is hfl his
            split at hp
            · simp at hp; exact hp.2.symm
            · rename_i w hw
              have hwl := weights_len _ rows.length _ w (by
                intro a b hab
                simp only [Prod.mk.injEq, Option.some.injEq] at hab
                obtain ⟨rfl, rfl⟩ := hab
                simp) hw
              refine fillblock_err _ _ rows.length _ _ is _ w hil ?_ hwl e1 hp
              intro p hp
              obtain ⟨k, _, rfl⟩ := List.mem_map.1 hp
              exact ⟨_, _, rfl, by simp, by simp⟩
      rw [this]

/-- `Hist(bin("x", 2, 0, 2, overflow=False), profile("y"))` -/
def exQ : HistDef := ⟨[], [.bin ⟨2, 0, 2, true, false, true, true⟩], 1, .none⟩

/-- One row is beyond the last bin: `fill` raises. -/
example : (match exQ.fill none [exPRow (1/2) 4, exPRow 9 3] with
    | .ok _ => none
    | .error (e, st) => some (e, [exQ.read st [] [1] 0, exQ.read st [] [1] 2])) = some (.valueError, [0, 0]) := by
  decide +kernel

/-- `Hist(groupby("c"), bin("x", 2, 0, 2, overflow=False), profile("y"))` -/
def exGQ : HistDef := ⟨[.groupby], [.bin ⟨2, 0, 2, true, false, true, true⟩], 1, .none⟩

/-- a row of `exGQ` -/
def exGQRow (c : String) (x y : ℚ) : Row := ⟨[.key (.str c)], [.num (.fin x)], [y], none⟩

/-- C17 does not hold with a group axis: group "a" is filled before group "b" raises. -/
theorem C17_refuted : ¬ ∀ (H : HistDef) (st st' : H.State) (rows : List Row) (e : Err),
    (∀ r ∈ rows, r.Ok H) → H.fill st rows = .error (e, st') →
    ∀ (gk : List Key) (idx : List ℕ) (col : ℕ), H.read st' gk idx col = H.read st gk idx col := by
  intro h
  have e1 : (match exGQ.fill none [exGQRow "a" 1 4, exGQRow "b" 1 5, exGQRow "b" 9 3] with
    | .ok _ => none
    | .error (e, st) => some (exGQ.read st [.str "a"] [2] 2)) = some 1 := by decide +kernel
  cases hf : exGQ.fill none [exGQRow "a" 1 4, exGQRow "b" 1 5, exGQRow "b" 9 3] with
  | ok s => rw [hf] at e1; simp at e1
  | error es =>
    obtain ⟨e, s⟩ := es
    rw [hf] at e1
    simp only [Option.some.injEq] at e1
    have := h exGQ none s _ e (by
      intro r hr
      have hh : ∀ x : ℚ, x ≤ 1000 → (FixedAxis.bin ⟨2, 0, 2, true, false, true, true⟩).Handles (.num (.fin x)) :=
        fun x hx => handles_bin 2 0 2 true false true true _ (by decide +kernel) (by norm_num) _
          (Or.inr ⟨x, rfl, by norm_num; linarith⟩)
      simp at hr
      rcases hr with rfl | rfl | rfl <;>
        exact ⟨.cons ⟨_, rfl⟩ .nil, .cons (hh _ (by norm_num)) .nil, rfl⟩) hf [.str "a"] [2] 2
    rw [e1] at this
    simp [HistDef.read] at this

/-! ## C18 -/

/-- C18 does not hold: with a profile and a flow bin switched off, a row that belongs to the
missing bin makes `fill` raise. -/
theorem C18_refuted : ¬ ∀ (H : HistDef) (st : H.State) (rows : List Row), H.Good st → (∀ r ∈ rows, r.Ok H) →
    ∃ st', H.fill st rows = .ok st' := by
  intro h
  obtain ⟨st', h1⟩ := h exQ none [exPRow (1/2) 4, exPRow 9 3] trivial (by
    intro r hr
    have hh : ∀ x : ℚ, x ≤ 1000 → (FixedAxis.bin ⟨2, 0, 2, true, false, true, true⟩).Handles (.num (.fin x)) :=
      fun x hx => handles_bin 2 0 2 true false true true _ (by decide +kernel) (by norm_num) _
        (Or.inr ⟨x, rfl, by norm_num; linarith⟩)
    simp at hr
    rcases hr with rfl | rfl <;> exact ⟨.nil, .cons (hh _ (by norm_num)) .nil, rfl⟩)
  have e1 : (match exQ.fill none [exPRow (1/2) 4, exPRow 9 3] with
    | .ok _ => true
    | .error _ => false) = false := by decide +kernel
  rw [h1] at e1
  cases e1

theorem compressed_lt (l : List (Option ℤ)) (h : none ∈ l) : (compressed l).length < l.length := by
  induction l with
  | nil => simp at h
  | cons o l ih =>
    cases o with
    | none =>
      have : (compressed l).length ≤ l.length := List.length_filterMap_le _ _
      simp [compressed] at this ⊢
      omega
    | some z =>
      have := ih (by simpa using h)
      simp [compressed] at this ⊢
      omega

/-- C18, exactly when it fails (no group axes): with at least one profile, every batch of two or more
rows that contains a row to be left out makes `fill` raise, for every histogram with any weights. -/
theorem C18_always_raises (H : HistDef) (hH : H.groups = []) (hnp : 0 < H.nprof) (st : H.State) (rows : List Row)
    (h2 : 2 ≤ rows.length) (hok : ∀ r ∈ rows, r.Ok H) (hout : ∃ r ∈ rows, r.leftOut H) :
    ∃ e st', H.fill st rows = .error (e, st') := by
  obtain ⟨gs, fs, np, wk⟩ := H
  simp only at hH
  subst hH
  set H : HistDef := ⟨[], fs, np, wk⟩ with hHd
  obtain ⟨d, hd1, hd2⟩ := columns_ok H rows hok
  have hfit : ∀ e ∈ rows.map (Row.event H), e.Fits H.layout := by
    intro e he
    obtain ⟨r, hr, rfl⟩ := List.mem_map.1 he
    exact event_fits H r (hok r hr)
  have hflat := flatIndexes_map (rows.map (Row.event H)) (·.cells) 0 (fs.map FixedAxis.totbins) np wk
    (fun e he => (hfit e he).2.2.length_eq)
  have hfix : d.fixed = (List.range (fs.map FixedAxis.totbins).length).map
    (fun k => some ((rows.map (Row.event H)).map (fun e => e.cells.getD k none))) := hd2.fixed
  rw [← hfix] at hflat
  obtain ⟨r0, hr0, hl0⟩ := hout
  have hne : fs.map FixedAxis.totbins ≠ [] := by
    intro hnil
    have hfs : fs = [] := by simpa using hnil
    have hf := (hok r0 hr0).fixed
    simp only [hHd, hfs, List.forall₂_nil_left_iff] at hf
    have := hl0 []
    simp [hHd, hfs, hf, inBins'] at this
  rw [if_neg hne] at hflat
  set I := (rows.map (Row.event H)).map (fun e => flatOf (fs.map FixedAxis.totbins) e.cells) with hI
  have hIl : I.length = rows.length := by simp [hI]
  have hnone : none ∈ I := by
    rw [hI]
    refine List.mem_map.2 ⟨r0.event H, List.mem_map.2 ⟨r0, hr0, rfl⟩, ?_⟩
    rcases flatOf_eq hne (event_fits H r0 (hok r0 hr0)).2.2 with ⟨_, h⟩ | ⟨idx, _, hc, _⟩
    · exact h
    · exfalso
      have := (inBins'_iff fs r0.fvals (hok r0 hr0).fixed idx).2 hc
      rw [hl0 idx] at this
      cases this
  have hlt : (compressed I).length < rows.length := by
    rw [← hIl]
    exact compressed_lt I hnone
  have hfail : ∀ c, ∃ e c', postfill H.layout rows.length d c = .error (e, c') := by
    intro c
    unfold postfill
    rw [show flatIndexes H.layout d.fixed = .ok (some I) from hflat]
    simp only
    cases hw : weights H.layout rows.length d with
    | error e => exact ⟨e, c, rfl⟩
    | ok w =>
      have hwl := weights_len _ rows.length d w (by
        intro a b hab
        by_cases hk : wk = .expr
        · rw [hd2.weight hk] at hab
          simp only [Prod.mk.injEq, Option.some.injEq] at hab
          obtain ⟨rfl, rfl⟩ := hab
          simp
        · have : H.columns rows = .ok d := hd1
          unfold HistDef.columns at this
          split at this
          · cases this
          · split at this
            · cases this
            · cases this
              simp only [Prod.mk.injEq, Option.some.injEq] at hab
              obtain ⟨rfl, rfl⟩ := hab
              simp) hw
      simp only
      obtain ⟨m, hm⟩ : ∃ m, np = m + 1 := ⟨np - 1, by simp only [hHd] at hnp; omega⟩
      have hprof : d.prof = (List.range np).map (fun k => (some ((rows.map (Row.event H)).map (fun e => e.xs.getD k 0)),
        some ((rows.map (Row.event H)).map (fun e => e.xs.getD k 0 ^ 2)))) := hd2.prof
      have hz : ∃ p rest, List.zip d.prof H.layout.pidx = p :: rest := by
        rw [hprof]
        simp only [HistDef.layout, Layout.make, hHd, hm, List.range_succ_eq_map, List.map_cons, List.zip_cons_cons]
        exact ⟨_, _, rfl⟩
      obtain ⟨p, rest, hz⟩ := hz
      have hpl : ProfLen rows.length (p :: rest) := by
        rw [← hz]
        intro q hq
        have := (List.of_mem_zip hq).1
        rw [hprof] at this
        obtain ⟨k, _, hk⟩ := List.mem_map.1 this
        exact ⟨_, _, hk.symm, by simp, by simp⟩
      obtain ⟨e, he⟩ := profLoop_first rows.length I hIl p rest c (some I) w hpl rfl hwl (Or.inl ⟨hlt, h2⟩)
      refine ⟨e, c, ?_⟩
      show filldict H.layout rows.length 0 d.groups c ⟨some I, d.prof, w⟩ none = _
      simp only [filldict, fillblock, hz, he]
      rfl
  rename_i st0
  obtain ⟨e, c', he⟩ := hfail (prefill H.layout st0)
  refine ⟨e, some c', ?_⟩
  change HistDef.fill H st0 rows = _
  simp only [HistDef.fill, hd1, he]

example : ∃ e st', exQ.fill none [exPRow (1/2) 4, exPRow 9 3] = .error (e, st') := by
  have hh : ∀ x : ℚ, x ≤ 1000 → (FixedAxis.bin ⟨2, 0, 2, true, false, true, true⟩).Handles (.num (.fin x)) :=
    fun x hx => handles_bin 2 0 2 true false true true _ (by decide +kernel) (by norm_num) _
      (Or.inr ⟨x, rfl, by norm_num; linarith⟩)
  have hok : ∀ r ∈ [exPRow (1/2) 4, exPRow 9 3], r.Ok exQ := by
    intro r hr
    simp at hr
    rcases hr with rfl | rfl <;> exact ⟨.nil, .cons (hh _ (by norm_num)) .nil, rfl⟩
  apply C18_always_raises exQ rfl (by decide) none _ (by decide) hok
  refine ⟨exPRow 9 3, by simp, ?_⟩
  by_contra hc
  have := (counted_iff exQ _ (hok _ (by simp))).2 hc
  revert this
  decide +kernel

/-- C18, the part that holds: rows that are left out are simply left out if there are no profiles,
and profiles work if no row is left out. -/
theorem C18_partial (H : HistDef) (st : H.State) (hg : H.Good st) (rows : List Row) (h : ∀ r ∈ rows, r.Ok H)
    (hp : H.nprof = 0 ∨ ∀ r ∈ rows, ¬ r.leftOut H) :
    ∃ st', H.fill st rows = .ok st' ∧ ∀ gk, gk.length = H.groups.length → ∀ idx, H.Cell idx → ∀ col,
        H.read st' gk idx col = H.read st gk idx col + binTotal H (rows.filter (Row.counted H)) gk idx col := by
  obtain ⟨st', h1, _, _, _, h4⟩ := fill_rows H st hg rows h hp
  refine ⟨st', h1, fun gk hgk idx hidx col => ?_⟩
  rw [h4 gk hgk idx hidx col]
  congr 1
  unfold binTotal
  rw [List.filter_filter]
  congr 2
  apply List.filter_congr
  intro r hr
  cases hl : Row.lands H gk idx r
  · simp
  · have : r.counted H = true := by
      rw [counted_iff H r (h r hr)]
      intro ho
      unfold Row.lands at hl
      rw [ho idx] at hl
      simp at hl
    simp [this]

/-- `Hist(bin("x", 2, 0, 2, overflow=False))` -/
def exR : HistDef := ⟨[], [.bin ⟨2, 0, 2, true, false, true, true⟩], 0, .none⟩

example : (match exR.fill none [⟨[], [.num (.fin (1/2))], [], none⟩, ⟨[], [.num (.fin 9)], [], none⟩] with
    | .ok st => [exR.read st [] [0] 0, exR.read st [] [1] 0, exR.read st [] [2] 0, exR.read st [] [3] 0]
    | .error _ => []) = [0, 1, 0, 0] := by decide +kernel

end Verif
