import Mathlib.Tactic.LinearCombination
import Verif.PropsArith

/-!
# Multiples of a histogram and sums of it with itself

Scaling distributes over sums of factors, a multiple by a natural number is a repeated sum, and the squared
weights of a multiple are right for the factors 0 and 1 only.
-/

namespace Verif

/-- C25 for filled histograms: `a * (k + l) == a*k + a*l`. -/
theorem C25_distributes_partial (H : HistDef) (a : H.State) (ha : H.Proper a) (fa : a ≠ none) (k l : ℚ) :
    ∃ ak al s t, mulState k a = .ok ak ∧ mulState l a = .ok al ∧ addState ak al = .ok s ∧ mulState (k + l) a = .ok t ∧ eqState t s = true ∧
      H.Same t s := by
  cases a with
  | none => exact absurd rfl fa
  | some a =>
    obtain ⟨ak, p1, _, p3, p4, p5⟩ := mulState_spec H k a ha
    obtain ⟨al, q1, _, q3, q4, q5⟩ := mulState_spec H l a ha
    obtain ⟨s, s1, _, s3, s4, s5⟩ := addState_spec H ak al p3 q3
    obtain ⟨t, t1, _, t3, t4, t5⟩ := mulState_spec H (k + l) a ha
    have h : H.Same t s := ⟨fun gk => by rw [t4, s4, p4, q4, or_self], fun gk _ idx _ col _ => by rw [t5, s5, p5, q5]; ring⟩
    exact ⟨ak, al, s, t, p1, q1, s1, t1, (eqState_iff H t s t3.1 s3.1).2 h, h⟩

/-- `h + h + ... + h`, with `n + 1` terms. -/
def repeatedSum {n : ℕ} (a : Option (Content Arr n)) : ℕ → Except Err (Option (Content Arr n))
  | 0 => .ok a
  | m + 1 =>
    match repeatedSum a m with
    | .ok s => addState s a
    | .error e => .error e

/-- C25 for filled histograms: a histogram added to itself any number of times is its multiple by that number. -/
theorem C25_repeated_sum_partial (H : HistDef) (a : H.State) (ha : H.Proper a) (fa : a ≠ none) (m : ℕ) :
    ∃ s t, repeatedSum a m = .ok s ∧ mulState ((m : ℚ) + 1) a = .ok t ∧ eqState t s = true ∧ H.Same t s := by
  have key : ∀ m : ℕ, ∃ s, repeatedSum a m = .ok s ∧ H.Proper s ∧ (∀ gk, H.has s gk ↔ H.has a gk) ∧
      ∀ gk idx col, H.read s gk idx col = H.read a gk idx col * ((m : ℚ) + 1) := by
    intro m
    induction m with
    | zero => exact ⟨a, rfl, ha, fun _ => Iff.rfl, fun _ _ _ => by simp⟩
    | succ m ih =>
      obtain ⟨s, h1, h2, h3, h4⟩ := ih
      obtain ⟨c, c1, _, c3, c4, c5⟩ := addState_spec H s a h2 ha
      refine ⟨c, ?_, c3, fun gk => by rw [c4, h3, or_self], fun gk idx col => by rw [c5, h4]; push_cast; ring⟩
      simp only [repeatedSum, h1]
      exact c1
  obtain ⟨s, h1, h2, h3, h4⟩ := key m
  cases a with
  | none => exact absurd rfl fa
  | some a =>
    obtain ⟨t, t1, _, t3, t4, t5⟩ := mulState_spec H ((m : ℚ) + 1) a ha
    have h : H.Same t s := ⟨fun gk => by rw [t4, h3], fun gk _ idx _ col _ => by rw [t5, h4]⟩
    exact ⟨s, t, h1, t1, (eqState_iff H t s t3.1 h2.1).2 h, h⟩

/-- The weighted histogram of `PropsArith.lean` three times: weights 2 and 3 in two groups. -/
example : (match exH.fillAll none [[exRow "a" (1/2) (some 2), exRow "b" 1 (some 3)]] with
    | .ok a => match repeatedSum (n := 1) a 2 with
      | .ok s => [exH.read s [.str "a"] [1] 0, exH.read s [.str "a"] [1] 1, exH.read s [.str "b"] [2] 0, exH.read s [.str "b"] [2] 1]
      | .error _ => []
    | .error _ => []) = [6, 12, 9, 27] := by decide +kernel

/-- C26: a weighted histogram that is filled and then scaled is the histogram filled with scaled weights exactly if the factor is 0 or 1, or
all its squared weights are zero. -/
theorem C26_right_iff (H : HistDef) (hw : H.wkind = .expr) (k : ℚ) (bs : List (List Row)) (hf : Fillable H bs) (hne : bs ≠ []) :
    ∃ s sk t, H.fillAll none bs = .ok s ∧ mulState k s = .ok sk ∧ H.fillAll none (bs.map (List.map (Row.scaled k))) = .ok t ∧
      ((∀ gk, gk.length = H.groups.length → ∀ idx, H.Cell idx → ∀ col, H.read sk gk idx col = H.read t gk idx col) ↔
        k = 0 ∨ k = 1 ∨ ∀ gk, gk.length = H.groups.length → ∀ idx, H.Cell idx → H.read s gk idx (2 * H.nprof + 1) = 0) := by
  obtain ⟨s, sk, t, h1, h2, h3, h4, h5⟩ := C26_scaled_counts_partial H hw k bs hf hne
  refine ⟨s, sk, t, h1, h2, h3, ?_⟩
  obtain ⟨s', e1, hp⟩ := fillAll_proper H bs hf none (proper_none _)
  rw [h1] at e1
  cases e1
  have hk : ∀ gk idx col, H.read sk gk idx col = H.read s gk idx col * k := by
    cases s with
    | none => simp [mulState] at h2
    | some c =>
      obtain ⟨x, x1, _, _, _, x5⟩ := mulState_spec H k c hp
      rw [h2] at x1
      cases x1
      exact x5
  constructor
  · intro h
    by_cases k0 : k = 0
    · exact .inl k0
    by_cases k1 : k = 1
    · exact .inr (.inl k1)
    refine .inr (.inr fun gk hgk idx hi => ?_)
    have e := h gk hgk idx hi (2 * H.nprof + 1)
    rw [← h5 gk hgk idx hi, hk] at e
    have : H.read s gk idx (2 * H.nprof + 1) * (k * (k - 1)) = 0 := by linear_combination -e
    rcases mul_eq_zero.1 this with h | h
    · exact h
    · rcases mul_eq_zero.1 h with h | h
      · exact absurd h k0
      · exact absurd (sub_eq_zero.1 h) k1
  · intro h gk hgk idx hi col
    by_cases hc : col = 2 * H.nprof + 1
    · rw [hc, ← h5 gk hgk idx hi, hk]
      rcases h with h | h | h
      · rw [h]; ring
      · rw [h]; ring
      · rw [h gk hgk idx hi]; ring
    · exact h4 gk hgk idx hi col hc

/-- Weights 2 and 3, scaled by 3: neither 0 nor 1, and the squared weights are not zero. -/
example : Fillable exH [[exRow "a" (1/2) (some 2), exRow "b" 1 (some 3)]] ∧ exH.wkind = .expr ∧
    (match exH.fillAll none [[exRow "a" (1/2) (some 2), exRow "b" 1 (some 3)]] with
    | .ok a => exH.read a [.str "a"] [1] 1
    | .error _ => 0) = 4 := ⟨exH_fillable1, rfl, by decide +kernel⟩

end Verif
