import Verif.Axis

/-!
# Specification of binning

What it means for a value to lie in a published bin, and for a bin number to be right.
Nothing here refers to how the code computes a bin number.
-/

namespace Verif

/-- A value lies in the set that a bin label describes. -/
def BinLabel.mem : BinLabel → Num → Prop
  | .iv lo hi cl ch, v =>
      (if cl then Num.le lo v else Num.lt lo v) = true ∧
      (if ch then Num.le v hi else Num.lt v hi) = true
  | .nan, v => v = .nan
  | .int i, v => v = .fin i
  | .bool _, _ => False

instance (l : BinLabel) (v : Num) : Decidable (l.mem v) := by
  cases l <;> unfold BinLabel.mem <;> infer_instance

/-- `r` is the right bin number for `v` on an axis that publishes `keys`:
either `some i`, where bin `i` exists, contains `v`, and is the only bin that does,
or `none`, where no bin contains `v`. -/
def IndexCorrect (keys : List BinLabel) (v : Num) : Option ℤ → Prop
  | some i => 0 ≤ i ∧ (∃ k, keys[i.toNat]? = some k ∧ k.mem v) ∧
      ∀ (j : ℕ) (k : BinLabel), keys[j]? = some k → k.mem v → (j : ℤ) = i
  | none => ∀ k ∈ keys, ¬ k.mem v

/-- At most one bin number can be right. -/
theorem IndexCorrect.unique {keys : List BinLabel} {v : Num} {r s : Option ℤ}
    (hr : IndexCorrect keys v r) (hs : IndexCorrect keys v s) : r = s := by
  cases r with
  | none =>
    cases s with
    | none => rfl
    | some j =>
      obtain ⟨_, ⟨k, hk, hm⟩, _⟩ := hs
      exact absurd hm (hr k (List.mem_of_getElem? hk))
  | some i =>
    cases s with
    | none =>
      obtain ⟨_, ⟨k, hk, hm⟩, _⟩ := hr
      exact absurd hm (hs k (List.mem_of_getElem? hk))
    | some j =>
      obtain ⟨h0, ⟨k, hk, hm⟩, hu⟩ := hr
      obtain ⟨h0', ⟨k', hk', hm'⟩, hu'⟩ := hs
      have := hu _ _ hk' hm'
      congr 1; omega

end Verif
