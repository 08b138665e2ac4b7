import Verif.SelectExpr
import Verif.Float64
import Mathlib.Analysis.Real.Pi.Bounds
import Mathlib.Analysis.Complex.ExponentialBounds

/-!
# The names of constants in conditions: property theorems C99
-/

namespace Verif

/-- The names that stand for a number in the condition of a selection. -/
def constantNames : List String :=
  ["pi", "Pi", "e", "E", "inf", "Inf", "infinity", "Infinity", "nan", "NaN", "Nan"]

/-- **C99**: the names that are taken for constants in a condition are exactly these eleven; every other name is a
field. -/
theorem C99_constant_names (s : String) : (maybeconstants s).isSome = true ↔ s ∈ constantNames := by
  unfold maybeconstants constantNames
  constructor
  · intro h
    split at h
    · rename_i h1; rcases h1 with rfl | rfl <;> simp
    · split at h
      · rename_i h1; rcases h1 with rfl | rfl <;> simp
      · split at h
        · rename_i h1; rcases h1 with rfl | rfl | rfl | rfl <;> simp
        · split at h
          · rename_i h1; rcases h1 with rfl | rfl | rfl <;> simp
          · cases h
  · intro h
    simp only [List.mem_cons, List.not_mem_nil, or_false] at h
    rcases h with rfl | rfl | rfl | rfl | rfl | rfl | rfl | rfl | rfl | rfl | rfl <;> rfl

example : (maybeconstants "E").isSome = true ∧ maybeconstants "energy" = none := by decide +kernel

/-- **C99**: what these names stand for: `pi` is the double next to π, `e` the double next to Euler's number (no
double is nearer than half of the distance of neighbours, `2^-52`), the others are infinity and NaN. -/
theorem C99_constants :
    (∀ s ∈ ["pi", "Pi"], ∃ q, maybeconstants s = some (.fin q) ∧ IsF64 q ∧ |(q : ℝ) - Real.pi| < 1 / 2 ^ 52) ∧
    (∀ s ∈ ["e", "E"], ∃ q, maybeconstants s = some (.fin q) ∧ IsF64 q ∧ |(q : ℝ) - Real.exp 1| < 1 / 2 ^ 52) ∧
    (∀ s ∈ ["inf", "Inf", "infinity", "Infinity"], maybeconstants s = some .pinf) ∧
    (∀ s ∈ ["nan", "NaN", "Nan"], maybeconstants s = some .nan) := by
  refine ⟨fun s hs => ⟨884279719003555 / 2 ^ 48, ?_, ⟨884279719003555, -48, by norm_num, by norm_num, by norm_num⟩, ?_⟩,
    fun s hs => ⟨6121026514868073 / 2 ^ 51, ?_, ⟨6121026514868073, -51, by norm_num, by norm_num, by norm_num⟩, ?_⟩, ?_, ?_⟩
  · simp only [List.mem_cons, List.not_mem_nil, or_false] at hs
    rcases hs with rfl | rfl <;> rfl
  · have h1 := Real.pi_gt_d20
    have h2 := Real.pi_lt_d20
    push_cast
    rw [abs_sub_lt_iff]
    constructor <;> norm_num at h1 h2 ⊢ <;> linarith
  · simp only [List.mem_cons, List.not_mem_nil, or_false] at hs
    rcases hs with rfl | rfl <;> rfl
  · have h1 := Real.exp_one_near_20
    rw [abs_sub_le_iff] at h1
    push_cast
    rw [abs_sub_lt_iff]
    obtain ⟨h1, h2⟩ := h1
    constructor <;> norm_num at h1 h2 ⊢ <;> linarith
  · intro s hs
    simp only [List.mem_cons, List.not_mem_nil, or_false] at hs
    rcases hs with rfl | rfl | rfl | rfl <;> rfl
  · intro s hs
    simp only [List.mem_cons, List.not_mem_nil, or_false] at hs
    rcases hs with rfl | rfl | rfl <;> rfl

example : "Pi" ∈ ["pi", "Pi"] := by decide

end Verif
