import Verif.BookArith
import Verif.SpecBook
import Verif.Arith

/-!
# Specification of the arithmetic of books

What is under each path of the result, and which books can be added.
-/

namespace Verif

variable {V : Type}

/-- What is at a path of a sum (the third), if the first and the second are at this path of the operands; `s` are the
histograms before and `s'` those after. -/
def SumAt (A : HistArith V) (s s' : List V) : Option (BT ℕ) → Option (BT ℕ) → Option (BT ℕ) → Prop
  | some x, none, r => r = some x
  | none, y, r => r = y
  | some (.hist i), some (.hist j), r => ∃ k u v z, r = some (.hist k) ∧ s.length ≤ k ∧ s'[k]? = some z ∧
      s[i]? = some u ∧ s[j]? = some v ∧ A.add u v = .ok z
  | some (.book c _ _), some (.book _ _ _), r => ∃ f y, r = some (.book c f y)
  | _, _, _ => False

/-- What can be added: a histogram to a histogram for which it works, a book to a book. -/
def AddOk (A : HistArith V) (s : List V) : BT ℕ → BT ℕ → Prop
  | .hist i, .hist j => ∃ u v z, s[i]? = some u ∧ s[j]? = some v ∧ A.add u v = .ok z
  | .book c _ _, .book _ _ _ => c ≠ .systematics
  | _, _ => False

/-- What is at a path of a new book (the second), if the first is at this path of the old one. -/
def MapAt (g : V → Except Err V) (s s' : List V) : Option (BT ℕ) → Option (BT ℕ) → Prop
  | none, r => r = none
  | some (.hist i), r => ∃ k u z, r = some (.hist k) ∧ s.length ≤ k ∧ s'[k]? = some z ∧ s[i]? = some u ∧ g u = .ok z
  | some (.book c _ _), r => ∃ f y, r = some (.book c f y)

/-- What `+=` leaves under a path at which the left book had `x` and the right one `y`. -/
def IAddAt (A : HistArith V) (s s' : List V) : Option (BT ℕ) → Option (BT ℕ) → Option (BT ℕ) → Prop
  | some (.hist i), none, r => r = some (.hist i) ∧ s'[i]? = s[i]?
  | some x, none, r => r = some x
  | none, y, r => r = y
  | some (.hist i), some (.hist j), r => r = some (.hist i) ∧ ∃ u v z, s[i]? = some u ∧ s[j]? = some v ∧
      A.iadd u v = .ok z ∧ s'[i]? = some z
  | some (.book c _ _), some (.book _ _ _), r => ∃ f y, r = some (.book c f y)
  | _, _, _ => False

/-- What can be added in place. -/
def IAddOk (A : HistArith V) (s : List V) : BT ℕ → BT ℕ → Prop
  | .hist i, .hist j => ∃ u v z, s[i]? = some u ∧ s[j]? = some v ∧ A.iadd u v = .ok z
  | .book c _ _, .book _ _ _ => c ≠ .systematics
  | _, _ => False

/-- No name in the book has wildcards. -/
def PlainNames (b : BT ℕ) : Prop := ∀ p x, b.at p = some x → ∀ n ∈ p, isGlob n = false

/-- No book in it is a `SystematicsBook`. -/
def NoSystematics (b : BT ℕ) : Prop := ∀ p x, b.at p = some x → x.cls? ≠ some .systematics

/-- The value of the histogram under a path. -/
def valueAt (s : List V) (b : BT ℕ) (p : List Str) : Option V :=
  match b.at p with
  | some (.hist i) => s[i]?
  | _ => none

/-- A book of histograms that exist: names without slashes, distinct on each level. -/
structure InStore (s : List V) (b : BT ℕ) : Prop where
  wf : b.WF
  range : ∀ p i, b.at p = some (.hist i) → i < s.length

end Verif
