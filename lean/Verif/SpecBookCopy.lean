import Verif.SpecBookArith

/-!
# Specification of copies of books with systematics
-/

namespace Verif

variable {V : Type}

/-- What a `SystematicsBook` asks of histograms, if it is a matter of their values: `cv` is `one.compatible(two)`, `hv` is
`x.has("systematic")`. -/
def opsOf (cv : V → V → Bool) (hv : V → Bool) (s : List V) : HistOps ℕ where
  compat i j :=
    match s[i]?, s[j]? with
    | some u, some v => cv u v
    | _, _ => false
  sys i :=
    match s[i]? with
    | some u => hv u
    | none => false

/-- Every `SystematicsBook` in it passes its own checks (as after every assignment to it that does not raise). -/
def Accepted (o : HistOps ℕ) (b : BT ℕ) : Prop :=
  ∀ p f x, b.at p = some (.book .systematics f x) → x.compatible o = true ∧ ∀ i ∈ x.hists, o.sys i = true

end Verif
