import Verif.HistJson
import Verif.SpecAxisDesc

/-!
# Specification of restored histograms
-/

namespace Verif

variable {β : Type}

/-- The number of bins of a fixed axis, flow bins included. -/
def AxisX.bins : AxisX → ℕ
  | .bin _ k _ _ u o n _ => k + b2n u + b2n o + b2n n
  | .intbin _ lo hi u o => (hi - lo + 1).toNat + b2n u + b2n o
  | .split _ es u o n _ => (es.length - 1) + b2n u + b2n o + b2n n
  | .cut _ => 2
  | _ => 1

/-- The number of columns: two for each profile, one or two for the weights. -/
def HistX.columns (h : HistX β) : ℕ := 2 * h.profile.length + (match h.weightP with | none => 1 | some _ => 2)

/-- The shape of the arrays of a histogram. -/
def HistX.shape (h : HistX β) : List ℕ := h.fixed.map (fun x => x.1.bins) ++ [h.columns]

/-- The entries of a dict. -/
def CnL.toList : CnL → List (Key × Cn)
  | .nil => []
  | .cons k x r => (k, x) :: r.toList

/-- A content of nested dicts, with arrays of the given shape inside. -/
def Fits : ℕ → List ℕ → Cn → Prop
  | 0, s, .arr s' d => s' = s ∧ d.length = cells s
  | n + 1, s, .dict d => ∀ p ∈ d.toList, Fits n s p.2
  | _, _, _ => False

/-- The content of a histogram: none before the first fill, else as many levels of dicts as there are group axes, and
arrays of the shape of the histogram. -/
def HistX.Filled (h : HistX β) : Prop := h.content = .none ∨ Fits h.group.length h.shape h.content

/-- The histogram was made by `Hist(...)` from axes that were made by the axis constructors, with no NaN among their
numbers; afterwards it was filled and attachments were put or removed. -/
def BuiltHist (P : Parser β) (h : HistX β) : Prop :=
  (∃ (axes : List AxisX) (w : J) (filter : Option String) (defs : List (String × String)) (at_ : List (String × J))
      (h₀ : HistX β),
    (∀ a ∈ axes, Made a ∧ a.noNaN) ∧ mkHist P (axes.map fun a => (a, none)) w filter defs at_ = .ok h₀ ∧
      h = { h₀ with content := h.content, attachment := h.attachment }) ∧ h.Filled

mutual
/-- The keys of the groups are strings. -/
def Cn.strKeys : Cn → Prop
  | .dict d => d.strKeys
  | _ => True
/-- In each entry. -/
def CnL.strKeys : CnL → Prop
  | .nil => True
  | .cons k x r => (∃ s, k = .str s) ∧ x.strKeys ∧ r.strKeys
end

mutual
/-- No NaN anywhere, and keys only once: a content that is equal to itself. -/
def Cn.plain : Cn → Prop
  | .none => True
  | .arr _ d => Num.nan ∉ d
  | .dict d => d.plain
/-- In each entry. -/
def CnL.plain : CnL → Prop
  | .nil => True
  | .cons k x r => k ∉ r.keys ∧ x.plain ∧ r.plain
end

mutual
/-- No NaN anywhere, and keys only once. -/
def J.plain : J → Prop
  | .float v => v ≠ .nan
  | .list l => J.plainL l
  | .dict d => J.plainD d
  | _ => True
/-- In each element. -/
def J.plainL : List J → Prop
  | [] => True
  | j :: l => j.plain ∧ J.plainL l
/-- In each entry. -/
def J.plainD : List (Key × J) → Prop
  | [] => True
  | p :: l => p.1 ∉ l.map (·.1) ∧ J.plainP p ∧ J.plainD l
/-- In an entry. -/
def J.plainP : Key × J → Prop
  | (_, j) => j.plain
end

end Verif
