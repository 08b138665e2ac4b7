import Verif.HistFill
import Verif.SpecBin
import Verif.SpecFill

/-!
# Specification of histogram contents

What the content should be after filling, in terms of the rows and the published bins.
-/

namespace Verif

/-- A value belongs to a bin label. -/
def Val.In (l : BinLabel) (v : Val) : Bool :=
  match l, v with
  | .bool b, .bool b' => b == b'
  | l, v => decide (l.mem v.toNum)

/-- The axis is right about the value: it is given the number of the published bin that it belongs
to, and none if there is no such bin.  C01 and C03-C05 say which values are. -/
def FixedAxis.Handles (a : FixedAxis) (v : Val) : Prop :=
  ∃ r, a.index v = .ok r ∧ (∀ z, r = some z → 0 ≤ z ∧ z < a.totbins) ∧
    ∀ i : ℕ, r = some (i : ℤ) ↔ ∃ l, a.keys[i]? = some l ∧ v.In l = true

/-- The key of a value on a group axis; `none` if it is left out (C05). -/
def GroupAxis.key : GroupAxis → GVal → Option Key
  | .groupby, v => v.toKey.toOption
  | .groupbin a, v => v.toNum.toOption.bind a.key

/-- The group axis can take the value. -/
def GroupAxis.Handles : GroupAxis → GVal → Prop
  | .groupby, v => ∃ k, v.toKey = .ok k
  | .groupbin _, v => ∃ x, v.toNum = .ok x

/-- The row has one suitable value for each axis. -/
structure Row.Ok (H : HistDef) (r : Row) : Prop where
  groups : List.Forall₂ GroupAxis.Handles H.groups r.gvals
  fixed : List.Forall₂ FixedAxis.Handles H.fixed r.fvals
  xs : r.xs.length = H.nprof

/-- The value belongs to the published bin number `i`. -/
def FixedAxis.holds (a : FixedAxis) (i : ℕ) (v : Val) : Bool :=
  match a.keys[i]? with
  | some l => v.In l
  | none => false

/-- The row belongs to the published bins number `idx`. -/
def inBins' : List FixedAxis → List Val → List ℕ → Bool
  | [], [], [] => true
  | a :: as, v :: vs, i :: is =>
    a.holds i v && inBins' as vs is
  | _, _, _ => false

/-- The row belongs to the group with keys `gk`. -/
def inGroup : List GroupAxis → List GVal → List Key → Bool
  | [], [], [] => true
  | a :: as, v :: vs, k :: ks => decide (a.key v = some k) && inGroup as vs ks
  | _, _, _ => false

/-- The weight of a row; NaN counts as zero. -/
def Row.weight (k : WKind) (r : Row) : ℚ :=
  match k with
  | .none => 1
  | .const q => q
  | .expr => r.w.getD 0

/-- What a row adds to its bin: for each profile `w·x` and `w·x²`, then `w`, then (if weighted)
`w²`. -/
def Row.adds (H : HistDef) (r : Row) (col : ℕ) : ℚ :=
  if col < 2 * H.nprof then
    r.weight H.wkind * (if col % 2 = 0 then r.xs.getD (col / 2) 0 else r.xs.getD (col / 2) 0 ^ 2)
  else if col = 2 * H.nprof then r.weight H.wkind
  else if col = 2 * H.nprof + 1 ∧ H.wkind ≠ .none then r.weight H.wkind ^ 2
  else 0

/-- The row belongs to the group and the bin. -/
def Row.lands (H : HistDef) (gk : List Key) (idx : List ℕ) (r : Row) : Bool :=
  inGroup H.groups r.gvals gk && inBins' H.fixed r.fvals idx

/-- The sum over the rows of a bin. -/
def binTotal (H : HistDef) (rows : List Row) (gk : List Key) (idx : List ℕ) (col : ℕ) : ℚ :=
  ((rows.filter (Row.lands H gk idx)).map (fun r => r.adds H col)).sum

/-- What a user reads; a histogram that was never filled, and a missing group, read as zero. -/
def HistDef.read (H : HistDef) (st : H.State) (gk : List Key) (idx : List ℕ) (col : ℕ) : ℚ :=
  match st with
  | none => 0
  | some c => lookup H.groups.length c gk idx col

/-- The group is present. -/
def HistDef.has (H : HistDef) (st : H.State) (gk : List Key) : Prop :=
  match st with
  | none => False
  | some c => HasGroup H.groups.length c gk

/-- `idx` is a multi-index of bins of the histogram. -/
def HistDef.Cell (H : HistDef) (idx : List ℕ) : Prop := InRange idx (H.fixed.map FixedAxis.totbins)

/-- The row is in no bin of some axis (a flow bin was switched off). -/
def Row.leftOut (H : HistDef) (r : Row) : Prop := ∀ idx, inBins' H.fixed r.fvals idx = false

/-- Every array has the shape that the axes ask for. -/
def HistDef.Good (H : HistDef) (st : H.State) : Prop :=
  match st with
  | none => True
  | some c => Shaped H.layout H.groups.length c

/-- Python dicts have no key twice. -/
def Distinct : (n : ℕ) → Content Arr n → Prop
  | 0, _ => True
  | n + 1, (d : List (Key × Content Arr n)) => (d.map (·.1)).Nodup ∧ ∀ p ∈ d, Distinct n p.2

/-- No dict in the content has a key twice. -/
def HistDef.DistinctKeys (H : HistDef) (st : H.State) : Prop :=
  match st with
  | none => True
  | some c => Distinct H.groups.length c

/-- The contents that histograms can have: arrays of the right shape in proper dicts. -/
def HistDef.Proper (H : HistDef) (st : H.State) : Prop := H.Good st ∧ H.DistinctKeys st

/-- Two contents look the same: the same groups (down to every depth), and the same entry in every
group, bin and column. -/
def HistDef.Same (H : HistDef) (s t : H.State) : Prop :=
  (∀ gk, H.has s gk ↔ H.has t gk) ∧
  ∀ gk, gk.length = H.groups.length → ∀ idx, H.Cell idx → ∀ col < H.layout.ncols, H.read s gk idx col = H.read t gk idx col

end Verif
