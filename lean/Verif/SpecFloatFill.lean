import Verif.FloatFill
import Verif.SpecHist

/-!
# Specification of filling with numbers that may be NaN or infinite

What a bin should contain, in terms of the rows: the floating point sum over the rows of the bin.
-/

namespace Verif

namespace Flt

/-- What a user reads at a group, bin and column; a group that does not exist counts as zero. -/
def lookup : (n : ℕ) → Content Arr n → List Key → List ℕ → ℕ → Num
  | 0, (a : Arr), _, idx, col => a.get idx col
  | n + 1, (d : List (Key × Content Arr n)), gk, idx, col =>
    match gk with
    | [] => 0
    | k :: gk =>
      match dget d k with
      | none => 0
      | some c => lookup n c gk idx col

/-- Every array in the content has the shape of the histogram. -/
def Shaped (L : Layout) : (n : ℕ) → Content Arr n → Prop
  | 0, (a : Arr) => a.shape = L.dims ∧ a.ncols = L.ncols
  | n + 1, (d : List (Key × Content Arr n)) => ∀ k c, dget d k = some c → Shaped L n c

/-- The group with keys `gk` exists in the content; `gk` may be the keys of the first few group axes
only. -/
def HasGroup : (n : ℕ) → Content Arr n → List Key → Prop
  | 0, _, gk => gk = []
  | n + 1, (d : List (Key × Content Arr n)), gk =>
    match gk with
    | [] => True
    | k :: gk => ∃ c, dget d k = some c ∧ HasGroup n c gk

/-- The row has one suitable value for each axis, and one number for each profile. -/
structure Row.Ok (H : HistDef) (r : Row) : Prop where
  groups : List.Forall₂ GroupAxis.Handles H.groups r.gvals
  fixed : List.Forall₂ FixedAxis.Handles H.fixed r.fvals
  xs : r.xs.length = H.nprof

/-- The row belongs to the group and the bin. -/
def Row.lands (H : HistDef) (gk : List Key) (idx : List ℕ) (r : Row) : Bool :=
  inGroup H.groups r.gvals gk && inBins' H.fixed r.fvals idx

/-- The row is in no bin of some axis (a flow bin was switched off). -/
def Row.leftOut (H : HistDef) (r : Row) : Prop := ∀ idx, inBins' H.fixed r.fvals idx = false

/-- The weight of a row; NaN counts as zero. -/
def Row.weight (k : WKind) (r : Row) : Num :=
  match k with
  | .none => .fin 1
  | .const q => .fin q
  | .expr => if r.w = .nan then .fin 0 else r.w

/-- What a row adds to its bin: for each profile `w·x` and `w·x²`, then `w`, then (if weighted)
`w²`. -/
def Row.adds (H : HistDef) (r : Row) (col : ℕ) : Num :=
  if col < 2 * H.nprof then
    r.weight H.wkind * (if col % 2 = 0 then r.xs.getD (col / 2) 0 else r.xs.getD (col / 2) 0 * r.xs.getD (col / 2) 0)
  else if col = 2 * H.nprof then r.weight H.wkind
  else if col = 2 * H.nprof + 1 ∧ H.wkind ≠ .none then r.weight H.wkind * r.weight H.wkind
  else .fin 0

/-- The sum over the rows of a bin. -/
def binTotal (H : HistDef) (rows : List Row) (gk : List Key) (idx : List ℕ) (col : ℕ) : Num :=
  ((rows.filter (Row.lands H gk idx)).map (fun r => r.adds H col)).sum

/-- What a user reads; a histogram that was never filled, and a missing group, read as zero. -/
def read (H : HistDef) (st : State H) (gk : List Key) (idx : List ℕ) (col : ℕ) : Num :=
  match st with
  | none => .fin 0
  | some c => lookup H.groups.length c gk idx col

/-- The group is present. -/
def has (H : HistDef) (st : State H) (gk : List Key) : Prop :=
  match st with
  | none => False
  | some c => HasGroup H.groups.length c gk

/-- Every array has the shape that the axes ask for. -/
def Good (H : HistDef) (st : State H) : Prop :=
  match st with
  | none => True
  | some c => Shaped H.layout H.groups.length c

/-- The data that `fill` takes: suitable rows, and no row without a bin if there are profiles (C18). -/
structure Fillable (H : HistDef) (rows : List Row) : Prop where
  ok : ∀ r ∈ rows, r.Ok H
  prof : H.nprof = 0 ∨ ∀ r ∈ rows, ¬ r.leftOut H

/-! ### Floating point sums and products, said independently -/

/-- The sign of a number; NaN has none. -/
def signOf : Num → ℤ
  | .pinf => 1
  | .ninf => -1
  | .fin q => if 0 < q then 1 else if q < 0 then -1 else 0
  | .nan => 0

/-- The finite part; only used where the number is finite. -/
def finPart : Num → ℚ
  | .fin q => q
  | _ => 0

/-- The IEEE sum of many numbers: NaN if one is NaN or infinities of both signs occur, infinite if one is
infinite, and else the exact sum. -/
def ieeeSum (l : List Num) : Num :=
  if .nan ∈ l ∨ (.pinf ∈ l ∧ .ninf ∈ l) then .nan
  else if .pinf ∈ l then .pinf
  else if .ninf ∈ l then .ninf
  else .fin (l.map finPart).sum

/-- The IEEE product: the exact product of finite numbers; otherwise, NaN if a factor is NaN or zero, and
infinite with the product of the signs. -/
def ieeeProd (a b : Num) : Num :=
  if a.isFin ∧ b.isFin then .fin (finPart a * finPart b)
  else if a = .nan ∨ b = .nan then .nan
  else if signOf a * signOf b = 0 then .nan
  else if signOf a * signOf b = 1 then .pinf else .ninf

/-- What a row adds to its bin, with `ieeeProd`. -/
def Row.addsIEEE (H : HistDef) (r : Row) (col : ℕ) : Num :=
  let w := r.weight H.wkind
  let x := r.xs.getD (col / 2) (.fin 0)
  if col < 2 * H.nprof then ieeeProd w (if col % 2 = 0 then x else ieeeProd x x)
  else if col = 2 * H.nprof then w
  else if col = 2 * H.nprof + 1 ∧ H.wkind ≠ .none then ieeeProd w w
  else .fin 0

end Flt

end Verif
