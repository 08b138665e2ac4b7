import Verif.Fill

/-!
# Specification of filling

What a histogram should contain, said in terms of the events alone: the entry of a bin is the sum
over the events that fall into the bin.  Nothing here refers to how the code fills.
-/

namespace Verif

/-- One event as the axes see it: the key on each group axis (`none`: in no group), the bin on each
fixed axis (`none`: in no bin), the value of each profile, the weight (`none`: NaN). -/
structure Event where
  gkeys : List (Option Key)
  cells : List (Option ℤ)
  xs : List ℚ
  w : Option ℚ
  deriving DecidableEq

/-- The event has one key per group axis, one bin within range per fixed axis (C01-C09 show that
bins are within range) and one value per profile. -/
def Event.Fits (L : Layout) (e : Event) : Prop :=
  e.gkeys.length = L.ngroup ∧ e.xs.length = L.nprof ∧
  List.Forall₂ (fun (c : Option ℤ) (n : ℕ) => ∀ i, c = some i → 0 ≤ i ∧ i < n) e.cells L.dims

/-- The weight of an event; NaN counts as zero. -/
def Event.weight (k : WKind) (e : Event) : ℚ :=
  match k with
  | .none => 1
  | .const q => q
  | .expr => e.w.getD 0

/-- What an event adds to column `col` of its bin: `w·x` and `w·x²` for each profile, then `w`,
then `w²` if weighted. -/
def Event.acc (L : Layout) (e : Event) (col : ℕ) : ℚ :=
  if col < 2 * L.nprof then
    e.weight L.wkind * (if col % 2 = 0 then e.xs.getD (col / 2) 0 else e.xs.getD (col / 2) 0 ^ 2)
  else if col = 2 * L.nprof then e.weight L.wkind
  else if col = 2 * L.nprof + 1 ∧ L.wkind ≠ .none then e.weight L.wkind ^ 2
  else 0

/-- The event falls into the group with keys `gk` and the bin with multi-index `cell`. -/
def Event.lands (gk : List Key) (cell : List ℕ) (e : Event) : Bool :=
  decide (e.gkeys = gk.map some) && decide (e.cells = cell.map (fun i : ℕ => some (i : ℤ)))

/-- The sum over the events of a bin. -/
def total (L : Layout) (es : List Event) (gk : List Key) (cell : List ℕ) (col : ℕ) : ℚ :=
  ((es.filter (Event.lands gk cell)).map (fun e => e.acc L col)).sum

/-- What a user reads at a group, bin and column; a group that does not exist counts as zero. -/
def lookup : (n : ℕ) → Content Arr n → List Key → List ℕ → ℕ → ℚ
  | 0, (a : Arr), _, idx, col => a.get idx col
  | n + 1, (d : List (Key × Content Arr n)), gk, idx, col =>
    match gk with
    | [] => 0
    | k :: gk =>
      match dget d k with
      | none => 0
      | some c => lookup n c gk idx col

/-- Every array in the content has the shape of the histogram. -/
def Shaped (L : Layout) : (n : ℕ) → Content Arr n → Prop
  | 0, (a : Arr) => a.shape = L.dims ∧ a.ncols = L.ncols
  | n + 1, (d : List (Key × Content Arr n)) => ∀ k c, dget d k = some c → Shaped L n c

/-- The group with keys `gk` exists in the content; `gk` may be the keys of the first few group axes
only. -/
def HasGroup : (n : ℕ) → Content Arr n → List Key → Prop
  | 0, _, gk => gk = []
  | n + 1, (d : List (Key × Content Arr n)), gk =>
    match gk with
    | [] => True
    | k :: gk => ∃ c, dget d k = some c ∧ HasGroup n c gk

/-- A multi-index within the dimensions. -/
def InRange (idx dims : List ℕ) : Prop := List.Forall₂ (fun i n => i < n) idx dims

/-- `numpy.unique(..., return_inverse=True)` and its use in `groupbin` (calc/__init__.py:149-196):
`uniques` are the distinct keys, `inverse` says for each row which one it has (-1 for none). -/
structure IsUnique (ks : List (Option Key)) (uniques : List Key) (inverse : List ℤ) : Prop where
  nodup : uniques.Nodup
  len : inverse.length = ks.length
  mem : ∀ k, k ∈ uniques ↔ some k ∈ ks
  inv : ∀ (idx : ℕ) (k : Key), uniques[idx]? = some k →
    inverse.map (fun i => decide (i = (idx : ℤ))) = ks.map (fun o => decide (o = some k))

/-- The columns that belong to a list of events. -/
structure IsDest (L : Layout) (es : List Event) (d : Dest) : Prop where
  groups : List.Forall₂ (fun (g : ℕ) (col : Option (List Key × List ℤ)) =>
    ∃ u inv, col = some (u, inv) ∧ IsUnique (es.map (fun e => e.gkeys.getD g none)) u inv)
    (List.range L.ngroup) d.groups
  fixed : d.fixed = (List.range L.dims.length).map (fun k => some (es.map (fun e => e.cells.getD k none)))
  prof : d.prof = (List.range L.nprof).map (fun k =>
    (some (es.map (fun e => e.xs.getD k 0)), some (es.map (fun e => e.xs.getD k 0 ^ 2))))
  weight : L.wkind = .expr → d.weight = (some (es.map (·.w)), some (es.map (fun e => e.w.map (· ^ 2))))

end Verif
