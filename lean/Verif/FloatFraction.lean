import Verif.FloatSum
import Verif.FloatProfile

/-!
# Fractions with the machine's arithmetic

A histogram with one `bin` axis and any number of `cut` axes, filled, projected and divided as `fraction` does
(`/repo/histbook/proj.py` 662-790), with every operation rounded to double precision.  The square root of the error and
the factor for the confidence level are not applied: the model keeps the number under the root.  Numbers too large for a
double are not modelled.
-/

namespace Verif

/-- One row: the value for the `bin` axis, the results of the cuts and the weight (1 without weights). -/
structure CutRow where
  value : Num
  cuts : List Bool
  weight : ℚ

/-- hist.py:386-399: the cell number along the cuts, row-major; `False` is bin 0 and `True` bin 1 (axis.py:1343-1348). -/
def cutNumber (bs : List Bool) : ℕ := bs.foldl (fun n b => 2 * n + b2n b) 0

/-- calc/__init__.py:214-239 and hist.py:386-399 for all rows: the numbers of the cells with the weights, without the
masked rows (hist.py:442-449). -/
def BinAxis.landCuts (a : BinAxis) (k : ℕ) : List CutRow → Except Err (List (ℕ × ℚ))
  | [] => .ok []
  | r :: rest =>
    match a.indexF r.value, a.landCuts k rest with
    | .error e, _ => .error e
    | _, .error e => .error e
    | .ok none, .ok l => .ok l
    | .ok (some i), .ok l => .ok ((i.toNat * 2 ^ k + cutNumber r.cuts, r.weight) :: l)

/-- hist.py:382 and 442-449: a histogram with `k` cuts is filled for the first time; the column of the sums of weights. -/
def BinAxis.fillCuts (a : BinAxis) (k : ℕ) (rows : List CutRow) : Except Err (List ℚ) :=
  match a.landCuts k rows with
  | .error e => .error e
  | .ok l => .ok (addAtF (List.replicate (a.totbins * 2 ^ k) 0) l)

/-- The cells along `k` cuts in the order of their numbers. -/
def cutCells : ℕ → List (List Bool)
  | 0 => [[]]
  | k + 1 => (cutCells k).map (false :: ·) ++ (cutCells k).map (true :: ·)

/-- The content of a cell. -/
def cutContent (c : List ℚ) (k i : ℕ) (bs : List Bool) : ℚ := (c[i * 2 ^ k + cutNumber bs]?).getD 0

/-- proj.py:220-225 `numpy.sum(content, axes)` for the cut axes, for bin `i`: the denominator of proj.py:686. -/
def denomF (c : List ℚ) (k i : ℕ) : ℚ := sumF 0 ((cutCells k).map (cutContent c k i))

/-- proj.py:689-695: the sum over the other cuts, where the cut number `j` is `True`. -/
def passF (c : List ℚ) (k i j : ℕ) : ℚ :=
  sumF 0 (((cutCells k).filter fun bs => bs[j]? = some true).map (cutContent c k i))

/-- What the table of fractions shows for one cut in one bin: the fraction, and the number under the root of the error
("normal", proj.py:754), `none` if that is negative. -/
structure FracCell where
  fraction : ℚ
  errorSq : Option ℚ
  deriving DecidableEq

/-- proj.py:733-755: bins without positive weight keep the zeros of proj.py:725. -/
def fracCellF (pass denom : ℚ) : FracCell :=
  if denom > 0 then
    let p := rne (pass / denom)
    let r := rne (rne (p * rne (1 - p)) / denom)
    ⟨p, if r < 0 then none else some r⟩
  else ⟨0, some 0⟩

/-- proj.py:722-790: the fraction of one cut in all bins. -/
def fractionF (a : BinAxis) (k j : ℕ) (c : List ℚ) : List FracCell :=
  (List.range a.totbins).map fun i => fracCellF (passF c k i j) (denomF c k i)

/-! ## Lemmas -/

theorem cutNumber_foldl (bs : List Bool) (n : ℕ) : bs.foldl (fun n b => 2 * n + b2n b) n = n * 2 ^ bs.length + cutNumber bs := by
  unfold cutNumber
  induction bs generalizing n with
  | nil => simp
  | cons b bs ih =>
    simp only [List.foldl_cons, List.length_cons]
    rw [ih, ih (2 * 0 + b2n b)]
    ring

theorem cutNumber_cons (b : Bool) (bs : List Bool) : cutNumber (b :: bs) = b2n b * 2 ^ bs.length + cutNumber bs := by
  have := cutNumber_foldl bs (2 * 0 + b2n b)
  unfold cutNumber at this ⊢
  rw [List.foldl_cons, this]
  simp

theorem cutNumber_lt (bs : List Bool) : cutNumber bs < 2 ^ bs.length := by
  induction bs with
  | nil => simp [cutNumber]
  | cons b bs ih =>
    rw [cutNumber_cons, List.length_cons, pow_succ]
    cases b <;> simp [b2n] <;> omega

theorem cutNumber_inj : ∀ bs cs : List Bool, bs.length = cs.length → cutNumber bs = cutNumber cs → bs = cs
  | [], [], _, _ => rfl
  | b :: bs, c :: cs, hl, h => by
    have hl' : bs.length = cs.length := by simpa using hl
    rw [cutNumber_cons, cutNumber_cons, hl'] at h
    have h1 := cutNumber_lt bs
    have h2 := cutNumber_lt cs
    rw [hl'] at h1
    have hb : b = c := by
      cases b <;> cases c <;> simp [b2n] at h ⊢ <;> omega
    subst hb
    have : cutNumber bs = cutNumber cs := by omega
    rw [cutNumber_inj bs cs hl' this]
  | [], c :: cs, hl, _ => by simp at hl
  | b :: bs, [], hl, _ => by simp at hl

theorem mem_cutCells : ∀ (k : ℕ) (bs : List Bool), bs ∈ cutCells k ↔ bs.length = k
  | 0, bs => by simp [cutCells]
  | k + 1, bs => by
    rw [cutCells, List.mem_append, List.mem_map, List.mem_map]
    cases bs with
    | nil => simp
    | cons b bs => cases b <;> simp [mem_cutCells k bs]

theorem cutCells_nodup : ∀ k, (cutCells k).Nodup
  | 0 => by simp [cutCells]
  | k + 1 => by
    rw [cutCells, List.nodup_append]
    have h := cutCells_nodup k
    refine ⟨h.map fun a b e => by simpa using e, h.map fun a b e => by simpa using e, ?_⟩
    intro a ha b hb
    obtain ⟨a', _, rfl⟩ := List.mem_map.1 ha
    obtain ⟨b', _, rfl⟩ := List.mem_map.1 hb
    simp

theorem cutCells_length : ∀ k, (cutCells k).length = 2 ^ k
  | 0 => rfl
  | k + 1 => by rw [cutCells, List.length_append, List.length_map, List.length_map, cutCells_length k, pow_succ]; ring

theorem BinAxis.landCuts_ok {a : BinAxis} (h : a.Ordinary) (k : ℕ) : ∀ rows : List CutRow, ∃ l, a.landCuts k rows = .ok l
  | [] => ⟨[], rfl⟩
  | r :: rest => by
    obtain ⟨l, hl⟩ := BinAxis.landCuts_ok h k rest
    obtain ⟨i, hi⟩ := BinAxis.indexF_ok h r.value
    cases i with
    | none => exact ⟨l, by simp [BinAxis.landCuts, hi, hl]⟩
    | some i => exact ⟨(i.toNat * 2 ^ k + cutNumber r.cuts, r.weight) :: l, by simp only [BinAxis.landCuts, hi, hl]⟩

/-- The weights that reach a cell, in order. -/
theorem BinAxis.landCuts_part (a : BinAxis) (k i : ℕ) (bs : List Bool) (hbs : bs.length = k) :
    ∀ (rows : List CutRow) (l : List (ℕ × ℚ)), (∀ r ∈ rows, r.cuts.length = k) → a.landCuts k rows = .ok l →
    rowPart (i * 2 ^ k + cutNumber bs) l =
      (rows.filter fun r => a.indexF r.value = .ok (some (i : ℤ)) ∧ r.cuts = bs).map (·.weight)
  | [], l, _, h => by cases h; rfl
  | r :: rest, l, hr, h => by
    rw [BinAxis.landCuts] at h
    cases hi : a.indexF r.value with
    | error e => simp [hi] at h
    | ok o =>
      cases hx : a.landCuts k rest with
      | error e => cases o <;> simp [hi, hx] at h
      | ok l' =>
        have ih := a.landCuts_part k i bs hbs rest l' (fun r' h' => hr r' (List.mem_cons_of_mem _ h')) hx
        cases o with
        | none =>
          simp [hi, hx] at h
          subst h
          rw [ih]
          simp [hi]
        | some j =>
          simp [hi, hx] at h
          subst h
          have h0 := a.indexF_nonneg r.value j hi
          have hrl := hr r (by simp)
          have b1 := cutNumber_lt r.cuts
          have b2 := cutNumber_lt bs
          rw [hrl] at b1
          rw [hbs] at b2
          have hiff : j.toNat * 2 ^ k + cutNumber r.cuts = i * 2 ^ k + cutNumber bs ↔ (j = (i : ℤ) ∧ r.cuts = bs) := by
            constructor
            · intro e
              have hp : 0 < 2 ^ k := by positivity
              have hd : (j.toNat * 2 ^ k + cutNumber r.cuts) / 2 ^ k = (i * 2 ^ k + cutNumber bs) / 2 ^ k := by rw [e]
              rw [mul_comm j.toNat, mul_comm i, Nat.mul_add_div hp, Nat.mul_add_div hp, Nat.div_eq_of_lt b1, Nat.div_eq_of_lt b2] at hd
              have hji : j.toNat = i := by omega
              refine ⟨by omega, cutNumber_inj _ _ (hrl.trans hbs.symm) ?_⟩
              rw [hji] at e
              omega
            · rintro ⟨rfl, rfl⟩
              simp
          by_cases hc : j = (i : ℤ) ∧ r.cuts = bs
          · have hc' := hiff.2 hc
            obtain ⟨rfl, hc2⟩ := hc
            simp [rowPart, hi, hc', hc2] at ih ⊢
            exact ih
          · have hc' : ¬ _ := fun e => hc (hiff.1 e)
            simp [rowPart, hi, hc', hc] at ih ⊢
            exact ih

/-- Rounded sums of fewer numbers that are not negative are not larger. -/
theorem sumF_sublist {xs ys : List ℚ} (h : xs.Sublist ys) : ∀ {s t : ℚ}, s ≤ t → IsF64 t → (∀ y ∈ ys, 0 ≤ y) → sumF s xs ≤ sumF t ys := by
  induction h with
  | slnil => intro s t hst _ _; exact hst
  | @cons xs ys y _ ih =>
    intro s t hst ht hy
    have : t ≤ rne (t + y) := le_rne ht (by linarith [hy y (by simp)])
    exact ih (hst.trans this) (rne_isF64 _) (fun z hz => hy z (by simp [hz]))
  | @cons_cons xs ys y _ ih =>
    intro s t hst ht hy
    exact ih (rne_mono (by linarith)) (rne_isF64 _) (fun z hz => hy z (by simp [hz]))

theorem sumF_nonneg : ∀ (ws : List ℚ) (s : ℚ), 0 ≤ s → (∀ w ∈ ws, 0 ≤ w) → 0 ≤ sumF s ws
  | [], _, hs, _ => hs
  | w :: ws, s, hs, hw => sumF_nonneg ws (rne (s + w)) (rne_nonneg (by linarith [hw w (by simp)])) fun x hx => hw x (by simp [hx])

/-- The rows that are counted in bin `i`. -/
def BinAxis.rowsIn (a : BinAxis) (i : ℕ) (rows : List CutRow) : List CutRow := rows.filter fun r => a.indexF r.value = .ok (some (i : ℤ))

/-- What the cells hold after filling. -/
theorem fillCuts_content {a : BinAxis} (h : a.Ordinary) (k : ℕ) (rows : List CutRow) (hr : ∀ r ∈ rows, r.cuts.length = k) :
    ∃ c, a.fillCuts k rows = .ok c ∧ ∀ i < a.totbins, ∀ bs ∈ cutCells k, cutContent c k i bs =
      sumF 0 (((a.rowsIn i rows).filter fun r => r.cuts = bs).map (·.weight)) := by
  obtain ⟨l, hl⟩ := BinAxis.landCuts_ok h k rows
  refine ⟨_, by rw [BinAxis.fillCuts, hl], fun i hi bs hbs => ?_⟩
  have hlen := (mem_cutCells k bs).1 hbs
  have hb := cutNumber_lt bs
  rw [hlen] at hb
  have hlt : i * 2 ^ k + cutNumber bs < a.totbins * 2 ^ k := by
    have : (i + 1) * 2 ^ k ≤ a.totbins * 2 ^ k := Nat.mul_le_mul_right _ hi
    rw [add_mul, one_mul] at this
    omega
  unfold cutContent
  rw [addAtF_get, List.getElem?_replicate, if_pos hlt, Option.map_some, Option.getD_some, a.landCuts_part k i bs hlen rows l hr hl]
  congr 2
  rw [BinAxis.rowsIn, List.filter_filter]
  refine List.filter_congr fun r _ => ?_
  simp [Bool.and_comm]

/-- Summing over cells is summing over the rows in them. -/
theorem sum_cells (f : CutRow → ℚ) (rows : List CutRow) : ∀ (cells : List (List Bool)), cells.Nodup →
    (cells.map fun bs => ((rows.filter fun r => r.cuts = bs).map f).sum).sum = ((rows.filter fun r => r.cuts ∈ cells).map f).sum := by
  induction rows with
  | nil => intro cells _; simp
  | cons r rows ih =>
    intro cells hn
    have ih := ih cells hn
    have e : ∀ bs, (((r :: rows).filter fun r => decide (r.cuts = bs)).map f).sum = (if r.cuts = bs then f r else 0) + ((rows.filter fun r => decide (r.cuts = bs)).map f).sum := by
      intro bs
      by_cases h : r.cuts = bs <;> simp [h]
    have e2 : (cells.map fun bs => (if r.cuts = bs then f r else 0)).sum = if r.cuts ∈ cells then f r else 0 := by
      clear ih e
      induction cells with
      | nil => simp
      | cons b cells ihc =>
        have hn' := List.nodup_cons.1 hn
        simp only [List.map_cons, List.sum_cons, ihc hn'.2]
        by_cases h : r.cuts = b
        · subst h; simp [hn'.1]
        · simp [h]
    simp only [e]
    rw [List.sum_map_add, ih, e2]
    by_cases h : r.cuts ∈ cells <;> simp [h]

end Verif
