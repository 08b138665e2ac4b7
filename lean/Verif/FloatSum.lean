import Verif.FloatBin

/-!
# Contents with the machine's arithmetic

`numpy.add.at` and the histogram of one `bin` axis, with every addition rounded to double precision.
-/

namespace Verif

/-- `numpy.add.at(column, indexes, values)` (hist.py:433-434, 440, 449-450) on one column of the content,
for indexes in range: one addition after the other, each rounded. -/
def addAtF : List ℚ → List (ℕ × ℚ) → List ℚ
  | c, [] => c
  | c, (r, v) :: rest => addAtF (c.modify r (fun s => rne (s + v))) rest

/-- calc/__init__.py:214-239 for an array, with the weights of the values that are not masked
(hist.py:442-449 `indexes.compressed()`, `weight[selection]`). -/
def BinAxis.landF (a : BinAxis) : List (Num × ℚ) → Except Err (List (ℕ × ℚ))
  | [] => .ok []
  | (v, w) :: rest =>
    match a.indexF v, a.landF rest with
    | .error e, _ => .error e
    | _, .error e => .error e
    | .ok none, .ok l => .ok l
    | .ok (some i), .ok l => .ok ((i.toNat, w) :: l)

/-- hist.py:379-450 `_prefill`, `_postfill` of a histogram with one `bin` axis: the column of the sums
of weights. -/
def BinAxis.fillF (a : BinAxis) (c : List ℚ) (rows : List (Num × ℚ)) : Except Err (List ℚ) :=
  match a.landF rows with
  | .error e => .error e
  | .ok l => .ok (addAtF c l)

/-- One `fill` after the other. -/
def BinAxis.fillAllF (a : BinAxis) : List ℚ → List (List (Num × ℚ)) → Except Err (List ℚ)
  | c, [] => .ok c
  | c, b :: bs =>
    match a.fillF c b with
    | .error e => .error e
    | .ok c => a.fillAllF c bs

/-- hist.py:382 `numpy.zeros`. -/
def BinAxis.zerosF (a : BinAxis) : List ℚ := List.replicate a.totbins 0

/-- hist.py:513-514 `selfcontent + othercontent`. -/
def mergeF (c d : List ℚ) : List ℚ := List.zipWith (fun x y => rne (x + y)) c d

/-- Rounded additions, one after the other. -/
def sumF (s : ℚ) (ws : List ℚ) : ℚ := ws.foldl (fun s w => rne (s + w)) s

/-- The numbers added to one row. -/
def rowPart (r : ℕ) (l : List (ℕ × ℚ)) : List ℚ := (l.filter (fun p => p.1 = r)).map (·.2)

theorem addAtF_length : ∀ (l : List (ℕ × ℚ)) (c : List ℚ), (addAtF c l).length = c.length
  | [], c => rfl
  | (r, v) :: rest, c => by rw [addAtF, addAtF_length rest, List.length_modify]

/-- Each row sees the numbers added to it, in order. -/
theorem addAtF_get (r : ℕ) : ∀ (l : List (ℕ × ℚ)) (c : List ℚ), (addAtF c l)[r]? = c[r]?.map (fun s => sumF s (rowPart r l))
  | [], c => by simp [addAtF, rowPart, sumF]
  | (r', v) :: rest, c => by
    rw [addAtF, addAtF_get r rest, List.getElem?_modify]
    by_cases h : r' = r
    · subst h
      simp [rowPart, sumF, Option.map_map, Function.comp_def]
    · simp [rowPart, h]

theorem sumF_append (s : ℚ) (a b : List ℚ) : sumF s (a ++ b) = sumF (sumF s a) b := List.foldl_append

theorem rowPart_append (r : ℕ) (a b : List (ℕ × ℚ)) : rowPart r (a ++ b) = rowPart r a ++ rowPart r b := by
  simp [rowPart]

theorem addAtF_append (c : List ℚ) (a b : List (ℕ × ℚ)) : addAtF c (a ++ b) = addAtF (addAtF c a) b := by
  induction a generalizing c with
  | nil => rfl
  | cons p a ih => obtain ⟨r, v⟩ := p; simp [addAtF, ih]

theorem BinAxis.landF_append (a : BinAxis) : ∀ (xs ys : List (Num × ℚ)) (l m : List (ℕ × ℚ)), a.landF xs = .ok l → a.landF ys = .ok m →
    a.landF (xs ++ ys) = .ok (l ++ m)
  | [], ys, l, m, h1, h2 => by cases h1; simpa using h2
  | (v, w) :: xs, ys, l, m, h1, h2 => by
    rw [List.cons_append, BinAxis.landF]
    rw [BinAxis.landF] at h1
    cases hi : a.indexF v with
    | error e => simp [hi] at h1
    | ok i =>
      cases hx : a.landF xs with
      | error e => cases i <;> simp [hi, hx] at h1
      | ok l' =>
        rw [a.landF_append xs ys l' m hx h2]
        cases i with
        | none => simp [hi, hx] at h1; simp [h1]
        | some i => simp [hi, hx] at h1; simp [← h1]

/-- On an ordinary axis no value raises. -/
theorem BinAxis.indexF_ok {a : BinAxis} (h : a.Ordinary) (v : Num) : ∃ r, a.indexF v = .ok r := by
  unfold BinAxis.indexF BinAxis.positionF
  simp [h.width_pos.ne']

theorem BinAxis.landF_ok {a : BinAxis} (h : a.Ordinary) : ∀ rows : List (Num × ℚ), ∃ l, a.landF rows = .ok l
  | [] => ⟨[], rfl⟩
  | (v, w) :: rest => by
    obtain ⟨l, hl⟩ := BinAxis.landF_ok h rest
    obtain ⟨r, hr⟩ := BinAxis.indexF_ok h v
    cases r with
    | none => exact ⟨l, by simp [BinAxis.landF, hr, hl]⟩
    | some i => exact ⟨(i.toNat, w) :: l, by simp [BinAxis.landF, hr, hl]⟩

/-- A masked index that is not masked is not negative. -/
theorem BinAxis.clamp_nonneg (a : BinAxis) (x : Num) (i : ℤ) (h : a.clamp x = some i) : 0 ≤ i := by
  unfold BinAxis.clamp at h
  have hu : 0 ≤ b2i a.underflow := by cases a.underflow <;> simp [b2i]
  have ho : 0 ≤ b2i a.overflow := by cases a.overflow <;> simp [b2i]
  simp only at h
  split at h
  · split at h
    · have := Option.some.inj h; omega
    · cases h
  · cases hU : a.underflow <;> cases hO : a.overflow <;>
      simp [hU, hO, b2i, Option.bind_eq_some_iff] at h <;> omega

theorem BinAxis.indexF_nonneg (a : BinAxis) (v : Num) (i : ℤ) (h : a.indexF v = .ok (some i)) : 0 ≤ i := by
  unfold BinAxis.indexF at h
  cases hp : a.positionF v with
  | none => simp [hp] at h
  | some x => simp [hp] at h; exact a.clamp_nonneg x i h

/-- The weights that reach a bin, in order. -/
theorem BinAxis.landF_part (a : BinAxis) (r : ℕ) : ∀ (rows : List (Num × ℚ)) (l : List (ℕ × ℚ)), a.landF rows = .ok l →
    rowPart r l = (rows.filter (fun p => a.indexF p.1 = .ok (some (r : ℤ)))).map (·.2)
  | [], l, h => by cases h; rfl
  | (v, w) :: rest, l, h => by
    rw [BinAxis.landF] at h
    cases hi : a.indexF v with
    | error e => simp [hi] at h
    | ok i =>
      cases hx : a.landF rest with
      | error e => cases i <;> simp [hi, hx] at h
      | ok l' =>
        have ih := a.landF_part r rest l' hx
        cases i with
        | none =>
          simp [hi, hx] at h
          subst h
          rw [ih]
          simp [hi]
        | some i =>
          simp [hi, hx] at h
          subst h
          have h0 := a.indexF_nonneg v i hi
          by_cases hir : i = r
          · subst hir
            simp [rowPart, hi] at ih ⊢
            exact ih
          · have : i.toNat ≠ r := by omega
            simp [rowPart, hi, hir, this] at ih ⊢
            exact ih

theorem BinAxis.fillAllF_eq {a : BinAxis} (h : a.Ordinary) : ∀ (bs : List (List (Num × ℚ))) (c : List ℚ),
    ∃ l, a.landF bs.flatten = .ok l ∧ a.fillAllF c bs = .ok (addAtF c l)
  | [], c => ⟨[], rfl, rfl⟩
  | b :: bs, c => by
    obtain ⟨l, hl⟩ := BinAxis.landF_ok h b
    obtain ⟨m, hm, hm'⟩ := BinAxis.fillAllF_eq h bs (addAtF c l)
    refine ⟨l ++ m, ?_, ?_⟩
    · rw [List.flatten_cons]; exact a.landF_append _ _ _ _ hl hm
    · rw [BinAxis.fillAllF, BinAxis.fillF, hl]
      simp only
      rw [hm', addAtF_append]

/-! ## Sums -/

/-- Integers add exactly, as long as they stay within 53 bits. -/
theorem sumF_ints : ∀ (ws : List ℤ) (s : ℤ), |s| + (ws.map abs).sum ≤ 2 ^ 53 →
    sumF (s : ℚ) (ws.map (fun z : ℤ => (z : ℚ))) = ((s + ws.sum : ℤ) : ℚ)
  | [], s, _ => by simp [sumF]
  | w :: ws, s, h => by
    simp only [List.map_cons, List.sum_cons] at h
    have h0 : 0 ≤ (ws.map abs).sum := List.sum_nonneg (by
      intro x hx
      obtain ⟨y, _, rfl⟩ := List.mem_map.1 hx
      exact abs_nonneg y)
    have h1 : |s + w| ≤ |s| + |w| := abs_add_le s w
    have hr : rne ((s : ℚ) + (w : ℚ)) = ((s + w : ℤ) : ℚ) := by
      rw [← Int.cast_add]
      exact rne_fix (isF64_int _ (by omega))
    have ih := sumF_ints ws (s + w) (by omega)
    simp only [List.map_cons, sumF, List.foldl_cons, hr] at ih ⊢
    rw [ih, List.sum_cons, add_assoc]

/-- Rounded sums are doubles. -/
theorem sumF_isF64 : ∀ (ws : List ℚ) (s : ℚ), IsF64 s → IsF64 (sumF s ws)
  | [], s, h => h
  | w :: ws, s, _ => by
    have := sumF_isF64 ws (rne (s + w)) (rne_isF64 _)
    simpa [sumF] using this

/-- The error of `n` rounded additions. -/
theorem sumF_err : ∀ (ws : List ℚ) (s : ℚ), IsF64 s → (∀ w ∈ ws, IsF64 w) →
    |sumF s ws - (s + ws.sum)| ≤ ((1 + eps) ^ ws.length - 1) * (|s| + (ws.map abs).sum)
  | [], s, _, _ => by simp [sumF]
  | w :: ws, s, hs, hw => by
    have he := eps_pos
    have ih := sumF_err ws (rne (s + w)) (rne_isF64 _) (fun x hx => hw x (List.mem_cons_of_mem _ hx))
    have hr := rne_err_sum hs (hw w List.mem_cons_self)
    change _ ≤ eps * _ at hr
    have hab : |s + w| ≤ |s| + |w| := abs_add_le s w
    have hr' : |rne (s + w) - (s + w)| ≤ eps * (|s| + |w|) := hr.trans (mul_le_mul_of_nonneg_left hab he.le)
    have hs1 : |rne (s + w)| ≤ (1 + eps) * (|s| + |w|) := by
      have : rne (s + w) = (rne (s + w) - (s + w)) + (s + w) := by ring
      rw [this]
      refine (abs_add_le _ _).trans ?_
      linarith
    have h0 : 0 ≤ (ws.map abs).sum := List.sum_nonneg (by
      intro x hx
      obtain ⟨y, _, rfl⟩ := List.mem_map.1 hx
      exact abs_nonneg y)
    have hA : (0 : ℚ) ≤ |s| + |w| := by positivity
    have hp1 : (1 : ℚ) ≤ (1 + eps) ^ ws.length := one_le_pow₀ (by linarith)
    have e : sumF s (w :: ws) - (s + (w :: ws).sum) =
        (sumF (rne (s + w)) ws - (rne (s + w) + ws.sum)) + (rne (s + w) - (s + w)) := by
      simp only [sumF, List.foldl_cons, List.sum_cons]; ring
    rw [e]
    refine (abs_add_le _ _).trans ?_
    simp only [List.map_cons, List.sum_cons, List.length_cons]
    set A := |s| + |w|
    set R := (ws.map abs).sum
    set P := (1 + eps) ^ ws.length
    have h1 : (P - 1) * (|rne (s + w)| + R) ≤ (P - 1) * ((1 + eps) * A + R) :=
      mul_le_mul_of_nonneg_left (by linarith) (by linarith)
    have h2 : ((1 + eps) ^ (ws.length + 1) - 1) * (|s| + (|w| + R)) = (P * (1 + eps) - 1) * (A + R) := by
      rw [pow_succ]; simp only [P, A]; ring
    rw [h2]
    have h3 : (P * (1 + eps) - 1) * (A + R) - ((P - 1) * ((1 + eps) * A + R) + eps * A) = P * eps * R := by ring
    have h4 : 0 ≤ P * eps * R := by positivity
    linarith

end Verif
