import Verif.FloatFillLemmas
import Verif.PropsFill

/-!
# Filling with NaN and infinite numbers: C94, and what becomes of C15 and C16
-/

namespace Verif

namespace Flt

/-! ## the numbers of the examples -/

/-- `Hist(bin("x", 2, 0, 2), profile("y"), profile("z"), weight="w")` -/
def exF : HistDef := ⟨[], [.bin ⟨2, 0, 2, true, true, true, true⟩], 2, .expr⟩

/-- a row of `exF` -/
def exFRow (x : ℚ) (y z w : Num) : Row := ⟨[], [.num (.fin x)], [y, z], w⟩

theorem exFRow_ok (x : ℚ) (y z w : Num) (hx : x ≤ 1000) : (exFRow x y z w).Ok exF :=
  ⟨.nil, .cons (exH_handles x hx) .nil, rfl⟩

theorem exFRow_in (x : ℚ) (y z w : Num) (i : ℕ) (h : inBins' exF.fixed [.num (.fin x)] [i] = true) :
    ¬ (exFRow x y z w).leftOut exF := fun hl => by
  have := hl [i]
  unfold exFRow at this
  rw [h] at this
  cases this

theorem exF_fillable : Fillable exF [exFRow (1/2) (.fin 4) .nan (.fin 2), exFRow 1 .pinf (.fin 1) .nan,
    exFRow (1/3) .ninf (.fin 3) (.fin 1), exFRow (3/2) (.fin 5) (.fin 6) .pinf] := by
  refine ⟨?_, Or.inr ?_⟩
  · intro r hr
    simp at hr
    rcases hr with rfl | rfl | rfl | rfl <;> exact exFRow_ok _ _ _ _ (by norm_num)
  · intro r hr
    simp at hr
    rcases hr with rfl | rfl | rfl | rfl
    · exact exFRow_in _ _ _ _ 1 (by decide +kernel)
    · exact exFRow_in _ _ _ _ 2 (by decide +kernel)
    · exact exFRow_in _ _ _ _ 1 (by decide +kernel)
    · exact exFRow_in _ _ _ _ 2 (by decide +kernel)

/-! ## C94 -/

/-- **C94**, what is in a bin: for any histogram and any data, also with NaN and infinite profile
values and weights, `fill` succeeds and adds to every column of every bin the floating point sum over
the rows of that bin. -/
theorem C94_sum (H : HistDef) (st : State H) (hg : Good H st) (rows : List Row) (hf : Fillable H rows) :
    ∃ st', fill H st rows = .ok st' ∧ Good H st' ∧
      ∀ gk, gk.length = H.groups.length → ∀ idx, H.Cell idx → ∀ col,
        read H st' gk idx col = read H st gk idx col + binTotal H rows gk idx col := by
  obtain ⟨st', h1, _, h2, _, h3⟩ := fill_rows H st hg rows hf
  exact ⟨st', h1, h2, h3⟩

example : (match fill exF none [exFRow (1/2) (.fin 4) .nan (.fin 2), exFRow 1 .pinf (.fin 1) .nan,
      exFRow (1/3) .ninf (.fin 3) (.fin 1), exFRow (3/2) (.fin 5) (.fin 6) .pinf] with
    | .ok st => (List.range 6).map (read exF st [] [1]) ++ (List.range 6).map (read exF st [] [2])
    | .error _ => []) =
    [.ninf, .pinf, .nan, .nan, .fin 3, .fin 5, .nan, .nan, .pinf, .pinf, .pinf, .pinf] := by decide +kernel

/-- **C94**, a bin has nothing to do with the rows of other bins: if two sets of data have the same
rows in a bin, the bin gets the same, whatever (NaN, infinity) is in the others. -/
theorem C94_own_bin (H : HistDef) (st : State H) (hg : Good H st) (rows rows' : List Row) (hf : Fillable H rows)
    (hf' : Fillable H rows') :
    ∃ s s', fill H st rows = .ok s ∧ fill H st rows' = .ok s' ∧
      ∀ gk, gk.length = H.groups.length → ∀ idx, H.Cell idx →
        (rows.filter (Row.lands H gk idx)).Perm (rows'.filter (Row.lands H gk idx)) →
        ∀ col, read H s gk idx col = read H s' gk idx col := by
  obtain ⟨s, h1, _, h2⟩ := C94_sum H st hg rows hf
  obtain ⟨s', k1, _, k2⟩ := C94_sum H st hg rows' hf'
  refine ⟨s, s', h1, k1, fun gk hgk idx hidx hp col => ?_⟩
  rw [h2 gk hgk idx hidx col, k2 gk hgk idx hidx col, binTotal, binTotal, (hp.map _).sum_eq]

example : ∃ s s', fill exF none [exFRow (1/2) (.fin 4) .nan (.fin 2), exFRow 1 .pinf (.fin 1) .nan,
      exFRow (1/3) .ninf (.fin 3) (.fin 1), exFRow (3/2) (.fin 5) (.fin 6) .pinf] = .ok s ∧
    fill exF none [exFRow 1 .pinf (.fin 1) .nan, exFRow (3/2) (.fin 5) (.fin 6) .pinf] = .ok s' ∧
    ∀ col, read exF s [] [2] col = read exF s' [] [2] col := by
  obtain ⟨s, s', h1, h2, h3⟩ := C94_own_bin exF none trivial _ [exFRow 1 .pinf (.fin 1) .nan, exFRow (3/2) (.fin 5) (.fin 6) .pinf]
    exF_fillable ⟨fun r hr => exF_fillable.ok r (by simp at hr ⊢; tauto),
      exF_fillable.prof.imp id (fun h r hr => h r (by simp at hr ⊢; tauto))⟩
  exact ⟨s, s', h1, h2, h3 [] rfl [2] (.cons (by decide) .nil) (by decide +kernel)⟩

/-- **C94**, a profile has nothing to do with the values of the others, and the counts have nothing
to do with the profiles: if the values of the profiles are changed in any way, except those of profile
`k`, then the columns of profile `k` and of the weights stay as they are. -/
theorem C94_own_profile (H : HistDef) (st : State H) (hg : Good H st) (rows : List Row) (f : Row → List Num)
    (hf : Fillable H rows) (hlen : ∀ r ∈ rows, (f r).length = H.nprof) :
    ∃ s s', fill H st rows = .ok s ∧ fill H st (rows.map (fun r => { r with xs := f r })) = .ok s' ∧
      ∀ gk, gk.length = H.groups.length → ∀ idx, H.Cell idx →
        (∀ col, 2 * H.nprof ≤ col → read H s gk idx col = read H s' gk idx col) ∧
        (∀ k < H.nprof, (∀ r ∈ rows, (f r)[k]? = r.xs[k]?) →
          read H s gk idx (2 * k) = read H s' gk idx (2 * k) ∧
          read H s gk idx (2 * k + 1) = read H s' gk idx (2 * k + 1)) := by
  obtain ⟨s, h1, _, h2⟩ := C94_sum H st hg rows hf
  obtain ⟨s', k1, _, k2⟩ := C94_sum H st hg (rows.map (fun r => { r with xs := f r })) (by
    refine ⟨?_, hf.prof.imp id ?_⟩
    · intro r hr
      obtain ⟨r, hr', rfl⟩ := List.mem_map.1 hr
      obtain ⟨a, b, c⟩ := hf.ok r hr'
      exact ⟨a, b, hlen r hr'⟩
    · intro h r hr
      obtain ⟨r, hr', rfl⟩ := List.mem_map.1 hr
      exact h r hr')
  have gen : ∀ gk idx col, (∀ r ∈ rows, r.adds H col = ({ r with xs := f r } : Row).adds H col) →
      binTotal H rows gk idx col = binTotal H (rows.map (fun r => { r with xs := f r })) gk idx col := by
    intro gk idx col h
    unfold binTotal
    rw [List.filter_map, List.map_map]
    have : (Row.lands H gk idx) ∘ (fun r : Row => ({ r with xs := f r } : Row)) = Row.lands H gk idx := rfl
    rw [this]
    congr 1
    apply List.map_congr_left
    intro r hr
    exact h r (List.mem_of_mem_filter hr)
  refine ⟨s, s', h1, k1, fun gk hgk idx hidx => ⟨fun col hcol => ?_, fun k hk hx => ⟨?_, ?_⟩⟩⟩
  · rw [h2 gk hgk idx hidx col, k2 gk hgk idx hidx col, gen]
    intro r _
    unfold Row.adds
    have hc : ¬ col < 2 * H.nprof := by omega
    simp only [if_neg hc]
    rfl
  · rw [h2 gk hgk idx hidx _, k2 gk hgk idx hidx _, gen]
    intro r hr
    unfold Row.adds
    have c1 : 2 * k < 2 * H.nprof := by omega
    have c2 : 2 * k % 2 = 0 := by omega
    simp only [if_pos c1, if_pos c2]
    rw [show 2 * k / 2 = k by omega]
    simp only [List.getD_eq_getElem?_getD, hx r hr]
    rfl
  · rw [h2 gk hgk idx hidx _, k2 gk hgk idx hidx _, gen]
    intro r hr
    unfold Row.adds
    have c1 : 2 * k + 1 < 2 * H.nprof := by omega
    have c2 : ¬ (2 * k + 1) % 2 = 0 := by omega
    simp only [if_pos c1, if_neg c2]
    rw [show (2 * k + 1) / 2 = k by omega]
    simp only [List.getD_eq_getElem?_getD, hx r hr]
    rfl

example : ∃ s s', fill exF none [exFRow (1/2) (.fin 4) .nan (.fin 2)] = .ok s ∧
    fill exF none [exFRow (1/2) (.fin 4) (.fin 7) (.fin 2)] = .ok s' ∧
    read exF s [] [1] 0 = read exF s' [] [1] 0 ∧ read exF s [] [1] 4 = read exF s' [] [1] 4 := by
  obtain ⟨s, s', h1, h2, h3⟩ := C94_own_profile exF none trivial [exFRow (1/2) (.fin 4) .nan (.fin 2)] (fun r => [r.xs.getD 0 0, .fin 7])
    ⟨fun r hr => exF_fillable.ok r (by simp at hr ⊢; tauto),
      exF_fillable.prof.imp id (fun h r hr => h r (by simp at hr ⊢; tauto))⟩ (by intro r _; rfl)
  have h := h3 [] rfl [1] (.cons (by decide) .nil)
  exact ⟨s, s', h1, h2, (h.2 0 (by decide) (by intro r hr; simp at hr; subst hr; rfl)).1, h.1 4 (by decide)⟩

theorem isFin_sum (l : List Num) : l.sum.isFin = true ↔ ∀ x ∈ l, x.isFin = true := by
  induction l with
  | nil => simp [Num.zero_def, Num.isFin]
  | cons x l ih => simp [Num.isFin_add, ih]

/-- **C94**, which entries are numbers: an entry is finite exactly if it was before and every row of
the bin adds a finite number to it. -/
theorem C94_finite (H : HistDef) (st : State H) (hg : Good H st) (rows : List Row) (hf : Fillable H rows) :
    ∃ st', fill H st rows = .ok st' ∧
      ∀ gk, gk.length = H.groups.length → ∀ idx, H.Cell idx → ∀ col,
        ((read H st' gk idx col).isFin = true ↔
          (read H st gk idx col).isFin = true ∧ ∀ r ∈ rows, r.lands H gk idx = true → (r.adds H col).isFin = true) := by
  obtain ⟨s, h1, _, h2⟩ := C94_sum H st hg rows hf
  refine ⟨s, h1, fun gk hgk idx hidx col => ?_⟩
  rw [h2 gk hgk idx hidx col, Num.isFin_add, Bool.and_eq_true, binTotal, isFin_sum]
  simp only [List.mem_map, List.mem_filter, forall_exists_index, and_imp]
  constructor
  · rintro ⟨a, b⟩
    exact ⟨a, fun r hr hl => b _ r hr hl rfl⟩
  · rintro ⟨a, b⟩
    refine ⟨a, ?_⟩
    rintro _ r hr hl rfl
    exact b r hr hl

example : ∃ st', fill exF none [exFRow (1/2) (.fin 4) .nan (.fin 2), exFRow 1 .pinf (.fin 1) .nan,
      exFRow (1/3) .ninf (.fin 3) (.fin 1), exFRow (3/2) (.fin 5) (.fin 6) .pinf] = .ok st' ∧
    (read exF st' [] [1] 4).isFin = true ∧ ¬ (read exF st' [] [1] 0).isFin = true := by
  obtain ⟨s, h1, h2⟩ := C94_finite exF none trivial _ exF_fillable
  refine ⟨s, h1, ?_, ?_⟩
  · rw [h2 [] rfl [1] (.cons (by decide) .nil)]
    decide +kernel
  · rw [h2 [] rfl [1] (.cons (by decide) .nil)]
    decide +kernel

/-- **C94**, batches and order: any two ways to give the same rows, in any order and in any number of
calls of `fill`, lead to the same entries. -/
theorem C94_batches (H : HistDef) : ∀ (bs : List (List Row)) (st : State H), Good H st → (∀ b ∈ bs, Fillable H b) →
    ∃ st', fillAll H st bs = .ok st' ∧ Good H st' ∧
      ∀ gk, gk.length = H.groups.length → ∀ idx, H.Cell idx → ∀ rows, bs.flatten.Perm rows → ∀ col,
        read H st' gk idx col = read H st gk idx col + binTotal H rows gk idx col
  | [], st, hg, _ => by
    refine ⟨st, rfl, hg, fun gk _ idx _ rows hp col => ?_⟩
    have : rows = [] := by simpa using hp
    subst this
    simp [binTotal]
  | b :: bs, st, hg, hf => by
    obtain ⟨s, h1, hg1, h2⟩ := C94_sum H st hg b (hf b List.mem_cons_self)
    obtain ⟨s', k1, hg2, k2⟩ := C94_batches H bs s hg1 (fun b hb => hf b (List.mem_cons_of_mem _ hb))
    refine ⟨s', by simp only [fillAll, h1, k1], hg2, fun gk hgk idx hidx rows hp col => ?_⟩
    rw [k2 gk hgk idx hidx bs.flatten (List.Perm.refl _) col, h2 gk hgk idx hidx col, add_assoc]
    congr 1
    unfold binTotal
    rw [← ((hp.filter _).map _).sum_eq]
    simp

example : ∃ st', fillAll exF none [[exFRow (1/2) (.fin 4) .nan (.fin 2)], [exFRow (1/2) (.fin 4) .nan (.fin 2)]] = .ok st' ∧
    ∀ col, read exF st' [] [1] col = .fin 0 +
      binTotal exF [exFRow (1/2) (.fin 4) .nan (.fin 2), exFRow (1/2) (.fin 4) .nan (.fin 2)] [] [1] col := by
  obtain ⟨s, h1, _, h2⟩ := C94_batches exF [[exFRow (1/2) (.fin 4) .nan (.fin 2)], [exFRow (1/2) (.fin 4) .nan (.fin 2)]] none trivial (by
    intro b hb
    have hb : b = [exFRow (1/2) (.fin 4) .nan (.fin 2)] := by simpa using hb
    subst hb
    exact ⟨fun r hr => exF_fillable.ok r (by simp at hr ⊢; tauto),
      exF_fillable.prof.imp id (fun h r hr => h r (by simp at hr ⊢; tauto))⟩)
  exact ⟨s, h1, fun col => h2 [] rfl [1] (.cons (by decide) .nil) _ (List.Perm.refl _) col⟩

/-! ### agreement with the model over rational numbers -/

/-- A row of rational numbers (`none`: NaN weight). -/
def ofRow (r : Verif.Row) : Row := ⟨r.gvals, r.fvals, r.xs.map .fin, (r.w.map Num.fin).getD .nan⟩

theorem fin_sum (l : List ℚ) : (l.map Num.fin).sum = .fin l.sum := by
  induction l with
  | nil => rfl
  | cons x l ih => simp [ih]

theorem ofRow_adds (H : HistDef) (r : Verif.Row) (col : ℕ) : (ofRow r).adds H col = .fin (r.adds H col) := by
  have hw : (ofRow r).weight H.wkind = .fin (r.weight H.wkind) := by
    obtain ⟨g, f, xs, w⟩ := r
    unfold Row.weight Verif.Row.weight
    cases H.wkind with
    | none => rfl
    | const q => rfl
    | expr => cases w <;> simp [ofRow]
  have hx : ∀ k, (ofRow r).xs.getD k 0 = .fin (r.xs.getD k 0) := by
    intro k
    simp only [ofRow, List.getD_eq_getElem?_getD, List.getElem?_map]
    cases r.xs[k]? <;> rfl
  unfold Row.adds Verif.Row.adds
  rw [hw]
  split_ifs <;> simp only [hx, Num.fin_mul_fin, pow_two]

/-- **C94**, with rational numbers the contents are those of the model over the rational numbers
(`HistDef.fill`), so that everything said about these (C11 to C14, C19 to C22) holds here. -/
theorem C94_agrees (H : HistDef) (rows : List Verif.Row) (h : ∀ r ∈ rows, r.Ok H)
    (hp : H.nprof = 0 ∨ ∀ r ∈ rows, ¬ r.leftOut H) :
    ∃ (s : State H) (s' : H.State), fill H none (rows.map ofRow) = .ok s ∧ H.fill none rows = .ok s' ∧
      ∀ gk, gk.length = H.groups.length → ∀ idx, H.Cell idx → ∀ col,
        read H s gk idx col = .fin (H.read s' gk idx col) := by
  obtain ⟨s, h1, _, h2⟩ := C94_sum H none trivial (rows.map ofRow) (by
    refine ⟨?_, hp.imp id ?_⟩
    · intro r hr
      obtain ⟨r, hr', rfl⟩ := List.mem_map.1 hr
      obtain ⟨a, b, c⟩ := h r hr'
      exact ⟨a, b, by simp [ofRow, c]⟩
    · intro hh r hr
      obtain ⟨r, hr', rfl⟩ := List.mem_map.1 hr
      exact hh r hr')
  obtain ⟨s', k1, _, _, _, k2⟩ := Verif.fill_rows H none trivial rows h hp
  refine ⟨s, s', h1, k1, fun gk hgk idx hidx col => ?_⟩
  rw [h2 gk hgk idx hidx col, k2 gk hgk idx hidx col]
  have : binTotal H (rows.map ofRow) gk idx col = .fin (Verif.binTotal H rows gk idx col) := by
    unfold binTotal Verif.binTotal
    rw [List.filter_map, List.map_map]
    have e : Row.lands H gk idx ∘ ofRow = Verif.Row.lands H gk idx := rfl
    rw [e, ← fin_sum, List.map_map]
    congr 1
    apply List.map_congr_left
    intro r _
    exact ofRow_adds H r col
  rw [this]
  simp [read, HistDef.read]

example : ∃ (s : State exH) (s' : exH.State), fill exH none ([exRow "a" (1/2) (some 2), exRow "b" 1 none].map ofRow) = .ok s ∧
    exH.fill none [exRow "a" (1/2) (some 2), exRow "b" 1 none] = .ok s' ∧
    ∀ gk, gk.length = 1 → ∀ idx, exH.Cell idx → ∀ col, read exH s gk idx col = .fin (exH.read s' gk idx col) := by
  apply C94_agrees exH
  · intro r hr
    simp at hr
    rcases hr with rfl | rfl <;> exact exRow_ok _ _ _ (by norm_num)
  · exact Or.inl rfl

/-! ## C15 -/

theorem zero_mul_fin {x : Num} (h : x.isFin = true) : Num.fin 0 * x = 0 := by
  cases x <;> simp [Num.isFin] at h; simp [Num.zero_def]

theorem isFin_mul {x y : Num} (hx : x.isFin = true) (hy : y.isFin = true) : (x * y).isFin = true := by
  cases x <;> simp [Num.isFin] at hx
  cases y <;> simp [Num.isFin] at hy
  rfl

/-- A row of weight zero adds zero to the counts, and to a profile if its value is finite. -/
theorem adds_zero (H : HistDef) (r : Row) (hr : r.weight H.wkind = .fin 0) (col : ℕ)
    (hx : col < 2 * H.nprof → (r.xs.getD (col / 2) 0).isFin = true) : r.adds H col = 0 := by
  unfold Row.adds
  rw [hr]
  by_cases h1 : col < 2 * H.nprof
  · rw [if_pos h1]
    by_cases h2 : col % 2 = 0
    · rw [if_pos h2]; exact zero_mul_fin (hx h1)
    · rw [if_neg h2]; exact zero_mul_fin (isFin_mul (hx h1) (hx h1))
  · rw [if_neg h1]
    split_ifs <;> simp [Num.zero_def]

theorem zero_mul_not_fin {x : Num} (h : x.isFin = false) : Num.fin 0 * x = .nan := by
  cases x <;> simp [Num.isFin] at h <;> simp [Num.mul_def, Num.mul, Num.mulFin]

theorem nan_sum {l : List Num} (h : .nan ∈ l) : l.sum = .nan := by
  induction l with
  | nil => simp at h
  | cons x l ih =>
    rcases List.mem_cons.1 h with rfl | h
    · simp
    · simp [ih h]

/-- Leaving out rows that add nothing to a bin. -/
theorem binTotal_filter (H : HistDef) (rows : List Row) (p : Row → Bool) (gk : List Key) (idx : List ℕ) (col : ℕ)
    (h : ∀ r ∈ rows, p r = false → r.lands H gk idx = true → r.adds H col = 0) :
    binTotal H rows gk idx col = binTotal H (rows.filter p) gk idx col := by
  unfold binTotal
  induction rows with
  | nil => rfl
  | cons r rows ih =>
    have ih := ih (fun r hr => h r (List.mem_cons_of_mem _ hr))
    cases hp : p r
    · rw [List.filter_cons (p := p), hp, List.filter_cons]
      cases hl : r.lands H gk idx
      · simpa using ih
      · simpa [h r List.mem_cons_self hp hl] using ih
    · rw [List.filter_cons (p := p), hp, List.filter_cons]
      simp only [if_true, List.filter_cons]
      cases hl : r.lands H gk idx
      · simpa using ih
      · simp only [if_true, List.map_cons, List.sum_cons, ih]

/-- **C15**, with any numbers: rows whose weight is NaN add nothing to the sums of weights and squared
weights, and nothing to a profile whose value is finite in all of these rows.  (The other rows may have
any values.)  What is missing does not hold: `C15_refuted`. -/
theorem C15_nan_weight_partial (H : HistDef) (hw : H.wkind = .expr) (st : State H) (hg : Good H st) (rows : List Row)
    (hf : Fillable H rows) :
    ∃ s s', fill H st rows = .ok s ∧ fill H st (rows.filter (fun r => !r.w.isnan)) = .ok s' ∧
      ∀ gk, gk.length = H.groups.length → ∀ idx, H.Cell idx →
        (∀ col, 2 * H.nprof ≤ col → read H s gk idx col = read H s' gk idx col) ∧
        ∀ k < H.nprof, (∀ r ∈ rows, r.w = .nan → r.lands H gk idx = true → (r.xs.getD k 0).isFin = true) →
          read H s gk idx (2 * k) = read H s' gk idx (2 * k) ∧
          read H s gk idx (2 * k + 1) = read H s' gk idx (2 * k + 1) := by
  obtain ⟨s, h1, _, h2⟩ := C94_sum H st hg rows hf
  obtain ⟨s', k1, _, k2⟩ := C94_sum H st hg (rows.filter (fun r => !r.w.isnan))
    ⟨fun r hr => hf.ok r (List.mem_of_mem_filter hr), hf.prof.imp id (fun h r hr => h r (List.mem_of_mem_filter hr))⟩
  have hz : ∀ r : Row, (!r.w.isnan) = false → r.w = .nan ∧ r.weight H.wkind = .fin 0 := by
    intro r hr
    have hn : r.w = .nan := by
      obtain ⟨g, f, xs, w⟩ := r
      cases w <;> simp [Num.isnan] at hr
      rfl
    exact ⟨hn, by rw [hw, Row.weight, if_pos hn]⟩
  refine ⟨s, s', h1, k1, fun gk hgk idx hidx => ⟨fun col hcol => ?_, fun k hk hx => ⟨?_, ?_⟩⟩⟩
  all_goals
    rw [h2 gk hgk idx hidx _, k2 gk hgk idx hidx _]
    congr 1
    apply binTotal_filter
    intro r hr hn hl
    apply adds_zero H r (hz r hn).2
    intro hcol'
  · omega
  · rw [show 2 * k / 2 = k by omega]; exact hx r hr (hz r hn).1 hl
  · rw [show (2 * k + 1) / 2 = k by omega]; exact hx r hr (hz r hn).1 hl

example : ∃ s s', fill exF none [exFRow (1/2) (.fin 4) .nan (.fin 2), exFRow 1 .pinf (.fin 1) .nan,
      exFRow (1/3) .ninf (.fin 3) (.fin 1), exFRow (3/2) (.fin 5) (.fin 6) .pinf] = .ok s ∧
    fill exF none [exFRow (1/2) (.fin 4) .nan (.fin 2),
      exFRow (1/3) .ninf (.fin 3) (.fin 1), exFRow (3/2) (.fin 5) (.fin 6) .pinf] = .ok s' ∧
    read exF s [] [2] 4 = read exF s' [] [2] 4 ∧ read exF s [] [2] 2 = read exF s' [] [2] 2 := by
  obtain ⟨s, s', h1, h2, h3⟩ := C15_nan_weight_partial exF rfl none trivial _ exF_fillable
  have h := h3 [] rfl [2] (.cons (by decide) .nil)
  exact ⟨s, s', h1, h2, h.1 4 (by decide), (h.2 1 (by decide) (by decide +kernel)).1⟩

/-- **C15** does not hold for profiles: a row whose weight is NaN (or zero) and whose value of a profile
is NaN or infinite makes the sums of that profile in its bin NaN, whatever else is filled. -/
theorem C15_refuted_in_general (H : HistDef) (hw : H.wkind = .expr) (st : State H) (hg : Good H st) (rows : List Row)
    (hf : Fillable H rows) (r : Row) (hr : r ∈ rows) (hn : r.w = .nan ∨ r.w = .fin 0) (gk : List Key) (idx : List ℕ)
    (hgk : gk.length = H.groups.length) (hidx : H.Cell idx) (hl : r.lands H gk idx = true) (k : ℕ) (hk : k < H.nprof)
    (hx : (r.xs.getD k 0).isFin = false) :
    ∃ s, fill H st rows = .ok s ∧ read H s gk idx (2 * k) = .nan ∧ read H s gk idx (2 * k + 1) = .nan := by
  obtain ⟨s, h1, _, h2⟩ := C94_sum H st hg rows hf
  have hz : r.weight H.wkind = .fin 0 := by
    rw [hw, Row.weight]
    rcases hn with h | h
    · rw [if_pos h]
    · rw [h]; rfl
  have hsq : (r.xs.getD k 0 * r.xs.getD k 0).isFin = false := by
    cases hxx : r.xs.getD k 0 <;> rw [hxx] at hx <;> first | rfl | cases hx
  refine ⟨s, h1, ?_, ?_⟩
  · rw [h2 gk hgk idx hidx _]
    have : binTotal H rows gk idx (2 * k) = .nan := by
      apply nan_sum
      refine List.mem_map.2 ⟨r, List.mem_filter.2 ⟨hr, hl⟩, ?_⟩
      unfold Row.adds
      rw [if_pos (by omega), if_pos (by omega), hz, show 2 * k / 2 = k by omega, zero_mul_not_fin hx]
    rw [this, Num.add_nan]
  · rw [h2 gk hgk idx hidx _]
    have : binTotal H rows gk idx (2 * k + 1) = .nan := by
      apply nan_sum
      refine List.mem_map.2 ⟨r, List.mem_filter.2 ⟨hr, hl⟩, ?_⟩
      unfold Row.adds
      rw [if_pos (by omega), if_neg (by omega), hz, show (2 * k + 1) / 2 = k by omega, zero_mul_not_fin hsq]
    rw [this, Num.add_nan]

example : ∃ s, fill exF none [exFRow (1/2) (.fin 4) .nan (.fin 2), exFRow 1 .pinf (.fin 1) .nan,
      exFRow (1/3) .ninf (.fin 3) (.fin 1), exFRow (3/2) (.fin 5) (.fin 6) .pinf] = .ok s ∧
    read exF s [] [2] 0 = .nan ∧ read exF s [] [2] 1 = .nan :=
  C15_refuted_in_general exF rfl none trivial _ exF_fillable (exFRow 1 .pinf (.fin 1) .nan) (by simp) (Or.inl rfl) [] [2] rfl
    (.cons (by decide) .nil) (by decide +kernel) 0 (by decide) rfl

/-- **C15** does not hold: filling the row `x = 1, y = NaN, weight NaN` besides `x = 1, y = 3` is not
filling the second alone. -/
theorem C15_refuted : ¬ ∀ (H : HistDef) (rows : List Row), H.wkind = .expr → Fillable H rows →
    ∀ s s', fill H none rows = .ok s → fill H none (rows.filter (fun r => !r.w.isnan)) = .ok s' →
    ∀ idx, H.Cell idx → ∀ col, read H s [] idx col = read H s' [] idx col := by
  intro h
  have hf : Fillable exF [exFRow 1 .nan (.fin 0) .nan, exFRow 1 (.fin 3) (.fin 0) (.fin 1)] := by
    refine ⟨?_, Or.inr ?_⟩
    · intro r hr
      simp at hr
      rcases hr with rfl | rfl <;> exact exFRow_ok _ _ _ _ (by norm_num)
    · intro r hr
      simp at hr
      rcases hr with rfl | rfl <;> exact exFRow_in _ _ _ _ 2 (by decide +kernel)
  have h := h exF _ rfl hf
  have e : (match fill exF none [exFRow 1 .nan (.fin 0) .nan, exFRow 1 (.fin 3) (.fin 0) (.fin 1)],
      fill exF none [exFRow 1 (.fin 3) (.fin 0) (.fin 1)] with
      | .ok s, .ok s' => decide (read exF s [] [2] 0 = .nan ∧ read exF s' [] [2] 0 = .fin 3)
      | _, _ => false) = true := by decide +kernel
  obtain ⟨s, k1, _, -⟩ := C94_sum exF none trivial _ hf
  have hff : [exFRow 1 .nan (.fin 0) .nan, exFRow 1 (.fin 3) (.fin 0) (.fin 1)].filter (fun r => !r.w.isnan) =
    [exFRow 1 (.fin 3) (.fin 0) (.fin 1)] := by decide +kernel
  rw [hff] at h
  rw [k1] at e
  cases k2 : fill exF none [exFRow 1 (.fin 3) (.fin 0) (.fin 1)] with
  | error e' => rw [k2] at e; cases e
  | ok s' =>
    rw [k2] at e
    simp only [decide_eq_true_eq] at e
    have := h s s' k1 k2 [2] (.cons (by decide) .nil) 0
    rw [e.1, e.2] at this
    cases this

/-! ## C16 -/

/-- hist.py:221-250: with a filter, the weight is `where(filter, 1, 0) * weight`, or
`where(filter, 1, 0)` if there is no weight. -/
def filterWeight (pass : Row → Bool) (weighted : Bool) (r : Row) : Row :=
  { r with w := if weighted then (if pass r then .fin 1 else .fin 0) * r.w else (if pass r then .fin 1 else .fin 0) }

/-- **C16**, with any numbers: with a filter, rows that do not pass add nothing to the sums of weights and
squared weights (also if their weight is NaN or infinite), and nothing to a profile whose value is finite
in all of these rows; rows that pass add what they add without the filter.  What is missing does not
hold: `C16_refuted_profile`. -/
theorem C16_numbers_partial (H : HistDef) (weighted : Bool) (hw : H.wkind = .expr) (rows : List Row) (pass : Row → Bool)
    (hf : Fillable H rows) :
    ∃ (s : State H) (s' : State (unfiltered H weighted)), fill H none (rows.map (filterWeight pass weighted)) = .ok s ∧
      fill (unfiltered H weighted) none (rows.filter pass) = .ok s' ∧
      ∀ gk, gk.length = H.groups.length → ∀ idx, H.Cell idx →
        read H s gk idx (2 * H.nprof) = read (unfiltered H weighted) s' gk idx (2 * H.nprof) ∧
        read H s gk idx (2 * H.nprof + 1) = read (unfiltered H weighted) s' gk idx (2 * H.nprof + b2n weighted) ∧
        ∀ k < H.nprof, (∀ r ∈ rows, pass r = false → r.lands H gk idx = true → (r.xs.getD k 0).isFin = true) →
          read H s gk idx (2 * k) = read (unfiltered H weighted) s' gk idx (2 * k) ∧
          read H s gk idx (2 * k + 1) = read (unfiltered H weighted) s' gk idx (2 * k + 1) := by
  obtain ⟨s, h1, _, h2⟩ := C94_sum H none trivial (rows.map (filterWeight pass weighted)) (by
    refine ⟨?_, hf.prof.imp id ?_⟩
    · intro r hr
      obtain ⟨r, hr', rfl⟩ := List.mem_map.1 hr
      obtain ⟨a, b, c⟩ := hf.ok r hr'
      exact ⟨a, b, c⟩
    · intro h r hr
      obtain ⟨r, hr', rfl⟩ := List.mem_map.1 hr
      exact h r hr')
  obtain ⟨s', k1, _, k2⟩ := C94_sum (unfiltered H weighted) none trivial (rows.filter pass) (by
    refine ⟨?_, hf.prof.imp id ?_⟩
    · intro r hr
      obtain ⟨a, b, c⟩ := hf.ok r (List.mem_of_mem_filter hr)
      exact ⟨a, b, c⟩
    · intro h r hr
      exact h r (List.mem_of_mem_filter hr))
  refine ⟨s, s', h1, k1, fun gk hgk idx hidx => ?_⟩
  have hwt : ∀ r, pass r = true → (filterWeight pass weighted r).weight .expr = r.weight (unfiltered H weighted).wkind := by
    rintro ⟨g, f, xs, w⟩ hp
    cases weighted
    · simp [filterWeight, hp, Row.weight, unfiltered]
    · simp only [filterWeight, hp, if_true, Row.weight, unfiltered]
      have : Num.fin 1 * w = w := Num.num_one_mul w
      rw [this]
  have hwf : ∀ r, pass r = false → (filterWeight pass weighted r).weight .expr = .fin 0 := by
    rintro ⟨g, f, xs, w⟩ hp
    cases weighted
    · simp [filterWeight, hp, Row.weight]
    · cases w <;> simp [filterWeight, hp, Row.weight, Num.mul_def, Num.mul, Num.mulFin]
  have gen : ∀ (c c' : ℕ), (∀ r, pass r = true → (filterWeight pass weighted r).adds H c = r.adds (unfiltered H weighted) c') →
      (∀ r ∈ rows, pass r = false → r.lands H gk idx = true → (filterWeight pass weighted r).adds H c = 0) →
      binTotal H (rows.map (filterWeight pass weighted)) gk idx c = binTotal (unfiltered H weighted) (rows.filter pass) gk idx c' := by
    intro c c' ht hff
    clear h1 h2 k1 k2 hf
    unfold binTotal
    induction rows with
    | nil => rfl
    | cons r rows ih =>
      have ih := ih (fun r hr => hff r (List.mem_cons_of_mem _ hr))
      have e1 : Row.lands H gk idx (filterWeight pass weighted r) = Row.lands H gk idx r := rfl
      have e2 : Row.lands (unfiltered H weighted) gk idx r = Row.lands H gk idx r := rfl
      rw [List.map_cons, List.filter_cons, e1, List.filter_cons (p := pass)]
      cases hp : pass r
      · cases hl : Row.lands H gk idx r
        · simpa using ih
        · simpa [hff r List.mem_cons_self hp hl] using ih
      · simp only [if_true]
        rw [List.filter_cons, e2]
        cases hl : Row.lands H gk idx r
        · simpa using ih
        · simp only [if_true, List.map_cons, List.sum_cons]
          rw [ih, ht r hp]
  have hnp : (unfiltered H weighted).nprof = H.nprof := rfl
  have hxs : ∀ r, (filterWeight pass weighted r).xs = r.xs := fun _ => rfl
  refine ⟨?_, ?_, fun k hk hx => ⟨?_, ?_⟩⟩
  · rw [h2 gk hgk idx hidx _, k2 gk hgk idx hidx _, gen _ (2 * H.nprof)]
    · rfl
    · intro r hp
      unfold Row.adds
      rw [if_neg (by omega), if_pos rfl, hnp, if_neg (by omega), if_pos rfl, hw, hwt r hp]
    · intro r _ hp _
      exact adds_zero H _ (by rw [hw]; exact hwf r hp) _ (by omega)
  · rw [h2 gk hgk idx hidx _, k2 gk hgk idx hidx _, gen _ (2 * H.nprof + b2n weighted)]
    · rfl
    · intro r hp
      unfold Row.adds
      have c1 : ¬ 2 * H.nprof + 1 < 2 * H.nprof := by omega
      have c2 : ¬ 2 * H.nprof + 1 = 2 * H.nprof := by omega
      have c3 : 2 * H.nprof + 1 = 2 * H.nprof + 1 ∧ H.wkind ≠ .none := ⟨rfl, by rw [hw]; decide⟩
      have c4 : ¬ 2 * H.nprof + b2n weighted < 2 * H.nprof := by omega
      rw [hnp, if_neg c1, if_neg c2, if_pos c3, if_neg c4, hw, hwt r hp]
      cases weighted
      · simp [unfiltered, b2n, Row.weight]
      · simp [unfiltered, b2n]
    · intro r _ hp _
      exact adds_zero H _ (by rw [hw]; exact hwf r hp) _ (by omega)
  · rw [h2 gk hgk idx hidx _, k2 gk hgk idx hidx _, gen _ (2 * k)]
    · rfl
    · intro r hp
      unfold Row.adds
      have c1 : 2 * k < 2 * H.nprof := by omega
      rw [hnp, if_pos c1, if_pos c1, hw, hwt r hp, hxs]
    · intro r hr hp hl
      refine adds_zero H _ (by rw [hw]; exact hwf r hp) _ (fun _ => ?_)
      rw [show 2 * k / 2 = k by omega, hxs]
      exact hx r hr hp hl
  · rw [h2 gk hgk idx hidx _, k2 gk hgk idx hidx _, gen _ (2 * k + 1)]
    · rfl
    · intro r hp
      unfold Row.adds
      have c1 : 2 * k + 1 < 2 * H.nprof := by omega
      rw [hnp, if_pos c1, if_pos c1, hw, hwt r hp, hxs]
    · intro r hr hp hl
      refine adds_zero H _ (by rw [hw]; exact hwf r hp) _ (fun _ => ?_)
      rw [show (2 * k + 1) / 2 = k by omega, hxs]
      exact hx r hr hp hl

example : ∃ (s : State exF) (s' : State (unfiltered exF true)),
    fill exF none ([exFRow (1/2) (.fin 4) .nan (.fin 2), exFRow 1 .pinf (.fin 1) .nan,
      exFRow (1/3) .ninf (.fin 3) (.fin 1), exFRow (3/2) (.fin 5) (.fin 6) .pinf].map
        (filterWeight (fun r => r.w.isFin) true)) = .ok s ∧
    fill (unfiltered exF true) none [exFRow (1/2) (.fin 4) .nan (.fin 2), exFRow (1/3) .ninf (.fin 3) (.fin 1)] = .ok s' ∧
    read exF s [] [2] 4 = read (unfiltered exF true) s' [] [2] 4 ∧
    read exF s [] [2] 2 = read (unfiltered exF true) s' [] [2] 2 := by
  obtain ⟨s, s', h1, h2, h3⟩ := C16_numbers_partial exF true rfl _ (fun r => r.w.isFin) exF_fillable
  have h := h3 [] rfl [2] (.cons (by decide) .nil)
  exact ⟨s, s', h1, h2, h.1, (h.2.2 1 (by decide) (by decide +kernel)).1⟩

/-- **C16** does not hold for profiles: a row that does not pass the filter and whose value of a profile
is NaN or infinite makes the sums of that profile in its bin NaN, for any histogram, weights and other
rows.  A filter can therefore not be used to keep such values out of a profile. -/
theorem C16_refuted_profile (H : HistDef) (weighted : Bool) (hw : H.wkind = .expr) (rows : List Row) (pass : Row → Bool)
    (hf : Fillable H rows) (r : Row) (hr : r ∈ rows) (hn : pass r = false) (gk : List Key) (idx : List ℕ)
    (hgk : gk.length = H.groups.length) (hidx : H.Cell idx) (hl : r.lands H gk idx = true) (k : ℕ) (hk : k < H.nprof)
    (hx : (r.xs.getD k 0).isFin = false) :
    ∃ s, fill H none (rows.map (filterWeight pass weighted)) = .ok s ∧
      read H s gk idx (2 * k) = .nan ∧ read H s gk idx (2 * k + 1) = .nan := by
  refine C15_refuted_in_general H hw none trivial _ ?_ (filterWeight pass weighted r) (List.mem_map_of_mem hr) ?_ gk idx hgk hidx hl k hk hx
  · refine ⟨?_, hf.prof.imp id ?_⟩
    · intro r hr
      obtain ⟨r, hr', rfl⟩ := List.mem_map.1 hr
      obtain ⟨a, b, c⟩ := hf.ok r hr'
      exact ⟨a, b, c⟩
    · intro h r hr
      obtain ⟨r, hr', rfl⟩ := List.mem_map.1 hr
      exact h r hr'
  · obtain ⟨g, f, xs, w⟩ := r
    cases weighted
    · simp [filterWeight, hn]
    · cases w <;> simp [filterWeight, hn, Num.mul_def, Num.mul, Num.mulFin]

/-- `Hist(bin("x", 2, 0, 2), profile("y"), filter="y > 0")` with `x = 1, 1` and `y = NaN, 3`: the mean of
`y` is lost, although the row with NaN does not pass. -/
example : (match fill ⟨[], [.bin ⟨2, 0, 2, true, true, true, true⟩], 1, .expr⟩ none
      ([⟨[], [.num (.fin 1)], [.nan], .fin 1⟩, ⟨[], [.num (.fin 1)], [.fin 3], .fin 1⟩].map
        (filterWeight (fun r => Num.lt (.fin 0) (r.xs.getD 0 0)) false)) with
    | .ok s => (List.range 4).map (read ⟨[], [.bin ⟨2, 0, 2, true, true, true, true⟩], 1, .expr⟩ s [] [2])
    | .error _ => []) = [.nan, .nan, .fin 1, .fin 1] := by decide +kernel

/-! ## The sums and products are those of IEEE 754 -/

theorem ieeeProd_eq (a b : Num) : ieeeProd a b = a * b := by
  cases a <;> cases b <;>
    simp only [ieeeProd, Num.isFin, finPart, signOf, Num.mul_def, Num.mul, Num.mulFin] <;>
    split_ifs <;> simp_all

theorem ieeeSum_eq : ∀ l : List Num, ieeeSum l = l.sum
  | [] => by simp [ieeeSum, Num.zero_def]
  | a :: l => by
    rw [List.sum_cons, ← ieeeSum_eq l]
    cases a <;> simp only [ieeeSum, List.mem_cons, List.map_cons, List.sum_cons, finPart, Num.add_def] <;>
      split_ifs <;> simp_all [Num.add]

theorem addsIEEE_eq (H : HistDef) (r : Row) (col : ℕ) : r.addsIEEE H col = r.adds H col := by
  simp only [Row.addsIEEE, Row.adds, ieeeProd_eq, Num.zero_def]

/-- **C94** in terms of IEEE 754: after filling a new histogram, each bin and column has the IEEE sum of what
its rows add (`ieeeSum`: NaN if one of them is NaN or if infinities of both signs occur, …), and what a row
adds to the columns of a profile is the IEEE product of its weight with the value or its square. -/
theorem C94_ieee (H : HistDef) (rows : List Row) (hf : Fillable H rows) :
    ∃ st', fill H none rows = .ok st' ∧
      ∀ gk, gk.length = H.groups.length → ∀ idx, H.Cell idx → ∀ col,
        read H st' gk idx col = ieeeSum ((rows.filter (Row.lands H gk idx)).map fun r => r.addsIEEE H col) := by
  obtain ⟨s, h1, _, h2⟩ := C94_sum H none trivial rows hf
  refine ⟨s, h1, fun gk hgk idx hidx col => ?_⟩
  rw [h2 gk hgk idx hidx col, ieeeSum_eq, binTotal]
  simp only [addsIEEE_eq, read]
  exact zero_add _

/-- Two rows of a bin with infinite profile values of both signs. -/
example : ieeeSum [.pinf, .fin 3, .ninf] = .nan ∧ ieeeSum [.fin 2, .ninf] = .ninf ∧
    ieeeProd (.fin (-2)) .ninf = .pinf ∧ ieeeProd (.fin 0) .pinf = .nan := by decide +kernel

end Flt

end Verif
