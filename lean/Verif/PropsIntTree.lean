import Verif.IntTreeLemmas
import Verif.PropsTree
import Verif.PropsBinning

/-!
# C124: integer columns of limited width

Property theorems.  `computedI` parses an expression and calculates its tree on one row of integer columns of a NumPy type.
-/

namespace Verif

/-- What filling computes for an expression on one row of integer columns. -/
def computedI (ty : IType) (more : More) (field : String → ℤ) (s : Py) : Except Err IVal := do
  let e ← parseExpr (plainScope recognized) s
  let t ← totree e
  calculate (intLib ty more) (intSymbols field) t.toT

/-! ## Specification -/

/-- Sums, differences and products of fields and integers, in which no two factors both have a constant term (unless both are numbers). -/
def Py.integral : Py → Bool
  | .num q => decide (q.den = 1)
  | .name _ => true
  | .neg a => a.integral
  | .plus a => a.integral
  | .bin .add a b => a.integral && b.integral
  | .bin .sub a b => a.integral && b.integral
  | .bin .mul a b => a.integral && b.integral && ((a.closed && b.closed) || decide (a.constTerm * b.constTerm = 0))
  | _ => false

/-- The integer that is written. -/
def Py.intVal (field : String → ℤ) : Py → ℤ
  | .num q => q.num
  | .name s => field s
  | .neg a => -a.intVal field
  | .plus a => a.intVal field
  | .bin .add a b => a.intVal field + b.intVal field
  | .bin .sub a b => a.intVal field - b.intVal field
  | .bin .mul a b => a.intVal field * b.intVal field
  | _ => 0

/-! ## Lemmas -/

theorem integral_facts {env : RowEnv} {field : String → ℤ} (he : env.field = intField field) : ∀ s : Py, s.integral = true →
    s.divFree recognized = true ∧ s.runs inLibrary = true ∧ s.AllDef env ∧ Py.val env env.field s = some (s.intVal field : ℚ)
  | .num q, h => by
    refine ⟨rfl, rfl, trivial, ?_⟩
    have h : q.den = 1 := by simpa [Py.integral] using h
    simp only [Py.val, Py.intVal]
    rw [← int_of_den h]
  | .name s, _ => ⟨rfl, rfl, trivial, by simp only [Py.val, Py.intVal, he, intField]⟩
  | .neg a, h => by
    obtain ⟨h1, h2, h3, h4⟩ := integral_facts he a (by simpa [Py.integral] using h)
    refine ⟨by simpa [Py.divFree] using h1, by simpa [Py.runs] using h2, ⟨h3, by rw [h4]; rfl⟩, ?_⟩
    simp only [Py.val, Py.intVal, h4]
    simp
  | .plus a, h => by
    obtain ⟨h1, h2, h3, h4⟩ := integral_facts he a (by simpa [Py.integral] using h)
    exact ⟨by simpa [Py.divFree] using h1, by simpa [Py.runs] using h2, h3, by simpa [Py.val, Py.intVal] using h4⟩
  | .bin op a b, h => by
    have key : a.integral = true ∧ b.integral = true := by
      cases op <;> simp [Py.integral] at h <;> first | exact h | exact h.1
    obtain ⟨h1, h2, h3, h4⟩ := integral_facts he a key.1
    obtain ⟨g1, g2, g3, g4⟩ := integral_facts he b key.2
    have hv : Py.val env env.field (.bin op a b) = some ((Py.bin op a b).intVal field : ℚ) := by
      simp only [Py.val, h4, g4]
      cases op <;> first
        | (exfalso; simp [Py.integral] at h; done)
        | (simp [PyOp.sem, Py.intVal]; done)
    refine ⟨?_, ?_, ⟨h3, g3, by rw [h4]; rfl, by rw [g4]; rfl, by rw [hv]; rfl⟩, hv⟩
    · cases op <;> simp [Py.integral] at h <;> simp [Py.divFree, h1, g1]
      exact h.2
    · cases op <;> simp [Py.integral] at h <;> simp [Py.runs, h2, g2]
  | .set _, h => by simp [Py.integral] at h
  | .invert _, h => by simp [Py.integral] at h
  | .compare _ _ _, h => by simp [Py.integral] at h
  | .lnot _, h => by simp [Py.integral] at h
  | .land _, h => by simp [Py.integral] at h
  | .lor _, h => by simp [Py.integral] at h
  | .call _ _, h => by simp [Py.integral] at h

theorem constTerm_int : ∀ s : Py, s.integral = true → ∃ z : ℤ, s.constTerm = z
  | .num q, h => ⟨q.num, by
      have h : q.den = 1 := by simpa [Py.integral] using h
      exact int_of_den h⟩
  | .name s, _ => ⟨0, by simp [Py.constTerm]⟩
  | .neg a, h => by
    obtain ⟨z, hz⟩ := constTerm_int a (by simpa [Py.integral] using h)
    exact ⟨-z, by simp [Py.constTerm, hz]⟩
  | .plus a, h => by
    obtain ⟨z, hz⟩ := constTerm_int a (by simpa [Py.integral] using h)
    exact ⟨z, by simp [Py.constTerm, hz]⟩
  | .bin op a b, h => by
    have key : a.integral = true ∧ b.integral = true := by
      cases op <;> simp [Py.integral] at h <;> first | exact h | exact h.1
    obtain ⟨z, hz⟩ := constTerm_int a key.1
    obtain ⟨w, hw⟩ := constTerm_int b key.2
    cases op <;> first
      | (exfalso; simp [Py.integral] at h; done)
      | exact ⟨z + w, by simp only [Py.constTerm, hz, hw]; push_cast; rfl⟩
      | exact ⟨z - w, by simp only [Py.constTerm, hz, hw]; push_cast; rfl⟩
      | exact ⟨z * w, by simp only [Py.constTerm, hz, hw]; push_cast; rfl⟩
  | .set _, h => by simp [Py.integral] at h
  | .invert _, h => by simp [Py.integral] at h
  | .compare _ _ _, h => by simp [Py.integral] at h
  | .lnot _, h => by simp [Py.integral] at h
  | .land _, h => by simp [Py.integral] at h
  | .lor _, h => by simp [Py.integral] at h
  | .call _ _, h => by simp [Py.integral] at h

theorem integral_parsed (known : String → Bool) : ∀ s : Py, s.integral = true → ∃ e, Parsed known s e ∧ e.asPoly.IntFlat
  | .num q, h => by
    refine ⟨E.const q, ⟨by simp only [Py.parse], good_const q, by rw [asPoly_const]; rfl, fun _ => rfl, fun h => by simp [Py.nonConst] at h⟩, ?_⟩
    rw [asPoly_const]
    exact intFlat_of_lists ⟨q.num, int_of_den (by simpa [Py.integral] using h)⟩ (by simp) (by simp)
  | .name n, _ => by
    refine ⟨E.name n, parsed_basic (by simp [Py.parse, plainScope]) rfl rfl rfl, ?_⟩
    rw [basic_asPoly rfl]
    refine intFlat_of_lists ⟨0, by simp⟩ ?_ (by simp)
    intro m hm
    obtain rfl := List.mem_singleton.1 hm
    exact ⟨⟨rfl, fun x hx => ⟨n, by simpa [Mono.key] using hx⟩⟩, 1, by simp⟩
  | .neg a, h => by
    obtain ⟨l, pl, hl⟩ := integral_parsed known a (by simpa [Py.integral] using h)
    obtain ⟨e, e1, e2, e3, e4⟩ := unaryMinus_good pl.good
    have hs : (Py.neg a).divFree known = true := integral_divFree known _ h
    obtain ⟨⟨e', p'⟩, _⟩ := parse_divFree known (.neg a) hs
    have : Py.parse (plainScope known) false (.neg a) = .ok e := by simp only [Py.parse, pl.ok]; exact e1
    rw [p'.ok] at this
    cases this
    refine ⟨_, p', ⟨?_, fun k => ?_, fun k hk => ?_⟩⟩
    · obtain ⟨z, hz⟩ := hl.c
      exact ⟨-z, by rw [e3, hz]; push_cast; rfl⟩
    · obtain ⟨z, hz⟩ := hl.net k
      exact ⟨-z, by rw [e4, hz]; push_cast; rfl⟩
    · exact hl.key k fun h0 => hk (by rw [e4, h0, neg_zero])
  | .plus a, h => by
    obtain ⟨l, pl, hl⟩ := integral_parsed known a (by simpa [Py.integral] using h)
    exact ⟨l, ⟨by simp only [Py.parse, pl.ok], pl.good, pl.const, fun hc => pl.closed hc, fun hc => pl.dep hc⟩, hl⟩
  | .bin op a b, h => by
    have key : a.integral = true ∧ b.integral = true := by
      cases op <;> simp [Py.integral] at h <;> first | exact h | exact h.1
    obtain ⟨l, pl, hl⟩ := integral_parsed known a key.1
    obtain ⟨r, pr, hr⟩ := integral_parsed known b key.2
    have hop : op = .add ∨ op = .sub ∨ (op = .mul ∧ ((a.closed = true ∧ b.closed = true) ∨ a.constTerm * b.constTerm = 0)) := by
      cases op <;> simp [Py.integral] at h ⊢
      exact h.2
    obtain ⟨⟨e, pe, hn⟩, _⟩ := parsed_ring pl pr hop
    have hc : ∃ z : ℤ, e.asPoly.c = z := by rw [pe.const]; exact constTerm_int _ h
    suffices H : (∀ k, ∃ z : ℤ, e.asPoly.net k = z) ∧ ∀ k, e.asPoly.net k ≠ 0 → FlatKey k from ⟨e, pe, hc, H.1, H.2⟩
    rcases hop with rfl | rfl | ⟨rfl, _⟩
    · simp only [if_true] at hn
      refine ⟨fun k => ?_, fun k hk => ?_⟩
      · obtain ⟨z, hz⟩ := hl.net k
        obtain ⟨w, hw⟩ := hr.net k
        exact ⟨z + w, by rw [hn, hz, hw]; push_cast; rfl⟩
      · by_cases h0 : l.asPoly.net k = 0
        · exact hr.key k fun h1 => hk (by rw [hn, h0, h1, add_zero])
        · exact hl.key k h0
    · simp only [reduceCtorEq, if_false, if_true] at hn
      refine ⟨fun k => ?_, fun k hk => ?_⟩
      · obtain ⟨z, hz⟩ := hl.net k
        obtain ⟨w, hw⟩ := hr.net k
        exact ⟨z - w, by rw [hn, hz, hw]; push_cast; rfl⟩
      · by_cases h0 : l.asPoly.net k = 0
        · exact hr.key k fun h1 => hk (by rw [hn, h0, h1, sub_zero])
        · exact hl.key k h0
    · simp only [reduceCtorEq, if_false] at hn
      have d := distArg_intFlat hl hr pl.good.canon pr.good.canon
      exact ⟨fun k => by rw [hn]; exact d.net k, fun k hk => d.key k (by rw [← hn]; exact hk)⟩
  | .set _, h => by simp [Py.integral] at h
  | .invert _, h => by simp [Py.integral] at h
  | .compare _ _ _, h => by simp [Py.integral] at h
  | .lnot _, h => by simp [Py.integral] at h
  | .land _, h => by simp [Py.integral] at h
  | .lor _, h => by simp [Py.integral] at h
  | .call _ _, h => by simp [Py.integral] at h
where
  integral_divFree (known : String → Bool) : ∀ s : Py, s.integral = true → s.divFree known = true
  | .num _, _ => rfl
  | .name _, _ => rfl
  | .neg a, h => by
    have := integral_divFree known a (by simpa [Py.integral] using h)
    simpa [Py.divFree] using this
  | .plus a, h => by
    have := integral_divFree known a (by simpa [Py.integral] using h)
    simpa [Py.divFree] using this
  | .bin op a b, h => by
    have key : a.integral = true ∧ b.integral = true := by
      cases op <;> simp [Py.integral] at h <;> first | exact h | exact h.1
    have h1 := integral_divFree known a key.1
    have g1 := integral_divFree known b key.2
    cases op <;> simp [Py.integral] at h <;> simp [Py.divFree, h1, g1]
    exact h.2
  | .set _, h => by simp [Py.integral] at h
  | .invert _, h => by simp [Py.integral] at h
  | .compare _ _ _, h => by simp [Py.integral] at h
  | .lnot _, h => by simp [Py.integral] at h
  | .land _, h => by simp [Py.integral] at h
  | .lor _, h => by simp [Py.integral] at h
  | .call _ _, h => by simp [Py.integral] at h

/-! ## C124: sums and products -/

/-- **C124** for sums, differences and products of integer columns: provided that the collected constants of the expression are numbers of the type, the
computed value is the written integer, reduced to the type.  An expression in which all columns cancel gives the integer itself.  Missing: constants that do
not fit (`C124_refuted_collected`, `C124_refuted_unsigned`) and quotients (`C124_refuted_quotient`). -/
theorem C124_wraps_partial (ty : IType) (field : String → ℤ) (hfield : ∀ s, ty.has (field s)) (s : Py) (h : s.integral = true)
    (hf : ∀ e, parseExpr (plainScope recognized) s = .ok e → e.All (FitHead ty)) :
    computedI ty treeMore field s = .ok (.int (ty.wrap (s.intVal field))) ∨ computedI ty treeMore field s = .ok (.py (s.intVal field)) := by
  obtain ⟨h1, h2, h3, h4⟩ := integral_facts (env := treeEnv treeMore (intField field)) rfl s h
  obtain ⟨e, p, hflat⟩ := integral_parsed recognized s h
  obtain ⟨e', he', hv⟩ := C48_divFree (treeMore_pow (intField field)) recognized s h1 h3
  have he : parseExpr (plainScope recognized) s = .ok e := parse_false_true p.ok
  rw [he] at he'
  cases he'
  obtain ⟨t, ht, hr⟩ := C52_tree_partial (field := intField field) treeMore_full recognized s e he (.inl h2)
  rw [hv, h4] at hr
  have hc : computedI ty treeMore field s = calculate (intLib ty treeMore) (intSymbols field) t.toT := by
    unfold computedI
    rw [he]
    change (totree e >>= _) = _
    rw [ht]
    rfl
  rw [hc]
  rcases simplify_arr p.good hflat (hf e he) t ht with ⟨z, rfl⟩ | ha
  · right
    have hz : Except.ok (RowVal.num (some (z : ℚ))) = (.ok (.num (some (s.intVal field : ℚ))) : Except Err RowVal) := hr
    have hz : z = s.intVal field := by
      simp only [Except.ok.injEq, RowVal.num.injEq, Option.some.injEq] at hz
      exact_mod_cast hz
    rw [← hz]
    change Except.ok (if ((z : ℚ)).den = 1 then IVal.py ((z : ℚ)).num else .num (some (z : ℚ))) = _
    simp
  · left
    obtain ⟨z, z1, z2⟩ := ha.val (more := treeMore) hfield
    have hz : Except.ok (RowVal.num (some (z : ℚ))) = (.ok (.num (some (s.intVal field : ℚ))) : Except Err RowVal) := z1.symm.trans hr
    have hz : z = s.intVal field := by
      simp only [Except.ok.injEq, RowVal.num.injEq, Option.some.injEq] at hz
      exact_mod_cast hz
    rw [z2, hz]

/-- **C124** for results that fit the type: whatever overflows on the way, and however the parser rearranges the expression, the computed value is the
written integer. -/
theorem C124_exact_partial (ty : IType) (field : String → ℤ) (hfield : ∀ s, ty.has (field s)) (s : Py) (h : s.integral = true)
    (hf : ∀ e, parseExpr (plainScope recognized) s = .ok e → e.All (FitHead ty)) (hfit : ty.has (s.intVal field)) :
    (computedI ty treeMore field s).map IVal.erase = .ok (.num (some (s.intVal field))) := by
  rcases C124_wraps_partial ty field hfield s h hf with e | e
  · rw [e, IType.wrap_of_has hfit]; rfl
  · rw [e]; rfl

/-- The type of NumPy with 8 bits and sign. -/
def int8 : IType := ⟨true, 8⟩

/-- The type of NumPy with 8 bits and without sign. -/
def uint8 : IType := ⟨false, 8⟩

/-- A row of one-byte columns. -/
def byteRow (s : String) : ℤ := if s = "x" then 100 else if s = "y" then 2 else if s = "z" then 50 else 0

theorem byteRow_int8 (s : String) : int8.has (byteRow s) := by
  unfold byteRow
  split_ifs <;> decide

theorem byteRow_uint8 (s : String) : uint8.has (byteRow s) := by
  unfold byteRow
  split_ifs <;> decide

/-- `(x + z) * y - 3*x + 50` with `x = 100`, `y = 2` and `z = 50` is 50, although `x*y` and `3*x` do not fit the type. -/
example : computedI int8 treeMore byteRow
    (.bin .add (.bin .sub (.bin .mul (.bin .add (.name "x") (.name "z")) (.name "y")) (.bin .mul (.num 3) (.name "x"))) (.num 50)) = .ok (.int 50) := by
  decide +kernel

/-- The hypotheses of `C124_exact_partial` for that expression. -/
example :
    let s : Py := .bin .add (.bin .sub (.bin .mul (.bin .add (.name "x") (.name "z")) (.name "y")) (.bin .mul (.num 3) (.name "x"))) (.num 50)
    s.integral = true ∧ int8.has (s.intVal byteRow) ∧ ∃ e, parseExpr (plainScope recognized) s = .ok e ∧ e.All (FitHead int8) := by
  refine ⟨by decide +kernel, by decide +kernel, ?_⟩
  refine ⟨.node (.plus 50) [.node (.times 1) [.name "x", .name "y"] [], .node (.times 1) [.name "y", .name "z"] []] [.node (.times 3) [.name "x"] []],
    by decide +kernel, ?_⟩
  have nm : ∀ n, (E.name n).All (FitHead int8) := fun n => .mk _ _ _ trivial (by simp) (by simp)
  refine .mk _ _ _ (by simp only [FitHead]; decide +kernel) ?_ ?_ <;> intro t ht <;> simp only [List.mem_cons, List.not_mem_nil, or_false] at ht
  · rcases ht with rfl | rfl <;> refine .mk _ _ _ (by simp only [FitHead]; decide +kernel) ?_ (by simp) <;>
      (intro t ht; simp only [List.mem_cons, List.not_mem_nil, or_false] at ht; rcases ht with rfl | rfl <;> exact nm _)
  · subst ht
    refine .mk _ _ _ (by simp only [FitHead]; decide +kernel) ?_ (by simp)
    intro t ht
    obtain rfl := List.mem_singleton.1 ht
    exact nm _

/-- **C124** fails when the parser moves a division: of one-byte columns with `x = 100`, `y = 2` and `z = 50`, `x/z*y` is computed as the product of `x` and
`y`, which overflows, divided by `z`: not 4, but -56/50. -/
theorem C124_refuted_quotient :
    let s : Py := .bin .mul (.bin .div (.name "x") (.name "z")) (.name "y")
    Py.val (treeEnv treeMore (intField byteRow)) (intField byteRow) s = some 4 ∧ computedI int8 treeMore byteRow s = .ok (.num (some (-56 / 50))) := by
  decide +kernel

/-- **C124** fails when a collected constant does not fit the type, although the written ones and the result do: `100*w + 100*w + x` raises for one-byte
columns with `w = 0` and `x = 100`.  (NumPy 1 takes a wider type instead.) -/
theorem C124_refuted_collected :
    let s : Py := .bin .add (.bin .add (.bin .mul (.num 100) (.name "w")) (.bin .mul (.num 100) (.name "w"))) (.name "x")
    int8.has 100 ∧ s.integral = true ∧ s.intVal byteRow = 100 ∧ computedI int8 treeMore byteRow s = .error .valueError := by
  decide +kernel

/-- **C124** fails for a number subtracted from a column without sign, since the parser makes it the addition of a negative number: `x - 5`, which NumPy
calculates for `x = 100`, raises.  (NumPy 1 takes a wider type instead.) -/
theorem C124_refuted_unsigned :
    uint8.has 5 ∧ uint8.has ((Py.bin .sub (.name "x") (.num 5)).intVal byteRow) ∧
    computedI uint8 treeMore byteRow (.bin .sub (.name "x") (.num 5)) = .error .valueError := by
  decide +kernel

/-! ## C124: `intbin` -/

/-- **C124** for `intbin`: an integer of a column of any type is counted in the bin that `keys()` publishes for it, if the offset of the axis and the
shifted value belong to the type and to int32.  Missing: shifted values that overflow (`C124_intbin_overflow`, `C124_refuted_intbin`). -/
theorem C124_intbin_partial (ty : IType) (min max : ℤ) (u o : Bool) (a : IntbinAxis) (ha : IntbinAxis.init min max u o = .ok a) (v : ℤ)
    (hoff : ty.has (b2i u - min)) (hv : ty.has (v + (b2i u - min)))
    (h1 : -2147483648 ≤ v + (b2i u - min)) (h2 : v + (b2i u - min) ≤ 2147483647) :
    ∃ r, a.indexType ty v = .ok r ∧ IndexCorrect a.keys (.fin v) r := by
  refine ⟨a.indexInt v, ?_, C04_intbin_ints_partial min max u o a ha v h1 h2⟩
  unfold IntbinAxis.init at ha
  split at ha
  · cases ha
  · cases ha
    unfold IntbinAxis.indexType IntbinAxis.indexInt
    simp only
    rw [if_pos hoff, IType.wrap_of_has hv]

example : ∃ r, IntbinAxis.indexType ⟨-2, 7, true, false⟩ int8 120 = .ok r ∧ IndexCorrect (IntbinAxis.keys ⟨-2, 7, true, false⟩) (.fin (120 : ℤ)) r :=
  C124_intbin_partial int8 (-2) 7 true false _ (by decide +kernel) 120 (by decide) (by decide) (by decide) (by decide)

/-- **C124** fails for every value of a column with sign that is so large that shifting it overflows: it is counted in the underflow bin, or in none if there
is no underflow bin, whatever bin it belongs to. -/
theorem C124_intbin_overflow (ty : IType) (hs : ty.signed = true) (hb1 : 1 ≤ ty.bits) (hb2 : ty.bits ≤ 32) (a : IntbinAxis) (hmm : a.min ≤ a.max) (v : ℤ)
    (hv : ty.has v) (hoff : ty.has (b2i a.underflow - a.min)) (h : ty.lo + 2 ^ ty.bits ≤ v + (b2i a.underflow - a.min)) :
    a.indexType ty v = .ok (if a.underflow then some 0 else none) := by
  obtain ⟨n, hn⟩ : ∃ n, ty.bits = n + 1 := ⟨ty.bits - 1, by omega⟩
  have hlo : ty.lo = -2 ^ n := by
    unfold IType.lo
    rw [if_pos hs, hn, Nat.add_sub_cancel]
  have hp : (2 : ℤ) ^ ty.bits = 2 * 2 ^ n := by rw [hn, pow_succ]; ring
  have hle : (2 : ℤ) ^ n ≤ 2147483648 := by
    have : (2 : ℤ) ^ n ≤ 2 ^ 31 := pow_le_pow_right₀ (by norm_num) (by omega)
    exact this.trans (by norm_num)
  unfold IType.has at hv hoff
  rw [hlo, hp] at hv hoff h
  unfold IntbinAxis.indexType
  rw [if_pos (show ty.has _ by unfold IType.has; rw [hlo, hp]; exact hoff)]
  generalize b2i a.underflow - a.min = off at *
  have hw : ty.wrap (v + off) = v + off - 2 * 2 ^ n := by
    unfold IType.wrap
    rw [hlo, hp]
    have : (v + off - -2 ^ n) % (2 * 2 ^ n) = v + off - -2 ^ n - 2 * 2 ^ n := by
      rw [← Int.sub_emod_right, Int.emod_eq_of_lt (by linarith [h]) (by linarith [hv.2, hoff.2])]
    rw [this]; ring
  generalize (2 : ℤ) ^ n = P at *
  rw [hw, wrapI32_of_range _ (by linarith) (by linarith [hv.2, hoff.2])]
  have hneg : v + off - 2 * P < 0 := by linarith [hv.2, hoff.2]
  unfold IntbinAxis.clamp
  cases hu : a.underflow <;> cases ho : a.overflow <;> simp [hneg, b2i] <;> omega

/-- The hypotheses of `C124_intbin_overflow`. -/
example : int8.signed = true ∧ int8.has 127 ∧ int8.has (b2i true - 0) ∧ int8.lo + 2 ^ int8.bits ≤ 127 + (b2i true - 0) := by decide

/-- **C124** fails for `intbin(0, 200)` and one-byte columns: 127 is counted in the underflow bin; for columns without sign and `intbin(0, 300)`, 255 is
counted in the underflow bin; and in `intbin(50, 200)`, -100 is counted in the bin labelled 156. -/
theorem C124_refuted_intbin :
    IntbinAxis.indexType ⟨0, 200, true, true⟩ int8 127 = .ok (some 0) ∧ (IntbinAxis.keys ⟨0, 200, true, true⟩)[128]? = some (.int 127) ∧
    IntbinAxis.indexType ⟨0, 300, true, true⟩ uint8 255 = .ok (some 0) ∧ (IntbinAxis.keys ⟨0, 300, true, true⟩)[256]? = some (.int 255) ∧
    IntbinAxis.indexType ⟨50, 200, true, true⟩ int8 (-100) = .ok (some 107) ∧ (IntbinAxis.keys ⟨50, 200, true, true⟩)[107]? = some (.int 156) := by
  decide +kernel

/-- Columns without sign cannot be used with an `intbin` that starts above zero or one.  (NumPy 1 takes a wider type instead.) -/
theorem C124_refuted_unsigned_axis (a : IntbinAxis) (bits : ℕ) (h : b2i a.underflow < a.min) (v : ℤ) :
    a.indexType ⟨false, bits⟩ v = .error .valueError := by
  unfold IntbinAxis.indexType
  rw [if_neg]
  unfold IType.has IType.lo
  simp only [Bool.false_eq_true, if_false]
  omega

end Verif
