import Verif.NumTextLemmas
import Verif.PropsVega
import Verif.PropsVegaOutline

/-!
# Labels in plots: property theorems C117
-/

namespace Verif

/-! ## numbers -/

/-- What a reader of a label takes an edge for. -/
def shownVal (q : ℚ) : ℚ := decimalVal (numChars (.fin q))

theorem numChars_fin (q : ℚ) : numChars (.fin q) = if q = 0 then ['0'] else if q < 0 then '-' :: posText (-q) else posText q := rfl

theorem shownVal_zero : shownVal 0 = 0 := by decide +kernel

theorem shownVal_pos {q : ℚ} (hq : 0 < q) : shownVal q = round6 q := by
  unfold shownVal
  rw [numChars_fin, if_neg (ne_of_gt hq), if_neg (not_lt.2 hq.le), decimalVal_pos hq]

theorem shownVal_neg {q : ℚ} (hq : q < 0) : shownVal q = -round6 (-q) := by
  unfold shownVal
  rw [numChars_fin, if_neg (ne_of_lt hq), if_pos hq, decimalVal, posText_val (by linarith)]

/-- **C117** (numbers): the number in a label is read as a number that differs from the edge by at most 5 millionths of it, and larger edges are never
shown as smaller numbers. -/
theorem C117_number (q r : ℚ) : |q - shownVal q| ≤ |q| / 200000 ∧ (q ≤ r → shownVal q ≤ shownVal r) := by
  constructor
  · rcases lt_trichotomy q 0 with h | h | h
    · rw [shownVal_neg h, abs_of_neg h]
      have := round6_err (q := -q) (by linarith)
      rw [show q - -round6 (-q) = -(-q - round6 (-q)) by ring, abs_neg]
      exact this
    · subst h; rw [shownVal_zero]; norm_num
    · rw [shownVal_pos h, abs_of_pos h]; exact round6_err h
  · intro hqr
    rcases lt_trichotomy q 0 with h | h | h
    · rw [shownVal_neg h]
      have h1 := round6_pos (q := -q) (by linarith)
      rcases lt_trichotomy r 0 with h' | h' | h'
      · rw [shownVal_neg h']
        have := round6_mono (q := -r) (r := -q) (by linarith) (by linarith)
        linarith
      · subst h'; rw [shownVal_zero]; linarith
      · rw [shownVal_pos h']; have := round6_pos h'; linarith
    · subst h
      rw [shownVal_zero]
      rcases hqr.lt_or_eq with h' | h'
      · rw [shownVal_pos h']; exact (round6_pos h').le
      · rw [← h', shownVal_zero]
    · have h' := lt_of_lt_of_le h hqr
      rw [shownVal_pos h, shownVal_pos h']
      exact round6_mono h hqr

example : shownVal (1234567 / 100) = 12345.7 ∧ shownVal (-1 / 3) = -0.333333 ∧ shownVal 1500000001 = 1500000000 := by decide +kernel

theorem sig6_unique {m m' : ℕ} {e e' : ℤ} (h1 : 100000 ≤ m) (h2 : m < 1000000) (h1' : 100000 ≤ m') (h2' : m' < 1000000)
    (h : (m : ℚ) * (10 : ℚ) ^ (e - 5) = m' * (10 : ℚ) ^ (e' - 5)) : m = m' ∧ e = e' := by
  have key : ∀ {m m' : ℕ} {e e' : ℤ}, m < 1000000 → 100000 ≤ m' → (m : ℚ) * (10 : ℚ) ^ (e - 5) = m' * (10 : ℚ) ^ (e' - 5) → ¬ e < e' := by
    intro m m' e e' hm hm' heq hlt
    have hp := ten_zpow_pos (e - 5)
    have hle : (10 : ℚ) ^ (e - 5 + 1) ≤ 10 ^ (e' - 5) := zpow_le_zpow_right₀ (by norm_num) (by omega)
    rw [zpow_add₀ (by norm_num), zpow_one] at hle
    have a1 : (m : ℚ) < 1000000 := by exact_mod_cast hm
    have a2 : (100000 : ℚ) ≤ m' := by exact_mod_cast hm'
    have b1 : (m : ℚ) * (10 : ℚ) ^ (e - 5) < 1000000 * 10 ^ (e - 5) := mul_lt_mul_of_pos_right a1 hp
    have b2 : (100000 : ℚ) * 10 ^ (e' - 5) ≤ m' * (10 : ℚ) ^ (e' - 5) := mul_le_mul_of_nonneg_right a2 (ten_zpow_pos _).le
    linarith
  have he : e = e' := by
    have := key h2 h1' h
    have := key h2' h1 h.symm
    omega
  subst he
  have := mul_right_cancel₀ (ten_zpow_pos (e - 5)).ne' h
  exact ⟨by exact_mod_cast this, rfl⟩

theorem posText_congr {q r : ℚ} (hq : 0 < q) (hr : 0 < r) (h : round6 q = round6 r) : posText q = posText r := by
  obtain ⟨a1, a2, a3⟩ := sig6_spec hq
  obtain ⟨b1, b2, b3⟩ := sig6_spec hr
  obtain ⟨c1, c2⟩ := sig6_unique a1 a2 b1 b2 (a3.trans (h.trans b3.symm))
  unfold posText
  rw [c1, c2]

/-- **C117** (numbers): two edges are written in the same way exactly if they agree in their first six digits. -/
theorem C117_same (q r : ℚ) : numChars (.fin q) = numChars (.fin r) ↔ shownVal q = shownVal r := by
  constructor
  · intro h; unfold shownVal; rw [h]
  · intro h
    rcases lt_trichotomy q 0 with hq | hq | hq <;> rcases lt_trichotomy r 0 with hr | hr | hr
    · rw [shownVal_neg hq, shownVal_neg hr] at h
      have := posText_congr (q := -q) (r := -r) (by linarith) (by linarith) (by linarith)
      rw [numChars_fin, numChars_fin, if_neg (ne_of_lt hq), if_pos hq, if_neg (ne_of_lt hr), if_pos hr, this]
    · subst hr; rw [shownVal_neg hq, shownVal_zero] at h; have := round6_pos (q := -q) (by linarith); linarith
    · rw [shownVal_neg hq, shownVal_pos hr] at h; have := round6_pos (q := -q) (by linarith); have := round6_pos hr; linarith
    · subst hq; rw [shownVal_neg hr, shownVal_zero] at h; have := round6_pos (q := -r) (by linarith); linarith
    · rw [hq, hr]
    · subst hq; rw [shownVal_pos hr, shownVal_zero] at h; have := round6_pos hr; linarith
    · rw [shownVal_neg hr, shownVal_pos hq] at h; have := round6_pos (q := -r) (by linarith); have := round6_pos hq; linarith
    · subst hr; rw [shownVal_pos hq, shownVal_zero] at h; have := round6_pos hq; linarith
    · rw [shownVal_pos hq, shownVal_pos hr] at h
      rw [numChars_fin, numChars_fin, if_neg (ne_of_gt hq), if_neg (not_lt.2 hq.le), if_neg (ne_of_gt hr), if_neg (not_lt.2 hr.le), posText_congr hq hr h]

/-- Two numbers are far enough apart that labels tell them apart. -/
def Apart (q r : ℚ) : Prop := |q| + |r| < 200000 * |q - r|

theorem apart_text {q r : ℚ} (h : Apart q r) : numChars (.fin q) ≠ numChars (.fin r) := by
  intro he
  have h1 := (C117_number q q).1
  have h2 := (C117_number r r).1
  rw [(C117_same q r).1 he] at h1
  have : |q - r| ≤ |q| / 200000 + |r| / 200000 := by
    calc |q - r| = |(q - shownVal r) - (r - shownVal r)| := by congr 1; ring
      _ ≤ |q - shownVal r| + |r - shownVal r| := abs_sub _ _
      _ ≤ _ := add_le_add h1 h2
  unfold Apart at h
  linarith

/-! ## labels -/

theorem fin_chars (q : ℚ) : ∀ c ∈ numChars (.fin q), ofNumber c := by
  intro c hc
  rw [numChars_fin] at hc
  split at hc
  · rw [List.mem_singleton] at hc; subst hc; unfold ofNumber; decide
  · split at hc
    · rcases List.mem_cons.1 hc with rfl | hc
      · unfold ofNumber; decide
      · exact posText_chars _ c hc
    · exact posText_chars _ c hc

theorem num_noComma (x : Num) : ∀ c ∈ numChars x, c ≠ ',' := by
  cases x with
  | fin q => exact fun c hc => (fin_chars q c hc).2.2
  | nan => decide
  | pinf => decide
  | ninf => decide

theorem fin_ne_ninf (q : ℚ) (pre : List Char) : numChars (.fin q) ≠ pre ++ numChars .ninf := by
  intro h
  have := fin_chars q 'i' (by rw [h]; simp [numChars])
  exact this.1 rfl

/-- The text of an interval as a list of characters. -/
theorem iv_toList (key : Key → String) (lo hi : Num) (cl ch : Bool) : ((BinLabel.iv lo hi cl ch).text (pyFmt key)).toList =
    ((if cl then '[' else '(') :: (if lo = .ninf then [' '] else []) ++ numChars lo) ++ ',' :: (' ' :: numChars hi ++ [if ch then ']' else ')']) := by
  unfold BinLabel.text pyFmt
  simp only [String.toList_append, String.toList_ofList]
  by_cases h : lo = .ninf <;> cases cl <;> cases ch <;> simp [h]

theorem iv_parts {key : Key → String} {lo hi lo' hi' : Num} {cl ch cl' ch' : Bool}
    (h : (BinLabel.iv lo hi cl ch).text (pyFmt key) = (BinLabel.iv lo' hi' cl' ch').text (pyFmt key)) :
    (if lo = .ninf then [' '] else []) ++ numChars lo = (if lo' = .ninf then [' '] else []) ++ numChars lo' ∧ numChars hi = numChars hi' := by
  have h' := congrArg String.toList h
  rw [iv_toList, iv_toList] at h'
  have hno : ∀ (lo : Num) (cl : Bool), ∀ c ∈ (if cl then '[' else '(') :: (if lo = .ninf then [' '] else []) ++ numChars lo, decide (c ≠ ',') = true := by
    intro lo cl c hc
    rcases List.mem_append.1 hc with hc | hc
    · rcases List.mem_cons.1 hc with rfl | hc
      · cases cl <;> decide
      · split at hc
        · rw [List.mem_singleton] at hc; subst hc; decide
        · cases hc
    · simpa using num_noComma lo c hc
  obtain ⟨a1, a2⟩ := takeWhile_stop (fun c => decide (c ≠ ',')) _ ',' (' ' :: numChars hi ++ [if ch then ']' else ')']) (hno lo cl) (by decide)
  obtain ⟨b1, b2⟩ := takeWhile_stop (fun c => decide (c ≠ ',')) _ ',' (' ' :: numChars hi' ++ [if ch' then ']' else ')']) (hno lo' cl') (by decide)
  rw [h'] at a1 a2
  rw [b1] at a1
  rw [b2] at a2
  refine ⟨?_, ?_⟩
  · have := (List.cons.inj a1).2
    exact this.symm
  · have := (List.cons.inj (List.cons.inj a2).2).2
    exact (List.append_inj' this rfl).1.symm

theorem nan_ne_iv (key : Key → String) (lo hi : Num) (cl ch : Bool) : BinLabel.nan.text (pyFmt key) ≠ (BinLabel.iv lo hi cl ch).text (pyFmt key) := by
  intro h
  have h' := congrArg String.toList h
  rw [iv_toList] at h'
  have : BinLabel.nan.text (pyFmt key) = "{NaN}" := rfl
  rw [this] at h'
  have := (List.cons.inj (show '{' :: ['N', 'a', 'N', '}'] = _ from h')).1
  cases cl <;> simp at this

theorem flow_labels (key : Key → String) (e : ℕ → ℚ) (n : ℕ) (u o na cl : Bool) (he : ∀ i j, i < j → j ≤ n → numChars (.fin (e i)) ≠ numChars (.fin (e j)))
    {i j : ℕ} {k k' : BinLabel} (hi : (flowKeys e n u o na cl)[i]? = some k) (hj : (flowKeys e n u o na cl)[j]? = some k')
    (h : k.text (pyFmt key) = k'.text (pyFmt key)) : i = j := by
  have hne : ∀ i j, i ≤ n → j ≤ n → numChars (.fin (e i)) = numChars (.fin (e j)) → i = j := by
    intro i j hi hj h
    by_contra hc
    rcases Nat.lt_or_gt_of_ne hc with hc | hc
    · exact he i j hc hj h
    · exact he j i hc hi h.symm
  rw [flowKeys_get] at hi hj
  rcases hi with ⟨_, rfl, rfl⟩ | ⟨a, ha, rfl, rfl⟩ | ⟨_, rfl, rfl⟩ | ⟨_, rfl, rfl⟩ <;>
    rcases hj with ⟨_, rfl, rfl⟩ | ⟨b, hb, rfl, rfl⟩ | ⟨_, rfl, rfl⟩ | ⟨_, rfl, rfl⟩
  · rfl
  · exact absurd (iv_parts h).1.symm (by simpa using fin_ne_ninf (e b) [' '])
  · exact absurd (iv_parts h).1.symm (by simpa using fin_ne_ninf (e n) [' '])
  · exact absurd h.symm (nan_ne_iv _ _ _ _ _)
  · exact absurd (iv_parts h).1 (by simpa using fin_ne_ninf (e a) [' '])
  · have := hne a b (by omega) (by omega) (by simpa using (iv_parts h).1)
    rw [this]
  · have := hne a n (by omega) (by omega) (by simpa using (iv_parts h).1)
    omega
  · exact absurd h.symm (nan_ne_iv _ _ _ _ _)
  · exact absurd (iv_parts h).1 (by simpa using fin_ne_ninf (e n) [' '])
  · have := hne n b (by omega) (by omega) (by simpa using (iv_parts h).1)
    omega
  · rfl
  · exact absurd h.symm (nan_ne_iv _ _ _ _ _)
  · exact absurd h (nan_ne_iv _ _ _ _ _)
  · exact absurd h (nan_ne_iv _ _ _ _ _)
  · exact absurd h (nan_ne_iv _ _ _ _ _)
  · rfl

/-! ## the properties -/

/-- Every finite bin of the axis (as it is written) is wider than the hundred thousandth part of `M`, and no edge is beyond `M`. -/
def FixedAxis.Coarse (a : FixedAxis) (M : ℚ) : Prop :=
  ∀ i < a.totbins, ∀ lo hi, a.edgesAt i = some (lo, hi) → M < 100000 * (hi - lo) ∧ |lo| ≤ M ∧ |hi| ≤ M

/-- **C117** (bins): on an axis with bins wider than the hundred thousandth part of its largest edge, no two bins have the same label. -/
theorem C117_bins_partial (key : Key → String) (a : FixedAxis) (ha : a.Built) (M : ℚ) (hM : a.Coarse M) (i j : ℕ) (hi : i < a.totbins) (hj : j < a.totbins)
    (h : (a.written i).text (pyFmt key) = (a.written j).text (pyFmt key)) : i = j := by
  cases hn : a.numeric with
  | false =>
    cases a with
    | cut =>
      have ht : FixedAxis.cut.totbins = 2 := rfl
      rw [ht] at hi hj
      have e0 : (FixedAxis.written .cut 0).text (pyFmt key) = "fail" := rfl
      have e1 : (FixedAxis.written .cut 1).text (pyFmt key) = "pass" := rfl
      interval_cases i <;> interval_cases j
      · rfl
      · rw [e0, e1] at h; exact absurd h (by decide)
      · rw [e0, e1] at h; exact absurd h (by decide)
      · rfl
    | _ => cases hn
  | true =>
    obtain ⟨e, n, u, o, na, cl, h1, h2, _, h3⟩ := shown_flow a ha hn
    have hlen := shown_length a ha
    have hw : ∀ i, i < a.totbins → a.shown[i]? = some (a.written i) := by
      intro i hi
      rw [← shown_written a ha i hi, List.getD_eq_getElem?_getD, List.getElem?_eq_getElem (by omega), Option.getD_some]
    have hgap : ∀ b, b < n → M < 100000 * (e (b + 1) - e b) ∧ |e b| ≤ M ∧ |e (b + 1)| ≤ M := by
      intro b hb
      have hbt : b + b2n u < a.totbins := by omega
      refine hM (b + b2n u) hbt _ _ ?_
      have hg := hw _ hbt
      rw [h1] at hg
      have := (flowKeys_get e n u o na cl (b + b2n u) _).2 (Or.inr (Or.inl ⟨b, hb, rfl, rfl⟩))
      rw [this] at hg
      unfold FixedAxis.edgesAt
      rw [← Option.some.inj hg]
    have hdist : ∀ i j, i < j → j ≤ n → numChars (.fin (e i)) ≠ numChars (.fin (e j)) := by
      intro i j hij hj
      apply apart_text
      have g1 := hgap i (by omega)
      have g2 := hgap (j - 1) (by omega)
      rw [show j - 1 + 1 = j by omega] at g2
      have hle : e (i + 1) ≤ e j := by
        rcases Nat.lt_or_ge (i + 1) j with hlt | hge
        · exact (h2 _ _ hlt hj).le
        · rw [show i + 1 = j by omega]
      have hlt := h2 i j hij hj
      unfold Apart
      rw [abs_sub_comm, abs_of_pos (by linarith : (0 : ℚ) < e j - e i)]
      linarith [g1.2.1, g2.2.2]
    have gi := hw i hi
    have gj := hw j hj
    rw [h1] at gi gj
    exact flow_labels key e n u o na cl hdist gi gj h

/-- **C117** (bins): no two bins of a `bin` axis that begins or ends at zero have the same label if there are less than a hundred thousand of them. -/
theorem C117_from_zero (key : Key → String) (n : ℕ) (high : ℚ) (u o na cl : Bool) (a : BinAxis) (hn : 0 < n) (hsmall : n < 100000)
    (ha : BinAxis.init n 0 high u o na cl = .ok a) (i j : ℕ) (hi : i < a.totbins) (hj : j < a.totbins)
    (h : ((FixedAxis.bin a).written i).text (pyFmt key) = ((FixedAxis.bin a).written j).text (pyFmt key)) : i = j := by
  obtain ⟨rfl, hlt, _, _⟩ := BinAxis.init_ok ha
  have hh := hlt hn
  refine C117_bins_partial key (.bin _) ⟨n, 0, high, u, o, na, cl, hn, ha⟩ high ?_ i j hi hj h
  intro i hi lo hi' he
  have hkeys := BinAxis.keys_eq ⟨n, 0, high, u, o, na, cl⟩ hn
  have hwr : (FixedAxis.bin ⟨n, 0, high, u, o, na, cl⟩).written i = (BinAxis.keys ⟨n, 0, high, u, o, na, cl⟩).getD i .nan := rfl
  unfold FixedAxis.edgesAt at he
  rw [hwr, hkeys] at he
  have hlen := flowKeys_length (BinAxis.i2x ⟨n, 0, high, u, o, na, cl⟩) n u o na cl
  have hN : (0 : ℚ) < n := by exact_mod_cast hn
  have hN' : (n : ℚ) < 100000 := by exact_mod_cast hsmall
  rw [List.getD_eq_getElem?_getD] at he
  cases hk : (flowKeys (BinAxis.i2x ⟨n, 0, high, u, o, na, cl⟩) n u o na cl)[i]? with
  | none => simp only [hk] at he; cases he
  | some k =>
    simp only [hk, Option.getD_some] at he
    rcases (flowKeys_get _ _ _ _ _ _ _ _).1 hk with ⟨_, _, rfl⟩ | ⟨b, hb, _, rfl⟩ | ⟨_, _, rfl⟩ | ⟨_, _, rfl⟩
    · cases he
    · simp only [Option.some.injEq, Prod.mk.injEq] at he
      obtain ⟨rfl, rfl⟩ := he
      simp only [BinAxis.i2x]
      have hb' : (b : ℚ) + 1 ≤ n := by exact_mod_cast hb
      have hb0 : (0 : ℚ) ≤ b := by positivity
      push_cast
      have f1 : (b : ℚ) / n ≤ 1 := by rw [div_le_one hN]; linarith
      have f2 : ((b : ℚ) + 1) / n ≤ 1 := by rw [div_le_one hN]; linarith
      have f3 : (0 : ℚ) ≤ (b : ℚ) / n := by positivity
      have f4 : (0 : ℚ) ≤ ((b : ℚ) + 1) / n := by positivity
      have f5 : 1 / 100000 < (1 : ℚ) / n := by
        rw [div_lt_div_iff₀ (by norm_num) hN]; linarith
      refine ⟨?_, ?_, ?_⟩
      · have : (0 : ℚ) + ((b : ℚ) + 1) / n * (high - 0) - (0 + (b : ℚ) / n * (high - 0)) = 1 / n * high := by ring
        first
        | nlinarith
        | (rw [show ∀ x y : ℚ, (x - y) = x - y from fun _ _ => rfl]; nlinarith)
      · rw [abs_le]; constructor <;> nlinarith
      · rw [abs_le]; constructor <;> nlinarith
    · cases he
    · cases he

example (i j : ℕ) (hi : i < 1002) (hj : j < 1002)
    (h : ((FixedAxis.bin ⟨1000, 0, 50, true, true, false, true⟩).written i).text (pyFmt fun _ => "") =
      ((FixedAxis.bin ⟨1000, 0, 50, true, true, false, true⟩).written j).text (pyFmt fun _ => "")) : i = j :=
  C117_from_zero _ 1000 50 true true false true ⟨1000, 0, 50, true, true, false, true⟩ (by norm_num) (by norm_num) (by decide +kernel) i j hi hj h

/-- Bins of a unit from 98 to 101, with flow bins: all labels are different. -/
example : (FixedAxis.intbin ⟨98, 101, true, true⟩).Built ∧ (FixedAxis.intbin ⟨98, 101, true, true⟩).Coarse 102 ∧
    (List.range 6).map (fun i => ((FixedAxis.intbin ⟨98, 101, true, true⟩).written i).text (pyFmt fun _ => "")) =
      ["[ -inf, 97.5)", "[97.5, 98.5)", "[98.5, 99.5)", "[99.5, 100.5)", "[100.5, 101.5)", "[101.5, inf]"] := by
  refine ⟨⟨98, 101, true, true, by decide +kernel⟩, ?_, by decide +kernel⟩
  intro i hi
  have : i < 6 := hi
  have hd : ∀ p, (FixedAxis.intbin ⟨98, 101, true, true⟩).edgesAt i = some p → (102 : ℚ) < 100000 * (p.2 - p.1) ∧ |p.1| ≤ 102 ∧ |p.2| ≤ 102 := by
    interval_cases i
    · intro p hp; cases hp
    · intro p hp; cases hp; decide +kernel
    · intro p hp; cases hp; decide +kernel
    · intro p hp; cases hp; decide +kernel
    · intro p hp; cases hp; decide +kernel
    · intro p hp; cases hp
  intro lo hi' h
  exact hd (lo, hi') h

/-- **C117** (groups): two groups of a `groupbin` axis have different labels if their intervals are far enough apart (`Apart`). -/
theorem C117_groupbin_partial (key : Key → String) (a : GroupbinAxis) (q r : ℚ) (hqr : Apart q r) :
    (GroupAxis.groupbin a).legend (pyFmt key) (.num q) ≠ (GroupAxis.groupbin a).legend (pyFmt key) (.num r) := by
  intro h
  exact apart_text hqr (by simpa using (iv_parts h).1)

/-- Four bins in a row are so narrow that they lie within one unit of the sixth digit. -/
theorem C117_refuted_narrow (key : Key → String) (a : BinAxis) (ha : (FixedAxis.bin a).Built) (k : ℤ) (i : ℕ) (hi : i + 4 ≤ a.numbins)
    (h1 : (10 : ℚ) ^ k ≤ a.i2x i) (h2 : a.i2x (i + 4) < (10 : ℚ) ^ (k + 1)) (h3 : a.i2x (i + 4) - a.i2x i < (10 : ℚ) ^ (k - 5)) :
    ∃ j j', j < j' ∧ j' < a.totbins ∧ ((FixedAxis.bin a).written j).text (pyFmt key) = ((FixedAxis.bin a).written j').text (pyFmt key) := by
  obtain ⟨nb, low, high, u, o, na, cl, hpos, hinit⟩ := ha
  obtain ⟨rfl, hlt, _, _⟩ := BinAxis.init_ok hinit
  have hlh := hlt hpos
  have hN : (0 : ℚ) < nb := by exact_mod_cast hpos
  have hmono : ∀ i j : ℕ, i ≤ j → BinAxis.i2x ⟨nb, low, high, u, o, na, cl⟩ i ≤ BinAxis.i2x ⟨nb, low, high, u, o, na, cl⟩ j := by
    intro i j hij
    simp only [BinAxis.i2x]
    have hij' : (i : ℚ) ≤ j := by exact_mod_cast hij
    have h1 : (i : ℚ) / nb ≤ j / nb := by gcongr
    have := mul_le_mul_of_nonneg_right h1 (by linarith : 0 ≤ high - low)
    linarith
  generalize he : BinAxis.i2x ⟨nb, low, high, u, o, na, cl⟩ = e at *
  have hp := ten_zpow_pos k
  have hu := ten_zpow_pos (k - 5)
  have hm : ∀ j, i ≤ j → j ≤ i + 4 → 0 < e j ∧ round6 (e j) = (pyRound (e j / (10 : ℚ) ^ (k - 5)) : ℤ) * (10 : ℚ) ^ (k - 5) := by
    intro j hj hj'
    have b1 : (10 : ℚ) ^ k ≤ e j := h1.trans (hmono _ _ hj)
    have b2 : e j < (10 : ℚ) ^ (k + 1) := lt_of_le_of_lt (hmono _ _ hj') h2
    have hej : 0 < e j := lt_of_lt_of_le hp b1
    obtain ⟨c1, c2⟩ := log10_spec hej
    have d1 : Int.log 10 (e j) < k + 1 := (zpow_lt_zpow_iff_right₀ (by norm_num : (1 : ℚ) < 10)).1 (lt_of_le_of_lt c1 b2)
    have d2 : k < Int.log 10 (e j) + 1 := (zpow_lt_zpow_iff_right₀ (by norm_num : (1 : ℚ) < 10)).1 (lt_of_le_of_lt b1 c2)
    refine ⟨hej, ?_⟩
    unfold round6
    rw [show Int.log 10 (e j) = k by omega]
  have hr : ∀ j j', j ≤ j' → pyRound (e j / (10 : ℚ) ^ (k - 5)) ≤ pyRound (e j' / (10 : ℚ) ^ (k - 5)) := fun j j' h =>
    pyRound_mono (div_le_div_of_nonneg_right (hmono _ _ h) hu.le)
  have htop : pyRound (e (i + 4) / (10 : ℚ) ^ (k - 5)) ≤ pyRound (e i / (10 : ℚ) ^ (k - 5)) + 1 := by
    have c1 := abs_le.1 (pyRound_err (e (i + 4) / (10 : ℚ) ^ (k - 5)))
    have c2 := abs_le.1 (pyRound_err (e i / (10 : ℚ) ^ (k - 5)))
    have c3 : e (i + 4) / (10 : ℚ) ^ (k - 5) - e i / (10 : ℚ) ^ (k - 5) < 1 := by rw [← sub_div, div_lt_one hu]; exact h3
    have : ((pyRound (e (i + 4) / (10 : ℚ) ^ (k - 5)) : ℤ) : ℚ) < pyRound (e i / (10 : ℚ) ^ (k - 5)) + 2 := by linarith [c1.1, c2.2]
    have : pyRound (e (i + 4) / (10 : ℚ) ^ (k - 5)) < pyRound (e i / (10 : ℚ) ^ (k - 5)) + 2 := by exact_mod_cast this
    omega
  have hsame : ∀ j j', i ≤ j → j ≤ i + 4 → i ≤ j' → j' ≤ i + 4 → pyRound (e j / (10 : ℚ) ^ (k - 5)) = pyRound (e j' / (10 : ℚ) ^ (k - 5)) →
      numChars (.fin (e j)) = numChars (.fin (e j')) := by
    intro j j' a1 a2 b1 b2 h
    obtain ⟨p1, q1⟩ := hm j a1 a2
    obtain ⟨p2, q2⟩ := hm j' b1 b2
    rw [C117_same, shownVal_pos p1, shownVal_pos p2, q1, q2, h]
  have hkeys := BinAxis.keys_eq ⟨nb, low, high, u, o, na, cl⟩ hpos
  rw [he] at hkeys
  have hwr : ∀ j, j < nb → (FixedAxis.bin ⟨nb, low, high, u, o, na, cl⟩).written (j + b2n u) = .iv (.fin (e j)) (.fin (e (j + 1))) cl (!cl) := by
    intro j hj
    show List.getD (BinAxis.keys _) _ _ = _
    rw [hkeys, List.getD_eq_getElem?_getD, (flowKeys_get e nb u o na cl (j + b2n u) _).2 (Or.inr (Or.inl ⟨j, hj, rfl, rfl⟩))]
    rfl
  have htext : ∀ j, j + 1 < nb → numChars (.fin (e j)) = numChars (.fin (e (j + 1))) → numChars (.fin (e (j + 1))) = numChars (.fin (e (j + 2))) →
      ∃ j j', j < j' ∧ j' < BinAxis.totbins ⟨nb, low, high, u, o, na, cl⟩ ∧
      ((FixedAxis.bin ⟨nb, low, high, u, o, na, cl⟩).written j).text (pyFmt key) = ((FixedAxis.bin ⟨nb, low, high, u, o, na, cl⟩).written j').text (pyFmt key) := by
    intro j hj s1 s2
    refine ⟨j + b2n u, j + 1 + b2n u, by omega, ?_, ?_⟩
    · show _ < nb + b2n u + b2n o + b2n na
      omega
    · rw [hwr j (by omega), hwr (j + 1) hj]
      simp only [BinLabel.text, pyFmt, reduceCtorEq, if_false, s1, s2]
  simp only at hi
  have r01 := hr i (i + 1) (by omega)
  have r12 := hr (i + 1) (i + 2) (by omega)
  have r23 := hr (i + 2) (i + 3) (by omega)
  have r34 := hr (i + 3) (i + 4) (by omega)
  by_cases hc : pyRound (e i / (10 : ℚ) ^ (k - 5)) = pyRound (e (i + 2) / (10 : ℚ) ^ (k - 5))
  · exact htext i (by omega) (hsame _ _ (by omega) (by omega) (by omega) (by omega) (by omega)) (hsame _ _ (by omega) (by omega) (by omega) (by omega) (by omega))
  · exact htext (i + 2) (by omega) (hsame (i + 2) (i + 3) (by omega) (by omega) (by omega) (by omega) (by omega)) (hsame (i + 3) (i + 4) (by omega) (by omega) (by omega) (by omega) (by omega))

example : Apart (1 / 10) (2 / 10) ∧ Apart 50000 50001 ∧ ¬ Apart 1000000 1000001 := by unfold Apart; norm_num [abs_of_pos, abs_of_neg]

/-- Seconds of the year 2017: `bin("time", 86400, 1500000000, 1500086400)`, from the first one on. -/
example : ∃ j j', j < j' ∧ j' < BinAxis.totbins ⟨86400, 1500000000, 1500086400, true, true, true, true⟩ ∧
    ((FixedAxis.bin ⟨86400, 1500000000, 1500086400, true, true, true, true⟩).written j).text (pyFmt fun _ => "") =
      ((FixedAxis.bin ⟨86400, 1500000000, 1500086400, true, true, true, true⟩).written j').text (pyFmt fun _ => "") :=
  C117_refuted_narrow _ ⟨86400, 1500000000, 1500086400, true, true, true, true⟩ ⟨86400, 1500000000, 1500086400, true, true, true, true, by norm_num, by decide +kernel⟩
    9 0 (by decide) (by decide +kernel) (by decide +kernel) (by decide +kernel)

/-- The records of a plot with the texts that Python writes. -/
def exTexts (H : HistDef) (bs : List (List Row)) (P : Plot1d) : Except Err (List Datum) :=
  match H.fillAll none bs with
  | .error (e, _) => .error e
  | .ok st => (H.data1d (pyFmt fun _ => "") P [] "a" st).map (·.data)

/-- Hours: `Hist(bin("time", 4, 1500000000, 1500014400), cut("c"))`. -/
def hoursHist : HistDef := ⟨[], [.bin ⟨4, 1500000000, 1500014400, false, false, false, true⟩, .cut], 0, .none⟩

/-- C117 is false: drawn one beside another, two different hours are in the same picture, with the same label and different values. -/
theorem C117_refuted : exTexts hoursHist [[⟨[], [.num (.fin 1500007201), .bool true], [], none⟩, ⟨[], [.num (.fin 1500007202), .bool true], [], none⟩,
      ⟨[], [.num (.fin 1500010801), .bool true], [], none⟩]] ⟨[⟨.beside, 0⟩], .bar, 1, none, false, false, true⟩ = .ok
    [[(.col "a" 0, .str "[1.50001e+09, 1.50001e+09)"), (.col "a" 1, .str "pass"), (.col "a" 2, .num (some 2))],
     [(.col "a" 0, .str "[1.50001e+09, 1.50001e+09)"), (.col "a" 1, .str "pass"), (.col "a" 2, .num (some 1))]] := by decide +kernel

/-- **C117** (all axes): if the labels of groups and bins tell them apart on each axis, then no two cells of a plot have the same texts. -/
theorem C117_cells_partial (key : Key → String) (H : HistDef) (M : FixedAxis → ℚ) (hb : ∀ a ∈ H.fixed, a.Built ∧ a.Coarse (M a)) (gk gk' : List Key)
    (idx idx' : List ℕ) (hg : gk.length = H.groups.length) (hg' : gk'.length = H.groups.length) (hc : H.Cell idx) (hc' : H.Cell idx')
    (hk : ∀ (n : ℕ) (g : GroupAxis) (k k' : Key), H.groups[n]? = some g → gk[n]? = some k → gk'[n]? = some k' → g.legend (pyFmt key) k = g.legend (pyFmt key) k' → k = k')
    (h : cellTexts (pyFmt key) H gk idx = cellTexts (pyFmt key) H gk' idx') : gk = gk' ∧ idx = idx' := by
  unfold cellTexts at h
  obtain ⟨h1, h2⟩ := List.append_inj h (by rw [List.length_zipWith, List.length_zipWith, hg, hg'])
  constructor
  · apply List.ext_getElem (by omega)
    intro n hn hn'
    have e := congrArg (fun l => l[n]?) h1
    simp only [List.getElem?_zipWith, List.getElem?_eq_getElem hn, List.getElem?_eq_getElem hn', List.getElem?_eq_getElem (show n < H.groups.length by omega)] at e
    exact hk n _ _ _ (List.getElem?_eq_getElem (by omega)) (List.getElem?_eq_getElem hn) (List.getElem?_eq_getElem hn') (by simpa using e)
  · obtain ⟨l1, c1⟩ := List.forall₂_iff_get.1 hc
    obtain ⟨l2, c2⟩ := List.forall₂_iff_get.1 hc'
    rw [List.length_map] at l1 l2
    apply List.ext_getElem (by omega)
    intro n hn hn'
    have e := congrArg (fun l => l[n]?) h2
    have hf : n < H.fixed.length := by omega
    simp only [List.getElem?_zipWith, List.getElem?_eq_getElem hn, List.getElem?_eq_getElem hn', List.getElem?_eq_getElem hf] at e
    obtain ⟨b1, b2⟩ := hb _ (List.getElem_mem hf)
    exact C117_bins_partial key _ b1 _ b2 _ _ (by simpa using c1 n hn (by rw [List.length_map]; exact hf)) (by simpa using c2 n hn' (by rw [List.length_map]; exact hf)) (by simpa using e)

end Verif
