import Verif.SpecNumText
import Verif.Float64
import Mathlib.Tactic.IntervalCases

/-!
# Lemmas about the texts of numbers
-/

namespace Verif

theorem pow10_eq (k : ℤ) : pow10 k = (10 : ℚ) ^ k := by
  cases k with
  | ofNat n => simp [pow10]
  | negSucc n => simp [pow10, zpow_negSucc]

theorem ten_zpow_pos (k : ℤ) : (0 : ℚ) < 10 ^ k := zpow_pos (by norm_num) k

/-! ## rounding to six digits -/

/-- The number that is written: rounded to six digits. -/
def round6 (q : ℚ) : ℚ := (pyRound (q / (10 : ℚ) ^ (Int.log 10 q - 5)) : ℤ) * (10 : ℚ) ^ (Int.log 10 q - 5)

theorem log10_spec {q : ℚ} (hq : 0 < q) : (10 : ℚ) ^ Int.log 10 q ≤ q ∧ q < (10 : ℚ) ^ (Int.log 10 q + 1) := by
  have h1 := Int.zpow_log_le_self (b := 10) (r := q) (by norm_num) hq
  have h2 := Int.lt_zpow_succ_log_self (b := 10) (by norm_num) q
  exact ⟨by exact_mod_cast h1, by exact_mod_cast h2⟩

theorem scaled_bounds {q : ℚ} (hq : 0 < q) :
    (100000 : ℚ) ≤ q / (10 : ℚ) ^ (Int.log 10 q - 5) ∧ q / (10 : ℚ) ^ (Int.log 10 q - 5) < 1000000 := by
  obtain ⟨h1, h2⟩ := log10_spec hq
  have hp := ten_zpow_pos (Int.log 10 q - 5)
  have e1 : (10 : ℚ) ^ Int.log 10 q = 100000 * 10 ^ (Int.log 10 q - 5) := by
    rw [zpow_sub₀ (by norm_num)]; norm_num; ring
  have e2 : (10 : ℚ) ^ (Int.log 10 q + 1) = 1000000 * 10 ^ (Int.log 10 q - 5) := by
    rw [zpow_sub₀ (by norm_num), zpow_add₀ (by norm_num)]; norm_num
    ring
  rw [le_div_iff₀ hp, div_lt_iff₀ hp, ← e1, ← e2]
  exact ⟨h1, h2⟩

theorem mantissa_bounds {q : ℚ} (hq : 0 < q) :
    100000 ≤ pyRound (q / (10 : ℚ) ^ (Int.log 10 q - 5)) ∧ pyRound (q / (10 : ℚ) ^ (Int.log 10 q - 5)) ≤ 1000000 := by
  obtain ⟨h1, h2⟩ := scaled_bounds hq
  exact ⟨int_le_pyRound _ _ (by exact_mod_cast h1), pyRound_le_int _ _ (by exact_mod_cast h2.le)⟩

theorem sig6_spec {q : ℚ} (hq : 0 < q) : 100000 ≤ (sig6 q).1 ∧ (sig6 q).1 < 1000000 ∧ ((sig6 q).1 : ℚ) * (10 : ℚ) ^ ((sig6 q).2 - 5) = round6 q := by
  obtain ⟨h1, h2⟩ := mantissa_bounds hq
  unfold sig6 round6
  simp only [pow10_eq]
  generalize pyRound (q / (10 : ℚ) ^ (Int.log 10 q - 5)) = m at h1 h2 ⊢
  generalize Int.log 10 q = e
  have hm : ((m.toNat : ℕ) : ℚ) = (m : ℚ) := by
    have : ((m.toNat : ℕ) : ℤ) = m := Int.toNat_of_nonneg (by omega)
    exact_mod_cast congrArg (Int.cast (R := ℚ)) this
  split
  · rename_i h
    have : m = 1000000 := by omega
    subst this
    refine ⟨by norm_num, by norm_num, ?_⟩
    have : (10 : ℚ) ^ (e + 1 - 5) = 10 * 10 ^ (e - 5) := by
      rw [show e + 1 - 5 = 1 + (e - 5) by ring, zpow_add₀ (by norm_num)]; norm_num
    simp only [this]
    push_cast
    ring
  · rename_i h
    refine ⟨by omega, by omega, ?_⟩
    simp only [hm]

theorem round6_pos {q : ℚ} (hq : 0 < q) : 0 < round6 q := by
  have h1 := (mantissa_bounds hq).1
  unfold round6
  refine mul_pos ?_ (ten_zpow_pos _)
  have : (0 : ℤ) < pyRound (q / (10 : ℚ) ^ (Int.log 10 q - 5)) := by omega
  exact_mod_cast this

theorem round6_err {q : ℚ} (hq : 0 < q) : |q - round6 q| ≤ q / 200000 := by
  have hp := ten_zpow_pos (Int.log 10 q - 5)
  have h1 := pyRound_err (q / (10 : ℚ) ^ (Int.log 10 q - 5))
  have h2 := (scaled_bounds hq).1
  unfold round6
  generalize (10 : ℚ) ^ (Int.log 10 q - 5) = u at *
  have hq' : q = q / u * u := by field_simp
  generalize q / u = x at *
  subst hq'
  rw [← sub_mul, abs_mul, abs_of_pos hp, div_eq_mul_inv, mul_assoc]
  calc |x - (pyRound x : ℤ)| * u ≤ 1 / 2 * u := mul_le_mul_of_nonneg_right h1 hp.le
    _ ≤ x * (u * (200000 : ℚ)⁻¹) := by nlinarith

theorem round6_mono {q r : ℚ} (hq : 0 < q) (h : q ≤ r) : round6 q ≤ round6 r := by
  have hr : 0 < r := lt_of_lt_of_le hq h
  have hl := Int.log_mono_right (b := 10) hq h
  rcases hl.lt_or_eq with hl | hl
  · have h1 := (mantissa_bounds hq).2
    have h2 := (mantissa_bounds hr).1
    unfold round6
    calc (pyRound (q / (10 : ℚ) ^ (Int.log 10 q - 5)) : ℤ) * (10 : ℚ) ^ (Int.log 10 q - 5) ≤ 1000000 * (10 : ℚ) ^ (Int.log 10 q - 5) :=
          mul_le_mul_of_nonneg_right (by exact_mod_cast h1) (ten_zpow_pos _).le
      _ = (10 : ℚ) ^ (Int.log 10 q + 1) := by
          rw [zpow_sub₀ (by norm_num), zpow_add₀ (by norm_num)]; norm_num; ring
      _ ≤ (10 : ℚ) ^ (Int.log 10 r) := zpow_le_zpow_right₀ (by norm_num) (by omega)
      _ = 100000 * (10 : ℚ) ^ (Int.log 10 r - 5) := by rw [zpow_sub₀ (by norm_num)]; norm_num; ring
      _ ≤ _ := mul_le_mul_of_nonneg_right (by exact_mod_cast h2) (ten_zpow_pos _).le
  · unfold round6
    rw [← hl]
    refine mul_le_mul_of_nonneg_right ?_ (ten_zpow_pos _).le
    exact_mod_cast pyRound_mono (div_le_div_of_nonneg_right h (ten_zpow_pos _).le)

/-! ## reading what is written -/

/-- The value of digits in front of a point. -/
def wholeL (l : List ℕ) : ℕ := l.foldl (fun a d => 10 * a + d) 0

/-- The value of digits after a point. -/
def fracL : List ℕ → ℚ
  | [] => 0
  | d :: r => (d + fracL r) / 10

theorem charVal_digit {d : ℕ} (h : d < 10) : charVal (Nat.digitChar d) = d := by
  interval_cases d <;> rfl

theorem digitChar_ne {d : ℕ} (h : d < 10) : Nat.digitChar d ≠ '.' ∧ Nat.digitChar d ≠ 'e' ∧ Nat.digitChar d ≠ '-' ∧ Nat.digitChar d ≠ 'i' ∧
    Nat.digitChar d ≠ 'n' ∧ Nat.digitChar d ≠ ',' := by
  interval_cases d <;> decide

theorem wholeVal_digits (l : List ℕ) (h : ∀ d ∈ l, d < 10) : wholeVal (l.map Nat.digitChar) = wholeL l := by
  unfold wholeVal wholeL
  rw [List.foldl_map]
  generalize 0 = a
  induction l generalizing a with
  | nil => rfl
  | cons d r ih =>
    rw [List.foldl_cons, List.foldl_cons, charVal_digit (h d (by simp))]
    exact ih (fun d hd => h d (by simp [hd])) _

theorem fracVal_digits (l : List ℕ) (h : ∀ d ∈ l, d < 10) : fracVal (l.map Nat.digitChar) = fracL l := by
  induction l with
  | nil => rfl
  | cons d r ih =>
    rw [List.map_cons, fracVal, fracL, charVal_digit (h d (by simp)), ih (fun d hd => h d (by simp [hd]))]

theorem stripZeros_mem {l : List ℕ} {d : ℕ} (h : d ∈ stripZeros l) : d ∈ l := by
  induction l with
  | nil => exact h
  | cons a r ih =>
    rw [stripZeros] at h
    split at h
    · cases h
    · rcases List.mem_cons.1 h with rfl | h
      · simp
      · exact List.mem_cons_of_mem _ (ih h)

theorem fracL_strip (l : List ℕ) : fracL (stripZeros l) = fracL l := by
  induction l with
  | nil => rfl
  | cons a r ih =>
    rw [stripZeros]
    split
    · rename_i h
      have h2 : fracL r = 0 := by rw [← ih, h.1]; rfl
      show (0 : ℚ) = (a + fracL r) / 10
      rw [h2, h.2]
      norm_num
    · rw [fracL, fracL, ih]

theorem wholeL_foldl (l : List ℕ) (a : ℕ) : l.foldl (fun a d => 10 * a + d) a = a * 10 ^ l.length + wholeL l := by
  unfold wholeL
  induction l generalizing a with
  | nil => simp
  | cons d r ih => rw [List.foldl_cons, List.foldl_cons, ih, ih (10 * 0 + d), List.length_cons, pow_succ]; ring

theorem wholeL_append (l r : List ℕ) : (wholeL l : ℚ) + fracL r = (wholeL (l ++ r) : ℚ) / 10 ^ r.length := by
  induction r generalizing l with
  | nil => simp [fracL]
  | cons d r ih =>
    have h := ih (l ++ [d])
    rw [List.append_assoc, List.singleton_append] at h
    rw [fracL, List.length_cons, pow_succ]
    have hw : wholeL (l ++ [d]) = 10 * wholeL l + d := by unfold wholeL; rw [List.foldl_append]; rfl
    rw [hw] at h
    push_cast at h
    have h10 : (10 : ℚ) ^ r.length ≠ 0 := by positivity
    field_simp at h ⊢
    linarith

theorem wholeL_zeros (k : ℕ) (l : List ℕ) : wholeL (List.replicate k 0 ++ l) = wholeL l := by
  induction k with
  | zero => simp
  | succ k ih =>
    rw [List.replicate_succ, List.cons_append]
    unfold wholeL
    rw [List.foldl_cons]
    exact ih

theorem wholeL_digits6 {m : ℕ} (h : m < 1000000) : wholeL (digits6 m) = m := by
  simp only [wholeL, digits6, List.foldl_cons, List.foldl_nil]
  omega

theorem digits6_lt (m d : ℕ) (h : d ∈ digits6 m) : d < 10 := by
  simp only [digits6, List.mem_cons, List.not_mem_nil, or_false] at h
  omega

theorem wholeL_natDigits (n : ℕ) : wholeL (Nat.digits 10 n).reverse = n := by
  unfold wholeL
  rw [List.foldl_reverse]
  have h := Nat.ofDigits_eq_foldr 10 (Nat.digits 10 n)
  rw [Nat.ofDigits_digits] at h
  refine Eq.trans ?_ h.symm
  congr 1
  funext x y
  simp [add_comm]

theorem exponentVal_text (e : ℤ) : exponentVal (expText e) = e := by
  have hd : ∀ d ∈ (if e.natAbs < 10 then [0, e.natAbs] else (Nat.digits 10 e.natAbs).reverse), d < 10 := by
    intro d hd
    split at hd
    · simp at hd; omega
    · exact Nat.digits_lt_base (by norm_num) (by simpa using hd)
  have hw : wholeL (if e.natAbs < 10 then [0, e.natAbs] else (Nat.digits 10 e.natAbs).reverse) = e.natAbs := by
    split
    · simp [wholeL]
    · exact wholeL_natDigits _
  unfold expText
  split
  · rw [exponentVal, wholeVal_digits _ hd, hw]; omega
  · rw [exponentVal, wholeVal_digits _ hd, hw]; omega

/-- The characters of the text of a number. -/
def numberChar (c : Char) : Prop := c ≠ '-' ∧ c ≠ 'e' ∧ c ≠ 'i' ∧ c ≠ 'n' ∧ c ≠ ','

theorem pointText_chars {b a : List ℕ} (hb : ∀ d ∈ b, d < 10) (ha : ∀ d ∈ a, d < 10) : ∀ c ∈ pointText b a, numberChar c := by
  intro c hc
  unfold pointText at hc
  rcases List.mem_append.1 hc with hc | hc
  · obtain ⟨d, hd, rfl⟩ := List.mem_map.1 hc
    obtain ⟨_, h2, h3, h4, h5, h6⟩ := digitChar_ne (hb d hd)
    exact ⟨h3, h2, h4, h5, h6⟩
  · split at hc
    · cases hc
    · rcases List.mem_cons.1 hc with rfl | hc
      · unfold numberChar; decide
      · obtain ⟨d, hd, rfl⟩ := List.mem_map.1 hc
        obtain ⟨_, h2, h3, h4, h5, h6⟩ := digitChar_ne (ha d (stripZeros_mem hd))
        exact ⟨h3, h2, h4, h5, h6⟩

theorem takeWhile_stop {α : Type} (p : α → Bool) (l : List α) (x : α) (r : List α) (hl : ∀ y ∈ l, p y = true) (hx : p x = false) :
    (l ++ x :: r).takeWhile p = l ∧ (l ++ x :: r).dropWhile p = x :: r := by
  induction l with
  | nil => simp [hx]
  | cons a l ih =>
    have ha := hl a (by simp)
    obtain ⟨h1, h2⟩ := ih (fun y hy => hl y (by simp [hy]))
    simp [ha, h1, h2]

theorem takeWhile_whole {α : Type} (p : α → Bool) (l : List α) (hl : ∀ y ∈ l, p y = true) : l.takeWhile p = l ∧ l.dropWhile p = [] := by
  induction l with
  | nil => simp
  | cons a l ih =>
    have ha := hl a (by simp)
    obtain ⟨h1, h2⟩ := ih (fun y hy => hl y (by simp [hy]))
    simp [ha, h1, h2]

theorem pointText_val {b a : List ℕ} (hb : ∀ d ∈ b, d < 10) (ha : ∀ d ∈ a, d < 10) :
    (wholeVal ((pointText b a).takeWhile (· ≠ '.')) : ℚ) + fracVal (((pointText b a).dropWhile (· ≠ '.')).tail) = wholeL (b ++ a) / 10 ^ a.length := by
  have hb' : ∀ y ∈ b.map Nat.digitChar, decide (y ≠ '.') = true := by
    intro y hy
    obtain ⟨d, hd, rfl⟩ := List.mem_map.1 hy
    simpa using (digitChar_ne (hb d hd)).1
  rw [← wholeL_append]
  unfold pointText
  split
  · rename_i h
    obtain ⟨h1, h2⟩ := takeWhile_whole _ _ hb'
    rw [List.append_nil, h1, h2, wholeVal_digits b hb, ← fracL_strip, h]
    rfl
  · obtain ⟨h1, h2⟩ := takeWhile_stop _ _ '.' ((stripZeros a).map Nat.digitChar) hb' (by decide)
    rw [h1, h2, wholeVal_digits b hb, List.tail_cons, fracVal_digits _ (fun d hd => ha d (stripZeros_mem hd)), fracL_strip]

theorem plain_val {b a : List ℕ} (hb : ∀ d ∈ b, d < 10) (ha : ∀ d ∈ a, d < 10) : unsignedVal (pointText b a) = wholeL (b ++ a) / 10 ^ a.length := by
  obtain ⟨h1, h2⟩ := takeWhile_whole (fun c => decide (c ≠ 'e')) (pointText b a) (fun c hc => by simpa using (pointText_chars hb ha c hc).2.1)
  unfold unsignedVal
  simp only [h1, h2]
  rw [pointText_val hb ha]
  simp [exponentVal, wholeVal]

theorem sci_val {b a : List ℕ} (hb : ∀ d ∈ b, d < 10) (ha : ∀ d ∈ a, d < 10) (e : ℤ) :
    unsignedVal (pointText b a ++ 'e' :: expText e) = wholeL (b ++ a) / 10 ^ a.length * (10 : ℚ) ^ e := by
  obtain ⟨h1, h2⟩ := takeWhile_stop (fun c => decide (c ≠ 'e')) (pointText b a) 'e' (expText e)
    (fun c hc => by simpa using (pointText_chars hb ha c hc).2.1) (by decide)
  unfold unsignedVal
  simp only [h1, h2, List.tail_cons]
  rw [pointText_val hb ha, exponentVal_text]

theorem posText_val {q : ℚ} (hq : 0 < q) : unsignedVal (posText q) = round6 q := by
  obtain ⟨h1, h2, h3⟩ := sig6_spec hq
  rw [← h3]
  unfold posText
  generalize (sig6 q).1 = m at *
  generalize (sig6 q).2 = e at *
  have hd := digits6_lt m
  have hw := wholeL_digits6 h2
  have hlen : (digits6 m).length = 6 := rfl
  have hz : ∀ d ∈ [0], d < 10 := by simp
  simp only
  split
  · rw [sci_val (fun d h => hd d (List.mem_of_mem_take h)) (fun d h => hd d (List.mem_of_mem_drop h)), List.take_append_drop, hw, List.length_drop, hlen,
      zpow_sub₀ (by norm_num)]
    norm_num
    ring
  · split
    · rename_i h h'
      have hd' : ∀ d ∈ List.replicate (-e - 1).toNat 0 ++ digits6 m, d < 10 := by
        intro d h
        rcases List.mem_append.1 h with h | h
        · rw [(List.mem_replicate.1 h).2]; norm_num
        · exact hd d h
      rw [plain_val hz hd']
      have : wholeL ([0] ++ (List.replicate (-e - 1).toNat 0 ++ digits6 m)) = m := by
        rw [← List.append_assoc]
        have := wholeL_zeros ((-e - 1).toNat + 1) (digits6 m)
        rw [List.replicate_succ] at this
        rw [List.singleton_append, this, hw]
      rw [this, List.length_append, List.length_replicate, hlen, div_eq_mul_inv]
      congr 1
      rw [← zpow_natCast, ← zpow_neg]
      congr 1
      push_cast
      omega
    · rename_i h h'
      rw [plain_val (fun d h => hd d (List.mem_of_mem_take h)) (fun d h => hd d (List.mem_of_mem_drop h)), List.take_append_drop, hw, List.length_drop, hlen,
        div_eq_mul_inv]
      congr 1
      rw [← zpow_natCast, ← zpow_neg]
      congr 1
      omega

theorem posText_no_minus {q : ℚ} (r : List Char) : posText q ≠ '-' :: r := by
  intro h
  have hd := digits6_lt (sig6 q).1
  have key : ∀ (b a : List ℕ) (s r : List Char), b ≠ [] → (∀ d ∈ b, d < 10) → pointText b a ++ s ≠ '-' :: r := by
    intro b a s r hb hd h
    cases b with
    | nil => exact hb rfl
    | cons d b =>
      unfold pointText at h
      rw [List.map_cons, List.cons_append, List.cons_append] at h
      exact (digitChar_ne (hd d (by simp))).2.2.1 (List.cons.inj h).1
  unfold posText at h
  simp only at h
  split at h
  · exact key _ _ _ _ (by simp [digits6]) (fun d h => hd d (List.mem_of_mem_take h)) h
  · split at h
    · exact key [0] _ [] _ (by simp) (by simp) (by rw [List.append_nil]; exact h)
    · exact key ((digits6 (sig6 q).1).take ((sig6 q).2.toNat + 1)) _ [] _ (by simp [digits6]) (fun d h => hd d (List.mem_of_mem_take h)) (by rw [List.append_nil]; exact h)

theorem decimalVal_pos {q : ℚ} (hq : 0 < q) : decimalVal (posText q) = round6 q := by
  rw [← posText_val hq]
  unfold decimalVal
  split
  · rename_i r h; exact absurd h (posText_no_minus r)
  · rfl

/-- The characters in the text of a number are none of those of `inf` and `nan`, and no commas. -/
def ofNumber (c : Char) : Prop := c ≠ 'i' ∧ c ≠ 'n' ∧ c ≠ ','

theorem posText_chars (q : ℚ) : ∀ c ∈ posText q, ofNumber c := by
  have hd := digits6_lt (sig6 q).1
  have key : ∀ (b a : List ℕ), (∀ d ∈ b, d < 10) → (∀ d ∈ a, d < 10) → ∀ c ∈ pointText b a, ofNumber c :=
    fun b a hb ha c hc => (pointText_chars hb ha c hc).2.2
  intro c hc
  unfold posText at hc
  simp only at hc
  split at hc
  · rcases List.mem_append.1 hc with hc | hc
    · exact key _ _ (fun d h => hd d (List.mem_of_mem_take h)) (fun d h => hd d (List.mem_of_mem_drop h)) c hc
    · rcases List.mem_cons.1 hc with rfl | hc
      · unfold ofNumber; decide
      · unfold expText at hc
        rcases List.mem_cons.1 hc with rfl | hc
        · split <;> (unfold ofNumber; decide)
        · obtain ⟨d, hd', rfl⟩ := List.mem_map.1 hc
          have hlt : d < 10 := by
            split at hd'
            · simp at hd'; omega
            · exact Nat.digits_lt_base (b := 10) (by norm_num) (by simpa using hd')
          obtain ⟨_, _, _, h4, h5, h6⟩ := digitChar_ne hlt
          exact ⟨h4, h5, h6⟩
  · split at hc
    · refine key _ _ (by simp) ?_ c hc
      intro d h
      rcases List.mem_append.1 h with h | h
      · rw [(List.mem_replicate.1 h).2]; norm_num
      · exact hd d h
    · exact key _ _ (fun d h => hd d (List.mem_of_mem_take h)) (fun d h => hd d (List.mem_of_mem_drop h)) c hc

end Verif
