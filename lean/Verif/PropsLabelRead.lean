import Verif.PropsNumText

/-!
# Labels in plots as a reader takes them: property theorems C117
-/

namespace Verif

/-- What a reader takes the text of a number for. -/
def readEdge (s : List Char) : Num :=
  if s = ['i', 'n', 'f'] then .pinf
  else if s = ['-', 'i', 'n', 'f'] then .ninf
  else if s = ['n', 'a', 'n'] then .nan
  else .fin (decimalVal s)

/-- A bracket at the low end. -/
def readOpen : Char → Option Bool
  | '[' => some true
  | '(' => some false
  | _ => none

/-- A bracket at the high end. -/
def readClose : Char → Option Bool
  | ']' => some true
  | ')' => some false
  | _ => none

/-- What a reader takes a label for: `{NaN}`, or two numbers with a comma between them in brackets, of which square ones
mean that the end belongs to the interval.  Blanks before numbers mean nothing. -/
def readLabel (s : List Char) : Option BinLabel :=
  if s = ['{', 'N', 'a', 'N', '}'] then some .nan
  else
    match s.head?.bind readOpen, s.getLast?.bind readClose with
    | some cl, some ch =>
      let inside := (s.drop 1).dropLast
      some (.iv (readEdge ((inside.takeWhile (· ≠ ',')).dropWhile (· = ' ')))
        (readEdge (((inside.dropWhile (· ≠ ',')).drop 1).dropWhile (· = ' '))) cl ch)
    | _, _ => none

/-- A number with as many digits as labels have. -/
def Num.seen : Num → Num
  | .fin q => .fin (shownVal q)
  | x => x

theorem readEdge_text (x : Num) : readEdge (numChars x) = x.seen := by
  cases x with
  | nan => decide +kernel
  | pinf => decide +kernel
  | ninf => decide +kernel
  | fin q =>
    have hi : 'i' ∉ numChars (.fin q) := fun h => (fin_chars q 'i' h).1 rfl
    have hn : 'n' ∉ numChars (.fin q) := fun h => (fin_chars q 'n' h).2.1 rfl
    unfold readEdge
    rw [if_neg (fun h => hi (by rw [h]; decide)), if_neg (fun h => hi (by rw [h]; decide)), if_neg (fun h => hn (by rw [h]; decide))]
    rfl

theorem digitChar_noBlank {d : ℕ} (h : d < 10) : Nat.digitChar d ≠ ' ' := by
  interval_cases d <;> decide

theorem pointText_head {b a : List ℕ} {c : Char} (hb : b ≠ []) (hd : ∀ d ∈ b, d < 10) (h : (pointText b a).head? = some c) : c ≠ ' ' := by
  cases b with
  | nil => exact absurd rfl hb
  | cons d b =>
    unfold pointText at h
    rw [List.map_cons, List.cons_append, List.head?_cons] at h
    cases h
    exact digitChar_noBlank (hd d (by simp))

theorem posText_head (q : ℚ) (c : Char) (h : (posText q).head? = some c) : c ≠ ' ' := by
  have hd := digits6_lt (sig6 q).1
  have key : ∀ (b a : List ℕ) (s : List Char), b ≠ [] → (∀ d ∈ b, d < 10) → (pointText b a ++ s).head? = some c → c ≠ ' ' := by
    intro b a s hb hd h
    refine pointText_head (a := a) hb hd ?_
    rw [List.head?_append] at h
    cases hp : (pointText b a).head? with
    | none =>
      cases b with
      | nil => exact absurd rfl hb
      | cons d b => unfold pointText at hp; simp at hp
    | some x => rw [hp] at h; exact h
  unfold posText at h
  simp only at h
  split at h
  · exact key _ _ _ (by simp [digits6]) (fun d h => hd d (List.mem_of_mem_take h)) h
  · split at h
    · exact key [0] _ [] (by simp) (by simp) (by rw [List.append_nil]; exact h)
    · exact key ((digits6 (sig6 q).1).take ((sig6 q).2.toNat + 1)) _ [] (by simp [digits6])
        (fun d h => hd d (List.mem_of_mem_take h)) (by rw [List.append_nil]; exact h)

theorem numChars_head (x : Num) (c : Char) (h : (numChars x).head? = some c) : c ≠ ' ' := by
  cases x with
  | nan => cases h; decide
  | pinf => cases h; decide
  | ninf => cases h; decide
  | fin q =>
    rw [numChars_fin] at h
    split at h
    · cases h; decide
    · split at h
      · cases h; decide
      · exact posText_head _ c h

theorem strip_num (x : Num) : (numChars x).dropWhile (· = ' ') = numChars x := by
  cases hx : numChars x with
  | nil => rfl
  | cons c r =>
    have := numChars_head x c (by rw [hx]; rfl)
    rw [List.dropWhile_cons, if_neg (by simpa using this)]

/-- **C117** (labels): a label is read as the interval that it was made of, with the same ends open and closed and with the
low edge first; the edges have the six digits that are written. -/
theorem C117_label (key : Key → String) (lo hi : Num) (cl ch : Bool) :
    readLabel ((BinLabel.iv lo hi cl ch).text (pyFmt key)).toList = some (.iv lo.seen hi.seen cl ch) ∧
      readLabel (BinLabel.nan.text (pyFmt key)).toList = some .nan := by
  refine ⟨?_, by show readLabel "{NaN}".toList = _; decide +kernel⟩
  rw [iv_toList]
  have hin : (((if cl then '[' else '(') :: (if lo = .ninf then [' '] else []) ++ numChars lo) ++
      ',' :: (' ' :: numChars hi ++ [if ch then ']' else ')'])) =
      (if cl then '[' else '(') :: (((if lo = .ninf then [' '] else []) ++ numChars lo ++ ',' :: ' ' :: numChars hi) ++
        [if ch then ']' else ')']) := by simp
  rw [hin]
  generalize hb : (if lo = .ninf then [' '] else []) = blank
  have hbl : ∀ c ∈ blank, c = ' ' := by
    intro c hc; subst hb; split at hc
    · simpa using hc
    · cases hc
  unfold readLabel
  rw [if_neg (fun h => by have := (List.cons.inj h).1; cases cl <;> exact absurd this (by decide))]
  have e1 : ∀ r, ((if cl then '[' else '(') :: r : List Char).head?.bind readOpen = some cl := fun r => by cases cl <;> rfl
  have e2 : ∀ r, ((if cl then '[' else '(') :: (r ++ [if ch then ']' else ')']) : List Char).getLast?.bind readClose = some ch := by
    intro r
    rw [← List.cons_append, List.getLast?_append]
    cases ch <;> rfl
  rw [e1, e2]
  simp only [List.drop_succ_cons, List.drop_zero, List.dropLast_concat]
  obtain ⟨a1, a2⟩ := takeWhile_stop (fun c => decide (c ≠ ',')) (blank ++ numChars lo) ',' (' ' :: numChars hi) (by
    intro c hc
    rcases List.mem_append.1 hc with hc | hc
    · rw [hbl c hc]; decide
    · simpa using num_noComma lo c hc) (by decide)
  rw [a1, a2]
  have d1 : (blank ++ numChars lo).dropWhile (· = ' ') = numChars lo := by
    rw [List.dropWhile_append, (takeWhile_whole (fun c => decide (c = ' ')) blank (fun c hc => by simpa using hbl c hc)).2]
    simpa using strip_num lo
  have d2 : (List.drop 1 (',' :: ' ' :: numChars hi)).dropWhile (· = ' ') = numChars hi := by
    rw [List.drop_succ_cons, List.drop_zero, List.dropWhile_cons, if_pos (by decide)]
    exact strip_num hi
  rw [d1, d2, readEdge_text, readEdge_text]

/-- The underflow bin of an axis from -1/3, and a bin that is closed above. -/
example : readLabel "[ -inf, -0.333333)".toList = some (.iv .ninf (.fin (-333333 / 1000000)) true false) ∧
    readLabel "(1e+06, 1.5e+06]".toList = some (.iv (.fin 1000000) (.fin 1500000) false true) ∧
    readLabel "0.5".toList = none := by decide +kernel

/-- Larger numbers are not seen as smaller ones. -/
theorem seen_mono {x y : Num} (h : Num.le x y = true) : Num.le x.seen y.seen = true := by
  cases x <;> cases y <;> first
    | exact h
    | (simp only [Num.seen, Num.le, decide_eq_true_eq] at h ⊢; exact (C117_number _ _).2 h)

theorem le_of_num_lt {x y : Num} (h : Num.lt x y = true) : Num.le x y = true := by
  cases x <;> cases y <;> first
    | exact h
    | rfl
    | (simp only [Num.lt, Num.le, decide_eq_true_eq] at h ⊢; exact h.le)

/-- **C117** (labels): the label of every bin of a bin, intbin or split axis can be read; it is taken for an interval with,
up to the written digits, every number in it that belongs into the bin, and for the bin of NaN if that is what it is. -/
theorem C117_contains (key : Key → String) (a : FixedAxis) (ha : a.Built) (hn : a.numeric = true) (i : ℕ) (hi : i < a.totbins) :
    ∃ l, readLabel ((a.written i).text (pyFmt key)).toList = some l ∧ ∀ v, (a.written i).mem v →
      (l = .nan ∧ v = .nan) ∨ ∃ lo hi cl ch, l = .iv lo hi cl ch ∧ Num.le lo v.seen = true ∧ Num.le v.seen hi = true := by
  have hk : a.written i = .nan ∨ ∃ lo hi cl ch, a.written i = .iv lo hi cl ch := by
    obtain ⟨e, n, u, o, na, cl, h1, -, -, -⟩ := shown_flow a ha hn
    have hlen := shown_length a ha
    have hw : a.shown[i]? = some (a.written i) := by
      rw [← shown_written a ha i hi, List.getD_eq_getElem?_getD, List.getElem?_eq_getElem (by omega), Option.getD_some]
    rw [h1, flowKeys_get] at hw
    rcases hw with ⟨_, _, h⟩ | ⟨b, _, _, h⟩ | ⟨_, _, h⟩ | ⟨_, _, h⟩
    · exact .inr ⟨_, _, _, _, h⟩
    · exact .inr ⟨_, _, _, _, h⟩
    · exact .inr ⟨_, _, _, _, h⟩
    · exact .inl h
  rcases hk with hw | ⟨lo, hi, cl, ch, hw⟩
  · rw [hw]
    exact ⟨_, (C117_label key .nan .nan true true).2, fun v hv => .inl ⟨rfl, hv⟩⟩
  · rw [hw]
    refine ⟨_, (C117_label key lo hi cl ch).1, fun v hv => .inr ⟨_, _, _, _, rfl, seen_mono ?_, seen_mono ?_⟩⟩
    · have := hv.1; split at this
      · exact this
      · exact le_of_num_lt this
    · have := hv.2; split at this
      · exact this
      · exact le_of_num_lt this

example : ((FixedAxis.bin ⟨3, 0, 1, true, true, true, true⟩).written 2).mem (.fin (1 / 2)) ∧
    readLabel (((FixedAxis.bin ⟨3, 0, 1, true, true, true, true⟩).written 2).text (pyFmt fun _ => "")).toList =
      some (.iv (.fin (333333 / 1000000)) (.fin (666667 / 1000000)) true false) := by
  constructor
  · decide +kernel
  · decide +kernel

end Verif
