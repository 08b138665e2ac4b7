import Verif.ArithLemmas
import Verif.PropsFill

/-!
# Properties C21-C23, C25, C26, C29, C69: arithmetic and equality, on values

Which objects are shared after these operations is the subject of `Verif.PropsHeap`.
-/

namespace Verif

/-! ## reading sums and scaled contents -/

theorem hasGroup_length : ∀ (n : ℕ) (c : Content Arr n) (gk : List Key), HasGroup n c gk → gk.length ≤ n
  | 0, _, gk, h => by simp only [HasGroup] at h; subst h; simp
  | n + 1, _, [], _ => by simp
  | n + 1, _, k :: gk, h => by
    simp only [HasGroup] at h
    obtain ⟨c', _, h⟩ := h
    have := hasGroup_length n c' gk h
    simpa using this

theorem HistDef.has_length (H : HistDef) (st : H.State) (gk : List Key) (h : H.has st gk) : gk.length ≤ H.groups.length := by
  cases st with
  | none => exact h.elim
  | some c => exact hasGroup_length _ c gk h

theorem eqState_iff (H : HistDef) (s t : H.State) (hs : H.Good s) (ht : H.Good t) :
    eqState s t = true ↔ H.Same s t := by
  cases s with
  | none =>
    cases t with
    | none => simp [eqState, HistDef.Same]
    | some b =>
      have : ¬ H.Same none (some b) := by
        intro h
        exact (h.1 []).2 (hasGroup_nil' _ b)
      simp [eqState, this]
  | some a =>
    cases t with
    | none =>
      have : ¬ H.Same (some a) none := by
        intro h
        exact (h.1 []).1 (hasGroup_nil' _ a)
      simp [eqState, this]
    | some b => exact eqContent_iff H.layout _ a b hs ht

theorem addState_spec (H : HistDef) (a b : H.State) (ha : H.Proper a) (hb : H.Proper b) :
    ∃ c : H.State, addState a b = .ok c ∧ iaddState a b = .ok c ∧ H.Proper c ∧ (∀ gk, H.has c gk ↔ H.has a gk ∨ H.has b gk) ∧
      ∀ gk idx col, H.read c gk idx col = H.read a gk idx col + H.read b gk idx col := by
  cases a with
  | none =>
    cases b with
    | none => exact ⟨none, rfl, rfl, ha, by simp [HistDef.has], by simp [HistDef.read]⟩
    | some b => exact ⟨some b, rfl, rfl, hb, by simp [HistDef.has], by simp [HistDef.read]⟩
  | some a =>
    cases b with
    | none => exact ⟨some a, rfl, rfl, ha, by simp [HistDef.has], by simp [HistDef.read]⟩
    | some b =>
      refine ⟨some (plus _ a b), ?_, ?_, ⟨plus_shaped _ _ _ _ ha.1 hb.1, plus_distinct _ _ _ ha.2 hb.2⟩,
        plus_has _ a b, plus_lookup _ a b⟩
      · simp only [addState]
        rw [addContent_eq H.layout _ a b ha.2 hb.2 ha.1 hb.1]
        rfl
      · simp only [iaddState]
        rw [iaddContent_eq H.layout _ a b ha.2 hb.2 ha.1 hb.1]

theorem mulState_spec (H : HistDef) (k : ℚ) (a : Content Arr H.groups.length) (ha : H.Proper (some a)) :
    ∃ c : H.State, mulState k (some a) = .ok c ∧ imulState k (some a) = .ok c ∧ H.Proper c ∧
      (∀ gk, H.has c gk ↔ H.has (some a) gk) ∧
      ∀ gk idx col, H.read c gk idx col = H.read (some a) gk idx col * k :=
  ⟨_, rfl, rfl, ⟨mul_shaped _ _ _ _ ha.1, mul_distinct _ _ _ ha.2⟩, mul_has k _ a, mul_lookup k _ a⟩

/-- Everything that comes out of `fill` is a proper content. -/
theorem fillAll_proper (H : HistDef) (bs : List (List Row)) (hf : Fillable H bs) (st : H.State) (hst : H.Proper st) :
    ∃ s, H.fillAll st bs = .ok s ∧ H.Proper s := by
  obtain ⟨s, h1, h2, _⟩ := fillAll_rows H bs st hst.1 hf
  exact ⟨s, h1, h2, fillAll_wellFormed H bs st s hst.2 h1⟩

theorem proper_none (H : HistDef) : H.Proper none := ⟨trivial, trivial⟩

/-! ## C21 -/

/-- C21.  Fill two histograms of the same definition separately and add them: the sum is `==` to one
histogram filled with all the batches, it has in every group, bin and column the sum over the rows of
both data sets, and (so) the entries of a histogram filled with the same rows in any other way. -/
theorem C21_sum_is_fill_of_both (H : HistDef) (bs₁ bs₂ : List (List Row)) (h₁ : Fillable H bs₁) (h₂ : Fillable H bs₂) :
    ∃ a b c s, H.fillAll none bs₁ = .ok a ∧ H.fillAll none bs₂ = .ok b ∧ addState a b = .ok c ∧
      H.fillAll none (bs₁ ++ bs₂) = .ok s ∧ eqState c s = true ∧ H.Same c s ∧
      (∀ gk, gk.length = H.groups.length → ∀ idx, H.Cell idx → ∀ col,
        H.read c gk idx col = binTotal H (bs₁.flatten ++ bs₂.flatten) gk idx col) ∧
      ∀ bs, Fillable H bs → bs.flatten.Perm (bs₁.flatten ++ bs₂.flatten) → ∃ s', H.fillAll none bs = .ok s' ∧
        ∀ gk, gk.length = H.groups.length → ∀ idx, H.Cell idx → ∀ col, H.read c gk idx col = H.read s' gk idx col := by
  obtain ⟨a, a1, a2, a3, a4⟩ := fillAll_rows H bs₁ none trivial h₁
  obtain ⟨b, b1, b2, b3, b4⟩ := fillAll_rows H bs₂ none trivial h₂
  have h12 : Fillable H (bs₁ ++ bs₂) := by
    refine ⟨?_, ?_⟩
    · intro b hb
      rcases List.mem_append.1 hb with hb | hb
      · exact h₁.ok b hb
      · exact h₂.ok b hb
    · rcases h₁.prof with h | h
      · exact Or.inl h
      · rcases h₂.prof with h' | h'
        · exact Or.inl h'
        · right
          intro b hb
          rcases List.mem_append.1 hb with hb | hb
          · exact h b hb
          · exact h' b hb
  obtain ⟨s, s1, s2, s3, s4⟩ := fillAll_rows H (bs₁ ++ bs₂) none trivial h12
  have pa : H.Proper a := ⟨a2, fillAll_wellFormed H bs₁ none a trivial a1⟩
  have pb : H.Proper b := ⟨b2, fillAll_wellFormed H bs₂ none b trivial b1⟩
  obtain ⟨c, c1, _, c2, c3, c4⟩ := addState_spec H a b pa pb
  have hsum : ∀ gk, gk.length = H.groups.length → ∀ idx, H.Cell idx → ∀ col,
      H.read c gk idx col = binTotal H (bs₁.flatten ++ bs₂.flatten) gk idx col := by
    intro gk hgk idx hi col
    rw [c4, a4 gk hgk idx hi col, b4 gk hgk idx hi col, binTotal_append]
    simp [HistDef.read]
  have hsame : H.Same c s := by
    constructor
    · intro gk
      by_cases hgk : gk.length ≤ H.groups.length
      · rw [c3, a3 gk hgk, b3 gk hgk, s3 gk hgk]
        simp only [HistDef.has, false_or, List.mem_append, or_and_right, exists_or]
      · constructor
        · intro h; exact absurd (H.has_length c gk h) hgk
        · intro h; exact absurd (H.has_length s gk h) hgk
    · intro gk hgk idx hi col _
      rw [hsum gk hgk idx hi col, s4 gk hgk idx hi col]
      simp [HistDef.read]
  refine ⟨a, b, c, s, a1, b1, c1, s1, (eqState_iff H c s c2.1 s2).2 hsame, hsame, hsum, ?_⟩
  intro bs hbs hp
  obtain ⟨s', t1, _, _, t4⟩ := fillAll_rows H bs none trivial hbs
  refine ⟨s', t1, fun gk hgk idx hi col => ?_⟩
  rw [hsum gk hgk idx hi col, t4 gk hgk idx hi col, binTotal_perm H hp]
  simp [HistDef.read]

theorem exH_fillable1 : Fillable exH [[exRow "a" (1/2) (some 2), exRow "b" 1 (some 3)]] := by
  refine ⟨?_, Or.inl rfl⟩
  intro b hb r hr
  simp at hb
  subst hb; simp at hr; rcases hr with rfl | rfl <;> exact exRow_ok _ _ _ (by norm_num)

theorem exH_fillable2 : Fillable exH [[exRow "c" (1/3) (some 5), exRow "a" (1/2) (some 7)]] := by
  refine ⟨?_, Or.inl rfl⟩
  intro b hb r hr
  simp at hb
  subst hb; simp at hr; rcases hr with rfl | rfl <;> exact exRow_ok _ _ _ (by norm_num)

/-- Overlapping and different groups. -/
example : (match exH.fillAll none [[exRow "a" (1/2) (some 2), exRow "b" 1 (some 3)]],
      exH.fillAll none [[exRow "c" (1/3) (some 5), exRow "a" (1/2) (some 7)]] with
    | .ok a, .ok b => match addState a b with
      | .ok c => [exH.read c [.str "a"] [1] 0, exH.read c [.str "a"] [1] 1, exH.read c [.str "b"] [2] 0,
        exH.read c [.str "c"] [1] 0]
      | .error _ => []
    | _, _ => []) = [9, 53, 3, 5] := by decide +kernel

/-! ## C22 -/

/-- C22, commutativity. -/
theorem C22_comm (H : HistDef) (a b : H.State) (ha : H.Proper a) (hb : H.Proper b) :
    ∃ c d, addState a b = .ok c ∧ addState b a = .ok d ∧ eqState c d = true ∧ H.Same c d := by
  obtain ⟨c, c1, _, c2, c3, c4⟩ := addState_spec H a b ha hb
  obtain ⟨d, d1, _, d2, d3, d4⟩ := addState_spec H b a hb ha
  have : H.Same c d := by
    refine ⟨fun gk => ?_, fun gk _ idx _ col _ => ?_⟩
    · rw [c3, d3, or_comm]
    · rw [c4, d4, add_comm]
  exact ⟨c, d, c1, d1, (eqState_iff H c d c2.1 d2.1).2 this, this⟩

/-- C22, associativity. -/
theorem C22_assoc (H : HistDef) (a b c : H.State) (ha : H.Proper a) (hb : H.Proper b) (hc : H.Proper c) :
    ∃ ab abc bc abc', addState a b = .ok ab ∧ addState ab c = .ok abc ∧ addState b c = .ok bc ∧
      addState a bc = .ok abc' ∧ eqState abc abc' = true ∧ H.Same abc abc' := by
  obtain ⟨d, d1, _, d2, d3, d4⟩ := addState_spec H a b ha hb
  obtain ⟨e, e1, _, e2, e3, e4⟩ := addState_spec H d c d2 hc
  obtain ⟨f, f1, _, f2, f3, f4⟩ := addState_spec H b c hb hc
  obtain ⟨g, g1, _, g2, g3, g4⟩ := addState_spec H a f ha f2
  have : H.Same e g := by
    refine ⟨fun gk => ?_, fun gk _ idx _ col _ => ?_⟩
    · rw [e3, d3, g3, f3, or_assoc]
    · rw [e4, d4, g4, f4, add_assoc]
  exact ⟨d, e, f, g, d1, e1, f1, g1, (eqState_iff H e g e2.1 g2.1).2 this, this⟩

/-- C22, the cleared histogram (content `None`, hist.py:88-91) is a zero on both sides. -/
theorem C22_zero (H : HistDef) (a : H.State) (ha : H.Proper a) :
    ∃ c d, addState a none = .ok c ∧ addState none a = .ok d ∧ eqState c a = true ∧ eqState d a = true ∧
      H.Same c a ∧ H.Same d a := by
  have hs : H.Same a a := ⟨fun _ => Iff.rfl, fun _ _ _ _ _ _ => rfl⟩
  refine ⟨a, a, ?_, ?_, (eqState_iff H a a ha.1 ha.1).2 hs, (eqState_iff H a a ha.1 ha.1).2 hs, hs, hs⟩ <;> cases a <;> rfl

/-- Histories of fills give proper contents, so C22 applies to them. -/
example : ∃ a b, exH.fillAll none [[exRow "a" (1/2) (some 2), exRow "b" 1 (some 3)]] = .ok a ∧
    exH.fillAll none [[exRow "c" (1/3) (some 5), exRow "a" (1/2) (some 7)]] = .ok b ∧ exH.Proper a ∧ exH.Proper b := by
  obtain ⟨a, h1, h2⟩ := fillAll_proper exH _ exH_fillable1 none (proper_none _)
  obtain ⟨b, h3, h4⟩ := fillAll_proper exH _ exH_fillable2 none (proper_none _)
  exact ⟨a, b, h1, h3, h2, h4⟩

/-! ## C23 -/

/-- C23, the value: `a += b` makes `a` the very content that `a + b` has. -/
theorem C23_iadd_is_add (H : HistDef) (a b : H.State) (ha : H.Proper a) (hb : H.Proper b) :
    ∃ c, iaddState a b = .ok c ∧ addState a b = .ok c ∧ H.Proper c ∧
      (∀ gk, H.has c gk ↔ H.has a gk ∨ H.has b gk) ∧
      ∀ gk idx col, H.read c gk idx col = H.read a gk idx col + H.read b gk idx col := by
  obtain ⟨c, c1, c2, c3, c4, c5⟩ := addState_spec H a b ha hb
  exact ⟨c, c2, c1, c3, c4, c5⟩

example : (match exH.fillAll none [[exRow "a" (1/2) (some 2), exRow "b" 1 (some 3)]],
      exH.fillAll none [[exRow "c" (1/3) (some 5), exRow "a" (1/2) (some 7)]] with
    | .ok a, .ok b => match iaddState a b with
      | .ok c => [exH.read c [.str "a"] [1] 0, exH.read c [.str "b"] [2] 0, exH.read c [.str "c"] [1] 0]
      | .error _ => []
    | _, _ => []) = [9, 3, 5] := by decide +kernel

/-! ## C25 -/

/-- C25 for filled histograms: `a * k` succeeds and multiplies every entry, `*=` gives the same
content, `(a*k)*l == a*(k*l)`, `a*1 == a` and `(a+b)*k == a*k + b*k`.  What is missing: histograms
that were never filled (`C25_refuted_unfilled`). -/
theorem C25_linear_partial (H : HistDef) (a b : H.State) (ha : H.Proper a) (hb : H.Proper b) (fa : a ≠ none) (fb : b ≠ none)
    (k l : ℚ) :
    ∃ ak akl al1 akl' bk ab abk akbk, mulState k a = .ok ak ∧ imulState k a = .ok ak ∧
      (∀ gk idx col, H.read ak gk idx col = H.read a gk idx col * k) ∧ (∀ gk, H.has ak gk ↔ H.has a gk) ∧
      mulState l ak = .ok akl ∧ mulState (k * l) a = .ok akl' ∧ eqState akl akl' = true ∧
      mulState 1 a = .ok al1 ∧ eqState al1 a = true ∧
      mulState k b = .ok bk ∧ addState a b = .ok ab ∧ mulState k ab = .ok abk ∧ addState ak bk = .ok akbk ∧
      eqState abk akbk = true := by
  cases a with
  | none => exact absurd rfl fa
  | some a =>
    cases b with
    | none => exact absurd rfl fb
    | some b =>
      obtain ⟨ak, p1, p2, p3, p4, p5⟩ := mulState_spec H k a ha
      cases ak with
      | none => simp [mulState] at p1
      | some ak =>
        obtain ⟨akl, q1, q2, q3, q4, q5⟩ := mulState_spec H l ak p3
        obtain ⟨akl', r1, r2, r3, r4, r5⟩ := mulState_spec H (k * l) a ha
        obtain ⟨a1, s1, s2, s3, s4, s5⟩ := mulState_spec H 1 a ha
        obtain ⟨bk, t1, t2, t3, t4, t5⟩ := mulState_spec H k b hb
        obtain ⟨ab, u1, _, u3, u4, u5⟩ := addState_spec H (some a) (some b) ha hb
        cases ab with
        | none => exact absurd ((u4 []).2 (Or.inl (hasGroup_nil' _ a))) (by simp [HistDef.has])
        | some ab =>
          obtain ⟨abk, v1, v2, v3, v4, v5⟩ := mulState_spec H k ab u3
          obtain ⟨akbk, w1, _, w3, w4, w5⟩ := addState_spec H (some ak) bk p3 t3
          refine ⟨some ak, akl, a1, akl', bk, some ab, abk, akbk, p1, p2, p5, p4, q1, r1, ?_, s1, ?_, t1, u1, v1, w1, ?_⟩
          · rw [eqState_iff H akl akl' q3.1 r3.1]
            refine ⟨fun gk => by rw [q4, p4, r4], fun gk _ idx _ col _ => by rw [q5, p5, r5]; ring⟩
          · rw [eqState_iff H a1 _ s3.1 ha.1]
            exact ⟨s4, fun gk _ idx _ col _ => by rw [s5]; ring⟩
          · rw [eqState_iff H abk akbk v3.1 w3.1]
            refine ⟨fun gk => by rw [v4, u4, w4, p4, t4], fun gk _ idx _ col _ => by rw [v5, u5, w5, p5, t5]; ring⟩

example : ∃ a, exH.fillAll none [[exRow "a" (1/2) (some 2), exRow "b" 1 (some 3)]] = .ok (some a) ∧ exH.Proper (some a) := by
  obtain ⟨a, h1, h2⟩ := fillAll_proper exH _ exH_fillable1 none (proper_none _)
  cases a with
  | none =>
    have e : (match exH.fillAll none [[exRow "a" (1/2) (some 2), exRow "b" 1 (some 3)]] with
      | .ok (some _) => true
      | _ => false) = true := by decide +kernel
    rw [h1] at e; cases e
  | some a => exact ⟨a, h1, h2⟩

/-- C25 does not hold for a histogram that was never filled: `h * k` and `h *= k` raise `TypeError`
(hist.py:576, 594), although its entries are all zero and `h + h` works. -/
theorem C25_refuted_unfilled (H : HistDef) (k : ℚ) :
    mulState k (none : H.State) = .error .typeError ∧ imulState k (none : H.State) = .error (.typeError, none) ∧
    addState (none : H.State) none = .ok none := ⟨rfl, rfl, rfl⟩

/-! ## C26 -/

/-- The row with its weight multiplied by `k`. -/
def Row.scaled (k : ℚ) (r : Row) : Row := { r with w := r.w.map (· * k) }

theorem Row.scaled_ok (H : HistDef) (k : ℚ) (r : Row) (h : r.Ok H) : (r.scaled k).Ok H := ⟨h.groups, h.fixed, h.xs⟩

theorem scaled_fillable (H : HistDef) (k : ℚ) (bs : List (List Row)) (h : Fillable H bs) :
    Fillable H (bs.map (List.map (Row.scaled k))) := by
  refine ⟨?_, h.prof.imp id ?_⟩
  · intro b hb r hr
    obtain ⟨b', hb', rfl⟩ := List.mem_map.1 hb
    obtain ⟨r', hr', rfl⟩ := List.mem_map.1 hr
    exact Row.scaled_ok H k r' (h.ok b' hb' r' hr')
  · intro h b hb r hr
    obtain ⟨b', hb', rfl⟩ := List.mem_map.1 hb
    obtain ⟨r', hr', rfl⟩ := List.mem_map.1 hr
    exact h b' hb' r' hr'

theorem scaled_weight (k : ℚ) (r : Row) : (r.scaled k).weight .expr = r.weight .expr * k := by
  simp only [Row.weight, Row.scaled]
  cases r.w <;> simp

theorem scaled_adds (H : HistDef) (hw : H.wkind = .expr) (k : ℚ) (r : Row) (col : ℕ) :
    (r.scaled k).adds H col = r.adds H col * (if col = 2 * H.nprof + 1 then k ^ 2 else k) := by
  have hx : (r.scaled k).xs = r.xs := rfl
  unfold Row.adds
  rw [hw, scaled_weight, hx]
  have : ((WKind.expr ≠ WKind.none)) := by decide
  by_cases h1 : col < 2 * H.nprof
  · have h3 : col ≠ 2 * H.nprof + 1 := by omega
    simp only [h1, if_true, h3, if_false]
    split <;> ring
  · by_cases h2 : col = 2 * H.nprof
    · subst h2; simp
    · by_cases h3 : col = 2 * H.nprof + 1
      · subst h3; simp [this]; ring
      · simp [h1, h2, h3]

theorem sum_map_mul {α : Type} (f : α → ℚ) (k : ℚ) (l : List α) : (l.map (fun x => f x * k)).sum = (l.map f).sum * k := by
  induction l with
  | nil => simp
  | cons a l ih => simp [ih]; ring

theorem binTotal_scaled (H : HistDef) (hw : H.wkind = .expr) (k : ℚ) (rows : List Row) (gk : List Key) (idx : List ℕ) (col : ℕ) :
    binTotal H (rows.map (Row.scaled k)) gk idx col =
      binTotal H rows gk idx col * (if col = 2 * H.nprof + 1 then k ^ 2 else k) := by
  unfold binTotal
  have : (rows.map (Row.scaled k)).filter (Row.lands H gk idx) = (rows.filter (Row.lands H gk idx)).map (Row.scaled k) := by
    rw [List.filter_map]; rfl
  rw [this, List.map_map, ← sum_map_mul]
  congr 1
  apply List.map_congr_left
  intro r _
  exact scaled_adds H hw k r col

/-- C26, partial: for every weighted histogram, `h * k` has in the count and profile columns what
filling with every weight multiplied by `k` gives.  What is missing: the column of the squared
weights, hence the errors; there `h * k` has a factor `k` where the fill has `k²`
(`C26_refuted`). -/
theorem C26_scaled_counts_partial (H : HistDef) (hw : H.wkind = .expr) (k : ℚ) (bs : List (List Row)) (hf : Fillable H bs)
    (hne : bs ≠ []) :
    ∃ s sk t, H.fillAll none bs = .ok s ∧ mulState k s = .ok sk ∧
      H.fillAll none (bs.map (List.map (Row.scaled k))) = .ok t ∧
      (∀ gk, gk.length = H.groups.length → ∀ idx, H.Cell idx → ∀ col, col ≠ 2 * H.nprof + 1 →
        H.read sk gk idx col = H.read t gk idx col) ∧
      ∀ gk, gk.length = H.groups.length → ∀ idx, H.Cell idx →
        H.read sk gk idx (2 * H.nprof + 1) * k = H.read t gk idx (2 * H.nprof + 1) := by
  obtain ⟨s, s1, s2, s3, s4⟩ := fillAll_rows H bs none trivial hf
  obtain ⟨t, t1, t2, t3, t4⟩ := fillAll_rows H _ none trivial (scaled_fillable H k bs hf)
  cases s with
  | none =>
    have := (s3 [] (by simp)).2 (by
      right
      obtain ⟨b, hb⟩ := List.exists_mem_of_ne_nil bs hne
      exact ⟨b, hb, by simp⟩)
    exact this.elim
  | some c =>
    have hp : H.Proper (some c) := ⟨s2, fillAll_wellFormed H bs none _ trivial s1⟩
    obtain ⟨sk, k1, _, _, _, k5⟩ := mulState_spec H k c hp
    have hread : ∀ gk, gk.length = H.groups.length → ∀ idx, H.Cell idx → ∀ col, H.read t gk idx col =
        H.read (some c) gk idx col * (if col = 2 * H.nprof + 1 then k ^ 2 else k) := by
      intro gk hgk idx hi col
      rw [t4 gk hgk idx hi col, s4 gk hgk idx hi col, ← List.map_flatten, binTotal_scaled H hw]
      simp [HistDef.read]
    refine ⟨some c, sk, t, s1, k1, t1, ?_, ?_⟩
    · intro gk hgk idx hi col hc
      rw [k5, hread gk hgk idx hi col]
      simp [hc]
    · intro gk hgk idx hi
      rw [k5, hread gk hgk idx hi]
      simp; ring

example : Fillable exH [[exRow "a" (1/2) (some 2), exRow "b" 1 (some 3)]] ∧ exH.wkind = .expr :=
  ⟨exH_fillable1, rfl⟩

/-- C26 does not hold: one event of weight 2 in a bin, scaled by 3, has sum of squared weights 12;
an event of weight 6 has 36. -/
theorem C26_refuted : ¬ ∀ (H : HistDef) (k : ℚ) (bs : List (List Row)) (s sk t : H.State), H.wkind = .expr → Fillable H bs →
    H.fillAll none bs = .ok s → mulState k s = .ok sk → H.fillAll none (bs.map (List.map (Row.scaled k))) = .ok t →
    H.Same sk t := by
  intro h
  obtain ⟨s, sk, t, h1, h2, h3, _, _⟩ := C26_scaled_counts_partial exH rfl 3 _ exH_fillable1 (by simp)
  have hs := (h exH 3 _ s sk t rfl exH_fillable1 h1 h2 h3).2 [.str "a"] rfl [1] (by
    refine .cons ?_ .nil; decide +kernel) 1 (by decide +kernel)
  have e1 : (match exH.fillAll none [[exRow "a" (1/2) (some 2), exRow "b" 1 (some 3)]] with
    | .ok s => match mulState 3 s with
      | .ok sk => exH.read sk [.str "a"] [1] 1
      | .error _ => 0
    | .error _ => 0) = 12 := by decide +kernel
  have e2 : (match exH.fillAll none ([[exRow "a" (1/2) (some 2), exRow "b" 1 (some 3)]].map (List.map (Row.scaled 3))) with
    | .ok t => exH.read t [.str "a"] [1] 1
    | .error _ => 0) = 36 := by decide +kernel
  rw [h1] at e1
  simp only [h2] at e1
  rw [h3] at e2
  simp only at e2
  rw [e1, e2] at hs
  exact absurd hs (by norm_num)

/-! ## C29 -/

/-- The same axes, perhaps with other weights. -/
def SameAxes (H H' : HistDef) : Prop := H.groups = H'.groups ∧ H.fixed = H'.fixed ∧ H.nprof = H'.nprof

/-- C29, partial: two contents with the same columns are added column by column.  What is missing:
histograms with other columns or other weights are not always rejected (`C29_refuted`,
`C29_refuted_groups`); see also `C29_raises_partial`. -/
theorem C29_same_columns_partial (H : HistDef) (a b : H.State) (ha : H.Proper a) (hb : H.Proper b) :
    ∃ c, addState a b = .ok c ∧ H.Good c ∧
      ∀ gk idx col, H.read c gk idx col = H.read a gk idx col + H.read b gk idx col := by
  obtain ⟨c, c1, _, c3, _, c5⟩ := addState_spec H a b ha hb
  exact ⟨c, c1, c3.1, c5⟩

example : ∃ a b, exH.fillAll none [[exRow "a" (1/2) (some 2), exRow "b" 1 (some 3)]] = .ok a ∧
    exH.fillAll none [[exRow "c" (1/3) (some 5), exRow "a" (1/2) (some 7)]] = .ok b ∧ exH.Proper a ∧ exH.Proper b := by
  obtain ⟨a, h1, h2⟩ := fillAll_proper exH _ exH_fillable1 none (proper_none _)
  obtain ⟨b, h3, h4⟩ := fillAll_proper exH _ exH_fillable2 none (proper_none _)
  exact ⟨a, b, h1, h3, h2, h4⟩

theorem ncols_eq (H : HistDef) : H.layout.ncols = 2 * H.nprof + (if H.wkind = .none then 1 else 2) := by
  unfold HistDef.layout Layout.make Layout.ncols
  cases H.wkind <;> simp

/-- C29, partial: without group axes and with at least one profile, adding a weighted and an
unweighted histogram raises `ValueError`. -/
theorem C29_raises_partial (H H' : HistDef) (hs : SameAxes H H') (hw : H.wkind = .none) (hw' : H'.wkind ≠ .none)
    (hp : 1 ≤ H.nprof) (a b : Arr) (ha : Shaped H.layout 0 a) (hb : Shaped H'.layout 0 b) :
    addContent 0 a b = .error .valueError ∧ addContent 0 b a = .error .valueError ∧
    iaddContent 0 a b = .error (.valueError, a) ∧ iaddContent 0 b a = .error (.valueError, b) := by
  have h1 : a.ncols = 2 * H.nprof + 1 := by rw [ha.2, ncols_eq, if_pos hw]
  have h2 : b.ncols = 2 * H.nprof + 2 := by rw [hb.2, ncols_eq, if_neg hw', hs.2.2]
  have hne : a.ncols ≠ b.ncols := by omega
  have hne' : b.ncols ≠ a.ncols := by omega
  have ha1 : a.ncols ≠ 1 := by omega
  have hb1 : b.ncols ≠ 1 := by omega
  have key : a.add b = .error .valueError ∧ b.add a = .error .valueError ∧
      a.iadd b = .error .valueError ∧ b.iadd a = .error .valueError := by
    unfold Arr.add Arr.iadd
    simp [hne, hne', ha1, hb1]
  refine ⟨key.1, key.2.1, ?_, ?_⟩
  · simp only [iaddContent, key.2.2.1]
  · simp only [iaddContent, key.2.2.2]

example : SameAxes exP { exP with wkind := .expr } ∧ (1 : ℕ) ≤ exP.nprof ∧
    Shaped exP.layout 0 (emptyContent exP.layout 0) := by
  refine ⟨⟨rfl, rfl, rfl⟩, by decide, ?_⟩
  exact ⟨rfl, rfl⟩

/-- `Hist(bin("x", 2, 0, 2))` and `Hist(bin("x", 2, 0, 2), weight="w")` -/
def exU : HistDef := ⟨[], [.bin ⟨2, 0, 2, true, true, true, true⟩], 0, .none⟩
def exW : HistDef := ⟨[], [.bin ⟨2, 0, 2, true, true, true, true⟩], 0, .expr⟩

/-- C29 does not hold: an unweighted histogram with one event and a weighted one with an event of
weight 3 in the same bin can be added; the single column of the first is added to the count *and*
to the sum of squared weights of the second. -/
theorem C29_refuted : SameAxes exU exW ∧ exU.layout.ncols ≠ exW.layout.ncols ∧
    (match exU.fillAll none [[⟨[], [.num (.fin 0)], [], none⟩]], exW.fillAll none [[⟨[], [.num (.fin 0)], [], some 3⟩]] with
    | .ok a, .ok b =>
      match addState (n := 0) a b with
      | .ok c => some (exW.read c [] [1] 0, exW.read c [] [1] 1, exW.read c [] [2] 1)
      | .error _ => none
    | _, _ => none) = some (4, 10, 0) := by
  refine ⟨⟨rfl, rfl, rfl⟩, by decide, by decide +kernel⟩

/-- the number of columns of the array of a group -/
def colsAt (n : ℕ) (c : Content Arr n) (gk : List Key) : Option ℕ :=
  match n, c, gk with
  | 0, (a : Arr), _ => some a.ncols
  | _ + 1, _, [] => none
  | n + 1, (d : List (Key × Content Arr n)), k :: gk =>
    match dget d k with
    | none => none
    | some c => colsAt n c gk

/-- C29 does not hold with groups either: if the groups differ, the arrays are put side by side, and
the sum has arrays of different shapes. -/
theorem C29_refuted_groups :
    (match (⟨[.groupby], [], 0, .none⟩ : HistDef).fillAll none [[⟨[.key (.str "a")], [], [], none⟩]],
      (⟨[.groupby], [], 0, .expr⟩ : HistDef).fillAll none [[⟨[.key (.str "b")], [], [], some 3⟩]] with
    | .ok a, .ok b =>
      match addState (n := 1) a b with
      | .ok (some c) => some (colsAt 1 c [.str "a"], colsAt 1 c [.str "b"])
      | _ => none
    | _, _ => none) = some (some 1, some 2) := by decide +kernel

/-! ## C30 -/

theorem groupWeight_all_none : ∀ ws : List (Option WOrig), (∀ w ∈ ws, w = none) → groupWeight none ws = .ok none
  | [], _ => rfl
  | w :: ws, h => by
    have := h w (by simp)
    subst this
    exact groupWeight_all_none ws (fun w hw => h w (by simp [hw]))

theorem groupWeight_some : ∀ (ws : List (Option WOrig)) (w : WOrig), (∀ w ∈ ws, w ≠ none) →
    ∃ w', groupWeight (some w) ws = .ok (some w') ∧ (∀ v, w = v → (∀ u ∈ ws, u = some v) → w' = v)
  | [], w, _ => ⟨w, rfl, by simp⟩
  | none :: ws, w, h => absurd rfl (h none (by simp))
  | some x :: ws, w, h => by
    simp only [groupWeight]
    by_cases hwx : w = x
    · rw [if_pos hwx]
      obtain ⟨w', h1, h2⟩ := groupWeight_some ws w (fun u hu => h u (by simp [hu]))
      exact ⟨w', h1, fun v hv hu => h2 v hv (fun u hu' => hu u (by simp [hu']))⟩
    · rw [if_neg hwx]
      obtain ⟨w', h1, h2⟩ := groupWeight_some ws (.num 1) (fun u hu => h u (by simp [hu]))
      refine ⟨w', h1, fun v hv hu => ?_⟩
      have := hu (some x) (by simp)
      simp only [Option.some.injEq] at this
      exact absurd (hv.trans this.symm) hwx

theorem dget_groupContent {n : ℕ} (hs : List (Grouped n)) (hn : (hs.map (·.name)).Nodup) (h : Grouped n) (hh : h ∈ hs) :
    dget (groupContent hs) (.str h.name) = some h.content := by
  unfold groupContent
  have := dget_of_mem (hs.map (fun h => (Key.str h.name, h.content))) (by
    rw [List.map_map]
    have : ((fun x : Key × Option (Content Arr n) => x.1) ∘ fun h : Grouped n => (Key.str h.name, h.content)) =
      (Key.str ∘ fun h : Grouped n => h.name) := rfl
    rw [this, ← List.map_map]
    exact hn.map (fun a b h => by cases h; rfl)) (Key.str h.name, h.content) (List.mem_map.2 ⟨h, hh, rfl⟩)
  exact this

/-- the content as one of the grouped histogram, if all parts were filled -/
def groupFilled {n : ℕ} : List (Key × Option (Content Arr n)) → Option (Content Arr (n + 1))
  | [] => some ([] : List (Key × Content Arr n))
  | (_, none) :: _ => none
  | (k, some c) :: rest =>
    match groupFilled rest with
    | none => none
    | some d => some ((k, c) :: (d : List (Key × Content Arr n)) : List (Key × Content Arr n))

theorem dget_groupFilled {n : ℕ} : ∀ (l : List (Key × Option (Content Arr n))), (∀ p ∈ l, p.2 ≠ none) →
    ∃ d : List (Key × Content Arr n), groupFilled l = some d ∧ d.map (·.1) = l.map (·.1) ∧
      (∀ p ∈ d, (p.1, some p.2) ∈ l) ∧ ∀ k, (dget d k).map some = dget l k
  | [], _ => ⟨[], rfl, rfl, by simp, by simp [dget_nil]⟩
  | (k, none) :: rest, h => absurd rfl (h (k, none) (by simp))
  | (k, some c) :: rest, h => by
    obtain ⟨d, h1, h2, h3, h4⟩ := dget_groupFilled rest (fun p hp => h p (by simp [hp]))
    refine ⟨(k, c) :: d, ?_, ?_, ?_, ?_⟩
    · simp only [groupFilled, h1]; rfl
    · simp [h2]
    · intro p hp
      rcases List.mem_cons.1 hp with rfl | hp
      · simp
      · exact List.mem_cons_of_mem _ (h3 p hp)
    · intro k'
      rw [dget_cons, dget_cons]
      split
      · simp
      · exact h4 k'

/-- C30, partial.  Histograms with the same axes and distinct names, either all without weight and
filter or all with a weight: in every order of the arguments `Hist.group` succeeds and has under each
name the content of that histogram (which may be `None`).  If all were filled, the result is a proper
content of the grouped histogram, and its entries are those of the histogram with that name.  What is
missing: mixed weights and filters (`C30_refuted_order`, `C30_refuted_mixed`, `C30_refuted_filter`). -/
theorem C30_group_partial (H : HistDef) (hs hs' : List (Grouped H.groups.length)) (hp : hs'.Perm hs) (hne : hs ≠ [])
    (hn : (hs.map (·.name)).Nodup)
    (hw : (H.wkind = .none ∧ ∀ h ∈ hs, h.weight = none) ∨ (H.wkind ≠ .none ∧ ∀ h ∈ hs, h.weight ≠ none))
    (hc : ∀ h ∈ hs, H.Proper h.content) :
    ∃ w cs, groupHists hs' = .ok (w, cs) ∧ (w = none ↔ H.wkind = .none) ∧
      (∀ v, (∀ h ∈ hs, h.weight = some v) → w = some v) ∧
      (∀ h ∈ hs, dget cs (.str h.name) = some h.content) ∧
      (∀ k, dget cs k ≠ none → ∃ h ∈ hs, k = .str h.name) ∧
      ((∀ h ∈ hs, h.content ≠ none) → ∃ c : Content Arr (H.groups.length + 1), groupFilled cs = some c ∧
        (H.grouped w).Proper (some c) ∧
        ∀ h ∈ hs, (∀ gk, (H.grouped w).has (some c) (.str h.name :: gk) ↔ H.has h.content gk) ∧
          ∀ gk idx col, (H.grouped w).read (some c) (.str h.name :: gk) idx col = H.read h.content gk idx col) := by
  have hmem : ∀ h, h ∈ hs' ↔ h ∈ hs := fun h => hp.mem_iff
  have hn' : (hs'.map (·.name)).Nodup := (hp.map _).nodup_iff.2 hn
  obtain ⟨w, hgw, hw1, hw2⟩ : ∃ w, groupWeight none (hs'.map (·.weight)) = .ok w ∧ (w = none ↔ H.wkind = .none) ∧
      (∀ v, (∀ h ∈ hs, h.weight = some v) → w = some v) := by
    have hne' : hs' ≠ [] := by
      intro h; rw [h] at hp; exact hne hp.nil_eq.symm
    rcases hw with ⟨hk, hw⟩ | ⟨hk, hw⟩
    · refine ⟨none, groupWeight_all_none _ ?_, by simp [hk], ?_⟩
      · intro w hw'
        obtain ⟨h, hh, rfl⟩ := List.mem_map.1 hw'
        exact hw h ((hmem h).1 hh)
      · intro v hv
        obtain ⟨h, hh⟩ := List.exists_mem_of_ne_nil hs hne
        have := hw h hh
        rw [hv h hh] at this; cases this
    · cases hs' with
      | nil => exact absurd rfl hne'
      | cons h0 hs' =>
        obtain ⟨w0, hw0⟩ := Option.ne_none_iff_exists'.1 (hw h0 ((hmem h0).1 (by simp)))
        simp only [List.map_cons, groupWeight, hw0]
        obtain ⟨w', h1, h2⟩ := groupWeight_some (hs'.map (·.weight)) w0 (by
          intro w hw'
          obtain ⟨h, hh, rfl⟩ := List.mem_map.1 hw'
          exact hw h ((hmem h).1 (by simp [hh])))
        refine ⟨some w', h1, by simp [hk], ?_⟩
        intro v hv
        have e0 := hv h0 ((hmem h0).1 (by simp))
        rw [hw0] at e0
        simp only [Option.some.injEq] at e0 ⊢
        apply h2 v e0
        intro u hu
        obtain ⟨h, hh, rfl⟩ := List.mem_map.1 hu
        exact hv h ((hmem h).1 (by simp [hh]))
  have hget : ∀ h ∈ hs, dget (groupContent hs') (.str h.name) = some h.content := fun h hh =>
    dget_groupContent hs' hn' h ((hmem h).2 hh)
  refine ⟨w, groupContent hs', ?_, hw1, hw2, hget, ?_, ?_⟩
  · unfold groupHists
    split
    · exact absurd hp.nil_eq.symm hne
    · rw [hgw]; rfl
  · intro k hk
    obtain ⟨x, hx⟩ := Option.ne_none_iff_exists'.1 hk
    have := mem_of_dget _ _ _ hx
    obtain ⟨h, hh, heq⟩ := List.mem_map.1 this
    exact ⟨h, (hmem h).1 hh, by cases heq; rfl⟩
  · intro hf
    obtain ⟨d, d1, d2, d3, d4⟩ := dget_groupFilled (groupContent hs') (by
      intro p hp'
      obtain ⟨h, hh, rfl⟩ := List.mem_map.1 hp'
      exact hf h ((hmem h).1 hh))
    have hlay : ∀ n (c : Content Arr n), Shaped H.layout n c → Shaped (H.grouped w).layout n c := by
      have hd : (H.grouped w).layout.dims = H.layout.dims := rfl
      have hc : (H.grouped w).layout.ncols = H.layout.ncols := by
        rw [ncols_eq, ncols_eq]
        have : (H.grouped w).wkind = .none ↔ H.wkind = .none := by
          rw [← hw1]
          unfold HistDef.grouped WOrig.kind
          cases w with
          | none => simp
          | some w => cases w <;> simp
        simp only [this]
        rfl
      intro n
      induction n with
      | zero => intro c h; exact ⟨h.1.trans hd.symm, h.2.trans hc.symm⟩
      | succ n ih => intro c h k c' hk; exact ih c' (h k c' hk)
    have hel : ∀ k c, dget d k = some c → ∃ h ∈ hs, h.content = some c := by
      intro k c hk
      have h1 := d4 k
      rw [hk] at h1
      have := mem_of_dget _ _ _ h1.symm
      obtain ⟨h, hh, heq⟩ := List.mem_map.1 this
      exact ⟨h, (hmem h).1 hh, congrArg Prod.snd heq⟩
    refine ⟨d, d1, ⟨?_, ?_⟩, ?_⟩
    · intro k c hk
      obtain ⟨h, hh, hhc⟩ := hel k c hk
      have := (hc h hh).1
      rw [hhc] at this
      exact hlay _ c this
    · refine ⟨?_, ?_⟩
      · show (d.map (·.1)).Nodup
        rw [d2]
        unfold groupContent
        rw [List.map_map]
        have : ((fun x : Key × Option (Content Arr H.groups.length) => x.1) ∘ fun h : Grouped _ => (Key.str h.name, h.content)) =
          (Key.str ∘ fun h : Grouped _ => h.name) := rfl
        rw [this, ← List.map_map]
        exact hn'.map (fun a b h => by cases h; rfl)
      · intro p hp'
        have := d3 p hp'
        obtain ⟨h, hh, heq⟩ := List.mem_map.1 this
        have h2 := (hc h ((hmem h).1 hh)).2
        have h3 : h.content = some p.2 := congrArg Prod.snd heq
        rw [h3] at h2
        exact h2
    · intro h hh
      obtain ⟨c, hcc⟩ := Option.ne_none_iff_exists'.1 (hf h hh)
      have h1 := d4 (.str h.name)
      rw [hget h hh, hcc] at h1
      have h2 : dget d (.str h.name) = some c := by
        cases hd : dget d (.str h.name) with
        | none => rw [hd] at h1; cases h1
        | some c' => rw [hd] at h1; cases h1; rfl
      refine ⟨fun gk => ?_, fun gk idx col => ?_⟩
      · have : (H.grouped w).has (some d) (.str h.name :: gk) ↔ ∃ c, dget d (.str h.name) = some c ∧ HasGroup H.groups.length c gk := Iff.rfl
        rw [this, h2, hcc]
        simp [HistDef.has]
      · show lookup (H.groups.length + 1) d (.str h.name :: gk) idx col = _
        simp only [lookup]
        rw [h2, hcc]
        rfl

/-- Two weighted histograms, in both orders. -/
example : (match exW.fillAll none [[⟨[], [.num (.fin 0)], [], some 3⟩]], exW.fillAll none [[⟨[], [.num (.fin 1)], [], some 5⟩]] with
    | .ok a, .ok b =>
      match groupHists [⟨"b", some (.expr "w"), b⟩, ⟨"a", some (.expr "v"), a⟩] with
      | .ok (w, cs) => match groupFilled (n := 0) cs with
        | some c => some (w, (exW.grouped w).read (some c) [.str "a"] [1] 0, (exW.grouped w).read (some c) [.str "b"] [2] 1)
        | none => none
      | .error _ => none
    | _, _ => none) = some (some (.num 1), 3, 25) := by decide +kernel

example : ([⟨"b", some (.expr "w"), none⟩, ⟨"a", some (.expr "v"), none⟩] : List (Grouped 0)).Perm
      [⟨"a", some (.expr "v"), none⟩, ⟨"b", some (.expr "w"), none⟩] ∧
    (([⟨"a", some (.expr "v"), none⟩, ⟨"b", some (.expr "w"), none⟩] : List (Grouped 0)).map (·.name)).Nodup :=
  ⟨.swap _ _ _, by decide⟩

/-- C30 does not hold for a mixture of weighted and unweighted histograms: whether `Hist.group` raises
depends on the order of the arguments. -/
theorem C30_refuted_order (n : ℕ) (a b : Option (Content Arr n)) :
    groupHists [⟨"b", some (.expr "w"), b⟩, ⟨"a", none, a⟩] = .error .typeError ∧
    ∃ w cs, groupHists [⟨"a", none, a⟩, ⟨"b", some (.expr "w"), b⟩] = .ok (w, cs) :=
  ⟨rfl, _, _, rfl⟩

/-- C30 does not hold in the order that is accepted either: the grouped histogram is weighted, but the
unweighted part keeps its array with one column, which the grouped histogram cannot use. -/
theorem C30_refuted_mixed :
    (match groupHists [⟨"a", none, some (emptyContent exU.layout 0)⟩, ⟨"b", some (.expr "w"), some (emptyContent exW.layout 0)⟩] with
    | .ok (w, cs) => match groupFilled (n := 0) cs with
      | some c => some ((exU.grouped w).layout.ncols, colsAt 1 c [.str "a"], colsAt 1 c [.str "b"])
      | none => none
    | .error _ => none) = some (2, some 1, some 2) := by decide +kernel

/-- C30 does not hold for histograms with a filter and no weight: their arrays have two columns (they
are filled with weights 0 and 1), the grouped histogram has lost the filter and expects one. -/
theorem C30_refuted_filter :
    (match groupHists [⟨"a", none, some (emptyContent exW.layout 0)⟩] with
    | .ok (w, cs) => match groupFilled (n := 0) cs with
      | some c => some ((exW.grouped w).layout.ncols, colsAt 1 c [.str "a"])
      | none => none
    | .error _ => none) = some (1, some 2) := by decide +kernel

/-! ## C69 -/

theorem same_refl (H : HistDef) (s : H.State) : H.Same s s := ⟨fun _ => Iff.rfl, fun _ _ _ _ _ _ => rfl⟩

theorem same_symm (H : HistDef) {s t : H.State} (h : H.Same s t) : H.Same t s :=
  ⟨fun gk => (h.1 gk).symm, fun gk hgk idx hi col hc => (h.2 gk hgk idx hi col hc).symm⟩

theorem same_trans (H : HistDef) {s t u : H.State} (h : H.Same s t) (h' : H.Same t u) : H.Same s u :=
  ⟨fun gk => (h.1 gk).trans (h'.1 gk), fun gk hgk idx hi col hc => (h.2 gk hgk idx hi col hc).trans (h'.2 gk hgk idx hi col hc)⟩

/-- What `==` should mean: the same definition and settings, and contents that look the same. -/
inductive HistObj.Alike {α : Type} : HistObj α → HistObj α → Prop
  | mk (H : HistDef) (m : α) (s t : H.State) : H.Same s t → Alike ⟨H, m, s⟩ ⟨H, m, t⟩

theorem eqHist_iff {α : Type} [DecidableEq α] (x y : HistObj α) (hx : x.H.Good x.content) (hy : y.H.Good y.content) :
    eqHist x y = true ↔ x.Alike y := by
  obtain ⟨H, m, s⟩ := x
  obtain ⟨H', m', t⟩ := y
  unfold eqHist
  constructor
  · intro h
    split at h
    · rename_i hH
      cases hH
      simp only [Bool.and_eq_true, decide_eq_true_eq] at h
      obtain ⟨hm, h⟩ := h
      subst hm
      exact .mk H m s t ((eqState_iff H s t hx hy).1 h)
    · cases h
  · intro h
    cases h with
    | mk _ _ _ _ h =>
      simp only [dif_pos, decide_true, Bool.true_and]
      exact (eqState_iff _ _ _ hx hy).2 h

/-- C69, partial: `==` says exactly whether definition, settings, groups and all entries are the same;
so it is reflexive, symmetric and transitive; and reading (`h[...]`, `table`, `fraction`, ... call
`_prefill`) does not change a histogram that was filled.  What is missing: reading a never-filled
histogram changes it (`C69_refuted`), and contents with NaN are outside the rational model
(`C69_refuted_nan`). -/
theorem C69_eq_partial {α : Type} [DecidableEq α] (x y z : HistObj α) (hx : x.H.Good x.content) (hy : y.H.Good y.content)
    (hz : z.H.Good z.content) :
    (eqHist x y = true ↔ x.Alike y) ∧ eqHist x x = true ∧ (eqHist x y = eqHist y x) ∧
    (eqHist x y = true → eqHist y z = true → eqHist x z = true) ∧
    (x.content ≠ none → x.afterRead = x) := by
  refine ⟨eqHist_iff x y hx hy, ?_, ?_, ?_, ?_⟩
  · rw [eqHist_iff x x hx hx]
    exact .mk x.H x.settings x.content x.content (same_refl _ _)
  · have : ∀ x y : HistObj α, x.Alike y → y.Alike x := by
      rintro _ _ ⟨H, m, s, t, h⟩
      exact .mk H m t s (same_symm H h)
    rw [Bool.eq_iff_iff, eqHist_iff x y hx hy, eqHist_iff y x hy hx]
    exact ⟨this x y, this y x⟩
  · rw [eqHist_iff x y hx hy, eqHist_iff y z hy hz, eqHist_iff x z hx hz]
    intro h1 h2
    cases h1 with
    | mk H m s t h1 =>
      cases h2 with
      | mk _ _ _ u h2 => exact .mk H m s u (same_trans H h1 h2)
  · intro h
    obtain ⟨H, m, s⟩ := x
    cases s with
    | none => exact absurd rfl h
    | some c => rfl

example : (⟨exH, "settings", none⟩ : HistObj String).H.Good (⟨exH, "settings", none⟩ : HistObj String).content := trivial

/-- Two fills with the same rows in another order are equal; other rows are not. -/
example : (match exH.fillAll none [[exRow "a" (1/2) (some 2), exRow "b" 1 (some 3)]],
      exH.fillAll none [[exRow "b" 1 (some 3)], [exRow "a" (1/2) (some 2)]],
      exH.fillAll none [[exRow "b" 1 (some 3)], [exRow "a" (1/2) (some 7)]] with
    | .ok a, .ok b, .ok c => [eqHist ⟨exH, (), a⟩ ⟨exH, (), b⟩, eqHist ⟨exH, (), a⟩ ⟨exH, (), c⟩, eqHist ⟨exH, (), a⟩ ⟨exW, (), none⟩]
    | _, _, _ => []) = [true, false, false] := by decide +kernel

/-- C69 does not hold for never-filled histograms: two new histograms are equal, and not any more
after one of them was looked at. -/
theorem C69_refuted {α : Type} [DecidableEq α] (H : HistDef) (m : α) :
    eqHist ⟨H, m, none⟩ ⟨H, m, none⟩ = true ∧ eqHist (HistObj.afterRead ⟨H, m, none⟩) ⟨H, m, none⟩ = false := by
  constructor
  · simp [eqHist, eqState]
  · simp [eqHist, HistObj.afterRead, eqState]

/-- C69 does not hold if the content has NaN (a profile of a NaN value gives one): a histogram is
then not equal to itself. -/
theorem C69_refuted_nan : ¬ ∀ xs : List (Option ℚ), nanArrayEqual xs xs = true := by
  intro h
  have := h [some 1, none]
  exact absurd this (by decide +kernel)

end Verif
