import Verif.GroupKeys
import Verif.PropsFill
import Verif.PandasLemmas
import Verif.ArithLemmas
import Verif.ExprOrder

/-!
# C100-C102: `groupkeys`, `togroup` and the lookup of axes
-/

namespace Verif

/-! ## C102: the lookup of axes -/

/-- The axis is the first one in the list with the property. -/
def IsFirst (P : AnyAxis → Prop) (l : List AnyAxis) (a : AnyAxis) : Prop :=
  ∃ before after, l = before ++ a :: after ∧ P a ∧ ∀ b ∈ before, ¬ P b

theorem isFirst_cons_of {P : AnyAxis → Prop} {l : List AnyAxis} {x a : AnyAxis} (hx : ¬ P x) (h : IsFirst P l a) :
    IsFirst P (x :: l) a := by
  obtain ⟨b, c, rfl, h1, h2⟩ := h
  exact ⟨x :: b, c, rfl, h1, by simpa using ⟨hx, h2⟩⟩

theorem firstWith_spec (e : E) : ∀ l, (∀ a, firstWith e l = .ok a → IsFirst (fun a => a.parsed = e) l a) ∧
    (∀ er, firstWith e l = .error er → er = .indexError ∧ ∀ a ∈ l, a.parsed ≠ e)
  | [] => by
    refine ⟨fun a h => ?_, fun er h => ?_⟩
    · cases h
    · cases h; simp
  | x :: l => by
    obtain ⟨h1, h2⟩ := firstWith_spec e l
    unfold firstWith
    by_cases hx : E.same e x.parsed = true
    · rw [if_pos hx]
      refine ⟨fun a h => ?_, fun er h => ?_⟩
      · cases h
        exact ⟨[], l, rfl, (E.same_iff.1 hx).symm, by simp⟩
      · cases h
    · rw [if_neg hx]
      have hx' : x.parsed ≠ e := fun h => hx (E.same_iff.2 h.symm)
      refine ⟨fun a h => isFirst_cons_of hx' (h1 a h), fun er h => ⟨(h2 er h).1, ?_⟩⟩
      intro a ha
      rcases List.mem_cons.1 ha with rfl | ha
      · exact hx'
      · exact (h2 er h).2 a ha

theorem findbyclass_spec (e : E) (c : AxisClass) (kw : List (String × AttrVal)) : ∀ l,
    (∀ a, findbyclass e c kw l = .ok a → IsFirst (fun a => a.matches e c kw = true) l a) ∧
    (∀ er, findbyclass e c kw l = .error er → er = .indexError ∧ ∀ a ∈ l, ¬ a.matches e c kw = true)
  | [] => by
    refine ⟨fun a h => ?_, fun er h => ?_⟩
    · cases h
    · cases h; simp
  | x :: l => by
    obtain ⟨h1, h2⟩ := findbyclass_spec e c kw l
    unfold findbyclass
    by_cases hx : x.matches e c kw = true
    · rw [if_pos hx]
      refine ⟨fun a h => ?_, fun er h => ?_⟩
      · cases h
        exact ⟨[], l, rfl, hx, by simp⟩
      · cases h
    · rw [if_neg hx]
      refine ⟨fun a h => isFirst_cons_of hx (h1 a h), fun er h => ⟨(h2 er h).1, ?_⟩⟩
      intro a ha
      rcases List.mem_cons.1 ha with rfl | ha
      · exact hx
      · exact (h2 er h).2 a ha

/-- **C102**: `h.axis` lists all axes that were given to `Hist(...)` and nothing else; the axes of one kind stay in
the order in which they were given. -/
theorem C102_all_listed (given : List AnyAxis) : (axisTuple given).Perm given ∧
    (axisTuple given).filter AnyAxis.isGroup = given.filter AnyAxis.isGroup ∧
    (axisTuple given).filter AnyAxis.isFixed = given.filter AnyAxis.isFixed ∧
    (axisTuple given).filter AnyAxis.isProf = given.filter AnyAxis.isProf := by
  refine ⟨?_, ?_, ?_, ?_⟩
  · induction given with
    | nil => rfl
    | cons a l ih =>
      unfold axisTuple at ih ⊢
      cases a with
      | group a e => exact List.Perm.cons _ ih
      | fixed a e =>
        simp only [List.filter_cons, AnyAxis.isGroup, AnyAxis.isFixed, AnyAxis.isProf]
        simp only [Bool.false_eq_true, if_false, if_true, List.append_assoc, List.cons_append]
        refine List.perm_middle.trans (List.Perm.cons _ ?_)
        simpa using ih
      | prof e =>
        simp only [List.filter_cons, AnyAxis.isGroup, AnyAxis.isFixed, AnyAxis.isProf]
        simp only [Bool.false_eq_true, if_false, if_true]
        exact List.perm_middle.trans (List.Perm.cons _ ih)
  all_goals
    unfold axisTuple
    simp only [List.filter_append, List.filter_filter]
    have h : ∀ (q : AnyAxis → Bool), (∀ a, q a = false) → given.filter q = [] := by
      intro q hq
      rw [List.filter_eq_nil_iff]
      intro a _
      simp [hq a]
    first
    | rw [h _ (by intro a; cases a <;> rfl : ∀ a : AnyAxis, (a.isGroup && a.isFixed) = false),
        h _ (by intro a; cases a <;> rfl : ∀ a : AnyAxis, (a.isGroup && a.isProf) = false)]
      simp
    | rw [h _ (by intro a; cases a <;> rfl : ∀ a : AnyAxis, (a.isFixed && a.isGroup) = false),
        h _ (by intro a; cases a <;> rfl : ∀ a : AnyAxis, (a.isFixed && a.isProf) = false)]
      simp
    | rw [h _ (by intro a; cases a <;> rfl : ∀ a : AnyAxis, (a.isProf && a.isGroup) = false),
        h _ (by intro a; cases a <;> rfl : ∀ a : AnyAxis, (a.isProf && a.isFixed) = false)]
      simp

/-- **C102**: `h.axis[expression]` is the first axis of `h.axis` whose quantity is the expression; if no axis that was
given has this quantity, then an `IndexError` is raised.  If exactly one has, then it is this one. -/
theorem C102_by_expression (given : List AnyAxis) (e : E) :
    (∀ a, axisItem (axisTuple given) (.expr e) = .ok a → IsFirst (fun a => a.parsed = e) (axisTuple given) a) ∧
    (axisItem (axisTuple given) (.expr e) = .error .indexError ↔ ∀ a ∈ given, a.parsed ≠ e) ∧
    (∀ a ∈ given, a.parsed = e → (∀ b ∈ given, b.parsed = e → b = a) →
      axisItem (axisTuple given) (.expr e) = .ok a) := by
  have hm : ∀ a, a ∈ axisTuple given ↔ a ∈ given := fun a => (C102_all_listed given).1.mem_iff
  obtain ⟨h1, h2⟩ := firstWith_spec e (axisTuple given)
  have h3 : ∀ a, firstWith e (axisTuple given) = .ok a → a ∈ given ∧ a.parsed = e := by
    intro a ha
    obtain ⟨b, c, hl, hp, _⟩ := h1 a ha
    exact ⟨(hm a).1 (by rw [hl]; simp), hp⟩
  refine ⟨h1, ⟨fun h a ha => (h2 _ h).2 a ((hm a).2 ha), fun h => ?_⟩, fun a ha he hu => ?_⟩
  · show firstWith e _ = _
    cases hr : firstWith e (axisTuple given) with
    | error er => rw [(h2 er hr).1]
    | ok a => exact absurd (h3 a hr).2 (h a (h3 a hr).1)
  · show firstWith e _ = _
    cases hr : firstWith e (axisTuple given) with
    | error er => exact absurd he ((h2 er hr).2 a ((hm a).2 ha))
    | ok b => rw [hu b (h3 b hr).1 (h3 b hr).2]

/-- The axis has the class, the quantity and all the attributes. -/
structure Wanted (e : E) (c : AxisClass) (kw : List (String × AttrVal)) (a : AnyAxis) : Prop where
  cls : a.cls = c
  quantity : a.parsed = e
  attrs : ∀ n v, (n, v) ∈ kw → a.attr n = some v

theorem matches_iff (e : E) (c : AxisClass) (kw : List (String × AttrVal)) (a : AnyAxis) :
    a.matches e c kw = true ↔ Wanted e c kw a := by
  unfold AnyAxis.matches
  rw [Bool.and_eq_true, Bool.and_eq_true, decide_eq_true_iff, E.same_iff, List.all_eq_true]
  constructor
  · rintro ⟨⟨h1, h2⟩, h3⟩
    exact ⟨h1, h2, fun n v h => by simpa using h3 (n, v) h⟩
  · rintro ⟨h1, h2, h3⟩
    exact ⟨⟨h1, h2⟩, fun p hp => by simpa using h3 p.1 p.2 hp⟩

/-- **C102**: `h.axis.bin(expression, low=..., ...)` and the other six methods give the first axis of the class with
this quantity and these attributes; if none of the axes that were given is such an axis, then an `IndexError` is
raised; if exactly one is, then it is this one. -/
theorem C102_by_class (given : List AnyAxis) (e : E) (c : AxisClass) (kw : List (String × AttrVal)) :
    (∀ a, findbyclass e c kw (axisTuple given) = .ok a → IsFirst (Wanted e c kw) (axisTuple given) a) ∧
    (findbyclass e c kw (axisTuple given) = .error .indexError ↔ ∀ a ∈ given, ¬ Wanted e c kw a) ∧
    (∀ a ∈ given, Wanted e c kw a → (∀ b ∈ given, Wanted e c kw b → b = a) →
      findbyclass e c kw (axisTuple given) = .ok a) := by
  have hm : ∀ a, a ∈ axisTuple given ↔ a ∈ given := fun a => (C102_all_listed given).1.mem_iff
  obtain ⟨h1, h2⟩ := findbyclass_spec e c kw (axisTuple given)
  simp only [matches_iff] at h1 h2
  have h3 : ∀ a, findbyclass e c kw (axisTuple given) = .ok a → a ∈ given ∧ Wanted e c kw a := by
    intro a ha
    obtain ⟨b, c, hl, hp, _⟩ := h1 a ha
    exact ⟨(hm a).1 (by rw [hl]; simp), hp⟩
  refine ⟨h1, ⟨fun h a ha => (h2 _ h).2 a ((hm a).2 ha), fun h => ?_⟩, fun a ha he hu => ?_⟩
  · cases hr : findbyclass e c kw (axisTuple given) with
    | error er => rw [(h2 er hr).1]
    | ok a => exact absurd (h3 a hr).2 (h a (h3 a hr).1)
  · cases hr : findbyclass e c kw (axisTuple given) with
    | error er => exact absurd he ((h2 er hr).2 a ((hm a).2 ha))
    | ok b => rw [hu b (h3 b hr).1 (h3 b hr).2]

theorem forall_pairs {α β : Type} {l : List (α × β)} {P : α → β → Prop} : (∀ a b, (a, b) ∈ l → P a b) ↔ ∀ p ∈ l, P p.1 p.2 :=
  ⟨fun h p hp => h p.1 p.2 hp, fun h a b hp => h (a, b) hp⟩

/-- **C102**: all the arguments of the constructor together describe one axis: an axis is found by its class, its
quantity and these arguments if and only if it is the axis made with them. -/
theorem C102_arguments (e : E) (a : AnyAxis) :
    (∀ n low high u o nf c, Wanted e .bin [("numbins", .num (n : ℕ)), ("low", .num low), ("high", .num high), ("underflow", .bool u),
        ("overflow", .bool o), ("nanflow", .bool nf), ("closedlow", .bool c)] a ↔ a = .fixed (.bin ⟨n, low, high, u, o, nf, c⟩) e) ∧
    (∀ (mn mx : ℤ) u o, Wanted e .intbin [("min", .num mn), ("max", .num mx), ("underflow", .bool u), ("overflow", .bool o)] a ↔
      a = .fixed (.intbin ⟨mn, mx, u, o⟩) e) ∧
    (∀ edges u o nf c, Wanted e .split [("edges", .tuple edges), ("underflow", .bool u), ("overflow", .bool o), ("nanflow", .bool nf),
        ("closedlow", .bool c)] a ↔ a = .fixed (.split ⟨edges, u, o, nf, c⟩) e) ∧
    (∀ w origin nf c, Wanted e .groupbin [("binwidth", .num w), ("origin", .num origin), ("nanflow", .bool nf), ("closedlow", .bool c)] a ↔
      a = .group (.groupbin ⟨w, origin, nf, c⟩) e) ∧
    (Wanted e .groupby [] a ↔ a = .group .groupby e) ∧ (Wanted e .cut [] a ↔ a = .fixed .cut e) ∧
    (Wanted e .profile [] a ↔ a = .prof e) := by
  refine ⟨?_, ?_, ?_, ?_, ?_, ?_, ?_⟩
  · intro n low high u o nf c
    constructor
    · rintro ⟨h1, h2, h3⟩
      cases a with
      | group g e' => cases g <;> simp [AnyAxis.cls] at h1
      | prof e' => simp [AnyAxis.cls] at h1
      | fixed f e' =>
        cases f <;> simp [AnyAxis.cls] at h1
        replace h3 := forall_pairs.1 h3
        simp [AnyAxis.attr] at h3
        rename_i b
        obtain ⟨n', l', h', u', o', nf', c'⟩ := b
        obtain rfl : e' = e := h2
        simp_all
    · rintro rfl
      exact ⟨rfl, rfl, forall_pairs.2 (by simp [AnyAxis.attr])⟩
  · intro mn mx u o
    constructor
    · rintro ⟨h1, h2, h3⟩
      cases a with
      | group g e' => cases g <;> simp [AnyAxis.cls] at h1
      | prof e' => simp [AnyAxis.cls] at h1
      | fixed f e' =>
        cases f <;> simp [AnyAxis.cls] at h1
        replace h3 := forall_pairs.1 h3
        simp [AnyAxis.attr] at h3
        rename_i b
        obtain ⟨mn', mx', u', o'⟩ := b
        obtain rfl : e' = e := h2
        simp_all
    · rintro rfl
      exact ⟨rfl, rfl, forall_pairs.2 (by simp [AnyAxis.attr])⟩
  · intro edges u o nf c
    constructor
    · rintro ⟨h1, h2, h3⟩
      cases a with
      | group g e' => cases g <;> simp [AnyAxis.cls] at h1
      | prof e' => simp [AnyAxis.cls] at h1
      | fixed f e' =>
        cases f <;> simp [AnyAxis.cls] at h1
        replace h3 := forall_pairs.1 h3
        simp [AnyAxis.attr] at h3
        rename_i b
        obtain ⟨ed', u', o', nf', c'⟩ := b
        obtain rfl : e' = e := h2
        simp_all
    · rintro rfl
      exact ⟨rfl, rfl, forall_pairs.2 (by simp [AnyAxis.attr])⟩
  · intro w origin nf c
    constructor
    · rintro ⟨h1, h2, h3⟩
      cases a with
      | fixed f e' => cases f <;> simp [AnyAxis.cls] at h1
      | prof e' => simp [AnyAxis.cls] at h1
      | group f e' =>
        cases f <;> simp [AnyAxis.cls] at h1
        replace h3 := forall_pairs.1 h3
        simp [AnyAxis.attr] at h3
        rename_i b
        obtain ⟨w', o', nf', c'⟩ := b
        obtain rfl : e' = e := h2
        simp_all
    · rintro rfl
      exact ⟨rfl, rfl, forall_pairs.2 (by simp [AnyAxis.attr])⟩
  all_goals
    constructor
    · rintro ⟨h1, h2, -⟩
      rcases a with ⟨g, e'⟩ | ⟨f, e'⟩ | e'
      · cases g <;> simp [AnyAxis.cls] at h1 <;> simp_all [AnyAxis.parsed]
      · cases f <;> simp [AnyAxis.cls] at h1 <;> simp_all [AnyAxis.parsed]
      · simp [AnyAxis.cls] at h1 <;> simp_all [AnyAxis.parsed]
    · rintro rfl
      exact ⟨rfl, rfl, by simp⟩

/-- The two bin axes of the quantity differ in the upper end only. -/
example : findbyclass (E.name "x") .bin [("high", .num 2)]
    (axisTuple [.fixed (.bin ⟨10, 0, 1, true, true, true, true⟩) (E.name "x"), .fixed (.bin ⟨10, 0, 2, true, true, true, true⟩) (E.name "x")]) =
      .ok (.fixed (.bin ⟨10, 0, 2, true, true, true, true⟩) (E.name "x")) := rfl

/-- `bin("x", 10, 0, 1)` -/
def axX : AnyAxis := .fixed (.bin ⟨10, 0, 1, true, true, true, true⟩) (E.name "x")
/-- `bin("x", 20, 0, 1)` -/
def axX2 : AnyAxis := .fixed (.bin ⟨20, 0, 1, true, true, true, true⟩) (E.name "x")
/-- `groupby("g")` -/
def axG : AnyAxis := .group .groupby (E.name "g")
/-- `profile("x")` -/
def axP : AnyAxis := .prof (E.name "x")
/-- `split("y", [1, 2])` -/
def axY : AnyAxis := .fixed (.split ⟨[1, 2], true, true, true, true⟩) (E.name "y")

/-- Two axes with the same quantity, and a group axis given after the others. -/
example : axisTuple [axP, axX, axG, axX2, axY] = [axG, axX, axX2, axY, axP] ∧
    axisItem (axisTuple [axP, axX, axG, axX2, axY]) (.expr (E.name "x")) = .ok axX ∧
    axisItem (axisTuple [axP, axX, axG, axX2, axY]) (.expr (E.name "z")) = .error .indexError ∧
    axisItem (axisTuple [axP, axX, axG, axX2, axY]) (.pos (-1)) = .ok axP ∧
    findbyclass (E.name "x") .bin [("numbins", .num 20)] (axisTuple [axP, axX, axG, axX2, axY]) = .ok axX2 ∧
    findbyclass (E.name "x") .profile [] (axisTuple [axP, axX, axG, axX2, axY]) = .ok axP ∧
    findbyclass (E.name "x") .bin [("origin", .num 20)] (axisTuple [axP, axX, axG, axX2, axY]) = .error .indexError :=
  ⟨rfl, rfl, rfl, rfl, rfl, rfl, rfl⟩

/-- The position in `h.axis` is not the position at which the axis was given to `Hist(...)`. -/
theorem C102_position_refuted : ¬ ∀ (given : List AnyAxis) (i : ℕ) (a : AnyAxis), given[i]? = some a →
    axisItem (axisTuple given) (.pos i) = .ok a := by
  intro h
  have := h [axX, axG] 0 axX rfl
  rw [show axisItem (axisTuple [axX, axG]) (.pos ((0 : ℕ) : ℤ)) = .ok axG from rfl] at this
  cases this

/-- **C102**, the part that holds for positions: `h.axis[i]` is the axis at position `i` if the axes were given in the
order group axes, fixed axes, profiles; also from the end with negative numbers; other numbers raise an
`IndexError`.  Missing: the position in any other order (`C102_position_refuted`). -/
theorem C102_position_partial (g f p : List AnyAxis) (hg : ∀ a ∈ g, a.isGroup = true) (hf : ∀ a ∈ f, a.isFixed = true)
    (hp : ∀ a ∈ p, a.isProf = true) :
    (∀ (i : ℕ) a, (g ++ f ++ p)[i]? = some a → axisItem (axisTuple (g ++ f ++ p)) (.pos i) = .ok a ∧
      axisItem (axisTuple (g ++ f ++ p)) (.pos ((i : ℤ) - ((g ++ f ++ p).length : ℤ))) = .ok a) ∧
    (∀ i : ℤ, (i ≥ (g ++ f ++ p).length ∨ i < -((g ++ f ++ p).length : ℤ)) →
      axisItem (axisTuple (g ++ f ++ p)) (.pos i) = .error .indexError) := by
  have h : axisTuple (g ++ f ++ p) = g ++ f ++ p := by
    have k1 : ∀ (l : List AnyAxis) (q r : AnyAxis → Bool), (∀ a ∈ l, q a = true) → (∀ a, q a = true → r a = false) →
        l.filter r = [] := by
      intro l q r h1 h2
      rw [List.filter_eq_nil_iff]
      intro a ha
      simp [h2 a (h1 a ha)]
    have c1 : ∀ a : AnyAxis, a.isGroup = true → a.isFixed = false := by intro a; cases a <;> simp [AnyAxis.isGroup, AnyAxis.isFixed]
    have c2 : ∀ a : AnyAxis, a.isGroup = true → a.isProf = false := by intro a; cases a <;> simp [AnyAxis.isGroup, AnyAxis.isProf]
    have c3 : ∀ a : AnyAxis, a.isFixed = true → a.isGroup = false := by intro a; cases a <;> simp [AnyAxis.isGroup, AnyAxis.isFixed]
    have c4 : ∀ a : AnyAxis, a.isFixed = true → a.isProf = false := by intro a; cases a <;> simp [AnyAxis.isProf, AnyAxis.isFixed]
    have c5 : ∀ a : AnyAxis, a.isProf = true → a.isGroup = false := by intro a; cases a <;> simp [AnyAxis.isGroup, AnyAxis.isProf]
    have c6 : ∀ a : AnyAxis, a.isProf = true → a.isFixed = false := by intro a; cases a <;> simp [AnyAxis.isProf, AnyAxis.isFixed]
    unfold axisTuple
    simp only [List.filter_append, List.filter_eq_self.2 hg, List.filter_eq_self.2 hf, List.filter_eq_self.2 hp,
      k1 g _ _ hg c1, k1 g _ _ hg c2, k1 f _ _ hf c3, k1 f _ _ hf c4, k1 p _ _ hp c5, k1 p _ _ hp c6]
    simp
  rw [h]
  generalize g ++ f ++ p = l
  refine ⟨fun i a hi => ?_, fun i hi => ?_⟩
  · have hl : i < l.length := (List.getElem?_eq_some_iff.1 hi).1
    constructor
    · simp [axisItem, tupleItem, hi]
    · have e1 : (i : ℤ) - l.length + l.length = i := by ring
      show tupleItem l _ = _
      unfold tupleItem
      rw [if_neg (by omega), if_pos (by omega)]
      simp [hi]
  · show tupleItem l _ = _
    unfold tupleItem
    by_cases h0 : 0 ≤ i
    · rw [if_pos h0]
      have : l.length ≤ i.toNat := by omega
      simp [List.getElem?_eq_none this]
    · rw [if_neg h0, if_neg (by omega)]

example : ∀ a ∈ [axG], a.isGroup = true := by simp [axG, AnyAxis.isGroup]
example : ∀ a ∈ [axX, axY], a.isFixed = true := by simp [axX, axY, AnyAxis.isFixed]

/-- A `split` is not found by the list of edges with which it was made: its edges are a tuple. -/
theorem C102_edges_list_refuted (e : E) (l : List ℚ) (given : List AnyAxis) :
    findbyclass e .split [("edges", .list l)] (axisTuple given) = .error .indexError := by
  rw [(C102_by_class given e .split _).2.1]
  rintro a _ ⟨h1, _, h3⟩
  have h := h3 "edges" (.list l) (by simp)
  cases a with
  | group a e => cases a <;> simp [AnyAxis.cls] at h1
  | prof e => simp [AnyAxis.cls] at h1
  | fixed a e =>
    cases a <;> simp [AnyAxis.cls] at h1
    simp [AnyAxis.attr] at h

example : findbyclass (E.name "y") .split [("edges", .tuple [1, 2])] (axisTuple [axX, axY]) = .ok axY := rfl

/-! ## C100: `groupkeys` -/

theorem keysAt_spec : ∀ (n i : ℕ) (c : Content Arr n), i < n → Distinct n c →
    ∃ ks, keysAt n i c = .ok ks ∧ ∀ k, k ∈ ks ↔ ∃ gk, gk.length = i ∧ HasGroup n c (gk ++ [k])
  | 0, i, _, h, _ => by omega
  | n + 1, 0, (d : List (Key × Content Arr n)), _, hd => by
    refine ⟨_, rfl, fun k => ⟨fun h => ⟨[], rfl, ?_⟩, ?_⟩⟩
    · obtain ⟨c, hc⟩ := mem_keys_dget h
      refine ⟨c, hc, ?_⟩
      cases n <;> simp [HasGroup]
    · rintro ⟨gk, hg, h⟩
      obtain rfl := List.length_eq_zero_iff.1 hg
      obtain ⟨c, hc, _⟩ := h
      exact dget_mem_keys hc
  | n + 1, i + 1, (d : List (Key × Content Arr n)), h, hd => by
    obtain ⟨hd1, hd2⟩ : (d.map (fun p : Key × Content Arr n => p.1)).Nodup ∧ ∀ p ∈ d, Distinct n p.2 := hd
    have ih := fun (p : Key × Content Arr n) (hp : p ∈ d) => keysAt_spec n i p.2 (by omega) (hd2 p hp)
    have main : ∀ l : List (Key × Content Arr n), (∀ p ∈ l, p ∈ d) → ∃ kss, (l.mapM fun p => keysAt n i p.2) = .ok kss ∧
        ∀ k, k ∈ kss.flatten ↔ ∃ p ∈ l, ∃ gk, gk.length = i ∧ HasGroup n p.2 (gk ++ [k]) := by
      intro l
      induction l with
      | nil => exact fun _ => ⟨[], rfl, by simp⟩
      | cons p l ihl =>
        intro hl
        obtain ⟨ks, h1, h2⟩ := ih p (hl p (by simp))
        obtain ⟨kss, h3, h4⟩ := ihl (fun q hq => hl q (by simp [hq]))
        refine ⟨ks :: kss, ?_, fun k => ?_⟩
        · rw [List.mapM_cons, h1, h3]; rfl
        · rw [List.flatten_cons, List.mem_append, h2, h4]
          simp
    obtain ⟨kss, h1, h2⟩ := main d (fun _ h => h)
    refine ⟨kss.flatten, ?_, fun k => ?_⟩
    · show Except.map List.flatten (d.mapM fun p => keysAt n i p.2) = _
      rw [h1]; rfl
    · rw [h2]
      constructor
      · rintro ⟨p, hp, gk, hg, hh⟩
        exact ⟨p.1 :: gk, by simp [hg], p.2, dget_of_mem d hd1 p hp, hh⟩
      · rintro ⟨gk, hg, hh⟩
        cases gk with
        | nil => simp at hg
        | cons k' gk =>
          obtain ⟨c, hc, hh⟩ := hh
          obtain ⟨p, hp, hpc⟩ := Option.map_eq_some_iff.1 (show (d.find? (fun p => p.1 = k')).map (·.2) = some c from hc)
          exact ⟨p, List.mem_of_find?_eq_some hp, gk, by simpa using hg, hpc ▸ hh⟩

/-- The group axis number `i` is meant by the argument: it is what `h.axis[...]` gives (or the object itself), and no
group axis before it is equal to it. -/
structure HistExprs.Means (X : HistExprs) (arg : AxisArg) (i : ℕ) : Prop where
  axis : ∃ a e, X.groups[i]? = some (a, e) ∧ X.theAxis arg = .ok (.group a e)
  first : ∀ j < i, X.groups[j]? ≠ X.groups[i]?

theorem same_group_iff (p : GroupAxis × E) (a : GroupAxis) (e : E) :
    AnyAxis.same (.group p.1 p.2) (.group a e) = true ↔ p = (a, e) := by
  simp [AnyAxis.same, E.same_iff, Prod.ext_iff]

theorem groupNumber_means {X : HistExprs} {arg : AxisArg} {i : ℕ} (h : X.Means arg i) :
    ∃ a, X.theAxis arg = .ok a ∧ groupNumber X.groups a = .ok i ∧ i < X.groups.length := by
  obtain ⟨⟨a, e, hi, ha⟩, hf⟩ := h
  obtain ⟨hl, hv⟩ := List.getElem?_eq_some_iff.1 hi
  refine ⟨_, ha, ?_, hl⟩
  unfold groupNumber
  have : (X.groups.findIdx? fun p => AnyAxis.same (.group p.1 p.2) (.group a e)) = some i := by
    rw [List.findIdx?_eq_some_iff_getElem]
    refine ⟨hl, (same_group_iff _ _ _).2 hv, fun j hj => ?_⟩
    have := hf j hj
    rw [hi, List.getElem?_eq_getElem (by omega)] at this
    intro hc
    exact this (by rw [(same_group_iff _ _ _).1 hc])
  rw [this]

/-- **C100**, what `groupkeys` gives after any number of fills: the keys of this axis in those batches in which every
group axis before it has some key.  For the full claim see `C100_groupkeys_partial`. -/
theorem C100_groupkeys_exactly (X : HistExprs) (bs : List (List Row)) (hf : Fillable X.hist bs) (hne : bs ≠ [])
    (arg : AxisArg) (i : ℕ) (hi : X.Means arg i) :
    ∃ st ks, X.hist.fillAll none bs = .ok st ∧ X.groupkeys st arg = .ok ks ∧
      ∀ k, k ∈ ks ↔ ∃ b ∈ bs, seenOn X.hist b i k ∧ ∀ j < i, ∃ k', seenOn X.hist b j k' := by
  obtain ⟨st, h1, h2, h3, _⟩ := fillAll_rows X.hist bs none trivial hf
  obtain ⟨a, ha, hn, hl⟩ := groupNumber_means hi
  have hlen : X.hist.groups.length = X.groups.length := by simp [HistExprs.hist]
  have hd : X.hist.DistinctKeys st := fillAll_wellFormed X.hist bs none st trivial h1
  have h0 : X.hist.has st [] := by
    rw [h3 [] (by simp)]
    obtain ⟨b, hb⟩ := List.exists_mem_of_ne_nil bs hne
    exact Or.inr ⟨b, hb, by simp⟩
  cases st with
  | none => exact h0.elim
  | some c =>
    obtain ⟨ks, k1, k2⟩ := keysAt_spec _ i c (by omega) hd
    refine ⟨some c, ks, h1, ?_, fun k => ?_⟩
    · unfold HistExprs.groupkeys
      rw [ha]
      show (groupNumber X.groups a >>= fun i => keysAt _ i c) = _
      rw [hn]
      exact k1
    · rw [k2]
      have key : ∀ gk : List Key, gk.length = i → (HasGroup _ c (gk ++ [k]) ↔
          ∃ b ∈ bs, ∀ (j : ℕ) (k' : Key), (gk ++ [k])[j]? = some k' → seenOn X.hist b j k') := by
        intro gk hg
        have := h3 (gk ++ [k]) (by simp; omega)
        simpa [HistDef.has] using this
      constructor
      · rintro ⟨gk, hg, h⟩
        obtain ⟨b, hb, hs⟩ := (key gk hg).1 h
        refine ⟨b, hb, hs i k (by simp [hg]), fun j hj => ⟨gk[j]'(by omega), hs j _ ?_⟩⟩
        rw [List.getElem?_append_left (by omega), List.getElem?_eq_getElem (by omega)]
      · rintro ⟨b, hb, hk, hs⟩
        choose f hfs using hs
        let gk : List Key := List.ofFn fun j : Fin i => f j j.2
        have hg : gk.length = i := by simp [gk]
        refine ⟨gk, hg, (key gk hg).2 ⟨b, hb, fun j k' hj => ?_⟩⟩
        rcases Nat.lt_or_ge j i with hji | hji
        · rw [List.getElem?_append_left (by omega), List.getElem?_eq_getElem (by omega)] at hj
          simp only [gk, List.getElem_ofFn, Option.some.injEq] at hj
          exact hj ▸ hfs j hji
        · rw [List.getElem?_append_right (by omega), hg] at hj
          have : j = i := by
            by_contra hc
            rw [List.getElem?_eq_none (by simp; omega)] at hj
            cases hj
          subst this
          simp at hj
          exact hj ▸ hk

/-- **C100**, the part that holds: if every row has a key on each group axis before the one that is asked for, then
`groupkeys` gives exactly the keys of the rows on this axis, whatever the batches.  Missing: rows that an earlier group
axis leaves out (`C100_left_out_refuted`), and a histogram that was never filled (`C100_never_filled_refuted`). -/
theorem C100_groupkeys_partial (X : HistExprs) (bs : List (List Row)) (hf : Fillable X.hist bs) (hne : bs ≠ [])
    (arg : AxisArg) (i : ℕ) (hi : X.Means arg i)
    (hkeys : ∀ r ∈ bs.flatten, ∀ j < i, ∃ k, (List.zipWith GroupAxis.key X.hist.groups r.gvals).getD j none = some k) :
    ∃ st ks, X.hist.fillAll none bs = .ok st ∧ X.groupkeys st arg = .ok ks ∧
      ∀ k, k ∈ ks ↔ ∃ r ∈ bs.flatten, (List.zipWith GroupAxis.key X.hist.groups r.gvals).getD i none = some k := by
  obtain ⟨st, ks, h1, h2, h3⟩ := C100_groupkeys_exactly X bs hf hne arg i hi
  refine ⟨st, ks, h1, h2, fun k => ?_⟩
  rw [h3]
  constructor
  · rintro ⟨b, hb, ⟨r, hr, hk⟩, _⟩
    exact ⟨r, List.mem_flatten.2 ⟨b, hb, hr⟩, hk⟩
  · rintro ⟨r, hr, hk⟩
    obtain ⟨b, hb, hrb⟩ := List.mem_flatten.1 hr
    refine ⟨b, hb, ⟨r, hrb, hk⟩, fun j hj => ?_⟩
    obtain ⟨k', hk'⟩ := hkeys r hr j hj
    exact ⟨k', r, hrb, hk'⟩

/-- The histogram `Hist(groupby("g"), groupby("h"))`. -/
def gkX : HistExprs := ⟨[(.groupby, E.name "g"), (.groupby, E.name "h")], [], [], none⟩

theorem gkX_means : gkX.Means (.expr (E.name "h")) 1 :=
  ⟨⟨.groupby, E.name "h", rfl, rfl⟩, by
    intro j hj
    obtain rfl : j = 0 := by omega
    simp [gkX, E.name]⟩

theorem gkX_fillable : Fillable gkX.hist [[exGGRow "a" "c", exGGRow "b" "d"], [exGGRow "a" "e"]] := by
  refine ⟨?_, Or.inl rfl⟩
  intro b hb r hr
  simp at hb
  rcases hb with rfl | rfl <;> simp at hr
  · rcases hr with rfl | rfl <;> exact exGGRow_ok _ _
  · subst hr; exact exGGRow_ok _ _

example : ∃ st ks, gkX.hist.fillAll none [[exGGRow "a" "c", exGGRow "b" "d"], [exGGRow "a" "e"]] = .ok st ∧
    gkX.groupkeys st (.expr (E.name "h")) = .ok ks ∧ ∀ k, k ∈ ks ↔ k = .str "c" ∨ k = .str "d" ∨ k = .str "e" := by
  obtain ⟨st, ks, h1, h2, h3⟩ := C100_groupkeys_partial gkX _ gkX_fillable (by simp) _ 1 gkX_means (by
    intro r hr j hj
    obtain rfl : j = 0 := by omega
    simp at hr
    rcases hr with rfl | rfl | rfl
    · exact ⟨.str "a", rfl⟩
    · exact ⟨.str "b", rfl⟩
    · exact ⟨.str "a", rfl⟩)
  refine ⟨st, ks, h1, h2, fun k => ?_⟩
  rw [h3]
  simp [gkX, HistExprs.hist, exGGRow, GroupAxis.key, GVal.toKey, Except.toOption, eq_comm]

/-- The histogram `Hist(groupbin("x", 1, nanflow=False), groupby("h"))`. -/
def gkNan : HistExprs := ⟨[(.groupbin ⟨1, 0, false, true⟩, E.name "x"), (.groupby, E.name "h")], [], [], none⟩

/-- `groupkeys` does not list a key that is only seen in rows that an earlier group axis leaves out; the same row in a
batch with others is enough to list it. -/
theorem C100_left_out_refuted : ¬ ∀ (X : HistExprs) (bs : List (List Row)), Fillable X.hist bs → bs ≠ [] →
    ∀ (arg : AxisArg) (i : ℕ), X.Means arg i → ∀ st ks, X.hist.fillAll none bs = .ok st → X.groupkeys st arg = .ok ks →
      ∀ k, k ∈ ks ↔ ∃ r ∈ bs.flatten, (List.zipWith GroupAxis.key X.hist.groups r.gvals).getD i none = some k := by
  intro h
  have hm : gkNan.Means (.expr (E.name "h")) 1 := ⟨⟨.groupby, E.name "h", rfl, rfl⟩, by
    intro j hj
    obtain rfl : j = 0 := by omega
    simp [gkNan]⟩
  have hf : Fillable gkNan.hist [[⟨[.num .nan, .key (.str "a")], [], [], none⟩]] := by
    refine ⟨?_, Or.inl rfl⟩
    intro b hb r hr
    simp at hb; subst hb; simp at hr; subst hr
    exact ⟨.cons ⟨.nan, rfl⟩ (.cons ⟨.str "a", rfl⟩ .nil), .nil, rfl⟩
  obtain ⟨st, ks, h1, h2, h3⟩ := C100_groupkeys_exactly gkNan _ hf (by simp) _ 1 hm
  have := (h gkNan _ hf (by simp) _ 1 hm st ks h1 h2 (.str "a")).2 ⟨⟨[.num .nan, .key (.str "a")], [], [], none⟩, by simp, by decide +kernel⟩
  rw [h3] at this
  obtain ⟨b, hb, _, hs⟩ := this
  simp at hb; subst hb
  obtain ⟨k', r, hr, hk⟩ := hs 0 (by omega)
  simp at hr; subst hr
  rw [show (List.zipWith GroupAxis.key gkNan.hist.groups [GVal.num Num.nan, GVal.key (.str "a")]).getD 0 none = none by
    decide +kernel] at hk
  cases hk

/-- For a histogram that was never filled, `groupkeys` raises an `AttributeError` instead of giving the empty set. -/
theorem C100_never_filled_refuted (X : HistExprs) (arg : AxisArg) (i : ℕ) (hi : X.Means arg i) :
    X.groupkeys none arg = .error .attributeError := by
  obtain ⟨a, ha, hn, _⟩ := groupNumber_means hi
  unfold HistExprs.groupkeys
  rw [ha]
  show (groupNumber X.groups a >>= fun i => _) = _
  rw [hn]
  rfl

example : gkX.Means (.expr (E.name "h")) 1 := gkX_means

/-- **C100**, what is refused: no axis with this quantity or at this position raises `IndexError`; an axis that is not
a group axis of the histogram raises `IndexError` if the histogram has group axes, and `NameError` (`UnboundLocalError`)
if it has none, because the message of the exception uses the variable of a loop that did not run. -/
theorem C100_refused (X : HistExprs) (st : X.hist.State) :
    (∀ e, (∀ a ∈ X.axes, a.parsed ≠ e) → X.groupkeys st (.expr e) = .error .indexError) ∧
    (∀ i : ℤ, (i ≥ X.axes.length ∨ i < -(X.axes.length : ℤ)) → X.groupkeys st (.pos i) = .error .indexError) ∧
    (∀ arg a, X.theAxis arg = .ok a → (∀ p ∈ X.groups, AnyAxis.group p.1 p.2 ≠ a) →
      X.groupkeys st arg = .error (if X.groups = [] then .nameError else .indexError)) := by
  refine ⟨fun e he => ?_, fun i hi => ?_, fun arg a ha hn => ?_⟩
  · unfold HistExprs.groupkeys
    have : X.theAxis (.expr e) = .error .indexError := by
      show firstWith e X.axes = _
      cases hr : firstWith e X.axes with
      | error er => rw [((firstWith_spec e X.axes).2 er hr).1]
      | ok a =>
        obtain ⟨b, c, hl, hp, _⟩ := (firstWith_spec e X.axes).1 a hr
        exact absurd hp (he a (by rw [hl]; simp))
    rw [this]; rfl
  · unfold HistExprs.groupkeys
    have : X.theAxis (.pos i) = .error .indexError := by
      show tupleItem X.axes i = _
      unfold tupleItem
      by_cases h0 : 0 ≤ i
      · rw [if_pos h0]
        have : X.axes.length ≤ i.toNat := by omega
        simp [List.getElem?_eq_none this]
      · rw [if_neg h0, if_neg (by omega)]
    rw [this]; rfl
  · unfold HistExprs.groupkeys
    rw [ha]
    have : groupNumber X.groups a = .error (if X.groups = [] then .nameError else .indexError) := by
      unfold groupNumber
      rw [List.findIdx?_eq_none_iff.2]
      · simp only; split <;> rfl
      · intro p hp
        rw [← Bool.not_eq_true]
        intro hc
        cases a with
        | group a e => exact hn p hp (by rw [(same_group_iff _ _ _).1 hc])
        | fixed a e => simp [AnyAxis.same] at hc
        | prof e => simp [AnyAxis.same] at hc
    show (groupNumber X.groups a >>= fun i => _) = _
    rw [this]; rfl

/-- `Hist(bin("x", 10, 0, 1)).groupkeys("x")` -/
example : (⟨[], [(.bin ⟨10, 0, 1, true, true, true, true⟩, E.name "x")], [], none⟩ : HistExprs).groupkeys none
    (.expr (E.name "x")) = .error .nameError := rfl

/-! ## C30: what `Hist.group` refuses -/

theorem same_iff_eq (a b : AnyAxis) : a.same b = true ↔ a = b := by
  cases a <;> cases b <;> simp [AnyAxis.same, E.same_iff]

theorem sameAxisList_iff : ∀ l m, sameAxisList l m = true ↔ l = m
  | [], [] => by simp [sameAxisList]
  | [], _ :: _ => by simp [sameAxisList]
  | _ :: _, [] => by simp [sameAxisList]
  | a :: as, b :: bs => by simp [sameAxisList, same_iff_eq, sameAxisList_iff as bs]

open Classical in
theorem groupAxes_some (ax : List AnyAxis) : ∀ l, groupAxes (some ax) l =
    if ∀ x ∈ l, x = ax then .ok (some ax) else .error .typeError
  | [] => by simp [groupAxes]
  | x :: l => by
    rw [groupAxes, groupAxes_some ax l]
    by_cases hx : ax = x
    · subst hx
      rw [if_pos ((sameAxisList_iff ax ax).2 rfl)]
      simp
    · rw [if_neg (fun h => hx ((sameAxisList_iff ax x).1 h)), if_neg]
      intro h
      exact hx (h x (by simp)).symm

/-- C30: `Hist.group` refuses to group nothing (`ValueError`), histograms that do not all have the same axes
(`TypeError`), and a name for which the histograms already have a `groupby` axis (`ValueError`); it accepts all others
that `C30_group_partial` is about. -/
theorem C30_refused {n : ℕ} (by_ : E) (hs : List (List AnyAxis × Grouped n)) :
    (hs = [] → groupCall by_ hs = .error .valueError ∧ groupHists (hs.map (·.2)) = .error .valueError) ∧
    ((∃ x ∈ hs, ∃ y ∈ hs, x.1 ≠ y.1) → groupCall by_ hs = .error .typeError) ∧
    (∀ ax, hs ≠ [] → (∀ x ∈ hs, x.1 = ax) →
      (AnyAxis.group .groupby by_ ∈ ax → groupCall by_ hs = .error .valueError) ∧
      (AnyAxis.group .groupby by_ ∉ ax → groupCall by_ hs = groupHists (hs.map (·.2)))) := by
  refine ⟨?_, ?_, ?_⟩
  · rintro rfl; exact ⟨rfl, rfl⟩
  · rintro ⟨x, hx, y, hy, hxy⟩
    cases hs with
    | nil => simp at hx
    | cons z hs =>
      have : groupAxes none ((z :: hs).map (·.1)) = .error .typeError := by
        rw [List.map_cons, groupAxes, groupAxes_some, if_neg]
        intro h
        have h' : ∀ w ∈ z :: hs, w.1 = z.1 := by
          intro w hw
          rcases List.mem_cons.1 hw with rfl | hw
          · rfl
          · exact h w.1 (List.mem_map.2 ⟨w, hw, rfl⟩)
        exact hxy ((h' x hx).trans (h' y hy).symm)
      unfold groupCall
      rw [this]
  · intro ax hne hall
    cases hs with
    | nil => exact absurd rfl hne
    | cons z hs =>
      have : groupAxes none ((z :: hs).map (·.1)) = .ok (some ax) := by
        rw [List.map_cons, groupAxes, groupAxes_some, if_pos]
        · rw [hall z (by simp)]
        · intro w hw
          obtain ⟨v, hv, rfl⟩ := List.mem_map.1 hw
          rw [hall v (by simp [hv]), hall z (by simp)]
      unfold groupCall
      rw [this]
      constructor
      · intro h
        simp only
        rw [if_pos]
        rw [List.any_eq_true]
        exact ⟨_, h, (same_iff_eq _ _).2 rfl⟩
      · intro h
        simp only
        rw [if_neg]
        rw [List.any_eq_true]
        rintro ⟨b, hb, hs⟩
        exact h ((same_iff_eq _ _).1 hs ▸ hb)

example : (groupCall (n := 0) (E.name "source") [([axX], ⟨"a", none, none⟩), ([axX], ⟨"b", none, none⟩)]).isOk = true ∧
    (groupCall (n := 0) (E.name "source") [([axX], ⟨"a", none, none⟩), ([axX2], ⟨"b", none, none⟩)]).isOk = false := ⟨rfl, rfl⟩

/-! ## C101: `togroup` -/

/-- C101 fails for all calls: `h.togroup(name=other, ...)` raises `TypeError`, and `Hist.togroup(name=other, ...)` raises
`NameError`, so that nothing is ever added to a group. -/
theorem C101_togroup_refuted (H : HistDef) (st : Option (Content Arr (H.groups.length + 1))) (hists : List (String × H.State)) :
    (∀ st', togroupMethod st hists ≠ .ok st') ∧ (∀ st' : Option (Content Arr (H.groups.length + 1)), togroupFunction hists ≠ .ok st') := by
  constructor
  · intro st' h
    cases h
  · intro st' h
    cases h

/-- **C102** for the axes of a histogram: positions count the group axes first, then the fixed ones, then the profiles. -/
theorem C102_of_histogram (X : HistExprs) (i : ℕ) :
    (∀ p, X.groups[i]? = some p → X.theAxis (.pos i) = .ok (.group p.1 p.2)) ∧
      (∀ p, X.fixed[i]? = some p → X.theAxis (.pos (X.groups.length + i : ℕ)) = .ok (.fixed p.1 p.2)) ∧
      (∀ e, X.profs[i]? = some e → X.theAxis (.pos (X.groups.length + X.fixed.length + i : ℕ)) = .ok (.prof e)) := by
  have key : ∀ (j : ℕ) (a : AnyAxis), X.axes[j]? = some a → X.theAxis (.pos j) = .ok a := by
    intro j a h
    have hl : j < X.axes.length := (List.getElem?_eq_some_iff.1 h).1
    simp [HistExprs.theAxis, axisItem, tupleItem, h]
  refine ⟨fun p h => key _ _ ?_, fun p h => key _ _ ?_, fun e h => key _ _ ?_⟩
  · have hl : i < X.groups.length := (List.getElem?_eq_some_iff.1 h).1
    rw [HistExprs.axes, List.append_assoc, List.getElem?_append_left (by simpa using hl), List.getElem?_map, h]; rfl
  · have hl : i < X.fixed.length := (List.getElem?_eq_some_iff.1 h).1
    rw [HistExprs.axes, List.append_assoc, List.getElem?_append_right (by simp),
      List.getElem?_append_left (by simpa using hl), List.getElem?_map]
    simp [h]
  · rw [HistExprs.axes, List.getElem?_append_right (by simp), List.getElem?_map]
    simp [h]

example : (⟨[(.groupby, E.name "g")], [(.cut, E.name "c")], [E.name "p"], none⟩ : HistExprs).theAxis (.pos 2) = .ok (.prof (E.name "p")) ∧
    (⟨[(.groupby, E.name "g")], [(.cut, E.name "c")], [E.name "p"], none⟩ : HistExprs).theAxis (.pos (-1)) = .ok (.prof (E.name "p")) := ⟨rfl, rfl⟩

end Verif
