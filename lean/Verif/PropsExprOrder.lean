import Verif.ExprRing
import Verif.PropsExpr

/-!
# C51: the order of operands does not matter

Property theorems.
-/

namespace Verif

/-- Two ways to write the same: operands of `+`, `*`, `==`, `!=`, `and` and `or` in another order, `<`
for `>`, and (without division) any rearrangement that is valid for polynomials; anywhere inside a
larger expression, and any number of times. -/
inductive Variant (known : String → Bool) : Py → Py → Prop
  | refl (s : Py) : Variant known s s
  | symm {s t : Py} : Variant known s t → Variant known t s
  | trans {s t u : Py} : Variant known s t → Variant known t u → Variant known s u
  | add (a b : Py) : Variant known (.bin .add a b) (.bin .add b a)
  | mul (a b : Py) : Variant known (.bin .mul a b) (.bin .mul b a)
  | polynomial (s t : Py) : s.divFree known = true → t.divFree known = true → s.mv = t.mv → Variant known s t
  | gt (a b : Py) : Variant known (.compare a [.gt] [b]) (.compare b [.lt] [a])
  | ge (a b : Py) : Variant known (.compare a [.ge] [b]) (.compare b [.le] [a])
  | eq (a b : Py) : Variant known (.compare a [.eq] [b]) (.compare b [.eq] [a])
  | ne (a b : Py) : Variant known (.compare a [.ne] [b]) (.compare b [.ne] [a])
  | land {l l' : List Py} : l.Perm l' → Variant known (.land l) (.land l')
  | lor {l l' : List Py} : l.Perm l' → Variant known (.lor l) (.lor l')
  | inNeg {a b : Py} : Variant known a b → Variant known (.neg a) (.neg b)
  | inPlus {a b : Py} : Variant known a b → Variant known (.plus a) (.plus b)
  | inInvert {a b : Py} : Variant known a b → Variant known (.invert a) (.invert b)
  | inLeft {a b : Py} (op : PyOp) (c : Py) : Variant known a b → Variant known (.bin op a c) (.bin op b c)
  | inRight {a b : Py} (op : PyOp) (c : Py) : Variant known a b → Variant known (.bin op c a) (.bin op c b)
  | inFirst {a b : Py} (ops : List PyCmp) (cs : List Py) : Variant known a b →
      Variant known (.compare a ops cs) (.compare b ops cs)
  | inChain {a b : Py} (c : Py) (ops : List PyCmp) (l r : List Py) : Variant known a b →
      Variant known (.compare c ops (l ++ a :: r)) (.compare c ops (l ++ b :: r))
  | inNot {a b : Py} : Variant known a b → Variant known (.lnot a) (.lnot b)
  | inAnd {a b : Py} (l r : List Py) : Variant known a b →
      Variant known (.land (l ++ a :: r)) (.land (l ++ b :: r))
  | inOr {a b : Py} (l r : List Py) : Variant known a b →
      Variant known (.lor (l ++ a :: r)) (.lor (l ++ b :: r))
  | inCall {a b : Py} (f : String) (l r : List Py) : Variant known a b →
      Variant known (.call f (l ++ a :: r)) (.call f (l ++ b :: r))

/-- Parsed to the same, or both refused. -/
def SameParse (known : String → Bool) (s t : Py) : Prop :=
  ∀ rel e, Py.parse (plainScope known) rel s = .ok e ↔ Py.parse (plainScope known) rel t = .ok e

theorem exBind_congr {α β : Type} {x y : Except Err α} {f g : α → Except Err β} {b : β}
    (hx : ∀ a, x = .ok a ↔ y = .ok a) (hf : ∀ a, f a = .ok b ↔ g a = .ok b) :
    (x >>= f) = .ok b ↔ (y >>= g) = .ok b := by
  constructor
  · intro h
    obtain ⟨a, h1, h2⟩ := exBind h
    rw [(hx a).1 h1]; exact (hf a).1 h2
  · intro h
    obtain ⟨a, h1, h2⟩ := exBind h
    rw [(hx a).2 h1]; exact (hf a).2 h2

theorem parse_bin_comm {known : String → Bool} {op : PyOp} (h : ∀ l r, binary op l r = binary op r l)
    (a b : Py) {rel : Bool} {e : E} (hp : Py.parse (plainScope known) rel (.bin op a b) = .ok e) :
    Py.parse (plainScope known) rel (.bin op b a) = .ok e := by
  simp only [Py.parse] at hp ⊢
  obtain ⟨l, h1, h2⟩ := exBind hp
  obtain ⟨r, h3, h4⟩ := exBind h2
  rw [h3, h1]
  change binary op r l = .ok e
  rw [h]; exact h4

theorem sort2_comm (l r : E) : sort2 l r = sort2 r l := by
  unfold sort2
  by_cases h1 : E.cmp r l = .lt
  · have h2 : E.cmp l r ≠ .lt := by
      intro h2
      rw [← E.cmp_swap] at h2
      rw [h1] at h2; cases h2
    rw [if_pos h1, if_neg h2]
  · rw [if_neg h1]
    by_cases h2 : E.cmp l r = .lt
    · rw [if_pos h2]
    · rw [if_neg h2]
      have : l = r := by
        apply E.le_antisymm
        · intro hg
          have : E.cmp r l = .lt := by rw [← E.cmp_swap, hg]; rfl
          exact h1 this
        · intro hg
          have : E.cmp l r = .lt := by rw [← E.cmp_swap, hg]; rfl
          exact h2 this
      rw [this]

theorem parse_swap {known : String → Bool} {op op' : PyCmp}
    (h : ∀ l r x, mkRel op l r = .ok x → mkRel op' r l = .ok x) (a b : Py) {rel : Bool} {e : E}
    (hp : Py.parse (plainScope known) rel (.compare a [op] [b]) = .ok e) :
    Py.parse (plainScope known) rel (.compare b [op'] [a]) = .ok e := by
  cases rel with
  | false => simp [Py.parse] at hp
  | true =>
    simp only [Py.parse, Py.parseChain] at hp ⊢
    obtain ⟨l, h1, h2⟩ := exBind hp
    obtain ⟨rs, h3, h4⟩ := exBind h2
    obtain ⟨r, h5, h6⟩ := exBind h3
    obtain ⟨x, h7, h8⟩ := exBind h6
    rw [h5, h1]
    change (mkRel op' r l >>= _) >>= _ = _
    rw [h l r x h7]
    have h9 : (Except.ok [x] : Except Err _) = .ok rs := h8
    have := (Except.ok.inj h9).symm; subst this
    exact h4

theorem andCombine_mem (l r z : E) : z ∈ (andCombine l r).args ↔
    ∃ x ∈ l.args, ∃ y ∈ r.args, z = mkAnd (x.args ++ y.args) := by
  change z ∈ sortU _ ↔ _
  rw [mem_sortU]
  simp only [List.mem_flatMap, List.mem_map]
  constructor
  · rintro ⟨x, hx, y, hy, e⟩; exact ⟨x, hx, y, hy, e.symm⟩
  · rintro ⟨x, hx, y, hy, e⟩; exact ⟨x, hx, y, hy, e.symm⟩

theorem mkAnd_congr {l l' : List E} (h : ∀ x, x ∈ l ↔ x ∈ l') : mkAnd l = mkAnd l' := by
  unfold mkAnd; rw [sortU_congr h]

theorem mkOr_congr {l l' : List E} (h : ∀ x, x ∈ l ↔ x ∈ l') : mkOr l = mkOr l' := by
  unfold mkOr; rw [sortU_congr h]

theorem mem_mkAnd_args {l : List E} {x : E} : x ∈ (mkAnd l).args ↔ x ∈ l := mem_sortU

theorem andCombine_comm (l r : E) : andCombine l r = andCombine r l := by
  unfold andCombine
  refine mkOr_congr ?_
  intro z
  simp only [List.mem_flatMap, List.mem_map]
  have : ∀ x y : E, mkAnd (x.args ++ y.args) = mkAnd (y.args ++ x.args) := fun x y =>
    mkAnd_congr (fun w => by simp [or_comm])
  constructor
  · rintro ⟨x, hx, y, hy, e⟩; exact ⟨y, hy, x, hx, by rw [this]; exact e⟩
  · rintro ⟨x, hx, y, hy, e⟩; exact ⟨y, hy, x, hx, by rw [this]; exact e⟩

theorem andCombine_assoc (a b c : E) : andCombine (andCombine a b) c = andCombine a (andCombine b c) := by
  conv_lhs => unfold andCombine
  conv_rhs => unfold andCombine
  refine mkOr_congr ?_
  intro z
  simp only [List.mem_flatMap, List.mem_map]
  constructor
  · rintro ⟨w, hw, t, ht, e⟩
    obtain ⟨x, hx, y, hy, rfl⟩ := (andCombine_mem a b w).1 hw
    refine ⟨x, hx, mkAnd (y.args ++ t.args), (andCombine_mem b c _).2 ⟨y, hy, t, ht, rfl⟩, ?_⟩
    rw [← e]
    refine mkAnd_congr (fun w => ?_)
    simp only [List.mem_append, mem_mkAnd_args, or_assoc]
  · rintro ⟨x, hx, w, hw, e⟩
    obtain ⟨y, hy, t, ht, rfl⟩ := (andCombine_mem b c w).1 hw
    refine ⟨mkAnd (x.args ++ y.args), (andCombine_mem a b _).2 ⟨x, hx, y, hy, rfl⟩, t, ht, ?_⟩
    rw [← e]
    refine mkAnd_congr (fun w => ?_)
    simp only [List.mem_append, mem_mkAnd_args, or_assoc]

theorem orCombine_comm (l r : E) : orCombine l r = orCombine r l :=
  mkOr_congr (fun x => by simp [or_comm])

theorem orCombine_assoc (a b c : E) : orCombine (orCombine a b) c = orCombine a (orCombine b c) := by
  refine mkOr_congr (fun x => ?_)
  change x ∈ sortU _ ++ _ ↔ x ∈ _ ++ sortU _
  simp only [List.mem_append, mem_sortU, or_assoc]

theorem reduceE_perm {f : E → E → E} (hc : ∀ a b, f a b = f b a)
    (ha : ∀ a b c, f (f a b) c = f a (f b c)) {l l' : List E} (h : l.Perm l') :
    reduceE f l = reduceE f l' := by
  have rc : RightCommutative f := ⟨fun a b c => by rw [ha, hc b c, ← ha]⟩
  induction h with
  | nil => rfl
  | cons x h _ => simp only [reduceE]; rw [h.foldl_eq]
  | swap x y l => simp only [reduceE, List.foldl_cons]; rw [hc]
  | trans _ _ h1 h2 => rw [h1, h2]

theorem parseOrs_perm {known : String → Bool} {l l' : List Py} (h : l.Perm l') {os : List E}
    (ho : Py.parseOrs (plainScope known) l = .ok os) :
    ∃ os', Py.parseOrs (plainScope known) l' = .ok os' ∧ os.Perm os' := by
  induction h generalizing os with
  | nil => exact ⟨os, ho, .refl _⟩
  | cons x _ ih =>
    simp only [Py.parseOrs] at ho ⊢
    obtain ⟨e, h1, h2⟩ := exBind ho
    obtain ⟨o, h3, h4⟩ := exBind h2
    obtain ⟨t, h5, h6⟩ := exBind h4
    obtain ⟨t', g1, g2⟩ := ih h5
    have h7 : (Except.ok (o :: t) : Except Err _) = .ok os := h6
    have := (Except.ok.inj h7).symm; subst this
    refine ⟨o :: t', ?_, g2.cons o⟩
    rw [h1]; change (e.asOr >>= _) = _
    rw [h3]; change (Py.parseOrs _ _ >>= _) = _
    rw [g1]; rfl
  | swap x y l =>
    simp only [Py.parseOrs] at ho ⊢
    obtain ⟨e, h1, h2⟩ := exBind ho
    obtain ⟨o, h3, h4⟩ := exBind h2
    obtain ⟨t, h5, h6⟩ := exBind h4
    obtain ⟨e', k1, k2⟩ := exBind h5
    obtain ⟨o', k3, k4⟩ := exBind k2
    obtain ⟨t', k5, k6⟩ := exBind k4
    have h7 : (Except.ok (o :: t) : Except Err _) = .ok os := h6
    have := (Except.ok.inj h7).symm; subst this
    have k7 : (Except.ok (o' :: t') : Except Err _) = .ok t := k6
    have := (Except.ok.inj k7).symm; subst this
    refine ⟨o' :: o :: t', ?_, .swap _ _ _⟩
    rw [k1]; change (e'.asOr >>= _) = _
    rw [k3]; change (((Py.parse _ _ _ >>= _) : Except Err (List E)) >>= _) = _
    rw [h1]; change ((e.asOr >>= _) >>= _) = _
    rw [h3]; change ((Py.parseOrs _ _ >>= _) >>= _) = _
    rw [k5]; rfl
  | trans _ _ h1 h2 =>
    obtain ⟨o1, g1, g2⟩ := h1 ho
    obtain ⟨o2, g3, g4⟩ := h2 g1
    exact ⟨o2, g3, g2.trans g4⟩

theorem parse_land_perm {known : String → Bool} {l l' : List Py} (h : l.Perm l') {rel : Bool} {e : E}
    (hp : Py.parse (plainScope known) rel (.land l) = .ok e) :
    Py.parse (plainScope known) rel (.land l') = .ok e := by
  cases rel with
  | false => simp [Py.parse] at hp
  | true =>
    simp only [Py.parse] at hp ⊢
    obtain ⟨os, h1, h2⟩ := exBind hp
    obtain ⟨os', g1, g2⟩ := parseOrs_perm h h1
    rw [g1]
    change (reduceE andCombine os').map orSimplify = _
    rw [← reduceE_perm andCombine_comm andCombine_assoc g2]; exact h2

theorem parse_lor_perm {known : String → Bool} {l l' : List Py} (h : l.Perm l') {rel : Bool} {e : E}
    (hp : Py.parse (plainScope known) rel (.lor l) = .ok e) :
    Py.parse (plainScope known) rel (.lor l') = .ok e := by
  cases rel with
  | false => simp [Py.parse] at hp
  | true =>
    simp only [Py.parse] at hp ⊢
    obtain ⟨os, h1, h2⟩ := exBind hp
    obtain ⟨os', g1, g2⟩ := parseOrs_perm h h1
    rw [g1]
    change (reduceE orCombine os').map orSimplify = _
    rw [← reduceE_perm orCombine_comm orCombine_assoc g2]; exact h2

theorem parseOrs_replace {known : String → Bool} {a b : Py} (h : SameParse known a b) (r : List Py) :
    ∀ (l : List Py) (os : List E), Py.parseOrs (plainScope known) (l ++ a :: r) = .ok os ↔
      Py.parseOrs (plainScope known) (l ++ b :: r) = .ok os
  | [], os => by
    simp only [List.nil_append, Py.parseOrs]
    exact exBind_congr (h true) (fun _ => Iff.rfl)
  | x :: xs, os => by
    simp only [List.cons_append, Py.parseOrs]
    exact exBind_congr (fun _ => Iff.rfl) (fun _ => exBind_congr (fun _ => Iff.rfl) (fun _ =>
      exBind_congr (parseOrs_replace h r xs) (fun _ => Iff.rfl)))

theorem parseArgs_replace {known : String → Bool} {a b : Py} (h : SameParse known a b) (r : List Py) :
    ∀ (rel : Bool) (l : List Py) (es : List E),
      Py.parseArgs (plainScope known) rel (l ++ a :: r) = .ok es ↔
      Py.parseArgs (plainScope known) rel (l ++ b :: r) = .ok es
  | rel, [], es => by
    simp only [List.nil_append, Py.parseArgs]
    exact exBind_congr (h rel) (fun _ => Iff.rfl)
  | rel, x :: xs, es => by
    simp only [List.cons_append, Py.parseArgs]
    exact exBind_congr (fun _ => Iff.rfl) (fun _ =>
      exBind_congr (parseArgs_replace h r false xs) (fun _ => Iff.rfl))

theorem parseChain_replace {known : String → Bool} {a b : Py} (h : SameParse known a b) (r : List Py) :
    ∀ (x : E) (ops : List PyCmp) (l : List Py) (es : List E),
      Py.parseChain (plainScope known) x ops (l ++ a :: r) = .ok es ↔
      Py.parseChain (plainScope known) x ops (l ++ b :: r) = .ok es
  | x, [], l, es => by
    cases l <;> simp [Py.parseChain]
  | x, op :: ops, [], es => by
    simp only [List.nil_append, Py.parseChain]
    exact exBind_congr (h false) (fun _ => Iff.rfl)
  | x, op :: ops, y :: ys, es => by
    simp only [List.cons_append, Py.parseChain]
    exact exBind_congr (fun _ => Iff.rfl) (fun z => exBind_congr (fun _ => Iff.rfl) (fun _ =>
      exBind_congr (parseChain_replace h r z ops ys) (fun _ => Iff.rfl)))

/-- **C51** for all expressions: variants of an expression are parsed to the same, or both cannot be
parsed.  The terms of sums and the factors of products can be swapped pairwise in all expressions, and
rearranged in any way where the operands contain no division (`Variant.polynomial`); missing are other
rearrangements with more than two operands of sums and products that contain divisions or where two
factors of a product have a constant term; the latter differ (`C51_product_order`). -/
theorem C51_variant_partial {known : String → Bool} {s t : Py} (h : Variant known s t) :
    SameParse known s t := by
  induction h with
  | refl s => exact fun _ _ => Iff.rfl
  | symm _ ih => exact fun rel e => (ih rel e).symm
  | trans _ _ h1 h2 => exact fun rel e => (h1 rel e).trans (h2 rel e)
  | add a b => exact fun rel e => ⟨parse_bin_comm binary_add_comm a b, parse_bin_comm binary_add_comm b a⟩
  | mul a b => exact fun rel e => ⟨parse_bin_comm binary_mul_comm a b, parse_bin_comm binary_mul_comm b a⟩
  | polynomial s t hs ht hm =>
    intro rel e
    obtain ⟨x, h1, h2⟩ := same_of_mv hs ht hm
    cases rel with
    | false => rw [h1, h2]
    | true => rw [parse_false_true h1, parse_false_true h2]
  | gt a b => exact fun rel e => ⟨parse_swap (fun _ _ _ h => h) a b, parse_swap (fun _ _ _ h => h) b a⟩
  | ge a b => exact fun rel e => ⟨parse_swap (fun _ _ _ h => h) a b, parse_swap (fun _ _ _ h => h) b a⟩
  | eq a b =>
    have : ∀ l r x, mkRel .eq l r = .ok x → mkRel .eq r l = .ok x := by
      intro l r x h; simp only [mkRel] at h ⊢; rw [sort2_comm]; exact h
    exact fun rel e => ⟨parse_swap this a b, parse_swap this b a⟩
  | ne a b =>
    have : ∀ l r x, mkRel .ne l r = .ok x → mkRel .ne r l = .ok x := by
      intro l r x h; simp only [mkRel] at h ⊢; rw [sort2_comm]; exact h
    exact fun rel e => ⟨parse_swap this a b, parse_swap this b a⟩
  | land hp => exact fun rel e => ⟨parse_land_perm hp, parse_land_perm hp.symm⟩
  | lor hp => exact fun rel e => ⟨parse_lor_perm hp, parse_lor_perm hp.symm⟩
  | inNeg _ ih =>
    intro rel e; simp only [Py.parse]; exact exBind_congr (ih false) (fun _ => Iff.rfl)
  | inPlus _ ih => intro rel e; simp only [Py.parse]; exact ih false e
  | inInvert _ ih =>
    intro rel e; simp only [Py.parse]; exact exBind_congr (ih false) (fun _ => Iff.rfl)
  | inLeft op c _ ih =>
    intro rel e; simp only [Py.parse]; exact exBind_congr (ih false) (fun _ => Iff.rfl)
  | inRight op c _ ih =>
    intro rel e; simp only [Py.parse]
    exact exBind_congr (fun _ => Iff.rfl) (fun _ => exBind_congr (ih false) (fun _ => Iff.rfl))
  | inFirst ops cs _ ih =>
    intro rel e
    cases rel with
    | false => simp [Py.parse]
    | true => simp only [Py.parse]; exact exBind_congr (ih false) (fun _ => Iff.rfl)
  | inChain c ops l r _ ih =>
    intro rel e
    cases rel with
    | false => simp [Py.parse]
    | true =>
      simp only [Py.parse]
      exact exBind_congr (fun _ => Iff.rfl) (fun x =>
        exBind_congr (parseChain_replace ih r x ops l) (fun _ => Iff.rfl))
  | inNot _ ih =>
    intro rel e
    cases rel with
    | false => simp [Py.parse]
    | true => simp only [Py.parse]; exact exBind_congr (ih true) (fun _ => Iff.rfl)
  | inAnd l r _ ih =>
    intro rel e
    cases rel with
    | false => simp [Py.parse]
    | true => simp only [Py.parse]; exact exBind_congr (parseOrs_replace ih r l) (fun _ => Iff.rfl)
  | inOr l r _ ih =>
    intro rel e
    cases rel with
    | false => simp [Py.parse]
    | true => simp only [Py.parse]; exact exBind_congr (parseOrs_replace ih r l) (fun _ => Iff.rfl)
  | inCall f l r _ ih =>
    intro rel e
    simp only [Py.parse]
    by_cases hk : (plainScope known).known f = true
    · rw [if_pos hk, if_pos hk]
      exact exBind_congr (parseArgs_replace ih r _ l) (fun _ => Iff.rfl)
    · rw [if_neg hk, if_neg hk]

/-- **C51**, looking up an axis: `Hist.axis[expr]` compares parsed expressions, and finds the axis by
every variant of its expression. -/
theorem C51_lookup {known : String → Bool} {s t : Py} (h : Variant known s t) {e f : E}
    (hs : parseExpr (plainScope known) s = .ok e) (ht : parseExpr (plainScope known) t = .ok f) :
    E.same e f = true := by
  have := ((C51_variant_partial h) true e).1 hs
  have : f = e := Except.ok.inj (ht.symm.trans this)
  rw [this]; exact E.same_iff.2 rfl

/-- The sum of a list of terms, from the left. -/
def sumOf (a : Py) (l : List Py) : Py := l.foldl (.bin .add) a

/-- The product of a list of factors, from the left. -/
def prodOf (a : Py) (l : List Py) : Py := l.foldl (.bin .mul) a

theorem sumOf_divFree {known : String → Bool} {a : Py} {l : List Py} (h : ∀ x ∈ a :: l, x.divFree known = true) :
    (sumOf a l).divFree known = true ∧ (sumOf a l).mv = ((a :: l).map Py.mv).sum := by
  induction l generalizing a with
  | nil => exact ⟨h a (by simp), by simp [sumOf]⟩
  | cons b bs ih =>
    have := ih (a := .bin .add a b) (by
      intro x hx
      rcases List.mem_cons.1 hx with rfl | hx
      · simp [Py.divFree, h a (by simp), h b (by simp)]
      · exact h x (by simp [hx]))
    refine ⟨this.1, ?_⟩
    have e : sumOf a (b :: bs) = sumOf (.bin .add a b) bs := rfl
    rw [e, this.2]; simp [Py.mv]; ring

theorem prodOf_divFree {known : String → Bool} {a : Py} {l : List Py} (h : ∀ x ∈ a :: l, x.divFree known = true)
    (hc : ∀ x ∈ l, x.constTerm = 0) :
    (prodOf a l).divFree known = true ∧ (prodOf a l).mv = ((a :: l).map Py.mv).prod := by
  induction l generalizing a with
  | nil => exact ⟨h a (by simp), by simp [prodOf]⟩
  | cons b bs ih =>
    have := ih (a := .bin .mul a b) (by
      intro x hx
      rcases List.mem_cons.1 hx with rfl | hx
      · simp [Py.divFree, h a (by simp), h b (by simp), hc b (by simp)]
      · exact h x (by simp [hx])) (fun x hx => hc x (by simp [hx]))
    refine ⟨this.1, ?_⟩
    have e : prodOf a (b :: bs) = prodOf (.bin .mul a b) bs := rfl
    rw [e, this.2]; simp [Py.mv]; ring

/-- **C51** for the terms of a sum without division: every reordering is parsed to the same. -/
theorem C51_sum {known : String → Bool} {a b : Py} {l r : List Py} (hp : (a :: l).Perm (b :: r))
    (h : ∀ x ∈ a :: l, x.divFree known = true) :
    ∃ e, parseExpr (plainScope known) (sumOf a l) = .ok e ∧
      parseExpr (plainScope known) (sumOf b r) = .ok e := by
  obtain ⟨h1, h2⟩ := sumOf_divFree h
  obtain ⟨h3, h4⟩ := sumOf_divFree (known := known) (a := b) (l := r) (fun x hx => h x (hp.mem_iff.2 hx))
  obtain ⟨e, g1, g2⟩ := same_of_mv h1 h3 (by rw [h2, h4, (hp.map Py.mv).sum_eq])
  exact ⟨e, parse_false_true g1, parse_false_true g2⟩

/-- **C51** for the factors of a product without division and without constant terms. -/
theorem C51_product {known : String → Bool} {a b : Py} {l r : List Py} (hp : (a :: l).Perm (b :: r))
    (h : ∀ x ∈ a :: l, x.divFree known = true) (hc : ∀ x ∈ a :: l, x.constTerm = 0) :
    ∃ e, parseExpr (plainScope known) (prodOf a l) = .ok e ∧
      parseExpr (plainScope known) (prodOf b r) = .ok e := by
  obtain ⟨h1, h2⟩ := prodOf_divFree h (fun x hx => hc x (by simp [hx]))
  obtain ⟨h3, h4⟩ := prodOf_divFree (known := known) (a := b) (l := r) (fun x hx => h x (hp.mem_iff.2 hx))
    (fun x hx => hc x (hp.mem_iff.2 (by simp [hx])))
  obtain ⟨e, g1, g2⟩ := same_of_mv h1 h3 (by rw [h2, h4, (hp.map Py.mv).prod_eq])
  exact ⟨e, parse_false_true g1, parse_false_true g2⟩

/-- **C51** fails for products: `2*y*(x + 1)` and `2*(x + 1)*y` are parsed to different expressions,
with different values. -/
theorem C51_product_order :
    parsedVal exprRow (prodOf (.num 2) [pY, .bin .add pX (.num 1)]) = .ok (some 40) ∧
    parsedVal exprRow (prodOf (.num 2) [.bin .add pX (.num 1), pY]) = .ok (some 30) := by
  decide +kernel

/-- `x - (z*y + x)*y > 0 and flag` against `flag and 0 < -y*y*z + x*(1 - y)`, except that the parser
loses constant terms of products: `x - x*y` instead of `x*(1 - y)`. -/
example : Variant anyName
    (.land [.compare (.bin .sub pX (.bin .mul (.bin .add (.bin .mul pZ pY) pX) pY)) [.gt] [.num 0], .name "flag"])
    (.land [.name "flag", .compare (.num 0) [.lt]
      [.bin .add (.bin .mul (.neg (.bin .mul pY pY)) pZ) (.bin .sub pX (.bin .mul pX pY))]]) := by
  refine .trans (.land (List.Perm.swap _ _ _)) (.inAnd [.name "flag"] [] (.trans (.gt _ _) ?_))
  refine .inChain (.num 0) [.lt] [] [] (.polynomial _ _ (by decide +kernel) (by decide +kernel) ?_)
  simp only [Py.mv, pX, pY, pZ]; ring

example : ∀ x ∈ [pX, .bin .mul pY pZ, .num 3], Py.divFree anyName x = true := by decide +kernel

example : ∀ x ∈ [pX, .bin .add pY pZ, .call "sqrt" [pX]],
    Py.divFree anyName x = true ∧ Py.constTerm x = 0 := by decide +kernel

end Verif
