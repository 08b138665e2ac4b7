import Verif.ExprOrder

/-!
# The order of expressions with the types of their constants

`Const.__eq__` and `Const.__lt__` (`/repo/histbook/expr.py` 504-513) compare values of one type by value and values of different types by the
names of the types, while `==` holds between `1`, `1.0` and `True`.  `Expr.lean` has one kind of number; here the types are kept.  `None` is left out.
-/

namespace Verif

/-- The value of a `Const`: `bool`, `float`, `int`, `set` (of numbers, as the list of its elements in order), `str`. -/
inductive KVal where
  | bool (b : Bool)
  | float (q : ℚ)
  | int (z : ℤ)
  | set (l : List ℚ)
  | str (s : String)
  deriving DecidableEq

/-- The position of the name of the type among the names. -/
def KVal.tname : KVal → ℕ
  | .bool _ => 0 | .float _ => 1 | .int _ => 2 | .set _ => 3 | .str _ => 4

/-- The number that Python compares. -/
def KVal.num : KVal → ℚ
  | .bool b => if b then 1 else 0 | .float q => q | .int z => z | .set _ => 0 | .str _ => 0

/-- The value is a number. -/
def KVal.isNum : KVal → Bool
  | .set _ => false | .str _ => false | _ => true

/-- expr.py:505 `self.value == other.value`. -/
def KVal.eq : KVal → KVal → Bool
  | .set l, .set m => l = m
  | .str s, .str t => s = t
  | a, b => a.isNum && b.isNum && a.num = b.num

/-- expr.py:508-512: within a type the values (sets: proper subsets), otherwise the names of the types. -/
def KVal.lt : KVal → KVal → Bool
  | .bool a, .bool b => !a && b
  | .float a, .float b => a < b
  | .int a, .int b => a < b
  | .set l, .set m => l.all (fun x => m.contains x) && !(m.all fun x => l.contains x)
  | .str s, .str t => compare s t = .lt
  | a, b => a.tname < b.tname

/-- The class and own data of the other nodes, see `Head`. -/
inductive THead where
  | binop (f : String) | call (f : String) | land | lor | name (s : String) | plus (c : ℚ) | pred (s : String) (positive : Bool)
  | rel (c : RelOp) | times (c : ℚ)
  deriving DecidableEq

/-- As a head without types. -/
def THead.toHead : THead → Head
  | .binop f => .binop f | .call f => .call f | .land => .land | .lor => .lor | .name s => .name s | .plus c => .plus c
  | .pred s b => .pred s b | .rel c => .rel c | .times c => .times c

/-- An expression with typed constants, see `E`. -/
inductive TE where
  | const (k : KVal)
  | node (h : THead) (pos neg : List TE)

mutual
/-- `__eq__` (expr.py 504-505, 534-535, 608-609, 647-648, 913-914, 1002-1003, 1046-1047). -/
def TE.eq : TE → TE → Bool
  | .const k, .const k' => k.eq k'
  | .node h p n, .node h' p' n' => decide (h = h') && TE.eqL p p' && TE.eqL n n'
  | .const _, .node _ _ _ => false
  | .node _ _ _, .const _ => false
/-- Equality of tuples. -/
def TE.eqL : List TE → List TE → Bool
  | [], [] => true
  | [], _ :: _ => false
  | _ :: _, [] => false
  | x :: xs, y :: ys => TE.eq x y && TE.eqL xs ys
end

mutual
/-- `__lt__` (expr.py 507-513, 537-541, 611-615, 650-654, 916-920, 1005-1009, 1049-1053): names of classes, then tuples. -/
def TE.lt : TE → TE → Bool
  | .const k, .const k' => k.lt k'
  | .const _, .node h _ _ => decide (2 < h.toHead.rank)
  | .node h _ _, .const _ => decide (h.toHead.rank < 2)
  | .node h p n, .node h' p' n' =>
    if h = h' then (if TE.eqL p p' then TE.ltL n n' else TE.ltL p p') else decide (h.toHead.cmp h'.toHead = .lt)
/-- Python's order of tuples: the first pair that is not equal decides. -/
def TE.ltL : List TE → List TE → Bool
  | [], [] => false
  | [], _ :: _ => true
  | _ :: _, [] => false
  | x :: xs, y :: ys => if TE.eq x y then TE.ltL xs ys else TE.lt x y
end

/-! ## Python's `sorted` for lists of less than 64 elements -/

section
variable {α : Type} (lt : α → α → Bool)

/-- listobject.c `count_run`, an ascending run: as long as nothing is less than the one before. -/
def ascRun : α → List α → List α → List α × List α
  | _, acc, [] => (acc.reverse, [])
  | prev, acc, y :: rest => if lt y prev then (acc.reverse, y :: rest) else ascRun y (y :: acc) rest

/-- listobject.c `count_run`, a strictly descending run, which is then reversed. -/
def descRun : α → List α → List α → List α × List α
  | _, acc, [] => (acc, [])
  | prev, acc, y :: rest => if lt y prev then descRun y (y :: acc) rest else (acc, y :: rest)

/-- listobject.c `count_run`. -/
def countRun : List α → List α × List α
  | [] => ([], [])
  | [x] => ([x], [])
  | x :: y :: rest => if lt y x then descRun lt y [y, x] rest else ascRun lt y [y, x] rest

/-- listobject.c `binarysort`: where to insert; `n` is at least `hi - lo`. -/
def bisect (p : List α) (x : α) : ℕ → ℕ → ℕ → ℕ
  | 0, lo, _ => lo
  | n + 1, lo, hi =>
    if lo < hi then
      match p[(lo + hi) / 2]? with
      | none => lo
      | some y => if lt x y then bisect p x n lo ((lo + hi) / 2) else bisect p x n ((lo + hi) / 2 + 1) hi
    else lo

/-- listobject.c `binarysort`: insertion of one element. -/
def binInsert (p : List α) (x : α) : List α :=
  p.take (bisect lt p x p.length 0 p.length) ++ x :: p.drop (bisect lt p x p.length 0 p.length)

/-- Python's `sorted`, for lists of less than 64 elements. -/
def pySort (l : List α) : List α := (countRun lt l).2.foldl (binInsert lt) (countRun lt l).1

/-! ### It sorts -/

/-- A strict total order on the elements of interest. -/
structure StrictTotal (P : α → Prop) : Prop where
  irrefl : ∀ a, P a → lt a a = false
  trans : ∀ a b c, P a → P b → P c → lt a b = true → lt b c = true → lt a c = true
  total : ∀ a b, P a → P b → a ≠ b → lt a b = true ∨ lt b a = true

variable {lt}

theorem StrictTotal.asymm {P : α → Prop} (h : StrictTotal lt P) {a b : α} (ha : P a) (hb : P b) (hab : lt a b = true) : lt b a = false := by
  by_contra hc
  have := h.trans a b a ha hb ha hab (by simpa using hc)
  rw [h.irrefl a ha] at this
  cases this

theorem StrictTotal.le_lt {P : α → Prop} (h : StrictTotal lt P) {a b c : α} (ha : P a) (hb : P b) (hc : P c) (hba : lt b a = false) (hbc : lt b c = true) :
    lt a c = true := by
  classical
  by_cases e : a = b
  · rw [e]; exact hbc
  · rcases h.total a b ha hb e with h1 | h1
    · exact h.trans a b c ha hb hc h1 hbc
    · rw [hba] at h1; cases h1

theorem StrictTotal.lt_le {P : α → Prop} (h : StrictTotal lt P) {a b c : α} (ha : P a) (hb : P b) (hc : P c) (hab : lt a b = true) (hcb : lt c b = false) :
    lt a c = true := by
  classical
  by_cases e : b = c
  · rw [← e]; exact hab
  · rcases h.total b c hb hc e with h1 | h1
    · exact h.trans a b c ha hb hc hab h1
    · rw [hcb] at h1; cases h1

theorem ascRun_perm (l : List α) : ∀ (prev : α) (acc : List α), ((ascRun lt prev acc l).1 ++ (ascRun lt prev acc l).2).Perm (acc ++ l) := by
  induction l with
  | nil => intro prev acc; simpa [ascRun] using List.reverse_perm acc
  | cons y rest ih =>
    intro prev acc
    rw [ascRun]
    split
    · exact (List.reverse_perm acc).append_right _
    · refine (ih y (y :: acc)).trans ?_
      simpa using (List.perm_middle (l₁ := acc) (l₂ := rest) (a := y)).symm

theorem descRun_perm (l : List α) : ∀ (prev : α) (acc : List α), ((descRun lt prev acc l).1 ++ (descRun lt prev acc l).2).Perm (acc ++ l) := by
  induction l with
  | nil => intro prev acc; simp [descRun]
  | cons y rest ih =>
    intro prev acc
    rw [descRun]
    split
    · refine (ih y (y :: acc)).trans ?_
      simpa using (List.perm_middle (l₁ := acc) (l₂ := rest) (a := y)).symm
    · exact List.Perm.refl _

theorem binInsert_perm (p : List α) (x : α) : (binInsert lt p x).Perm (x :: p) := by
  unfold binInsert
  refine List.perm_middle.trans ?_
  rw [List.take_append_drop]

theorem foldl_binInsert_perm (l : List α) : ∀ p : List α, (l.foldl (binInsert lt) p).Perm (p ++ l) := by
  induction l with
  | nil => intro p; simp
  | cons x l ih =>
    intro p
    rw [List.foldl_cons]
    refine (ih _).trans (((binInsert_perm p x).append_right l).trans ?_)
    exact (List.perm_middle (l₁ := p) (l₂ := l) (a := x)).symm

theorem countRun_perm (l : List α) : ((countRun lt l).1 ++ (countRun lt l).2).Perm l := by
  match l with
  | [] => simp [countRun]
  | [x] => simp [countRun]
  | x :: y :: rest =>
    rw [countRun]
    split
    · exact (descRun_perm rest y [y, x]).trans (List.Perm.swap x y rest)
    · exact (ascRun_perm rest y [y, x]).trans (List.Perm.swap x y rest)

theorem pySort_perm (l : List α) : (pySort lt l).Perm l :=
  (foldl_binInsert_perm _ _).trans (countRun_perm l)

/-- In order: nothing is less than anything before it. -/
def InOrder (lt : α → α → Bool) (l : List α) : Prop := l.Pairwise fun x y => lt y x = false

theorem ascRun_sorted {P : α → Prop} (h : StrictTotal lt P) (l : List α) : ∀ (prev : α) (acc : List α), (∀ x ∈ acc, P x) → (∀ x ∈ l, P x) →
    acc.head? = some prev → InOrder lt acc.reverse → InOrder lt (ascRun lt prev acc l).1 := by
  induction l with
  | nil => intro prev acc _ _ _ hs; exact hs
  | cons y rest ih =>
    intro prev acc hacc hl hh hs
    rw [ascRun]
    split
    · exact hs
    · rename_i hn
      have hn : lt y prev = false := by simpa using hn
      have hPy := hl y (by simp)
      refine ih y (y :: acc) ?_ (fun x hx => hl x (by simp [hx])) rfl ?_
      · intro x hx
        rcases List.mem_cons.1 hx with rfl | hx
        · exact hPy
        · exact hacc x hx
      · rw [List.reverse_cons]
        refine List.pairwise_append.2 ⟨hs, by simp, fun x hx z hz => ?_⟩
        rw [List.mem_singleton] at hz
        subst hz
        obtain ⟨acc', rfl⟩ : ∃ acc', acc = prev :: acc' := by
          cases acc with
          | nil => cases hh
          | cons a acc' => exact ⟨acc', by rw [Option.some.inj hh]⟩
        rw [List.mem_reverse, List.mem_cons] at hx
        rcases hx with rfl | hx
        · exact hn
        · have h1 : lt prev x = false := by
            rw [List.reverse_cons] at hs
            exact (List.pairwise_append.1 hs).2.2 x (by simpa using hx) prev (by simp)
          by_contra hc
          have hc : lt z x = true := by simpa using hc
          have := h.lt_le hPy (hacc x (by simp [hx])) (hacc prev (by simp)) hc h1
          rw [hn] at this
          cases this

theorem descRun_sorted {P : α → Prop} (h : StrictTotal lt P) (l : List α) : ∀ (prev : α) (acc : List α), (∀ x ∈ acc, P x) → (∀ x ∈ l, P x) →
    acc.head? = some prev → InOrder lt acc → InOrder lt (descRun lt prev acc l).1 := by
  induction l with
  | nil => intro prev acc _ _ _ hs; exact hs
  | cons y rest ih =>
    intro prev acc hacc hl hh hs
    rw [descRun]
    split
    · rename_i hn
      have hPy := hl y (by simp)
      refine ih y (y :: acc) ?_ (fun x hx => hl x (by simp [hx])) rfl ?_
      · intro x hx
        rcases List.mem_cons.1 hx with rfl | hx
        · exact hPy
        · exact hacc x hx
      · obtain ⟨acc', rfl⟩ : ∃ acc', acc = prev :: acc' := by
          cases acc with
          | nil => cases hh
          | cons a acc' => exact ⟨acc', by rw [Option.some.inj hh]⟩
        refine List.pairwise_cons.2 ⟨fun x hx => ?_, hs⟩
        have hPx := hacc x hx
        have hPp := hacc prev (by simp)
        refine h.asymm hPy hPx ?_
        rcases List.mem_cons.1 hx with rfl | hx
        · exact hn
        · exact h.lt_le hPy hPp hPx hn ((List.pairwise_cons.1 hs).1 x hx)
    · exact hs

theorem bisect_spec {P : α → Prop} (h : StrictTotal lt P) (p : List α) (x : α) (hp : ∀ y ∈ p, P y) (hx : P x) (hs : InOrder lt p) : ∀ (n lo hi : ℕ), hi - lo ≤ n → lo ≤ hi →
    hi ≤ p.length → (∀ (i : ℕ) (y : α), i < lo → p[i]? = some y → lt x y = false) → (∀ (i : ℕ) (y : α), hi ≤ i → p[i]? = some y → lt x y = true) →
    bisect lt p x n lo hi ≤ p.length ∧ (∀ (i : ℕ) (y : α), i < bisect lt p x n lo hi → p[i]? = some y → lt x y = false) ∧
      (∀ (i : ℕ) (y : α), bisect lt p x n lo hi ≤ i → p[i]? = some y → lt x y = true) := by
  have hget : ∀ (i j : ℕ) (y z : α), i < j → p[i]? = some y → p[j]? = some z → lt z y = false := by
    intro i j y z hij hy hz
    obtain ⟨hi, rfl⟩ := List.getElem?_eq_some_iff.1 hy
    obtain ⟨hj, rfl⟩ := List.getElem?_eq_some_iff.1 hz
    exact List.pairwise_iff_getElem.1 hs i j hi hj hij
  intro n
  induction n with
  | zero =>
    intro lo hi h1 h2 h3 hl hh
    have : lo = hi := by omega
    subst this
    exact ⟨h3, hl, hh⟩
  | succ n ih =>
    intro lo hi h1 h2 h3 hl hh
    rw [bisect]
    split
    · rename_i hlt
      have hm : (lo + hi) / 2 < p.length := by omega
      rw [List.getElem?_eq_getElem hm]
      simp only
      have hPm := hp _ (List.getElem_mem hm)
      split
      · rename_i hxy
        refine ih lo ((lo + hi) / 2) (by omega) (by omega) (by omega) hl (fun i y hi' hy => ?_)
        rcases Nat.eq_or_lt_of_le hi' with e | e
        · subst e
          rw [List.getElem?_eq_getElem hm] at hy
          rw [← Option.some.inj hy]; exact hxy
        · have := hget _ i _ y e (List.getElem?_eq_getElem hm) hy
          exact h.lt_le hx hPm (hp y (List.mem_of_getElem? hy)) hxy this
      · rename_i hxy
        have hxy : lt x p[(lo + hi) / 2] = false := by simpa using hxy
        refine ih ((lo + hi) / 2 + 1) hi (by omega) (by omega) h3 (fun i y hi' hy => ?_) hh
        rcases Nat.eq_or_lt_of_le (Nat.lt_succ_iff.1 hi') with e | e
        · subst e
          rw [List.getElem?_eq_getElem hm] at hy
          rw [← Option.some.inj hy]; exact hxy
        · have h2 := hget i _ y _ e hy (List.getElem?_eq_getElem hm)
          by_contra hc
          have hc : lt x y = true := by simpa using hc
          have := h.lt_le hx (hp y (List.mem_of_getElem? hy)) hPm hc h2
          rw [hxy] at this
          cases this
    · have : lo = hi := by omega
      subst this
      exact ⟨h3, hl, hh⟩

theorem binInsert_sorted {P : α → Prop} (h : StrictTotal lt P) (p : List α) (x : α) (hp : ∀ y ∈ p, P y) (hx : P x) (hs : InOrder lt p) : InOrder lt (binInsert lt p x) := by
  obtain ⟨h1, h2, h3⟩ := bisect_spec h p x hp hx hs p.length 0 p.length (by omega) (by omega) le_rfl (fun i y hi _ => by omega) (fun i y hi hy => by
    rw [List.getElem?_eq_none hi] at hy; cases hy)
  unfold binInsert
  set k := bisect lt p x p.length 0 p.length
  have hdrop : ∀ z ∈ p.drop k, lt x z = true := by
    intro z hz
    obtain ⟨i, hi, rfl⟩ := List.getElem_of_mem hz
    rw [List.getElem_drop]
    rw [List.length_drop] at hi
    exact h3 (k + i) _ (by omega) (List.getElem?_eq_getElem _)
  refine List.pairwise_append.2 ⟨hs.sublist (List.take_sublist _ _), List.pairwise_cons.2 ⟨fun z hz => ?_, hs.sublist (List.drop_sublist _ _)⟩, fun y hy z hz => ?_⟩
  · exact h.asymm hx (hp z (List.mem_of_mem_drop hz)) (hdrop z hz)
  · have hy' : lt x y = false := by
      obtain ⟨i, hi, rfl⟩ := List.getElem_of_mem hy
      rw [List.getElem_take]
      rw [List.length_take] at hi
      exact h2 i _ (by omega) (List.getElem?_eq_getElem _)
    have hPy := hp y (List.mem_of_mem_take hy)
    rcases List.mem_cons.1 hz with rfl | hz
    · exact hy'
    · exact h.asymm hPy (hp z (List.mem_of_mem_drop hz)) (h.le_lt hPy hx (hp z (List.mem_of_mem_drop hz)) hy' (hdrop z hz))

theorem foldl_binInsert_sorted {P : α → Prop} (h : StrictTotal lt P) (l : List α) : ∀ p : List α, (∀ y ∈ p, P y) → (∀ y ∈ l, P y) → InOrder lt p →
    InOrder lt (l.foldl (binInsert lt) p) := by
  induction l with
  | nil => intro p _ _ hs; exact hs
  | cons x l ih =>
    intro p hp hl hs
    rw [List.foldl_cons]
    refine ih _ (fun y hy => ?_) (fun y hy => hl y (by simp [hy])) (binInsert_sorted h p x hp (hl x (by simp)) hs)
    rcases List.mem_cons.1 ((binInsert_perm p x).mem_iff.1 hy) with rfl | hy
    · exact hl _ (by simp)
    · exact hp y hy

theorem countRun_sorted {P : α → Prop} (h : StrictTotal lt P) (l : List α) (hl : ∀ x ∈ l, P x) : InOrder lt (countRun lt l).1 := by
  match l with
  | [] => simp [countRun, InOrder]
  | [x] => simp [countRun, InOrder]
  | x :: y :: rest =>
    have hP : ∀ z ∈ [y, x], P z := by
      intro z hz
      simp only [List.mem_cons, List.not_mem_nil, or_false] at hz
      rcases hz with rfl | rfl <;> exact hl _ (by simp)
    rw [countRun]
    split
    · rename_i hyx
      refine descRun_sorted h rest y [y, x] hP (fun z hz => hl z (by simp [hz])) rfl ?_
      simp [InOrder, h.asymm (hl y (by simp)) (hl x (by simp)) hyx]
    · rename_i hyx
      refine ascRun_sorted h rest y [y, x] hP (fun z hz => hl z (by simp [hz])) rfl ?_
      simpa [InOrder] using hyx

/-- `sorted` gives a list in order, if the order is one. -/
theorem pySort_sorted {P : α → Prop} (h : StrictTotal lt P) (l : List α) (hl : ∀ x ∈ l, P x) : InOrder lt (pySort lt l) := by
  have hm := fun x hx => hl x ((countRun_perm (lt := lt) l).mem_iff.1 hx)
  exact foldl_binInsert_sorted h _ _ (fun y hy => hm y (List.mem_append_left _ hy)) (fun y hy => hm y (List.mem_append_right _ hy)) (countRun_sorted h l hl)

/-- There is only one order. -/
theorem InOrder.unique {P : α → Prop} (h : StrictTotal lt P) {l m : List α} (hl : ∀ x ∈ l, P x) (hp : l.Perm m) (h1 : InOrder lt l) (h2 : InOrder lt m) : l = m := by
  classical
  refine List.Perm.eq_of_pairwise (le := fun x y => lt y x = false) (fun a b ha hb hab hba => ?_) h1 h2 hp
  by_contra hne
  rcases h.total a b (hl a ha) (hl b (hp.mem_iff.2 hb)) hne with h3 | h3
  · rw [hba] at h3; cases h3
  · rw [hab] at h3; cases h3

theorem pySort_eq {P : α → Prop} (h : StrictTotal lt P) {l m : List α} (hl : ∀ x ∈ l, P x) (hp : l.Perm m) : pySort lt l = pySort lt m :=
  InOrder.unique h (fun x hx => hl x ((pySort_perm l).mem_iff.1 hx)) ((pySort_perm l).trans (hp.trans (pySort_perm m).symm)) (pySort_sorted h l hl)
    (pySort_sorted h m fun x hx => hl x (hp.mem_iff.2 hx))

end

/-! ## The order of typed expressions -/

mutual
/-- All constants are of the given kind. -/
def TE.Over (S : KVal → Prop) : TE → Prop
  | .const k => S k
  | .node _ p n => TE.OverL S p ∧ TE.OverL S n
/-- The same for a tuple. -/
def TE.OverL (S : KVal → Prop) : List TE → Prop
  | [] => True
  | x :: xs => TE.Over S x ∧ TE.OverL S xs
end

theorem TE.overL_iff {S : KVal → Prop} {l : List TE} : TE.OverL S l ↔ ∀ x ∈ l, x.Over S := by
  induction l with
  | nil => simp [TE.OverL]
  | cons x l ih => simp [TE.OverL, ih]

/-- Constants that are equal are the same, and others are ordered one way or the other. -/
structure KVal.Consistent (S : KVal → Prop) : Prop where
  same : ∀ a b, S a → S b → a.eq b = true → a = b
  total : ∀ a b, S a → S b → a ≠ b → a.lt b = true ∨ b.lt a = true

theorem KVal.eq_refl (a : KVal) : a.eq a = true := by
  cases a <;> simp [KVal.eq, KVal.isNum]

theorem KVal.lt_irrefl (a : KVal) : a.lt a = false := by
  cases a <;> simp [KVal.lt]

theorem KVal.lt_tname {a b : KVal} (h : a.tname ≠ b.tname) : a.lt b = decide (a.tname < b.tname) := by
  cases a <;> cases b <;> first | rfl | exact absurd rfl h

theorem KVal.tname_le {a b : KVal} (h : a.lt b = true) : a.tname ≤ b.tname := by
  by_cases e : a.tname = b.tname
  · exact e.le
  · rw [KVal.lt_tname e] at h
    exact (of_decide_eq_true h).le

theorem KVal.lt_trans {a b c : KVal} (h1 : a.lt b = true) (h2 : b.lt c = true) : a.lt c = true := by
  have l1 := KVal.tname_le h1
  have l2 := KVal.tname_le h2
  by_cases e : a.tname = c.tname
  · have e1 : a.tname = b.tname := by omega
    have e2 : b.tname = c.tname := by omega
    cases a <;> cases b <;> (first | (cases e1; done) | skip) <;> cases c <;> (first | (cases e2; done) | skip)
    · rename_i x y z
      revert h1 h2; cases x <;> cases y <;> cases z <;> decide
    · simp only [KVal.lt, decide_eq_true_eq] at h1 h2 ⊢
      exact h1.trans h2
    · simp only [KVal.lt, decide_eq_true_eq] at h1 h2 ⊢
      exact h1.trans h2
    · simp only [KVal.lt, Bool.and_eq_true, Bool.not_eq_true', List.all_eq_true, List.contains_iff_mem, List.all_eq_false] at h1 h2 ⊢
      refine ⟨fun x hx => h2.1 x (h1.1 x hx), ?_⟩
      obtain ⟨x, hx, hn⟩ := h2.2
      exact ⟨x, hx, fun hc => hn (h1.1 x hc)⟩
    · simp only [KVal.lt, decide_eq_true_eq] at h1 h2 ⊢
      exact Verif.cmp_lt_trans h1 h2
  · rw [KVal.lt_tname e]
    exact decide_eq_true (by omega)

theorem THead.toHead_inj {a b : THead} (h : a.toHead = b.toHead) : a = b := by
  cases a <;> cases b <;> simp [THead.toHead] at h ⊢ <;> exact h

theorem THead.rank_ne (a : THead) : a.toHead.rank ≠ 2 := by
  cases a <;> simp [THead.toHead, Head.rank]

theorem Head.cmp_rank {a b : Head} (h : a.cmp b = .lt) : a.rank ≤ b.rank := by
  unfold Head.cmp at h
  rcases then_eq_lt.1 h with h1 | ⟨h1, _⟩
  · exact (Nat.compare_eq_lt.1 h1).le
  · exact (Nat.compare_eq_eq.1 h1).le

variable {S : KVal → Prop}

mutual
theorem TE.eq_iff (hS : KVal.Consistent S) : ∀ a b : TE, a.Over S → b.Over S → (a.eq b = true ↔ a = b)
  | .const k, .const k', ha, hb => by
    simp only [TE.eq, TE.const.injEq]
    exact ⟨hS.same k k' ha hb, fun h => h ▸ k.eq_refl⟩
  | .const _, .node _ _ _, _, _ => by simp [TE.eq]
  | .node _ _ _, .const _, _, _ => by simp [TE.eq]
  | .node h p n, .node h' p' n', ha, hb => by
    have h1 := TE.eqL_iff hS p p' ha.1 hb.1
    have h2 := TE.eqL_iff hS n n' ha.2 hb.2
    simp only [TE.eq, Bool.and_eq_true, decide_eq_true_eq, h1, h2, TE.node.injEq, and_assoc]
theorem TE.eqL_iff (hS : KVal.Consistent S) : ∀ a b : List TE, TE.OverL S a → TE.OverL S b → (TE.eqL a b = true ↔ a = b)
  | [], [], _, _ => by simp [TE.eqL]
  | [], _ :: _, _, _ => by simp [TE.eqL]
  | _ :: _, [], _, _ => by simp [TE.eqL]
  | x :: xs, y :: ys, ha, hb => by
    have h1 := TE.eq_iff hS x y ha.1 hb.1
    have h2 := TE.eqL_iff hS xs ys ha.2 hb.2
    simp only [TE.eqL, Bool.and_eq_true, h1, h2, List.cons.injEq]
end

mutual
theorem TE.eq_refl : ∀ a : TE, a.eq a = true
  | .const k => by simp [TE.eq, k.eq_refl]
  | .node h p n => by simp [TE.eq, TE.eqL_refl p, TE.eqL_refl n]
theorem TE.eqL_refl : ∀ a : List TE, TE.eqL a a = true
  | [] => rfl
  | x :: xs => by simp [TE.eqL, TE.eq_refl x, TE.eqL_refl xs]
end

mutual
theorem TE.lt_irrefl : ∀ a : TE, a.lt a = false
  | .const k => by simp [TE.lt, k.lt_irrefl]
  | .node h p n => by simp [TE.lt, TE.eqL_refl p, TE.ltL_irrefl n]
theorem TE.ltL_irrefl : ∀ a : List TE, TE.ltL a a = false
  | [] => rfl
  | x :: xs => by simp [TE.ltL, TE.eq_refl x, TE.ltL_irrefl xs]
end

theorem TE.lt_node (hS : KVal.Consistent S) {h h' : THead} {p n p' n' : List TE} (hp : TE.OverL S p) (hp' : TE.OverL S p') :
    (TE.node h p n).lt (.node h' p' n') = true ↔ h.toHead.cmp h'.toHead = .lt ∨ (h = h' ∧ (TE.ltL p p' = true ∨ (p = p' ∧ TE.ltL n n' = true))) := by
  by_cases hh : h = h'
  · subst hh
    have e : h.toHead.cmp h.toHead = .eq := Head.cmp_eq.2 rfl
    by_cases hpp : p = p'
    · subst hpp
      simp [TE.lt, TE.eqL_refl, TE.ltL_irrefl, e]
    · have : ¬ TE.eqL p p' = true := fun hc => hpp ((TE.eqL_iff hS p p' hp hp').1 hc)
      simp [TE.lt, this, e, hpp]
  · simp [TE.lt, hh]

theorem TE.ltL_cons (hS : KVal.Consistent S) {x y : TE} {xs ys : List TE} (hx : x.Over S) (hy : y.Over S) :
    TE.ltL (x :: xs) (y :: ys) = true ↔ x.lt y = true ∨ (x = y ∧ TE.ltL xs ys = true) := by
  by_cases h : x = y
  · subst h
    simp [TE.ltL, TE.eq_refl, TE.lt_irrefl]
  · have : ¬ x.eq y = true := fun hc => h ((TE.eq_iff hS x y hx hy).1 hc)
    simp [TE.ltL, this, h]

mutual
theorem TE.lt_trans (hS : KVal.Consistent S) : ∀ a b c : TE, a.Over S → b.Over S → c.Over S → a.lt b = true → b.lt c = true → a.lt c = true
  | .const k, .const k', .const k'', _, _, _, h1, h2 => by
    simp only [TE.lt] at h1 h2 ⊢; exact KVal.lt_trans h1 h2
  | .const _, .const _, .node _ _ _, _, _, _, _, h2 => by simpa only [TE.lt] using h2
  | .const _, .node h _ _, .const _, _, _, _, h1, h2 => by
    simp only [TE.lt, decide_eq_true_eq] at h1 h2; omega
  | .node _ _ _, .const _, .const _, _, _, _, h1, _ => by simpa only [TE.lt] using h1
  | .const _, .node h p n, .node h' p' n', ha, hb, hc, h1, h2 => by
    rw [TE.lt_node hS hb.1 hc.1] at h2
    simp only [TE.lt, decide_eq_true_eq] at h1 ⊢
    rcases h2 with h2 | ⟨rfl, _⟩
    · exact lt_of_lt_of_le h1 (Head.cmp_rank h2)
    · exact h1
  | .node h p n, .node h' p' n', .const _, ha, hb, hc, h1, h2 => by
    rw [TE.lt_node hS ha.1 hb.1] at h1
    simp only [TE.lt, decide_eq_true_eq] at h2 ⊢
    rcases h1 with h1 | ⟨rfl, _⟩
    · exact lt_of_le_of_lt (Head.cmp_rank h1) h2
    · exact h2
  | .node h p n, .const _, .node h' p' n', ha, hb, hc, h1, h2 => by
    rw [TE.lt_node hS ha.1 hc.1]
    simp only [TE.lt, decide_eq_true_eq] at h1 h2
    left
    unfold Head.cmp
    rw [then_eq_lt]
    left
    exact Nat.compare_eq_lt.2 (by omega)
  | .node h p n, .node h' p' n', .node h'' p'' n'', ha, hb, hc, h1, h2 => by
    have i1 := TE.ltL_trans hS p p' p'' ha.1 hb.1 hc.1
    have i2 := TE.ltL_trans hS n n' n'' ha.2 hb.2 hc.2
    rw [TE.lt_node hS ha.1 hb.1] at h1
    rw [TE.lt_node hS hb.1 hc.1] at h2
    rw [TE.lt_node hS ha.1 hc.1]
    rcases h1 with h1 | ⟨e1, h1⟩ <;> rcases h2 with h2 | ⟨e2, h2⟩
    · exact .inl (Head.cmp_lt_trans h1 h2)
    · exact .inl (e2 ▸ h1)
    · exact .inl (e1 ▸ h2)
    refine .inr ⟨e1.trans e2, ?_⟩
    rcases h1 with h1 | ⟨e1, h1⟩ <;> rcases h2 with h2 | ⟨e2, h2⟩
    · exact .inl (i1 h1 h2)
    · exact .inl (e2 ▸ h1)
    · exact .inl (e1 ▸ h2)
    exact .inr ⟨e1.trans e2, i2 h1 h2⟩
theorem TE.ltL_trans (hS : KVal.Consistent S) : ∀ a b c : List TE, TE.OverL S a → TE.OverL S b → TE.OverL S c → TE.ltL a b = true → TE.ltL b c = true → TE.ltL a c = true
  | [], [], _, _, _, _, h, _ => by simp [TE.ltL] at h
  | [], _ :: _, [], _, _, _, _, h => by simp [TE.ltL] at h
  | [], _ :: _, _ :: _, _, _, _, _, _ => by simp [TE.ltL]
  | _ :: _, [], _, _, _, _, h, _ => by simp [TE.ltL] at h
  | _ :: _, _ :: _, [], _, _, _, _, h => by simp [TE.ltL] at h
  | x :: xs, y :: ys, z :: zs, ha, hb, hc, h1, h2 => by
    have i1 := TE.lt_trans hS x y z ha.1 hb.1 hc.1
    have i2 := TE.ltL_trans hS xs ys zs ha.2 hb.2 hc.2
    rw [TE.ltL_cons hS ha.1 hb.1] at h1
    rw [TE.ltL_cons hS hb.1 hc.1] at h2
    rw [TE.ltL_cons hS ha.1 hc.1]
    rcases h1 with h1 | ⟨e1, h1⟩ <;> rcases h2 with h2 | ⟨e2, h2⟩
    · exact .inl (i1 h1 h2)
    · exact .inl (e2 ▸ h1)
    · exact .inl (e1 ▸ h2)
    exact .inr ⟨e1.trans e2, i2 h1 h2⟩
end

mutual
theorem TE.lt_total (hS : KVal.Consistent S) : ∀ a b : TE, a.Over S → b.Over S → a ≠ b → a.lt b = true ∨ b.lt a = true
  | .const k, .const k', ha, hb, h => by
    simp only [TE.lt]; exact hS.total k k' ha hb (fun e => h (by rw [e]))
  | .const _, .node h _ _, _, _, _ => by
    have := h.rank_ne
    simp only [TE.lt, decide_eq_true_eq]; omega
  | .node h _ _, .const _, _, _, _ => by
    have := h.rank_ne
    simp only [TE.lt, decide_eq_true_eq]; omega
  | .node h p n, .node h' p' n', ha, hb, hne => by
    rw [TE.lt_node hS ha.1 hb.1, TE.lt_node hS hb.1 ha.1]
    cases hc : h.toHead.cmp h'.toHead with
    | lt => exact .inl (.inl rfl)
    | gt =>
      have := Head.cmp_swap h.toHead h'.toHead
      rw [hc] at this
      exact .inr (.inl this.symm)
    | eq =>
      have e := THead.toHead_inj (Head.cmp_eq.1 hc)
      subst e
      by_cases hp : p = p'
      · subst hp
        have hn : n ≠ n' := fun e => hne (by rw [e])
        rcases TE.ltL_total hS n n' ha.2 hb.2 hn with h1 | h1
        · exact .inl (.inr ⟨rfl, .inr ⟨rfl, h1⟩⟩)
        · exact .inr (.inr ⟨rfl, .inr ⟨rfl, h1⟩⟩)
      · rcases TE.ltL_total hS p p' ha.1 hb.1 hp with h1 | h1
        · exact .inl (.inr ⟨rfl, .inl h1⟩)
        · exact .inr (.inr ⟨rfl, .inl h1⟩)
theorem TE.ltL_total (hS : KVal.Consistent S) : ∀ a b : List TE, TE.OverL S a → TE.OverL S b → a ≠ b → TE.ltL a b = true ∨ TE.ltL b a = true
  | [], [], _, _, h => absurd rfl h
  | [], _ :: _, _, _, _ => .inl (by simp [TE.ltL])
  | _ :: _, [], _, _, _ => .inr (by simp [TE.ltL])
  | x :: xs, y :: ys, ha, hb, hne => by
    rw [TE.ltL_cons hS ha.1 hb.1, TE.ltL_cons hS hb.1 ha.1]
    by_cases h : x = y
    · subst h
      have hn : xs ≠ ys := fun e => hne (by rw [e])
      rcases TE.ltL_total hS xs ys ha.2 hb.2 hn with h1 | h1
      · exact .inl (.inr ⟨rfl, h1⟩)
      · exact .inr (.inr ⟨rfl, h1⟩)
    · rcases TE.lt_total hS x y ha.1 hb.1 h with h1 | h1
      · exact .inl (.inl h1)
      · exact .inr (.inl h1)
end

theorem TE.strictTotal (hS : KVal.Consistent S) : StrictTotal TE.lt (TE.Over S) :=
  ⟨fun a _ => TE.lt_irrefl a, fun a b c => TE.lt_trans hS a b c, fun a b => TE.lt_total hS a b⟩

/-! ## Where expressions are sorted -/

/-- The factors of a product written `x₁ * x₂ * …` of single factors: `RingAlgebra.combine` (expr.py 667-678) with `TimesDiv`, from left to right. -/
def TE.factors : List TE → List TE
  | [] => []
  | x :: xs => xs.foldl (fun acc y => pySort TE.lt (acc ++ [y])) [x]

/-- `it` is a way in which Python may go through `set(args)` (expr.py 905): elements of `args`, no two equal, one equal to each argument. -/
def TE.Iterates (args it : List TE) : Prop :=
  (∀ x ∈ it, x ∈ args) ∧ it.Pairwise (fun x y => x.eq y = false) ∧ ∀ x ∈ args, ∃ y ∈ it, x.eq y = true

/-- `tuple(sorted(set(args)))` (expr.py 905), if Python goes through the set as in `it`. -/
def TE.logicalArgs (it : List TE) : List TE := pySort TE.lt it

theorem TE.foldl_factors_perm (xs : List TE) : ∀ acc : List TE, (xs.foldl (fun acc y => pySort TE.lt (acc ++ [y])) acc).Perm (acc ++ xs) := by
  induction xs with
  | nil => intro acc; simp
  | cons y xs ih =>
    intro acc
    rw [List.foldl_cons]
    refine (ih _).trans (((pySort_perm _).append_right xs).trans ?_)
    simp

theorem TE.foldl_factors_sorted (hS : KVal.Consistent S) (xs : List TE) : ∀ acc : List TE, (∀ x ∈ acc, x.Over S) → (∀ x ∈ xs, x.Over S) → InOrder TE.lt acc →
    InOrder TE.lt (xs.foldl (fun acc y => pySort TE.lt (acc ++ [y])) acc) := by
  induction xs with
  | nil => intro acc _ _ h; exact h
  | cons y xs ih =>
    intro acc ha hx h
    have hb : ∀ x ∈ acc ++ [y], x.Over S := by
      intro x hm
      rcases List.mem_append.1 hm with hm | hm
      · exact ha x hm
      · exact hx x (by rw [List.mem_singleton.1 hm]; simp)
    rw [List.foldl_cons]
    exact ih _ (fun x hm => hb x ((pySort_perm _).mem_iff.1 hm)) (fun x hm => hx x (by simp [hm])) (pySort_sorted (TE.strictTotal hS) _ hb)

theorem TE.factors_perm (l : List TE) : (TE.factors l).Perm l := by
  cases l with
  | nil => simp [TE.factors]
  | cons x xs => exact TE.foldl_factors_perm xs [x]

theorem TE.factors_sorted (hS : KVal.Consistent S) (l : List TE) (hl : ∀ x ∈ l, x.Over S) : InOrder TE.lt (TE.factors l) := by
  cases l with
  | nil => simp [TE.factors, InOrder]
  | cons x xs => exact TE.foldl_factors_sorted hS xs [x] (fun y hy => hl y (by rw [List.mem_singleton.1 hy]; simp)) (fun y hy => hl y (by simp [hy])) (by simp [InOrder])

end Verif
