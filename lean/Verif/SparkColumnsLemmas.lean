import Verif.SpecSparkColumns

/-!
# Lemmas about Spark columns
-/

namespace Verif

/-- `numpy.isnan` on one row. -/
def npIsnan : List (Option ℚ) → Option ℚ
  | [v] => ofBool v.isNone
  | _ => none

/-- A library whose functions on rational numbers are those of NumPy. -/
structure SparkLib (more : More) : Prop where
  rat : ∀ f g, libRat f = some g → more f = some g
  isnan : more "isnan" = some npIsnan

/-- The Spark value `s` of type `τ` is the NumPy value `v`. -/
def Rep (τ : STy) (s : SVal) (v : Option ℚ) : Prop :=
  match τ with
  | .num => s = .num v
  | .bool => ∃ b, s = .bool b ∧ v = ofBool b

theorem Rep.asSpark {τ : STy} {s : SVal} {v : Option ℚ} (h : Rep τ s v) : s = asSpark τ v := by
  cases τ with
  | num => exact h
  | bool =>
    obtain ⟨b, rfl, rfl⟩ := h
    cases b <;> rfl

/-- A Spark value as a NumPy value. -/
def SVal.toO : SVal → Option ℚ
  | .null => none
  | .num v => v
  | .bool b => ofBool b

theorem Rep.toO {τ : STy} {s : SVal} {v : Option ℚ} (h : Rep τ s v) : s.toO = v := by
  cases τ with
  | num => rw [show s = .num v from h]; rfl
  | bool =>
    obtain ⟨b, rfl, rfl⟩ := h
    rfl

variable {ty : String → STy} {sm : SMath} {field : String → Option ℚ} {more : More}

/-- The tree `t` is the column `c` of type `τ`. -/
structure IsCol (ty : String → STy) (t : E) (c : SCol) (τ : STy) : Prop where
  col : tocolumns t.toT = .ok c
  type : c.type ty = .ok τ

/-- Each tree is a column. -/
inductive ColL (ty : String → STy) : List E → List SCol → List STy → Prop
  | nil : ColL ty [] [] []
  | cons {t : E} {c : SCol} {τ : STy} {l : List E} {cs : List SCol} {ts : List STy} :
      IsCol ty t c τ → ColL ty l cs ts → ColL ty (t :: l) (c :: cs) (τ :: ts)

theorem ColL.cols {l : List E} {cs : List SCol} {ts : List STy} (h : ColL ty l cs ts) :
    tocolumnsN l.length (E.toTL l) = .ok cs := by
  induction h with
  | nil => rfl
  | cons h _ ih =>
    simp only [List.length_cons, E.toTL, tocolumnsN]
    rw [h.col, ih]; rfl

theorem ColL.types {l : List E} {cs : List SCol} {ts : List STy} (h : ColL ty l cs ts) :
    SCol.typeL ty cs = .ok ts := by
  induction h with
  | nil => rfl
  | cons h _ ih =>
    simp only [SCol.typeL]
    rw [h.type, ih]; rfl

theorem ColL.length {l : List E} {cs : List SCol} {ts : List STy} (h : ColL ty l cs ts) :
    cs.length = l.length ∧ ts.length = l.length := by
  induction h with
  | nil => exact ⟨rfl, rfl⟩
  | cons _ _ ih => simp [ih]

theorem toTL_length (l : List E) : (E.toTL l).length = l.length := by
  induction l with
  | nil => rfl
  | cons x l ih => simp [E.toTL, ih]

/-- A call of a function that Spark has. -/
theorem ColL.call {f : String} {g : SFn} {τ : STy} {l : List E} {cs : List SCol} {ts : List STy}
    (h : ColL ty l cs ts) (hf : sparkFn f = some g) (hc : g.count l.length = l.length)
    (ho : g.column cs = .ok (.fn g cs)) (ht : g.type ts = .ok τ) :
    IsCol ty (E.callE f l) (.fn g cs) τ := by
  constructor
  · simp only [E.toT, tocolumns, hf, toTL_length, hc]
    rw [h.cols]; exact ho
  · simp only [SCol.type]
    rw [h.types]; exact ht

/-- The value of a tree on Spark. -/
def sv (sm : SMath) (ty : String → STy) (field : String → Option ℚ) (t : E) : Option ℚ :=
  match tocolumns t.toT with
  | .ok c => (c.eval sm (sparkRow ty field)).toO
  | .error _ => none

/-- The tree is a column of type `τ`. -/
def Acc (ty : String → STy) (τ : STy) (t : E) : Prop := ∃ c, IsCol ty t c τ

/-- The tree is a column of type `τ` with a proper value. -/
def ColGood (sm : SMath) (ty : String → STy) (field : String → Option ℚ) (τ : STy) (t : E) : Prop :=
  ∃ c, IsCol ty t c τ ∧ Rep τ (c.eval sm (sparkRow ty field)) (sv sm ty field t)

theorem ColGood.of {τ : STy} {t : E} {c : SCol} {v : Option ℚ} (h : IsCol ty t c τ)
    (r : Rep τ (c.eval sm (sparkRow ty field)) v) : ColGood sm ty field τ t ∧ sv sm ty field t = v := by
  have : sv sm ty field t = v := by
    unfold sv; rw [h.col]; exact r.toO
  exact ⟨⟨c, h, this ▸ r⟩, this⟩

/-- A function of two columns. -/
theorem col2 {f : String} {g : SFn} {τ σ ρ : STy} (hf : sparkFn f = some g) (hc : g.count 2 = 2)
    (ho : ∀ cs, g.column cs = .ok (.fn g cs)) (ht : g.type [τ, σ] = .ok ρ) {a b : E} {c d : SCol}
    (ha : IsCol ty a c τ) (hb : IsCol ty b d σ) : IsCol ty (E.callE f [a, b]) (.fn g [c, d]) ρ :=
  (ColL.cons ha (ColL.cons hb ColL.nil)).call hf hc (ho _) ht

theorem acc_acts {f : String} {g : SFn} {τ : STy} (hf : sparkFn f = some g) (hc : g.count 2 = 2)
    (ho : ∀ cs, g.column cs = .ok (.fn g cs)) (ht : g.type [τ, τ] = .ok τ)
    {k : Option ℚ → Option ℚ → Option ℚ} (hk : k none none = none) :
    Acts (Acc ty τ) (fun _ => none) f k := by
  rintro a b ⟨c, hc'⟩ ⟨d, hd⟩
  exact ⟨⟨_, col2 hf hc ho ht hc' hd⟩, hk.symm⟩

theorem arith_acts {f : String} {g : SFn} (hf : sparkFn f = some g) (hc : g.count 2 = 2)
    (ho : ∀ cs, g.column cs = .ok (.fn g cs)) (ht : g.type [.num, .num] = .ok .num)
    {k : Option ℚ → Option ℚ → Option ℚ} (hk : ∀ x y, g.apply sm [.num x, .num y] = .num (k x y)) :
    Acts (ColGood sm ty field .num) (sv sm ty field) f k := by
  rintro a b ⟨c, ca, ra⟩ ⟨d, cb, rb⟩
  refine ColGood.of (col2 hf hc ho ht ca cb) ?_
  simp only [SCol.eval, SCol.evalL]
  rw [show c.eval sm (sparkRow ty field) = _ from ra, show d.eval sm (sparkRow ty field) = _ from rb]
  exact hk _ _

theorem logic_acts {f : String} {g : SFn} (hf : sparkFn f = some g) (hc : g.count 2 = 2)
    (ho : ∀ cs, g.column cs = .ok (.fn g cs)) (ht : g.type [.bool, .bool] = .ok .bool)
    {k : Bool → Bool → Bool} (hk : ∀ x y, g.apply sm [.bool x, .bool y] = .bool (k x y)) :
    Acts (ColGood sm ty field .bool) (sv sm ty field) f (fun x y => ofBool (k (truth x) (truth y))) := by
  rintro a b ⟨c, ca, x, hx, vx⟩ ⟨d, cb, y, hy, vy⟩
  refine ColGood.of (col2 hf hc ho ht ca cb) ⟨k x y, ?_, ?_⟩
  · simp only [SCol.eval, SCol.evalL]
    rw [hx, hy, hk]
  · simp only [vx, vy, truth_ofBool]

theorem and_false (a b : SVal) : a.and b = .bool false ↔ a = .bool false ∨ b = .bool false := by
  rcases a with _ | _ | ⟨_ | _⟩ <;> rcases b with _ | _ | ⟨_ | _⟩ <;> simp [SVal.and]

theorem or_true (a b : SVal) : a.or b = .bool true ↔ a = .bool true ∨ b = .bool true := by
  rcases a with _ | _ | ⟨_ | _⟩ <;> rcases b with _ | _ | ⟨_ | _⟩ <;> simp [SVal.or]

/-- 0 for a column that is false, 1 for all others. -/
def isFalse (sm : SMath) (ty : String → STy) (field : String → Option ℚ) (t : E) : Option ℚ :=
  match tocolumns t.toT with
  | .ok c => ofBool (decide (c.eval sm (sparkRow ty field) ≠ .bool false))
  | .error _ => none

/-- 1 for a column that is true, 0 for all others. -/
def isTrue (sm : SMath) (ty : String → STy) (field : String → Option ℚ) (t : E) : Option ℚ :=
  match tocolumns t.toT with
  | .ok c => ofBool (decide (c.eval sm (sparkRow ty field) = .bool true))
  | .error _ => none

theorem isFalse_col {t : E} {c : SCol} {τ : STy} (h : IsCol ty t c τ) :
    isFalse sm ty field t = ofBool (decide (c.eval sm (sparkRow ty field) ≠ .bool false)) := by
  unfold isFalse; rw [h.col]

theorem isTrue_col {t : E} {c : SCol} {τ : STy} (h : IsCol ty t c τ) :
    isTrue sm ty field t = ofBool (decide (c.eval sm (sparkRow ty field) = .bool true)) := by
  unfold isTrue; rw [h.col]

theorem false_acts : Acts (Acc ty .bool) (isFalse sm ty field) "numpy.logical_and"
    (fun a b => ofBool (truth a && truth b)) := by
  rintro a b ⟨c, hc⟩ ⟨d, hd⟩
  have h := col2 (f := "numpy.logical_and") (g := .and) (ty := ty) (by decide +kernel) rfl (fun _ => rfl) rfl hc hd
  refine ⟨⟨_, h⟩, ?_⟩
  rw [isFalse_col h, isFalse_col hc, isFalse_col hd]
  simp only [truth_ofBool, SCol.eval, SCol.evalL, SFn.apply]
  congr 1
  rw [Bool.eq_iff_iff]
  simp [and_false]

theorem true_acts : Acts (Acc ty .bool) (isTrue sm ty field) "numpy.logical_or"
    (fun a b => ofBool (truth a || truth b)) := by
  rintro a b ⟨c, hc⟩ ⟨d, hd⟩
  have h := col2 (f := "numpy.logical_or") (g := .or) (ty := ty) (by decide +kernel) rfl (fun _ => rfl) rfl hc hd
  refine ⟨⟨_, h⟩, ?_⟩
  rw [isTrue_col h, isTrue_col hc, isTrue_col hd]
  simp only [truth_ofBool, SCol.eval, SCol.evalL, SFn.apply]
  congr 1
  rw [Bool.eq_iff_iff]
  simp [or_true]

end Verif
