import Verif.SparkColumns

/-!
# Which expressions Spark can compute, and where it computes the same number

A description by the form of the expression and by the values of its parts, independent of columns.
-/

namespace Verif

/-- The type of a function's result from the types of its arguments, for the functions that Spark has. -/
def sparkSig (f : String) (ts : List STy) : Option STy :=
  match ts with
  | [.num] =>
    if f = "isnan" then some .bool
    else if f ∈ ["abs", "fabs", "arccos", "arcsin", "arctan", "ceil", "cos", "cosh", "rad2deg", "exp", "expm1",
        "factorial", "floor", "log10", "log1p", "log", "deg2rad", "sinh", "sin", "sqrt", "tanh", "tan", "log2",
        "rint"] then some .num
    else none
  | [.num, .num] =>
    if f ∈ ["max", "fmax", "min", "fmin", "arctan2", "hypot", "pow", "mod"] then some .num else none
  | [.bool, a, b] => if f = "where" ∧ a = b then some a else none
  | _ => none

/-- The common type of a list, if all elements have it. -/
def allTy (τ : STy) (ts : Option (List STy)) : Option STy :=
  match ts with
  | some ts => if ts.all (fun t => decide (t = τ)) then some τ else none
  | none => none

/-- The type of a node from the types of its parts. -/
def Head.sty (ty : String → STy) (h : Head) (p n : Option (List STy)) : Option STy :=
  match h with
  | .const _ => some .num
  | .cset _ => none
  | .name s => some (ty s)
  | .pred s b => if b ∧ ty s = .bool then some .bool else none
  | .call f => p.bind (sparkSig f)
  | .binop f => p.bind (sparkSig f)
  | .rel .isin => none
  | .rel .notin => none
  | .rel _ => match p with
    | some [a, b] => if a = b then some .bool else none
    | _ => none
  | .plus _ => if allTy .num p = some .num then allTy .num n else none
  | .times _ => if allTy .num p = some .num then allTy .num n else none
  | .land => allTy .bool p
  | .lor => allTy .bool p

mutual
/-- The type of an expression that Spark can compute: arithmetic of numbers, comparisons of values of the
same type other than `in`, logic of conditions and boolean fields, and the functions of `sparkSig`. -/
def E.sty (ty : String → STy) : E → Option STy
  | .node h p n => h.sty ty (E.styL ty p) (E.styL ty n)
/-- The types of all elements of a list. -/
def E.styL (ty : String → STy) : List E → Option (List STy)
  | [] => some []
  | x :: xs =>
    match x.sty ty, E.styL ty xs with
    | some t, some ts => some (t :: ts)
    | _, _ => none
end

/-- A 64-bit integer. -/
def IsLong (z : ℤ) : Prop := -9223372036854775808 ≤ z ∧ z ≤ 9223372036854775807

/-- The arguments for which a function of Spark gives the number that NumPy gives: not NaN for `max`,
`min`, `floor` and `ceil`, no result beyond 64 bits for the latter, the same sign or no rest for `mod`. -/
def sparkFine (more : More) (sm : SMath) (f : String) (xs : List (Option ℚ)) : Prop :=
  if f ∈ ["abs", "fabs", "isnan"] then True
  else if f = "ceil" then ∃ x : ℚ, xs = [some x] ∧ IsLong ⌈x⌉
  else if f = "floor" then ∃ x : ℚ, xs = [some x] ∧ IsLong ⌊x⌋
  else if f ∈ ["max", "fmax", "min", "fmin"] then none ∉ xs
  else if f = "mod" then
    ∃ x y : ℚ, xs = [some x, some y] ∧ y ≠ 0 ∧ (0 ≤ x / y ∨ ∃ z : ℤ, x / y = z)
  else sm f xs = some (libFn more f xs)

/-- On this row, Spark computes the expression as NumPy does: no divisor is zero, NaN is not compared, and
functions get arguments as in `sparkFine` — except in the branch of `where` that is not taken, and in a
conjunction next to a false condition and a disjunction next to a true one. -/
inductive E.SparkSafe (more : More) (sm : SMath) (field : String → Option ℚ) : E → Prop
  | const (q : ℚ) (p n : List E) : E.SparkSafe more sm field (.node (.const q) p n)
  | name (s : String) (p n : List E) : E.SparkSafe more sm field (.node (.name s) p n)
  | pred (s : String) (b : Bool) (p n : List E) : E.SparkSafe more sm field (.node (.pred s b) p n)
  | fn (h : Head) (f : String) (p n : List E) : h = .call f ∨ h = .binop f → f ≠ "where" →
      (∀ x ∈ p, E.SparkSafe more sm field x) →
      sparkFine more sm f (p.map (E.eval (treeEnv more field))) → E.SparkSafe more sm field (.node h p n)
  | whereTrue (h : Head) (c a b : E) (n : List E) : h = .call "where" ∨ h = .binop "where" →
      E.SparkSafe more sm field c → truth (c.eval (treeEnv more field)) = true →
      E.SparkSafe more sm field a → E.SparkSafe more sm field (.node h [c, a, b] n)
  | whereFalse (h : Head) (c a b : E) (n : List E) : h = .call "where" ∨ h = .binop "where" →
      E.SparkSafe more sm field c → truth (c.eval (treeEnv more field)) = false →
      E.SparkSafe more sm field b → E.SparkSafe more sm field (.node h [c, a, b] n)
  | rel (c : RelOp) (l r : E) (n : List E) : E.SparkSafe more sm field l → E.SparkSafe more sm field r →
      l.eval (treeEnv more field) ≠ none → r.eval (treeEnv more field) ≠ none →
      E.SparkSafe more sm field (.node (.rel c) [l, r] n)
  | plus (c : ℚ) (p n : List E) : (∀ x ∈ p, E.SparkSafe more sm field x) →
      (∀ x ∈ n, E.SparkSafe more sm field x) → E.SparkSafe more sm field (.node (.plus c) p n)
  | times (c : ℚ) (p n : List E) : (∀ x ∈ p, E.SparkSafe more sm field x) →
      (∀ x ∈ n, E.SparkSafe more sm field x) →
      (∀ x ∈ n, x.eval (treeEnv more field) ≠ some 0) → E.SparkSafe more sm field (.node (.times c) p n)
  | logic (h : Head) (p n : List E) : h = .land ∨ h = .lor → (∀ x ∈ p, E.SparkSafe more sm field x) →
      E.SparkSafe more sm field (.node h p n)
  | landFalse (x : E) (p n : List E) : x ∈ p → E.SparkSafe more sm field x →
      truth (x.eval (treeEnv more field)) = false → E.SparkSafe more sm field (.node .land p n)
  | lorTrue (x : E) (p n : List E) : x ∈ p → E.SparkSafe more sm field x →
      truth (x.eval (treeEnv more field)) = true → E.SparkSafe more sm field (.node .lor p n)

/-- A Spark value of type `τ` for a NumPy value. -/
def asSpark (τ : STy) (v : Option ℚ) : SVal :=
  match τ with
  | .num => .num v
  | .bool => .bool (truth v)

end Verif
