import Verif.Library

/-!
# Names of functions in expressions

How the function of a call in an expression is found (`/repo/histbook/expr.py` 117-124, 309-321 and 331-442) and which
function of NumPy is then applied (`/repo/histbook/calc/__init__.py` 53-146).
-/

namespace Verif

/-- What stands before the parentheses of a call: a name, an attribute, or anything else. -/
inductive Callee
  | name (s : String)
  | attr (c : Callee) (s : String)
  | other
  deriving DecidableEq

/-- The objects of a running Python, by number: `None`, the modules `math` and `numpy`, the builtin functions `abs`, `max`
and `min`, the globals of expr.py (by name), the attributes of objects, and which objects can be keys of a dict. -/
structure PyWorld where
  noneObj : ℕ
  mathObj : ℕ
  numpyObj : ℕ
  absObj : ℕ
  maxObj : ℕ
  minObj : ℕ
  globals : String → Option ℕ
  attr : ℕ → String → Option ℕ
  hashable : ℕ → Bool

/-- expr.py:117-124 `resolve`. -/
def PyWorld.resolve (W : PyWorld) : Callee → Except Err ℕ
  | .attr c s =>
    match W.resolve c with
    | .error e => .error e
    | .ok o => .ok ((W.attr o s).getD W.noneObj)
  | .name s => .ok ((W.globals s).getD W.noneObj)
  | .other => .error .expression

/-- A key of `Expr.recognized`: an object or a `_Placeholder` (expr.py:335-347), which is no function. -/
inductive FnKey
  | obj (o : ℕ)
  | placeholder (i : ℕ)
  deriving DecidableEq

/-- `d[k] = v` for a dict that is a list of pairs. -/
def fnSet (d : List (FnKey × String)) (k : FnKey) (v : String) : List (FnKey × String) :=
  if d.any (·.1 = k) then d.map fun p => if p.1 = k then (k, v) else p else d ++ [(k, v)]

/-- `d.get(k, None)`. -/
def fnGet (d : List (FnKey × String)) (k : FnKey) : Option String := (d.find? (·.1 = k)).map (·.2)

/-- The two modules whose functions are recognised. -/
inductive FnModule
  | math
  | numpy
  deriving DecidableEq

/-- expr.py:360-442, the calls of `_recognize` in their order. -/
def recognizeCalls : List (FnModule × String × String) :=
  [(.math, "acos", "arccos"), (.math, "acosh", "arccosh"), (.math, "asin", "arcsin"), (.math, "asinh", "arcsinh"),
    (.math, "atan2", "arctan2"), (.math, "atan", "arctan"), (.math, "atanh", "arctanh"), (.math, "ceil", "ceil"),
    (.math, "copysign", "copysign"), (.math, "cos", "cos"), (.math, "cosh", "cosh"), (.math, "degrees", "rad2deg"),
    (.math, "erfc", "erfc"), (.math, "erf", "erf"), (.math, "exp", "exp"), (.math, "expm1", "expm1"),
    (.math, "factorial", "factorial"), (.math, "floor", "floor"), (.math, "fmod", "mod"), (.math, "gamma", "gamma"),
    (.math, "hypot", "hypot"), (.math, "isinf", "isinf"), (.math, "isnan", "isnan"), (.math, "lgamma", "lgamma"),
    (.math, "log10", "log10"), (.math, "log1p", "log1p"), (.math, "log", "log"), (.math, "pow", "pow"),
    (.math, "radians", "deg2rad"), (.math, "sinh", "sinh"), (.math, "sin", "sin"), (.math, "sqrt", "sqrt"),
    (.math, "tanh", "tanh"), (.math, "tan", "tan"), (.math, "trunc", "trunc"),
    (.numpy, "absolute", "abs"), (.numpy, "arccos", "arccos"), (.numpy, "arccosh", "arccosh"), (.numpy, "arcsin", "arcsin"),
    (.numpy, "arcsinh", "arcsinh"), (.numpy, "arctan2", "arctan2"), (.numpy, "arctan", "arctan"), (.numpy, "arctanh", "arctanh"),
    (.numpy, "ceil", "ceil"), (.numpy, "conjugate", "conj"), (.numpy, "copysign", "copysign"), (.numpy, "cos", "cos"),
    (.numpy, "cosh", "cosh"), (.numpy, "deg2rad", "deg2rad"), (.numpy, "degrees", "rad2deg"), (.numpy, "exp2", "exp2"),
    (.numpy, "exp", "exp"), (.numpy, "expm1", "expm1"), (.numpy, "floor", "floor"), (.numpy, "fmod", "fmod"),
    (.numpy, "heaviside", "heaviside"), (.numpy, "hypot", "hypot"), (.numpy, "isfinite", "isfinite"), (.numpy, "isinf", "isinf"),
    (.numpy, "isnan", "isnan"), (.numpy, "log10", "log10"), (.numpy, "log1p", "log1p"), (.numpy, "log2", "log2"),
    (.numpy, "logaddexp2", "logaddexp2"), (.numpy, "logaddexp", "logaddexp"), (.numpy, "log", "log"),
    (.numpy, "maximum", "fmax"), (.numpy, "minimum", "fmin"), (.numpy, "power", "pow"), (.numpy, "rad2deg", "rad2deg"),
    (.numpy, "radians", "deg2rad"), (.numpy, "remainder", "mod"), (.numpy, "rint", "rint"), (.numpy, "round", "round"),
    (.numpy, "sign", "sign"), (.numpy, "sinh", "sinh"), (.numpy, "sin", "sin"), (.numpy, "sqrt", "sqrt"),
    (.numpy, "tanh", "tanh"), (.numpy, "tan", "tan"), (.numpy, "trunc", "trunc"), (.numpy, "where", "where")]

/-- The object of a module. -/
def PyWorld.moduleObj (W : PyWorld) : FnModule → ℕ
  | .math => W.mathObj
  | .numpy => W.numpyObj

/-- expr.py:349-353 `_recognize`; the number of the placeholder is the length of the dict, which is a new one. -/
def PyWorld.recognize (W : PyWorld) (d : List (FnKey × String)) (c : FnModule × String × String) : List (FnKey × String) :=
  match W.attr (W.moduleObj c.1) c.2.1 with
  | some o => fnSet d (.obj o) c.2.2
  | none => fnSet d (.placeholder d.length) c.2.2

/-- expr.py:333 and 355-358: `Expr.recognized` before the calls of `_recognize`. -/
def PyWorld.recognized0 (W : PyWorld) : List (FnKey × String) :=
  fnSet (fnSet (fnSet (fnSet (fnSet (fnSet [(.obj W.absObj, "abs")] (.obj W.maxObj) "max") (.obj W.minObj) "min")
    (.placeholder 0) "fabs") (.placeholder 1) "fmin") (.placeholder 2) "fmax") (.placeholder 3) "fmod"

/-- `Expr.recognized` (expr.py 333-442). -/
def PyWorld.recognizedDict (W : PyWorld) : List (FnKey × String) := recognizeCalls.foldl W.recognize W.recognized0

/-- expr.py:310-319: the name of the function of a call.  The loop of lines 316-319 compares a text with the keys by `is` and
does nothing, because no key is a text. -/
def PyWorld.calleeName (W : PyWorld) (c : Callee) : Except Err String :=
  match W.resolve c with
  | .error e => .error e
  | .ok o =>
    if W.hashable o then
      match fnGet W.recognizedDict (.obj o) with
      | some f => .ok f
      | none =>
        match c with
        | .name s => if s ∈ W.recognizedDict.map (·.2) then .ok s else .error .expression
        | _ => .error .attributeError
    else .error .typeError

/-- calc/__init__.py:54-103 and 147, the assignments `library[...] = numpy....` in their order; `heaviside` and `where` call the
function of NumPy of the same name. -/
def librarySets : List (String × String) :=
  [("abs", "absolute"), ("fabs", "absolute"), ("arccos", "arccos"), ("arccosh", "arccosh"), ("arcsin", "arcsin"),
    ("arcsinh", "arcsinh"), ("arctan2", "arctan2"), ("arctan", "arctan"), ("arctanh", "arctanh"), ("ceil", "ceil"),
    ("conj", "conjugate"), ("copysign", "copysign"), ("cos", "cos"), ("cosh", "cosh"), ("deg2rad", "deg2rad"),
    ("exp2", "exp2"), ("exp", "exp"), ("expm1", "expm1"), ("floor", "floor"), ("fmod", "fmod"), ("heaviside", "heaviside"),
    ("hypot", "hypot"), ("isfinite", "isfinite"), ("isinf", "isinf"), ("isnan", "isnan"), ("log10", "log10"), ("log1p", "log1p"),
    ("log2", "log2"), ("logaddexp2", "logaddexp2"), ("logaddexp", "logaddexp"), ("log", "log"), ("max", "maximum"),
    ("fmax", "maximum"), ("min", "minimum"), ("fmin", "minimum"), ("pow", "power"), ("rad2deg", "rad2deg"), ("mod", "remainder"),
    ("fmod", "remainder"), ("rint", "rint"), ("sign", "sign"), ("sinh", "sinh"), ("sin", "sin"), ("sqrt", "sqrt"),
    ("tanh", "tanh"), ("tan", "tan"), ("trunc", "trunc"), ("where", "where")]

/-- The function of NumPy that the library has under a name: the last assignment counts. -/
def libraryNumpy (f : String) : Option String := (librarySets.reverse.find? (·.1 = f)).map (·.2)

/-- calc/__init__.py:125-126 and 143-145: the functions that histbook computes itself. -/
def libraryOwn : List String := ["erf", "erfc", "gamma", "lgamma", "factorial"]

/-- A call in an expression: the function is looked up, then the call is made with its name (expr.py:321). -/
def PyWorld.callOf (W : PyWorld) (c : Callee) (args : List Py) : Except Err Py := (W.calleeName c).map (.call · args)

/-! ## Lemmas -/

theorem fnGet_append (d : List (FnKey × String)) (p : FnKey × String) (k : FnKey) :
    fnGet (d ++ [p]) k = match fnGet d k with
      | some v => some v
      | none => if p.1 = k then some p.2 else none := by
  unfold fnGet
  rw [List.find?_append]
  cases h : d.find? (·.1 = k) with
  | some x => simp
  | none => by_cases hk : p.1 = k <;> simp [hk]

theorem fnGet_map (d : List (FnKey × String)) (k k' : FnKey) (v : String) :
    fnGet (d.map fun p => if p.1 = k then (k, v) else p) k' = if k' = k then (if d.any (·.1 = k) then some v else none) else fnGet d k' := by
  induction d with
  | nil => simp [fnGet]
  | cons p d ih =>
    unfold fnGet at ih ⊢
    by_cases h1 : p.1 = k
    · by_cases h2 : k' = k
      · subst h2; simp [h1]
      · have h3 : ¬ k = k' := fun h => h2 h.symm
        have h4 : ¬ p.1 = k' := fun h => h2 (h.symm.trans h1)
        simp only [List.map_cons, h1, if_true, List.find?_cons, h3, decide_false, h2, if_false]
        rw [ih, if_neg h2]
    · by_cases h2 : k' = k
      · subst h2
        simp only [List.map_cons, h1, if_false, List.find?_cons, decide_false, List.any_cons, Bool.false_or, if_true]
        rw [ih, if_pos rfl]
      · by_cases h4 : p.1 = k'
        · simp [h1, h2, h4]
        · simp only [List.map_cons, h1, if_false, List.find?_cons, h4, decide_false, h2]
          rw [ih, if_neg h2]

/-- A dict has what was put in last. -/
theorem fnGet_set (d : List (FnKey × String)) (k k' : FnKey) (v : String) :
    fnGet (fnSet d k v) k' = if k' = k then some v else fnGet d k' := by
  unfold fnSet
  split_ifs with h h2 h2
  · rw [fnGet_map, if_pos h2, if_pos h]
  · rw [fnGet_map, if_neg h2]
  · rw [fnGet_append]
    subst h2
    have : fnGet d k' = none := by
      unfold fnGet
      rw [Option.map_eq_none_iff, List.find?_eq_none]
      intro x hx hk
      exact h (List.any_eq_true.2 ⟨x, hx, hk⟩)
    rw [this]; simp
  · rw [fnGet_append]
    have : ¬ k = k' := fun h => h2 h.symm
    simp only [this, if_false]
    cases fnGet d k' <;> rfl

theorem fnGet_mem {d : List (FnKey × String)} {k : FnKey} {v : String} (h : fnGet d k = some v) : v ∈ d.map (·.2) := by
  unfold fnGet at h
  obtain ⟨p, hp, rfl⟩ := Option.map_eq_some_iff.1 h
  exact List.mem_map_of_mem (List.mem_of_find?_eq_some hp)

theorem fnSet_values {d : List (FnKey × String)} {k : FnKey} {v w : String} (h : w ∈ (fnSet d k v).map (·.2)) :
    w = v ∨ w ∈ d.map (·.2) := by
  unfold fnSet at h
  split_ifs at h with hk
  · rw [List.map_map, List.mem_map] at h
    obtain ⟨p, hp, rfl⟩ := h
    simp only [Function.comp]
    split_ifs
    · left; rfl
    · right; exact List.mem_map_of_mem hp
  · rw [List.map_append, List.mem_append] at h
    rcases h with h | h
    · exact .inr h
    · left; simpa using h

end Verif
