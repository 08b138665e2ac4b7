import Verif.FnNames
import Verif.PropsLibrary

/-!
# The functions in expressions are those that were written: property theorems C120
-/

namespace Verif

/-- The function of NumPy that is the named function of Python's `math` or of NumPy, by their documentations; `none` if there
is no such function in NumPy. -/
def numpyOf : FnModule → String → Option String
  | .math, "acos" => some "arccos"
  | .math, "acosh" => some "arccosh"
  | .math, "asin" => some "arcsin"
  | .math, "asinh" => some "arcsinh"
  | .math, "atan2" => some "arctan2"
  | .math, "atan" => some "arctan"
  | .math, "atanh" => some "arctanh"
  | .math, "pow" => some "power"
  | .math, "erf" => none
  | .math, "erfc" => none
  | .math, "gamma" => none
  | .math, "lgamma" => none
  | .math, "factorial" => none
  | _, "degrees" => some "rad2deg"
  | _, "radians" => some "deg2rad"
  | _, f => some f

/-- Facts about the Python that runs: the modules are what their names in expr.py refer to, they have the functions in the
table, no two functions under different names of the table are the same object, none of them is `None` or a builtin
function, functions and `None` can be keys, and none of the names of functions is itself a global of expr.py. -/
structure PyWorld.Standard (W : PyWorld) : Prop where
  mathName : W.globals "math" = some W.mathObj
  numpyName : W.globals "numpy" = some W.numpyObj
  has : ∀ e ∈ recognizeCalls, ∃ o, W.attr (W.moduleObj e.1) e.2.1 = some o
  same : ∀ e ∈ recognizeCalls, ∀ e' ∈ recognizeCalls, W.attr (W.moduleObj e.1) e.2.1 = W.attr (W.moduleObj e'.1) e'.2.1 → e.2.2 = e'.2.2
  apart : ∀ e ∈ recognizeCalls, ∀ o, W.attr (W.moduleObj e.1) e.2.1 = some o → o ≠ W.noneObj ∧ o ≠ W.absObj ∧ o ≠ W.maxObj ∧ o ≠ W.minObj
  builtins : W.absObj ≠ W.noneObj ∧ W.maxObj ≠ W.noneObj ∧ W.minObj ≠ W.noneObj ∧ W.absObj ≠ W.maxObj ∧ W.absObj ≠ W.minObj ∧ W.maxObj ≠ W.minObj
  keys : W.hashable W.noneObj = true ∧ ∀ e ∈ recognizeCalls, ∀ o, W.attr (W.moduleObj e.1) e.2.1 = some o → W.hashable o = true
  free : ∀ f ∈ recognizedNames, W.globals f = none

theorem recognize_get {W : PyWorld} (h : W.Standard) (l : List (FnModule × String × String)) (hl : ∀ e ∈ l, e ∈ recognizeCalls)
    (d : List (FnKey × String)) (done : FnModule × String × String → Prop) (hdone : ∀ e, done e → e ∈ recognizeCalls)
    (h1 : ∀ e, done e → ∀ o, W.attr (W.moduleObj e.1) e.2.1 = some o → fnGet d (.obj o) = some e.2.2) :
    ∀ e, done e ∨ e ∈ l → ∀ o, W.attr (W.moduleObj e.1) e.2.1 = some o → fnGet (l.foldl W.recognize d) (.obj o) = some e.2.2 := by
  induction l generalizing d done with
  | nil => intro e he; exact h1 e (by simpa using he)
  | cons e l ih =>
    intro e' he'
    obtain ⟨o, ho⟩ := h.has e (hl e (by simp))
    have hstep : W.recognize d e = fnSet d (.obj o) e.2.2 := by unfold PyWorld.recognize; rw [ho]
    rw [List.foldl_cons, hstep]
    refine ih (fun x hx => hl x (by simp [hx])) _ (fun x => done x ∨ x = e) ?_ ?_ e' ?_
    · rintro x (hx | rfl)
      · exact hdone x hx
      · exact hl x (by simp)
    · rintro x hx o' ho'
      rw [fnGet_set]
      split_ifs with hk
      · have : o' = o := by simpa using hk
        subst this
        congr 1
        refine h.same e (hl e (by simp)) x ?_ (ho.trans ho'.symm)
        rcases hx with hx | rfl
        · exact hdone x hx
        · exact hl x (by simp)
      · rcases hx with hx | rfl
        · exact h1 x hx o' ho'
        · exact absurd (by rw [ho] at ho'; simpa using ho'.symm) hk
    · rcases he' with he' | he'
      · exact .inl (.inl he')
      · rcases List.mem_cons.1 he' with rfl | he'
        · exact .inl (.inr rfl)
        · exact .inr he'

/-- What the dict has under any other key. -/
theorem recognize_other {W : PyWorld} (h : W.Standard) (l : List (FnModule × String × String)) (hl : ∀ e ∈ l, e ∈ recognizeCalls)
    (d : List (FnKey × String)) (k : FnKey) (hk : ∀ e ∈ l, ∀ o, W.attr (W.moduleObj e.1) e.2.1 = some o → k ≠ .obj o) :
    fnGet (l.foldl W.recognize d) k = fnGet d k := by
  induction l generalizing d with
  | nil => rfl
  | cons e l ih =>
    obtain ⟨o, ho⟩ := h.has e (hl e (by simp))
    have hstep : W.recognize d e = fnSet d (.obj o) e.2.2 := by unfold PyWorld.recognize; rw [ho]
    rw [List.foldl_cons, hstep, ih (fun x hx => hl x (by simp [hx])) _ (fun x hx => hk x (by simp [hx])), fnGet_set, if_neg (hk e (by simp) o ho)]

theorem recognize_values {W : PyWorld} (l : List (FnModule × String × String)) (d : List (FnKey × String)) (v : String)
    (hv : v ∈ (l.foldl W.recognize d).map (·.2)) : v ∈ l.map (·.2.2) ∨ v ∈ d.map (·.2) := by
  induction l generalizing d with
  | nil => exact .inr hv
  | cons e l ih =>
    rcases ih _ hv with h | h
    · exact .inl (by simp only [List.map_cons, List.mem_cons]; exact .inr h)
    · unfold PyWorld.recognize at h
      have : v = e.2.2 ∨ v ∈ d.map (·.2) := by
        split at h <;> exact fnSet_values h
      rcases this with rfl | h
      · exact .inl (by simp)
      · exact .inr h

theorem recognized0_get (W : PyWorld) (k : FnKey) : fnGet W.recognized0 k =
    if k = .placeholder 3 then some "fmod" else if k = .placeholder 2 then some "fmax" else if k = .placeholder 1 then some "fmin" else
    if k = .placeholder 0 then some "fabs" else if k = .obj W.minObj then some "min" else if k = .obj W.maxObj then some "max" else
    if k = .obj W.absObj then some "abs" else none := by
  unfold PyWorld.recognized0
  simp only [fnGet_set]
  congr 6
  unfold fnGet
  by_cases hk : FnKey.obj W.absObj = k
  · simp [hk]
  · have : ¬ k = .obj W.absObj := fun h => hk h.symm
    simp [hk, this]

/-- Where a name of the parser comes from. -/
theorem values_iff {W : PyWorld} (h : W.Standard) (v : String) : v ∈ W.recognizedDict.map (·.2) ↔ v ∈ recognizedNames := by
  constructor
  · intro hv
    rcases recognize_values _ _ _ hv with h1 | h1
    · have : ∀ x ∈ recognizeCalls.map (·.2.2), x ∈ recognizedNames := by decide +kernel
      exact this v h1
    · unfold PyWorld.recognized0 at h1
      have h2 : v = "fmod" ∨ v = "fmax" ∨ v = "fmin" ∨ v = "fabs" ∨ v = "min" ∨ v = "max" ∨ v = "abs" := by
        rcases fnSet_values h1 with r | h1
        · exact .inl r
        rcases fnSet_values h1 with r | h1
        · exact .inr (.inl r)
        rcases fnSet_values h1 with r | h1
        · exact .inr (.inr (.inl r))
        rcases fnSet_values h1 with r | h1
        · exact .inr (.inr (.inr (.inl r)))
        rcases fnSet_values h1 with r | h1
        · exact .inr (.inr (.inr (.inr (.inl r))))
        rcases fnSet_values h1 with r | h1
        · exact .inr (.inr (.inr (.inr (.inr (.inl r)))))
        · exact .inr (.inr (.inr (.inr (.inr (.inr (by simpa using h1))))))
      rcases h2 with rfl | rfl | rfl | rfl | rfl | rfl | rfl <;> decide +kernel
  · intro hv
    have hsplit : ∀ x ∈ recognizedNames, x ∈ recognizeCalls.map (·.2.2) ∨ x ∈ ["fabs", "fmin", "fmax", "fmod", "abs", "max", "min"] := by decide +kernel
    rcases hsplit v hv with h1 | h1
    · obtain ⟨e, he, rfl⟩ := List.mem_map.1 h1
      obtain ⟨o, ho⟩ := h.has e he
      exact fnGet_mem (recognize_get h recognizeCalls (fun _ h => h) W.recognized0 (fun _ => False) (fun _ h => h.elim) (fun _ h => h.elim) e (.inr he) o ho)
    · have hob : ∀ i, ∀ e ∈ recognizeCalls, ∀ o, W.attr (W.moduleObj e.1) e.2.1 = some o → FnKey.placeholder i ≠ .obj o := by
        intro i e _ o _ hc; cases hc
      have hb : ∀ b, b = W.absObj ∨ b = W.maxObj ∨ b = W.minObj → ∀ e ∈ recognizeCalls, ∀ o, W.attr (W.moduleObj e.1) e.2.1 = some o → FnKey.obj b ≠ .obj o := by
        intro b hb e he o ho hc
        have hc : b = o := by simpa using hc
        have ha := h.apart e he o ho
        rcases hb with rfl | rfl | rfl
        · exact ha.2.1 hc.symm
        · exact ha.2.2.1 hc.symm
        · exact ha.2.2.2 hc.symm
      have key : ∀ k, (∀ e ∈ recognizeCalls, ∀ o, W.attr (W.moduleObj e.1) e.2.1 = some o → k ≠ .obj o) → fnGet W.recognized0 k = some v →
          v ∈ W.recognizedDict.map (·.2) := fun k hk hv =>
        fnGet_mem ((recognize_other h recognizeCalls (fun _ h => h) W.recognized0 k hk).trans hv)
      obtain ⟨_, _, _, b1, b2, b3⟩ := h.builtins
      simp only [List.mem_cons, List.not_mem_nil, or_false] at h1
      rcases h1 with rfl | rfl | rfl | rfl | rfl | rfl | rfl
      · exact key (.placeholder 0) (hob 0) (by rw [recognized0_get]; simp)
      · exact key (.placeholder 1) (hob 1) (by rw [recognized0_get]; simp)
      · exact key (.placeholder 2) (hob 2) (by rw [recognized0_get]; simp)
      · exact key (.placeholder 3) (hob 3) (by rw [recognized0_get]; simp)
      · exact key (.obj W.absObj) (hb _ (.inl rfl)) (by rw [recognized0_get]; simp [b1, b2])
      · exact key (.obj W.maxObj) (hb _ (.inr (.inl rfl))) (by rw [recognized0_get]; simp [b3])
      · exact key (.obj W.minObj) (hb _ (.inr (.inr rfl))) (by rw [recognized0_get]; simp)

theorem dict_get {W : PyWorld} (h : W.Standard) (e : FnModule × String × String) (he : e ∈ recognizeCalls) (o : ℕ)
    (ho : W.attr (W.moduleObj e.1) e.2.1 = some o) : fnGet W.recognizedDict (.obj o) = some e.2.2 :=
  recognize_get h recognizeCalls (fun _ h => h) W.recognized0 (fun _ => False) (fun _ h => h.elim) (fun _ h => h.elim) e (.inr he) o ho

theorem dict_none {W : PyWorld} (h : W.Standard) : fnGet W.recognizedDict (.obj W.noneObj) = none := by
  unfold PyWorld.recognizedDict
  rw [recognize_other h recognizeCalls (fun _ h => h)]
  · obtain ⟨b1, b2, b3, _⟩ := h.builtins
    rw [recognized0_get]; simp [b1.symm, b2.symm, b3.symm]
  · intro e he o ho hc
    have hc : W.noneObj = o := by simpa using hc
    exact (h.apart e he o ho).1 hc.symm

/-- **C120**: however a recognised function of `math` or NumPy is referred to (`math.acos`, or any chain of attributes that
leads to the same object), the call is accepted, and the function of NumPy that is applied is the one that the written
function is by the documentations; the exceptions are `fmod` (`C120_refuted_fmod`) and `round` (`C77_round`).  Functions
that NumPy does not have are computed by histbook. -/
theorem C120_qualified_partial {W : PyWorld} (h : W.Standard) (c : Callee) (m : FnModule) (f n : String) (he : (m, f, n) ∈ recognizeCalls)
    (o : ℕ) (ho : W.attr (W.moduleObj m) f = some o) (hc : W.resolve c = .ok o) :
    ∃ g, W.calleeName c = .ok g ∧ recognized g = true ∧ (numpyOf m f = none → g ∈ libraryOwn ∧ g = f) ∧
      ∀ u, numpyOf m f = some u → u ≠ "fmod" → u ≠ "round" → libraryNumpy g = some u := by
  refine ⟨n, ?_, ?_, ?_⟩
  · unfold PyWorld.calleeName
    simp only [hc]
    rw [if_pos (h.keys.2 _ he o ho), dict_get h _ he o ho]
  · have : ∀ e ∈ recognizeCalls, recognized e.2.2 = true := by decide +kernel
    exact this _ he
  · have : ∀ e ∈ recognizeCalls, (numpyOf e.1 e.2.1 = none → e.2.2 ∈ libraryOwn ∧ e.2.2 = e.2.1) ∧
        (numpyOf e.1 e.2.1 = libraryNumpy e.2.2 ∨ numpyOf e.1 e.2.1 = none ∨ numpyOf e.1 e.2.1 = some "fmod" ∨ numpyOf e.1 e.2.1 = some "round") := by
      decide +kernel
    obtain ⟨h1, h2⟩ := this _ he
    refine ⟨h1, fun u hu n1 n2 => ?_⟩
    rcases h2 with h2 | h2 | h2 | h2
    · exact h2.symm.trans hu
    · rw [hu] at h2; cases h2
    · rw [hu] at h2; exact absurd (by simpa using h2) n1
    · rw [hu] at h2; exact absurd (by simpa using h2) n2

/-- Written with the name of the module, a function of the table resolves to its object. -/
theorem C120_dotted {W : PyWorld} (h : W.Standard) (f n : String) :
    ((.math, f, n) ∈ recognizeCalls → W.calleeName (.attr (.name "math") f) = .ok n) ∧
    ((.numpy, f, n) ∈ recognizeCalls → W.calleeName (.attr (.name "numpy") f) = .ok n) := by
  constructor <;> intro he <;> obtain ⟨o, ho⟩ := h.has _ he
  all_goals
    have hr := ho
    simp only [PyWorld.moduleObj] at hr
    unfold PyWorld.calleeName
    simp only [PyWorld.resolve, h.mathName, h.numpyName, Option.getD_some, hr]
    rw [if_pos (h.keys.2 _ he o ho), dict_get h _ he o ho]

/-- **C120** for names without a module: exactly the names of `recognizedNames` are accepted, and each means itself; every
other name that is no global of expr.py is refused with an ExpressionError. -/
theorem C120_bare {W : PyWorld} (h : W.Standard) (f : String) :
    (recognized f = true → W.calleeName (.name f) = .ok f) ∧
    (recognized f = false → W.globals f = none → W.calleeName (.name f) = .error .expression) := by
  constructor
  · intro hf
    have hf : f ∈ recognizedNames := by simpa [recognized] using hf
    unfold PyWorld.calleeName
    simp only [PyWorld.resolve, h.free f hf, Option.getD_none]
    rw [if_pos h.keys.1, dict_none h]
    simp only
    rw [if_pos ((values_iff h f).2 hf)]
  · intro hf hg
    have hf : f ∉ recognizedNames := by simpa [recognized] using hf
    unfold PyWorld.calleeName
    simp only [PyWorld.resolve, hg, Option.getD_none]
    rw [if_pos h.keys.1, dict_none h]
    simp only
    rw [if_neg fun hc => hf ((values_iff h f).1 hc)]

/-- The function of NumPy that a function without a module is: builtin functions, the functions of C, and NumPy's own names. -/
def numpyOfBare : String → Option String
  | "abs" => some "absolute"
  | "fabs" => some "absolute"
  | "max" => some "maximum"
  | "fmax" => some "maximum"
  | "min" => some "minimum"
  | "fmin" => some "minimum"
  | "pow" => some "power"
  | "mod" => some "remainder"
  | "conj" => some "conjugate"
  | "erf" => none
  | "erfc" => none
  | "gamma" => none
  | "lgamma" => none
  | "factorial" => none
  | f => some f

/-- **C120** for functions without a module: the call is accepted with the written name, under which the library has the function of
NumPy that is meant, except `fmod` and `round`; and it has no function under the names of those that histbook computes. -/
theorem C120_bare_function_partial {W : PyWorld} (h : W.Standard) (f : String) (hf : recognized f = true) (h1 : f ≠ "fmod") (h2 : f ≠ "round") :
    W.calleeName (.name f) = .ok f ∧ libraryNumpy f = numpyOfBare f ∧ (numpyOfBare f = none ↔ f ∈ libraryOwn) := by
  refine ⟨(C120_bare h f).1 hf, ?_⟩
  have hf : f ∈ recognizedNames := by simpa [recognized] using hf
  have : ∀ f ∈ recognizedNames, f ≠ "fmod" → f ≠ "round" → libraryNumpy f = numpyOfBare f ∧ (numpyOfBare f = none ↔ f ∈ libraryOwn) := by decide +kernel
  exact this f hf h1 h2

/-- **C120** fails for `fmod`, whose first entry in the library is overwritten, and for `round`, which it does not have. -/
theorem C120_refuted_table : numpyOfBare "fmod" = some "fmod" ∧ libraryNumpy "fmod" = some "remainder" ∧
    recognized "round" = true ∧ libraryNumpy "round" = none ∧ "round" ∉ libraryOwn := by decide +kernel

/-- The names of Python's `math` that NumPy spells differently are refused without the module: `acos(x)`, `degrees(x)`. -/
theorem C120_bare_math {W : PyWorld} (h : W.Standard) (f n : String) (he : (.math, f, n) ∈ recognizeCalls) (hn : f ≠ n) (hf : f ≠ "fmod")
    (hg : W.globals f = none) : W.calleeName (.name f) = .error .expression := by
  refine (C120_bare h f).2 ?_ hg
  have : ∀ e ∈ recognizeCalls, e.1 = .math → e.2.1 ≠ e.2.2 → e.2.1 ≠ "fmod" → recognized e.2.1 = false := by decide +kernel
  exact this _ he rfl hn hf

/-- **C120** fails for the error of a function that is not recognised: after a dot it is an AttributeError of Python instead of
an ExpressionError, for every chain of attributes (`np.sqrt(x)`, `x.mean()`, `math.fabs(x)`). -/
theorem C120_refuted_unknown (W : PyWorld) (c : Callee) (s : String) (o : ℕ) (hr : W.resolve (.attr c s) = .ok o) (hh : W.hashable o = true)
    (hn : fnGet W.recognizedDict (.obj o) = none) : W.calleeName (.attr c s) = .error .attributeError := by
  unfold PyWorld.calleeName
  simp only [hr]
  rw [if_pos hh, hn]

/-- In particular for every attribute of a name that is no global of expr.py, when `None` does not have it. -/
theorem C120_refuted_np {W : PyWorld} (h : W.Standard) (m f : String) (hg : W.globals m = none) (hf : W.attr W.noneObj f = none) :
    W.calleeName (.attr (.name m) f) = .error .attributeError :=
  C120_refuted_unknown W _ _ W.noneObj (by simp [PyWorld.resolve, hg, hf]) h.keys.1 (dict_none h)

/-- And for every attribute that an object does not have, e.g. `math.sin.real`. -/
theorem C120_refuted_attribute {W : PyWorld} (h : W.Standard) (c : Callee) (f : String) (o : ℕ) (hc : W.resolve c = .ok o) (hf : W.attr o f = none) :
    W.calleeName (.attr c f) = .error .attributeError :=
  C120_refuted_unknown W _ _ W.noneObj (by simp [PyWorld.resolve, hc, hf]) h.keys.1 (dict_none h)

/-- **C120** fails for `fmod`: written `math.fmod(a, b)`, `numpy.fmod(a, b)` or `fmod(a, b)`, an expression of fields with values
of different signs gets the value of the documented function plus `b`. -/
theorem C120_refuted_fmod {W : PyWorld} (h : W.Standard) (c : Callee)
    (hc : c ∈ [Callee.attr (.name "math") "fmod", .attr (.name "numpy") "fmod", .name "fmod"]) (field : String → Option ℚ) (a b : String)
    (x y : ℚ) (ha : field a = some x) (hb : field b = some y) (hy : y ≠ 0) (hxy : x / y < 0) (hk : ¬ ∃ k : ℤ, x / y = k) :
    ∃ e, W.callOf c [.name a, .name b] = .ok e ∧ computed libRat field e = .ok (.num (some (fmodSpec x y + y))) := by
  have hw := (C79_fmod_wrong x y hy hxy hk).1
  have hm : libFn libRat "mod" [some x, some y] = libFn libRat "fmod" [some x, some y] := rfl
  have hname : W.calleeName c = .ok "mod" ∨ W.calleeName c = .ok "fmod" := by
    simp only [List.mem_cons, List.not_mem_nil, or_false] at hc
    rcases hc with rfl | rfl | rfl
    · exact .inl ((C120_dotted h "fmod" "mod").1 (by decide +kernel))
    · exact .inr ((C120_dotted h "fmod" "fmod").2 (by decide +kernel))
    · exact .inr ((C120_bare h "fmod").1 (by decide +kernel))
  rcases hname with hn | hn
  · refine ⟨.call "mod" [.name a, .name b], by simp [PyWorld.callOf, hn, Except.map], ?_⟩
    have : computed libRat field (.call "mod" [.name a, .name b]) = .ok (.num (libFn libRat "mod" [field a, field b])) := rfl
    rw [this, ha, hb, hm, hw]
  · refine ⟨.call "fmod" [.name a, .name b], by simp [PyWorld.callOf, hn, Except.map], ?_⟩
    have : computed libRat field (.call "fmod" [.name a, .name b]) = .ok (.num (libFn libRat "fmod" [field a, field b])) := rfl
    rw [this, ha, hb, hw]

/-! ## A Python -/

/-- A Python whose modules have the functions of the table, each its own object, and `numpy.abs` besides. -/
def demoWorld : PyWorld where
  noneObj := 0
  mathObj := 1
  numpyObj := 2
  absObj := 3
  maxObj := 4
  minObj := 5
  globals s := if s = "math" then some 1 else if s = "numpy" then some 2 else none
  attr o s :=
    if o = 1 then (recognizeCalls.findIdx? fun e => e.1 = .math ∧ e.2.1 = s).map (· + 10)
    else if o = 2 then
      if s = "abs" then (recognizeCalls.findIdx? fun e => e.1 = .numpy ∧ e.2.1 = "absolute").map (· + 10)
      else if s = "pi" then some 6 else (recognizeCalls.findIdx? fun e => e.1 = .numpy ∧ e.2.1 = s).map (· + 10)
    else none
  hashable _ := true

theorem demo_attr {e : FnModule × String × String} (he : e ∈ recognizeCalls) :
    demoWorld.attr (demoWorld.moduleObj e.1) e.2.1 = (recognizeCalls.findIdx? fun x => x.1 = e.1 ∧ x.2.1 = e.2.1).map (· + 10) := by
  have : ∀ e ∈ recognizeCalls, e.2.1 ≠ "abs" ∧ e.2.1 ≠ "pi" := by decide +kernel
  obtain ⟨h1, h2⟩ := this e he
  obtain ⟨m, f, n⟩ := e
  simp only at h1 h2
  cases m <;> simp [demoWorld, PyWorld.moduleObj, h1, h2]

theorem demo_entry {e : FnModule × String × String} (he : e ∈ recognizeCalls) :
    ∃ i, demoWorld.attr (demoWorld.moduleObj e.1) e.2.1 = some (i + 10) ∧ ∃ x, recognizeCalls[i]? = some x ∧ x.1 = e.1 ∧ x.2.1 = e.2.1 := by
  rw [demo_attr he]
  cases hf : recognizeCalls.findIdx? fun x => x.1 = e.1 ∧ x.2.1 = e.2.1 with
  | none =>
    rw [List.findIdx?_eq_none_iff] at hf
    simpa using hf e he
  | some i =>
    obtain ⟨hi, h1, _⟩ := List.findIdx?_eq_some_iff_getElem.1 hf
    exact ⟨i, rfl, recognizeCalls[i], by simp [hi], by simpa using h1⟩

theorem demoWorld_standard : demoWorld.Standard where
  mathName := rfl
  numpyName := rfl
  has := fun e he => (demo_entry he).imp' (· + 10) fun _ h => h.1
  same := by
    intro e he e' he' heq
    obtain ⟨i, h1, x, hx, hx1, hx2⟩ := demo_entry he
    obtain ⟨j, h2, y, hy, hy1, hy2⟩ := demo_entry he'
    have hij : i = j := by
      rw [h1, h2] at heq
      simpa using heq
    subst hij
    have hxy : x = y := by rw [hx] at hy; simpa using hy
    subst hxy
    have hfun : ∀ a ∈ recognizeCalls, ∀ b ∈ recognizeCalls, a.1 = b.1 → a.2.1 = b.2.1 → a.2.2 = b.2.2 := by decide +kernel
    exact hfun e he e' he' (hx1.symm.trans hy1) (hx2.symm.trans hy2)
  apart := by
    intro e he o ho
    obtain ⟨i, h1, _⟩ := demo_entry he
    have : o = i + 10 := by rw [h1] at ho; simpa using ho.symm
    subst this
    simp [demoWorld]
  builtins := by decide
  keys := ⟨rfl, fun _ _ _ _ => rfl⟩
  free := by decide +kernel

/-- The hypotheses are met by `math.acos`, by `numpy.abs`, which is another name of `numpy.absolute`, by `np.sqrt`, and by -7 and 3
for `fmod`. -/
example : demoWorld.calleeName (.attr (.name "math") "acos") = .ok "arccos" ∧ demoWorld.calleeName (.attr (.name "numpy") "abs") = .ok "abs" ∧
    demoWorld.calleeName (.attr (.name "np") "sqrt") = .error .attributeError ∧ demoWorld.calleeName (.name "acos") = .error .expression ∧
    demoWorld.calleeName (.attr (.name "numpy") "pi") = .error .attributeError ∧
    demoWorld.calleeName (.attr (.attr (.name "math") "sin") "real") = .error .attributeError ∧ demoWorld.calleeName .other = .error .expression ∧
    fmodSpec (-7) 3 + 3 = 2 := by decide +kernel

end Verif
