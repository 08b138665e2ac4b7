import Verif.SpecTree
import Verif.ExprAll

/-!
# Lemmas: expressions that can be computed
-/

namespace Verif

variable {more : More} {field : String → Option ℚ}

theorem runHead_ar : ArHeads (RunHead more field) := ⟨fun _ => trivial, fun _ => trivial, fun _ => trivial⟩

theorem runHead_log : LogHeads (RunHead more field) := ⟨trivial, trivial⟩

theorem library_builtin : ∀ f ∈ libraryNames, builtin f = none := by
  have h : ∀ f ∈ libraryNames, (builtin f).isNone = true := by decide +kernel
  exact fun f hf => Option.isNone_iff_eq_none.1 (h f hf)

/-- All functions of the library have a meaning. -/
def Full (more : More) : Prop := ∀ f ∈ libraryNames, (more f).isSome = true

theorem runHead_lib (hm : Full more) {f : String} (h : inLibrary f = true) :
    RunHead more field (.call f) ∧ RunHead more field (.binop f) := by
  have h' : f ∈ libraryNames := by simpa [inLibrary] using h
  exact ⟨⟨library_builtin f h', hm f h'⟩, ⟨library_builtin f h', hm f h'⟩⟩

mutual
theorem runs_ar (hm : Full more) : ∀ s : Py, s.runs inLibrary = true → s.Ar (RunHead more field)
  | .num _, _ => trivial
  | .name _, _ => trivial
  | .neg a, h => runs_ar hm a (by simpa [Py.runs] using h)
  | .plus a, h => runs_ar hm a (by simpa [Py.runs] using h)
  | .invert a, h => runs_ar hm a (by simpa [Py.runs] using h)
  | .bin op a b, h => by
    have : (op.stays = true → RunHead more field (.binop op.fcn)) ∧ a.runs inLibrary = true ∧
        b.runs inLibrary = true := by
      cases op <;> simp only [Py.runs, Bool.and_eq_true, Bool.false_eq_true] at h
      · exact ⟨by simp [PyOp.stays], h⟩
      · exact ⟨by simp [PyOp.stays], h⟩
      · exact ⟨by simp [PyOp.stays], h⟩
      · exact ⟨by simp [PyOp.stays], h⟩
      · exact ⟨fun _ => (runHead_lib hm h.1.1).2, h.1.2, h.2⟩
      · exact ⟨fun _ => (runHead_lib hm h.1.1).2, h.1.2, h.2⟩
      · exact ⟨by simp [PyOp.stays], h⟩
      · exact ⟨by simp [PyOp.stays], h⟩
    exact ⟨this.1, runs_ar hm a this.2.1, runs_ar hm b this.2.2⟩
  | .call f args, h => by
    simp only [Py.runs, Bool.and_eq_true] at h
    exact ⟨(runHead_lib hm h.1).1, runsL_ar hm _ args h.2⟩
  | .set _, h => by simp [Py.runs] at h
  | .compare _ _ _, h => by simp [Py.runs] at h
  | .lnot _, h => by simp [Py.runs] at h
  | .land _, h => by simp [Py.runs] at h
  | .lor _, h => by simp [Py.runs] at h
theorem runsL_ar (hm : Full more) : ∀ (rel : Bool) (l : List Py), Py.runsL inLibrary l = true →
    Py.ArL (RunHead more field) rel l
  | _, [], _ => trivial
  | _, a :: as, h => by
    simp only [Py.runsL, Bool.and_eq_true] at h
    exact ⟨.inl (runs_ar hm a h.1), runsL_ar hm false as h.2⟩
end

mutual
theorem runsCond_lo (hm : Full more) : ∀ (flag : Bool) (s : Py), s.runsCond inLibrary field flag = true →
    s.Lo (RunHead more field) flag
  | flag, .name s, h => by
    simp only [Py.runsCond, Bool.and_eq_true, isFlag, decide_eq_true_eq] at h
    obtain ⟨rfl, h2⟩ := h
    exact ⟨fun _ => trivial, rfl, h2⟩
  | flag, .compare a ops cs, h => by
    simp only [Py.runsCond, Bool.and_eq_true, List.all_eq_true, decide_eq_true_eq] at h
    refine ⟨runs_ar hm a h.1.1, runsL_ar hm false cs h.1.2, ?_⟩
    intro op hop
    obtain ⟨h1, h2⟩ := h.2 op hop
    cases flag <;> cases op <;> first
      | exact absurd rfl h1
      | exact absurd rfl h2
      | exact ⟨by simp [PyCmp.relAt, PyCmp.rel, RelOp.neg], by simp [PyCmp.relAt, PyCmp.rel, RelOp.neg]⟩
  | flag, .lnot a, h => runsCond_lo hm (!flag) a (by simpa [Py.runsCond] using h)
  | flag, .land l, h => runsCondL_lo hm flag l (by simpa [Py.runsCond] using h)
  | flag, .lor l, h => runsCondL_lo hm flag l (by simpa [Py.runsCond] using h)
  | _, .num _, h => by simp [Py.runsCond] at h
  | _, .set _, h => by simp [Py.runsCond] at h
  | _, .neg _, h => by simp [Py.runsCond] at h
  | _, .plus _, h => by simp [Py.runsCond] at h
  | _, .invert _, h => by simp [Py.runsCond] at h
  | _, .bin _ _ _, h => by simp [Py.runsCond] at h
  | _, .call _ _, h => by simp [Py.runsCond] at h
theorem runsCondL_lo (hm : Full more) : ∀ (flag : Bool) (l : List Py),
    Py.runsCondL inLibrary field flag l = true → Py.LoL (RunHead more field) flag l
  | _, [], _ => trivial
  | flag, a :: as, h => by
    simp only [Py.runsCondL, Bool.and_eq_true] at h
    exact ⟨runsCond_lo hm flag a h.1, runsCondL_lo hm flag as h.2⟩
end

end Verif
