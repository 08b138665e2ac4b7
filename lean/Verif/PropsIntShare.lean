import Verif.IntShare
import Verif.PropsIntTree

/-!
# C125: quantities filled together do not influence each other, the types of their constants included

Property theorems.  `TT.val` is the value of a quantity computed alone, `passVal` its value when it is computed together with others.
-/

namespace Verif

section
variable {ty : IType} {more : String → Option (List (Option ℚ) → Option ℚ)} {sym : String → IVal}

/-- **C125** for floating point columns: whatever else is computed in the pass, in whatever order, a quantity gets the number (or the error) that it
gets alone. -/
theorem C125_float_partial (hs : ∀ s, (sym s).notInt) (goals : List TT) (g : TT) :
    (passVal ty more sym goals g).map IVal.erase = (g.val ty more sym).map IVal.erase := by
  unfold passVal
  rw [TT.val_erase _ (TT.fits_float hs _).1, TT.val_erase _ (TT.fits_float hs _).1, TT.share_untyped]

/-- **C125** for integer columns when nothing overflows, neither in the quantity nor in what is computed for it. -/
theorem C125_fits_partial (goals : List TT) (g : TT) (h1 : g.Fits ty more sym) (h2 : (TT.share (TT.subsL goals) g).Fits ty more sym) :
    (passVal ty more sym goals g).map IVal.erase = (g.val ty more sym).map IVal.erase := by
  unfold passVal
  rw [TT.val_erase _ h1, TT.val_erase _ h2, TT.share_untyped]

/-- **C125** for all columns when no number is written both as an integer and as a floating point number; overflow included. -/
theorem C125_one_type_partial (goals : List TT) (g : TT) (hg : g ∈ goals) (h : OneType (TT.constsL goals)) :
    passVal ty more sym goals g = g.val ty more sym := by
  have hm : ∀ (l : List TT), g ∈ l → ∀ c ∈ g.consts, c ∈ TT.constsL l := by
    intro l
    induction l with
    | nil => intro h; simp at h
    | cons a l ih =>
      intro h c hc
      simp only [TT.constsL, List.mem_append]
      rcases List.mem_cons.1 h with rfl | h
      · exact .inl hc
      · exact .inr (ih h c hc)
  unfold passVal
  rw [TT.share_self h (TT.subsL_consts goals) g (hm goals hg)]
end

/-- The quantities `x + 1` and `x + 1.0`. -/
def plusOne (c : NConst) : TT := .call "numpy.add" [.name "x", .const c]

/-- **C125** fails for integer columns: `x + 1.0` gives 128 for the byte 127, and -128 after `x + 1` in the same pass; and the other way round. -/
theorem C125_refuted :
    (plusOne (.float 1)).val int8 treeMore (fun _ => .int 127) = .ok (.num (some 128)) ∧
    passVal int8 treeMore (fun _ => .int 127) [plusOne (.int 1), plusOne (.float 1)] (plusOne (.float 1)) = .ok (.int (-128)) ∧
    (plusOne (.int 1)).val int8 treeMore (fun _ => .int 127) = .ok (.int (-128)) ∧
    passVal int8 treeMore (fun _ => .int 127) [plusOne (.float 1), plusOne (.int 1)] (plusOne (.int 1)) = .ok (.num (some 128)) := by
  decide +kernel

/-- Also when the quantity is only a part of the other one. -/
theorem C125_refuted_inner :
    let g := TT.call "numpy.add" [plusOne (.int 1), .name "y"]
    passVal int8 treeMore (fun _ => .int 127) [g, plusOne (.float 1)] (plusOne (.float 1)) = .ok (.int (-128)) ∧
    passVal int8 treeMore (fun _ => .int 127) [plusOne (.float 1), g] g = .ok (.num (some 255)) ∧
    g.val int8 treeMore (fun _ => .int 127) = .ok (.int (-1)) := by
  decide +kernel

/-- In general: after an equal quantity that differs in the types of its constants, a sum of a field and a number is computed with the first one's
constant. -/
theorem C125_first {ty : IType} {more : String → Option (List (Option ℚ) → Option ℚ)} {sym : String → IVal} (f s : String) (c d : NConst) (rest : List TT)
    (h : c.num = d.num) :
    passVal ty more sym (.call f [.name s, .const c] :: rest) (.call f [.name s, .const d]) = (TT.call f [.name s, .const c]).val ty more sym := by
  unfold passVal
  have hr : TT.rep (TT.subsL (.call f [.name s, .const c] :: rest)) (.call f [.name s, .const d]) = .call f [.name s, .const c] := by
    simp [TT.rep, TT.subsL, TT.subs, TT.eq, TT.eqL, h]
  simp only [TT.share, hr, TT.args, TT.shareL, keepConsts]

/-- The hypotheses are met: floating point columns, integer columns that do not overflow, constants of one type. -/
example : (∀ s : String, ((fun _ => .num (some (1/2))) s : IVal).notInt) ∧
    passVal int8 treeMore (fun _ => .num (some (1/2))) [plusOne (.int 1), plusOne (.float 1)] (plusOne (.float 1)) = .ok (.num (some (3/2))) ∧
    (plusOne (.float 1)).Fits int8 treeMore (fun _ => .int 100) ∧
    (TT.share (TT.subsL [plusOne (.int 1), plusOne (.float 1)]) (plusOne (.float 1))).Fits int8 treeMore (fun _ => .int 100) ∧
    passVal int8 treeMore (fun _ => .int 100) [plusOne (.int 1), plusOne (.float 1)] (plusOne (.float 1)) = .ok (.int 101) ∧
    (plusOne (.float 1)).val int8 treeMore (fun _ => .int 100) = .ok (.num (some 101)) := by
  refine ⟨fun _ => trivial, by decide +kernel, ?_, ?_, by decide +kernel, by decide +kernel⟩
  · refine ⟨⟨trivial, trivial, trivial⟩, fun vs h => ?_⟩
    have h : vs = [.int 100, .num (some 1)] := by cases h; rfl
    subst h; trivial
  · refine ⟨⟨trivial, trivial, trivial⟩, fun vs h => ?_⟩
    have h : vs = [.int 100, .py 1] := by cases h; rfl
    subst h
    change int8.has 1 ∧ int8.has (100 + 1)
    decide

example : OneType (TT.constsL [plusOne (.int 1), .call "numpy.multiply" [plusOne (.int 1), .const (.float (1/2))]]) := by
  intro c hc d hd
  simp [TT.constsL, TT.consts, plusOne] at hc hd
  rcases hc with rfl | rfl <;> rcases hd with rfl | rfl <;> simp [NConst.num]
  all_goals norm_num

end Verif
