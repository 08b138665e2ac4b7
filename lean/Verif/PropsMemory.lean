import Verif.Memory
import Verif.PropsTree

/-!
# C78: filling does not change the user's arrays
-/

namespace Verif

variable {lib : String → Option UFunc} {n : ℕ} {symbols : String → Except Err MVal}

theorem calcML_length : ∀ (l : List (T String)) (h : Mem) (r : List MVal × Mem),
    calcML lib n symbols l h = .ok r → r.1.length = l.length
  | [], h, r, hr => by
    have := (Except.ok.inj hr).symm; subst this; rfl
  | a :: as, h, r, hr => by
    simp only [calcML] at hr
    obtain ⟨x, h1, h2⟩ := exBind hr
    obtain ⟨y, h3, h4⟩ := exBind h2
    have := (Except.ok.inj h4).symm; subst this
    simp [calcML_length as x.2 y h3]

mutual
/-- **C78** for every computation in which no function that can be given an array to write into is called with one argument
more than it has inputs: all arrays that existed before are unchanged.  Missing: exactly such calls, which overwrite that
argument (`C78_overwritten`). -/
theorem C78_unchanged_partial : ∀ (t : T String) (h : Mem) (r : MVal × Mem), t.arity lib →
    calcM lib n symbols t h = .ok r → h <+: r.2
  | .bconst (some s) v, h, r, _, hr => by
    simp only [calcM] at hr
    obtain ⟨x, _, h2⟩ := exBind hr
    have := (Except.ok.inj h2).symm; subst this; exact List.prefix_rfl
  | .bconst none v, h, r, _, hr => by simp [calcM] at hr
  | .name s, h, r, _, hr => by
    simp only [calcM] at hr
    obtain ⟨x, _, h2⟩ := exBind hr
    have := (Except.ok.inj h2).symm; subst this; exact List.prefix_rfl
  | .pred s b, h, r, _, hr => by
    simp only [calcM] at hr
    obtain ⟨x, _, h2⟩ := exBind hr
    have := (Except.ok.inj h2).symm; subst this; exact List.prefix_rfl
  | .const v, h, r, _, hr => by
    simp only [calcM] at hr
    obtain ⟨x, _, h2⟩ := exBind hr
    have := (Except.ok.inj h2).symm; subst this; exact List.prefix_rfl
  | .call f args, h, r, ha, hr => by
    simp only [calcM] at hr
    cases hf : lib f with
    | none => simp [hf] at hr
    | some u =>
      simp only [hf] at hr
      obtain ⟨x, h1, h2⟩ := exBind hr
      have p := argsUnchanged args h x ha.2 h1
      have hl := calcML_length args h x h1
      have hno := ha.1 u hf
      rw [← hl] at hno
      unfold UFunc.call at h2
      rw [if_neg hno] at h2
      split_ifs at h2
      · have := (Except.ok.inj h2).symm; subst this
        exact p.trans (List.prefix_append _ _)
      · have := (Except.ok.inj h2).symm; subst this
        exact p
theorem argsUnchanged : ∀ (l : List (T String)) (h : Mem) (r : List MVal × Mem), T.arityL lib l →
    calcML lib n symbols l h = .ok r → h <+: r.2
  | [], h, r, _, hr => by
    have := (Except.ok.inj hr).symm; subst this; exact List.prefix_rfl
  | a :: as, h, r, ha, hr => by
    simp only [calcML] at hr
    obtain ⟨x, h1, h2⟩ := exBind hr
    obtain ⟨y, h3, h4⟩ := exBind h2
    have := (Except.ok.inj h4).symm; subst this
    exact (C78_unchanged_partial a h x ha.1 h1).trans (argsUnchanged as x.2 y ha.2 h3)
end

/-- **C78** fails: a function of one array called with two fields, as `log(x, y)`, replaces the array of
the second field by the result. -/
theorem C78_overwritten (f : String) (u : UFunc) (hf : lib f = some u) (hn : u.nin = 1) (ho : u.out = true)
    (x y : String) (a b : ℕ) (hx : symbols x = .ok (.arr a)) (hy : symbols y = .ok (.arr b)) (h : Mem)
    (hb : b < h.length) (row : List (Option ℚ)) (ha : h.getD a [] = row) (hr : row.length = n) :
    ∃ h', calcM lib n symbols (.call f [.name x, .name y]) h = .ok (.arr b, h') ∧
      h'.getD b [] = row.map fun v => u.f [v] := by
  refine ⟨h.set b (u.rows n [.arr a, .arr b] h), ?_, ?_⟩
  · simp only [calcM, hf, calcML, hx, hy]
    change u.call n [.arr a, .arr b] h = _
    simp [UFunc.call, hn, ho, writeOut]
  · subst hr
    rw [List.getD_eq_getElem?_getD, List.getElem?_set_self hb, Option.getD_some]
    unfold UFunc.rows
    rw [hn]
    refine List.ext_getElem (by simp) ?_
    intro i h1 h2
    have hi : i < row.length := by simpa using h2
    rw [List.getD_eq_getElem?_getD] at ha
    simp [MVal.at, ha, List.getElem?_eq_getElem hi]

/-- **C78** fails for a function of two arrays with three fields, too: `max(x, y, z)` is the greater of `x` and
`y`, whatever `z`, and the array of `z` is replaced by it.  (On Spark it is the greatest of the three,
`C93_max_of_many`.) -/
theorem C78_overwritten_two (f : String) (u : UFunc) (hf : lib f = some u) (hn : u.nin = 2) (ho : u.out = true)
    (x y z : String) (a b c : ℕ) (hx : symbols x = .ok (.arr a)) (hy : symbols y = .ok (.arr b))
    (hz : symbols z = .ok (.arr c)) (h : Mem) (hc : c < h.length) :
    ∃ h', calcM lib n symbols (.call f [.name x, .name y, .name z]) h = .ok (.arr c, h') ∧
      h'.length = h.length ∧ (h'.getD c []).length = n ∧
      (∀ i < n, (h'.getD c [])[i]? = some (u.f [(h.getD a []).getD i none, (h.getD b []).getD i none])) ∧
      ∀ d, d ≠ c → h'[d]? = h[d]? := by
  refine ⟨h.set c (u.rows n [.arr a, .arr b, .arr c] h), ?_, by simp, ?_, ?_, ?_⟩
  · simp only [calcM, hf, calcML, hx, hy, hz]
    change u.call n [.arr a, .arr b, .arr c] h = _
    simp [UFunc.call, hn, ho, writeOut]
  · rw [List.getD_eq_getElem?_getD, List.getElem?_set_self hc, Option.getD_some]
    simp [UFunc.rows]
  · intro i hi
    rw [List.getD_eq_getElem?_getD, List.getElem?_set_self hc, Option.getD_some]
    unfold UFunc.rows
    rw [hn]
    simp [MVal.at, hi]
  · intro d hd
    rw [List.getElem?_set_ne (Ne.symm hd)]

/-- The parser accepts such a call: it does not look at the number of arguments. -/
theorem C78_accepted (f : String) (h : recognized f = true) (x y : String) :
    parseExpr (plainScope recognized) (.call f [.name x, .name y]) =
      .ok (E.callE f [E.name x, E.name y]) ∧
    totree (E.callE f [E.name x, E.name y]) = .ok (E.callE f [E.name x, E.name y]) ∧
    (E.callE f [E.name x, E.name y]).toT = .call f [.name x, .name y] := by
  refine ⟨?_, rfl, rfl⟩
  have hk : (plainScope recognized).known f = true := h
  unfold parseExpr
  simp only [Py.parse, hk, if_true, Py.parseArgs]
  rfl

/-- A library with a function of one array and a function of two. -/
def memLib (f : String) : Option UFunc :=
  if f = "abs" then some ⟨1, true, fun l => (l.head?.join).map (|·|)⟩
  else if f = "max" then some ⟨2, true, fun l => do return max (← l[0]?.join) (← l[1]?.join)⟩
  else none

def memSymbols (s : String) : Except Err MVal :=
  if s = "x" then .ok (.arr 0) else if s = "y" then .ok (.arr 1) else .error .keyError

example : T.arity memLib (.call "max" [.call "abs" [.name "x"], .name "y"]) := by
  simp only [T.arity, T.arityL, memLib]
  simp

example : calcM memLib 2 memSymbols (.call "max" [.call "abs" [.name "x"], .name "y"]) [[some (-3), some 2], [some 1, none]] =
    .ok (.arr 3, [[some (-3), some 2], [some 1, none], [some 3, some 2], [some 3, none]]) := by
  decide +kernel

/-- `max(x, y, z)` ignores `z` and overwrites it. -/
example : calcM memLib 2 (fun s => if s = "z" then .ok (.arr 2) else memSymbols s)
    (.call "max" [.name "x", .name "y", .name "z"]) [[some (-3), some 2], [some 1, none], [some 9, some 8]] =
    .ok (.arr 2, [[some (-3), some 2], [some 1, none], [some 1, none]]) := by
  decide +kernel

/-- `abs(x, y)` overwrites `y`. -/
example : calcM memLib 2 memSymbols (.call "abs" [.name "x", .name "y"]) [[some (-3), some 2], [some 1, none]] =
    .ok (.arr 1, [[some (-3), some 2], [some 3, some 2]]) := by
  decide +kernel

end Verif
