import Verif.CtorFill
import Verif.PropsParams

/-!
# Property theorems: filling in the constructor (C98)
-/

namespace Verif

variable {α V : Type}

/-- **C98** for one axis with nothing but a name as its quantity: the array is filled as the field of this name.  Missing for
the full statement: other quantities (`C98_refuted`). -/
theorem C98_name_partial (X : HistExprs) (s : String) (h : X.exprs = [E.name s]) (l : List α) :
    ∃ A : FillArgs α, ctorArgs X (.other l) = .ok (some A) ∧
      (∀ n, A.get n = if n = s then some (.array l) else none) ∧
      ∀ (c : Consts α) (goals : List Node), (∀ n, Uses goals n ↔ n = s) → Describes c A.get goals l.length := by
  have hg : ∀ n, (FillArgs.get (⟨some fun n => if (E.name s).toks = [XTok.name n] then some (.array l) else none, []⟩ :
      FillArgs α)) n = if n = s then some (.array l) else none := by
    intro n
    have : (E.name s).toks = [XTok.name n] ↔ n = s := by
      simp [E.toks, Head.toks, eq_comm]
    simp [FillArgs.get, this]
  refine ⟨_, by simp only [ctorArgs, h], hg, ?_⟩
  intro c goals hu
  refine ⟨?_, Or.inl ⟨s, l, (hu s).2 rfl, by rw [hg, if_pos rfl]⟩⟩
  intro n hn
  have := (hu n).1 hn
  subst this
  simp [fieldColumn, hg]

/-- A histogram with one axis, in the quantity `x`. -/
def ctorX : HistExprs where
  groups := []
  fixed := [(.intbin ⟨0, 3, true, true⟩, E.name "x")]
  profs := []
  weight := none

example : ctorX.exprs = [E.name "x"] := rfl

/-- **C98**: an array for several axes, or for none, is refused with a `TypeError`. -/
theorem C98_one_axis (X : HistExprs) (hn : X.groups.length + X.fixed.length + X.profs.length ≠ 1) (l : List α) :
    ctorArgs X (.other l) = .error .typeError := by
  have h : X.exprs.length ≠ 1 := by
    simpa [HistExprs.exprs, Nat.add_assoc] using hn
  unfold ctorArgs
  rcases hx : X.exprs with _ | ⟨x, _ | ⟨y, xs⟩⟩
  · rfl
  · rw [hx] at h; exact (h rfl).elim
  · rfl

/-- One axis and one profile are two. -/
example (l : List ℚ) : ctorArgs { ctorX with profs := [E.name "y"] } (.other l) = .error .typeError :=
  C98_one_axis _ (by decide) l

/-- Whatever is given as a dict is filled as with `fill`, and nothing is filled if nothing is given. -/
theorem C98_dict (X : HistExprs) (d : String → Option (Given α)) :
    ctorArgs X (.dict d) = .ok (some ⟨some d, []⟩) ∧ ctorArgs X (.none : CtorArg α) = .ok none := ⟨rfl, rfl⟩

/-- **C98** fails for all other quantities that depend on a field: the array is given under the text of the expression, which
is not the name of a field, and `fill` raises (a `ValueError`, if the functions themselves never raise). -/
theorem C98_refuted (X : HistExprs) (e : E) (h : X.exprs = [e]) (hne : ∀ n, e.toks ≠ [.name n]) (l : List α)
    {goals srcs : List Node} {ord : List Node → List Node} (ho : ∀ l, (ord l).Perm l) (hs : SourceOrder goals srcs)
    (lib : Lib V) (inj : List α → V) (c : Consts α) (s : String) (hu : Uses goals s) (hc : c.named s = none) :
    ∃ A : FillArgs α, ctorArgs X (.other l) = .ok (some A) ∧
      ∃ err, fillFields lib inj c A.get goals srcs ord = .error err ∧
        (Unmixed goals → NeverRaises lib goals → err = .valueError) := by
  refine ⟨⟨some fun n => if e.toks = [.name n] then some (.array l) else none, []⟩, by simp only [ctorArgs, h], ?_⟩
  refine C75_reported ho hs lib inj c _ (.missing s hu ?_ hc)
  simp [FillArgs.get, hne s]

/-- The same axis in the quantity `2*x`. -/
def ctorX2 : HistExprs where
  groups := []
  fixed := [(.intbin ⟨0, 3, true, true⟩, .node (.times 2) [E.name "x"] [])]
  profs := []
  weight := none

/-- The hypotheses of `C98_refuted` hold for it. -/
example : ctorX2.exprs = [.node (.times 2) [E.name "x"] []] ∧
    (∀ n, (E.node (.times 2) [E.name "x"] []).toks ≠ [.name n]) ∧
    (ctorX2.goals.map HistGoals.all).toOption = some
      [.call "histbook.intbinUO" [.call "numpy.multiply" [.name "x", .const (.num 2)], .const (.num 0), .const (.num 3)]] ∧
    Uses [.call "histbook.intbinUO" [.call "numpy.multiply" [.name "x", .const (.num 2)], .const (.num 0), .const (.num 3)]] "x" := by
  refine ⟨rfl, ?_, by decide +kernel, ?_⟩
  · intro n h
    have : (E.node (.times 2) [E.name "x"] []).toks = [.num 2, .op .mul, .name "x"] := by decide +kernel
    rw [this] at h
    simp at h
  · exact ⟨_, by simp; rfl, .name "x", by simp [T.subs, T.subsL], rfl⟩

end Verif
