import Verif.PropsMixedGroups

/-!
# Adding weighted and unweighted histograms without profiles

`C29_refuted_always` says what every sum of an unweighted and a weighted histogram without group axes and profiles
holds.  Here are all histograms without profiles, with any group axes.
-/

namespace Verif

/-- Contents of one and of two columns can be added; where both have a group the single column is added to both columns. -/
theorem addContent_counts (La Lb : Layout) (hdims : La.dims = Lb.dims) (h1 : La.ncols = 1) (h2 : Lb.ncols = 2) : ∀ (n : ℕ) (a b : Content Arr n),
    Distinct n a → Shaped La n a → Shaped Lb n b → ∃ c, addContent n a b = .ok c ∧
      ∀ gk : List Key, gk.length = n → HasGroup n a gk → HasGroup n b gk → ∀ (idx : List ℕ) (col : ℕ),
        lookup n c gk idx col = lookup n a gk idx 0 + lookup n b gk idx col
  | 0, (a : Arr), (b : Arr), _, ha, hb => by
    have e1 : a.shape = b.shape := by rw [ha.1, hb.1, hdims]
    have e2 : a.ncols ≠ b.ncols := by rw [ha.2, hb.2, h1, h2]; decide
    have e3 : a.ncols = 1 := by rw [ha.2, h1]
    refine ⟨(⟨a.shape, b.ncols, fun i c => a.get i 0 + b.get i c⟩ : Arr), ?_, fun gk _ _ _ idx col => rfl⟩
    simp only [addContent, Arr.add, if_pos e1, if_neg e2, if_pos e3]
    rfl
  | n + 1, (d : List (Key × Content Arr n)), (e : List (Key × Content Arr n)), hd, ha, hb => by
    have ih := addContent_counts La Lb hdims h1 h2 n
    let g : Content Arr n → Content Arr n → Content Arr n := fun x y =>
      match addContent n x y with
      | .ok c => c
      | .error _ => x
    have hg : ∀ p ∈ d, ∀ y, dget e p.1 = some y → addContent n p.2 y = .ok (g p.2 y) := by
      intro p hp y hy
      obtain ⟨c, hc1, _⟩ := ih p.2 y (hd.2 p hp) (shaped_mem hd ha p hp) (hb _ _ hy)
      simp only [g, hc1]
    refine ⟨mergeWith g d e, ?_, ?_⟩
    · simp only [addContent]
      rw [addLeft_ok (addContent n) g e d hg]
      rfl
    · intro gk hl hga hgb idx col
      cases gk with
      | nil => simp at hl
      | cons k gk =>
        obtain ⟨x, hx, hgx⟩ := hga
        obtain ⟨y, hy, hgy⟩ := hgb
        have hp := mem_of_dget d k x hx
        obtain ⟨c, hc1, hc2⟩ := ih x y (hd.2 _ hp) (ha k x hx) (hb k y hy)
        have hgc : g x y = c := by simp only [g, hc1]
        have hm : dget (mergeWith g d e) k = some c := by
          unfold mergeWith
          rw [dget_append, dget_map (mergeEntry g e), hx]
          simp [mergeEntry, hy, hgc]
        simp only [lookup, hm, hx, hy]
        exact hc2 gk (by simpa using hl) hgx hgy idx col

/-- C29 is violated by all histograms without profiles, with any group axes: an unweighted and a weighted one can be added, and in every group that
both have the *counts* of the former are added to the counts and to the squared weights of the latter. -/
theorem C29_refuted_counts (gs : List GroupAxis) (fixed : List FixedAxis) (wk : WKind) (hw : wk ≠ .none) (bs bs' : List (List Row))
    (hf : Fillable ⟨gs, fixed, 0, .none⟩ bs) (hf' : Fillable ⟨gs, fixed, 0, wk⟩ bs') (a b : Content Arr gs.length)
    (ha : HistDef.fillAll ⟨gs, fixed, 0, .none⟩ none bs = .ok (some a)) (hb : HistDef.fillAll ⟨gs, fixed, 0, wk⟩ none bs' = .ok (some b)) :
    ∃ c : Content Arr gs.length, addState (some a) (some b) = .ok (some c) ∧ ∀ gk : List Key, gk.length = gs.length →
      HasGroup gs.length a gk → HasGroup gs.length b gk → ∀ (idx : List ℕ), HistDef.Cell ⟨gs, fixed, 0, wk⟩ idx →
        lookup gs.length c gk idx 0 = binTotal ⟨gs, fixed, 0, .none⟩ bs.flatten gk idx 0 + binTotal ⟨gs, fixed, 0, wk⟩ bs'.flatten gk idx 0 ∧
        lookup gs.length c gk idx 1 = binTotal ⟨gs, fixed, 0, .none⟩ bs.flatten gk idx 0 + binTotal ⟨gs, fixed, 0, wk⟩ bs'.flatten gk idx 1 := by
  obtain ⟨s', s1, s2, _, s4⟩ := fillAll_rows ⟨gs, fixed, 0, .none⟩ bs none trivial hf
  obtain ⟨t', t1, t2, _, t4⟩ := fillAll_rows ⟨gs, fixed, 0, wk⟩ bs' none trivial hf'
  obtain rfl : s' = some a := by rw [ha] at s1; exact (Except.ok.inj s1).symm
  obtain rfl : t' = some b := by rw [hb] at t1; exact (Except.ok.inj t1).symm
  have n1 : (HistDef.layout ⟨gs, fixed, 0, .none⟩).ncols = 1 := by rw [ncols_eq]; simp
  have n2 : (HistDef.layout ⟨gs, fixed, 0, wk⟩).ncols = 2 := by rw [ncols_eq]; simp [hw]
  have hd : Distinct gs.length a := fillAll_wellFormed ⟨gs, fixed, 0, .none⟩ bs none (some a) trivial ha
  obtain ⟨c, c1, c2⟩ := addContent_counts (HistDef.layout ⟨gs, fixed, 0, .none⟩) (HistDef.layout ⟨gs, fixed, 0, wk⟩) rfl n1 n2 gs.length a b hd s2 t2
  refine ⟨c, by simp only [addState, c1]; rfl, fun gk hl hga hgb idx hi => ?_⟩
  have r1 : lookup gs.length a gk idx 0 = binTotal ⟨gs, fixed, 0, .none⟩ bs.flatten gk idx 0 := by
    have := s4 gk hl idx hi 0
    simpa [HistDef.read] using this
  have r2 : ∀ col, lookup gs.length b gk idx col = binTotal ⟨gs, fixed, 0, wk⟩ bs'.flatten gk idx col := by
    intro col
    have := t4 gk hl idx hi col
    simpa [HistDef.read] using this
  rw [c2 gk hl hga hgb idx 0, c2 gk hl hga hgb idx 1, r1, r2, r2]
  exact ⟨rfl, rfl⟩

/-- Two unweighted entries and one of weight 3 in the group "a": the sum says 5 and 2 + 9. -/
example : (match (⟨[.groupby], [], 0, .none⟩ : HistDef).fillAll none [[⟨[.key (.str "a")], [], [], none⟩, ⟨[.key (.str "a")], [], [], none⟩]],
      (⟨[.groupby], [], 0, .expr⟩ : HistDef).fillAll none [[⟨[.key (.str "a")], [], [], some 3⟩]] with
    | .ok a, .ok b =>
      match addState (n := 1) a b with
      | .ok (some c) => some (lookup 1 c [.str "a"] [] 0, lookup 1 c [.str "a"] [] 1)
      | _ => none
    | _, _ => none) = some (5, 11) := by decide +kernel

end Verif
