import Verif.BookView
import Verif.BookArithLemmas

/-!
# Views of books: C85
-/

namespace Verif

variable {α : Type}

/-! ## specification -/

/-- A histogram under its path. -/
def histAt (p : List Str × BT α) : Option (List Str × α) :=
  match p.2 with
  | .hist h => some (p.1, h)
  | .book _ _ _ => none

/-- The histograms of a book with their paths, in order. -/
def BT.leaves (b : BT α) : List (List Str × α) := (b.all []).filterMap histAt

/-! ## lemmas -/

mutual
/-- The same, for an entry under a path. -/
def BT.leavesAt (path : List Str) : BT α → List (List Str × α)
  | .hist h => [(path, h)]
  | .book _ _ x => x.leavesAt path
def BL.leavesAt (path : List Str) : BL α → List (List Str × α)
  | .nil => []
  | .cons n x r => x.leavesAt (path ++ [n]) ++ r.leavesAt path
end

mutual
theorem leavesAt_BL (path : List Str) : ∀ x : BL α, (x.all path).filterMap histAt = x.leavesAt path
  | .nil => rfl
  | .cons n x r => by
    have h1 := leavesAt_BT (path ++ [n]) x
    have h2 := leavesAt_BL path r
    rw [BL.all, BL.leavesAt, ← h1, ← h2]
    cases x with
    | hist h => simp [histAt, BT.all]
    | book c f y =>
      rw [List.cons_append, List.filterMap_cons, show histAt (path ++ [n], BT.book c f y) = none from rfl]
      simp [BT.all]
theorem leavesAt_BT (path : List Str) : ∀ x : BT α,
    (match x with | .hist h => [(path, h)] | .book _ _ _ => []) ++ (x.all path).filterMap histAt = x.leavesAt path
  | .hist h => by simp [BT.all, BT.leavesAt]
  | .book c f y => by rw [BT.all, leavesAt_BL path y, BT.leavesAt]; simp
end

theorem leavesAt_items (path : List Str) : ∀ x : BL α,
    x.leavesAt path = x.items.flatMap fun p => p.2.leavesAt (path ++ [p.1])
  | .nil => rfl
  | .cons n x r => by rw [BL.leavesAt, BL.items, List.flatMap_cons, leavesAt_items path r]

/-- All books in it are `ViewBook`s that are ready to be filled and not empty. -/
def ViewLike (v : BT α) : Prop := ∀ p c f x, v.at p = some (.book c f x) → c = .view ∧ f = .none ∧ x ≠ .nil

theorem viewNode_spec {o : HistOps α} {items : List (Str × BT α)} (hs : ∀ p ∈ items, '/' ∉ p.1)
    (hn : (items.map (·.1)).Nodup) (hw : ∀ p ∈ items, p.2.WF) (hv : ∀ p ∈ items, ViewLike p.2) (hne : items ≠ []) :
    ∃ x, viewNode o items = .ok (some (.book .view .none x)) ∧ x.items = items ∧ (BT.book .view .none x).WF ∧
      ViewLike (.book .view .none x) := by
  cases items with
  | nil => exact absurd rfl hne
  | cons a r =>
    obtain ⟨b, hb⟩ := mkBook_isOk (o := o) (c := .view) (by decide) hs hn
    obtain ⟨f, x, rfl, hx⟩ := mkBook_items hs hn hb
    have hf : f = .none := by
      unfold mkBook at hb
      split at hb
      · rename_i b' _
        cases b' with
        | hist h => cases hb
        | book c g y =>
          cases c <;> simp only [BT.changed] at hb
          all_goals first
            | (cases hb; rfl)
            | (cases hb; done)
            | (split at hb <;> cases hb)
      · cases hb
    subst hf
    have hwf : (BT.book .view .none x).WF := by
      refine ⟨by rw [keys_items, hx]; exact hn, ?_⟩
      rw [wf_items, hx]
      exact fun p hp => ⟨hs p hp, hw p hp⟩
    refine ⟨x, by rw [viewNode, hb], hx, hwf, ?_⟩
    intro p c f y h
    cases p with
    | nil =>
      cases h
      refine ⟨rfl, rfl, ?_⟩
      rintro rfl
      cases hx
    | cons n p =>
      rw [BT.at] at h
      cases hfi : x.find n with
      | none => rw [hfi] at h; cases h
      | some z =>
        rw [hfi] at h
        have hz := (find_some_items hwf.1).1 hfi
        rw [hx] at hz
        exact hv _ hz p c f y h

section
variable (fnm : Str → Str → Bool) (o : HistOps α) (name : Str)

/-- Its path matches. -/
def hit (p : List Str × α) : Bool := fnm (joinS p.1) name

mutual
theorem viewRec_BT (path : List Str) : ∀ x : BT α, x.WF → ∃ r, x.viewRec fnm o name path = .ok r ∧
    (r = none → (x.leavesAt path).filter (hit fnm name) = []) ∧
    ∀ v, r = some v → v.WF ∧ ViewLike v ∧ v.leavesAt path = (x.leavesAt path).filter (hit fnm name) ∧
      v.leavesAt path ≠ [] ∧ (x.isBook → v.isBook)
  | .hist h, _ => by
    by_cases hc : fnm (joinS path) name = true
    · refine ⟨some (.hist h), by rw [BT.viewRec, if_pos hc], fun e => (by cases e), ?_⟩
      rintro v ⟨⟩
      refine ⟨trivial, ?_, ?_, by simp [BT.leavesAt], fun e => e⟩
      · intro p c f y hy
        cases p <;> cases hy
      · simp [BT.leavesAt, hit, hc]
    · refine ⟨none, by rw [BT.viewRec, if_neg hc], fun _ => by simp [BT.leavesAt, hit, hc], fun v e => (by cases e)⟩
  | .book c f x, hw => by
    obtain ⟨items, h1, h2, h3, h4, h5⟩ := viewRec_BL path x hw.2
    rw [BT.viewRec, h1]
    simp only
    by_cases hne : items = []
    · subst hne
      refine ⟨none, rfl, fun _ => ?_, fun v e => (by cases e)⟩
      rw [BT.leavesAt, ← h4]
      rfl
    · obtain ⟨y, k1, k2, k3, k4⟩ := viewNode_spec (o := o) (items := items)
        (fun p hp => ((wf_items x).1 hw.2 _ (h3 p hp).choose_spec).1) ((h2.nodup hw.1))
        (fun p hp => (h5 p hp).1) (fun p hp => (h5 p hp).2.1) hne
      refine ⟨_, k1, fun e => (by cases e), ?_⟩
      rintro v ⟨⟩
      have hl : (BT.book .view .none y).leavesAt path = (x.leavesAt path).filter (hit fnm name) := by
        rw [BT.leavesAt, leavesAt_items, k2, h4]
      refine ⟨k3, k4, hl, ?_, fun _ => trivial⟩
      rw [BT.leavesAt, leavesAt_items, k2]
      cases items with
      | nil => exact absurd rfl hne
      | cons a r =>
        rw [List.flatMap_cons]
        intro e
        exact (h5 a (by simp)).2.2 (List.append_eq_nil_iff.1 e).1
theorem viewRec_BL (path : List Str) : ∀ x : BL α, x.WF → ∃ items, x.viewRec fnm o name path = .ok items ∧
    (items.map (·.1)).Sublist x.keys ∧ (∀ p ∈ items, ∃ y, (p.1, y) ∈ x.items) ∧
    (items.flatMap fun p => p.2.leavesAt (path ++ [p.1])) = (x.leavesAt path).filter (hit fnm name) ∧
    ∀ p ∈ items, p.2.WF ∧ ViewLike p.2 ∧ p.2.leavesAt (path ++ [p.1]) ≠ []
  | .nil, _ => ⟨[], rfl, List.Sublist.slnil, fun _ h => (by cases h), rfl, fun _ h => (by cases h)⟩
  | .cons n x r, hw => by
    obtain ⟨d, a1, a2, a3⟩ := viewRec_BT (path ++ [n]) x hw.2.1
    obtain ⟨items, h1, h2, h3, h4, h5⟩ := viewRec_BL path r hw.2.2
    rw [BL.viewRec, a1]
    simp only
    rw [h1]
    cases d with
    | none =>
      refine ⟨items, rfl, h2.cons n, fun p hp => ?_, ?_, h5⟩
      · obtain ⟨y, hy⟩ := h3 p hp
        exact ⟨y, by rw [BL.items]; simp [hy]⟩
      · rw [BL.leavesAt, List.filter_append, a2 rfl, List.nil_append, h4]
    | some v =>
      obtain ⟨b1, b2, b3, b4, _⟩ := a3 v rfl
      refine ⟨(n, v) :: items, rfl, ?_, ?_, ?_, ?_⟩
      · rw [List.map_cons, BL.keys]; exact h2.cons₂ n
      · intro p hp
        rcases List.mem_cons.1 hp with rfl | hp
        · exact ⟨x, by simp [BL.items]⟩
        · obtain ⟨y, hy⟩ := h3 p hp
          exact ⟨y, by rw [BL.items]; simp [hy]⟩
      · rw [List.flatMap_cons, BL.leavesAt, List.filter_append, h4, b3]
      · intro p hp
        rcases List.mem_cons.1 hp with rfl | hp
        · exact ⟨b1, b2, b4⟩
        · exact h5 p hp
end
end

theorem leaves_eq (c : BClass) (f : Fields α) (x : BL α) : (BT.book c f x).leaves = (BT.book c f x).leavesAt [] := by
  rw [BT.leaves, BT.all, leavesAt_BL, BT.leavesAt]

theorem mem_leaves {b : BT α} (hb : b.isBook) (hw : b.WF) (p : List Str) (h : α) : (p, h) ∈ b.leaves ↔ b.at p = some (.hist h) := by
  rw [BT.leaves, List.mem_filterMap]
  constructor
  · rintro ⟨⟨q, x⟩, hq, he⟩
    obtain ⟨t, ht, rfl, ha⟩ := (mem_all_BT b [] q x hw).1 hq
    unfold histAt at he
    cases x with
    | hist k => cases he; exact ha
    | book c f x => cases he
  · intro ha
    refine ⟨(p, .hist h), (mem_all_BT b [] p _ hw).2 ⟨p, ?_, rfl, ha⟩, rfl⟩
    rintro rfl
    cases ha
    exact hb

/-! ## the properties -/

/-- **C85**: a view has exactly the histograms whose paths match, the same ones in the same order under the same paths; if
there are none, `ValueError` is raised; all books in it are `ViewBook`s with entries. -/
theorem C85_view (fnm : Str → Str → Bool) (o : HistOps α) {b : BT α} (hb : b.isBook) (hw : b.WF) (name : Str) :
    ((b.leaves.filter fun p => fnm (joinS p.1) name) = [] → b.viewOf fnm o name = .error .valueError) ∧
    ((b.leaves.filter fun p => fnm (joinS p.1) name) ≠ [] → ∃ x, b.viewOf fnm o name = .ok (.book .view .none x) ∧
      (BT.book .view .none x).leaves = b.leaves.filter (fun p => fnm (joinS p.1) name) ∧
      (∀ p h, (BT.book .view .none x).at p = some (.hist h) ↔ b.at p = some (.hist h) ∧ fnm (joinS p) name = true) ∧
      (∀ p c f y, (BT.book .view .none x).at p = some (.book c f y) → c = .view ∧ f = .none ∧ y ≠ .nil) ∧
      (BT.book .view .none x).WF) := by
  cases b with
  | hist h => cases hb
  | book c f z =>
    obtain ⟨r, h1, h2, h3⟩ := viewRec_BT fnm o name [] (.book c f z) hw
    have hl := leaves_eq c f z
    have hh : (fun p : List Str × α => fnm (joinS p.1) name) = hit fnm name := rfl
    rw [hl, hh]
    cases r with
    | none =>
      refine ⟨fun _ => by rw [BT.viewOf, h1], fun hne => absurd (h2 rfl) hne⟩
    | some v =>
      obtain ⟨k1, k2, k3, k4, k5⟩ := h3 v rfl
      refine ⟨fun e => absurd (k3.trans e) k4, fun _ => ?_⟩
      cases v with
      | hist h => exact absurd (k5 trivial) id
      | book c' f' x =>
        obtain ⟨rfl, rfl, _⟩ := k2 [] c' f' x rfl
        have hlv : (BT.book .view .none x).leaves = ((BT.book c f z).leavesAt []).filter (hit fnm name) := by
          rw [leaves_eq, k3]
        refine ⟨x, by rw [BT.viewOf, h1], hlv, fun p h => ?_, fun p => k2 p, k1⟩
        rw [← mem_leaves (b := .book .view .none x) trivial k1, hlv, ← hl, List.mem_filter, mem_leaves (b := .book c f z) trivial hw]
        rfl

/-- **C85**, filling: the histograms that `fill` of a view takes are exactly those of the book whose paths match, each as often
as in the book. -/
theorem C85_fills (fnm : Str → Str → Bool) (o : HistOps α) {c : BClass} {f : Fields α} {z x : BL α}
    (hw : (BT.book c f z).WF) (name : Str) {c' : BClass} {f' : Fields α}
    (h : (BT.book c f z).viewOf fnm o name = .ok (.book c' f' x)) :
    x.hists = ((BT.book c f z).leaves.filter fun p => fnm (joinS p.1) name).map (·.2) ∧ x.hists.Sublist z.hists := by
  have hh : ∀ y : BL α, y.hists = ((BT.book c f y).leaves).map (·.2) := by
    intro y
    rw [BT.leaves, BL.hists, BT.all, List.map_filterMap]
    congr 1
    funext p
    unfold histAt
    cases p.2 <;> rfl
  obtain ⟨h1, h2⟩ := C85_view fnm o (b := .book c f z) trivial hw name
  by_cases hne : ((BT.book c f z).leaves.filter fun p => fnm (joinS p.1) name) = []
  · rw [h1 hne] at h; cases h
  · obtain ⟨x', e1, e2, _⟩ := h2 hne
    rw [h] at e1
    cases e1
    have hx : x.hists = ((BT.book c f z).leaves.filter fun p => fnm (joinS p.1) name).map (·.2) := by
      rw [hh x, ← e2]; rfl
    refine ⟨hx, ?_⟩
    rw [hx, hh z]
    exact List.filter_sublist.map _

/-- Matching only the path itself, and everything. -/
def exFnm (path name : Str) : Bool := decide (name = "*".toList) || decide (path = name)

/-- Two samples with a histogram each, and a directory. -/
def exView : BT ℕ := .book .samples .absent (.cons "a".toList (.book .book .none (.cons "h".toList (.hist 0)
    (.cons "d".toList (.book .book .none (.cons "k".toList (.hist 1) .nil)) .nil)))
  (.cons "b".toList (.book .book .none (.cons "h".toList (.hist 2) .nil)) .nil))

/-- Books that can be viewed, with all, one and no histogram in the view. -/
example : exView.isBook ∧ exView.WF ∧
    (exView.viewOf exFnm ⟨fun _ _ => true, fun _ => false⟩ "*".toList).toOption.map BT.leaves =
      some [(["a".toList, "h".toList], 0), (["a".toList, "d".toList, "k".toList], 1), (["b".toList, "h".toList], 2)] ∧
    (exView.viewOf exFnm ⟨fun _ _ => true, fun _ => false⟩ "a/d/k".toList).toOption.map BT.leaves =
      some [(["a".toList, "d".toList, "k".toList], 1)] ∧
    (match exView.viewOf exFnm ⟨fun _ _ => true, fun _ => false⟩ "c".toList with
      | .ok _ => none
      | .error e => some e) = some .valueError := by
  refine ⟨trivial, ?_, by decide +kernel, by decide +kernel, by decide +kernel⟩
  simp [exView, BT.WF, BL.WF, BL.keys]

end Verif
