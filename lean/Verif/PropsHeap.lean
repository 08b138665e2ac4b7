import Verif.WorldLemmas
import Verif.PropsArith

/-!
# Properties of programs with several histograms: which histograms an operation changes

C23, C24, C27, C28.  The specification is a program in which histograms are *values*: every operation
changes the value of one variable, or makes a new variable, and nothing else.
-/

namespace Verif

/-! ## specification -/

/-- An operation on values. -/
def valueStep (H : HistDef) (vals : List H.State) : Op → List H.State × Option Err
  | .fill i rows | .bookFill i rows =>
    match vals[i]? with
    | some s => (vals.set i (H.fill s rows).after, (H.fill s rows).exn)
    | none => (vals, some .keyError)
  | .add i j =>
    match vals[i]?, vals[j]? with
    | some s, some t =>
      match addState s t with
      | .ok u => (vals ++ [u], none)
      | .error e => (vals, some e)
    | _, _ => (vals, some .keyError)
  | .iadd i j =>
    match vals[i]?, vals[j]? with
    | some s, some t => (vals.set i (iaddState s t : Res H.State).after, (iaddState s t : Res H.State).exn)
    | _, _ => (vals, some .keyError)
  | .mul i k =>
    match vals[i]? with
    | some s =>
      match mulState k s with
      | .ok u => (vals ++ [u], none)
      | .error e => (vals, some e)
    | none => (vals, some .keyError)
  | .imul i k =>
    match vals[i]? with
    | some s => (vals.set i (imulState k s : Res H.State).after, (imulState k s : Res H.State).exn)
    | none => (vals, some .keyError)
  | .copy i | .copyonfill i =>
    match vals[i]? with
    | some s => (vals ++ [s], none)
    | none => (vals, some .keyError)
  | .clear i =>
    match vals[i]? with
    | some _ => (vals.set i none, none)
    | none => (vals, some .keyError)
  | .cleared i =>
    match vals[i]? with
    | some _ => (vals ++ [none], none)
    | none => (vals, some .keyError)
  | .read i =>
    match vals[i]? with
    | some s => (vals.set i (some (prefill H.layout s)), none)
    | none => (vals, some .keyError)

def valueRun (H : HistDef) : List H.State → List Op → List H.State
  | vals, [] => vals
  | vals, op :: ops => valueRun H (valueStep H vals op).1 ops

/-- The variable whose histogram the operation is meant to change. -/
def Op.writes : Op → Option ℕ
  | .fill i _ | .bookFill i _ | .iadd i _ | .imul i _ | .clear i | .read i => some i
  | .add _ _ | .mul _ _ | .copy _ | .copyonfill _ | .cleared _ => none

/-- The variables of which the new histogram may share objects, in a histogram definition with
(`grouped`) or without group axes. -/
def Op.shares (grouped : Bool) : Op → List ℕ
  | .add i j => if grouped then [i, j] else []
  | .copyonfill i => [i]
  | _ => []

/-- The histograms in `w` look like the values. -/
def World.Shows (H : HistDef) (w : World) (vals : List H.State) : Prop :=
  w.vars.length = vals.length ∧ ∀ i, w.view H i = vals[i]?

/-- `n` new histograms. -/
def World.start (n : ℕ) : World := ⟨⟨0, fun _ => none⟩, List.replicate n ⟨none, false⟩⟩

/-- Sharing operations share with owners only. -/
def Respects (H : HistDef) (own : ℕ → Set ℕ) (n : ℕ) (op : Op) : Prop :=
  ∀ i ∈ op.shares (!H.groups.isEmpty), i < n → own i ⊆ own n

/-! ## one operation -/

theorem shows_view (H : HistDef) (w : World) (own : ℕ → Set ℕ) (hw : w.Sep H own) : ∃ vals, w.Shows H vals := by
  refine ⟨(List.range w.vars.length).map (fun i => (w.view H i).getD none), by simp, ?_⟩
  intro i
  by_cases hi : i < w.vars.length
  · obtain ⟨m, ok, hv⟩ := hw
    have hvi : w.vars[i]? = some w.vars[i] := List.getElem?_eq_getElem hi
    obtain ⟨s, hs, _⟩ := HObj.state_distinct ok w.vars[i] (own i) (fun a ha => hv i _ a hvi ha)
    have : w.view H i = some s := by unfold World.view; rw [hvi]; exact hs
    rw [this]
    simp [hi, this]
  · unfold World.view
    rw [List.getElem?_eq_none (by omega), List.getElem?_eq_none (by simp; omega)]
    rfl

theorem view_none {H : HistDef} {w : World} {i : ℕ} (h : w.vars.length ≤ i) : w.view H i = none := by
  unfold World.view
  rw [List.getElem?_eq_none h]
  rfl

theorem view_distinct {H : HistDef} {own : ℕ → Set ℕ} {w : World} (hw : w.Sep H own) {i : ℕ} {s : H.State}
    (h : w.view H i = some s) : H.DistinctKeys s := by
  by_cases hi : i < w.vars.length
  · obtain ⟨m, ok, hv⟩ := hw
    have hvi : w.vars[i]? = some w.vars[i] := List.getElem?_eq_getElem hi
    obtain ⟨s', hs, hd⟩ := HObj.state_distinct ok w.vars[i] (own i) (fun a ha => hv i _ a hvi ha)
    have : w.view H i = some s' := by unfold World.view; rw [hvi]; exact hs
    rw [h] at this
    cases this
    exact hd
  · rw [view_none (by omega)] at h
    cases h

/-- What has to be shown for one operation. -/
def StepOk (H : HistDef) (own : ℕ → Set ℕ) (op : Op) (r : World × Option Err) (e : List H.State × Option Err) : Prop :=
  r.1.Sep H own ∧ r.1.vars.length = e.1.length ∧ r.2 = e.2 ∧
    ∀ k, (∀ i, op.writes = some i → k ≠ i → Disjoint (own k) (own i)) → r.1.view H k = e.1[k]?

theorem stepOk_same {H : HistDef} {own : ℕ → Set ℕ} {w : World} {vals : List H.State} (hw : w.Sep H own) (hs : w.Shows H vals)
    (op : Op) (x : Option Err) : StepOk H own op (w, x) (vals, x) :=
  ⟨hw, hs.1, rfl, fun k _ => hs.2 k⟩

theorem stepOk_inplace {H : HistDef} {own : ℕ → Set ℕ} {w : World} {vals : List H.State} (hw : w.Sep H own) (hs : w.Shows H vals)
    (ho : ∀ i, (own i).Nonempty) (op : Op) (i : ℕ) (hop : op.writes = some i) (f : H.State → Res H.State)
    (hf : ∀ s, H.DistinctKeys s → H.DistinctKeys (f s).after) (s : H.State) (hi : vals[i]? = some s) :
    StepOk H own op (w.inplace H i f) (vals.set i (f s).after, (f s).exn) := by
  have hil : i < w.vars.length := by rw [hs.1]; exact (List.getElem?_eq_some_iff.1 hi).1
  obtain ⟨h1, h2, h3, s', h4, h5, h6⟩ := inplace_spec hw i f hf hil (ho i)
  have : s' = s := by
    have := hs.2 i
    rw [h4, hi] at this
    exact Option.some.inj this
  subst this
  refine ⟨h1, by simp [h2, hs.1], h6, ?_⟩
  intro k hk
  by_cases hki : k = i
  · subst hki
    simp only
    rw [h5, List.getElem?_set_self (by rw [← hs.1]; exact hil)]
  · rw [h3 k hki (hk i hop hki), hs.2 k]
    simp only
    rw [List.getElem?_set_ne (fun h => hki h.symm)]

theorem stepOk_new {H : HistDef} {own : ℕ → Set ℕ} {w w' : World} {vals : List H.State} (hs : w.Shows H vals)
    (op : Op) (s : H.State) (h1 : w'.Sep H own) (h2 : w'.vars.length = w.vars.length + 1)
    (h3 : ∀ k, k < w.vars.length → w'.view H k = w.view H k) (h4 : w'.view H w.vars.length = some s) :
    StepOk H own op (w', none) (vals ++ [s], none) := by
  refine ⟨h1, by simp [h2, hs.1], rfl, ?_⟩
  intro k _
  simp only
  rcases Nat.lt_trichotomy k w.vars.length with hk | hk | hk
  · rw [h3 k hk, hs.2 k, List.getElem?_append_left (by rw [← hs.1]; exact hk)]
  · subst hk
    rw [h4, hs.1]
    simp
  · rw [view_none (by omega), List.getElem?_eq_none (by simp [← hs.1]; omega)]

theorem stepOk_add {H : HistDef} {own : ℕ → Set ℕ} {w : World} {vals : List H.State} (hw : w.Sep H own) (hs : w.Shows H vals)
    (ho : ∀ i, (own i).Nonempty) (i j : ℕ) (hr : Respects H own w.vars.length (.add i j)) :
    StepOk H own (.add i j) (w.add H i j) (valueStep H vals (.add i j)) := by
  by_cases hi : i < w.vars.length
  · by_cases hj : j < w.vars.length
    · obtain ⟨m, ok, hv⟩ := hw
      have hvi : w.vars[i]? = some w.vars[i] := List.getElem?_eq_getElem hi
      have hvj : w.vars[j]? = some w.vars[j] := List.getElem?_eq_getElem hj
      obtain ⟨s, hsi, hsd⟩ := HObj.state_distinct ok w.vars[i] (own i) (fun a ha => hv i _ a hvi ha)
      obtain ⟨t, htj, htd⟩ := HObj.state_distinct ok w.vars[j] (own j) (fun a ha => hv j _ a hvj ha)
      have hvs : vals[i]? = some s := by rw [← hs.2 i]; unfold World.view; rw [hvi]; exact hsi
      have hvt : vals[j]? = some t := by rw [← hs.2 j]; unfold World.view; rw [hvj]; exact htj
      simp only [World.add, valueStep, hvi, hvj, hvs, hvt]
      cases hci : w.vars[i].content with
      | none =>
        have hs0 : s = none := by
          unfold HObj.state at hsi; rw [hci] at hsi; cases hsi; rfl
        subst hs0
        cases hcj : w.vars[j].content with
        | none =>
          have ht0 : t = none := by
            unfold HObj.state at htj; rw [hcj] at htj; cases htj; rfl
          subst ht0
          simp only [addState]
          rw [hsi]
          obtain ⟨n1, n2, n3, n4, n5⟩ := newVar_spec (H := H) ⟨m, ok, hv⟩ (ho _) w.vars[i] none trivial
          have := stepOk_new hs (.add i j) none n1 n2 n3 n4
          rw [← n5] at this
          exact this
        | some b =>
          simp only
          rw [htj]
          obtain ⟨n1, n2, n3, n4, n5⟩ := newVar_spec (H := H) ⟨m, ok, hv⟩ (ho _) w.vars[i] t htd
          have := stepOk_new hs (.add i j) t n1 n2 n3 n4
          rw [← n5] at this
          cases t with
          | none => exact this
          | some t => exact this
      | some a =>
        obtain ⟨ha1, ha2⟩ := hv i _ a hvi hci
        cases hcj : w.vars[j].content with
        | none =>
          have ht0 : t = none := by
            unfold HObj.state at htj; rw [hcj] at htj; cases htj; rfl
          subst ht0
          simp only
          rw [hsi]
          obtain ⟨n1, n2, n3, n4, n5⟩ := newVar_spec (H := H) ⟨m, ok, hv⟩ (ho _) w.vars[i] s hsd
          have := stepOk_new hs (.add i j) s n1 n2 n3 n4
          rw [← n5] at this
          cases s with
          | none => exact this
          | some s => exact this
        | some b =>
          obtain ⟨hb1, hb2⟩ := hv j _ b hvj hcj
          unfold HObj.state at hsi htj
          rw [hci] at hsi
          rw [hcj] at htj
          simp only [Option.map_eq_some_iff] at hsi htj
          obtain ⟨x, hx, rfl⟩ := hsi
          obtain ⟨y, hy, rfl⟩ := htj
          have hadd : (∃ e, addHeap H.groups.length w.heap a b = .error e ∧ addContent H.groups.length x y = .error e) ∨
              ∃ h' c z m', addHeap H.groups.length w.heap a b = .ok (h', c) ∧ addContent H.groups.length x y = .ok z ∧
                Grows H.groups.length (fun _ => False) m w.heap m' h' ∧
                c < h'.next ∧ ((m' c).1 = [] ∧ (m' c).2 ⊆ own w.vars.length) ∧ deref h' H.groups.length c = some z := by
            by_cases hg : H.groups = []
            · have hlen : H.groups.length = 0 := by rw [hg]; rfl
              have key : ∀ n (x y : Content Arr n), n = 0 → HeapOk n m w.heap → deref w.heap n a = some x → deref w.heap n b = some y →
                  (∃ e, addHeap n w.heap a b = .error e ∧ addContent n x y = .error e) ∨
                  ∃ h' c z m', addHeap n w.heap a b = .ok (h', c) ∧ addContent n x y = .ok z ∧
                    Grows n (fun _ => False) m w.heap m' h' ∧
                    c < h'.next ∧ ((m' c).1 = [] ∧ (m' c).2 ⊆ own w.vars.length) ∧ deref h' n c = some z := by
                intro n x y hn ok hx hy
                subst hn
                rcases addHeap_zero (own w.vars.length) (ho _) m w.heap a b [] x y ok rfl hx hy with
                  h | ⟨h', c, z, m', e1, e2, g, c1, c2, c3⟩
                · exact Or.inl h
                · exact Or.inr ⟨h', c, z, m', e1, e2, g, c1, by rw [c2]; exact ⟨rfl, subset_rfl⟩, c3⟩
              exact key _ x y hlen ok hx hy
            · have hsh := hr
              unfold Respects Op.shares at hsh
              have hge : H.groups.isEmpty = false := by
                cases hh : H.groups with
                | nil => exact absurd hh hg
                | cons _ _ => rfl
              rw [hge] at hsh
              simp only [Bool.not_false, if_true, List.mem_cons, List.not_mem_nil, or_false, forall_eq_or_imp, forall_eq] at hsh
              have hsh := (⟨hsh.1 hi, hsh.2 hj⟩ : own i ⊆ own w.vars.length ∧ own j ⊆ own w.vars.length)
              rcases addHeap_spec (own w.vars.length) (ho _) _ m w.heap a b [] x y ok (by simp) ha1 hb1 ha2.1 hb2.1
                (ha2.2.trans hsh.1) (hb2.2.trans hsh.2) hx hy with h | ⟨h', c, z, m', e1, e2, g, c1, c2, c3⟩
              · exact Or.inl h
              · exact Or.inr ⟨h', c, z, m', e1, e2, g, c1, by rw [c2]; exact ⟨rfl, subset_rfl⟩, c3⟩
          rcases hadd with ⟨e, e1, e2⟩ | ⟨h', c, z, m', e1, e2, g, c1, c2, c3⟩
          · simp only [e1, addState, e2, Except.map]
            exact stepOk_same ⟨m, ok, hv⟩ hs _ _
          · simp only [e1, addState, e2, Except.map]
            obtain ⟨r1, r2, r3⟩ := append_spec ok hv g { w.vars[i] with content := some c } (fun a' ha' => by
              simp only [Option.some.injEq] at ha'
              subst ha'
              exact ⟨c1, c2⟩)
            apply stepOk_new hs (.add i j) (some z) r1 (by simp) r2
            rw [r3]
            unfold HObj.state
            simp only
            rw [c3]; rfl
    · have : w.vars[j]? = none := List.getElem?_eq_none (by omega)
      have h2 : vals[j]? = none := List.getElem?_eq_none (by rw [← hs.1]; omega)
      simp only [World.add, valueStep, this, h2]
      cases w.vars[i]? <;> cases vals[i]? <;> exact stepOk_same hw hs _ _
  · have : w.vars[i]? = none := List.getElem?_eq_none (by omega)
    have h2 : vals[i]? = none := List.getElem?_eq_none (by rw [← hs.1]; omega)
    simp only [World.add, valueStep, this, h2]
    exact stepOk_same hw hs _ _

/-- One operation does with the histograms what it does with values, except possibly with histograms
that share objects with the changed one. -/
theorem step_value (H : HistDef) (own : ℕ → Set ℕ) (w : World) (vals : List H.State) (hw : w.Sep H own) (hs : w.Shows H vals)
    (ho : ∀ i, (own i).Nonempty) (op : Op) (hr : Respects H own w.vars.length op) :
    StepOk H own op (w.step H op) (valueStep H vals op) := by
  have hnone : ∀ i, vals[i]? = none → w.vars[i]? = none ∧ w.view H i = none := by
    intro i hi
    refine ⟨List.getElem?_eq_none (by rw [hs.1]; exact List.getElem?_eq_none_iff.1 hi), by rw [hs.2 i, hi]⟩
  have hsome : ∀ i s, vals[i]? = some s → (∃ v, w.vars[i]? = some v ∧ v.state H w.heap = some s) ∧ w.view H i = some s ∧
      H.DistinctKeys s := by
    intro i s hi
    have h1 : w.view H i = some s := by rw [hs.2 i, hi]
    refine ⟨?_, h1, view_distinct hw h1⟩
    unfold World.view at h1
    exact Option.bind_eq_some_iff.1 h1
  cases op with
  | fill i rows =>
    simp only [World.step, valueStep]
    obtain ⟨u1, u2, u3, _⟩ := uncopy_spec hw i (ho i)
    have hs' : (w.uncopy H i).Shows H vals := ⟨by rw [u2, hs.1], fun k => by rw [u3 k, hs.2 k]⟩
    cases hi : vals[i]? with
    | none =>
      have := (hnone i hi).1
      have h2 : (w.uncopy H i) = w := by unfold World.uncopy; rw [this]
      rw [h2]
      unfold World.inplace
      rw [this]
      exact stepOk_same hw hs _ _
    | some s =>
      exact stepOk_inplace u1 hs' ho _ i rfl _ (fun s hs => fill_distinct H s rows hs) s hi
  | bookFill i rows =>
    simp only [World.step, valueStep]
    cases hi : vals[i]? with
    | none =>
      unfold World.inplace
      rw [(hnone i hi).1]
      exact stepOk_same hw hs _ _
    | some s =>
      exact stepOk_inplace hw hs ho _ i rfl _ (fun s hs => fill_distinct H s rows hs) s hi
  | add i j =>
    simp only [World.step]
    exact stepOk_add hw hs ho i j hr
  | iadd i j =>
    simp only [World.step, valueStep]
    cases hj : vals[j]? with
    | none =>
      rw [(hnone j hj).2]
      cases vals[i]? <;> exact stepOk_same hw hs _ _
    | some t =>
      obtain ⟨_, hvj, htd⟩ := hsome j t hj
      rw [hvj]
      cases hi : vals[i]? with
      | none =>
        simp only
        unfold World.inplace
        rw [(hnone i hi).1]
        exact stepOk_same hw hs _ _
      | some s =>
        exact stepOk_inplace hw hs ho _ i rfl _ (fun s hs => iadd_distinct H s t hs htd) s hi
  | mul i k =>
    simp only [World.step, valueStep]
    cases hi : vals[i]? with
    | none =>
      rw [(hnone i hi).1]
      exact stepOk_same hw hs _ _
    | some s =>
      obtain ⟨⟨v, hv, _⟩, hvi, hsd⟩ := hsome i s hi
      rw [hv, hvi]
      cases s with
      | none =>
        simp only [mulState]
        exact stepOk_same hw hs _ _
      | some c =>
        simp only [mulState]
        obtain ⟨n1, n2, n3, n4, n5⟩ := newVar_spec (H := H) hw (ho _) v (some (mulContent k _ c)) (mul_distinctKeys H k c hsd)
        have := stepOk_new hs (.mul i k) _ n1 n2 n3 n4
        rw [← n5] at this
        exact this
  | imul i k =>
    simp only [World.step, valueStep]
    cases hi : vals[i]? with
    | none =>
      unfold World.inplace
      rw [(hnone i hi).1]
      exact stepOk_same hw hs _ _
    | some s =>
      refine stepOk_inplace hw hs ho _ i rfl _ (fun s hs => ?_) s hi
      cases s with
      | none => exact hs
      | some c => exact mul_distinctKeys H k c hs
  | copy i =>
    simp only [World.step, valueStep]
    cases hi : vals[i]? with
    | none =>
      rw [(hnone i hi).2]
      exact stepOk_same hw hs _ _
    | some s =>
      obtain ⟨_, hvi, hsd⟩ := hsome i s hi
      rw [hvi]
      obtain ⟨n1, n2, n3, n4, n5⟩ := newVar_spec (H := H) hw (ho _) ⟨none, false⟩ s hsd
      have := stepOk_new hs (.copy i) _ n1 n2 n3 n4
      rw [← n5] at this
      exact this
  | copyonfill i =>
    simp only [World.step, valueStep]
    cases hi : vals[i]? with
    | none =>
      rw [(hnone i hi).1]
      exact stepOk_same hw hs _ _
    | some s =>
      obtain ⟨⟨v, hv, hvs⟩, hvi, hsd⟩ := hsome i s hi
      rw [hv]
      obtain ⟨m, ok, hvv⟩ := hw
      have hown : own i ⊆ own w.vars.length := hr i (by simp [Op.shares]) (List.getElem?_eq_some_iff.1 hv).1
      obtain ⟨r1, r2, r3⟩ := append_spec ok hvv (Grows.refl ok) ⟨v.content, true⟩ (fun a ha => by
        obtain ⟨h1, h2, h3⟩ := hvv i v a hv ha
        exact ⟨h1, h2, h3.trans hown⟩)
      apply stepOk_new hs (.copyonfill i) s r1 (by simp) r2
      rw [r3]
      exact hvs
  | clear i =>
    simp only [World.step, valueStep]
    cases hi : vals[i]? with
    | none =>
      rw [(hnone i hi).1]
      exact stepOk_same hw hs _ _
    | some s =>
      obtain ⟨⟨v, hv, hvs⟩, hvi, hsd⟩ := hsome i s hi
      rw [hv]
      obtain ⟨m, ok, hvv⟩ := hw
      obtain ⟨r1, r2, r3⟩ := replace_spec ok hvv i (Grows.refl ok) { v with content := none } (fun a ha => by cases ha)
      refine ⟨r1, by simp [hs.1], rfl, ?_⟩
      intro k hk
      have hil : i < w.vars.length := (List.getElem?_eq_some_iff.1 hv).1
      by_cases hki : k = i
      · subst hki
        simp only
        rw [r3 hil, List.getElem?_set_self (by rw [← hs.1]; exact hil)]
        rfl
      · simp only
        rw [r2 k hki (hk i rfl hki), hs.2 k, List.getElem?_set_ne (fun h => hki h.symm)]
  | cleared i =>
    simp only [World.step, valueStep]
    cases hi : vals[i]? with
    | none =>
      rw [(hnone i hi).1]
      exact stepOk_same hw hs _ _
    | some s =>
      obtain ⟨⟨v, hv, hvs⟩, hvi, hsd⟩ := hsome i s hi
      rw [hv]
      obtain ⟨m, ok, hvv⟩ := hw
      obtain ⟨r1, r2, r3⟩ := append_spec ok hvv (Grows.refl ok) ⟨none, false⟩ (fun a ha => by cases ha)
      exact stepOk_new hs (.cleared i) none r1 (by simp) r2 (by rw [r3]; rfl)
  | read i =>
    simp only [World.step, valueStep]
    cases hi : vals[i]? with
    | none =>
      rw [(hnone i hi).1]
      exact stepOk_same hw hs _ _
    | some s =>
      obtain ⟨⟨v, hv, hvs⟩, hvi, hsd⟩ := hsome i s hi
      rw [hv]
      obtain ⟨c, cof⟩ := v
      cases c with
      | none =>
        simp only
        have hs0 : s = none := by unfold HObj.state at hvs; cases hvs; rfl
        subst hs0
        exact stepOk_inplace hw hs ho (.read i) i rfl (fun s => .ok (some (prefill H.layout s)))
          (fun s hs => by
            cases s with
            | none => exact distinct_empty _ _
            | some c => exact hs) none hi
      | some a =>
        simp only
        have hs1 : ∃ c, s = some c := by
          unfold HObj.state at hvs
          simp only [Option.map_eq_some_iff] at hvs
          obtain ⟨c, _, h⟩ := hvs
          exact ⟨c, h.symm⟩
        obtain ⟨c, rfl⟩ := hs1
        have : vals.set i (some c) = vals := by
          apply List.ext_getElem?
          intro k
          by_cases hki : i = k
          · subst hki
            rw [List.getElem?_set_self (List.getElem?_eq_some_iff.1 hi).1, hi]
          · rw [List.getElem?_set_ne hki]
        show StepOk H own (.read i) (w, none) (vals.set i (some c), none)
        rw [this]
        exact stepOk_same hw hs _ _

/-! ## programs -/

/-- `t` is a new owner. -/
structure World.Owned (H : HistDef) (own : ℕ → Set ℕ) (t : ℕ) (w : World) : Prop where
  sep : w.Sep H own
  nonempty : ∀ i, (own i).Nonempty
  lt : ∀ i, i < w.vars.length → ∀ x ∈ own i, x < t

/-- The owners of the objects of a histogram that the operation may make, as variable `n`: a new one,
and those of the histograms it shares objects with. -/
def newOwner (H : HistDef) (own : ℕ → Set ℕ) (n t : ℕ) (op : Op) : Set ℕ :=
  {x | x = t ∨ ∃ i ∈ op.shares (!H.groups.isEmpty), i < n ∧ x ∈ own i}

theorem owned_start (H : HistDef) (n : ℕ) : (World.start n).Owned H (fun i => {i}) n := by
  refine ⟨⟨fun _ => ([], {0}), ⟨fun _ _ => rfl, fun a ha => ?_, fun a x h => ?_, fun a d h => ?_, fun a ha => ?_⟩, ?_⟩,
    fun i => ⟨i, rfl⟩, ?_⟩
  · exact absurd ha (by simp [World.start])
  · cases h
  · cases h
  · exact absurd ha (by simp [World.start])
  · intro i v a hi ha
    simp only [World.start, List.getElem?_replicate] at hi
    split at hi
    · cases hi; cases ha
    · cases hi
  · intro i hi x hx
    simp only [World.start, List.length_replicate] at hi
    rw [Set.mem_singleton_iff] at hx
    omega

theorem valueStep_length (H : HistDef) (vals : List H.State) (op : Op) :
    (valueStep H vals op).1.length = vals.length ∨ (valueStep H vals op).1.length = vals.length + 1 := by
  unfold valueStep
  split <;> repeat (first | split | simp)

theorem valueStep_other (H : HistDef) (vals : List H.State) (op : Op) (k : ℕ) (hk : k < vals.length)
    (hw : op.writes ≠ some k) : (valueStep H vals op).1[k]? = vals[k]? := by
  have h1 : ∀ s : H.State, (vals ++ [s])[k]? = vals[k]? := fun s => List.getElem?_append_left hk
  have h2 : ∀ (i : ℕ) (s : H.State), op.writes = some i → (vals.set i s)[k]? = vals[k]? := by
    intro i s hi
    exact List.getElem?_set_ne (fun h => hw (by rw [hi, h]))
  unfold valueStep
  split <;> repeat (first | split | rfl | exact h1 _ | exact h2 _ _ rfl)

theorem owned_step (H : HistDef) (own : ℕ → Set ℕ) (t : ℕ) (w : World) (hw : w.Owned H own t) (op : Op) :
    ∃ own', (w.step H op).1.Owned H own' (t + 1) ∧ (∀ i, i < w.vars.length → own' i = own i) ∧
      own' w.vars.length = newOwner H own w.vars.length t op ∧
      ∀ vals, w.Shows H vals → StepOk H own' op (w.step H op) (valueStep H vals op) := by
  have hsep : w.Sep H (Function.update own w.vars.length (newOwner H own w.vars.length t op)) := by
    apply hw.sep.weaken
    intro i hi
    rw [Function.update_of_ne (by omega)]
  have hne : ∀ i, (Function.update own w.vars.length (newOwner H own w.vars.length t op) i).Nonempty := by
    intro i
    by_cases hi : i = w.vars.length
    · subst hi
      rw [Function.update_self]
      exact ⟨t, Or.inl rfl⟩
    · rw [Function.update_of_ne hi]
      exact hw.nonempty i
  have hres : Respects H (Function.update own w.vars.length (newOwner H own w.vars.length t op)) w.vars.length op := by
    intro i hi hlt
    rw [Function.update_of_ne (by omega), Function.update_self]
    intro x hx
    exact Or.inr ⟨i, hi, hlt, hx⟩
  have hstep := fun vals hs => step_value H _ w vals hsep hs hne op hres
  obtain ⟨vals, hs⟩ := shows_view H w own hw.sep
  obtain ⟨s1, s2, _, _⟩ := hstep vals hs
  refine ⟨_, ⟨s1, hne, ?_⟩, ?_, ?_, hstep⟩
  · intro i hi x hx
    have hlen := valueStep_length H vals op
    rw [← s2, ← hs.1] at hlen
    by_cases h : i = w.vars.length
    · subst h
      rw [Function.update_self] at hx
      rcases hx with hx | ⟨j, _, hj, hx⟩
      · omega
      · have := hw.lt j hj x hx; omega
    · rw [Function.update_of_ne h] at hx
      have := hw.lt i (by omega) x hx; omega
  · intro i hi
    rw [Function.update_of_ne (by omega)]
  · rw [Function.update_self]

theorem step_length (H : HistDef) (own : ℕ → Set ℕ) (t : ℕ) (w : World) (hw : w.Owned H own t) (op : Op) :
    w.vars.length ≤ (w.step H op).1.vars.length := by
  obtain ⟨own', _, _, _, hst⟩ := owned_step H own t w hw op
  obtain ⟨vals, hs⟩ := shows_view H w own hw.sep
  obtain ⟨_, s2, _, _⟩ := hst vals hs
  have := valueStep_length H vals op
  rw [s2, hs.1]
  omega

theorem owned_run (H : HistDef) : ∀ (ops : List Op) (own : ℕ → Set ℕ) (t : ℕ) (w : World), w.Owned H own t →
    ∃ own', (w.run H ops).Owned H own' (t + ops.length) ∧ (∀ i, i < w.vars.length → own' i = own i) ∧
      w.vars.length ≤ (w.run H ops).vars.length
  | [], own, t, w, hw => ⟨own, hw, fun _ _ => rfl, le_refl _⟩
  | op :: ops, own, t, w, hw => by
    obtain ⟨own1, h1, h2, _, _⟩ := owned_step H own t w hw op
    have hl := step_length H own t w hw op
    obtain ⟨own2, h3, h4, h5⟩ := owned_run H ops own1 (t + 1) _ h1
    refine ⟨own2, ?_, ?_, ?_⟩
    · have : t + (op :: ops).length = t + 1 + ops.length := by simp only [List.length_cons]; omega
      rw [this]
      exact h3
    · intro i hi
      rw [h4 i (by omega), h2 i hi]
    · exact le_trans hl h5

/-- An operation changes only the histogram it is meant to change, and those that share objects with
it. -/
theorem step_frame (H : HistDef) (own : ℕ → Set ℕ) (t : ℕ) (w : World) (hw : w.Owned H own t) (op : Op) (k : ℕ)
    (hk : k < w.vars.length) (hop : ∀ i, op.writes = some i → i < w.vars.length → i ≠ k ∧ Disjoint (own i) (own k)) :
    (w.step H op).1.view H k = w.view H k := by
  obtain ⟨own', h1, h2, h3, hst⟩ := owned_step H own t w hw op
  obtain ⟨vals, hs⟩ := shows_view H w own hw.sep
  obtain ⟨_, s2, _, s4⟩ := hst vals hs
  by_cases hi : ∃ i, op.writes = some i ∧ w.vars.length ≤ i
  · obtain ⟨i, hi1, hi2⟩ := hi
    have hnone : w.vars[i]? = none := List.getElem?_eq_none hi2
    have hview : w.view H i = none := view_none hi2
    have : (w.step H op).1 = w := by
      cases op <;> simp only [Op.writes, Option.some.injEq, reduceCtorEq] at hi1 <;> subst hi1 <;>
        simp only [World.step, World.uncopy, World.inplace, hnone]
      split <;> rfl
    rw [this]
  · push Not at hi
    rw [s4 k, valueStep_other H vals op k (by rw [← hs.1]; exact hk), hs.2 k]
    · intro hw'
      exact (hop k hw' hk).1 rfl
    · intro i hwi _
      rw [h2 k hk, h2 i (hi i hwi)]
      exact (hop i hwi (hi i hwi)).2.symm

/-- Histograms that do not share objects stay independent, whatever the program does in between. -/
theorem independent (H : HistDef) (own : ℕ → Set ℕ) (t : ℕ) (w : World) (hw : w.Owned H own t) (i k : ℕ) (hi : i < w.vars.length)
    (hk : k < w.vars.length) (hik : i ≠ k) (hd : Disjoint (own i) (own k)) (ops : List Op) (op : Op) (hop : op.writes = some i) :
    ((w.run H ops).step H op).1.view H k = (w.run H ops).view H k := by
  obtain ⟨own', h1, h2, h3⟩ := owned_run H ops own t w hw
  apply step_frame H own' _ _ h1 op k (by omega)
  intro j hj _
  rw [hop] at hj
  cases hj
  rw [h2 i hi, h2 k hk]
  exact ⟨hik, hd⟩

theorem reachable_owned (H : HistDef) (n : ℕ) (pre : List Op) :
    ∃ own, ((World.start n).run H pre).Owned H own (n + pre.length) ∧ (∀ i, i < n → own i = {i}) ∧
      n ≤ ((World.start n).run H pre).vars.length := by
  obtain ⟨own, h1, h2, h3⟩ := owned_run H pre _ n _ (owned_start H n)
  simp only [World.start, List.length_replicate] at h2 h3
  exact ⟨own, h1, h2, h3⟩

theorem res_ok {σ : Type} (r : Res σ) (h : r.exn = none) : r = .ok r.after := by
  cases r with
  | ok s => rfl
  | error e => cases h

theorem iaddLeft_addLeft {n : ℕ} (other : List (Key × Content Arr n))
    (hrec : ∀ x y z, iaddContent n x y = .ok z → addContent n x y = .ok z) : ∀ (d l : List (Key × Content Arr n)),
    iaddLeft (iaddContent n) other d = .ok l → addLeft (addContent n) other d = .ok l
  | [], l, h => by simp only [iaddLeft] at h; cases h; rfl
  | (k, x) :: d, l, h => by
    simp only [iaddLeft] at h
    split at h
    · rename_i y hy
      split at h
      · cases h
      · rename_i z hz
        split at h
        · rename_i rest hr
          cases h
          simp only [addLeft, hy, hrec x y z hz, iaddLeft_addLeft other hrec d rest hr]
        · cases h
    · rename_i hy
      split at h
      · rename_i rest hr
        cases h
        simp only [addLeft, hy, iaddLeft_addLeft other hrec d rest hr]
      · cases h

theorem iaddContent_ok : ∀ (n : ℕ) (x y z : Content Arr n), iaddContent n x y = .ok z → addContent n x y = .ok z
  | 0, (x : Arr), (y : Arr), (z : Arr), h => by
    simp only [iaddContent] at h
    split at h
    · rename_i c hc
      have hcz : c = z := Except.ok.inj h
      subst hcz
      show x.add y = .ok c
      unfold Arr.iadd at hc
      unfold Arr.add
      split at hc
      · rename_i h1
        rw [if_pos h1]
        split at hc
        · rename_i h2; rw [if_pos h2]; exact hc
        · rename_i h2
          rw [if_neg h2]
          split at hc
          · rename_i h3
            rw [if_neg (fun h => h2 (by rw [h, h3])), if_pos h3]
            exact hc
          · cases hc
      · cases hc
    · cases h
  | n + 1, (d : List (Key × Content Arr n)), (e : List (Key × Content Arr n)), z, h => by
    simp only [iaddContent] at h
    split at h
    · rename_i l hl
      cases h
      simp only [addContent, iaddLeft_addLeft e (fun x y z h => iaddContent_ok n x y z h) d l hl]
    · cases h

theorem iaddState_ok {n : ℕ} (s u v : Option (Content Arr n)) (h : (iaddState s u : Res (Option (Content Arr n))) = .ok v) :
    addState s u = .ok v := by
  cases s with
  | none =>
    cases u with
    | none => simp only [iaddState] at h; cases h; rfl
    | some u => simp only [iaddState] at h; cases h; rfl
  | some s =>
    cases u with
    | none => simp only [iaddState] at h; cases h; rfl
    | some u =>
      simp only [iaddState] at h
      split at h
      · rename_i c hc
        cases h
        simp only [addState, iaddContent_ok n s u c hc]
        rfl
      · cases h

/-! ## the properties -/

/-- No operation that makes a new histogram changes an existing one (C24, C25, C27, C28). -/
theorem C27_makers_change_nothing (H : HistDef) (n : ℕ) (pre : List Op) (op : Op) (hop : op.writes = none) (k : ℕ)
    (hk : k < ((World.start n).run H pre).vars.length) :
    (((World.start n).run H pre).step H op).1.view H k = ((World.start n).run H pre).view H k := by
  obtain ⟨own, h1, _, _⟩ := reachable_owned H n pre
  apply step_frame H own _ _ h1 op k hk
  intro i hi
  rw [hop] at hi
  cases hi

/-- C27: `c = h.copy()` looks like `h`. -/
theorem C27_copy_equal (H : HistDef) (n : ℕ) (pre : List Op) (h : ℕ) (hh : h < ((World.start n).run H pre).vars.length) :
    let w := (World.start n).run H pre
    (w.step H (.copy h)).2 = none ∧ (w.step H (.copy h)).1.vars.length = w.vars.length + 1 ∧
    (w.step H (.copy h)).1.view H w.vars.length = w.view H h ∧ (w.view H h).isSome := by
  intro w
  obtain ⟨own, h1, _, _⟩ := reachable_owned H n pre
  obtain ⟨own', _, _, _, hst⟩ := owned_step H own _ w h1 (.copy h)
  obtain ⟨vals, hs⟩ := shows_view H w own h1.sep
  obtain ⟨_, s2, s3, s4⟩ := hst vals hs
  obtain ⟨s, hv⟩ : ∃ s, vals[h]? = some s := ⟨_, List.getElem?_eq_getElem (by rw [← hs.1]; exact hh)⟩
  have hval : valueStep H vals (.copy h) = (vals ++ [s], none) := by
    simp only [valueStep, hv]
  rw [hval] at s2 s3 s4
  refine ⟨s3, ?_, ?_, ?_⟩
  · rw [s2, hs.1]; simp
  · rw [s4 _ (fun i hi => by cases hi), hs.1, hs.2 h, hv]
    simp
  · rw [hs.2 h, hv]; rfl

/-- C27: after `c = h.copy()`, whatever the program does in between, no operation on `h` (or on any
other histogram from before) changes `c`, and no operation on `c` changes one of those. -/
theorem C27_copy_independent (H : HistDef) (n : ℕ) (pre : List Op) (h : ℕ) (hh : h < ((World.start n).run H pre).vars.length)
    (ops : List Op) (op : Op) :
    let w := (World.start n).run H pre
    let c := w.vars.length
    let w' := (w.step H (.copy h)).1.run H ops
    (∀ i, i < c → op.writes = some i → (w'.step H op).1.view H c = w'.view H c) ∧
    (op.writes = some c → ∀ k, k < c → (w'.step H op).1.view H k = w'.view H k) := by
  intro w c w'
  obtain ⟨own, h1, _, _⟩ := reachable_owned H n pre
  obtain ⟨own', h2, h3, h4, _⟩ := owned_step H own _ w h1 (.copy h)
  have hlen : (w.step H (.copy h)).1.vars.length = c + 1 := (C27_copy_equal H n pre h hh).2.1
  have hdis : ∀ i, i < c → Disjoint (own' i) (own' c) := by
    intro i hi
    rw [h3 i hi, h4]
    rw [Set.disjoint_left]
    rintro x hx (rfl | ⟨j, hj, _⟩)
    · exact absurd (h1.lt i hi _ hx) (lt_irrefl _)
    · simp [Op.shares] at hj
  refine ⟨?_, ?_⟩
  · intro i hi hop
    exact independent H own' _ _ h2 i c (by omega) (by omega) (by omega) (hdis i hi) ops op hop
  · intro hop k hk
    exact independent H own' _ _ h2 c k (by omega) (by omega) (by omega) (hdis k hk).symm ops op hop

/-- C24 for histograms without group axes: after `c = a + b`, whatever the program does in between, no
operation on an operand (or on any other histogram from before) changes `c`, and no operation on `c`
changes one of those.

Missing from C24: group axes; see `C24_refuted`. -/
theorem C24_sum_independent_partial (H : HistDef) (hg : H.groups = []) (n : ℕ) (pre : List Op) (a b : ℕ)
    (hok : (((World.start n).run H pre).step H (.add a b)).2 = none) (ops : List Op) (op : Op) :
    let w := (World.start n).run H pre
    let c := w.vars.length
    let w' := (w.step H (.add a b)).1.run H ops
    (∀ i, i < c → op.writes = some i → (w'.step H op).1.view H c = w'.view H c) ∧
    (op.writes = some c → ∀ k, k < c → (w'.step H op).1.view H k = w'.view H k) := by
  intro w c w'
  obtain ⟨own, h1, _, _⟩ := reachable_owned H n pre
  obtain ⟨own', h2, h3, h4, hst⟩ := owned_step H own _ w h1 (.add a b)
  obtain ⟨vals, hs⟩ := shows_view H w own h1.sep
  obtain ⟨_, s2, s3, s4⟩ := hst vals hs
  have hlen : (w.step H (.add a b)).1.vars.length = c + 1 := by
    rw [s2]
    rw [hok] at s3
    show _ = w.vars.length + 1
    rw [hs.1]
    revert s3
    simp only [valueStep]
    split
    · split
      · intro _; simp
      · intro h; cases h
    · intro h; cases h
  have hdis : ∀ i, i < c → Disjoint (own' i) (own' c) := by
    intro i hi
    rw [h3 i hi, h4]
    rw [Set.disjoint_left]
    rintro x hx (rfl | ⟨j, hj, _⟩)
    · exact absurd (h1.lt i hi _ hx) (lt_irrefl _)
    · simp [Op.shares, hg] at hj
  refine ⟨?_, ?_⟩
  · intro i hi hop
    exact independent H own' _ _ h2 i c (by omega) (by omega) (by omega) (hdis i hi) ops op hop
  · intro hop k hk
    exact independent H own' _ _ h2 c k (by omega) (by omega) (by omega) (hdis k hk).symm ops op hop

theorem valueStep_length_writes (H : HistDef) (vals : List H.State) (op : Op) (i : ℕ) (h : op.writes = some i) :
    (valueStep H vals op).1.length = vals.length := by
  cases op <;> simp only [Op.writes, reduceCtorEq] at h <;> simp only [valueStep] <;> repeat (first | split | simp)

theorem values_run (H : HistDef) : ∀ (ops : List Op) (own : ℕ → Set ℕ) (t : ℕ) (w : World) (vals : List H.State), w.Owned H own t →
    (∀ i k, i < w.vars.length → k < w.vars.length → i ≠ k → Disjoint (own i) (own k)) → w.Shows H vals →
    (∀ op ∈ ops, op.shares (!H.groups.isEmpty) = []) → (w.run H ops).Shows H (valueRun H vals ops)
  | [], _, _, _, _, _, _, hs, _ => hs
  | op :: ops, own, t, w, vals, hw, hd, hs, hops => by
    obtain ⟨own', h1, h2, h3, hst⟩ := owned_step H own t w hw op
    obtain ⟨_, s2, _, s4⟩ := hst vals hs
    have hlen := valueStep_length H vals op
    rw [← s2, ← hs.1] at hlen
    have hnew : own' w.vars.length = {t} := by
      rw [h3]
      ext x
      simp [newOwner, hops op (by simp)]
    have hd' : ∀ i k, i < w.vars.length + 1 → k < w.vars.length + 1 → i ≠ k → Disjoint (own' i) (own' k) := by
      have key : ∀ i, i < w.vars.length → Disjoint (own' i) (own' w.vars.length) := by
        intro i hi
        rw [h2 i hi, hnew, Set.disjoint_singleton_right]
        intro hx
        exact absurd (hw.lt i hi t hx) (lt_irrefl _)
      intro i k hi hk hik
      by_cases hi' : i < w.vars.length
      · by_cases hk' : k < w.vars.length
        · rw [h2 i hi', h2 k hk']; exact hd i k hi' hk' hik
        · have : k = w.vars.length := by omega
          subst this; exact key i hi'
      · have : i = w.vars.length := by omega
        subst this; exact (key k (by omega)).symm
    have hs' : (w.step H op).1.Shows H (valueStep H vals op).1 := by
      refine ⟨s2, fun k => ?_⟩
      by_cases hk : k < w.vars.length
      · by_cases hwk : op.writes = some k
        · apply s4 k
          intro i hi hne
          rw [hwk] at hi
          cases hi
          exact absurd rfl hne
        · rw [valueStep_other H vals op k (by rw [← hs.1]; exact hk) hwk, ← hs.2 k]
          apply step_frame H own t w hw op k hk
          intro j hj hjl
          have hjk : j ≠ k := fun h => hwk (by rw [hj, h])
          exact ⟨hjk, hd j k hjl hk hjk⟩
      · cases hwr : op.writes with
        | none =>
          apply s4 k
          intro i hi
          rw [hwr] at hi
          cases hi
        | some i =>
          have hl := valueStep_length_writes H vals op i hwr
          rw [view_none (by rw [s2, hl, ← hs.1]; omega), List.getElem?_eq_none (by rw [hl, ← hs.1]; omega)]
    exact values_run H ops own' (t + 1) _ _ h1 (fun i k hi hk hik => hd' i k (by omega) (by omega) hik) hs'
      (fun o ho => hops o (by simp [ho]))

/-- C24, C27, C28 in one: a program in which nothing is shared (no `copyonfill`, and no `+` of histograms
with group axes) treats histograms as values.

Missing: the operations that share; see `C24_refuted` and `C28_refuted_book`. -/
theorem C24_histograms_are_values_partial (H : HistDef) (n : ℕ) (ops : List Op)
    (hops : ∀ op ∈ ops, op.shares (!H.groups.isEmpty) = []) :
    ((World.start n).run H ops).Shows H (valueRun H (List.replicate n none) ops) := by
  apply values_run H ops _ n _ _ (owned_start H n) _ _ hops
  · intro i k _ _ hik
    rw [Set.disjoint_singleton]
    exact hik
  · refine ⟨by simp [World.start], fun i => ?_⟩
    unfold World.view
    simp only [World.start, List.getElem?_replicate]
    split <;> rfl

/-- C23: `a += b` gives `a` the value that `a + b` has, raises when `a + b` raises, and for different
histograms made by the constructor leaves `b` unchanged, as does everything done with `a` later.

Missing from C23: histograms that share objects because one is a sum of the other; see
`C23_refuted`. -/
theorem C23_right_operand_partial (H : HistDef) (n : ℕ) (pre : List Op) (a b : ℕ) (ha : a < n) (hb : b < n) (hab : a ≠ b)
    (ops : List Op) (op : Op) (hop : op.writes = some a) :
    let w := (World.start n).run H pre
    (w.step H (.iadd a b)).1.view H b = w.view H b ∧
    (((w.step H (.iadd a b)).1.run H ops).step H op).1.view H b = ((w.step H (.iadd a b)).1.run H ops).view H b := by
  intro w
  obtain ⟨own, h1, h2, h3⟩ := reachable_owned H n pre
  have hd : Disjoint (own a) (own b) := by
    rw [h2 a ha, h2 b hb, Set.disjoint_singleton]
    exact hab
  refine ⟨?_, ?_⟩
  · exact independent H own _ _ h1 a b (by omega) (by omega) hab hd [] (.iadd a b) rfl
  · exact independent H own _ _ h1 a b (by omega) (by omega) hab hd (.iadd a b :: ops) op hop

/-- C23: if `a += b` does not raise, then neither does `a + b`, and `a` has afterwards the value the new
histogram has after `a + b`, for any two histograms of a program. -/
theorem C23_iadd_value (H : HistDef) (n : ℕ) (pre : List Op) (a b : ℕ) :
    let w := (World.start n).run H pre
    (w.step H (.iadd a b)).2 = none → (w.step H (.add a b)).2 = none ∧
      (w.step H (.iadd a b)).1.view H a = (w.step H (.add a b)).1.view H w.vars.length ∧
      (w.view H a).isSome ∧ (w.view H b).isSome := by
  intro w hiok
  obtain ⟨own, h1, _, _⟩ := reachable_owned H n pre
  obtain ⟨own1, _, _, _, hst1⟩ := owned_step H own _ w h1 (.add a b)
  obtain ⟨own2, _, _, _, hst2⟩ := owned_step H own _ w h1 (.iadd a b)
  obtain ⟨vals, hs⟩ := shows_view H w own h1.sep
  obtain ⟨_, s2, s3, s4⟩ := hst1 vals hs
  obtain ⟨_, t2, t3, t4⟩ := hst2 vals hs
  rw [s3, s4 _ (fun i hi => by cases hi), t4 a (fun i hi hne => by cases hi; exact absurd rfl hne), hs.2 a, hs.2 b]
  rw [hiok] at t3
  revert t3
  simp only [valueStep]
  cases hva : vals[a]? with
  | none => intro h; cases h
  | some s =>
    cases hvb : vals[b]? with
    | none => intro h; cases h
    | some u =>
      simp only
      intro t3
      have hal : a < vals.length := (List.getElem?_eq_some_iff.1 hva).1
      have := iaddState_ok s u _ (res_ok _ t3.symm)
      rw [this]
      simp only
      rw [List.getElem?_set_self hal, hs.1]
      simp

/-- C28: filling a histogram made by `copyonfill` changes no other histogram; and afterwards, whatever
the program does in between, no operation on it changes another one from before, and vice versa.

Missing from C28: filling through a book, and filling the original first; see `C28_refuted_book` and
`C28_refuted_original`. -/
theorem C28_fill_copy_partial (H : HistDef) (n : ℕ) (pre : List Op) (c : ℕ) (v : HObj)
    (hc : ((World.start n).run H pre).vars[c]? = some v) (hcof : v.cof = true) (rows : List Row) (ops : List Op) (op : Op) :
    let w := (World.start n).run H pre
    let w' := (w.step H (.fill c rows)).1.run H ops
    (∀ k, k < w.vars.length → k ≠ c → (w.step H (.fill c rows)).1.view H k = w.view H k) ∧
    (∀ k, k < w.vars.length → k ≠ c → op.writes = some c → (w'.step H op).1.view H k = w'.view H k) ∧
    (∀ k, k < w.vars.length → k ≠ c → op.writes = some k → (w'.step H op).1.view H c = w'.view H c) := by
  intro w w'
  obtain ⟨own, h1, _, _⟩ := reachable_owned H n pre
  have hcl : c < w.vars.length := (List.getElem?_eq_some_iff.1 hc).1
  obtain ⟨u1, u2, u3, u4⟩ := uncopy_spec h1.sep c (h1.nonempty c)
  have u4 := u4 v hc hcof {n + pre.length} ⟨_, rfl⟩
  have hdis : ∀ k, k < w.vars.length → k ≠ c →
      Disjoint (Function.update own c {n + pre.length} k) (Function.update own c {n + pre.length} c) := by
    intro k hk hkc
    rw [Function.update_of_ne hkc, Function.update_self, Set.disjoint_singleton_right]
    intro hx
    exact absurd (h1.lt k hk _ hx) (lt_irrefl _)
  have hne : ∀ i, (Function.update own c {n + pre.length} i).Nonempty := by
    intro i
    by_cases hi : i = c
    · subst hi; rw [Function.update_self]; exact ⟨_, rfl⟩
    · rw [Function.update_of_ne hi]; exact h1.nonempty i
  obtain ⟨i1, i2, i3, _⟩ := inplace_spec u4 c (fun s => H.fill s rows) (fun s hs => fill_distinct H s rows hs)
    (by rw [u2]; exact hcl) (hne c)
  have hown : ((w.uncopy H c).inplace H c (fun s => H.fill s rows)).1.Owned H (Function.update own c {n + pre.length})
      (n + pre.length + 1) := by
    refine ⟨i1, hne, ?_⟩
    intro i hi x hx
    by_cases hic : i = c
    · subst hic
      rw [Function.update_self] at hx
      rw [Set.mem_singleton_iff] at hx
      omega
    · rw [Function.update_of_ne hic] at hx
      have := h1.lt i (by rw [i2, u2] at hi; exact hi) x hx
      omega
  have hl : ((w.uncopy H c).inplace H c (fun s => H.fill s rows)).1.vars.length = w.vars.length := by rw [i2, u2]
  refine ⟨?_, ?_, ?_⟩
  · intro k hk hkc
    show ((w.uncopy H c).inplace H c (fun s => H.fill s rows)).1.view H k = _
    rw [i3 k hkc (hdis k hk hkc), u3 k]
  · intro k hk hkc hop
    exact independent H _ _ _ hown c k (by omega) (by omega) (fun h => hkc h.symm) (hdis k hk hkc).symm ops op hop
  · intro k hk hkc hop
    exact independent H _ _ _ hown k c (by omega) (by omega) hkc (hdis k hk hkc) ops op hop

/-! ## what does not hold -/

/-- What one reads in a histogram of a program. -/
def World.read (H : HistDef) (w : World) (i : ℕ) (gk : List Key) (idx : List ℕ) (col : ℕ) : Option ℚ :=
  (w.view H i).map (fun s => H.read s gk idx col)

/-- `a` is filled with group "a", `b` with group "b", `c = a + b`. -/
def exSum : List Op :=
  [.fill 0 [exRow "a" (1/2) (some 2)], .fill 1 [exRow "b" (1/2) (some 3)], .add 0 1]

/-- C24 does not hold with group axes: after `c = a + b`, filling `c` changes `a` (2 becomes 7), and
filling `b` changes `c` (3 becomes 14). -/
theorem C24_refuted : ¬ ∀ (H : HistDef) (n : ℕ) (pre : List Op) (a b : ℕ) (op : Op),
    let w := (World.start n).run H pre
    let w' := (w.step H (.add a b)).1
    (w.step H (.add a b)).2 = none →
    (∀ i, i < w.vars.length → op.writes = some i → (w'.step H op).1.view H w.vars.length = w'.view H w.vars.length) ∧
    (op.writes = some w.vars.length → ∀ k, k < w.vars.length → (w'.step H op).1.view H k = w'.view H k) := by
  intro h
  have h1 := (h exH 2 (exSum.take 2) 0 1 (.fill 2 [exRow "a" (1/2) (some 5)]) (by decide +kernel)).2 (by decide +kernel) 0
    (by decide +kernel)
  have h2 := congrArg (Option.map (fun s => exH.read s [.str "a"] [1] 0)) h1
  revert h2
  decide +kernel

example : ((World.start 2).run exH exSum).read exH 0 [.str "a"] [1] 0 = some 2 ∧
    ((World.start 2).run exH (exSum ++ [.fill 2 [exRow "a" (1/2) (some 5)]])).read exH 0 [.str "a"] [1] 0 = some 7 ∧
    ((World.start 2).run exH exSum).read exH 2 [.str "b"] [1] 0 = some 3 ∧
    ((World.start 2).run exH (exSum ++ [.fill 1 [exRow "b" (1/2) (some 11)]])).read exH 2 [.str "b"] [1] 0 = some 14 := by
  decide +kernel

/-- C23 does not hold for histograms that share groups: after `c = a + b`, `c += a` changes `a` (2 becomes
4). -/
theorem C23_refuted : ¬ ∀ (H : HistDef) (n : ℕ) (pre : List Op) (a b : ℕ), a ≠ b →
    let w := (World.start n).run H pre
    (w.step H (.iadd a b)).2 = none → (w.step H (.iadd a b)).1.view H b = w.view H b := by
  intro h
  have h1 := h exH 2 exSum 2 0 (by decide) (by decide +kernel)
  have h2 := congrArg (Option.map (fun s => exH.read s [.str "a"] [1] 0)) h1
  revert h2
  decide +kernel

/-- C28 does not hold when the copy is filled through a book, which does not look at `_copyonfill`: the
original changes too. -/
theorem C28_refuted_book : ¬ ∀ (H : HistDef) (n : ℕ) (pre : List Op) (h : ℕ) (rows : List Row),
    let w := (World.start n).run H pre
    let c := w.vars.length
    let w' := (w.step H (.copyonfill h)).1
    (w.step H (.copyonfill h)).2 = none → (w'.step H (.bookFill c rows)).1.view H h = w'.view H h := by
  intro h
  have h1 := h exW 1 [.fill 0 [⟨[], [.num (.fin 0)], [], some 3⟩]] 0 [⟨[], [.num (.fin 0)], [], some 5⟩] (by decide +kernel)
  have h2 := congrArg (Option.map (fun s => exW.read s [] [1] 0)) h1
  revert h2
  decide +kernel

/-- C28 does not hold when the original is filled before the copy: the copy changes too. -/
theorem C28_refuted_original : ¬ ∀ (H : HistDef) (n : ℕ) (pre : List Op) (h : ℕ) (rows : List Row),
    let w := (World.start n).run H pre
    let c := w.vars.length
    let w' := (w.step H (.copyonfill h)).1
    (w.step H (.copyonfill h)).2 = none → (w'.step H (.fill h rows)).1.view H c = w'.view H c := by
  intro h
  have h1 := h exW 1 [.fill 0 [⟨[], [.num (.fin 0)], [], some 3⟩]] 0 [⟨[], [.num (.fin 0)], [], some 5⟩] (by decide +kernel)
  have h2 := congrArg (Option.map (fun s => exW.read s [] [1] 0)) h1
  revert h2
  decide +kernel

/-! ## examples for the hypotheses -/

/-- C27: a copy of a filled histogram with groups, then both are changed. -/
example : let w := (World.start 2).run exH exSum
    let w' := (World.start 2).run exH (exSum ++ [.copy 0, .fill 3 [exRow "a" (1/2) (some 5)], .iadd 0 1, .imul 2 3])
    0 < w.vars.length ∧ w.vars.length = 3 ∧ w'.read exH 0 [.str "a"] [1] 0 = some 6 ∧ w'.read exH 3 [.str "a"] [1] 0 = some 7 ∧
    w'.read exH 3 [.str "b"] [1] 0 = some 0 := by decide +kernel

/-- C24: a sum without group axes. -/
example : exW.groups = [] ∧ (((World.start 2).run exW [.fill 0 [⟨[], [.num (.fin 0)], [], some 3⟩],
    .fill 1 [⟨[], [.num (.fin 0)], [], some 4⟩]]).step exW (.add 0 1)).2 = none ∧
    ((World.start 2).run exW [.fill 0 [⟨[], [.num (.fin 0)], [], some 3⟩], .fill 1 [⟨[], [.num (.fin 0)], [], some 4⟩], .add 0 1,
      .fill 0 [⟨[], [.num (.fin 0)], [], some 5⟩]]).read exW 2 [] [1] 0 = some 7 := by decide +kernel

/-- A program with group axes in which nothing is shared, and one without group axes with a sum. -/
example : (∀ op ∈ [Op.fill 0 [exRow "a" (1/2) (some 2)], .copy 0, .iadd 1 0, .imul 0 2], op.shares (!exH.groups.isEmpty) = []) ∧
    (∀ op ∈ [Op.read 0, .add 0 1, .iadd 2 0], op.shares (!exW.groups.isEmpty) = []) := by
  refine ⟨?_, ?_⟩ <;> intro op hop <;> simp at hop <;> rcases hop with rfl | rfl | rfl | rfl <;> rfl

/-- C23: two histograms from the constructor, `a += b`, then `a` is filled. -/
example : let w := (World.start 2).run exH (exSum.take 2 ++ [.iadd 0 1, .fill 0 [exRow "b" (1/2) (some 5)]])
    (((World.start 2).run exH (exSum.take 2)).step exH (.iadd 0 1)).2 = none ∧
    w.read exH 0 [.str "b"] [1] 0 = some 8 ∧ w.read exH 1 [.str "b"] [1] 0 = some 3 := by decide +kernel

/-- C28: the copy has the mark. -/
example : ((World.start 1).run exH [.fill 0 [exRow "a" (1/2) (some 2)], .copyonfill 0]).vars[1]? = some ⟨some 1, true⟩ := by
  decide +kernel

end Verif
