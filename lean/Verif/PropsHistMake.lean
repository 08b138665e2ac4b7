import Verif.PropsHistJson
import Mathlib.Data.List.Forall2

/-!
# Constructing a histogram: C83
-/

namespace Verif

variable {β : Type}

theorem kinds_perm (l : List (AxisX × Option β)) :
    ((l.filter fun x => x.1.isGroup) ++ (l.filter fun x => x.1.isFixed) ++ (l.filter fun x => x.1.isProfile)).Perm l := by
  induction l with
  | nil => exact .nil
  | cons x l ih =>
    obtain ⟨a, p⟩ := x
    have key : (a.isGroup = true ∧ a.isFixed = false ∧ a.isProfile = false) ∨
        (a.isGroup = false ∧ a.isFixed = true ∧ a.isProfile = false) ∨
        (a.isGroup = false ∧ a.isFixed = false ∧ a.isProfile = true) := by
      cases a <;> simp [AxisX.isGroup, AxisX.isFixed, AxisX.isProfile]
    rcases key with ⟨h1, h2, h3⟩ | ⟨h1, h2, h3⟩ | ⟨h1, h2, h3⟩
    · simp only [List.filter_cons, h1, h2, h3, if_true, List.cons_append]
      exact ih.cons _
    · simp only [List.filter_cons, h1, h2, h3, if_true]
      refine List.Perm.trans ?_ (ih.cons (a, p))
      rw [List.append_assoc, List.append_assoc, List.cons_append]
      exact List.perm_middle
    · simp only [List.filter_cons, h1, h2, h3, if_true]
      exact List.perm_middle.trans (ih.cons (a, p))

theorem mkAxis_each {P : Parser β} {defs : List (String × String)} : ∀ {axes : List AxisX}
    {new : List (AxisX × Option β)}, (∀ a ∈ axes, Made a ∧ a.noNaN) →
    mapE (mkAxis P defs) (axes.map fun a => (a, none)) = .ok new → new.map (·.1) = axes
  | [], new, _, h => by cases h; rfl
  | a :: axes, new, hm, h => by
    simp only [List.map_cons, mapE] at h
    cases hy : mkAxis P defs (a, none) with
    | error e => rw [hy] at h; cases h
    | ok y =>
      rw [hy] at h
      cases hr : mapE (mkAxis P defs) (axes.map fun a => (a, none)) with
      | error e => simp only [hr] at h; cases h
      | ok r =>
        simp only [hr] at h
        cases h
        rw [List.map_cons, mkAxis_made (hm a (by simp)).1 (hm a (by simp)).2 hy,
          mkAxis_each (fun b hb => hm b (List.mem_cons_of_mem _ hb)) hr]

theorem filter_fst {l : List (AxisX × Option β)} {axes : List AxisX} (h : l.map (·.1) = axes) (q : AxisX → Bool) :
    (l.filter fun x => q x.1).map (·.1) = axes.filter q := by
  rw [← h, List.filter_map]
  rfl

/-- **C83**, what `Hist(*axes, weight=..., filter=..., defs=..., attachment=...)` is, if the numbers of the axes are not
NaN: it has every axis exactly once, grouping axes first, then fixed ones, then profiles, each kind in the order in which
they were given; the expression of each axis was parsed with the definitions; weight, filter, definitions and attachment
are as given; it is empty; and the filter is a condition. -/
theorem C83_made_partial {P : Parser β} {axes : List AxisX} {w : J} {filter : Option String} {defs : List (String × String)}
    {att : List (String × J)} {h : HistX β} (hm : ∀ a ∈ axes, Made a ∧ a.noNaN)
    (hk : mkHist P (axes.map fun a => (a, none)) w filter defs att = .ok h) :
    (h.axes.map (·.1)).Perm axes ∧ h.group.map (·.1) = axes.filter AxisX.isGroup ∧
      h.fixed.map (·.1) = axes.filter AxisX.isFixed ∧ h.profile.map (·.1) = axes.filter AxisX.isProfile ∧
      (∀ x ∈ h.axes, x.1 ≠ .null → ∃ e, P.parse defs x.1.exprOf = .ok e ∧ x.2 = some e) ∧
      h.weight = w ∧ h.filter = filter ∧ h.defs = defs ∧ h.attachment = att ∧ h.content = .none ∧
      (filter = none → h.filterP = none) ∧
      ∀ f, filter = some f → ∃ e, P.parse defs f = .ok e ∧ P.logical e = true ∧ h.filterP = some e := by
  unfold mkHist at hk
  cases hn : mapE (mkAxis P defs) (axes.map fun a => (a, none)) with
  | error e => rw [hn] at hk; cases hk
  | ok new =>
  cases hf : mkFilter P defs filter with
  | error e => simp only [hn, hf] at hk; cases hk
  | ok fp =>
  cases hw : mkWeight P defs w filter fp with
  | error e => simp only [hn, hf, hw] at hk; cases hk
  | ok wp =>
  simp only [hn, hf, hw] at hk
  cases hk
  have h1 := mkAxis_each hm hn
  have h2 := mkAxis_all hm hn
  have hp := kinds_perm new
  refine ⟨by rw [← h1]; exact hp.map _, filter_fst h1 _, filter_fst h1 _, filter_fst h1 _, fun x hx hx' => ?_, rfl, rfl,
    rfl, rfl, rfl, ?_, ?_⟩
  · obtain ⟨-, -, h3⟩ := h2 x (hp.mem_iff.mp hx)
    obtain ⟨a, q⟩ := x
    have key : mkAxis P defs (a, none) = (match P.parse defs a.exprOf with
        | .error e => .error e
        | .ok e =>
          match a.copy with
          | .error e => .error e
          | .ok b => .ok (b, some e)) := by
      cases a <;> first | rfl | exact absurd rfl hx'
    rw [key] at h3
    simp only at h3 ⊢
    cases hq : P.parse defs a.exprOf with
    | error e => rw [hq] at h3; cases h3
    | ok e =>
      rw [hq] at h3
      simp only at h3
      cases hc : a.copy with
      | error e => rw [hc] at h3; cases h3
      | ok b => rw [hc] at h3; cases h3; exact ⟨e, rfl, rfl⟩
  · rintro rfl
    cases hf; rfl
  · rintro f rfl
    rw [mkFilter] at hf
    cases hq : P.parse defs f with
    | error e => rw [hq] at hf; cases hf
    | ok e =>
      rw [hq] at hf
      simp only at hf
      cases hl : P.logical e with
      | false => rw [hl] at hf; simp at hf
      | true => rw [hl] at hf; cases hf; exact ⟨e, rfl, hl, rfl⟩

/-- **C83**, what is not accepted: an axis or a filter that cannot be parsed, and a filter that is no condition. -/
theorem C83_raises {P : Parser β} {axes : List AxisX} {w : J} {filter : Option String} {defs : List (String × String)}
    {att : List (String × J)} (hm : ∀ a ∈ axes, Made a ∧ a.noNaN)
    (hbad : (∃ a ∈ axes, a ≠ .null ∧ ∃ e, P.parse defs a.exprOf = .error e) ∨
      (∃ f e, filter = some f ∧ P.parse defs f = .error e) ∨
      ∃ f e, filter = some f ∧ P.parse defs f = .ok e ∧ P.logical e = false) :
    ∃ e, mkHist P (axes.map fun a => (a, none)) w filter defs att = .error e := by
  cases hk : mkHist P (axes.map fun a => (a, none)) w filter defs att with
  | error e => exact ⟨e, rfl⟩
  | ok h =>
    exfalso
    obtain ⟨h1, -, -, -, h5, -, -, -, -, -, -, h12⟩ := C83_made_partial hm hk
    rcases hbad with ⟨a, ha, hne, e, he⟩ | ⟨f, e, hf, he⟩ | ⟨f, e, hf, he, hl⟩
    · obtain ⟨x, hx, rfl⟩ := List.mem_map.mp (h1.mem_iff.mpr ha)
      obtain ⟨e', h', -⟩ := h5 x hx hne
      rw [he] at h'; cases h'
    · obtain ⟨e', h', -⟩ := h12 f hf
      rw [he] at h'; cases h'
    · obtain ⟨e', h', hl', -⟩ := h12 f hf
      rw [he] at h'
      cases h'
      rw [hl] at hl'; cases hl'

/-- An example with all kinds of axes is `sampleHist`. -/
example : sampleHist.axes.map (·.1) = [.groupby "source", .bin "x" 1 (.fin 0) (.fin 1) true false false true, .cut "c",
    .profile "p"] := rfl

end Verif
