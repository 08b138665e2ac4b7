import Verif.SpecHistJson
import Verif.AxisDescLemmas
import Verif.GoalsLemmas
import Verif.HistLemmas
import Verif.PropsAxisDesc

/-!
# Lemmas on restored histograms
-/

namespace Verif

variable {β : Type}

/-! ## Arrays -/

theorem chunks_length : ∀ (n k : ℕ) (d : List Num), (chunks n k d).length = n
  | 0, _, _ => rfl
  | n + 1, k, d => by simp [chunks, chunks_length n k]

theorem chunks_flatten : ∀ (n k : ℕ) (d : List Num), d.length = n * k → (chunks n k d).flatten = d
  | 0, k, d, h => by
    have : d = [] := List.length_eq_zero_iff.mp (by omega)
    simp [chunks, this]
  | n + 1, k, d, h => by
    rw [chunks, List.flatten_cons, chunks_flatten n k (d.drop k) (by simp [h, Nat.add_mul]), List.take_append_drop]

theorem chunks_mem : ∀ (n k : ℕ) (d : List Num), d.length = n * k → ∀ r ∈ chunks n k d, r.length = k
  | 0, k, d, h => by simp [chunks]
  | n + 1, k, d, h => by
    intro r hr
    rcases List.mem_cons.mp hr with rfl | hr
    · simp [h, Nat.add_mul]
    · exact chunks_mem n k (d.drop k) (by simp [h, Nat.add_mul]) r hr

theorem arrsOf_map {f : List Num → J} {s : List ℕ} : ∀ rs : List (List Num), (∀ r ∈ rs, arrOf (f r) = .ok (s, r)) →
    arrsOf (rs.map f) = .ok (rs.map fun r => (s, r))
  | [], _ => rfl
  | r :: rs, h => by
    simp only [List.map_cons, arrsOf, h r (by simp), arrsOf_map rs fun x hx => h x (List.mem_cons_of_mem _ hx)]

theorem stack_same {s : List ℕ} {rs : List (List Num)} (h : rs ≠ []) :
    stack (rs.map fun r => (s, r)) = .ok (rs.length :: s, rs.flatten) := by
  cases rs with
  | nil => exact absurd rfl h
  | cons r rs =>
    have : ((rs.map fun r => (s, r)).all fun p => decide (p.1 = s)) = true := by
      simp [List.all_eq_true]
    simp only [List.map_cons, stack, this, if_true]
    congr 2
    · simp
    · simp [Function.comp_def]

theorem arrOf_tolist : ∀ (s : List ℕ) (d : List Num), d.length = cells s → (∀ n ∈ s, 0 < n) →
    arrOf (tolist s d) = .ok (s, d)
  | [], d, h, _ => by
    match d, h with
    | [v], _ => rfl
  | n :: s, d, h, hp => by
    have hn : 0 < n := hp n (by simp)
    have ih : ∀ r ∈ chunks n (cells s) d, arrOf (tolist s r) = .ok (s, r) := fun r hr =>
      arrOf_tolist s r (chunks_mem n _ d h r hr) fun m hm => hp m (List.mem_cons_of_mem _ hm)
    rw [tolist, arrOf, arrsOf_map _ ih]
    have hne : chunks n (cells s) d ≠ [] := by
      intro h0
      have := chunks_length n (cells s) d
      rw [h0] at this
      simp at this; omega
    simp only [stack_same hne, chunks_length, chunks_flatten n (cells s) d h]

theorem tolist_cases (s : List ℕ) (d : List Num) (h : d.length = cells s) :
    (∃ v, tolist s d = .float v) ∨ ∃ l, tolist s d = .list l := by
  cases s with
  | nil =>
    match d, h with
    | [v], _ => exact .inl ⟨v, rfl⟩
  | cons n s => exact .inr ⟨_, rfl⟩

theorem cnOf_tolist {s : List ℕ} {d : List Num} (h : d.length = cells s) (hp : ∀ n ∈ s, 0 < n) :
    cnOf (tolist s d) = .ok (.arr s d) := by
  have ha := arrOf_tolist s d h hp
  rcases tolist_cases s d h with ⟨v, hv⟩ | ⟨l, hl⟩
  · rw [hv] at ha ⊢; rw [cnOf, ha]; rfl
  · rw [hl] at ha ⊢; rw [cnOf, ha]; rfl

/-! ## Contents -/

theorem cnsOf_tojson {P : Cn → Prop} (hP : ∀ x, P x → ∃ j, x.tojson = .ok j ∧ cnOf j = .ok x) : ∀ d : CnL,
    (∀ p ∈ d.toList, P p.2) → ∃ l, d.tojson = .ok l ∧ cnsOf l = .ok d
  | .nil, _ => ⟨[], rfl, rfl⟩
  | .cons k x r, h => by
    obtain ⟨j, hj, hj'⟩ := hP x (h (k, x) (by simp [CnL.toList]))
    obtain ⟨l, hl, hl'⟩ := cnsOf_tojson hP r fun p hp => h p (by simp [CnL.toList, hp])
    exact ⟨(k, j) :: l, by simp only [CnL.tojson, hj, hl], by simp only [cnsOf, cnPair, hj', hl']⟩

theorem cnOf_tojson : ∀ (n : ℕ) (s : List ℕ), (∀ m ∈ s, 0 < m) → ∀ x : Cn, Fits n s x →
    ∃ j, x.tojson = .ok j ∧ cnOf j = .ok x
  | 0, s, hp, .arr s' d, h => by
    obtain ⟨rfl, hd⟩ := h
    exact ⟨_, rfl, cnOf_tolist hd hp⟩
  | n + 1, s, hp, .dict d, h => by
    obtain ⟨l, hl, hl'⟩ := cnsOf_tojson (P := Fits n s) (cnOf_tojson n s hp) d h
    exact ⟨.dict l, by simp only [Cn.tojson, hl], by simp only [cnOf, hl']⟩
  | 0, _, _, .none, h => absurd h id
  | 0, _, _, .dict _, h => absurd h id
  | _ + 1, _, _, .none, h => absurd h id
  | _ + 1, _, _, .arr _ _, h => absurd h id

/-! ### Text -/

theorem tolist_text (render : Key → String) : ∀ (s : List ℕ) (d : List Num), (tolist s d).text render = tolist s d
  | [], [] => rfl
  | [], _ :: _ => rfl
  | n :: s, d => by
    have : ∀ rs : List (List Num), J.textL render (rs.map (tolist s)) = rs.map (tolist s) := by
      intro rs
      induction rs with
      | nil => rfl
      | cons r rs ih => simp only [List.map_cons, J.textL, tolist_text render s r, ih]
    simp only [tolist, J.text, this]

mutual
theorem Cn.tojson_text (render : Key → String) (hr : ∀ s, render (.str s) = s) : ∀ (x : Cn), x.strKeys →
    ∀ j, x.tojson = .ok j → j.text render = j
  | .none, _, j, h => by cases h
  | .arr s d, _, j, h => by cases h; exact tolist_text render s d
  | .dict d, hk, j, h => by
    cases hd : d.tojson with
    | error e => simp only [Cn.tojson, hd] at h; cases h
    | ok l =>
      simp only [Cn.tojson, hd] at h
      cases h
      rw [J.text, CnL.tojson_text render hr d hk l hd]
theorem CnL.tojson_text (render : Key → String) (hr : ∀ s, render (.str s) = s) : ∀ (d : CnL), d.strKeys →
    ∀ l, d.tojson = .ok l → J.textD render l = l
  | .nil, _, l, h => by cases h; rfl
  | .cons k x r, hk, l, h => by
    obtain ⟨⟨s, rfl⟩, hx, hr'⟩ := hk
    simp only [CnL.tojson] at h
    cases hj : x.tojson with
    | error e => rw [hj] at h; cases h
    | ok j =>
      rw [hj] at h
      cases hl : r.tojson with
      | error e => simp only [hl] at h; cases h
      | ok l' =>
        simp only [hl] at h
        cases h
        rw [J.textD, CnL.tojson_text render hr r hr' l' hl, J.textP, Cn.tojson_text render hr x hx j hj, hr]
end

/-! ## The constructor -/

/-- What restoring a histogram needs. -/
structure Sound (P : Parser β) (h : HistX β) : Prop where
  axes : ∀ x ∈ h.axes, Made x.1 ∧ x.1.noNaN ∧ mkAxis P h.defs (x.1, none) = .ok x
  group : h.group = h.axes.filter fun x => x.1.isGroup
  fixed : h.fixed = h.axes.filter fun x => x.1.isFixed
  profile : h.profile = h.axes.filter fun x => x.1.isProfile
  filter : mkFilter P h.defs h.filter = .ok h.filterP
  weight : mkWeight P h.defs h.weight h.filter h.filterP = .ok h.weightP

theorem filter_kinds (l : List (AxisX × Option β)) :
    let g := l.filter fun x => x.1.isGroup
    let f := l.filter fun x => x.1.isFixed
    let p := l.filter fun x => x.1.isProfile
    (g ++ f ++ p).filter (fun x => x.1.isGroup) = g ∧ (g ++ f ++ p).filter (fun x => x.1.isFixed) = f ∧
      (g ++ f ++ p).filter (fun x => x.1.isProfile) = p := by
  have h1 : ∀ a : AxisX, (a.isGroup && a.isFixed) = false := by intro a; cases a <;> rfl
  have h2 : ∀ a : AxisX, (a.isGroup && a.isProfile) = false := by intro a; cases a <;> rfl
  have h3 : ∀ a : AxisX, (a.isFixed && a.isProfile) = false := by intro a; cases a <;> rfl
  have h1' : ∀ a : AxisX, (a.isFixed && a.isGroup) = false := fun a => by rw [Bool.and_comm]; exact h1 a
  have h2' : ∀ a : AxisX, (a.isProfile && a.isGroup) = false := fun a => by rw [Bool.and_comm]; exact h2 a
  have h3' : ∀ a : AxisX, (a.isProfile && a.isFixed) = false := fun a => by rw [Bool.and_comm]; exact h3 a
  refine ⟨?_, ?_, ?_⟩ <;>
    simp only [List.filter_append, List.filter_filter, h1, h2, h3, h1', h2', h3', Bool.and_self, List.filter_false,
      List.append_nil, List.nil_append]

theorem mkAxis_made {P : Parser β} {defs : List (String × String)} {a : AxisX} {y : AxisX × Option β} (hm : Made a)
    (hn : a.noNaN) (h : mkAxis P defs (a, none) = .ok y) : y.1 = a := by
  have hc := (C76_restored_partial hm hn).2.1
  cases a <;> simp only [mkAxis, Except.ok.injEq] at h
  case null => subst h; rfl
  all_goals
    split at h
    · cases h
    · rw [hc] at h; cases h; rfl

theorem mkAxis_all {P : Parser β} {defs : List (String × String)} : ∀ {axes : List AxisX}
    {new : List (AxisX × Option β)}, (∀ a ∈ axes, Made a ∧ a.noNaN) →
    mapE (mkAxis P defs) (axes.map fun a => (a, none)) = .ok new →
    ∀ x ∈ new, Made x.1 ∧ x.1.noNaN ∧ mkAxis P defs (x.1, none) = .ok x
  | [], new, _, h => by cases h; simp
  | a :: axes, new, hm, h => by
    simp only [List.map_cons, mapE] at h
    cases hy : mkAxis P defs (a, none) with
    | error e => rw [hy] at h; cases h
    | ok y =>
      rw [hy] at h
      cases hr : mapE (mkAxis P defs) (axes.map fun a => (a, none)) with
      | error e => simp only [hr] at h; cases h
      | ok r =>
        simp only [hr] at h
        cases h
        intro x hx
        rcases List.mem_cons.mp hx with rfl | hx
        · have := mkAxis_made (hm a (by simp)).1 (hm a (by simp)).2 hy
          rw [this]
          exact ⟨(hm a (by simp)).1, (hm a (by simp)).2, hy⟩
        · exact mkAxis_all (fun b hb => hm b (List.mem_cons_of_mem _ hb)) hr x hx

theorem Sound.of_built {P : Parser β} {h : HistX β} (hb : BuiltHist P h) : Sound P h := by
  obtain ⟨⟨axes, w, filter, defs, at_, h₀, hm, hk, hh⟩, -⟩ := hb
  unfold mkHist at hk
  cases hn : mapE (mkAxis P defs) (axes.map fun a => (a, none)) with
  | error e => rw [hn] at hk; cases hk
  | ok new =>
  cases hf : mkFilter P defs filter with
  | error e => simp only [hn, hf] at hk; cases hk
  | ok fp =>
  cases hw : mkWeight P defs w filter fp with
  | error e => simp only [hn, hf, hw] at hk; cases hk
  | ok wp =>
  simp only [hn, hf, hw] at hk
  cases hk
  rw [hh]
  have hall := mkAxis_all hm hn
  obtain ⟨k1, k2, k3⟩ := filter_kinds new
  constructor
  · intro x hx
    have : x ∈ new := by
      simp only [HistX.axes, List.mem_append, List.mem_filter] at hx
      tauto
    exact hall x this
  · exact k1.symm
  · exact k2.symm
  · exact k3.symm
  · exact hf
  · exact hw

theorem mkHist_axes {P : Parser β} {h : HistX β} (hs : Sound P h) :
    mkHist P ((h.axes.map (·.1)).map fun a => (a, none)) h.weight h.filter h.defs h.attachment
      = .ok { h with content := .none } := by
  have h1 : mapE (mkAxis P h.defs) ((h.axes.map (·.1)).map fun a => (a, none)) = .ok h.axes := by
    rw [List.map_map, mapE_map]
    have := mapE_ok (fun x : AxisX × Option β => mkAxis P h.defs (x.1, none)) id h.axes fun x hx => (hs.axes x hx).2.2
    rw [List.map_id] at this
    exact this
  unfold mkHist
  simp only [h1, hs.filter, hs.weight]
  rw [← hs.group, ← hs.fixed, ← hs.profile]

theorem mapE_inverse {α γ δ : Type} {f : α → Except Err γ} {g : γ → Except Err δ} {k : α → δ} : ∀ {l : List α},
    (∀ x ∈ l, ∃ y, f x = .ok y ∧ g y = .ok (k x)) → ∃ ys, mapE f l = .ok ys ∧ mapE g ys = .ok (l.map k)
  | [], _ => ⟨[], rfl, rfl⟩
  | x :: l, h => by
    obtain ⟨y, hy, hy'⟩ := h x (by simp)
    obtain ⟨ys, hys, hys'⟩ := mapE_inverse (l := l) fun z hz => h z (List.mem_cons_of_mem _ hz)
    exact ⟨y :: ys, by simp only [mapE, hy, hys], by simp only [mapE, hy', hys', List.map_cons]⟩

/-! ## Shapes -/

theorem bins_pos {a : AxisX} (h : Made a) : 0 < a.bins := by
  have hv := made_valid h
  cases a <;> simp only [AxisX.bins, AxisX.Valid] at hv ⊢ <;> omega

theorem shape_pos {P : Parser β} {h : HistX β} (hs : Sound P h) : ∀ n ∈ h.shape, 0 < n := by
  intro n hn
  simp only [HistX.shape, List.mem_append, List.mem_map, List.mem_singleton] at hn
  rcases hn with ⟨x, hx, rfl⟩ | rfl
  · exact bins_pos (hs.axes x (by simp [HistX.axes, hx])).1
  · unfold HistX.columns
    split <;> omega

/-! ## JSON objects -/

/-- What was found under a key. -/
def foundJ : Option (String × J) → Except Err J
  | some p => .ok p.2
  | none => .error .keyError

theorem get_obj (l : List (String × J)) (k : String) :
    (J.obj l).get k = foundJ (l.find? fun p => decide (p.1 = k)) := by
  unfold J.obj J.get
  simp only [List.find?_map]
  have : ((fun p : Key × J => decide (p.1 = Key.str k)) ∘ fun p : String × J => (Key.str p.1, p.2))
      = fun p : String × J => decide (p.1 = k) := by
    funext p; simp
  rw [this]
  cases l.find? fun p => decide (p.1 = k) <;> rfl

theorem objOf_obj (l : List (String × J)) : (J.obj l).objOf = .ok l := by
  unfold J.obj J.objOf
  induction l with
  | nil => rfl
  | cons p l ih =>
    simp only [List.map_cons, mapE] at ih ⊢
    simp only [ih]

theorem defsOf_obj (d : List (String × String)) : (J.obj (d.map fun p => (p.1, J.str p.2))).defsOf = .ok d := by
  unfold J.defsOf
  rw [objOf_obj]
  change mapE _ _ = _
  induction d with
  | nil => rfl
  | cons p d ih => simp only [List.map_cons, mapE, ih]

end Verif
