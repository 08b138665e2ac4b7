import Verif.Samples
import Verif.PropsHeap
import Verif.BookArithLemmas
import Verif.PropsBookHistory

/-!
# Lemmas about samples books (helpers)
-/

namespace Verif

/-! ## worlds of one definition -/

/-- An operation leaves the variables alone that it is not meant to change. -/
theorem step_vars (H : HistDef) (w : World) (op : Op) (k : ℕ) (hk : k < w.vars.length) (hw : op.writes ≠ some k) :
    (w.step H op).1.vars[k]? = w.vars[k]? := by
  have set_ne : ∀ (i : ℕ) (v : HObj), i ≠ k → (w.vars.set i v)[k]? = w.vars[k]? := fun i v h => List.getElem?_set_ne h
  have app : ∀ v : HObj, (w.vars ++ [v])[k]? = w.vars[k]? := fun v => List.getElem?_append_left hk
  have inp : ∀ (w' : World) (i : ℕ) (f : H.State → Res H.State), i ≠ k → w'.vars[k]? = w.vars[k]? →
      (w'.inplace H i f).1.vars[k]? = w.vars[k]? := by
    intro w' i f hi hw'
    have hs : ∀ v : HObj, (w'.vars.set i v)[k]? = w.vars[k]? := fun v => by rw [List.getElem?_set_ne hi, hw']
    unfold World.inplace
    split
    · exact hw'
    · split
      · exact hw'
      · split
        · exact hs _
        · exact hs _
  have ne : ∀ i, op.writes = some i → i ≠ k := fun i h e => hw (by rw [h, e])
  cases op with
  | fill i rows =>
    refine inp _ i _ (ne i rfl) ?_
    unfold World.uncopy
    split
    · rfl
    · split
      · split
        · rfl
        · exact set_ne _ _ (ne i rfl)
      · rfl
  | bookFill i rows => exact inp w i _ (ne i rfl) rfl
  | add i j =>
    simp only [World.step, World.add, World.newVar]
    split
    · split
      · split
        · exact app _
        · rfl
      · split
        · rfl
        · exact app _
      · split
        · rfl
        · exact app _
    · rfl
  | iadd i j =>
    simp only [World.step]
    split
    · rfl
    · exact inp w i _ (ne i rfl) rfl
  | mul i q =>
    simp only [World.step, World.newVar]
    split
    · split
      · exact app _
      · rfl
    · rfl
  | imul i q => exact inp w i _ (ne i rfl) rfl
  | copy i =>
    simp only [World.step, World.newVar]
    split
    · exact app _
    · rfl
  | copyonfill i =>
    simp only [World.step]
    split
    · exact app _
    · rfl
  | clear i =>
    simp only [World.step]
    split
    · exact set_ne _ _ (ne i rfl)
    · rfl
  | cleared i =>
    simp only [World.step]
    split
    · exact app _
    · rfl
  | read i =>
    simp only [World.step]
    split
    · exact inp w i _ (ne i rfl) rfl
    · rfl
    · rfl

theorem writes_mem_refs {op : Op} {i : ℕ} (h : op.writes = some i) : i ∈ op.refs := by
  cases op <;> simp only [Op.writes, reduceCtorEq, Option.some.injEq] at h <;> subst h <;> simp [Op.refs]

/-- New histograms without content. -/
theorem owned_append {H : HistDef} {own : ℕ → Set ℕ} {t : ℕ} {w : World} (hw : w.Owned H own t) (l : List HObj)
    (hl : ∀ v ∈ l, v.content = none) :
    (World.mk w.heap (w.vars ++ l)).Owned H (fun i => if i < w.vars.length then own i else {t + i}) (t + w.vars.length + l.length)
      := by
  refine ⟨?_, ?_, ?_⟩
  · obtain ⟨m, ok, hv⟩ := hw.sep
    refine ⟨m, ok, ?_⟩
    intro i v a hi ha
    by_cases h : i < w.vars.length
    · rw [List.getElem?_append_left h] at hi
      simp only [if_pos h]
      exact hv i v a hi ha
    · rw [List.getElem?_append_right (by omega)] at hi
      rw [hl v (List.mem_of_getElem? hi)] at ha
      cases ha
  · intro i
    by_cases h : i < w.vars.length
    · simp only [if_pos h]; exact hw.nonempty i
    · simp only [if_neg h]; exact ⟨_, rfl⟩
  · intro i hi x hx
    simp only [List.length_append] at hi
    by_cases h : i < w.vars.length
    · simp only [if_pos h] at hx
      have := hw.lt i h x hx
      omega
    · simp only [if_neg h, Set.mem_singleton_iff] at hx
      omega

/-- After a fill of a histogram that is a copy on fill, it has no objects in common with others. -/
theorem fill_lone {H : HistDef} {own : ℕ → Set ℕ} {t : ℕ} {w : World} (h1 : w.Owned H own t) {c : ℕ} {v : HObj}
    (hc : w.vars[c]? = some v) (hcof : v.cof = true) (rows : List Row) :
    (w.step H (.fill c rows)).1.Owned H (Function.update own c {t}) (t + 1) ∧
    (∀ k, k < w.vars.length → k ≠ c → (w.step H (.fill c rows)).1.view H k = w.view H k) ∧
    ∀ k, k < w.vars.length → k ≠ c → Disjoint (Function.update own c {t} c) (Function.update own c {t} k) := by
  have hcl : c < w.vars.length := (List.getElem?_eq_some_iff.1 hc).1
  obtain ⟨u1, u2, u3, u4⟩ := uncopy_spec h1.sep c (h1.nonempty c)
  have u4 := u4 v hc hcof {t} ⟨_, rfl⟩
  have hdis : ∀ k, k < w.vars.length → k ≠ c → Disjoint (Function.update own c {t} k) (Function.update own c {t} c) := by
    intro k hk hkc
    rw [Function.update_of_ne hkc, Function.update_self, Set.disjoint_singleton_right]
    intro hx
    exact absurd (h1.lt k hk _ hx) (lt_irrefl _)
  have hne : ∀ i, (Function.update own c {t} i).Nonempty := by
    intro i
    by_cases hi : i = c
    · subst hi; rw [Function.update_self]; exact ⟨_, rfl⟩
    · rw [Function.update_of_ne hi]; exact h1.nonempty i
  obtain ⟨i1, i2, i3, _⟩ := inplace_spec u4 c (fun s => H.fill s rows) (fun s hs => fill_distinct H s rows hs)
    (by rw [u2]; exact hcl) (hne c)
  refine ⟨⟨i1, hne, ?_⟩, ?_, fun k hk hkc => (hdis k hk hkc).symm⟩
  · intro i hi x hx
    by_cases hic : i = c
    · subst hic
      rw [Function.update_self] at hx
      rw [Set.mem_singleton_iff] at hx
      omega
    · rw [Function.update_of_ne hic] at hx
      have hi' : i < ((w.uncopy H c).inplace H c (fun s => H.fill s rows)).1.vars.length := hi
      have := h1.lt i (by rw [i2, u2] at hi'; exact hi') x hx
      omega
  · intro k hk hkc
    show ((w.uncopy H c).inplace H c (fun s => H.fill s rows)).1.view H k = _
    rw [i3 k hkc (hdis k hk hkc), u3 k]

/-! ## programs -/

section
variable {D : ℕ → HistDef}

theorem after_of {d : ℕ} {u : DVar} {v : HObj} : (DVar.after d (some u) v).of d = if u.d = d then v else ⟨none, false⟩ := by
  unfold DVar.after DVar.of
  by_cases h : u.d = d <;> simp [h]

theorem after_of_ne {d e : ℕ} (he : e ≠ d) {u : DVar} {v : HObj} : (DVar.after d (some u) v).of e = u.of e := by
  unfold DVar.after
  by_cases h : u.d = d
  · simp [DVar.of, h, Ne.symm he]
  · simp [h]

theorem after_none_of_ne {d e : ℕ} (he : e ≠ d) {v : HObj} : (DVar.after d none v).of e = ⟨none, false⟩ := by
  simp [DVar.after, DVar.of, Ne.symm he]

theorem after_none_of {d : ℕ} {v : HObj} : (DVar.after d none v).of d = v := by simp [DVar.after, DVar.of]

/-- All objects have owners. -/
def Prog.Fine (D : ℕ → HistDef) (P : Prog) : Prop := ∀ d, ∃ own t, (P.world d).Owned (D d) own t

/-- Two histograms have no objects in common. -/
def Prog.Apart (D : ℕ → HistDef) (P : Prog) (i k : ℕ) : Prop :=
  ∀ d, ∃ own t, (P.world d).Owned (D d) own t ∧ Disjoint (own i) (own k)

theorem Prog.Apart.fine {P : Prog} {i k : ℕ} (h : P.Apart D i k) : P.Fine D := fun d => by
  obtain ⟨own, t, h1, _⟩ := h d; exact ⟨own, t, h1⟩

theorem Prog.Apart.symm {P : Prog} {i k : ℕ} (h : P.Apart D i k) : P.Apart D k i := fun d => by
  obtain ⟨own, t, h1, h2⟩ := h d; exact ⟨own, t, h1, h2.symm⟩

theorem world_length (P : Prog) (d : ℕ) : (P.world d).vars.length = P.vars.length := by simp [Prog.world]

theorem world_vars (P : Prog) (d k : ℕ) : (P.world d).vars[k]? = P.vars[k]?.map (DVar.of d) := by simp [Prog.world]

/-- After an operation on definition `d`, its world is what the operation has left. -/
theorem back_world (P : Prog) (d : ℕ) (op : Op) (hr : ∀ i ∈ op.refs, P.vars[i]?.map DVar.d = some d)
    (hl : P.vars.length ≤ ((P.world d).step (D d) op).1.vars.length) :
    (P.back d ((P.world d).step (D d) op).1).world d = ((P.world d).step (D d) op).1 := by
  have hv : ((P.back d ((P.world d).step (D d) op).1).world d).vars = ((P.world d).step (D d) op).1.vars := by
    apply List.ext_getElem?
    intro k
    rw [world_vars, Prog.back]
    simp only [List.getElem?_mapIdx, Option.map_map]
    by_cases hk : k < P.vars.length
    · have hu : P.vars[k]? = some P.vars[k] := List.getElem?_eq_getElem hk
      have hk' : k < ((P.world d).step (D d) op).1.vars.length := by omega
      have hs : ((P.world d).step (D d) op).1.vars[k]? = some ((P.world d).step (D d) op).1.vars[k] :=
        List.getElem?_eq_getElem hk'
      rw [hs, Option.map_some, hu, Option.some.injEq, Function.comp_apply, after_of]
      by_cases hd : P.vars[k].d = d
      · rw [if_pos hd]
      · rw [if_neg hd]
        have hw : op.writes ≠ some k := by
          intro hw
          have := hr k (writes_mem_refs hw)
          rw [hu] at this
          exact hd (Option.some.inj this)
        have := step_vars (D d) (P.world d) op k (by rw [world_length]; exact hk) hw
        rw [hs, world_vars, hu, Option.map_some, Option.some.injEq] at this
        rw [this, DVar.of, if_neg hd]
    · rw [List.getElem?_eq_none (l := P.vars) (by omega)]
      cases ((P.world d).step (D d) op).1.vars[k]? with
      | none => rfl
      | some v => rw [Option.map_some, Function.comp_apply, after_none_of]
  have hh : ((P.back d ((P.world d).step (D d) op).1).world d).heap = ((P.world d).step (D d) op).1.heap := by
    simp [Prog.world, Prog.back]
  cases hb : (P.back d ((P.world d).step (D d) op).1).world d with
  | mk h1 v1 =>
    cases hs : ((P.world d).step (D d) op).1 with
    | mk h2 v2 =>
      rw [hb, hs] at hv hh
      simp only at hv hh
      rw [hv, hh]

/-- Those of the other definitions are as before, perhaps with new ones that are none of theirs. -/
theorem back_world_ne (P : Prog) {d e : ℕ} (he : e ≠ d) (w : World) (hl : P.vars.length ≤ w.vars.length) :
    (P.back d w).world e = ⟨P.heaps e, (P.world e).vars ++ List.replicate (w.vars.length - P.vars.length) ⟨none, false⟩⟩ := by
  have hv : ((P.back d w).world e).vars = (P.world e).vars ++ List.replicate (w.vars.length - P.vars.length) ⟨none, false⟩ := by
    apply List.ext_getElem?
    intro k
    rw [world_vars, Prog.back]
    simp only [List.getElem?_mapIdx, Option.map_map]
    by_cases hk : k < P.vars.length
    · rw [List.getElem?_append_left (by rw [world_length]; exact hk), world_vars]
      have hu : P.vars[k]? = some P.vars[k] := List.getElem?_eq_getElem hk
      have hk' : k < w.vars.length := by omega
      rw [List.getElem?_eq_getElem hk', hu, Option.map_some, Option.map_some, Function.comp_apply, after_of_ne he]
    · rw [List.getElem?_append_right (by rw [world_length]; omega), world_length, List.getElem?_replicate,
        List.getElem?_eq_none (l := P.vars) (by omega)]
      by_cases hk' : k < w.vars.length
      · rw [List.getElem?_eq_getElem hk', if_pos (by omega), Option.map_some, Function.comp_apply, after_none_of_ne he]
      · rw [List.getElem?_eq_none (by omega), if_neg (by omega)]
        rfl
  have hh : ((P.back d w).world e).heap = P.heaps e := by simp [Prog.world, Prog.back, he]
  cases hb : (P.back d w).world e with
  | mk h1 v1 =>
    rw [hb] at hv hh
    simp only at hv hh
    rw [hv, hh]

theorem back_length (P : Prog) (d : ℕ) (w : World) : (P.back d w).vars.length = w.vars.length := by simp [Prog.back]

theorem step_refs {P : Prog} {d : ℕ} {op : Op}
    (h : (op.refs.all fun i => decide ((P.vars[i]?.map DVar.d) = some d)) = true) :
    ∀ i ∈ op.refs, P.vars[i]?.map DVar.d = some d := fun i hi => by
  have := List.all_eq_true.mp h i hi
  exact of_decide_eq_true this

/-- What an operation does to the worlds. -/
theorem prog_step {P : Prog} (hP : P.Fine D) (d : ℕ) (op : Op) :
    P.vars.length ≤ (P.step D d op).1.vars.length ∧
    ((P.step D d op).1.world d = ((P.world d).step (D d) op).1 ∨ (P.step D d op).1.world d = P.world d) ∧
    (∀ e, e ≠ d → ∃ n, (P.step D d op).1.world e = ⟨(P.world e).heap, (P.world e).vars ++ List.replicate n ⟨none, false⟩⟩) := by
  unfold Prog.step
  split
  · rename_i hr
    have hr := step_refs hr
    obtain ⟨own, t, ho⟩ := hP d
    have hl := step_length (D d) own t _ ho op
    rw [world_length] at hl
    refine ⟨by rw [back_length]; exact hl, Or.inl (back_world P d op hr hl), fun e he => ⟨_, back_world_ne P he _ hl⟩⟩
  · exact ⟨le_refl _, Or.inr rfl, fun e _ => ⟨0, by simp⟩⟩

theorem apart_step {P : Prog} {i k : ℕ} (hi : i < P.vars.length) (hk : k < P.vars.length) (h : P.Apart D i k) (d : ℕ)
    (op : Op) : (P.step D d op).1.Apart D i k := by
  obtain ⟨_, h2, h3⟩ := prog_step h.fine d op
  intro e
  by_cases he : e = d
  · subst he
    obtain ⟨own, t, ho, hd⟩ := h e
    rcases h2 with h2 | h2
    · obtain ⟨own', a1, a2, _, _⟩ := owned_step (D e) own t _ ho op
      rw [world_length] at a2
      exact ⟨own', t + 1, by rw [h2]; exact a1, by rw [a2 i hi, a2 k hk]; exact hd⟩
    · exact ⟨own, t, by rw [h2]; exact ho, hd⟩
  · obtain ⟨own, t, ho, hd⟩ := h e
    obtain ⟨n, hn⟩ := h3 e he
    refine ⟨fun i => if i < (P.world e).vars.length then own i else {t + i},
      t + (P.world e).vars.length + (List.replicate n (⟨none, false⟩ : HObj)).length, ?_, ?_⟩
    · rw [hn]
      exact owned_append ho _ (fun v hv => by rw [List.eq_of_mem_replicate hv])
    · rw [world_length]
      simp only [if_pos hi, if_pos hk]
      exact hd

theorem fine_step {P : Prog} (h : P.Fine D) (d : ℕ) (op : Op) : (P.step D d op).1.Fine D := by
  obtain ⟨_, h2, h3⟩ := prog_step h d op
  intro e
  obtain ⟨own, t, ho⟩ := h e
  by_cases he : e = d
  · subst he
    rcases h2 with h2 | h2
    · obtain ⟨own', a1, _⟩ := owned_step (D e) own t _ ho op
      exact ⟨own', t + 1, by rw [h2]; exact a1⟩
    · exact ⟨own, t, by rw [h2]; exact ho⟩
  · obtain ⟨n, hn⟩ := h3 e he
    exact ⟨_, _, by rw [hn]; exact owned_append ho _ (fun v hv => by rw [List.eq_of_mem_replicate hv])⟩

/-- An operation on one of two histograms without common objects does not change the other. -/
theorem apart_frame {P : Prog} {k : ℕ} (hk : k < P.vars.length) (hP : P.Fine D) (d : ℕ) (op : Op)
    (hop : ∀ i, op.writes = some i → i < P.vars.length → i ≠ k ∧ P.Apart D i k) (e : ℕ) :
    (P.step D d op).1.view D e k = P.view D e k := by
  obtain ⟨_, h2, h3⟩ := prog_step hP d op
  unfold Prog.view
  by_cases he : e = d
  · subst he
    rcases h2 with h2 | h2
    · rw [h2]
      obtain ⟨own0, t0, ho0⟩ := hP e
      by_cases hi : ∃ i, op.writes = some i ∧ i < P.vars.length
      · obtain ⟨i, hi, hil⟩ := hi
        obtain ⟨hik, ha⟩ := hop i hi hil
        obtain ⟨own, t, ho, hd⟩ := ha e
        apply step_frame (D e) own t _ ho op k (by rw [world_length]; exact hk)
        intro j hj _
        rw [hi] at hj
        cases hj
        exact ⟨hik, hd⟩
      · apply step_frame (D e) own0 t0 _ ho0 op k (by rw [world_length]; exact hk)
        intro i hwi hil
        rw [world_length] at hil
        exact absurd ⟨i, hwi, hil⟩ hi
    · rw [h2]
  · obtain ⟨n, hn⟩ := h3 e he
    unfold World.view
    rw [hn]
    simp only
    rw [List.getElem?_append_left (by rw [world_length]; exact hk)]

theorem stepAt_length {P : Prog} (h : P.Fine D) (i : ℕ) (f : ℕ → Op) : P.vars.length ≤ (P.stepAt D i f).1.vars.length := by
  unfold Prog.stepAt
  split
  · exact (prog_step h _ _).1
  · exact le_refl _

theorem fine_stepAt {P : Prog} (h : P.Fine D) (i : ℕ) (f : ℕ → Op) : (P.stepAt D i f).1.Fine D := by
  unfold Prog.stepAt
  split
  · exact fine_step h _ _
  · exact h

theorem apart_stepAt {P : Prog} {a k : ℕ} (ha : a < P.vars.length) (hk : k < P.vars.length) (h : P.Apart D a k) (i : ℕ)
    (f : ℕ → Op) : (P.stepAt D i f).1.Apart D a k := by
  unfold Prog.stepAt
  split
  · exact apart_step ha hk h _ _
  · exact h

theorem stepAt_frame {P : Prog} {i k : ℕ} (hk : k < P.vars.length) (hP : P.Fine D) (f : ℕ → Op)
    (hf : ∀ d, (f d).writes = some i) (hik : i < P.vars.length → i ≠ k ∧ P.Apart D i k) (e : ℕ) :
    (P.stepAt D i f).1.view D e k = P.view D e k := by
  unfold Prog.stepAt
  split
  · apply apart_frame hk hP
    intro j hj hjl
    rw [hf] at hj
    cases hj
    exact hik hjl
  · rfl

/-- Everything there is to know about the two loops of a fill. -/
theorem preAll_spec : ∀ (is : List ℕ) (P : Prog), P.Fine D →
    (P.preAll D is).Fine D ∧ P.vars.length ≤ (P.preAll D is).vars.length ∧
    (∀ a k, a < P.vars.length → k < P.vars.length → P.Apart D a k → (P.preAll D is).Apart D a k) ∧
    (∀ k, k < P.vars.length → (∀ i ∈ is, i < P.vars.length ∧ i ≠ k ∧ P.Apart D i k) → ∀ e,
      (P.preAll D is).view D e k = P.view D e k)
  | [], P, h => ⟨h, le_refl _, fun _ _ _ _ h => h, fun _ _ _ _ => rfl⟩
  | i :: is, P, h => by
    have hl := stepAt_length h i (fun _ => .read i)
    obtain ⟨a1, a2, a3, a4⟩ := preAll_spec is _ (fine_stepAt h i (fun _ => .read i))
    refine ⟨a1, le_trans hl a2, ?_, ?_⟩
    · intro a k ha hk hak
      exact a3 a k (by omega) (by omega) (apart_stepAt ha hk hak _ _)
    · intro k hk hi e
      rw [Prog.preAll, a4 k (by omega) ?_ e]
      · exact stepAt_frame hk h _ (fun _ => rfl) (fun _ => (hi i (by simp)).2) e
      · intro j hj
        obtain ⟨b1, b2, b3⟩ := hi j (by simp [hj])
        exact ⟨by omega, b2, apart_stepAt b1 hk b3 _ _⟩

theorem postAll_spec (batch : ℕ → List Row) : ∀ (is : List ℕ) (P : Prog), P.Fine D →
    (P.postAll D batch is).1.Fine D ∧ P.vars.length ≤ (P.postAll D batch is).1.vars.length ∧
    (∀ a k, a < P.vars.length → k < P.vars.length → P.Apart D a k → (P.postAll D batch is).1.Apart D a k) ∧
    (∀ k, k < P.vars.length → (∀ i ∈ is, i < P.vars.length ∧ i ≠ k ∧ P.Apart D i k) → ∀ e,
      (P.postAll D batch is).1.view D e k = P.view D e k)
  | [], P, h => ⟨h, le_refl _, fun _ _ _ _ h => h, fun _ _ _ _ => rfl⟩
  | i :: is, P, h => by
    have hl := stepAt_length h i (fun d => .bookFill i (batch d))
    have hf := fine_stepAt h i (fun d => .bookFill i (batch d))
    have hfr : ∀ k, k < P.vars.length → (∀ j ∈ i :: is, j < P.vars.length ∧ j ≠ k ∧ P.Apart D j k) → ∀ e,
        (P.stepAt D i fun d => .bookFill i (batch d)).1.view D e k = P.view D e k := fun k hk hi e =>
      stepAt_frame hk h _ (fun _ => rfl) (fun _ => (hi i (by simp)).2) e
    have hap : ∀ a k, a < P.vars.length → k < P.vars.length → P.Apart D a k →
        (P.stepAt D i fun d => .bookFill i (batch d)).1.Apart D a k := fun a k ha hk hak => apart_stepAt ha hk hak _ _
    rw [Prog.postAll]
    revert hl hf hfr hap
    cases (P.stepAt D i fun d => .bookFill i (batch d)) with
    | mk P' e =>
      intro hl hf hfr hap
      cases e with
      | some e => exact ⟨hf, hl, hap, hfr⟩
      | none =>
        obtain ⟨a1, a2, a3, a4⟩ := postAll_spec batch is P' hf
        refine ⟨a1, le_trans hl a2, ?_, ?_⟩
        · intro a k ha hk hak
          simp only at hl
          exact a3 a k (by omega) (by omega) (hap a k ha hk hak)
        · intro k hk hi e
          simp only at hl
          refine (a4 k (by omega) ?_ e).trans (hfr k hk hi e)
          intro j hj
          obtain ⟨b1, b2, b3⟩ := hi j (by simp [hj])
          exact ⟨by omega, b2, hap j k b1 hk b3⟩

theorem fillBook_spec (batch : ℕ → List Row) (is : List ℕ) (P : Prog) (h : P.Fine D) :
    (P.fillBook D is batch).1.Fine D ∧ P.vars.length ≤ (P.fillBook D is batch).1.vars.length ∧
    (∀ a k, a < P.vars.length → k < P.vars.length → P.Apart D a k → (P.fillBook D is batch).1.Apart D a k) ∧
    (∀ k, k < P.vars.length → (∀ i ∈ is, i < P.vars.length ∧ i ≠ k ∧ P.Apart D i k) → ∀ e,
      (P.fillBook D is batch).1.view D e k = P.view D e k) := by
  obtain ⟨a1, a2, a3, a4⟩ := preAll_spec is P h
  obtain ⟨b1, b2, b3, b4⟩ := postAll_spec batch is _ a1
  refine ⟨b1, le_trans a2 b2, ?_, ?_⟩
  · intro a k ha hk hak
    exact b3 a k (by omega) (by omega) (a3 a k ha hk hak)
  · intro k hk hi e
    refine (b4 k (by omega) ?_ e).trans (a4 k hk hi e)
    intro j hj
    obtain ⟨c1, c2, c3⟩ := hi j hj
    exact ⟨by omega, c2, a3 j k c1 hk c3⟩

theorem run_spec : ∀ (ops : List POp) (P : Prog), P.Fine D → (P.run D ops).Fine D ∧
    P.vars.length ≤ (P.run D ops).vars.length ∧
    ∀ a k, a < P.vars.length → k < P.vars.length → P.Apart D a k → (P.run D ops).Apart D a k
  | [], P, h => ⟨h, le_refl _, fun _ _ _ _ h => h⟩
  | op :: ops, P, h => by
    have key : (P.next D op).Fine D ∧ P.vars.length ≤ (P.next D op).vars.length ∧
        ∀ a k, a < P.vars.length → k < P.vars.length → P.Apart D a k → (P.next D op).Apart D a k := by
      cases op with
      | hist d op => exact ⟨fine_step h d op, (prog_step h d op).1, fun a k ha hk hak => apart_step ha hk hak d op⟩
      | book is batch =>
        obtain ⟨a1, a2, a3, _⟩ := fillBook_spec batch is P h
        exact ⟨a1, a2, a3⟩
    obtain ⟨k1, k2, k3⟩ := key
    obtain ⟨a1, a2, a3⟩ := run_spec ops _ k1
    exact ⟨a1, le_trans k2 a2, fun a k ha hk hak => a3 a k (by omega) (by omega) (k3 a k ha hk hak)⟩

theorem fine_start (ds : List ℕ) : (Prog.start ds).Fine D := by
  intro d
  have : (Prog.start ds).world d = World.start ds.length := by
    simp only [Prog.world, Prog.start, World.start, List.map_map]
    congr 1
    rw [List.eq_replicate_iff]
    refine ⟨by simp, ?_⟩
    intro b hb
    obtain ⟨x, _, rfl⟩ := List.mem_map.1 hb
    simp only [Function.comp_apply, DVar.of]
    split <;> rfl
  rw [this]
  exact ⟨_, _, owned_start (D d) ds.length⟩

/-- New histograms without content have nothing in common with any other. -/
theorem append_apart {P : Prog} (h : P.Fine D) (l : List DVar) (hl : ∀ v ∈ l, v.obj.content = none) (i k : ℕ)
    (hi : P.vars.length ≤ i) (hk : k < P.vars.length + l.length) (hik : i ≠ k) :
    (Prog.mk P.heaps (P.vars ++ l)).Apart D i k := by
  intro d
  obtain ⟨own, t, ho⟩ := h d
  refine ⟨fun i => if i < (P.world d).vars.length then own i else {t + i},
    t + (P.world d).vars.length + (l.map (DVar.of d)).length, ?_, ?_⟩
  · have : (Prog.mk P.heaps (P.vars ++ l)).world d = ⟨(P.world d).heap, (P.world d).vars ++ l.map (DVar.of d)⟩ := by
      simp [Prog.world]
    rw [this]
    apply owned_append ho
    intro v hv
    obtain ⟨u, hu, rfl⟩ := List.mem_map.1 hv
    unfold DVar.of
    split
    · exact hl u hu
    · rfl
  · rw [world_length]
    simp only [if_neg (not_lt.2 hi)]
    by_cases hk' : k < P.vars.length
    · simp only [if_pos hk']
      rw [Set.disjoint_singleton_left]
      intro hx
      have := ho.lt k (by rw [world_length]; exact hk') _ hx
      omega
    · simp only [if_neg hk', Set.disjoint_singleton]
      omega

theorem append_fine {P : Prog} (h : P.Fine D) (l : List DVar) (hl : ∀ v ∈ l, v.obj.content = none) :
    (Prog.mk P.heaps (P.vars ++ l)).Fine D := by
  intro d
  obtain ⟨own, t, ho⟩ := h d
  have : (Prog.mk P.heaps (P.vars ++ l)).world d = ⟨(P.world d).heap, (P.world d).vars ++ l.map (DVar.of d)⟩ := by
    simp [Prog.world]
  refine ⟨fun i => if i < (P.world d).vars.length then own i else {t + i},
    t + (P.world d).vars.length + (l.map (DVar.of d)).length, ?_⟩
  · rw [this]
    apply owned_append ho
    intro v hv
    obtain ⟨u, hu, rfl⟩ := List.mem_map.1 hv
    unfold DVar.of
    split
    · exact hl u hu
    · rfl

end

/-! ## single operations -/

section
variable {D : ℕ → HistDef}

theorem back_d (P : Prog) (d : ℕ) (w : World) (hl : P.vars.length ≤ w.vars.length) (k : ℕ) (hk : k < P.vars.length) :
    (P.back d w).vars[k]?.map DVar.d = P.vars[k]?.map DVar.d := by
  rw [Prog.back]
  simp only [List.getElem?_mapIdx]
  have hu : P.vars[k]? = some P.vars[k] := List.getElem?_eq_getElem hk
  have hw : w.vars[k]? = some (w.vars[k]'(by omega)) := List.getElem?_eq_getElem (by omega)
  rw [hu, hw, Option.map_some, Option.map_some, Option.map_some, DVar.after]
  split
  · rename_i h; rw [h]
  · rfl

theorem step_d {P : Prog} (hP : P.Fine D) (d : ℕ) (op : Op) (k : ℕ) (hk : k < P.vars.length) :
    (P.step D d op).1.vars[k]?.map DVar.d = P.vars[k]?.map DVar.d := by
  unfold Prog.step
  split
  · obtain ⟨own, t, ho⟩ := hP d
    have hl := step_length (D d) own t _ ho op
    rw [world_length] at hl
    exact back_d P d _ hl k hk
  · rfl

theorem stepAt_d {P : Prog} (hP : P.Fine D) (i : ℕ) (f : ℕ → Op) (k : ℕ) (hk : k < P.vars.length) :
    (P.stepAt D i f).1.vars[k]?.map DVar.d = P.vars[k]?.map DVar.d := by
  unfold Prog.stepAt
  split
  · exact step_d hP _ _ k hk
  · rfl

/-- What an operation on one histogram alone does to it. -/
theorem stepAt_self {P : Prog} (hP : P.Fine D) {i d : ℕ} (hd : P.vars[i]?.map DVar.d = some d) (f : ℕ → Op)
    (hf : (f d).refs = [i]) (hw : (f d).writes = some i) {s : (D d).State} (hs : P.view D d i = some s) :
    ∃ vals, vals[i]? = some s ∧ (P.stepAt D i f).1.view D d i = (valueStep (D d) vals (f d)).1[i]? ∧
      (P.stepAt D i f).2 = (valueStep (D d) vals (f d)).2 := by
  obtain ⟨own, t, ho⟩ := hP d
  obtain ⟨vals, hv⟩ := shows_view (D d) _ own ho.sep
  obtain ⟨own', a1, a2, a3, a4⟩ := owned_step (D d) own t _ ho (f d)
  obtain ⟨s1, s2, s3, s4⟩ := a4 vals hv
  refine ⟨vals, by rw [← hv.2 i]; exact hs, ?_⟩
  cases hi : P.vars[i]? with
  | none => rw [hi] at hd; cases hd
  | some v =>
    rw [hi, Option.map_some, Option.some.injEq] at hd
    have hall : ((f d).refs.all fun i => decide ((P.vars[i]?.map DVar.d) = some d)) = true := by
      rw [hf]; simp [hi, hd]
    have hl := step_length (D d) own t _ ho (f d)
    rw [world_length] at hl
    have he : P.stepAt D i f = (P.back d ((P.world d).step (D d) (f d)).1, ((P.world d).step (D d) (f d)).2) := by
      unfold Prog.stepAt
      rw [hi]
      simp only
      rw [hd]
      unfold Prog.step
      rw [if_pos hall]
    rw [he]
    refine ⟨?_, s3⟩
    unfold Prog.view
    rw [back_world P d (f d) (step_refs hall) hl]
    exact s4 i (fun j hj hne => by rw [hw] at hj; cases hj; exact absurd rfl hne)

theorem valueStep_bookFill {H : HistDef} {vals : List H.State} {i : ℕ} {s : H.State} (h : vals[i]? = some s) (rows : List Row) :
    (valueStep H vals (.bookFill i rows)).1[i]? = some (H.fill s rows).after ∧
    (valueStep H vals (.bookFill i rows)).2 = (H.fill s rows).exn := by
  simp only [valueStep, h]
  exact ⟨List.getElem?_set_self (List.getElem?_eq_some_iff.1 h).1, trivial⟩

theorem valueStep_read {H : HistDef} {vals : List H.State} {i : ℕ} {s : H.State} (h : vals[i]? = some s) :
    (valueStep H vals (.read i)).1[i]? = some (some (prefill H.layout s)) := by
  simp only [valueStep, h]
  exact List.getElem?_set_self (List.getElem?_eq_some_iff.1 h).1

theorem fill_prefill (H : HistDef) (s : H.State) (rows : List Row) :
    H.fill (some (prefill H.layout s)) rows = H.fill s rows := by
  cases s <;> rfl

/-- The first loop of a fill. -/
theorem preAll_value : ∀ (is : List ℕ) (P : Prog), P.Fine D → is.Nodup → (∀ i ∈ is, i < P.vars.length) →
    (∀ i ∈ is, ∀ j ∈ is, i ≠ j → P.Apart D i j) → ∀ i ∈ is, ∀ d, P.vars[i]?.map DVar.d = some d → ∀ s, P.view D d i = some s →
    (P.preAll D is).view D d i = some (some (prefill (D d).layout s))
  | [], _, _, _, _, _, i, hi, _, _, _, _ => by cases hi
  | a :: is, P, hP, hn, hr, hap, i, hi, d, hd, s, hs => by
    rw [List.nodup_cons] at hn
    have hf := fine_stepAt hP a (fun _ => .read a)
    have hl := stepAt_length hP a (fun _ => .read a)
    rw [Prog.preAll]
    by_cases hia : i = a
    · subst hia
      obtain ⟨vals, h1, h2, _⟩ := stepAt_self hP hd (fun _ => .read i) rfl rfl hs
      rw [valueStep_read h1] at h2
      rw [(preAll_spec is _ hf).2.2.2 i (by have := hr i (by simp); omega) ?_ d, h2]
      intro j hj
      have hji : j ≠ i := fun (e : j = i) => hn.1 (e ▸ hj)
      have hjr := hr j (by simp [hj])
      exact ⟨by omega, hji, apart_stepAt hjr (hr i (by simp)) (hap j (by simp [hj]) i (by simp) hji) _ _⟩
    · have hi' : i ∈ is := by rcases List.mem_cons.1 hi with h | h; exact absurd h hia; exact h
      have hir := hr i hi
      refine preAll_value is _ hf hn.2 (fun j hj => by have := hr j (by simp [hj]); omega) ?_ i hi' d ?_ s ?_
      · intro j hj k hk hjk
        exact apart_stepAt (hr j (by simp [hj])) (hr k (by simp [hk])) (hap j (by simp [hj]) k (by simp [hk]) hjk) _ _
      · rw [stepAt_d hP _ _ _ hir]; exact hd
      · rw [stepAt_frame hir hP _ (fun _ => rfl) (fun _ => ⟨fun e => hia e.symm, hap a (by simp) i hi (fun e => hia e.symm)⟩) d]
        exact hs

/-- The second loop of a fill. -/
theorem postAll_value (batch : ℕ → List Row) : ∀ (is : List ℕ) (P : Prog), P.Fine D → is.Nodup → (∀ i ∈ is, i < P.vars.length) →
    (∀ i ∈ is, ∀ j ∈ is, i ≠ j → P.Apart D i j) → (P.postAll D batch is).2 = none →
    ∀ i ∈ is, ∀ d, P.vars[i]?.map DVar.d = some d → ∀ s, P.view D d i = some s →
    ∃ s', (D d).fill s (batch d) = .ok s' ∧ (P.postAll D batch is).1.view D d i = some s'
  | [], _, _, _, _, _, _, i, hi, _, _, _, _ => by cases hi
  | a :: is, P, hP, hn, hr, hap, hex, i, hi, d, hd, s, hs => by
    rw [List.nodup_cons] at hn
    have hf := fine_stepAt hP a (fun d => .bookFill a (batch d))
    have hl := stepAt_length hP a (fun d => .bookFill a (batch d))
    have hap' : ∀ j ∈ a :: is, ∀ k ∈ a :: is, j ≠ k → (P.stepAt D a fun d => .bookFill a (batch d)).1.Apart D j k :=
      fun j hj k hk hjk => apart_stepAt (hr j hj) (hr k hk) (hap j hj k hk hjk) _ _
    have hself : i = a → (P.stepAt D a fun d => .bookFill a (batch d)).1.view D d i = some ((D d).fill s (batch d)).after ∧
        (P.stepAt D a fun d => .bookFill a (batch d)).2 = ((D d).fill s (batch d)).exn := by
      rintro rfl
      obtain ⟨vals, h1, h2, h3⟩ := stepAt_self hP hd (fun d => .bookFill i (batch d)) rfl rfl hs
      obtain ⟨h4, h5⟩ := valueStep_bookFill h1 (batch d)
      exact ⟨h2.trans h4, h3.trans h5⟩
    have hother : i ≠ a → (P.stepAt D a fun d => .bookFill a (batch d)).1.view D d i = some s ∧
        (P.stepAt D a fun d => .bookFill a (batch d)).1.vars[i]?.map DVar.d = some d := fun hia =>
      ⟨by rw [stepAt_frame (hr i hi) hP _ (fun _ => rfl)
          (fun _ => ⟨fun e => hia e.symm, hap a (by simp) i hi (fun e => hia e.symm)⟩) d]; exact hs,
        by rw [stepAt_d hP _ _ _ (hr i hi)]; exact hd⟩
    have hrl : ∀ j ∈ a :: is, j < (P.stepAt D a fun d => .bookFill a (batch d)).1.vars.length := fun j hj =>
      lt_of_lt_of_le (hr j hj) hl
    rw [Prog.postAll] at hex ⊢
    revert hf hap' hself hother hrl hex
    cases (P.stepAt D a fun d => .bookFill a (batch d)) with
    | mk P' e =>
      intro hex hf hap' hself hother hrl
      simp only at hf hap' hself hother hrl
      cases e with
      | some e => cases hex
      | none =>
        simp only at hex ⊢
        by_cases hia : i = a
        · obtain ⟨h1, h2⟩ := hself hia
          refine ⟨_, res_ok _ h2.symm, ?_⟩
          rw [(postAll_spec batch is P' hf).2.2.2 i (hrl i hi) ?_ d, h1]
          intro j hj
          have hji : j ≠ i := fun (e : j = i) => hn.1 (hia ▸ e ▸ hj)
          exact ⟨hrl j (by simp [hj]), hji, hap' j (by simp [hj]) i hi hji⟩
        · have hi' : i ∈ is := by rcases List.mem_cons.1 hi with h | h; exact absurd h hia; exact h
          obtain ⟨h1, h2⟩ := hother hia
          exact postAll_value batch is P' hf hn.2 (fun j hj => hrl j (by simp [hj]))
            (fun j hj k hk hjk => hap' j (by simp [hj]) k (by simp [hk]) hjk) hex i hi' d h2 s h1

theorem preAll_d : ∀ (is : List ℕ) (P : Prog), P.Fine D → ∀ k, k < P.vars.length →
    (P.preAll D is).vars[k]?.map DVar.d = P.vars[k]?.map DVar.d
  | [], _, _, _, _ => rfl
  | a :: is, P, hP, k, hk => by
    have hl := stepAt_length hP a (fun _ => .read a)
    rw [Prog.preAll, preAll_d is _ (fine_stepAt hP a (fun _ => .read a)) k (by omega), stepAt_d hP _ _ _ hk]

theorem postAll_d (batch : ℕ → List Row) : ∀ (is : List ℕ) (P : Prog), P.Fine D → ∀ k, k < P.vars.length →
    (P.postAll D batch is).1.vars[k]?.map DVar.d = P.vars[k]?.map DVar.d
  | [], _, _, _, _ => rfl
  | a :: is, P, hP, k, hk => by
    have hl := stepAt_length hP a (fun d => .bookFill a (batch d))
    have hf := fine_stepAt hP a (fun d => .bookFill a (batch d))
    have hd := stepAt_d hP a (fun d => .bookFill a (batch d)) k hk
    rw [Prog.postAll]
    revert hl hf hd
    cases (P.stepAt D a fun d => .bookFill a (batch d)) with
    | mk P' e =>
      intro hl hf hd
      cases e with
      | some e => exact hd
      | none => exact (postAll_d batch is P' hf k (lt_of_lt_of_le hk hl)).trans hd

/-- Filling a book of histograms without common objects fills each of them. -/
theorem fillBook_value (batch : ℕ → List Row) (is : List ℕ) (P : Prog) (hP : P.Fine D) (hn : is.Nodup)
    (hr : ∀ i ∈ is, i < P.vars.length) (hap : ∀ i ∈ is, ∀ j ∈ is, i ≠ j → P.Apart D i j)
    (hex : (P.fillBook D is batch).2 = none) (i : ℕ) (hi : i ∈ is) (d : ℕ) (hd : P.vars[i]?.map DVar.d = some d)
    (s : (D d).State) (hs : P.view D d i = some s) :
    ∃ s', (D d).fill s (batch d) = .ok s' ∧ (P.fillBook D is batch).1.view D d i = some s' := by
  obtain ⟨a1, a2, a3, _⟩ := preAll_spec is P hP
  have h1 := preAll_value is P hP hn hr hap i hi d hd s hs
  obtain ⟨s', h2, h3⟩ := postAll_value batch is _ a1 hn (fun j hj => lt_of_lt_of_le (hr j hj) a2)
    (fun j hj k hk hjk => a3 j k (hr j hj) (hr k hk) (hap j hj k hk hjk)) hex i hi d
    (by rw [preAll_d is P hP i (hr i hi)]; exact hd) _ h1
  exact ⟨s', (fill_prefill (D d) s (batch d)).symm.trans h2, h3⟩

theorem fillBook_d (batch : ℕ → List Row) (is : List ℕ) (P : Prog) (hP : P.Fine D) (k : ℕ) (hk : k < P.vars.length) :
    (P.fillBook D is batch).1.vars[k]?.map DVar.d = P.vars[k]?.map DVar.d := by
  obtain ⟨a1, a2, _, _⟩ := preAll_spec is P hP
  unfold Prog.fillBook
  rw [postAll_d batch is _ a1 k (by omega), preAll_d is P hP k hk]

/-! ## histograms that are filled one by one -/

theorem inplace_length (H : HistDef) (w : World) (i : ℕ) (f : H.State → Res H.State) :
    (w.inplace H i f).1.vars.length = w.vars.length := by
  unfold World.inplace
  split
  · rfl
  · split
    · rfl
    · split <;> simp

theorem uncopy_length (H : HistDef) (w : World) (i : ℕ) : (w.uncopy H i).vars.length = w.vars.length := by
  unfold World.uncopy
  split
  · rfl
  · split
    · split
      · rfl
      · simp
    · rfl

theorem fill_length (H : HistDef) (w : World) (i : ℕ) (rows : List Row) :
    (w.step H (.fill i rows)).1.vars.length = w.vars.length := by
  simp only [World.step]
  rw [inplace_length, uncopy_length]

/-- A histogram without content can have any owners. -/
theorem owned_blank {H : HistDef} {own : ℕ → Set ℕ} {t : ℕ} {w : World} (hw : w.Owned H own t) {i : ℕ} {v : HObj}
    (hi : w.vars[i]? = some v) (hv : v.content = none) : w.Owned H (Function.update own i {t}) (t + 1) := by
  refine ⟨?_, ?_, ?_⟩
  · obtain ⟨m, ok, h⟩ := hw.sep
    refine ⟨m, ok, ?_⟩
    intro j u a hj ha
    by_cases hji : j = i
    · subst hji
      rw [hi] at hj
      cases hj
      rw [hv] at ha
      cases ha
    · rw [Function.update_of_ne hji]
      exact h j u a hj ha
  · intro j
    by_cases hji : j = i
    · subst hji; rw [Function.update_self]; exact ⟨_, rfl⟩
    · rw [Function.update_of_ne hji]; exact hw.nonempty j
  · intro j hj x hx
    by_cases hji : j = i
    · subst hji
      rw [Function.update_self, Set.mem_singleton_iff] at hx
      omega
    · rw [Function.update_of_ne hji] at hx
      have := hw.lt j hj x hx
      omega

/-- Its objects are its own, or it makes its own ones when it is filled. -/
def Prog.Ready (D : ℕ → HistDef) (P : Prog) (i : ℕ) : Prop :=
  (∃ v, P.vars[i]? = some v ∧ v.obj.cof = true) ∨ ∀ k, k < P.vars.length → k ≠ i → P.Apart D i k

/-- `h.fill(...)`. -/
def Prog.fillHist (D : ℕ → HistDef) (P : Prog) (i : ℕ) (batch : ℕ → List Row) : Prog × Option Err :=
  P.stepAt D i fun d => .fill i (batch d)

theorem fillHist_length {P : Prog} (i : ℕ) (batch : ℕ → List Row) :
    (P.fillHist D i batch).1.vars.length = P.vars.length := by
  unfold Prog.fillHist Prog.stepAt
  split
  · unfold Prog.step
    split
    · rw [back_length, fill_length, world_length]
    · rfl
  · rfl

theorem fillHist_vars {P : Prog} (hP : P.Fine D) (i : ℕ) (batch : ℕ → List Row) (k : ℕ) (hk : k < P.vars.length) (hki : k ≠ i) :
    (P.fillHist D i batch).1.vars[k]? = P.vars[k]? := by
  unfold Prog.fillHist Prog.stepAt
  split
  · rename_i v hv
    unfold Prog.step
    split
    · have h := step_vars (D v.d) (P.world v.d) (.fill i (batch v.d)) k (by rw [world_length]; exact hk)
        (by simp [Op.writes, Ne.symm hki])
      rw [Prog.back]
      simp only [List.getElem?_mapIdx]
      rw [h, world_vars]
      have hu : P.vars[k]? = some P.vars[k] := List.getElem?_eq_getElem hk
      rw [hu, Option.map_some, Option.map_some, DVar.after, DVar.of]
      simp only [Option.some.injEq]
      split
      · rename_i h; rw [← h]
      · rfl
    · rfl
  · rfl

/-- Filling one of them changes no other one, and leaves them so. -/
theorem fillHist_ready {P : Prog} (hP : P.Fine D) {i : ℕ} (hi : i < P.vars.length) (hr : P.Ready D i) (batch : ℕ → List Row) :
    (P.fillHist D i batch).1.Fine D ∧ (P.fillHist D i batch).1.Ready D i ∧
    (∀ k, k < P.vars.length → k ≠ i → ∀ e, (P.fillHist D i batch).1.view D e k = P.view D e k) ∧
    ∀ j, j < P.vars.length → j ≠ i → P.Ready D j → (P.fillHist D i batch).1.Ready D j := by
  have hfine := fine_stepAt hP i (fun d => .fill i (batch d))
  have hlen := fillHist_length (D := D) (P := P) i batch
  refine ⟨hfine, ?_, ?_, ?_⟩
  · right
    intro k hk hki
    rw [hlen] at hk
    rcases hr with ⟨v, hv, hcof⟩ | hr
    · intro e
      have he : P.fillHist D i batch = P.step D v.d (.fill i (batch v.d)) := by
        unfold Prog.fillHist Prog.stepAt; rw [hv]
      rw [he]
      obtain ⟨own, t, ho⟩ := hP e
      have hall : ((Op.fill i (batch v.d)).refs.all fun i => decide ((P.vars[i]?.map DVar.d) = some v.d)) = true := by
        simp [Op.refs, hv]
      unfold Prog.step
      rw [if_pos hall]
      have hl : P.vars.length ≤ ((P.world v.d).step (D v.d) (.fill i (batch v.d))).1.vars.length := by
        rw [fill_length, world_length]
      by_cases hed : e = v.d
      · subst hed
        have hwi : (P.world v.d).vars[i]? = some v.obj := by rw [world_vars, hv, Option.map_some, DVar.of, if_pos rfl]
        obtain ⟨f1, _, f3⟩ := fill_lone ho hwi hcof (batch v.d)
        refine ⟨Function.update own i {t}, t + 1, ?_, f3 k (by rw [world_length]; exact hk) hki⟩
        · simp only
          rw [back_world P v.d _ (step_refs hall) hl]
          exact f1
      · simp only
        rw [back_world_ne P hed _ hl, fill_length, world_length, Nat.sub_self, List.replicate_zero, List.append_nil]
        have hwi : (P.world e).vars[i]? = some ⟨none, false⟩ := by
          rw [world_vars, hv, Option.map_some, DVar.of, if_neg (fun h => hed h.symm)]
        refine ⟨Function.update own i {t}, t + 1, owned_blank ho hwi rfl, ?_⟩
        rw [Function.update_self, Function.update_of_ne hki, Set.disjoint_singleton_left]
        intro hx
        exact absurd (ho.lt k (by rw [world_length]; exact hk) _ hx) (lt_irrefl _)
    · exact apart_stepAt hi hk (hr k hk hki) _ _
  · intro k hk hki e
    rcases hr with ⟨v, hv, hcof⟩ | hr
    · have he : P.fillHist D i batch = P.step D v.d (.fill i (batch v.d)) := by
        unfold Prog.fillHist Prog.stepAt; rw [hv]
      rw [he]
      obtain ⟨own, t, ho⟩ := hP e
      have hall : ((Op.fill i (batch v.d)).refs.all fun i => decide ((P.vars[i]?.map DVar.d) = some v.d)) = true := by
        simp [Op.refs, hv]
      unfold Prog.step
      rw [if_pos hall]
      have hl : P.vars.length ≤ ((P.world v.d).step (D v.d) (.fill i (batch v.d))).1.vars.length := by
        rw [fill_length, world_length]
      unfold Prog.view
      by_cases hed : e = v.d
      · subst hed
        have hwi : (P.world v.d).vars[i]? = some v.obj := by rw [world_vars, hv, Option.map_some, DVar.of, if_pos rfl]
        obtain ⟨_, f2, _⟩ := fill_lone ho hwi hcof (batch v.d)
        simp only
        rw [back_world P v.d _ (step_refs hall) hl]
        exact f2 k (by rw [world_length]; exact hk) hki
      · simp only
        rw [back_world_ne P hed _ hl, fill_length, world_length, Nat.sub_self, List.replicate_zero, List.append_nil]
        rfl
    · exact stepAt_frame hk hP _ (fun _ => rfl) (fun _ => ⟨fun h => hki h.symm, hr k hk hki⟩) e
  · intro j hj hji hrj
    rcases hrj with ⟨v, hv, hcof⟩ | hrj
    · exact Or.inl ⟨v, by rw [fillHist_vars hP i batch j hj hji]; exact hv, hcof⟩
    · right
      intro k hk hkj
      rw [hlen] at hk
      exact apart_stepAt hj hk (hrj k hk hkj) _ _

/-- New histograms that have the contents of others. -/
theorem append_shared {P : Prog} (h : P.Fine D) (l : List DVar) (hl : ∀ v ∈ l, ∃ u ∈ P.vars, v = u.copyonfill) :
    (Prog.mk P.heaps (P.vars ++ l)).Fine D := by
  intro d
  obtain ⟨own, t, ho⟩ := h d
  obtain ⟨m, ok, hv⟩ := ho.sep
  have hw : (Prog.mk P.heaps (P.vars ++ l)).world d = ⟨(P.world d).heap, (P.world d).vars ++ l.map (DVar.of d)⟩ := by
    simp [Prog.world]
  rw [hw]
  refine ⟨fun i => if i < (P.world d).vars.length then own i else {x | x ≤ t}, t + 1, ⟨m, ok, ?_⟩, ?_, ?_⟩
  · intro i v a hi ha
    by_cases hlt : i < (P.world d).vars.length
    · rw [List.getElem?_append_left hlt] at hi
      simp only [if_pos hlt]
      exact hv i v a hi ha
    · rw [List.getElem?_append_right (by omega)] at hi
      obtain ⟨u, hu, rfl⟩ := List.mem_map.1 (List.mem_of_getElem? hi)
      obtain ⟨u', hu', rfl⟩ := hl u hu
      obtain ⟨j, hj, hju⟩ := List.getElem_of_mem hu'
      have hju : P.vars[j]? = some u' := by rw [List.getElem?_eq_getElem hj, hju]
      have ha' : (u'.of d).content = some a := by
        unfold DVar.of DVar.copyonfill at ha
        unfold DVar.of
        simp only at ha
        split at ha
        · rename_i h; rw [if_pos h]; exact ha
        · cases ha
      obtain ⟨b1, b2, b3⟩ := hv j (u'.of d) a (by rw [world_vars, hju]; rfl) ha'
      refine ⟨b1, b2, ?_⟩
      simp only [if_neg hlt]
      intro x hx
      have := ho.lt j (by rw [world_length]; exact hj) x (b3 hx)
      simp only [Set.mem_setOf_eq]
      omega
  · intro i
    by_cases hlt : i < (P.world d).vars.length
    · simp only [if_pos hlt]; exact ho.nonempty i
    · simp only [if_neg hlt]; exact ⟨t, by simp⟩
  · intro i hi x hx
    by_cases hlt : i < (P.world d).vars.length
    · simp only [if_pos hlt] at hx
      have := ho.lt i hlt x hx
      omega
    · simp only [if_neg hlt, Set.mem_setOf_eq] at hx
      omega

end

end Verif
