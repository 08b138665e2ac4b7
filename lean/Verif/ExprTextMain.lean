import Verif.ExprTextLemmas

/-!
# Helper lemmas: what is read of the text of an expression
-/

namespace Verif

/-! ## Lists -/

theorem toksL_eq : ∀ l : List E, E.toksL l = l.map fun e => (e.isBin, e.toks)
  | [] => by simp [E.toksL]
  | x :: xs => by simp [E.toksL, toksL_eq xs]

theorem toksL_toks (l : List E) : (E.toksL l).map (·.2) = l.map E.toks := by
  rw [toksL_eq, List.map_map]; rfl

theorem levels_eq : ∀ l : List E, E.levels l = l.map E.level
  | [] => by simp [E.levels]
  | x :: xs => by simp [E.levels, levels_eq xs]

theorem shownL_eq : ∀ l : List E, E.shownL l = l.all E.shown
  | [] => by simp [E.shownL]
  | x :: xs => by simp [E.shownL, shownL_eq xs]

theorem evalL_map (env : RowEnv) : ∀ l : List E, E.evalL env l = l.map (E.eval env)
  | [] => by simp [E.evalL]
  | x :: xs => by simp [E.evalL, evalL_map env xs]

theorem pyVals_map (env : RowEnv) (look : String → Option ℚ) :
    ∀ l : List Py, Py.vals env look l = l.map (Py.val env look)
  | [] => by simp [Py.vals]
  | x :: xs => by simp [Py.vals, pyVals_map env look xs]

/-! ## The expression that is read -/

/-- Operators from the left. -/
def opFold (o : PyOp) (s : Py) (l : List Py) : Py := l.foldl (.bin o) s

/-- What is read of a sum or a product. -/
def ringPy (posop negop : PyOp) (identity c : ℚ) (pos neg : List Py) : Py :=
  opFold negop (if c ≠ identity ∨ pos.length = 0 then opFold posop (numPy c) pos
    else match pos with
      | [] => .num 0
      | t :: ts => opFold posop t ts) neg

/-- What is read of the text of a node. -/
def Head.py (h : Head) (pos neg : List Py) : Py :=
  match h with
  | .const q => numPy q
  | .cset l => .set l
  | .name s => .name s
  | .pred s true => .name s
  | .pred s false => .lnot (.name s)
  | .call f => .call f pos
  | .binop f => match pos with
    | [l, r] => .bin (opOf f) l r
    | _ => .num 0
  | .rel c => match pos with
    | [l, r] => .compare l [c.cmpOp] [r]
    | _ => .num 0
  | .plus c => ringPy .add .sub 0 c pos neg
  | .times c => ringPy .mul .div 1 c pos neg
  | .land => .num 0
  | .lor => .num 0

mutual
/-- What is read of the text of an expression. -/
def E.py : E → Py
  | .node h p n => h.py (E.pyL p) (E.pyL n)
/-- The same for a list. -/
def E.pyL : List E → List Py
  | [] => []
  | x :: xs => x.py :: E.pyL xs
end

theorem pyL_eq : ∀ l : List E, E.pyL l = l.map E.py
  | [] => by simp [E.pyL]
  | x :: xs => by simp [E.pyL, pyL_eq xs]

/-- Operands with the operator before them. -/
def items (o : PyOp) (l : List E) : List (PyOp × List XTok × Py) := l.map fun e => (o, e.toks, e.py)

theorem opToks_items (o : PyOp) : ∀ l : List E, opToks (items o l) = opEach o (l.map E.toks)
  | [] => rfl
  | x :: xs => by
    have h := opToks_items o xs
    simp only [items] at h
    simp [items, opToks, opEach, h]

theorem opPy_items (o : PyOp) : ∀ (l : List E) (s : Py), opPy s (items o l) = opFold o s (l.map E.py)
  | [], s => rfl
  | x :: xs, s => by
    have h := opPy_items o xs (.bin o s x.py)
    simpa [items, opPy, opFold] using h

theorem shows_ops {p : ℕ} {o : PyOp} (hp : after p = p + 1) (ho : o.prec = p) (ho' : o.right = p + 1) {t : List XTok}
    {s : Py} (h : Shows p t s) (l : List E) (hl : ∀ e ∈ l, Shows e.level e.toks e.py) (hlv : ∀ e ∈ l, p < e.level) :
    Shows p (t ++ opEach o (l.map E.toks)) (opFold o s (l.map E.py)) := by
  rw [← opToks_items, ← opPy_items]
  refine shows_chain hp h _ fun x hx => ?_
  obtain ⟨e, he, rfl⟩ := List.mem_map.1 hx
  exact ⟨ho, ho', (hl e he).lower (hlv e he)⟩

theorem shows_ring {p : ℕ} {o o' : PyOp} (hp : after p = p + 1) (ho : o.prec = p ∧ o.right = p + 1)
    (ho' : o'.prec = p ∧ o'.right = p + 1) {identity c : ℚ} {pos neg : List E}
    (h1 : ∀ e ∈ pos, Shows e.level e.toks e.py) (h2 : ∀ e ∈ neg, Shows e.level e.toks e.py)
    (h : ringShown p identity c (pos.map E.level) (neg.map E.level) = true) :
    Shows (ringLevel p identity c (pos.map E.level) neg.length)
      (ringToks o o' identity c (pos.map E.toks) (neg.map E.toks))
      (ringPy o o' identity c (pos.map E.py) (neg.map E.py)) := by
  unfold ringShown at h
  rw [Bool.and_eq_true] at h
  obtain ⟨ha, hb⟩ := h
  have hneg : ∀ e ∈ neg, p < e.level := by
    intro e he
    have := List.all_eq_true.1 hb e.level (List.mem_map_of_mem he)
    simpa using this
  by_cases hc : c ≠ identity ∨ pos.length = 0
  · rw [if_pos (by simpa using hc), Bool.and_eq_true] at ha
    have hpos : ∀ e ∈ pos, p < e.level := by
      intro e he
      have := List.all_eq_true.1 ha.2 e.level (List.mem_map_of_mem he)
      simpa using this
    have key : Shows p (ringToks o o' identity c (pos.map E.toks) (neg.map E.toks))
        (ringPy o o' identity c (pos.map E.py) (neg.map E.py)) := by
      unfold ringToks ringPy
      rw [if_pos (by simpa using hc), if_pos (by simpa using hc)]
      exact shows_ops hp ho'.1 ho'.2 (shows_ops hp ho.1 ho.2 (shows_const.lower (by simpa using ha.1)) pos h1 hpos) neg h2 hneg
    rcases pos with _ | ⟨x, _ | ⟨y, pos⟩⟩
    · rcases neg with _ | ⟨z, neg⟩
      · simpa [ringLevel, ringToks, ringPy, opEach, opFold] using shows_const (q := c)
      · exact key
    · rcases neg with _ | ⟨z, neg⟩
      · have : c ≠ identity := by simpa using hc
        simpa [ringLevel, this] using key
      · exact key
    · exact key
  · rcases pos with _ | ⟨x, pos⟩
    · exact (hc (Or.inr rfl)).elim
    rw [if_neg (by simpa using hc)] at ha
    have hc' : c = identity := by
      by_contra hh; exact hc (Or.inl hh)
    simp only [List.map_cons, Bool.and_eq_true, decide_eq_true_eq] at ha
    have hpos : ∀ e ∈ pos, p < e.level := by
      intro e he
      have := List.all_eq_true.1 ha.2 e.level (List.mem_map_of_mem he)
      simpa using this
    have key : Shows p (ringToks o o' identity c ((x :: pos).map E.toks) (neg.map E.toks))
        (ringPy o o' identity c ((x :: pos).map E.py) (neg.map E.py)) := by
      unfold ringToks ringPy
      rw [if_neg (by simpa using hc), if_neg (by simpa using hc)]
      exact shows_ops hp ho'.1 ho'.2 (shows_ops hp ho.1 ho.2 ((h1 x (by simp)).lower ha.1) pos
        (fun e he => h1 e (by simp [he])) hpos) neg h2 hneg
    rcases pos with _ | ⟨y, pos⟩
    · rcases neg with _ | ⟨z, neg⟩
      · simpa [ringLevel, hc', ringToks, ringPy, opEach, opFold] using h1 x (by simp)
      · exact key
    · exact key

theorem shows_operand {p : ℕ} {e : E} (h : Shows e.level e.toks e.py) (hp : p ≤ 11)
    (hb : (e.isBin || decide (p ≤ e.level)) = true) :
    Shows p (parens e.isBin e.toks) e.py := by
  unfold parens
  by_cases hi : e.isBin = true
  · rw [if_pos hi]; exact (shows_parens h).lower hp
  · rw [if_neg hi]
    have : p ≤ e.level := by simpa [hi] using hb
    exact h.lower this

theorem shows_binop {f : String} (hf : f ∈ ["numpy.floor_divide", "fmod", "pow", "xor"]) {t u : List XTok} {a b : Py}
    (h1 : Shows (if opOf f = .pow then 11 else (opOf f).prec) t a) (h2 : Shows (opOf f).right u b) :
    Shows (opOf f).prec (t ++ .op (opOf f) :: u) (.bin (opOf f) a b) := by
  have chain : ∀ o : PyOp, after o.prec = o.prec + 1 → o.right = o.prec + 1 → Shows o.prec t a → Shows o.right u b →
      Shows o.prec (t ++ .op o :: u) (.bin o a b) := by
    intro o hp hr ha hb
    have := shows_chain hp ha [(o, u, b)] (by
      intro x hx
      rw [List.mem_singleton] at hx
      subst hx
      exact ⟨rfl, hr, hr ▸ hb⟩)
    simpa [opToks, opPy] using this
  simp only [List.mem_cons, List.not_mem_nil, or_false] at hf
  rcases hf with rfl | rfl | rfl | rfl
  · exact chain .floordiv rfl rfl h1 h2
  · exact chain .mod rfl rfl h1 h2
  · exact shows_pow h1 h2
  · exact chain .xor rfl rfl h1 h2

mutual
theorem E.shows : ∀ e : E, e.shown = true → Shows e.level e.toks e.py
  | .node h p n, hs => by
    rw [E.shown, Bool.and_eq_true, Bool.and_eq_true] at hs
    obtain ⟨⟨hp, hn⟩, hh⟩ := hs
    have ip := E.showsL p hp
    have inn := E.showsL n hn
    rw [E.toks, E.py, E.level]
    unfold Head.fits at hh
    cases h with
    | const q => exact shows_const
    | cset l =>
      refine shows_set ?_
      rintro rfl
      simp at hh
    | name s => exact shows_name
    | pred s b =>
      cases b with
      | true => simp at hh
      | false => exact shows_not
    | call f =>
      have := shows_call (f := f) (p.map fun e => (e.level, e.toks, e.py)) (by
        intro x hx
        obtain ⟨e, he, rfl⟩ := List.mem_map.1 hx
        exact ip e he)
      rw [List.map_map, List.map_map] at this
      simp only [Head.toks, Head.py, toksL_toks, pyL_eq]
      exact this
    | binop f =>
      simp only [Bool.and_eq_true, decide_eq_true_eq] at hh
      obtain ⟨hf, hh⟩ := hh
      rcases p with _ | ⟨l, _ | ⟨r, _ | ⟨x, p⟩⟩⟩
      · simp at hh
      · simp at hh
      · simp only [Bool.and_eq_true] at hh
        have hle : (if opOf f = .pow then 11 else (opOf f).prec) ≤ 11 := by
          split_ifs
          · exact le_refl _
          · cases opOf f <;> simp [PyOp.prec]
        have hri : (opOf f).right ≤ 11 := by cases opOf f <;> simp [PyOp.right, PyOp.prec]
        have := shows_binop hf (shows_operand (ip l (by simp)) hle hh.1) (shows_operand (ip r (by simp)) hri hh.2)
        simpa [Head.level, Head.toks, Head.py, E.toksL, E.pyL, binToks] using this
      · simp at hh
    | rel c =>
      rcases p with _ | ⟨l, _ | ⟨r, _ | ⟨x, p⟩⟩⟩
      · simp at hh
      · simp at hh
      · simp only [Bool.and_eq_true, decide_eq_true_eq] at hh
        have := shows_cmp (c := c.cmpOp) ((ip l (by simp)).lower hh.1.1.1) ((ip r (by simp)).lower hh.1.1.2)
        simpa [Head.level, Head.toks, Head.py, E.toksL, E.pyL] using this
      · simp at hh
    | plus c =>
      simp only [Head.toks, Head.py, Head.level, toksL_toks, pyL_eq, levels_eq] at hh ⊢
      exact shows_ring (p := 7) rfl ⟨rfl, rfl⟩ ⟨rfl, rfl⟩ ip inn hh
    | times c =>
      simp only [Head.toks, Head.py, Head.level, toksL_toks, pyL_eq, levels_eq] at hh ⊢
      exact shows_ring (p := 8) rfl ⟨rfl, rfl⟩ ⟨rfl, rfl⟩ ip inn hh
    | land => simp at hh
    | lor => simp at hh
theorem E.showsL : ∀ l : List E, E.shownL l = true → ∀ e ∈ l, Shows e.level e.toks e.py
  | [], _, _, he => by simp at he
  | x :: xs, h, e, he => by
    rw [E.shownL, Bool.and_eq_true] at h
    have h1 := E.shows x h.1
    have h2 := E.showsL xs h.2
    rcases List.mem_cons.1 he with rfl | he'
    · exact h1
    · exact h2 e he'
end

/-! ## Its value -/

theorem numPy_val (env : RowEnv) (look : String → Option ℚ) (q : ℚ) : Py.val env look (numPy q) = some q := by
  unfold numPy
  split_ifs <;> simp [Py.val]

theorem opFold_cons (o : PyOp) (s x : Py) (l : List Py) : opFold o s (x :: l) = opFold o (.bin o s x) l := rfl

theorem val_add (env : RowEnv) (look : String → Option ℚ) : ∀ (l : List Py) (s : Py),
    Py.val env look (opFold .add s l) = (do return (← Py.val env look s) + (← sumO (l.map (Py.val env look))))
  | [], s => by cases h : Py.val env look s <;> simp [opFold, sumO, h]
  | x :: xs, s => by
    rw [opFold_cons, val_add env look xs, Py.val]
    cases h : Py.val env look s <;> cases h' : Py.val env look x <;>
      cases h'' : sumO (xs.map (Py.val env look)) <;> simp [PyOp.sem, sumO, h', h'']
    ring

theorem val_sub (env : RowEnv) (look : String → Option ℚ) : ∀ (l : List Py) (s : Py),
    Py.val env look (opFold .sub s l) = (do return (← Py.val env look s) - (← sumO (l.map (Py.val env look))))
  | [], s => by cases h : Py.val env look s <;> simp [opFold, sumO, h]
  | x :: xs, s => by
    rw [opFold_cons, val_sub env look xs, Py.val]
    cases h : Py.val env look s <;> cases h' : Py.val env look x <;>
      cases h'' : sumO (xs.map (Py.val env look)) <;> simp [PyOp.sem, sumO, h', h'']
    ring

theorem val_mul (env : RowEnv) (look : String → Option ℚ) : ∀ (l : List Py) (s : Py),
    Py.val env look (opFold .mul s l) = (do return (← Py.val env look s) * (← prodO (l.map (Py.val env look))))
  | [], s => by cases h : Py.val env look s <;> simp [opFold, prodO, h]
  | x :: xs, s => by
    rw [opFold_cons, val_mul env look xs, Py.val]
    cases h : Py.val env look s <;> cases h' : Py.val env look x <;>
      cases h'' : prodO (xs.map (Py.val env look)) <;> simp [PyOp.sem, prodO, h', h'']
    ring

theorem val_div (env : RowEnv) (look : String → Option ℚ) : ∀ (l : List Py) (s : Py),
    Py.val env look (opFold .div s l) = divO (Py.val env look s) (prodO (l.map (Py.val env look)))
  | [], s => by cases h : Py.val env look s <;> simp [opFold, prodO, divO, h]
  | x :: xs, s => by
    rw [opFold_cons, val_div env look xs, Py.val]
    cases h : Py.val env look s with
    | none => cases Py.val env look x <;> simp [PyOp.sem, divO]
    | some a =>
      cases h' : Py.val env look x with
      | none => simp [PyOp.sem, divO, prodO, h']
      | some d =>
        cases h'' : prodO (xs.map (Py.val env look)) with
        | none => by_cases hd : d = 0 <;> simp [PyOp.sem, divO, prodO, h', h'', hd]
        | some e =>
          by_cases hd : d = 0
          · simp [PyOp.sem, divO, prodO, h', h'', hd]
          · by_cases he : e = 0
            · simp [PyOp.sem, divO, prodO, h', h'', hd, he]
            · simp [PyOp.sem, divO, prodO, h', h'', hd, he]
              field_simp

theorem val_plus (env : RowEnv) (look : String → Option ℚ) (c : ℚ) (pos neg : List Py) :
    Py.val env look (ringPy .add .sub 0 c pos neg) =
      (do return c + (← sumO (pos.map (Py.val env look))) - (← sumO (neg.map (Py.val env look)))) := by
  unfold ringPy
  rw [val_sub]
  split_ifs with hc
  · rw [val_add, numPy_val]
    cases sumO (pos.map (Py.val env look)) <;> simp
  · rcases pos with _ | ⟨x, xs⟩
    · exact (hc (Or.inr rfl)).elim
    have : c = 0 := by by_contra h; exact hc (Or.inl h)
    subst this
    simp only [val_add, List.map_cons, sumO]
    cases Py.val env look x <;> cases sumO (xs.map (Py.val env look)) <;> simp

theorem val_times (env : RowEnv) (look : String → Option ℚ) (c : ℚ) (pos neg : List Py) :
    Py.val env look (ringPy .mul .div 1 c pos neg) =
      (do return c * (← divO (← prodO (pos.map (Py.val env look))) (← prodO (neg.map (Py.val env look))))) := by
  unfold ringPy
  rw [val_div]
  split_ifs with hc
  · rw [val_mul, numPy_val]
    cases prodO (pos.map (Py.val env look)) <;> cases h : prodO (neg.map (Py.val env look)) <;> simp [divO]
    split_ifs <;> simp
    ring
  · rcases pos with _ | ⟨x, xs⟩
    · exact (hc (Or.inr rfl)).elim
    have : c = 1 := by by_contra h; exact hc (Or.inl h)
    subst this
    simp only [val_mul, List.map_cons, prodO]
    cases Py.val env look x <;> cases prodO (xs.map (Py.val env look)) <;>
      cases h : prodO (neg.map (Py.val env look)) <;> simp [divO]

theorem elements_py (e : E) {l : List ℚ} (h : e.setOf = some l) : e.py.elements = l := by
  obtain ⟨hd, p, n⟩ := e
  cases hd <;> simp_all [E.setOf, E.py, Head.py, Py.elements]

theorem val_rel (env : RowEnv) (c : RelOp) (a b : Option ℚ) (s : Option (List ℚ)) (t : List ℚ)
    (h : ∀ l, s = some l → t = l) (hs : (c = .isin ∨ c = .notin) → s.isSome = true) :
    c.cmpOp.sem a b t = c.holds a b s := by
  by_cases hc : c = .isin ∨ c = .notin
  · obtain ⟨l, rfl⟩ := Option.isSome_iff_exists.1 (hs hc)
    rw [h l rfl]
    rcases hc with rfl | rfl <;> cases a <;> simp [RelOp.cmpOp, PyCmp.sem, RelOp.holds]
  · cases c <;> first
      | exact absurd (Or.inl rfl) hc
      | exact absurd (Or.inr rfl) hc
      | (cases a <;> cases b <;> simp [RelOp.cmpOp, PyCmp.sem, RelOp.holds])

theorem val_binop (env : RowEnv) {f : String} (hf : f ∈ ["numpy.floor_divide", "fmod", "pow", "xor"]) (a b : Option ℚ) :
    (opOf f).sem env a b = env.fn f [a, b] := by
  simp only [List.mem_cons, List.not_mem_nil, or_false] at hf
  rcases hf with rfl | rfl | rfl | rfl <;> cases a <;> cases b <;> rfl

mutual
theorem E.py_val (env : RowEnv) : ∀ e : E, e.shown = true → Py.val env env.field e.py = e.eval env
  | .node h p n, hs => by
    rw [E.shown, Bool.and_eq_true, Bool.and_eq_true] at hs
    obtain ⟨⟨hp, hn⟩, hh⟩ := hs
    unfold Head.fits at hh
    have ip := E.py_valL env p hp
    have inn := E.py_valL env n hn
    rw [E.py, E.eval, evalL_map, evalL_map, ← ip, ← inn, pyL_eq, pyL_eq]
    cases h with
    | const q => exact numPy_val _ _ _
    | cset l => simp [Head.py, Head.apply, Py.val]
    | name s => simp [Head.py, Head.apply, Py.val]
    | pred s b =>
      cases b with
      | true => simp at hh
      | false => simp [Head.py, Head.apply, Py.val]
    | call f => simp [Head.py, Head.apply, Py.val, pyVals_map, List.map_map, Function.comp_def]
    | binop f =>
      simp only [Bool.and_eq_true, decide_eq_true_eq] at hh
      obtain ⟨hf, hh⟩ := hh
      rcases p with _ | ⟨l, _ | ⟨r, _ | ⟨x, p⟩⟩⟩
      · simp at hh
      · simp at hh
      · simp [Head.py, Head.apply, Py.val, val_binop env hf]
      · simp at hh
    | rel c =>
      rcases p with _ | ⟨l, _ | ⟨r, _ | ⟨x, p⟩⟩⟩
      · simp at hh
      · simp at hh
      · simp only [Bool.and_eq_true, decide_eq_true_eq] at hh
        obtain ⟨⟨_, h1⟩, h2⟩ := hh
        have hf : [l, r].findSome? E.setOf = r.setOf := by
          rw [List.findSome?_cons, h2]
          cases hr : r.setOf <;> simp [List.findSome?, hr]
        rw [hf]
        simp only [Head.py, Head.apply, Py.val, Py.chain, List.map_cons, List.map_nil, Bool.and_true]
        rw [val_rel env c _ _ r.setOf _ (fun l hl => elements_py r hl) h1]
      · simp at hh
    | plus c => simpa [Head.py, Head.apply, List.map_map, Function.comp_def] using val_plus env env.field c (p.map E.py) (n.map E.py)
    | times c => simpa [Head.py, Head.apply, List.map_map, Function.comp_def] using val_times env env.field c (p.map E.py) (n.map E.py)
    | land => simp at hh
    | lor => simp at hh
theorem E.py_valL (env : RowEnv) : ∀ l : List E, E.shownL l = true →
    l.map (fun e => Py.val env env.field e.py) = l.map (E.eval env)
  | [], _ => rfl
  | x :: xs, h => by
    rw [E.shownL, Bool.and_eq_true] at h
    rw [List.map_cons, List.map_cons, E.py_val env x h.1, E.py_valL env xs h.2]
end

end Verif
