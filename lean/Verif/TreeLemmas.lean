import Verif.Tree
import Verif.LogicLemmas

/-!
# Lemmas about computation trees
-/

namespace Verif

/-- The library functions besides those of `totree`. -/
abbrev More := String → Option (List (Option ℚ) → Option ℚ)

/-- Calculation of a tree on one row. -/
def treeVal (more : More) (field : String → Option ℚ) (t : E) : Except Err RowVal :=
  calculate (rowLib more) (rowSymbols field) t.toT

/-- The number a tree calculates to. -/
def tv (more : More) (field : String → Option ℚ) (t : E) : Option ℚ :=
  match treeVal more field t with
  | .ok (.num v) => v
  | _ => none

/-- The tree can be calculated and gives a number. -/
def TOK (more : More) (field : String → Option ℚ) (t : E) : Prop :=
  treeVal more field t = .ok (.num (tv more field t))

theorem TOK.of {more : More} {field : String → Option ℚ} {t : E} {v : Option ℚ}
    (h : treeVal more field t = .ok (.num v)) : TOK more field t ∧ tv more field t = v := by
  unfold TOK tv
  rw [h]; exact ⟨rfl, rfl⟩

variable {more : More} {field : String → Option ℚ}

theorem call2_val {f : String} {g : Option ℚ → Option ℚ → Option ℚ} (hf : builtin f = some (ufunc2 g))
    {a b : E} (ha : TOK more field a) (hb : TOK more field b) :
    TOK more field (E.callE f [a, b]) ∧
      tv more field (E.callE f [a, b]) = g (tv more field a) (tv more field b) := by
  refine TOK.of ?_
  have h1 : calculate (rowLib more) (rowSymbols field) a.toT = _ := ha
  have h2 : calculate (rowLib more) (rowSymbols field) b.toT = _ := hb
  unfold treeVal
  simp only [E.toT, E.toTL, calculate, calculateL, rowLib, hf]
  simp only [rowLib] at h1 h2
  rw [h1, h2]; rfl

/-- `m` is a fold with `g` on lists of values. -/
structure FoldLaw (g : Option ℚ → Option ℚ → Option ℚ) (m : List (Option ℚ) → Option ℚ) : Prop where
  append : ∀ l r, l ≠ [] → r ≠ [] → m (l ++ r) = g (m l) (m r)

/-- The function `f` keeps `ok` and acts on `val` as `g`. -/
def Acts (ok : E → Prop) (val : E → Option ℚ) (f : String) (g : Option ℚ → Option ℚ → Option ℚ) : Prop :=
  ∀ a b, ok a → ok b → ok (E.callE f [a, b]) ∧ val (E.callE f [a, b]) = g (val a) (val b)

section
variable {ok : E → Prop} {val : E → Option ℚ}

theorem reduceT_gen {f : String} {g : Option ℚ → Option ℚ → Option ℚ} {m : List (Option ℚ) → Option ℚ}
    (hf : Acts ok val f g) (hm : FoldLaw g m) : ∀ (n : ℕ) (args : List E), args ≠ [] →
    args.length ≤ n → (∀ a ∈ args, ok a) →
    (∀ a ∈ args, m [val a] = val a) →
    ∃ t, reduceT f n args = .ok t ∧ ok t ∧ val t = m (args.map val)
  | _, [], h, _, _, _ => absurd rfl h
  | n, [a], _, _, hok, h1 => by
    refine ⟨a, ?_, hok a (by simp), ?_⟩
    · cases n <;> rfl
    · simp [h1 a (by simp)]
  | 0, a :: b :: as, _, hn, _, _ => by simp at hn
  | n + 1, a :: b :: as, _, hn, hok, h1 => by
    have hlen : 1 ≤ (a :: b :: as).length / 2 ∧ (a :: b :: as).length / 2 < (a :: b :: as).length := by
      simp only [List.length_cons]; omega
    generalize hargs : a :: b :: as = args at *
    generalize hk : args.length / 2 = k at hlen
    have htl : (args.take k).length = k := by rw [List.length_take]; omega
    have hdl : (args.drop k).length = args.length - k := List.length_drop
    have hne1 : args.take k ≠ [] := by
      intro h; rw [h] at htl; simp at htl; omega
    have hne2 : args.drop k ≠ [] := by
      intro h; rw [h] at hdl; simp at hdl; omega
    obtain ⟨l, hl, okl, vl⟩ := reduceT_gen hf hm n (args.take k) hne1 (by omega)
      (fun x hx => hok x (List.mem_of_mem_take hx)) (fun x hx => h1 x (List.mem_of_mem_take hx))
    obtain ⟨r, hr, okr, vr⟩ := reduceT_gen hf hm n (args.drop k) hne2 (by omega)
      (fun x hx => hok x (List.mem_of_mem_drop hx)) (fun x hx => h1 x (List.mem_of_mem_drop hx))
    obtain ⟨c1, c2⟩ := hf _ _ okl okr
    refine ⟨_, ?_, c1, ?_⟩
    · subst hargs
      unfold reduceT
      rw [hk, if_neg (by simpa using hne1), hl, hr]; rfl
    · rw [c2, vl, vr, ← hm.append _ _ (by simpa using hne1) (by simpa using hne2), ← List.map_append,
        List.take_append_drop]

theorem linearT_gen {f : String} {g : Option ℚ → Option ℚ → Option ℚ} {m : List (Option ℚ) → Option ℚ}
    (hf : Acts ok val f g) (hm : FoldLaw g m) : ∀ (args : List E), args ≠ [] →
    (∀ a ∈ args, ok a) → (∀ a ∈ args, m [val a] = val a) →
    ∃ t, linearT f args = .ok t ∧ ok t ∧ val t = m (args.map val)
  | [], h, _, _ => absurd rfl h
  | [a], _, hok, h1 => ⟨a, rfl, hok a (by simp), by simp [h1 a (by simp)]⟩
  | a :: b :: as, _, hok, h1 => by
    obtain ⟨t, ht, okt, vt⟩ := linearT_gen hf hm (b :: as) (by simp)
      (fun x hx => hok x (List.mem_cons_of_mem _ hx)) (fun x hx => h1 x (List.mem_cons_of_mem _ hx))
    obtain ⟨c1, c2⟩ := hf _ _ (hok a (by simp)) okt
    refine ⟨_, by simp only [linearT]; rw [ht]; rfl, c1, ?_⟩
    rw [c2, vt, ← h1 a (by simp)]
    have := hm.append [val a] ((b :: as).map val) (by simp) (by simp)
    simpa [h1 a (by simp)] using this.symm

end

theorem reduceT_val {f : String} {g : Option ℚ → Option ℚ → Option ℚ} {m : List (Option ℚ) → Option ℚ}
    (hf : builtin f = some (ufunc2 g)) (hm : FoldLaw g m) : ∀ (n : ℕ) (args : List E), args ≠ [] →
    args.length ≤ n → (∀ a ∈ args, TOK more field a) →
    (∀ a ∈ args, m [tv more field a] = tv more field a) →
    ∃ t, reduceT f n args = .ok t ∧ TOK more field t ∧ tv more field t = m (args.map (tv more field)) :=
  reduceT_gen (fun _ _ => call2_val hf) hm

theorem linearT_val {f : String} {g : Option ℚ → Option ℚ → Option ℚ} {m : List (Option ℚ) → Option ℚ}
    (hf : builtin f = some (ufunc2 g)) (hm : FoldLaw g m) : ∀ (args : List E), args ≠ [] →
    (∀ a ∈ args, TOK more field a) → (∀ a ∈ args, m [tv more field a] = tv more field a) →
    ∃ t, linearT f args = .ok t ∧ TOK more field t ∧ tv more field t = m (args.map (tv more field)) :=
  linearT_gen (fun _ _ => call2_val hf) hm

/-! ## Products -/

theorem prodO_append (l r : List (Option ℚ)) :
    prodO (l ++ r) = (do return (← prodO l) * (← prodO r)) := by
  induction l with
  | nil => cases h : prodO r <;> simp [prodO, h]
  | cons v l ih =>
    cases v with
    | none => simp [prodO]
    | some v =>
      rw [List.cons_append]
      simp only [prodO]
      rw [ih]
      cases prodO l <;> cases prodO r <;> simp [mul_assoc]

theorem sumO_append (l r : List (Option ℚ)) :
    sumO (l ++ r) = (do return (← sumO l) + (← sumO r)) := by
  induction l with
  | nil => cases h : sumO r <;> simp [sumO, h]
  | cons v l ih =>
    cases v with
    | none => simp [sumO]
    | some v =>
      rw [List.cons_append]
      simp only [sumO]
      rw [ih]
      cases sumO l <;> cases sumO r <;> simp [add_assoc]

theorem prodO_perm {l r : List (Option ℚ)} (h : l.Perm r) : prodO l = prodO r := by
  induction h with
  | nil => rfl
  | cons x _ ih => simp only [prodO, ih]
  | swap x y l =>
    simp only [prodO]
    cases x <;> cases y <;> cases prodO l <;> simp [mul_left_comm]
  | trans _ _ h1 h2 => exact h1.trans h2

theorem mulLaw : FoldLaw (fun a b => do return (← a) * (← b)) prodO := ⟨fun l r _ _ => prodO_append l r⟩

theorem addLaw : FoldLaw (fun a b => do return (← a) + (← b)) sumO := ⟨fun l r _ _ => sumO_append l r⟩

theorem orLaw : FoldLaw (fun a b => ofBool (truth a || truth b)) (fun l => ofBool (l.any truth)) := by
  refine ⟨fun l r _ _ => ?_⟩
  simp only [List.any_append, truth_ofBool]

theorem andLaw : FoldLaw (fun a b => ofBool (truth a && truth b)) (fun l => ofBool (l.all truth)) := by
  refine ⟨fun l r _ _ => ?_⟩
  simp only [List.all_append, truth_ofBool]

theorem prodO_single (v : Option ℚ) : prodO [v] = v := by cases v <;> simp [prodO]

theorem sumO_single (v : Option ℚ) : sumO [v] = v := by cases v <;> simp [sumO]

instance : DecidableEq E := fun a b => decidable_of_iff _ (E.same_iff (a := a) (b := b))

theorem countE_eq (x : E) (l : List E) : countE x l = l.count x := by
  unfold countE
  rw [List.count_eq_length_filter]
  congr 1
  refine List.filter_congr fun y _ => ?_
  rw [Bool.eq_iff_iff, E.same_iff, beq_iff_eq]
  exact eq_comm

theorem sum_single {l : List E} (hn : l.Nodup) {a : E} (ha : a ∈ l) (c : ℕ) :
    (l.map fun x => if x = a then c else 0).sum = c := by
  induction l with
  | nil => simp at ha
  | cons y l ih =>
    rw [List.nodup_cons] at hn
    rw [List.map_cons, List.sum_cons]
    by_cases h : y = a
    · subst h
      have : (l.map fun x => if x = y then c else 0).sum = 0 := by
        refine List.sum_eq_zero ?_
        intro n hn'
        obtain ⟨x, hx, rfl⟩ := List.mem_map.1 hn'
        refine if_neg ?_
        rintro rfl
        exact hn.1 hx
      rw [this, if_pos rfl, add_zero]
    · rw [if_neg h, zero_add]
      exact ih hn.2 ((List.mem_cons.1 ha).resolve_left fun e => h e.symm)

/-- The elements, grouped. -/
theorem grouped_perm (l : List E) :
    ((sortU l).flatMap fun x => List.replicate (countE x l) x).Perm l := by
  refine List.perm_iff_count.2 fun a => ?_
  rw [List.count_flatMap]
  by_cases ha : a ∈ l
  · have : (sortU l).map (List.count a ∘ fun x => List.replicate (countE x l) x) =
        (sortU l).map fun x => if x = a then l.count a else 0 := by
      refine List.map_congr_left fun x _ => ?_
      simp only [Function.comp, List.count_replicate, countE_eq]
      by_cases h : x = a
      · subst h; simp
      · simp [h]
    rw [this, sum_single (nodup_sortU l) (mem_sortU.2 ha)]
  · rw [List.count_eq_zero_of_not_mem ha]
    refine List.sum_eq_zero ?_
    intro n hn
    obtain ⟨x, hx, rfl⟩ := List.mem_map.1 hn
    simp only [Function.comp, List.count_replicate]
    have : x ≠ a := fun h => ha (h ▸ mem_sortU.1 hx)
    simp [this]

section
variable {ok : E → Prop} {val : E → Option ℚ}

theorem duplicatesT_gen (hf : Acts ok val "numpy.multiply" fun a b => do return (← a) * (← b)) {args : List E} (hne : args ≠ []) (hok : ∀ a ∈ args, ok a) :
    ∃ t, duplicatesT "numpy.multiply" args = .ok t ∧ ok t ∧
      val t = prodO (args.map val) := by
  by_cases h1 : ∃ a, args = [a]
  · obtain ⟨a, rfl⟩ := h1
    exact ⟨a, rfl, hok a (by simp), by simp [prodO_single]⟩
  · have hd : duplicatesT "numpy.multiply" args =
        if (sortU args).length = args.length then reduceT "numpy.multiply" args.length args
        else (do
          let newargs ← (sortU args).mapM fun x =>
            linearT "numpy.multiply" (List.replicate (countE x args) x)
          reduceT "numpy.multiply" newargs.length newargs) := by
      unfold duplicatesT
      split
      · exact absurd ⟨_, rfl⟩ h1
      · rfl
    rw [hd]
    by_cases hl : (sortU args).length = args.length
    · rw [if_pos hl]
      exact reduceT_gen hf mulLaw _ args hne le_rfl hok fun a _ => prodO_single _
    · rw [if_neg hl]
      have lin : ∀ x ∈ args, ∃ t, linearT "numpy.multiply" (List.replicate (countE x args) x) = .ok t ∧
          ok t ∧ val t = prodO ((List.replicate (countE x args) x).map val) := by
        intro x hx
        refine linearT_gen hf mulLaw _ ?_ ?_ (fun a _ => prodO_single _)
        · rw [countE_eq]
          have := List.count_pos_iff.2 hx
          intro h
          rw [List.replicate_eq_nil_iff] at h; omega
        · intro a ha
          rw [List.eq_of_mem_replicate ha]; exact hok x hx
      have lins : ∀ l : List E, (∀ x ∈ l, x ∈ args) → ∃ ts,
          l.mapM (fun x => linearT "numpy.multiply" (List.replicate (countE x args) x)) = .ok ts ∧
          ts.length = l.length ∧ (∀ t ∈ ts, ok t) ∧ prodO (ts.map val) =
            prodO ((l.flatMap fun x => List.replicate (countE x args) x).map val) := by
        intro l
        induction l with
        | nil => intro _; exact ⟨[], rfl, rfl, by simp, rfl⟩
        | cons x l ih =>
          intro hl
          obtain ⟨t, ht, okt, vt⟩ := lin x (hl x (by simp))
          obtain ⟨ts, hts, len, okts, vts⟩ := ih fun y hy => hl y (by simp [hy])
          refine ⟨t :: ts, ?_, by simp [len], ?_, ?_⟩
          · rw [List.mapM_cons, ht, hts]; rfl
          · intro y hy
            rcases List.mem_cons.1 hy with rfl | hy
            · exact okt
            · exact okts y hy
          · rw [List.flatMap_cons, List.map_append, prodO_append, ← vts, ← vt, List.map_cons]
            rfl
      obtain ⟨ts, hts, len, okts, vts⟩ := lins (sortU args) fun x hx => mem_sortU.1 hx
      have hne' : ts ≠ [] := by
        intro h
        rw [h] at len
        exact sortU_ne_nil hne (List.length_eq_zero_iff.1 len.symm)
      obtain ⟨t, ht, okt, vt⟩ := reduceT_gen hf mulLaw ts.length ts hne' le_rfl okts
        fun a _ => prodO_single _
      refine ⟨t, ?_, okt, ?_⟩
      · rw [hts]; exact ht
      · rw [vt, vts]
        exact prodO_perm ((grouped_perm args).map _)

end

theorem duplicatesT_val {args : List E} (hne : args ≠ []) (hok : ∀ a ∈ args, TOK more field a) :
    ∃ t, duplicatesT "numpy.multiply" args = .ok t ∧ TOK more field t ∧
      tv more field t = prodO (args.map (tv more field)) :=
  have hf : builtin "numpy.multiply" = some (ufunc2 fun a b => do return (← a) * (← b)) := rfl
  duplicatesT_gen (fun _ _ => call2_val hf) hne hok

/-! ## Trees of expressions -/

/-- The row as the expression sees it. -/
def treeEnv (more : More) (field : String → Option ℚ) : RowEnv := ⟨field, libFn more⟩

/-- What one node must satisfy so that its tree can be calculated: functions are in the library, no
negated field, no `in`, no set, and the fields used as conditions hold 0 or 1. -/
def RunHead (more : More) (field : String → Option ℚ) : Head → Prop
  | .call f => builtin f = none ∧ (more f).isSome = true
  | .binop f => builtin f = none ∧ (more f).isSome = true
  | .pred s b => b = true ∧ (field s = some 0 ∨ field s = some 1)
  | .rel c => c ≠ .isin ∧ c ≠ .notin
  | .cset _ => False
  | _ => True

/-- Every node satisfies `P`. -/
inductive E.All (P : Head → Prop) : E → Prop
  | mk (h : Head) (p n : List E) : P h → (∀ x ∈ p, E.All P x) → (∀ x ∈ n, E.All P x) → E.All P (.node h p n)

theorem E.All.head {P : Head → Prop} {h : Head} {p n : List E} (w : E.All P (.node h p n)) : P h := by
  cases w; assumption

theorem E.All.pos {P : Head → Prop} {h : Head} {p n : List E} (w : E.All P (.node h p n)) :
    ∀ x ∈ p, x.All P := by
  cases w; assumption

theorem E.All.neg {P : Head → Prop} {h : Head} {p n : List E} (w : E.All P (.node h p n)) :
    ∀ x ∈ n, x.All P := by
  cases w; assumption

theorem evalL_eq (env : RowEnv) (l : List E) : E.evalL env l = l.map (E.eval env) := by
  induction l with
  | nil => rfl
  | cons x l ih => simp [E.evalL, ih]

theorem fn_val {f : String} {g : List (Option ℚ) → Option ℚ} (hb : builtin f = none) (hm : more f = some g)
    {args : List E} (hok : ∀ a ∈ args, TOK more field a) :
    TOK more field (E.callE f args) ∧ tv more field (E.callE f args) = g (args.map (tv more field)) := by
  refine TOK.of ?_
  have hc : ∀ l : List E, (∀ a ∈ l, TOK more field a) →
      calculateL (rowLib more) (rowSymbols field) (E.toTL l) = .ok (l.map fun a => .num (tv more field a)) := by
    intro l
    induction l with
    | nil => intro _; rfl
    | cons a l ih =>
      intro h
      have h1 : calculate (rowLib more) (rowSymbols field) a.toT = _ := h a (by simp)
      simp only [E.toTL, calculateL]
      rw [h1, ih fun x hx => h x (by simp [hx])]; rfl
  have hr : ∀ l : List E, rowNums (l.map fun a => .num (tv more field a)) = .ok (l.map (tv more field)) := by
    intro l
    induction l with
    | nil => rfl
    | cons a l ih => simp only [List.map_cons, rowNums, ih]; rfl
  unfold treeVal
  simp only [E.toT, calculate]
  have hfn : (rowLib more).fn f = some fun vs => (rowNums vs).map fun xs => .num (g xs) := by
    simp only [rowLib, hb, hm, Option.map_some]
  rw [hfn]
  simp only
  rw [hc args hok]
  change (rowNums _).map _ = _
  rw [hr]; rfl

theorem lit_bool {env : RowEnv} {x : E} (w : x.WF) (h : x.isLit = true) : ∃ b, x.eval env = ofBool b := by
  obtain ⟨hd, p, n⟩ := x
  cases hd with
  | rel c =>
    obtain ⟨_, l, r, rfl⟩ := w.local
    exact ⟨_, rfl⟩
  | pred s b => exact ⟨_, rfl⟩
  | _ => simp [E.isLit] at h

mutual
theorem totree_val : ∀ (e : E), e.WF → e.All (RunHead more field) →
    ∃ t, totree e = .ok t ∧ TOK more field t ∧ tv more field t = e.eval (treeEnv more field)
  | .node h p n, w, a => by
    obtain ⟨p', hp, okp, vp⟩ := totreeL_val p w.pos a.pos
    obtain ⟨n', hn, okn, vn⟩ := totreeL_val n w.neg a.neg
    have key : ∃ t, headTree h p' n' = .ok t ∧ TOK more field t ∧
        tv more field t = (E.node h p n).eval (treeEnv more field) := by
      have hmp : ∀ t ∈ p', tv more field t ∈ p.map (E.eval (treeEnv more field)) :=
        fun t ht => vp ▸ List.mem_map_of_mem ht
      cases h with
      | const q => exact ⟨_, rfl, TOK.of rfl⟩
      | cset l => exact a.head.elim
      | name s => exact ⟨_, rfl, TOK.of rfl⟩
      | pred s b =>
        obtain ⟨rfl, hb⟩ := a.head
        refine ⟨_, rfl, ?_⟩
        refine TOK.of ?_
        change Except.ok (RowVal.num (field s)) = _
        simp only [E.eval, Head.apply, treeEnv]
        rcases hb with hb | hb <;> rw [hb] <;> rfl
      | call f =>
        obtain ⟨hb, hm⟩ := a.head
        obtain ⟨g, hg⟩ := Option.isSome_iff_exists.1 hm
        obtain ⟨c1, c2⟩ := fn_val hb hg okp
        refine ⟨_, rfl, c1, ?_⟩
        rw [c2, vp]
        simp only [E.eval, Head.apply, treeEnv, libFn, hg, evalL_eq]
      | binop f =>
        obtain ⟨hb, hm⟩ := a.head
        obtain ⟨g, hg⟩ := Option.isSome_iff_exists.1 hm
        obtain ⟨c1, c2⟩ := fn_val hb hg okp
        refine ⟨_, rfl, c1, ?_⟩
        rw [c2, vp]
        simp only [E.eval, Head.apply, treeEnv, libFn, hg, evalL_eq]
      | rel c =>
        obtain ⟨_, l, r, rfl⟩ := w.local
        obtain ⟨l', r', rfl⟩ : ∃ l' r', p' = [l', r'] := by
          have := congrArg List.length vp
          simp only [List.length_map, List.length_cons, List.length_nil] at this
          match p', this with
          | [x, y], _ => exact ⟨x, y, rfl⟩
        simp only [List.map_cons, List.map_nil, List.cons.injEq, and_true] at vp
        have fin : ∀ f, builtin f = some (relFn c) → relTree c [l', r'] = E.callE f [l', r'] →
            (∀ x y s, c.holds x y s = c.holds x y none) →
            ∃ t, headTree (.rel c) [l', r'] n' = .ok t ∧ TOK more field t ∧
              tv more field t = (E.node (.rel c) [l, r] n).eval (treeEnv more field) := by
          intro f hf ht hs
          obtain ⟨c1, c2⟩ := call2_val (more := more) (field := field) hf
            (okp l' (by simp)) (okp r' (by simp))
          refine ⟨_, by simp only [headTree]; rw [ht], c1, ?_⟩
          rw [c2, vp.1, vp.2]
          simp only [E.eval, E.evalL, Head.apply]
          rw [hs _ _ (List.findSome? E.setOf [l, r])]
        cases c with
        | eq => exact fin "numpy.equal" rfl rfl fun _ _ _ => rfl
        | ne => exact fin "numpy.not_equal" rfl rfl fun _ _ _ => rfl
        | lt => exact fin "numpy.less" rfl rfl fun _ _ _ => rfl
        | le => exact fin "numpy.less_equal" rfl rfl fun _ _ _ => rfl
        | isin => exact absurd rfl a.head.1
        | notin => exact absurd rfl a.head.2
      | land =>
        obtain ⟨_, hne, hlit⟩ := w.local
        have hne' : p' ≠ [] := by
          rintro rfl
          simp at vp; exact hne vp
        obtain ⟨t, ht, ok, v⟩ := reduceT_val (f := "numpy.logical_and") rfl andLaw p'.length p' hne' le_rfl okp
          (by
            intro t ht
            obtain ⟨x, hx, he⟩ := List.mem_map.1 (hmp t ht)
            rw [← he]
            obtain ⟨b, hb⟩ := lit_bool (env := treeEnv more field) (w.pos x hx) (hlit x hx)
            rw [hb]; simp [truth_ofBool])
        refine ⟨t, ht, ok, ?_⟩
        rw [v, vp]
        simp only [E.eval, Head.apply, evalL_eq]
      | lor =>
        obtain ⟨_, hne, hland⟩ := w.local
        have hne' : p' ≠ [] := by
          rintro rfl
          simp at vp; exact hne vp
        obtain ⟨t, ht, ok, v⟩ := reduceT_val (f := "numpy.logical_or") rfl orLaw p'.length p' hne' le_rfl okp
          (by
            intro t ht
            obtain ⟨x, hx, he⟩ := List.mem_map.1 (hmp t ht)
            rw [← he]
            have hl := hland x hx
            obtain ⟨hx', px, nx⟩ := x
            simp only [E.head] at hl
            subst hl
            simp only [E.eval, Head.apply]; simp [truth_ofBool])
        refine ⟨t, ht, ok, ?_⟩
        rw [v, vp]
        simp only [E.eval, Head.apply, evalL_eq]
      | plus c =>
        obtain ⟨out, ho, oko, vo⟩ : ∃ out, posPart (reduceT "numpy.add" p'.length p') p' = Except.ok out ∧
            TOK more field (withConst "numpy.add" 0 c out) ∧
            tv more field (withConst "numpy.add" 0 c out) = (do return c + (← sumO (p'.map (tv more field)))) := by
          by_cases hne : p' = []
          · subst hne
            refine ⟨none, rfl, ?_⟩
            refine TOK.of ?_
            simp [withConst, sumO]; rfl
          · obtain ⟨t, ht, ok, v⟩ := reduceT_val (f := "numpy.add") rfl addLaw p'.length p' hne le_rfl okp
              (fun _ _ => sumO_single _)
            refine ⟨some t, by unfold posPart; rw [if_neg (by simpa using hne), ht]; rfl, ?_⟩
            simp only [withConst]
            by_cases hc : c = 0
            · rw [if_pos hc]
              refine ⟨ok, ?_⟩
              rw [v, hc]
              cases sumO (p'.map (tv more field)) <;> simp
            · rw [if_neg hc]
              obtain ⟨c1, c2⟩ := call2_val (more := more) (field := field) (f := "numpy.add") rfl ok
                (TOK.of (more := more) (field := field) (t := E.const c) rfl).1
              refine ⟨c1, ?_⟩
              rw [c2, v, (TOK.of (more := more) (field := field) (t := E.const c) rfl).2]
              cases sumO (p'.map (tv more field)) <;> simp [add_comm]
        by_cases hne : n' = []
        · subst hne
          have hn0 : n = [] := by simpa using vn.symm
          subst hn0
          refine ⟨_, by simp only [headTree]; rw [ho]; rfl, oko, ?_⟩
          rw [vo, vp]
          simp only [E.eval, E.evalL, Head.apply, evalL_eq, sumO]
          cases sumO (p.map (E.eval (treeEnv more field))) <;> simp
        · obtain ⟨d, hd, okd, vd⟩ := reduceT_val (f := "numpy.add") rfl addLaw n'.length n' hne le_rfl okn
            (fun _ _ => sumO_single _)
          obtain ⟨c1, c2⟩ := call2_val (more := more) (field := field) (f := "numpy.subtract") rfl oko okd
          refine ⟨_, ?_, c1, ?_⟩
          · simp only [headTree]; rw [ho]
            change negPart _ _ _ _ = _
            unfold negPart
            rw [if_neg (by simpa using hne), hd]; rfl
          · rw [c2, vo, vd, vp, vn]
            simp only [E.eval, Head.apply, evalL_eq]
            cases sumO (p.map (E.eval (treeEnv more field))) <;>
              cases sumO (n.map (E.eval (treeEnv more field))) <;> simp
      | times c =>
        obtain ⟨out, ho, oko, vo⟩ : ∃ out, posPart (duplicatesT "numpy.multiply" p') p' = Except.ok out ∧
            TOK more field (withConst "numpy.multiply" 1 c out) ∧
            tv more field (withConst "numpy.multiply" 1 c out) =
              (do return c * (← prodO (p'.map (tv more field)))) := by
          by_cases hne : p' = []
          · subst hne
            refine ⟨none, rfl, ?_⟩
            refine TOK.of ?_
            simp [withConst, prodO]; rfl
          · obtain ⟨t, ht, ok, v⟩ := duplicatesT_val hne okp
            refine ⟨some t, by unfold posPart; rw [if_neg (by simpa using hne), ht]; rfl, ?_⟩
            simp only [withConst]
            by_cases hc : c = 1
            · rw [if_pos hc]
              refine ⟨ok, ?_⟩
              rw [v, hc]
              cases prodO (p'.map (tv more field)) <;> simp
            · rw [if_neg hc]
              obtain ⟨c1, c2⟩ := call2_val (more := more) (field := field) (f := "numpy.multiply") rfl ok
                (TOK.of (more := more) (field := field) (t := E.const c) rfl).1
              refine ⟨c1, ?_⟩
              rw [c2, v, (TOK.of (more := more) (field := field) (t := E.const c) rfl).2]
              cases prodO (p'.map (tv more field)) <;> simp [mul_comm]
        by_cases hne : n' = []
        · subst hne
          have hn0 : n = [] := by simpa using vn.symm
          subst hn0
          refine ⟨_, by simp only [headTree]; rw [ho]; rfl, oko, ?_⟩
          rw [vo, vp]
          simp only [E.eval, E.evalL, Head.apply, evalL_eq, prodO]
          cases prodO (p.map (E.eval (treeEnv more field))) <;> simp [divO]
        · obtain ⟨d, hd, okd, vd⟩ := duplicatesT_val hne okn
          obtain ⟨c1, c2⟩ := call2_val (more := more) (field := field) (f := "numpy.true_divide") rfl oko okd
          refine ⟨_, ?_, c1, ?_⟩
          · simp only [headTree]; rw [ho]
            change negPart _ _ _ _ = _
            unfold negPart
            rw [if_neg (by simpa using hne), hd]; rfl
          · rw [c2, vo, vd, vp, vn]
            simp only [E.eval, Head.apply, evalL_eq]
            cases prodO (p.map (E.eval (treeEnv more field))) <;>
              cases prodO (n.map (E.eval (treeEnv more field))) <;> simp [divO]
            split_ifs <;> simp [mul_div_assoc]
    obtain ⟨t, ht, r⟩ := key
    refine ⟨t, ?_, r⟩
    simp only [totree]; rw [hp, hn]; exact ht
theorem totreeL_val : ∀ (l : List E), (∀ x ∈ l, x.WF) → (∀ x ∈ l, x.All (RunHead more field)) →
    ∃ ts, totreeL l = .ok ts ∧ (∀ t ∈ ts, TOK more field t) ∧
      ts.map (tv more field) = l.map (E.eval (treeEnv more field))
  | [], _, _ => ⟨[], rfl, by simp, rfl⟩
  | x :: xs, w, a => by
    obtain ⟨t, ht, ok, v⟩ := totree_val x (w x (by simp)) (a x (by simp))
    obtain ⟨ts, hts, oks, vs⟩ := totreeL_val xs (fun y hy => w y (by simp [hy])) (fun y hy => a y (by simp [hy]))
    refine ⟨t :: ts, ?_, ?_, ?_⟩
    · simp only [totreeL]; rw [ht, hts]; rfl
    · intro y hy
      rcases List.mem_cons.1 hy with rfl | hy
      · exact ok
      · exact oks y hy
    · rw [List.map_cons, List.map_cons, v, vs]
end

end Verif
