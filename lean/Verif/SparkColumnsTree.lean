import Verif.SparkColumnsValue

/-!
# Lemmas: the tree of an expression as a Spark column
-/

namespace Verif

variable {ty : String → STy} {sm : SMath} {field : String → Option ℚ} {more : More}

/-- The expression `x` has the tree `t`, which is the column `c` of type `τ`, with the value of `x` where
that is safe. -/
structure Tr (more : More) (sm : SMath) (ty : String → STy) (field : String → Option ℚ) (x t : E) (c : SCol)
    (τ : STy) : Prop where
  tree : totree x = .ok t
  col : IsCol ty t c τ
  value : x.SparkSafe more sm field → Rep τ (c.eval sm (sparkRow ty field)) (x.eval (treeEnv more field))

/-- The same for each element. -/
inductive TrL (more : More) (sm : SMath) (ty : String → STy) (field : String → Option ℚ) :
    List E → List E → List SCol → List STy → Prop
  | nil : TrL more sm ty field [] [] [] []
  | cons {x t : E} {c : SCol} {τ : STy} {l l' : List E} {cs : List SCol} {ts : List STy} :
      Tr more sm ty field x t c τ → TrL more sm ty field l l' cs ts →
      TrL more sm ty field (x :: l) (t :: l') (c :: cs) (τ :: ts)

theorem TrL.trees {l l' : List E} {cs : List SCol} {ts : List STy} (h : TrL more sm ty field l l' cs ts) :
    totreeL l = .ok l' := by
  induction h with
  | nil => rfl
  | cons h _ ih =>
    simp only [totreeL]
    rw [h.tree, ih]; rfl

theorem TrL.cols {l l' : List E} {cs : List SCol} {ts : List STy} (h : TrL more sm ty field l l' cs ts) :
    ColL ty l' cs ts := by
  induction h with
  | nil => exact .nil
  | cons h _ ih => exact .cons h.col ih

theorem TrL.values {l l' : List E} {cs : List SCol} {ts : List STy} (h : TrL more sm ty field l l' cs ts)
    (hs : ∀ x ∈ l, x.SparkSafe more sm field) :
    RepL ts (SCol.evalL sm (sparkRow ty field) cs) (l.map (E.eval (treeEnv more field))) := by
  induction h with
  | nil => exact .nil
  | cons h _ ih => exact .cons (h.value (hs _ (by simp))) (ih fun x hx => hs x (by simp [hx]))

theorem TrL.acc {l l' : List E} {cs : List SCol} {ts : List STy} (h : TrL more sm ty field l l' cs ts)
    {τ : STy} (ht : ∀ σ ∈ ts, σ = τ) : ∀ t ∈ l', Acc ty τ t := by
  induction h with
  | nil => simp
  | cons h _ ih =>
    intro t htm
    rcases List.mem_cons.1 htm with rfl | htm
    · exact ⟨_, ht _ List.mem_cons_self ▸ h.col⟩
    · exact ih (fun σ hσ => ht σ (by simp [hσ])) t htm

theorem TrL.good {l l' : List E} {cs : List SCol} {ts : List STy} (h : TrL more sm ty field l l' cs ts)
    {τ : STy} (ht : ∀ σ ∈ ts, σ = τ) (hs : ∀ x ∈ l, x.SparkSafe more sm field) :
    (∀ t ∈ l', ColGood sm ty field τ t) ∧ l'.map (sv sm ty field) = l.map (E.eval (treeEnv more field)) := by
  induction h with
  | nil => simp
  | cons h _ ih =>
    obtain ⟨g, v⟩ := ih (fun σ hσ => ht σ (by simp [hσ])) fun x hx => hs x (by simp [hx])
    obtain ⟨g1, v1⟩ := ColGood.of (sm := sm) (field := field) h.col (h.value (hs _ (by simp)))
    constructor
    · intro t htm
      rcases List.mem_cons.1 htm with rfl | htm
      · exact ht _ List.mem_cons_self ▸ g1
      · exact g t htm
    · rw [List.map_cons, List.map_cons, v1, v]

theorem TrL.nil_iff {l l' : List E} {cs : List SCol} {ts : List STy} (h : TrL more sm ty field l l' cs ts) :
    l' = [] ↔ l = [] := by
  cases h <;> simp

/-- The tree of a sum or product. -/
theorem sumT_gen {ok : E → Prop} {val : E → Option ℚ} {red : List E → Except Err E} {fa fs : String}
    {ident c : ℚ} {k s : Option ℚ → Option ℚ → Option ℚ} {m : List (Option ℚ) → Option ℚ} {p n : List E}
    (hred : ∀ l : List E, l ≠ [] → (∀ a ∈ l, ok a) → ∃ t, red l = .ok t ∧ ok t ∧ val t = m (l.map val))
    (hadd : Acts ok val fa k) (hc : ∀ q, ok (E.const q))
    (hsub : ∀ a b, ok a → ok b → val b = m (n.map val) →
      ok (E.callE fs [a, b]) ∧ val (E.callE fs [a, b]) = s (val a) (val b))
    (hp : ∀ a ∈ p, ok a) (hn : ∀ a ∈ n, ok a) :
    ∃ t, (do
        let out ← posPart (red p) p
        negPart fs (red n) n (withConst fa ident c out)) = Except.ok t ∧ ok t ∧
      ∃ o, (p = [] → o = val (E.const c)) ∧ (p ≠ [] → c = ident → o = m (p.map val)) ∧
        (p ≠ [] → c ≠ ident → o = k (m (p.map val)) (val (E.const c))) ∧
        (n = [] → val t = o) ∧ (n ≠ [] → val t = s o (m (n.map val))) := by
  obtain ⟨out, ho, oko, v1, v2, v3⟩ : ∃ out, posPart (red p) p = Except.ok out ∧
      ok (withConst fa ident c out) ∧ (p = [] → val (withConst fa ident c out) = val (E.const c)) ∧
      (p ≠ [] → c = ident → val (withConst fa ident c out) = m (p.map val)) ∧
      (p ≠ [] → c ≠ ident → val (withConst fa ident c out) = k (m (p.map val)) (val (E.const c))) := by
    by_cases hne : p = []
    · subst hne
      exact ⟨none, rfl, hc c, fun _ => rfl, fun h => absurd rfl h, fun h => absurd rfl h⟩
    · obtain ⟨t, ht, okt, vt⟩ := hred p hne hp
      refine ⟨some t, by unfold posPart; rw [if_neg (by simpa using hne), ht]; rfl, ?_⟩
      simp only [withConst]
      by_cases hi : c = ident
      · rw [if_pos hi]
        exact ⟨okt, fun h => absurd h hne, fun _ _ => vt, fun _ h => absurd hi h⟩
      · rw [if_neg hi]
        obtain ⟨c1, c2⟩ := hadd _ _ okt (hc c)
        exact ⟨c1, fun h => absurd h hne, fun _ h => absurd h hi, fun _ _ => by rw [c2, vt]⟩
  by_cases hne : n = []
  · subst hne
    refine ⟨_, by rw [ho]; rfl, oko, _, v1, v2, v3, fun _ => rfl, fun h => absurd rfl h⟩
  · obtain ⟨d, hd, okd, vd⟩ := hred n hne hn
    obtain ⟨c1, c2⟩ := hsub _ _ oko okd vd
    refine ⟨_, ?_, c1, _, v1, v2, v3, fun h => absurd h hne, fun _ => by rw [c2, vd]⟩
    rw [ho]
    change negPart _ _ _ _ = _
    unfold negPart
    rw [if_neg (by simpa using hne), hd]; rfl

theorem allTy_some {τ σ : STy} {ts : Option (List STy)} (h : allTy τ ts = some σ) :
    σ = τ ∧ ∃ l, ts = some l ∧ ∀ t ∈ l, t = τ := by
  cases ts with
  | none => simp [allTy] at h
  | some l =>
    simp only [allTy] at h
    split_ifs at h with hl
    refine ⟨(Option.some.inj h).symm, l, rfl, ?_⟩
    simpa using hl

theorem const_col (q : ℚ) : IsCol ty (E.const q) (.lit q) .num := ⟨rfl, rfl⟩

theorem const_good (q : ℚ) : ColGood sm ty field .num (E.const q) ∧ sv sm ty field (E.const q) = some q :=
  ColGood.of (const_col q) rfl

theorem div_good {a b : E} (ha : ColGood sm ty field .num a) (hb : ColGood sm ty field .num b)
    (h0 : sv sm ty field b ≠ some 0) :
    ColGood sm ty field .num (E.callE "numpy.true_divide" [a, b]) ∧
      sv sm ty field (E.callE "numpy.true_divide" [a, b]) = divO (sv sm ty field a) (sv sm ty field b) := by
  obtain ⟨c, ca, ra⟩ := ha
  obtain ⟨d, cb, rb⟩ := hb
  refine ColGood.of (col2 (g := .div) (by decide +kernel) rfl (fun _ => rfl) rfl ca cb) ?_
  simp only [SCol.eval, SCol.evalL]
  rw [show c.eval sm (sparkRow ty field) = _ from ra, show d.eval sm (sparkRow ty field) = _ from rb]
  change sparkDiv _ _ = _
  unfold sparkDiv
  rw [if_neg h0]

theorem prodO_ne_zero {l : List (Option ℚ)} (h : ∀ x ∈ l, x ≠ some 0) : prodO l ≠ some 0 := by
  induction l with
  | nil => simp [prodO]
  | cons x l ih =>
    have h1 := h x (by simp)
    have h2 := ih fun y hy => h y (by simp [hy])
    simp only [prodO]
    cases x with
    | none => simp
    | some q =>
      cases hl : prodO l with
      | none => simp
      | some r =>
        rw [hl] at h2
        simp at h1 h2 ⊢
        exact ⟨h1, h2⟩

theorem add_good : Acts (ColGood sm ty field .num) (sv sm ty field) "numpy.add" (fun a b => do return (← a) + (← b)) :=
  arith_acts (g := .add) (by decide +kernel) rfl (fun _ => rfl) rfl fun _ _ => rfl

theorem sub_good : Acts (ColGood sm ty field .num) (sv sm ty field) "numpy.subtract"
    (fun a b => do return (← a) - (← b)) :=
  arith_acts (g := .sub) (by decide +kernel) rfl (fun _ => rfl) rfl fun _ _ => rfl

theorem mul_good : Acts (ColGood sm ty field .num) (sv sm ty field) "numpy.multiply"
    (fun a b => do return (← a) * (← b)) :=
  arith_acts (g := .mul) (by decide +kernel) rfl (fun _ => rfl) rfl fun _ _ => rfl

theorem Rep.key {τ : STy} {s : SVal} {v : Option ℚ} (h : Rep τ s v) : s.key = some v := by
  cases τ with
  | num => rw [show s = .num v from h]; rfl
  | bool =>
    obtain ⟨b, rfl, rfl⟩ := h
    rfl

/-- A plain comparison. -/
theorem rel_tr {c : RelOp} {f : String} {g : SFn} {r : Option ℚ → Option ℚ → Bool} {x y t u : E} {d e : SCol}
    {τ : STy} {n : List E} (hf : sparkFn f = some g) (hc : g.count 2 = 2)
    (ho : ∀ cs, g.column cs = .ok (.fn g cs)) (ht : g.type [τ, τ] = .ok .bool)
    (hg : ∀ a b, g.apply sm [a, b] = SVal.compare r a b)
    (hr : ∀ a b : ℚ, ∀ l, r (some a) (some b) = c.holds (some a) (some b) l)
    (hx : Tr more sm ty field x t d τ) (hy : Tr more sm ty field y u e τ) :
    IsCol ty (E.callE f [t, u]) (.fn g [d, e]) .bool ∧
    ((E.node (.rel c) [x, y] n).SparkSafe more sm field →
      Rep .bool ((SCol.fn g [d, e]).eval sm (sparkRow ty field))
        ((E.node (.rel c) [x, y] n).eval (treeEnv more field))) := by
  refine ⟨col2 hf hc ho ht hx.col hy.col, fun hs => ?_⟩
  cases hs with
  | fn _ _ _ _ h => rcases h with h | h <;> simp at h
  | logic _ _ _ h => rcases h with h | h <;> simp at h
  | rel _ _ _ _ s1 s2 n1 n2 =>
    simp only [SCol.eval, SCol.evalL, hg, SVal.compare, (hx.value s1).key, (hy.value s2).key]
    refine ⟨_, rfl, ?_⟩
    simp only [E.eval, E.evalL, Head.apply]
    obtain ⟨a, ha⟩ := Option.ne_none_iff_exists'.1 n1
    obtain ⟨b, hb⟩ := Option.ne_none_iff_exists'.1 n2
    rw [ha, hb, hr]

/-- A call. -/
theorem fn_tr (hm : SparkLib more) {h : Head} {f : String} (hh : h = .call f ∨ h = .binop f)
    {p p' n : List E} {cs : List SCol} {ts : List STy} {τ : STy} (hp : TrL more sm ty field p p' cs ts)
    (hs : sparkSig f ts = some τ) :
    ∃ g, IsCol ty (E.callE f p') (.fn g cs) τ ∧ ((E.node h p n).SparkSafe more sm field →
      Rep τ ((SCol.fn g cs).eval sm (sparkRow ty field)) ((E.node h p n).eval (treeEnv more field))) := by
  obtain ⟨g, hg, hcol⟩ := call_col hs hp.cols
  refine ⟨g, hcol, fun safe => ?_⟩
  have hev : (E.node h p n).eval (treeEnv more field) = libFn more f (p.map (E.eval (treeEnv more field))) := by
    rcases hh with rfl | rfl <;> simp only [E.eval, Head.apply, treeEnv, evalL_eq]
  have wh : ∀ c a b, (h = .call "where" ∨ h = .binop "where") → p = [c, a, b] →
      c.SparkSafe more sm field → (truth (c.eval (treeEnv more field)) = true ∧ a.SparkSafe more sm field ∨
        truth (c.eval (treeEnv more field)) = false ∧ b.SparkSafe more sm field) →
      Rep τ ((SCol.fn g cs).eval sm (sparkRow ty field)) ((E.node h p n).eval (treeEnv more field)) := by
    intro c a b hw hpe hc hab
    subst hpe
    obtain rfl : f = "where" := by
      rcases hh with rfl | rfl <;> rcases hw with hw | hw <;> simp at hw <;> exact hw
    obtain rfl : SFn.when = g := Option.some.inj ((by decide +kernel : sparkFn "where" = some .when).symm.trans hg)
    rcases sparkSig_cases hs with ⟨_, h⟩ | ⟨_, _, h⟩ | ⟨_, rfl⟩
    · exact absurd h (by simp [math1])
    · exact absurd h (by simp [math2])
    · rw [hev, libFn_rat hm (f := "where") rfl]
      cases hp with
      | cons h1 hp =>
        cases hp with
        | cons h2 hp =>
          cases hp with
          | cons h3 hp =>
            cases hp
            obtain ⟨x, hx, vx⟩ := h1.value hc
            simp only [SCol.eval, SCol.evalL, List.map_cons, List.map_nil, npWhere, SFn.apply]
            rw [vx, truth_ofBool] at hab
            rw [hx, vx, truth_ofBool]
            rcases hab with ⟨rfl, hs⟩ | ⟨rfl, hs⟩
            · exact h2.value hs
            · exact h3.value hs
  cases safe with
  | const => rcases hh with hh | hh <;> simp at hh
  | name => rcases hh with hh | hh <;> simp at hh
  | pred => rcases hh with hh | hh <;> simp at hh
  | fn _ f' _ _ hh' hw hsafe hfine =>
    obtain rfl : f = f' := by
      rcases hh with rfl | rfl <;> rcases hh' with hh' | hh' <;> simp at hh' <;> exact hh'
    rw [hev]
    simp only [SCol.eval]
    exact call_value hm hs hw hg (hp.values hsafe) hfine
  | whereTrue _ c a b _ hw hc ht ha => exact wh c a b hw rfl hc (.inl ⟨ht, ha⟩)
  | whereFalse _ c a b _ hw hc ht hb => exact wh c a b hw rfl hc (.inr ⟨ht, hb⟩)
  | rel => rcases hh with hh | hh <;> simp at hh
  | plus => rcases hh with hh | hh <;> simp at hh
  | times => rcases hh with hh | hh <;> simp at hh
  | logic _ _ _ hl => rcases hh with rfl | rfl <;> rcases hl with hl | hl <;> simp at hl
  | landFalse => rcases hh with hh | hh <;> simp at hh
  | lorTrue => rcases hh with hh | hh <;> simp at hh

/-- An arithmetic column that is accepted. -/
theorem acc_num {f : String} {g : SFn} (hf : sparkFn f = some g) (hc : g.count 2 = 2)
    (ho : ∀ cs, g.column cs = .ok (.fn g cs)) (ht : g.type [.num, .num] = .ok .num)
    {a b : E} (ha : Acc ty .num a) (hb : Acc ty .num b) : Acc ty .num (E.callE f [a, b]) := by
  obtain ⟨c, hc'⟩ := ha
  obtain ⟨d, hd⟩ := hb
  exact ⟨_, col2 hf hc ho ht hc' hd⟩

theorem plus_tr {q : ℚ} {p n p' n' : List E} {cs ds : List SCol} {ts us : List STy}
    (hp : TrL more sm ty field p p' cs ts) (hn : TrL more sm ty field n n' ds us)
    (ht : ∀ σ ∈ ts, σ = .num) (hu : ∀ σ ∈ us, σ = .num) :
    ∃ t c, headTree (.plus q) p' n' = .ok t ∧ IsCol ty t c .num ∧
      ((E.node (.plus q) p n).SparkSafe more sm field →
      Rep .num (c.eval sm (sparkRow ty field)) ((E.node (.plus q) p n).eval (treeEnv more field))) := by
  by_cases hs : (E.node (.plus q) p n).SparkSafe more sm field
  · obtain ⟨sp, sn⟩ : (∀ x ∈ p, x.SparkSafe more sm field) ∧ (∀ x ∈ n, x.SparkSafe more sm field) := by
      cases hs with
      | fn _ _ _ _ h => rcases h with h | h <;> simp at h
      | whereTrue _ _ _ _ _ h => rcases h with h | h <;> simp at h
      | whereFalse _ _ _ _ _ h => rcases h with h | h <;> simp at h
      | logic _ _ _ h => rcases h with h | h <;> simp at h
      | plus _ _ _ h1 h2 => exact ⟨h1, h2⟩
    obtain ⟨gp, vp⟩ := hp.good ht sp
    obtain ⟨gn, vn⟩ := hn.good hu sn
    obtain ⟨t, htree, ⟨c, hcol, hrep⟩, o, o1, o2, o3, t1, t2⟩ := sumT_gen (ok := ColGood sm ty field .num)
      (val := sv sm ty field) (red := fun l => reduceT "numpy.add" l.length l) (fa := "numpy.add")
      (fs := "numpy.subtract") (ident := 0) (c := q) (m := sumO) (s := fun a b => do return (← a) - (← b))
      (fun l hl hok => reduceT_gen add_good addLaw l.length l hl le_rfl hok fun _ _ => sumO_single _)
      add_good (fun q => (const_good q).1) (fun a b ha hb _ => sub_good a b ha hb) gp gn
    refine ⟨t, c, htree, hcol, fun _ => ?_⟩
    have hval : sv sm ty field t = (E.node (.plus q) p n).eval (treeEnv more field) := by
      rw [vp, (const_good q).2] at *
      have ho : o = (do return q + (← sumO (p.map (E.eval (treeEnv more field))))) := by
        by_cases hpn : p' = []
        · rw [o1 hpn, hp.nil_iff.1 hpn]; simp [sumO]
        · by_cases hq : q = 0
          · rw [o2 hpn hq, hq]
            cases sumO (p.map (E.eval (treeEnv more field))) <;> simp
          · rw [o3 hpn hq]
            cases sumO (p.map (E.eval (treeEnv more field))) <;> simp [add_comm]
      simp only [E.eval, Head.apply, evalL_eq]
      by_cases hnn : n' = []
      · rw [t1 hnn, ho, hn.nil_iff.1 hnn]
        cases sumO (p.map (E.eval (treeEnv more field))) <;> simp [sumO]
      · rw [t2 hnn, vn, ho]
        cases sumO (p.map (E.eval (treeEnv more field))) <;>
          cases sumO (n.map (E.eval (treeEnv more field))) <;> simp
    rw [← hval]; exact hrep
  · obtain ⟨t, htree, ⟨c, hcol⟩, -⟩ := sumT_gen (ok := Acc ty .num)
      (val := fun _ => none) (red := fun l => reduceT "numpy.add" l.length l) (fa := "numpy.add")
      (fs := "numpy.subtract") (ident := 0) (c := q) (m := sumO) (s := fun _ _ => none)
      (fun l hl hok => reduceT_gen (acc_acts (g := .add) (τ := .num) (by decide +kernel) rfl (fun _ => rfl) rfl rfl)
        addLaw l.length l hl le_rfl hok fun _ _ => sumO_single _)
      (acc_acts (g := .add) (τ := .num) (by decide +kernel) rfl (fun _ => rfl) rfl (k := fun _ _ => none) rfl)
      (fun q => ⟨_, const_col q⟩)
      (fun a b ha hb _ => ⟨acc_num (g := .sub) (by decide +kernel) rfl (fun _ => rfl) rfl ha hb, rfl⟩)
      (hp.acc ht) (hn.acc hu)
    exact ⟨t, c, htree, hcol, fun h => absurd h hs⟩

theorem times_tr {q : ℚ} {p n p' n' : List E} {cs ds : List SCol} {ts us : List STy}
    (hp : TrL more sm ty field p p' cs ts) (hn : TrL more sm ty field n n' ds us)
    (ht : ∀ σ ∈ ts, σ = .num) (hu : ∀ σ ∈ us, σ = .num) :
    ∃ t c, headTree (.times q) p' n' = .ok t ∧ IsCol ty t c .num ∧
      ((E.node (.times q) p n).SparkSafe more sm field →
      Rep .num (c.eval sm (sparkRow ty field)) ((E.node (.times q) p n).eval (treeEnv more field))) := by
  by_cases hs : (E.node (.times q) p n).SparkSafe more sm field
  · obtain ⟨sp, sn, s0⟩ : (∀ x ∈ p, x.SparkSafe more sm field) ∧ (∀ x ∈ n, x.SparkSafe more sm field) ∧
        ∀ x ∈ n, x.eval (treeEnv more field) ≠ some 0 := by
      cases hs with
      | fn _ _ _ _ h => rcases h with h | h <;> simp at h
      | whereTrue _ _ _ _ _ h => rcases h with h | h <;> simp at h
      | whereFalse _ _ _ _ _ h => rcases h with h | h <;> simp at h
      | logic _ _ _ h => rcases h with h | h <;> simp at h
      | times _ _ _ h1 h2 h3 => exact ⟨h1, h2, h3⟩
    obtain ⟨gp, vp⟩ := hp.good ht sp
    obtain ⟨gn, vn⟩ := hn.good hu sn
    have hz : prodO (n'.map (sv sm ty field)) ≠ some 0 := by
      rw [vn]
      refine prodO_ne_zero ?_
      intro x hx
      obtain ⟨y, hy, rfl⟩ := List.mem_map.1 hx
      exact s0 y hy
    obtain ⟨t, htree, ⟨c, hcol, hrep⟩, o, o1, o2, o3, t1, t2⟩ := sumT_gen (ok := ColGood sm ty field .num)
      (val := sv sm ty field) (red := duplicatesT "numpy.multiply") (fa := "numpy.multiply")
      (fs := "numpy.true_divide") (ident := 1) (c := q) (m := prodO) (s := divO)
      (fun l hl hok => duplicatesT_gen mul_good hl hok)
      mul_good (fun q => (const_good q).1) (fun a b ha hb hv => div_good ha hb (hv ▸ hz)) gp gn
    refine ⟨t, c, htree, hcol, fun _ => ?_⟩
    have hval : sv sm ty field t = (E.node (.times q) p n).eval (treeEnv more field) := by
      rw [vp, (const_good q).2] at *
      have ho : o = (do return q * (← prodO (p.map (E.eval (treeEnv more field))))) := by
        by_cases hpn : p' = []
        · rw [o1 hpn, hp.nil_iff.1 hpn]; simp [prodO]
        · by_cases hq : q = 1
          · rw [o2 hpn hq, hq]
            cases prodO (p.map (E.eval (treeEnv more field))) <;> simp
          · rw [o3 hpn hq]
            cases prodO (p.map (E.eval (treeEnv more field))) <;> simp [mul_comm]
      simp only [E.eval, Head.apply, evalL_eq]
      by_cases hnn : n' = []
      · rw [t1 hnn, ho, hn.nil_iff.1 hnn]
        cases prodO (p.map (E.eval (treeEnv more field))) <;> simp [prodO, divO]
      · rw [t2 hnn, vn, ho]
        rw [vn] at hz
        cases prodO (p.map (E.eval (treeEnv more field))) with
        | none => simp [divO]
        | some a =>
          cases hb : prodO (n.map (E.eval (treeEnv more field))) with
          | none => simp [divO]
          | some b =>
            rw [hb] at hz
            have hz' : b ≠ 0 := by simpa using hz
            simp [divO, hz', mul_div_assoc]
    rw [← hval]; exact hrep
  · obtain ⟨t, htree, ⟨c, hcol⟩, -⟩ := sumT_gen (ok := Acc ty .num)
      (val := fun _ => none) (red := duplicatesT "numpy.multiply") (fa := "numpy.multiply")
      (fs := "numpy.true_divide") (ident := 1) (c := q) (m := prodO) (s := fun _ _ => none)
      (fun l hl hok => duplicatesT_gen
        (acc_acts (g := .mul) (τ := .num) (by decide +kernel) rfl (fun _ => rfl) rfl rfl) hl hok)
      (acc_acts (g := .mul) (τ := .num) (by decide +kernel) rfl (fun _ => rfl) rfl (k := fun _ _ => none) rfl)
      (fun q => ⟨_, const_col q⟩)
      (fun a b ha hb _ => ⟨acc_num (g := .div) (by decide +kernel) rfl (fun _ => rfl) rfl ha hb, rfl⟩)
      (hp.acc ht) (hn.acc hu)
    exact ⟨t, c, htree, hcol, fun h => absurd h hs⟩

theorem TrL.mem {l l' : List E} {cs : List SCol} {ts : List STy} (h : TrL more sm ty field l l' cs ts) {x : E}
    (hx : x ∈ l) : ∃ t ∈ l', ∃ c, ∃ τ ∈ ts, Tr more sm ty field x t c τ := by
  induction h with
  | nil => simp at hx
  | cons h _ ih =>
    rcases List.mem_cons.1 hx with rfl | hx
    · exact ⟨_, List.mem_cons_self, _, _, List.mem_cons_self, h⟩
    · obtain ⟨t, h1, c, τ, h2, h3⟩ := ih hx
      exact ⟨t, List.mem_cons_of_mem _ h1, c, τ, List.mem_cons_of_mem _ h2, h3⟩

theorem good_bool {t : E} (h : ColGood sm ty field .bool t) :
    ofBool (truth (sv sm ty field t)) = sv sm ty field t := by
  obtain ⟨c, -, b, -, hb⟩ := h
  rw [hb, truth_ofBool]

theorem land_tr {p n p' n' : List E} {cs : List SCol} {ts : List STy}
    (hp : TrL more sm ty field p p' cs ts) (hne : p ≠ []) (ht : ∀ σ ∈ ts, σ = .bool) :
    ∃ t c, headTree .land p' n' = .ok t ∧ IsCol ty t c .bool ∧
      ((E.node .land p n).SparkSafe more sm field →
      Rep .bool (c.eval sm (sparkRow ty field)) ((E.node .land p n).eval (treeEnv more field))) := by
  have hne' : p' ≠ [] := fun h => hne (hp.nil_iff.1 h)
  have hev : (E.node .land p n).eval (treeEnv more field) =
      ofBool ((p.map (E.eval (treeEnv more field))).all truth) := by
    simp only [E.eval, Head.apply, evalL_eq]
  obtain ⟨t, htree, ⟨c, hcol⟩, hf⟩ := reduceT_gen (false_acts (sm := sm) (field := field)) andLaw p'.length p' hne'
    le_rfl (hp.acc ht) (fun a ha => by
      obtain ⟨c, hc⟩ := hp.acc ht a ha
      simp [isFalse_col hc, truth_ofBool])
  refine ⟨t, c, htree, hcol, fun hs => ?_⟩
  cases hs with
  | fn _ _ _ _ h => rcases h with h | h <;> simp at h
  | whereTrue _ _ _ _ _ h => rcases h with h | h <;> simp at h
  | whereFalse _ _ _ _ _ h => rcases h with h | h <;> simp at h
  | logic _ _ _ _ hsafe =>
    obtain ⟨gp, vp⟩ := hp.good ht hsafe
    obtain ⟨t', htree', ⟨c', hcol', hrep⟩, hv⟩ := reduceT_gen
      (logic_acts (g := .and) (sm := sm) (ty := ty) (field := field) (f := "numpy.logical_and")
        (by decide +kernel) rfl (fun _ => rfl) rfl (k := fun x y => x && y)
        (by intro x y; cases x <;> cases y <;> rfl))
      andLaw p'.length p' hne' le_rfl gp (fun a ha => by simpa using good_bool (gp a ha))
    obtain rfl := Except.ok.inj (htree.symm.trans htree')
    obtain rfl := Except.ok.inj (hcol.col.symm.trans hcol'.col)
    rw [hev, ← vp, ← hv]
    exact hrep
  | landFalse x _ _ hx hsafe hfalse =>
    obtain ⟨u, hu, d, τ, hτ, htr⟩ := hp.mem hx
    obtain rfl := ht τ hτ
    obtain ⟨b, hb, hvb⟩ := htr.value hsafe
    rw [hvb, truth_ofBool] at hfalse
    subst hfalse
    have h0 : isFalse sm ty field u = ofBool false := by
      rw [isFalse_col htr.col, hb]; rfl
    have hall : (p'.map (isFalse sm ty field)).all truth = false := by
      rw [List.all_eq_false]
      exact ⟨_, List.mem_map_of_mem hu, by rw [h0, truth_ofBool]; simp⟩
    rw [hall, isFalse_col hcol] at hf
    refine ⟨false, ?_, ?_⟩
    · have := congrArg truth hf
      rw [truth_ofBool, truth_ofBool] at this
      simpa using this
    · rw [hev]
      congr 1
      rw [List.all_eq_false]
      exact ⟨_, List.mem_map_of_mem hx, by rw [hvb, truth_ofBool]; simp⟩

theorem lor_tr {p n p' n' : List E} {cs : List SCol} {ts : List STy}
    (hp : TrL more sm ty field p p' cs ts) (hne : p ≠ []) (ht : ∀ σ ∈ ts, σ = .bool) :
    ∃ t c, headTree .lor p' n' = .ok t ∧ IsCol ty t c .bool ∧
      ((E.node .lor p n).SparkSafe more sm field →
      Rep .bool (c.eval sm (sparkRow ty field)) ((E.node .lor p n).eval (treeEnv more field))) := by
  have hne' : p' ≠ [] := fun h => hne (hp.nil_iff.1 h)
  have hev : (E.node .lor p n).eval (treeEnv more field) =
      ofBool ((p.map (E.eval (treeEnv more field))).any truth) := by
    simp only [E.eval, Head.apply, evalL_eq]
  obtain ⟨t, htree, ⟨c, hcol⟩, hf⟩ := reduceT_gen (true_acts (sm := sm) (field := field)) orLaw p'.length p' hne'
    le_rfl (hp.acc ht) (fun a ha => by
      obtain ⟨c, hc⟩ := hp.acc ht a ha
      simp [isTrue_col hc, truth_ofBool])
  refine ⟨t, c, htree, hcol, fun hs => ?_⟩
  cases hs with
  | fn _ _ _ _ h => rcases h with h | h <;> simp at h
  | whereTrue _ _ _ _ _ h => rcases h with h | h <;> simp at h
  | whereFalse _ _ _ _ _ h => rcases h with h | h <;> simp at h
  | logic _ _ _ _ hsafe =>
    obtain ⟨gp, vp⟩ := hp.good ht hsafe
    obtain ⟨t', htree', ⟨c', hcol', hrep⟩, hv⟩ := reduceT_gen
      (logic_acts (g := .or) (sm := sm) (ty := ty) (field := field) (f := "numpy.logical_or")
        (by decide +kernel) rfl (fun _ => rfl) rfl (k := fun x y => x || y)
        (by intro x y; cases x <;> cases y <;> rfl))
      orLaw p'.length p' hne' le_rfl gp (fun a ha => by simpa using good_bool (gp a ha))
    obtain rfl := Except.ok.inj (htree.symm.trans htree')
    obtain rfl := Except.ok.inj (hcol.col.symm.trans hcol'.col)
    rw [hev, ← vp, ← hv]
    exact hrep
  | lorTrue x _ _ hx hsafe hfalse =>
    obtain ⟨u, hu, d, τ, hτ, htr⟩ := hp.mem hx
    obtain rfl := ht τ hτ
    obtain ⟨b, hb, hvb⟩ := htr.value hsafe
    rw [hvb, truth_ofBool] at hfalse
    subst hfalse
    have h0 : isTrue sm ty field u = ofBool true := by
      rw [isTrue_col htr.col, hb]; rfl
    have hall : (p'.map (isTrue sm ty field)).any truth = true := by
      rw [List.any_eq_true]
      exact ⟨_, List.mem_map_of_mem hu, by rw [h0, truth_ofBool]⟩
    rw [hall, isTrue_col hcol] at hf
    refine ⟨true, ?_, ?_⟩
    · have := congrArg truth hf
      rw [truth_ofBool, truth_ofBool] at this
      simpa using this
    · rw [hev]
      congr 1
      rw [List.any_eq_true]
      exact ⟨_, List.mem_map_of_mem hx, by rw [hvb, truth_ofBool]⟩

/-- Fields of type boolean hold 0 or 1. -/
def Flags (ty : String → STy) (field : String → Option ℚ) : Prop :=
  ∀ s, ty s = .bool → field s = some 0 ∨ field s = some 1

theorem row_rep (hb : Flags ty field) (s : String) : Rep (ty s) (sparkRow ty field s) (field s) := by
  unfold sparkRow
  cases h : ty s with
  | num => rfl
  | bool =>
    refine ⟨_, rfl, ?_⟩
    rcases hb s h with h | h <;> rw [h] <;> rfl

theorem styL_some {x : E} {xs : List E} {ts : List STy} (h : E.styL ty (x :: xs) = some ts) :
    ∃ τ us, x.sty ty = some τ ∧ E.styL ty xs = some us ∧ ts = τ :: us := by
  simp only [E.styL] at h
  split at h
  · rename_i t us h1 h2
    exact ⟨t, us, h1, h2, (Option.some.inj h).symm⟩
  · simp at h

mutual
theorem totree_spark (hm : SparkLib more) (hb : Flags ty field) : ∀ (e : E) (τ : STy), e.WF →
    e.sty ty = some τ → ∃ t c, Tr more sm ty field e t c τ
  | .node h p n, τ, w, hs => by
    have pos : ∀ ts, E.styL ty p = some ts → ∃ p' cs, TrL more sm ty field p p' cs ts :=
      fun ts hts => totreeL_spark hm hb p ts w.pos hts
    have neg : ∀ ts, E.styL ty n = some ts → ∃ n' cs, TrL more sm ty field n n' cs ts :=
      fun ts hts => totreeL_spark hm hb n ts w.neg hts
    have tree : ∀ p' n' t, totreeL p = .ok p' → totreeL n = .ok n' → headTree h p' n' = .ok t →
        totree (.node h p n) = .ok t := by
      intro p' n' t h1 h2 h3
      simp only [totree]; rw [h1, h2]; exact h3
    simp only [E.sty] at hs
    have wl := w.local
    cases h with
    | const q =>
      obtain ⟨rfl, rfl⟩ := wl
      obtain rfl := Option.some.inj hs
      exact ⟨_, _, rfl, const_col q, fun _ => rfl⟩
    | cset l => simp [Head.sty] at hs
    | name s =>
      obtain ⟨rfl, rfl⟩ := wl
      obtain rfl := Option.some.inj hs
      exact ⟨_, .field s, rfl, ⟨rfl, rfl⟩, fun _ => row_rep hb s⟩
    | pred s b =>
      obtain ⟨rfl, rfl⟩ := wl
      simp only [Head.sty] at hs
      split_ifs at hs with hc
      obtain ⟨rfl, hty⟩ := hc
      obtain rfl := Option.some.inj hs
      refine ⟨_, .field s, rfl, ⟨rfl, by simp [SCol.type, hty]⟩, fun _ => ?_⟩
      have := row_rep hb s
      rw [hty] at this
      obtain ⟨b, h1, h2⟩ := this
      refine ⟨b, h1, ?_⟩
      simp only [E.eval, Head.apply, treeEnv, h2, truth_ofBool]
      cases b <;> rfl
    | call f =>
      obtain rfl : n = [] := wl
      simp only [Head.sty] at hs
      obtain ⟨ts, hts, hsig⟩ := Option.bind_eq_some_iff.1 hs
      obtain ⟨p', cs, hp⟩ := pos ts hts
      obtain ⟨g, h1, h2⟩ := fn_tr (n := []) hm (.inl rfl) hp hsig
      exact ⟨_, _, tree p' [] _ hp.trees rfl rfl, h1, h2⟩
    | binop f =>
      obtain rfl : n = [] := wl
      simp only [Head.sty] at hs
      obtain ⟨ts, hts, hsig⟩ := Option.bind_eq_some_iff.1 hs
      obtain ⟨p', cs, hp⟩ := pos ts hts
      obtain ⟨g, h1, h2⟩ := fn_tr (n := []) hm (.inr rfl) hp hsig
      exact ⟨_, _, tree p' [] _ hp.trees rfl rfl, h1, h2⟩
    | rel c =>
      obtain ⟨rfl, l, r, rfl⟩ := wl
      have hc : (c ≠ .isin ∧ c ≠ .notin) ∧ ∃ a, E.styL ty [l, r] = some [a, a] ∧ τ = .bool := by
        cases c <;> simp only [Head.sty] at hs <;> first
          | simp at hs; done
          | (refine ⟨⟨by simp, by simp⟩, ?_⟩
             split at hs
             · rename_i a b hab
               split_ifs at hs with heq
               subst heq
               exact ⟨_, hab, (Option.some.inj hs).symm⟩
             · simp at hs)
      obtain ⟨hne, a, hts, rfl⟩ := hc
      obtain ⟨p', cs, hp⟩ := pos _ hts
      cases hp with
      | cons h1 hp =>
        cases hp with
        | cons h2 hp =>
          cases hp
          rename_i t c1 u c2
          have tr := TrL.cons h1 (TrL.cons h2 TrL.nil)
          cases c with
          | isin => exact absurd rfl hne.1
          | notin => exact absurd rfl hne.2
          | eq =>
            obtain ⟨k1, k2⟩ := rel_tr (c := .eq) (n := []) (f := "numpy.equal") (g := .eq) (by decide +kernel) rfl
              (fun _ => rfl) (by simp [SFn.type]) (fun _ _ => rfl) (by intro a b _; simp [RelOp.holds]) h1 h2
            exact ⟨_, _, tree _ [] _ tr.trees rfl rfl, k1, k2⟩
          | ne =>
            obtain ⟨k1, k2⟩ := rel_tr (c := .ne) (n := []) (f := "numpy.not_equal") (g := .ne) (by decide +kernel) rfl
              (fun _ => rfl) (by simp [SFn.type]) (fun _ _ => rfl) (by intro a b _; simp [RelOp.holds]) h1 h2
            exact ⟨_, _, tree _ [] _ tr.trees rfl rfl, k1, k2⟩
          | lt =>
            obtain ⟨k1, k2⟩ := rel_tr (c := .lt) (n := []) (f := "numpy.less") (g := .lt) (by decide +kernel) rfl
              (fun _ => rfl) (by simp [SFn.type]) (fun _ _ => rfl) (by intro a b _; simp [RelOp.holds, sparkLt]) h1 h2
            exact ⟨_, _, tree _ [] _ tr.trees rfl rfl, k1, k2⟩
          | le =>
            obtain ⟨k1, k2⟩ := rel_tr (c := .le) (n := []) (f := "numpy.less_equal") (g := .le) (by decide +kernel) rfl
              (fun _ => rfl) (by simp [SFn.type]) (fun _ _ => rfl)
              (by
                intro a b _
                simp only [RelOp.holds, sparkLt]
                rw [Bool.eq_iff_iff]; simp) h1 h2
            exact ⟨_, _, tree _ [] _ tr.trees rfl rfl, k1, k2⟩
    | plus q =>
      simp only [Head.sty] at hs
      split_ifs at hs with h1
      obtain ⟨-, ts, hts, ht⟩ := allTy_some h1
      obtain ⟨rfl, us, hus, hu⟩ := allTy_some hs
      obtain ⟨p', cs, hp⟩ := pos ts hts
      obtain ⟨n', ds, hn⟩ := neg us hus
      obtain ⟨t, c, k1, k2, k3⟩ := plus_tr (q := q) hp hn ht hu
      exact ⟨t, c, tree p' n' t hp.trees hn.trees k1, k2, k3⟩
    | times q =>
      simp only [Head.sty] at hs
      split_ifs at hs with h1
      obtain ⟨-, ts, hts, ht⟩ := allTy_some h1
      obtain ⟨rfl, us, hus, hu⟩ := allTy_some hs
      obtain ⟨p', cs, hp⟩ := pos ts hts
      obtain ⟨n', ds, hn⟩ := neg us hus
      obtain ⟨t, c, k1, k2, k3⟩ := times_tr (q := q) hp hn ht hu
      exact ⟨t, c, tree p' n' t hp.trees hn.trees k1, k2, k3⟩
    | land =>
      obtain ⟨rfl, hne, -⟩ := wl
      simp only [Head.sty] at hs
      obtain ⟨rfl, ts, hts, ht⟩ := allTy_some hs
      obtain ⟨p', cs, hp⟩ := pos ts hts
      obtain ⟨t, c, k1, k2, k3⟩ := land_tr (n := []) (n' := []) hp hne ht
      exact ⟨t, c, tree p' [] t hp.trees rfl k1, k2, k3⟩
    | lor =>
      obtain ⟨rfl, hne, -⟩ := wl
      simp only [Head.sty] at hs
      obtain ⟨rfl, ts, hts, ht⟩ := allTy_some hs
      obtain ⟨p', cs, hp⟩ := pos ts hts
      obtain ⟨t, c, k1, k2, k3⟩ := lor_tr (n := []) (n' := []) hp hne ht
      exact ⟨t, c, tree p' [] t hp.trees rfl k1, k2, k3⟩
theorem totreeL_spark (hm : SparkLib more) (hb : Flags ty field) : ∀ (l : List E) (ts : List STy),
    (∀ x ∈ l, x.WF) → E.styL ty l = some ts → ∃ l' cs, TrL more sm ty field l l' cs ts
  | [], ts, _, h => by
    obtain rfl := Option.some.inj h
    exact ⟨[], [], .nil⟩
  | x :: xs, ts, w, h => by
    obtain ⟨τ, us, h1, h2, rfl⟩ := styL_some h
    obtain ⟨t, c, h3⟩ := totree_spark hm hb x τ (w x (by simp)) h1
    obtain ⟨l', cs, h4⟩ := totreeL_spark hm hb xs us (fun y hy => w y (by simp [hy])) h2
    exact ⟨_, _, .cons h3 h4⟩
end

end Verif
