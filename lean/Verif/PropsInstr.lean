import Verif.ExecLemmas
import Verif.PropsTree

/-!
# C53 and C54: computing all requested quantities in one pass

Property theorems.
-/

namespace Verif

variable {V : Type}

/-! ## Helpers -/

theorem subs_self (t : Node) : t ∈ t.subs := by
  cases t <;> simp [T.subs]

theorem subsL_iff {x : Node} : ∀ {l : List Node}, x ∈ T.subsL l ↔ ∃ a ∈ l, x ∈ a.subs
  | [] => by simp [T.subsL]
  | a :: as => by simp [T.subsL, subsL_iff (l := as)]

mutual
theorem grow_subs : ∀ (t : Node) (g : Graph), ∀ x ∈ (grow t g).table, x ∈ g.table ∨ x ∈ t.subs
  | .call f args, g, x, hx => by
    simp only [grow] at hx
    rcases growArgs_subs _ args _ x hx with h | h
    · rcases insert_table.1 h with h | rfl
      · exact .inl h
      · exact .inr (subs_self _)
    · exact .inr (by simp [T.subs, h])
  | .const v, g, x, hx => by
    simp only [grow] at hx
    rcases insert_table.1 hx with h | rfl
    · exact .inl h
    · exact .inr (subs_self _)
  | .bconst m v, g, x, hx => by
    simp only [grow] at hx
    rcases insert_table.1 hx with h | rfl
    · exact .inl h
    · exact .inr (subs_self _)
  | .name s, g, x, hx => by
    simp only [grow] at hx
    rcases insert_table.1 hx with h | rfl
    · exact .inl h
    · exact .inr (subs_self _)
  | .pred s b, g, x, hx => by
    simp only [grow] at hx
    rcases insert_table.1 hx with h | rfl
    · exact .inl h
    · exact .inr (subs_self _)
theorem growArgs_subs (p : Node) : ∀ (as : List Node) (g : Graph), ∀ x ∈ (growArgs p as g).table,
    x ∈ g.table ∨ x ∈ T.subsL as
  | [], g, x, hx => .inl (by simpa [growArgs] using hx)
  | a :: as, g, x, hx => by
    simp only [growArgs] at hx
    split_ifs at hx with hc
    · rcases growArgs_subs p as g x hx with h | h
      · exact .inl h
      · exact .inr (by simp [T.subsL, h])
    · rcases growArgs_subs p as _ x hx with h | h
      · rcases grow_subs a _ x h with h | h
        · rw [link_table] at h
          rcases insert_table.1 h with h | rfl
          · exact .inl h
          · exact .inr (by simp [T.subsL, subs_self])
        · exact .inr (by simp [T.subsL, h])
      · exact .inr (by simp [T.subsL, h])
end

theorem growAll_subs (goals : List Node) : ∀ x ∈ (growAll goals).table, ∃ t ∈ goals, x ∈ t.subs := by
  have key : ∀ (l : List Node) (g : Graph), ∀ x ∈ (l.foldl (fun g t => grow t g) g).table,
      x ∈ g.table ∨ ∃ t ∈ l, x ∈ t.subs := by
    intro l
    induction l with
    | nil => intro g x hx; exact .inl hx
    | cons t l ih =>
      intro g x hx
      rcases ih (grow t g) x hx with h | ⟨u, hu, hs⟩
      · rcases grow_subs t g x h with h | h
        · exact .inl h
        · exact .inr ⟨t, by simp, h⟩
      · exact .inr ⟨u, by simp [hu], hs⟩
  intro x hx
  rcases key goals _ x hx with h | h
  · simp at h
  · exact h

mutual
/-- Subexpressions of a node of the graph are nodes, unless they are constants. -/
theorem subs_table {goals : List Node} {g : Graph} (ok : GraphOK goals g) : ∀ (t : Node), t ∈ g.table →
    ∀ x ∈ t.subs, x.isConst = false → x ∈ g.table
  | .call f args, ht, x, hx, hc => by
    simp only [T.subs, List.mem_cons] at hx
    rcases hx with rfl | hx
    · exact ht
    · exact subsL_table ok args (fun a ha hac => ok.closed _ ht a (by simp [T.needs, ha, hac])) x hx hc
  | .const v, ht, x, hx, hc => by simp [T.subs] at hx; subst hx; exact ht
  | .bconst m v, ht, x, hx, hc => by simp [T.subs] at hx; subst hx; exact ht
  | .name s, ht, x, hx, hc => by simp [T.subs] at hx; subst hx; exact ht
  | .pred s b, ht, x, hx, hc => by simp [T.subs] at hx; subst hx; exact ht
theorem subsL_table {goals : List Node} {g : Graph} (ok : GraphOK goals g) : ∀ (as : List Node),
    (∀ a ∈ as, a.isConst = false → a ∈ g.table) → ∀ x ∈ T.subsL as, x.isConst = false → x ∈ g.table
  | [], _, x, hx, _ => by simp [T.subsL] at hx
  | a :: as, h, x, hx, hc => by
    simp only [T.subsL, List.mem_append] at hx
    rcases hx with hx | hx
    · by_cases hac : a.isConst = true
      · cases a <;> simp [T.isConst] at hac
        simp [T.subs] at hx
        subst hx
        simp [T.isConst] at hc
      · exact subs_table ok a (h a (by simp) (by simpa using hac)) x hx hc
    · exact subsL_table ok as (fun b hb => h b (by simp [hb])) x hx hc
end

/-- The walk visits exactly the grounded subexpressions of the goals. -/
theorem walk_iff {goals srcs : List Node} {ord : List Node → List Node} (ho : ∀ l, (ord l).Perm l)
    (hs : SourceOrder goals srcs) (x : Node) :
    x ∈ walkdown (growAll goals) ord srcs ↔ (∃ t ∈ goals, x ∈ t.subs) ∧ x.grounded = true := by
  obtain ⟨_, _, h3, h4⟩ := walk_complete goals srcs ord ho hs
  constructor
  · intro hx
    exact ⟨growAll_subs goals x (h3 x hx), (h4 x (h3 x hx)).1 hx⟩
  · rintro ⟨⟨t, ht, hx⟩, hg⟩
    have hc : x.isConst = false := by cases x <;> simp_all [T.grounded, T.isConst]
    have ok := growAll_ok goals
    exact (h4 x (subs_table ok t (ok.mem t ht) x hx hc)).2 hg

theorem runAll_mem {lib : Lib V} {ext : Node → Except Err V} {goals : List Node} : ∀ {nodes : List Node}
    {r : List (Node × V)}, runAll lib ext goals nodes = .ok r →
    (∀ t v, (t, v) ∈ r ↔ t ∈ nodes ∧ t ∈ goals ∧ own lib ext t = .ok v) ∧
    r.map (·.1) = nodes.filter (· ∈ goals) ∧ ∀ t ∈ nodes, ∃ v, own lib ext t = .ok v
  | [], r, h => by
    have := (Except.ok.inj h).symm; subst this; simp
  | x :: xs, r, h => by
    simp only [runAll] at h
    cases hv : own lib ext x with
    | error e => rw [hv] at h; cases h
    | ok v =>
      rw [hv] at h
      change (runAll lib ext goals xs >>= _) = _ at h
      cases hr : runAll lib ext goals xs with
      | error e => rw [hr] at h; cases h
      | ok r' =>
        rw [hr] at h
        obtain ⟨h1, h2, h3⟩ := runAll_mem hr
        have := (Except.ok.inj h).symm; subst this
        refine ⟨?_, ?_, ?_⟩
        · intro t w
          by_cases hg : x ∈ goals
          · rw [if_pos hg, List.mem_cons, h1]
            constructor
            · rintro (h | h)
              · obtain ⟨rfl, rfl⟩ := Prod.mk.inj h
                exact ⟨by simp, hg, hv⟩
              · exact ⟨by simp [h.1], h.2⟩
            · rintro ⟨h4, h5, h6⟩
              rcases List.mem_cons.1 h4 with rfl | h4
              · rw [hv] at h6; cases h6; exact .inl rfl
              · exact .inr ⟨h4, h5, h6⟩
          · rw [if_neg hg, h1]
            constructor
            · rintro ⟨h4, h5⟩; exact ⟨by simp [h4], h5⟩
            · rintro ⟨h4, h5, h6⟩
              rcases List.mem_cons.1 h4 with rfl | h4
              · exact absurd h5 hg
              · exact ⟨h4, h5, h6⟩
        · by_cases hg : x ∈ goals
          · rw [if_pos hg, List.filter_cons_of_pos (by simpa using hg), List.map_cons, h2]
          · rw [if_neg hg, List.filter_cons_of_neg (by simpa using hg), h2]
        · intro t ht
          rcases List.mem_cons.1 ht with rfl | ht
          · exact ⟨v, hv⟩
          · exact h3 t ht

theorem runAll_err {lib : Lib V} {ext : Node → Except Err V} {goals : List Node} : ∀ {nodes : List Node}
    {e : Err}, runAll lib ext goals nodes = .error e → ∃ t ∈ nodes, own lib ext t = .error e
  | [], e, h => by cases h
  | x :: xs, e, h => by
    simp only [runAll] at h
    cases hv : own lib ext x with
    | error e' => rw [hv] at h; cases h; exact ⟨x, by simp, hv⟩
    | ok v =>
      rw [hv] at h
      change (runAll lib ext goals xs >>= _) = _ at h
      cases hr : runAll lib ext goals xs with
      | error e' =>
        rw [hr] at h; cases h
        obtain ⟨t, h1, h2⟩ := runAll_err hr
        exact ⟨t, by simp [h1], h2⟩
      | ok r' => rw [hr] at h; cases h

theorem compile_exec (lib : Lib V) (ext : Node → Except Err V) {goals srcs : List Node} {ord : List Node → List Node}
    (ho : ∀ l, (ord l).Perm l) (hs : SourceOrder goals srcs) :
    ∃ is, compile goals srcs ord = .ok is ∧
      exec lib ext [] is = (runAll lib ext goals (walkdown (growAll goals) ord srcs)).map fun r => (r, []) := by
  obtain ⟨h1, h2, h3, h4⟩ := walk_complete goals srcs ord ho hs
  exact exec_emit (growAll_ok goals) (walkdown (growAll goals) ord srcs) [] [] h1 h2
    (fun x hx => ⟨h3 x hx, by
      have := (h4 x (h3 x hx)).1 hx
      cases x <;> simp_all [T.grounded, T.isConst]⟩)
    ⟨by simp [liveOf], by simp⟩

/-! ## C53: every quantity has its own value -/

/-- **C53**: for every set of requested quantities, in every order in which Python may go through its sets,
instructions are found; when they are executed on whatever data and with whatever functions, then

* the values that come out are exactly the values which the requested quantities have on their own (for those
  that contain no function of constants only, see C54), each once;
* no variable is left over;
* if something is raised, then computing one of the subexpressions on its own raises this exception;
* conversely, if every such subexpression can be computed on its own, nothing is raised: in particular no variable
  is used before it is set or after it is deleted. -/
theorem C53_one_pass (goals srcs : List Node) (ord : List Node → List Node) (ho : ∀ l, (ord l).Perm l)
    (hs : SourceOrder goals srcs) :
    ∃ is, compile goals srcs ord = .ok is ∧ ∀ (V : Type) (lib : Lib V) (ext : Node → Except Err V),
      (∀ r vars, exec lib ext [] is = .ok (r, vars) → vars = [] ∧ (r.map (·.1)).Nodup ∧
        ∀ t v, (t, v) ∈ r ↔ t ∈ goals ∧ t.grounded = true ∧ own lib ext t = .ok v) ∧
      (∀ e, exec lib ext [] is = .error e → ∃ t ∈ goals, ∃ x ∈ t.subs, x.grounded = true ∧ own lib ext x = .error e) ∧
      ((∀ t ∈ goals, ∀ x ∈ t.subs, x.grounded = true → ∃ v, own lib ext x = .ok v) → ∃ r, exec lib ext [] is = .ok (r, [])) := by
  obtain ⟨h1, h2, h3, h4⟩ := walk_complete goals srcs ord ho hs
  have hu : ∃ is, compile goals srcs ord = .ok is :=
    emit_ok (growAll goals) goals (walkdown (growAll goals) ord srcs) [] [] h1 h2 (fun x hx => by
      have := (h4 x (h3 x hx)).1 hx
      cases x <;> simp_all [T.grounded, T.isConst])
  obtain ⟨is, his⟩ := hu
  refine ⟨is, his, ?_⟩
  intro V lib ext
  obtain ⟨is', h5, h6⟩ := compile_exec lib ext ho hs
  rw [his] at h5
  have := Except.ok.inj h5; subst this
  cases hr : runAll lib ext goals (walkdown (growAll goals) ord srcs) with
  | error e =>
    rw [hr] at h6
    obtain ⟨x, hx, hxe⟩ := runAll_err hr
    obtain ⟨⟨t, ht, hxt⟩, hxg⟩ := (walk_iff ho hs x).1 hx
    refine ⟨?_, ?_, ?_⟩
    · intro r vars h; rw [h6] at h; cases h
    · intro e' h; rw [h6] at h; cases h
      exact ⟨t, ht, x, hxt, hxg, hxe⟩
    · intro h
      obtain ⟨v, hv⟩ := h t ht x hxt hxg
      rw [hxe] at hv; cases hv
  | ok r' =>
    rw [hr] at h6
    obtain ⟨g1, g2, g3⟩ := runAll_mem hr
    refine ⟨?_, ?_, ?_⟩
    · intro r vars h
      rw [h6] at h
      obtain ⟨rfl, rfl⟩ := Prod.mk.inj (Except.ok.inj h)
      refine ⟨rfl, ?_, ?_⟩
      · rw [g2]; exact h1.filter _
      · intro t v
        rw [g1, walk_iff ho hs]
        constructor
        · rintro ⟨⟨_, h7⟩, h8, h9⟩; exact ⟨h8, h7, h9⟩
        · rintro ⟨h8, h7, h9⟩; exact ⟨⟨⟨t, h8, subs_self t⟩, h7⟩, h8, h9⟩
    · intro e' h; rw [h6] at h; cases h
    · intro _; exact ⟨r', h6⟩


/-- Two orders of the sets give the same values (in a possibly different order). -/
theorem C53_order_irrelevant (goals srcs srcs' : List Node) (ord ord' : List Node → List Node)
    (ho : ∀ l, (ord l).Perm l) (ho' : ∀ l, (ord' l).Perm l) (hs : SourceOrder goals srcs)
    (hs' : SourceOrder goals srcs') (lib : Lib V) (ext : Node → Except Err V) (r : List (Node × V))
    (h : (compile goals srcs ord >>= exec lib ext []) = .ok (r, [])) :
    ∃ r', (compile goals srcs' ord' >>= exec lib ext []) = .ok (r', []) ∧ r.Perm r' := by
  obtain ⟨is, h1, h2⟩ := compile_exec lib ext ho hs
  obtain ⟨is', h1', h2'⟩ := compile_exec lib ext ho' hs'
  rw [h1] at h
  rw [h1']
  change exec lib ext [] is = _ at h
  change ∃ r', exec lib ext [] is' = _ ∧ _
  rw [h2'] 
  cases hr : runAll lib ext goals (walkdown (growAll goals) ord srcs) with
  | error e => rw [h2, hr] at h; cases h
  | ok q =>
    rw [h2, hr] at h
    obtain ⟨rfl, -⟩ := Prod.mk.inj (Except.ok.inj h)
    obtain ⟨g1, g2, g3⟩ := runAll_mem hr
    cases hr' : runAll lib ext goals (walkdown (growAll goals) ord' srcs') with
    | error e =>
      obtain ⟨x, hx, hxe⟩ := runAll_err hr'
      obtain ⟨v, hv⟩ := g3 x ((walk_iff ho hs x).2 ((walk_iff ho' hs' x).1 hx))
      rw [hxe] at hv; cases hv
    | ok q' =>
      obtain ⟨g1', g2', g3'⟩ := runAll_mem hr'
      refine ⟨q', rfl, ?_⟩
      have n1 : q.Nodup := by
        refine List.Nodup.of_map (·.1) ?_
        rw [g2]; exact (walk_complete goals srcs ord ho hs).1.filter _
      have n2 : q'.Nodup := by
        refine List.Nodup.of_map (·.1) ?_
        rw [g2']; exact (walk_complete goals srcs' ord' ho' hs').1.filter _
      rw [List.perm_ext_iff_of_nodup n1 n2]
      rintro ⟨t, v⟩
      rw [g1, g1', walk_iff ho hs, walk_iff ho' hs']

/-- Does the instruction apply a function? -/
def Ins.isAssign : Ins → Bool
  | .assign _ _ => true
  | _ => false

/-- Does the instruction ask for a field or constant? -/
def Ins.isParam : Ins → Bool
  | .param _ _ => true
  | _ => false

theorem emit_count (g : Graph) (goals : List Node) : ∀ (rest : List Node) (i : ℕ) (names : List (Node × ℕ))
    (live : List (ℕ × Node)) (is : List Ins), (∀ x ∈ rest, x.isConst = false) → (∀ x ∈ rest, varOf names x = none) →
    rest.Nodup → emit g goals i names live rest = .ok is →
    is.countP Ins.isAssign = rest.countP T.isCall ∧ is.countP Ins.isParam = rest.countP T.isSource
  | [], i, names, live, is, _, _, _, h => by
    have := (Except.ok.inj h).symm; subst this; simp
  | n :: rest, i, names, live, is, hc, hv, hd, h => by
    have hd' : n ∉ rest ∧ rest.Nodup := by simpa using hd
    simp only [emit] at h
    cases hh : headIns names i n with
    | error e => rw [hh] at h; cases h
    | ok head =>
      rw [hh] at h
      change (emit g goals (i + 1) _ _ rest >>= _) = _ at h
      cases ht : emit g goals (i + 1) (names ++ [(n, i)])
          ((live ++ [(i, n)]).filter fun p => neededBy g p.2 rest) rest with
      | error e => rw [ht] at h; cases h
      | ok tail =>
        rw [ht] at h
        have := (Except.ok.inj h).symm; subst this
        have hv' : ∀ x ∈ rest, varOf (names ++ [(n, i)]) x = none := by
          intro x hx
          have h1 := hv x (by simp [hx])
          unfold varOf at h1 ⊢
          rw [Option.map_eq_none_iff, List.find?_eq_none] at h1 ⊢
          intro p hp
          rcases List.mem_append.1 hp with h2 | h2
          · exact h1 p h2
          · have : p = (n, i) := by simpa using h2
            subst this
            have : n ≠ x := by rintro rfl; exact hd'.1 hx
            simpa using this
        obtain ⟨i1, i2⟩ := emit_count g goals rest (i + 1) _ _ tail (fun x hx => hc x (by simp [hx])) hv' hd'.2 ht
        have hhead : (head.isAssign = n.isCall) ∧ head.isParam = n.isSource := by
          have hvn := hv n (by simp)
          have hcn := hc n (by simp)
          cases n with
          | const v => simp [T.isConst] at hcn
          | bconst m v => cases hh; exact ⟨rfl, rfl⟩
          | name m => cases hh; exact ⟨rfl, rfl⟩
          | pred m b => cases hh; exact ⟨rfl, rfl⟩
          | call f args =>
            simp only [headIns, T.rename, hvn] at hh
            cases hr : T.renameL names args with
            | error e => rw [hr] at hh; cases hh
            | ok xs => rw [hr] at hh; cases hh; exact ⟨rfl, rfl⟩
        have hex : ∀ l : List Ins, l = (if n ∈ goals then [Ins.export i n] else []) →
            l.countP Ins.isAssign = 0 ∧ l.countP Ins.isParam = 0 := by
          rintro _ rfl
          split_ifs <;> simp [Ins.isAssign, Ins.isParam]
        have hdel : ∀ l : List (ℕ × Node), (l.map fun p => Ins.delete p.1).countP Ins.isAssign = 0 ∧
            (l.map fun p => Ins.delete p.1).countP Ins.isParam = 0 := by
          intro l
          constructor <;> (rw [List.countP_eq_zero]; intro x hx; obtain ⟨p, _, rfl⟩ := List.mem_map.1 hx; simp [Ins.isAssign, Ins.isParam])
        constructor
        · rw [List.countP_append, List.countP_append, List.countP_cons, List.countP_cons, (hex _ rfl).1, (hdel _).1,
            i1, hhead.1]
          omega
        · rw [List.countP_append, List.countP_append, List.countP_cons, List.countP_cons, (hex _ rfl).2, (hdel _).2,
            i2, hhead.2]
          omega

theorem countP_nodup {l l' : List Node} (hl : l.Nodup) (hl' : l'.Nodup) (p : Node → Bool)
    (h : ∀ x, p x = true ∧ x ∈ l ↔ x ∈ l') : l.countP p = l'.length := by
  rw [List.countP_eq_length_filter]
  refine List.Perm.length_eq ?_
  rw [List.perm_ext_iff_of_nodup (hl.filter _) hl']
  intro x
  rw [List.mem_filter, ← h x]; tauto

theorem source_grounded {x : Node} (h : x.isSource = true) : x.grounded = true := by
  cases x <;> simp_all [T.isSource, T.grounded]

/-- **C53**: what several quantities have in common is computed once: as many functions are applied as there are
different function calls in the requested quantities, and as many arrays are asked for as there are different
fields and constants. -/
theorem C53_shared_once (goals srcs : List Node) (ord : List Node → List Node) (ho : ∀ l, (ord l).Perm l)
    (hs : SourceOrder goals srcs) (is : List Ins) (h : compile goals srcs ord = .ok is) :
    is.countP Ins.isAssign = (distinctCalls goals).length ∧
    is.countP Ins.isParam = (distinctSources goals).length := by
  obtain ⟨h1, h2, h3, h4⟩ := walk_complete goals srcs ord ho hs
  obtain ⟨c1, c2⟩ := emit_count (growAll goals) goals _ _ _ _ is (fun x hx => by
      have := (h4 x (h3 x hx)).1 hx
      cases x <;> simp_all [T.grounded, T.isConst]) (fun x _ => rfl) h1 h
  rw [c1, c2]
  constructor
  · refine countP_nodup h1 ((List.nodup_dedup _).filter _) _ ?_
    intro x
    rw [walk_iff ho hs]
    simp only [distinctCalls, List.mem_filter, List.mem_dedup, List.mem_flatMap, Bool.and_eq_true]
    tauto
  · refine countP_nodup h1 ((List.nodup_dedup _).filter _) _ ?_
    intro x
    rw [walk_iff ho hs]
    simp only [distinctSources, List.mem_filter, List.mem_dedup, List.mem_flatMap]
    constructor
    · rintro ⟨a, b, c⟩; exact ⟨b, a⟩
    · rintro ⟨a, b⟩; exact ⟨b, a, source_grounded b⟩

/-- Two quantities, `sqrt(x) + y` and `sqrt(x) * 2`, that share `sqrt(x)`. -/
def instrGoals : List Node :=
  [.call "numpy.add" [.call "numpy.sqrt" [.name "x"], .name "y"],
   .call "numpy.multiply" [.call "numpy.sqrt" [.name "x"], .const (.num 2)]]

theorem instrGoals_sources : SourceOrder instrGoals [.name "y", .name "x"] := by
  intro s
  simp [instrGoals, T.sources, T.sourcesL, T.isConst]
  tauto

/-- The instructions: `y`, `x`, `sqrt(x)`, and the two quantities; each variable is deleted after its last use. -/
example : compile instrGoals [.name "y", .name "x"] id = .ok
    [.param 0 (.name "y"), .param 1 (.name "x"),
     .assign 2 (.call "numpy.sqrt" [.name 1]), .delete 1,
     .assign 3 (.call "numpy.add" [.name 2, .name 0]),
     .export 3 (.call "numpy.add" [.call "numpy.sqrt" [.name "x"], .name "y"]), .delete 0, .delete 3,
     .assign 4 (.call "numpy.multiply" [.name 2, .const (.num 2)]),
     .export 4 (.call "numpy.multiply" [.call "numpy.sqrt" [.name "x"], .const (.num 2)]),
     .delete 2, .delete 4] := by decide +kernel

example : (distinctCalls instrGoals).length = 3 ∧ (distinctSources instrGoals).length = 2 := by decide +kernel

/-! ## C54: every requested quantity is computed -/

/-- **C54**, exactly: a requested quantity is computed if and only if every function in it has an argument that is
not a constant (`T.grounded`). -/
theorem C54_computed_iff (goals srcs : List Node) (ord : List Node → List Node) (ho : ∀ l, (ord l).Perm l)
    (hs : SourceOrder goals srcs) (lib : Lib V) (ext : Node → Except Err V) (is : List Ins)
    (h : compile goals srcs ord = .ok is) (r : List (Node × V)) (vars : Vars V)
    (hx : exec lib ext [] is = .ok (r, vars)) (t : Node) (ht : t ∈ goals) :
    (∃ v, (t, v) ∈ r) ↔ t.grounded = true := by
  obtain ⟨is', h1, h2⟩ := C53_one_pass goals srcs ord ho hs
  rw [h] at h1
  have := Except.ok.inj h1; subst this
  obtain ⟨h3, -, -⟩ := h2 V lib ext
  obtain ⟨-, -, h4⟩ := h3 r vars hx
  constructor
  · rintro ⟨v, hv⟩; exact ((h4 t v).1 hv).2.1
  · intro hg
    obtain ⟨is', h5, h6⟩ := compile_exec lib ext ho hs
    rw [h] at h5
    have := Except.ok.inj h5; subst this
    cases hr : runAll lib ext goals (walkdown (growAll goals) ord srcs) with
    | error e => rw [h6, hr] at hx; cases hx
    | ok q =>
      obtain ⟨_, _, g3⟩ := runAll_mem hr
      obtain ⟨v, hv⟩ := g3 t ((walk_iff ho hs t).2 ⟨⟨t, ht, subs_self t⟩, hg⟩)
      exact ⟨v, (h4 t v).2 ⟨ht, hg, hv⟩⟩

/-- The call graph goal that the parser makes of an expression. -/
def goalOf (s : Py) : Except Err Node := do
  let e ← parseExpr (plainScope recognized) s
  let t ← totree e
  .ok t.toT

/-- **C54** fails: `sqrt(2)*x` and `sqrt(x - x)` are accepted expressions, but whatever else is requested and in
whatever order, they are never computed. -/
theorem C54_refuted (s : Py) (hs : s = .bin .mul (.call "sqrt" [.num 2]) (.name "x") ∨
      s = .call "sqrt" [.bin .sub (.name "x") (.name "x")]) :
    ∃ t, goalOf s = .ok t ∧ ∀ (goals srcs : List Node) (ord : List Node → List Node), (∀ l, (ord l).Perm l) →
      SourceOrder goals srcs → t ∈ goals → ∀ (V : Type) (lib : Lib V) (ext : Node → Except Err V) (is : List Ins),
      compile goals srcs ord = .ok is → ∀ r vars, exec lib ext [] is = .ok (r, vars) → ¬ ∃ v, (t, v) ∈ r := by
  have key : ∃ t, goalOf s = .ok t ∧ t.grounded = false := by
    rcases hs with rfl | rfl
    · exact ⟨.call "numpy.multiply" [.call "sqrt" [.const (.num 2)], .name "x"], by decide +kernel, by decide +kernel⟩
    · exact ⟨.call "sqrt" [.const (.num 0)], by decide +kernel, by decide +kernel⟩
  obtain ⟨t, h1, h2⟩ := key
  refine ⟨t, h1, ?_⟩
  intro goals srcs ord ho hso ht V lib ext is hc r vars hx hv
  have := (C54_computed_iff goals srcs ord ho hso lib ext is hc r vars hx t ht).1 hv
  rw [h2] at this; cases this

/-- The goals of `instrGoals` are all grounded: they are computed. -/
example : ∀ t ∈ instrGoals, t.grounded = true := by decide +kernel

end Verif
