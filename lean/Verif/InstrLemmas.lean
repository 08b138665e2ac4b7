import Verif.SpecInstr
import Verif.ParseLemmas

/-!
# Lemmas about graphs, walks and instructions
-/

namespace Verif

/-! ## Growing the graph -/

/-- All that a node needs is in the table and linked to it. -/
def Graph.Full (g : Graph) (p : Node) : Prop := ∀ c ∈ p.needs, (c, p) ∈ g.edges ∧ c ∈ g.table

/-- Nothing is removed. -/
structure Graph.Le (g h : Graph) : Prop where
  table : ∀ x ∈ g.table, x ∈ h.table
  edges : ∀ e ∈ g.edges, e ∈ h.edges

theorem Graph.Le.refl (g : Graph) : g.Le g := ⟨fun _ h => h, fun _ h => h⟩

theorem Graph.Le.trans {f g h : Graph} (a : f.Le g) (b : g.Le h) : f.Le h :=
  ⟨fun x hx => b.table x (a.table x hx), fun x hx => b.edges x (a.edges x hx)⟩

theorem Graph.Full.mono {g h : Graph} {p : Node} (a : g.Full p) (b : g.Le h) : h.Full p :=
  fun c hc => ⟨b.edges _ (a c hc).1, b.table _ (a c hc).2⟩

theorem insert_table {g : Graph} {t x : Node} : x ∈ (g.insert t).table ↔ x ∈ g.table ∨ x = t := by
  unfold Graph.insert
  split_ifs with h
  · exact ⟨.inl, by rintro (h' | rfl) <;> assumption⟩
  · simp

theorem insert_edges {g : Graph} {t : Node} : (g.insert t).edges = g.edges := by
  unfold Graph.insert; split_ifs <;> rfl

theorem link_edges {g : Graph} {c p : Node} {e : Node × Node} :
    e ∈ (g.link c p).edges ↔ e ∈ g.edges ∨ e = (c, p) := by
  unfold Graph.link
  split_ifs with h
  · exact ⟨.inl, by rintro (h' | rfl) <;> assumption⟩
  · simp

theorem link_table {g : Graph} {c p : Node} : (g.link c p).table = g.table := by
  unfold Graph.link; split_ifs <;> rfl

theorem insert_le (g : Graph) (t : Node) : g.Le (g.insert t) :=
  ⟨fun _ h => insert_table.2 (.inl h), fun e h => by rw [insert_edges]; exact h⟩

theorem link_le (g : Graph) (c p : Node) : g.Le (g.link c p) :=
  ⟨fun x h => by rw [link_table]; exact h, fun _ h => link_edges.2 (.inl h)⟩

/-- What growing does. -/
structure Grown (t : Node) (g h : Graph) : Prop where
  le : g.Le h
  mem : t ∈ h.table
  full : h.Full t
  new : ∀ x ∈ h.table, x ∈ g.table ∨ (h.Full x ∧ ∀ s ∈ x.sources, s ∈ t.sources)
  sound : ∀ e ∈ h.edges, e ∈ g.edges ∨ (e.1 ∈ e.2.needs ∧ e.2 ∈ h.table)

/-- What the loop over the arguments of `p` does. -/
structure GrownArgs (p : Node) (as : List Node) (g h : Graph) : Prop where
  le : g.Le h
  full : ∀ a ∈ as, a.isConst = false → (a, p) ∈ h.edges ∧ a ∈ h.table
  new : ∀ x ∈ h.table, x ∈ g.table ∨ (h.Full x ∧ ∀ s ∈ x.sources, s ∈ T.sourcesL as)
  sound : ∀ e ∈ h.edges, e ∈ g.edges ∨ (e.1 ∈ e.2.needs ∧ e.2 ∈ h.table)

theorem grown_leaf {t : Node} {g : Graph} (hn : t.needs = []) (n : List Node) :
    Grown t g { g.insert t with num := n } := by
  have hf : Graph.Full { g.insert t with num := n } t := by intro c hc; rw [hn] at hc; simp at hc
  refine ⟨⟨(insert_le g t).table, (insert_le g t).edges⟩, insert_table.2 (.inr rfl), hf, ?_, ?_⟩
  · intro x hx
    rcases insert_table.1 hx with h | rfl
    · exact .inl h
    · exact .inr ⟨hf, fun _ h => h⟩
  · intro e he
    have : e ∈ (g.insert t).edges := he
    rw [insert_edges] at this; exact .inl this

mutual
theorem grow_grown : ∀ (t : Node) (g : Graph), Grown t g (grow t g)
  | .call f args, g => by
    obtain ⟨l, f', n, s⟩ := growArgs_grown (.call f args) args (g.insert (.call f args))
      (fun a ha hc => by simp [T.needs, ha, hc]) (insert_table.2 (.inr rfl))
    have hfull : Graph.Full (growArgs (.call f args) args (g.insert (.call f args))) (.call f args) := by
      intro c hc
      simp only [T.needs, List.mem_filter, Bool.not_eq_true'] at hc
      exact f' c hc.1 hc.2
    have le := (insert_le g (.call f args)).trans l
    refine ⟨⟨le.table, le.edges⟩, l.table _ (insert_table.2 (.inr rfl)), hfull, ?_, ?_⟩
    · intro x hx
      rcases n x hx with h | h
      · rcases insert_table.1 h with h | rfl
        · exact .inl h
        · exact .inr ⟨hfull, fun _ h => h⟩
      · exact .inr ⟨h.1, h.2⟩
    · intro e he
      rcases s e he with h | h
      · rw [insert_edges] at h; exact .inl h
      · exact .inr h
  | .const v, g => grown_leaf rfl _
  | .bconst m v, g => grown_leaf rfl _
  | .name s, g => grown_leaf rfl _
  | .pred s b, g => grown_leaf rfl _
theorem growArgs_grown (p : Node) : ∀ (as : List Node) (g : Graph),
    (∀ a ∈ as, a.isConst = false → a ∈ p.needs) → p ∈ g.table → GrownArgs p as g (growArgs p as g)
  | [], g, _, _ => ⟨.refl g, by simp, fun x hx => .inl (by simpa [growArgs] using hx),
      fun e he => .inl (by simpa [growArgs] using he)⟩
  | a :: as, g, hp, hpt => by
    simp only [growArgs]
    by_cases hc : a.isConst = true
    · rw [if_pos hc]
      obtain ⟨l, f, n, s⟩ := growArgs_grown p as g (fun b hb => hp b (by simp [hb])) hpt
      refine ⟨l, ?_, ?_, s⟩
      · intro b hb hbc
        rcases List.mem_cons.1 hb with rfl | hb
        · rw [hc] at hbc; cases hbc
        · exact f b hb hbc
      · intro x hx
        rcases n x hx with h | h
        · exact .inl h
        · exact .inr ⟨h.1, fun s hs => by simp [T.sourcesL, h.2 s hs]⟩
    · rw [if_neg hc]
      have hc' : a.isConst = false := by simpa using hc
      set g1 := (g.insert a).link a p with hg1
      have l1 : g.Le g1 := (insert_le g a).trans (link_le _ a p)
      have w := grow_grown a g1
      have v := growArgs_grown p as (grow a g1) (fun b hb => hp b (by simp [hb]))
        (w.le.table _ (l1.table _ hpt))
      have hap : a ∈ p.needs := hp a (by simp) hc'
      refine ⟨(l1.trans w.le).trans v.le, ?_, ?_, ?_⟩
      · intro b hb hbc
        rcases List.mem_cons.1 hb with rfl | hb
        · exact ⟨v.le.edges _ (w.le.edges _ (link_edges.2 (.inr rfl))), v.le.table _ w.mem⟩
        · exact v.full b hb hbc
      · intro x hx
        rcases v.new x hx with h | h
        · rcases w.new x h with h' | h'
          · rw [hg1, link_table] at h'
            rcases insert_table.1 h' with h'' | rfl
            · exact .inl h''
            · exact .inr ⟨w.full.mono v.le, fun s hs => by simp [T.sourcesL, hc', hs]⟩
          · exact .inr ⟨h'.1.mono v.le, fun s hs => by simp [T.sourcesL, hc', h'.2 s hs]⟩
        · exact .inr ⟨h.1, fun s hs => by simp [T.sourcesL, h.2 s hs]⟩
      · intro e he
        rcases v.sound e he with h | h
        · rcases w.sound e h with h' | h'
          · rw [hg1] at h'
            rcases link_edges.1 h' with h'' | rfl
            · rw [insert_edges] at h''; exact .inl h''
            · exact .inr ⟨hap, v.le.table _ (w.le.table _ (l1.table _ hpt))⟩
          · exact .inr ⟨h'.1, v.le.table _ h'.2⟩
        · exact .inr h
end

/-- The finished graph. -/
structure GraphOK (goals : List Node) (g : Graph) : Prop where
  edges : ∀ c p, (c, p) ∈ g.edges ↔ p ∈ g.table ∧ c ∈ p.needs
  closed : ∀ p ∈ g.table, ∀ c ∈ p.needs, c ∈ g.table
  mem : ∀ t ∈ goals, t ∈ g.table
  src : ∀ x ∈ g.table, ∃ t ∈ goals, ∀ s ∈ x.sources, s ∈ t.sources

theorem growAll_ok (goals : List Node) : GraphOK goals (growAll goals) := by
  have key : ∀ (l : List Node) (g : Graph),
      (∀ x ∈ g.table, g.Full x) → (∀ e ∈ g.edges, e.1 ∈ e.2.needs ∧ e.2 ∈ g.table) →
      let h := l.foldl (fun g t => grow t g) g
      (∀ x ∈ h.table, h.Full x) ∧ (∀ e ∈ h.edges, e.1 ∈ e.2.needs ∧ e.2 ∈ h.table) ∧ g.Le h ∧
      (∀ t ∈ l, t ∈ h.table) ∧
      (∀ x ∈ h.table, x ∈ g.table ∨ ∃ t ∈ l, ∀ s ∈ x.sources, s ∈ t.sources) := by
    intro l
    induction l with
    | nil => intro g h1 h2; exact ⟨h1, h2, .refl g, by simp, fun x hx => .inl hx⟩
    | cons t l ih =>
      intro g h1 h2
      have w := grow_grown t g
      have a1 : ∀ x ∈ (grow t g).table, (grow t g).Full x := by
        intro x hx
        rcases w.new x hx with h | h
        · exact (h1 x h).mono w.le
        · exact h.1
      have a2 : ∀ e ∈ (grow t g).edges, e.1 ∈ e.2.needs ∧ e.2 ∈ (grow t g).table := by
        intro e he
        rcases w.sound e he with h | h
        · exact ⟨(h2 e h).1, w.le.table _ (h2 e h).2⟩
        · exact h
      obtain ⟨b1, b2, b3, b4, b5⟩ := ih (grow t g) a1 a2
      refine ⟨b1, b2, w.le.trans b3, ?_, ?_⟩
      · intro x hx
        rcases List.mem_cons.1 hx with rfl | hx
        · exact b3.table _ w.mem
        · exact b4 x hx
      · intro x hx
        rcases b5 x hx with h | ⟨u, hu, hs⟩
        · rcases w.new x h with h | h
          · exact .inl h
          · exact .inr ⟨t, by simp, h.2⟩
        · exact .inr ⟨u, by simp [hu], hs⟩
  obtain ⟨b1, b2, b3, b4, b5⟩ := key goals ⟨[], [], []⟩ (by simp) (by simp)
  refine ⟨?_, ?_, b4, ?_⟩
  · intro c p
    constructor
    · intro h; exact ⟨(b2 _ h).2, (b2 _ h).1⟩
    · intro h; exact (b1 p h.1 c h.2).1
  · intro p hp c hc; exact (b1 p hp c hc).2
  · intro x hx
    rcases b5 x hx with h | h
    · simp at h
    · exact h

/-! ## Walking down the graph -/

theorem mem_requires {goals : List Node} {g : Graph} (ok : GraphOK goals g) {c p : Node} (hp : p ∈ g.table) :
    c ∈ g.requires p ↔ c ∈ p.needs := by
  have : c ∈ g.requires p ↔ (c, p) ∈ g.edges := by
    simp [Graph.requires]
  rw [this, ok.edges]
  exact ⟨fun h => h.2, fun h => ⟨hp, h⟩⟩

theorem mem_requiredby {goals : List Node} {g : Graph} (ok : GraphOK goals g) {c p : Node} :
    p ∈ g.requiredby c ↔ p ∈ g.table ∧ c ∈ p.needs := by
  have : p ∈ g.requiredby c ↔ (c, p) ∈ g.edges := by
    simp [Graph.requiredby]
  rw [this, ok.edges]

theorem height_le {l : List Node} {x : Node} (h : x ∈ l) : x.height ≤ T.heightL l := by
  induction l with
  | nil => simp at h
  | cons a as ih =>
    simp only [T.heightL]
    rcases List.mem_cons.1 h with rfl | h
    · exact le_max_left _ _
    · exact le_trans (ih h) (le_max_right _ _)

theorem height_lt {c p : Node} (h : c ∈ p.needs) : c.height < p.height := by
  cases p <;> simp only [T.needs, List.not_mem_nil] at h
  simp only [T.height]
  exact Nat.lt_succ_of_le (height_le (List.mem_filter.1 h).1)

/-- What each node needs comes before it. -/
def Topo (l : List Node) : Prop := ∀ a x b, l = a ++ x :: b → ∀ c ∈ x.needs, c ∈ a

theorem topo_nil : Topo [] := by intro a x b h; simp at h

theorem topo_append {l : List Node} {n : Node} (h : Topo l) (hn : ∀ c ∈ n.needs, c ∈ l) : Topo (l ++ [n]) := by
  intro a x b he c hc
  rcases List.eq_nil_or_concat b with rfl | ⟨b', y, rfl⟩
  · have := List.append_inj' he rfl
    obtain ⟨h1, h2⟩ := this
    have : n = x := by simpa using h2
    subst this; subst h1; exact hn c hc
  · have he' : l ++ [n] = (a ++ x :: b') ++ [y] := by rw [he]; simp
    have := (List.append_inj' he' rfl).1
    exact h a x b' this c hc

/-- The state of a walk. -/
structure Walked (g : Graph) (Q : Node → Prop) (s : List Node) : Prop where
  nodup : s.Nodup
  topo : Topo s
  mem : ∀ x ∈ s, x ∈ g.table
  q : ∀ x ∈ s, Q x

/-- The nodes whose last need was met between the two states have been visited. -/
def Closing (g : Graph) (s s' : List Node) : Prop :=
  ∀ x ∈ g.table, (∀ c ∈ x.needs, c ∈ s') → ¬ (∀ c ∈ x.needs, c ∈ s) → x ∈ s'

theorem Closing.trans {g : Graph} {s t u : List Node} (h1 : Closing g s t) (h2 : Closing g t u)
    (h : ∀ x ∈ t, x ∈ u) : Closing g s u := by
  intro x hx hu hs
  by_cases ht : ∀ c ∈ x.needs, c ∈ t
  · exact h x (h1 x hx ht hs)
  · exact h2 x hx hu ht

variable {goals : List Node} {g : Graph} {ord : List Node → List Node} {Q : Node → Prop}

theorem visit_ok (ok : GraphOK goals g) (ho : ∀ l, (ord l).Perm l) (hQ : ∀ x, x.needs ≠ [] → Q x) :
    ∀ (k : ℕ) (s : List Node) (n : Node), T.heightL g.table < k + n.height → n ∈ g.table →
    (∀ c ∈ n.needs, c ∈ s) → Q n → Walked g Q s →
    Walked g Q (visit g ord k s n) ∧ s <+: visit g ord k s n ∧ n ∈ visit g ord k s n ∧
      Closing g s (visit g ord k s n)
  | 0, s, n, hk, hn, _, _, _ => by
    have := height_le hn
    omega
  | k + 1, s, n, hk, hn, hs, hq, w => by
    unfold visit
    by_cases hm : n ∈ s
    · rw [if_pos hm]
      exact ⟨w, List.prefix_rfl, hm, fun x _ h1 h2 => absurd h1 h2⟩
    rw [if_neg hm]
    have w1 : Walked g Q (s ++ [n]) := by
      refine ⟨?_, topo_append w.topo hs, ?_, ?_⟩
      · rw [List.nodup_append]
        exact ⟨w.nodup, by simp, by intro a ha b hb; have : b = n := by simpa using hb
                                    subst this; intro h; subst h; exact hm ha⟩
      · intro x hx
        rcases List.mem_append.1 hx with h | h
        · exact w.mem x h
        · have : x = n := by simpa using h
          subst this; exact hn
      · intro x hx
        rcases List.mem_append.1 hx with h | h
        · exact w.q x h
        · have : x = n := by simpa using h
          subst this; exact hq
    have inner : ∀ (L : List Node), (∀ x ∈ L, x ∈ g.table ∧ n ∈ x.needs) → ∀ s1, Walked g Q s1 →
        let s2 := L.foldl (fun s x => if (g.requires x).all (· ∈ s) then visit g ord k s x else s) s1
        Walked g Q s2 ∧ s1 <+: s2 ∧ Closing g s1 s2 ∧ ∀ x ∈ L, (∀ c ∈ x.needs, c ∈ s1) → x ∈ s2 := by
      intro L
      induction L with
      | nil =>
        intro _ s1 h1
        exact ⟨h1, List.prefix_rfl, fun x _ a b => absurd a b, by simp⟩
      | cons y L ih =>
        intro hL s1 h1
        obtain ⟨hy, hny⟩ := hL y (by simp)
        have step : ∃ s2, (if (g.requires y).all (· ∈ s1) then visit g ord k s1 y else s1) = s2 ∧
            Walked g Q s2 ∧ s1 <+: s2 ∧ Closing g s1 s2 ∧ ((∀ c ∈ y.needs, c ∈ s1) → y ∈ s2) := by
          refine ⟨_, rfl, ?_⟩
          by_cases hr : (g.requires y).all (· ∈ s1) = true
          · rw [if_pos hr]
            have hr' : ∀ c ∈ y.needs, c ∈ s1 := by
              intro c hc
              have := List.all_eq_true.1 hr c ((mem_requires ok hy).2 hc)
              simpa using this
            have hh := height_lt hny
            obtain ⟨a, b, c, d⟩ := visit_ok ok ho hQ k s1 y (by omega) hy hr'
              (hQ y (List.ne_nil_of_mem hny)) h1
            exact ⟨a, b, d, fun _ => c⟩
          · rw [if_neg hr]
            refine ⟨h1, List.prefix_rfl, fun x _ a b => absurd a b, ?_⟩
            intro h
            refine absurd (List.all_eq_true.2 ?_) hr
            intro c hc
            simpa using h c ((mem_requires ok hy).1 hc)
        obtain ⟨s2, he, b1, b2, b3, b4⟩ := step
        obtain ⟨c1, c2, c3, c4⟩ := ih (fun x hx => hL x (by simp [hx])) s2 b1
        simp only [List.foldl_cons]
        rw [he]
        refine ⟨c1, b2.trans c2, b3.trans c3 c2.subset, ?_⟩
        intro x hx hc
        rcases List.mem_cons.1 hx with rfl | hx
        · exact c2.subset (b4 hc)
        · exact c4 x hx fun c hc' => b2.subset (hc c hc')
    obtain ⟨a1, a2, a3, a4⟩ := inner (ord (g.requiredby n))
      (fun x hx => (mem_requiredby ok).1 ((ho _).mem_iff.1 hx)) (s ++ [n]) w1
    refine ⟨a1, (List.prefix_append s [n]).trans a2, a2.subset (by simp), ?_⟩
    intro x hx hu hn'
    by_cases h1 : ∀ c ∈ x.needs, c ∈ s ++ [n]
    · refine a4 x ?_ h1
      rw [(ho _).mem_iff, mem_requiredby ok]
      refine ⟨hx, ?_⟩
      by_contra hc
      refine hn' fun c hc' => ?_
      rcases List.mem_append.1 (h1 c hc') with h | h
      · exact h
      · have : c = n := by simpa using h
        subst this; exact absurd hc' hc
    · exact a3 x hx hu h1

theorem visits_ok (ok : GraphOK goals g) (ho : ∀ l, (ord l).Perm l) (hQ : ∀ x, x.needs ≠ [] → Q x)
    (L : List Node) (hL : ∀ x ∈ L, x ∈ g.table ∧ x.needs = [] ∧ Q x) : ∀ s, Walked g Q s →
    let s' := L.foldl (visit g ord (T.heightL g.table + 1)) s
    Walked g Q s' ∧ s <+: s' ∧ Closing g s s' ∧ ∀ x ∈ L, x ∈ s' := by
  induction L with
  | nil => intro s w; exact ⟨w, List.prefix_rfl, fun x _ a b => absurd a b, by simp⟩
  | cons y L ih =>
    intro s w
    obtain ⟨h1, h2, h3⟩ := hL y (by simp)
    obtain ⟨a, b, c, d⟩ := visit_ok ok ho hQ (T.heightL g.table + 1) s y (by omega) h1
      (by rw [h2]; simp) h3 w
    obtain ⟨a', b', c', d'⟩ := ih (fun x hx => hL x (by simp [hx])) _ a
    refine ⟨a', b.trans b', d.trans c' b'.subset, ?_⟩
    intro x hx
    rcases List.mem_cons.1 hx with rfl | hx
    · exact b'.subset c
    · exact d' x hx

/-! ## Sources and grounded trees -/

theorem needs_source {x : Node} (h : x.isSource = true) : x.needs = [] := by
  cases x <;> simp [T.isSource] at h <;> rfl

theorem sources_of_source {x : Node} (h : x.isSource = true) : x.sources = [x] := by
  cases x <;> simp [T.isSource] at h <;> rfl

mutual
theorem sources_isSource : ∀ (x s : Node), s ∈ x.sources → s.isSource = true
  | .const _, s, h => by simp [T.sources] at h
  | .call f args, s, h => sourcesL_isSource args s (by simpa [T.sources] using h)
  | .bconst m v, s, h => by
    have : s = .bconst m v := by simpa [T.sources] using h
    subst this; rfl
  | .name m, s, h => by
    have : s = .name m := by simpa [T.sources] using h
    subst this; rfl
  | .pred m b, s, h => by
    have : s = .pred m b := by simpa [T.sources] using h
    subst this; rfl
theorem sourcesL_isSource : ∀ (l : List Node) (s : Node), s ∈ T.sourcesL l → s.isSource = true
  | [], s, h => by simp [T.sourcesL] at h
  | a :: as, s, h => by
    simp only [T.sourcesL, List.mem_append] at h
    rcases h with h | h
    · split_ifs at h
      · simp at h
      · exact sources_isSource a s h
    · exact sourcesL_isSource as s h
end

mutual
theorem sources_mem (hc : ∀ p ∈ g.table, ∀ c ∈ p.needs, c ∈ g.table) : ∀ (x s : Node), x ∈ g.table →
    s ∈ x.sources → s ∈ g.table
  | .const _, s, _, h => by simp [T.sources] at h
  | .call f args, s, hx, h => by
    refine sourcesL_mem hc args s ?_ (by simpa [T.sources] using h)
    intro a ha hac
    exact hc _ hx a (by simp [T.needs, ha, hac])
  | .bconst m v, s, hx, h => by
    have : s = .bconst m v := by simpa [T.sources] using h
    subst this; exact hx
  | .name m, s, hx, h => by
    have : s = .name m := by simpa [T.sources] using h
    subst this; exact hx
  | .pred m b, s, hx, h => by
    have : s = .pred m b := by simpa [T.sources] using h
    subst this; exact hx
theorem sourcesL_mem (hc : ∀ p ∈ g.table, ∀ c ∈ p.needs, c ∈ g.table) : ∀ (l : List Node) (s : Node),
    (∀ a ∈ l, a.isConst = false → a ∈ g.table) → s ∈ T.sourcesL l → s ∈ g.table
  | [], s, _, h => by simp [T.sourcesL] at h
  | a :: as, s, hl, h => by
    simp only [T.sourcesL, List.mem_append] at h
    rcases h with h | h
    · split_ifs at h with hac
      · simp at h
      · exact sources_mem hc a s (hl a (by simp) (by simpa using hac)) h
    · exact sourcesL_mem hc as s (fun b hb => hl b (by simp [hb])) h
end

theorem groundedL_iff {l : List Node} : T.groundedL l = true ↔ ∀ a ∈ l, a.isConst = false → a.grounded = true := by
  induction l with
  | nil => simp [T.groundedL]
  | cons a as ih =>
    simp only [T.groundedL, Bool.and_eq_true, Bool.or_eq_true, ih, List.mem_cons, forall_eq_or_imp]
    refine and_congr_left fun _ => ?_
    cases a.isConst <;> simp

/-- A call is grounded if it needs something and all it needs is. -/
theorem grounded_iff {x : Node} : x.grounded = true ↔
    x.isSource = true ∨ (x.needs ≠ [] ∧ ∀ c ∈ x.needs, c.grounded = true) := by
  cases x with
  | call f args =>
    simp only [T.grounded, T.isSource, Bool.and_eq_true, groundedL_iff, T.needs, Bool.false_eq_true, false_or]
    constructor
    · rintro ⟨h1, h2⟩
      obtain ⟨a, ha, hc⟩ := List.any_eq_true.1 h1
      refine ⟨List.ne_nil_of_mem (List.mem_filter.2 ⟨ha, hc⟩), ?_⟩
      intro c hc
      obtain ⟨h3, h4⟩ := List.mem_filter.1 hc
      exact h2 c h3 (by simpa using h4)
    · rintro ⟨h1, h2⟩
      obtain ⟨a, ha⟩ := List.exists_mem_of_ne_nil _ h1
      obtain ⟨h3, h4⟩ := List.mem_filter.1 ha
      refine ⟨List.any_eq_true.2 ⟨a, h3, h4⟩, ?_⟩
      intro b hb hbc
      exact h2 b (List.mem_filter.2 ⟨hb, by simp [hbc]⟩)
  | _ => simp [T.grounded, T.isSource, T.needs]

/-- The sources of the goals, in any order. -/
def SourceOrder (goals srcs : List Node) : Prop := ∀ s, s ∈ srcs ↔ ∃ t ∈ goals, s ∈ t.sources

/-- The walk visits exactly the grounded nodes of the graph, each once, what a node needs before the node. -/
theorem walk_complete (goals srcs : List Node) (ord : List Node → List Node) (ho : ∀ l, (ord l).Perm l)
    (hs : SourceOrder goals srcs) :
    let w := walkdown (growAll goals) ord srcs
    w.Nodup ∧ Topo w ∧ (∀ x ∈ w, x ∈ (growAll goals).table) ∧
      ∀ x ∈ (growAll goals).table, x ∈ w ↔ x.grounded = true := by
  have ok := growAll_ok goals
  set g := growAll goals with hg
  set L := srcs.filter (fun s => !s.isBroadcast) ++ srcs.filter (fun s => s.isBroadcast) with hL
  have hmem : ∀ x, x ∈ L ↔ x ∈ srcs := by
    intro x
    simp only [hL, List.mem_append, List.mem_filter]
    cases x.isBroadcast <;> simp
  have hsrc : ∀ x ∈ L, x ∈ g.table ∧ x.isSource = true := by
    intro x hx
    obtain ⟨t, ht, hxt⟩ := (hs x).1 ((hmem x).1 hx)
    exact ⟨sources_mem ok.closed t x (ok.mem t ht) hxt, sources_isSource t x hxt⟩
  obtain ⟨w, _, cl, all⟩ := visits_ok (Q := fun x => x.needs ≠ [] ∨ x.isSource = true) ok ho
    (fun x hx => .inl hx) L
    (fun x hx => ⟨(hsrc x hx).1, needs_source (hsrc x hx).2, .inr (hsrc x hx).2⟩) []
    ⟨List.nodup_nil, topo_nil, by simp, by simp⟩
  change let w := L.foldl (visit g ord (T.heightL g.table + 1)) []; _
  refine ⟨w.nodup, w.topo, w.mem, ?_⟩
  set W := L.foldl (visit g ord (T.heightL g.table + 1)) [] with hW
  have key : ∀ (n : ℕ) (x : Node), x.height < n → x ∈ g.table → (x ∈ W ↔ x.grounded = true) := by
    intro n
    induction n with
    | zero => intro x h; omega
    | succ n ih =>
      intro x hx hxt
      have ih' : ∀ c ∈ x.needs, (c ∈ W ↔ c.grounded = true) := fun c hc =>
        ih c (by have := height_lt hc; omega) (ok.closed x hxt c hc)
      rw [grounded_iff]
      constructor
      · intro hxw
        rcases w.q x hxw with h | h
        · refine .inr ⟨h, ?_⟩
          intro c hc
          obtain ⟨a, b, hab⟩ := List.append_of_mem hxw
          refine (ih' c hc).1 ?_
          have := w.topo a x b hab c hc
          rw [hab]; simp [this]
        · exact .inl h
      · rintro (h | ⟨h1, h2⟩)
        · obtain ⟨t, ht, hst⟩ := ok.src x hxt
          exact all x ((hmem x).2 ((hs x).2 ⟨t, ht, hst x (by rw [sources_of_source h]; simp)⟩))
        · refine cl x hxt (fun c hc => (ih' c hc).2 (h2 c hc)) ?_
          obtain ⟨c, hc⟩ := List.exists_mem_of_ne_nil _ h1
          intro h; exact absurd (h c hc) (by simp)
  intro x hx
  exact key (x.height + 1) x (Nat.lt_succ_self _) hx

end Verif
