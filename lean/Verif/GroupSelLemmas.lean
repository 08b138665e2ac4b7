import Verif.GroupSel
import Verif.SpecProj
import Verif.ProjLemmas

/-! # Lemmas about selections on group axes -/

namespace Verif

/-! ## the content -/

/-- The test says yes. -/
def yes (r : Except Err Bool) : Bool :=
  match r with
  | .ok b => b
  | .error _ => false

theorem filterE_ok {β : Type} (test : Test) : ∀ (d d' : List (Key × β)), filterE test d = .ok d' →
    d' = d.filter (fun p => yes (test p.1)) ∧ ∀ p ∈ d, ∃ b, test p.1 = .ok b
  | [], d', h => by
    simp only [filterE, Except.ok.injEq] at h
    subst h
    simp
  | (k, x) :: rest, d', h => by
    simp only [filterE] at h
    split at h
    · cases h
    · rename_i b hb
      split at h
      · cases h
      · rename_i rest' hr
        obtain ⟨h1, h2⟩ := filterE_ok test rest rest' hr
        cases h
        constructor
        · cases b <;> simp [List.filter_cons, hb, yes, h1]
        · intro p hp
          rcases List.mem_cons.1 hp with rfl | hp
          · exact ⟨b, hb⟩
          · exact h2 p hp

theorem dget_filter {β : Type} (q : Key → Bool) (d : List (Key × β)) (k : Key) :
    dget (d.filter (fun p => q p.1)) k = if q k then dget d k else none := by
  induction d with
  | nil => simp [dget_nil]
  | cons p d ih =>
    obtain ⟨k', x⟩ := p
    by_cases h : q k' = true
    · rw [List.filter_cons_of_pos (by simpa using h), dget_cons, dget_cons, ih]
      by_cases hk : k' = k
      · subst hk; simp [h]
      · simp [hk]
    · rw [List.filter_cons_of_neg (by simpa using h), ih, dget_cons]
      by_cases hk : k' = k
      · subst hk; simp [h]
      · simp [hk]

theorem mapValsE_ok {β γ : Type} (f : β → Except Err γ) : ∀ (d : List (Key × β)) (d' : List (Key × γ)), mapValsE f d = .ok d' →
    List.Forall₂ (fun (p : Key × β) (q : Key × γ) => p.1 = q.1 ∧ f p.2 = .ok q.2) d d'
  | [], d', h => by
    simp only [mapValsE, Except.ok.injEq] at h
    subst h
    exact .nil
  | (k, x) :: rest, d', h => by
    simp only [mapValsE] at h
    split at h
    · cases h
    · rename_i y hy
      split at h
      · cases h
      · rename_i rest' hr
        cases h
        exact .cons ⟨rfl, hy⟩ (mapValsE_ok f rest rest' hr)

theorem mem_dget {β : Type} {d : List (Key × β)} {k : Key} {x : β} (h : dget d k = some x) : (k, x) ∈ d := by
  unfold dget at h
  rw [Option.map_eq_some_iff] at h
  obtain ⟨p, h1, h2⟩ := h
  have := List.find?_some h1
  simp only [decide_eq_true_eq] at this
  subst this
  subst h2
  exact List.mem_of_find?_eq_some h1

/-- What `filterGroup` does to a content. -/
theorem filterGroup_spec (test : Test) (L : Layout) : ∀ (i n : ℕ) (c c' : Content Arr n), i < n → filterGroup test i n c = .ok c' →
    (Shaped L n c → Shaped L n c') ∧ (Distinct n c → Distinct n c') ∧
    ∀ gk : List Key, gk.length = n →
      (HasGroup n c gk → ∃ b, test (gk.getD i (.str "")) = .ok b) ∧
      (HasGroup n c gk → yes (test (gk.getD i (.str ""))) = true → HasGroup n c' gk) ∧
      (∀ idx col, lookup n c' gk idx col = if yes (test (gk.getD i (.str ""))) then lookup n c gk idx col else 0)
  | _, 0, _, _, hi, _ => absurd hi (by omega)
  | 0, n + 1, (d : List (Key × Content Arr n)), (d' : List (Key × Content Arr n)), _, h => by
    obtain ⟨h1, h2⟩ := filterE_ok test d d' h
    have hg : ∀ k, dget d' k = if yes (test k) then dget d k else none := by
      intro k
      rw [h1]
      exact dget_filter (fun k => yes (test k)) d k
    refine ⟨?_, ?_, ?_⟩
    · intro hs k c hc
      rw [hg] at hc
      split at hc
      · exact hs k c hc
      · cases hc
    · intro hd
      refine ⟨?_, fun p hp => hd.2 p ?_⟩
      · rw [h1]
        exact hd.1.sublist (List.filter_sublist.map _)
      · rw [h1] at hp
        exact List.mem_of_mem_filter hp
    · intro gk hgk
      cases gk with
      | nil => simp at hgk
      | cons k gk =>
        simp only [List.getD_cons_zero]
        refine ⟨?_, ?_, ?_⟩
        · rintro ⟨c, hc, _⟩
          exact h2 (k, c) (mem_dget hc)
        · rintro ⟨c, hc, hh⟩ hy
          refine ⟨c, ?_, hh⟩
          rw [hg, if_pos hy, hc]
        · intro idx col
          simp only [lookup]
          rw [hg]
          cases yes (test k) <;> rfl
  | i + 1, n + 1, (d : List (Key × Content Arr n)), (d' : List (Key × Content Arr n)), hi, h => by
    have hf := mapValsE_ok (filterGroup test i n) d d' h
    have hg := dget_forall₂ (P := fun x y => filterGroup test i n x = .ok y) hf
    have ih := fun c c' => filterGroup_spec test L i n c c' (by omega)
    refine ⟨?_, ?_, ?_⟩
    · intro hs k c hc
      rcases hg k with ⟨_, h2⟩ | ⟨x, y, h1, h2, h3⟩
      · rw [h2] at hc; cases hc
      · rw [h2] at hc
        cases hc
        exact (ih x c h3).1 (hs k x h1)
    · intro hd
      constructor
      · have : d'.map (·.1) = d.map (·.1) := by
          clear hg h hd
          induction hf with
          | nil => rfl
          | cons h1 _ ih' => rw [List.map_cons, List.map_cons, ih', h1.1]
        rw [this]
        exact hd.1
      · intro q hq
        have : ∃ p ∈ d, filterGroup test i n p.2 = .ok q.2 := by
          clear hg h hd
          induction hf with
          | nil => cases hq
          | cons h1 _ ih' =>
            rcases List.mem_cons.1 hq with rfl | hq
            · exact ⟨_, List.mem_cons_self .., h1.2⟩
            · obtain ⟨p, hp, h3⟩ := ih' hq
              exact ⟨p, List.mem_cons_of_mem _ hp, h3⟩
        obtain ⟨p, hp, h3⟩ := this
        exact (ih p.2 q.2 h3).2.1 (hd.2 p hp)
    · intro gk hgk
      cases gk with
      | nil => simp at hgk
      | cons k gk =>
        simp only [List.getD_cons_succ]
        have hl : gk.length = n := by simpa using hgk
        refine ⟨?_, ?_, ?_⟩
        · rintro ⟨c, hc, hh⟩
          rcases hg k with ⟨h1, _⟩ | ⟨x, y, h1, h2, h3⟩
          · rw [hc] at h1; cases h1
          · rw [hc] at h1
            cases h1
            exact ((ih c y h3).2.2 gk hl).1 hh
        · rintro ⟨c, hc, hh⟩ hy
          rcases hg k with ⟨h1, _⟩ | ⟨x, y, h1, h2, h3⟩
          · rw [hc] at h1; cases h1
          · rw [hc] at h1
            cases h1
            exact ⟨y, h2, ((ih c y h3).2.2 gk hl).2.1 hh hy⟩
        · intro idx col
          simp only [lookup]
          rcases hg k with ⟨h1, h2⟩ | ⟨x, y, h1, h2, h3⟩
          · rw [h1, h2]
            cases yes (test (gk.getD i (.str ""))) <;> rfl
          · rw [h1, h2]
            exact ((ih x y h3).2.2 gk hl).2.2 idx col

/-- The key of a row on group axis `i`. -/
theorem inGroup_key : ∀ (as : List GroupAxis) (vs : List GVal) (gk : List Key) (i : ℕ) (a : GroupAxis), as[i]? = some a →
    inGroup as vs gk = true → gk.length = as.length ∧ a.key (vs.getD i (.num .nan)) = some (gk.getD i (.str ""))
  | [], _, _, _, _, h, _ => by simp at h
  | _ :: _, [], _, _, _, _, h => by simp [inGroup] at h
  | _ :: _, _ :: _, [], _, _, _, h => by simp [inGroup] at h
  | b :: [], v :: vs, k :: gk, 0, a, ha, h => by
    simp only [List.getElem?_cons_zero, Option.some.injEq] at ha
    subst ha
    cases vs <;> cases gk <;> simp_all [inGroup]
  | b :: c :: as, v :: vs, k :: gk, 0, a, ha, h => by
    simp only [List.getElem?_cons_zero, Option.some.injEq] at ha
    subst ha
    have h' := Bool.and_eq_true_iff.1 h
    have := inGroup_key (c :: as) vs gk 0 c rfl h'.2
    exact ⟨by simp [this.1], by simpa using h'.1⟩
  | b :: as, v :: vs, k :: gk, i + 1, a, ha, h => by
    have h' := Bool.and_eq_true_iff.1 h
    have := inGroup_key as vs gk i a (by simpa using ha) h'.2
    exact ⟨by simp [this.1], by simpa using this.2⟩

/-- A selection on a group axis gives the content of the rows for which the test is true. -/
theorem Represents.filterState {H : HistDef} {rows : List Row} {st st' : H.State} (h : Represents H rows st) (i : ℕ) (a : GroupAxis)
    (ha : H.groups[i]? = some a) (test : Test) (hst : H.filterState test i st = .ok st') (p : Row → Bool)
    (hp : ∀ r ∈ rows, ∀ k b, a.key (r.gvals.getD i (.num .nan)) = some k → test k = .ok b → p r = b) :
    Represents H (rows.filter p) st' := by
  have hi : i < H.groups.length := (List.getElem?_eq_some_iff.1 ha).1
  cases st with
  | none =>
    simp only [HistDef.filterState, Except.ok.injEq] at hst
    subst hst
    refine ⟨trivial, trivial, fun r hr => h.sound r (List.mem_of_mem_filter hr), fun r hr => h.groups r (List.mem_of_mem_filter hr), ?_⟩
    intro gk hgk idx hidx col
    have hno : ∀ r ∈ rows, Row.lands H gk idx r = false := by
      intro r hr
      unfold Row.lands
      cases hg : inGroup H.groups r.gvals gk with
      | false => rfl
      | true => exact absurd (h.groups r hr gk hg) (by simp [HistDef.has])
    show (0 : ℚ) = _
    unfold binTotal
    rw [List.filter_filter, List.filter_eq_nil_iff.2 (fun r hr => by simp [hno r hr])]
    rfl
  | some c =>
    simp only [HistDef.filterState] at hst
    cases hc : filterGroup test i H.groups.length c with
    | error e => rw [hc] at hst; cases hst
    | ok c' =>
      rw [hc] at hst
      cases hst
      obtain ⟨s1, s2, s3⟩ := filterGroup_spec test H.layout i H.groups.length c c' hi hc
      refine ⟨s1 h.good, s2 h.distinct, fun r hr => h.sound r (List.mem_of_mem_filter hr), ?_, ?_⟩
      · intro r hr gk hgk
        obtain ⟨hr1, hr2⟩ := List.mem_filter.1 hr
        obtain ⟨hl, hk⟩ := inGroup_key _ _ _ i a ha hgk
        have hh := h.groups r hr1 gk hgk
        obtain ⟨b, hb⟩ := (s3 gk hl).1 hh
        refine (s3 gk hl).2.1 hh ?_
        rw [hb]
        exact (hp r hr1 _ b hk hb).symm.trans hr2
      · intro gk hgk idx hidx col
        have e1 := (s3 gk hgk).2.2 idx col
        have e2 := h.totals gk hgk idx hidx col
        show lookup H.groups.length c' gk idx col = _
        rw [e1]
        change lookup H.groups.length c gk idx col = _ at e2
        rw [e2]
        unfold binTotal
        rw [List.filter_filter]
        have hrow : ∀ r ∈ rows, Row.lands H gk idx r = true → p r = yes (test (gk.getD i (.str ""))) := by
          intro r hr hl
          have hg : inGroup H.groups r.gvals gk = true := (Bool.and_eq_true_iff.1 hl).1
          obtain ⟨_, hk⟩ := inGroup_key _ _ _ i a ha hg
          obtain ⟨b, hb⟩ := (s3 gk hgk).1 (h.groups r hr gk hg)
          rw [hp r hr _ b hk hb, hb]
          rfl
        cases hy : yes (test (gk.getD i (.str ""))) with
        | true =>
          rw [if_pos rfl]
          congr 2
          refine List.filter_congr fun r hr => ?_
          cases hl : Row.lands H gk idx r with
          | false => rfl
          | true => rw [hrow r hr hl, hy]; rfl
        | false =>
          rw [if_neg (by simp)]
          rw [List.filter_eq_nil_iff.2]
          · rfl
          · intro r hr
            cases hl : Row.lands H gk idx r with
            | false => simp
            | true => rw [hrow r hr hl, hy]; simp

/-! ## the functions made by `logical` -/

/-- The function value of one "and". -/
def andClo (f : GTerm → Test) : List GTerm → Clo
  | [t] => .test (f t)
  | _ => .conj

theorem andLoop_some (sel : GTerm → Except Err (Option Test)) (f : GTerm → Test) : ∀ (ts : List GTerm) (F : Frame) (c : Clo),
    (∀ t ∈ ts, sel t = .ok (some (f t))) → ∃ F', andLoop sel ts F (some c) = .ok (some (F', if ts = [] then some c else some .conj))
  | [], F, c, _ => ⟨F, rfl⟩
  | t :: ts, F, c, h => by
    obtain ⟨F', hF⟩ := andLoop_some sel f ts { slice1 := some (.test (f t)), slice2 := some c } .conj (fun t ht => h t (by simp [ht]))
    refine ⟨F', ?_⟩
    simp only [andLoop, h t (by simp), hF]
    by_cases hn : ts = [] <;> simp [hn]

theorem andLoop_none (sel : GTerm → Except Err (Option Test)) (f : GTerm → Test) (ts : List GTerm) (hne : ts ≠ []) (F : Frame)
    (h : ∀ t ∈ ts, sel t = .ok (some (f t))) : ∃ F', andLoop sel ts F none = .ok (some (F', some (andClo f ts))) := by
  cases ts with
  | nil => exact absurd rfl hne
  | cons t ts =>
    obtain ⟨F', hF⟩ := andLoop_some sel f ts { F with slice1 := some (.test (f t)) } (.test (f t)) (fun t ht => h t (by simp [ht]))
    refine ⟨F', ?_⟩
    simp only [andLoop, h t (by simp), hF]
    cases ts <;> simp [andClo]

theorem orLoop_some (sel : GTerm → Except Err (Option Test)) (f : GTerm → Test) (last : List GTerm) (hl : last ≠ []) :
    ∀ (rest : List (List GTerm)) (F : Frame) (c : Clo), (∀ ts ∈ rest ++ [last], ts ≠ [] ∧ ∀ t ∈ ts, sel t = .ok (some (f t))) →
      orLoop sel (rest ++ [last]) F (some c) =
        .ok (some (⟨some (andClo f last), some (if rest = [] then c else .disj)⟩, some .disj))
  | [], F, c, h => by
    obtain ⟨F', hF⟩ := andLoop_none sel f last hl F (h last (by simp)).2
    simp only [List.nil_append, orLoop, hF]
    simp
  | ts :: rest, F, c, h => by
    obtain ⟨h1, h2⟩ := h ts (by simp)
    obtain ⟨F', hF⟩ := andLoop_none sel f ts h1 F h2
    simp only [List.cons_append, orLoop, hF]
    rw [orLoop_some sel f last hl rest _ .disj (fun ts hts => h ts (by simp only [List.cons_append, List.mem_cons]; exact Or.inr hts))]
    simp

/-- The function that `logical` returns for an "or" of at least two "and"s. -/
theorem orLoop_eq (sel : GTerm → Except Err (Option Test)) (f : GTerm → Test) (first last : List GTerm) (mid : List (List GTerm)) (F : Frame)
    (h : ∀ ts ∈ first :: (mid ++ [last]), ts ≠ [] ∧ ∀ t ∈ ts, sel t = .ok (some (f t))) :
    orLoop sel (first :: (mid ++ [last])) F none =
      .ok (some (⟨some (andClo f last), some (if mid = [] then andClo f first else .disj)⟩, some .disj)) := by
  obtain ⟨h1, h2⟩ := h first (by simp)
  obtain ⟨F', hF⟩ := andLoop_none sel f first h1 F h2
  simp only [orLoop, hF]
  exact orLoop_some sel f last (h last (by simp)).1 mid F' _ (fun ts hts => h ts (by simp only [List.mem_cons]; exact Or.inr hts))

/-- `a or b` -/
theorem call_or (limit : ℕ) (hl : 2 ≤ limit) (f g : Test) (x : Key) :
    Clo.call limit ⟨some (.test f), some (.test g)⟩ .disj x = match f x with
      | .ok false => g x
      | r => r := by
  obtain ⟨n, rfl⟩ := Nat.exists_eq_add_of_le hl
  unfold Clo.call
  rw [show 2 + n = n + 1 + 1 by omega]
  simp only [Clo.run]
  cases f x with
  | error e => rfl
  | ok b => cases b <;> rfl

/-- `(a and b) or c` -/
theorem call_conj_or (limit : ℕ) (hl : 3 ≤ limit) (f : Test) (x : Key) :
    Clo.call limit ⟨some (.test f), some .conj⟩ .disj x = f x := by
  obtain ⟨n, rfl⟩ := Nat.exists_eq_add_of_le hl
  unfold Clo.call
  rw [show 3 + n = n + 1 + 1 + 1 by omega]
  simp only [Clo.run]
  cases h : f x with
  | error e => rfl
  | ok b => cases b <;> simp

theorem run_disj (f : Test) (x : Key) (hf : f x = .ok false) : ∀ n, Clo.run ⟨some (.test f), some .disj⟩ x n .disj = none
  | 0 => rfl
  | 1 => rfl
  | n + 2 => by
    simp only [Clo.run, hf]
    exact run_disj f x hf (n + 1)

/-- `... or b or c` -/
theorem call_or_or (limit : ℕ) (hl : 2 ≤ limit) (f : Test) (x : Key) :
    Clo.call limit ⟨some (.test f), some .disj⟩ .disj x = match f x with
      | .ok false => .error .recursion
      | r => r := by
  unfold Clo.call
  cases hx : f x with
  | ok b =>
    cases b with
    | false => rw [run_disj f x hx]; rfl
    | true =>
      obtain ⟨n, rfl⟩ := Nat.exists_eq_add_of_le hl
      rw [show 2 + n = n + 1 + 1 by omega]
      simp [Clo.run, hx]
  | error e =>
    obtain ⟨n, rfl⟩ := Nat.exists_eq_add_of_le hl
    rw [show 2 + n = n + 1 + 1 by omega]
    simp [Clo.run, hx]

theorem run_conj (g : Clo) (x : Key) : ∀ n, Clo.run ⟨some .conj, some g⟩ x n .conj = none
  | 0 => rfl
  | n + 1 => by simp only [Clo.run, run_conj g x n]

/-- `... or (a and b)` -/
theorem call_or_conj (limit : ℕ) (g : Clo) (x : Key) : Clo.call limit ⟨some .conj, some g⟩ .disj x = .error .recursion := by
  unfold Clo.call
  cases limit with
  | zero => rfl
  | succ n =>
    simp only [Clo.run, run_conj g x n]
    rfl

end Verif
