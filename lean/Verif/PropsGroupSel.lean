import Verif.GroupSelLemmas
import Verif.PropsSelect

/-!
# Selections on group axes: property theorems C39
-/

namespace Verif

/-! ## specification -/

/-- What `key cmp value` means, where Python has an answer: numbers by size, strings by character order,
`in` by membership; NaN equals nothing. -/
def Cmp.keyHolds (c : Cmp) (x : Key) (v : SelVal) : Bool :=
  match v with
  | .set ks =>
    match c with
    | .isin => decide (x ∈ ks)
    | .notin => decide (x ∉ ks)
    | .ne => true
    | _ => false
  | .nan => decide (c = .ne)
  | .key k =>
    match c with
    | .eq => decide (x = k)
    | .ne => decide (x ≠ k)
    | c =>
      match x.toNum?, k.toNum? with
      | some a, some b => c.test a b
      | _, _ =>
        match c, x, k with
        | .lt, .str s, .str t => decide (s < t)
        | .le, .str s, .str t => decide (s < t ∨ s = t)
        | .gt, .str s, .str t => decide (t < s)
        | .ge, .str s, .str t => decide (t < s ∨ s = t)
        | _, _, _ => false

/-- The row has a key on group axis `i` that satisfies `p`. -/
def Row.keySat (H : HistDef) (i : ℕ) (p : Key → Bool) (r : Row) : Bool :=
  match H.groups[i]? with
  | none => false
  | some a =>
    match a.key (r.gvals.getD i (.num .nan)) with
    | none => false
    | some k => p k

/-! ## helpers -/

theorem groupbyTest_ok (c : Cmp) (v : SelVal) (x : Key) (b : Bool) (h : groupbyTest c v x = .ok b) : b = c.keyHolds x v := by
  cases v with
  | set ks => cases c <;> simp [groupbyTest, Cmp.keyHolds] at h ⊢ <;> first | exact h.symm | exact h | grind
  | nan =>
    cases c <;> simp [groupbyTest, Cmp.keyHolds, Key.nanCmp] at h ⊢ <;> first | exact h.symm | exact h | (cases x <;> simp [Key.toNum?] at h; all_goals simp [h])
  | key k =>
    cases c <;> cases x <;> cases k <;>
      simp [groupbyTest, Cmp.keyHolds, Key.lt, Key.le, Key.toNum?, Cmp.test] at h ⊢ <;>
      first | exact h.symm | exact h | grind

theorem keySat_of {H : HistDef} {i : ℕ} {a : GroupAxis} (ha : H.groups[i]? = some a) (p : Key → Bool) (r : Row) (k : Key)
    (hk : a.key (r.gvals.getD i (.num .nan)) = some k) : r.keySat H i p = p k := by
  unfold Row.keySat
  rw [ha]
  simp only [hk]

theorem selectTerm_ok {H : HistDef} {i : ℕ} {t : GTerm} {tol : ℚ} {st st' : H.State} {a : GroupAxis} (ha : H.groups[i]? = some a)
    (h : H.selectTerm i t tol st = .ok st') : ∃ test, a.select t.cmp t.value tol = .ok (some test) ∧ H.filterState test i st = .ok st' := by
  unfold HistDef.selectTerm at h
  rw [ha] at h
  simp only at h
  split at h
  · cases h
  · cases h
  · rename_i test ht
    exact ⟨test, ht, h⟩

/-- The tests that the axis gives mean what `P` says. -/
def Means (a : GroupAxis) (tol : ℚ) (t : GTerm) (P : Key → Bool) : Prop :=
  ∀ test, a.select t.cmp t.value tol = .ok (some test) → ∀ k b, test k = .ok b → b = P k

theorem groupby_means (tol : ℚ) (t : GTerm) : Means .groupby tol t (fun k => t.cmp.keyHolds k t.value) := by
  intro test ht k b hb
  simp only [GroupAxis.select, Except.ok.injEq, Option.some.injEq] at ht
  subst ht
  exact groupbyTest_ok _ _ _ _ hb

theorem represents_and {H : HistDef} (i : ℕ) (a : GroupAxis) (ha : H.groups[i]? = some a) (tol : ℚ) (P : GTerm → Key → Bool) :
    ∀ (ts : List GTerm) (rows : List Row) (st st' : H.State), (∀ t ∈ ts, Means a tol t (P t)) → Represents H rows st →
      H.selectAnd i tol ts st = .ok st' → Represents H (rows.filter (fun r => ts.all (fun t => r.keySat H i (P t)))) st'
  | [], rows, st, st', _, h, hs => by
    simp only [HistDef.selectAnd, Except.ok.injEq] at hs
    subst hs
    simpa using h
  | t :: ts, rows, st, st', hm, h, hs => by
    simp only [HistDef.selectAnd] at hs
    split at hs
    · cases hs
    · rename_i st1 h1
      obtain ⟨test, h2, h3⟩ := selectTerm_ok ha h1
      have hr := h.filterState i a ha test h3 (fun r => r.keySat H i (P t)) (fun r _ k b hk hb => by
        rw [keySat_of ha _ _ _ hk]
        exact (hm t (by simp) test h2 k b hb).symm)
      have := represents_and i a ha tol P ts _ st1 st' (fun t ht => hm t (by simp [ht])) hr hs
      rw [List.filter_filter] at this
      convert this using 2
      funext r
      rw [List.all_cons, Bool.and_comm]

theorem represents_or {H : HistDef} (limit : ℕ) (hl : 2 ≤ limit) (i : ℕ) (a : GroupAxis) (ha : H.groups[i]? = some a) (tol : ℚ) (s t : GTerm)
    (P Q : Key → Bool) (hP : Means a tol s P) (hQ : Means a tol t Q) (rows : List Row) (st st' : H.State) (h : Represents H rows st)
    (hs : H.selectGroup limit i [[s], [t]] tol st = .ok st') :
    Represents H (rows.filter (fun r => r.keySat H i P || r.keySat H i Q)) st' := by
  unfold HistDef.selectGroup at hs
  rw [ha] at hs
  simp only at hs
  cases h1 : a.select s.cmp s.value tol with
  | error e => simp [orLoop, andLoop, h1] at hs
  | ok f =>
    cases f with
    | none => simp [orLoop, andLoop, h1] at hs
    | some f =>
      cases h2 : a.select t.cmp t.value tol with
      | error e => simp [orLoop, andLoop, h1, h2] at hs
      | ok g =>
        cases g with
        | none => simp [orLoop, andLoop, h1, h2] at hs
        | some g =>
          simp only [orLoop, andLoop, h1, h2] at hs
          refine h.filterState i a ha _ hs _ (fun r _ k b hk hb => ?_)
          rw [call_or limit hl] at hb
          simp only [keySat_of ha _ _ _ hk]
          cases hg : g k with
          | error e => rw [hg] at hb; cases hb
          | ok c =>
            have := hQ g h2 k c hg
            rw [hg] at hb
            cases c with
            | true =>
              simp only [Except.ok.injEq] at hb
              rw [← this, ← hb, Bool.or_true]
            | false =>
              have := hP f h1 k b hb
              simp_all

/-! ## C39 -/

/-- C39, "and".  Any number of comparisons joined by "and" on a `groupby` axis of a filled histogram: if
the selection is accepted, its content is that of the rows whose key satisfies all of them. -/
theorem C39_and_groupby (H : HistDef) (bs : List (List Row)) (hf : Fillable H bs) (st : H.State) (hst : H.fillAll none bs = .ok st)
    (limit i : ℕ) (hi : H.groups[i]? = some .groupby) (ts : List GTerm) (tol : ℚ) (st' : H.State)
    (hs : H.selectGroup limit i [ts] tol st = .ok st') :
    Represents H (bs.flatten.filter (fun r => ts.all (fun t => r.keySat H i (fun k => t.cmp.keyHolds k t.value)))) st' := by
  obtain ⟨st0, e1, e2⟩ := Represents.ofFill H bs hf
  rw [hst] at e1
  cases e1
  exact represents_and i .groupby hi tol _ ts bs.flatten st st' (fun t _ => groupby_means tol t) e2 hs

/-- C39 (partial), "or".  Two comparisons joined by "or" on a `groupby` axis.

Full statement: the same for any boolean combination.  It is false for every other one that contains an
"or", see `C39_or_three_refuted`, `C39_and_or_refuted` and `C39_or_and_refuted`. -/
theorem C39_or_two_groupby_partial (H : HistDef) (bs : List (List Row)) (hf : Fillable H bs) (st : H.State) (hst : H.fillAll none bs = .ok st)
    (limit : ℕ) (hl : 2 ≤ limit) (i : ℕ) (hi : H.groups[i]? = some .groupby) (s t : GTerm) (tol : ℚ) (st' : H.State)
    (hs : H.selectGroup limit i [[s], [t]] tol st = .ok st') :
    Represents H (bs.flatten.filter (fun r => r.keySat H i (fun k => s.cmp.keyHolds k s.value) || r.keySat H i (fun k => t.cmp.keyHolds k t.value)))
      st' := by
  obtain ⟨st0, e1, e2⟩ := Represents.ofFill H bs hf
  rw [hst] at e1
  cases e1
  exact represents_or limit hl i .groupby hi tol s t _ _ (groupby_means tol s) (groupby_means tol t) bs.flatten st st' e2 hs

/-- C39: which selections are accepted.  On a `groupby` axis, comparisons for equality (with anything) and
membership in a set, joined by "and", are never rejected. -/
theorem C39_and_accepts (H : HistDef) (st : H.State) (limit i : ℕ) (hi : H.groups[i]? = some .groupby) (ts : List GTerm)
    (hts : ∀ t ∈ ts, t.cmp = .eq ∨ t.cmp = .ne ∨ (t.cmp = .isin ∨ t.cmp = .notin) ∧ ∃ ks, t.value = .set ks) (tol : ℚ) :
    ∃ st', H.selectGroup limit i [ts] tol st = .ok st' := by
  have hE : ∀ (test : Test), (∀ k, ∃ b, test k = .ok b) → ∀ {β : Type} (d : List (Key × β)), ∃ d', filterE test d = .ok d' := by
    intro test ht β d
    induction d with
    | nil => exact ⟨[], rfl⟩
    | cons p d ih =>
      obtain ⟨d', hd⟩ := ih
      obtain ⟨b, hb⟩ := ht p.1
      exact ⟨_, by simp only [filterE, hb, hd]; rfl⟩
  have hG : ∀ (test : Test), (∀ k, ∃ b, test k = .ok b) → ∀ (i n : ℕ) (c : Content Arr n), ∃ c', filterGroup test i n c = .ok c' := by
    intro test ht i n
    induction n generalizing i with
    | zero => intro c; exact ⟨c, by cases i <;> rfl⟩
    | succ n ih =>
      intro c
      cases i with
      | zero => exact hE test ht c
      | succ i =>
        have : ∀ d : List (Key × Content Arr n), ∃ d', mapValsE (filterGroup test i n) d = .ok d' := by
          intro d
          induction d with
          | nil => exact ⟨[], rfl⟩
          | cons p d ihd =>
            obtain ⟨d', hd⟩ := ihd
            obtain ⟨y, hy⟩ := ih i p.2
            exact ⟨_, by simp only [mapValsE, hy, hd]; rfl⟩
        exact this c
  show ∃ st', H.selectAnd i tol ts st = .ok st'
  induction ts generalizing st with
  | nil => exact ⟨st, rfl⟩
  | cons t ts ih =>
    have htest : ∀ k, ∃ b, groupbyTest t.cmp t.value k = .ok b := by
      intro k
      rcases hts t (by simp) with h | h | ⟨h | h, ks, hk⟩
      · rw [h]; cases t.value <;> exact ⟨_, rfl⟩
      · rw [h]; cases t.value <;> exact ⟨_, rfl⟩
      · rw [h, hk]; exact ⟨_, rfl⟩
      · rw [h, hk]; exact ⟨_, rfl⟩
    have h1 : ∃ st1, H.selectTerm i t tol st = .ok st1 := by
      unfold HistDef.selectTerm
      rw [hi]
      simp only [GroupAxis.select]
      cases st with
      | none => exact ⟨none, rfl⟩
      | some c =>
        obtain ⟨c', hc⟩ := hG _ htest i H.groups.length c
        exact ⟨some c', by simp only [HistDef.filterState, hc]; rfl⟩
    obtain ⟨st1, h1⟩ := h1
    obtain ⟨st2, h2⟩ := ih st1 (fun t ht => hts t (by simp [ht]))
    exact ⟨st2, by simp only [HistDef.selectAnd, h1, h2]⟩

theorem selectGroup_or {H : HistDef} (limit i : ℕ) (hi : H.groups[i]? = some .groupby) (first last : List GTerm) (mid : List (List GTerm))
    (hne : ∀ ts ∈ first :: (mid ++ [last]), ts ≠ []) (tol : ℚ) (st : H.State) :
    H.selectGroup limit i (first :: (mid ++ [last])) tol st =
      H.filterState (Clo.call limit ⟨some (andClo (fun t => groupbyTest t.cmp t.value) last),
        some (if mid = [] then andClo (fun t => groupbyTest t.cmp t.value) first else .disj)⟩ .disj) i st := by
  unfold HistDef.selectGroup
  have h2 := orLoop_eq (fun t => GroupAxis.select .groupby t.cmp t.value tol) (fun t => groupbyTest t.cmp t.value) first last mid ⟨none, none⟩
    (fun ts hts => ⟨hne ts hts, fun t _ => rfl⟩)
  cases mid with
  | nil =>
    simp only [List.nil_append] at h2 ⊢
    rw [hi]
    simp only [h2]
  | cons m mid =>
    simp only [List.cons_append] at h2 ⊢
    rw [hi]
    simp only [h2]

theorem filterState_error {H : HistDef} (test : Test) (i : ℕ) (hi : i < H.groups.length) (st : H.State) (gk : List Key)
    (hgk : gk.length = H.groups.length) (hh : H.has st gk) (e : Err) (he : test (gk.getD i (.str "")) = .error e) :
    ∃ e, H.filterState test i st = .error e := by
  cases st with
  | none => cases hh
  | some c =>
    simp only [HistDef.filterState]
    cases hc : filterGroup test i H.groups.length c with
    | error e => exact ⟨e, rfl⟩
    | ok c' =>
      obtain ⟨b, hb⟩ := ((filterGroup_spec test H.layout i _ c c' hi hc).2.2 gk hgk).1 hh
      rw [he] at hb
      cases hb

theorem filterE_typeError {β : Type} (test : Test) (hall : ∀ k e, test k = .error e → e = .typeError) :
    ∀ (d : List (Key × β)) (p : Key × β), p ∈ d → (∃ e, test p.1 = .error e) → filterE test d = .error .typeError
  | (k, x) :: d, p, hp, he => by
    simp only [filterE]
    cases hk : test k with
    | error e => rw [hall k e hk]
    | ok b =>
      rcases List.mem_cons.1 hp with rfl | hp
      · obtain ⟨e, he⟩ := he
        rw [hk] at he; cases he
      · simp only [filterE_typeError test hall d p hp he]

theorem mapValsE_typeError {β : Type} (f : β → Except Err β) (hall : ∀ x e, f x = .error e → e = .typeError) :
    ∀ (d : List (Key × β)) (p : Key × β), p ∈ d → f p.2 = .error .typeError → mapValsE f d = .error .typeError
  | (k, x) :: d, p, hp, he => by
    simp only [mapValsE]
    cases hk : f x with
    | error e => rw [hall x e hk]
    | ok b =>
      rcases List.mem_cons.1 hp with rfl | hp
      · rw [hk] at he; cases he
      · simp only [mapValsE_typeError f hall d p hp he]

theorem filterGroup_errors (test : Test) (hall : ∀ k e, test k = .error e → e = .typeError) :
    ∀ (n i : ℕ) (c : Content Arr n) (e : Err), filterGroup test i n c = .error e → e = .typeError := by
  have hE : ∀ {β : Type} (d : List (Key × β)) e, filterE test d = .error e → e = .typeError := by
    intro β d
    induction d with
    | nil => intro e he; cases he
    | cons p d ih =>
      intro e he
      obtain ⟨k, x⟩ := p
      simp only [filterE] at he
      cases hk : test k with
      | error e' => rw [hk] at he; cases he; exact hall k e hk
      | ok b =>
        rw [hk] at he
        simp only at he
        cases hd : filterE test d with
        | error e' => rw [hd] at he; cases he; exact ih e hd
        | ok d' => rw [hd] at he; cases he
  intro n
  induction n with
  | zero => intro i c e he; cases i <;> cases he
  | succ n ih =>
    intro i c e he
    cases i with
    | zero => exact hE (β := Content Arr n) c e he
    | succ i =>
      have : ∀ (d : List (Key × Content Arr n)) e, mapValsE (filterGroup test i n) d = .error e → e = .typeError := by
        intro d
        induction d with
        | nil => intro e he; cases he
        | cons p d ihd =>
          intro e he
          obtain ⟨k, x⟩ := p
          simp only [mapValsE] at he
          cases hk : filterGroup test i n x with
          | error e' => rw [hk] at he; cases he; exact ih i x e hk
          | ok b =>
            rw [hk] at he
            simp only at he
            cases hd : mapValsE (filterGroup test i n) d with
            | error e' => rw [hd] at he; cases he; exact ihd e hd
            | ok d' => rw [hd] at he; cases he
      exact this c e he

/-- C39: what is refused.  On a `groupby` axis that has groups of words, an inequality with a number or with NaN raises a
`TypeError`, and so does one with a word if there are groups of numbers. -/
theorem C39_inequality_refused (H : HistDef) (c : Content Arr H.groups.length) (limit i : ℕ) (hi : H.groups[i]? = some .groupby)
    (t : GTerm) (ht : t.cmp = .lt ∨ t.cmp = .le ∨ t.cmp = .gt ∨ t.cmp = .ge) (tol : ℚ) (gk : List Key)
    (hgk : gk.length = H.groups.length) (hh : H.has (some c) gk) (k : Key) (hk : gk[i]? = some k)
    (hne : (∃ s, k = .str s) ∧ (t.value = .nan ∨ ∃ q, t.value = .key (.num q)) ∨
      (∃ q, k = .num q) ∧ ∃ s, t.value = .key (.str s)) :
    H.selectGroup limit i [[t]] tol (some c) = .error .typeError := by
  have hall : ∀ x e, groupbyTest t.cmp t.value x = .error e → e = .typeError := by
    intro x e he
    rcases t with ⟨tc, tv⟩
    rcases ht with h | h | h | h <;> simp only at h <;> subst h <;> rcases hne with ⟨_, h | ⟨q, h⟩⟩ | ⟨_, s, h⟩ <;> simp only at h <;>
      subst h <;> cases x <;> simp [groupbyTest, Key.nanCmp, Key.lt, Key.le, Key.toNum?] at he <;> exact he.symm
  have hkk : groupbyTest t.cmp t.value k = .error .typeError := by
    rcases t with ⟨tc, tv⟩
    rcases ht with h | h | h | h <;> simp only at h <;> subst h <;>
      rcases hne with ⟨⟨s, rfl⟩, h | ⟨q, h⟩⟩ | ⟨⟨q, rfl⟩, s, h⟩ <;> simp only at h <;> subst h <;> rfl
  have key : ∀ (n i : ℕ) (c : Content Arr n) (gk : List Key), gk.length = n → HasGroup n c gk → gk[i]? = some k →
      filterGroup (groupbyTest t.cmp t.value) i n c = .error .typeError := by
    intro n
    induction n with
    | zero =>
      intro i c gk hl _ hk
      rw [List.length_eq_zero_iff.1 hl] at hk
      cases hk
    | succ n ih =>
      intro i c gk hl hg hk
      cases gk with
      | nil => cases hl
      | cons g gk =>
        obtain ⟨c', hc', hg'⟩ := hg
        have hm : List.Mem (g, c') c := mem_of_dget _ _ _ hc'
        cases i with
        | zero =>
          simp only [List.getElem?_cons_zero, Option.some.injEq] at hk
          subst hk
          exact filterE_typeError _ hall c (g, c') hm ⟨_, hkk⟩
        | succ i =>
          have hrec : ∀ (c'' : Content Arr n) e, filterGroup (groupbyTest t.cmp t.value) i n c'' = .error e → e = .typeError := by
            intro c'' e he
            exact filterGroup_errors _ hall n i c'' e he
          exact mapValsE_typeError _ hrec c (g, c') hm (ih i c' gk (by simpa using hl) hg' (by simpa using hk))
  have : H.selectTerm i t tol (some c) = .error .typeError := by
    unfold HistDef.selectTerm
    rw [hi]
    change (filterGroup (groupbyTest t.cmp t.value) i H.groups.length c).map some = _
    rw [key _ i c gk hgk hh hk]
    rfl
  change (match H.selectTerm i t tol (some c) with
    | .error e => Except.error e
    | .ok st => H.selectAnd i tol [] st) = _
  rw [this]

/-- C39 is false for three or more terms joined by "or", whatever the recursion limit: the selection raises
as soon as the histogram has a key that does not satisfy the last term. -/
theorem C39_or_three_refuted (H : HistDef) (st : H.State) (limit i : ℕ) (hi : H.groups[i]? = some .groupby) (first : List GTerm)
    (mid : List (List GTerm)) (last : GTerm) (hne : ∀ ts ∈ first :: mid, ts ≠ []) (hmid : mid ≠ []) (tol : ℚ) (gk : List Key)
    (hgk : gk.length = H.groups.length) (hh : H.has st gk) (hlast : groupbyTest last.cmp last.value (gk.getD i (.str "")) = .ok false) :
    ∃ e, H.selectGroup limit i (first :: (mid ++ [[last]])) tol st = .error e := by
  rw [selectGroup_or limit i hi first [last] mid (by
    intro ts hts
    simp only [List.mem_cons, List.mem_append, List.not_mem_nil, or_false] at hts
    rcases hts with rfl | h | rfl
    · exact hne _ (by simp)
    · exact hne _ (by simp [h])
    · simp)]
  rw [if_neg hmid]
  refine filterState_error _ i (List.getElem?_eq_some_iff.1 hi).1 st gk hgk hh .recursion ?_
  simp only [andClo]
  by_cases hl : 2 ≤ limit
  · rw [call_or_or limit hl, hlast]
  · have : limit = 0 ∨ limit = 1 := by omega
    rcases this with rfl | rfl <;> rfl

/-- C39 is false if the last term joined by "or" is an "and" of two or more comparisons: the selection
raises for every histogram that has a group. -/
theorem C39_or_and_refuted (H : HistDef) (st : H.State) (limit i : ℕ) (hi : H.groups[i]? = some .groupby) (first : List GTerm)
    (mid : List (List GTerm)) (last : List GTerm) (hne : ∀ ts ∈ first :: mid, ts ≠ []) (hlast : 2 ≤ last.length) (tol : ℚ) (gk : List Key)
    (hgk : gk.length = H.groups.length) (hh : H.has st gk) : ∃ e, H.selectGroup limit i (first :: (mid ++ [last])) tol st = .error e := by
  rw [selectGroup_or limit i hi first last mid (by
    intro ts hts
    simp only [List.mem_cons, List.mem_append, List.not_mem_nil, or_false] at hts
    rcases hts with rfl | h | rfl
    · exact hne _ (by simp)
    · exact hne _ (by simp [h])
    · intro h; simp [h] at hlast)]
  refine filterState_error _ i (List.getElem?_eq_some_iff.1 hi).1 st gk hgk hh .recursion ?_
  have : andClo (fun t => groupbyTest t.cmp t.value) last = .conj := by
    match last, hlast with
    | _ :: _ :: _, _ => rfl
  rw [this]
  exact call_or_conj limit _ _

/-- C39 is false for `(a and b) or c`: the result has just the rows that satisfy `c`. -/
theorem C39_and_or_refuted (H : HistDef) (bs : List (List Row)) (hf : Fillable H bs) (st : H.State) (hst : H.fillAll none bs = .ok st)
    (limit : ℕ) (hl : 3 ≤ limit) (i : ℕ) (hi : H.groups[i]? = some .groupby) (first : List GTerm) (hfirst : 2 ≤ first.length)
    (last : GTerm) (tol : ℚ) (st' : H.State) (hs : H.selectGroup limit i [first, [last]] tol st = .ok st') :
    Represents H (bs.flatten.filter (fun r => r.keySat H i (fun k => last.cmp.keyHolds k last.value))) st' := by
  obtain ⟨st0, e1, e2⟩ := Represents.ofFill H bs hf
  rw [hst] at e1
  cases e1
  have hc : andClo (fun t => groupbyTest t.cmp t.value) first = .conj := by
    match first, hfirst with
    | _ :: _ :: _, _ => rfl
  have := selectGroup_or limit i hi first [last] [] (by
    intro ts hts
    simp only [List.nil_append, List.mem_cons, List.not_mem_nil, or_false] at hts
    rcases hts with rfl | rfl
    · intro h; simp [h] at hfirst
    · simp) tol st
  rw [if_pos rfl, hc] at this
  simp only [andClo, List.nil_append] at this
  rw [this] at hs
  refine e2.filterState i .groupby hi _ hs _ (fun r _ k b hk hb => ?_)
  rw [call_conj_or limit hl] at hb
  rw [keySat_of hi _ _ _ hk]
  exact (groupbyTest_ok _ _ _ _ hb).symm

/-! ### groupbin -/

/-- The number of a row on group axis `i`. -/
def Row.groupNum (i : ℕ) (r : Row) : Num :=
  match (r.gvals.getD i (.num .nan)).toNum with
  | .ok v => v
  | .error _ => .nan

theorem groupbin_key_num {a : GroupbinAxis} {i : ℕ} {r : Row} {k : Key}
    (h : (GroupAxis.groupbin a).key (r.gvals.getD i (.num .nan)) = some k) : a.key (r.groupNum i) = some k := by
  unfold GroupAxis.key at h
  unfold Row.groupNum
  cases hv : (r.gvals.getD i (.num .nan)).toNum with
  | error e => simp only [hv] at h; cases h
  | ok v => simp only [hv] at h ⊢; exact h

theorem pyRound_int (k : ℤ) : pyRound (k : ℚ) = k := by
  unfold pyRound
  simp

/-- What an accepted comparison with a number tests. -/
theorem groupbin_select_fin (binwidth origin : ℚ) (n cl : Bool) (a : GroupbinAxis) (ha : GroupbinAxis.init binwidth origin n cl = .ok a)
    (cmp : Cmp) (v tol : ℚ) (test : Test) (h : a.select cmp (.key (.num v)) tol = .ok (some test)) :
    ∃ m : ℤ, |v - (origin + m * binwidth)| < tol ∧ (∀ k : ℤ, v = origin + k * binwidth → m = k) ∧
      ∀ (w : Num) (k : Key) (b : Bool), a.key w = some k → test k = .ok b → cmp.test w (.fin (origin + m * binwidth)) = b := by
  unfold GroupbinAxis.init at ha
  split at ha
  · cases ha
  cases ha
  rename_i hw
  have hw : 0 < binwidth := not_le.1 hw
  refine ⟨pyRound ((v - origin) / binwidth), ?_, ?_, ?_⟩
  · unfold GroupbinAxis.select at h
    simp only at h
    split at h
    · rename_i h1
      rwa [add_comm] at h1
    · cases h
  · intro k hk
    have : (v - origin) / binwidth = k := by
      rw [hk]
      field_simp
      ring
    rw [this, pyRound_int]
  · intro w k b hk hb
    set m := pyRound ((v - origin) / binwidth) with hm
    unfold GroupbinAxis.select at h
    simp only [← hm] at h
    have hcl : (cl = true ∧ cmp = .lt ∧ test = fun x => x.lt (.num (m * binwidth + origin))) ∨
        (cl = true ∧ cmp = .ge ∧ test = fun x => Key.le (.num (m * binwidth + origin)) x) ∨
        (cl = false ∧ cmp = .gt ∧ test = fun x => Key.le (.num (m * binwidth + origin)) x) ∨
        (cl = false ∧ cmp = .le ∧ test = fun x => x.lt (.num (m * binwidth + origin))) := by
      split at h
      · split at h
        · rename_i h1; simp only [Except.ok.injEq, Option.some.injEq] at h; exact Or.inl ⟨h1.1, h1.2, h.symm⟩
        · split at h
          · rename_i h1; simp only [Except.ok.injEq, Option.some.injEq] at h; exact Or.inr (Or.inl ⟨h1.1, h1.2, h.symm⟩)
          · split at h
            · rename_i h1; simp only [Except.ok.injEq, Option.some.injEq] at h; exact Or.inr (Or.inr (Or.inl ⟨h1.1, h1.2, h.symm⟩))
            · split at h
              · rename_i h1; simp only [Except.ok.injEq, Option.some.injEq] at h; exact Or.inr (Or.inr (Or.inr ⟨h1.1, h1.2, h.symm⟩))
              · cases h
      · cases h
    have hspec := C05_groupbin_special binwidth origin n cl ⟨binwidth, origin, n, cl⟩ (by
      unfold GroupbinAxis.init
      rw [if_neg (not_le.2 hw)])
    cases w with
    | nan =>
      rw [hspec.1] at hk
      split at hk
      · cases hk
        rcases hcl with ⟨_, _, rfl⟩ | ⟨_, _, rfl⟩ | ⟨_, _, rfl⟩ | ⟨_, _, rfl⟩ <;> simp [Key.lt, Key.le, Key.toNum?] at hb
      · cases hk
    | pinf =>
      rw [hspec.2.1] at hk
      cases hk
      rcases hcl with ⟨_, rfl, rfl⟩ | ⟨_, rfl, rfl⟩ | ⟨_, rfl, rfl⟩ | ⟨_, rfl, rfl⟩ <;>
        simp [Key.lt, Key.le, Key.toNum?, Num.lt, Num.le] at hb <;> simp [Cmp.test, Num.lt, Num.le, ← hb]
    | ninf =>
      rw [hspec.2.2] at hk
      cases hk
      rcases hcl with ⟨_, rfl, rfl⟩ | ⟨_, rfl, rfl⟩ | ⟨_, rfl, rfl⟩ | ⟨_, rfl, rfl⟩ <;>
        simp [Key.lt, Key.le, Key.toNum?, Num.lt, Num.le] at hb <;> simp [Cmp.test, Num.lt, Num.le, ← hb]
    | fin q =>
      obtain ⟨j, hj, hj'⟩ := GroupbinAxis.key_fin ⟨binwidth, origin, n, cl⟩ hw q
      rw [hj] at hk
      cases hk
      simp only at hj'
      have hlt : ∀ (x y : ℤ), origin + x * binwidth < y * binwidth + origin ↔ x < y := by
        intro x y
        constructor
        · intro h
          have : (x : ℚ) * binwidth < y * binwidth := by linarith
          exact_mod_cast lt_of_mul_lt_mul_right this hw.le
        · intro h
          have : (x : ℚ) < y := by exact_mod_cast h
          have := mul_lt_mul_of_pos_right this hw
          linarith
      have hq1 : q < origin + m * binwidth ↔ (q - origin) / binwidth < m := by
        rw [div_lt_iff₀ hw]
        constructor <;> intro h <;> linarith
      have hq2 : q ≤ origin + m * binwidth ↔ (q - origin) / binwidth ≤ m := by
        rw [div_le_iff₀ hw]
        constructor <;> intro h <;> linarith
      rcases hcl with ⟨rfl, rfl, rfl⟩ | ⟨rfl, rfl, rfl⟩ | ⟨rfl, rfl, rfl⟩ | ⟨rfl, rfl, rfl⟩
      · simp only [Key.lt, Key.toNum?, Num.lt, Except.ok.injEq, hlt] at hb
        rw [← hb]
        simp only [Cmp.test, Num.lt, decide_eq_decide]
        rw [hq1, hj', if_pos rfl, Int.floor_lt]
      · simp only [Key.le, Key.toNum?, Num.le, Except.ok.injEq] at hb
        rw [← hb]
        simp only [Cmp.test, Num.le, decide_eq_decide]
        rw [← not_lt, ← not_lt, hlt, hq1, hj', if_pos rfl, Int.floor_lt]
      · simp only [Key.le, Key.toNum?, Num.le, Except.ok.injEq] at hb
        rw [← hb]
        simp only [Cmp.test, Num.lt, decide_eq_decide]
        rw [← not_le, ← not_lt (b := (m : ℚ) * binwidth + origin), hlt, hq2, hj', if_neg (by simp), Int.sub_one_lt_iff, Int.ceil_le]
      · simp only [Key.lt, Key.toNum?, Num.lt, Except.ok.injEq, hlt] at hb
        rw [← hb]
        simp only [Cmp.test, Num.le, decide_eq_decide]
        rw [hq2, hj', if_neg (by simp), Int.sub_one_lt_iff, Int.ceil_le]

/-- C39, one comparison with a number on a `groupbin` axis: an accepted selection gives the content of the
rows whose number satisfies the comparison with the nearest edge of the axis, which is within the tolerance
(and the threshold itself if that is an edge). -/
theorem C39_groupbin (binwidth origin : ℚ) (n cl : Bool) (a : GroupbinAxis) (ha : GroupbinAxis.init binwidth origin n cl = .ok a)
    (H : HistDef) (bs : List (List Row)) (hf : Fillable H bs) (st : H.State) (hst : H.fillAll none bs = .ok st)
    (limit i : ℕ) (hi : H.groups[i]? = some (.groupbin a)) (cmp : Cmp) (v tol : ℚ) (st' : H.State)
    (hs : H.selectGroup limit i [[⟨cmp, .key (.num v)⟩]] tol st = .ok st') :
    ∃ m : ℤ, |v - (origin + m * binwidth)| < tol ∧ (∀ k : ℤ, v = origin + k * binwidth → m = k) ∧
      Represents H (bs.flatten.filter (fun r => cmp.test (r.groupNum i) (.fin (origin + m * binwidth)))) st' := by
  obtain ⟨st0, e1, e2⟩ := Represents.ofFill H bs hf
  rw [hst] at e1
  cases e1
  simp only [HistDef.selectGroup, HistDef.selectAnd] at hs
  split at hs
  · cases hs
  · rename_i st1 h1
    cases hs
    obtain ⟨test, h2, h3⟩ := selectTerm_ok hi h1
    obtain ⟨m, g1, g2, g3⟩ := groupbin_select_fin binwidth origin n cl a ha cmp v tol test h2
    exact ⟨m, g1, g2, e2.filterState i _ hi test h3 _ (fun r _ k b hk hb => g3 _ k b (groupbin_key_num hk) hb)⟩

/-- C39, NaN on a `groupbin` axis: `x != nan` gives the rows with a number, `x == nan` the rows with NaN
(if the axis has a group for them). -/
theorem C39_groupbin_nan (binwidth origin : ℚ) (n cl : Bool) (a : GroupbinAxis) (ha : GroupbinAxis.init binwidth origin n cl = .ok a)
    (H : HistDef) (bs : List (List Row)) (hf : Fillable H bs) (st : H.State) (hst : H.fillAll none bs = .ok st)
    (limit i : ℕ) (hi : H.groups[i]? = some (.groupbin a)) (cmp : Cmp) (hc : cmp = .eq ∨ cmp = .ne) (tol : ℚ) (st' : H.State)
    (hs : H.selectGroup limit i [[⟨cmp, .nan⟩]] tol st = .ok st') :
    Represents H (bs.flatten.filter (fun r => decide (cmp = .eq) == (r.groupNum i).isnan)) st' := by
  obtain ⟨st0, e1, e2⟩ := Represents.ofFill H bs hf
  rw [hst] at e1
  cases e1
  simp only [HistDef.selectGroup, HistDef.selectAnd] at hs
  split at hs
  · cases hs
  · rename_i st1 h1
    cases hs
    obtain ⟨test, h2, h3⟩ := selectTerm_ok hi h1
    refine e2.filterState i _ hi test h3 _ (fun r _ k b hk hb => ?_)
    have hk' := groupbin_key_num hk
    have hnan : k = .str "NaN" ↔ (r.groupNum i).isnan = true := by
      have hspec := C05_groupbin_special binwidth origin n cl a ha
      cases hr : r.groupNum i with
      | nan =>
        rw [hr, hspec.1] at hk'
        split at hk'
        · cases hk'; simp [Num.isnan]
        · cases hk'
      | pinf => rw [hr, hspec.2.1] at hk'; cases hk'; simp [Num.isnan]
      | ninf => rw [hr, hspec.2.2] at hk'; cases hk'; simp [Num.isnan]
      | fin q =>
        obtain ⟨j, iv, g1, _⟩ := C05_groupbin_interval_contains binwidth origin n cl a ha q
        rw [hr, g1] at hk'
        cases hk'
        simp [Num.isnan]
    rcases hc with rfl | rfl
    · simp only [GroupAxis.select, GroupbinAxis.select, reduceCtorEq, if_false, if_true, Except.ok.injEq, Option.some.injEq] at h2
      subst h2
      simp only [Except.ok.injEq] at hb
      rw [← hb, Bool.eq_iff_iff]
      simp [hnan]
    · simp only [GroupAxis.select, GroupbinAxis.select, if_true, Except.ok.injEq, Option.some.injEq] at h2
      subst h2
      simp only [Except.ok.injEq] at hb
      rw [← hb, Bool.eq_iff_iff]
      simp [hnan]

/-- the first group axis of a histogram without fixed axes: the keys with their number of entries, after a
selection; for examples -/
def groupDemo (a : GroupAxis) (vs : List GVal) (limit : ℕ) (dnf : List (List GTerm)) : Except Err (List (Key × ℚ)) :=
  let H : HistDef := ⟨[a], [], 0, .none⟩
  match H.fillAll none [vs.map (fun v => ⟨[v], [], [], none⟩)] with
  | .error e => .error e.1
  | .ok st =>
    match H.selectGroup limit 0 dnf (1 / 1000) st with
    | .error e => .error e
    | .ok none => .ok []
    | .ok (some (d : List (Key × Arr))) => .ok (d.map (fun p => (p.1, p.2.get [] 0)))

def abcd : List GVal := [.key (.str "a"), .key (.str "b"), .key (.str "a"), .key (.str "c"), .key (.str "d")]

def isKey (s : String) : GTerm := ⟨.eq, .key (.str s)⟩

/-- `c != "a" and c in {"a", "b"}` -/
example : groupDemo .groupby abcd 1000 [[⟨.ne, .key (.str "a")⟩, ⟨.isin, .set [.str "a", .str "b"]⟩]] = .ok [(.str "b", 1)] := by
  decide +kernel

/-- `c == "a" or c == "b"` -/
example : groupDemo .groupby abcd 1000 [[isKey "a"], [isKey "b"]] = .ok [(.str "b", 1), (.str "a", 2)] := by decide +kernel

/-- `c == "a" or c == "b" or c == "c"` -/
example : groupDemo .groupby abcd 1000 [[isKey "a"], [isKey "b"], [isKey "c"]] = .error .recursion := by decide +kernel

/-- `(c != "c" and c != "d") or c == "d"` loses a and b. -/
example : groupDemo .groupby abcd 1000 [[⟨.ne, .key (.str "c")⟩, ⟨.ne, .key (.str "d")⟩], [isKey "d"]] = .ok [(.str "d", 1)] := by
  decide +kernel

/-- `c == "d" or (c != "c" and c != "d")` -/
example : groupDemo .groupby abcd 1000 [[isKey "d"], [⟨.ne, .key (.str "c")⟩, ⟨.ne, .key (.str "d")⟩]] = .error .recursion := by
  decide +kernel

/-- `Hist(groupbin("x", 5)).select("x >= 5")` -/
example : groupDemo (.groupbin ⟨5, 0, true, true⟩) [.num (.fin 1), .num (.fin 5), .num (.fin 12), .num .pinf] 1000 [[⟨.ge, .key (.num 5)⟩]]
    = .ok [(.num 5, 1), (.num 10, 1), (.pinf, 1)] := by decide +kernel

/-- `x != nan` -/
example : groupDemo (.groupbin ⟨5, 0, true, true⟩) [.num (.fin 1), .num .nan] 1000 [[⟨.ne, .nan⟩]] = .ok [(.num 0, 1)] := by decide +kernel

/-- C39 is false on `groupbin` axes for inequalities with an infinity: `x > -inf` keeps the key of -inf. -/
theorem C39_groupbin_inf_refuted : groupDemo (.groupbin ⟨5, 0, true, true⟩) [.num (.fin 1), .num .ninf] 1000 [[⟨.gt, .key .ninf⟩]]
    = .ok [(.num 0, 1), (.ninf, 1)] := by decide +kernel

/-- C39: a `groupbin` axis that has met a NaN (and has a group for it) cannot be selected with a number. -/
theorem C39_groupbin_nan_key_refuted : groupDemo (.groupbin ⟨5, 0, true, true⟩) [.num (.fin 1), .num .nan] 1000 [[⟨.lt, .key (.num 5)⟩]]
    = .error .typeError := by decide +kernel

end Verif
