import Verif.BookFill
import Verif.PropsGoals
import Verif.PropsBook

/-!
# Properties of the filling of books (C60, C61, C65)
-/

namespace Verif

section
variable {α V : Type}

/-! ## What a successful computation says about the arguments -/

theorem sorted_unmixed {goals srcs : List Node} (hs : SourceOrder goals srcs) {l : List FieldVal}
    (h : sortedFields srcs = .ok l) : Unmixed goals := by
  intro t ht x hx t' ht' y hy hxs
  unfold sortedFields at h
  split at h
  · cases h
  · rename_i hn
    simp only [Bool.and_eq_true, List.any_eq_true, not_and, not_exists] at hn
    obtain ⟨s, hxs'⟩ := Option.isSome_iff_exists.1 hxs
    have h1 := (hs x).2 ⟨t, ht, subs_sources t x hx (fieldName_source hxs')⟩
    cases hb : y.isBroadcast with
    | false => rfl
    | true =>
      have hys : y.isSource = true := by cases y <;> simp [T.isBroadcast] at hb <;> rfl
      have hyn : y.fieldName = none := by cases y <;> simp [T.isBroadcast] at hb <;> rfl
      have h2 := (hs y).2 ⟨t', ht', subs_sources t' y hy hys⟩
      exact absurd (by rw [hyn]; rfl) (hn ⟨x, h1, hxs⟩ y h2)

theorem fillFields_sorted {lib : Lib V} {inj : List α → V} {c : Consts α} {get : String → Option (Given α)}
    {goals srcs : List Node} {ord : List Node → List Node} {r : List (Node × V) × ℕ}
    (h : fillFields lib inj c get goals srcs ord = .ok r) : ∃ l, sortedFields srcs = .ok l := by
  unfold fillFields at h
  cases hc : compile goals srcs ord with
  | error e => rw [hc] at h; cases h
  | ok is =>
    rw [hc] at h
    change (sortedFields srcs >>= _) = _ at h
    cases hl : sortedFields srcs with
    | error e => rw [hl] at h; cases h
    | ok l => exact ⟨l, rfl⟩

/-- A successful computation on arguments that describe `n` rows: the length, the exports, and that everything can be
computed. -/
theorem computed_rows {lib : Lib V} {inj : List α → V} {c : Consts α} {get : String → Option (Given α)}
    {goals srcs : List Node} {ord : List Node → List Node} (ho : ∀ l, (ord l).Perm l) (hs : SourceOrder goals srcs)
    {n m : ℕ} (hd : Describes c get goals n) {r : List (Node × V)}
    (h : fillFields lib inj c get goals srcs ord = .ok (r, m)) :
    m = n ∧ (∀ t v, (t, v) ∈ r ↔ t ∈ goals ∧ t.grounded = true ∧ own lib (columnOf inj c get n) t = .ok v) ∧
      ∀ t ∈ goals, ∀ x ∈ t.subs, x.grounded = true → ∃ v, own lib (columnOf inj c get n) x = .ok v := by
  obtain ⟨l, hl⟩ := fillFields_sorted h
  have hu := sorted_unmixed hs hl
  obtain ⟨h1, h2⟩ := (C75_columns ho hs hu lib inj c get n hd).1 r m h
  refine ⟨h1, h2, fun t ht x hx hg => ?_⟩
  obtain ⟨is, g1, g2⟩ := compile_exec lib (fun e => (paramArray c get n e).map inj) ho hs
  rw [fillFields_eq g1 hl] at h
  unfold computeAll at h
  cases hf : firstLength c get is with
  | error e => rw [hf] at h; cases h
  | ok k =>
    rw [hf] at h
    change (exec lib (fun e => (paramArray c get (k.getD 1) e).map inj) [] is >>= _) = _ at h
    cases hx' : exec lib (fun e => (paramArray c get (k.getD 1) e).map inj) [] is with
    | error e => rw [hx'] at h; cases h
    | ok q =>
      rw [hx'] at h
      have hk : k.getD 1 = n := by
        have := (Prod.mk.inj (Except.ok.inj h)).2
        rw [this]; exact h1
      rw [hk, g2] at hx'
      cases hr : runAll lib (fun e => (paramArray c get n e).map inj) goals (walkdown (growAll goals) ord srcs) with
      | error e => rw [hr] at hx'; cases hx'
      | ok q' =>
        obtain ⟨v, hv⟩ := (runAll_mem hr).2.2 x ((walk_iff ho hs x).2 ⟨⟨t, ht, hx⟩, hg⟩)
        refine ⟨v, ?_⟩
        rw [← hv]
        exact own_congr x (fun y _ hy => (paramArray_column inj c get n hy).symm)

end

/-! ## Destinations -/

theorem destOf_append (r d : List (Node × Col)) (g : Node) : destOf (r ++ d) g = (destOf r g).or (destOf d g) := by
  unfold destOf
  rw [List.find?_append]
  cases r.find? (fun p => decide (p.1 = g)) <;> simp

theorem destOf_filter {gs : List Node} {g : Node} (hg : g ∈ gs) (r : List (Node × Col)) :
    destOf (r.filter fun p => p.1 ∈ gs) g = destOf r g := by
  unfold destOf
  congr 1
  induction r with
  | nil => rfl
  | cons p r ih =>
    by_cases hp : p.1 ∈ gs
    · simp only [List.filter_cons, hp, decide_true, if_true, List.find?_cons]
      rw [ih]
    · have : p.1 ≠ g := fun e => hp (e ▸ hg)
      simp only [List.filter_cons, hp, decide_false, Bool.false_eq_true, if_false, List.find?_cons, this, ih]

theorem dest_congr {G : HistGoals} {r r' : List (Node × Col)} (h : ∀ g ∈ G.all, destOf r g = destOf r' g) :
    G.dest r = G.dest r' := by
  unfold HistGoals.dest
  have h1 : mapE (fun g => grpOf (destOf r g)) G.groups = mapE (fun g => grpOf (destOf r' g)) G.groups :=
    mapE_congr fun g hg => by rw [h g (mem_all_group hg)]
  have h2 : mapE (fun g => idxOf (destOf r g)) G.fixed = mapE (fun g => idxOf (destOf r' g)) G.fixed :=
    mapE_congr fun g hg => by rw [h g (mem_all_fixed hg)]
  have h3 : mapE (profsOf r) G.profs = mapE (profsOf r') G.profs :=
    mapE_congr fun p hp => by
      unfold profsOf
      rw [h p.1 (mem_all_prof hp).1, h p.2 (mem_all_prof hp).2]
  have h4 : weightOf r G.weight = weightOf r' G.weight := by
    cases hw : G.weight with
    | none => rfl
    | some p =>
      simp only [weightOf]
      rw [h p.1 (mem_all_weight hw).1, h p.2 (mem_all_weight hw).2]
  rw [h1, h2, h3, h4]

theorem prefill_goals (h : BHist) : h.prefill.goals = h.goals := rfl

theorem prefill_prefill (h : BHist) : h.prefill.prefill = h.prefill := rfl

theorem prefillAll_eq : ∀ (is : List ℕ) (w : Store), w.prefillAll is = fun j => if j ∈ is then (w j).prefill else w j
  | [], w => by funext j; simp [Store.prefillAll]
  | i :: is, w => by
    rw [Store.prefillAll, prefillAll_eq is]
    funext j
    by_cases hj : j = i
    · subst hj
      by_cases hm : j ∈ is <;> simp [Store.set, hm, prefill_prefill]
    · simp [Store.set, hj]

theorem postAll_eq {n : ℕ} {h : ℕ → BHist} : ∀ (is : List ℕ) (w : Store), is.Nodup →
    (∀ i ∈ is, (w i).post n = .ok (h i)) → w.postAll n is = .ok fun j => if j ∈ is then h j else w j
  | [], w, _, _ => by simp [Store.postAll]
  | i :: is, w, hn, hp => by
    rw [List.nodup_cons] at hn
    rw [Store.postAll, hp i (by simp)]
    change Store.postAll n is (w.set i (h i)) = _
    rw [postAll_eq is (w.set i (h i)) hn.2 (fun k hk => by
      have : k ≠ i := fun e => hn.1 (e ▸ hk)
      simp only [Store.set, this, if_false]
      exact hp k (by simp [hk]))]
    congr 1
    funext j
    by_cases hj : j = i
    · subst hj; simp [Store.set, hn.1]
    · simp [Store.set, hj]

/-- `_postfill` sees of the destinations only what is there for the goals. -/
theorem post_dest {h k : BHist} {d d' : List (Node × Col)} {n : ℕ}
    (hf : ({ h with dest := d } : BHist).found = ({ h with dest := d' } : BHist).found)
    (hp : ({ h with dest := d } : BHist).post n = .ok k) : ({ h with dest := d' } : BHist).post n = .ok k := by
  unfold BHist.post at hp ⊢
  rw [← hf]
  cases hx : ({ h with dest := d } : BHist).found with
  | error e => rw [hx] at hp; cases hp
  | ok x =>
    rw [hx] at hp
    simp only at hp ⊢
    cases hy : Verif.postfill h.X.hist.layout n x (Verif.prefill h.X.hist.layout h.state) with
    | error e => rw [hy] at hp; cases hp
    | ok c => rw [hy] at hp; exact hp

/-- Two computations of the goals of a histogram on the same rows leave the same in its destinations. -/
theorem found_deliver {h : BHist} {r r' : List (Node × Col)} (hr : ∀ g ∈ h.goals, destOf r g = destOf r' g) :
    (h.deliver r).found = (h.deliver r').found := by
  unfold BHist.found BHist.deliver
  simp only
  cases hG : h.X.goals with
  | error e => rfl
  | ok G =>
    simp only
    have hgoals : h.goals = G.all := by unfold BHist.goals; rw [hG]
    refine dest_congr fun g hg => ?_
    rw [hgoals] at hr ⊢
    rw [destOf_append, destOf_append, destOf_filter hg, destOf_filter hg, hr g hg]

section
variable {more : More} {named : String → Option (Option ℚ)} {get : String → Option (Given (Option ℚ))}

theorem destOf_computed {goals goals' : List Node} {r r' : List (Node × Col)} {W : Node → Except Err Col}
    (h : ∀ t v, (t, v) ∈ r ↔ t ∈ goals ∧ t.grounded = true ∧ W t = .ok v)
    (h' : ∀ t v, (t, v) ∈ r' ↔ t ∈ goals' ∧ t.grounded = true ∧ W t = .ok v) {g : Node} (hg : g ∈ goals)
    (hg' : g ∈ goals') : destOf r g = destOf r' g := by
  by_cases hv : g.grounded = true ∧ ∃ v, W g = .ok v
  · obtain ⟨h1, v, h2⟩ := hv
    rw [destOf_ok ((h g v).2 ⟨hg, h1, h2⟩) (fun u hu => by
        have := ((h g u).1 hu).2.2; rw [h2] at this; exact (Except.ok.inj this).symm),
      destOf_ok ((h' g v).2 ⟨hg', h1, h2⟩) (fun u hu => by
        have := ((h' g u).1 hu).2.2; rw [h2] at this; exact (Except.ok.inj this).symm)]
  · rw [destOf_none, destOf_none]
    · exact fun u hu => hv ⟨((h' g u).1 hu).2.1, u, ((h' g u).1 hu).2.2⟩
    · exact fun u hu => hv ⟨((h g u).1 hu).2.1, u, ((h g u).1 hu).2.2⟩

/-- The goals of the book. -/
def Store.allGoals (w : Store) (cur : List ℕ) : List Node := cur.flatMap fun i => (w i).goals

theorem describes_all {w : Store} {cur : List ℕ} (hne : cur ≠ []) {n : ℕ}
    (hd : ∀ i ∈ cur, Describes (numConsts named) get (w i).goals n) :
    Describes (numConsts named) get (w.allGoals cur) n := by
  refine ⟨?_, ?_⟩
  · rintro s ⟨t, ht, x, hx, hs⟩
    obtain ⟨i, hi, hti⟩ := List.mem_flatMap.1 ht
    exact (hd i hi).1 s ⟨t, hti, x, hx, hs⟩
  · obtain ⟨i, hi⟩ := List.exists_mem_of_ne_nil _ hne
    rcases (hd i hi).2 with ⟨s, l, ⟨t, ht, x, hx, hs⟩, hl⟩ | h
    · exact .inl ⟨s, l, ⟨t, List.mem_flatMap.2 ⟨i, hi, ht⟩, x, hx, hs⟩, hl⟩
    · exact .inr h

theorem fill_computed {h k : BHist} {srcs : List Node} {ord : List Node → List Node}
    (hf : h.fill more named get srcs ord = .ok k) : ∃ r m,
      fillFields (colLib more) .nums (numConsts named) get h.goals srcs ord = .ok (r, m) ∧
      (h.prefill.deliver r).post m = .ok k := by
  unfold BHist.fill at hf
  cases hx : fillFields (colLib more) .nums (numConsts named) get h.goals srcs ord with
  | error e => rw [hx] at hf; cases hf
  | ok q => rw [hx] at hf; exact ⟨q.1, q.2, rfl, hf⟩

theorem goals_prefillAll (w : Store) (is : List ℕ) (i : ℕ) : (w.prefillAll is i).goals = (w i).goals := by
  rw [prefillAll_eq]
  by_cases h : i ∈ is <;> simp [h, prefill_goals]

theorem cachedFor_fresh {f : Fields ℕ} {cur : List ℕ} (hf : f = .none ∨ f = .some cur) : cachedFor f cur = .ok cur := by
  rcases hf with rfl | rfl <;> rfl

theorem compute_eq {w : Store} {f : Fields ℕ} {cur : List ℕ} (hf : f = .none ∨ f = .some cur) (hne : cur ≠ [])
    {srcs : List Node} {ord : List Node → List Node} :
    (w.prefillAll cur).compute more named get f cur srcs ord =
      (fillFields (colLib more) .nums (numConsts named) get (w.allGoals cur) srcs ord).map fun r => (r.1, r.2, cur) := by
  unfold Store.compute
  rw [cachedFor_fresh hf]
  have hg : (w.prefillAll cur).goals cur = .ok (w.allGoals cur) := by
    cases hc : cur with
    | nil => exact absurd hc hne
    | cons i is =>
      simp only [Store.goals, Store.allGoals, goals_prefillAll]
  change ((w.prefillAll cur).goals cur >>= _) = _
  rw [hg]
  change (fillFields _ _ _ _ _ _ _ >>= _) = _
  cases fillFields (colLib more) .nums (numConsts named) get (w.allGoals cur) srcs ord <;> rfl

/-! ## C60 -/

/-- **C60**: a book of distinct histograms whose instructions are up to date, filled with arguments that describe the same
number of rows for each of them: if each histogram could be filled alone, the book can be filled, and each histogram is
left as its own `fill` would leave it; no other histogram is changed.  The order of computation may be any, in the book
and for each histogram.  Constants and fields must not be mixed (C80). -/
theorem C60_fill_partial {w : Store} {f : Fields ℕ} {cur : List ℕ} (hf : f = .none ∨ f = .some cur) (hne : cur ≠ [])
    (hn : cur.Nodup) {srcs : List Node} {ord : List Node → List Node} (ho : ∀ l, (ord l).Perm l)
    (hs : SourceOrder (w.allGoals cur) srcs) (hu : Unmixed (w.allGoals cur)) {n : ℕ}
    (hd : ∀ i ∈ cur, Describes (numConsts named) get (w i).goals n) {h : ℕ → BHist}
    (hfill : ∀ i ∈ cur, ∃ srcs ord, (∀ l, (ord l).Perm l) ∧ SourceOrder (w i).goals srcs ∧
      (w i).fill more named get srcs ord = .ok (h i)) :
    w.bookFill more named get f cur srcs ord = .ok (fun j => if j ∈ cur then h j else w j, cur) := by
  have hdu := describes_all hne hd
  have hall : ∀ t ∈ w.allGoals cur, ∀ x ∈ t.subs, x.grounded = true →
      ∃ v, own (colLib more) (columnOf .nums (numConsts named) get n) x = .ok v := by
    intro t ht
    obtain ⟨i, hi, hti⟩ := List.mem_flatMap.1 ht
    obtain ⟨si, oi, h1, h2, h3⟩ := hfill i hi
    obtain ⟨r, m, h4, -⟩ := fill_computed h3
    exact (computed_rows h1 h2 (hd i hi) h4).2.2 t hti
  obtain ⟨R, hR⟩ := (C75_columns ho hs hu (colLib more) .nums (numConsts named) get n hdu).2.2 hall
  obtain ⟨-, hR2, -⟩ := computed_rows ho hs hdu hR
  unfold Store.bookFill
  rw [compute_eq hf hne, hR]
  simp only [Except.map]
  have hpost : ∀ i ∈ cur, ((w.prefillAll cur).deliverAll R cur i).post n = .ok (h i) := by
    intro i hi
    obtain ⟨si, oi, h1, h2, h3⟩ := hfill i hi
    obtain ⟨r, m, h4, h5⟩ := fill_computed h3
    obtain ⟨rfl, h6, -⟩ := computed_rows h1 h2 (hd i hi) h4
    have h7 : (w.prefillAll cur).deliverAll R cur i = (w i).prefill.deliver R := by
      rw [prefillAll_eq]
      simp [Store.deliverAll, hi]
    rw [h7]
    refine post_dest (h := (w i).prefill) ?_ h5
    exact found_deliver (h := (w i).prefill) fun g hg =>
      destOf_computed h6 hR2 hg (List.mem_flatMap.2 ⟨i, hi, hg⟩)
  rw [postAll_eq cur _ hn hpost]
  simp only
  congr 2
  funext j
  by_cases hj : j ∈ cur
  · simp [hj]
  · simp [hj, Store.deliverAll, prefillAll_eq]

theorem postAll_each {n : ℕ} : ∀ (is : List ℕ) (w w' : Store), is.Nodup → w.postAll n is = .ok w' →
    ∀ i ∈ is, ∃ k, (w i).post n = .ok k
  | [], _, _, _, _ => by simp
  | j :: is, w, w', hn, hp => by
    rw [List.nodup_cons] at hn
    rw [Store.postAll] at hp
    cases hx : (w j).post n with
    | error e => rw [hx] at hp; cases hp
    | ok k =>
      rw [hx] at hp
      intro i hi
      rcases List.mem_cons.1 hi with rfl | hi
      · exact ⟨k, hx⟩
      · have hne : i ≠ j := fun e => hn.1 (e ▸ hi)
        obtain ⟨k', hk'⟩ := postAll_each is _ w' hn.2 hp i hi
        exact ⟨k', by simpa [Store.set, hne] using hk'⟩

/-- **C60**, exceptions: under the same conditions the filling of the book raises if and only if the filling of one of the
histograms does. -/
theorem C60_raises_partial {w : Store} {f : Fields ℕ} {cur : List ℕ} (hf : f = .none ∨ f = .some cur) (hne : cur ≠ [])
    (hn : cur.Nodup) {srcs : List Node} {ord : List Node → List Node} (ho : ∀ l, (ord l).Perm l)
    (hs : SourceOrder (w.allGoals cur) srcs) (hu : Unmixed (w.allGoals cur)) {n : ℕ}
    (hd : ∀ i ∈ cur, Describes (numConsts named) get (w i).goals n) {si : ℕ → List Node}
    {oi : ℕ → List Node → List Node} (hoi : ∀ i l, (oi i l).Perm l) (hsi : ∀ i ∈ cur, SourceOrder (w i).goals (si i)) :
    (∃ e, w.bookFill more named get f cur srcs ord = .error e) ↔
      ∃ i ∈ cur, ∃ e, (w i).fill more named get (si i) (oi i) = .error e := by
  constructor
  · rintro ⟨e, he⟩
    by_contra hc
    push Not at hc
    have hk : ∀ i ∈ cur, ∃ k, (w i).fill more named get (si i) (oi i) = .ok k := by
      intro i hi
      cases hx : (w i).fill more named get (si i) (oi i) with
      | error e => exact absurd hx (hc i hi e)
      | ok k => exact ⟨k, rfl⟩
    haveI : Nonempty BHist := ⟨w 0⟩
    choose! h hh using hk
    rw [C60_fill_partial hf hne hn ho hs hu hd (h := h) fun i hi => ⟨si i, oi i, hoi i, hsi i hi, hh i hi⟩] at he
    cases he
  · rintro ⟨i, hi, e, he⟩
    cases hb : w.bookFill more named get f cur srcs ord with
    | error e => exact ⟨e, rfl⟩
    | ok q =>
      exfalso
      have hdu := describes_all hne hd
      unfold Store.bookFill at hb
      rw [compute_eq hf hne] at hb
      cases hR : fillFields (colLib more) .nums (numConsts named) get (w.allGoals cur) srcs ord with
      | error e => rw [hR] at hb; cases hb
      | ok Q =>
        obtain ⟨R, m⟩ := Q
        rw [hR] at hb
        simp only [Except.map] at hb
        obtain ⟨rfl, hR2, hR3⟩ := computed_rows ho hs hdu hR
        cases hp : ((w.prefillAll cur).deliverAll R cur).postAll m cur with
        | error e => rw [hp] at hb; cases hb
        | ok w' =>
          obtain ⟨k, hk⟩ := postAll_each cur _ w' hn hp i hi
          have h7 : (w.prefillAll cur).deliverAll R cur i = (w i).prefill.deliver R := by
            rw [prefillAll_eq]
            simp [Store.deliverAll, hi]
          rw [h7] at hk
          have hui : Unmixed (w i).goals := fun t ht x hx t' ht' y hy =>
            hu t (List.mem_flatMap.2 ⟨i, hi, ht⟩) x hx t' (List.mem_flatMap.2 ⟨i, hi, ht'⟩) y hy
          obtain ⟨r, hr⟩ := (C75_columns (hoi i) (hsi i hi) hui (colLib more) .nums (numConsts named) get m (hd i hi)).2.2
            (fun t ht => hR3 t (List.mem_flatMap.2 ⟨i, hi, ht⟩))
          obtain ⟨-, hr2, -⟩ := computed_rows (hoi i) (hsi i hi) (hd i hi) hr
          have : (w i).fill more named get (si i) (oi i) = .ok k := by
            unfold BHist.fill
            rw [hr]
            refine post_dest (h := (w i).prefill) ?_ hk
            exact found_deliver (h := (w i).prefill) fun g hg =>
              destOf_computed hR2 hr2 (List.mem_flatMap.2 ⟨i, hi, hg⟩) hg
          rw [this] at he
          cases he

/-- **C60** after a fill that raised: what it left in the destinations has no effect on the next fill, if every function in the
quantities has an argument that is not a constant (C54).  By `C60_fill_partial` the same is true of the fill of a book. -/
theorem C60_stale_partial {h : BHist} (d : List (Node × Col)) {srcs : List Node} {ord : List Node → List Node} (ho : ∀ l, (ord l).Perm l)
    (hs : SourceOrder h.goals srcs) {n : ℕ} (hd : Describes (numConsts named) get h.goals n) (hg : ∀ t ∈ h.goals, t.grounded = true)
    (k : BHist) :
    ({ h with dest := d } : BHist).fill more named get srcs ord = .ok k ↔ ({ h with dest := [] } : BHist).fill more named get srcs ord = .ok k := by
  have key : ∀ d d' : List (Node × Col), ({ h with dest := d } : BHist).fill more named get srcs ord = .ok k →
      ({ h with dest := d' } : BHist).fill more named get srcs ord = .ok k := by
    intro d d' hf
    obtain ⟨r, m, h1, h2⟩ := fill_computed hf
    have h1 : fillFields (colLib more) .nums (numConsts named) get h.goals srcs ord = .ok (r, m) := h1
    obtain ⟨-, hr, hr'⟩ := computed_rows ho hs hd h1
    have hsome : ∀ g ∈ h.goals, ∃ v, destOf r g = some v := by
      intro g hgm
      obtain ⟨v, hv⟩ := hr' g hgm g (subs_self g) (hg g hgm)
      refine ⟨v, destOf_ok ((hr g v).2 ⟨hgm, hg g hgm, hv⟩) fun u hu => ?_⟩
      have := ((hr g u).1 hu).2.2
      rw [hv] at this
      exact (Except.ok.inj this).symm
    unfold BHist.fill
    rw [show fillFields (colLib more) .nums (numConsts named) get ({ h with dest := d' } : BHist).goals srcs ord = .ok (r, m) from h1]
    refine post_dest (h := h.prefill) ?_ h2
    unfold BHist.found
    simp only
    cases hG : h.prefill.X.goals with
    | error e => rfl
    | ok G =>
      have hgoals : h.goals = G.all := by
        have hG : h.X.goals = .ok G := hG
        unfold BHist.goals; rw [hG]
      simp only
      refine dest_congr fun g hgm => ?_
      have hgm' : g ∈ h.goals := by rw [hgoals]; exact hgm
      obtain ⟨v, hv⟩ := hsome g hgm'
      have e : ∀ d0 : List (Node × Col), destOf ((r.filter fun p => p.1 ∈ h.goals) ++ d0) g = some v := fun d0 => by
        rw [destOf_append, destOf_filter hgm', hv]; rfl
      exact (e d).trans (e d').symm
  exact ⟨key d [], key [] d⟩

/-! ### In terms of the content -/

theorem post_ok {h : BHist} {n : ℕ} {d : Dest} {c : Content Arr h.X.hist.layout.ngroup} (hf : h.found = .ok d)
    (hp : Verif.postfill h.X.hist.layout n d (Verif.prefill h.X.hist.layout h.state) = .ok c) :
    h.post n = .ok { h with state := some c, dest := [] } := by
  unfold BHist.post
  rw [hf]
  simp only
  rw [hp]

/-- Filling a histogram with no left over destinations is filling it. -/
theorem fill_alone {h : BHist} (hd : h.dest = []) {srcs : List Node} {ord : List Node → List Node} {st : h.X.hist.State}
    (hf : h.X.fill more named get srcs ord h.state = .ok st) :
    h.fill more named get srcs ord = .ok { h with state := st } := by
  unfold HistExprs.fill HistExprs.compute at hf
  cases hG : h.X.goals with
  | error e => rw [hG] at hf; cases hf
  | ok G =>
    rw [hG] at hf
    have hgoals : h.goals = G.all := by unfold BHist.goals; rw [hG]
    unfold BHist.fill
    rw [hgoals]
    cases hr : fillFields (colLib more) .nums (numConsts named) get G.all srcs ord with
    | error e => simp [bind, Except.bind, hr] at hf
    | ok q =>
      obtain ⟨r, n⟩ := q
      simp only [bind, Except.bind, hr] at hf
      simp only
      have hfound : (h.prefill.deliver r).found = G.dest r := by
        unfold BHist.found BHist.deliver BHist.prefill
        simp only [hG, hd, List.append_nil]
        refine dest_congr fun g hg => ?_
        have : g ∈ ({ h with state := some (Verif.prefill h.X.hist.layout h.state), dest := h.dest } : BHist).goals := by
          change g ∈ h.goals
          rw [hgoals]; exact hg
        exact destOf_filter (by rw [hd] at this; exact this) r
      cases hx : G.dest r with
      | error e => rw [hx] at hf; cases hf
      | ok d =>
        rw [hx] at hf
        rw [hx] at hfound
        simp only at hf
        cases hy : Verif.postfill h.X.hist.layout n d (Verif.prefill h.X.hist.layout h.state) with
        | error e => rw [hy] at hf; cases hf
        | ok c =>
          rw [hy] at hf
          cases hf
          rw [post_ok (h := h.prefill.deliver r) (c := c) hfound hy]
          simp [BHist.deliver, BHist.prefill, hd]

/-- **C60** for the content: in a book of distinct histograms without left over destinations, each of which has
expressions that can be computed from the arguments and values that belong to a bin or a flow bin, each bin of each
histogram afterwards has what it had before and the sum over the rows that belong to it; no other histogram changes. -/
theorem C60_content_partial (hm : ∀ f, (more f).isSome = true → axisFn f = none) {w : Store} {f : Fields ℕ}
    {cur : List ℕ} (hf : f = .none ∨ f = .some cur) (hne : cur ≠ []) (hn : cur.Nodup) {srcs : List Node}
    {ord : List Node → List Node} (ho : ∀ l, (ord l).Perm l) (hs : SourceOrder (w.allGoals cur) srcs) {n : ℕ}
    (hpos : 0 < n) (hd : ∀ i ∈ cur, Describes (numConsts named) get (w i).goals n)
    (hS : ∀ i ∈ cur, (w i).dest = [] ∧ (w i).X.NoConst more named get n ∧ (∃ G, (w i).X.goals = .ok G) ∧
      (w i).X.hist.Good (w i).state ∧ Fillable (w i).X.hist [(w i).X.rows more named get n]) :
    ∃ st : ∀ i, (w i).X.hist.State, w.bookFill more named get f cur srcs ord =
        .ok (fun j => if j ∈ cur then { w j with state := st j } else w j, cur) ∧
      ∀ i ∈ cur, (w i).X.hist.Good (st i) ∧
        ∀ gk, gk.length = (w i).X.hist.groups.length → ∀ idx, (w i).X.hist.Cell idx → ∀ col,
          (w i).X.hist.read (st i) gk idx col = (w i).X.hist.read (w i).state gk idx col +
            binTotal (w i).X.hist ((w i).X.rows more named get n) gk idx col := by
  have hu : Unmixed (w.allGoals cur) := by
    intro t ht x hx t' ht' y hy hxs
    obtain ⟨j, hj, htj⟩ := List.mem_flatMap.1 ht'
    obtain ⟨h1, h2, ⟨G, h3⟩, h4, h5⟩ := hS j hj
    have hgoals : (w j).goals = G.all := by unfold BHist.goals; rw [h3]
    have hdj := hd j hj
    rw [hgoals] at htj hdj
    exact noConst_clean hm hpos h2 h3 hdj t' htj y hy
  have each : ∀ i, ∃ st : (w i).X.hist.State, i ∈ cur →
      ((∃ srcs ord, (∀ l, (ord l).Perm l) ∧ SourceOrder (w i).goals srcs ∧
        (w i).fill more named get srcs ord = .ok { w i with state := st }) ∧ (w i).X.hist.Good st ∧
        ∀ gk, gk.length = (w i).X.hist.groups.length → ∀ idx, (w i).X.hist.Cell idx → ∀ col,
          (w i).X.hist.read st gk idx col = (w i).X.hist.read (w i).state gk idx col +
            binTotal (w i).X.hist ((w i).X.rows more named get n) gk idx col) := by
    intro i
    by_cases hi : i ∈ cur
    · obtain ⟨h1, h2, ⟨G, h3⟩, h4, h5⟩ := hS i hi
      have hgoals : (w i).goals = G.all := by unfold BHist.goals; rw [h3]
      have hdi := hd i hi
      rw [hgoals] at hdi
      have hso : SourceOrder G.all (G.all.flatMap T.sources) := fun s => by simp [List.mem_flatMap]
      obtain ⟨st, g1, g2, g3⟩ := C81_content_partial hm hpos h2 h3 hdi (ord := id) (fun l => List.Perm.refl l) hso h5
        (w i).state h4
      exact ⟨st, fun _ => ⟨⟨_, id, fun l => List.Perm.refl l, by rw [hgoals]; exact hso, fill_alone h1 g1⟩, g2, g3⟩⟩
    · exact ⟨(w i).state, fun h => absurd h hi⟩
  choose st hst using each
  refine ⟨st, ?_, fun i hi => (hst i hi).2⟩
  exact C60_fill_partial hf hne hn ho hs hu hd (h := fun i => { w i with state := st i }) fun i hi => (hst i hi).1

end

/-! ### An example -/

/-- Two histograms with the same expressions. -/
def twoHists : Store := fun _ => ⟨goalsHist, none, []⟩

theorem twoHists_goals (i : ℕ) : (twoHists i).goals = goalsDemo.all := by
  unfold BHist.goals
  change (match goalsHist.goals with | .ok G => G.all | .error _ => []) = _
  rw [goalsHist_facts.2.1]

/-- The hypotheses of `C60_content_partial`, and with it those of `C60_fill_partial`, hold for a book of two histograms. -/
example : [0, 1].Nodup ∧ SourceOrder (twoHists.allGoals [0, 1]) [.name "x", .name "y"] ∧
    ∀ i ∈ [0, 1], Describes (numConsts fun _ => none) goalsGet (twoHists i).goals 3 ∧ (twoHists i).dest = [] ∧
      (twoHists i).X.NoConst treeMore (fun _ => none) goalsGet 3 ∧ (∃ G, (twoHists i).X.goals = .ok G) ∧
      (twoHists i).X.hist.Good (twoHists i).state ∧
      Fillable (twoHists i).X.hist [(twoHists i).X.rows treeMore (fun _ => none) goalsGet 3] := by
  obtain ⟨h1, h2, h3, h4, h5⟩ := goalsHist_facts
  refine ⟨by decide, ?_, fun i _ => ⟨by rw [twoHists_goals]; exact h4, rfl, h1, ⟨_, h2⟩, trivial, h5⟩⟩
  intro s
  rw [h3 s]
  simp [Store.allGoals, twoHists_goals]

/-! ### What is wrong -/

/-- A bin of a histogram. -/
def Store.bin (w : Store) (i k : ℕ) : ℚ := (w i).X.hist.read (w i).state [] [k] 0

/-- The bins of a histogram after filling it alone. -/
def Store.alone (w : Store) (get : String → Option (Given (Option ℚ))) (i : ℕ) (srcs : List Node) : Except Err (List ℚ) :=
  match (w i).fill treeMore (fun _ => none) get srcs id with
  | .ok h => .ok ((List.range 5).map ((w.set i h).bin i))
  | .error e => .error e.1

/-- The bins of a histogram after filling a book. -/
def Store.inBook (w : Store) (get : String → Option (Given (Option ℚ))) (cur : List ℕ) (i : ℕ) (srcs : List Node) :
    Except Err (List ℚ) :=
  match w.bookFill treeMore (fun _ => none) get .none cur srcs id with
  | .ok q => .ok ((List.range 5).map (q.1.bin i))
  | .error e => .error e.1

/-- Histogram 0 is of `x`, 1 of `y`, 2 of the constant 1, all others of `z`. -/
def someHists : Store
  | 0 => ⟨oneAxis (.name "x") none, none, []⟩
  | 1 => ⟨oneAxis (.name "y") none, none, []⟩
  | 2 => ⟨oneAxis (.num 1) none, none, []⟩
  | _ => ⟨oneAxis (.name "z") none, none, []⟩

/-- `fill(x=[1, 4, 2], y=3, z=[1, 1])`. -/
def someGet (s : String) : Option (Given (Option ℚ)) :=
  if s = "z" then some (.array [some 1, some 1]) else goalsGet s

/-- **C59 is violated** by a `SystematicsBook` inside a book: `book["a"]["up"] = h` raises and yet the histogram is in it
afterwards. -/
theorem C59_refuted_inside : ∃ b b' : BT ℕ, b.WF ∧
    b.inside (fun y => y.setitem numOps (nm "up") (.hist 11)) [nm "a"] = .error (.valueError, b') ∧
    b.contains matchAll (nm "a/up") = false ∧ b'.contains matchAll (nm "a/up") = true := by
  refine ⟨.book .book .none (.cons (nm "a") (.book .systematics .absent .nil) .nil),
    .book .book .none (.cons (nm "a") (.book .systematics .absent (.cons (nm "up") (.hist 11) .nil)) .nil), ?_, rfl, ?_, ?_⟩
  · simp only [BT.WF, BL.WF, BL.keys]; repeat' apply And.intro
    all_goals first | trivial | decide +kernel
  all_goals decide +kernel

/-- **C60** fails for a histogram that is listed twice: every bin of it gets the number of rows in addition, whatever the
values are. -/
theorem C60_refuted_twice :
    someHists.alone someGet 0 [.name "x"] = .ok [0, 0, 1, 2, 0] ∧
    someHists.inBook someGet [0] 0 [.name "x"] = .ok [0, 0, 1, 2, 0] ∧
    someHists.inBook someGet [0, 0] 0 [.name "x"] = .ok [3, 3, 4, 5, 3] := by
  decide +kernel

/-- **C60** fails for a histogram of a number next to one of an array: the number is counted as often as the array has
elements. -/
theorem C60_refuted_number :
    someHists.alone someGet 1 [.name "y"] = .ok [0, 0, 0, 1, 0] ∧
    someHists.inBook someGet [0, 1] 1 [.name "x", .name "y"] = .ok [0, 0, 0, 3, 0] := by
  decide +kernel

/-- **C60** fails for histograms of arrays of different lengths: each can be filled, the book cannot. -/
theorem C60_refuted_lengths :
    someHists.alone someGet 0 [.name "x"] = .ok [0, 0, 1, 2, 0] ∧
    someHists.alone someGet 3 [.name "z"] = .ok [0, 0, 2, 0, 0] ∧
    someHists.inBook someGet [0, 3] 0 [.name "x", .name "z"] = .error .valueError := by
  decide +kernel

/-- **C60** fails for a histogram of a constant next to one of a field: each can be filled, the book cannot. -/
theorem C60_refuted_constant :
    someHists.alone someGet 2 [.bconst none (.num 1)] = .ok [0, 0, 1, 0, 0] ∧
    someHists.inBook someGet [0, 2] 0 [.bconst none (.num 1), .name "x"] = .error .typeError := by
  decide +kernel

/-- **C60** fails for a book without histograms: it has none to fill, and yet filling it raises a `TypeError`. -/
theorem C60_refuted_empty (more : More) (named : String → Option (Option ℚ)) (get : String → Option (Given (Option ℚ)))
    (w : Store) (srcs : List Node) (ord : List Node → List Node) :
    w.bookFill more named get .none [] srcs ord = .error (.typeError, w) := rfl

/-- **C60**, what a `fill` leaves that raises while the quantities are computed: a histogram with the content it had, or with zeros
if it had none, in which all bins and groups read as before. -/
theorem C60_raises_hist {more : More} {named : String → Option (Option ℚ)} {get : String → Option (Given (Option ℚ))} (h : BHist)
    {srcs : List Node} {ord : List Node → List Node} {e : Err}
    (he : fillFields (colLib more) .nums (numConsts named) get h.goals srcs ord = .error e) :
    ∃ c, h.fill more named get srcs ord = .error (e, { h with state := some c }) ∧
      (h.state = none → c = emptyContent h.X.hist.layout h.X.hist.layout.ngroup) ∧
      ∀ d, h.state = some d → c = d := by
  refine ⟨Verif.prefill h.X.hist.layout h.state, by unfold BHist.fill; rw [he]; rfl, fun hn => ?_, fun d hd => ?_⟩
  · rw [hn]; rfl
  · rw [hd]; rfl

/-- The field of histogram 3 is not given. -/
example : (fillFields (colLib treeMore) .nums (numConsts fun _ => none) goalsGet (someHists 3).goals [.name "z"] id).map (·.2) =
    .error .valueError := by decide +kernel

/-- `Hist(groupby("y"), bin("x", 2, 0, 2, overflow=False), profile("x"))`. -/
def groupedProfile : HistExprs where
  groups := [(.groupby, goalsExpr (.name "y"))]
  fixed := [(.bin ⟨2, 0, 2, true, false, true, true⟩, goalsExpr (.name "x"))]
  profs := [goalsExpr (.name "x")]
  weight := none

/-- A book of a histogram of `x`, this one, and a second one of `x`. -/
def groupedBook : Store
  | 1 => ⟨groupedProfile, none, []⟩
  | _ => ⟨oneAxis (.name "x") none, none, []⟩

/-- `fill(x=[1, 1, 4], y=[5, 6, 6])`. -/
def groupedGet (s : String) : Option (Given (Option ℚ)) :=
  if s = "x" then some (.array [some 1, some 1, some 4]) else if s = "y" then some (.array [some 5, some 6, some 6]) else none

/-- A `fill` of a book may raise in the middle, for a profile with a row in no bin (C18): then the histograms before have the rows,
the one that raises has part of them, and the ones after have none. -/
theorem C60_refuted_middle :
    (match groupedBook.bookFill treeMore (fun _ => none) groupedGet .none [0, 1, 2] [.name "x", .name "y"] id with
      | .ok _ => none
      | .error (e, w) => some (e, w.bin 0 2, (w 1).X.hist.read (w 1).state [.num 5] [2] 2, w.bin 2 2)) =
    some (.valueError, 2, 1, 0) := by
  decide +kernel

/-- In a book whose instructions are for other histograms (C61), and for the second time in a list (above), a histogram is
filled without its data: the result only depends on the number of rows. -/
theorem post_nodata {h : BHist} (hd : h.dest = []) (n : ℕ) {G : HistGoals} (hG : h.X.goals = .ok G) :
    h.found = G.dest [] ∧ ∀ k, h.post n = .ok k →
      ∃ d c, G.dest [] = .ok d ∧ Verif.postfill h.X.hist.layout n d (Verif.prefill h.X.hist.layout h.state) = .ok c ∧
        k = { h with state := some c, dest := [] } := by
  have hf : h.found = G.dest [] := by unfold BHist.found; rw [hG, hd]
  refine ⟨hf, fun k hk => ?_⟩
  unfold BHist.post at hk
  rw [hf] at hk
  cases hx : G.dest [] with
  | error e => rw [hx] at hk; cases hk
  | ok d =>
    rw [hx] at hk
    simp only at hk
    cases hy : Verif.postfill h.X.hist.layout n d (Verif.prefill h.X.hist.layout h.state) with
    | error e => rw [hy] at hk; cases hk
    | ok c => rw [hy] at hk; exact ⟨d, c, rfl, hy, (Except.ok.inj hk).symm⟩

end Verif
