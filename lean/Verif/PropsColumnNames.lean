import Verif.ColumnNames
import Verif.PropsPandasFraction
import Verif.PropsTableNorm

/-!
# C112: names of columns and levels
-/

namespace Verif

/-! ## helpers -/

theorem fieldOf_pairs : ∀ (l : List (String × Option ℚ)) (name : String) (v : Option ℚ), (l.map (·.1)).Nodup → (name, v) ∈ l →
    fieldOf (l.map (·.1)) (l.map (·.2)) name = some v
  | [], _, _, _, h => by simp at h
  | p :: l, name, v, hn, h => by
    unfold fieldOf
    have hm : name ∈ (p :: l).map (·.1) := List.mem_map.2 ⟨(name, v), h, rfl⟩
    rw [if_pos hm]
    rw [List.map_cons, List.nodup_cons] at hn
    rcases List.mem_cons.1 h with rfl | h
    · simp
    · have hne : p.1 ≠ name := by
        rintro rfl
        exact hn.1 (List.mem_map.2 ⟨_, h, rfl⟩)
      have ih := fieldOf_pairs l name v hn.2 h
      unfold fieldOf at ih
      rw [if_pos (List.mem_map.2 ⟨(name, v), h, rfl⟩)] at ih
      rw [show (p :: l).map (·.1) = p.1 :: l.map (·.1) from rfl, List.idxOf_cons_ne _ hne]
      simpa using ih

/-- What the columns of a table are called and have. -/
def tablePairs (k : WKind) (o : TableOpts) (texts : List String) (rs : List Row) : List (String × Option ℚ) :=
  (if o.count then ("count()", some (sumW k rs)) :: (if o.error then [("err(count())", some (sumW2 k rs))] else []) else []) ++
  (if o.effcount then [("effcount()", some (if sumW k rs > 0 then effN k rs else 0))] else []) ++
  o.profs.flatMap fun p => (texts.getD p "", some (if sumW k rs > 0 then wmean k rs p else 0)) ::
    (if o.error then [("err(" ++ texts.getD p "" ++ ")", some (if sumW k rs > 0 then wvar k rs p / effN k rs else 0))] else [])

theorem tablePairs_fst (k : WKind) (o : TableOpts) (texts : List String) (rs : List Row) : (tablePairs k o texts rs).map (·.1) = o.names texts := by
  unfold tablePairs TableOpts.names
  rw [List.map_append, List.map_append, List.map_flatMap]
  congr 1
  · congr 1 <;> (repeat' split) <;> rfl
  · refine List.flatMap_congr fun p _ => ?_
    cases o.error <;> rfl

theorem tablePairs_snd (k : WKind) (o : TableOpts) (texts : List String) (rs : List Row) : (tablePairs k o texts rs).map (·.2) = tableSpec k o rs := by
  unfold tablePairs tableSpec
  rw [List.map_append, List.map_append, List.map_flatMap]
  congr 1
  · congr 1 <;> (repeat' split) <;> rfl
  · refine List.flatMap_congr fun p _ => ?_
    by_cases h : sumW k rs > 0 <;> cases o.error <;> simp [h]

def fractionPairs (k : WKind) (count : Bool) (levels : List (Option String × ℚ)) (all : List Row) (cuts : List (String × List Row)) :
    List (String × Option ℚ) :=
  (if count then [("count()", some (sumW k all))] else []) ++
  cuts.flatMap fun c => (c.1, some (if sumW k all > 0 then sumW k c.2 / sumW k all else 0)) ::
    levels.map fun l => (errName c.1 l.1,
      some (if sumW k all > 0 then l.2 * (sumW k c.2 / sumW k all * (1 - sumW k c.2 / sumW k all) / sumW k all) else 0))

theorem fractionPairs_fst (k : WKind) (count : Bool) (levels : List (Option String × ℚ)) (all : List Row) (cuts : List (String × List Row)) :
    (fractionPairs k count levels all cuts).map (·.1) = fractionNames count (levels.map (·.1)) (cuts.map (·.1)) := by
  unfold fractionPairs fractionNames
  rw [List.map_append, List.map_flatMap, List.flatMap_map]
  congr 1
  · split <;> rfl
  · refine List.flatMap_congr fun c _ => ?_
    simp [Function.comp_def]

theorem fractionPairs_snd (k : WKind) (count : Bool) (levels : List (Option String × ℚ)) (all : List Row) (cuts : List (String × List Row)) :
    (fractionPairs k count levels all cuts).map (·.2) = fractionSpec k count (levels.map (·.2)) all (cuts.map (·.2)) := by
  unfold fractionPairs fractionSpec
  rw [List.map_append, List.map_flatMap, List.flatMap_map]
  congr 1
  · split <;> rfl
  · refine List.flatMap_congr fun c _ => ?_
    by_cases h : sumW k all > 0 <;> simp [h, Function.comp_def]

theorem hasTable_of_lookup : ∀ (n : ℕ) (t : Content Table n) (gk : List Key) (tab : Table), tlookup n t gk = some tab → hasTable n t = true
  | 0, _, _, _, _ => rfl
  | n + 1, (d : List (Key × Content Table n)), gk, tab, h => by
    cases gk with
    | nil => cases h
    | cons k gk =>
      rw [tlookup_cons] at h
      split at h
      · cases h
      · rename_i c hc
        have ih := hasTable_of_lookup n c gk tab h
        show d.any _ = true
        unfold dget at hc
        obtain ⟨p, hp, rfl⟩ := Option.map_eq_some_iff.1 hc
        exact List.any_eq_true.2 ⟨p, List.mem_of_find?_eq_some hp, ih⟩

theorem depthFixed_all : ∀ fs : List FixedAxis, (∀ a ∈ fs, a.plabels ≠ []) → depthFixed fs = fs.length
  | [], _ => rfl
  | a :: fs, h => by
    unfold depthFixed
    rw [if_neg (h a (by simp)), depthFixed_all fs fun b hb => h b (by simp [hb])]
    simp; omega

theorem depthFixed_le : ∀ fs : List FixedAxis, depthFixed fs ≤ fs.length
  | [] => le_refl _
  | a :: fs => by
    unfold depthFixed
    have := depthFixed_le fs
    split <;> simp <;> omega

theorem foldr_max_le (m : ℕ) : ∀ l : List ℕ, (∀ x ∈ l, x ≤ m) → l.foldr max 0 ≤ m
  | [], _ => Nat.zero_le _
  | x :: l, h => by
    have := foldr_max_le m l fun y hy => h y (by simp [hy])
    have := h x (by simp)
    simp only [List.foldr_cons]
    omega

theorem le_foldr_max : ∀ (l : List ℕ) (x : ℕ), x ∈ l → x ≤ l.foldr max 0
  | y :: l, x, h => by
    simp only [List.foldr_cons]
    rcases List.mem_cons.1 h with rfl | h
    · omega
    · have := le_foldr_max l x h
      omega

theorem depthReached_le (fs : List FixedAxis) : ∀ (n : ℕ) (t : Content Table n), depthReached fs n t ≤ n + fs.length
  | 0, _ => by show depthFixed fs ≤ _; have := depthFixed_le fs; omega
  | n + 1, (d : List (Key × Content Table n)) => by
    show 1 + (d.map fun p => depthReached fs n p.2).foldr max 0 ≤ _
    have := foldr_max_le (n + fs.length) (d.map fun p => depthReached fs n p.2) (by
      intro x hx
      obtain ⟨p, _, rfl⟩ := List.mem_map.1 hx
      exact depthReached_le fs n p.2)
    omega

theorem depthReached_full (fs : List FixedAxis) (hfs : ∀ a ∈ fs, a.plabels ≠ []) : ∀ (n : ℕ) (t : Content Table n) (gk : List Key) (tab : Table),
    tlookup n t gk = some tab → depthReached fs n t = n + fs.length
  | 0, _, _, _, _ => by show depthFixed fs = _; rw [depthFixed_all fs hfs]; omega
  | n + 1, (d : List (Key × Content Table n)), gk, tab, h => by
    cases gk with
    | nil => cases h
    | cons k gk =>
      rw [tlookup_cons] at h
      split at h
      · cases h
      · rename_i c hc
        have ih := depthReached_full fs hfs n c gk tab h
        refine le_antisymm (depthReached_le fs _ _) ?_
        show _ ≤ 1 + (d.map fun p => depthReached fs n p.2).foldr max 0
        unfold dget at hc
        obtain ⟨p, hp, rfl⟩ := Option.map_eq_some_iff.1 hc
        have := le_foldr_max (d.map fun p => depthReached fs n p.2) _ (List.mem_map.2 ⟨p, List.mem_of_find?_eq_some hp, rfl⟩)
        omega

/-! ## C112 -/

/-- C112 for tables: where the names of the columns are all different, the table has a record in each bin, in which `count()` is the
sum of weights, `err(count())` its squared error, `effcount()` the effective number, and the text of each profile asked for names its
mean, and `err(...)` of it the squared error of the mean; there are no other columns. Errors are squared as in C45. -/
theorem C112_table_partial (H : HistDef) (bs : List (List Row)) (hf : Fillable H bs) (st : H.State) (hst : H.fillAll none bs = .ok st)
    (o : TableOpts) (ho : o.normalized = false) (hp : ∀ p ∈ o.profs, p < H.nprof) (texts : List String)
    (hn : (o.names texts).Nodup) (hne : o.names texts ≠ []) :
    ∃ names t, H.tableRecords o texts st = .ok (names, t) ∧
      (∀ name, name ∈ names ↔ (o.count = true ∧ (name = "count()" ∨ o.error = true ∧ name = "err(count())")) ∨
        (o.effcount = true ∧ name = "effcount()") ∨
        ∃ p ∈ o.profs, name = texts.getD p "" ∨ o.error = true ∧ name = "err(" ++ texts.getD p "" ++ ")") ∧
      ∀ gk, gk.length = H.groups.length → (H.has st gk ∨ H.groups = []) → ∃ tab, tlookup H.groups.length t gk = some tab ∧
        ∀ idx, H.Cell idx → ∀ rs, rs = bs.flatten.filter (Row.lands H gk idx) →
          (o.count = true → fieldOf names (tab idx) "count()" = some (some (sumW H.wkind rs))) ∧
          (o.count = true → o.error = true → fieldOf names (tab idx) "err(count())" = some (some (sumW2 H.wkind rs))) ∧
          (o.effcount = true → fieldOf names (tab idx) "effcount()" = some (some (if sumW H.wkind rs > 0 then effN H.wkind rs else 0))) ∧
          (∀ p ∈ o.profs, fieldOf names (tab idx) (texts.getD p "") = some (some (if sumW H.wkind rs > 0 then wmean H.wkind rs p else 0)) ∧
            (o.error = true → fieldOf names (tab idx) ("err(" ++ texts.getD p "" ++ ")") =
              some (some (if sumW H.wkind rs > 0 then wvar H.wkind rs p / effN H.wkind rs else 0)))) ∧
          (∀ name, name ∉ names → fieldOf names (tab idx) name = none) := by
  obtain ⟨t, ht, htab⟩ := C45_table H bs hf st hst o ho hp
  refine ⟨o.names texts, t, ?_, fun name => ?_, fun gk hgk hg => ?_⟩
  · unfold HistDef.tableRecords recordView
    rw [ht]
    simp only
    rw [if_neg (by simp [hn, hne])]
  · unfold TableOpts.names
    cases o.count <;> cases o.error <;> cases o.effcount <;> simp [or_assoc]
  · obtain ⟨tab, h1, h2⟩ := (htab gk hgk).1 hg
    refine ⟨tab, h1, fun idx hidx rs hrs => ?_⟩
    rw [h2 idx hidx, ← hrs, ← tablePairs_snd H.wkind o texts rs]
    rw [← tablePairs_fst H.wkind o texts rs] at hn ⊢
    refine ⟨fun hc => ?_, fun hc he => ?_, fun hc => ?_, fun p hpm => ⟨?_, fun he => ?_⟩, fun name hnm => if_neg hnm⟩
    · exact fieldOf_pairs _ _ _ hn (by simp [tablePairs, hc])
    · exact fieldOf_pairs _ _ _ hn (by simp [tablePairs, hc, he])
    · refine fieldOf_pairs _ _ _ hn ?_
      unfold tablePairs
      rw [if_pos hc]
      simp
    · refine fieldOf_pairs _ _ _ hn ?_
      unfold tablePairs
      exact List.mem_append_right _ (List.mem_flatMap.2 ⟨p, hpm, by simp⟩)
    · refine fieldOf_pairs _ _ _ hn ?_
      unfold tablePairs
      exact List.mem_append_right _ (List.mem_flatMap.2 ⟨p, hpm, by simp [he]⟩)

/-- C112 for fractions: the text of each cut names the fraction that passes it, and `err(...)` of it, with the level unless it is the
default one, the squared error. -/
theorem C112_fraction_partial (H : HistDef) (bs : List (List Row)) (hf : Fillable H bs) (st : H.State) (hst : H.fillAll none bs = .ok st)
    (hpos : 0 < H.nprof) (hasWeight : Bool) (hw : hasWeight = true ↔ H.wkind ≠ .none)
    (cuts : List ℕ) (hcuts : ∀ c ∈ cuts, H.fixed[c]? = some .cut) (count : Bool) (levels : List (Option String × ℚ)) (texts : List String)
    (kf : List Bool) (hlen : kf.length = H.fixed.length) (hkf : ∀ j, j < H.fixed.length → kf[j]? = some (decide (j ∉ cuts)))
    (hn : (fractionNames count (levels.map (·.1)) (cuts.map fun c => texts.getD c "")).Nodup) (hne : count = true ∨ cuts ≠ []) :
    ∃ names t, H.fractionRecords hasWeight count levels texts cuts st = .ok (names, t) ∧
      ∀ gk, gk.length = H.groups.length → (H.has st gk ∨ gk = []) → ∀ idx, InRange idx ((pick kf H.fixed).map FixedAxis.totbins) →
        ∀ all, all = bs.flatten.filter (fun r => inGroup H.groups r.gvals gk && landsOn kf H.fixed r.fvals idx) →
        ∃ tab, tlookup H.groups.length t gk = some tab ∧
          (count = true → fieldOf names (tab idx) "count()" = some (some (sumW H.wkind all))) ∧
          ∀ c ∈ cuts, ∀ ps, ps = all.filter (fun r => decide (r.fvals[c]? = some (.bool true))) →
            fieldOf names (tab idx) (texts.getD c "") = some (some (if sumW H.wkind all > 0 then sumW H.wkind ps / sumW H.wkind all else 0)) ∧
            ∀ err : ℚ → ℚ, (∀ z, err z = if sumW H.wkind all > 0 then
                z * (sumW H.wkind ps / sumW H.wkind all * (1 - sumW H.wkind ps / sumW H.wkind all) / sumW H.wkind all) else 0) →
              (∀ z, (none, z) ∈ levels → fieldOf names (tab idx) ("err(" ++ texts.getD c "" ++ ")") = some (some (err z))) ∧
              ∀ s z, (some s, z) ∈ levels → fieldOf names (tab idx) ("err(" ++ texts.getD c "" ++ ", " ++ s ++ ")") = some (some (err z)) := by
  obtain ⟨t, ht, htab⟩ := C47_fraction_partial H bs hf st hst hpos hasWeight hw cuts hcuts count (levels.map (·.2)) kf hlen hkf
  refine ⟨_, t, by
    unfold HistDef.fractionRecords recordView
    rw [ht]
    simp only
    rw [if_neg (by
      have : fractionNames count (levels.map (·.1)) (cuts.map fun c => texts.getD c "") ≠ [] := by
        unfold fractionNames
        rcases hne with rfl | h
        · simp
        · cases cuts with
          | nil => exact absurd rfl h
          | cons a l => simp
      have hd : decide (fractionNames count (levels.map (·.1)) (cuts.map fun c => texts.getD c "")).Nodup = true := decide_eq_true hn
      have hb : (fractionNames count (levels.map (·.1)) (cuts.map fun c => texts.getD c "")).isEmpty = false := by
        rw [List.isEmpty_eq_false_iff]; exact this
      rw [hd, hb]
      simp)], fun gk hgk hg idx hidx all hall => ?_⟩
  obtain ⟨tab, h1, h2⟩ := Option.map_eq_some_iff.1 (htab gk hgk hg idx hidx all hall)
  refine ⟨tab, h1, ?_⟩
  let cs : List (String × List Row) := cuts.map fun c => (texts.getD c "", all.filter fun r => decide (r.fvals[c]? = some (.bool true)))
  have e1 : (fractionPairs H.wkind count levels all cs).map (·.1) = fractionNames count (levels.map (·.1)) (cuts.map fun c => texts.getD c "") := by
    rw [fractionPairs_fst]
    simp [cs, Function.comp_def]
  have e2 : (fractionPairs H.wkind count levels all cs).map (·.2) = tab idx := by
    rw [h2, fractionPairs_snd]
    simp [cs, Function.comp_def]
  rw [← e2]
  rw [← e1] at hn ⊢
  refine ⟨fun hc => fieldOf_pairs _ _ _ hn (by simp [fractionPairs, hc]), fun c hc ps hps => ⟨?_, fun err he => ?_⟩⟩
  · refine fieldOf_pairs _ _ _ hn (List.mem_append_right _ (List.mem_flatMap.2 ⟨(texts.getD c "", ps), ?_, by simp⟩))
    exact List.mem_map.2 ⟨c, hc, by rw [hps]⟩
  · have hm : (texts.getD c "", ps) ∈ cs := List.mem_map.2 ⟨c, hc, by rw [hps]⟩
    refine ⟨fun z hz => ?_, fun s z hz => ?_⟩
    · refine fieldOf_pairs _ _ _ hn (List.mem_append_right _ (List.mem_flatMap.2 ⟨_, hm, List.mem_cons_of_mem _ (List.mem_map.2 ⟨_, hz, ?_⟩)⟩))
      rw [he]
      rfl
    · refine fieldOf_pairs _ _ _ hn (List.mem_append_right _ (List.mem_flatMap.2 ⟨_, hm, List.mem_cons_of_mem _ (List.mem_map.2 ⟨_, hz, ?_⟩)⟩))
      rw [he]
      rfl

/-- C112 for data frames: the levels of the index are named after the axes, in order, if there is a group (or no group axis) and a bin
on each axis. -/
theorem C112_levels_partial (H : HistDef) (bs : List (List Row)) (hf : Fillable H bs) (st : H.State) (hst : H.fillAll none bs = .ok st)
    (o : TableOpts) (ho : o.normalized = false) (hp : ∀ p ∈ o.profs, p < H.nprof) (texts : List String)
    (hl : texts.length = H.groups.length + H.fixed.length) (hfs : ∀ a ∈ H.fixed, a.keys ≠ []) (gk : List Key) (hgk : gk.length = H.groups.length)
    (hg : H.has st gk ∨ H.groups = []) :
    ∃ t, H.table o st = .ok t ∧ levelNames H.fixed H.groups.length t texts = texts.map some := by
  obtain ⟨t, ht, htab⟩ := C45_table H bs hf st hst o ho hp
  obtain ⟨tab, h1, _⟩ := (htab gk hgk).1 hg
  refine ⟨t, ht, ?_⟩
  unfold levelNames
  rw [depthReached_full H.fixed (fun a ha h => hfs a ha (by
    rw [plabels_keys] at h
    exact List.map_eq_nil_iff.1 h)) _ t gk tab h1, ← hl]
  simp

/-- C112 fails: in the frame of a histogram with group axes that has not been filled, only the first level has a name. -/
theorem C112_refuted_levels (H : HistDef) (hgr : H.groups ≠ []) (o : TableOpts) (t : Content Table H.groups.length) (ht : H.table o none = .ok t)
    (text : String) (texts : List String) :
    levelNames H.fixed H.groups.length t (text :: texts) = some text :: List.replicate texts.length none := by
  have he : depthReached H.fixed H.groups.length t = 1 := by
    have hte : ∃ f, t = handle f H.groups.length (emptyContent H.layout H.groups.length) := by
      unfold HistDef.table HistDef.tableWith at ht
      split at ht
      · cases ht
      · split at ht
        · cases ht
        · cases ht
          exact ⟨_, rfl⟩
    obtain ⟨f, rfl⟩ := hte
    cases hn : H.groups.length with
    | zero => exact absurd (List.length_eq_zero_iff.1 hn) hgr
    | succ n => rfl
  unfold levelNames
  rw [he]
  simp

/-- C112 fails: a table of any histogram with content raises `ValueError` when the same profile is asked for twice. -/
theorem C112_refuted_twice (H : HistDef) (o : TableOpts) (texts : List String) (st : H.State) (p : ℕ) (hp : 2 ≤ o.profs.count p) (t : Content Table H.groups.length)
    (ht : H.table o st = .ok t) (gk : List Key) (tab : Table) (hg : tlookup H.groups.length t gk = some tab) :
    H.tableRecords o texts st = .error .valueError := by
  unfold HistDef.tableRecords recordView
  rw [ht]
  simp only
  have hd : ¬ (o.names texts).Nodup := by
    intro h
    unfold TableOpts.names at h
    have h2 := (List.nodup_append.1 h).2.1
    have hc := List.nodup_iff_count_le_one.1 h2 (texts.getD p "")
    have hge : ∀ l : List ℕ, l.count p ≤ (l.flatMap fun p => texts.getD p "" :: (if o.error then ["err(" ++ texts.getD p "" ++ ")"] else [])).count (texts.getD p "") := by
      intro l
      induction l with
      | nil => simp
      | cons q l ih =>
        rw [List.flatMap_cons, List.count_append]
        by_cases hq : q = p
        · subst hq
          rw [List.count_cons_self, List.count_cons_self]
          omega
        · rw [List.count_cons_of_ne hq]
          omega
    have := hge o.profs
    omega
  rw [hasTable_of_lookup _ _ _ _ hg, if_pos (by simp [hd])]

/-- C112 fails: fractions of any histogram with content raise `ValueError` when two confidence levels are written in the same way, which
is with six digits. -/
theorem C112_refuted_digits (H : HistDef) (hasWeight count : Bool) (levels : List (Option String × ℚ)) (texts : List String) (cuts : List ℕ) (st : H.State)
    (s : Option String) (hs : 2 ≤ (levels.map (·.1)).count s) (hc : cuts ≠ []) (t : Content Table H.groups.length)
    (ht : H.fraction hasWeight count (levels.map (·.2)) cuts st = .ok t) (gk : List Key) (tab : Table) (hg : tlookup H.groups.length t gk = some tab) :
    H.fractionRecords hasWeight count levels texts cuts st = .error .valueError := by
  unfold HistDef.fractionRecords recordView
  rw [ht]
  simp only
  have hd : ¬ (fractionNames count (levels.map (·.1)) (cuts.map fun c => texts.getD c "")).Nodup := by
    intro h
    unfold fractionNames at h
    have h2 := (List.nodup_append.1 h).2.1
    cases cuts with
    | nil => exact hc rfl
    | cons c cuts =>
      rw [List.map_cons, List.flatMap_cons] at h2
      have h3 := (List.nodup_append.1 h2).1
      have h4 := (List.nodup_cons.1 h3).2
      have h5 := List.nodup_iff_count_le_one.1 h4 (errName (texts.getD c "") s)
      have := List.count_le_count_map (l := levels.map (·.1)) (f := errName (texts.getD c "")) (x := s)
      omega
  rw [hasTable_of_lookup _ _ _ _ hg, if_pos (by rw [decide_eq_false hd]; rfl)]

/-! ## examples -/

/-- The names of the columns of a table with two profiles. -/
example : TableOpts.names { effcount := true, profs := [1, 0] } ["x", "y"] =
    ["count()", "err(count())", "effcount()", "y", "err(y)", "x", "err(x)"] := by decide +kernel

example : fractionNames true [none, some "0.95"] ["x > 0"] = ["count()", "x > 0", "err(x > 0)", "err(x > 0, 0.95)"] := by decide +kernel

example : fieldOf ["count()", "x"] [some 3, some (1 / 2)] "x" = some (some (1 / 2)) ∧ fieldOf ["count()", "x"] [some 3, some (1 / 2)] "y" = none := by
  decide +kernel

/-- The hypotheses are met. -/
example : ∃ st names t, exP.fillAll none [[exPRow (1/2) 5]] = .ok st ∧ exP.tableRecords {} [] st = .ok (names, t) := by
  have hf : Fillable exP [[exPRow (1/2) 5]] := by
    have e : ∀ b ∈ [[exPRow (1/2) 5]], ∀ r ∈ b, r = exPRow (1/2) 5 := by simp
    refine ⟨fun b hb r hr => ?_, Or.inr fun b hb r hr => ?_⟩
    · rw [e b hb r hr]
      exact exPRow_ok _ _ (by norm_num)
    · rw [e b hb r hr]
      exact fun h => absurd (h [1]) (by decide +kernel)
  obtain ⟨st, h1, _⟩ := Represents.ofFill exP _ hf
  obtain ⟨names, t, a1, _⟩ := C112_table_partial exP _ hf st h1 {} rfl (by simp) [] (by decide +kernel) (by decide +kernel)
  exact ⟨st, names, t, h1, a1⟩

/-- The hypotheses for fractions and levels are met. -/
example : ∃ st names t, exFracBin.fillAll none exFracRows = .ok st ∧
    exFracBin.fractionRecords false true [(none, 1), (some "0.95", 4)] ["x", "y > 0"] [1] st = .ok (names, t) ∧
    ∃ t', exFracBin.table {} st = .ok t' ∧ levelNames exFracBin.fixed 1 t' ["g", "x", "y > 0"] = [some "g", some "x", some "y > 0"] := by
  obtain ⟨st, h1, hr⟩ := Represents.ofFill exFracBin _ exFrac_fill
  obtain ⟨names, t, a1, _⟩ := C112_fraction_partial exFracBin exFracRows exFrac_fill st h1 (by decide) false (by decide) [1] (by decide) true
    [(none, 1), (some "0.95", 4)] ["x", "y > 0"] [true, false] rfl (by
      intro j hj
      have hj : j < 2 := hj
      have : j = 0 ∨ j = 1 := by omega
      rcases this with rfl | rfl <;> decide) (by decide +kernel) (Or.inl rfl)
  obtain ⟨t', b1, b2⟩ := C112_levels_partial exFracBin exFracRows exFrac_fill st h1 {} rfl (by simp) ["g", "x", "y > 0"] rfl
    (by intro a ha; simp [exFracBin] at ha; rcases ha with rfl | rfl <;> decide +kernel) [.str "a"] rfl
    (Or.inl (hr.groups ⟨[.key (.str "a")], [.num (.fin 1), .bool true], [5], none⟩ (by simp [exFracRows]) [.str "a"] (by decide +kernel)))
  exact ⟨st, names, t, h1, a1, t', b1, b2⟩

/-- A filled histogram with a group axis and a fixed axis, and one that is not filled. -/
example : levelNames exFracBin.fixed 1 (([(.str "a", fun _ => [])] : List (Key × Table))) ["g", "x", "y > 0"] = [some "g", some "x", some "y > 0"] ∧
    levelNames exFracBin.fixed 1 ([] : List (Key × Table)) ["g", "x", "y > 0"] = [some "g", none, none] := by decide +kernel

end Verif
