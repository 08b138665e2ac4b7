import Verif.VegaLayers
import Verif.SpecVega
import Verif.PandasLemmas
import Verif.PropsArith
import Verif.PropsProject
import Verif.GoalsLemmas
import Verif.PropsPandas
import Verif.PropsTableNorm

/-!
# Lemmas about plots
-/

namespace Verif

/-! ## exceptions -/

theorem flatE_ok {α β : Type} {f : α → Except Err (List β)} {g : α → List β} {xs : List α} (h : ∀ x ∈ xs, f x = .ok (g x)) :
    flatE f xs = .ok (xs.flatMap g) := by
  unfold flatE
  have : mapE f xs = .ok (xs.map g) := by
    induction xs with
    | nil => rfl
    | cons x xs ih => simp [mapE, h x (by simp), ih (fun y hy => h y (by simp [hy]))]
  rw [this]
  simp [Except.map, List.flatMap]

/-! ## fixed axes -/

/-- The rows without exceptions. -/
def fixedRows (fields : ℕ → FixedAxis → BinLabel → List (DVal × Bool)) (ncols : ℕ) (t : Table) :
    List FixedAxis → ℕ → List ℕ → List DVal → Bool → PlotRows
  | [], _, idx, row, base => [(row, if base then List.replicate ncols (some 0) else t idx)]
  | a :: as, j, idx, row, base =>
    a.shown.zipIdx.flatMap fun n => (fields j a n.1).flatMap fun f =>
      fixedRows fields ncols t as (j + 1) (idx ++ [n.2]) (row ++ [f.1]) (base || f.2)

theorem recFixed_ok (fields : ℕ → FixedAxis → BinLabel → List (DVal × Bool)) (ncols : ℕ) (t : Table) :
    ∀ (as : List FixedAxis) (j : ℕ) (idx : List ℕ) (row : List DVal) (base : Bool), (∀ a ∈ as, a.shown.length = a.totbins) →
      recFixed fields ncols t as j idx row base = .ok (fixedRows fields ncols t as j idx row base)
  | [], _, _, _, _, _ => rfl
  | a :: as, j, idx, row, base, h => by
    rw [recFixed, if_neg (by simp [h a (by simp)])]
    refine flatE_ok fun n _ => ?_
    exact flatE_ok fun f _ => recFixed_ok fields ncols t as _ _ _ _ (fun b hb => h b (by simp [hb]))

/-- The rows of one cell. -/
def choices (fields : ℕ → FixedAxis → BinLabel → List (DVal × Bool)) : List FixedAxis → ℕ → List ℕ → List (List DVal × Bool)
  | [], _, _ => [([], false)]
  | _ :: _, _, [] => []
  | a :: as, j, i :: idx =>
    (fields j a (a.shown.getD i .nan)).flatMap fun f => (choices fields as (j + 1) idx).map fun r => (f.1 :: r.1, f.2 || r.2)

theorem flatMap_swap {α β γ : Type} (l : List α) (m : List β) (g : α → β → List γ) :
    (l.flatMap fun a => m.flatMap fun b => g a b).Perm (m.flatMap fun b => l.flatMap fun a => g a b) := by
  induction l with
  | nil => simp
  | cons a l ih =>
    simp only [List.flatMap_cons]
    exact (List.Perm.append_left _ ih).trans (List.flatMap_append_perm m (fun b => g a b) (fun b => l.flatMap fun a => g a b))

theorem flatMap_perm {α β : Type} {l : List α} {f g : α → List β} (h : ∀ a ∈ l, (f a).Perm (g a)) : (l.flatMap f).Perm (l.flatMap g) := by
  induction l with
  | nil => simp
  | cons a l ih =>
    simp only [List.flatMap_cons]
    exact (h a (by simp)).append (ih fun b hb => h b (by simp [hb]))

theorem zipIdx_flatMap {α β : Type} (l : List α) (d : α) (f : α × ℕ → List β) :
    l.zipIdx.flatMap f = (List.range l.length).flatMap fun i => f (l.getD i d, i) := by
  have e : l.zipIdx = (List.range l.length).map fun i => (l.getD i d, i) := by
    apply List.ext_getElem
    · simp
    · intro i h1 h2
      simp at h1 h2
      simp [h1]
  rw [e, List.flatMap_map]

/-- Up to order, the rows are those of all cells. -/
theorem fixedRows_perm (fields : ℕ → FixedAxis → BinLabel → List (DVal × Bool)) (ncols : ℕ) (t : Table) :
    ∀ (as : List FixedAxis) (j : ℕ) (idx : List ℕ) (row : List DVal) (base : Bool), (∀ a ∈ as, a.shown.length = a.totbins) →
      (fixedRows fields ncols t as j idx row base).Perm ((allCells (as.map FixedAxis.totbins)).flatMap fun i =>
        (choices fields as j i).map fun r => (row ++ r.1, if base || r.2 then List.replicate ncols (some 0) else t (idx ++ i)))
  | [], j, idx, row, base, _ => by simp [fixedRows, allCells, choices]
  | a :: as, j, idx, row, base, h => by
    rw [fixedRows, zipIdx_flatMap _ BinLabel.nan, h a (by simp)]
    simp only [List.map_cons, allCells, List.flatMap_assoc]
    refine flatMap_perm fun i _ => ?_
    refine (flatMap_perm fun f _ => fixedRows_perm fields ncols t as (j + 1) (idx ++ [i]) (row ++ [f.1]) (base || f.2)
      (fun b hb => h b (by simp [hb]))).trans ?_
    refine (flatMap_swap _ _ _).trans ?_
    rw [List.flatMap_map]
    refine List.Perm.of_eq (List.flatMap_congr fun i' _ => ?_)
    simp only [choices, List.map_flatMap, List.map_map]
    refine List.flatMap_congr fun f _ => List.map_congr_left fun r _ => ?_
    simp [Bool.or_assoc]

/-- All axes but one have one text for each bin. -/
theorem choices_texts (F : Fmt) (fields : ℕ → FixedAxis → BinLabel → List (DVal × Bool)) : ∀ (as : List FixedAxis) (j : ℕ) (idx : List ℕ),
    idx.length = as.length → (∀ (k : ℕ) (a : FixedAxis), as[k]? = some a → ∀ n, fields (j + k) a n = [(.str (n.text F), false)]) →
    choices fields as j idx = [(List.zipWith (fun a i => DVal.str ((FixedAxis.shown a).getD i .nan |>.text F)) as idx, false)]
  | [], _, [], _, _ => rfl
  | a :: as, j, i :: idx, hl, h => by
    have h0 := h 0 a rfl
    rw [Nat.add_zero] at h0
    rw [choices, h0, choices_texts F fields as (j + 1) idx (by simpa using hl) (fun k b hb n => by
      have := h (k + 1) b (by simpa using hb) n
      rwa [show j + (k + 1) = j + 1 + k by omega] at this)]
    simp

theorem choices_one (F : Fmt) (fields : ℕ → FixedAxis → BinLabel → List (DVal × Bool)) : ∀ (as : List FixedAxis) (j m : ℕ) (idx : List ℕ) (b : FixedAxis)
    (i : ℕ), idx.length = as.length → as[m]? = some b → idx[m]? = some i →
    (∀ (k : ℕ) (a : FixedAxis), k ≠ m → as[k]? = some a → ∀ n, fields (j + k) a n = [(.str (n.text F), false)]) →
    choices fields as j idx = (fields (j + m) b (b.shown.getD i .nan)).map fun f =>
      ((List.zipWith (fun a i => DVal.str ((FixedAxis.shown a).getD i .nan |>.text F)) as idx).set m f.1, f.2)
  | [], _, _, _, _, _, _, h, _, _ => by simp at h
  | a :: as, j, 0, i :: idx, b, i', hl, hb, hi, h => by
    simp only [List.getElem?_cons_zero, Option.some.injEq] at hb hi
    subst hb hi
    rw [choices, choices_texts F fields as (j + 1) idx (by simpa using hl) (fun k c hc n => by
      have := h (k + 1) c (by omega) (by simpa using hc) n
      rwa [show j + (k + 1) = j + 1 + k by omega] at this)]
    simp only [Nat.add_zero, List.map_cons, List.map_nil, Bool.or_false, List.zipWith_cons_cons, List.set_cons_zero]
    generalize List.zipWith _ as idx = r
    induction fields j a (a.shown.getD i BinLabel.nan) with
    | nil => rfl
    | cons f l ih => rw [List.flatMap_cons, ih, List.map_cons]; rfl
  | a :: as, j, m + 1, i :: idx, b, i', hl, hb, hi, h => by
    have h0 := h 0 a (by omega) rfl
    rw [choices, Nat.add_zero] at *
    rw [h0, choices_one F fields as (j + 1) m idx b i' (by simpa using hl) (by simpa using hb) (by simpa using hi) (fun k c hk hc n => by
      have := h (k + 1) c (by omega) (by simpa using hc) n
      rwa [show j + (k + 1) = j + 1 + k by omega] at this), show j + 1 + m = j + (m + 1) by omega]
    simp [Function.comp_def]

/-! ## group axes -/

/-- Every key of a table can be written. -/
def TItems : (gs : List GroupAxis) → Content Table gs.length → Prop
  | [], _ => True
  | g :: gs, (d : List (Key × Content Table gs.length)) =>
    (∀ k ∈ d.map (·.1), ∃ l, g.item k = .ok l) ∧ ∀ k c, dget d k = some c → TItems gs c

theorem item_text (F : Fmt) (g : GroupAxis) (k : Key) (l : GLabel) (h : g.item k = .ok l) : l.text F = g.legend F k := by
  cases g <;> cases k <;> simp [GroupAxis.item] at h <;> subst h <;> rfl

theorem recGroups_cons (gfields : ℕ → GLabel → List DVal) (fields : ℕ → FixedAxis → BinLabel → List (DVal × Bool)) (ncols : ℕ) (fs : List FixedAxis)
    (g : GroupAxis) (gs : List GroupAxis) (d : List (Key × Content Table gs.length)) (j : ℕ) (row : List DVal) :
    recGroups gfields fields ncols fs (g :: gs) d j row =
    match sortKeys (d.map (·.1)) with
    | .error e => .error e
    | .ok ks =>
      match mapE (fun k => (g.item k).map fun l => (l, k)) ks with
      | .error e => .error e
      | .ok items => flatE (fun lk : GLabel × Key =>
          match dget d lk.2 with
          | none => .error .keyError
          | some c => flatE (fun f => recGroups gfields fields ncols fs gs c (j + 1) (row ++ [f])) (gfields j lk.1)) items := rfl

/-- Texts for the keys of a group, where the axis numbers count from `j`. -/
def gchoices (gfields : ℕ → GLabel → List DVal) : List GroupAxis → ℕ → List Key → List (List DVal)
  | [], _, _ => [[]]
  | _ :: _, _, [] => []
  | g :: gs, j, k :: gk =>
    match g.item k with
    | .error _ => []
    | .ok l => (gfields j l).flatMap fun f => (gchoices gfields gs (j + 1) gk).map fun r => f :: r

theorem recGroups_perm (gfields : ℕ → GLabel → List DVal) (fields : ℕ → FixedAxis → BinLabel → List (DVal × Bool)) (ncols : ℕ) (fs : List FixedAxis)
    (hfs : ∀ a ∈ fs, a.shown.length = a.totbins) : ∀ (gs : List GroupAxis) (t : Content Table gs.length) (j : ℕ) (row : List DVal), TGood gs.length t → TItems gs t →
    ∃ rows, recGroups gfields fields ncols fs gs t j row = .ok rows ∧
      rows.Perm ((gcells gs.length t).flatMap fun c => (gchoices gfields gs j c.1).flatMap fun r =>
        fixedRows fields ncols c.2 fs (j + gs.length) [] (row ++ r) false)
  | [], (t : Table), j, row, _, _ => ⟨_, recFixed_ok fields ncols t fs j [] row false hfs, by simp [gcells, gchoices]⟩
  | g :: gs, (d : List (Key × Content Table gs.length)), j, row, hg, hi => by
    obtain ⟨h1, h2, h3⟩ := hg
    obtain ⟨i1, i2⟩ := hi
    set ks := (d.map (·.1)).insertionSort fun a b => a.leq b = true with hks
    have hmem : ∀ k ∈ ks, k ∈ d.map (·.1) := fun k hk => (List.perm_insertionSort _ _).mem_iff.1 hk
    have hitem : ∀ k : Key, ∃ l : GLabel, k ∈ ks → g.item k = .ok l := fun k => by
      by_cases hk : k ∈ ks
      · obtain ⟨l, hl⟩ := i1 k (hmem k hk)
        exact ⟨l, fun _ => hl⟩
      · exact ⟨.key k, fun h => absurd h hk⟩
    choose lab hlab using hitem
    have hitems : mapE (fun k => (g.item k).map fun l => (l, k)) ks = .ok (ks.map fun k => (lab k, k)) := by
      exact mapE_ok _ _ ks fun k hk => by rw [hlab k hk]; rfl
    have hsub : ∀ (k : Key) (f : DVal), ∃ rows, k ∈ ks → ∀ c, dget d k = some c →
        recGroups gfields fields ncols fs gs c (j + 1) (row ++ [f]) = .ok rows ∧
        rows.Perm ((gcells gs.length c).flatMap fun c => (gchoices gfields gs (j + 1) c.1).flatMap fun r =>
          fixedRows fields ncols c.2 fs (j + 1 + gs.length) [] (row ++ [f] ++ r) false) := by
      intro k f
      cases hc : dget d k with
      | none => exact ⟨[], fun _ c h => by cases h⟩
      | some c =>
        obtain ⟨rows, e1, e2⟩ := recGroups_perm gfields fields ncols fs hfs gs c (j + 1) (row ++ [f]) (h3 k c hc) (i2 k c hc)
        refine ⟨rows, fun _ c' h => ?_⟩
        cases h
        exact ⟨e1, e2⟩
    choose sub hsub using hsub
    refine ⟨ks.flatMap fun k => (gfields j (lab k)).flatMap fun f => sub k f, ?_, ?_⟩
    · rw [recGroups_cons, sortKeys_ok h2]
      simp only [← hks]
      rw [hitems]
      simp only
      rw [flatE_ok (g := fun lk : GLabel × Key => (gfields j lk.1).flatMap fun f => sub lk.2 f), List.flatMap_map]
      intro lk hlk
      obtain ⟨k, hk, rfl⟩ := List.mem_map.1 hlk
      obtain ⟨c, hc⟩ := mem_keys_dget (hmem k hk)
      simp only [hc]
      exact flatE_ok fun f _ => (hsub k f hk c hc).1
    · show List.Perm _ ((gcells (gs.length + 1) d).flatMap _)
      rw [gcells_succ, List.flatMap_assoc]
      refine flatMap_perm fun k hk => ?_
      obtain ⟨c, hc⟩ := mem_keys_dget (hmem k hk)
      simp only [hc]
      refine (flatMap_perm fun f _ => (hsub k f hk c hc).2).trans ?_
      refine (flatMap_swap _ _ _).trans ?_
      rw [List.flatMap_map]
      refine List.Perm.of_eq (List.flatMap_congr fun c' _ => ?_)
      simp only [gchoices, hlab k hk, List.flatMap_assoc, List.flatMap_map]
      refine List.flatMap_congr fun f _ => List.flatMap_congr fun r _ => ?_
      simp [Nat.add_comm 1, Nat.add_assoc]

theorem gchoices_texts (F : Fmt) : ∀ (gs : List GroupAxis) (j : ℕ) (gk : List Key), gk.length = gs.length →
    (∀ (i : ℕ) (g : GroupAxis) (k : Key), gs[i]? = some g → gk[i]? = some k → ∃ l, g.item k = .ok l) →
    gchoices (fun _ => gfields1d F) gs j gk = [List.zipWith (fun g k => .str (GroupAxis.legend F g k)) gs gk]
  | [], _, [], _, _ => rfl
  | g :: gs, j, k :: gk, hl, h => by
    obtain ⟨l, hk⟩ := h 0 g k rfl rfl
    rw [gchoices, hk]
    simp only
    rw [gchoices_texts F gs (j + 1) gk (by simpa using hl) (fun i g k h1 h2 => h (i + 1) g k (by simpa using h1) (by simpa using h2))]
    simp [gfields1d, item_text F g k l hk]

/-! ## the table of a projection -/

/-- C45 for any content that is right. -/
theorem table_of_represents {H : HistDef} {rows : List Row} {st : H.State} (h : Represents H rows st) (o : TableOpts) (ho : o.normalized = false)
    (hp : ∀ p ∈ o.profs, p < H.nprof) :
    ∃ t, H.table o st = .ok t ∧ t = handle (handlearray H.layout o (fun _ => none)) H.groups.length (prefill H.layout st) ∧
      (∀ gk, HasGroup H.groups.length (prefill H.layout st) gk ↔ H.has st gk ∨ gk = []) ∧
      ∀ gk, gk.length = H.groups.length → HasGroup H.groups.length (prefill H.layout st) gk → ∃ tab, tlookup H.groups.length t gk = some tab ∧
        ∀ idx, H.Cell idx → tab idx = tableSpec H.wkind o (rows.filter (Row.lands H gk idx)) := by
  obtain ⟨p1, p2, p3⟩ := prefill_facts H st h.good
  have hany : o.profs.any (fun p => decide (H.nprof ≤ p)) = false := by
    rw [List.any_eq_false]
    intro p hpm
    have := hp p hpm
    simp; omega
  refine ⟨_, by unfold HistDef.table HistDef.tableWith; rw [hany, ho]; rfl, rfl, p3, fun gk hgk hg => ?_⟩
  obtain ⟨a, h1, h2, _⟩ := handle_lookup (handlearray H.layout o (fun _ => none)) _ _ gk hgk hg
  refine ⟨_, h1, fun idx hidx => ?_⟩
  refine handlearray_spec H o ho hp _ rows gk idx a fun col => ?_
  rw [← h2, p2]
  exact h.totals gk hgk idx hidx col

theorem ofPV_toPV (L : Layout) : ∀ (n : ℕ) (c : Content Arr n), Distinct n c → Shaped L n c → ofPV L.dims n (toPV n c) = .ok c
  | 0, (a : Arr), _, h => by
    show (if a.shape = L.dims then _ else _) = _
    rw [if_pos h.1]
  | n + 1, (d : List (Key × Content Arr n)), hd, h => by
    show mapDictE (ofPV L.dims n) (d.map fun p => (p.1, toPV n p.2)) = .ok d
    have hall : ∀ p ∈ d, ofPV L.dims n (toPV n p.2) = .ok p.2 := fun p hp => ofPV_toPV L n p.2 (hd.2 p hp) (shaped_mem hd h p hp)
    clear hd h
    induction d with
    | nil => rfl
    | cons p d ih =>
      simp only [List.map_cons, mapDictE, hall p (by simp)]
      rw [ih fun q hq => hall q (by simp [hq])]

theorem titems_handle (f : Arr → Table) : ∀ (gs : List GroupAxis) (c : Content Arr gs.length),
    (∀ (i : ℕ) (g : GroupAxis), gs[i]? = some g → ∀ (gk : List Key) (k : Key), HasGroup gs.length c gk → gk[i]? = some k → ∃ l, g.item k = .ok l) →
    TItems gs (handle f gs.length c)
  | [], _, _ => trivial
  | g :: gs, (d : List (Key × Content Arr gs.length)), h => by
    show TItems (g :: gs) (d.map (fun p => (p.1, handle f gs.length p.2)))
    refine ⟨fun k hk => ?_, fun k t ht => ?_⟩
    · have hk' : k ∈ d.map (·.1) := by simpa [Function.comp_def] using hk
      obtain ⟨c, hc⟩ := mem_keys_dget hk'
      exact h 0 g rfl [k] k ⟨c, hc, hasGroup_nil _ _⟩ rfl
    · rw [dget_map (fun _ c => handle f gs.length c) d k] at ht
      cases hc : dget d k with
      | none => rw [hc] at ht; cases ht
      | some c =>
        rw [hc] at ht
        cases ht
        exact titems_handle f gs c fun i g' hi gk k' hg hk => h (i + 1) g' (by simpa using hi) (k :: gk) k' ⟨c, hc, hg⟩ (by simpa using hk)

/-- Where a kept element was. -/
theorem pick_get_from {α : Type} : ∀ (ks : List Bool) (xs : List α) (i : ℕ) (x : α), (pick ks xs)[i]? = some x →
    ∃ j, xs[j]? = some x ∧ ks[j]? = some true ∧ (ks.take j).count true = i
  | true :: ks, y :: xs, 0, x, h => ⟨0, by simpa [pick] using h, rfl, rfl⟩
  | true :: ks, y :: xs, i + 1, x, h => by
    obtain ⟨j, h1, h2, h3⟩ := pick_get_from ks xs i x (by simpa [pick] using h)
    exact ⟨j + 1, by simpa using h1, by simpa using h2, by simp [h3]⟩
  | false :: ks, y :: xs, i, x, h => by
    obtain ⟨j, h1, h2, h3⟩ := pick_get_from ks xs i x (by simpa [pick] using h)
    exact ⟨j + 1, by simpa using h1, by simpa using h2, by simp [h3]⟩
  | [], _, _, _, h => by simp [pick] at h
  | true :: _, [], _, _, h => by simp [pick] at h
  | false :: _, [], _, _, h => by simp [pick] at h

theorem pick_get_to {α : Type} : ∀ (ks : List Bool) (xs : List α) (j : ℕ), ks[j]? = some true → (pick ks xs)[(ks.take j).count true]? = xs[j]?
  | true :: ks, y :: xs, 0, _ => rfl
  | true :: ks, y :: xs, j + 1, h => by
    have := pick_get_to ks xs j (by simpa using h)
    simpa [pick] using this
  | false :: ks, y :: xs, j + 1, h => by
    have := pick_get_to ks xs j (by simpa using h)
    simpa [pick] using this
  | true :: ks, [], j, _ => by simp [pick]
  | false :: ks, [], j, _ => by simp [pick]
  | [], _, j, h => by simp at h
  | false :: _, _ :: _, 0, h => by simp at h

theorem pick_same_place {α β : Type} (ks : List Bool) (xs : List α) (ys : List β) (i : ℕ) (x : α) (y : β) (h1 : (pick ks xs)[i]? = some x)
    (h2 : (pick ks ys)[i]? = some y) : ∃ j : ℕ, xs[j]? = some x ∧ ys[j]? = some y := by
  obtain ⟨j, a1, a2, a3⟩ := pick_get_from ks xs i x h1
  refine ⟨j, a1, ?_⟩
  rw [← a3, pick_get_to ks ys j a2] at h2
  exact h2

/-! ## the keys of the axes -/

theorem hasGroup_take : ∀ (n : ℕ) (c : Content Arr n) (gk : List Key) (i : ℕ), HasGroup n c gk → HasGroup n c (gk.take i)
  | 0, _, _, _, h => by
    rw [show _ = [] from h]
    simp [HasGroup]
  | n + 1, (d : List (Key × Content Arr n)), [], i, _ => by simp [HasGroup]
  | n + 1, (d : List (Key × Content Arr n)), k :: gk, 0, _ => by simp [HasGroup]
  | n + 1, (d : List (Key × Content Arr n)), k :: gk, i + 1, h => by
    obtain ⟨c, hc, h⟩ := h
    exact ⟨c, hc, hasGroup_take n c gk i h⟩

theorem foldr_keys (L : List (List DKey)) : L.foldr (fun x acc => some (x ++ acc.getD [])) none = if L = [] then none else some L.flatten := by
  induction L with
  | nil => rfl
  | cons x L ih =>
    rw [List.foldr_cons, ih]
    by_cases h : L = [] <;> simp [h]

theorem seenKeys_handle (f : Arr → Table) : ∀ (gs : List GroupAxis) (c : Content Arr gs.length), Distinct gs.length c →
    (seenKeys gs (handle f gs.length c)).1.length = gs.length ∧
    (∀ (i : ℕ) (g : GroupAxis) (gk : List Key) (k : Key), gs[i]? = some g → gk.length = i → HasGroup gs.length c (gk ++ [k]) →
      ∃ ks, (seenKeys gs (handle f gs.length c)).1[i]? = some (some ks) ∧ ∀ l, g.item k = .ok l → l.dkey ∈ ks) ∧
    (∀ (i : ℕ) (g : GroupAxis) (ks : List DKey), gs[i]? = some g → (seenKeys gs (handle f gs.length c)).1[i]? = some (some ks) →
      ∀ dk ∈ ks, ∃ gk k l, gk.length = i ∧ HasGroup gs.length c (gk ++ [k]) ∧ g.item k = .ok l ∧ dk = l.dkey) ∧
    (∀ gk, gk.length = gs.length → HasGroup gs.length c gk → (seenKeys gs (handle f gs.length c)).2 = true)
  | [], c, _ => ⟨rfl, by simp, by simp, fun _ _ _ => rfl⟩
  | g :: gs, (d : List (Key × Content Arr gs.length)), hd => by
    have hsub : ∀ p ∈ d, Distinct gs.length p.2 := hd.2
    have hmem : ∀ k c, dget d k = some c → (k, c) ∈ d := fun k c h => mem_of_dget d k c h
    have hget : ∀ p ∈ d, dget d p.1 = some p.2 := fun p hp => dget_of_mem d hd.1 p hp
    set below := d.map fun p => seenKeys gs (handle f gs.length p.2) with hbelow
    have hseen : seenKeys (g :: gs) (handle f (g :: gs).length d) =
        (some (d.filterMap fun p => (g.item p.1).toOption.map GLabel.dkey) ::
          (List.range gs.length).map (fun i => (below.filterMap fun b => (b.1[i]?).join).foldr (fun x acc => some (x ++ acc.getD [])) none),
         below.any (·.2)) := by
      show seenKeys (g :: gs) (d.map fun p => (p.1, handle f gs.length p.2)) = _
      rw [seenKeys]
      simp only [List.map_map, List.filterMap_map, Function.comp_def, hbelow]
    rw [hseen]
    refine ⟨by simp, ?_, ?_, ?_⟩
    · intro i g' gk k hg hl hh
      cases i with
      | zero =>
        obtain rfl : gk = [] := List.length_eq_zero_iff.1 hl
        cases hg
        obtain ⟨c, hc, _⟩ := hh
        refine ⟨_, rfl, fun l hlab => List.mem_filterMap.2 ⟨(k, c), hmem k c hc, ?_⟩⟩
        simp only [hlab, Except.toOption, Option.map_some]
      | succ i =>
        obtain ⟨k0, gk, rfl⟩ : ∃ k0 gk', gk = k0 :: gk' := by
          cases gk with
          | nil => simp at hl
          | cons a b => exact ⟨a, b, rfl⟩
        obtain ⟨c, hc, hh⟩ := hh
        obtain ⟨_, ih, _, _⟩ := seenKeys_handle f gs c (hsub _ (hmem _ _ hc))
        obtain ⟨ks, h1, h2⟩ := ih i g' gk k (by simpa using hg) (by simpa using hl) hh
        have hil : i < gs.length := by simpa using (List.getElem?_eq_some_iff.1 hg).1
        have hL : ks ∈ below.filterMap fun b => (b.1[i]?).join := by
          refine List.mem_filterMap.2 ⟨_, List.mem_map.2 ⟨(k0, c), hmem _ _ hc, rfl⟩, ?_⟩
          simp only [h1, Option.join_some]
        refine ⟨(below.filterMap fun b => (b.1[i]?).join).flatten, ?_, fun l hlab => List.mem_flatten.2 ⟨ks, hL, h2 l hlab⟩⟩
        simp only [List.getElem?_cons_succ, List.getElem?_map, List.getElem?_range hil, Option.map_some]
        rw [foldr_keys, if_neg (List.ne_nil_of_mem hL)]
    · intro i g' ks hg hks dk hdk
      cases i with
      | zero =>
        cases hg
        simp only [List.getElem?_cons_zero, Option.some.injEq] at hks
        subst hks
        obtain ⟨p, hp, he⟩ := List.mem_filterMap.1 hdk
        cases hi : g.item p.1 with
        | error e => rw [hi] at he; cases he
        | ok l =>
          rw [hi] at he
          cases he
          refine ⟨[], p.1, l, rfl, ⟨p.2, hget p hp, ?_⟩, hi, rfl⟩
          cases gs <;> simp [HasGroup]
      | succ i =>
        have hil : i < gs.length := by simpa using (List.getElem?_eq_some_iff.1 hg).1
        simp only [List.getElem?_cons_succ, List.getElem?_map, List.getElem?_range hil, Option.map_some, Option.some.injEq] at hks
        rw [foldr_keys] at hks
        by_cases hL : (below.filterMap fun b => (b.1[i]?).join) = []
        · rw [if_pos hL] at hks; cases hks
        · rw [if_neg hL] at hks
          cases hks
          obtain ⟨ks', hk', hdk⟩ := List.mem_flatten.1 hdk
          obtain ⟨b, hb, hj⟩ := List.mem_filterMap.1 hk'
          obtain ⟨p, hp, rfl⟩ := List.mem_map.1 hb
          obtain ⟨_, _, ih, _⟩ := seenKeys_handle f gs p.2 (hsub p hp)
          have hj' : (seenKeys gs (handle f gs.length p.2)).1[i]? = some (some ks') := by
            cases hx : (seenKeys gs (handle f gs.length p.2)).1[i]? with
            | none => rw [hx] at hj; cases hj
            | some o => rw [hx] at hj; exact congrArg some hj
          obtain ⟨gk, k, l, h1, h2, h3, h4⟩ := ih i g' ks' (by simpa using hg) hj' dk hdk
          exact ⟨p.1 :: gk, k, l, by simp [h1], ⟨p.2, hget p hp, h2⟩, h3, h4⟩
    · intro gk hl hh
      obtain ⟨k0, gk, rfl⟩ : ∃ k0 gk', gk = k0 :: gk' := by
        cases gk with
        | nil => simp at hl
        | cons a b => exact ⟨a, b, rfl⟩
      obtain ⟨c, hc, hh⟩ := hh
      obtain ⟨_, _, _, ih⟩ := seenKeys_handle f gs c (hsub _ (hmem _ _ hc))
      exact List.any_eq_true.2 ⟨_, List.mem_map.2 ⟨(k0, c), hmem _ _ hc, rfl⟩, ih gk (by simpa using hl) hh⟩

/-- What the keys of the axes of a plot are, where `cells` are the groups and bins that are shown. -/
structure HistDef.DomainsOf (H : HistDef) (axes : List ℕ) (rows : List Row) (cells : List (List Key × List ℕ)) (doms : List (Option (List DKey))) : Prop where
  shown : ∀ c ∈ cells, ∀ (i : ℕ) (g : GroupAxis), (H.onAxes axes).groups[i]? = some g →
    ∃ ks, doms[i]? = some (some ks) ∧ ∀ k l, c.1[i]? = some k → g.item k = .ok l → l.dkey ∈ ks
  real : ∀ (i : ℕ) (g : GroupAxis) (ks : List DKey), (H.onAxes axes).groups[i]? = some g → doms[i]? = some (some ks) → ∀ dk ∈ ks, ∃ k l, g.item k = .ok l ∧ dk = l.dkey ∧
    ∃ j, j ∈ axes ∧ j < H.groups.length ∧ placeOf axes j = i ∧ ∃ r ∈ rows, (List.zipWith GroupAxis.key H.groups r.gvals).getD j none = some k
  fixed : cells ≠ [] → ∀ (m : ℕ) (a : FixedAxis), (H.onAxes axes).fixed[m]? = some a → doms[(H.onAxes axes).groups.length + m]? = some (some (a.keys.map .lab))

theorem plotRows_eq (H : HistDef) (axes : List ℕ) (o : TableOpts) (gfields : ℕ → GLabel → List DVal)
    (fields : ℕ → FixedAxis → BinLabel → List (DVal × Bool)) (ncols : ℕ) (st : H.State)
    (hin : ∀ i ∈ axes, i < H.groups.length + H.fixed.length) (pv : Option PV)
    (h1 : H.projectState (H.keptG axes) (H.keptF axes) st = .ok pv) (st' : (H.onAxes axes).State) (h2 : (H.onAxes axes).ofPV pv = .ok st')
    (t : Content Table (H.onAxes axes).groups.length) (h3 : (H.onAxes axes).table o st' = .ok t) :
    H.plotRows axes o gfields fields ncols st = (recGroups gfields fields ncols (H.onAxes axes).fixed (H.onAxes axes).groups t 0 []).map
      fun rows => (rows, plotDomains (H.onAxes axes).groups (H.onAxes axes).fixed t) := by
  have hany : (axes.any fun i => decide (H.groups.length + H.fixed.length ≤ i)) = false := by
    rw [List.any_eq_false]
    intro i hi
    have := hin i hi
    simp; omega
  unfold HistDef.plotRows
  simp only [hany, Bool.false_eq_true, if_false]
  rw [show H.projectState (keepAxes axes 0 H.groups.length) (keepAxes axes H.groups.length H.fixed.length) st = .ok pv from h1]
  simp only
  have h2' : (H.project (keepAxes axes 0 H.groups.length) (keepAxes axes H.groups.length H.fixed.length)).ofPV pv = .ok st' := h2
  have h3' : (H.project (keepAxes axes 0 H.groups.length) (keepAxes axes H.groups.length H.fixed.length)).table o st' = .ok t := h3
  rw [h2']
  simp only
  rw [h3']
  rfl

/-- The rows that count in a plot, with only the values of its axes. -/
def HistDef.plottedRows (H : HistDef) (axes : List ℕ) (rows : List Row) : List Row :=
  (rows.filter (Row.coveredOn H (H.keptG axes) (H.keptF axes))).map (Row.project (H.keptG axes) (H.keptF axes))

/-- The rows of records of a plot, if the table of the projection has the values `V`. -/
theorem plotRows_values (H : HistDef) (bs : List (List Row)) (hf : Fillable H bs) (st : H.State) (hst : H.fillAll none bs = .ok st)
    (axes : List ℕ) (hin : ∀ i ∈ axes, i < H.groups.length + H.fixed.length) (hp : H.PowKeys (H.keptG axes) st)
    (o : TableOpts) (V : List Key × List ℕ → List (Option ℚ))
    (htable : ∀ st', Represents (H.onAxes axes) (H.plottedRows axes bs.flatten) st' → ∃ f t, (H.onAxes axes).table o st' = .ok t ∧
      t = handle f (H.onAxes axes).groups.length (prefill (H.onAxes axes).layout st') ∧
      ∀ gk, gk.length = (H.onAxes axes).groups.length → HasGroup (H.onAxes axes).groups.length (prefill (H.onAxes axes).layout st') gk →
        ∃ tab, tlookup (H.onAxes axes).groups.length t gk = some tab ∧ ∀ idx, (H.onAxes axes).Cell idx → tab idx = V (gk, idx))
    (hax : ∀ a ∈ H.fixed, a.shown.length = a.totbins)
    (hkind : OneKind H bs.flatten) (hnan : NoNanKeys H bs.flatten)
    (gfields : ℕ → GLabel → List DVal) (fields : ℕ → FixedAxis → BinLabel → List (DVal × Bool)) (ncols : ℕ) :
    ∃ rows doms cells, H.plotRows axes o gfields fields ncols st = .ok (rows, doms) ∧ H.PlotCells axes st cells ∧
      (∀ c ∈ cells, ∀ (i : ℕ) (g : GroupAxis) (k : Key), (H.onAxes axes).groups[i]? = some g → c.1[i]? = some k → ∃ l, g.item k = .ok l) ∧
      rows.Perm (cells.flatMap fun c => (gchoices gfields (H.onAxes axes).groups 0 c.1).flatMap fun r =>
        (choices fields (H.onAxes axes).fixed (H.onAxes axes).groups.length c.2).map fun s =>
          (r ++ s.1, if s.2 then List.replicate ncols (some 0) else V c)) ∧
      H.DomainsOf axes bs.flatten cells doms := by
  obtain ⟨st0, e0, hrep⟩ := Represents.ofFill H bs hf
  rw [hst] at e0
  cases e0
  obtain ⟨st0, e0, hseen⟩ := C20_groups_exactly H bs hf
  rw [hst] at e0
  cases e0
  have hkg : (H.keptG axes).length = H.groups.length := by simp [HistDef.keptG]
  have hkf : (H.keptF axes).length = H.fixed.length := by simp [HistDef.keptF]
  obtain ⟨st', e1, hrep', hhas'⟩ := hrep.project (H.keptG axes) (H.keptF axes) hkg hkf hp
  obtain ⟨st'', e2, hfrom'⟩ := hrep.project_from (H.keptG axes) (H.keptF axes) hkg hp _ e1
  have : st' = st'' := Option.map_injective (toPV_injective _) e2
  subst this
  set H' := H.onAxes axes with hH'
  change Represents H' _ st' at hrep'
  obtain ⟨f, t, ht, hte, htab⟩ := htable st' hrep'
  have hgroups := (prefill_facts H' st' hrep'.good).2.2
  -- keys come from rows
  have hkeys : ∀ (gk : List Key) (i : ℕ) (k : Key), HasGroup H'.groups.length (prefill H'.layout st') gk → gk[i]? = some k →
      ∃ j, (∀ g, H'.groups[i]? = some g → H.groups[j]? = some g) ∧ ((H.keptG axes).take j).count true = i ∧ (H.keptG axes)[j]? = some true ∧
        ∃ r ∈ bs.flatten, (List.zipWith GroupAxis.key H.groups r.gvals).getD j none = some k := by
    intro gk i k hg hk
    rcases (hgroups gk).1 hg with hh | rfl
    · obtain ⟨full, f1, f2⟩ := hfrom' gk hh
      have hl : full.length ≤ H.groups.length := by
        cases st with
        | none => exact f2.elim
        | some c => exact hasGroup_length _ _ _ f2
      obtain ⟨b, hb, hr⟩ := (hseen full hl).1 f2
      rw [← f1] at hk
      obtain ⟨j, j1, j2, j3⟩ := pick_get_from _ _ _ _ hk
      obtain ⟨r, hr, e⟩ := hr j k j1
      refine ⟨j, fun g hg' => ?_, j3, j2, r, List.mem_flatten.2 ⟨b, hb, hr⟩, e⟩
      have := pick_get_to (H.keptG axes) H.groups j j2
      rw [j3] at this
      rw [← this]
      exact hg'
    · simp at hk
  have hdist : Distinct H'.groups.length (prefill H'.layout st') := by
    cases st' with
    | none => exact distinct_empty _ _
    | some c => exact hrep'.distinct
  have hplace : ∀ i j j' : ℕ, ((H.keptG axes).take j).count true = i → (H.keptG axes)[j]? = some true →
      ((H.keptG axes).take j').count true = i → (H.keptG axes)[j']? = some true → j = j' := by
    intro i j j' a1 a2 a3 a4
    have h1 := pick_get_to (H.keptG axes) (List.range (H.keptG axes).length) j a2
    have h2 := pick_get_to (H.keptG axes) (List.range (H.keptG axes).length) j' a4
    rw [a1] at h1
    rw [a3, h1] at h2
    have l1 := (List.getElem?_eq_some_iff.1 a2).1
    have l2 := (List.getElem?_eq_some_iff.1 a4).1
    rw [List.getElem?_range l1, List.getElem?_range l2] at h2
    exact Option.some.inj h2
  have hgood : TGood H'.groups.length t := by
    rw [hte]
    refine handle_good _ _ _ hdist fun i => ?_
    by_cases hex : ∃ j, ((H.keptG axes).take j).count true = i ∧ (H.keptG axes)[j]? = some true
    · obtain ⟨j, j1, j2⟩ := hex
      refine (hkind j).imp (fun h gk k hg hk => ?_) (fun h gk k hg hk => ?_)
      all_goals
        obtain ⟨j', _, b1, b2, r, hr, e⟩ := hkeys gk i k hg hk
        rw [hplace i j' j b1 b2 j1 j2] at e
        exact h r hr k e
    · left
      intro gk k hg hk
      obtain ⟨j', _, b1, b2, _⟩ := hkeys gk i k hg hk
      exact absurd ⟨j', b1, b2⟩ hex
  have hitemok : ∀ (i : ℕ) (g : GroupAxis), H'.groups[i]? = some g → ∀ (gk : List Key) (k : Key),
      HasGroup H'.groups.length (prefill H'.layout st') gk → gk[i]? = some k → ∃ l, g.item k = .ok l := by
    intro i g hg gk k hh hk
    obtain ⟨j, b0, _, _, r, hr, e⟩ := hkeys gk i k hh hk
    cases g with
    | groupby => exact ⟨_, rfl⟩
    | groupbin a =>
      have := hnan j a (b0 _ hg) r hr k e
      cases k with
      | str s => simp [Key.isStr] at this
      | num q => exact ⟨_, rfl⟩
      | pinf => exact ⟨_, rfl⟩
      | ninf => exact ⟨_, rfl⟩
  have hitems : TItems H'.groups t := by
    rw [hte]
    exact titems_handle _ _ _ hitemok
  have hfs : ∀ a ∈ H'.fixed, a.shown.length = a.totbins := by
    intro a ha
    obtain ⟨i, hi⟩ := List.getElem?_of_mem ha
    obtain ⟨j, j1, _⟩ := pick_get_from _ _ _ _ hi
    exact hax a (List.mem_of_getElem? j1)
  obtain ⟨rows, r1, r2⟩ := recGroups_perm gfields fields ncols H'.fixed hfs H'.groups t 0 [] hgood hitems
  let cells : List (List Key × List ℕ) := (gcells H'.groups.length t).flatMap fun c =>
    (allCells (H'.fixed.map FixedAxis.totbins)).map fun idx => (c.1, idx)
  have hhas : ∀ gk tab, gk.length = H'.groups.length → tlookup H'.groups.length t gk = some tab →
      HasGroup H'.groups.length (prefill H'.layout st') gk := by
    intro gk tab hl h
    by_contra hc
    rw [hte, handle_lookup_none _ _ _ gk hl hc] at h
    cases h
  refine ⟨rows, plotDomains H'.groups H'.fixed t, cells, ?_, ⟨?_, ?_⟩, ?_, ?_, ?_⟩
  · have hof : H'.ofPV (H'.toPV st') = .ok st' := by
      cases st' with
      | none => rfl
      | some c =>
        show (Verif.ofPV (H'.fixed.map FixedAxis.totbins) H'.groups.length (toPV H'.groups.length c)).map some = _
        have := ofPV_toPV H'.layout H'.groups.length c hrep'.distinct hrep'.good
        rw [show H'.fixed.map FixedAxis.totbins = H'.layout.dims from rfl, this]
        rfl
    rw [plotRows_eq H axes o gfields fields ncols st hin _ e1 st' hof t ht, r1]
    rfl
  · have hn := gcells_nodup _ _ hgood
    simp only [cells]
    rw [List.nodup_flatMap]
    constructor
    · intro c _
      exact (nodup_allCells _).map fun a b h => (Prod.mk.inj h).2
    · refine List.Pairwise.imp ?_ (List.pairwise_map.1 hn)
      intro c c' hne
      rw [Function.onFun, List.disjoint_left]
      intro x hx hx'
      obtain ⟨_, _, rfl⟩ := List.mem_map.1 hx
      obtain ⟨_, _, e⟩ := List.mem_map.1 hx'
      exact hne (Prod.mk.inj e).1.symm
  · intro gk idx
    simp only [cells, List.mem_flatMap, List.mem_map, Prod.mk.injEq]
    constructor
    · rintro ⟨c, hc, idx', hidx, rfl, rfl⟩
      obtain ⟨h1, h2⟩ := (mem_gcells _ _ c.1 c.2).1 hc
      refine ⟨(mem_allCells _ _).1 hidx, h1, ?_⟩
      rcases (hgroups _).1 (hhas _ _ h1 h2) with h | h
      · exact Or.inr ((hhas' c.1 h1).1 h)
      · exact Or.inl h
    · rintro ⟨h1, h2, h3⟩
      have hg : HasGroup H'.groups.length (prefill H'.layout st') gk := by
        rw [hgroups]
        rcases h3 with h3 | h3
        · exact Or.inr h3
        · exact Or.inl ((hhas' gk h2).2 h3)
      obtain ⟨tab, k1, _⟩ := htab gk h2 hg
      exact ⟨(gk, tab), (mem_gcells _ _ _ _).2 ⟨h2, k1⟩, idx, (mem_allCells _ _).2 h1, rfl, rfl⟩
  · intro c hc i g k hg hk
    simp only [cells, List.mem_flatMap, List.mem_map] at hc
    obtain ⟨c', hc', idx', hidx, rfl⟩ := hc
    obtain ⟨h1, h2⟩ := (mem_gcells _ _ c'.1 c'.2).1 hc'
    exact hitemok i g hg c'.1 k (hhas _ _ h1 h2) hk
  · refine r2.trans ?_
    simp only [cells, List.flatMap_assoc, List.flatMap_map]
    refine flatMap_perm fun c hc => ?_
    obtain ⟨h1, h2⟩ := (mem_gcells _ _ c.1 c.2).1 hc
    obtain ⟨tab, k1, k2⟩ := htab c.1 h1 (hhas _ _ h1 h2)
    rw [h2] at k1
    cases k1
    refine List.Perm.trans ?_ (flatMap_swap _ _ _)
    refine flatMap_perm fun r _ => ?_
    rw [Nat.zero_add]
    refine (fixedRows_perm fields ncols c.2 H'.fixed H'.groups.length [] ([] ++ r) false hfs).trans ?_
    refine List.Perm.of_eq (List.flatMap_congr fun idx hidx => List.map_congr_left fun s _ => ?_)
    simp only [List.nil_append, Bool.false_or]
    rw [k2 idx ((mem_allCells _ _).1 hidx)]
  · obtain ⟨d1, d2, d3, d4⟩ := seenKeys_handle f H'.groups (prefill H'.layout st') hdist
    rw [← hte] at d1 d2 d3 d4
    have hcell : ∀ c ∈ cells, c.1.length = H'.groups.length ∧ HasGroup H'.groups.length (prefill H'.layout st') c.1 := by
      intro c hc
      simp only [cells, List.mem_flatMap, List.mem_map] at hc
      obtain ⟨c', hc', idx', hidx, rfl⟩ := hc
      obtain ⟨h1, h2⟩ := (mem_gcells _ _ c'.1 c'.2).1 hc'
      exact ⟨h1, hhas _ _ h1 h2⟩
    refine ⟨?_, ?_, ?_⟩
    · intro c hc i g hg
      obtain ⟨h1, h2⟩ := hcell c hc
      have hi : i < H'.groups.length := (List.getElem?_eq_some_iff.1 hg).1
      have hp : HasGroup H'.groups.length (prefill H'.layout st') (c.1.take i ++ [c.1[i]]) := by
        rw [← List.take_succ_eq_append_getElem]
        exact hasGroup_take _ _ _ _ h2
      obtain ⟨ks, e1, e2⟩ := d2 i g (c.1.take i) (c.1[i]) hg (by simp; omega) hp
      refine ⟨ks, ?_, fun k l hk hlab => ?_⟩
      · unfold plotDomains
        simp only
        rw [List.getElem?_append_left (by omega)]
        exact e1
      · rw [List.getElem?_eq_getElem (by omega)] at hk
        cases hk
        exact e2 l hlab
    · intro i g ks hg hks dk hdk
      have hi : i < H'.groups.length := (List.getElem?_eq_some_iff.1 hg).1
      unfold plotDomains at hks
      simp only at hks
      rw [List.getElem?_append_left (by omega)] at hks
      obtain ⟨gk, k, l, e1, e2, e3, e4⟩ := d3 i g ks hg hks dk hdk
      obtain ⟨j, _, b1, b2, r, hr, e⟩ := hkeys _ i k e2 (by rw [List.getElem?_append_right (by omega)]; simp [e1])
      have hj : j < H.groups.length := by
        have := (List.getElem?_eq_some_iff.1 b2).1
        rw [hkg] at this
        exact this
      refine ⟨k, l, e3, e4, j, ?_, hj, ?_, r, hr, e⟩
      · simpa [HistDef.keptG, List.getElem?_range hj] using b2
      · rw [← b1]
        unfold placeOf HistDef.keptG
        rw [← List.map_take, List.take_range, Nat.min_eq_left (by omega), List.count_eq_countP, List.countP_map, ← List.countP_eq_length_filter]
        refine List.countP_congr fun i _ => ?_
        simp
    · intro hne m a ha
      obtain ⟨c, hc⟩ := List.exists_mem_of_ne_nil _ hne
      obtain ⟨h1, h2⟩ := hcell c hc
      unfold plotDomains
      simp only
      rw [List.getElem?_append_right (by rw [d1]; exact Nat.le_add_right _ _), d1, Nat.add_sub_cancel_left, List.getElem?_map, ha, d4 c.1 h1 h2]
      rfl

/-- The rows of records of a plot that is not normalized. -/
theorem plotRows_spec (H : HistDef) (bs : List (List Row)) (hf : Fillable H bs) (st : H.State) (hst : H.fillAll none bs = .ok st)
    (axes : List ℕ) (hin : ∀ i ∈ axes, i < H.groups.length + H.fixed.length) (hp : H.PowKeys (H.keptG axes) st)
    (o : TableOpts) (ho : o.normalized = false) (hprof : ∀ p ∈ o.profs, p < H.nprof) (hax : ∀ a ∈ H.fixed, a.shown.length = a.totbins)
    (hkind : OneKind H bs.flatten) (hnan : NoNanKeys H bs.flatten)
    (gfields : ℕ → GLabel → List DVal) (fields : ℕ → FixedAxis → BinLabel → List (DVal × Bool)) (ncols : ℕ) :
    ∃ rows doms cells, H.plotRows axes o gfields fields ncols st = .ok (rows, doms) ∧ H.PlotCells axes st cells ∧
      (∀ c ∈ cells, ∀ (i : ℕ) (g : GroupAxis) (k : Key), (H.onAxes axes).groups[i]? = some g → c.1[i]? = some k → ∃ l, g.item k = .ok l) ∧
      rows.Perm (cells.flatMap fun c => (gchoices gfields (H.onAxes axes).groups 0 c.1).flatMap fun r =>
        (choices fields (H.onAxes axes).fixed (H.onAxes axes).groups.length c.2).map fun s =>
          (r ++ s.1, if s.2 then List.replicate ncols (some 0) else tableSpec H.wkind o (H.rowsIn axes bs.flatten c))) ∧
      H.DomainsOf axes bs.flatten cells doms :=
  plotRows_values H bs hf st hst axes hin hp o (fun c => tableSpec H.wkind o (H.rowsIn axes bs.flatten c))
    (fun st' hrep => by
      obtain ⟨t, ht, hte, _, htab⟩ := table_of_represents hrep o ho hprof
      exact ⟨_, t, ht, hte, htab⟩) hax hkind hnan gfields fields ncols

/-- The table of a plot. -/
theorem plot_table (H : HistDef) (P : Plot1d) (rows : List Row) (hno : H.Normalizable P rows) (hprof : ∀ p, P.prof = some p → p < H.nprof)
    (hw : ∀ a ∈ (H.onAxes P.axes).fixed, a.HasWidth)
    (st' : (H.onAxes P.axes).State) (hrep : Represents (H.onAxes P.axes) (H.plottedRows P.axes rows) st') :
    ∃ f t, (H.onAxes P.axes).table (plotOpts P.prof P.error P.normalized) st' = .ok t ∧
      t = handle f (H.onAxes P.axes).groups.length (prefill (H.onAxes P.axes).layout st') ∧
      ∀ gk, gk.length = (H.onAxes P.axes).groups.length → HasGroup (H.onAxes P.axes).groups.length (prefill (H.onAxes P.axes).layout st') gk →
        ∃ tab, tlookup (H.onAxes P.axes).groups.length t gk = some tab ∧
          ∀ idx, (H.onAxes P.axes).Cell idx → tab idx = H.valuesIn P rows (gk, idx) := by
  have hp : ∀ p ∈ (plotOpts P.prof P.error P.normalized).profs, p < (H.onAxes P.axes).nprof :=
    fun p hpm => hprof p (by simpa [plotOpts] using hpm)
  cases hN : P.normalized with
  | false =>
    rw [hN] at hp
    obtain ⟨t, ht, hte, _, htab⟩ := table_of_represents hrep (plotOpts P.prof P.error false) rfl hp
    refine ⟨_, t, ht, hte, fun gk h1 h2 => ?_⟩
    obtain ⟨tab, k1, k2⟩ := htab gk h1 h2
    refine ⟨tab, k1, fun idx hidx => ?_⟩
    rw [k2 idx hidx]
    unfold HistDef.valuesIn
    rw [hN]
    rfl
  | true =>
    rw [hN] at hp
    obtain ⟨f, t, ht, hte, htab⟩ := norm_of_represents hrep (plotOpts P.prof P.error true) rfl hp (hno.fixed hN) hw (hno.split hN)
    refine ⟨f, t, ht, hte, fun gk h1 h2 => ?_⟩
    obtain ⟨tab, k1, k2⟩ := htab gk h1 h2
    refine ⟨tab, k1, fun idx hidx => ?_⟩
    rw [k2 (fun hc => hno.total hN (by simpa [plotOpts] using hc)) idx hidx]
    unfold HistDef.valuesIn
    rw [hN]
    rfl

end Verif
