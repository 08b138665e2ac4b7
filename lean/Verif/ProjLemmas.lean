import Verif.SpecProj
import Verif.ArithLemmas
import Verif.PropsFill

/-!
# Lemmas about projections
-/

namespace Verif

/-! ## sums over bins -/

theorem FixedAxis.Handles.unique {a : FixedAxis} {v : Val} (h : a.Handles v) {i j : ℕ} (hi : a.holds i v = true)
    (hj : a.holds j v = true) : i = j := by
  obtain ⟨r, _, _, h3⟩ := h
  have e : ∀ i : ℕ, a.holds i v = true → r = some (i : ℤ) := by
    intro i hi
    rw [h3 i]
    unfold FixedAxis.holds at hi
    cases hk : a.keys[i]? with
    | none => rw [hk] at hi; cases hi
    | some l => rw [hk] at hi; exact ⟨l, rfl, hi⟩
  have := (e i hi).symm.trans (e j hj)
  simpa using this

theorem FixedAxis.Handles.lt {a : FixedAxis} {v : Val} (h : a.Handles v) {i : ℕ} (hi : a.holds i v = true) :
    i < a.totbins := by
  obtain ⟨r, _, h2, h3⟩ := h
  have : r = some (i : ℤ) := by
    rw [h3 i]
    unfold FixedAxis.holds at hi
    cases hk : a.keys[i]? with
    | none => rw [hk] at hi; cases hi
    | some l => rw [hk] at hi; exact ⟨l, rfl, hi⟩
  have := (h2 _ this).2
  omega

theorem FixedAxis.Handles.sound {a : FixedAxis} {v : Val} (h : a.Handles v) : a.Sound v :=
  ⟨fun _ _ => h.unique, fun _ => h.lt⟩

theorem Row.Ok.sound {H : HistDef} {r : Row} (h : r.Ok H) : r.Sound H :=
  ⟨h.groups.length_eq.symm, h.fixed.imp (fun _ _ => FixedAxis.Handles.sound)⟩

/-- all combinations of bins, one from each list -/
def combos : List (List ℕ) → List (List ℕ)
  | [] => [[]]
  | r :: rs => r.flatMap (fun i => (combos rs).map (i :: ·))

/-- on every axis the value is in one of the listed bins -/
def inSome : List FixedAxis → List Val → List (List ℕ) → Bool
  | [], [], [] => true
  | a :: as, v :: vs, r :: rs => r.any (fun i => a.holds i v) && inSome as vs rs
  | _, _, _ => false

theorem sum_map_ite_eq {R : List ℕ} (hR : R.Nodup) (p : ℕ → Bool) (hp : ∀ i j, p i = true → p j = true → i = j) (x : ℕ) :
    (R.map (fun i => if p i = true then x else 0)).sum = if R.any p = true then x else 0 := by
  induction R with
  | nil => simp
  | cons i R ih =>
    rw [List.nodup_cons] at hR
    rw [List.map_cons, List.sum_cons, ih hR.2, List.any_cons]
    cases hi : p i with
    | false => simp
    | true =>
      have : R.any p = false := by
        rw [List.any_eq_false]
        intro j hj hpj
        exact hR.1 (hp i j hi (by simpa using hpj) ▸ hj)
      simp [this]

theorem count_combos {as : List FixedAxis} {vs : List Val} (h : List.Forall₂ FixedAxis.Sound as vs) :
    ∀ Rs : List (List ℕ), (∀ R ∈ Rs, R.Nodup) →
      (combos Rs).countP (fun idx => inBins' as vs idx) = b2n (inSome as vs Rs) := by
  induction h with
  | nil =>
    intro Rs _
    cases Rs with
    | nil => simp [combos, inBins', inSome, b2n]
    | cons R Rs => simp [combos, inSome, List.countP_flatMap, inBins', Function.comp_def, b2n]
  | cons h1 _ ih =>
    rename_i a v as vs _
    intro Rs hRs
    cases Rs with
    | nil => simp [combos, inBins', inSome, b2n]
    | cons R Rs =>
      simp only [combos, List.countP_flatMap, inSome, List.countP_map, Function.comp_def]
      have e : ∀ i, (combos Rs).countP (fun x => inBins' (a :: as) (v :: vs) (i :: x)) =
          if a.holds i v = true then b2n (inSome as vs Rs) else 0 := by
        intro i
        simp only [inBins']
        cases a.holds i v with
        | false => simp
        | true =>
          simp only [Bool.true_and, if_true]
          exact ih Rs (fun R hR => hRs R (by simp [hR]))
      simp only [e]
      rw [sum_map_ite_eq (hRs R (by simp)) (fun i => a.holds i v) h1.1]
      generalize R.any (fun i => a.holds i v) = b
      cases b <;> simp [b2n]

/-- The sum of the totals of a set of bins (a product of sets) is the total of the rows that are in
one of them. -/
theorem binTotal_combos (H : HistDef) (rows : List Row) (h : ∀ r ∈ rows, r.Sound H) (gk : List Key) (col : ℕ)
    (Rs : List (List ℕ)) (hRs : ∀ R ∈ Rs, R.Nodup) :
    ((combos Rs).map (fun idx => binTotal H rows gk idx col)).sum =
      ((rows.filter (fun r => inGroup H.groups r.gvals gk && inSome H.fixed r.fvals Rs)).map (fun r => r.adds H col)).sum := by
  unfold binTotal
  rw [sum_swap]
  induction rows with
  | nil => simp
  | cons r rows ih =>
    rw [List.map_cons, List.sum_cons, ih (fun r hr => h r (by simp [hr])), List.filter_cons]
    have hc := count_combos (h r (by simp)).fixed Rs hRs
    have : (combos Rs).countP (fun p => r.lands H gk p) =
        b2n (inGroup H.groups r.gvals gk && inSome H.fixed r.fvals Rs) := by
      unfold Row.lands
      cases inGroup H.groups r.gvals gk with
      | false => simp [b2n]
      | true => simpa using hc
    rw [this]
    cases inGroup H.groups r.gvals gk && inSome H.fixed r.fvals Rs <;> simp [b2n]

/-! ## project on arrays -/

/-- the bins that are summed for bin `idx` of the projection -/
def keepRanges : List Bool → List ℕ → List ℕ → List (List ℕ)
  | true :: ks, _ :: ns, i :: is => [i] :: keepRanges ks ns is
  | false :: ks, n :: ns, is => List.range n :: keepRanges ks ns is
  | _, _, _ => []

theorem expand_eq : ∀ (ks : List Bool) (ns is : List ℕ), expand ks ns is = combos (keepRanges ks ns is)
  | true :: ks, _ :: ns, i :: is => by simp [expand, keepRanges, combos, expand_eq ks ns is]
  | false :: ks, n :: ns, is => by simp [expand, keepRanges, combos, expand_eq ks ns is]
  | true :: _, [], _ => by simp [expand, keepRanges, combos]
  | true :: _, _ :: _, [] => by simp [expand, keepRanges, combos]
  | false :: _, [], _ => by simp [expand, keepRanges, combos]
  | [], _, _ => by simp [expand, keepRanges, combos]

theorem keepRanges_nodup : ∀ (ks : List Bool) (ns is : List ℕ), ∀ R ∈ keepRanges ks ns is, R.Nodup
  | true :: ks, _ :: ns, i :: is => by
    intro R hR
    simp only [keepRanges, List.mem_cons] at hR
    rcases hR with rfl | hR
    · simp
    · exact keepRanges_nodup ks ns is R hR
  | false :: ks, n :: ns, is => by
    intro R hR
    simp only [keepRanges, List.mem_cons] at hR
    rcases hR with rfl | hR
    · exact List.nodup_range
    · exact keepRanges_nodup ks ns is R hR
  | true :: _, [], _ => by simp [keepRanges]
  | true :: _, _ :: _, [] => by simp [keepRanges]
  | false :: _, [], _ => by simp [keepRanges]
  | [], _, _ => by simp [keepRanges]

theorem inSome_keep : ∀ (ks : List Bool) (as : List FixedAxis) (vs : List Val) (is : List ℕ), ks.length = as.length →
    as.length = vs.length → InRange is (pick ks (as.map FixedAxis.totbins)) →
    inSome as vs (keepRanges ks (as.map FixedAxis.totbins) is) =
      (inBins' (pick ks as) (pick ks vs) is && (pick (ks.map not) (List.zipWith FixedAxis.covers as vs)).all id)
  | [], [], [], is, _, _, hi => by
    simp only [pick, InRange, List.forall₂_nil_right_iff] at hi
    subst hi
    simp [keepRanges, inSome, inBins', pick]
  | true :: ks, a :: as, v :: vs, is, h1, h2, hi => by
    cases is with
    | nil => simp [pick, InRange] at hi
    | cons i is =>
      simp only [List.map_cons, pick, InRange, List.forall₂_cons] at hi
      simp only [List.map_cons, keepRanges, inSome, List.any_cons, List.any_nil, Bool.or_false, pick, inBins', Bool.not_true,
        List.zipWith_cons_cons]
      rw [inSome_keep ks as vs is (by simpa using h1) (by simpa using h2) hi.2, Bool.and_assoc]
  | false :: ks, a :: as, v :: vs, is, h1, h2, hi => by
    simp only [List.map_cons, pick] at hi
    simp only [List.map_cons, keepRanges, inSome, pick, Bool.not_false, List.zipWith_cons_cons, List.all_cons, id]
    rw [inSome_keep ks as vs is (by simpa using h1) (by simpa using h2) hi]
    have : (List.range a.totbins).any (fun i => a.holds i v) = a.covers v := rfl
    rw [this]
    cases a.covers v <;> simp
  | [], _ :: _, _, _, h, _, _ => by simp at h
  | _ :: _, [], _, _, h, _, _ => by simp at h
  | _, _ :: _, [], _, _, h, _ => by simp at h
  | _, [], _ :: _, _, _, h, _ => by simp at h

/-! ## sums over groups -/

/-- the arrays of a content, seen through `f`, summed over the keys of the group axes that are not
kept -/
def margin (f : Arr → ℚ) : (n : ℕ) → List Bool → Content Arr n → List Key → ℚ
  | 0, _, (a : Arr), _ => f a
  | n + 1, kg, (d : List (Key × Content Arr n)), gk =>
    if kg.headD true then
      match gk with
      | [] => 0
      | k :: gk =>
        match dget d k with
        | none => 0
        | some c => margin f n kg.tail c gk
    else (d.map (fun p => margin f n kg.tail p.2 gk)).sum

/-- the array of a group, seen through `f` -/
def lookupF (f : Arr → ℚ) : (n : ℕ) → Content Arr n → List Key → ℚ
  | 0, (a : Arr), _ => f a
  | n + 1, (d : List (Key × Content Arr n)), gk =>
    match gk with
    | [] => 0
    | k :: gk =>
      match dget d k with
      | none => 0
      | some c => lookupF f n c gk

theorem lookupF_sum {α : Type} (l : List α) (g : α → Arr → ℚ) : ∀ (n : ℕ) (c : Content Arr n) (gk : List Key),
    lookupF (fun a => (l.map (fun x => g x a)).sum) n c gk = (l.map (fun x => lookupF (g x) n c gk)).sum
  | 0, _, _ => rfl
  | n + 1, (d : List (Key × Content Arr n)), [] => by simp [lookupF]
  | n + 1, (d : List (Key × Content Arr n)), k :: gk => by
    simp only [lookupF]
    cases dget d k with
    | none => simp
    | some c => exact lookupF_sum l g n c gk

theorem lookupF_get (idx : List ℕ) (col : ℕ) : ∀ (n : ℕ) (c : Content Arr n) (gk : List Key),
    lookupF (fun a => a.get idx col) n c gk = lookup n c gk idx col
  | 0, _, _ => rfl
  | n + 1, (d : List (Key × Content Arr n)), [] => rfl
  | n + 1, (d : List (Key × Content Arr n)), k :: gk => by
    simp only [lookupF, lookup]
    cases dget d k with
    | none => rfl
    | some c => exact lookupF_get idx col n c gk

theorem sum_filter_heads {β : Type} (E : List β) (key : β → Option Key) (p : β → Bool) (v : β → ℚ) (ks : List Key) (hks : ks.Nodup)
    (hE : ∀ e ∈ E, p e = true → ∃ k ∈ ks, key e = some k) :
    (ks.map (fun k => ((E.filter (fun e => decide (key e = some k) && p e)).map v).sum)).sum = ((E.filter p).map v).sum := by
  rw [sum_swap]
  induction E with
  | nil => simp
  | cons e E ih =>
    rw [List.map_cons, List.sum_cons, ih (fun e he => hE e (by simp [he])), List.filter_cons]
    cases hp : p e with
    | false => simp
    | true =>
      obtain ⟨k, hk, hke⟩ := hE e (by simp) hp
      have : ks.countP (fun k' => decide (key e = some k') && true) = 1 := by
        apply countP_one ks hks _ k hk
        intro k' _
        simp [hke, eq_comm]
      rw [this]
      simp

theorem pick_map {α β : Type} (f : α → β) : ∀ (ks : List Bool) (xs : List α), pick ks (xs.map f) = (pick ks xs).map f
  | true :: ks, x :: xs => by simp [pick, pick_map f ks xs]
  | false :: ks, x :: xs => by simp [pick, pick_map f ks xs]
  | [], _ => by simp [pick]
  | true :: _, [] => by simp [pick]
  | false :: _, [] => by simp [pick]

theorem pick_zipWith {α β γ : Type} (f : α → β → γ) : ∀ (ks : List Bool) (xs : List α) (ys : List β), xs.length = ys.length →
    pick ks (List.zipWith f xs ys) = List.zipWith f (pick ks xs) (pick ks ys)
  | true :: ks, x :: xs, y :: ys, h => by simp [pick, pick_zipWith f ks xs ys (by simpa using h)]
  | false :: ks, x :: xs, y :: ys, h => by simp [pick, pick_zipWith f ks xs ys (by simpa using h)]
  | [], _, _, _ => by simp [pick]
  | true :: _, [], _, _ => by simp [pick]
  | false :: _, [], _, _ => by simp [pick]
  | true :: _, _ :: _, [], h => by simp at h
  | false :: _, _ :: _, [], h => by simp at h

/-- The condition of the marginal sums: the kept keys are `gk`, and there is a key on every other
axis. -/
def keyTest (kg : List Bool) (gk : List Key) (ks : List (Option Key)) : Bool :=
  decide (pick kg ks = gk.map some) && (pick (kg.map not) ks).all Option.isSome

theorem keyTest_true (kg : List Bool) (k : Key) (gk : List Key) (x : Option Key) (ks : List (Option Key)) :
    keyTest (true :: kg) (k :: gk) (x :: ks) = (decide (x = some k) && keyTest kg gk ks) := by
  rw [Bool.eq_iff_iff]
  simp [keyTest, pick, and_assoc]

theorem keyTest_true_nil (kg : List Bool) (x : Option Key) (ks : List (Option Key)) :
    keyTest (true :: kg) [] (x :: ks) = false := by
  rw [Bool.eq_false_iff]
  simp [keyTest, pick]

theorem keyTest_false (kg : List Bool) (gk : List Key) (x : Option Key) (ks : List (Option Key)) :
    keyTest (false :: kg) gk (x :: ks) = (x.isSome && keyTest kg gk ks) := by
  rw [Bool.eq_iff_iff]
  unfold keyTest
  rw [Bool.and_eq_true, decide_eq_true_iff, Bool.and_eq_true, Bool.and_eq_true, decide_eq_true_iff]
  simp [pick]
  tauto

theorem keyTest_full : ∀ (kg : List Bool) (ks : List (Option Key)) (gk : List Key), kg.length = ks.length →
    keyTest kg gk ks = true → ∃ full : List Key, ks = full.map some ∧ full.length = kg.length
  | [], [], gk, _, _ => ⟨[], rfl, rfl⟩
  | true :: kg, x :: ks, gk, h, ht => by
    cases gk with
    | nil => rw [keyTest_true_nil] at ht; cases ht
    | cons k gk =>
      rw [keyTest_true, Bool.and_eq_true, decide_eq_true_eq] at ht
      obtain ⟨full, hf, hl⟩ := keyTest_full kg ks gk (by simpa using h) ht.2
      exact ⟨k :: full, by simp [ht.1, hf], by simp [hl]⟩
  | false :: kg, x :: ks, gk, h, ht => by
    rw [keyTest_false, Bool.and_eq_true] at ht
    obtain ⟨full, hf, hl⟩ := keyTest_full kg ks gk (by simpa using h) ht.2
    obtain ⟨k, hk⟩ := Option.isSome_iff_exists.1 ht.1
    exact ⟨k :: full, by simp [hk, hf], by simp [hl]⟩
  | [], _ :: _, _, h, _ => by simp at h
  | _ :: _, [], _, h, _ => by simp at h

/-- If the array of each group is (through `f`) the sum over some events with that key, and the
groups of all events exist, then the marginal sums are sums over events. -/
theorem margin_events {β : Type} (f : Arr → ℚ) (v : β → ℚ) : ∀ (n : ℕ) (kg : List Bool) (c : Content Arr n) (E : List β)
    (key : β → List (Option Key)), kg.length = n → (∀ e ∈ E, (key e).length = n) → Distinct n c →
    (∀ gk : List Key, gk.length = n → lookupF f n c gk = ((E.filter (fun e => decide (key e = gk.map some))).map v).sum) →
    (∀ e ∈ E, ∀ gk : List Key, key e = gk.map some → HasGroup n c gk) →
    ∀ gk : List Key, gk.length = (kg.count true) →
      margin f n kg c gk = ((E.filter (fun e => keyTest kg gk (key e))).map v).sum := by
  intro n
  induction n with
  | zero =>
    intro kg c E key hkg hE _ hl _ gk hgk
    rw [List.length_eq_zero_iff] at hkg
    subst hkg
    have hgk0 : gk = [] := by simpa using hgk
    subst hgk0
    show f c = _
    have := hl [] rfl
    simp only [lookupF] at this
    rw [this]
    congr 2
    apply List.filter_congr
    intro e he
    have h0 := hE e he
    rw [List.length_eq_zero_iff] at h0
    simp [h0, keyTest, pick]
  | succ n ih =>
    intro kg c E key hkg hE hd hl hg gk hgk
    change List (Key × Content Arr n) at c
    cases kg with
    | nil => simp at hkg
    | cons b kg =>
      have hkg' : kg.length = n := by simpa using hkg
      -- one key of the first axis
      have sub : ∀ k x, dget c k = some x → ∀ gk : List Key, gk.length = kg.count true →
          margin f n kg x gk = ((E.filter (fun e => decide ((key e).head? = some (some k)) && keyTest kg gk (key e).tail)).map v).sum := by
        intro k x hx gk hgk
        rw [ih kg x (E.filter (fun e => decide ((key e).head? = some (some k)))) (fun e => (key e).tail) hkg' ?_ ?_ ?_ ?_ gk hgk]
        · rw [List.filter_filter]
          congr 2
          apply List.filter_congr
          intro e _
          rw [Bool.and_comm]
        · intro e he
          have := hE e (List.mem_filter.1 he).1
          simp [this]
        · exact hd.2 _ (mem_of_dget c k x hx)
        · intro gk hgk
          have := hl (k :: gk) (by simp [hgk])
          simp only [lookupF, hx] at this
          rw [this, List.filter_filter]
          congr 2
          apply List.filter_congr
          intro e he
          have hlen := hE e he
          rw [Bool.eq_iff_iff, Bool.and_eq_true, decide_eq_true_iff, decide_eq_true_iff, decide_eq_true_iff]
          cases hk : key e with
          | nil => rw [hk] at hlen; simp at hlen
          | cons k' ks => simp [and_comm]
        · intro e he gk hk
          have h1 := List.mem_filter.1 he
          have hlen := hE e h1.1
          have h2 := h1.2
          simp only [decide_eq_true_eq] at h2
          have hk : (key e).tail = gk.map some := hk
          have : key e = (k :: gk).map some := by
            cases hke : key e with
            | nil => rw [hke] at hlen; simp at hlen
            | cons k' ks =>
              rw [hke] at h2 hk
              simp only [List.head?_cons, Option.some.injEq, List.tail_cons] at h2 hk
              simp [h2, hk]
          obtain ⟨x', hx', hh⟩ := hg e h1.1 (k :: gk) this
          rw [hx] at hx'
          cases hx'
          exact hh
      cases b with
      | true =>
        simp only [margin, List.headD_cons, if_true, List.tail_cons]
        cases gk with
        | nil => simp at hgk
        | cons k gk =>
          have hgk' : gk.length = kg.count true := by simpa using hgk
          have conv : ∀ e ∈ E, keyTest (true :: kg) (k :: gk) (key e) =
              (decide ((key e).head? = some (some k)) && keyTest kg gk (key e).tail) := by
            intro e he
            have hlen := hE e he
            cases hk : key e with
            | nil => rw [hk] at hlen; simp at hlen
            | cons k' ks =>
              rw [keyTest_true]
              simp
          rw [List.filter_congr conv]
          simp only
          cases hx : dget c k with
          | some x => simp only; exact sub k x hx gk hgk'
          | none =>
            simp only
            symm
            have : E.filter (fun e => decide ((key e).head? = some (some k)) && keyTest kg gk (key e).tail) = [] := by
              rw [List.filter_eq_nil_iff]
              intro e he ht
              rw [← conv e he] at ht
              obtain ⟨full, hf, hfl⟩ := keyTest_full (true :: kg) (key e) (k :: gk) (by rw [hE e he]; simpa using hkg) ht
              have h1 := hg e he full hf
              rw [conv e he, hf] at ht
              cases full with
              | nil => simp at hfl
              | cons k' full =>
                simp only [List.map_cons, List.head?_cons, Option.some.injEq, Bool.and_eq_true, decide_eq_true_eq] at ht
                obtain ⟨rfl, _⟩ := ht
                obtain ⟨x, hx', _⟩ := h1
                rw [hx] at hx'
                cases hx'
            rw [this]
            rfl
      | false =>
        simp only [margin, List.headD_cons, Bool.false_eq_true, if_false, List.tail_cons]
        have hgk' : gk.length = kg.count true := by simpa using hgk
        have e1 : c.map (fun p => margin f n kg p.2 gk) =
            (c.map (·.1)).map (fun k => ((E.filter (fun e => decide ((key e).headD none = some k) && keyTest kg gk (key e).tail)).map v).sum) := by
          rw [List.map_map]
          apply List.map_congr_left
          intro p hp
          rw [sub p.1 p.2 (dget_of_mem c hd.1 p hp) gk hgk']
          simp only [Function.comp]
          congr 2
          apply List.filter_congr
          intro e he
          have hlen := hE e he
          cases hk : key e with
          | nil => rw [hk] at hlen; simp at hlen
          | cons k' ks => simp
        rw [e1]
        have conv : ∀ e ∈ E, keyTest (false :: kg) gk (key e) =
            (((key e).headD none).isSome && keyTest kg gk (key e).tail) := by
          intro e he
          have hlen := hE e he
          cases hk : key e with
          | nil => rw [hk] at hlen; simp at hlen
          | cons k' ks =>
            rw [keyTest_false]
            simp
        rw [List.filter_congr conv, ← sum_filter_heads E (fun e => (key e).headD none)
          (fun e => ((key e).headD none).isSome && keyTest kg gk (key e).tail) v (c.map (·.1)) hd.1]
        · congr 1
          apply List.map_congr_left
          intro k _
          congr 2
          apply List.filter_congr
          intro e _
          cases (key e).headD none with
          | none => simp
          | some k' => simp
        · intro e he ht
          rw [← conv e he] at ht
          obtain ⟨full, hf, hfl⟩ := keyTest_full (false :: kg) (key e) gk (by rw [hE e he]; simpa using hkg) ht
          cases full with
          | nil => simp at hfl
          | cons k full =>
            obtain ⟨x, hx, _⟩ := hg e he (k :: full) hf
            exact ⟨k, List.mem_map.2 ⟨_, mem_of_dget c k x hx, rfl⟩, by simp [hf]⟩

/-! ## adding up contents -/

theorem addLeft_toPV (L : Layout) (N n : ℕ) (ih : ∀ a b : Content Arr n, Distinct n a → Distinct n b → Shaped L n a → Shaped L n b →
      addany N (toPV n a) (toPV n b) = .ok (toPV n (plus n a b))) (e : List (Key × Content Arr n)) (he : Distinct (n + 1) e)
    (hes : Shaped L (n + 1) e) : ∀ d : List (Key × Content Arr n), (∀ p ∈ d, Distinct n p.2 ∧ Shaped L n p.2) →
    addLeft (addany N) (e.map (fun p => (p.1, toPV n p.2))) (d.map (fun p => (p.1, toPV n p.2))) =
      .ok ((d.map (fun p => (p.1, mergeEntry (plus n) e p.1 p.2))).map (fun p => (p.1, toPV n p.2)))
  | [], _ => rfl
  | (k, x) :: d, h => by
    have h1 := addLeft_toPV L N n ih e he hes d (fun p hp => h p (by simp [hp]))
    simp only [List.map_cons, addLeft]
    rw [dget_map (fun _ c => toPV n c) e k, h1]
    simp only [mergeEntry]
    cases hk : dget e k with
    | none => simp
    | some y =>
      have hx := h (k, x) (by simp)
      have hy := he.2 _ (mem_of_dget e k y hk)
      simp only [Option.map_some, ih x y hx.1 hy hx.2 (hes k y hk)]

theorem addRight_map {β γ : Type} (f : β → γ) (d e : List (Key × β)) :
    addRight (d.map (fun p => (p.1, f p.2))) (e.map (fun p => (p.1, f p.2))) = (addRight d e).map (fun p => (p.1, f p.2)) := by
  unfold addRight
  rw [List.filter_map]
  congr 1
  apply List.filter_congr
  intro p _
  simp only [Function.comp]
  rw [dget_map (fun _ c => f c) d p.1]
  cases dget d p.1 <;> rfl

theorem addany_toPV (L : Layout) : ∀ (n N : ℕ), n ≤ N → ∀ a b : Content Arr n, Distinct n a → Distinct n b → Shaped L n a → Shaped L n b →
    addany N (toPV n a) (toPV n b) = .ok (toPV n (plus n a b))
  | 0, N, _, (a : Arr), (b : Arr), _, _, ha, hb => by
    have : addany N (toPV 0 a) (toPV 0 b) = (PV.arr a).add (.arr b) := by
      cases N <;> rfl
    rw [this]
    simp only [PV.add, PV.asArr, Arr.badd]
    rw [if_pos (by rw [ha.1, hb.1])]
    unfold Arr.add
    rw [if_pos (by rw [ha.1, hb.1]), if_pos (by rw [ha.2, hb.2])]
    rfl
  | n + 1, 0, h, _, _, _, _, _, _ => by omega
  | n + 1, N + 1, h, (d : List (Key × Content Arr n)), (e : List (Key × Content Arr n)), hd, he, hds, hes => by
    show addany (N + 1) (.dict (d.map _)) (.dict (e.map _)) = _
    simp only [addany]
    rw [addLeft_toPV L N n (addany_toPV L n N (by omega)) e he hes d (fun p hp => ⟨hd.2 p hp, shaped_mem hd hds p hp⟩)]
    simp only
    rw [addRight_map, ← List.map_append]
    rfl

theorem addallN_pow (L : Layout) (n N : ℕ) (hN : n ≤ N) : ∀ (k fuel : ℕ) (vs : List (Content Arr n)), k + 1 ≤ fuel →
    vs.length = 2 ^ (k + 1) → (∀ v ∈ vs, Distinct n v ∧ Shaped L n v) →
    ∃ s : Content Arr n, addallN N fuel (vs.map (toPV n)) = .ok (toPV n s) ∧ Distinct n s ∧ Shaped L n s ∧
      (∀ gk, HasGroup n s gk ↔ ∃ v ∈ vs, HasGroup n v gk) ∧
      ∀ gk idx col, lookup n s gk idx col = (vs.map (fun v => lookup n v gk idx col)).sum := by
  intro k
  induction k with
  | zero =>
    intro fuel vs hf hl hv
    match fuel, vs, hl, hf with
    | fuel + 1, [x, y], _, _ =>
      have hx := hv x (by simp)
      have hy := hv y (by simp)
      refine ⟨plus n x y, ?_, plus_distinct n x y hx.1 hy.1, plus_shaped L n x y hx.2 hy.2, ?_, ?_⟩
      · simp only [addallN, List.map_cons, List.map_nil, List.length_cons, List.length_nil, Nat.zero_add, Nat.reduceAdd,
          Nat.reduceDiv, List.take_succ_cons, List.take_zero, List.drop_succ_cons, List.drop_zero]
        exact addany_toPV L n N hN x y hx.1 hy.1 hx.2 hy.2
      · intro gk
        rw [plus_has]
        simp
      · intro gk idx col
        rw [plus_lookup]
        simp
  | succ k ih =>
    intro fuel vs hf hl hv
    obtain ⟨fuel, rfl⟩ : ∃ f, fuel = f + 1 := ⟨fuel - 1, by omega⟩
    have hp : 2 ≤ 2 ^ (k + 1) := by
      have : 1 ≤ 2 ^ k := Nat.one_le_two_pow
      rw [pow_succ]
      omega
    have hl2 : vs.length = 2 ^ (k + 1) + 2 ^ (k + 1) := by rw [hl, pow_succ]; ring
    have hhalf : vs.length / 2 = 2 ^ (k + 1) := by omega
    obtain ⟨s1, a1, a2, a3, a4, a5⟩ := ih fuel (vs.take (2 ^ (k + 1))) (by omega) (by simp [hl2])
      (fun v hvm => hv v (List.mem_of_mem_take hvm))
    obtain ⟨s2, b1, b2, b3, b4, b5⟩ := ih fuel (vs.drop (2 ^ (k + 1))) (by omega) (by simp [hl2])
      (fun v hvm => hv v (List.mem_of_mem_drop hvm))
    refine ⟨plus n s1 s2, ?_, plus_distinct n _ _ a2 b2, plus_shaped L n _ _ a3 b3, ?_, ?_⟩
    · simp only [addallN, List.length_map, hhalf]
      rw [← List.map_take, ← List.map_drop]
      have e1 : ((vs.take (2 ^ (k + 1))).map (toPV n)).length = 2 ^ (k + 1) := by simp [hl2]
      have e2 : ((vs.drop (2 ^ (k + 1))).map (toPV n)).length = 2 ^ (k + 1) := by simp [hl2]
      generalize (vs.take (2 ^ (k + 1))).map (toPV n) = A at e1 a1 ⊢
      generalize (vs.drop (2 ^ (k + 1))).map (toPV n) = B at e2 b1 ⊢
      have hadd := addany_toPV L n N hN s1 s2 a2 b2 a3 b3
      match A, B, e1, e2, a1, b1 with
      | [], _, e1, _, _, _ => simp at e1; omega
      | _ :: _, [], _, e2, _, _ => simp at e2; omega
      | [_], [_], e1, _, _, _ => simp at e1; omega
      | _ :: _ :: _, [_], _, e2, _, _ => simp at e2; omega
      | [_], _ :: _ :: _, e1, _, _, _ => simp at e1; omega
      | _ :: _ :: _, _ :: _ :: _, _, _, a1, b1 =>
        simp only [a1, b1]
        exact hadd
    · intro gk
      rw [plus_has, a4, b4]
      constructor
      · rintro (⟨v, hv, h⟩ | ⟨v, hv, h⟩)
        · exact ⟨v, List.mem_of_mem_take hv, h⟩
        · exact ⟨v, List.mem_of_mem_drop hv, h⟩
      · rintro ⟨v, hv, h⟩
        rw [← List.take_append_drop (2 ^ (k + 1)) vs, List.mem_append] at hv
        rcases hv with hv | hv
        · exact Or.inl ⟨v, hv, h⟩
        · exact Or.inr ⟨v, hv, h⟩
    · intro gk idx col
      rw [plus_lookup, a5, b5, ← List.sum_append, ← List.map_append, List.take_append_drop]

/-! ## project on contents -/

theorem mapDictE_ok {β γ : Type} {P : β → γ → Prop} (f : β → Except Err PV) (t : γ → PV) : ∀ d : List (Key × β),
    (∀ p ∈ d, ∃ y, f p.2 = .ok (t y) ∧ P p.2 y) →
    ∃ d' : List (Key × γ), mapDictE f d = .ok (d'.map (fun p => (p.1, t p.2))) ∧
      List.Forall₂ (fun (p : Key × β) (q : Key × γ) => p.1 = q.1 ∧ P p.2 q.2) d d'
  | [], _ => ⟨[], rfl, .nil⟩
  | (k, x) :: d, h => by
    obtain ⟨y, hy, hP⟩ := h (k, x) (by simp)
    obtain ⟨d', h1, h2⟩ := mapDictE_ok f t d (fun p hp => h p (by simp [hp]))
    refine ⟨(k, y) :: d', ?_, .cons ⟨rfl, hP⟩ h2⟩
    simp only at hy
    simp only [mapDictE, hy, h1, List.map_cons]

theorem dget_forall₂ {β γ : Type} {P : β → γ → Prop} {d : List (Key × β)} {d' : List (Key × γ)}
    (h : List.Forall₂ (fun (p : Key × β) (q : Key × γ) => p.1 = q.1 ∧ P p.2 q.2) d d') (k : Key) :
    (dget d k = none ∧ dget d' k = none) ∨ ∃ x y, dget d k = some x ∧ dget d' k = some y ∧ P x y := by
  induction h with
  | nil => exact Or.inl ⟨rfl, rfl⟩
  | @cons p q d d' h1 h2 ih =>
    obtain ⟨k1, x⟩ := p
    obtain ⟨k2, y⟩ := q
    obtain ⟨rfl, hP⟩ := h1
    rw [dget_cons, dget_cons]
    by_cases hk : k1 = k
    · right
      exact ⟨x, y, by simp [hk], by simp [hk], hP⟩
    · simpa [hk] using ih

theorem forall₂_keys {β γ : Type} {P : β → γ → Prop} {d : List (Key × β)} {d' : List (Key × γ)}
    (h : List.Forall₂ (fun (p : Key × β) (q : Key × γ) => p.1 = q.1 ∧ P p.2 q.2) d d') : d'.map (·.1) = d.map (·.1) := by
  induction h with
  | nil => rfl
  | cons h1 _ ih => simp [ih, h1.1]

theorem forall₂_mem_right {α β : Type} {R : α → β → Prop} {l : List α} {l' : List β} (h : List.Forall₂ R l l') :
    ∀ y ∈ l', ∃ x ∈ l, R x y := by
  induction h with
  | nil => simp
  | cons h1 _ ih =>
    intro y hy
    rcases List.mem_cons.1 hy with rfl | hy
    · exact ⟨_, by simp, h1⟩
    · obtain ⟨x, hx, hr⟩ := ih y hy
      exact ⟨x, by simp [hx], hr⟩

theorem forall₂_mem_left {α β : Type} {R : α → β → Prop} {l : List α} {l' : List β} (h : List.Forall₂ R l l') :
    ∀ x ∈ l, ∃ y ∈ l', R x y := by
  induction h with
  | nil => simp
  | cons h1 _ ih =>
    intro y hy
    rcases List.mem_cons.1 hy with rfl | hy
    · exact ⟨_, by simp, h1⟩
    · obtain ⟨x, hx, hr⟩ := ih y hy
      exact ⟨x, by simp [hx], hr⟩

/-- what is proved of the projected content -/
structure ProjOk (kf : List Bool) (L' : Layout) (n : ℕ) (kg : List Bool) (c : Content Arr n) (m : ℕ) (c' : Content Arr m) : Prop where
  distinct : Distinct m c'
  shaped : Shaped L' m c'
  has : ∀ gk, gk.length = m → (HasGroup m c' gk ↔ ∃ full, full.length = n ∧ pick kg full = gk ∧ HasGroup n c full)
  value : ∀ gk, gk.length = m → ∀ idx col, lookup m c' gk idx col = margin (fun a => (a.sumAxes kf).get idx col) n kg c gk
  from_ : ∀ gk, HasGroup m c' gk → ∃ full, pick kg full = gk ∧ HasGroup n c full

theorem projcontent_spec (L L' : Layout) (kf : List Bool) (hd : L'.dims = pick kf L.dims) (hc : L'.ncols = L.ncols) :
    ∀ (n : ℕ) (kg : List Bool) (c : Content Arr n), kg.length = n → Distinct n c → Shaped L n c → PowKeys n kg c →
    ∀ m, m = kg.count true → ∃ c' : Content Arr m, projcontent kf n kg c = .ok (toPV m c') ∧ ProjOk kf L' n kg c m c' := by
  intro n
  induction n with
  | zero =>
    intro kg c hkg hdis hsh hp m hm
    rw [List.length_eq_zero_iff] at hkg
    subst hkg
    simp only [List.count_nil] at hm
    subst hm
    change Arr at c
    refine ⟨c.sumAxes kf, rfl, trivial, ⟨?_, ?_⟩, ?_, ?_, fun gk h => ⟨[], (show gk = [] from h).symm ▸ rfl, rfl⟩⟩
    · show pick kf c.shape = _
      rw [hd, hsh.1]
    · show c.ncols = _
      rw [hc, hsh.2]
    · intro gk hgk
      rw [List.length_eq_zero_iff] at hgk
      subst hgk
      exact ⟨fun _ => ⟨[], rfl, rfl, rfl⟩, fun _ => rfl⟩
    · intro gk _ idx col
      rfl
  | succ n ih =>
    intro kg c hkg hdis hsh hp m hm
    change List (Key × Content Arr n) at c
    cases kg with
    | nil => simp at hkg
    | cons b kg =>
      have hkg' : kg.length = n := by simpa using hkg
      have hle : kg.count true ≤ n := hkg' ▸ List.count_le_length
      obtain ⟨d', hd1, hd2⟩ := mapDictE_ok (P := fun x y => ProjOk kf L' n kg x (kg.count true) y)
        (projcontent kf n kg) (toPV (kg.count true)) c
        (fun p hpm => ih kg p.2 hkg' (hdis.2 p hpm) (shaped_mem hdis hsh p hpm) (hp.2 p hpm) _ rfl)
      have hkeys := forall₂_keys (P := fun x y => ProjOk kf L' n kg x (kg.count true) y) hd2
      cases b with
      | true =>
        have hm' : m = kg.count true + 1 := by simpa using hm
        subst hm'
        refine ⟨d', ?_, ⟨?_, ?_⟩, ?_, ?_, ?_, ?_⟩
        · simp only [projcontent, List.tail_cons, hd1, List.headD_cons, if_true]
          rfl
        · exact hkeys ▸ hdis.1
        · intro q hq
          obtain ⟨p, _, hr⟩ := forall₂_mem_right hd2 q hq
          exact hr.2.distinct
        · intro k x hk
          rcases dget_forall₂ (P := fun x y => ProjOk kf L' n kg x (kg.count true) y) hd2 k with ⟨_, h2⟩ | ⟨x', y, _, h2, hP⟩
          · rw [h2] at hk; cases hk
          · rw [h2] at hk
            cases hk
            exact hP.shaped
        · intro gk hgk
          match gk, hgk with
          | k :: gk, hgk =>
          have hgk' : gk.length = kg.count true := by simpa using hgk
          constructor
          · rintro ⟨x, hx, hh⟩
            rcases dget_forall₂ (P := fun x y => ProjOk kf L' n kg x (kg.count true) y) hd2 k with ⟨_, h2⟩ | ⟨x', y, h1, h2, hP⟩
            · rw [h2] at hx; cases hx
            · rw [h2] at hx
              cases hx
              obtain ⟨full, hf1, hf2, hf3⟩ := (hP.has gk hgk').1 hh
              exact ⟨k :: full, by simp [hf1], by simp [pick, hf2], x', h1, hf3⟩
          · rintro ⟨full, hf1, hf2, hf3⟩
            match full, hf1 with
            | k' :: full, hf1 =>
            simp only [pick, List.cons.injEq] at hf2
            obtain ⟨rfl, hf2⟩ := hf2
            obtain ⟨x, hx, hh⟩ := hf3
            rcases dget_forall₂ (P := fun x y => ProjOk kf L' n kg x (kg.count true) y) hd2 k' with ⟨h1, _⟩ | ⟨x', y, h1, h2, hP⟩
            · rw [h1] at hx; cases hx
            · rw [h1] at hx
              cases hx
              exact ⟨y, h2, (hP.has gk hgk').2 ⟨full, by simpa using hf1, hf2, hh⟩⟩
        · intro gk hgk idx col
          match gk, hgk with
          | k :: gk, hgk =>
          have hgk' : gk.length = kg.count true := by simpa using hgk
          simp only [lookup, margin, List.headD_cons, if_true, List.tail_cons]
          rcases dget_forall₂ (P := fun x y => ProjOk kf L' n kg x (kg.count true) y) hd2 k with ⟨h1, h2⟩ | ⟨x', y, h1, h2, hP⟩
          · rw [h1, h2]
          · rw [h1, h2]
            exact hP.value gk hgk' idx col
        · intro gk hgk
          cases gk with
          | nil => exact ⟨[], by simp [pick], trivial⟩
          | cons k gk =>
            obtain ⟨x, hx, hh⟩ := hgk
            rcases dget_forall₂ (P := fun x y => ProjOk kf L' n kg x (kg.count true) y) hd2 k with ⟨_, h2⟩ | ⟨x', y, h1, h2, hP⟩
            · rw [h2] at hx; cases hx
            · rw [h2] at hx
              cases hx
              obtain ⟨full, hf1, hf2⟩ := hP.from_ gk hh
              exact ⟨k :: full, by simp [pick, hf1], x', h1, hf2⟩
      | false =>
        have hm' : m = kg.count true := by simpa using hm
        subst hm'
        obtain ⟨k, hk⟩ : ∃ k, c.length = 2 ^ (k + 1) := by
          rcases hp.1 with h | h
          · simp at h
          · exact h
        have hlen : d'.length = 2 ^ (k + 1) := by rw [← hd2.length_eq]; exact hk
        have hkl : k + 1 ≤ d'.length := by rw [hlen]; exact Nat.lt_two_pow_self.le
        obtain ⟨s, s1, s2, s3, s4, s5⟩ := addallN_pow L' (kg.count true) n hle k d'.length (d'.map (·.2)) hkl (by simpa using hlen)
          (by
            intro v hv
            obtain ⟨q, hq, rfl⟩ := List.mem_map.1 hv
            obtain ⟨p, _, hr⟩ := forall₂_mem_right hd2 q hq
            exact ⟨hr.2.distinct, hr.2.shaped⟩)
        refine ⟨s, ?_, s2, s3, ?_, ?_, ?_⟩
        · simp only [projcontent, List.tail_cons, hd1, List.headD_cons, Bool.false_eq_true, if_false]
          rw [List.map_map] at s1 ⊢
          have hne : d'.map (toPV (kg.count true) ∘ fun x => x.2) ≠ [] := by
            intro h0
            have := congrArg List.length h0
            simp only [List.length_map, List.length_nil] at this
            omega
          have hfun : ((fun x : Key × PV => x.2) ∘ fun p : Key × Content Arr (kg.count true) => (p.1, toPV (kg.count true) p.2)) =
            (toPV (kg.count true) ∘ fun x => x.2) := rfl
          rw [hfun]
          have hl2 : (d'.map (toPV (kg.count true) ∘ fun x => x.2)).length = d'.length := by simp
          rw [← hl2] at s1
          generalize d'.map (toPV (kg.count true) ∘ fun x => x.2) = W at s1 hne
          cases W with
          | nil => exact absurd rfl hne
          | cons w W => exact s1
        · intro gk hgk
          rw [s4]
          constructor
          · rintro ⟨v, hv, hh⟩
            obtain ⟨q, hq, rfl⟩ := List.mem_map.1 hv
            obtain ⟨p, hpm, hr⟩ := forall₂_mem_right hd2 q hq
            obtain ⟨full, hf1, hf2, hf3⟩ := (hr.2.has gk hgk).1 hh
            exact ⟨p.1 :: full, by simp [hf1], by simp [pick, hf2], p.2, dget_of_mem c hdis.1 p hpm, hf3⟩
          · rintro ⟨full, hf1, hf2, hf3⟩
            match full, hf1 with
            | k' :: full, hf1 =>
            simp only [pick] at hf2
            obtain ⟨x, hx, hh⟩ := hf3
            obtain ⟨q, hq, hr⟩ := forall₂_mem_left hd2 _ (mem_of_dget c k' x hx)
            exact ⟨q.2, List.mem_map_of_mem hq, (hr.2.has gk hgk).2 ⟨full, by simpa using hf1, hf2, hh⟩⟩
        · intro gk hgk idx col
          rw [s5]
          simp only [margin, List.headD_cons, Bool.false_eq_true, if_false, List.tail_cons, List.map_map]
          clear s1 s4 s5 hlen hkl hk hd1 hp hsh hdis hkeys
          induction hd2 with
          | nil => rfl
          | cons h1 _ ih2 =>
            simp only [List.map_cons, List.sum_cons, Function.comp]
            rw [h1.2.value gk hgk idx col]
            congr 1
        · intro gk hgk
          obtain ⟨v, hv, hh⟩ := (s4 gk).1 hgk
          obtain ⟨q, hq, rfl⟩ := List.mem_map.1 hv
          obtain ⟨p, hpm, hr⟩ := forall₂_mem_right hd2 q hq
          obtain ⟨full, hf1, hf2⟩ := hr.2.from_ gk hh
          exact ⟨p.1 :: full, by simp [pick, hf1], p.2, dget_of_mem c hdis.1 p hpm, hf2⟩

theorem lookupF_congr (L : Layout) (f g : Arr → ℚ) (hfg : ∀ a : Arr, Shaped L 0 a → f a = g a) : ∀ (n : ℕ) (c : Content Arr n)
    (gk : List Key), Shaped L n c → lookupF f n c gk = lookupF g n c gk
  | 0, c, _, h => hfg c h
  | n + 1, (d : List (Key × Content Arr n)), [], _ => rfl
  | n + 1, (d : List (Key × Content Arr n)), k :: gk, h => by
    simp only [lookupF]
    cases hk : dget d k with
    | none => rfl
    | some c => exact lookupF_congr L f g hfg n c gk (h k c hk)

theorem expand_cells : ∀ (ks : List Bool) (ns is : List ℕ), ks.length = ns.length → InRange is (pick ks ns) →
    ∀ i ∈ expand ks ns is, InRange i ns
  | [], [], is, _, _, i, h => by
    simp only [expand, List.mem_singleton] at h
    subst h
    exact .nil
  | true :: ks, n :: ns, is, hl, hi, i, h => by
    cases is with
    | nil => simp [pick, InRange] at hi
    | cons j is =>
      simp only [pick, InRange, List.forall₂_cons] at hi
      simp only [expand, List.mem_map] at h
      obtain ⟨t, ht, rfl⟩ := h
      exact .cons hi.1 (expand_cells ks ns is (by simpa using hl) hi.2 t ht)
  | false :: ks, n :: ns, is, hl, hi, i, h => by
    simp only [pick] at hi
    simp only [expand, List.mem_flatMap, List.mem_range, List.mem_map] at h
    obtain ⟨j, hj, t, ht, rfl⟩ := h
    exact .cons hj (expand_cells ks ns is (by simpa using hl) hi t ht)
  | [], _ :: _, _, h, _, _, _ => by simp at h
  | _ :: _, [], _, h, _, _, _ => by simp at h

/-! ## rows and projections -/

theorem pick_length {α : Type} : ∀ (ks : List Bool) (xs : List α), ks.length = xs.length → (pick ks xs).length = ks.count true
  | [], [], _ => rfl
  | true :: ks, x :: xs, h => by simp [pick, pick_length ks xs (by simpa using h)]
  | false :: ks, x :: xs, h => by simp [pick, pick_length ks xs (by simpa using h)]
  | [], _ :: _, h => by simp at h
  | _ :: _, [], h => by simp at h

theorem pick_forall₂ {α β : Type} {R : α → β → Prop} {xs : List α} {ys : List β} (h : List.Forall₂ R xs ys) :
    ∀ ks : List Bool, List.Forall₂ R (pick ks xs) (pick ks ys) := by
  induction h with
  | nil => intro ks; cases ks with
    | nil => exact .nil
    | cons b ks => cases b <;> exact .nil
  | cons h1 _ ih => intro ks; cases ks with
    | nil => exact .nil
    | cons b ks => cases b with
      | true => exact .cons h1 (ih ks)
      | false => exact ih ks

theorem Row.project_adds (H : HistDef) (kg kf : List Bool) (r : Row) (col : ℕ) :
    (r.project kg kf).adds (H.project kg kf) col = r.adds H col := by
  rfl

theorem project_lands (H : HistDef) (kg kf : List Bool) (hkg : kg.length = H.groups.length) (hkf : kf.length = H.fixed.length)
    (r : Row) (hr : r.Sound H) (gk : List Key) (idx : List ℕ) (hidx : (H.project kg kf).Cell idx) :
    (keyTest kg gk (List.zipWith GroupAxis.key H.groups r.gvals) &&
      inSome H.fixed r.fvals (keepRanges kf (H.fixed.map FixedAxis.totbins) idx)) =
    ((r.project kg kf).lands (H.project kg kf) gk idx && r.coveredOn H kg kf) := by
  have hl := hr.fixed.length_eq
  rw [inSome_keep kf H.fixed r.fvals idx hkf hl (by rw [pick_map]; exact hidx)]
  unfold keyTest Row.lands Row.coveredOn
  have h2 := inGroup_iff (H.project kg kf).groups (r.project kg kf).gvals gk (by
    show (pick kg H.groups).length = (pick kg r.gvals).length
    rw [pick_length kg _ hkg, pick_length kg _ (by rw [hkg, hr.groups])])
  have h3 : pick kg (List.zipWith GroupAxis.key H.groups r.gvals) =
    List.zipWith GroupAxis.key (H.project kg kf).groups (r.project kg kf).gvals := pick_zipWith _ kg _ _ hr.groups.symm
  rw [← h3] at h2
  rw [Bool.eq_iff_iff]
  simp only [Bool.and_eq_true, decide_eq_true_iff]
  rw [h2]
  constructor
  · rintro ⟨⟨a, b⟩, c, d⟩; exact ⟨⟨a, c⟩, b, d⟩
  · rintro ⟨⟨a, c⟩, b, d⟩; exact ⟨⟨a, b⟩, c, d⟩

/-- A histogram that was never filled. -/
theorem Represents.empty (H : HistDef) : Represents H [] none :=
  ⟨trivial, trivial, by simp, by simp, by simp [HistDef.read, binTotal]⟩

/-- Filling goes on from a content that is right. -/
theorem Represents.fill {H : HistDef} {rows : List Row} {st : H.State} (h : Represents H rows st) (bs : List (List Row))
    (hf : Fillable H bs) : ∃ st', H.fillAll st bs = .ok st' ∧ Represents H (rows ++ bs.flatten) st' := by
  obtain ⟨st', h1, h2, h3, h4⟩ := fillAll_rows H bs st h.good hf
  have hlen : ∀ r : Row, r.gvals.length = H.groups.length → ∀ gk, inGroup H.groups r.gvals gk = true → gk.length = H.groups.length := by
    intro r hr gk hgk
    have := congrArg List.length ((inGroup_iff H.groups r.gvals gk hr.symm).1 hgk)
    simp only [List.length_zipWith, List.length_map] at this
    omega
  refine ⟨st', h1, h2, fillAll_wellFormed H bs st st' h.distinct h1, ?_, ?_, ?_⟩
  · intro r hr
    rcases List.mem_append.1 hr with hr | hr
    · exact h.sound r hr
    · obtain ⟨b, hb, hr⟩ := List.mem_flatten.1 hr
      exact (hf.ok b hb r hr).sound
  · intro r hr gk hgk
    rcases List.mem_append.1 hr with hr | hr
    · rw [h3 gk (hlen r (h.sound r hr).groups gk hgk).le]
      exact Or.inl (h.groups r hr gk hgk)
    · obtain ⟨b, hb, hr⟩ := List.mem_flatten.1 hr
      have hok := hf.ok b hb r hr
      rw [h3 gk (hlen r hok.sound.groups gk hgk).le]
      right
      refine ⟨b, hb, fun i k hk => ⟨r, hr, ?_⟩⟩
      rw [(inGroup_iff H.groups r.gvals gk hok.groups.length_eq).1 hgk, List.getD_eq_getElem?_getD, List.getElem?_map, hk]
      rfl
  · intro gk hgk idx hidx col
    rw [h4 gk hgk idx hidx col, h.totals gk hgk idx hidx col, binTotal_append]

/-- What a filled histogram contains is what it should contain. -/
theorem Represents.ofFill (H : HistDef) (bs : List (List Row)) (hf : Fillable H bs) :
    ∃ st, H.fillAll none bs = .ok st ∧ Represents H bs.flatten st := by
  simpa using (Represents.empty H).fill bs hf

/-- The condition of `PowKeys` for the content of a histogram. -/
def HistDef.PowKeys (H : HistDef) (kg : List Bool) (st : H.State) : Prop :=
  match st with
  | none => True
  | some c => Verif.PowKeys H.groups.length kg c

/-- the histogram of a projection as Python objects -/
def HistDef.toPV (H : HistDef) (st : H.State) : Option PV := st.map (Verif.toPV H.groups.length)

/-- Even incomplete keys of a projection come from keys of the histogram. -/
theorem Represents.project_from {H : HistDef} {rows : List Row} {st : H.State} (h : Represents H rows st) (kg kf : List Bool)
    (hkg : kg.length = H.groups.length) (hp : H.PowKeys kg st) (pv : Option PV) (hpv : H.projectState kg kf st = .ok pv) :
    ∃ st' : (H.project kg kf).State, pv = (H.project kg kf).toPV st' ∧
      ∀ gk, (H.project kg kf).has st' gk → ∃ full, pick kg full = gk ∧ H.has st full := by
  cases st with
  | none => cases hpv; exact ⟨none, rfl, fun _ h0 => h0.elim⟩
  | some c =>
    obtain ⟨c', h1, h2⟩ := projcontent_spec H.layout (H.project kg kf).layout kf
      (by show (pick kf H.fixed).map FixedAxis.totbins = pick kf (H.fixed.map FixedAxis.totbins); rw [pick_map]) rfl
      H.groups.length kg c hkg h.distinct h.good hp (H.project kg kf).groups.length (pick_length kg _ hkg)
    simp only [HistDef.projectState, h1] at hpv
    cases hpv
    exact ⟨some c', rfl, h2.from_⟩

/-- Projections keep contents right. -/
theorem Represents.project {H : HistDef} {rows : List Row} {st : H.State} (h : Represents H rows st) (kg kf : List Bool)
    (hkg : kg.length = H.groups.length) (hkf : kf.length = H.fixed.length) (hp : H.PowKeys kg st) :
    ∃ st' : (H.project kg kf).State, H.projectState kg kf st = .ok ((H.project kg kf).toPV st') ∧
      Represents (H.project kg kf) ((rows.filter (Row.coveredOn H kg kf)).map (Row.project kg kf)) st' ∧
      ∀ gk, gk.length = (H.project kg kf).groups.length →
        ((H.project kg kf).has st' gk ↔ ∃ full, full.length = H.groups.length ∧ pick kg full = gk ∧ H.has st full) := by
  have hsound : ∀ r ∈ (rows.filter (Row.coveredOn H kg kf)).map (Row.project kg kf), r.Sound (H.project kg kf) := by
    intro r hr
    obtain ⟨r0, hr0, rfl⟩ := List.mem_map.1 hr
    have hs := h.sound r0 (List.mem_filter.1 hr0).1
    refine ⟨?_, pick_forall₂ hs.fixed kf⟩
    show (pick kg r0.gvals).length = (pick kg H.groups).length
    rw [pick_length kg _ hkg, pick_length kg _ (by rw [hkg, hs.groups])]
  have hm : (H.project kg kf).groups.length = kg.count true := pick_length kg _ hkg
  have hread : ∀ gk, gk.length = (H.project kg kf).groups.length → ∀ idx, (H.project kg kf).Cell idx → ∀ col,
      binTotal (H.project kg kf) ((rows.filter (Row.coveredOn H kg kf)).map (Row.project kg kf)) gk idx col =
      ((rows.filter (fun r => keyTest kg gk (List.zipWith GroupAxis.key H.groups r.gvals) &&
        inSome H.fixed r.fvals (keepRanges kf (H.fixed.map FixedAxis.totbins) idx))).map (fun r => r.adds H col)).sum := by
    intro gk _ idx hidx col
    unfold binTotal
    rw [List.filter_map, List.map_map, List.filter_filter]
    congr 1
    refine congrArg₂ List.map rfl (List.filter_congr fun r hr => ?_)
    rw [project_lands H kg kf hkg hkf r (h.sound r hr) gk idx hidx]
    rfl
  cases st with
  | none =>
    refine ⟨none, rfl, ⟨trivial, trivial, hsound, ?_, ?_⟩, ?_⟩
    · intro r hr gk hgk
      obtain ⟨r0, hr0, rfl⟩ := List.mem_map.1 hr
      have hr1 := List.mem_filter.1 hr0
      have hs := h.sound r0 hr1.1
      have hiff := (inGroup_iff _ _ gk (hsound _ hr).groups.symm).1 hgk
      have hkt : keyTest kg gk (List.zipWith GroupAxis.key H.groups r0.gvals) = true := by
        unfold keyTest
        rw [Bool.and_eq_true, decide_eq_true_iff, pick_zipWith _ kg _ _ hs.groups.symm]
        refine ⟨hiff, ?_⟩
        have := hr1.2
        unfold Row.coveredOn at this
        rw [Bool.and_eq_true] at this
        exact this.1
      obtain ⟨full, hf, hl⟩ := keyTest_full kg _ gk (by simp [hs.groups, hkg]) hkt
      exact h.groups r0 hr1.1 full ((inGroup_iff _ _ full hs.groups.symm).2 hf)
    · intro gk hgk idx hidx col
      rw [hread gk hgk idx hidx col]
      symm
      show _ = (0 : ℚ)
      have : rows.filter (fun r => keyTest kg gk (List.zipWith GroupAxis.key H.groups r.gvals) &&
        inSome H.fixed r.fvals (keepRanges kf (H.fixed.map FixedAxis.totbins) idx)) = [] := by
        rw [List.filter_eq_nil_iff]
        intro r hr
        rw [Bool.and_eq_true]
        rintro ⟨hkt, _⟩
        have hs := h.sound r hr
        obtain ⟨full, hf, hl⟩ := keyTest_full kg _ gk (by simp [hs.groups, hkg]) hkt
        exact h.groups r hr full ((inGroup_iff _ _ full hs.groups.symm).2 hf)
      rw [this]
      rfl
    · intro gk _
      constructor
      · intro h0; exact h0.elim
      · rintro ⟨_, _, _, h0⟩; exact h0.elim
  | some c =>
    obtain ⟨c', h1, h2⟩ := projcontent_spec H.layout (H.project kg kf).layout kf
      (by show (pick kf H.fixed).map FixedAxis.totbins = pick kf (H.fixed.map FixedAxis.totbins); rw [pick_map]) rfl
      H.groups.length kg c hkg h.distinct h.good hp (H.project kg kf).groups.length hm
    refine ⟨some c', ?_, ⟨h2.shaped, h2.distinct, hsound, ?_, ?_⟩, ?_⟩
    · simp only [HistDef.projectState, h1]
      rfl
    · intro r hr gk hgk
      obtain ⟨r0, hr0, rfl⟩ := List.mem_map.1 hr
      have hr1 := List.mem_filter.1 hr0
      have hs := h.sound r0 hr1.1
      have hiff := (inGroup_iff _ _ gk (hsound _ hr).groups.symm).1 hgk
      have hpz : pick kg (List.zipWith GroupAxis.key H.groups r0.gvals) = gk.map some := by
        rw [pick_zipWith _ kg _ _ hs.groups.symm]; exact hiff
      have hkt : keyTest kg gk (List.zipWith GroupAxis.key H.groups r0.gvals) = true := by
        unfold keyTest
        rw [Bool.and_eq_true, decide_eq_true_iff]
        refine ⟨hpz, ?_⟩
        have := hr1.2
        unfold Row.coveredOn at this
        rw [Bool.and_eq_true] at this
        exact this.1
      have hlen : gk.length = (H.project kg kf).groups.length := by
        have := congrArg List.length hiff
        simp only [List.length_zipWith, List.length_map] at this
        have h9 := (hsound _ hr).groups
        omega
      obtain ⟨full, hf, hl⟩ := keyTest_full kg _ gk (by simp [hs.groups, hkg]) hkt
      refine (h2.has gk hlen).2 ⟨full, by omega, ?_, h.groups r0 hr1.1 full ((inGroup_iff _ _ full hs.groups.symm).2 hf)⟩
      rw [hf, pick_map] at hpz
      exact List.map_injective_iff.2 (Option.some_injective _) hpz
    · intro gk hgk idx hidx col
      rw [hread gk hgk idx hidx col]
      refine (h2.value gk hgk idx col).trans ?_
      have hmar := margin_events (fun a => (a.sumAxes kf).get idx col) (fun r : Row => r.adds H col) H.groups.length kg c
        (rows.filter (fun r => inSome H.fixed r.fvals (keepRanges kf (H.fixed.map FixedAxis.totbins) idx)))
        (fun r => List.zipWith GroupAxis.key H.groups r.gvals) hkg
        (by
          intro r hr
          have := (h.sound r (List.mem_filter.1 hr).1).groups
          simp [this])
        h.distinct
        (by
          intro gk hgk
          have hlk : lookupF (fun a => (a.sumAxes kf).get idx col) H.groups.length c gk =
              lookupF (fun a => ((expand kf (H.fixed.map FixedAxis.totbins) idx).map (fun i => a.get i col)).sum) H.groups.length c gk :=
            lookupF_congr H.layout _ _ (fun a ha => by
              show ((expand kf a.shape idx).map _).sum = _
              rw [ha.1]; rfl) _ c gk h.good
          rw [hlk, lookupF_sum, expand_eq]
          have hcells : ∀ i ∈ combos (keepRanges kf (H.fixed.map FixedAxis.totbins) idx), H.Cell i := by
            rw [← expand_eq]
            exact expand_cells kf (H.fixed.map FixedAxis.totbins) idx (by simpa using hkf) (by rw [pick_map]; exact hidx)
          rw [List.map_congr_left (g := fun i => binTotal H rows gk i col) (fun i hi => by
            rw [lookupF_get]; exact h.totals gk hgk i (hcells i hi) col)]
          rw [binTotal_combos H rows h.sound gk col _ (keepRanges_nodup kf _ idx), List.filter_filter]
          congr 2
          refine List.filter_congr fun r hr => ?_
          congr 1
          rw [Bool.eq_iff_iff, decide_eq_true_iff]
          exact inGroup_iff _ _ gk (h.sound r hr).groups.symm)
        (by
          intro r hr gk hgk
          have hr' := (List.mem_filter.1 hr).1
          exact h.groups r hr' gk ((inGroup_iff _ _ gk (h.sound r hr').groups.symm).2 hgk))
        gk (by rw [hgk, hm])
      rw [hmar, List.filter_filter]
    · intro gk hgk
      exact h2.has gk hgk

end Verif
