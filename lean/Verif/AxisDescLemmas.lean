import Verif.SpecAxisDesc
import Verif.AxisLemmas
import Mathlib.Data.List.Dedup

/-!
# Lemmas on axis descriptions
-/

namespace Verif

theorem Num.eq_iff {a b : Num} : Num.eq a b = true ↔ a ≠ .nan ∧ a = b := by
  unfold Num.eq
  cases a <;> simp [Num.isnan]

theorem numsEq_iff : ∀ (l m : List Num), numsEq l m = true ↔ Num.nan ∉ l ∧ l = m
  | [], [] => by simp [numsEq]
  | [], _ :: _ => by simp [numsEq]
  | _ :: _, [] => by simp [numsEq]
  | a :: l, b :: m => by
    simp only [numsEq, Bool.and_eq_true, Num.eq_iff, numsEq_iff l m, List.mem_cons, List.cons.injEq, not_or]
    constructor
    · rintro ⟨⟨h1, h2⟩, h3, h4⟩; exact ⟨⟨fun h => h1 h.symm, h3⟩, h2, h4⟩
    · rintro ⟨⟨h1, h3⟩, h2, h4⟩; exact ⟨⟨fun h => h1 h.symm, h2⟩, h3, h4⟩

theorem Num.le_total' {a b : Num} (ha : a ≠ .nan) (hb : b ≠ .nan) : Num.le a b = true ∨ Num.le b a = true := by
  cases a <;> cases b <;> simp_all [Num.le]
  exact _root_.le_total _ _

theorem Num.le_trans' {a b c : Num} (h1 : Num.le a b = true) (h2 : Num.le b c = true) : Num.le a c = true := by
  cases a <;> cases b <;> cases c <;> simp_all [Num.le]
  exact _root_.le_trans h1 h2

/-- The order of numbers. -/
abbrev NLe (a b : Num) : Prop := Num.le a b = true

theorem mem_orderedInsert' (a x : Num) : ∀ l : List Num, x ∈ l.orderedInsert NLe a ↔ x = a ∨ x ∈ l := by
  intro l
  simp [List.mem_orderedInsert]

theorem orderedInsert_sorted {a : Num} (ha : a ≠ .nan) : ∀ {l : List Num}, Num.nan ∉ l → l.Pairwise NLe →
    (l.orderedInsert NLe a).Pairwise NLe
  | [], _, _ => by simp
  | b :: l, hn, h => by
    simp only [List.mem_cons, not_or] at hn
    rw [List.pairwise_cons] at h
    by_cases hab : NLe a b
    · rw [List.orderedInsert_cons_of_le _ _ hab]
      refine List.pairwise_cons.mpr ⟨?_, List.pairwise_cons.mpr h⟩
      intro x hx
      rcases List.mem_cons.mp hx with rfl | hx
      · exact hab
      · exact Num.le_trans' hab (h.1 x hx)
    · rw [List.orderedInsert_of_not_le _ _ hab]
      refine List.pairwise_cons.mpr ⟨?_, orderedInsert_sorted ha hn.2 h.2⟩
      intro x hx
      rcases (mem_orderedInsert' a x l).mp hx with rfl | hx
      · exact (Num.le_total' ha (fun h => hn.1 h.symm)).resolve_left hab
      · exact h.1 x hx

theorem insertionSort_sorted : ∀ {l : List Num}, Num.nan ∉ l → (l.insertionSort NLe).Pairwise NLe
  | [], _ => by simp
  | a :: l, h => by
    simp only [List.mem_cons, not_or] at h
    rw [List.insertionSort_cons]
    refine orderedInsert_sorted (fun e => h.1 e.symm) ?_ (insertionSort_sorted h.2)
    intro hm
    exact h.2 ((List.perm_insertionSort NLe l).mem_iff.mp hm)

theorem insertionSort_id : ∀ {l : List Num}, l.Pairwise NLe → l.insertionSort NLe = l
  | [], _ => by simp
  | a :: l, h => by
    rw [List.pairwise_cons] at h
    rw [List.insertionSort_cons, insertionSort_id h.2]
    cases l with
    | nil => simp
    | cons b l => rw [List.orderedInsert_cons_of_le _ _ (h.1 b (by simp))]

theorem mapE_realOf : ∀ l : List Num, mapE realOf (l.map J.float) = .ok l
  | [] => rfl
  | a :: l => by
    have := mapE_realOf l
    simp only [List.map_cons, mapE, this]
    rfl

theorem edgesOf_floats {l : List Num} (hl : l ≠ []) (hs : l.Pairwise NLe) :
    edgesOf (.list (l.map .float)) = .ok l := by
  have : ¬ (l.map J.float).length < 1 := by
    cases l with
    | nil => exact absurd rfl hl
    | cons a l => simp
  rw [edgesOf, if_neg this, mapE_realOf]
  change Except.ok (l.insertionSort NLe) = _
  rw [insertionSort_id hs]

/-- What the constructors guarantee. -/
def AxisX.Valid : AxisX → Prop
  | .groupbin _ w _ _ _ => ¬ Num.le w (.fin 0) = true
  | .bin _ k lo hi u o n _ =>
    ¬ ((0 < k ∧ Num.le hi lo = true) ∨ Num.lt hi lo = true) ∧ k + b2n u + b2n o + b2n n ≠ 0
  | .intbin _ lo hi _ _ => ¬ hi < lo
  | .split _ es u o n _ =>
    es ≠ [] ∧ (Num.nan ∉ es → es.Pairwise NLe) ∧ es.Nodup ∧ (es.length - 1) + b2n u + b2n o + b2n n ≠ 0
  | .null => False
  | _ => True

theorem edgesOf_ok {j : J} {es : List Num} (h : edgesOf j = .ok es) :
    es ≠ [] ∧ (Num.nan ∉ es → es.Pairwise NLe) := by
  unfold edgesOf at h
  split at h
  · rename_i l
    split at h
    · cases h
    · rename_i hl
      cases hm : mapE realOf l with
      | error e => rw [hm] at h; cases h
      | ok m =>
        rw [hm] at h
        cases h
        have hp := List.perm_insertionSort NLe m
        have hlen : m.length = l.length := by
          clear hl
          induction l generalizing m with
          | nil => cases hm; rfl
          | cons a l ih =>
            rw [mapE] at hm
            cases ha : realOf a with
            | error e => rw [ha] at hm; cases hm
            | ok v =>
              rw [ha] at hm
              cases hr : mapE realOf l with
              | error e => rw [hr] at hm; cases hm
              | ok r =>
                rw [hr] at hm
                cases hm
                simp [ih r hr (List.perm_insertionSort NLe r)]
        constructor
        · intro h0
          have := hp.length_eq
          change m.insertionSort NLe = [] at h0
          rw [h0] at this
          simp at this; omega
        · intro hn
          exact insertionSort_sorted fun hm' => hn (hp.mem_iff.mpr hm')
  · cases hm : realOf j with
    | error e => rw [hm] at h; cases h
    | ok v => rw [hm] at h; cases h; simp

theorem mkBin_ok {e : String} {k lo hi u o n c : J} {a : AxisX} (h : mkBin e k lo hi u o n c = .ok a) : a.Valid := by
  unfold mkBin at h
  cases hk : natOf k with
  | error _ => rw [hk] at h; cases h
  | ok k' =>
  cases hlo : realOf lo with
  | error _ => rw [hk, hlo] at h; cases h
  | ok lo' =>
  cases hhi : realOf hi with
  | error _ => rw [hk, hlo, hhi] at h; cases h
  | ok hi' =>
  rw [hk, hlo, hhi] at h
  change (if _ then _ else _) = _ at h
  split at h
  · cases h
  rename_i hc
  cases hu : boolOf u with
  | error _ => rw [hu] at h; cases h
  | ok u' =>
  cases ho : boolOf o with
  | error _ => rw [hu, ho] at h; cases h
  | ok o' =>
  cases hn : boolOf n with
  | error _ => rw [hu, ho, hn] at h; cases h
  | ok n' =>
  cases hcl : boolOf c with
  | error _ => rw [hu, ho, hn, hcl] at h; cases h
  | ok c' =>
  rw [hu, ho, hn, hcl] at h
  change (if _ then _ else _) = _ at h
  split at h
  · cases h
  rename_i ht
  cases h
  exact ⟨hc, ht⟩

theorem mkSplit_ok {e : String} {es u o n c : J} {a : AxisX} (h : mkSplit e es u o n c = .ok a) : a.Valid := by
  unfold mkSplit at h
  cases hes : edgesOf es with
  | error _ => rw [hes] at h; cases h
  | ok es' =>
  rw [hes] at h
  change (if _ then _ else _) = _ at h
  split at h
  · cases h
  rename_i hc
  cases hu : boolOf u with
  | error _ => rw [hu] at h; cases h
  | ok u' =>
  cases ho : boolOf o with
  | error _ => rw [hu, ho] at h; cases h
  | ok o' =>
  cases hn : boolOf n with
  | error _ => rw [hu, ho, hn] at h; cases h
  | ok n' =>
  cases hcl : boolOf c with
  | error _ => rw [hu, ho, hn, hcl] at h; cases h
  | ok c' =>
  rw [hu, ho, hn, hcl] at h
  change (if _ then _ else _) = _ at h
  split at h
  · cases h
  rename_i ht
  cases h
  have he := edgesOf_ok hes
  refine ⟨he.1, he.2, ?_, ht⟩
  have hd : es'.dedup = es' := (List.dedup_sublist es').eq_of_length (not_not.mp hc)
  rw [← hd]
  exact List.nodup_dedup es'

theorem made_valid {a : AxisX} (h : Made a) : a.Valid := by
  obtain ⟨cls, e, args, h⟩ := h
  unfold AxCls.call at h
  split at h
  · cases h; trivial
  · unfold mkGroupbin at h
    rename_i w o n c
    cases hw : realOf w with
    | error _ => rw [hw] at h; cases h
    | ok w' =>
    rw [hw] at h
    change (if _ then _ else _) = _ at h
    split at h
    · cases h
    rename_i hc
    cases ho : realOf o with
    | error _ => rw [ho] at h; cases h
    | ok o' =>
    cases hn : boolOf n with
    | error _ => rw [ho, hn] at h; cases h
    | ok n' =>
    cases hcl : boolOf c with
    | error _ => rw [ho, hn, hcl] at h; cases h
    | ok c' =>
    rw [ho, hn, hcl] at h
    cases h
    exact hc
  · exact mkBin_ok h
  · unfold mkIntbin at h
    rename_i lo hi u o
    cases hlo : intOf lo with
    | error _ => rw [hlo] at h; cases h
    | ok lo' =>
    cases hhi : intOf hi with
    | error _ => rw [hlo, hhi] at h; cases h
    | ok hi' =>
    cases hu : boolOf u with
    | error _ => rw [hlo, hhi, hu] at h; cases h
    | ok u' =>
    cases ho : boolOf o with
    | error _ => rw [hlo, hhi, hu, ho] at h; cases h
    | ok o' =>
    rw [hlo, hhi, hu, ho] at h
    change (if _ then _ else _) = _ at h
    split at h
    · cases h
    rename_i hc
    cases h
    exact hc
  · exact mkSplit_ok h
  · cases h; trivial
  · cases h; trivial
  · cases h

/-! ## Making a valid axis again -/

theorem mkGroupbin_again {e : String} {w o : Num} {n c : Bool} (h : ¬ Num.le w (.fin 0) = true) :
    mkGroupbin e (.float w) (.float o) (.bool n) (.bool c) = .ok (.groupbin e w o n c) := by
  unfold mkGroupbin
  change (if _ then _ else _) = _
  rw [if_neg h]
  rfl

theorem mkBin_again {e : String} {k : ℕ} {lo hi : Num} {u o n c : Bool}
    (h : ¬ ((0 < k ∧ Num.le hi lo = true) ∨ Num.lt hi lo = true)) (ht : k + b2n u + b2n o + b2n n ≠ 0) :
    mkBin e (.int k) (.float lo) (.float hi) (.bool u) (.bool o) (.bool n) (.bool c)
      = .ok (.bin e k lo hi u o n c) := by
  unfold mkBin
  have hk : natOf (.int (k : ℤ)) = .ok k := by
    rw [natOf, if_neg (by omega)]; simp
  rw [hk]
  change (if _ then _ else _) = _
  rw [if_neg h]
  change (if _ then _ else _) = _
  rw [if_neg ht]

theorem mkIntbin_again {e : String} {lo hi : ℤ} {u o : Bool} (h : ¬ hi < lo) :
    mkIntbin e (.int lo) (.int hi) (.bool u) (.bool o) = .ok (.intbin e lo hi u o) := by
  unfold mkIntbin
  change (if _ then _ else _) = _
  rw [if_neg h]

theorem mkSplit_again {e : String} {es : List Num} {u o n c : Bool} (h0 : es ≠ []) (hs : es.Pairwise NLe)
    (hn : es.Nodup) (ht : (es.length - 1) + b2n u + b2n o + b2n n ≠ 0) :
    mkSplit e (.list (es.map .float)) (.bool u) (.bool o) (.bool n) (.bool c) = .ok (.split e es u o n c) := by
  unfold mkSplit
  rw [edgesOf_floats h0 hs]
  change (if _ then _ else _) = _
  rw [if_neg (by simp [hn.dedup])]
  change (if _ then _ else _) = _
  rw [if_neg ht]

theorem label_binning {a b : AxisX} (h1 : a.label = b.label) (h2 : a.binning = b.binning) : a = b := by
  cases a <;> cases b <;> simp_all [AxisX.label, AxisX.binning]

theorem eq_iff_noNaN {a b : AxisX} : a.eq b = true ↔ a.noNaN ∧ a = b := by
  cases a <;> cases b <;>
    simp [AxisX.eq, AxisX.noNaN, AxisX.numbers, Num.eq_iff, numsEq_iff] <;> (try tauto)

end Verif
