import Verif.PropsPandas
import Verif.VegaLegend
import Verif.PropsAxisItems

/-!
# The order of exported groups (C72, C129)

`pandas` (export.py 74-145) lists the groups by `sorted(content)` and the bins in their own order.  Here the order of the rows
is stated on the values of the keys (numbers by size, infinities at the ends, texts alphabetically) and not on the comparison
that the model sorts with.
-/

namespace Verif

/-- Specification: all ways of choosing one element of each list, the choice from the last list changing fastest. -/
def oneOfEach {α : Type} : List (List α) → List (List α)
  | [] => [[]]
  | l :: ls => l.flatMap fun x => (oneOfEach ls).map fun c => x :: c

theorem Key.below_irrefl (a : Key) : ¬ a.below a := by
  cases a <;> simp [Key.below]

/-- What sorting of keys gives, if it succeeds. -/
theorem sortKeys_below {ks ks' : List Key} (hn : ks.Nodup) (h : sortKeys ks = .ok ks') : ks'.Perm ks ∧ ks'.Pairwise Key.below := by
  unfold sortKeys at h
  split at h
  · rename_i hk
    cases h
    have hp := List.perm_insertionSort (fun a b : Key => a.leq b = true) ks
    refine ⟨hp, List.Pairwise.imp (fun h => Key.below_of_leq _ _ h.1 h.2) (pairwise_and_ne ?_ (hp.nodup_iff.2 hn))⟩
    rw [Bool.or_eq_true, List.all_eq_true, List.all_eq_true] at hk
    rcases hk with hk | hk
    · exact insertionSort_pairwise _ (fun k => k.isStr = true) (fun a b ha hb => Key.leq_total a b (ha.trans hb.symm))
        (fun a b c _ _ _ => Key.leq_trans a b c) _ hk
    · exact insertionSort_pairwise _ (fun k => k.isStr = false) (fun a b ha hb => Key.leq_total a b (ha.trans hb.symm))
        (fun a b c _ _ _ => Key.leq_trans a b c) _ (fun k hk' => by simpa using hk k hk')
  · cases h

theorem indexFixed_oneOfEach : ∀ (fs : List FixedAxis) (key : List PLabel),
    indexFixed fs key = (oneOfEach (fs.map FixedAxis.plabels)).map fun c => key ++ c
  | [], key => by simp [indexFixed, oneOfEach]
  | a :: fs, key => by
    rw [indexFixed, List.map_cons, oneOfEach, List.map_flatMap]
    refine List.flatMap_congr fun l _ => ?_
    rw [indexFixed_oneOfEach fs, List.map_map]
    refine List.map_congr_left fun c _ => ?_
    simp

/-- The dicts of a table have no key twice. -/
def TDistinct : (n : ℕ) → Content Table n → Prop
  | 0, _ => True
  | n + 1, (d : List (Key × Content Table n)) => (d.map (·.1)).Nodup ∧ ∀ k c, dget d k = some c → TDistinct n c

theorem handle_tdistinct (f : Arr → Table) : ∀ (n : ℕ) (c : Content Arr n), Distinct n c → TDistinct n (handle f n c)
  | 0, _, _ => trivial
  | n + 1, (d : List (Key × Content Arr n)), hd => by
    obtain ⟨h1, h2⟩ := hd
    have hkeys : (d.map (fun p => (p.1, handle f n p.2))).map (·.1) = d.map (·.1) := by simp [Function.comp_def]
    refine ⟨by show (List.map (fun x => x.1) (d.map (fun p => (p.1, handle f n p.2)))).Nodup; rw [hkeys]; exact h1, ?_⟩
    intro k c hc
    have hc' : dget (d.map (fun p => (p.1, handle f n p.2))) k = some c := hc
    rw [dget_map (fun _ c => handle f n c) d k] at hc'
    obtain ⟨c0, hc0, rfl⟩ := Option.map_eq_some_iff.1 hc'
    unfold dget at hc0
    obtain ⟨p, hp, e⟩ := Option.map_eq_some_iff.1 hc0
    subst e
    exact handle_tdistinct f n p.2 (h2 p (List.mem_of_find?_eq_some hp))

theorem indexLoop_inv {α β : Type} (f : α → Except Err (List β × List (List (Option ℚ)))) : ∀ (l : List α) (r : List β × List (List (Option ℚ))),
    indexLoop f l = .ok r → ∃ A : List (List β), List.Forall₂ (fun x a => ∃ b, f x = .ok (a, b)) l A ∧ r.1 = A.flatten
  | [], r, h => by
    cases h
    exact ⟨[], List.Forall₂.nil, rfl⟩
  | x :: l, r, h => by
    unfold indexLoop at h
    split at h
    · cases h
    · cases h
    · rename_i r1 s1 h1 h2
      cases h
      obtain ⟨A, hA, e⟩ := indexLoop_inv f l s1 h2
      exact ⟨r1.1 :: A, List.Forall₂.cons ⟨r1.2, h1⟩ hA, by simp [e]⟩

theorem lexRows (fs : List FixedAxis) (g : GroupAxis) (gs : List GroupAxis) (key : List PLabel) :
    ∀ (ks : List Key) (A : List (List (List PLabel))), ks.Pairwise Key.below →
      List.Forall₂ (fun k a => ∃ gks : List (List Key), gks.Pairwise (List.Lex Key.below) ∧ (∀ gk ∈ gks, gk.length = gs.length) ∧
        a = gks.flatMap fun gk => (oneOfEach (fs.map FixedAxis.plabels)).map fun c => key ++ [g.plabel k] ++ List.zipWith GroupAxis.plabel gs gk ++ c) ks A →
      ∃ gks : List (List Key), gks.Pairwise (List.Lex Key.below) ∧ (∀ gk ∈ gks, gk.length = gs.length + 1 ∧ ∃ k ∈ ks, gk.head? = some k) ∧
        A.flatten = gks.flatMap fun gk => (oneOfEach (fs.map FixedAxis.plabels)).map fun c => key ++ List.zipWith GroupAxis.plabel (g :: gs) gk ++ c
  | [], _, _, h => by
    cases h
    exact ⟨[], List.Pairwise.nil, by simp, rfl⟩
  | k :: ks, _, hp, h => by
    cases h with
    | @cons _ a _ A h1 h2 =>
    rw [List.pairwise_cons] at hp
    obtain ⟨gks, e1, e2, e3⟩ := h1
    obtain ⟨gks', f1, f2, f3⟩ := lexRows fs g gs key ks A hp.2 h2
    refine ⟨gks.map (fun gk => k :: gk) ++ gks', ?_, ?_, ?_⟩
    · rw [List.pairwise_append, List.pairwise_map]
      refine ⟨e1.imp fun h => List.Lex.cons h, f1, ?_⟩
      intro x hx y hy
      obtain ⟨gk, _, rfl⟩ := List.mem_map.1 hx
      obtain ⟨_, k', hk', hh⟩ := f2 y hy
      cases y with
      | nil => simp at hh
      | cons y0 y =>
        simp only [List.head?_cons, Option.some.injEq] at hh
        subst hh
        exact List.Lex.rel (hp.1 _ hk')
    · intro gk hgk
      rcases List.mem_append.1 hgk with h | h
      · obtain ⟨gk0, h0, rfl⟩ := List.mem_map.1 h
        exact ⟨by simp [e2 _ h0], k, by simp, rfl⟩
      · obtain ⟨a1, k', a2, a3⟩ := f2 gk h
        exact ⟨a1, k', by simp [a2], a3⟩
    · rw [List.flatten_cons, List.flatMap_append, ← f3, e3, List.flatMap_map]
      congr 1
      refine List.flatMap_congr fun gk _ => List.map_congr_left fun c _ => ?_
      simp

theorem indexGroups_order (fs : List FixedAxis) (m : ℕ) : ∀ (gs : List GroupAxis) (t : Content Table gs.length) (key : List PLabel)
    (r : List (List PLabel) × List (List (Option ℚ))), TDistinct gs.length t → indexGroups fs m gs t key = .ok r →
    ∃ gks : List (List Key), gks.Pairwise (List.Lex Key.below) ∧ (∀ gk ∈ gks, gk.length = gs.length) ∧
      r.1 = gks.flatMap fun gk => (oneOfEach (fs.map FixedAxis.plabels)).map fun c => key ++ List.zipWith GroupAxis.plabel gs gk ++ c
  | [], (t : Table), key, r, _, h => by
    rw [indexGroups_nil] at h
    cases h
    refine ⟨[[]], List.pairwise_singleton _ _, by simp, ?_⟩
    simp [indexFixed_oneOfEach]
  | g :: gs, (d : List (Key × Content Table gs.length)), key, r, hd, h => by
    obtain ⟨h1, h2⟩ := hd
    rw [indexGroups_cons] at h
    split at h
    · cases h
    · rename_i ks hks
      obtain ⟨_, hpw⟩ := sortKeys_below h1 hks
      obtain ⟨A, hA, e⟩ := indexLoop_inv _ ks r h
      obtain ⟨gks, f1, f2, f3⟩ := lexRows fs g gs key ks A hpw (hA.imp fun k a hka => by
        obtain ⟨b, hb⟩ := hka
        split at hb
        · cases hb
        · rename_i c hc
          exact indexGroups_order fs m gs c _ _ (h2 k c hc) hb)
      exact ⟨gks, f1, fun gk hgk => (f2 gk hgk).1, e.trans f3⟩

/-- **C72**, the order of the rows of every exported table, normalized or not: the groups come in the strict order of the values of their keys,
axis by axis (so that no group comes twice), and within a group the bins come in the order of the axes' own bins, the last axis fastest. -/
theorem C72_order (H : HistDef) (o : TableOpts) (st : H.State) (hst : H.DistinctKeys st) (F : PFrame) (h : H.pandas o st = .ok F) :
    ∃ gks : List (List Key), gks.Pairwise (List.Lex Key.below) ∧ (∀ gk ∈ gks, gk.length = H.groups.length) ∧
      F.labels = gks.flatMap fun gk => (oneOfEach (H.fixed.map FixedAxis.plabels)).map fun c => List.zipWith GroupAxis.plabel H.groups gk ++ c := by
  unfold HistDef.pandas at h
  split at h
  · split at h
    · cases h
    · rename_i t ht
      split at h
      · cases h
      · rename_i r hr
        have hd : TDistinct H.groups.length t := by
          unfold HistDef.table HistDef.tableWith at ht
          split at ht
          · cases ht
          · split at ht
            · cases ht
            · cases ht
              refine handle_tdistinct _ _ _ ?_
              cases st with
              | none => exact distinct_empty _ _
              | some c => exact hst
        obtain ⟨gks, e1, e2, e3⟩ := indexGroups_order _ _ _ t [] r hd hr
        refine ⟨gks, e1, e2, ?_⟩
        have hF : F.labels = r.1 := by
          unfold mkFrame at h
          split at h
          · cases h
          · split at h
            · cases h; rfl
            · split at h
              · cases h; rfl
              · cases h
        rw [hF, e3]
        simp
  · cases h

/-- **C129**, the order of groups, on the values of the keys: the groups that an axis lists are in strictly increasing order, each with its content. -/
theorem C129_group_order {α : Type} (g : GroupAxis) (d : List (Key × α)) (hd : (d.map (·.1)).Nodup) (l : List (ILabel × α))
    (h : g.items d = .ok l) : ∃ ks : List Key, ks.Perm (d.map (·.1)) ∧ ks.Pairwise Key.below ∧
      List.Forall₂ (fun k p => (k, p.2) ∈ d) ks l := by
  have hG := C129_group g d hd
  by_cases hc : (∀ k ∈ d.map (·.1), k.isStr = false) ∨ g = .groupby ∧ (∀ k ∈ d.map (·.1), k.isStr = true)
  · obtain ⟨ks, l', e1, _, e3, e4, e5⟩ := hG.1 hc
    rw [h] at e1
    cases e1
    exact ⟨ks, e3, e4, e5.imp fun _ _ h => h.1⟩
  · rw [not_or] at hc
    have := (hG.2 hc.1 hc.2).1
    rw [h] at this
    cases this

/-- The rows of two groups and two bins: groups by size although filled in another order, then the bins. -/
example : exPandas ⟨[.groupbin ⟨1, 0, true, true⟩], [.cut], 0, .none⟩
      [[⟨[.num (.fin 3)], [.bool true], [], none⟩, ⟨[.num (.fin (-3/2))], [.bool true], [], none⟩]] {error := false} =
    .ok ⟨[[.iv (.fin (-2)) (.fin (-1)) true, .bool false], [.iv (.fin (-2)) (.fin (-1)) true, .bool true],
        [.iv (.fin 3) (.fin 4) true, .bool false], [.iv (.fin 3) (.fin 4) true, .bool true]],
      some [[some 0], [some 1], [some 0], [some 1]]⟩ := by decide +kernel

/-- The hypotheses of `C129_group_order` are met: three groups that came in another order. -/
example : ((([(.num 3, 1), (.ninf, 2), (.num (-2), 3)] : List (Key × ℕ)).map (·.1)).Nodup) ∧
    GroupAxis.groupby.items [(.num 3, 1), (.ninf, 2), (.num (-2), (3 : ℕ))] =
      .ok [(.key .ninf, 2), (.key (.num (-2)), 3), (.key (.num 3), 1)] := by decide +kernel

end Verif
