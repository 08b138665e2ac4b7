import Verif.SpecBookCopy
import Verif.PropsBookArith
import Verif.PropsBookJson

/-!
# Lemmas on copies of books with systematics
-/

namespace Verif

variable {V : Type} {A : HistArith V} {o : List V → HistOps ℕ}

mutual
/-- The same tree with other histograms. -/
def SimT (φ : ℕ → ℕ → Prop) : BT ℕ → BT ℕ → Prop
  | .hist i, .hist j => φ i j
  | .book c _ x, .book d _ y => c = d ∧ SimL φ x y
  | _, _ => False
/-- The same for entries. -/
def SimL (φ : ℕ → ℕ → Prop) : BL ℕ → BL ℕ → Prop
  | .nil, .nil => True
  | .cons n x r, .cons m y q => n = m ∧ SimT φ x y ∧ SimL φ r q
  | _, _ => False
end

mutual
theorem SimT.mono {φ ψ : ℕ → ℕ → Prop} : ∀ (a b : BT ℕ), (∀ i ∈ a.flat, ∀ j, φ i j → ψ i j) → SimT φ a b → SimT ψ a b
  | .hist i, .hist j, h, H => h i (by simp [BT.flat]) j H
  | .book c _ x, .book d _ y, h, H => ⟨H.1, SimL.mono x y h H.2⟩
  | .hist _, .book _ _ _, _, H => by simp only [SimT] at H
  | .book _ _ _, .hist _, _, H => by simp only [SimT] at H
theorem SimL.mono {φ ψ : ℕ → ℕ → Prop} : ∀ (a b : BL ℕ), (∀ i ∈ a.flat, ∀ j, φ i j → ψ i j) → SimL φ a b → SimL ψ a b
  | .nil, .nil, _, _ => trivial
  | .cons n x r, .cons m y q, h, H => ⟨H.1, SimT.mono x y (fun i hi => h i (by rw [BL.flat]; simp [hi])) H.2.1,
      SimL.mono r q (fun i hi => h i (by rw [BL.flat]; simp [hi])) H.2.2⟩
  | .nil, .cons _ _ _, _, H => by simp only [SimL] at H
  | .cons _ _ _, .nil, _, H => by simp only [SimL] at H
end

mutual
theorem simT_refl (φ : ℕ → ℕ → Prop) : ∀ x : BT ℕ, (∀ i ∈ x.flat, φ i i) → SimT φ x x
  | .hist i, h => h i (by simp [BT.flat])
  | .book _ _ x, h => ⟨rfl, simL_refl φ x h⟩
theorem simL_refl (φ : ℕ → ℕ → Prop) : ∀ x : BL ℕ, (∀ i ∈ x.flat, φ i i) → SimL φ x x
  | .nil, _ => trivial
  | .cons _ x r, h => ⟨rfl, simT_refl φ x fun i hi => h i (by rw [BL.flat]; simp [hi]),
      simL_refl φ r fun i hi => h i (by rw [BL.flat]; simp [hi])⟩
end

theorem flat_below : ∀ {p : List Str} {b y : BT ℕ} {i : ℕ}, b.at p = some y → i ∈ y.flat → i ∈ b.flat
  | [], b, y, i, h, hi => by cases h; exact hi
  | n :: p, .hist h, y, i, h', _ => by cases h'
  | n :: p, .book c f x, y, i, h, hi => by
    rw [BT.at] at h
    cases hf : x.find n with
    | none => rw [hf] at h; cases h
    | some z =>
      rw [hf] at h
      exact flat_find hf (flat_below (b := z) h hi)

theorem SimL.keys {φ : ℕ → ℕ → Prop} : ∀ (a b : BL ℕ), SimL φ a b → a.keys = b.keys
  | .nil, .nil, _ => rfl
  | .cons n x r, .cons m y q, H => by rw [BL.keys, BL.keys, H.1, SimL.keys r q H.2.2]
  | .nil, .cons _ _ _, H => by simp only [SimL] at H
  | .cons _ _ _, .nil, H => by simp only [SimL] at H

theorem SimL.find {φ : ℕ → ℕ → Prop} (n : Str) : ∀ (a b : BL ℕ), SimL φ a b →
    (a.find n = none ∧ b.find n = none) ∨ ∃ x y, a.find n = some x ∧ b.find n = some y ∧ SimT φ x y
  | .nil, .nil, _ => .inl ⟨rfl, rfl⟩
  | .cons m x r, .cons m' y q, H => by
    obtain ⟨rfl, h1, h2⟩ := H
    rw [BL.find, BL.find]
    by_cases h : m = n
    · rw [if_pos h, if_pos h]; exact .inr ⟨x, y, rfl, rfl, h1⟩
    · rw [if_neg h, if_neg h]; exact SimL.find n r q h2
  | .nil, .cons _ _ _, H => by simp only [SimL] at H
  | .cons _ _ _, .nil, H => by simp only [SimL] at H

mutual
theorem SimT.flat {φ : ℕ → ℕ → Prop} : ∀ (a b : BT ℕ), SimT φ a b → List.Forall₂ φ a.flat b.flat
  | .hist i, .hist j, H => .cons H .nil
  | .book c _ x, .book d _ y, H => SimL.flat x y H.2
  | .hist _, .book _ _ _, H => by simp only [SimT] at H
  | .book _ _ _, .hist _, H => by simp only [SimT] at H
theorem SimL.flat {φ : ℕ → ℕ → Prop} : ∀ (a b : BL ℕ), SimL φ a b → List.Forall₂ φ a.flat b.flat
  | .nil, .nil, _ => .nil
  | .cons n x r, .cons m y q, H => by
    rw [BL.flat, BL.flat]
    exact List.rel_append (SimT.flat x y H.2.1) (SimL.flat r q H.2.2)
  | .nil, .cons _ _ _, H => by simp only [SimL] at H
  | .cons _ _ _, .nil, H => by simp only [SimL] at H
end

section
variable {φ : ℕ → ℕ → Prop} {o o' : HistOps ℕ} (hφ : ∀ i j i' j', φ i i' → φ j j' → o.compat i j = o'.compat i' j')
include hφ

mutual
theorem compatRec_sim : ∀ (a b a' b' : BT ℕ), SimT φ a a' → SimT φ b b' → compatRec o a b = compatRec o' a' b'
  | .hist i, .hist j, .hist i', .hist j', h, k => by rw [compatRec, compatRec]; exact hφ i j i' j' h k
  | .book c f x, .book d g y, .book c' f' x', .book d' g' y', h, k => by
    rw [compatRec, compatRec, compatAll_sim x y x' y' h.2 k.2, h.1, k.1, sameNames, sameNames,
      SimL.keys x x' h.2, SimL.keys y y' k.2]
  | .hist _, .book _ _ _, .hist _, .book _ _ _, _, _ => by rw [compatRec, compatRec]
  | .book _ _ _, .hist _, .book _ _ _, .hist _, _, _ => by rw [compatRec, compatRec]
  | .hist _, _, .book _ _ _, _, h, _ => by simp only [SimT] at h
  | .book _ _ _, _, .hist _, _, h, _ => by simp only [SimT] at h
  | _, .hist _, _, .book _ _ _, _, h => by simp only [SimT] at h
  | _, .book _ _ _, _, .hist _, _, h => by simp only [SimT] at h
theorem compatAll_sim : ∀ (a b a' b' : BL ℕ), SimL φ a a' → SimL φ b b' → compatAll o a b = compatAll o' a' b'
  | .nil, _, .nil, _, _, _ => by rw [compatAll, compatAll]
  | .cons n x r, b, .cons n' x' r', b', h, k => by
    obtain ⟨rfl, h1, h2⟩ := h
    rw [compatAll, compatAll, compatAll_sim r b r' b' h2 k]
    rcases SimL.find n b b' k with ⟨e1, e2⟩ | ⟨u, v, e1, e2, e3⟩
    · rw [e1, e2]
    · rw [e1, e2]
      simp only
      rw [compatRec_sim x u x' v h1 e3]
  | .nil, _, .cons _ _ _, _, h, _ => by simp only [SimL] at h
  | .cons _ _ _, _, .nil, _, h, _ => by simp only [SimL] at h
end

theorem neighbours_sim : ∀ (a a' : BL ℕ), SimL φ a a' →
    neighbours o (a.items.map (·.2)) = neighbours o' (a'.items.map (·.2))
  | .nil, .nil, _ => rfl
  | .cons _ _ .nil, .cons _ _ .nil, _ => rfl
  | .cons _ x (.cons m y r), .cons _ x' (.cons m' y' r'), h => by
    have ih := neighbours_sim (.cons m y r) (.cons m' y' r') h.2.2
    simp only [BL.items, List.map_cons, neighbours] at ih ⊢
    rw [ih, compatRec_sim hφ x y x' y' h.2.1 h.2.2.2.1]
  | .nil, .cons _ _ _, H => by simp only [SimL] at H
  | .cons _ _ _, .nil, H => by simp only [SimL] at H
  | .cons _ _ .nil, .cons _ _ (.cons _ _ _), H => by
    have := H.2.2
    simp only [SimL] at this
  | .cons _ _ (.cons _ _ _), .cons _ _ .nil, H => by
    have := H.2.2
    simp only [SimL] at this

end

/-- What a `SystematicsBook` checks. -/
def Passes (o : HistOps ℕ) (x : BL ℕ) : Prop := x.compatible o = true ∧ ∀ i ∈ x.hists, o.sys i = true

theorem passes_sim {φ : ℕ → ℕ → Prop} {o o' : HistOps ℕ}
    (hφ : ∀ i j i' j', φ i i' → φ j j' → o.compat i j = o'.compat i' j') (hs : ∀ i j, φ i j → o.sys i = o'.sys j)
    {a b : BL ℕ} (h : SimL φ a b) (ha : Passes o a) : Passes o' b := by
  refine ⟨?_, ?_⟩
  · have := ha.1
    unfold BL.compatible at this ⊢
    rw [← neighbours_sim hφ a b h]; exact this
  · have h1 := ha.2
    rw [hists_flat] at h1 ⊢
    have h2 := SimL.flat a b h
    clear ha h
    generalize a.flat = l at h1 h2
    generalize b.flat = m at h2
    induction h2 with
    | nil => simp
    | cons r _ ih =>
      simp only [List.mem_cons, forall_eq_or_imp] at h1 ⊢
      exact ⟨by rw [← hs _ _ r]; exact h1.1, ih h1.2⟩

theorem changed_passes {o : HistOps ℕ} {f : Fields ℕ} {x : BL ℕ} (h : Passes o x) :
    (BT.book .systematics f x).changed o = .ok (.book .systematics f x) := by
  rw [BT.changed, if_pos]
  rw [Bool.and_eq_true, List.all_eq_true]
  exact h

theorem passes_prefix {o : HistOps ℕ} {x y : BL ℕ} {l : List (Str × BT ℕ)} (hx : y.items = x.items ++ l)
    (h : Passes o y) : Passes o x := by
  refine ⟨?_, fun i hi => h.2 i ?_⟩
  · have := h.1
    unfold BL.compatible at this ⊢
    rw [hx, List.map_append] at this
    exact neighbours_prefix o _ _ this
  · rw [hists_flat] at hi ⊢
    rw [flat_items] at hi ⊢
    rw [hx, List.flatMap_append]
    exact List.mem_append_left _ hi

theorem setEach_passes {o : HistOps ℕ} : ∀ (items : List (Str × BT ℕ)) (f : Fields ℕ) (x y : BL ℕ),
    (∀ p ∈ items, '/' ∉ p.1) → ((x.items ++ items).map (·.1)).Nodup → y.items = x.items ++ items → Passes o y →
    ∃ b, setEach o items (.book .systematics f x) = .ok b
  | [], f, x, _, _, _, _, _ => ⟨_, rfl⟩
  | (n, v) :: r, f, x, y, hs, hn, hy, hp => by
    have hx : n ∉ x.keys := by
      rw [keys_items]
      rw [List.map_append, List.map_cons] at hn
      exact fun hm => (List.nodup_append.1 hn).2.2 _ hm _ List.mem_cons_self rfl
    have hput := put_items (v := v) hx
    have hy' : y.items = (x.put n v).items ++ r := by rw [hy, hput]; simp
    rw [setEach, BT.setitem, comps_self (hs (n, v) (by simp)), BT.setP, changed_passes (passes_prefix hy' hp)]
    exact setEach_passes r f _ y (fun p hp => hs p (by simp [hp])) (by rw [hput]; simpa using hn) hy' hp

theorem mkBook_passes {o : HistOps ℕ} {items : List (Str × BT ℕ)} {y : BL ℕ}
    (hs : ∀ p ∈ items, '/' ∉ p.1) (hn : (items.map (·.1)).Nodup) (hy : y.items = items) (hp : Passes o y) :
    ∃ b, mkBook o .systematics items = .ok b := by
  obtain ⟨b, hb⟩ := setEach_passes (o := o) items .absent .nil y hs (by simpa [BL.items] using hn)
    (by simpa [BL.items] using hy) hp
  obtain ⟨f1, x1, rfl, h1⟩ := setEach_items items (x := .nil) hs (by simpa [BL.items] using hn) hb
  refine ⟨.book .systematics f1 x1, ?_⟩
  unfold mkBook
  rw [hb]
  exact changed_passes (passes_prefix (x := x1) (y := y) (l := []) (by rw [h1, hy]; simp [BL.items]) hp)

/-- Entries as the dictionary. -/
def blOf : List (Str × BT ℕ) → BL ℕ
  | [] => .nil
  | (n, x) :: r => .cons n x (blOf r)

theorem items_blOf : ∀ l, (blOf l).items = l
  | [] => rfl
  | (n, x) :: r => by rw [blOf, BL.items, items_blOf r]

theorem blOf_items : ∀ x, blOf x.items = x
  | .nil => rfl
  | .cons n x r => by rw [BL.items, blOf, blOf_items r]

/-- The histogram `j` is the new one for `i`. -/
def NewFor (g : V → Except Err V) (s s' : List V) (i j : ℕ) : Prop :=
  ∃ u z, s[i]? = some u ∧ s'[j]? = some z ∧ g u = .ok z

theorem NewFor.mono {g : V → Except Err V} {s s1 s' s2 : List V} (h1 : s <+: s1) (h2 : s' <+: s2) {i j : ℕ}
    (h : NewFor g s s' i j) : NewFor g s1 s2 i j := by
  obtain ⟨u, z, e1, e2, e3⟩ := h
  exact ⟨u, z, prefix_some h1 e1, prefix_some h2 e2, e3⟩

theorem opsOf_compat {cv : V → V → Bool} {hv : V → Bool} {g : V → Except Err V} {s s' : List V}
    (hcv : ∀ u v y z, g u = .ok y → g v = .ok z → cv y z = cv u v) (i j i' j' : ℕ) (h : NewFor g s s' i i')
    (k : NewFor g s s' j j') : (opsOf cv hv s).compat i j = (opsOf cv hv s').compat i' j' := by
  obtain ⟨u, y, e1, e2, e3⟩ := h
  obtain ⟨v, z, d1, d2, d3⟩ := k
  simp only [opsOf, e1, e2, d1, d2, hcv u v y z e3 d3]

theorem opsOf_sys {cv : V → V → Bool} {hv : V → Bool} {g : V → Except Err V} {s s' : List V}
    (hhv : ∀ u y, g u = .ok y → hv y = hv u) (i i' : ℕ) (h : NewFor g s s' i i') :
    (opsOf cv hv s).sys i = (opsOf cv hv s').sys i' := by
  obtain ⟨u, y, e1, e2, e3⟩ := h
  simp only [opsOf, e1, e2, hhv u y e3]

/-- Older histograms are asked as before. -/
theorem passes_grow {cv : V → V → Bool} {hv : V → Bool} {s s' : List V} (h : s <+: s') {x : BL ℕ}
    (hx : ∀ i ∈ x.flat, i < s.length) (hp : Passes (opsOf cv hv s) x) : Passes (opsOf cv hv s') x := by
  have hself : SimL (fun i j => i = j ∧ i < s.length) x x := simL_refl _ x fun i hi => ⟨rfl, hx i hi⟩
  refine passes_sim (o := opsOf cv hv s) ?_ ?_ hself hp
  · rintro i j _ _ ⟨rfl, hi⟩ ⟨rfl, hj⟩
    simp only [opsOf, prefix_get h hi, prefix_get h hj]
  · rintro i _ ⟨rfl, hi⟩
    simp only [opsOf, prefix_get h hi]

section
variable {cv : V → V → Bool} {hv : V → Bool} {g : V → Except Err V}

mutual
theorem mapNew_passes_T (hcv : ∀ u v y z, g u = .ok y → g v = .ok z → cv y z = cv u v)
    (hhv : ∀ u y, g u = .ok y → hv y = hv u) (a : BT ℕ) (s : List V) (ha : a.WF)
    (hc : ∀ p f x, a.at p = some (.book .systematics f x) → Passes (opsOf cv hv s) x)
    (hk : ∀ i ∈ a.flat, ∃ u z, s[i]? = some u ∧ g u = .ok z) :
    ∃ s' r, a.mapNew (opsOf cv hv) g s = .ok (s', r) ∧ s <+: s' ∧ SimT (NewFor g s s') a r := by
  match a with
  | .hist i =>
    obtain ⟨u, z, h1, h2⟩ := hk i (by simp [BT.flat])
    exact ⟨s ++ [z], .hist s.length, by rw [BT.mapNew, h1]; simp only [h2, newHist], List.prefix_append _ _,
      ⟨u, z, h1, by simp, h2⟩⟩
  | .book c f x =>
    obtain ⟨s1, L, h1, h2, h3⟩ := mapNew_passes_L hcv hhv x s ha.1 ha.2 (fun n v hv p f' x' hp => by
        refine hc (n :: p) f' x' ?_
        rw [BT.at, hv]; exact hp) hk
    have hkeys : L.map (·.1) = x.keys := by
      rw [SimL.keys _ _ h3, keys_items, items_blOf]
    have hs : ∀ p ∈ L, '/' ∉ p.1 := by
      intro p hp
      have : p.1 ∈ x.keys := by rw [← hkeys]; exact List.mem_map.2 ⟨p, hp, rfl⟩
      obtain ⟨u, hu⟩ := (mem_keys_iff _ _).1 this
      exact (ha.2.find hu).1
    have hnd : (L.map (·.1)).Nodup := by rw [hkeys]; exact ha.1
    have hok : ∃ b, mkBook (opsOf cv hv s1) c L = .ok b := by
      by_cases hcs : c = .systematics
      · subst hcs
        refine mkBook_passes hs hnd (items_blOf L) ?_
        exact passes_sim (opsOf_compat hcv) (opsOf_sys hhv) h3 (hc [] f x rfl)
      · exact mkBook_isOk hcs hs hnd
    obtain ⟨b, hb⟩ := hok
    obtain ⟨f', z, rfl, hz⟩ := mkBook_items hs hnd hb
    refine ⟨s1, .book c f' z, by rw [BT.mapNew, h1]; simp only [fromItems, hb, made], h2, rfl, ?_⟩
    rw [← hz, blOf_items] at h3
    exact h3
theorem mapNew_passes_L (hcv : ∀ u v y z, g u = .ok y → g v = .ok z → cv y z = cv u v)
    (hhv : ∀ u y, g u = .ok y → hv y = hv u) (x : BL ℕ) (s : List V) (hn : x.keys.Nodup) (hx : x.WF)
    (hc : ∀ n v, x.find n = some v → ∀ p f y, v.at p = some (.book .systematics f y) → Passes (opsOf cv hv s) y)
    (hk : ∀ i ∈ x.flat, ∃ u z, s[i]? = some u ∧ g u = .ok z) :
    ∃ s' L, x.mapNew (opsOf cv hv) g s = .ok (s', L) ∧ s <+: s' ∧ SimL (NewFor g s s') x (blOf L) := by
  match x with
  | .nil => exact ⟨s, [], rfl, List.prefix_refl _, trivial⟩
  | .cons n x r =>
    rw [BL.keys, List.nodup_cons] at hn
    rw [BL.WF] at hx
    have hself : (BL.cons n x r).find n = some x := by rw [BL.find, if_pos rfl]
    have hother : ∀ {m v}, r.find m = some v → (BL.cons n x r).find m = some v := by
      intro m v hv
      rw [BL.find, if_neg (fun (e : n = m) => hn.1 (e ▸ (mem_keys_iff m r).2 ⟨v, hv⟩)), hv]
    have hlen : ∀ i ∈ r.flat, i < s.length := fun i hi => by
      obtain ⟨u, z, e1, -⟩ := hk i (by rw [BL.flat]; simp [hi])
      exact (List.getElem?_eq_some_iff.1 e1).1
    obtain ⟨s1, b, h1, h2, h2'⟩ := mapNew_passes_T hcv hhv x s hx.2.1 (hc n x hself)
      fun i hi => hk i (by rw [BL.flat]; simp [hi])
    obtain ⟨s2, L, h3, h4, h5⟩ := mapNew_passes_L hcv hhv r s1 hn.2 hx.2.2
      (fun m v hv p f y hp => passes_grow h2 (fun i hi => hlen i (flat_find hv (flat_below hp hi)))
        (hc m v (hother hv) p f y hp)) fun i hi => by
      obtain ⟨u, z, e1, e2⟩ := hk i (by rw [BL.flat]; simp [hi])
      exact ⟨u, z, prefix_some h2 e1, e2⟩
    refine ⟨s2, (n, b) :: L, by rw [BL.mapNew]; simp only [h1, h3, consItem], h2.trans h4, rfl, ?_, ?_⟩
    · exact SimT.mono _ _ (fun i _ j h => h.mono (List.prefix_refl s) h4) h2'
    · refine SimL.mono _ _ ?_ h5
      intro i hi j h
      obtain ⟨u, z, e1, e2, e3⟩ := h
      exact ⟨u, z, by rw [← prefix_get h2 (hlen i hi)]; exact e1, e2, e3⟩
end

theorem passes_of_changed {o : HistOps ℕ} {f : Fields ℕ} {x : BL ℕ} {b : BT ℕ}
    (h : (BT.book .systematics f x).changed o = .ok b) : Passes o x := by
  rw [BT.changed] at h
  by_cases hp : (x.compatible o && x.hists.all o.sys) = true
  · rw [Bool.and_eq_true, List.all_eq_true] at hp
    exact hp
  · rw [if_neg hp] at h; cases h

theorem passes_of_mkBook {o : HistOps ℕ} {items : List (Str × BT ℕ)} {b : BT ℕ} (hs : ∀ p ∈ items, '/' ∉ p.1)
    (hn : (items.map (·.1)).Nodup) (h : mkBook o .systematics items = .ok b) : Passes o (blOf items) := by
  unfold mkBook at h
  cases hx : setEach o items (.book .systematics .absent .nil) with
  | error e => rw [hx] at h; cases h
  | ok b1 =>
    rw [hx] at h
    obtain ⟨f1, x1, rfl, h1⟩ := setEach_items items (x := .nil) hs (by simpa [BL.items] using hn) hx
    have : x1 = blOf items := by
      rw [← blOf_items x1, h1]; simp [BL.items]
    rw [← this]
    exact passes_of_changed h

mutual
theorem simT_symm {φ : ℕ → ℕ → Prop} : ∀ (a b : BT ℕ), SimT φ a b → SimT (fun i j => φ j i) b a
  | .hist _, .hist _, h => h
  | .book _ _ x, .book _ _ y, h => ⟨h.1.symm, simL_symm x y h.2⟩
  | .hist _, .book _ _ _, h => by simp only [SimT] at h
  | .book _ _ _, .hist _, h => by simp only [SimT] at h
theorem simL_symm {φ : ℕ → ℕ → Prop} : ∀ (a b : BL ℕ), SimL φ a b → SimL (fun i j => φ j i) b a
  | .nil, .nil, _ => trivial
  | .cons _ x r, .cons _ y q, h => ⟨h.1.symm, simT_symm x y h.2.1, simL_symm r q h.2.2⟩
  | .nil, .cons _ _ _, h => by simp only [SimL] at h
  | .cons _ _ _, .nil, h => by simp only [SimL] at h
end

mutual
theorem mapNew_accepted_T (hcv : ∀ u v y z, g u = .ok y → g v = .ok z → cv y z = cv u v)
    (hhv : ∀ u y, g u = .ok y → hv y = hv u) (a : BT ℕ) (s s' : List V) (r : BT ℕ) (ha : a.WF)
    (ra : ∀ i ∈ a.flat, i < s.length) (h : a.mapNew (opsOf cv hv) g s = .ok (s', r)) :
    s <+: s' ∧ SimT (NewFor g s s') a r ∧
      ∀ p f x, a.at p = some (.book .systematics f x) → Passes (opsOf cv hv s) x := by
  match a with
  | .hist i =>
    rw [BT.mapNew] at h
    cases hi : s[i]? with
    | none => simp [hi] at h
    | some u =>
      rw [hi] at h
      obtain ⟨z, hz, rfl, rfl⟩ := newHist_ok h
      refine ⟨List.prefix_append _ _, ⟨u, z, hi, by simp, hz⟩, fun p f x hp => ?_⟩
      cases p with
      | nil => cases hp
      | cons n t => cases hp
  | .book c f x =>
    rw [BT.mapNew] at h
    cases hl : BL.mapNew (opsOf cv hv) g s x with
    | error e => rw [hl] at h; cases h
    | ok q =>
      obtain ⟨s1, L⟩ := q
      rw [hl] at h
      simp only at h
      obtain ⟨h1, h2, h3⟩ := mapNew_accepted_L hcv hhv x s s1 L ha.1 ha.2 ra hl
      have hkeys : L.map (·.1) = x.keys := by
        rw [SimL.keys _ _ h2, keys_items, items_blOf]
      have hs : ∀ p ∈ L, '/' ∉ p.1 := by
        intro p hp
        have : p.1 ∈ x.keys := by rw [← hkeys]; exact List.mem_map.2 ⟨p, hp, rfl⟩
        obtain ⟨u, hu⟩ := (mem_keys_iff _ _).1 this
        exact (ha.2.find hu).1
      have hnd : (L.map (·.1)).Nodup := by rw [hkeys]; exact ha.1
      obtain ⟨rfl, f', z, rfl, hz⟩ := fromItems_ok hs hnd h
      refine ⟨h1, ⟨rfl, by rw [← blOf_items z, hz]; exact h2⟩, fun p f2 y hp => ?_⟩
      cases p with
      | nil =>
        cases hp
        unfold fromItems at h
        simp only at h
        cases hm : mkBook (opsOf cv hv s') .systematics L with
        | error e => rw [hm] at h; cases h
        | ok b =>
          exact passes_sim (fun i j i' j' h k => (opsOf_compat hcv i' j' i j h k).symm)
            (fun i j h => (opsOf_sys hhv j i h).symm) (simL_symm _ _ h2) (passes_of_mkBook hs hnd hm)
      | cons n t =>
        rw [BT.at] at hp
        cases hf : x.find n with
        | none => rw [hf] at hp; cases hp
        | some v => rw [hf] at hp; exact h3 n v hf t f2 y hp
theorem mapNew_accepted_L (hcv : ∀ u v y z, g u = .ok y → g v = .ok z → cv y z = cv u v)
    (hhv : ∀ u y, g u = .ok y → hv y = hv u) (x : BL ℕ) (s s' : List V) (L : List (Str × BT ℕ)) (hn : x.keys.Nodup)
    (hx : x.WF) (rx : ∀ i ∈ x.flat, i < s.length) (h : x.mapNew (opsOf cv hv) g s = .ok (s', L)) :
    s <+: s' ∧ SimL (NewFor g s s') x (blOf L) ∧
      ∀ n v, x.find n = some v → ∀ p f y, v.at p = some (.book .systematics f y) → Passes (opsOf cv hv s) y := by
  match x with
  | .nil => cases h; exact ⟨List.prefix_refl _, trivial, fun n v hv => by cases hv⟩
  | .cons n x r =>
    rw [BL.mapNew] at h
    rw [BL.keys, List.nodup_cons] at hn
    rw [BL.WF] at hx
    have rx' : ∀ i ∈ x.flat, i < s.length := fun i hi => rx i (by rw [BL.flat]; simp [hi])
    have rr' : ∀ i ∈ r.flat, i < s.length := fun i hi => rx i (by rw [BL.flat]; simp [hi])
    cases ht : x.mapNew (opsOf cv hv) g s with
    | error e => rw [ht] at h; cases h
    | ok q =>
      obtain ⟨s1, b⟩ := q
      rw [ht] at h
      simp only at h
      cases hl : r.mapNew (opsOf cv hv) g s1 with
      | error e => rw [hl] at h; cases h
      | ok q =>
        obtain ⟨s2, L1⟩ := q
        rw [hl] at h
        simp only [consItem] at h
        cases h
        obtain ⟨g1, g2, g3⟩ := mapNew_accepted_T hcv hhv x s s1 b hx.2.1 rx' ht
        obtain ⟨h1, h2, h3⟩ := mapNew_accepted_L hcv hhv r s1 s' L1 hn.2 hx.2.2
          (fun i hi => lt_of_lt_of_le (rr' i hi) g1.length_le) hl
        refine ⟨g1.trans h1, ⟨rfl, SimT.mono _ _ (fun i _ j h => h.mono (List.prefix_refl s) h1) g2,
          SimL.mono _ _ ?_ h2⟩, fun m v hv p f y hp => ?_⟩
        · intro i hi j h
          obtain ⟨u, z, e1, e2, e3⟩ := h
          exact ⟨u, z, by rw [← prefix_get g1 (rr' i hi)]; exact e1, e2, e3⟩
        · rw [BL.find] at hv
          by_cases hm : n = m
          · rw [if_pos hm] at hv
            cases hv
            exact g3 p f y hp
          · rw [if_neg hm] at hv
            have hlt : ∀ i ∈ y.flat, i < s.length := fun i hi => rr' i (flat_find hv (flat_below hp hi))
            refine passes_sim (φ := fun i j => i = j ∧ i < s.length) (o := opsOf cv _ s1) ?_ ?_
              (simL_refl _ y fun i hi => ⟨rfl, hlt i hi⟩) (h3 m v hv p f y hp)
            · rintro i j _ _ ⟨rfl, hi⟩ ⟨rfl, hj⟩
              simp only [opsOf, prefix_get g1 hi, prefix_get g1 hj]
            · rintro i _ ⟨rfl, hi⟩
              simp only [opsOf, prefix_get g1 hi]
end
end

end Verif
