import Verif.Heap
import Verif.ArithLemmas
import Mathlib.Data.Set.Basic

/-!
# Lemmas about the heap (helpers for the property theorems)

Every object gets a label, the group keys that lead to it, and a set of owners.  An entry of a dict has
the label of the dict with its key in front, and its owners are among those of the dict.
-/

namespace Verif

/-- label and owners of the addresses -/
abbrev Marks := ℕ → List Key × Set ℕ

structure HeapOk (N : ℕ) (m : Marks) (h : Heap) : Prop where
  free : ∀ a, h.next ≤ a → h.get a = none
  used : ∀ a, a < h.next → h.get a ≠ none
  arr : ∀ a x, h.get a = some (.arr x) → (m a).1.length = N
  dict : ∀ a d, h.get a = some (.dict d) → (m a).1.length < N ∧ (d.map (·.1)).Nodup ∧
    ∀ p ∈ d, p.2 < h.next ∧ (m p.2).1 = p.1 :: (m a).1 ∧ (m p.2).2 ⊆ (m a).2
  owned : ∀ a, a < h.next → (m a).2.Nonempty

/-- The second heap is a later one, in which only old objects with the property `W` were changed. -/
structure Grows (N : ℕ) (W : ℕ → Prop) (m : Marks) (h : Heap) (m' : Marks) (h' : Heap) : Prop where
  ok : HeapOk N m' h'
  le : h.next ≤ h'.next
  marks : ∀ a, a < h.next → m' a = m a
  frame : ∀ a, a < h.next → ¬ W a → h'.get a = h.get a

theorem Grows.refl {N : ℕ} {W : ℕ → Prop} {m : Marks} {h : Heap} (ok : HeapOk N m h) : Grows N W m h m h :=
  ⟨ok, le_refl _, fun _ _ => rfl, fun _ _ _ => rfl⟩

theorem Grows.trans {N : ℕ} {W W' : ℕ → Prop} {m m' m'' : Marks} {h h' h'' : Heap} (g : Grows N W m h m' h')
    (g' : Grows N W' m' h' m'' h'') (hw : ∀ a, a < h.next → W' a → W a) : Grows N W m h m'' h'' :=
  ⟨g'.ok, le_trans g.le g'.le, fun a ha => by rw [g'.marks a (lt_of_lt_of_le ha g.le), g.marks a ha],
    fun a ha hn => by rw [g'.frame a (lt_of_lt_of_le ha g.le) (fun h => hn (hw a ha h)), g.frame a ha hn]⟩

theorem Grows.mono {N : ℕ} {W W' : ℕ → Prop} {m m' : Marks} {h h' : Heap} (g : Grows N W m h m' h')
    (hw : ∀ a, a < h.next → W a → W' a) : Grows N W' m h m' h' :=
  ⟨g.ok, g.le, g.marks, fun a ha hn => g.frame a ha (fun h => hn (hw a ha h))⟩

theorem deref_dict {h : Heap} {n a : ℕ} {d : List (Key × ℕ)} (hg : h.get a = some (.dict d)) :
    deref h (n + 1) a = derefDict (deref h n) d := by
  simp only [deref, hg]
  rfl

theorem deref_arr {h : Heap} {a : ℕ} {x : Arr} (hg : h.get a = some (.arr x)) : deref h 0 a = some x := by
  simp only [deref, hg]
  rfl

theorem deref_dict_inv {h : Heap} {n a : ℕ} {c : Content Arr (n + 1)} (hc : deref h (n + 1) a = some c) :
    ∃ d, h.get a = some (.dict d) ∧ derefDict (deref h n) d = some c := by
  cases hg : h.get a with
  | none => simp only [deref, hg] at hc; cases hc
  | some o =>
    cases o with
    | arr x => simp only [deref, hg] at hc; cases hc
    | dict d => exact ⟨d, rfl, by rw [← hc]; exact (deref_dict hg).symm⟩

theorem deref_arr_inv {h : Heap} {a : ℕ} {c : Arr} (hc : deref h 0 a = some c) : h.get a = some (.arr c) := by
  cases hg : h.get a with
  | none => simp only [deref, hg] at hc; cases hc
  | some o =>
    cases o with
    | arr x => simp only [deref, hg] at hc; cases hc; rfl
    | dict d => simp only [deref, hg] at hc; cases hc

theorem derefDict_congr {β : Type} (f g : ℕ → Option β) : ∀ d : List (Key × ℕ), (∀ p ∈ d, f p.2 = g p.2) →
    derefDict f d = derefDict g d
  | [], _ => rfl
  | (k, a) :: d, h => by
    simp only [derefDict]
    rw [h (k, a) (by simp), derefDict_congr f g d (fun p hp => h p (by simp [hp]))]

/-- The value of a content depends only on the objects below it. -/
theorem deref_frame {N : ℕ} {m : Marks} {h h' : Heap} (ok : HeapOk N m h) : ∀ (n a : ℕ), a < h.next →
    (∀ x, x < h.next → (m a).1 <:+ (m x).1 → (m x).2 ⊆ (m a).2 → h'.get x = h.get x) →
    deref h' n a = deref h n a
  | 0, a, ha, hf => by
    simp only [deref]
    rw [hf a ha (List.suffix_refl _) subset_rfl]
  | n + 1, a, ha, hf => by
    have hga := hf a ha (List.suffix_refl _) subset_rfl
    cases hg : h.get a with
    | none => rw [hg] at hga; simp only [deref, hg, hga]
    | some o =>
      rw [hg] at hga
      cases o with
      | arr x => simp only [deref, hg, hga]
      | dict d =>
        rw [deref_dict hg, deref_dict hga]
        apply derefDict_congr
        intro p hp
        obtain ⟨_, _, hc⟩ := ok.dict a d hg
        obtain ⟨h1, h2⟩ := hc p hp
        apply deref_frame ok n p.2 h1
        intro x hx hs hcol
        apply hf x hx
        · rw [h2.1] at hs
          exact (List.suffix_cons _ _).trans hs
        · exact hcol.trans h2.2

theorem Grows.deref {N : ℕ} {W : ℕ → Prop} {m m' : Marks} {h h' : Heap} (ok : HeapOk N m h) (g : Grows N W m h m' h')
    (n a : ℕ) (ha : a < h.next) (hw : ∀ x, x < h.next → (m a).1 <:+ (m x).1 → (m x).2 ⊆ (m a).2 → ¬ W x) :
    deref h' n a = deref h n a :=
  deref_frame ok n a ha (fun x hx h1 h2 => g.frame x hx (hw x hx h1 h2))

/-- Objects of the right depth can be read. -/
theorem deref_isSome {N : ℕ} {m : Marks} {h : Heap} (ok : HeapOk N m h) : ∀ (n a : ℕ), a < h.next →
    (m a).1.length + n = N → ∃ c, deref h n a = some c ∧ Distinct n c
  | 0, a, ha, hl => by
    simp only [deref]
    cases hg : h.get a with
    | none => exact absurd hg (ok.used a ha)
    | some o =>
      cases o with
      | arr x => exact ⟨x, rfl, trivial⟩
      | dict d => have := (ok.dict a d hg).1; omega
  | n + 1, a, ha, hl => by
    simp only [deref]
    cases hg : h.get a with
    | none => exact absurd hg (ok.used a ha)
    | some o =>
      cases o with
      | arr x => have := ok.arr a x hg; omega
      | dict d =>
        obtain ⟨_, hn, hc⟩ := ok.dict a d hg
        have key : ∀ d : List (Key × ℕ), (∀ p ∈ d, p.2 < h.next ∧ (m p.2).1 = p.1 :: (m a).1 ∧ (m p.2).2 ⊆ (m a).2) →
            ∃ c, derefDict (Verif.deref h n) d = some c ∧ c.map (·.1) = d.map (·.1) ∧ ∀ p ∈ c, Distinct n p.2 := by
          intro d
          induction d with
          | nil => intro _; exact ⟨[], rfl, rfl, by simp⟩
          | cons p d ih =>
            intro hc
            obtain ⟨c, h1, h2, h3⟩ := ih (fun q hq => hc q (by simp [hq]))
            obtain ⟨k, b⟩ := p
            obtain ⟨hb1, hb2⟩ := hc (k, b) (by simp)
            obtain ⟨x, hx, hxd⟩ := deref_isSome ok n b hb1 (by
              simp only at hb2; rw [hb2.1]; simp only [List.length_cons]; omega)
            refine ⟨(k, x) :: c, ?_, by simp [h2], ?_⟩
            · simp only [derefDict, hx, h1]
            · intro q hq
              rcases List.mem_cons.1 hq with rfl | hq
              · exact hxd
              · exact h3 q hq
        obtain ⟨c, h1, h2, h3⟩ := key d hc
        refine ⟨c, h1, ?_, h3⟩
        show (c.map (·.1)).Nodup
        rw [h2]; exact hn

theorem HeapOk.not_arr {N : ℕ} {m : Marks} {h : Heap} (ok : HeapOk N m h) {a : ℕ} (ha : a < h.next)
    (hl : (m a).1.length < N) : ∃ d, h.get a = some (.dict d) := by
  cases hg : h.get a with
  | none => exact absurd hg (ok.used a ha)
  | some o =>
    cases o with
    | arr x => have := ok.arr a x hg; omega
    | dict d => exact ⟨d, rfl⟩

/-! ## making new objects -/

/-- A new object. -/
theorem alloc_spec {N : ℕ} {m : Marks} {h : Heap} (ok : HeapOk N m h) (o : Obj) (l : List Key) (b : Set ℕ)
    (hb : b.Nonempty) (ha : ∀ x, o = .arr x → l.length = N)
    (hd : ∀ d, o = .dict d → l.length < N ∧ (d.map (·.1)).Nodup ∧
      ∀ p ∈ d, p.2 < h.next ∧ (m p.2).1 = p.1 :: l ∧ (m p.2).2 ⊆ b) :
    ∃ m', Grows N (fun _ => False) m h m' (h.alloc o).1 ∧ (h.alloc o).2 = h.next ∧ m' h.next = (l, b) ∧
      (h.alloc o).1.next = h.next + 1 ∧ (h.alloc o).1.get h.next = some o := by
  refine ⟨fun a => if a = h.next then (l, b) else m a, ⟨⟨?_, ?_, ?_, ?_, ?_⟩, ?_, ?_, ?_⟩, rfl, by simp, rfl, by simp [Heap.alloc]⟩
  · intro a h1
    simp only [Heap.alloc] at h1 ⊢
    rw [if_neg (by omega)]
    exact ok.free a (by omega)
  · intro a h1
    simp only [Heap.alloc] at h1 ⊢
    split
    · simp
    · exact ok.used a (by omega)
  · intro a x h1
    simp only [Heap.alloc] at h1 ⊢
    split at h1
    · rename_i he
      simp only [Option.some.injEq] at h1
      simp only [he, if_true]
      exact ha x h1
    · rename_i he
      simp only [he, if_false]
      exact ok.arr a x h1
  · intro a d h1
    simp only [Heap.alloc] at h1 ⊢
    split at h1
    · rename_i he
      simp only [Option.some.injEq] at h1
      simp only [he, if_true]
      obtain ⟨h2, h3, h4⟩ := hd d h1
      refine ⟨h2, h3, fun p hp => ?_⟩
      obtain ⟨h5, h6⟩ := h4 p hp
      refine ⟨by omega, ?_⟩
      rw [if_neg (by omega)]
      exact h6
    · rename_i he
      simp only [he, if_false]
      obtain ⟨h2, h3, h4⟩ := ok.dict a d h1
      refine ⟨h2, h3, fun p hp => ?_⟩
      obtain ⟨h5, h6⟩ := h4 p hp
      refine ⟨by omega, ?_⟩
      rw [if_neg (by omega)]
      exact h6
  · intro a h1
    simp only [Heap.alloc] at h1
    show (if a = h.next then (l, b) else m a).2.Nonempty
    split
    · exact hb
    · exact ok.owned a (by omega)
  · simp [Heap.alloc]
  · intro a h1
    show (if a = h.next then (l, b) else m a) = m a
    rw [if_neg (by omega)]
  · intro a h1 _
    simp only [Heap.alloc]
    rw [if_neg (by omega)]

theorem derefDict_map {β : Type} (f : ℕ → Option β) : ∀ (d : List (Key × ℕ)) (c : List (Key × β)), derefDict f d = some c →
    c.map (·.1) = d.map (·.1)
  | [], c, h => by simp only [derefDict, Option.some.injEq] at h; subst h; rfl
  | (k, a) :: d, c, h => by
    simp only [derefDict] at h
    split at h
    · rename_i x rest hx hr
      simp only [Option.some.injEq] at h
      subst h
      simp [derefDict_map f d rest hr]
    · cases h

theorem newDict_spec {N n : ℕ} (l : List Key) (b : Set ℕ) (hb : b.Nonempty) (hl : l.length + (n + 1) = N)
    (hrec : ∀ (c : Content Arr n) (l : List Key) (m : Marks) (h : Heap), HeapOk N m h → l.length + n = N → Distinct n c →
      ∃ m', Grows N (fun _ => False) m h m' (newContent n c h).1 ∧ h.next ≤ (newContent n c h).2 ∧
        (newContent n c h).2 < (newContent n c h).1.next ∧ m' (newContent n c h).2 = (l, b) ∧
        deref (newContent n c h).1 n (newContent n c h).2 = some c) :
    ∀ (d : List (Key × Content Arr n)) (m : Marks) (h : Heap), HeapOk N m h → (∀ p ∈ d, Distinct n p.2) →
      ∃ m', Grows N (fun _ => False) m h m' (newDict (newContent n) d h).1 ∧
        (∀ p ∈ (newDict (newContent n) d h).2, p.2 < (newDict (newContent n) d h).1.next ∧ m' p.2 = (p.1 :: l, b)) ∧
        derefDict (deref (newDict (newContent n) d h).1 n) (newDict (newContent n) d h).2 = some d
  | [], m, h, ok, _ => ⟨m, Grows.refl ok, by simp [newDict], rfl⟩
  | (k, x) :: d, m, h, ok, hd => by
    obtain ⟨m1, g1, lo1, hi1, mk1, de1⟩ := hrec x (k :: l) m h ok (by simp only [List.length_cons]; omega) (hd (k, x) (by simp))
    obtain ⟨m2, g2, en2, de2⟩ := newDict_spec l b hb hl hrec d m1 _ g1.ok (fun p hp => hd p (by simp [hp]))
    refine ⟨m2, g1.trans g2 (fun _ _ h => h), ?_, ?_⟩
    · intro p hp
      simp only [newDict, List.mem_cons] at hp ⊢
      rcases hp with rfl | hp
      · exact ⟨lt_of_lt_of_le hi1 g2.le, by simp only; rw [g2.marks _ hi1, mk1]⟩
      · exact en2 p hp
    · simp only [newDict, derefDict]
      rw [de2, g2.deref g1.ok n _ hi1 (fun _ _ _ _ h => h), de1]

theorem newContent_spec {N : ℕ} (b : Set ℕ) (hb : b.Nonempty) : ∀ (n : ℕ) (c : Content Arr n) (l : List Key) (m : Marks) (h : Heap), HeapOk N m h →
    l.length + n = N → Distinct n c →
    ∃ m', Grows N (fun _ => False) m h m' (newContent n c h).1 ∧ h.next ≤ (newContent n c h).2 ∧
      (newContent n c h).2 < (newContent n c h).1.next ∧ m' (newContent n c h).2 = (l, b) ∧
      deref (newContent n c h).1 n (newContent n c h).2 = some c
  | 0, (x : Arr), l, m, h, ok, hl, _ => by
    obtain ⟨m', g, h1, h2, h3, h4⟩ := alloc_spec ok (.arr x) l b hb (fun _ _ => by omega) (fun d hd => by cases hd)
    refine ⟨m', g, ?_, ?_, ?_, ?_⟩
    · simp only [newContent]; rw [h1]
    · simp only [newContent]; rw [h1, h3]; omega
    · simp only [newContent]; rw [h1]; exact h2
    · simp only [newContent, deref]; rw [h1, h4]
  | n + 1, (d : List (Key × Content Arr n)), l, m, h, ok, hl, hd => by
    obtain ⟨m1, g1, en1, de1⟩ := newDict_spec l b hb hl (fun c l m h ok hl hd => newContent_spec b hb n c l m h ok hl hd) d m h ok hd.2
    obtain ⟨m2, g2, h1, h2, h3, h4⟩ := alloc_spec g1.ok (.dict (newDict (newContent n) d h).2) l b hb (fun x hx => by cases hx)
      (fun d' hd' => by
        cases hd'
        refine ⟨by omega, ?_, fun p hp => ⟨(en1 p hp).1, by rw [(en1 p hp).2], by rw [(en1 p hp).2]⟩⟩
        rw [← derefDict_map _ _ _ de1]
        exact hd.1)
    refine ⟨m2, g1.trans g2 (fun _ _ h => h), ?_, ?_, ?_, ?_⟩
    · simp only [newContent]; rw [h1]; exact g1.le
    · simp only [newContent]; rw [h1, h3]; omega
    · simp only [newContent]; rw [h1]; exact h2
    · show deref _ (n + 1) ((newDict (newContent n) d h).1.alloc (.dict (newDict (newContent n) d h).2)).2 = _
      rw [h1]
      refine (deref_dict h4).trans (Eq.trans ?_ de1)
      apply derefDict_congr
      intro p hp
      exact g2.deref g1.ok n p.2 (en1 p hp).1 (fun _ _ _ _ h => h)

/-! ## changing objects in place -/

theorem set_spec {N : ℕ} {m : Marks} {h : Heap} (ok : HeapOk N m h) (a : ℕ) (han : a < h.next) (o : Obj)
    (ha : ∀ x, o = .arr x → (m a).1.length = N)
    (hd : ∀ d, o = .dict d → (m a).1.length < N ∧ (d.map (·.1)).Nodup ∧
      ∀ p ∈ d, p.2 < h.next ∧ (m p.2).1 = p.1 :: (m a).1 ∧ (m p.2).2 ⊆ (m a).2) :
    Grows N (fun x => x = a) m h m (h.set a o) ∧ (h.set a o).get a = some o := by
  refine ⟨⟨⟨?_, ?_, ?_, ?_, fun x hx => ok.owned x hx⟩, le_refl _, fun _ _ => rfl, ?_⟩, by simp [Heap.set]⟩
  · intro x hx
    simp only [Heap.set] at hx ⊢
    rw [if_neg (by omega)]
    exact ok.free x hx
  · intro x hx
    simp only [Heap.set] at hx ⊢
    split
    · simp
    · exact ok.used x hx
  · intro x y hx
    simp only [Heap.set] at hx
    split at hx
    · rename_i he; subst he; exact ha y (by simpa using hx)
    · exact ok.arr x y hx
  · intro x d hx
    simp only [Heap.set] at hx
    split at hx
    · rename_i he; subst he; exact hd d (by simpa using hx)
    · exact ok.dict x d hx
  · intro x _ hne
    simp only [Heap.set]
    rw [if_neg hne]

/-- Below the label `l`, with owners in `b`. -/
def Below (m : Marks) (l : List Key) (b : Set ℕ) (x : ℕ) : Prop := l <:+ (m x).1 ∧ (m x).2 ⊆ b

theorem suffix_cons_inj {k k' : Key} {l x : List Key} (h : k :: l <:+ x) (h' : k' :: l <:+ x) : k = k' := by
  have := (List.suffix_or_suffix_of_suffix h h')
  rcases this with ⟨t, ht⟩ | ⟨t, ht⟩
  · have hlen := congrArg List.length ht
    simp at hlen
    subst hlen
    simp at ht
    exact ht
  · have hlen := congrArg List.length ht
    simp at hlen
    subst hlen
    simp at ht
    exact ht.symm

theorem storeDict_spec {N n : ℕ} (l : List Key) (b : Set ℕ) (hb : b.Nonempty) (hl : l.length + (n + 1) = N) (old : List (Key × ℕ))
    (hrec : ∀ (c : Content Arr n) (a : ℕ) (l : List Key) (b : Set ℕ) (m : Marks) (h : Heap), HeapOk N m h → l.length + n = N → Distinct n c →
      a < h.next → m a = (l, b) →
      ∃ m', Grows N (Below m l b) m h m' (storeContent n c h a) ∧ deref (storeContent n c h a) n a = some c) :
    ∀ (d : List (Key × Content Arr n)) (m : Marks) (h : Heap), HeapOk N m h → (d.map (·.1)).Nodup → (∀ p ∈ d, Distinct n p.2) →
      (∀ p ∈ old, p.2 < h.next ∧ (m p.2).1 = p.1 :: l ∧ (m p.2).2 ⊆ b) →
      ∃ m', Grows N (fun x => ∃ k ∈ d.map (·.1), Below m (k :: l) b x) m h m'
          (storeDict (storeContent n) (newContent n) old d h).1 ∧
        (∀ p ∈ (storeDict (storeContent n) (newContent n) old d h).2,
          p.2 < (storeDict (storeContent n) (newContent n) old d h).1.next ∧ (m' p.2).1 = p.1 :: l ∧ (m' p.2).2 ⊆ b) ∧
        derefDict (deref (storeDict (storeContent n) (newContent n) old d h).1 n)
          (storeDict (storeContent n) (newContent n) old d h).2 = some d
  | [], m, h, ok, _, _, _ => ⟨m, Grows.refl ok, by simp [storeDict], rfl⟩
  | (k, x) :: d, m, h, ok, hn, hd, ho => by
    simp only [List.map_cons, List.nodup_cons] at hn
    obtain ⟨h1, a, m1, hh1, g1, hi1, mk1, de1⟩ : ∃ h1 a m1, storeDict (storeContent n) (newContent n) old ((k, x) :: d) h =
        ((storeDict (storeContent n) (newContent n) old d h1).1, (k, a) :: (storeDict (storeContent n) (newContent n) old d h1).2) ∧
        Grows N (Below m (k :: l) b) m h m1 h1 ∧ a < h1.next ∧ ((m1 a).1 = k :: l ∧ (m1 a).2 ⊆ b) ∧ deref h1 n a = some x := by
      simp only [storeDict]
      cases hk : dget old k with
      | some a =>
        obtain ⟨ha1, ha2⟩ := ho (k, a) (mem_of_dget old k a hk)
        obtain ⟨m1, g1, de1⟩ := hrec x a (k :: l) (m a).2 m h ok (by simp only [List.length_cons]; omega) (hd (k, x) (by simp)) ha1
          (Prod.ext ha2.1 rfl)
        refine ⟨_, a, m1, rfl, g1.mono (fun y _ hy => ⟨hy.1, hy.2.trans ha2.2⟩), lt_of_lt_of_le ha1 g1.le, ?_, de1⟩
        rw [g1.marks a ha1]; exact ha2
      | none =>
        obtain ⟨m1, g1, lo1, hi1, mk1, de1⟩ := newContent_spec b hb n x (k :: l) m h ok (by simp only [List.length_cons]; omega)
          (hd (k, x) (by simp))
        exact ⟨_, _, m1, rfl, g1.mono (fun _ _ h => h.elim), hi1, by rw [mk1]; exact ⟨rfl, subset_rfl⟩, de1⟩
    obtain ⟨m2, g2, en2, de2⟩ := storeDict_spec l b hb hl old hrec d m1 h1 g1.ok hn.2 (fun p hp => hd p (by simp [hp]))
      (fun p hp => ⟨lt_of_lt_of_le (ho p hp).1 g1.le, by rw [g1.marks _ (ho p hp).1]; exact (ho p hp).2⟩)
    rw [hh1]
    refine ⟨m2, ⟨g2.ok, le_trans g1.le g2.le, fun y hy => ?_, fun y hy hny => ?_⟩, ?_, ?_⟩
    · rw [g2.marks y (lt_of_lt_of_le hy g1.le), g1.marks y hy]
    · simp only [List.map_cons, List.mem_cons, exists_eq_or_imp, not_or] at hny
      simp only
      rw [g2.frame y (lt_of_lt_of_le hy g1.le), g1.frame y hy hny.1]
      rintro ⟨k', hk', h3, h4⟩
      rw [g1.marks y hy] at h3 h4
      exact hny.2 ⟨k', hk', h3, h4⟩
    · intro p hp
      simp only [List.mem_cons] at hp
      rcases hp with rfl | hp
      · exact ⟨lt_of_lt_of_le hi1 g2.le, by simp only; rw [g2.marks _ hi1]; exact mk1⟩
      · exact en2 p hp
    · simp only [derefDict]
      rw [de2, g2.deref g1.ok n a hi1, de1]
      rintro y _ h3 _ ⟨k', hk', h4, _⟩
      rw [mk1.1] at h3
      have : k = k' := suffix_cons_inj h3 h4
      subst this
      exact hn.1 hk'

theorem storeContent_spec {N : ℕ} : ∀ (n : ℕ) (c : Content Arr n) (a : ℕ) (l : List Key) (b : Set ℕ) (m : Marks) (h : Heap), HeapOk N m h →
    l.length + n = N → Distinct n c → a < h.next → m a = (l, b) →
    ∃ m', Grows N (Below m l b) m h m' (storeContent n c h a) ∧ deref (storeContent n c h a) n a = some c
  | 0, (x : Arr), a, l, b, m, h, ok, hl, _, ha, hm => by
    obtain ⟨g, hg⟩ := set_spec ok a ha (.arr x) (fun _ _ => by rw [hm]; simpa using hl) (fun d hd => by cases hd)
    refine ⟨m, g.mono ?_, ?_⟩
    · rintro y _ rfl
      exact ⟨by rw [hm], by rw [hm]⟩
    · simp only [storeContent, deref]
      rw [hg]
  | n + 1, (d : List (Key × Content Arr n)), a, l, b, m, h, ok, hl, hd, ha, hm => by
    have hb : b.Nonempty := by have := ok.owned a ha; rw [hm] at this; exact this
    obtain ⟨old, hold⟩ := ok.not_arr ha (by rw [hm]; simp only; omega)
    obtain ⟨_, on, oe⟩ := ok.dict a old hold
    rw [hm] at oe
    obtain ⟨m1, g1, en1, de1⟩ := storeDict_spec l b hb hl old
      (fun c a l b m h ok hl hd ha hm => storeContent_spec n c a l b m h ok hl hd ha hm) d m h ok hd.1 hd.2 oe
    have hm1 : m1 a = (l, b) := by rw [g1.marks a ha, hm]
    obtain ⟨g2, hg2⟩ := set_spec g1.ok a (lt_of_lt_of_le ha g1.le) (.dict (storeDict (storeContent n) (newContent n) old d h).2)
      (fun x hx => by cases hx) (fun d' hd' => by
        cases hd'
        rw [hm1]
        refine ⟨by simp only; omega, ?_, en1⟩
        rw [← derefDict_map _ _ _ de1]
        exact hd.1)
    have hst : storeContent (n + 1) d h a = (storeDict (storeContent n) (newContent n) old d h).1.set a
        (.dict (storeDict (storeContent n) (newContent n) old d h).2) := by
      simp only [storeContent, hold]
    rw [hst]
    refine ⟨m1, ⟨g2.ok, le_trans g1.le g2.le, g1.marks, ?_⟩, ?_⟩
    · intro y hy hny
      rw [g2.frame y (lt_of_lt_of_le hy g1.le), g1.frame y hy]
      · rintro ⟨k, _, h1, h2⟩
        exact hny ⟨(List.suffix_cons _ _).trans h1, h2⟩
      · rintro rfl
        exact hny ⟨by rw [hm], by rw [hm]⟩
    · refine (deref_dict hg2).trans (Eq.trans ?_ de1)
      apply derefDict_congr
      intro p hp
      apply g2.deref g1.ok n p.2 (en1 p hp).1
      rintro y _ h1 _ rfl
      rw [hm1, (en1 p hp).2.1] at h1
      have := h1.length_le
      simp at this

/-! ## addition -/

theorem deref_dict_mem {n : ℕ} {h : Heap} : ∀ {d : List (Key × ℕ)} {c : List (Key × Content Arr n)},
    derefDict (deref h n) d = some c → ∀ k, (dget d k).bind (deref h n) = dget c k
  | [], c, hc, k => by simp only [derefDict, Option.some.injEq] at hc; subst hc; rfl
  | (k', a) :: d, c, hc, k => by
    simp only [derefDict] at hc
    split at hc
    · rename_i x rest hx hr
      simp only [Option.some.injEq] at hc
      subst hc
      rw [dget_cons, dget_cons]
      split
      · simp [hx]
      · exact deref_dict_mem hr k
    · cases hc

theorem dget_isSome_derefDict {n : ℕ} {h : Heap} {d : List (Key × ℕ)} {c : List (Key × Content Arr n)}
    (hc : derefDict (deref h n) d = some c) (k : Key) : (dget d k).isNone = (dget c k).isNone := by
  have h1 := deref_dict_mem hc k
  cases hd : dget d k with
  | none => rw [hd] at h1; rw [← h1]; rfl
  | some a =>
    have : (deref h n a).isSome := by
      have hm := mem_of_dget d k a hd
      clear h1 hd
      induction d generalizing c with
      | nil => simp at hm
      | cons p d ih =>
        obtain ⟨k', a'⟩ := p
        simp only [derefDict] at hc
        split at hc
        · rename_i x rest hx hr
          rcases List.mem_cons.1 hm with h | h
          · cases h; rw [hx]; rfl
          · exact ih hr h
        · cases hc
    rw [hd] at h1
    obtain ⟨x, hx⟩ := Option.isSome_iff_exists.1 this
    simp only [Option.bind_some, hx] at h1
    rw [← h1]; rfl

theorem derefDict_append {β : Type} (f : ℕ → Option β) : ∀ (d e : List (Key × ℕ)) (x y : List (Key × β)),
    derefDict f d = some x → derefDict f e = some y → derefDict f (d ++ e) = some (x ++ y)
  | [], e, x, y, hx, hy => by simp only [derefDict, Option.some.injEq] at hx; subst hx; exact hy
  | (k, a) :: d, e, x, y, hx, hy => by
    simp only [derefDict] at hx
    split at hx
    · rename_i z rest hz hr
      simp only [Option.some.injEq] at hx
      subst hx
      simp only [List.cons_append, derefDict, hz, derefDict_append f d e rest y hr hy]
    · cases hx

theorem derefDict_addRight {n : ℕ} {h : Heap} {d e : List (Key × ℕ)} {x y : List (Key × Content Arr n)}
    (hx : derefDict (deref h n) d = some x) (hy : derefDict (deref h n) e = some y) :
    derefDict (deref h n) (addRight d e) = some (addRight x y) := by
  induction e generalizing y with
  | nil => simp only [derefDict, Option.some.injEq] at hy; subst hy; rfl
  | cons p e ih =>
    obtain ⟨k, a⟩ := p
    simp only [derefDict] at hy
    split at hy
    · rename_i z rest hz hr
      simp only [Option.some.injEq] at hy
      subst hy
      have := ih hr
      unfold addRight at this ⊢
      simp only [List.filter_cons]
      rw [dget_isSome_derefDict hx k]
      split
      · simp only [derefDict, hz, this]
      · exact this
    · cases hy

theorem addHeap_zero {N : ℕ} (b : Set ℕ) (hb : b.Nonempty) (m : Marks) (h : Heap) (a a' : ℕ) (l : List Key) (x y : Content Arr 0)
    (ok : HeapOk N m h) (hl : l.length + 0 = N) (hx : deref h 0 a = some x) (hy : deref h 0 a' = some y) :
    (∃ e, addHeap 0 h a a' = .error e ∧ addContent 0 x y = .error e) ∨
    ∃ h' c z m', addHeap 0 h a a' = .ok (h', c) ∧ addContent 0 x y = .ok z ∧ Grows N (fun _ => False) m h m' h' ∧
      c < h'.next ∧ m' c = (l, b) ∧ deref h' 0 c = some z := by
  have hgx := deref_arr_inv hx
  have hgy := deref_arr_inv hy
  simp only [addHeap, addContent, hgx, hgy]
  cases hz : Arr.add x y with
  | error e => left; exact ⟨e, rfl, rfl⟩
  | ok z =>
    right
    obtain ⟨m', g, h1, h2, h3, h4⟩ := alloc_spec ok (.arr z) l b hb (fun _ _ => by omega) (fun d hd => by cases hd)
    exact ⟨_, _, z, m', rfl, rfl, g, Nat.lt_succ_self _, h2, deref_arr h4⟩

theorem addDict_spec {N n : ℕ} (b : Set ℕ) (hb : b.Nonempty) (l : List Key) (hl : l.length + (n + 1) = N)
    (hrec : ∀ (m : Marks) (h : Heap) (a a' : ℕ) (l : List Key) (x y : Content Arr n), HeapOk N m h → l.length + n = N →
      a < h.next → a' < h.next → (m a).1 = l → (m a').1 = l → (m a).2 ⊆ b → (m a').2 ⊆ b → deref h n a = some x → deref h n a' = some y →
      (∃ e, addHeap n h a a' = .error e ∧ addContent n x y = .error e) ∨
      ∃ h' c z m', addHeap n h a a' = .ok (h', c) ∧ addContent n x y = .ok z ∧ Grows N (fun _ => False) m h m' h' ∧
        c < h'.next ∧ m' c = (l, b) ∧ deref h' n c = some z)
    (other : List (Key × ℕ)) (ovals : List (Key × Content Arr n)) :
    ∀ (d : List (Key × ℕ)) (m : Marks) (h : Heap) (x : List (Key × Content Arr n)), HeapOk N m h →
      (∀ p ∈ d, p.2 < h.next ∧ (m p.2).1 = p.1 :: l ∧ (m p.2).2 ⊆ b) →
      (∀ p ∈ other, p.2 < h.next ∧ (m p.2).1 = p.1 :: l ∧ (m p.2).2 ⊆ b) →
      derefDict (deref h n) d = some x → derefDict (deref h n) other = some ovals →
      (∃ e, addDict (addHeap n) other d h = .error e ∧ addLeft (addContent n) ovals x = .error e) ∨
      ∃ h' out z m', addDict (addHeap n) other d h = .ok (h', out) ∧ addLeft (addContent n) ovals x = .ok z ∧
        Grows N (fun _ => False) m h m' h' ∧ (∀ p ∈ out, p.2 < h'.next ∧ (m' p.2).1 = p.1 :: l ∧ (m' p.2).2 ⊆ b) ∧
        out.map (·.1) = d.map (·.1) ∧ derefDict (deref h' n) out = some z
  | [], m, h, x, ok, _, _, hx, _ => by
    simp only [derefDict, Option.some.injEq] at hx
    subst hx
    exact Or.inr ⟨h, [], [], m, rfl, rfl, Grows.refl ok, by simp, rfl, rfl⟩
  | (k, a) :: d, m, h, xs, ok, hd, ho, hx, hy => by
    simp only [derefDict] at hx
    split at hx
    · rename_i x rest hxa hr
      simp only [Option.some.injEq] at hx
      subst hx
      obtain ⟨ha1, ha2⟩ := hd (k, a) (by simp)
      have hget := deref_dict_mem hy k
      have hnone := dget_isSome_derefDict hy k
      cases hk : dget other k with
      | some a' =>
        obtain ⟨hb1, hb2⟩ := ho (k, a') (mem_of_dget other k a' hk)
        rw [hk] at hget hnone
        cases hyv : dget ovals k with
        | none => rw [hyv] at hnone; cases hnone
        | some y =>
          rw [hyv] at hget
          simp only [Option.bind_some] at hget
          rcases hrec m h a a' (k :: l) x y ok (by simp only [List.length_cons]; omega) ha1 hb1 ha2.1 hb2.1 ha2.2 hb2.2 hxa hget with
            ⟨e, h1, h2⟩ | ⟨h1, c, z, m1, e1, e2, g1, c1, c2, c3⟩
          · left
            refine ⟨e, ?_, ?_⟩
            · simp only [addDict, hk, h1]
            · simp only [addLeft, hyv, h2]
          · have hkeep : ∀ q : List (Key × ℕ), (∀ p ∈ q, p.2 < h.next ∧ (m p.2).1 = p.1 :: l ∧ (m p.2).2 ⊆ b) →
                (∀ p ∈ q, p.2 < h1.next ∧ (m1 p.2).1 = p.1 :: l ∧ (m1 p.2).2 ⊆ b) ∧ derefDict (deref h1 n) q = derefDict (deref h n) q := by
              intro q hq
              refine ⟨fun p hp => ⟨lt_of_lt_of_le (hq p hp).1 g1.le, by rw [g1.marks _ (hq p hp).1]; exact (hq p hp).2⟩, ?_⟩
              apply derefDict_congr
              intro p hp
              exact g1.deref ok n p.2 (hq p hp).1 (fun _ _ _ _ h => h)
            obtain ⟨kd1, kd2⟩ := hkeep d (fun p hp => hd p (by simp [hp]))
            obtain ⟨ko1, ko2⟩ := hkeep other ho
            rcases addDict_spec b hb l hl hrec other ovals d m1 h1 rest g1.ok kd1 ko1 (by rw [kd2]; exact hr) (by rw [ko2]; exact hy) with
              ⟨e, h2, h3⟩ | ⟨h2, out, zs, m2, f1, f2, g2, o1, o2, o3⟩
            · left
              refine ⟨e, ?_, ?_⟩
              · simp only [addDict, hk, e1, h2]
              · simp only [addLeft, hyv, e2, h3]
            · right
              refine ⟨h2, (k, c) :: out, (k, z) :: zs, m2, ?_, ?_, g1.trans g2 (fun _ _ h => h), ?_, by simp [o2], ?_⟩
              · simp only [addDict, hk, e1, f1]
              · simp only [addLeft, hyv, e2, f2]
              · intro p hp
                rcases List.mem_cons.1 hp with rfl | hp
                · exact ⟨lt_of_lt_of_le c1 g2.le, by simp only; rw [g2.marks _ c1, c2]; exact ⟨rfl, subset_rfl⟩⟩
                · exact o1 p hp
              · simp only [derefDict]
                rw [g2.deref g1.ok n c c1 (fun _ _ _ _ h => h), c3, o3]
      | none =>
        rw [hk] at hnone
        have hyv : dget ovals k = none := by
          cases h' : dget ovals k with
          | none => rfl
          | some _ => rw [h'] at hnone; cases hnone
        rcases addDict_spec b hb l hl hrec other ovals d m h rest ok (fun p hp => hd p (by simp [hp])) ho hr hy with
          ⟨e, h2, h3⟩ | ⟨h2, out, zs, m2, f1, f2, g2, o1, o2, o3⟩
        · left
          refine ⟨e, ?_, ?_⟩
          · simp only [addDict, hk, h2]
          · simp only [addLeft, hyv, h3]
        · right
          refine ⟨h2, (k, a) :: out, (k, x) :: zs, m2, ?_, ?_, g2, ?_, by simp [o2], ?_⟩
          · simp only [addDict, hk, f1]
          · simp only [addLeft, hyv, f2]
          · intro p hp
            rcases List.mem_cons.1 hp with rfl | hp
            · exact ⟨lt_of_lt_of_le ha1 g2.le, by simp only; rw [g2.marks _ ha1]; exact ha2⟩
            · exact o1 p hp
          · simp only [derefDict]
            rw [g2.deref ok n a ha1 (fun _ _ _ _ h => h), hxa, o3]
    · cases hx

theorem addHeap_spec {N : ℕ} (b : Set ℕ) (hb : b.Nonempty) : ∀ (n : ℕ) (m : Marks) (h : Heap) (a a' : ℕ) (l : List Key) (x y : Content Arr n), HeapOk N m h →
    l.length + n = N → a < h.next → a' < h.next → (m a).1 = l → (m a').1 = l → (m a).2 ⊆ b → (m a').2 ⊆ b →
    deref h n a = some x → deref h n a' = some y →
    (∃ e, addHeap n h a a' = .error e ∧ addContent n x y = .error e) ∨
    ∃ h' c z m', addHeap n h a a' = .ok (h', c) ∧ addContent n x y = .ok z ∧ Grows N (fun _ => False) m h m' h' ∧
      c < h'.next ∧ m' c = (l, b) ∧ deref h' n c = some z
  | 0, m, h, a, a', l, x, y, ok, hl, ha, ha', hm, hm', hmb, hmb', hx, hy => by
    exact addHeap_zero b hb m h a a' l x y ok hl hx hy
  | n + 1, m, h, a, a', l, x, y, ok, hl, ha, ha', hm, hm', hmb, hmb', hx, hy => by
    obtain ⟨d, hgd, hx⟩ := deref_dict_inv hx
    obtain ⟨e, hge, hy⟩ := deref_dict_inv hy
    obtain ⟨_, dn, de⟩ := ok.dict a d hgd
    obtain ⟨_, en, ee⟩ := ok.dict a' e hge
    rw [hm] at de
    rw [hm'] at ee
    have de := fun p hp => (⟨(de p hp).1, (de p hp).2.1, (de p hp).2.2.trans hmb⟩ : p.2 < h.next ∧ (m p.2).1 = p.1 :: l ∧ (m p.2).2 ⊆ b)
    have ee := fun p hp => (⟨(ee p hp).1, (ee p hp).2.1, (ee p hp).2.2.trans hmb'⟩ : p.2 < h.next ∧ (m p.2).1 = p.1 :: l ∧ (m p.2).2 ⊆ b)
    simp only [addHeap, addContent, hgd, hge]
    rcases addDict_spec b hb l hl (fun m h a a' l x y ok hl ha ha' hm hm' hmb hmb' hx hy =>
      addHeap_spec b hb n m h a a' l x y ok hl ha ha' hm hm' hmb hmb' hx hy) e y d m h x ok de ee hx hy with
      ⟨er, h1, h2⟩ | ⟨h1, out, z, m1, f1, f2, g1, o1, o2, o3⟩
    · left
      rw [h1, h2]
      exact ⟨er, rfl, rfl⟩
    · right
      rw [f1, f2]
      have hdk : ∀ (q : List (Key × ℕ)), (∀ p ∈ q, p.2 < h.next) → derefDict (deref h1 n) q = derefDict (deref h n) q := by
        intro q hq
        apply derefDict_congr
        intro p hp
        exact g1.deref ok n p.2 (hq p hp) (fun _ _ _ _ h => h)
      have hx1 : derefDict (deref h1 n) d = some x := by rw [hdk d (fun p hp => (de p hp).1)]; exact hx
      have hy1 : derefDict (deref h1 n) e = some y := by rw [hdk e (fun p hp => (ee p hp).1)]; exact hy
      obtain ⟨m2, g2, h1', h2', h3', h4'⟩ := alloc_spec g1.ok (.dict (out ++ addRight d e)) l b hb (fun x hx => by cases hx)
        (fun d' hd' => by
          cases hd'
          refine ⟨by omega, ?_, ?_⟩
          · rw [List.map_append, List.nodup_append, o2]
            refine ⟨dn, List.Nodup.sublist (List.Sublist.map _ List.filter_sublist) en, ?_⟩
            intro k hk k' hk' hkk
            subst hkk
            obtain ⟨p, hp, rfl⟩ := List.mem_map.1 hk
            obtain ⟨q, hq, hqk⟩ := List.mem_map.1 hk'
            have h5 := (List.mem_filter.1 hq).2
            have h6 := dget_isSome_of_mem d p hp
            rw [← hqk] at h6
            rw [Option.isNone_iff_eq_none] at h5
            rw [h5] at h6
            cases h6
          · intro p hp
            rcases List.mem_append.1 hp with hp | hp
            · exact o1 p hp
            · have hp' := (List.mem_filter.1 hp).1
              exact ⟨lt_of_lt_of_le (ee p hp').1 g1.le, by rw [g1.marks _ (ee p hp').1]; exact (ee p hp').2⟩)
      refine ⟨_, _, (z ++ addRight x y : List (Key × Content Arr n)), m2, rfl, rfl, g1.trans g2 (fun _ _ h => h), ?_, ?_, ?_⟩
      · exact Nat.lt_succ_self _
      · exact h2'
      · show deref (h1.alloc (.dict (out ++ addRight d e))).1 (n + 1) h1.next = _
        refine (deref_dict h4').trans (Eq.trans ?_
          (derefDict_append (deref h1 n) out (addRight d e) z (addRight x y) o3 (derefDict_addRight hx1 hy1)))
        apply derefDict_congr
        intro p hp
        have hlt : p.2 < h1.next := by
          rcases List.mem_append.1 hp with hp | hp
          · exact (o1 p hp).1
          · exact lt_of_lt_of_le (ee p (List.mem_filter.1 hp).1).1 g1.le
        exact g2.deref g1.ok n p.2 hlt (fun _ _ _ _ h => h)

end Verif
