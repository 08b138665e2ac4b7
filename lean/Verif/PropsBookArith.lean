import Verif.BookArithLemmas
import Verif.PropsArith

/-!
# Arithmetic of books: C62
-/

namespace Verif

variable {V : Type} {A : HistArith V} {o : List V → HistOps ℕ}

mutual
theorem flat_has_path (b : BT ℕ) (hb : b.WF) (i : ℕ) (hi : i ∈ b.flat) : ∃ p, b.at p = some (.hist i) := by
  match b with
  | .hist j =>
    simp only [BT.flat, List.mem_singleton] at hi
    exact ⟨[], by rw [hi]; rfl⟩
  | .book c f x =>
    obtain ⟨n, u, p, hu, hp⟩ := flat_has_name x hb.1 hb.2 i hi
    exact ⟨n :: p, by rw [BT.at, hu]; exact hp⟩
theorem flat_has_name (x : BL ℕ) (hn : x.keys.Nodup) (hx : x.WF) (i : ℕ) (hi : i ∈ x.flat) :
    ∃ n u p, x.find n = some u ∧ u.at p = some (.hist i) := by
  match x with
  | .nil => cases hi
  | .cons n x r =>
    rw [BL.keys, List.nodup_cons] at hn
    rw [BL.WF] at hx
    rw [BL.flat, List.mem_append] at hi
    rcases hi with hi | hi
    · obtain ⟨p, hp⟩ := flat_has_path x hx.2.1 i hi
      exact ⟨n, x, p, by rw [BL.find, if_pos rfl], hp⟩
    · obtain ⟨m, u, p, hu, hp⟩ := flat_has_name r hn.2 hx.2.2 i hi
      exact ⟨m, u, p, by rw [BL.find, if_neg (fun (e : n = m) => hn.1 (e ▸ (mem_keys_iff m r).2 ⟨u, hu⟩)), hu], hp⟩
end

theorem InStore.flat {s : List V} {b : BT ℕ} (h : InStore s b) : ∀ i ∈ b.flat, i < s.length := by
  intro i hi
  obtain ⟨p, hp⟩ := flat_has_path b h.wf i hi
  exact h.range p i hp

/-! ## Sums -/

/-- **C62**, `a + b` of books whose names have no wildcards, if each histogram of `a` can be added to the one that `b` has
under the same path (and there is no histogram where the other has a book, and no book of `a` is a `SystematicsBook`).
The sum has under each path the sum, or else what one of them has there; it has the classes of `a`; the histograms of both
books are what they were. -/
theorem C62_sum_partial {s : List V} {a b : BT ℕ} (ha : InStore s a) (hb : InStore s b) (ga : PlainNames a)
    (gb : PlainNames b) (hk : ∀ p x y, a.at p = some x → b.at p = some y → AddOk A s x y) :
    ∃ s' r, a.plus A o s b = .ok (s', r) ∧ InStore s' r ∧ (∀ p, SumAt A s s' (a.at p) (b.at p) (r.at p)) ∧
      (∀ p, (valueAt s a p).isSome → valueAt s' a p = valueAt s a p) ∧
      ∀ p, (valueAt s b p).isSome → valueAt s' b p = valueAt s b p := by
  obtain ⟨s', r, h, hp⟩ := plus_isOk_T (o := o) a b s ha.wf hb.wf ga hk
  obtain ⟨-, h2, h3, h4⟩ := plus_T a b s s' r ha.wf hb.wf ha.flat hb.flat gb h
  have keep : ∀ c : BT ℕ, InStore s c → ∀ p, (valueAt s c p).isSome → valueAt s' c p = valueAt s c p := by
    intro c hc p hv
    unfold valueAt at hv ⊢
    split
    · rename_i i hi
      exact prefix_get hp (hc.range p i hi)
    · rfl
  exact ⟨s', r, h, ⟨h2, fun p i hi => h3 i (flat_at hi)⟩, h4, keep a ha, keep b hb⟩

/-- **C62**, what cannot be added: if one book has a histogram where the other one has a book, or the two histograms under
a path cannot be added, the sum raises. -/
theorem C62_sum_raises {s : List V} {a b : BT ℕ} (ha : InStore s a) (hb : InStore s b) (gb : PlainNames b)
    {p : List Str} {x y : BT ℕ} (hx : a.at p = some x) (hy : b.at p = some y)
    (hxy : ¬ (match x, y with
      | .hist i, .hist j => ∃ u v z, s[i]? = some u ∧ s[j]? = some v ∧ A.add u v = .ok z
      | .book _ _ _, .book _ _ _ => True
      | _, _ => False)) : ∃ e, a.plus A o s b = .error e := by
  cases h : a.plus A o s b with
  | error e => exact ⟨e, rfl⟩
  | ok q =>
    exfalso
    obtain ⟨s', r⟩ := q
    obtain ⟨-, -, -, h4⟩ := plus_T a b s s' r ha.wf hb.wf ha.flat hb.flat gb h
    have := h4 p
    rw [hx, hy] at this
    match x, y with
    | .hist i, .hist j =>
      obtain ⟨_, u, v, z, -, -, -, e1, e2, e3⟩ := this
      exact hxy ⟨u, v, z, e1, e2, e3⟩
    | .book _ _ _, .book _ _ _ => exact hxy trivial
    | .hist i, .book _ _ _ => exact this
    | .book _ _ _, .hist j => exact this

/-- **C62**, independence of the sum, if both books have the same paths: every histogram of the sum is a new one. -/
theorem C62_separate_partial {s s' : List V} {a b r : BT ℕ} (ha : InStore s a) (hb : InStore s b) (gb : PlainNames b)
    (hsame : ∀ p, (a.at p).isSome = (b.at p).isSome) (h : a.plus A o s b = .ok (s', r)) :
    (∀ i ∈ r.content.hists, s.length ≤ i) ∧ ∀ k g s'', changeAll g r.content.hists s' = .ok s'' → k < s.length →
      r.content.hists.Nodup → s''[k]? = s[k]? := by
  obtain ⟨h1, h2, h3, h4⟩ := plus_T a b s s' r ha.wf hb.wf ha.flat hb.flat gb h
  have key : ∀ i ∈ r.content.hists, s.length ≤ i := by
    intro i hi
    rw [hists_flat] at hi
    have hi' : i ∈ r.flat := by cases r with
      | hist j => cases hi
      | book c f x => exact hi
    obtain ⟨p, hp⟩ := flat_has_path r h2 i hi'
    have hs := h4 p
    have he := hsame p
    rw [hp] at hs
    cases hx : a.at p with
    | none =>
      cases hy : b.at p with
      | none => rw [hx, hy] at hs; cases hs
      | some y => rw [hx, hy] at he; cases he
    | some x =>
      cases hy : b.at p with
      | none => rw [hx, hy] at he; cases he
      | some y =>
        rw [hx, hy] at hs
        match x, y with
        | .hist _, .hist _ => obtain ⟨k, _, _, _, e, hk, -⟩ := hs; cases e; exact hk
        | .book _ _ _, .book _ _ _ => obtain ⟨_, _, e⟩ := hs; cases e
        | .hist i, .book _ _ _ => exact absurd hs id
        | .book _ _ _, .hist j => exact absurd hs id
  refine ⟨key, fun k g s'' hc hk hn => ?_⟩
  rw [(changeAll_ok hn hc).2.1 k fun hm => absurd (key k hm) (by omega), prefix_get h1 hk]

/-- **C62 is violated**: what only one of the books has is not copied.  The histogram in the sum is the same object, so
that scaling the sum scales the histogram of the operand. -/
theorem C62_refuted_shared {s s' s'' : List V} {a b r : BT ℕ} (ha : InStore s a) (hb : InStore s b) (gb : PlainNames b)
    (h : a.plus A o s b = .ok (s', r)) {p : List Str} {i : ℕ} (hp : a.at p = some (.hist i)) (hq : b.at p = none) :
    r.at p = some (.hist i) ∧ ∀ k, r.content.hists.Nodup → r.content.itimes A k s' = .ok s'' → p ≠ [] →
      ∃ u z, valueAt s a p = some u ∧ A.imul k u = .ok z ∧ valueAt s'' a p = some z := by
  obtain ⟨h1, h2, h3, h4⟩ := plus_T a b s s' r ha.wf hb.wf ha.flat hb.flat gb h
  have hr := h4 p
  rw [hp, hq] at hr
  refine ⟨hr, fun k hn hi hne => ?_⟩
  have hm : i ∈ r.content.hists := by
    rw [hists_flat]
    cases r with
    | hist j =>
      cases p with
      | nil => exact absurd rfl hne
      | cons n t => cases hr
    | book c f x => exact flat_at hr
  obtain ⟨u, z, e1, e2, e3⟩ := (changeAll_ok hn hi).2.2 i hm
  rw [prefix_get h1 (ha.range p i hp)] at e1
  exact ⟨u, z, by simp only [valueAt, hp, e1], e2, by simp only [valueAt, hp, e3]⟩

/-! ## Products and copies -/

theorem new_book {g : V → Except Err V} {s : List V} {a : BT ℕ} (ha : InStore s a) (hc : NoSystematics a)
    (hk : ∀ p i, a.at p = some (.hist i) → ∃ u z, s[i]? = some u ∧ g u = .ok z) :
    ∃ s' r, a.mapNew o g s = .ok (s', r) ∧ InStore s' r ∧ (∀ p, MapAt g s s' (a.at p) (r.at p)) ∧ r.flat.Nodup ∧
      (∀ i ∈ r.flat, s.length ≤ i) ∧ ∀ p, (valueAt s a p).isSome → valueAt s' a p = valueAt s a p := by
  obtain ⟨s', r, h, -⟩ := mapNew_isOk_T (o := o) g a s ha.wf hc fun i hi => by
    obtain ⟨p, hp⟩ := flat_has_path a ha.wf i hi
    exact hk p i hp
  obtain ⟨h1, h2, h3, h4, h5⟩ := mapNew_T g a s s' r ha.wf ha.flat h
  refine ⟨s', r, h, ⟨h2, fun p i hi => ?_⟩, h5, by rw [h4]; exact List.nodup_range', ?_, ?_⟩
  · have := flat_at hi
    rw [h4, List.mem_range'_1] at this
    omega
  · intro i hi
    rw [h4, List.mem_range'_1] at hi
    exact hi.1
  · intro p hv
    unfold valueAt at hv ⊢
    split
    · rename_i i hi
      exact prefix_get h1 (ha.range p i hi)
    · rfl

/-- **C62**, `a * k` of books without `SystematicsBook`, if each of the histograms can be multiplied: a book of the same
shape and classes, with each histogram multiplied; all of them are new histograms, and those of `a` are what they were. -/
theorem C62_product_partial {s : List V} {a : BT ℕ} (k : ℚ) (ha : InStore s a) (hc : NoSystematics a)
    (hk : ∀ p i, a.at p = some (.hist i) → ∃ u z, s[i]? = some u ∧ A.mul k u = .ok z) :
    ∃ s' r, a.times A o k s = .ok (s', r) ∧ InStore s' r ∧ (∀ p, MapAt (A.mul k) s s' (a.at p) (r.at p)) ∧ r.flat.Nodup ∧
      (∀ i ∈ r.flat, s.length ≤ i) ∧ ∀ p, (valueAt s a p).isSome → valueAt s' a p = valueAt s a p :=
  new_book ha hc hk

/-- **C62**, `a *= k` of books that do not have a histogram twice: every histogram is multiplied, and no other one. -/
theorem C62_imul_partial {s : List V} {c : BClass} {f : Fields ℕ} {x : BL ℕ} (k : ℚ) (hn : x.hists.Nodup)
    (hk : ∀ i ∈ x.hists, ∃ u z, s[i]? = some u ∧ A.imul k u = .ok z) :
    ∃ s', x.itimes A k s = .ok s' ∧ (∀ i, i ∉ x.hists → s'[i]? = s[i]?) ∧
      ∀ p i, (BT.book c f x).at p = some (.hist i) → ∃ u z, s[i]? = some u ∧ A.imul k u = .ok z ∧ s'[i]? = some z := by
  obtain ⟨s', h⟩ := changeAll_isOk hn hk
  obtain ⟨-, h2, h3⟩ := changeAll_ok hn h
  exact ⟨s', h, h2, fun p i hp => h3 i (by rw [hists_flat]; exact flat_at hp)⟩

/-- **C62**, `*=` agrees with `*`: under each path is the same value. -/
theorem C62_imul_agrees_partial {s s1 s2 : List V} {c : BClass} {f : Fields ℕ} {x : BL ℕ} {r : BT ℕ} {k : ℚ}
    (ha : InStore s (.book c f x)) (hn : x.hists.Nodup) (law : ∀ u z, A.imul k u = .ok z → A.mul k u = .ok z)
    (h1 : x.itimes A k s = .ok s1) (h2 : (BT.book c f x).times A o k s = .ok (s2, r)) (p : List Str) :
    valueAt s1 (.book c f x) p = valueAt s2 r p := by
  obtain ⟨-, -, h3⟩ := changeAll_ok hn h1
  obtain ⟨-, -, -, -, h5⟩ := mapNew_T _ _ s s2 r ha.wf ha.flat h2
  have h5 := h5 p
  unfold valueAt
  cases hp : (BT.book c f x).at p with
  | none => rw [hp] at h5; rw [h5]
  | some y =>
    rw [hp] at h5
    cases y with
    | book _ _ _ => obtain ⟨_, _, e⟩ := h5; rw [e]
    | hist i =>
      obtain ⟨j, u, z, e1, e2, e3, e4, e5⟩ := h5
      obtain ⟨u', z', d1, d2, d3⟩ := h3 i (by rw [hists_flat]; exact flat_at hp)
      rw [e4] at d1
      cases d1
      rw [law _ _ d2] at e5
      cases e5
      rw [e1]
      simp only [d3, e3]

/-! ## In-place sums -/

/-- **C62**, `a += b` of books that have no histogram in common, if `a` has none twice, the names of `b` have no wildcards,
and what is under the same path can be added in place.  Under each path where both have a histogram the one of `a` has the
sum; the others of `a` are as before; what only `b` has is now in `a` too; no histogram that is not in `a` changes. -/
theorem C62_iadd_partial {s : List V} {a b : BT ℕ} (ha : InStore s a) (hb : InStore s b) (gb : PlainNames b)
    (hn : a.flat.Nodup) (hd : ∀ k ∈ a.flat, k ∉ b.flat)
    (hk : ∀ p x y, a.at p = some x → b.at p = some y → IAddOk A s x y) :
    ∃ s' r, a.iplus A o s b = .ok (s', r) ∧ (∀ p, IAddAt A s s' (a.at p) (b.at p) (r.at p)) ∧
      (∀ k, k ∉ a.flat → s'[k]? = s[k]?) ∧ InStore s' r ∧ ∀ p, valueAt s' b p = valueAt s b p := by
  obtain ⟨s', r, h⟩ := iplus_isOk_T (o := o) a b s ha.wf hb.wf hn hd gb hk
  obtain ⟨h1, h2, h3, h4⟩ := iplus_T a b s s' r ha.wf hb.wf hn hd h
  refine ⟨s', r, h, h4, h3, ⟨h2, fun p i hi => ?_⟩, fun p => ?_⟩
  · have h4 := h4 p
    rw [hi] at h4
    rw [h1]
    cases hx : a.at p with
    | none =>
      rw [hx] at h4
      exact hb.range p i (Eq.symm h4)
    | some x =>
      rw [hx] at h4
      cases hy : b.at p with
      | none =>
        rw [hy] at h4
        cases x with
        | hist j => obtain ⟨e, -⟩ := h4; cases e; exact ha.range p i hx
        | book _ _ _ => cases h4
      | some y =>
        rw [hy] at h4
        match x, y with
        | .hist j, .hist _ => obtain ⟨e, -⟩ := h4; cases e; exact ha.range p i hx
        | .book _ _ _, .book _ _ _ => obtain ⟨_, _, e⟩ := h4; cases e
        | .hist i, .book _ _ _ => exact absurd h4 id
        | .book _ _ _, .hist j => exact absurd h4 id
  · cases hp : b.at p with
    | none => simp only [valueAt, hp]
    | some y =>
      cases y with
      | book _ _ _ => simp only [valueAt, hp]
      | hist i =>
        simp only [valueAt, hp]
        exact h3 i fun hi => hd i hi (flat_at hp)

/-- The left book after `a += b`, also after an exception. -/
def afterBook : Except (Err × List V × BT ℕ) (List V × BT ℕ) → BT ℕ
  | .ok (_, b) => b
  | .error (_, _, b) => b

/-- The histograms of `x` are in `y` under the same paths. -/
def BT.Keeps (x y : BT ℕ) : Prop := ∀ p i, x.at p = some (.hist i) → y.at p = some (.hist i)

theorem keeps_put {c : BClass} {f f' : Fields ℕ} {x : BL ℕ} {n : Str} {v : BT ℕ} (hu : ∀ w, x.find n = some w → w.Keeps v) :
    (BT.book c f x).Keeps (.book c f' (x.put n v)) := by
  intro p i h
  cases p with
  | nil => cases h
  | cons m p =>
    rw [BT.at] at h ⊢
    by_cases hm : m = n
    · subst hm
      rw [find_put_self]
      cases hw : x.find m with
      | none => rw [hw] at h; cases h
      | some w => rw [hw] at h; exact hu w hw p i h
    · rw [find_put_ne hm]; exact h

theorem keeps_setLoop {s : List V} {b : BT ℕ} {n : Str} {v : BT ℕ} (hn : '/' ∉ n)
    (hu : ∀ w, b.content.find n = some w → w.Keeps v) : b.Keeps (afterBook (setLoop o s b n v)) := by
  cases b with
  | hist i =>
    unfold setLoop
    rw [BT.setitem, comps_self hn, BT.setP]
    exact fun _ _ h => h
  | book c f x =>
    unfold setLoop
    rw [BT.setitem, comps_self hn, BT.setP]
    cases c <;> simp only [BT.changed]
    all_goals try split_ifs
    all_goals exact keeps_put hu

mutual
theorem keeps_T (s : List V) : ∀ a b : BT ℕ, b.WF → a.Keeps (afterBook (a.iplus A o s b))
  | .hist i, .hist j, _ => by
    rw [BT.iplus]
    split
    · exact fun _ _ h => h
    · split <;> exact fun _ _ h => h
  | .hist i, .book _ _ _, _ => by rw [BT.iplus]; exact fun _ _ h => h
  | .book c f x, .hist _, _ => by rw [BT.iplus]; exact fun _ _ h => h
  | .book c f x, .book _ _ y, hw => by
    rw [BT.iplus]
    rw [BT.WF] at hw
    exact keeps_L s (.book c f x) y hw.2
theorem keeps_L (s : List V) : ∀ (b : BT ℕ) (y : BL ℕ), y.WF → b.Keeps (afterBook (BL.iplus A o s b y))
  | b, .nil, _ => by rw [BL.iplus]; exact fun _ _ h => h
  | b, .cons n y r, hw => by
    rw [BL.WF] at hw
    rw [BL.iplus]
    split_ifs
    · exact fun _ _ h => h
    cases hf : b.content.find n with
    | none =>
      have h1 := keeps_setLoop (o := o) (s := s) (b := b) (v := y) hw.1 (by rw [hf]; nofun)
      cases hl : setLoop o s b n y with
      | error e => rw [hl] at h1; exact h1
      | ok q => rw [hl] at h1; exact fun p i h => keeps_L q.1 q.2 r hw.2.2 p i (h1 p i h)
    | some x =>
      have h0 := keeps_T s x y hw.2.1
      cases ht : BT.iplus A o s x y with
      | error e =>
        obtain ⟨e, s1, x1⟩ := e
        rw [ht] at h0
        simp only [ht]
        cases b with
        | hist i => exact fun _ _ h => h
        | book c f z =>
          refine keeps_put fun w hw' => ?_
          rw [show (BT.book c f z).content = z from rfl, hw'] at hf
          cases hf; exact h0
      | ok q =>
        rw [ht] at h0
        obtain ⟨s1, x1⟩ := q
        have h1 := keeps_setLoop (o := o) (s := s1) (b := b) (v := x1) hw.1 (by rw [hf]; intro w e; cases e; exact h0)
        simp only [ht]
        cases hl : setLoop o s1 b n x1 with
        | error e => rw [hl] at h1; exact h1
        | ok q => rw [hl] at h1; exact fun p i h => keeps_L q.1 q.2 r hw.2.2 p i (h1 p i h)
end

/-- **C62**: `a += b` never takes a histogram out of `a`, even if it raises: under each path that had one there is the same
object. -/
theorem C62_iadd_keeps (s : List V) (a b : BT ℕ) (hb : b.WF) (p : List Str) (i : ℕ) (h : a.at p = some (.hist i)) :
    (afterBook (a.iplus A o s b)).at p = some (.hist i) :=
  keeps_T s a b hb p i h

/-- **C62**, `+=` agrees with `+`: the same value under each path. -/
theorem C62_iadd_agrees_partial {s s1 s2 : List V} {a b r1 r2 : BT ℕ} (ha : InStore s a) (hb : InStore s b)
    (gb : PlainNames b) (hn : a.flat.Nodup) (hd : ∀ k ∈ a.flat, k ∉ b.flat)
    (law : ∀ u v z, A.iadd u v = .ok z → A.add u v = .ok z)
    (h1 : a.iplus A o s b = .ok (s1, r1)) (h2 : a.plus A o s b = .ok (s2, r2)) (p : List Str) :
    valueAt s1 r1 p = valueAt s2 r2 p := by
  obtain ⟨-, -, g3, g4⟩ := iplus_T a b s s1 r1 ha.wf hb.wf hn hd h1
  obtain ⟨k1, -, -, k4⟩ := plus_T a b s s2 r2 ha.wf hb.wf ha.flat hb.flat gb h2
  have g4 := g4 p
  have k4 := k4 p
  cases hx : a.at p with
  | none =>
    rw [hx] at g4 k4
    have g4 : r1.at p = b.at p := g4
    have k4 : r2.at p = b.at p := k4
    unfold valueAt
    rw [g4, k4]
    cases hy : b.at p with
    | none => rfl
    | some y =>
      cases y with
      | book _ _ _ => rfl
      | hist j =>
        simp only
        rw [g3 j fun hj => hd j hj (flat_at hy), prefix_get k1 (hb.range p j hy)]
  | some x =>
    rw [hx] at g4 k4
    cases hy : b.at p with
    | none =>
      rw [hy] at g4 k4
      have k4 : r2.at p = some x := k4
      unfold valueAt
      rw [k4]
      cases x with
      | book _ _ _ =>
        have g4 : r1.at p = _ := g4
        rw [g4]
      | hist i =>
        obtain ⟨e1, e2⟩ := g4
        rw [e1]
        simp only
        rw [e2, prefix_get k1 (ha.range p i hx)]
    | some y =>
      rw [hy] at g4 k4
      unfold valueAt
      match x, y with
      | .hist i, .hist j =>
        obtain ⟨e0, u, v, z, e1, e2, e3, e4⟩ := g4
        obtain ⟨k, u', v', z', d0, -, d2, d3, d4, d5⟩ := k4
        rw [e1] at d3
        rw [e2] at d4
        cases d3
        cases d4
        rw [law _ _ _ e3] at d5
        cases d5
        rw [e0, d0]
        simp only [e4, d2]
      | .book _ _ _, .book _ _ _ =>
        obtain ⟨_, _, e⟩ := g4
        obtain ⟨_, _, e'⟩ := k4
        rw [e, e']
      | .hist i, .book _ _ _ => exact absurd g4 id
      | .book _ _ _, .hist j => exact absurd g4 id

/-! ## Books of histograms -/

section
variable {α β : Type} [DecidableEq β] {axes : α → β}

theorem arr_iadd_add {a b c : Arr} (h : a.iadd b = .ok c) : a.add b = .ok c := by
  unfold Arr.iadd at h
  unfold Arr.add
  by_cases h1 : a.shape = b.shape
  · rw [if_pos h1] at h ⊢
    by_cases h2 : a.ncols = b.ncols
    · rw [if_pos h2] at h ⊢; exact h
    · rw [if_neg h2] at h ⊢
      by_cases h3 : b.ncols = 1
      · rw [if_pos h3] at h
        rw [if_neg (by rw [h3] at h2; exact h2), if_pos h3]; exact h
      · rw [if_neg h3] at h; cases h
  · rw [if_neg h1] at h; cases h

theorem iaddLeft_ok_addLeft {β : Type} {f : β → β → Res β} {g : β → β → Except Err β} (hfg : ∀ x y z, f x y = .ok z → g x y = .ok z)
    (other : List (Key × β)) : ∀ {l l' : List (Key × β)}, iaddLeft f other l = .ok l' → addLeft g other l = .ok l'
  | [], l', h => by cases h; rfl
  | (k, x) :: rest, l', h => by
    rw [iaddLeft] at h
    rw [addLeft]
    cases hd : dget other k with
    | none =>
      rw [hd] at h
      simp only at h ⊢
      cases hr : iaddLeft f other rest with
      | error e => rw [hr] at h; cases h
      | ok l1 =>
        rw [hr] at h
        rw [iaddLeft_ok_addLeft hfg other hr]
        cases h; rfl
    | some y =>
      rw [hd] at h
      simp only at h ⊢
      cases hf : f x y with
      | error e => rw [hf] at h; cases h
      | ok z =>
        rw [hf] at h
        rw [hfg _ _ _ hf]
        simp only at h ⊢
        cases hr : iaddLeft f other rest with
        | error e => rw [hr] at h; cases h
        | ok l1 =>
          rw [hr] at h
          rw [iaddLeft_ok_addLeft hfg other hr]
          cases h; rfl

theorem iaddContent_add : ∀ (n : ℕ) {a b c : Content Arr n}, iaddContent n a b = .ok c → addContent n a b = .ok c
  | 0, a, b, c, h => by
    unfold iaddContent at h
    cases hi : Arr.iadd a b with
    | error e => simp only [hi] at h; cases h
    | ok d => simp only [hi] at h; cases h; exact arr_iadd_add hi
  | n + 1, a, b, c, h => by
    unfold iaddContent at h
    unfold addContent
    cases hi : iaddLeft (iaddContent n) b a with
    | error e => simp only [hi] at h; cases h
    | ok d =>
      simp only [hi] at h
      cases h
      have hl := iaddLeft_ok_addLeft (fun x y z => iaddContent_add n) b hi
      simp only [hl]

/-- Whenever `x += y` works, `x + y` gives what `x` is then. -/
theorem iaddState_add {n : ℕ} {a b c : Option (Content Arr n)} (h : iaddState a b = .ok c) : addState a b = .ok c := by
  cases a with
  | none => cases b <;> (cases h; rfl)
  | some a =>
    cases b with
    | none => cases h; rfl
    | some b =>
      rw [iaddState] at h
      rw [addState]
      cases hi : iaddContent n a b with
      | error e => rw [hi] at h; cases h
      | ok d => rw [hi] at h; cases h; rw [iaddContent_add n hi]; rfl

theorem histIadd_add {x y z : HistObj α} (h : histIadd axes x y = .ok z) : histAdd axes x y = .ok z := by
  unfold histIadd at h
  unfold histAdd
  by_cases hs : sameAxes axes x y
  · rw [dif_pos hs] at h ⊢
    cases hi : iaddState x.content (otherContent hs.1) with
    | error e => rw [hi] at h; cases h
    | ok c => rw [hi] at h; cases h; rw [iaddState_add hi]; rfl
  · rw [dif_neg hs] at h; cases h

theorem histImul_mul {k : ℚ} {x z : HistObj α} (h : histImul k x = .ok z) : histMul k x = .ok z := by
  obtain ⟨H, u, c⟩ := x
  cases c with
  | none => cases h
  | some c => cases h; rfl

/-- **C62**, `+=` and `*=` agree with `+` and `*` for books of histograms. -/
theorem C62_agree_partial {o : List (HistObj α) → HistOps ℕ} {s s1 s2 : List (HistObj α)} {c : BClass} {f : Fields ℕ}
    {x : BL ℕ} {b r1 r2 : BT ℕ} (ha : InStore s (.book c f x)) (hn : x.hists.Nodup) :
    (InStore s b → PlainNames b → (∀ k ∈ x.hists, k ∉ b.flat) →
      (BT.book c f x).iplus (histArith axes) o s b = .ok (s1, r1) →
      (BT.book c f x).plus (histArith axes) o s b = .ok (s2, r2) → ∀ p, valueAt s1 r1 p = valueAt s2 r2 p) ∧
    ∀ k, x.itimes (histArith axes) k s = .ok s1 → (BT.book c f x).times (histArith axes) o k s = .ok (s2, r2) →
      ∀ p, valueAt s1 (.book c f x) p = valueAt s2 r2 p := by
  refine ⟨fun hb gb hd h1 h2 p => ?_, fun k h1 h2 p => ?_⟩
  · refine C62_iadd_agrees_partial ha hb gb ?_ ?_ (fun u v z => histIadd_add) h1 h2 p
    · rw [BT.flat, ← hists_flat]; exact hn
    · rw [BT.flat, ← hists_flat]; exact hd
  · exact C62_imul_agrees_partial ha hn (fun u z => histImul_mul) h1 h2 p

/-- **C62**, the bins: in the sum of two books every bin of a histogram that both have is the sum of the two bins; in a
product every bin is multiplied. -/
theorem C62_bins_partial {o : List (HistObj α) → HistOps ℕ} {s : List (HistObj α)} {a b : BT ℕ} (ha : InStore s a)
    (hb : InStore s b) (ga : PlainNames a) (gb : PlainNames b) (hc : NoSystematics a)
    (hk : ∀ p x y, a.at p = some x → b.at p = some y →
      match x, y with
      | .hist i, .hist j => ∃ (H : HistDef) (u v : α) (cu cv : H.State), s[i]? = some ⟨H, u, cu⟩ ∧ s[j]? = some ⟨H, v, cv⟩ ∧
          axes u = axes v ∧ H.Proper cu ∧ H.Proper cv
      | .book _ _ _, .book _ _ _ => True
      | _, _ => False) :
    ∃ s' r, a.plus (histArith axes) o s b = .ok (s', r) ∧ InStore s' r ∧
      (∀ p (H : HistDef) (u v : α) (cu cv : H.State), valueAt s a p = some ⟨H, u, cu⟩ → valueAt s b p = some ⟨H, v, cv⟩ →
        H.Proper cu → H.Proper cv →
        ∃ c : H.State, valueAt s' r p = some ⟨H, u, c⟩ ∧ H.Proper c ∧
          ∀ gk idx col, H.read c gk idx col = H.read cu gk idx col + H.read cv gk idx col) ∧
      (∀ p, b.at p = none → r.at p = a.at p ∧ valueAt s' r p = valueAt s a p) ∧
      ∀ p, a.at p = none → r.at p = b.at p ∧ valueAt s' r p = valueAt s b p := by
  have add_ok : ∀ (H : HistDef) (u v : α) (cu cv : H.State), axes u = axes v →
      histAdd axes ⟨H, u, cu⟩ ⟨H, v, cv⟩ = (addState cu cv).map fun c => ⟨H, u, c⟩ := by
    intro H u v cu cv h
    unfold histAdd
    rw [dif_pos ⟨rfl, rfl, rfl, h⟩]
    rfl
  have hk' : ∀ p x y, a.at p = some x → b.at p = some y → AddOk (histArith axes) s x y := by
    intro p x y hx hy
    have h := hk p x y hx hy
    match x, y with
    | .hist i, .hist j =>
      obtain ⟨H, u, v, cu, cv, h1, h2, h3, h4, h5⟩ := h
      obtain ⟨c, e, -⟩ := addState_spec H cu cv h4 h5
      refine ⟨_, _, ⟨H, u, c⟩, h1, h2, ?_⟩
      show histAdd axes _ _ = _
      rw [add_ok H u v cu cv h3, e]; rfl
    | .book c _ _, .book _ _ _ => exact fun e => hc p _ hx (by rw [BT.cls?, e])
    | .hist i, .book _ _ _ => exact h
    | .book _ _ _, .hist j => exact h
  obtain ⟨s', r, h1, h2, h3, h4, h5⟩ := C62_sum_partial (o := o) ha hb ga gb hk'
  refine ⟨s', r, h1, h2, fun p H u v cu cv hu hv pu pv => ?_, fun p hp => ?_, fun p hp => ?_⟩
  · have h3 := h3 p
    cases hx : a.at p with
    | none => simp [valueAt, hx] at hu
    | some x =>
      cases hy : b.at p with
      | none => simp [valueAt, hy] at hv
      | some y =>
        have hkk := hk p x y hx hy
        rw [hx, hy] at h3
        match x, y with
        | .hist i, .hist j =>
          simp only [valueAt, hx] at hu
          simp only [valueAt, hy] at hv
          obtain ⟨H', u', v', cu', cv', q1, q2, q3, -, -⟩ := hkk
          rw [hu] at q1
          rw [hv] at q2
          obtain ⟨k, u1, v1, z, e1, -, e3, e4, e5, e6⟩ := h3
          rw [hu] at e4
          rw [hv] at e5
          cases e4
          cases e5
          have hax : axes u = axes v := by
            cases q1
            cases q2
            exact q3
          obtain ⟨c, c1, -, c3, -, c5⟩ := addState_spec H cu cv pu pv
          have : histAdd axes ⟨H, u, cu⟩ ⟨H, v, cv⟩ = .ok ⟨H, u, c⟩ := by rw [add_ok H u v cu cv hax, c1]; rfl
          have e6 : histAdd axes ⟨H, u, cu⟩ ⟨H, v, cv⟩ = .ok z := e6
          rw [this] at e6
          cases e6
          exact ⟨c, by simp only [valueAt, e1, e3], c3, c5⟩
        | .book _ _ _, .book _ _ _ => simp [valueAt, hx] at hu
        | .hist i, .book _ _ _ => exact absurd h3 id
        | .book _ _ _, .hist j => exact absurd h3 id
  · have h3 := h3 p
    rw [hp] at h3
    have hr : r.at p = a.at p := by
      cases hx : a.at p with
      | none => rw [hx] at h3; exact h3
      | some x => rw [hx] at h3; exact h3
    refine ⟨hr, ?_⟩
    rw [valueAt, hr, ← valueAt]
    cases hx : a.at p with
    | none => simp only [valueAt, hx]
    | some x =>
      cases x with
      | book _ _ _ => simp only [valueAt, hx]
      | hist i => exact h4 p (by simp [valueAt, hx, ha.range p i hx])
  · have h3 := h3 p
    rw [hp] at h3
    have hr : r.at p = b.at p := h3
    refine ⟨hr, ?_⟩
    rw [valueAt, hr, ← valueAt]
    cases hx : b.at p with
    | none => simp only [valueAt, hx]
    | some x =>
      cases x with
      | book _ _ _ => simp only [valueAt, hx]
      | hist i => exact h5 p (by simp [valueAt, hx, hb.range p i hx])

end

/-! ## What goes wrong -/

/-- `Hist(bin("x", 2, 0, 2))`. -/
def plainH : HistDef := ⟨[], [.bin ⟨2, 0, 2, true, true, true, true⟩], 0, .none⟩

/-- The histogram after filling with a list of numbers. -/
def plainFilled (l : List ℚ) : HistObj Unit :=
  ⟨plainH, (), match plainH.fillAll none [l.map fun x => ⟨[], [.num (.fin x)], [], none⟩] with
    | .ok c => c
    | .error _ => none⟩

/-- The content of the first bin. -/
def firstBin (x : HistObj Unit) : ℚ := x.H.read x.content [] [1] 0

/-- A book with the histograms of these numbers. -/
def someBook (l : List (String × ℕ)) : BT ℕ :=
  match mkBook (⟨fun _ _ => true, fun _ => false⟩ : HistOps ℕ) .book (l.map fun p => (p.1.toList, .hist p.2)) with
  | .ok b => b
  | .error (_, b) => b

/-- What histograms say of each other does not matter here. -/
def anyOps : List (HistObj Unit) → HistOps ℕ := fun _ => ⟨fun _ _ => true, fun _ => false⟩

/-- The arithmetic of these histograms. -/
def plainArith : HistArith (HistObj Unit) := histArith (fun _ => ())

/-- The first bins of all histograms after an operation, or nothing. -/
def binsOf : Except Err (List (HistObj Unit) × BT ℕ) → List (Str × Option ℚ)
  | .ok (s, b) => b.content.allitems.map fun p => (p.1, (p.2.hist?.bind (s[·]?)).map firstBin)
  | .error _ => []

/-- Three histograms with 1, 2 and 5 entries in the first bin. -/
def threeHists : List (HistObj Unit) :=
  [plainFilled [1/2], plainFilled [1/2, 1/3], plainFilled [1/2, 1/3, 1/4, 1/5, 1/6]]

/-- `{x: 1, y: 2} + {y: 5}`, `* 3`, and both in place. -/
example : binsOf ((someBook [("x", 0), ("y", 1)]).plus plainArith anyOps threeHists (someBook [("y", 2)])) =
      [("x".toList, some 1), ("y".toList, some 7)] ∧
    binsOf ((someBook [("x", 0), ("y", 1)]).times plainArith anyOps 3 threeHists) =
      [("x".toList, some 3), ("y".toList, some 6)] ∧
    (match (someBook [("x", 0)]).iplus plainArith anyOps threeHists (someBook [("y", 2), ("x", 1)]) with
      | .ok q => binsOf (.ok q)
      | .error _ => []) = [("x".toList, some 3), ("y".toList, some 5)] ∧
    (match (someBook [("x", 0), ("y", 1)]).content.itimes plainArith 3 threeHists with
      | .ok s => s.map firstBin
      | .error _ => []) = [3, 6, 5] := by decide +kernel

/-- The hypotheses of `C62_bins_partial` are met. -/
example : InStore threeHists (someBook [("x", 0), ("y", 1)]) ∧ PlainNames (someBook [("x", 0), ("y", 1)]) ∧
    NoSystematics (someBook [("x", 0), ("y", 1)]) ∧ (someBook [("x", 0), ("y", 1)]).flat = [0, 1] := by
  have hb : someBook [("x", 0), ("y", 1)] = .book .book .none (.cons "x".toList (.hist 0) (.cons "y".toList (.hist 1) .nil)) := rfl
  have hat : ∀ p x, (someBook [("x", 0), ("y", 1)]).at p = some x → p = [] ∧ x = someBook [("x", 0), ("y", 1)] ∨
      p = ["x".toList] ∧ x = .hist 0 ∨ p = ["y".toList] ∧ x = .hist 1 := by
    intro p x h
    cases p with
    | nil => cases h; exact .inl ⟨rfl, rfl⟩
    | cons n t =>
      rw [hb, BT.at, BL.find] at h
      by_cases h1 : "x".toList = n
      · rw [if_pos h1] at h
        cases t with
        | nil => cases h; exact .inr (.inl ⟨by rw [h1], rfl⟩)
        | cons m t => cases h
      · rw [if_neg h1, BL.find] at h
        by_cases h2 : "y".toList = n
        · rw [if_pos h2] at h
          cases t with
          | nil => cases h; exact .inr (.inr ⟨by rw [h2], rfl⟩)
          | cons m t => cases h
        · rw [if_neg h2] at h; cases h
  refine ⟨⟨?_, ?_⟩, ?_, ?_, rfl⟩
  · rw [hb]
    simp only [BT.WF, BL.WF, BL.keys]
    decide
  · intro p i h
    rcases hat p _ h with ⟨-, e⟩ | ⟨-, e⟩ | ⟨-, e⟩
    · rw [hb] at e; cases e
    · cases e; decide
    · cases e; decide
  · intro p x h
    rcases hat p x h with ⟨rfl, -⟩ | ⟨rfl, -⟩ | ⟨rfl, -⟩ <;> decide
  · intro p x h
    rcases hat p x h with ⟨-, rfl⟩ | ⟨-, rfl⟩ | ⟨-, rfl⟩
    · rw [hb]; decide
    · decide
    · decide

/-- **C62 is violated**: `c = {x: 1} + {y: 2}; c *= 2` changes both operands. -/
theorem C62_refuted_operands :
    (match (someBook [("x", 0)]).plus plainArith anyOps threeHists (someBook [("y", 1)]) with
      | .ok (s, c) =>
        match c.content.itimes plainArith 2 s with
        | .ok s => s.map firstBin
        | .error _ => []
      | .error _ => []) = [2, 4, 5] := by decide +kernel

/-- **C62 is violated**: `a = {x: 1}; a += {y: 2}; a *= 2` changes the other book. -/
theorem C62_refuted_iadd_shared :
    (match (someBook [("x", 0)]).iplus plainArith anyOps threeHists (someBook [("y", 1)]) with
      | .ok (s, c) =>
        match c.content.itimes plainArith 2 s with
        | .ok s => (valueAt s (someBook [("y", 1)]) ["y".toList]).map firstBin
        | .error _ => none
      | .error _ => none) = some 4 := by decide +kernel

/-- **C62 is violated**: of a histogram that is twice in the book, `*= 2` makes four times as much, `* 2` twice. -/
theorem C62_refuted_twice :
    (match (someBook [("x", 0), ("y", 0)]).content.itimes plainArith 2 threeHists with
      | .ok s => s.map firstBin
      | .error _ => []) = [4, 2, 5] ∧
    binsOf ((someBook [("x", 0), ("y", 0)]).times plainArith anyOps 2 threeHists) =
      [("x".toList, some 2), ("y".toList, some 2)] := by decide +kernel

/-- **C62 is violated** for names with wildcards: on the right side of `+` they are lost, on the left side they raise, and
`+=` with them raises too. -/
theorem C62_refuted_wildcards :
    binsOf ((someBook [("x", 0)]).plus plainArith anyOps threeHists (someBook [("y*", 1)])) = [("x".toList, some 1)] ∧
    (match (someBook [("y*", 1)]).plus plainArith anyOps threeHists (someBook [("x", 0)]) with
      | .ok _ => none
      | .error e => some e) = some .typeError ∧
    (match (someBook [("x", 0)]).iplus plainArith anyOps threeHists (someBook [("y*", 1)]) with
      | .ok _ => none
      | .error (e, _, _) => some e) = some .typeError := by decide +kernel

/-- **C62 is violated** by a book with a histogram that was never filled: it cannot be multiplied.  `*=` then has changed
the histograms before it. -/
theorem C62_refuted_unfilled :
    (match (someBook [("x", 0), ("y", 1)]).times plainArith anyOps 2 [plainFilled [1/2], ⟨plainH, (), none⟩] with
      | .ok _ => none
      | .error e => some e) = some .typeError ∧
    (match (someBook [("x", 0), ("y", 1)]).content.itimes plainArith 2 [plainFilled [1/2], ⟨plainH, (), none⟩] with
      | .ok _ => none
      | .error (e, s) => some (e, s.map firstBin)) = some (.typeError, [2, 0]) := by decide +kernel

/-- **C62 is violated** by an in-place sum that raises: what was added before stays, in the books inside too.  Here
`{in: {x: 1, z: 5}} += {in: {x: 2, y: 2, z: {}}}` raises a TypeError for `z`, but `x` is 3 and there is an entry `y`. -/
theorem C62_refuted_failed :
    (match (BT.book .book .none (.cons "in".toList (someBook [("x", 0), ("z", 2)]) .nil)).iplus plainArith anyOps threeHists
        (.book .book .none (.cons "in".toList
          (.book .book .none (.cons "x".toList (.hist 1) (.cons "y".toList (.hist 1) (.cons "z".toList (someBook []) .nil)))) .nil)) with
      | .ok _ => none
      | .error (e, s, b) => some (e, ["x", "y", "z"].map fun n => (valueAt s b ["in".toList, n.toList]).map firstBin)) =
    some (.typeError, [some 3, some 2, some 5]) := by decide +kernel

/-- Copies of books. -/
example : binsOf ((someBook [("x", 0), ("y", 0), ("z", 2)]).copied plainArith anyOps threeHists) =
      [("x".toList, some 1), ("y".toList, some 1), ("z".toList, some 5)] ∧
    binsOf ((someBook [("x", 0), ("z", 2)]).clearedBook plainArith anyOps threeHists) =
      [("x".toList, some 0), ("z".toList, some 0)] := by decide +kernel

end Verif
