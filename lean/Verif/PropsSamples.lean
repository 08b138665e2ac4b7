import Verif.SamplesLemmas
import Verif.PropsBookArith

/-!
# Samples books: C64
-/

namespace Verif

/-! ## specification -/

/-- The book with the given entries. -/
def BL.ofItems {α : Type} : List (Str × BT α) → BL α
  | [] => .nil
  | (n, x) :: r => .cons n x (BL.ofItems r)

/-- What is given to `SamplesBook`: entries with different names without slashes, of histograms that exist. -/
structure Template (items : List (Str × BT ℕ)) (s : List DVar) : Prop where
  names : ∀ p ∈ items, '/' ∉ p.1
  distinct : (items.map (·.1)).Nodup
  wf : ∀ p ∈ items, p.2.WF
  range : ∀ p ∈ items, ∀ i ∈ p.2.flat, i < s.length

/-- None of the given histograms has been filled. -/
def Unfilled (items : List (Str × BT ℕ)) (s : List DVar) : Prop :=
  ∀ p ∈ items, ∀ i ∈ p.2.flat, ∀ u, s[i]? = some u → u.obj.content = none

/-- Filling a histogram with one batch after the other. -/
def HistDef.fills (H : HistDef) (s : H.State) : List (List Row) → Except Err H.State
  | [] => .ok s
  | r :: rs =>
    match H.fill s r with
    | .ok s => H.fills s rs
    | .error e => .error e.1

/-- `samples[name].fill(...)`, one after the other, as long as nothing is raised. -/
def fillSamples (D : ℕ → HistDef) (b : BT ℕ) : List (Str × (ℕ → List Row)) → Prog → Prog × Option Err
  | [], P => (P, none)
  | (n, batch) :: r, P =>
    match b.at [n] with
    | some (.book _ _ x) =>
      match P.fillBook D x.hists batch with
      | (P, none) => fillSamples D b r P
      | (P, some e) => (P, some e)
    | _ => (P, some .keyError)

/-! ## the constructor -/

variable {o : List DVar → HistOps ℕ}

theorem ofItems_items {α : Type} : ∀ x : BL α, BL.ofItems x.items = x
  | .nil => rfl
  | .cons n x r => by rw [BL.items, BL.ofItems, ofItems_items r]

theorem flat_ofItems {α : Type} : ∀ items : List (Str × BT α), (BL.ofItems items).flat = items.flatMap fun p => p.2.flat
  | [] => rfl
  | (n, x) :: r => by rw [BL.ofItems, BL.flat, flat_ofItems r, List.flatMap_cons]

theorem mapAt_fields {V : Type} {g : V → Except Err V} {s s' : List V} {c : BClass} {f f' : Fields ℕ} {x : BL ℕ} {p : List Str}
    {r : Option (BT ℕ)} (h : MapAt g s s' ((BT.book c f x).at p) r) : MapAt g s s' ((BT.book c f' x).at p) r := by
  cases p with
  | nil => exact h
  | cons n p => exact h

/-- What is known of the samples that have been made, of `s0` histograms before. -/
structure Samples (items : List (Str × BT ℕ)) (s0 s : List DVar) (x : BL ℕ) : Prop where
  pre : s0 <+: s
  ext : ∀ k, s0.length ≤ k → ∀ v, s[k]? = some v → ∃ p ∈ items, ∃ i ∈ p.2.flat, ∃ u, s0[i]? = some u ∧ v = u.copyonfill
  wf : ∀ n y, x.find n = some y → y.WF
  range : ∀ n y, x.find n = some y → ∀ k ∈ y.flat, s0.length ≤ k ∧ k < s.length
  nodup : ∀ n y, x.find n = some y → y.flat.Nodup
  apart : ∀ n m y z, n ≠ m → x.find n = some y → x.find m = some z → ∀ k ∈ y.flat, k ∉ z.flat
  shape : ∀ n y, x.find n = some y → ∀ p,
    MapAt (fun v => .ok v.copyonfill) s0 s ((BT.book .book .none (BL.ofItems items)).at p) (y.at p)

theorem sample_step {items : List (Str × BT ℕ)} {s0 s s' : List DVar} {x : BL ℕ} (ht : Template items s0)
    (hs : Samples items s0 s x) {t c : BT ℕ} {ops : HistOps ℕ} (hm : mkBook ops .book items = .ok t)
    (hc : t.copyonfill o s = .ok (s', c)) (n : Str) : Samples items s0 s' (x.put n c) := by
  obtain ⟨f, xt, rfl, hi⟩ := mkBook_items ht.names ht.distinct hm
  have hxt : xt = BL.ofItems items := by rw [← hi, ofItems_items]
  subst hxt
  have hwf : (BT.book .book f (BL.ofItems items)).WF := by
    refine ⟨?_, ?_⟩
    · rw [keys_items, hi]; exact ht.distinct
    · rw [wf_items, hi]; exact fun p hp => ⟨ht.names p hp, ht.wf p hp⟩
  have hr0 : ∀ i ∈ (BT.book .book f (BL.ofItems items)).flat, i < s0.length := by
    intro i hi
    rw [BT.flat, flat_ofItems, List.mem_flatMap] at hi
    obtain ⟨p, hp, hi⟩ := hi
    exact ht.range p hp i hi
  have hle : s0.length ≤ s.length := hs.pre.length_le
  obtain ⟨h1, h2, h3, h4, h5⟩ := mapNew_T (o := o) (fun v => .ok v.copyonfill) _ s s' c hwf
    (fun i hi => lt_of_lt_of_le (hr0 i hi) hle) hc
  have hcr : ∀ k ∈ c.flat, s.length ≤ k ∧ k < s'.length := by
    intro k hk
    rw [h4, List.mem_range'_1] at hk
    omega
  have hmap : ∀ p, MapAt (fun v => .ok v.copyonfill) s0 s' ((BT.book .book .none (BL.ofItems items)).at p) (c.at p) := by
    intro p
    refine mapAt_fields (f := f) (MapAt.mono hs.pre (List.prefix_refl _) ?_ (h5 p))
    intro i hi
    exact hr0 i (flat_at hi)
  have hfind : ∀ m y, (x.put n c).find m = some y → (m = n ∧ y = c) ∨ (m ≠ n ∧ x.find m = some y) := by
    intro m y h
    by_cases hm : m = n
    · subst hm
      rw [find_put_self] at h
      exact Or.inl ⟨rfl, (Option.some.inj h).symm⟩
    · rw [find_put_ne hm] at h
      exact Or.inr ⟨hm, h⟩
  refine ⟨hs.pre.trans h1, ?_, ?_, ?_, ?_, ?_, ?_⟩
  · intro k hk v hv
    by_cases hks : k < s.length
    · rw [prefix_get h1 hks] at hv
      exact hs.ext k hk v hv
    · have hk' := (List.getElem?_eq_some_iff.1 hv).1
      have hkc : k ∈ c.flat := by
        rw [h4, List.mem_range'_1]; omega
      obtain ⟨p, hp⟩ := flat_has_path c h2 k hkc
      have := h5 p
      rw [hp] at this
      match hat : (BT.book .book f (BL.ofItems items)).at p with
      | none => rw [hat] at this; cases this
      | some (.book _ _ _) => rw [hat] at this; obtain ⟨_, _, h⟩ := this; cases h
      | some (.hist i) =>
        rw [hat] at this
        obtain ⟨k', u, z, e1, _, e3, e4, e5⟩ := this
        cases e1
        have hif := flat_at hat
        have hi0 := hr0 i hif
        rw [BT.flat, flat_ofItems, List.mem_flatMap] at hif
        obtain ⟨q, hq, hiq⟩ := hif
        rw [prefix_get hs.pre hi0] at e4
        rw [hv] at e3
        cases e5
        exact ⟨q, hq, i, hiq, u, e4, Option.some.inj e3⟩
  · intro m y hy
    rcases hfind m y hy with ⟨_, rfl⟩ | ⟨_, hy⟩
    · exact h2
    · exact hs.wf m y hy
  · intro m y hy k hk
    rcases hfind m y hy with ⟨_, rfl⟩ | ⟨_, hy⟩
    · have := hcr k hk; omega
    · have := hs.range m y hy k hk
      have := h1.length_le
      omega
  · intro m y hy
    rcases hfind m y hy with ⟨_, rfl⟩ | ⟨_, hy⟩
    · rw [h4]; exact List.nodup_range'
    · exact hs.nodup m y hy
  · intro m m' y z hmm hy hz k hk hk'
    rcases hfind m y hy with ⟨e1, e2⟩ | ⟨_, hy2⟩
    · rcases hfind m' z hz with ⟨e3, _⟩ | ⟨_, hz2⟩
      · exact hmm (e1.trans e3.symm)
      · have := hcr k (e2 ▸ hk)
        have := hs.range m' z hz2 k hk'
        omega
    · rcases hfind m' z hz with ⟨_, e4⟩ | ⟨_, hz2⟩
      · have := hcr k (e4 ▸ hk')
        have := hs.range m y hy2 k hk
        omega
      · exact hs.apart m m' y z hmm hy2 hz2 k hk hk'
  · intro m y hy p
    rcases hfind m y hy with ⟨rfl, rfl⟩ | ⟨_, hy⟩
    · exact hmap p
    · refine MapAt.mono (List.prefix_refl _) h1 ?_ (hs.shape m y hy p)
      intro i hi
      exact hr0 i (by rw [BT.flat]; exact flat_at (b := .book .book .none (BL.ofItems items)) hi)

theorem made_ok {r : Except (Err × BT ℕ) (BT ℕ)} {b : BT ℕ} (h : made r = .ok b) : r = .ok b := by
  cases r with
  | ok b' => cases h; rfl
  | error e => cases h

theorem samplesLoop_spec {items : List (Str × BT ℕ)} {s0 : List DVar} (ht : Template items s0) :
    ∀ (names : List Str) (s : List DVar) (f : Fields ℕ) (x : BL ℕ) (s' : List DVar) (b : BT ℕ), (∀ n ∈ names, '/' ∉ n) →
      Samples items s0 s x → samplesLoop o items names s (.book .samples f x) = .ok (s', b) →
      ∃ f' x', b = .book .samples f' x' ∧ Samples items s0 s' x' ∧
        ∀ n, (x'.find n).isSome ↔ (x.find n).isSome ∨ n ∈ names
  | [], s, f, x, s', b, _, hs, h => by
    rw [samplesLoop] at h
    simp only [BT.changed, made] at h
    cases h
    exact ⟨f, x, rfl, hs, by simp⟩
  | n :: ns, s, f, x, s', b, hn, hs, h => by
    rw [samplesLoop] at h
    cases hm : made (mkBook (o s) .book items) with
    | error e => rw [hm] at h; cases h
    | ok t =>
      rw [hm] at h
      simp only at h
      cases hc : t.copyonfill o s with
      | error e => rw [hc] at h; cases h
      | ok r =>
        obtain ⟨s1, c⟩ := r
        rw [hc] at h
        simp only at h
        rw [BT.setitem, comps_self (hn n (by simp)), BT.setP] at h
        simp only [BT.changed, made] at h
        obtain ⟨f', x', e1, e2, e3⟩ := samplesLoop_spec ht ns s1 f (x.put n c) s' b (fun m hm => hn m (by simp [hm]))
          (sample_step ht hs (made_ok hm) hc n) h
        refine ⟨f', x', e1, e2, ?_⟩
        intro m
        rw [e3 m]
        by_cases hmn : m = n
        · subst hmn; simp [find_put_self]
        · rw [find_put_ne hmn]; simp [hmn]

theorem samplesBook_spec {items : List (Str × BT ℕ)} {s0 s' : List DVar} {names : List Str} {b : BT ℕ}
    (ht : Template items s0) (hn : ∀ n ∈ names, '/' ∉ n) (h : samplesBook o items names s0 = .ok (s', b)) :
    ∃ f x, b = .book .samples f x ∧ Samples items s0 s' x ∧ ∀ n, (x.find n).isSome ↔ n ∈ names := by
  obtain ⟨f, x, h1, h2, h3⟩ := samplesLoop_spec ht names s0 .absent .nil s' b hn
    ⟨List.prefix_refl _, fun k hk v hv => absurd (List.getElem?_eq_some_iff.1 hv).1 (by omega),
      fun n y h => (by cases h), fun n y h => (by cases h), fun n y h => (by cases h), fun n m y z _ h => (by cases h),
      fun n y h => (by cases h)⟩ h
  exact ⟨f, x, h1, h2, fun n => by rw [h3 n]; simp [BL.find]⟩

theorem samplesLoop_isOk {items : List (Str × BT ℕ)} {s0 : List DVar} (ht : Template items s0)
    (hc : ∀ p ∈ items, ∀ q x, p.2.at q = some x → x.cls? ≠ some .systematics) :
    ∀ (names : List Str) (s : List DVar) (f : Fields ℕ) (x : BL ℕ), (∀ n ∈ names, '/' ∉ n) → s0 <+: s →
      ∃ r, samplesLoop o items names s (.book .samples f x) = .ok r
  | [], s, f, x, _, _ => ⟨_, rfl⟩
  | n :: ns, s, f, x, hn, hp => by
    obtain ⟨t, hm⟩ := mkBook_isOk (o := o s) (c := .book) (by decide) ht.names ht.distinct
    obtain ⟨ft, xt, rfl, hi⟩ := mkBook_items ht.names ht.distinct hm
    have hxt : xt = BL.ofItems items := by rw [← hi, ofItems_items]
    subst hxt
    have hwf : (BT.book .book ft (BL.ofItems items)).WF := by
      refine ⟨?_, ?_⟩
      · rw [keys_items, hi]; exact ht.distinct
      · rw [wf_items, hi]; exact fun p hp => ⟨ht.names p hp, ht.wf p hp⟩
    have hsys : ∀ p y, (BT.book .book ft (BL.ofItems items)).at p = some y → y.cls? ≠ some .systematics := by
      intro p y hy
      cases p with
      | nil => cases hy; simp [BT.cls?]
      | cons k p =>
        rw [BT.at] at hy
        cases hf : (BL.ofItems items).find k with
        | none => rw [hf] at hy; cases hy
        | some z =>
          rw [hf] at hy
          have hz := (find_some_items hwf.1).1 hf
          rw [hi] at hz
          exact hc _ hz p y hy
    have hval : ∀ i ∈ (BT.book .book ft (BL.ofItems items)).flat, ∃ u z, s[i]? = some u ∧
        (fun v : DVar => (Except.ok v.copyonfill : Except Err DVar)) u = .ok z := by
      intro i hif
      rw [BT.flat, flat_ofItems, List.mem_flatMap] at hif
      obtain ⟨p, hp', hif⟩ := hif
      have hlt := ht.range p hp' i hif
      exact ⟨s0[i], _, prefix_some hp (List.getElem?_eq_getElem hlt), rfl⟩
    obtain ⟨s1, c, h1, h2⟩ := mapNew_isOk_T (o := o) (fun v : DVar => .ok v.copyonfill) _ s hwf hsys hval
    obtain ⟨r, hr⟩ := samplesLoop_isOk ht hc ns s1 f (x.put n c) (fun m hm => hn m (by simp [hm])) (hp.trans h2)
    refine ⟨r, ?_⟩
    have h1 : BT.copyonfill o s (BT.book .book ft (BL.ofItems items)) = .ok (s1, c) := h1
    rw [samplesLoop, hm, made]
    simp only
    rw [h1]
    simp only
    rw [BT.setitem, comps_self (hn n (by simp)), BT.setP]
    simp only [BT.changed, made]
    exact hr

/-! ## what is known of the program -/

section
variable {D : ℕ → HistDef}

/-- The histograms that were there after the constructor are those of the store `s`, and the `n0`-th and later ones have no
object in common with any other. -/
structure Kept (D : ℕ → HistDef) (n0 : ℕ) (s : List DVar) (P : Prog) : Prop where
  fine : P.Fine D
  len : s.length ≤ P.vars.length
  apart : ∀ i k, n0 ≤ i → i < s.length → k < s.length → i ≠ k → P.Apart D i k
  defs : ∀ k, k < s.length → P.vars[k]?.map DVar.d = s[k]?.map DVar.d

theorem kept_new {items : List (Str × BT ℕ)} {P : Prog} {s : List DVar} {x : BL ℕ} (hP : P.Fine D)
    (hs : Samples items P.vars s x) (hu : Unfilled items P.vars) : Kept D P.vars.length s ⟨P.heaps, s⟩ := by
  obtain ⟨l, rfl⟩ := hs.pre
  have hl : ∀ v ∈ l, v.obj.content = none := by
    intro v hv
    obtain ⟨j, hj, hjv⟩ := List.getElem_of_mem hv
    obtain ⟨p, hp, i, hi, u, h1, rfl⟩ := hs.ext (P.vars.length + j) (by omega) v (by
      rw [List.getElem?_append_right (by omega)]
      simp [hj, hjv])
    exact hu p hp i hi u h1
  refine ⟨append_fine hP l hl, le_refl _, ?_, fun _ _ => rfl⟩
  intro i k hi _ hk hik
  exact append_apart hP l hl i k hi (by rw [List.length_append] at hk; exact hk) hik

theorem kept_run {n0 : ℕ} {s : List DVar} {P : Prog} (h : Kept D n0 s P) (ops : List POp) :
    (P.run D ops).Fine D ∧ s.length ≤ (P.run D ops).vars.length ∧
    ∀ i k, n0 ≤ i → i < s.length → k < s.length → i ≠ k → (P.run D ops).Apart D i k := by
  obtain ⟨h1, h2, h3⟩ := run_spec ops P h.fine
  have := h.len
  exact ⟨h1, by omega, fun i k hi hi' hk hik => h3 i k (by omega) (by omega) (h.apart i k hi hi' hk hik)⟩

theorem kept_fill {n0 : ℕ} {s : List DVar} {P : Prog} (h : Kept D n0 s P) (is : List ℕ) (batch : ℕ → List Row) :
    Kept D n0 s (P.fillBook D is batch).1 := by
  obtain ⟨h1, h2, h3, _⟩ := fillBook_spec batch is P h.fine
  have hl := h.len
  refine ⟨h1, by omega, fun i k hi hi' hk hik => h3 i k (by omega) (by omega) (h.apart i k hi hi' hk hik), fun k hk => ?_⟩
  rw [fillBook_d batch is P h.fine k (by omega)]
  exact h.defs k hk

/-- The batches given to one of the samples. -/
def batchesOf (n : Str) (d : ℕ) (l : List (Str × (ℕ → List Row))) : List (List Row) :=
  (l.filter fun p => decide (p.1 = n)).map fun p => p.2 d

theorem fills_samples {items : List (Str × BT ℕ)} {s0 s : List DVar} {f : Fields ℕ} {x : BL ℕ}
    (hs : Samples items s0 s x) {n : Str} {y : BT ℕ} (hy : x.find n = some y) {k : ℕ} (hk : k ∈ y.flat) {d : ℕ}
    (hd : s[k]?.map DVar.d = some d) : ∀ (l : List (Str × (ℕ → List Row))) (P : Prog) (st : (D d).State),
      Kept D s0.length s P → P.view D d k = some st → (fillSamples D (.book .samples f x) l P).2 = none →
      ∃ st', (D d).fills st (batchesOf n d l) = .ok st' ∧ (fillSamples D (.book .samples f x) l P).1.view D d k = some st'
  | [], P, st, _, hv, _ => ⟨st, rfl, hv⟩
  | (m, batch) :: l, P, st, hP, hv, hex => by
    have hkr := hs.range n y hy k hk
    have hl := hP.len
    rw [fillSamples] at hex ⊢
    cases hat : (BT.book .samples f x).at [m] with
    | none => rw [hat] at hex; cases hex
    | some z =>
      cases z with
      | hist _ => rw [hat] at hex; cases hex
      | book c g z =>
        have hz : x.find m = some (.book c g z) := by
          rw [BT.at] at hat
          cases hf : x.find m with
          | none => rw [hf] at hat; cases hat
          | some w => rw [hf] at hat; cases hat; rfl
        rw [hat] at hex
        simp only at hex ⊢
        have hflat : z.hists = (BT.book c g z).flat := by rw [hists_flat, BT.flat]
        have hkept := kept_fill hP z.hists batch
        have hin : ∀ i ∈ z.hists, s0.length ≤ i ∧ i < s.length := fun i hi => hs.range m _ hz i (hflat ▸ hi)
        have hself : m = n → (P.fillBook D z.hists batch).2 = none → ∃ st1, (D d).fill st (batch d) = .ok st1 ∧
            (P.fillBook D z.hists batch).1.view D d k = some st1 := by
          intro hmn hnone
          subst hmn
          rw [hy, Option.some.injEq] at hz
          subst hz
          refine fillBook_value batch z.hists P hP.fine (hflat ▸ hs.nodup m _ hy) (fun i hi => ?_) (fun i hi j hj hij => ?_)
            hnone k (hflat ▸ hk) d ?_ st hv
          · have := hin i hi; omega
          · exact hP.apart i j (hin i hi).1 (hin i hi).2 (hin j hj).2 hij
          · rw [hP.defs k hkr.2]; exact hd
        have hother : m ≠ n → (P.fillBook D z.hists batch).1.view D d k = some st := by
          intro hmn
          rw [(fillBook_spec batch z.hists P hP.fine).2.2.2 k (by omega) ?_ d]
          · exact hv
          · intro i hi
            have hr := hin i hi
            have hik : i ≠ k := fun (e : i = k) => hs.apart m n _ _ hmn hz hy i (hflat ▸ hi) (e ▸ hk)
            exact ⟨by omega, hik, hP.apart i k hr.1 hr.2 hkr.2 hik⟩
        revert hex hkept hself hother
        cases P.fillBook D z.hists batch with
        | mk P' e =>
          intro hex hkept hself hother
          cases e with
          | some e => cases hex
          | none =>
            simp only at hex hkept hself hother ⊢
            by_cases hmn : m = n
            · obtain ⟨st1, e1, e2⟩ := hself hmn trivial
              have hb : batchesOf n d ((m, batch) :: l) = batch d :: batchesOf n d l := by simp [batchesOf, hmn]
              rw [hb, HistDef.fills, e1]
              exact fills_samples hs hy hk hd l P' st1 hkept e2 hex
            · have hb : batchesOf n d ((m, batch) :: l) = batchesOf n d l := by simp [batchesOf, hmn]
              rw [hb]
              exact fills_samples hs hy hk hd l P' st hkept (hother hmn) hex

end

/-! ## the properties -/

section
variable {D : ℕ → HistDef}

/-- **C64**, the constructor: for entries with different names, without slashes in them or in the names of the samples, and
without `SystematicsBook`, it raises nothing.  There is one book for each name; each has the paths of the template, with a
histogram that has the same content under each path; all these histograms are new ones.

Missing: templates with `SystematicsBook`s. -/
theorem C64_made_partial {P : Prog} {items : List (Str × BT ℕ)} {names : List Str} (ht : Template items P.vars)
    (hn : ∀ n ∈ names, '/' ∉ n) (hc : ∀ p ∈ items, ∀ q x, p.2.at q = some x → x.cls? ≠ some .systematics) :
    ∃ s f x, samplesBook o items names P.vars = .ok (s, .book .samples f x) ∧ P.vars <+: s ∧
      (∀ n, (x.find n).isSome ↔ n ∈ names) ∧
      ∀ n y, x.find n = some y → y.flat.Nodup ∧ (∀ m z, n ≠ m → x.find m = some z → ∀ k ∈ y.flat, k ∉ z.flat) ∧
        ∀ p,
          match (BT.book .book .none (BL.ofItems items)).at p with
          | none => y.at p = none
          | some (.book c _ _) => ∃ g z, y.at p = some (.book c g z)
          | some (.hist i) => ∃ k, y.at p = some (.hist k) ∧ P.vars.length ≤ k ∧
              s[k]?.map DVar.d = P.vars[i]?.map DVar.d ∧ ∀ d, (Prog.mk P.heaps s).view D d k = P.view D d i := by
  obtain ⟨⟨s, b⟩, h⟩ := samplesLoop_isOk (o := o) ht hc names P.vars .absent .nil hn (List.prefix_refl _)
  obtain ⟨f, x, rfl, hs, hk⟩ := samplesBook_spec (o := o) ht hn h
  refine ⟨s, f, x, h, hs.pre, hk, fun n y hy => ⟨hs.nodup n y hy, fun m z hnm hz => hs.apart n m y z hnm hy hz, fun p => ?_⟩⟩
  have hsh := hs.shape n y hy p
  split
  · rename_i hat; rw [hat] at hsh; exact hsh
  · rename_i hat; rw [hat] at hsh; exact hsh
  · rename_i i hat
    rw [hat] at hsh
    obtain ⟨k, u, z, e1, e2, e3, e4, e5⟩ := hsh
    cases e5
    refine ⟨k, e1, e2, by rw [e3, e4]; rfl, fun d => ?_⟩
    unfold Prog.view World.view
    rw [world_vars, world_vars, e3, e4]
    unfold Prog.world DVar.of DVar.copyonfill HObj.state
    simp only [Option.map_some, Option.bind_some]
    by_cases hd : u.d = d
    · simp only [if_pos hd]
    · simp only [if_neg hd]

/-- **C64**, if no histogram of the template had been filled: whatever the program does before and after making the samples
book, filling some of the histograms of one sample together, as its book, its sub-books and its views do, or any operation on
one of them, changes neither a histogram of another sample nor one that there was before; and the other way around.

Missing: templates that had been filled; see `C64_refuted`. -/
theorem C64_independent_partial (ds : List ℕ) (pre post : List POp) {items : List (Str × BT ℕ)} {names : List Str} {s : List DVar}
    {f : Fields ℕ} {x : BL ℕ} (ht : Template items ((Prog.start ds).run D pre).vars)
    (hu : Unfilled items ((Prog.start ds).run D pre).vars) (hn : ∀ n ∈ names, '/' ∉ n)
    (h : samplesBook o items names ((Prog.start ds).run D pre).vars = .ok (s, .book .samples f x))
    {n : Str} {y : BT ℕ} (hy : x.find n = some y) (k : ℕ)
    (hk : k < ((Prog.start ds).run D pre).vars.length ∨ ∃ m z, m ≠ n ∧ x.find m = some z ∧ k ∈ z.flat) :
    let P := (Prog.mk ((Prog.start ds).run D pre).heaps s).run D post
    (∀ is batch d, (∀ i ∈ is, i ∈ y.flat) → (P.fillBook D is batch).1.view D d k = P.view D d k) ∧
    (∀ e op d, (∀ i, op.writes = some i → i ∈ y.flat) → (P.step D e op).1.view D d k = P.view D d k) ∧
    (∀ batch d, ∀ i ∈ y.flat, (P.fillBook D [k] batch).1.view D d i = P.view D d i) := by
  obtain ⟨f', x', e, hs, _⟩ := samplesBook_spec (o := o) ht hn h
  cases e
  intro P
  obtain ⟨h1, h2, h3⟩ := kept_run (kept_new (run_spec pre _ (fine_start ds)).1 hs hu) post
  have hks : k < s.length := by
    rcases hk with hk | ⟨m, z, _, hz, hk⟩
    · exact lt_of_lt_of_le hk hs.pre.length_le
    · exact (hs.range m z hz k hk).2
  have hne : ∀ i ∈ y.flat, i ≠ k := by
    intro i hi (e : i = k)
    rcases hk with hk | ⟨m, z, hmn, hz, hk⟩
    · have := hs.range n y hy i hi; omega
    · exact hs.apart n m y z (Ne.symm hmn) hy hz i hi (e ▸ hk)
  have hap : ∀ i ∈ y.flat, i < P.vars.length ∧ i ≠ k ∧ P.Apart D i k := by
    intro i hi
    have hr := hs.range n y hy i hi
    exact ⟨lt_of_lt_of_le hr.2 h2, hne i hi, h3 i k hr.1 hr.2 hks (hne i hi)⟩
  refine ⟨fun is batch d hi => ?_, fun e op d hi => ?_, fun batch d i hi => ?_⟩
  · exact (fillBook_spec batch is P h1).2.2.2 k (lt_of_lt_of_le hks h2) (fun i hi' => hap i (hi i hi')) d
  · exact apart_frame (lt_of_lt_of_le hks h2) h1 e op (fun i hw _ => (hap i (hi i hw)).2) d
  · obtain ⟨a1, a2, a3⟩ := hap i hi
    refine (fillBook_spec batch [k] P h1).2.2.2 i a1 (fun j hj => ?_) d
    rw [List.mem_singleton] at hj
    subst hj
    exact ⟨lt_of_lt_of_le hks h2, Ne.symm a2, a3.symm⟩

/-- **C64**, the values: if no histogram of the template had been filled, then after filling the samples in any order each
histogram is as if it alone had been filled with the data given to its sample.

Missing: templates that had been filled; see `C64_refuted`. -/
theorem C64_values_partial (ds : List ℕ) (pre : List POp) {items : List (Str × BT ℕ)} {names : List Str} {s : List DVar}
    {f : Fields ℕ} {x : BL ℕ} (ht : Template items ((Prog.start ds).run D pre).vars)
    (hu : Unfilled items ((Prog.start ds).run D pre).vars) (hn : ∀ n ∈ names, '/' ∉ n)
    (h : samplesBook o items names ((Prog.start ds).run D pre).vars = .ok (s, .book .samples f x))
    (l : List (Str × (ℕ → List Row)))
    (hex : (fillSamples D (.book .samples f x) l ⟨((Prog.start ds).run D pre).heaps, s⟩).2 = none)
    {n : Str} {y : BT ℕ} (hy : x.find n = some y) {k d : ℕ} (hk : k ∈ y.flat) (hd : s[k]?.map DVar.d = some d) :
    ∃ st, (D d).fills none (batchesOf n d l) = .ok st ∧
      (fillSamples D (.book .samples f x) l ⟨((Prog.start ds).run D pre).heaps, s⟩).1.view D d k = some st := by
  obtain ⟨f', x', e, hs, _⟩ := samplesBook_spec (o := o) ht hn h
  cases e
  refine fills_samples hs hy hk hd l _ none (kept_new (run_spec pre _ (fine_start ds)).1 hs hu) ?_ hex
  have hr := hs.range n y hy k hk
  have hv : s[k]? = some s[k] := List.getElem?_eq_getElem hr.2
  obtain ⟨p, hp, i, hi, u, h1, h2⟩ := hs.ext k hr.1 _ hv
  have hc := hu p hp i hi u h1
  rw [h2] at hv
  unfold Prog.view World.view
  rw [world_vars]
  simp only
  rw [hv]
  have hof : (DVar.of d u.copyonfill).content = none := by
    unfold DVar.of DVar.copyonfill
    split
    · exact hc
    · rfl
  simp only [Option.map_some, Option.bind_some, HObj.state, hof]

/-- Filling histograms one by one. -/
def fillEach (D : ℕ → HistDef) : List (ℕ × (ℕ → List Row)) → Prog → Prog
  | [], P => P
  | (i, batch) :: r, P => fillEach D r (P.fillHist D i batch).1

/-- **C64**, for any template, filled or not, if the histograms of the samples are filled one by one, with `fill` of each of
them: a fill of one of them changes no other histogram.

Missing: filling them through the book, for filled templates; see `C64_refuted`.  Nothing else may happen in between: filling
the original instead changes the samples (`C28_refuted_original`). -/
theorem C64_one_by_one_partial (ds : List ℕ) (pre : List POp) {items : List (Str × BT ℕ)} {names : List Str} {s : List DVar}
    {f : Fields ℕ} {x : BL ℕ} (ht : Template items ((Prog.start ds).run D pre).vars) (hn : ∀ n ∈ names, '/' ∉ n)
    (h : samplesBook o items names ((Prog.start ds).run D pre).vars = .ok (s, .book .samples f x))
    (l : List (ℕ × (ℕ → List Row))) (hl : ∀ p ∈ l, ((Prog.start ds).run D pre).vars.length ≤ p.1 ∧ p.1 < s.length)
    {n : Str} {y : BT ℕ} (hy : x.find n = some y) {i : ℕ} (hi : i ∈ y.flat) (batch : ℕ → List Row) (k d : ℕ)
    (hk : k < s.length) (hki : k ≠ i) :
    let P := fillEach D l ⟨((Prog.start ds).run D pre).heaps, s⟩
    (P.fillHist D i batch).1.view D d k = P.view D d k := by
  obtain ⟨f', x', e, hs, _⟩ := samplesBook_spec (o := o) ht hn h
  cases e
  have key : ∀ (l : List (ℕ × (ℕ → List Row))) (P : Prog), P.Fine D → P.vars.length = s.length →
      (∀ j, ((Prog.start ds).run D pre).vars.length ≤ j → j < s.length → P.Ready D j) →
      (∀ p ∈ l, ((Prog.start ds).run D pre).vars.length ≤ p.1 ∧ p.1 < s.length) →
      (fillEach D l P).Fine D ∧ (fillEach D l P).vars.length = s.length ∧
      ∀ j, ((Prog.start ds).run D pre).vars.length ≤ j → j < s.length → (fillEach D l P).Ready D j := by
    intro l
    induction l with
    | nil => intro P h1 h2 h3 _; exact ⟨h1, h2, h3⟩
    | cons p l ih =>
      intro P h1 h2 h3 h4
      obtain ⟨j, b⟩ := p
      have hj := h4 (j, b) (by simp)
      simp only at hj
      obtain ⟨a1, a2, a3, a4⟩ := fillHist_ready h1 (by omega) (h3 j hj.1 hj.2) b
      refine ih _ a1 (by rw [fillHist_length]; exact h2) ?_ (fun p hp => h4 p (by simp [hp]))
      intro j' hj1 hj2
      by_cases hjj : j' = j
      · subst hjj; exact a2
      · exact a4 j' (by omega) hjj (h3 j' hj1 hj2)
  obtain ⟨l0, hl0⟩ := hs.pre
  have hfine : (Prog.mk ((Prog.start ds).run D pre).heaps s).Fine D := by
    rw [← hl0]
    refine append_shared (run_spec pre _ (fine_start ds)).1 l0 ?_
    intro v hv
    obtain ⟨j, hj, hjv⟩ := List.getElem_of_mem hv
    obtain ⟨p, hp, i, hi, u, h1, h2⟩ := hs.ext (((Prog.start ds).run D pre).vars.length + j) (by omega) v (by
      rw [← hl0, List.getElem?_append_right (by omega)]
      simp [hj, hjv])
    exact ⟨u, List.mem_of_getElem? h1, h2⟩
  obtain ⟨b1, b2, b3⟩ := key l _ hfine rfl (fun j hj1 hj2 => by
    left
    have hv : s[j]? = some s[j] := List.getElem?_eq_getElem hj2
    obtain ⟨p, hp, i, hi, u, h1, h2⟩ := hs.ext j hj1 _ hv
    exact ⟨_, hv, by rw [h2]; rfl⟩) hl
  have hr := hs.range n y hy i hi
  intro P
  exact (fillHist_ready b1 (by omega) (b3 i hr.1 hr.2) batch).2.2.1 k (by omega) hki d

end

/-! ## examples, and the refutation -/

/-- All histograms are `Hist(bin("x", 2, 0, 2), weight="w")`. -/
def exD : ℕ → HistDef := fun _ => exW

/-- One row in the first bin with the given weight. -/
def exB (w : ℚ) : ℕ → List Row := fun _ => [⟨[], [.num (.fin 0)], [], some w⟩]

/-- `{"h": h, "k": k}` of two histograms. -/
def exItems : List (Str × BT ℕ) := [("h".toList, .hist 0), ("k".toList, .hist 1)]

/-- Nothing is asked of the histograms. -/
def exO : List DVar → HistOps ℕ := fun _ => ⟨fun _ _ => true, fun _ => false⟩

theorem exItems_template (P : Prog) (h : 2 ≤ P.vars.length) : Template exItems P.vars := by
  refine ⟨?_, ?_, ?_, ?_⟩
  · decide
  · decide
  · intro p hp
    simp only [exItems, List.mem_cons, List.not_mem_nil, or_false] at hp
    rcases hp with rfl | rfl <;> trivial
  · intro p hp i hi
    simp only [exItems, List.mem_cons, List.not_mem_nil, or_false] at hp
    rcases hp with rfl | rfl
    · simp only [BT.flat, List.mem_singleton] at hi; omega
    · simp only [BT.flat, List.mem_singleton] at hi; omega

/-- One of the samples. -/
def exSample (k : ℕ) : BT ℕ := .book .book .none (.cons "h".toList (.hist k) (.cons "k".toList (.hist (k + 1)) .nil))

/-- `SamplesBook(["a", "b"], {"h": h, "k": k})`. -/
def exSamples : BL ℕ := .cons "a".toList (exSample 2) (.cons "b".toList (exSample 4) .nil)

/-- The histograms after it. -/
def exStore (P : Prog) : List DVar :=
  P.vars ++ (P.vars.take 2 ++ P.vars.take 2).map DVar.copyonfill

/-- The samples book of two histograms. -/
theorem exSamples_made (P : Prog) (h : P.vars.length = 2) : samplesBook exO exItems ["a".toList, "b".toList] P.vars =
    .ok (exStore P, .book .samples .absent exSamples) := by
  obtain ⟨heaps, vars⟩ := P
  match vars, h with
  | [_, _], _ => rfl

/-- A program that fills the histograms. -/
def exPre : List POp := [.hist 0 (.fill 0 (exB 3 0)), .hist 0 (.fill 1 (exB 4 0))]

theorem exSamples_filled : samplesBook exO exItems ["a".toList, "b".toList] ((Prog.start [0, 0]).run exD exPre).vars =
    .ok (exStore ((Prog.start [0, 0]).run exD exPre), .book .samples .absent exSamples) :=
  exSamples_made _ (by decide +kernel)

/-- The hypotheses of the theorems for templates that were not filled are met; two samples are filled in turn, and each
histogram has what its sample was given. -/
example : Template exItems (Prog.start [0, 0]).vars ∧ Unfilled exItems (Prog.start [0, 0]).vars ∧
    (∀ n ∈ ["a".toList, "b".toList], '/' ∉ n) ∧
    exSamples.find "a".toList = some (exSample 2) ∧ exSamples.find "b".toList = some (exSample 4) ∧
    (fillSamples exD (.book .samples .absent exSamples) [("a".toList, exB 3), ("b".toList, exB 5), ("a".toList, exB 7)]
      ⟨(Prog.start [0, 0]).heaps, exStore (Prog.start [0, 0])⟩).2 = none ∧
    (List.range 6).map (fun k => (((fillSamples exD (.book .samples .absent exSamples)
      [("a".toList, exB 3), ("b".toList, exB 5), ("a".toList, exB 7)]
      ⟨(Prog.start [0, 0]).heaps, exStore (Prog.start [0, 0])⟩).1.view exD 0 k).map fun s => exW.read s [] [1] 0)) =
      [some 0, some 0, some 10, some 10, some 5, some 5] ∧
    batchesOf "a".toList 0 [("a".toList, exB 3), ("b".toList, exB 5), ("a".toList, exB 7)] = [exB 3 0, exB 7 0] := by
  refine ⟨exItems_template _ (by decide), ?_, by decide, rfl, rfl, ?_, ?_, rfl⟩
  · intro p hp i hi u hu
    obtain ⟨w, -, rfl⟩ := List.mem_map.1 (List.mem_of_getElem? hu)
    rfl
  · decide +kernel
  · decide +kernel

/-- The hypotheses of `C64_made_partial`. -/
example : ∀ p ∈ exItems, ∀ q x, p.2.at q = some x → x.cls? ≠ some .systematics := by
  intro p hp q x h
  simp only [exItems, List.mem_cons, List.not_mem_nil, or_false] at hp
  rcases hp with rfl | rfl <;>
  · cases q with
    | nil => cases h; simp [BT.cls?]
    | cons n q => cases h

/-- Filled templates, with the histograms of the samples filled one by one. -/
example : (List.range 6).map (fun k => ((fillEach exD [(2, exB 5), (4, exB 7), (2, exB 1)]
      ⟨((Prog.start [0, 0]).run exD exPre).heaps, exStore ((Prog.start [0, 0]).run exD exPre)⟩).view exD 0 k).map
      fun s => exW.read s [] [1] 0) = [some 3, some 4, some 9, some 4, some 10, some 4] := by decide +kernel

/-- **C64** does not hold for templates that had been filled: `fill` of a book does not look at `_copyonfill`, so filling
one sample changes the other one, and the histograms the samples were made of. -/
theorem C64_refuted : ¬ ∀ (D : ℕ → HistDef) (o : List DVar → HistOps ℕ) (ds : List ℕ) (pre : List POp)
    (items : List (Str × BT ℕ)) (names : List Str) (s : List DVar) (f : Fields ℕ) (x : BL ℕ),
    Template items ((Prog.start ds).run D pre).vars → (∀ n ∈ names, '/' ∉ n) →
    samplesBook o items names ((Prog.start ds).run D pre).vars = .ok (s, .book .samples f x) →
    ∀ (n m : Str) (y z : BT ℕ) (k d : ℕ) (batch : ℕ → List Row), n ≠ m → x.find n = some y → x.find m = some z → k ∈ z.flat →
      ((Prog.mk ((Prog.start ds).run D pre).heaps s).fillBook D y.flat batch).1.view D d k =
      (Prog.mk ((Prog.start ds).run D pre).heaps s).view D d k := by
  intro h
  have h1 := h exD exO [0, 0] exPre exItems ["a".toList, "b".toList] _ _ _ (exItems_template _ (by decide +kernel)) (by decide)
    exSamples_filled "a".toList "b".toList (exSample 2) (exSample 4) 4 0 (exB 5) (by decide) rfl rfl (by decide)
  have h2 := congrArg (Option.map (fun s => exW.read s [] [1] 0)) h1
  revert h2
  decide +kernel

/-- The bins of all histograms after filling sample `a` of the filled template: all of them have changed. -/
example : (List.range 6).map (fun k => ((((Prog.mk ((Prog.start [0, 0]).run exD exPre).heaps
      (exStore ((Prog.start [0, 0]).run exD exPre))).fillBook exD (exSample 2).flat (exB 5)).1.view exD 0 k).map
      fun s => exW.read s [] [1] 0)) = [some 8, some 9, some 8, some 9, some 8, some 9] := by decide +kernel

/-- **C64**, among histograms of several definitions: adding one of another definition is refused and changes nothing. -/
theorem C64_mixed_refused (D : ℕ → HistDef) (P : Prog) (d i j : ℕ)
    (h : P.vars[i]?.map DVar.d ≠ some d ∨ P.vars[j]?.map DVar.d ≠ some d) :
    P.step D d (.iadd i j) = (P, some .typeError) ∧ P.step D d (.add i j) = (P, some .typeError) := by
  have : ¬ (P.vars[i]?.map DVar.d = some d ∧ P.vars[j]?.map DVar.d = some d) := by tauto
  constructor
  · simp only [Prog.step, Op.refs, List.all_cons, List.all_nil, Bool.and_true, Bool.and_eq_true, decide_eq_true_eq, if_neg this]
  · simp only [Prog.step, Op.refs, List.all_cons, List.all_nil, Bool.and_true, Bool.and_eq_true, decide_eq_true_eq, if_neg this]

example : (Prog.start [0, 1]).step exD 0 (.iadd 0 1) = (Prog.start [0, 1], some .typeError) :=
  (C64_mixed_refused exD (Prog.start [0, 1]) 0 0 1 (Or.inr (by decide))).1

end Verif
