import Verif.SpecVegaHeat
import Verif.PropsVegaOutline
import Verif.PropsVegaChain
import Verif.PropsVegaHeat

/-!
# Lemmas on legends
-/

namespace Verif

/-! ## specification -/

/-- The channel gives colours. -/
def ChanKind.colours : ChanKind → Bool
  | .overlay => true
  | .stack _ => true
  | _ => false

/-- The text is that of a value on axis number `n`: of a key that some row has, or of a bin. -/
def HistDef.TextOf (H : HistDef) (F : Fmt) (rows : List Row) (n : ℕ) (s : String) : Prop :=
  match H.axisAt n with
  | some (.inl g) => ∃ r ∈ rows, ∃ k, (List.zipWith GroupAxis.key H.groups r.gvals).getD n none = some k ∧ s = g.legend F k
  | some (.inr a) => ∃ i, i < a.totbins ∧ s = (a.written i).text F
  | none => False

/-- The texts of a legend are in the order of the axis, each key or bin once: keys of groups increase strictly (as values), bins are all bins of the axis from
low to high, and NaN is last. -/
def HistDef.LegendOrder (H : HistDef) (F : Fmt) (n : ℕ) (texts : List String) : Prop :=
  match H.axisAt n with
  | some (.inl g) => ∃ ks : List Key, texts = ks.map (g.legend F) ∧ ks.Pairwise Key.below
  | some (.inr a) => texts = a.keys.map (BinLabel.text F)
  | none => False

/-! ## sorting -/

theorem orderedInsert_pairwise {α : Type} (r : α → α → Prop) [DecidableRel r] (p : α → Prop) (tot : ∀ a b, p a → p b → r a b ∨ r b a)
    (tr : ∀ a b c, p a → p b → p c → r a b → r b c → r a c) (a : α) (ha : p a) : ∀ l : List α, (∀ x ∈ l, p x) → l.Pairwise r →
    (l.orderedInsert r a).Pairwise r
  | [], _, _ => by simp
  | b :: l, hl, hp => by
    rw [List.pairwise_cons] at hp
    have hb := hl b (by simp)
    by_cases h : r a b
    · rw [List.orderedInsert_cons_of_le _ _ h, List.pairwise_cons]
      refine ⟨fun x hx => ?_, List.pairwise_cons.2 hp⟩
      rcases List.mem_cons.1 hx with rfl | hx
      · exact h
      · exact tr a b x ha hb (hl x (by simp [hx])) h (hp.1 x hx)
    · rw [List.orderedInsert_of_not_le _ _ h, List.pairwise_cons]
      refine ⟨fun x hx => ?_, orderedInsert_pairwise r p tot tr a ha l (fun x hx => hl x (by simp [hx])) hp.2⟩
      rcases (List.mem_orderedInsert r).1 hx with rfl | hx
      · exact (tot x b ha hb).resolve_left h
      · exact hp.1 x hx

theorem insertionSort_pairwise {α : Type} (r : α → α → Prop) [DecidableRel r] (p : α → Prop) (tot : ∀ a b, p a → p b → r a b ∨ r b a)
    (tr : ∀ a b c, p a → p b → p c → r a b → r b c → r a c) : ∀ l : List α, (∀ x ∈ l, p x) → (l.insertionSort r).Pairwise r
  | [], _ => by simp
  | a :: l, hl => by
    rw [List.insertionSort_cons]
    refine orderedInsert_pairwise r p tot tr a (hl a (by simp)) _ (fun x hx => hl x ?_) (insertionSort_pairwise r p tot tr l fun x hx => hl x (by simp [hx]))
    have := (List.mem_insertionSort r).1 hx
    simp [this]

theorem Key.leq_total (a b : Key) (h : a.isStr = b.isStr) : a.leq b = true ∨ b.leq a = true := by
  cases a <;> cases b <;> simp [Key.isStr] at h <;> simp [Key.leq, le_total, String.le_total]

theorem Key.leq_trans (a b c : Key) (h1 : a.leq b = true) (h2 : b.leq c = true) : a.leq c = true := by
  cases a <;> cases b <;> cases c <;> simp [Key.leq] at h1 h2 ⊢ <;> first | exact le_trans h1 h2 | exact String.le_trans h1 h2

/-- A label that is NaN, or begins with a number or infinity. -/
def BinLabel.Starts : BinLabel → Prop
  | .iv lo _ _ _ => lo ≠ .nan
  | .nan => True
  | _ => False

theorem BinLabel.before_total (a b : BinLabel) (ha : a.Starts) (hb : b.Starts) : a.before b = true ∨ b.before a = true := by
  cases a with
  | nan => cases b <;> simp [BinLabel.before]
  | iv lo _ _ _ =>
    cases b with
    | nan => simp [BinLabel.before]
    | iv lo' _ _ _ =>
      cases lo <;> cases lo' <;> simp [BinLabel.Starts] at ha hb <;> simp [BinLabel.before, Num.le, le_total]
    | _ => exact absurd hb id
  | _ => exact absurd ha id

theorem BinLabel.before_trans (a b c : BinLabel) (ha : a.Starts) (hb : b.Starts) (hc : c.Starts) (h1 : a.before b = true) (h2 : b.before c = true) :
    a.before c = true := by
  cases c with
  | nan => cases a <;> rfl
  | iv lo3 _ _ _ =>
    cases b with
    | nan => cases h2
    | iv lo2 _ _ _ =>
      cases a with
      | nan => cases h1
      | iv lo1 _ _ _ =>
        cases lo1 <;> cases lo2 <;> cases lo3 <;> simp [BinLabel.Starts] at ha hb hc <;> simp [BinLabel.before, Num.le] at h1 h2 ⊢ <;> exact le_trans h1 h2
      | _ => exact absurd ha id
    | _ => exact absurd hb id
  | _ => exact absurd hc id

theorem pairwise_and_ne {α : Type} {r : α → α → Prop} {l : List α} (h : l.Pairwise r) (hn : l.Nodup) : l.Pairwise fun a b => r a b ∧ a ≠ b :=
  List.Pairwise.and h hn

theorem sortDomain_keys (ks : List DKey) (h : ∀ dk ∈ ks, ∃ k, dk = .key k)
    (hk : (∀ k, .key k ∈ ks → k.isStr = true) ∨ ∀ k, .key k ∈ ks → k.isStr = false) :
    ∃ sk, sortDomain ks = .ok sk ∧ ∀ x, x ∈ sk ↔ x ∈ ks := by
  have h1 : (ks.dedup.all fun k => k.key?.isSome) = true := by
    rw [List.all_eq_true]
    intro x hx
    obtain ⟨k, rfl⟩ := h x (List.mem_dedup.1 hx)
    rfl
  have hm : ∀ k, k ∈ ks.dedup.filterMap DKey.key? ↔ DKey.key k ∈ ks := by
    intro k
    rw [List.mem_filterMap]
    constructor
    · rintro ⟨x, hx, he⟩
      cases x with
      | key k' => cases he; exact List.mem_dedup.1 hx
      | lab l => cases he
    · intro hx
      exact ⟨_, List.mem_dedup.2 hx, rfl⟩
  refine ⟨((ks.dedup.filterMap DKey.key?).insertionSort fun a b => a.leq b = true).map .key, ?_, ?_⟩
  · unfold sortDomain
    simp only
    rw [if_pos h1, sortKeys_ok]
    · rfl
    · exact hk.imp (fun h k hk => h k ((hm k).1 hk)) (fun h k hk => h k ((hm k).1 hk))
  · intro x
    simp only [List.mem_map, List.mem_insertionSort, hm]
    constructor
    · rintro ⟨k, hk, rfl⟩
      exact hk
    · intro hx
      obtain ⟨k, rfl⟩ := h x hx
      exact ⟨k, hx, rfl⟩

theorem sortDomain_labs (ks : List DKey) (h : ∀ dk ∈ ks, ∃ l, dk = .lab l ∧ l.sort = 0) :
    ∃ sk, sortDomain ks = .ok sk ∧ ∀ x, x ∈ sk ↔ x ∈ ks := by
  by_cases hne : ks = []
  · subst hne
    exact ⟨[], rfl, fun _ => Iff.rfl⟩
  have h1 : ¬ (ks.dedup.all fun k => k.key?.isSome) = true := by
    obtain ⟨x, hx⟩ := List.exists_mem_of_ne_nil _ hne
    intro hall
    have := List.all_eq_true.1 hall x (List.mem_dedup.2 hx)
    obtain ⟨l, rfl, _⟩ := h x hx
    cases this
  have hfm : ∀ ls : List DKey, (∀ dk ∈ ls, ∃ l, dk = DKey.lab l ∧ l.sort = 0) → (ls.filterMap DKey.lab?).map DKey.lab = ls ∧ ∀ l ∈ ls.filterMap DKey.lab?, l.sort = 0 := by
    intro ls
    induction ls with
    | nil => intro _; exact ⟨rfl, by simp⟩
    | cons x ls ih =>
      intro hx
      obtain ⟨l, rfl, hl⟩ := hx x (by simp)
      obtain ⟨i1, i2⟩ := ih fun y hy => hx y (by simp [hy])
      rw [List.filterMap_cons_some (show DKey.lab? (.lab l) = some l from rfl)]
      refine ⟨by rw [List.map_cons, i1], ?_⟩
      intro y hy
      rcases List.mem_cons.1 hy with rfl | hy
      · exact hl
      · exact i2 y hy
  obtain ⟨f1, f2⟩ := hfm ks.dedup fun dk hdk => h dk (List.mem_dedup.1 hdk)
  refine ⟨((ks.dedup.filterMap DKey.lab?).insertionSort fun a b => a.before b = true).map .lab, ?_, ?_⟩
  · unfold sortDomain
    simp only
    rw [if_neg h1, if_pos]
    refine ⟨by rw [← List.length_map (f := DKey.lab), f1], ?_⟩
    rw [List.all_eq_true]
    intro l hl
    have : ((ks.dedup.filterMap DKey.lab?).headD .nan).sort = 0 := by
      cases hc : ks.dedup.filterMap DKey.lab? with
      | nil => rfl
      | cons y ys =>
        refine f2 y ?_
        rw [hc]
        simp
    rw [this, f2 l hl]
    rfl
  · intro x
    simp only [List.mem_map, List.mem_insertionSort]
    rw [← List.mem_dedup (a := x), ← f1, List.mem_map]
    rw [f1]

theorem nodup_filterMap_key {ks : List DKey} (h : ks.Nodup) : (ks.filterMap DKey.key?).Nodup :=
  h.filterMap fun a a' b hb hb' => by
    cases a <;> cases a' <;> simp [DKey.key?] at hb hb' ⊢
    rw [hb, hb']

theorem nodup_filterMap_lab {ks : List DKey} (h : ks.Nodup) : (ks.filterMap DKey.lab?).Nodup :=
  h.filterMap fun a a' b hb hb' => by
    cases a <;> cases a' <;> simp [DKey.lab?] at hb hb' ⊢
    rw [hb, hb']

/-- Sorted keys are in order. -/
theorem sortDomain_keys_order (ks sk : List DKey) (h : ∀ dk ∈ ks, ∃ k, dk = .key k)
    (hk : (∀ k, .key k ∈ ks → k.isStr = true) ∨ ∀ k, .key k ∈ ks → k.isStr = false) (hs : sortDomain ks = .ok sk) :
    ∃ kl : List Key, sk = kl.map .key ∧ kl.Pairwise fun a b => a.leq b = true ∧ a ≠ b := by
  have h1 : (ks.dedup.all fun k => k.key?.isSome) = true := by
    rw [List.all_eq_true]
    intro x hx
    obtain ⟨k, rfl⟩ := h x (List.mem_dedup.1 hx)
    rfl
  have hm : ∀ k, k ∈ ks.dedup.filterMap DKey.key? → DKey.key k ∈ ks := by
    intro k hk
    obtain ⟨x, hx, he⟩ := List.mem_filterMap.1 hk
    cases x with
    | key k' => cases he; exact List.mem_dedup.1 hx
    | lab l => cases he
  unfold sortDomain at hs
  simp only at hs
  rw [if_pos h1, sortKeys_ok (hk.imp (fun h k hk => h k (hm k hk)) (fun h k hk => h k (hm k hk)))] at hs
  cases hs
  refine ⟨_, rfl, pairwise_and_ne ?_ ((List.perm_insertionSort _ _).nodup_iff.2 (nodup_filterMap_key (List.nodup_dedup ks)))⟩
  rcases hk with hk | hk
  · exact insertionSort_pairwise _ (fun k => k.isStr = true) (fun a b ha hb => a.leq_total b (by rw [ha, hb]))
      (fun a b c _ _ _ => a.leq_trans b c) _ fun x hx => hk x (hm x hx)
  · exact insertionSort_pairwise _ (fun k => k.isStr = false) (fun a b ha hb => a.leq_total b (by rw [ha, hb]))
      (fun a b c _ _ _ => a.leq_trans b c) _ fun x hx => hk x (hm x hx)

/-- Sorted labels are in order. -/
theorem sortDomain_labs_order (ks sk : List DKey) (h : ∀ dk ∈ ks, ∃ l, dk = .lab l ∧ l.Starts) (hs : sortDomain ks = .ok sk) :
    ∃ ll : List BinLabel, sk = ll.map .lab ∧ ll = (ks.dedup.filterMap DKey.lab?).insertionSort (fun a b => a.before b = true) ∧
      ll.Pairwise fun a b => a.before b = true ∧ a ≠ b := by
  have hm : ∀ l, l ∈ ks.dedup.filterMap DKey.lab? → l.Starts := by
    intro l hl
    obtain ⟨x, hx, he⟩ := List.mem_filterMap.1 hl
    obtain ⟨l', rfl, hs⟩ := h x (List.mem_dedup.1 hx)
    cases he
    exact hs
  have hsk : sk = ((ks.dedup.filterMap DKey.lab?).insertionSort fun a b => a.before b = true).map .lab := by
    by_cases hne : ks = []
    · subst hne
      cases hs
      rfl
    have h1 : ¬ (ks.dedup.all fun k => k.key?.isSome) = true := by
      obtain ⟨x, hx⟩ := List.exists_mem_of_ne_nil _ hne
      intro hall
      have := List.all_eq_true.1 hall x (List.mem_dedup.2 hx)
      obtain ⟨l, rfl, _⟩ := h x hx
      cases this
    unfold sortDomain at hs
    simp only at hs
    rw [if_neg h1] at hs
    split at hs
    · cases hs; rfl
    · cases hs
  refine ⟨_, hsk, rfl, pairwise_and_ne ?_ ((List.perm_insertionSort _ _).nodup_iff.2 (nodup_filterMap_lab (List.nodup_dedup ks)))⟩
  exact insertionSort_pairwise _ BinLabel.Starts BinLabel.before_total BinLabel.before_trans _ hm

theorem flowKeys_order (e : ℕ → ℚ) (n : ℕ) (u o na cl : Bool) (he : ∀ i j, i < j → j ≤ n → e i < e j) :
    (flowKeys e n u o na cl).Pairwise fun a b => a.before b = true ∧ a ≠ b := by
  have hmid : ((List.range n).map fun i => BinLabel.iv (.fin (e i)) (.fin (e (i + 1))) cl (!cl)).Pairwise fun a b => a.before b = true ∧ a ≠ b := by
    rw [List.pairwise_map]
    refine List.Pairwise.imp_of_mem ?_ List.pairwise_lt_range
    intro i j _ hj hij
    have hj' := List.mem_range.1 hj
    have := he i j hij (by omega)
    refine ⟨?_, ?_⟩
    · simp [BinLabel.before, Num.le, this.le]
    · intro h
      simp only [BinLabel.iv.injEq, Num.fin.injEq] at h
      linarith [h.1]
  have hlast : ∀ l ∈ (List.range n).map (fun i => BinLabel.iv (.fin (e i)) (.fin (e (i + 1))) cl (!cl)), l.before (.iv (.fin (e n)) .pinf cl true) = true ∧
      l ≠ .iv (.fin (e n)) .pinf cl true := by
    intro l hl
    obtain ⟨i, hi, rfl⟩ := List.mem_map.1 hl
    have := he i n (List.mem_range.1 hi) (le_refl _)
    exact ⟨by simp [BinLabel.before, Num.le, this.le], by simp⟩
  have hfirst : ∀ l ∈ (List.range n).map (fun i => BinLabel.iv (.fin (e i)) (.fin (e (i + 1))) cl (!cl)),
      (BinLabel.iv .ninf (.fin (e 0)) true (!cl)).before l = true ∧ BinLabel.iv .ninf (.fin (e 0)) true (!cl) ≠ l := by
    intro l hl
    obtain ⟨i, hi, rfl⟩ := List.mem_map.1 hl
    exact ⟨by simp [BinLabel.before, Num.le], by simp⟩
  have hnan : ∀ l ∈ (List.range n).map (fun i => BinLabel.iv (.fin (e i)) (.fin (e (i + 1))) cl (!cl)), l.before .nan = true ∧ l ≠ .nan := by
    intro l hl
    obtain ⟨i, hi, rfl⟩ := List.mem_map.1 hl
    exact ⟨rfl, by simp⟩
  unfold flowKeys
  generalize (List.range n).map (fun i => BinLabel.iv (.fin (e i)) (.fin (e (i + 1))) cl (!cl)) = mid at *
  rw [List.pairwise_append, List.pairwise_append, List.pairwise_append]
  refine ⟨⟨⟨?_, hmid, ?_⟩, ?_, ?_⟩, ?_, ?_⟩
  · cases u <;> simp
  · intro a ha b hb
    cases u <;> simp at ha
    subst ha
    exact hfirst b hb
  · cases o <;> simp
  · intro a ha b hb
    cases o <;> simp at hb
    subst hb
    rcases List.mem_append.1 ha with ha | ha
    · cases u <;> simp at ha
      subst ha
      exact ⟨by simp [BinLabel.before, Num.le], by simp⟩
    · exact hlast a ha
  · cases na <;> simp
  · intro a ha b hb
    cases na <;> simp at hb
    subst hb
    rcases List.mem_append.1 ha with ha | ha
    · rcases List.mem_append.1 ha with ha | ha
      · cases u <;> simp at ha
        subst ha
        exact ⟨rfl, by simp⟩
      · exact hnan a ha
    · cases o <;> simp at ha
      subst ha
      exact ⟨rfl, by simp⟩

/-! ## stacks -/

theorem makeorder_eval : ∀ (i : ℕ) (vs : List String), vs ≠ [] → ∃ o, makeorder i vs = .ok o ∧ ∀ s, o.eval s = i + vs.idxOf s
  | _, [], h => absurd rfl h
  | i, [v], _ => by
    refine ⟨_, rfl, fun s => ?_⟩
    by_cases h : s = v
    · subst h; simp [OExpr.eval]
    · rw [List.idxOf_cons_ne _ (Ne.symm h)]
      simp [OExpr.eval, h]
  | i, v :: w :: rest, _ => by
    obtain ⟨o, h1, h2⟩ := makeorder_eval (i + 1) (w :: rest) (by simp)
    refine ⟨.ite v i o, by rw [makeorder, h1]; rfl, fun s => ?_⟩
    by_cases h : s = v
    · subst h; simp [OExpr.eval]
    · rw [List.idxOf_cons_ne _ (Ne.symm h), OExpr.eval, if_neg h, h2]
      omega

/-! ## the channels -/

/-- The texts of a channel, in order. -/
def chanTexts (F : Fmt) (axes : List ℕ) (domains : List (Option (List DKey))) (c : Channel) : List String :=
  match c.kind with
  | .stack (some l) => l
  | _ => (((domains.getD (placeOf axes c.axis) none).bind fun ks => (sortDomain ks).toOption).getD []).map (DKey.text F)

theorem encode_fold (F : Fmt) (axes : List ℕ) (domains : List (Option (List DKey))) (var : String) : ∀ (chain : List Channel) (e : Encoding),
    (chain.map fun c => c.kind.method).Nodup → (∀ c ∈ chain, ∀ d ∈ chain, c.kind.colours = true → d.kind.colours = true → c = d) →
    (∀ c ∈ chain, (c.kind = .overlay ∨ c.kind = .stack none) → ∃ ks sk, domains.getD (placeOf axes c.axis) none = some ks ∧ sortDomain ks = .ok sk) →
    (∀ c ∈ chain, c.kind.isStack = true → chanTexts F axes domains c ≠ []) →
    ∃ e', foldE (encodeChannel F axes domains var) e chain = .ok e' ∧ e'.x = e.x ∧ e'.xtype = e.xtype ∧ e'.y = e.y ∧
      (∀ c ∈ chain, c.kind = .overlay → e'.color = some (.col var (placeOf axes c.axis), chanTexts F axes domains c)) ∧
      (∀ c ∈ chain, c.kind.isStack = true → e'.color = some (.col var (placeOf axes c.axis), (chanTexts F axes domains c).reverse) ∧
        ∃ o, makeorder 0 (chanTexts F axes domains c) = .ok o ∧ e'.order = some (.col var (placeOf axes c.axis), o)) ∧
      ((∀ c ∈ chain, c.kind.colours = false) → e'.color = e.color) ∧ ((∀ c ∈ chain, c.kind.isStack = false) → e'.order = e.order) ∧
      (∀ c ∈ chain, c.kind = .beside → e'.column = some (.col var (placeOf axes c.axis))) ∧ ((∀ c ∈ chain, c.kind ≠ .beside) → e'.column = e.column) ∧
      (∀ c ∈ chain, c.kind = .below → e'.row = some (.col var (placeOf axes c.axis))) ∧ ((∀ c ∈ chain, c.kind ≠ .below) → e'.row = e.row)
  | [], e, _, _, _, _ => ⟨e, rfl, rfl, rfl, rfl, by simp, by simp, by simp, by simp, by simp, by simp, by simp, by simp⟩
  | c :: chain, e, hn, h1, h2, h3 => by
    rw [List.map_cons, List.nodup_cons] at hn
    have hnot : ∀ d ∈ chain, d.kind.method ≠ c.kind.method := by
      intro d hd he
      exact hn.1 (List.mem_map.2 ⟨d, hd, he⟩)
    have hcol : c.kind.colours = true → ∀ d ∈ chain, d.kind.colours = false := by
      intro hc d hd
      by_contra hx
      have := h1 d (by simp [hd]) c (by simp) (by simpa using hx) hc
      exact hnot d hd (by rw [this])
    have ih := fun e0 => encode_fold F axes domains var chain e0 hn.2 (fun a ha b hb => h1 a (by simp [ha]) b (by simp [hb])) (fun a ha => h2 a (by simp [ha]))
      (fun a ha => h3 a (by simp [ha]))
    have hst : ∀ d : Channel, d.kind.colours = false → d.kind.isStack = false := by
      intro d hd
      cases hk : d.kind <;> simp_all [ChanKind.colours, ChanKind.isStack]
    cases hk : c.kind with
    | overlay =>
      obtain ⟨ks, sk, hks, hsk⟩ := h2 c (by simp) (Or.inl hk)
      have htx : chanTexts F axes domains c = sk.map (DKey.text F) := by
        unfold chanTexts
        rw [hk]
        simp only [hks, Option.bind_some, hsk, Except.toOption, Option.getD_some]
      obtain ⟨e', i0, i1, i2, i3, i4, i5, i6, i7, i8, i9, i10, i11⟩ := ih { e with color := some (.col var (placeOf axes c.axis), sk.map (DKey.text F)) }
      have hnc := hcol (by rw [hk]; rfl)
      refine ⟨e', ?_, i1, i2, i3, ?_, ?_, ?_, ?_, ?_, ?_, ?_, ?_⟩
      · rw [foldE]
        unfold encodeChannel
        simp only [hk, hks, hsk]
        exact i0
      · intro d hd hdk
        rcases List.mem_cons.1 hd with rfl | hd
        · rw [i6 hnc, htx]
        · have := hnc d hd; rw [hdk] at this; cases this
      · intro d hd hdk
        rcases List.mem_cons.1 hd with rfl | hd
        · rw [hk] at hdk; cases hdk
        · exact i5 d hd hdk
      · intro hno; have := hno c (by simp); rw [hk] at this; cases this
      · intro hno; exact i7 fun d hd => hno d (by simp [hd])
      · intro d hd hdk
        rcases List.mem_cons.1 hd with rfl | hd
        · rw [hk] at hdk; cases hdk
        · exact i8 d hd hdk
      · intro hno; exact i9 fun d hd => hno d (by simp [hd])
      · intro d hd hdk
        rcases List.mem_cons.1 hd with rfl | hd
        · rw [hk] at hdk; cases hdk
        · exact i10 d hd hdk
      · intro hno; exact i11 fun d hd => hno d (by simp [hd])
    | stack order =>
      have hnc := hcol (by rw [hk]; rfl)
      obtain ⟨o, ho, _⟩ := makeorder_eval 0 (chanTexts F axes domains c) (h3 c (by simp) (by rw [hk]; rfl))
      obtain ⟨e', i0, i1, i2, i3, i4, i5, i6, i7, i8, i9, i10, i11⟩ := ih { e with
        color := some (.col var (placeOf axes c.axis), (chanTexts F axes domains c).reverse), order := some (.col var (placeOf axes c.axis), o) }
      refine ⟨e', ?_, i1, i2, i3, ?_, ?_, ?_, ?_, ?_, ?_, ?_, ?_⟩
      · rw [foldE]
        unfold encodeChannel
        cases order with
        | some l =>
          have htx : chanTexts F axes domains c = l := by unfold chanTexts; rw [hk]
          rw [htx] at ho i0
          simp only [hk, ho]
          exact i0
        | none =>
          obtain ⟨ks, sk, hks, hsk⟩ := h2 c (by simp) (Or.inr hk)
          have htx : chanTexts F axes domains c = sk.map (DKey.text F) := by
            unfold chanTexts
            rw [hk]
            simp only [hks, Option.bind_some, hsk, Except.toOption, Option.getD_some]
          rw [htx] at ho i0
          simp only [hk, hks, hsk, ho]
          exact i0
      · intro d hd hdk
        rcases List.mem_cons.1 hd with rfl | hd
        · rw [hk] at hdk; cases hdk
        · have := hnc d hd; rw [hdk] at this; cases this
      · intro d hd hdk
        rcases List.mem_cons.1 hd with rfl | hd
        · refine ⟨i6 hnc, o, ho, i7 fun d hd => hst d (hnc d hd)⟩
        · exact i5 d hd hdk
      · intro hno; have := hno c (by simp); rw [hk] at this; cases this
      · intro hno; have := hno c (by simp); rw [hk] at this; cases this
      · intro d hd hdk
        rcases List.mem_cons.1 hd with rfl | hd
        · rw [hk] at hdk; cases hdk
        · exact i8 d hd hdk
      · intro hno; exact i9 fun d hd => hno d (by simp [hd])
      · intro d hd hdk
        rcases List.mem_cons.1 hd with rfl | hd
        · rw [hk] at hdk; cases hdk
        · exact i10 d hd hdk
      · intro hno; exact i11 fun d hd => hno d (by simp [hd])
    | beside =>
      have hnb : ∀ d ∈ chain, d.kind ≠ .beside := fun d hd he => hnot d hd (by rw [he, hk])
      obtain ⟨e', i0, i1, i2, i3, i4, i5, i6, i7, i8, i9, i10, i11⟩ := ih { e with column := some (.col var (placeOf axes c.axis)) }
      refine ⟨e', ?_, i1, i2, i3, ?_, ?_, ?_, ?_, ?_, ?_, ?_, ?_⟩
      · rw [foldE]
        unfold encodeChannel
        simp only [hk]
        exact i0
      · intro d hd hdk
        rcases List.mem_cons.1 hd with rfl | hd
        · rw [hk] at hdk; cases hdk
        · exact i4 d hd hdk
      · intro d hd hdk
        rcases List.mem_cons.1 hd with rfl | hd
        · rw [hk] at hdk; cases hdk
        · exact i5 d hd hdk
      · intro hno; exact i6 fun d hd => hno d (by simp [hd])
      · intro hno; exact i7 fun d hd => hno d (by simp [hd])
      · intro d hd hdk
        rcases List.mem_cons.1 hd with rfl | hd
        · exact i9 hnb
        · exact i8 d hd hdk
      · intro hno; exact absurd hk (hno c (by simp))
      · intro d hd hdk
        rcases List.mem_cons.1 hd with rfl | hd
        · rw [hk] at hdk; cases hdk
        · exact i10 d hd hdk
      · intro hno; exact i11 fun d hd => hno d (by simp [hd])
    | below =>
      have hnb : ∀ d ∈ chain, d.kind ≠ .below := fun d hd he => hnot d hd (by rw [he, hk])
      obtain ⟨e', i0, i1, i2, i3, i4, i5, i6, i7, i8, i9, i10, i11⟩ := ih { e with row := some (.col var (placeOf axes c.axis)) }
      refine ⟨e', ?_, i1, i2, i3, ?_, ?_, ?_, ?_, ?_, ?_, ?_, ?_⟩
      · rw [foldE]
        unfold encodeChannel
        simp only [hk]
        exact i0
      · intro d hd hdk
        rcases List.mem_cons.1 hd with rfl | hd
        · rw [hk] at hdk; cases hdk
        · exact i4 d hd hdk
      · intro d hd hdk
        rcases List.mem_cons.1 hd with rfl | hd
        · rw [hk] at hdk; cases hdk
        · exact i5 d hd hdk
      · intro hno; exact i6 fun d hd => hno d (by simp [hd])
      · intro hno; exact i7 fun d hd => hno d (by simp [hd])
      · intro d hd hdk
        rcases List.mem_cons.1 hd with rfl | hd
        · rw [hk] at hdk; cases hdk
        · exact i8 d hd hdk
      · intro hno; exact i9 fun d hd => hno d (by simp [hd])
      · intro d hd hdk
        rcases List.mem_cons.1 hd with rfl | hd
        · exact i11 hnb
        · exact i10 d hd hdk
      · intro hno; exact absurd hk (hno c (by simp))

/-! ## the texts of the records -/

theorem choices_get (fields : ℕ → FixedAxis → BinLabel → List (DVal × Bool)) : ∀ (as : List FixedAxis) (j : ℕ) (idx : List ℕ) (s : List DVal × Bool),
    s ∈ choices fields as j idx → ∀ (m : ℕ) (a : FixedAxis) (i : ℕ), as[m]? = some a → idx[m]? = some i →
    ∃ f ∈ fields (j + m) a (a.shown.getD i .nan), s.1[m]? = some f.1
  | [], _, _, _, _, m, a, i, ha, _ => by simp at ha
  | a :: as, j, [], s, hs, _, _, _, _, _ => by simp [choices] at hs
  | a :: as, j, i :: idx, s, hs, m, b, i', ha, hi => by
    rw [choices, List.mem_flatMap] at hs
    obtain ⟨f, hf, hs⟩ := hs
    obtain ⟨r, hr, rfl⟩ := List.mem_map.1 hs
    cases m with
    | zero =>
      simp only [List.getElem?_cons_zero, Option.some.injEq] at ha hi
      subst ha hi
      exact ⟨f, hf, rfl⟩
    | succ m =>
      obtain ⟨g, hg, he⟩ := choices_get fields as (j + 1) idx r hr m b i' (by simpa using ha) (by simpa using hi)
      exact ⟨g, by rwa [show j + (m + 1) = j + 1 + m by omega], by simpa using he⟩

theorem placeOf_group (H : HistDef) (axes : List ℕ) (n : ℕ) (hn : n < H.groups.length) (hm : n ∈ axes) :
    (H.onAxes axes).groups[placeOf axes n]? = H.groups[n]? := by
  have hk : (H.keptG axes)[n]? = some true := by
    simp [HistDef.keptG, List.getElem?_range hn, hm]
  have := pick_get_to (H.keptG axes) H.groups n hk
  have hc : ((H.keptG axes).take n).count true = placeOf axes n := by
    unfold placeOf HistDef.keptG
    rw [← List.map_take, List.take_range, Nat.min_eq_left (by omega), List.count_eq_countP, List.countP_map, ← List.countP_eq_length_filter]
    refine List.countP_congr fun i _ => ?_
    simp
  rw [hc] at this
  exact this

theorem mem_recordOf (pre : Datum) (var : String) (texts : List DVal) (vals : List (Option ℚ)) (j : ℕ) (v : DVal) (h : texts[j]? = some v) :
    (PName.col var j, v) ∈ recordOf pre var texts vals := by
  unfold recordOf
  refine List.mem_append.2 (Or.inr ?_)
  have hj := (List.getElem?_eq_some_iff.1 h).1
  have hj2 : j < texts.length + vals.length := by omega
  rw [List.mem_iff_getElem?]
  refine ⟨j, ?_⟩
  rw [List.getElem?_zipWith, List.getElem?_range hj2, List.getElem?_append_left hj, h]

/-- Each record has the text of its group and bins in the columns of all axes but the last one. -/
theorem record_text (H : HistDef) (bs : List (List Row)) (st : H.State) (F : Fmt) (P : Plot1d) (pre : Datum) (var : String)
    (hok : H.Plottable bs st P.axes) (hno : H.Normalizable P bs.flatten) (hprof : ∀ p, P.prof = some p → p < H.nprof) (D : PlotData) (hD : H.data1d F P pre var st = .ok D) :
    ∃ cells, H.PlotCells P.axes st cells ∧ H.DomainsOf P.axes bs.flatten cells D.domains ∧
      (∀ c ∈ cells, ∀ (i : ℕ) (g : GroupAxis) (k : Key), (H.onAxes P.axes).groups[i]? = some g → c.1[i]? = some k → ∃ l, g.item k = .ok l) ∧
      ∀ d ∈ D.data, ∃ c ∈ cells, ∀ n ∈ P.axes, n ≠ P.axis → ∃ v, (cellTexts F (H.onAxes P.axes) c.1 c.2)[placeOf P.axes n]? = some v ∧
        (PName.col var (placeOf P.axes n), v) ∈ d := by
  obtain ⟨D', cells, e1, hcells, hperm, hdoms, hitem⟩ := data1d_spec H bs st F P pre var hok hno hprof
  rw [hD] at e1
  cases e1
  refine ⟨cells, hcells, hdoms, hitem, ?_⟩
  intro d hd
  obtain ⟨x, hx, rfl⟩ := List.mem_map.1 (hperm.mem_iff.1 hd)
  obtain ⟨c, hc, hs⟩ := List.mem_flatMap.1 (List.mem_filter.1 hx).1
  obtain ⟨s, hs2, rfl⟩ := List.mem_map.1 hs
  refine ⟨c, hc, ?_⟩
  intro n hn hne
  obtain ⟨hcell, hgl, _⟩ := (hcells.mem c.1 c.2).1 hc
  have hnb := hok.within n hn
  have hlast : P.axis ∈ P.axes := by simp [Plot1d.axes]
  have hpl : placeOf P.axes n ≠ placeOf P.axes P.axis := by
    intro h
    have h1 := (plotted_at H P.axes n hnb hn _).2 rfl
    have h2 := (plotted_at H P.axes P.axis (hok.within _ hlast) hlast _).2 rfl
    rw [h, h2] at h1
    exact hne (Option.some.inj h1).symm
  have hkey : ∃ v, (cellTexts F (H.onAxes P.axes) c.1 c.2)[placeOf P.axes n]? = some v ∧
      (List.zipWith (fun g k => DVal.str (GroupAxis.legend F g k)) (H.onAxes P.axes).groups c.1 ++ s.1)[placeOf P.axes n]? = some v := by
    by_cases hg : n < H.groups.length
    · have hpg := placeOf_group H P.axes n hg hn
      rw [List.getElem?_eq_getElem hg] at hpg
      have hlt := (List.getElem?_eq_some_iff.1 hpg).1
      refine ⟨.str (GroupAxis.legend F H.groups[n] (c.1[placeOf P.axes n]'(by omega))), ?_, ?_⟩
      · unfold cellTexts
        rw [List.getElem?_append_left (by simp [hgl]; exact hlt), List.getElem?_zipWith, hpg, List.getElem?_eq_getElem (by omega)]
      · rw [List.getElem?_append_left (by simp [hgl]; exact hlt), List.getElem?_zipWith, hpg, List.getElem?_eq_getElem (by omega)]
    · obtain ⟨q, rfl⟩ : ∃ q, n = H.groups.length + q := ⟨n - H.groups.length, by omega⟩
      have hq : q < H.fixed.length := by omega
      obtain ⟨m, hm1, hm2, _⟩ := placeOf_fixed H P.axes q hq hn
      rw [List.getElem?_eq_getElem hq] at hm2
      have hml := (List.getElem?_eq_some_iff.1 hm2).1
      have hcl := cell_length hcell
      have hidx : c.2[m]? = some (c.2[m]'(by omega)) := List.getElem?_eq_getElem (by omega)
      obtain ⟨f, hf, hfs⟩ := choices_get _ _ _ _ s hs2 m _ _ hm2 hidx
      have hf' : decide ((H.onAxes P.axes).groups.length + m = placeOf P.axes P.axis) = false := by
        rw [decide_eq_false_iff_not, ← hm1]
        exact hpl
      rw [hf', Bool.false_and, fields1d_other, List.mem_singleton] at hf
      subst hf
      refine ⟨DVal.str (BinLabel.text F (H.fixed[q].shown.getD (c.2[m]'(by omega)) BinLabel.nan)), ?_, ?_⟩
      rotate_left
      · rw [hm1, List.getElem?_append_right (by simp [hgl]), List.length_zipWith, hgl, Nat.min_self, Nat.add_sub_cancel_left]
        exact hfs
      · rw [← cellTexts_shown F (H.onAxes P.axes) (onAxes_built H P.axes hok.built) c.1 c.2 hcell, hm1, List.getElem?_append_right (by simp [hgl]),
          List.length_zipWith, hgl, Nat.min_self, Nat.add_sub_cancel_left, List.getElem?_zipWith, hm2, hidx]
  obtain ⟨v, hv1, hv2⟩ := hkey
  refine ⟨v, hv1, ?_⟩
  have hmem := mem_recordOf pre var (List.zipWith (fun g k => DVal.str (GroupAxis.legend F g k)) (H.onAxes P.axes).groups c.1 ++ s.1)
    (if s.2 then List.replicate (if P.error then 2 else 1) (some 0) else H.valuesIn P bs.flatten c) _ v hv2
  split
  · exact List.mem_append.2 (Or.inl hmem)
  · exact hmem

end Verif
