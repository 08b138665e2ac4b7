import Verif.PropsHistJson

/-!
# Property theorems: what it means that two histograms are equal (C69), and what `fromjson` refuses (C67)
-/

namespace Verif

variable {β : Type}

/-! ## Specification: what is found under keys -/

/-- What a content has at some place. -/
inductive CnLeaf
  | unfilled
  | array (shape : List ℕ) (data : List Num)
  | dict
  deriving DecidableEq

/-- What a content is. -/
def Cn.leaf : Cn → CnLeaf
  | .none => .unfilled
  | .arr s d => .array s d
  | .dict _ => .dict

/-- `content[k]` -/
def Cn.sub : Cn → Key → Option Cn
  | .dict d, k => d.find k
  | _, _ => Option.none

/-- `content[k1][k2]...`: what is there, if it is there. -/
def Cn.look (c : Cn) : List Key → Option CnLeaf
  | [] => some c.leaf
  | k :: p => match c.sub k with
    | some x => x.look p
    | Option.none => Option.none

/-- What an attachment is; numbers are compared as numbers, so that `1`, `1.0` and `True` are the same. -/
inductive JLeaf
  | null
  | num (v : Num)
  | str (s : String)
  | list (n : ℕ)
  | dict
  deriving DecidableEq

/-- What an attachment is. -/
def J.leaf : J → JLeaf
  | .null => .null
  | .bool b => .num (.fin (if b then 1 else 0))
  | .int i => .num (.fin i)
  | .float v => .num v
  | .str s => .str s
  | .list l => .list l.length
  | .dict _ => .dict

/-- An index of a list or a key of a dict. -/
inductive JStep
  | idx (i : ℕ)
  | key (k : Key)

/-- `x[i]` or `x[k]`. -/
def J.sub : J → JStep → Option J
  | .list l, .idx i => l[i]?
  | .dict d, .key k => (d.find? fun q => decide (q.1 = k)).map (·.2)
  | _, _ => none

/-- `x[s1][s2]...`: what is there, if it is there. -/
def J.look (j : J) : List JStep → Option JLeaf
  | [] => some j.leaf
  | s :: p => match j.sub s with
    | some x => x.look p
    | none => none

/-! ## Contents -/

theorem CnL.find_some {k : Key} : ∀ {d : CnL} {x : Cn}, d.find k = some x → k ∈ d.keys
  | .cons k' y r, x, h => by
    rw [CnL.find] at h
    by_cases hk : k' = k
    · simp [CnL.keys, hk]
    · rw [if_neg hk] at h
      exact List.mem_cons_of_mem _ (CnL.find_some h)
  | .nil, _, h => by cases h

theorem CnL.find_none {k : Key} : ∀ {d : CnL}, d.find k = Option.none → k ∉ d.keys
  | .cons k' y r, h => by
    rw [CnL.find] at h
    by_cases hk : k' = k
    · rw [if_pos hk] at h; cases h
    · rw [if_neg hk] at h
      simp only [CnL.keys, List.mem_cons, not_or]
      exact ⟨fun e => hk e.symm, CnL.find_none h⟩
  | .nil, _ => by simp [CnL.keys]

theorem look_ne_none (c : Cn) : c.look [] ≠ Option.none := by simp [Cn.look]

mutual
theorem Cn.eq_look : ∀ (a b : Cn), a.plain → (a.eq b = true ↔ ∀ p, a.look p = b.look p)
  | .none, b, _ => by
    constructor
    · intro h
      cases b <;> simp [Cn.eq] at h
      intro p; rfl
    · intro h
      have := h []
      cases b <;> simp [Cn.look, Cn.leaf] at this
      rfl
  | .arr s d, b, ha => by
    constructor
    · intro h
      cases b with
      | none => simp [Cn.eq] at h
      | dict _ => simp [Cn.eq] at h
      | arr s' d' =>
        simp only [Cn.eq, Bool.and_eq_true, decide_eq_true_eq, numsEq_iff] at h
        obtain ⟨rfl, -, rfl⟩ := h
        intro p; rfl
    · intro h
      have := h []
      cases b <;> simp [Cn.look, Cn.leaf] at this
      obtain ⟨rfl, rfl⟩ := this
      exact Cn.eq_self _ ha
  | .dict d, b, ha => by
    constructor
    · intro h
      cases b with
      | none => simp [Cn.eq] at h
      | arr _ _ => simp [Cn.eq] at h
      | dict d' =>
        simp only [Cn.eq, Bool.and_eq_true, List.all_eq_true, decide_eq_true_eq] at h
        obtain ⟨⟨h1, h2⟩, h3⟩ := h
        have h4 := (CnL.eq_look d d' ha).1 h3
        intro p
        cases p with
        | nil => rfl
        | cons k p =>
          simp only [Cn.look, Cn.sub]
          cases hk : d.find k with
          | some x =>
            obtain ⟨y, hy, hxy⟩ := h4 k x hk
            rw [hy]
            exact hxy p
          | none =>
            cases hk' : d'.find k with
            | none => rfl
            | some y => exact absurd (h2 k (CnL.find_some hk')) (CnL.find_none hk)
    · intro h
      cases b with
      | none => have := h []; simp [Cn.look, Cn.leaf] at this
      | arr _ _ => have := h []; simp [Cn.look, Cn.leaf] at this
      | dict d' =>
        have hf : ∀ k, (∀ x, d.find k = some x → ∃ y, d'.find k = some y ∧ ∀ p, x.look p = y.look p) ∧
            (d.find k = Option.none → d'.find k = Option.none) := by
          intro k
          have hk := fun p => h (k :: p)
          simp only [Cn.look, Cn.sub] at hk
          refine ⟨fun x hx => ?_, fun hn => ?_⟩
          · rw [hx] at hk
            cases hy : d'.find k with
            | none => rw [hy] at hk; exact absurd (hk []) (look_ne_none x)
            | some y => rw [hy] at hk; exact ⟨y, rfl, hk⟩
          · rw [hn] at hk
            cases hy : d'.find k with
            | none => rfl
            | some y => rw [hy] at hk; exact absurd (hk []).symm (look_ne_none y)
        simp only [Cn.eq, Bool.and_eq_true, List.all_eq_true, decide_eq_true_eq]
        refine ⟨⟨fun k hk => ?_, fun k hk => ?_⟩, (CnL.eq_look d d' ha).2 fun k x hx => (hf k).1 x hx⟩
        · cases hx : d.find k with
          | none => exact absurd hk (CnL.find_none hx)
          | some x => obtain ⟨y, hy, -⟩ := (hf k).1 x hx; exact CnL.find_some hy
        · cases hx : d.find k with
          | none => exact absurd hk (CnL.find_none ((hf k).2 hx))
          | some x => exact CnL.find_some hx
theorem CnL.eq_look : ∀ (a b : CnL), a.plain →
    (a.eq b = true ↔ ∀ k x, a.find k = some x → ∃ y, b.find k = some y ∧ ∀ p, x.look p = y.look p)
  | .nil, b, _ => by simp [CnL.eq, CnL.find]
  | .cons k x r, b, ha => by
    have hx := fun y => Cn.eq_look x y ha.2.1
    have hr := CnL.eq_look r b ha.2.2
    simp only [CnL.eq, Bool.and_eq_true, hr]
    constructor
    · rintro ⟨h1, h2⟩ k' x' hk'
      rw [CnL.find] at hk'
      by_cases hkk : k = k'
      · rw [if_pos hkk] at hk'
        subst hkk
        cases hk'
        cases hb : b.find k with
        | none => rw [hb] at h1; cases h1
        | some y => rw [hb] at h1; exact ⟨y, rfl, (hx y).1 h1⟩
      · rw [if_neg hkk] at hk'
        exact h2 k' x' hk'
    · intro h
      refine ⟨?_, fun k' x' hk' => ?_⟩
      · obtain ⟨y, hy, hp⟩ := h k x (by rw [CnL.find, if_pos rfl])
        rw [hy]
        exact (hx y).2 hp
      · refine h k' x' ?_
        rw [CnL.find, if_neg]
        · exact hk'
        · intro e
          exact ha.1 (e ▸ CnL.find_some hk')
end

/-! ## Attachments -/

theorem jlook_ne_none (j : J) : j.look [] ≠ none := by simp [J.look]

theorem num_leaf {x y : Num} (hx : x ≠ .nan) : Num.eq x y = true ↔ JLeaf.num x = JLeaf.num y := by
  rw [Num.eq_iff]
  simp [hx]

theorem b2i_eq (b : Bool) : ((b2i b : ℤ) : ℚ) = if b then 1 else 0 := by cases b <;> rfl

/-- An atom has nothing inside. -/
def J.atom : J → Bool
  | .list _ => false
  | .dict _ => false
  | _ => true

theorem atom_look {a b : J} (ha : a.atom = true) (hb : b.atom = true) : (∀ p, a.look p = b.look p) ↔ a.leaf = b.leaf := by
  constructor
  · intro h
    simpa [J.look] using h []
  · intro h p
    cases p with
    | nil => simp [J.look, h]
    | cons s p =>
      have hs : ∀ c : J, c.atom = true → c.sub s = none := by
        intro c hc
        cases c <;> simp [J.atom] at hc <;> cases s <;> rfl
      simp [J.look, hs a ha, hs b hb]

theorem atom_eq {a b : J} (ha : a.atom = true) (hp : a.plain) (hb : b.atom = true) : a.eq b = true ↔ a.leaf = b.leaf := by
  cases a <;> cases b <;> simp [J.atom] at ha hb <;>
    simp only [J.eq, J.leaf, decide_eq_true_eq, JLeaf.num.injEq, JLeaf.str.injEq, Num.eq_iff, reduceCtorEq, Bool.false_eq_true,
      Num.fin.injEq] <;> (try simp only [J.plain] at hp) <;> (try simp [b2i_eq, hp])
  · rename_i x y
    cases x <;> cases y <;> simp
  · rename_i x y
    rw [← b2i_eq, Int.cast_inj]
  · rename_i x y
    rw [← b2i_eq, Int.cast_inj]

theorem atom_other {a b : J} (ha : a.atom = true) (hb : b.atom = false) : a.eq b = false ∧ b.eq a = false ∧ a.leaf ≠ b.leaf := by
  cases a <;> cases b <;> simp [J.atom] at ha hb <;> simp [J.eq, J.leaf]

theorem find_mem {d : List (Key × J)} {k : Key} {q : Key × J} (h : (d.find? fun q => decide (q.1 = k)) = some q) :
    q ∈ d ∧ q.1 = k :=
  ⟨List.mem_of_find?_eq_some h, by simpa using List.find?_some h⟩

theorem find_keys {d : List (Key × J)} {k : Key} : (d.find? fun q => decide (q.1 = k)).isSome = true ↔ k ∈ d.map (·.1) := by
  rw [List.find?_isSome]
  simp [eq_comm]

theorem plainD_mem : ∀ (d : List (Key × J)), J.plainD d → ∀ q ∈ d, q.2.plain
  | p :: d, h, q, hq => by
    rw [J.plainD] at h
    rcases List.mem_cons.1 hq with rfl | hq
    · obtain ⟨k, j⟩ := q
      simpa [J.plainP] using h.2.1
    · exact plainD_mem d h.2.2 q hq

/-- One is an atom and the other is not. -/
theorem J.eq_look_atom {a b : J} (ha : a.atom = false) (hb : b.atom = true) : a.eq b = true ↔ ∀ p, a.look p = b.look p := by
  obtain ⟨_, h2, h3⟩ := atom_other hb ha
  rw [h2]
  refine ⟨fun h => (Bool.false_ne_true h).elim, fun h => (h3 ?_).elim⟩
  simpa [J.look] using (h []).symm

theorem J.eq_look_left {a b : J} (ha : a.atom = true) (hp : a.plain) : a.eq b = true ↔ ∀ p, a.look p = b.look p := by
  cases hb : b.atom with
  | true => rw [atom_eq ha hp hb, atom_look ha hb]
  | false =>
    obtain ⟨h1, _, h3⟩ := atom_other ha hb
    rw [h1]
    refine ⟨fun h => (Bool.false_ne_true h).elim, fun h => (h3 ?_).elim⟩
    simpa [J.look] using h []

mutual
theorem J.eq_look : ∀ (a b : J), a.plain → b.plain → (a.eq b = true ↔ ∀ p, a.look p = b.look p)
  | .list l, b, ha, hb => by
    cases b with
    | list m =>
      have hl := J.eqL_look l m (by simpa [J.plain] using ha) (by simpa [J.plain] using hb)
      rw [J.eq, hl]
      constructor
      · rintro ⟨h1, h2⟩ p
        rcases p with _ | ⟨i | k, p⟩
        · simp [J.look, J.leaf, h1]
        · have := h2 i p
          simp only [J.look, J.sub]
          cases hx : l[i]? <;> cases hy : m[i]? <;> simp only [hx, hy, Option.bind_none, Option.bind_some] at this ⊢ <;> exact this
        · rfl
      · intro h
        refine ⟨by simpa [J.look, J.leaf] using h [], fun i p => ?_⟩
        have := h (.idx i :: p)
        simp only [J.look, J.sub] at this
        cases hx : l[i]? <;> cases hy : m[i]? <;> simp only [hx, hy, Option.bind_none, Option.bind_some] at this ⊢ <;> exact this
    | dict m =>
      constructor
      · intro h; simp [J.eq] at h
      · intro h; have := h []; simp [J.look, J.leaf] at this
    | null => exact J.eq_look_atom (by rfl) (by rfl)
    | bool _ => exact J.eq_look_atom (by rfl) (by rfl)
    | int _ => exact J.eq_look_atom (by rfl) (by rfl)
    | float _ => exact J.eq_look_atom (by rfl) (by rfl)
    | str _ => exact J.eq_look_atom (by rfl) (by rfl)
  | .dict d, b, ha, hb => by
    cases b with
    | dict d' =>
      have hpd : J.plainD d := by simpa [J.plain] using ha
      have hpd' : J.plainD d' := by simpa [J.plain] using hb
      have hd := J.eqD_look d d' hpd hpd'
      have hn := plainD_nodup d hpd
      have hn' := plainD_nodup d' hpd'
      simp only [J.eq, Bool.and_eq_true, decide_eq_true_eq, hd]
      constructor
      · rintro ⟨h1, h2⟩ p
        rcases p with _ | ⟨i | k, p⟩
        · rfl
        · rfl
        · simp only [J.look, J.sub]
          have hsub : d.map (·.1) ⊆ d'.map (·.1) := by
            intro k hk
            obtain ⟨q, hq, rfl⟩ := List.mem_map.1 hk
            obtain ⟨y, hy, -⟩ := h2 q hq
            exact find_keys.1 (by rw [hy]; rfl)
          have hsup : d'.map (·.1) ⊆ d.map (·.1) :=
            ((List.subperm_of_subset hn hsub).perm_of_length_le (by simp [h1])).symm.subset
          cases hx : d.find? fun q => decide (q.1 = k) with
          | some q =>
            obtain ⟨hq, rfl⟩ := find_mem hx
            obtain ⟨y, hy, hxy⟩ := h2 q hq
            rw [hy]
            exact hxy p
          | none =>
            cases hy : d'.find? fun q => decide (q.1 = k) with
            | none => rfl
            | some q =>
              have := hsup (find_keys.1 (by rw [hy]; rfl))
              rw [← find_keys, hx] at this
              cases this
      · intro h
        have hf : ∀ k p, ((d.find? fun q => decide (q.1 = k)).map (·.2)).bind (fun x => x.look p) =
            ((d'.find? fun q => decide (q.1 = k)).map (·.2)).bind (fun x => x.look p) := by
          intro k p
          have := h (.key k :: p)
          simp only [J.look, J.sub] at this
          cases hx : d.find? fun q => decide (q.1 = k) <;> cases hy : d'.find? fun q => decide (q.1 = k) <;>
            simp only [hx, hy, Option.map_none, Option.map_some, Option.bind_none, Option.bind_some] at this ⊢ <;> exact this
        have hkeys : ∀ k, k ∈ d.map (·.1) ↔ k ∈ d'.map (·.1) := by
          intro k
          have := hf k []
          rw [← find_keys, ← find_keys]
          cases hx : d.find? fun q => decide (q.1 = k) <;> cases hy : d'.find? fun q => decide (q.1 = k) <;>
            simp [hx, hy, J.look] at this ⊢
        refine ⟨?_, fun q hq => ?_⟩
        · have := ((List.perm_ext_iff_of_nodup hn hn').2 hkeys).length_eq
          simpa using this
        · have hx := find_self hn hq
          have hk := find_keys.2 ((hkeys q.1).1 (List.mem_map_of_mem hq))
          obtain ⟨y, hy⟩ := Option.isSome_iff_exists.1 hk
          refine ⟨y, hy, fun p => ?_⟩
          have := hf q.1 p
          rw [hx, hy] at this
          exact this
    | list m =>
      constructor
      · intro h; simp [J.eq] at h
      · intro h; have := h []; simp [J.look, J.leaf] at this
    | null => exact J.eq_look_atom (by rfl) (by rfl)
    | bool _ => exact J.eq_look_atom (by rfl) (by rfl)
    | int _ => exact J.eq_look_atom (by rfl) (by rfl)
    | float _ => exact J.eq_look_atom (by rfl) (by rfl)
    | str _ => exact J.eq_look_atom (by rfl) (by rfl)
  | .null, b, ha, _ => J.eq_look_left (by rfl) ha
  | .bool _, b, ha, _ => J.eq_look_left (by rfl) ha
  | .int _, b, ha, _ => J.eq_look_left (by rfl) ha
  | .float _, b, ha, _ => J.eq_look_left (by rfl) ha
  | .str _, b, ha, _ => J.eq_look_left (by rfl) ha
theorem J.eqL_look : ∀ (a b : List J), J.plainL a → J.plainL b →
    (J.eqL a b = true ↔ a.length = b.length ∧ ∀ (i : ℕ) p, a[i]?.bind (fun x => x.look p) = b[i]?.bind (fun x => x.look p))
  | [], [], _, _ => by simp [J.eqL]
  | [], _ :: _, _, _ => by simp [J.eqL]
  | _ :: _, [], _, _ => by simp [J.eqL]
  | x :: a, y :: b, ha, hb => by
    rw [J.plainL] at ha hb
    simp only [J.eqL, Bool.and_eq_true, J.eq_look x y ha.1 hb.1, J.eqL_look a b ha.2 hb.2, List.length_cons, Nat.add_right_cancel_iff]
    constructor
    · rintro ⟨h1, h2, h3⟩
      refine ⟨h2, fun i p => ?_⟩
      cases i with
      | zero => exact h1 p
      | succ i => simpa using h3 i p
    · rintro ⟨h1, h2⟩
      exact ⟨fun p => h2 0 p, h1, fun i p => by simpa using h2 (i + 1) p⟩
theorem J.eqD_look : ∀ (a b : List (Key × J)), J.plainD a → J.plainD b →
    (J.eqD a b = true ↔ ∀ q ∈ a, ∃ y, (b.find? fun r => decide (r.1 = q.1)) = some y ∧ ∀ p, q.2.look p = y.2.look p)
  | [], _, _, _ => by simp [J.eqD]
  | q :: a, b, ha, hb => by
    rw [J.plainD] at ha
    simp only [J.eqD, Bool.and_eq_true, J.eqP_look q b ha.2.1 hb, J.eqD_look a b ha.2.2 hb, List.forall_mem_cons]
theorem J.eqP_look : ∀ (q : Key × J) (b : List (Key × J)), J.plainP q → J.plainD b →
    (J.eqP q b = true ↔ ∃ y, (b.find? fun r => decide (r.1 = q.1)) = some y ∧ ∀ p, q.2.look p = y.2.look p)
  | (k, x), b, ha, hb => by
    rw [J.eqP]
    cases hf : b.find? fun r => decide (r.1 = k) with
    | none => simp
    | some y =>
      have hy := plainD_mem b hb y (find_mem hf).1
      simp only [Option.some.injEq, exists_eq_left']
      exact J.eq_look x y.2 (by simpa [J.plainP] using ha) hy
end

/-! ## Histograms -/

theorem axesEq_iff : ∀ l m : List AxisX, axesEq l m = true ↔ (∀ a ∈ l, a.noNaN) ∧ l = m
  | [], [] => by simp [axesEq]
  | [], _ :: _ => by simp [axesEq]
  | _ :: _, [] => by simp [axesEq]
  | a :: l, b :: m => by
    simp only [axesEq, Bool.and_eq_true, eq_iff_noNaN, axesEq_iff l m, List.forall_mem_cons, List.cons.injEq]
    tauto

theorem defsEq_iff {a b : List (String × String)} (ha : (a.map (·.1)).Nodup) (hb : (b.map (·.1)).Nodup) :
    defsEq a b = true ↔ ∀ p, p ∈ a ↔ p ∈ b := by
  have ha' : a.Nodup := List.Nodup.of_map _ ha
  have hb' : b.Nodup := List.Nodup.of_map _ hb
  simp only [defsEq, Bool.and_eq_true, decide_eq_true_eq, List.all_eq_true]
  constructor
  · rintro ⟨h1, h2⟩ p
    refine ⟨h2 p, fun hp => ?_⟩
    exact ((List.subperm_of_subset ha' h2).perm_of_length_le (by simp [h1])).symm.subset hp
  · intro h
    exact ⟨((List.perm_ext_iff_of_nodup ha' hb').2 h).length_eq, fun p hp => (h p).1 hp⟩

/-- **C69**, what it means that two histograms without NaN are equal: the same axes in the same order, the same parsed weight and
filter, the same definitions in any order, under all keys the same content, and attachments that have the same values at all
places.  What the labels of the axes were parsed to is not compared.  Missing: NaN (`C69_refuted_nan`). -/
theorem C69_means_partial [DecidableEq β] (g h : HistX β) (hx : ∀ x ∈ g.axes, x.1.noNaN) (hc : g.content.plain)
    (hga : (J.obj g.attachment).plain) (hha : (J.obj h.attachment).plain) (hgd : (g.defs.map (·.1)).Nodup)
    (hhd : (h.defs.map (·.1)).Nodup) :
    g.eq h = true ↔ g.group.map (·.1) = h.group.map (·.1) ∧ g.fixed.map (·.1) = h.fixed.map (·.1) ∧
      g.profile.map (·.1) = h.profile.map (·.1) ∧ g.weightP = h.weightP ∧ g.filterP = h.filterP ∧
      (∀ p, p ∈ g.defs ↔ p ∈ h.defs) ∧ (∀ p, g.content.look p = h.content.look p) ∧
      ∀ p, (J.obj g.attachment).look p = (J.obj h.attachment).look p := by
  have hl : ∀ l : List (AxisX × Option β), (∀ x ∈ l, x ∈ g.axes) → ∀ a ∈ l.map (·.1), a.noNaN := by
    intro l hl a ha
    obtain ⟨x, hx', rfl⟩ := List.mem_map.mp ha
    exact hx x (hl x hx')
  have h1 := hl g.group fun x hx => by simp [HistX.axes, hx]
  have h2 := hl g.fixed fun x hx => by simp [HistX.axes, hx]
  have h3 := hl g.profile fun x hx => by simp [HistX.axes, hx]
  simp only [HistX.eq, Bool.and_eq_true, axesEq_iff, decide_eq_true_eq, defsEq_iff hgd hhd, Cn.eq_look _ _ hc,
    J.eq_look _ _ hga hha]
  tauto

/-- The hypotheses hold for the sample, which has groups, definitions and attachments. -/
example : (∀ x ∈ sampleHist.axes, x.1.noNaN) ∧ sampleHist.content.plain ∧ (J.obj sampleHist.attachment).plain ∧
    (sampleHist.defs.map (·.1)).Nodup ∧ sampleHist.content ≠ .none ∧ sampleHist.attachment ≠ [] ∧ sampleHist.defs ≠ [] := by
  refine ⟨by decide +kernel, ?_, ?_, by decide +kernel, by simp [sampleHist], by simp [sampleHist], by simp [sampleHist]⟩
  · simp [sampleHist, Cn.plain, CnL.plain, CnL.keys]
  · simp [sampleHist, J.obj, J.plain, J.plainD, J.plainP, J.plainL]

/-- **C69**: so `==` is symmetric and transitive on such histograms, also in the definitions and attachments. -/
theorem C69_order_partial [DecidableEq β] (g h k : HistX β)
    (ok : ∀ x ∈ [g, h, k], (∀ a ∈ x.axes, a.1.noNaN) ∧ x.content.plain ∧ (J.obj x.attachment).plain ∧ (x.defs.map (·.1)).Nodup) :
    g.eq h = h.eq g ∧ (g.eq h = true → h.eq k = true → g.eq k = true) := by
  obtain ⟨g1, g2, g3, g4⟩ := ok g (by simp)
  obtain ⟨h1, h2, h3, h4⟩ := ok h (by simp)
  obtain ⟨k1, k2, k3, k4⟩ := ok k (by simp)
  constructor
  · rw [Bool.eq_iff_iff, C69_means_partial g h g1 g2 g3 h3 g4 h4, C69_means_partial h g h1 h2 h3 g3 h4 g4]
    constructor <;> rintro ⟨a1, a2, a3, a4, a5, a6, a7, a8⟩ <;>
      exact ⟨a1.symm, a2.symm, a3.symm, a4.symm, a5.symm, fun p => (a6 p).symm, fun p => (a7 p).symm, fun p => (a8 p).symm⟩
  · rw [C69_means_partial g h g1 g2 g3 h3 g4 h4, C69_means_partial h k h1 h2 h3 k3 h4 k4, C69_means_partial g k g1 g2 g3 k3 g4 k4]
    rintro ⟨a1, a2, a3, a4, a5, a6, a7, a8⟩ ⟨b1, b2, b3, b4, b5, b6, b7, b8⟩
    exact ⟨a1.trans b1, a2.trans b2, a3.trans b3, a4.trans b4, a5.trans b5, fun p => (a6 p).trans (b6 p),
      fun p => (a7 p).trans (b7 p), fun p => (a8 p).trans (b8 p)⟩

/-! ## A number as weight together with a filter -/

/-- **C66**: a number as weight together with a filter is the text of the number put together with the filter; without a filter it is
a constant. -/
theorem C66_filter_number {P : Parser β} {axes : List (AxisX × Option β)} {w : J} (hw : w.isNumber = true)
    {defs : List (String × String)} {at' : List (String × J)} {h : HistX β} :
    (∀ f, mkHist P axes w (some f) defs at' = .ok h → ∃ p q, P.parse defs f = .ok p ∧ P.logical p = true ∧
      h.filterP = some p ∧ P.parse defs (P.combine f (P.repr w)) = .ok q ∧ h.weightP = some q) ∧
    (mkHist P axes w none defs at' = .ok h → h.filterP = none ∧ h.weightP = some (P.const w)) := by
  have hx : ∀ f fp, mkWeight P defs w (some f) fp = (do .ok (some (← P.parse defs (P.combine f (P.repr w))))) := by
    intro f fp
    cases w <;> simp [J.isNumber] at hw <;> rfl
  have hy : ∀ fp, mkWeight P defs w none fp = .ok (some (P.const w)) := by
    intro fp
    cases w <;> simp [J.isNumber] at hw <;> rfl
  unfold mkHist
  constructor
  · intro f hh
    cases hn : mapE (mkAxis P defs) axes with
    | error e => simp only [hn] at hh; cases hh
    | ok new =>
      cases hp : P.parse defs f with
      | error e => simp only [hn, mkFilter, hp] at hh; cases hh
      | ok p =>
        by_cases hl : P.logical p = true
        · cases hq : P.parse defs (P.combine f (P.repr w)) with
          | error e =>
            have := hx f (some p)
            rw [hq] at this
            simp only [hn, mkFilter, hp, hl, if_true, this] at hh
            cases hh
          | ok q =>
            have := hx f (some p)
            rw [hq] at this
            simp only [hn, mkFilter, hp, hl, if_true, this] at hh
            cases hh
            exact ⟨p, q, rfl, hl, rfl, rfl, rfl⟩
        · simp only [hn, mkFilter, hp, hl] at hh
          cases hh
  · intro hh
    cases hn : mapE (mkAxis P defs) axes with
    | error e => simp only [hn] at hh; cases hh
    | ok new =>
      simp only [hn, mkFilter, hy] at hh
      cases hh
      exact ⟨rfl, rfl⟩

example : ∃ h, mkHist namesParser [(.cut "x", none)] (.int 2) (some "ok") [] [] = .ok h ∧ h.weightP = some "ok?number:0" :=
  ⟨_, rfl, by decide +kernel⟩

/-! ## What `fromjson` refuses -/

/-- **C67**: an object that does not say that it is a histogram is refused, with an `AssertionError` or, if it says nothing, a
`KeyError`. -/
theorem C67_type (P : Parser β) (d : List (Key × J)) :
    ((∀ x, (.str "type", x) ∉ d) → histFromjson P (.dict d) = .error .keyError) ∧
    ∀ x, (d.find? fun p => p.1 = .str "type") = some (.str "type", x) → x.leaf ≠ .str "Hist" →
      histFromjson P (.dict d) = .error .assertion := by
  constructor
  · intro h
    have hf : (d.find? fun p => p.1 = .str "type") = none := by
      rw [List.find?_eq_none]
      rintro ⟨k, x⟩ hp hk
      simp only [decide_eq_true_eq] at hk
      subst hk
      exact h x hp
    have : J.checkType (.dict d) = .error .keyError := by
      unfold J.checkType J.get
      simp only [hf]
    unfold histFromjson
    rw [this]; rfl
  · intro x hf hx
    have : J.checkType (.dict d) = .error .assertion := by
      unfold J.checkType J.get
      simp only [hf]
      cases x <;> simp only [] <;> try rfl
      rename_i t
      rw [if_neg]
      rintro rfl
      exact hx rfl
    unfold histFromjson
    rw [this]; rfl

example : ((([(.str "type", .int 1)] : List (Key × J)).find? fun p => p.1 = .str "type").map (·.2.leaf)) = some (.num (.fin 1)) := by
  decide +kernel

end Verif
