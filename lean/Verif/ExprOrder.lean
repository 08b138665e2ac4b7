import Verif.Expr
import Init.Data.Ord.String

/-!
# The order of expressions is a linear order

Lemmas: `E.cmp` decides equality and is a strict total order, so `sortE` of two lists with the same
elements is the same list.
-/

namespace Verif

theorem E.ind {P : E → Prop}
    (h : ∀ hd p n, (∀ x ∈ p, P x) → (∀ x ∈ n, P x) → P (.node hd p n)) : ∀ e, P e := by
  intro e
  refine E.rec (motive_1 := P) (motive_2 := fun l => ∀ x ∈ l, P x) ?_ ?_ ?_ e
  · intro hd p n hp hn; exact h hd p n hp hn
  · intro x hx; cases hx
  · intro x xs hx hxs y hy
    rcases List.mem_cons.1 hy with rfl | hy
    · exact hx
    · exact hxs y hy

theorem RelOp.rank_inj : ∀ {a b : RelOp}, a.rank = b.rank → a = b := by
  intro a b; cases a <;> cases b <;> simp [RelOp.rank]

theorem Head.ext_parts {a b : Head} (h1 : a.rank = b.rank) (h2 : a.nums = b.nums)
    (h3 : a.str = b.str) (h4 : a.flag = b.flag) : a = b := by
  cases a <;> cases b <;> simp_all [Head.rank, Head.nums, Head.str, Head.flag]
  · rename_i s b1 _ b2
    cases b1 <;> cases b2 <;> simp_all
  · exact RelOp.rank_inj h4

theorem then_eq_eq {a b : Ordering} : a.then b = .eq ↔ a = .eq ∧ b = .eq := by
  cases a <;> cases b <;> simp [Ordering.then]

theorem then_eq_lt {a b : Ordering} : a.then b = .lt ↔ a = .lt ∨ (a = .eq ∧ b = .lt) := by
  cases a <;> cases b <;> simp [Ordering.then]

theorem Head.cmp_eq {a b : Head} : a.cmp b = .eq ↔ a = b := by
  simp only [Head.cmp, then_eq_eq, Std.compare_eq_iff_eq]
  constructor
  · rintro ⟨h1, h2, h3, h4⟩; exact Head.ext_parts h1 h2 h3 h4
  · rintro rfl; simp

theorem cmp_lt_trans {α : Type*} [Ord α] [Std.TransOrd α] {a b c : α}
    (h1 : compare a b = .lt) (h2 : compare b c = .lt) : compare a c = .lt :=
  Std.TransCmp.lt_trans h1 h2

theorem Head.cmp_lt_trans {a b c : Head} (h1 : a.cmp b = .lt) (h2 : b.cmp c = .lt) :
    a.cmp c = .lt := by
  simp only [Head.cmp, then_eq_lt, Std.compare_eq_iff_eq] at *
  rcases h1 with h1 | ⟨e1, h1⟩ <;> rcases h2 with h2 | ⟨e2, h2⟩
  · exact .inl (Verif.cmp_lt_trans h1 h2)
  · exact .inl (e2 ▸ h1)
  · exact .inl (e1 ▸ h2)
  refine .inr ⟨e1.trans e2, ?_⟩
  rcases h1 with h1 | ⟨e1, h1⟩ <;> rcases h2 with h2 | ⟨e2, h2⟩
  · exact .inl (Verif.cmp_lt_trans h1 h2)
  · exact .inl (e2 ▸ h1)
  · exact .inl (e1 ▸ h2)
  refine .inr ⟨e1.trans e2, ?_⟩
  rcases h1 with h1 | ⟨e1, h1⟩ <;> rcases h2 with h2 | ⟨e2, h2⟩
  · exact .inl (Verif.cmp_lt_trans h1 h2)
  · exact .inl (e2 ▸ h1)
  · exact .inl (e1 ▸ h2)
  exact .inr ⟨e1.trans e2, Verif.cmp_lt_trans h1 h2⟩

theorem Head.cmp_swap (a b : Head) : (a.cmp b).swap = b.cmp a := by
  simp only [Head.cmp, Ordering.swap_then, ← Std.OrientedCmp.eq_swap]

mutual
theorem E.cmp_swap : ∀ a b : E, (E.cmp a b).swap = E.cmp b a
  | .node h p n, .node h' p' n' => by
    simp only [E.cmp, Ordering.swap_then, Head.cmp_swap, E.cmpL_swap p p', E.cmpL_swap n n']
theorem E.cmpL_swap : ∀ a b : List E, (E.cmpL a b).swap = E.cmpL b a
  | [], [] => rfl
  | [], _ :: _ => rfl
  | _ :: _, [] => rfl
  | x :: xs, y :: ys => by
    simp only [E.cmpL, Ordering.swap_then, E.cmp_swap x y, E.cmpL_swap xs ys]
end

mutual
theorem E.cmp_eq : ∀ a b : E, E.cmp a b = .eq ↔ a = b
  | .node h p n, .node h' p' n' => by
    simp only [E.cmp, then_eq_eq, Head.cmp_eq, E.cmpL_eq p p', E.cmpL_eq n n', E.node.injEq]
theorem E.cmpL_eq : ∀ a b : List E, E.cmpL a b = .eq ↔ a = b
  | [], [] => by simp [E.cmpL]
  | [], _ :: _ => by simp [E.cmpL]
  | _ :: _, [] => by simp [E.cmpL]
  | x :: xs, y :: ys => by
    simp only [E.cmpL, then_eq_eq, E.cmp_eq x y, E.cmpL_eq xs ys, List.cons.injEq]
end

mutual
theorem E.cmp_lt_trans : ∀ a b c : E, E.cmp a b = .lt → E.cmp b c = .lt → E.cmp a c = .lt
  | .node h p n, .node h' p' n', .node h'' p'' n'' => by
    have i1 := E.cmpL_lt_trans p p' p''
    have i2 := E.cmpL_lt_trans n n' n''
    simp only [E.cmp, then_eq_lt, Head.cmp_eq, E.cmpL_eq]
    intro h1 h2
    rcases h1 with h1 | ⟨e1, h1⟩ <;> rcases h2 with h2 | ⟨e2, h2⟩
    · exact .inl (Head.cmp_lt_trans h1 h2)
    · exact .inl (e2 ▸ h1)
    · exact .inl (e1 ▸ h2)
    refine .inr ⟨e1.trans e2, ?_⟩
    rcases h1 with h1 | ⟨e1, h1⟩ <;> rcases h2 with h2 | ⟨e2, h2⟩
    · exact .inl (i1 h1 h2)
    · exact .inl (e2 ▸ h1)
    · exact .inl (e1 ▸ h2)
    exact .inr ⟨e1.trans e2, i2 h1 h2⟩
theorem E.cmpL_lt_trans : ∀ a b c : List E, E.cmpL a b = .lt → E.cmpL b c = .lt → E.cmpL a c = .lt
  | [], [], _ => by simp [E.cmpL]
  | [], _ :: _, [] => by simp [E.cmpL]
  | [], _ :: _, _ :: _ => by simp [E.cmpL]
  | _ :: _, [], _ => by simp [E.cmpL]
  | _ :: _, _ :: _, [] => by simp [E.cmpL]
  | x :: xs, y :: ys, z :: zs => by
    have i1 := E.cmp_lt_trans x y z
    have i2 := E.cmpL_lt_trans xs ys zs
    simp only [E.cmpL, then_eq_lt, E.cmp_eq]
    intro h1 h2
    rcases h1 with h1 | ⟨e1, h1⟩ <;> rcases h2 with h2 | ⟨e2, h2⟩
    · exact .inl (i1 h1 h2)
    · exact .inl (e2 ▸ h1)
    · exact .inl (e1 ▸ h2)
    exact .inr ⟨e1.trans e2, i2 h1 h2⟩
end

instance : DecidableEq E := fun a b => decidable_of_iff _ (E.cmp_eq a b)

theorem E.same_iff {a b : E} : E.same a b = true ↔ a = b := by
  simp [E.same, E.cmp_eq]

theorem sameL_iff {a b : List E} : sameL a b = true ↔ a = b := by
  simp [sameL, E.cmpL_eq]

theorem E.le_refl (a : E) : E.le a a := by
  unfold E.le; rw [(E.cmp_eq a a).2 rfl]; simp

theorem E.cmp_gt {a b : E} : E.cmp a b = .gt ↔ E.cmp b a = .lt := by
  rw [← E.cmp_swap a b]; cases E.cmp a b <;> simp

theorem E.le_total (a b : E) : E.le a b ∨ E.le b a := by
  unfold E.le
  rw [Ne, Ne, E.cmp_gt, E.cmp_gt]
  rcases h : E.cmp a b with _ | _ | _
  · left; intro h'; rw [← E.cmp_swap a b, h] at h'; simp at h'
  · left; rw [← E.cmp_swap a b, h]; simp
  · right; simp

theorem E.le_iff {a b : E} : E.le a b ↔ E.cmp a b = .lt ∨ a = b := by
  unfold E.le; rw [← E.cmp_eq]; cases E.cmp a b <;> simp

theorem E.le_trans {a b c : E} (h1 : E.le a b) (h2 : E.le b c) : E.le a c := by
  rw [E.le_iff] at *
  rcases h1 with h1 | rfl
  · rcases h2 with h2 | rfl
    · exact .inl (E.cmp_lt_trans _ _ _ h1 h2)
    · exact .inl h1
  · exact h2

theorem E.le_antisymm {a b : E} (h1 : E.le a b) (h2 : E.le b a) : a = b := by
  rw [E.le_iff] at h1
  rcases h1 with h1 | h1
  · unfold E.le at h2; rw [Ne, E.cmp_gt] at h2; exact absurd h1 h2
  · exact h1

instance : Std.Total E.le := ⟨E.le_total⟩
instance : IsTrans E E.le := ⟨fun _ _ _ => E.le_trans⟩
instance : Std.Antisymm E.le := ⟨fun _ _ => E.le_antisymm⟩

theorem sortE_perm (l : List E) : (sortE l).Perm l := List.perm_insertionSort _ l

theorem sortE_pairwise (l : List E) : (sortE l).Pairwise E.le := List.pairwise_insertionSort _ l

theorem sortE_eq_of_perm {l l' : List E} (h : l.Perm l') : sortE l = sortE l' :=
  List.Perm.eq_of_pairwise (fun _ _ _ _ => E.le_antisymm) (sortE_pairwise l) (sortE_pairwise l')
    ((sortE_perm l).trans (h.trans (sortE_perm l').symm))

theorem Mono.toE_inj {a b : Mono} (h : a.toE = b.toE) : a = b := by
  cases a; cases b; simp [Mono.toE] at h; simp [h]

instance : DecidableEq Mono := fun a b => decidable_of_iff (a.toE = b.toE)
  ⟨Mono.toE_inj, fun h => h ▸ rfl⟩

instance : DecidableEq Poly := fun a b =>
  decidable_of_iff (a.c = b.c ∧ a.pos = b.pos ∧ a.neg = b.neg)
    ⟨fun h => by cases a; cases b; simp at h; simp [h], fun h => h ▸ ⟨rfl, rfl, rfl⟩⟩

instance : Std.Total Mono.le := ⟨fun a b => E.le_total a.toE b.toE⟩
instance : IsTrans Mono Mono.le := ⟨fun _ _ _ h1 h2 => E.le_trans (a := _) h1 h2⟩

theorem sortM_perm (l : List Mono) : (sortM l).Perm l := List.perm_insertionSort _ l

theorem sortM_pairwise (l : List Mono) : (sortM l).Pairwise Mono.le :=
  List.pairwise_insertionSort _ l

theorem sortM_eq_of_perm {l l' : List Mono} (h : l.Perm l') : sortM l = sortM l' :=
  List.Perm.eq_of_pairwise (fun _ _ _ _ h1 h2 => Mono.toE_inj (E.le_antisymm h1 h2))
    (sortM_pairwise l) (sortM_pairwise l')
    ((sortM_perm l).trans (h.trans (sortM_perm l').symm))

theorem Mono.similar_iff {x y : Mono} : x.similar y = true ↔ x.pos = y.pos ∧ x.neg = y.neg := by
  simp [Mono.similar, sameL_iff]

end Verif
