import Verif.IntTree

/-!
# Shared computations and the types of constants

`CallGraphNode.grow` (`/repo/histbook/instr.py` 66-90) keeps, of all subexpressions that are equal, the one that comes first; `fill` computes that one.
`Const.__eq__` (expr.py 504-505) does not distinguish `1` and `1.0`, which NumPy does for integer columns.  `Instr.lean` has one type of number; here
constants are integers or floating point numbers.  Sets, tuples, boolean and text constants are left out.
-/

namespace Verif

/-- A constant as written: `1` or `1.0`. -/
inductive NConst
  | int (z : ℤ)
  | float (q : ℚ)
  deriving DecidableEq

/-- The number. -/
def NConst.num : NConst → ℚ
  | .int z => z
  | .float q => q

/-- A tree of function calls, see `T`: `Const`, `Name`, `Call`. -/
inductive TT
  | const (c : NConst)
  | name (s : String)
  | call (f : String) (args : List TT)

mutual
/-- `Const.__eq__`, `Name.__eq__`, `Call.__eq__` (expr.py 504-505, 534-535, 608-609). -/
def TT.eq : TT → TT → Bool
  | .const c, .const d => c.num = d.num
  | .name s, .name t => s = t
  | .call f as, .call g bs => f = g && TT.eqL as bs
  | .const _, .name _ => false
  | .const _, .call _ _ => false
  | .name _, .const _ => false
  | .name _, .call _ _ => false
  | .call _ _, .const _ => false
  | .call _ _, .name _ => false
/-- Equality of tuples. -/
def TT.eqL : List TT → List TT → Bool
  | [], [] => true
  | a :: as, b :: bs => TT.eq a b && TT.eqL as bs
  | [], _ :: _ => false
  | _ :: _, [] => false
end

mutual
/-- `calculate` (calc/__init__.py 327-357) on one row of columns that are integer or floating point arrays. -/
def TT.val (ty : IType) (more : String → Option (List (Option ℚ) → Option ℚ)) (sym : String → IVal) : TT → Except Err IVal
  | .const (.int z) => .ok (.py z)
  | .const (.float q) => .ok (.num (some q))
  | .name s => .ok (sym s)
  | .call f args =>
    match (intLib ty more).fn f with
    | none => .error .assertion
    | some g => do g (← TT.valL ty more sym args)
/-- The arguments one after the other. -/
def TT.valL (ty : IType) (more : String → Option (List (Option ℚ) → Option ℚ)) (sym : String → IVal) : List TT → Except Err (List IVal)
  | [] => .ok []
  | a :: as => do
    let v ← TT.val ty more sym a
    let vs ← TT.valL ty more sym as
    .ok (v :: vs)
end

mutual
/-- The nodes below a goal in the order in which `grow` (instr.py 66-90) puts them into the table. -/
def TT.subs : TT → List TT
  | .const _ => []
  | .name s => [.name s]
  | .call f args => .call f args :: TT.subsL args
/-- The same for the arguments. -/
def TT.subsL : List TT → List TT
  | [] => []
  | a :: as => TT.subs a ++ TT.subsL as
end

/-- `table[node]` (instr.py 81): the first equal one. -/
def TT.rep (table : List TT) (t : TT) : TT := (table.find? fun u => TT.eq u t).getD t

/-- The arguments of a call. -/
def TT.args : TT → List TT
  | .call _ args => args
  | _ => []

/-- Constants stay in the instruction for the call (instr.py 75); other arguments are variables. -/
def keepConsts : List TT → List TT → List TT
  | _ :: as, .const c :: bs => .const c :: keepConsts as bs
  | a :: as, _ :: bs => a :: keepConsts as bs
  | as, [] => as
  | [], _ => []

mutual
/-- What is computed for a quantity when the table holds the first of equal nodes (instr.py 66-115 and 368-420). -/
def TT.share (table : List TT) : TT → TT
  | .const c => .const c
  | .name s => .name s
  | .call f args => .call f (keepConsts (TT.shareL table args) (TT.rep table (.call f args)).args)
/-- The same for the arguments. -/
def TT.shareL (table : List TT) : List TT → List TT
  | [] => []
  | a :: as => TT.share table a :: TT.shareL table as
end

/-- The value of a quantity when all `goals` are computed in one pass. -/
def passVal (ty : IType) (more : String → Option (List (Option ℚ) → Option ℚ)) (sym : String → IVal) (goals : List TT) (g : TT) : Except Err IVal :=
  TT.val ty more sym (TT.share (TT.subsL goals) g)

/-! ## Equality -/

mutual
theorem TT.eq_refl : ∀ t : TT, TT.eq t t = true
  | .const c => by simp [TT.eq]
  | .name s => by simp [TT.eq]
  | .call f as => by simp [TT.eq, TT.eqL_refl as]
theorem TT.eqL_refl : ∀ l : List TT, TT.eqL l l = true
  | [] => by simp [TT.eqL]
  | a :: as => by simp [TT.eqL, TT.eq_refl a, TT.eqL_refl as]
end

mutual
/-- The tree without the types of the constants. -/
def TT.untyped : TT → T String
  | .const c => .const (.num c.num)
  | .name s => .name s
  | .call f as => .call f (TT.untypedL as)
/-- The same for the arguments. -/
def TT.untypedL : List TT → List (T String)
  | [] => []
  | a :: as => TT.untyped a :: TT.untypedL as
end

mutual
theorem TT.eq_iff : ∀ t u : TT, TT.eq t u = true ↔ t.untyped = u.untyped
  | .const c, .const d => by simp [TT.eq, TT.untyped]
  | .name s, .name t => by simp [TT.eq, TT.untyped]
  | .call f as, .call g bs => by simp [TT.eq, TT.untyped, TT.eqL_iff as bs]
  | .const _, .name _ => by simp [TT.eq, TT.untyped]
  | .const _, .call _ _ => by simp [TT.eq, TT.untyped]
  | .name _, .const _ => by simp [TT.eq, TT.untyped]
  | .name _, .call _ _ => by simp [TT.eq, TT.untyped]
  | .call _ _, .const _ => by simp [TT.eq, TT.untyped]
  | .call _ _, .name _ => by simp [TT.eq, TT.untyped]
theorem TT.eqL_iff : ∀ l m : List TT, TT.eqL l m = true ↔ TT.untypedL l = TT.untypedL m
  | [], [] => by simp [TT.eqL, TT.untypedL]
  | a :: as, b :: bs => by simp [TT.eqL, TT.untypedL, TT.eq_iff a b, TT.eqL_iff as bs]
  | [], _ :: _ => by simp [TT.eqL, TT.untypedL]
  | _ :: _, [] => by simp [TT.eqL, TT.untypedL]
end

theorem TT.rep_eq (table : List TT) (t : TT) : (TT.rep table t).untyped = t.untyped := by
  unfold TT.rep
  cases h : table.find? fun u => TT.eq u t with
  | none => rfl
  | some u => exact (TT.eq_iff u t).1 (by simpa using List.find?_some h)

theorem keepConsts_untyped : ∀ as bs : List TT, TT.untypedL as = TT.untypedL bs → TT.untypedL (keepConsts as bs) = TT.untypedL as
  | [], [], _ => by simp [keepConsts]
  | [], _ :: _, h => by simp [TT.untypedL] at h
  | _ :: _, [], h => by simp [TT.untypedL] at h
  | a :: as, b :: bs, h => by
    simp only [TT.untypedL, List.cons.injEq] at h
    have ih := keepConsts_untyped as bs h.2
    cases b with
    | const c => simp only [keepConsts, TT.untypedL, ih, ← h.1]
    | name s => simp only [keepConsts, TT.untypedL, ih]
    | call f l => simp only [keepConsts, TT.untypedL, ih]

mutual
theorem TT.share_untyped (table : List TT) : ∀ t : TT, (TT.share table t).untyped = t.untyped
  | .const c => by simp only [TT.share]
  | .name s => by simp only [TT.share]
  | .call f as => by
    have ih := TT.shareL_untyped table as
    have hr := TT.rep_eq table (.call f as)
    simp only [TT.share, TT.untyped, T.call.injEq, true_and]
    rw [← ih]
    refine keepConsts_untyped _ _ ?_
    rw [ih]
    cases hq : TT.rep table (.call f as) with
    | const c => rw [hq] at hr; simp [TT.untyped] at hr
    | name s => rw [hq] at hr; simp [TT.untyped] at hr
    | call g bs =>
      rw [hq] at hr
      simp only [TT.untyped, T.call.injEq] at hr
      exact hr.2.symm
theorem TT.shareL_untyped (table : List TT) : ∀ l : List TT, TT.untypedL (TT.shareL table l) = TT.untypedL l
  | [] => by simp only [TT.shareL]
  | a :: as => by simp only [TT.shareL, TT.untypedL, TT.share_untyped table a, TT.shareL_untyped table as]
end

/-! ## Values -/

/-- Nothing overflows in one call. -/
def fitsCall (ty : IType) (f : String) (vs : List IVal) : Prop :=
  match onInts f, vs with
  | some h, [.int a, .int b] => ty.has (h a b)
  | some h, [.int a, .py b] => ty.has b ∧ ty.has (h a b)
  | some h, [.py a, .int b] => ty.has a ∧ ty.has (h a b)
  | _, _ => True

mutual
/-- Nothing overflows on the way. -/
def TT.Fits (ty : IType) (more : String → Option (List (Option ℚ) → Option ℚ)) (sym : String → IVal) : TT → Prop
  | .const _ => True
  | .name _ => True
  | .call f args => TT.FitsL ty more sym args ∧ ∀ vs, TT.valL ty more sym args = .ok vs → fitsCall ty f vs
/-- The same for the arguments. -/
def TT.FitsL (ty : IType) (more : String → Option (List (Option ℚ) → Option ℚ)) (sym : String → IVal) : List TT → Prop
  | [] => True
  | a :: as => TT.Fits ty more sym a ∧ TT.FitsL ty more sym as
end

/-- Not an element of an integer array. -/
def IVal.notInt : IVal → Prop
  | .int _ => False
  | _ => True

theorem intFn_notInt {ty : IType} {f : String} {g : List RowVal → Except Err RowVal} {vs : List IVal} {v : IVal} (hv : ∀ x ∈ vs, x.notInt)
    (h : intFn ty f g vs = .ok v) : v.notInt := by
  unfold intFn at h
  split at h
  · exact absurd hv (by simp [IVal.notInt])
  · exact absurd hv (by simp [IVal.notInt])
  · exact absurd hv (by simp [IVal.notInt])
  · cases h; trivial
  · revert h
    generalize g (List.map IVal.erase _) = r
    intro h
    cases r with
    | error e => cases h
    | ok r =>
      cases h
      cases r <;> trivial

theorem fitsCall_notInt {ty : IType} {f : String} {vs : List IVal} (hv : ∀ x ∈ vs, x.notInt) : fitsCall ty f vs := by
  unfold fitsCall
  split
  · exact absurd hv (by simp [IVal.notInt])
  · exact absurd hv (by simp [IVal.notInt])
  · exact absurd hv (by simp [IVal.notInt])
  · trivial

theorem intFn_erase {ty : IType} {more : String → Option (List (Option ℚ) → Option ℚ)} {f : String} {g : List RowVal → Except Err RowVal}
    (hg : (rowLib more).fn f = some g) {vs : List IVal} (h : fitsCall ty f vs) : (intFn ty f g vs).map IVal.erase = g (vs.map IVal.erase) := by
  have key : ∀ op, onInts f = some op → ∀ a b : ℤ, g [.num (some (a : ℚ)), .num (some (b : ℚ))] = .ok (.num (some ((op a b : ℤ) : ℚ))) := by
    intro op hop a b
    unfold onInts at hop
    split at hop <;> cases hop <;> cases hg <;> push_cast <;> rfl
  unfold intFn
  unfold fitsCall at h
  split
  · rename_i op a b hop
    rw [hop] at h
    simp only at h
    simp only [List.map_cons, List.map_nil, IVal.erase]
    rw [key _ hop, IType.wrap_of_has h]
    rfl
  · rename_i op a b hop
    rw [hop] at h
    simp only at h
    simp only [List.map_cons, List.map_nil, IVal.erase]
    rw [key _ hop, if_pos h.1, IType.wrap_of_has h.2]
    rfl
  · rename_i op a b hop
    rw [hop] at h
    simp only at h
    simp only [List.map_cons, List.map_nil, IVal.erase]
    rw [key _ hop, if_pos h.1, IType.wrap_of_has h.2]
    rfl
  · rename_i op a b hop
    simp only [List.map_cons, List.map_nil, IVal.erase]
    rw [key _ hop]
    rfl
  · generalize g (List.map IVal.erase _) = r
    cases r with
    | error e => rfl
    | ok r => cases r <;> rfl

section
variable {ty : IType} {more : String → Option (List (Option ℚ) → Option ℚ)} {sym : String → IVal}

mutual
theorem TT.val_erase : ∀ t : TT, t.Fits ty more sym →
    (t.val ty more sym).map IVal.erase = calculate (rowLib more) (fun s => .ok (sym s).erase) t.untyped
  | .const (.int z), _ => by simp only [TT.val, TT.untyped, calculate]; rfl
  | .const (.float q), _ => by simp only [TT.val, TT.untyped, calculate]; rfl
  | .name s, _ => by simp only [TT.val, TT.untyped, calculate]; rfl
  | .call f as, h => by
    simp only [TT.Fits] at h
    have ih := TT.valL_erase as h.1
    simp only [TT.val, TT.untyped, calculate]
    change Except.map IVal.erase (match ((rowLib more).fn f).map (intFn ty f) with | none => .error .assertion | some g => TT.valL ty more sym as >>= g) = _
    cases hg : (rowLib more).fn f with
    | none => rfl
    | some g =>
      simp only [Option.map_some]
      cases hv : TT.valL ty more sym as with
      | error e =>
        rw [hv] at ih
        rw [← ih]; rfl
      | ok vs =>
        rw [hv] at ih
        rw [← ih]
        exact intFn_erase hg (h.2 vs hv)
theorem TT.valL_erase : ∀ l : List TT, TT.FitsL ty more sym l →
    (TT.valL ty more sym l).map (List.map IVal.erase) = calculateL (rowLib more) (fun s => .ok (sym s).erase) (TT.untypedL l)
  | [], _ => by simp only [TT.valL, TT.untypedL, calculateL]; rfl
  | a :: as, h => by
    simp only [TT.FitsL] at h
    have i1 := TT.val_erase a h.1
    have i2 := TT.valL_erase as h.2
    simp only [TT.valL, TT.untypedL, calculateL]
    rw [← i1, ← i2]
    cases TT.val ty more sym a with
    | error e => rfl
    | ok v =>
      cases TT.valL ty more sym as with
      | error e => rfl
      | ok vs => rfl
end

mutual
/-- Without integer columns nothing overflows. -/
theorem TT.fits_float (hs : ∀ s, (sym s).notInt) : ∀ t : TT, t.Fits ty more sym ∧ ∀ v, t.val ty more sym = .ok v → v.notInt
  | .const (.int z) => ⟨trivial, fun v h => by cases h; trivial⟩
  | .const (.float q) => ⟨trivial, fun v h => by cases h; trivial⟩
  | .name s => ⟨trivial, fun v h => by cases h; exact hs s⟩
  | .call f as => by
    obtain ⟨h1, h2⟩ := TT.fitsL_float hs as
    refine ⟨⟨h1, fun vs hvs => fitsCall_notInt (h2 vs hvs)⟩, fun v h => ?_⟩
    simp only [TT.val] at h
    change (match ((rowLib more).fn f).map (intFn ty f) with | none => Except.error Err.assertion | some g => TT.valL ty more sym as >>= g) = _ at h
    cases hg : (rowLib more).fn f with
    | none => rw [hg] at h; cases h
    | some g =>
      rw [hg] at h
      cases hv : TT.valL ty more sym as with
      | error e => rw [hv] at h; cases h
      | ok vs =>
        rw [hv] at h
        exact intFn_notInt (h2 vs hv) h
theorem TT.fitsL_float (hs : ∀ s, (sym s).notInt) : ∀ l : List TT, TT.FitsL ty more sym l ∧ ∀ vs, TT.valL ty more sym l = .ok vs → ∀ v ∈ vs, v.notInt
  | [] => ⟨trivial, fun vs h => by cases h; simp⟩
  | a :: as => by
    obtain ⟨h1, h2⟩ := TT.fits_float hs a
    obtain ⟨h3, h4⟩ := TT.fitsL_float hs as
    refine ⟨⟨h1, h3⟩, fun vs h => ?_⟩
    simp only [TT.valL] at h
    cases hv : TT.val ty more sym a with
    | error e => rw [hv] at h; cases h
    | ok v =>
      cases hvs : TT.valL ty more sym as with
      | error e => rw [hv, hvs] at h; cases h
      | ok ws =>
        rw [hv, hvs] at h
        cases h
        intro x hx
        rcases List.mem_cons.1 hx with rfl | hx
        · exact h2 _ hv
        · exact h4 _ hvs x hx
end
end

/-! ## Constants of one type -/

mutual
/-- The constants of a tree. -/
def TT.consts : TT → List NConst
  | .const c => [c]
  | .name _ => []
  | .call _ as => TT.constsL as
/-- The same for the arguments. -/
def TT.constsL : List TT → List NConst
  | [] => []
  | a :: as => TT.consts a ++ TT.constsL as
end

/-- No number is written with both types. -/
def OneType (l : List NConst) : Prop := ∀ c ∈ l, ∀ d ∈ l, c.num = d.num → c = d

mutual
theorem TT.eq_of_untyped {l : List NConst} (hl : OneType l) : ∀ t u : TT, (∀ c ∈ t.consts, c ∈ l) → (∀ c ∈ u.consts, c ∈ l) → t.untyped = u.untyped → t = u
  | .const c, .const d, h1, h2, h => by
    rw [hl c (h1 c (by simp [TT.consts])) d (h2 d (by simp [TT.consts])) (by simpa [TT.untyped] using h)]
  | .name s, .name t, _, _, h => by simpa [TT.untyped] using h
  | .call f as, .call g bs, h1, h2, h => by
    simp only [TT.untyped, T.call.injEq] at h
    rw [h.1, TT.eqL_of_untyped hl as bs (by simpa [TT.consts] using h1) (by simpa [TT.consts] using h2) h.2]
  | .const _, .name _, _, _, h => by simp [TT.untyped] at h
  | .const _, .call _ _, _, _, h => by simp [TT.untyped] at h
  | .name _, .const _, _, _, h => by simp [TT.untyped] at h
  | .name _, .call _ _, _, _, h => by simp [TT.untyped] at h
  | .call _ _, .const _, _, _, h => by simp [TT.untyped] at h
  | .call _ _, .name _, _, _, h => by simp [TT.untyped] at h
theorem TT.eqL_of_untyped {l : List NConst} (hl : OneType l) : ∀ as bs : List TT, (∀ c ∈ TT.constsL as, c ∈ l) → (∀ c ∈ TT.constsL bs, c ∈ l) →
    TT.untypedL as = TT.untypedL bs → as = bs
  | [], [], _, _, _ => rfl
  | a :: as, b :: bs, h1, h2, h => by
    simp only [TT.untypedL, List.cons.injEq] at h
    simp only [TT.constsL, List.mem_append] at h1 h2
    rw [TT.eq_of_untyped hl a b (fun c hc => h1 c (.inl hc)) (fun c hc => h2 c (.inl hc)) h.1,
      TT.eqL_of_untyped hl as bs (fun c hc => h1 c (.inr hc)) (fun c hc => h2 c (.inr hc)) h.2]
  | [], _ :: _, _, _, h => by simp [TT.untypedL] at h
  | _ :: _, [], _, _, h => by simp [TT.untypedL] at h
end

mutual
theorem TT.subs_consts : ∀ (t : TT) (u : TT), u ∈ t.subs → ∀ c ∈ u.consts, c ∈ t.consts
  | .const _, u, h => by simp [TT.subs] at h
  | .name s, u, h => by
    simp only [TT.subs, List.mem_singleton] at h
    subst h; simp [TT.consts]
  | .call f as, u, h => by
    simp only [TT.subs, List.mem_cons] at h
    rcases h with rfl | h
    · exact fun c hc => hc
    · intro c hc
      simp only [TT.consts]
      exact TT.subsL_consts as u h c hc
theorem TT.subsL_consts : ∀ (l : List TT) (u : TT), u ∈ TT.subsL l → ∀ c ∈ u.consts, c ∈ TT.constsL l
  | [], u, h => by simp [TT.subsL] at h
  | a :: as, u, h => by
    simp only [TT.subsL, List.mem_append] at h
    intro c hc
    simp only [TT.constsL, List.mem_append]
    rcases h with h | h
    · exact .inl (TT.subs_consts a u h c hc)
    · exact .inr (TT.subsL_consts as u h c hc)
end

theorem keepConsts_self : ∀ l : List TT, keepConsts l l = l
  | [] => by simp [keepConsts]
  | .const c :: l => by simp [keepConsts, keepConsts_self l]
  | .name c :: l => by simp [keepConsts, keepConsts_self l]
  | .call f c :: l => by simp [keepConsts, keepConsts_self l]

mutual
theorem TT.share_self {l : List NConst} (hl : OneType l) {table : List TT} (ht : ∀ u ∈ table, ∀ c ∈ u.consts, c ∈ l) :
    ∀ t : TT, (∀ c ∈ t.consts, c ∈ l) → TT.share table t = t
  | .const c, _ => by simp only [TT.share]
  | .name s, _ => by simp only [TT.share]
  | .call f as, h => by
    have ih := TT.shareL_self hl ht as (by simpa [TT.consts] using h)
    have hr : TT.rep table (.call f as) = .call f as := by
      refine TT.eq_of_untyped hl _ _ ?_ h (TT.rep_eq table _)
      unfold TT.rep
      cases hf : table.find? fun u => TT.eq u (.call f as) with
      | none => exact h
      | some u => exact ht u (List.mem_of_find?_eq_some hf)
    simp only [TT.share, hr, TT.args, ih, keepConsts_self]
theorem TT.shareL_self {l : List NConst} (hl : OneType l) {table : List TT} (ht : ∀ u ∈ table, ∀ c ∈ u.consts, c ∈ l) :
    ∀ as : List TT, (∀ c ∈ TT.constsL as, c ∈ l) → TT.shareL table as = as
  | [], _ => by simp only [TT.shareL]
  | a :: as, h => by
    simp only [TT.constsL, List.mem_append] at h
    simp only [TT.shareL]
    rw [TT.share_self hl ht a (fun c hc => h c (.inl hc)), TT.shareL_self hl ht as (fun c hc => h c (.inr hc))]
end

end Verif
