import Verif.IntTree
import Verif.ExprPoly
import Verif.TreeLemmas

/-!
# Sums and products of integer arrays

Lemmas: the trees of expressions made of fields, integers, `+`, `-` and `*` calculate, in an integer type, to the residue of the exact value.
-/

namespace Verif

/-- A tree of sums, differences and products of integer fields and constants of the type, with a field on at least one side of each. -/
inductive IntArr (ty : IType) : E → Prop
  | name (s : String) : IntArr ty (E.name s)
  | both (f : String) (a b : E) : (onInts f).isSome = true → IntArr ty a → IntArr ty b → IntArr ty (E.callE f [a, b])
  | right (f : String) (a : E) (z : ℤ) : (onInts f).isSome = true → IntArr ty a → ty.has z → IntArr ty (E.callE f [a, E.const z])
  | left (f : String) (z : ℤ) (b : E) : (onInts f).isSome = true → ty.has z → IntArr ty b → IntArr ty (E.callE f [E.const z, b])

variable {ty : IType} {more : More} {field : String → ℤ}

/-- The fields without their type. -/
def intField (field : String → ℤ) (s : String) : Option ℚ := some (field s)

theorem onInts_names {f : String} (h : (onInts f).isSome = true) : f = "numpy.add" ∨ f = "numpy.subtract" ∨ f = "numpy.multiply" := by
  unfold onInts at h
  split at h
  · exact .inl rfl
  · exact .inr (.inl rfl)
  · exact .inr (.inr rfl)
  · cases h

theorem calc_call2 {V : Type} {lib : Lib V} {sym : String → Except Err V} {f : String} {g : List V → Except Err V} {a b : E} {u v : V}
    (hf : lib.fn f = some g) (ha : calculate lib sym a.toT = .ok u) (hb : calculate lib sym b.toT = .ok v) :
    calculate lib sym (E.callE f [a, b]).toT = g [u, v] := by
  have e : (E.callE f [a, b]).toT = .call f [a.toT, b.toT] := rfl
  rw [e]
  simp only [calculate, calculateL, hf, ha, hb]
  rfl

theorem row_call2 {f : String} {h : ℤ → ℤ → ℤ} (hf : onInts f = some h) {a b : E} {x y : ℤ}
    (ha : calculate (rowLib more) (rowSymbols (intField field)) a.toT = .ok (.num (some x)))
    (hb : calculate (rowLib more) (rowSymbols (intField field)) b.toT = .ok (.num (some y))) :
    calculate (rowLib more) (rowSymbols (intField field)) (E.callE f [a, b]).toT = .ok (.num (some (h x y : ℤ))) := by
  rcases onInts_names (by rw [hf]; rfl) with rfl | rfl | rfl <;>
    · rw [calc_call2 rfl ha hb, ← Option.some.inj hf]
      push_cast
      rfl

theorem int_call2 {f : String} {a b : E} {u v : IVal}
    (ha : calculate (intLib ty more) (intSymbols field) a.toT = .ok u) (hb : calculate (intLib ty more) (intSymbols field) b.toT = .ok v)
    (hf : (onInts f).isSome = true) :
    ∃ g, calculate (intLib ty more) (intSymbols field) (E.callE f [a, b]).toT = intFn ty f g [u, v] := by
  rcases onInts_names hf with rfl | rfl | rfl <;> exact ⟨_, calc_call2 rfl ha hb⟩

/-- What such a tree calculates to, without and with the type. -/
theorem IntArr.val (hfield : ∀ s, ty.has (field s)) {t : E} (h : IntArr ty t) :
    ∃ z : ℤ, calculate (rowLib more) (rowSymbols (intField field)) t.toT = .ok (.num (some z)) ∧
      calculate (intLib ty more) (intSymbols field) t.toT = .ok (.int (ty.wrap z)) := by
  have cr : ∀ z : ℤ, calculate (rowLib more) (rowSymbols (intField field)) (E.const z).toT = .ok (.num (some (z : ℚ))) := fun z => rfl
  have ci : ∀ z : ℤ, calculate (intLib ty more) (intSymbols field) (E.const z).toT = .ok (.py z) := fun z => by
    change Except.ok (if ((z : ℚ)).den = 1 then IVal.py ((z : ℚ)).num else .num (some (z : ℚ))) = _
    simp
  induction h with
  | name s =>
    refine ⟨field s, rfl, ?_⟩
    change Except.ok (IVal.int (field s)) = _
    rw [IType.wrap_of_has (hfield s)]
  | both f a b hf _ _ iha ihb =>
    obtain ⟨x, hx, hx'⟩ := iha
    obtain ⟨y, hy, hy'⟩ := ihb
    obtain ⟨h, hh⟩ := Option.isSome_iff_exists.1 hf
    refine ⟨h x y, row_call2 hh hx hy, ?_⟩
    obtain ⟨g, hg⟩ := int_call2 hx' hy' hf
    rw [hg]
    simp only [intFn, hh]
    rw [(ty.wrap_eq_iff _ _).2 (onInts_congr hh _ _ _ _ _ (ty.wrap_modEq x) (ty.wrap_modEq y))]
  | right f a z hf _ hz iha =>
    obtain ⟨x, hx, hx'⟩ := iha
    obtain ⟨h, hh⟩ := Option.isSome_iff_exists.1 hf
    refine ⟨h x z, row_call2 hh hx (cr z), ?_⟩
    obtain ⟨g, hg⟩ := int_call2 hx' (ci z) hf
    rw [hg]
    simp only [intFn, hh, if_pos hz]
    rw [(ty.wrap_eq_iff _ _).2 (onInts_congr hh _ _ _ _ _ (ty.wrap_modEq x) (Int.ModEq.refl z))]
  | left f z b hf hz _ ihb =>
    obtain ⟨y, hy, hy'⟩ := ihb
    obtain ⟨h, hh⟩ := Option.isSome_iff_exists.1 hf
    refine ⟨h z y, row_call2 hh (cr z) hy, ?_⟩
    obtain ⟨g, hg⟩ := int_call2 (ci z) hy' hf
    rw [hg]
    simp only [intFn, hh, if_pos hz]
    rw [(ty.wrap_eq_iff _ _).2 (onInts_congr hh _ _ _ _ _ (Int.ModEq.refl z) (ty.wrap_modEq y))]

/-! ## Which trees -/

theorem reduceT_arr {f : String} (hf : (onInts f).isSome = true) : ∀ (n : ℕ) (args : List E) (t : E), reduceT f n args = .ok t → (∀ a ∈ args, IntArr ty a) → IntArr ty t := by
  intro n
  induction n with
  | zero =>
    intro args t h ha
    match args with
    | [] => cases h
    | [_] => cases h; exact ha _ (by simp)
    | _ :: _ :: _ => cases h
  | succ n ih =>
    intro args t h ha
    have one : ∀ l : List E, (∀ a ∈ l, IntArr ty a) → (if (l.take (l.length / 2)).isEmpty then reduceT f n (l.drop (l.length / 2))
        else do
          let x ← reduceT f n (l.take (l.length / 2))
          let r ← reduceT f n (l.drop (l.length / 2))
          .ok (E.callE f [x, r])) = .ok t → IntArr ty t := by
      intro l hl h
      split at h
      · exact ih _ t h fun a h' => hl a (List.mem_of_mem_drop h')
      · obtain ⟨x, hx, h⟩ := exBind h
        obtain ⟨y, hy, h⟩ := exBind h
        cases h
        exact .both f x y hf (ih _ x hx fun a h' => hl a (List.mem_of_mem_take h')) (ih _ y hy fun a h' => hl a (List.mem_of_mem_drop h'))
    match args with
    | [] => exact one [] ha h
    | [_] => cases h; exact ha _ (by simp)
    | a :: b :: as => exact one _ ha h

theorem linearT_arr {f : String} (hf : (onInts f).isSome = true) : ∀ (args : List E) (t : E), linearT f args = .ok t → (∀ a ∈ args, IntArr ty a) → IntArr ty t
  | [], _, h, _ => by cases h
  | [a], t, h, ha => by cases h; exact ha a (by simp)
  | a :: b :: as, t, h, ha => by
    simp only [linearT] at h
    cases hl : linearT f (b :: as) with
    | error e => rw [hl] at h; cases h
    | ok x =>
      rw [hl] at h
      cases h
      exact .both f a x hf (ha a (by simp)) (linearT_arr hf _ x hl fun y hy => ha y (by simp [hy]))

theorem sortU_sub {l : List E} {x : E} (h : x ∈ sortU l) : x ∈ l := by
  unfold sortU at h
  have h := (sortE_perm _).mem_iff.1 h
  clear * - h
  induction l with
  | nil => simp at h
  | cons y l ih =>
    rw [List.foldr_cons] at h
    split at h
    · exact List.mem_cons_of_mem _ (ih h)
    · rcases List.mem_cons.1 h with rfl | h
      · simp
      · exact List.mem_cons_of_mem _ (ih h)

theorem duplicatesT_arr {f : String} (hf : (onInts f).isSome = true) (args : List E) (t : E) (h : duplicatesT f args = .ok t) (ha : ∀ a ∈ args, IntArr ty a) : IntArr ty t := by
  have gen : (if (sortU args).length = args.length then reduceT f args.length args
    else do
      let newargs ← (sortU args).mapM fun x => linearT f (List.replicate (countE x args) x)
      reduceT f newargs.length newargs) = .ok t → IntArr ty t := by
    intro h
    split at h
    · exact reduceT_arr hf _ _ t h ha
    · obtain ⟨l, hl, h⟩ := exBind h
      refine reduceT_arr hf _ _ t h fun a hal => ?_
      obtain ⟨x, hx, hxa⟩ := mapM_mem hl a hal
      refine linearT_arr hf _ a hxa fun y hy => ?_
      rw [(List.mem_replicate.1 hy).2]
      exact ha x (sortU_sub hx)
  unfold duplicatesT at h
  split at h
  · cases h; exact ha _ (by simp)
  · exact gen h

/-! ## Which expressions -/

/-- A product of fields. -/
def FlatKey (k : List E × List E) : Prop := k.2 = [] ∧ ∀ x ∈ k.1, ∃ s, x = E.name s

/-- A term with an integral coefficient and fields only. -/
def Mono.IntFlat (m : Mono) : Prop := FlatKey m.key ∧ ∃ z : ℤ, m.c = z

/-- The same for a sum. -/
structure Poly.IntFlat (p : Poly) : Prop where
  c : ∃ z : ℤ, p.c = z
  net : ∀ k, ∃ z : ℤ, p.net k = z
  key : ∀ k, p.net k ≠ 0 → FlatKey k

theorem ksum_intFlat {l : List Mono} (h : ∀ m ∈ l, m.IntFlat) (k : List E × List E) : (∃ z : ℤ, ksum l k = z) ∧ (ksum l k ≠ 0 → FlatKey k) := by
  induction l with
  | nil => exact ⟨⟨0, by simp [ksum]⟩, fun h => absurd (by simp [ksum]) h⟩
  | cons m l ih =>
    obtain ⟨⟨z, hz⟩, hk⟩ := ih fun x hx => h x (by simp [hx])
    obtain ⟨hm, w, hw⟩ := h m (by simp)
    rw [ksum_cons]
    by_cases e : m.key = k
    · rw [if_pos e]
      exact ⟨⟨w + z, by rw [hw, hz]; push_cast; ring⟩, fun _ => e ▸ hm⟩
    · rw [if_neg e, zero_add]
      exact ⟨⟨z, hz⟩, hk⟩

theorem intFlat_of_lists {p : Poly} (hc : ∃ z : ℤ, p.c = z) (hp : ∀ m ∈ p.pos, m.IntFlat) (hn : ∀ m ∈ p.neg, m.IntFlat) : p.IntFlat := by
  refine ⟨hc, fun k => ?_, fun k hk => ?_⟩
  · obtain ⟨⟨a, ha⟩, _⟩ := ksum_intFlat hp k
    obtain ⟨⟨b, hb⟩, _⟩ := ksum_intFlat hn k
    exact ⟨a - b, by unfold Poly.net; rw [ha, hb]; push_cast; ring⟩
  · by_cases h : ksum p.pos k = 0
    · refine (ksum_intFlat hn k).2 fun h' => hk ?_
      unfold Poly.net; rw [h, h']; ring
    · exact (ksum_intFlat hp k).2 h

theorem Poly.IntFlat.terms {p : Poly} (h : p.IntFlat) (c : p.Canon) : (∀ m ∈ p.pos, m.IntFlat) ∧ ∀ m ∈ p.neg, m.IntFlat := by
  constructor
  · intro m hm
    obtain ⟨h1, h2⟩ := (c.mem_pos m).1 hm
    refine ⟨h.key _ (by rw [h2]; exact h1.ne'), ?_⟩
    obtain ⟨z, hz⟩ := h.net m.key
    exact ⟨z, by rw [← h2, hz]⟩
  · intro m hm
    obtain ⟨h1, h2⟩ := (c.mem_neg m).1 hm
    refine ⟨h.key _ (by rw [h2]; exact neg_ne_zero.2 h1.ne'), ?_⟩
    obtain ⟨z, hz⟩ := h.net m.key
    refine ⟨-z, ?_⟩
    push_cast
    rw [← hz, h2, neg_neg]

theorem Mono.IntFlat.combine {x y : Mono} (hx : x.IntFlat) (hy : y.IntFlat) : (x.combine y).IntFlat := by
  obtain ⟨⟨a1, a2⟩, z, hz⟩ := hx
  obtain ⟨⟨b1, b2⟩, w, hw⟩ := hy
  refine ⟨⟨?_, ?_⟩, z * w, ?_⟩
  · change sortE (x.neg ++ y.neg) = []
    rw [show x.neg = [] from a1, show y.neg = [] from b1]; rfl
  · intro e he
    rcases List.mem_append.1 ((sortE_perm _).mem_iff.1 he) with h | h
    · exact a2 e h
    · exact b2 e h
  · change x.c * y.c = _
    rw [hz, hw]; push_cast; ring

theorem scale_intFlat {z : ℤ} {q : ℚ} (hq : q = z) {l : List Mono} (h : ∀ m ∈ l, m.IntFlat) : ∀ m ∈ scale q l, m.IntFlat := by
  intro m hm
  obtain ⟨x, hx, rfl⟩ := List.mem_map.1 hm
  exact (h x hx).combine ⟨⟨rfl, by simp [Mono.key]⟩, z, hq⟩

theorem prods_intFlat {l r : List Mono} (hl : ∀ m ∈ l, m.IntFlat) (hr : ∀ m ∈ r, m.IntFlat) : ∀ m ∈ prods l r, m.IntFlat := by
  intro m hm
  obtain ⟨x, hx, hm⟩ := List.mem_flatMap.1 hm
  obtain ⟨y, hy, rfl⟩ := List.mem_map.1 hm
  exact (hl x hx).combine (hr y hy)

theorem distArg_intFlat {l r : Poly} (hl : l.IntFlat) (hr : r.IntFlat) (cl : l.Canon) (cr : r.Canon) : (distArg l r).IntFlat := by
  obtain ⟨l1, l2⟩ := hl.terms cl
  obtain ⟨r1, r2⟩ := hr.terms cr
  obtain ⟨a, ha⟩ := hl.c
  obtain ⟨b, hb⟩ := hr.c
  refine intFlat_of_lists ⟨0, by simp [distArg]⟩ ?_ ?_
  · intro m hm
    simp only [distArg, List.mem_append] at hm
    rcases hm with ((hm | hm) | hm) | hm
    · exact scale_intFlat hb l1 m hm
    · exact scale_intFlat ha r1 m hm
    · exact prods_intFlat l1 r1 m hm
    · exact prods_intFlat l2 r2 m hm
  · intro m hm
    simp only [distArg, List.mem_append] at hm
    rcases hm with ((hm | hm) | hm) | hm
    · exact scale_intFlat hb l2 m hm
    · exact scale_intFlat ha r2 m hm
    · exact prods_intFlat l1 r2 m hm
    · exact prods_intFlat l2 r1 m hm

/-! ## Their trees -/

/-- The constants of a node belong to the type. -/
def FitHead (ty : IType) : Head → Prop
  | .const q => (ty.lo : ℚ) ≤ q ∧ q < ty.lo + 2 ^ ty.bits
  | .plus q => (ty.lo : ℚ) ≤ q ∧ q < ty.lo + 2 ^ ty.bits
  | .times q => (ty.lo : ℚ) ≤ q ∧ q < ty.lo + 2 ^ ty.bits
  | _ => True

theorem has_of_fit {z : ℤ} {q : ℚ} (hq : q = z) (h : (ty.lo : ℚ) ≤ q ∧ q < ty.lo + 2 ^ ty.bits) : ty.has z := by
  subst hq
  exact ⟨by exact_mod_cast h.1, by exact_mod_cast h.2⟩

theorem totreeL_names {l : List E} (h : ∀ x ∈ l, ∃ s, x = E.name s) : totreeL l = .ok l := by
  induction l with
  | nil => rfl
  | cons x l ih =>
    obtain ⟨s, rfl⟩ := h x (by simp)
    simp only [totreeL]
    rw [ih fun y hy => h y (by simp [hy])]
    rfl

theorem mono_arr {m : Mono} (hm : m.IntFlat) (hne : m.pos ≠ []) (hf : FitHead ty (.times m.c)) (t : E) (h : totree m.toE = .ok t) : IntArr ty t := by
  obtain ⟨c, p, n⟩ := m
  obtain ⟨⟨hn, hp⟩, z, hz⟩ := hm
  change n = [] at hn
  change ∀ x ∈ p, ∃ s, x = E.name s at hp
  change c = z at hz
  subst hn
  change (totreeL p >>= fun p' => totreeL [] >>= fun n' => headTree (.times c) p' n') = .ok t at h
  rw [totreeL_names hp] at h
  change ((posPart (duplicatesT "numpy.multiply" p) p) >>= fun out => negPart "numpy.true_divide" _ [] (withConst "numpy.multiply" 1 c out)) = .ok t at h
  obtain ⟨out, h1, h2⟩ := exBind h
  unfold posPart at h1
  rw [if_neg (by simpa using hne)] at h1
  cases hd : duplicatesT "numpy.multiply" p with
  | error e => rw [hd] at h1; cases h1
  | ok d =>
    rw [hd] at h1
    cases h1
    have hd' : IntArr ty d := duplicatesT_arr rfl p d hd fun a ha => by
      obtain ⟨s, rfl⟩ := hp a ha
      exact .name s
    unfold negPart at h2
    simp only [List.isEmpty_nil, if_true] at h2
    cases h2
    unfold withConst
    simp only
    split
    · exact hd'
    · rw [hz]
      exact .right _ d z rfl hd' (has_of_fit hz hf)

theorem monos_arr : ∀ {l : List Mono}, (∀ m ∈ l, m.IntFlat ∧ m.pos ≠ [] ∧ FitHead ty (.times m.c)) → ∀ ts, totreeL (l.map Mono.toE) = .ok ts →
    (∀ t ∈ ts, IntArr ty t) ∧ ts.length = l.length
  | [], _, ts, h => by cases h; simp
  | m :: l, hm, ts, h => by
    simp only [List.map_cons, totreeL] at h
    obtain ⟨x, hx, h⟩ := exBind h
    obtain ⟨xs, hxs, h⟩ := exBind h
    cases h
    obtain ⟨h1, h2, h3⟩ := hm m (by simp)
    have ht := mono_arr h1 h2 h3 x hx
    obtain ⟨i1, i2⟩ := monos_arr (fun y hy => hm y (by simp [hy])) xs hxs
    refine ⟨fun t ht' => ?_, by simp [i2]⟩
    rcases List.mem_cons.1 ht' with rfl | ht'
    · exact ht
    · exact i1 t ht'

theorem poly_arr {p : Poly} (hc : ∃ z : ℤ, p.c = z) (hp : ∀ m ∈ p.pos ++ p.neg, m.IntFlat ∧ m.pos ≠ [] ∧ FitHead ty (.times m.c))
    (hne : p.pos ≠ [] ∨ p.neg ≠ []) (hf : FitHead ty (.plus p.c)) (t : E) (h : totree p.toE = .ok t) : IntArr ty t := by
  obtain ⟨c, ps, ns⟩ := p
  obtain ⟨z, hz⟩ := hc
  change c = z at hz
  change (totreeL (ps.map Mono.toE) >>= fun p' => totreeL (ns.map Mono.toE) >>= fun n' => headTree (.plus c) p' n') = .ok t at h
  obtain ⟨p', hp', h⟩ := exBind h
  obtain ⟨n', hn', h⟩ := exBind h
  obtain ⟨a1, a2⟩ := monos_arr (fun m hm => hp m (List.mem_append_left _ hm)) p' hp'
  obtain ⟨b1, b2⟩ := monos_arr (fun m hm => hp m (List.mem_append_right _ hm)) n' hn'
  change ((posPart (reduceT "numpy.add" p'.length p') p') >>= fun out => negPart "numpy.subtract" (reduceT "numpy.add" n'.length n') n' (withConst "numpy.add" 0 c out)) = .ok t at h
  obtain ⟨out, h1, h2⟩ := exBind h
  have hz' : ty.has z := has_of_fit hz hf
  have hout : (out = none ∧ p' = []) ∨ ∃ d, out = some d ∧ IntArr ty d := by
    unfold posPart at h1
    split at h1
    · rename_i he
      cases h1
      exact .inl ⟨rfl, by simpa using he⟩
    · cases hd : reduceT "numpy.add" p'.length p' with
      | error e => rw [hd] at h1; cases h1
      | ok d =>
        rw [hd] at h1; cases h1
        exact .inr ⟨d, rfl, reduceT_arr rfl _ _ d hd a1⟩
  have hw : (∃ d, withConst "numpy.add" 0 c out = d ∧ IntArr ty d) ∨ (withConst "numpy.add" 0 c out = E.const z ∧ p' = []) := by
    rcases hout with ⟨rfl, he⟩ | ⟨d, rfl, hd⟩
    · exact .inr ⟨by rw [← hz]; rfl, he⟩
    · refine .inl ⟨_, rfl, ?_⟩
      unfold withConst
      simp only
      split
      · exact hd
      · rw [hz]; exact .right _ d z rfl hd hz'
  unfold negPart at h2
  split at h2
  · rename_i he
    have hn0 : n' = [] := by simpa using he
    cases h2
    rcases hw with ⟨d, e, hd⟩ | ⟨_, he'⟩
    · rw [e]; exact hd
    · exfalso
      rw [hn0] at b2
      rw [he'] at a2
      rcases hne with h | h
      · exact h (List.length_eq_zero_iff.1 a2.symm)
      · exact h (List.length_eq_zero_iff.1 b2.symm)
  · cases hd : reduceT "numpy.add" n'.length n' with
    | error e => rw [hd] at h2; cases h2
    | ok x =>
      rw [hd] at h2; cases h2
      have hx := reduceT_arr rfl _ _ x hd b1
      rcases hw with ⟨d, e, hd⟩ | ⟨e, _⟩
      · rw [e]; exact .both _ d x rfl hd hx
      · rw [e]; exact .left _ z x rfl hz' hx

/-- The tree of a collected sum of products of fields with integral coefficients of the type: a number, or a tree of integer arrays. -/
theorem simplify_arr {e : E} (g : Good e) (h : e.asPoly.IntFlat) (hf : e.All (FitHead ty)) (t : E) (ht : totree e = .ok t) :
    (∃ z : ℤ, t = E.const z) ∨ IntArr ty t := by
  have hterms := h.terms g.canon
  have hshape := g.canon.shapes
  obtain ⟨z, hz⟩ := h.c
  have mono : ∀ m : Mono, m.IntFlat → m.Shape → m.simplify.All (FitHead ty) → ∀ t, totree m.simplify = .ok t → (∃ z : ℤ, t = E.const z) ∨ IntArr ty t := by
    intro m hm hs ha t ht
    obtain ⟨c, p, n⟩ := m
    have hn : n = [] := hs.1
    subst hn
    match p, hs with
    | [], hs => exact absurd rfl hs.2.1
    | [x], hs =>
      by_cases e1 : c = 1
      · simp only [Mono.simplify, e1, if_true] at ht
        obtain ⟨s, rfl⟩ := hm.1.2 x (by simp [Mono.key])
        cases ht
        exact .inr (.name s)
      · simp only [Mono.simplify, e1, if_false] at ht ha
        exact .inr (mono_arr hm hs.2.1 ha.head t ht)
    | x :: y :: l, hs =>
      exact .inr (mono_arr hm hs.2.1 ha.head t ht)
  have whole : e = e.asPoly.toE → (e.asPoly.pos ≠ [] ∨ e.asPoly.neg ≠ []) → (∃ z : ℤ, t = E.const z) ∨ IntArr ty t := by
    intro he hne
    rw [he] at hf ht
    refine .inr (poly_arr ⟨z, hz⟩ ?_ hne hf.head t ht)
    intro m hm
    rcases List.mem_append.1 hm with hm | hm
    · exact ⟨hterms.1 m hm, (hshape.1 m hm).2.1, (hf.pos m.toE (List.mem_map_of_mem hm)).head⟩
    · exact ⟨hterms.2 m hm, (hshape.2 m hm).2.1, (hf.neg m.toE (List.mem_map_of_mem hm)).head⟩
  have back := g.back
  generalize hp : e.asPoly = p at *
  obtain ⟨c, ps, ns⟩ := p
  match ps, ns with
  | [], [] =>
    simp only [Poly.simplify] at back
    subst back
    cases ht
    change c = z at hz
    exact .inl ⟨z, by rw [← hz]⟩
  | [m], [] =>
    by_cases e0 : c = 0
    · simp only [Poly.simplify, e0, if_true] at back
      rw [← back] at hf ht
      exact mono m (hterms.1 m (by simp)) (hshape.1 m (by simp)) hf t ht
    · simp only [Poly.simplify, e0, if_false] at back
      exact whole back.symm (.inl (by simp))
  | [], [m] =>
    by_cases e0 : c = 0
    · simp only [Poly.simplify, e0, if_true] at back
      rw [← back] at hf ht
      obtain ⟨h1, w, hw⟩ := hterms.2 m (by simp)
      exact mono m.opp ⟨h1, -w, by change -m.c = _; rw [hw]; push_cast; rfl⟩ (hshape.2 m (by simp)) hf t ht
    · simp only [Poly.simplify, e0, if_false] at back
      exact whole back.symm (.inr (by simp))
  | _ :: _ :: _, ns => exact whole back.symm (.inl (by simp))
  | [_], _ :: _ => exact whole back.symm (.inl (by simp))
  | [], _ :: _ :: _ => exact whole back.symm (.inr (by simp))

end Verif
