import Verif.SpecUnparse

/-!
# Lemmas: reading what `tostring` writes
-/

namespace Verif

mutual
/-- The text without the possibility of failure. -/
def PyTree.toks : PyTree → List PTok
  | .num q => [.num q]
  | .str s => [.str s]
  | .sing c => [.sing c]
  | .name s => [.name s]
  | .attr v a => v.toks ++ [.s .dot, .name a]
  | .call f args keys vals => f.toks ++
      .s .lpar :: interleaved (.s .comma) (PyTree.toksL args ++ List.zipWith keywordToks keys (PyTree.toksL vals)) ++ [.s .rpar]
  | .subscript v i => v.toks ++ .s .lbr :: i.toks ++ [.s .rbr]
  | .unary o a => .s .lpar :: .s o.sym :: a.toks ++ [.s .rpar]
  | .bin o a b => .s .lpar :: a.toks ++ .s o.sym :: b.toks ++ [.s .rpar]
  | .compare a ops cs => .s .lpar :: a.toks ++ chainToks ops (PyTree.toksL cs) ++ [.s .rpar]
  | .bool b l => .s .lpar :: interleaved (.s (if b then .kand else .kor)) (PyTree.toksL l) ++ [.s .rpar]
  | .ifexp b t e => .s .lpar :: b.toks ++ .s .kif :: t.toks ++ .s .kelse :: e.toks ++ [.s .rpar]
  | .set l => .s .lbrace :: interleaved (.s .comma) (PyTree.toksL l) ++ [.s .rbrace]
  | .list l => .s .lbr :: interleaved (.s .comma) (PyTree.toksL l) ++ [.s .rbr]
  | .tuple l => .s .lpar :: tupleToks (PyTree.toksL l) ++ [.s .rpar]
  | .dict ks vs => .s .lbrace :: pairToks (PyTree.toksL ks) (PyTree.toksL vs) ++ [.s .rbrace]
  | .lam _ params body => .s .lpar :: .s .klambda :: paramToks params ++ .s .colon :: body.toks ++ [.s .rpar]
def PyTree.toksL : List PyTree → List (List PTok)
  | [] => []
  | x :: xs => x.toks :: PyTree.toksL xs
end

theorem treeToksL_eq (l : List PyTree) : PyTree.toksL l = l.map PyTree.toks := by
  induction l with
  | nil => rfl
  | cons x l ih => simp [PyTree.toksL, ih]

theorem formedL_iff (l : List PyTree) : PyTree.formedL l = true ↔ ∀ t ∈ l, t.formed = true := by
  induction l with
  | nil => simp [PyTree.formedL]
  | cons x l ih => simp [PyTree.formedL, ih]

theorem literalL_iff (l : List PyTree) : PyTree.literalL l = false ↔ ∀ t ∈ l, t.literal = false := by
  induction l with
  | nil => simp [PyTree.literalL]
  | cons x l ih => simp [PyTree.literalL, ih]

mutual
theorem quote_ok (py : Bool) : ∀ t : PyTree, t.formed = true → (py = true → t.literal = false) →
    t.quote py = .ok t.toks
  | .num q, _, h => by cases py <;> simp_all [PyTree.quote, PyTree.toks, PyTree.literal]
  | .str q, _, h => by cases py <;> simp_all [PyTree.quote, PyTree.toks, PyTree.literal]
  | .sing q, _, h => by cases py <;> simp_all [PyTree.quote, PyTree.toks, PyTree.literal]
  | .name q, _, h => rfl
  | .attr v a, w, h => by
    simp only [PyTree.quote, quote_ok py v w h]; rfl
  | .call f args keys vals, w, h => by
    simp only [PyTree.formed, Bool.and_eq_true] at w
    simp only [PyTree.literal, Bool.or_eq_false_iff] at h
    simp only [PyTree.quote, quote_ok py f w.1.1.1 (fun e => (h e).1.1),
      quoteL_ok py args w.1.1.2 (fun e => (h e).1.2), quoteL_ok py vals w.2 (fun e => (h e).2)]; rfl
  | .subscript v i, w, h => by
    simp only [PyTree.formed, Bool.and_eq_true] at w
    simp only [PyTree.literal, Bool.or_eq_false_iff] at h
    simp only [PyTree.quote, quote_ok py v w.1 (fun e => (h e).1), quote_ok py i w.2 (fun e => (h e).2)]; rfl
  | .unary o a, w, h => by
    simp only [PyTree.quote, quote_ok py a w h]; rfl
  | .bin o v i, w, h => by
    simp only [PyTree.formed, Bool.and_eq_true] at w
    simp only [PyTree.literal, Bool.or_eq_false_iff] at h
    simp only [PyTree.quote, quote_ok py v w.1 (fun e => (h e).1), quote_ok py i w.2 (fun e => (h e).2)]; rfl
  | .compare a ops cs, w, h => by
    simp only [PyTree.formed, Bool.and_eq_true] at w
    simp only [PyTree.literal, Bool.or_eq_false_iff] at h
    simp only [PyTree.quote, quote_ok py a w.1.1.1 (fun e => (h e).1), quoteL_ok py cs w.2 (fun e => (h e).2)]; rfl
  | .bool b l, w, h => by
    simp only [PyTree.formed, Bool.and_eq_true] at w
    simp only [PyTree.quote, quoteL_ok py l w.2 h]; rfl
  | .ifexp b t e, w, h => by
    simp only [PyTree.formed, Bool.and_eq_true] at w
    simp only [PyTree.literal, Bool.or_eq_false_iff] at h
    simp only [PyTree.quote, quote_ok py b w.1.1 (fun e => (h e).1.1), quote_ok py t w.1.2 (fun e => (h e).1.2),
      quote_ok py e w.2 (fun e => (h e).2)]; rfl
  | .set l, w, h => by
    simp only [PyTree.formed, Bool.and_eq_true] at w
    cases l with
    | nil => simp at w
    | cons x l =>
      simp only [PyTree.quote, quoteL_ok py (x :: l) w.2 h]; rfl
  | .list l, w, h => by
    simp only [PyTree.quote, quoteL_ok py l w h]; rfl
  | .tuple l, w, h => by
    simp only [PyTree.quote, quoteL_ok py l w h]; rfl
  | .dict ks vs, w, h => by
    simp only [PyTree.formed, Bool.and_eq_true] at w
    simp only [PyTree.literal, Bool.or_eq_false_iff] at h
    simp only [PyTree.quote, quoteL_ok py ks w.1.2 (fun e => (h e).1), quoteL_ok py vs w.2 (fun e => (h e).2)]; rfl
  | .lam _ _ b, w, h => by
    simp only [PyTree.formed, Bool.and_eq_true] at w
    simp only [PyTree.quote, quote_ok py b w.2 h]; rfl
theorem quoteL_ok (py : Bool) : ∀ l : List PyTree, PyTree.formedL l = true → (py = true → PyTree.literalL l = false) →
    PyTree.quoteL py l = .ok (PyTree.toksL l)
  | [], _, _ => rfl
  | x :: xs, w, h => by
    simp only [PyTree.formedL, Bool.and_eq_true] at w
    simp only [PyTree.literalL, Bool.or_eq_false_iff] at h
    simp only [PyTree.quoteL, quote_ok py x w.1 (fun e => (h e).1), quoteL_ok py xs w.2 (fun e => (h e).2)]; rfl
end

/-! ## First tokens -/

/-- What a text begins with. -/
def startTok : PTok → Bool
  | .s .lpar => true
  | .s .lbr => true
  | .s .lbrace => true
  | .s _ => false
  | _ => true

/-- The text begins like an operand. -/
def Starts (l : List PTok) : Prop := ∃ h tl, l = h :: tl ∧ startTok h = true

theorem Starts.append {l : List PTok} (h : Starts l) (m : List PTok) : Starts (l ++ m) := by
  obtain ⟨a, tl, rfl, ha⟩ := h
  exact ⟨a, tl ++ m, rfl, ha⟩

theorem toks_starts : ∀ t : PyTree, Starts t.toks
  | .num q => ⟨_, _, rfl, rfl⟩
  | .str q => ⟨_, _, rfl, rfl⟩
  | .sing q => ⟨_, _, rfl, rfl⟩
  | .name q => ⟨_, _, rfl, rfl⟩
  | .attr v a => (toks_starts v).append _
  | .call f args keys vals => by
    simp only [PyTree.toks, List.append_assoc]; exact (toks_starts f).append _
  | .subscript v i => by
    simp only [PyTree.toks, List.append_assoc]; exact (toks_starts v).append _
  | .unary o a => ⟨_, _, rfl, rfl⟩
  | .bin o v i => ⟨_, _, rfl, rfl⟩
  | .compare a ops cs => ⟨_, _, rfl, rfl⟩
  | .bool b l => ⟨_, _, rfl, rfl⟩
  | .ifexp b t e => ⟨_, _, rfl, rfl⟩
  | .set l => ⟨_, _, rfl, rfl⟩
  | .list l => ⟨_, _, rfl, rfl⟩
  | .tuple l => ⟨_, _, rfl, rfl⟩
  | .dict ks vs => ⟨_, _, rfl, rfl⟩
  | .lam _ _ b => ⟨_, _, rfl, rfl⟩

theorem starts_prefix {l : List PTok} (h : Starts l) : prefixOf l = (.none, l) := by
  obtain ⟨a, tl, rfl, ha⟩ := h
  cases a with
  | s y => cases y <;> first | rfl | cases ha
  | _ => rfl

theorem starts_head {l : List PTok} (h : Starts l) (c : Sym) (hc : startTok (.s c) = false) :
    l.head? ≠ some (.s c) := by
  obtain ⟨a, tl, rfl, ha⟩ := h
  intro e
  simp only [List.head?_cons, Option.some.injEq] at e
  rw [e, hc] at ha
  cases ha

/-! ## What may follow -/

/-- No call, index or attribute follows. -/
def Quiet : List PTok → Prop
  | .s .lpar :: _ => False
  | .s .lbr :: _ => False
  | .s .dot :: _ => False
  | _ => True

theorem rdTrail_quiet {l : List PTok} (h : Quiet l) (g : ℕ) (hg : 1 ≤ g) (v : PyTree) : rdTrail g v l = some (v, l) := by
  obtain ⟨g, rfl⟩ : ∃ m, g = m + 1 := ⟨g - 1, by omega⟩
  cases l with
  | nil => rfl
  | cons a l =>
    cases a with
    | s y => cases y <;> first | rfl | exact h.elim
    | _ => rfl

/-- Nothing that belongs to the same expression follows. -/
def Ends (l : List PTok) : Prop := Quiet l ∧ next l = (.stop, l)

theorem rdRest_ends {l : List PTok} (h : Ends l) (g : ℕ) (hg : 1 ≤ g) (lvl : ℕ) (t : PyTree) :
    rdRest g lvl t l = some (t, l) := by
  obtain ⟨g, rfl⟩ : ∃ m, g = m + 1 := ⟨g - 1, by omega⟩
  simp only [rdRest, h.2]

theorem ends_rpar (l : List PTok) : Ends (.s .rpar :: l) := ⟨trivial, rfl⟩
theorem ends_rbr (l : List PTok) : Ends (.s .rbr :: l) := ⟨trivial, rfl⟩
theorem ends_rbrace (l : List PTok) : Ends (.s .rbrace :: l) := ⟨trivial, rfl⟩
theorem ends_comma (l : List PTok) : Ends (.s .comma :: l) := ⟨trivial, rfl⟩
theorem ends_colon (l : List PTok) : Ends (.s .colon :: l) := ⟨trivial, rfl⟩
theorem ends_assign (l : List PTok) : Ends (.s .assign :: l) := ⟨trivial, rfl⟩
theorem ends_kelse (l : List PTok) : Ends (.s .kelse :: l) := ⟨trivial, rfl⟩

/-! ## Reading one operand -/

/-- The text is read as an operand, to be continued with what follows. -/
def ReadsPrim (t : PyTree) : Prop :=
  ∃ N k, ∀ f, N ≤ f → ∀ rest, rdPrim (f + k) (t.toks ++ rest) = rdTrail f t rest

theorem ReadsPrim.operand {t : PyTree} (h : ReadsPrim t) : ∃ N, ∀ f, N ≤ f → ∀ lvl rest, Quiet rest →
    rdE (f + 1) lvl (t.toks ++ rest) = rdRest f lvl t rest := by
  obtain ⟨N, k, h⟩ := h
  refine ⟨N + k + 3, fun f hf lvl rest hq => ?_⟩
  obtain ⟨g, rfl⟩ : ∃ g, f = (g + k) + 1 := ⟨f - 1 - k, by omega⟩
  simp only [rdE, rdHead, starts_prefix ((toks_starts t).append rest), h g (by omega) rest,
    rdTrail_quiet hq g (by omega)]
  rfl

theorem ReadsPrim.whole {t : PyTree} (h : ReadsPrim t) : ∃ N, ∀ f, N ≤ f → ∀ lvl rest, Ends rest →
    rdE f lvl (t.toks ++ rest) = some (t, rest) := by
  obtain ⟨N, h⟩ := h.operand
  refine ⟨N + 2, fun f hf lvl rest he => ?_⟩
  obtain ⟨g, rfl⟩ : ∃ g, f = g + 1 := ⟨f - 1, by omega⟩
  rw [h g (by omega) lvl rest he.1, rdRest_ends he g (by omega)]

theorem readsPrim_atom {t : PyTree} (h : ∀ f rest, rdAtom (f + 1) (t.toks ++ rest) = some (t, rest)) : ReadsPrim t := by
  refine ⟨1, 1, fun f hf rest => ?_⟩
  obtain ⟨g, rfl⟩ : ∃ g, f = g + 1 := ⟨f - 1, by omega⟩
  simp only [rdPrim, h g rest]
  rfl

/-- Something in brackets. -/
theorem readsPrim_bracket {t : PyTree}
    (h : ∃ N, ∀ f, N ≤ f → ∀ rest, rdAtom f (t.toks ++ rest) = some (t, rest)) : ReadsPrim t := by
  obtain ⟨N, h⟩ := h
  refine ⟨N, 1, fun f hf rest => ?_⟩
  simp only [rdPrim, h f hf rest]
  rfl

theorem rdAtom_lpar (f : ℕ) (l : List PTok) (h : l.head? ≠ some (.s .rpar)) :
    rdAtom (f + 1) (.s .lpar :: l) = (rdE f 0 l).bind fun p =>
      match p.2 with
      | .s .rpar :: us => some (p.1, us)
      | .s .comma :: us => (rdElems f .rpar us).bind fun r => some (.tuple (p.1 :: r.1), r.2)
      | _ => none := by
  cases l with
  | nil => rfl
  | cons a l =>
    cases a with
    | s y => cases y <;> first | rfl | exact absurd rfl h
    | _ => rfl

theorem rdAtom_lbrace (f : ℕ) (l : List PTok) (h : l.head? ≠ some (.s .rbrace)) :
    rdAtom (f + 1) (.s .lbrace :: l) = (rdE f 0 l).bind fun p =>
      match p.2 with
      | .s .rbrace :: us => some (.set [p.1], us)
      | .s .comma :: us => (rdElems f .rbrace us).bind fun r => some (.set (p.1 :: r.1), r.2)
      | .s .colon :: us => (rdE f 0 us).bind fun v => (rdPairs f v.2).bind fun r =>
        some (.dict (p.1 :: r.1) (v.1 :: r.2.1), r.2.2)
      | _ => none := by
  cases l with
  | nil => rfl
  | cons a l =>
    cases a with
    | s y => cases y <;> first | rfl | exact absurd rfl h
    | _ => rfl

/-- An expression in parentheses. -/
theorem readsPrim_paren {t : PyTree} (inner : List PTok) (ht : t.toks = .s .lpar :: inner ++ [.s .rpar])
    (hi : inner.head? ≠ none ∧ inner.head? ≠ some (.s .rpar))
    (h : ∃ N, ∀ f, N ≤ f → ∀ rest, rdE f 0 (inner ++ .s .rpar :: rest) = some (t, .s .rpar :: rest)) :
    ReadsPrim t := by
  obtain ⟨N, h⟩ := h
  refine readsPrim_bracket ⟨N + 1, fun f hf rest => ?_⟩
  obtain ⟨g, rfl⟩ : ∃ g, f = g + 1 := ⟨f - 1, by omega⟩
  have e : t.toks ++ rest = .s .lpar :: (inner ++ .s .rpar :: rest) := by rw [ht]; simp
  rw [e, rdAtom_lpar]
  · rw [h g (by omega) rest]; rfl
  · obtain ⟨a, tl, rfl⟩ : ∃ a tl, inner = a :: tl := by
      cases inner with
      | nil => exact absurd rfl hi.1
      | cons a tl => exact ⟨a, tl, rfl⟩
    exact hi.2

theorem starts_inner {l : List PTok} (h : Starts l) : l.head? ≠ none ∧ l.head? ≠ some (.s .rpar) := by
  refine ⟨?_, starts_head h .rpar rfl⟩
  obtain ⟨a, tl, rfl, _⟩ := h
  simp

/-! ## The kinds of expressions -/

theorem readsPrim_attr {v : PyTree} (h : ReadsPrim v) (a : String) : ReadsPrim (.attr v a) := by
  obtain ⟨N, k, h⟩ := h
  refine ⟨N, k + 1, fun f hf rest => ?_⟩
  have e : f + (k + 1) = (f + 1) + k := by omega
  rw [e]
  simp only [PyTree.toks, List.append_assoc]
  rw [h (f + 1) (by omega)]
  rfl

theorem readsPrim_subscript {v i : PyTree} (h : ReadsPrim v) (hi : ReadsPrim i) : ReadsPrim (.subscript v i) := by
  obtain ⟨N, k, h⟩ := h
  obtain ⟨M, hi⟩ := hi.whole
  refine ⟨N + M, k + 1, fun f hf rest => ?_⟩
  have e : f + (k + 1) = (f + 1) + k := by omega
  rw [e]
  simp only [PyTree.toks, List.append_assoc]
  rw [h (f + 1) (by omega)]
  change rdTrail (f + 1) v (.s .lbr :: (i.toks ++ (.s .rbr :: rest))) = _
  rw [rdTrail]
  rw [hi f (by omega) 0 _ (ends_rbr rest)]
  rfl

theorem readsPrim_unary (o : UOp) {a : PyTree} (h : ReadsPrim a) : ReadsPrim (.unary o a) := by
  obtain ⟨N, h⟩ := h.whole
  refine readsPrim_paren (.s o.sym :: a.toks) rfl ⟨by simp, by cases o <;> simp [UOp.sym]⟩ ⟨N + 3, fun f hf rest => ?_⟩
  obtain ⟨g, rfl⟩ : ∃ g, f = g + 1 + 1 := ⟨f - 2, by omega⟩
  have hp : prefixOf (.s o.sym :: a.toks ++ .s .rpar :: rest) = (.unary o, a.toks ++ .s .rpar :: rest) := by
    cases o <;> rfl
  simp only [rdE, rdHead, hp, Nat.zero_le, if_true, h g (by omega) o.prec _ (ends_rpar rest), Option.bind_some,
    rdRest_ends (ends_rpar rest) (g + 1) (by omega)]

theorem next_bin (o : BinSym) (l : List PTok) : next (.s o.sym :: l) = (.bin o, l) := by cases o <;> rfl

theorem quiet_bin (o : BinSym) (l : List PTok) : Quiet (.s o.sym :: l) := by cases o <;> trivial

theorem readsPrim_bin (o : BinSym) {a b : PyTree} (ha : ReadsPrim a) (hb : ReadsPrim b) : ReadsPrim (.bin o a b) := by
  obtain ⟨N, ha⟩ := ha.operand
  obtain ⟨M, hb⟩ := hb.whole
  refine readsPrim_paren (a.toks ++ .s o.sym :: b.toks) (by simp [PyTree.toks])
    (starts_inner ((toks_starts a).append _)) ⟨N + M + 3, fun f hf rest => ?_⟩
  obtain ⟨g, rfl⟩ : ∃ g, f = g + 1 + 1 := ⟨f - 2, by omega⟩
  rw [List.append_assoc, List.cons_append, ha (g + 1) (by omega) 0 _ (quiet_bin o _)]
  simp only [rdRest, next_bin, Nat.zero_le, if_true,
    hb g (by omega) o.right _ (ends_rpar rest), Option.bind_some, rdRest_ends (ends_rpar rest) g (by omega)]

theorem readsPrim_ifexp {b t e : PyTree} (hb : ReadsPrim b) (ht : ReadsPrim t) (he : ReadsPrim e) :
    ReadsPrim (.ifexp b t e) := by
  obtain ⟨N, hb⟩ := hb.operand
  obtain ⟨M, ht⟩ := ht.whole
  obtain ⟨K, he⟩ := he.whole
  refine readsPrim_paren (b.toks ++ .s .kif :: t.toks ++ .s .kelse :: e.toks) (by simp [PyTree.toks])
    (starts_inner (by rw [List.append_assoc]; exact (toks_starts b).append _)) ⟨N + M + K + 3, fun f hf rest => ?_⟩
  obtain ⟨g, rfl⟩ : ∃ g, f = g + 1 + 1 := ⟨f - 2, by omega⟩
  have e1 : b.toks ++ .s .kif :: t.toks ++ .s .kelse :: e.toks ++ .s .rpar :: rest =
      b.toks ++ (.s .kif :: (t.toks ++ (.s .kelse :: (e.toks ++ .s .rpar :: rest)))) := by simp
  have q : Quiet (.s .kif :: (t.toks ++ (.s .kelse :: (e.toks ++ .s .rpar :: rest)))) := trivial
  rw [e1, hb (g + 1) (by omega) 0 _ q]
  simp only [rdRest, next, if_true, ht g (by omega) 1 _ (ends_kelse _), Option.bind_some,
    he g (by omega) 0 _ (ends_rpar rest)]

theorem readParams_toks (params : List String) (rest : List PTok) :
    readParams (paramToks params ++ .s .colon :: rest) = some (params, rest) := by
  induction params with
  | nil => rfl
  | cons p l ih =>
    cases l with
    | nil => rfl
    | cons q l =>
      have e : paramToks (p :: q :: l) ++ .s .colon :: rest =
          .name p :: .s .comma :: (paramToks (q :: l) ++ .s .colon :: rest) := by
        simp [paramToks, interleaved]
      rw [e, readParams, ih]
      rfl

theorem readsPrim_lam (params : List String) {b : PyTree} (h : ReadsPrim b) : ReadsPrim (.lam [] params b) := by
  obtain ⟨N, h⟩ := h.whole
  refine readsPrim_paren (.s .klambda :: paramToks params ++ .s .colon :: b.toks) (by simp [PyTree.toks])
    ⟨by simp, by simp⟩ ⟨N + 3, fun f hf rest => ?_⟩
  obtain ⟨g, rfl⟩ : ∃ g, f = g + 1 + 1 := ⟨f - 2, by omega⟩
  have hp : prefixOf (.s .klambda :: paramToks params ++ .s .colon :: b.toks ++ .s .rpar :: rest) =
      (.lam, paramToks params ++ .s .colon :: (b.toks ++ .s .rpar :: rest)) := by
    simp [prefixOf]
  simp only [rdE, rdHead, hp, if_true, readParams_toks, Option.bind_some, h g (by omega) 0 _ (ends_rpar rest),
    rdRest_ends (ends_rpar rest) (g + 1) (by omega)]

/-! ## Chains of comparisons, `and` and `or` -/

theorem next_cmp (o : COp) {l : List PTok} (h : Starts l) : next (o.toks ++ l) = (.cmp o, l) := by
  obtain ⟨a, tl, rfl, ha⟩ := h
  cases o <;> first
    | rfl
    | (cases a with
       | s y => cases y <;> first | rfl | cases ha
       | _ => rfl)

theorem quiet_cmp (o : COp) (l : List PTok) : Quiet (o.toks ++ l) := by cases o <;> trivial

theorem chainToks_cons (o : COp) (ops : List COp) (c : PyTree) (cs : List PyTree) :
    chainToks (o :: ops) ((c :: cs).map PyTree.toks) = o.toks ++ (c.toks ++ chainToks ops (cs.map PyTree.toks)) := by
  simp [chainToks]

/-- What follows a comparison operand is another comparison or the end. -/
theorem chain_next (ops : List COp) (cs : List PyTree) (rest : List PTok) :
    Quiet (chainToks ops (cs.map PyTree.toks) ++ .s .rpar :: rest) ∧
      ∀ g, 1 ≤ g → ∀ t, rdRest g 5 t (chainToks ops (cs.map PyTree.toks) ++ .s .rpar :: rest) =
        some (t, chainToks ops (cs.map PyTree.toks) ++ .s .rpar :: rest) := by
  have hend : Quiet (.s .rpar :: rest) ∧ ∀ g, 1 ≤ g → ∀ t, rdRest g 5 t (.s .rpar :: rest) = some (t, .s .rpar :: rest) :=
    ⟨trivial, fun g hg t => rdRest_ends (ends_rpar rest) g hg 5 t⟩
  cases ops with
  | nil => exact hend
  | cons o ops =>
    cases cs with
    | nil => exact hend
    | cons c cs =>
      rw [chainToks_cons, List.append_assoc]
      refine ⟨quiet_cmp o _, fun g hg t => ?_⟩
      obtain ⟨g, rfl⟩ : ∃ m, g = m + 1 := ⟨g - 1, by omega⟩
      simp only [rdRest, next_cmp o (((toks_starts c).append _).append _)]
      simp

theorem rdLinks_chain (ops : List COp) (cs : List PyTree) (hl : ops.length = cs.length) (h : ∀ t ∈ cs, ReadsPrim t) :
    ∃ N, ∀ f, N ≤ f → ∀ rest, rdLinks f (chainToks ops (cs.map PyTree.toks) ++ .s .rpar :: rest) =
      some (ops, cs, .s .rpar :: rest) := by
  induction ops generalizing cs with
  | nil =>
    cases cs with
    | nil =>
      refine ⟨1, fun f hf rest => ?_⟩
      obtain ⟨g, rfl⟩ : ∃ g, f = g + 1 := ⟨f - 1, by omega⟩
      rfl
    | cons c cs => simp at hl
  | cons o ops ih =>
    cases cs with
    | nil => simp at hl
    | cons c cs =>
      obtain ⟨N, ih⟩ := ih cs (by simpa using hl) (fun t ht => h t (by simp [ht]))
      obtain ⟨M, hc⟩ := (h c (by simp)).operand
      refine ⟨N + M + 4, fun f hf rest => ?_⟩
      obtain ⟨g, rfl⟩ : ∃ g, f = g + 1 + 1 := ⟨f - 2, by omega⟩
      obtain ⟨q, r⟩ := chain_next ops cs rest
      rw [chainToks_cons]
      simp only [List.append_assoc]
      simp only [rdLinks, next_cmp o ((toks_starts c).append _), hc g (by omega) 5 _ q, r g (by omega), Option.bind_some]
      have := ih (g + 1) (by omega) rest
      simp only [rdLinks] at this
      rw [this]
      rfl

theorem readsPrim_compare {a : PyTree} (ha : ReadsPrim a) (o : COp) (ops : List COp) (c : PyTree) (cs : List PyTree)
    (hl : ops.length = cs.length) (h : ∀ t ∈ c :: cs, ReadsPrim t) : ReadsPrim (.compare a (o :: ops) (c :: cs)) := by
  obtain ⟨N, ha⟩ := ha.operand
  obtain ⟨M, hc⟩ := (h c (by simp)).operand
  obtain ⟨K, hk⟩ := rdLinks_chain ops cs hl (fun t ht => h t (by simp [ht]))
  refine readsPrim_paren (a.toks ++ chainToks (o :: ops) ((c :: cs).map PyTree.toks))
    (by simp [PyTree.toks, treeToksL_eq]) (starts_inner ((toks_starts a).append _)) ⟨N + M + K + 5, fun f hf rest => ?_⟩
  obtain ⟨g, rfl⟩ : ∃ g, f = g + 1 + 1 + 1 := ⟨f - 3, by omega⟩
  obtain ⟨q, r⟩ := chain_next ops cs rest
  rw [chainToks_cons]
  simp only [List.append_assoc]
  rw [ha (g + 1 + 1) (by omega) 0 _ (quiet_cmp o _)]
  rw [rdRest]
  simp only [next_cmp o ((toks_starts c).append _), Nat.zero_le, if_true]
  rw [hc g (by omega) 5 _ q, r g (by omega)]
  simp only [Option.bind_some]
  rw [hk (g + 1) (by omega) rest]
  simp only [Option.bind_some]
  rw [rdRest_ends (ends_rpar rest) (g + 1) (by omega)]

theorem interleaved_cons (sep : PTok) (x : List PTok) (l : List (List PTok)) :
    interleaved sep (x :: l) = x ++ (l.map (sep :: ·)).flatten := by
  induction l generalizing x with
  | nil => simp [interleaved]
  | cons y l ih => rw [interleaved, ih y]; simp

/-- What follows an operand of `and` or `or`. -/
theorem bool_next (b : Bool) (l : List PyTree) (rest : List PTok) :
    Quiet (((l.map PyTree.toks).map (.s (if b then .kand else .kor) :: ·)).flatten ++ .s .rpar :: rest) ∧
      ∀ g, 1 ≤ g → ∀ t, rdRest g (if b then 3 else 2) t
          (((l.map PyTree.toks).map (.s (if b then .kand else .kor) :: ·)).flatten ++ .s .rpar :: rest) =
        some (t, ((l.map PyTree.toks).map (.s (if b then .kand else .kor) :: ·)).flatten ++ .s .rpar :: rest) := by
  cases l with
  | nil => exact ⟨trivial, fun g hg t => rdRest_ends (ends_rpar rest) g hg _ t⟩
  | cons c l =>
    cases b
    · refine ⟨trivial, fun g hg t => ?_⟩
      obtain ⟨g, rfl⟩ : ∃ m, g = m + 1 := ⟨g - 1, by omega⟩
      rfl
    · refine ⟨trivial, fun g hg t => ?_⟩
      obtain ⟨g, rfl⟩ : ∃ m, g = m + 1 := ⟨g - 1, by omega⟩
      rfl

theorem rdBool_list (b : Bool) (l : List PyTree) (h : ∀ t ∈ l, ReadsPrim t) :
    ∃ N, ∀ f, N ≤ f → ∀ rest, (if b then rdConj else rdDisj) f
        (((l.map PyTree.toks).map (.s (if b then .kand else .kor) :: ·)).flatten ++ .s .rpar :: rest) =
      some (l, .s .rpar :: rest) := by
  induction l with
  | nil =>
    refine ⟨1, fun f hf rest => ?_⟩
    obtain ⟨g, rfl⟩ : ∃ g, f = g + 1 := ⟨f - 1, by omega⟩
    cases b <;> rfl
  | cons c l ih =>
    obtain ⟨N, ih⟩ := ih (fun t ht => h t (by simp [ht]))
    obtain ⟨M, hc⟩ := (h c (by simp)).operand
    refine ⟨N + M + 4, fun f hf rest => ?_⟩
    obtain ⟨g, rfl⟩ : ∃ g, f = g + 1 + 1 := ⟨f - 2, by omega⟩
    obtain ⟨q, r⟩ := bool_next b l rest
    have i := ih (g + 1) (by omega) rest
    have r' := r g (by omega)
    have hc' := hc g (by omega) (if b then 3 else 2) _ q
    cases b
    · simp only [Bool.false_eq_true, if_false] at *
      simp only [List.map_cons, List.flatten_cons, List.cons_append, List.append_assoc]
      rw [rdDisj]
      simp only [next]
      rw [hc', r']
      simp only [Option.bind_some]
      rw [i]
      rfl
    · simp only [if_true] at *
      simp only [List.map_cons, List.flatten_cons, List.cons_append, List.append_assoc]
      rw [rdConj]
      simp only [next]
      rw [hc', r']
      simp only [Option.bind_some]
      rw [i]
      rfl

theorem readsPrim_bool (b : Bool) (x y : PyTree) (l : List PyTree) (h : ∀ t ∈ x :: y :: l, ReadsPrim t) :
    ReadsPrim (.bool b (x :: y :: l)) := by
  obtain ⟨N, hx⟩ := (h x (by simp)).operand
  obtain ⟨M, hy⟩ := (h y (by simp)).operand
  obtain ⟨K, hk⟩ := rdBool_list b l (fun t ht => h t (by simp [ht]))
  refine readsPrim_paren (interleaved (.s (if b then .kand else .kor)) ((x :: y :: l).map PyTree.toks))
    (by simp [PyTree.toks, treeToksL_eq]) (starts_inner (by
      simp only [List.map_cons]; rw [interleaved_cons]; exact (toks_starts x).append _)) ⟨N + M + K + 5, fun f hf rest => ?_⟩
  obtain ⟨g, rfl⟩ : ∃ g, f = g + 1 + 1 + 1 := ⟨f - 3, by omega⟩
  obtain ⟨q, r⟩ := bool_next b l rest
  have i := hk (g + 1) (by omega) rest
  have r' := r g (by omega)
  have hy' := hy g (by omega) (if b then 3 else 2) _ q
  simp only [List.map_cons]
  rw [interleaved_cons]
  simp only [List.map_cons, List.flatten_cons, List.cons_append, List.append_assoc]
  rw [hx (g + 1 + 1) (by omega) 0 _ (by cases b <;> trivial)]
  cases b
  · simp only [Bool.false_eq_true, if_false] at *
    rw [rdRest]
    simp only [next, Nat.zero_le, if_true]
    rw [hy', r']
    simp only [Option.bind_some]
    rw [i]
    simp only [Option.bind_some]
    rw [rdRest_ends (ends_rpar rest) (g + 1) (by omega)]
  · simp only [if_true] at *
    rw [rdRest]
    simp only [next, Nat.zero_le, if_true]
    rw [hy', r']
    simp only [Option.bind_some]
    rw [i]
    simp only [Option.bind_some]
    rw [rdRest_ends (ends_rpar rest) (g + 1) (by omega)]

/-! ## Lists of elements -/

theorem rdElems_list (c : Sym) (hc : c = .rpar ∨ c = .rbr ∨ c = .rbrace) (l : List PyTree) (h : ∀ t ∈ l, ReadsPrim t) :
    ∃ N, ∀ f, N ≤ f → ∀ rest, rdElems f c (interleaved (.s .comma) (l.map PyTree.toks) ++ .s c :: rest) = some (l, rest) := by
  have hs : startTok (.s c) = false := by rcases hc with rfl | rfl | rfl <;> rfl
  have hend : ∀ rest, Ends (.s c :: rest) := by
    intro rest; rcases hc with rfl | rfl | rfl <;> exact ⟨trivial, rfl⟩
  have hcc : c ≠ .comma := by rcases hc with rfl | rfl | rfl <;> simp
  induction l with
  | nil =>
    refine ⟨1, fun f hf rest => ?_⟩
    obtain ⟨g, rfl⟩ : ∃ g, f = g + 1 := ⟨f - 1, by omega⟩
    simp [rdElems, interleaved]
  | cons x l ih =>
    obtain ⟨N, ih⟩ := ih (fun t ht => h t (by simp [ht]))
    obtain ⟨M, hx⟩ := (h x (by simp)).whole
    refine ⟨N + M + 1, fun f hf rest => ?_⟩
    obtain ⟨g, rfl⟩ : ∃ g, f = g + 1 := ⟨f - 1, by omega⟩
    cases l with
    | nil =>
      simp only [List.map_cons, List.map_nil, interleaved]
      rw [rdElems, if_neg (starts_head ((toks_starts x).append _) c hs), hx g (by omega) 0 _ (hend rest)]
      simp
    | cons y l =>
      have i := ih g (by omega) rest
      simp only [List.map_cons] at i ⊢
      rw [interleaved]
      simp only [List.append_assoc, List.cons_append]
      rw [rdElems, if_neg (starts_head ((toks_starts x).append _) c hs), hx g (by omega) 0 _ (ends_comma _)]
      simp only [Option.bind_some, List.head?_cons, List.tail_cons]
      rw [i]
      simp [Ne.symm hcc]

theorem readsPrim_list (l : List PyTree) (h : ∀ t ∈ l, ReadsPrim t) : ReadsPrim (.list l) := by
  obtain ⟨N, h⟩ := rdElems_list .rbr (by simp) l h
  refine readsPrim_bracket ⟨N + 1, fun f hf rest => ?_⟩
  obtain ⟨g, rfl⟩ : ∃ g, f = g + 1 := ⟨f - 1, by omega⟩
  have e : (PyTree.list l).toks ++ rest = .s .lbr :: (interleaved (.s .comma) (l.map PyTree.toks) ++ .s .rbr :: rest) := by
    simp [PyTree.toks, treeToksL_eq]
  rw [e, rdAtom, h g (by omega)]
  rfl

theorem readsPrim_set (x : PyTree) (l : List PyTree) (h : ∀ t ∈ x :: l, ReadsPrim t) : ReadsPrim (.set (x :: l)) := by
  obtain ⟨N, hl⟩ := rdElems_list .rbrace (by simp) l (fun t ht => h t (by simp [ht]))
  obtain ⟨M, hx⟩ := (h x (by simp)).whole
  refine readsPrim_bracket ⟨N + M + 1, fun f hf rest => ?_⟩
  obtain ⟨g, rfl⟩ : ∃ g, f = g + 1 := ⟨f - 1, by omega⟩
  cases l with
  | nil =>
    have e : (PyTree.set [x]).toks ++ rest = .s .lbrace :: (x.toks ++ .s .rbrace :: rest) := by
      simp [PyTree.toks, treeToksL_eq, interleaved]
    rw [e, rdAtom_lbrace _ _ (starts_head ((toks_starts x).append _) .rbrace rfl), hx g (by omega) 0 _ (ends_rbrace rest)]
    rfl
  | cons y l =>
    have e : (PyTree.set (x :: y :: l)).toks ++ rest =
        .s .lbrace :: (x.toks ++ .s .comma :: (interleaved (.s .comma) ((y :: l).map PyTree.toks) ++ .s .rbrace :: rest)) := by
      simp [PyTree.toks, treeToksL_eq, interleaved]
    rw [e, rdAtom_lbrace _ _ (starts_head ((toks_starts x).append _) .rbrace rfl), hx g (by omega) 0 _ (ends_comma _)]
    simp only [Option.bind_some]
    rw [hl g (by omega) rest]
    rfl

theorem readsPrim_tuple (l : List PyTree) (h : ∀ t ∈ l, ReadsPrim t) : ReadsPrim (.tuple l) := by
  cases l with
  | nil =>
    refine readsPrim_bracket ⟨1, fun f hf rest => ?_⟩
    obtain ⟨g, rfl⟩ : ∃ g, f = g + 1 := ⟨f - 1, by omega⟩
    rfl
  | cons x l =>
    obtain ⟨N, hl⟩ := rdElems_list .rpar (by simp) l (fun t ht => h t (by simp [ht]))
    obtain ⟨M, hx⟩ := (h x (by simp)).whole
    refine readsPrim_bracket ⟨N + M + 1, fun f hf rest => ?_⟩
    obtain ⟨g, rfl⟩ : ∃ g, f = g + 1 := ⟨f - 1, by omega⟩
    have e : (PyTree.tuple (x :: l)).toks ++ rest =
        .s .lpar :: (x.toks ++ .s .comma :: (interleaved (.s .comma) (l.map PyTree.toks) ++ .s .rpar :: rest)) := by
      cases l with
      | nil => simp [PyTree.toks, treeToksL_eq, interleaved, tupleToks]
      | cons y l => simp [PyTree.toks, treeToksL_eq, interleaved, tupleToks]
    rw [e, rdAtom_lpar _ _ (starts_head ((toks_starts x).append _) .rpar rfl), hx g (by omega) 0 _ (ends_comma _)]
    simp only [Option.bind_some]
    rw [hl g (by omega) rest]
    rfl

/-! ## Dictionaries -/

theorem pairToks_cons (k v : PyTree) (ks vs : List PyTree) :
    pairToks ((k :: ks).map PyTree.toks) ((v :: vs).map PyTree.toks) =
      k.toks ++ (.s .colon :: (v.toks ++ (.s .comma :: pairToks (ks.map PyTree.toks) (vs.map PyTree.toks)))) := by
  simp [pairToks]

theorem rdPairs_list (ks vs : List PyTree) (hl : ks.length = vs.length) (hk : ∀ t ∈ ks, ReadsPrim t)
    (hv : ∀ t ∈ vs, ReadsPrim t) : ∃ N, ∀ f, N ≤ f → ∀ rest,
      rdPairs f (.s .comma :: (pairToks (ks.map PyTree.toks) (vs.map PyTree.toks) ++ .s .rbrace :: rest)) =
        some (ks, vs, rest) := by
  induction ks generalizing vs with
  | nil =>
    cases vs with
    | nil =>
      refine ⟨1, fun f hf rest => ?_⟩
      obtain ⟨g, rfl⟩ : ∃ g, f = g + 1 := ⟨f - 1, by omega⟩
      rfl
    | cons v vs => simp at hl
  | cons k ks ih =>
    cases vs with
    | nil => simp at hl
    | cons v vs =>
      obtain ⟨N, ih⟩ := ih vs (by simpa using hl) (fun t ht => hk t (by simp [ht])) (fun t ht => hv t (by simp [ht]))
      obtain ⟨M, h1⟩ := (hk k (by simp)).whole
      obtain ⟨K, h2⟩ := (hv v (by simp)).whole
      refine ⟨N + M + K + 1, fun f hf rest => ?_⟩
      obtain ⟨g, rfl⟩ : ∃ g, f = g + 1 := ⟨f - 1, by omega⟩
      rw [pairToks_cons]
      simp only [List.append_assoc, List.cons_append]
      have i := ih g (by omega) rest
      generalize pairToks (ks.map PyTree.toks) (vs.map PyTree.toks) ++ .s .rbrace :: rest = T at i ⊢
      have st := (toks_starts k).append (.s .colon :: (v.toks ++ .s .comma :: T))
      have e1 := h1 g (by omega) 0 (.s .colon :: (v.toks ++ .s .comma :: T)) (ends_colon _)
      have e2 := h2 g (by omega) 0 (.s .comma :: T) (ends_comma _)
      have hr : ∀ U, Starts U → rdPairs (g + 1) (.s .comma :: U) = (rdE g 0 U).bind fun k =>
          match k.2 with
          | .s .colon :: vs => (rdE g 0 vs).bind fun v => (rdPairs g v.2).bind fun r =>
            some (k.1 :: r.1, v.1 :: r.2.1, r.2.2)
          | _ => none := by
        intro U hU
        obtain ⟨a, tl, rfl, ha⟩ := hU
        cases a with
        | s y => cases y <;> first | rfl | cases ha
        | _ => rfl
      rw [hr _ st, e1]
      simp only [Option.bind_some]
      rw [e2]
      simp only [Option.bind_some]
      rw [i]
      rfl

theorem readsPrim_dict (ks vs : List PyTree) (hl : ks.length = vs.length) (hk : ∀ t ∈ ks, ReadsPrim t)
    (hv : ∀ t ∈ vs, ReadsPrim t) : ReadsPrim (.dict ks vs) := by
  cases ks with
  | nil =>
    cases vs with
    | nil =>
      refine readsPrim_bracket ⟨1, fun f hf rest => ?_⟩
      obtain ⟨g, rfl⟩ : ∃ g, f = g + 1 := ⟨f - 1, by omega⟩
      rfl
    | cons v vs => simp at hl
  | cons k ks =>
    cases vs with
    | nil => simp at hl
    | cons v vs =>
      obtain ⟨N, ih⟩ := rdPairs_list ks vs (by simpa using hl) (fun t ht => hk t (by simp [ht])) (fun t ht => hv t (by simp [ht]))
      obtain ⟨M, h1⟩ := (hk k (by simp)).whole
      obtain ⟨K, h2⟩ := (hv v (by simp)).whole
      refine readsPrim_bracket ⟨N + M + K + 1, fun f hf rest => ?_⟩
      obtain ⟨g, rfl⟩ : ∃ g, f = g + 1 := ⟨f - 1, by omega⟩
      have e : (PyTree.dict (k :: ks) (v :: vs)).toks ++ rest = .s .lbrace :: (k.toks ++ (.s .colon :: (v.toks ++
          (.s .comma :: (pairToks (ks.map PyTree.toks) (vs.map PyTree.toks) ++ .s .rbrace :: rest))))) := by
        have := pairToks_cons k v ks vs
        simp only [PyTree.toks, treeToksL_eq, this]
        simp
      rw [e, rdAtom_lbrace _ _ (starts_head ((toks_starts k).append _) .rbrace rfl), h1 g (by omega) 0 _ (ends_colon _)]
      simp only [Option.bind_some]
      rw [h2 g (by omega) 0 _ (ends_comma _)]
      simp only [Option.bind_some]
      rw [ih g (by omega) rest]
      rfl

/-! ## Calls -/

/-- The arguments after the first are read. -/
def ReadsMore (T : List PTok) (as : List PyTree) (ks : List (Option String)) (vs : List PyTree) : Prop :=
  (T = [] ∨ T.head? = some (.s .comma)) ∧
  ∃ N, ∀ f, N ≤ f → ∀ rest, rdComma f (T ++ .s .rpar :: rest) = some ⟨as, ks, vs, rest⟩

/-- The arguments are read. -/
def ReadsArgs (X : List PTok) (as : List PyTree) (ks : List (Option String)) (vs : List PyTree) : Prop :=
  ∃ N, ∀ f, N ≤ f → ∀ rest, rdArgs' f (X ++ .s .rpar :: rest) = some ⟨as, ks, vs, rest⟩

theorem ReadsArgs.more {X : List PTok} {as : List PyTree} {ks : List (Option String)} {vs : List PyTree}
    (h : ReadsArgs X as ks vs) : ReadsMore (.s .comma :: X) as ks vs := by
  obtain ⟨N, h⟩ := h
  refine ⟨.inr rfl, N + 1, fun f hf rest => ?_⟩
  obtain ⟨g, rfl⟩ : ∃ g, f = g + 1 := ⟨f - 1, by omega⟩
  exact h g (by omega) rest

theorem more_nil : ReadsMore [] [] [] [] := by
  refine ⟨.inl rfl, 1, fun f hf rest => ?_⟩
  obtain ⟨g, rfl⟩ : ∃ g, f = g + 1 := ⟨f - 1, by omega⟩
  rfl

theorem more_ends {T : List PTok} (h : T = [] ∨ T.head? = some (.s .comma)) (rest : List PTok) :
    Ends (T ++ .s .rpar :: rest) ∧ (T ++ .s .rpar :: rest).head? ≠ some (.s .assign) := by
  rcases h with rfl | h
  · exact ⟨ends_rpar rest, by simp⟩
  · cases T with
    | nil => simp at h
    | cons a T =>
      simp only [List.head?_cons, Option.some.injEq] at h
      subst h
      exact ⟨ends_comma _, by simp⟩

theorem ReadsMore.pos {T : List PTok} {as : List PyTree} {ks : List (Option String)} {vs : List PyTree}
    (h : ReadsMore T as ks vs) {x : PyTree} (hx : ReadsPrim x) : ReadsArgs (x.toks ++ T) (x :: as) ks vs := by
  obtain ⟨ht, N, h⟩ := h
  obtain ⟨M, hx⟩ := hx.whole
  refine ⟨N + M + 1, fun f hf rest => ?_⟩
  obtain ⟨g, rfl⟩ : ∃ g, f = g + 1 := ⟨f - 1, by omega⟩
  obtain ⟨e1, e2⟩ := more_ends ht rest
  have i := h g (by omega) rest
  have r := hx g (by omega) 0 _ e1
  rw [List.append_assoc]
  generalize T ++ .s .rpar :: rest = U at *
  have hr : ∀ W, Starts W → rdArgs' (g + 1) W = (rdE g 0 W).bind fun x =>
      match x.1.asName, x.2 with
      | some n, .s .assign :: vs => (rdE g 0 vs).bind fun v => (rdComma g v.2).bind fun r =>
        if r.args.isEmpty then some ⟨[], some n :: r.keys, v.1 :: r.vals, r.rest⟩ else none
      | _, vs => (rdComma g vs).bind fun r => some ⟨x.1 :: r.args, r.keys, r.vals, r.rest⟩ := by
    intro W hW
    obtain ⟨a, tl, rfl, ha⟩ := hW
    cases a with
    | s y => cases y <;> first | rfl | cases ha
    | _ => rfl
  rw [hr _ ((toks_starts x).append U), r]
  simp only [Option.bind_some]
  split
  · exact absurd rfl e2
  · rw [i]; rfl

theorem readsPrim_name (s : String) : ReadsPrim (.name s) := readsPrim_atom fun _ _ => rfl

theorem ReadsMore.key {T : List PTok} {ks : List (Option String)} {vs : List PyTree}
    (h : ReadsMore T [] ks vs) (k : Option String) {v : PyTree} (hv : ReadsPrim v) :
    ReadsArgs (keywordToks k v.toks ++ T) [] (k :: ks) (v :: vs) := by
  obtain ⟨ht, N, h⟩ := h
  obtain ⟨M, hx⟩ := hv.whole
  cases k with
  | none =>
    refine ⟨N + M + 1, fun f hf rest => ?_⟩
    obtain ⟨g, rfl⟩ : ∃ g, f = g + 1 := ⟨f - 1, by omega⟩
    obtain ⟨e1, e2⟩ := more_ends ht rest
    have i := h g (by omega) rest
    have r := hx g (by omega) 0 _ e1
    simp only [keywordToks, List.cons_append, List.append_assoc]
    generalize T ++ .s .rpar :: rest = U at *
    rw [rdArgs']
    rw [r]
    simp only [Option.bind_some]
    rw [i]
    rfl
  | some n =>
    obtain ⟨K, hn⟩ := (readsPrim_name n).whole
    refine ⟨N + M + K + 1, fun f hf rest => ?_⟩
    obtain ⟨g, rfl⟩ : ∃ g, f = g + 1 := ⟨f - 1, by omega⟩
    obtain ⟨e1, e2⟩ := more_ends ht rest
    have i := h g (by omega) rest
    have r := hx g (by omega) 0 _ e1
    simp only [keywordToks, List.cons_append, List.append_assoc]
    generalize T ++ .s .rpar :: rest = U at *
    have rn := hn g (by omega) 0 (.s .assign :: (v.toks ++ U)) (ends_assign _)
    change rdE g 0 (.name n :: .s .assign :: (v.toks ++ U)) = _ at rn
    rw [rdArgs']
    · rw [rn]
      simp only [Option.bind_some, PyTree.asName]
      rw [r]
      simp only [Option.bind_some]
      rw [i]
      rfl
    · intro us h; cases h
    · intro us h; cases h

theorem readsKeys (ks : List (Option String)) (vs : List PyTree) (hl : ks.length = vs.length) (h : ∀ t ∈ vs, ReadsPrim t) :
    ReadsMore (((List.zipWith keywordToks ks (vs.map PyTree.toks))).map (.s .comma :: ·)).flatten [] ks vs := by
  induction ks generalizing vs with
  | nil =>
    cases vs with
    | nil => exact more_nil
    | cons v vs => simp at hl
  | cons k ks ih =>
    cases vs with
    | nil => simp at hl
    | cons v vs =>
      have := ((ih vs (by simpa using hl) (fun t ht => h t (by simp [ht]))).key k (h v (by simp))).more
      simpa using this

theorem readsPos (as : List PyTree) (ks : List (Option String)) (vs : List PyTree) (hl : ks.length = vs.length)
    (ha : ∀ t ∈ as, ReadsPrim t) (h : ∀ t ∈ vs, ReadsPrim t) :
    ReadsMore ((as.map PyTree.toks ++ List.zipWith keywordToks ks (vs.map PyTree.toks)).map (.s .comma :: ·)).flatten as ks vs := by
  induction as with
  | nil => simpa using readsKeys ks vs hl h
  | cons a as ih =>
    have := ((ih (fun t ht => ha t (by simp [ht]))).pos (ha a (by simp))).more
    simpa using this

theorem readsArgs (as : List PyTree) (ks : List (Option String)) (vs : List PyTree) (hl : ks.length = vs.length)
    (ha : ∀ t ∈ as, ReadsPrim t) (h : ∀ t ∈ vs, ReadsPrim t) :
    ReadsArgs (interleaved (.s .comma) (as.map PyTree.toks ++ List.zipWith keywordToks ks (vs.map PyTree.toks))) as ks vs := by
  cases as with
  | nil =>
    cases ks with
    | nil =>
      cases vs with
      | nil =>
        refine ⟨1, fun f hf rest => ?_⟩
        obtain ⟨g, rfl⟩ : ∃ g, f = g + 1 := ⟨f - 1, by omega⟩
        rfl
      | cons v vs => simp at hl
    | cons k ks =>
      cases vs with
      | nil => simp at hl
      | cons v vs =>
        simp only [List.map_nil, List.nil_append, List.map_cons, List.zipWith_cons_cons]
        rw [interleaved_cons]
        exact (readsKeys ks vs (by simpa using hl) (fun t ht => h t (by simp [ht]))).key k (h v (by simp))
  | cons a as =>
    simp only [List.map_cons, List.cons_append]
    rw [interleaved_cons]
    exact (readsPos as ks vs hl (fun t ht => ha t (by simp [ht])) h).pos (ha a (by simp))

theorem readsPrim_call {v : PyTree} (h : ReadsPrim v) (as : List PyTree) (ks : List (Option String)) (vs : List PyTree)
    (hl : ks.length = vs.length) (ha : ∀ t ∈ as, ReadsPrim t) (hv : ∀ t ∈ vs, ReadsPrim t) :
    ReadsPrim (.call v as ks vs) := by
  obtain ⟨N, k, h⟩ := h
  obtain ⟨M, hi⟩ := readsArgs as ks vs hl ha hv
  refine ⟨N + M, k + 1, fun f hf rest => ?_⟩
  have e : f + (k + 1) = (f + 1) + k := by omega
  have e' : (PyTree.call v as ks vs).toks ++ rest = v.toks ++ (.s .lpar ::
      (interleaved (.s .comma) (as.map PyTree.toks ++ List.zipWith keywordToks ks (vs.map PyTree.toks)) ++ .s .rpar :: rest)) := by
    simp [PyTree.toks, treeToksL_eq]
  rw [e, e', h (f + 1) (by omega), rdTrail, hi f (by omega)]
  rfl

/-! ## Everything -/

mutual
theorem reads_prim : ∀ t : PyTree, t.formed = true → ReadsPrim t
  | .num q, _ => readsPrim_atom fun _ _ => rfl
  | .str s, _ => readsPrim_atom fun _ _ => rfl
  | .sing c, _ => readsPrim_atom fun _ _ => rfl
  | .name s, _ => readsPrim_name s
  | .attr v a, w => readsPrim_attr (reads_prim v w) a
  | .call f args keys vals, w => by
    simp only [PyTree.formed, Bool.and_eq_true, decide_eq_true_eq] at w
    exact readsPrim_call (reads_prim f w.1.1.1) args keys vals w.1.2 (reads_primL args w.1.1.2) (reads_primL vals w.2)
  | .subscript v i, w => by
    simp only [PyTree.formed, Bool.and_eq_true] at w
    exact readsPrim_subscript (reads_prim v w.1) (reads_prim i w.2)
  | .unary o a, w => readsPrim_unary o (reads_prim a w)
  | .bin o a b, w => by
    simp only [PyTree.formed, Bool.and_eq_true] at w
    exact readsPrim_bin o (reads_prim a w.1) (reads_prim b w.2)
  | .compare a [] cs, w => by simp [PyTree.formed] at w
  | .compare a (o :: ops) [], w => by simp [PyTree.formed] at w
  | .compare a (o :: ops) (c :: cs), w => by
    simp only [PyTree.formed, Bool.and_eq_true, decide_eq_true_eq] at w
    exact readsPrim_compare (reads_prim a w.1.1.1) o ops c cs (by simpa using w.1.2) (reads_primL (c :: cs) w.2)
  | .bool b [], w => by simp [PyTree.formed] at w
  | .bool b [_], w => by simp [PyTree.formed] at w
  | .bool b (x :: y :: l), w => by
    simp only [PyTree.formed, Bool.and_eq_true] at w
    exact readsPrim_bool b x y l (reads_primL (x :: y :: l) w.2)
  | .ifexp b t e, w => by
    simp only [PyTree.formed, Bool.and_eq_true] at w
    exact readsPrim_ifexp (reads_prim b w.1.1) (reads_prim t w.1.2) (reads_prim e w.2)
  | .set [], w => by simp [PyTree.formed] at w
  | .set (x :: l), w => by
    simp only [PyTree.formed, Bool.and_eq_true] at w
    exact readsPrim_set x l (reads_primL (x :: l) w.2)
  | .list l, w => readsPrim_list l (reads_primL l w)
  | .tuple l, w => readsPrim_tuple l (reads_primL l w)
  | .dict ks vs, w => by
    simp only [PyTree.formed, Bool.and_eq_true, decide_eq_true_eq] at w
    exact readsPrim_dict ks vs w.1.1 (reads_primL ks w.1.2) (reads_primL vs w.2)
  | .lam [] params b, w => by
    simp only [PyTree.formed, Bool.and_eq_true] at w
    exact readsPrim_lam params (reads_prim b w.2)
  | .lam (_ :: _) params b, w => by simp [PyTree.formed] at w
theorem reads_primL : ∀ l : List PyTree, PyTree.formedL l = true → ∀ t ∈ l, ReadsPrim t
  | [], _ => by simp
  | x :: xs, w => by
    simp only [PyTree.formedL, Bool.and_eq_true] at w
    intro t ht
    have hx := reads_prim x w.1
    have hxs := reads_primL xs w.2
    rcases List.mem_cons.1 ht with h | h
    · exact h ▸ hx
    · exact hxs t h
end

theorem readsAs_toks (t : PyTree) (h : t.formed = true) : ReadsAs t.toks t := by
  obtain ⟨N, hN⟩ := (reads_prim t h).whole
  exact ⟨N, by have := hN N le_rfl 0 [] ⟨trivial, rfl⟩; simpa using this⟩

end Verif
