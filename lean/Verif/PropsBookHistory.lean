import Verif.PropsBookFill

/-!
# Changes and fillings of books in any order (C61, C65)
-/

namespace Verif

variable {α : Type}

/-! ## The histograms of a book -/

mutual
/-- The histograms in order. -/
def BT.flat : BT α → List α
  | .hist h => [h]
  | .book _ _ c => c.flat
/-- The histograms in order. -/
def BL.flat : BL α → List α
  | .nil => []
  | .cons _ x r => x.flat ++ r.flat
end

mutual
theorem flat_all_BT (b : BT α) (path : List Str) : (∃ h, b = .hist h) ∨
    (b.all path).filterMap (fun p => p.2.hist?) = b.flat := by
  match b with
  | .hist h => exact .inl ⟨h, rfl⟩
  | .book c f x => exact .inr (by rw [BT.all, BT.flat, flat_all_BL x path])
theorem flat_all_BL (c : BL α) (path : List Str) : (c.all path).filterMap (fun p => p.2.hist?) = c.flat := by
  match c with
  | .nil => rfl
  | .cons n x r =>
    have hr := flat_all_BL r path
    have hh : ∀ h : α, (BT.hist h).hist? = some h := fun _ => rfl
    have hb : ∀ c f (y : BL α), (BT.book c f y).hist? = none := fun _ _ _ => rfl
    rcases flat_all_BT x (path ++ [n]) with ⟨h, rfl⟩ | hx
    · simp only [BL.all, BT.all, BL.flat, BT.flat, List.cons_append, List.nil_append, List.filterMap_cons, hh, hr]
    · cases x with
      | hist h => simp only [BL.all, BT.all, BL.flat, BT.flat, List.cons_append, List.nil_append, List.filterMap_cons, hh, hr]
      | book c f y => simp only [BL.all, BL.flat, List.cons_append, List.filterMap_cons, hb, List.filterMap_append, hr, hx]
end

theorem hists_flat (c : BL α) : c.hists = c.flat := flat_all_BL c []

theorem flat_put {n : Str} {y y' : BT α} (h : y'.flat = y.flat) : ∀ {c : BL α}, c.find n = some y →
    (c.put n y').flat = c.flat
  | .nil, hf => by cases hf
  | .cons m x r, hf => by
    rw [BL.find] at hf
    by_cases hm : m = n
    · rw [if_pos hm] at hf
      cases hf
      rw [BL.put, if_pos hm, BL.flat, BL.flat, h]
    · rw [if_neg hm] at hf
      rw [BL.put, if_neg hm, BL.flat, BL.flat, flat_put h hf]

theorem flat_sub {n : Str} {c : BClass} {f : Fields α} {y : BL α} {i : α} : ∀ {x : BL α}, x.find n = some (.book c f y) →
    i ∈ y.flat → i ∈ x.flat
  | .nil, hf, _ => by cases hf
  | .cons m z r, hf, hi => by
    rw [BL.find] at hf
    rw [BL.flat, List.mem_append]
    by_cases hm : m = n
    · rw [if_pos hm] at hf; cases hf; exact .inl hi
    · rw [if_neg hm] at hf; exact .inr (flat_sub hf hi)

/-! ## Books whose instructions are up to date -/

mutual
/-- No book is a `SystematicsBook`, and the books that can be filled have no instructions or those for the histograms
they have. -/
def BT.Fresh : BT α → Prop
  | .hist _ => True
  | .book c f x => c ≠ .systematics ∧ (c.fillable = true → f = .none ∨ f = .some x.hists) ∧ x.Fresh
/-- The same for the entries. -/
def BL.Fresh : BL α → Prop
  | .nil => True
  | .cons _ x r => x.Fresh ∧ r.Fresh
end

theorem BL.Fresh.find {n : Str} {y : BT α} : ∀ {c : BL α}, c.Fresh → c.find n = some y → y.Fresh
  | .nil, _, hf => by cases hf
  | .cons m x r, hc, hf => by
    rw [BL.Fresh] at hc
    rw [BL.find] at hf
    by_cases hm : m = n
    · rw [if_pos hm] at hf; cases hf; exact hc.1
    · rw [if_neg hm] at hf; exact hc.2.find hf

theorem BL.Fresh.put {n : Str} {y : BT α} (hy : y.Fresh) : ∀ {c : BL α}, c.Fresh → (c.put n y).Fresh
  | .nil, _ => ⟨hy, trivial⟩
  | .cons m x r, hc => by
    rw [BL.Fresh] at hc
    rw [BL.put]
    by_cases hm : m = n
    · rw [if_pos hm]; exact ⟨hy, hc.2⟩
    · rw [if_neg hm]; exact ⟨hc.1, hc.2.put hy⟩

theorem BL.Fresh.del {n : Str} : ∀ {c : BL α}, c.Fresh → (c.del n).Fresh
  | .nil, _ => trivial
  | .cons m x r, hc => by
    rw [BL.Fresh] at hc
    rw [BL.del]
    by_cases hm : m = n
    · rw [if_pos hm]; exact hc.2
    · rw [if_neg hm]; exact ⟨hc.1, hc.2.del⟩

theorem changed_fresh {o : HistOps α} {c : BClass} {f : Fields α} {x : BL α} (hc : c ≠ .systematics) (hx : x.Fresh) :
    ∃ f', (BT.book c f x).changed o = .ok (.book c f' x) ∧ (BT.book c f' x).Fresh := by
  cases c
  case systematics => exact absurd rfl hc
  all_goals exact ⟨_, rfl, by simp [BT.Fresh, hx, BClass.fillable]⟩

theorem setP_fresh {o : HistOps α} {v : BT α} (hv : v.Fresh) : ∀ (p : List Str) {c : BClass} {f : Fields α} {x : BL α},
    c ≠ .systematics → x.Fresh →
    (∃ e, BT.setP o v p (.book c f x) = .error (e, .book c f x)) ∨
      ∃ f' x', BT.setP o v p (.book c f x) = .ok (.book c f' x') ∧ (BT.book c f' x').Fresh
  | [], c, f, x, _, _ => .inl ⟨_, rfl⟩
  | [n], c, f, x, hc, hx => by
    obtain ⟨f', h1, h2⟩ := changed_fresh (o := o) (f := f) hc (hx.put (n := n) hv)
    exact .inr ⟨f', _, h1, h2⟩
  | n :: m :: r, c, f, x, hc, hx => by
    rw [BT.setP]
    cases hf : x.find n with
    | none =>
      rcases setP_fresh (o := o) hv (m :: r) (c := .book) (f := .none) (x := .nil) (by simp) trivial with ⟨e, h⟩ | ⟨f1, x1, h1, h2⟩
      · obtain ⟨b, hb⟩ := setP_newBook o v (p := m :: r) (by simp)
        unfold newBook at hb
        rw [hb] at h; cases h
      · simp only [newBook, h1, within]
        obtain ⟨f', g1, g2⟩ := changed_fresh (o := o) (f := f) hc (hx.put (n := n) h2)
        exact .inr ⟨f', _, g1, g2⟩
    | some y =>
      cases y with
      | hist h => exact .inl ⟨_, rfl⟩
      | book c' f' x' =>
        have hy := hx.find hf
        rw [BT.Fresh] at hy
        rcases setP_fresh (o := o) hv (m :: r) (f := f') hy.1 hy.2.2 with ⟨e, h⟩ | ⟨f1, x1, h1, h2⟩
        · refine .inl ⟨e, ?_⟩
          simp only [h, within, put_find hf]
        · simp only [h1, within]
          obtain ⟨f'', g1, g2⟩ := changed_fresh (o := o) (f := f) hc (hx.put (n := n) h2)
          exact .inr ⟨f'', _, g1, g2⟩

theorem delP_fresh {o : HistOps α} : ∀ (p : List Str) {c : BClass} {f : Fields α} {x : BL α},
    c ≠ .systematics → x.Fresh →
    (∃ e, BT.delP o p (.book c f x) = .error (e, .book c f x)) ∨
      ∃ f' x', BT.delP o p (.book c f x) = .ok (.book c f' x') ∧ (BT.book c f' x').Fresh
  | [], c, f, x, _, _ => .inl ⟨_, rfl⟩
  | [n], c, f, x, hc, hx => by
    rw [BT.delP]
    cases hf : x.find n with
    | none => exact .inl ⟨_, rfl⟩
    | some y =>
      obtain ⟨f', h1, h2⟩ := changed_fresh (o := o) (f := f) hc (hx.del (n := n))
      exact .inr ⟨f', _, h1, h2⟩
  | n :: m :: r, c, f, x, hc, hx => by
    rw [BT.delP]
    cases hj : x.find (joinS (n :: m :: r)) with
    | some y =>
      obtain ⟨f', h1, h2⟩ := changed_fresh (o := o) (f := f) hc (hx.del (n := joinS (n :: m :: r)))
      exact .inr ⟨f', _, h1, h2⟩
    | none =>
      cases hf : x.find n with
      | none => exact .inl ⟨_, rfl⟩
      | some y =>
        cases y with
        | hist h => exact .inl ⟨_, rfl⟩
        | book c' f' x' =>
          have hy := hx.find hf
          rw [BT.Fresh] at hy
          rcases delP_fresh (m :: r) (o := o) (f := f') hy.1 hy.2.2 with ⟨e, h⟩ | ⟨f1, x1, h1, h2⟩
          · refine .inl ⟨e, ?_⟩
            simp only [h, within, put_find hf]
          · simp only [h1, within]
            obtain ⟨f'', g1, g2⟩ := changed_fresh (o := o) (f := f) hc (hx.put (n := n) h2)
            exact .inr ⟨f'', _, g1, g2⟩

theorem setitem_fresh {o : HistOps α} {b v : BT α} (hb : b.Fresh) (hv : v.Fresh) (name : Str) :
    (outcome (b.setitem o name v)).Fresh := by
  cases b with
  | hist h =>
    unfold BT.setitem
    cases hp : comps name <;> exact trivial
  | book c f x =>
    have hb' := hb
    rw [BT.Fresh] at hb'
    unfold BT.setitem
    rcases setP_fresh (o := o) hv (comps name) (f := f) hb'.1 hb'.2.2 with ⟨e, h⟩ | ⟨f', x', h1, h2⟩
    · rw [h]; exact hb
    · rw [h1]; exact h2

theorem delP_outcome {o : HistOps α} {b : BT α} (hb : b.Fresh) (p : List Str) : (outcome (b.delP o p)).Fresh := by
  cases b with
  | hist h => cases p <;> exact trivial
  | book c f x =>
    have hb' := hb
    rw [BT.Fresh] at hb'
    rcases delP_fresh (o := o) p (f := f) hb'.1 hb'.2.2 with ⟨e, h⟩ | ⟨f', x', h1, h2⟩
    · rw [h]; exact hb
    · rw [h1]; exact h2

theorem delEach_fresh {o : HistOps α} : ∀ (ns : List Str) {b : BT α}, b.Fresh → (outcome (delEach o ns b)).Fresh
  | [], b, hb => hb
  | n :: ns, b, hb => by
    have := delP_outcome (o := o) hb (comps n)
    rw [delEach]
    cases h : b.delP o (comps n) with
    | error e => rw [h] at this; exact this
    | ok b' => rw [h] at this; exact delEach_fresh ns this

theorem delitem_fresh {o : HistOps α} {b : BT α} (hb : b.Fresh) (name : Str) : (outcome (b.delitem o name)).Fresh := by
  unfold BT.delitem
  by_cases h : isGlob name = true
  · rw [if_pos h]; exact delEach_fresh _ hb
  · rw [if_neg h]; exact delP_outcome hb _

theorem setEach_fresh {o : HistOps α} {c : BClass} (hc : c ≠ .systematics) : ∀ (items : List (Str × BT α)),
    (∀ p ∈ items, p.2.Fresh) → ∀ {f : Fields α} {x : BL α}, x.Fresh → ∀ {b : BT α},
    setEach o items (.book c f x) = .ok b → ∃ f' x', b = .book c f' x' ∧ x'.Fresh
  | [], _, f, x, hx, b, h => by cases h; exact ⟨_, _, rfl, hx⟩
  | (n, v) :: r, hi, f, x, hx, b, h => by
    rw [setEach] at h
    unfold BT.setitem at h
    rcases setP_fresh (o := o) (hi (n, v) (by simp)) (comps n) (f := f) hc hx with ⟨e, h'⟩ | ⟨f', x', h1, h2⟩
    · rw [h'] at h; cases h
    · rw [h1] at h
      rw [BT.Fresh] at h2
      exact setEach_fresh hc r (fun p hp => hi p (by simp [hp])) h2.2.2 h

/-- A new book is ready to be filled. -/
theorem mkBook_fresh {o : HistOps α} {c : BClass} (hc : c ≠ .systematics) {items : List (Str × BT α)}
    (hi : ∀ p ∈ items, p.2.Fresh) {b : BT α} (h : mkBook o c items = .ok b) : b.Fresh := by
  unfold mkBook at h
  cases hs : setEach o items (.book c .absent .nil) with
  | error e => rw [hs] at h; cases h
  | ok b' =>
    rw [hs] at h
    obtain ⟨f', x', rfl, hx⟩ := setEach_fresh hc items hi (x := .nil) trivial hs
    obtain ⟨f'', g1, g2⟩ := changed_fresh (o := o) (f := f') hc hx
    simp only at h
    rw [g1] at h
    cases h
    exact g2

theorem at_fresh : ∀ {p : List Str} {b x : BT α}, b.Fresh → b.at p = some x → x.Fresh
  | [], b, x, hb, h => by cases h; exact hb
  | n :: p, .hist h, x, hb, h' => by cases h'
  | n :: p, .book c f l, x, hb, h => by
    rw [BT.Fresh] at hb
    rw [BT.at] at h
    cases hf : l.find n with
    | none => rw [hf] at h; cases h
    | some y => rw [hf] at h; exact at_fresh (hb.2.2.find hf) h

/-! ## Filling -/

section
variable {more : More} {named : String → Option (Option ℚ)} {get : String → Option (Given (Option ℚ))}

theorem bookFill_for {w : Store} {f : Fields ℕ} {cur : List ℕ} {srcs : List Node} {ord : List Node → List Node}
    {w' : Store} {l : List ℕ} (h : w.bookFill more named get f cur srcs ord = .ok (w', l)) : cachedFor f cur = .ok l := by
  unfold Store.bookFill Store.compute at h
  cases hc : cachedFor f cur with
  | error e => rw [hc] at h; cases h
  | ok l' =>
    rw [hc] at h
    simp only [bind, Except.bind] at h
    cases hg : (w.prefillAll cur).goals l' with
    | error e => rw [hg] at h; cases h
    | ok gs =>
      rw [hg] at h
      simp only at h
      cases hr : fillFields (colLib more) .nums (numConsts named) get gs srcs ord with
      | error e => rw [hr] at h; cases h
      | ok q =>
        rw [hr] at h
        simp only at h
        cases hp : ((w.prefillAll cur).deliverAll q.1 l').postAll q.2 cur with
        | error e => rw [hp] at h; cases h
        | ok w'' => rw [hp] at h; cases h; rfl

/-- The tree after an operation, whether or not it raised an exception. -/
def treeOf : Except (Err × Store × BT ℕ) (Store × BT ℕ) → BT ℕ
  | .ok q => q.2
  | .error q => q.2.2

theorem fillIt_fresh {w : Store} {srcs : List Node} {ord : List Node → List Node} {b : BT ℕ} (hb : b.Fresh) :
    (treeOf (b.fillIt more named get w srcs ord)).Fresh ∧ (treeOf (b.fillIt more named get w srcs ord)).flat = b.flat := by
  cases b with
  | hist i =>
    unfold BT.fillIt
    simp only
    cases (w i).fill more named get srcs ord <;> exact ⟨trivial, rfl⟩
  | book c f x =>
    have hb' := hb
    rw [BT.Fresh] at hb'
    unfold BT.fillIt
    by_cases hc : c.fillable = true
    · simp only [hc, if_true]
      have hff := hb'.2.1 hc
      cases hx : w.bookFill more named get f x.hists srcs ord with
      | error e =>
        refine ⟨⟨hb'.1, fun _ => ?_, hb'.2.2⟩, rfl⟩
        unfold Store.fieldsAfter
        rcases hff with rfl | rfl
        · simp only
          split
          · exact .inl rfl
          · split
            · exact .inr rfl
            · exact .inl rfl
        · exact .inr rfl
      | ok q =>
        have := bookFill_for (w' := q.1) (l := q.2) hx
        rw [cachedFor_fresh hff] at this
        refine ⟨⟨hb'.1, fun _ => .inr ?_, hb'.2.2⟩, rfl⟩
        rw [Except.ok.inj this]
    · simp only [hc]
      exact ⟨hb, rfl⟩

theorem fillAt_fresh {w : Store} {srcs : List Node} {ord : List Node → List Node} : ∀ (p : List Str) {b : BT ℕ}, b.Fresh →
    (treeOf (b.fillAt more named get w srcs ord p)).Fresh ∧
      (treeOf (b.fillAt more named get w srcs ord p)).flat = b.flat
  | [], b, hb => by rw [BT.fillAt]; exact fillIt_fresh hb
  | n :: p, .hist i, hb => ⟨trivial, rfl⟩
  | n :: p, .book c f x, hb => by
    rw [BT.fillAt]
    have hb' := hb
    rw [BT.Fresh] at hb'
    cases hf : x.find n with
    | none => exact ⟨hb, rfl⟩
    | some y =>
      have key : ∀ z : BT ℕ, z.Fresh → z.flat = y.flat → (BT.book c f (x.put n z)).Fresh ∧
          (BT.book c f (x.put n z)).flat = (BT.book c f x).flat := by
        intro z h1 h2
        have h3 := flat_put h2 hf
        refine ⟨⟨hb'.1, fun hc => ?_, hb'.2.2.put h1⟩, h3⟩
        rw [hists_flat, h3, ← hists_flat]
        exact hb'.2.1 hc
      obtain ⟨h1, h2⟩ := fillAt_fresh (w := w) (srcs := srcs) (ord := ord) p (hb'.2.2.find hf)
      simp only
      cases hr : y.fillAt more named get w srcs ord p with
      | error q => rw [hr] at h1 h2; exact key _ h1 h2
      | ok q => rw [hr] at h1 h2; exact key _ h1 h2

theorem fillAt_at {w w' : Store} {srcs : List Node} {ord : List Node → List Node} : ∀ {p : List Str} {b y y' : BT ℕ},
    b.at p = some y → y.fillIt more named get w srcs ord = .ok (w', y') →
    ∃ b', b.fillAt more named get w srcs ord p = .ok (w', b')
  | [], b, y, y', h, hy => by cases h; exact ⟨y', by rw [BT.fillAt]; exact hy⟩
  | n :: p, .hist i, y, y', h, hy => by cases h
  | n :: p, .book c f x, y, y', h, hy => by
    rw [BT.at] at h
    rw [BT.fillAt]
    cases hf : x.find n with
    | none => rw [hf] at h; cases h
    | some z =>
      rw [hf] at h
      obtain ⟨b', hb'⟩ := fillAt_at (p := p) (b := z) h hy
      simp only [hb']
      exact ⟨_, rfl⟩

/-- Entries are changed through the outermost book, and what is put in is itself made in this way. -/
def BOp.ViaRoot : BOp → Prop
  | .set path _ v => path = [] ∧ v.Fresh
  | .del path _ => path = []
  | .fill _ _ _ _ => True

theorem bstep_fresh {o : HistOps ℕ} {s : Store × BT ℕ} (hs : s.2.Fresh) {op : BOp} (h : op.ViaRoot) :
    (bstep o more named s op).2.Fresh := by
  obtain ⟨w, b⟩ := s
  cases op with
  | set path name v =>
    obtain ⟨rfl, hv⟩ := h
    have := setitem_fresh (o := o) hs hv name
    simp only [bstep, BT.inside]
    cases hx : b.setitem o name v <;> (rw [hx] at this; exact this)
  | del path name =>
    obtain rfl := h
    have := delitem_fresh (o := o) hs name
    simp only [bstep, BT.inside]
    cases hx : b.delitem o name <;> (rw [hx] at this; exact this)
  | fill path get srcs ord =>
    have := (fillAt_fresh (more := more) (named := named) (get := get) (w := w) (srcs := srcs) (ord := ord) path hs).1
    simp only [bstep]
    cases hx : b.fillAt more named get w srcs ord path <;> (rw [hx] at this; exact this)

theorem brun_fresh {o : HistOps ℕ} : ∀ (ops : List BOp) {s : Store × BT ℕ}, s.2.Fresh → (∀ op ∈ ops, op.ViaRoot) →
    (brun o more named s ops).2.Fresh
  | [], _, hs, _ => hs
  | op :: ops, s, hs, h => brun_fresh ops (bstep_fresh hs (h op (by simp))) fun x hx => h x (by simp [hx])

/-! ## C61 -/

/-- **C61**: make a book (not a `SystematicsBook`, nor with one inside) and assign, delete and fill, in any order, on any
level, with or without exceptions, but each time through the outermost book.  When afterwards a book in it is filled, with
arguments that describe the same number of rows for each histogram it now has, all of which can be filled alone, and which
are different objects, then exactly these are filled, and each of them as by its own `fill`. -/
theorem C61_partial {o : HistOps ℕ} {c0 : BClass} (hc0 : c0 ≠ .systematics) {items : List (Str × BT ℕ)}
    (hi : ∀ p ∈ items, p.2.Fresh) {b0 : BT ℕ} (h0 : mkBook o c0 items = .ok b0) (w0 : Store) (ops : List BOp)
    (hops : ∀ op ∈ ops, op.ViaRoot) {w : Store} {b : BT ℕ} (hrun : brun o more named (w0, b0) ops = (w, b))
    {p : List Str} {c : BClass} {f : Fields ℕ} {x : BL ℕ} (hp : b.at p = some (.book c f x)) (hc : c.fillable = true)
    (hne : x.hists ≠ []) (hn : x.hists.Nodup) {srcs : List Node} {ord : List Node → List Node} (ho : ∀ l, (ord l).Perm l)
    (hs : SourceOrder (w.allGoals x.hists) srcs) (hu : Unmixed (w.allGoals x.hists)) {n : ℕ}
    (hd : ∀ i ∈ x.hists, Describes (numConsts named) get (w i).goals n) {h : ℕ → BHist}
    (hfill : ∀ i ∈ x.hists, ∃ srcs ord, (∀ l, (ord l).Perm l) ∧ SourceOrder (w i).goals srcs ∧
      (w i).fill more named get srcs ord = .ok (h i)) :
    ∃ b', b.fillAt more named get w srcs ord p = .ok (fun j => if j ∈ x.hists then h j else w j, b') := by
  have hb : b.Fresh := by
    have := brun_fresh (more := more) (named := named) (o := o) ops (s := (w0, b0)) (mkBook_fresh hc0 hi h0) hops
    rw [hrun] at this
    exact this
  have hx := at_fresh hb hp
  rw [BT.Fresh] at hx
  refine fillAt_at (y' := .book c (.some x.hists) x) hp ?_
  unfold BT.fillIt
  simp only [hc, if_true]
  rw [C60_fill_partial (hx.2.1 hc) hne hn ho hs hu hd hfill]

end

/-- The history of the examples: `Book({"a": h0, "in/b": h3})`. -/
def histBook : BT ℕ :=
  match mkBook numOps .book [(nm "a", .hist 0), (nm "in/b", .hist 3)] with
  | .ok b => b
  | .error e => e.2

/-- Four histograms of `x`. -/
def xHists : Store := fun _ => ⟨oneAxis (.name "x") none, none, []⟩

/-- `fill(x=[1, 4, 2], y=3)`, for histograms of `x` only. -/
def xFill (path : List Str) : BOp := .fill path goalsGet [.name "x"] id

/-- The bins of a histogram after a history. -/
def binsAfter (ops : List BOp) (i : ℕ) : List ℚ :=
  (List.range 5).map ((brun numOps treeMore (fun _ => none) (xHists, histBook) ops).1.bin i)

/-- The hypotheses of `C61_partial` on the history hold for fillings of the whole book and of a book inside between
assignments and deletions; afterwards the book has the histograms 3, 2, 1. -/
example : mkBook numOps .book [(nm "a", .hist 0), (nm "in/b", .hist 3)] = .ok histBook ∧
    (∀ op ∈ [xFill [], .set [] (nm "in/c") (.hist 2), xFill [nm "in"], .del [] (nm "a"), .set [] (nm "new/d") (.hist 1)],
      op.ViaRoot) ∧
    (brun numOps treeMore (fun _ => none) (xHists, histBook) [xFill [], .set [] (nm "in/c") (.hist 2), xFill [nm "in"],
      .del [] (nm "a"), .set [] (nm "new/d") (.hist 1)]).2.content.hists = [3, 2, 1] := by
  refine ⟨rfl, ?_, by decide +kernel⟩
  intro op hop
  simp only [List.mem_cons, List.not_mem_nil, or_false] at hop
  rcases hop with rfl | rfl | rfl | rfl | rfl <;> simp [xFill, BOp.ViaRoot, BT.Fresh]

/-- What the history above and one more filling do: the histograms have the rows of the fillings since they are there. -/
example : [0, 1, 2, 3].map (binsAfter [xFill [], .set [] (nm "in/c") (.hist 2), xFill [nm "in"],
      .del [] (nm "a"), .set [] (nm "new/d") (.hist 1), xFill []]) =
    [[0, 0, 1, 2, 0], [0, 0, 1, 2, 0], [0, 0, 2, 4, 0], [0, 0, 3, 6, 0]] := by decide +kernel

/-! ## What is wrong -/

/-- **C61** fails for changes of a book inside by itself, `book["in"]["c"] = h2`: the next filling of the outer book adds
the number of rows to every bin of the new histogram. -/
theorem C61_refuted_inside :
    binsAfter [xFill [], .set [] (nm "in/c") (.hist 2), xFill []] 2 = [0, 0, 1, 2, 0] ∧
    binsAfter [xFill [], .set [nm "in"] (nm "c") (.hist 2), xFill []] 2 = [3, 3, 3, 3, 3] ∧
    (brun numOps treeMore (fun _ => none) (xHists, histBook) [xFill [], .set [nm "in"] (nm "c") (.hist 2)]).2.content.hists
      = (brun numOps treeMore (fun _ => none) (xHists, histBook) [xFill [], .set [] (nm "in/c") (.hist 2)]).2.content.hists :=
  by decide +kernel

/-- **C61** fails for a histogram that replaces another one in a book inside, if that is changed by itself. -/
theorem C61_refuted_replaced :
    binsAfter [xFill [], .set [] (nm "in/b") (.hist 2), xFill []] 2 = [0, 0, 1, 2, 0] ∧
    binsAfter [xFill [], .set [nm "in"] (nm "b") (.hist 2), xFill []] 2 = [3, 3, 3, 3, 3] := by
  decide +kernel

theorem postAll_other {n i : ℕ} : ∀ (is : List ℕ) (w w' : Store), i ∉ is → w.postAll n is = .ok w' → w' i = w i
  | [], w, w', _, h => by cases h; rfl
  | j :: is, w, w', hi, h => by
    rw [Store.postAll] at h
    simp only [List.mem_cons, not_or] at hi
    cases hx : (w j).post n with
    | error e => rw [hx] at h; cases h
    | ok k =>
      rw [hx] at h
      rw [postAll_other is _ w' hi.2 h]
      simp [Store.set, hi.1]

theorem postAll_set {n : ℕ} {i : ℕ} : ∀ (is : List ℕ) (w w' : Store), is.Nodup → i ∈ is → w.postAll n is = .ok w' →
    (w i).post n = .ok (w' i)
  | [], _, _, _, hi, _ => by cases hi
  | j :: is, w, w', hn, hi, hp => by
    rw [List.nodup_cons] at hn
    rw [Store.postAll] at hp
    cases hx : (w j).post n with
    | error e => rw [hx] at hp; cases hp
    | ok k =>
      rw [hx] at hp
      simp only at hp
      rcases List.mem_cons.1 hi with rfl | hi
      · rw [postAll_other is _ w' hn.1 hp, hx]
        simp [Store.set]
      · have hne : i ≠ j := fun e => hn.1 (e ▸ hi)
        have := postAll_set is _ w' hn.2 hi hp
        simpa [Store.set, hne] using this

/-- **C61**, in general: if a book is filled with instructions for other histograms, then a histogram that is not among
those gets what does not depend on the data except for their number: its `_postfill` finds nothing. -/
theorem C61_refuted_stale {more : More} {named : String → Option (Option ℚ)} {get : String → Option (Given (Option ℚ))}
    {w w' : Store} {cur l : List ℕ} {srcs : List Node} {ord : List Node → List Node} (hn : cur.Nodup) {i : ℕ}
    (hi : i ∈ cur) (hl : i ∉ l) (hd : (w i).dest = []) {G : HistGoals} (hG : (w i).X.goals = .ok G)
    (h : w.bookFill more named get (.some l) cur srcs ord = .ok (w', l)) :
    ∃ n d c, G.dest [] = .ok d ∧
      Verif.postfill (w i).X.hist.layout n d (Verif.prefill (w i).X.hist.layout (w i).state) = .ok c ∧
      w' i = { w i with state := some c, dest := [] } := by
  unfold Store.bookFill at h
  cases hc : (w.prefillAll cur).compute more named get (.some l) cur srcs ord with
  | error e => rw [hc] at h; cases h
  | ok q =>
    obtain ⟨r, n, l'⟩ := q
    have hl' : l' = l := by
      unfold Store.compute cachedFor at hc
      simp only [bind, Except.bind] at hc
      cases hg : (w.prefillAll cur).goals l with
      | error e => rw [hg] at hc; cases hc
      | ok gs =>
        rw [hg] at hc
        simp only at hc
        cases hr : fillFields (colLib more) .nums (numConsts named) get gs srcs ord with
        | error e => rw [hr] at hc; cases hc
        | ok q => rw [hr] at hc; cases hc; rfl
    subst hl'
    rw [hc] at h
    simp only at h
    cases hp : ((w.prefillAll cur).deliverAll r l').postAll n cur with
    | error e => rw [hp] at h; cases h
    | ok w'' =>
      rw [hp] at h
      cases h
      have h1 := postAll_set cur _ w' hn hi hp
      have h2 : (w.prefillAll cur).deliverAll r l' i = (w i).prefill := by
        rw [prefillAll_eq]
        simp [Store.deliverAll, hi, hl]
      rw [h2] at h1
      obtain ⟨-, h3⟩ := post_nodata (h := (w i).prefill) hd n hG
      obtain ⟨d, c, g1, g2, g3⟩ := h3 _ h1
      exact ⟨n, d, c, g1, g2, g3⟩

/-! ## C65 -/

theorem setP_systematics {o : HistOps α} {v : BT α} {p : List Str} {x : BL α} {b : BT α}
    (h : BT.setP o v p (.book .systematics .absent x) = .ok b) : ∃ y, b = .book .systematics .absent y := by
  have key : ∀ y (b : BT α), (BT.book .systematics .absent y).changed o = .ok b → b = .book .systematics .absent y := by
    intro y b h
    simp only [BT.changed] at h
    split at h
    · cases h; rfl
    · cases h
  match p with
  | [] => cases h
  | [n] => exact ⟨_, key _ _ h⟩
  | n :: m :: r =>
    rw [BT.setP] at h
    split at h
    · cases hy : BT.setP o v (m :: r) newBook with
      | error e => rw [hy] at h; cases h
      | ok y => rw [hy] at h; exact ⟨_, key _ _ h⟩
    · rename_i c f z _
      cases hy : BT.setP o v (m :: r) (.book c f z) with
      | error e => rw [hy] at h; cases h
      | ok y => rw [hy] at h; exact ⟨_, key _ _ h⟩
    · cases h

/-- **C65** fails for every `SystematicsBook` that a program can make: filling it raises an `AttributeError`, whatever
the histograms and the data are. -/
theorem C65_refuted {o : HistOps ℕ} {items : List (Str × BT ℕ)} {b : BT ℕ} (hb : mkBook o .systematics items = .ok b)
    (more : More) (named : String → Option (Option ℚ)) (get : String → Option (Given (Option ℚ))) (w : Store)
    (srcs : List Node) (ord : List Node → List Node) :
    ∃ w', b.fillIt more named get w srcs ord = .error (.attributeError, w', b) := by
  have key : ∃ x, b = .book .systematics .absent x := by
    unfold mkBook at hb
    have hs : ∀ (items : List (Str × BT ℕ)) (x : BL ℕ) (b : BT ℕ),
        setEach o items (.book .systematics .absent x) = .ok b → ∃ y, b = .book .systematics .absent y := by
      intro items
      induction items with
      | nil => intro x b h; cases h; exact ⟨x, rfl⟩
      | cons q r ih =>
        intro x b h
        obtain ⟨n, v⟩ := q
        rw [setEach] at h
        cases hx : (BT.book .systematics .absent x).setitem o n v with
        | error e => rw [hx] at h; cases h
        | ok b1 =>
          rw [hx] at h
          obtain ⟨y, rfl⟩ := setP_systematics (p := comps n) hx
          exact ih y b h
    cases hx : setEach o items (.book .systematics .absent .nil) with
    | error e => rw [hx] at hb; cases hb
    | ok b' =>
      rw [hx] at hb
      obtain ⟨y, rfl⟩ := hs items .nil b' hx
      simp only [BT.changed] at hb
      split at hb
      · cases hb; exact ⟨y, rfl⟩
      · cases hb
  obtain ⟨x, rfl⟩ := key
  exact ⟨w.prefillAll x.hists, rfl⟩

/-- There are such books, and within an ordinary book their histograms are filled. -/
example : ∃ x, mkBook numOps .systematics [(nm "up", .hist 1), (nm "down", .hist 3)] = .ok (.book .systematics .absent x) ∧
    x.hists = [1, 3] := ⟨.cons (nm "up") (.hist 1) (.cons (nm "down") (.hist 3) .nil), rfl, by decide +kernel⟩

/-- **C65**, what remains: the histograms of a `SystematicsBook` are filled with the ordinary book that contains it. -/
theorem C65_inside_partial {more : More} {named : String → Option (Option ℚ)} {get : String → Option (Given (Option ℚ))}
    {w : Store} {x y : BL ℕ} {name : Str} (hy : x.find name = some (.book .systematics .absent y)) (hne : y.hists ≠ [])
    (hn : x.hists.Nodup) {srcs : List Node} {ord : List Node → List Node} (ho : ∀ l, (ord l).Perm l)
    (hs : SourceOrder (w.allGoals x.hists) srcs) (hu : Unmixed (w.allGoals x.hists)) {n : ℕ}
    (hd : ∀ i ∈ x.hists, Describes (numConsts named) get (w i).goals n) {h : ℕ → BHist}
    (hfill : ∀ i ∈ x.hists, ∃ srcs ord, (∀ l, (ord l).Perm l) ∧ SourceOrder (w i).goals srcs ∧
      (w i).fill more named get srcs ord = .ok (h i)) :
    ∃ w' b', (BT.book .book .none x).fillIt more named get w srcs ord = .ok (w', b') ∧ ∀ i ∈ y.hists, w' i = h i := by
  have hsub : ∀ i ∈ y.hists, i ∈ x.hists := by
    intro i hi
    rw [hists_flat] at hi ⊢
    exact flat_sub hy hi
  have hne' : x.hists ≠ [] := by
    obtain ⟨i, hi⟩ := List.exists_mem_of_ne_nil _ hne
    exact List.ne_nil_of_mem (hsub i hi)
  refine ⟨fun j => if j ∈ x.hists then h j else w j, .book .book (.some x.hists) x, ?_, fun i hi => if_pos (hsub i hi)⟩
  unfold BT.fillIt
  simp only [BClass.fillable, if_true]
  rw [C60_fill_partial (.inl rfl) hne' hn ho hs hu hd hfill]

/-- It is: `Book({"sys": SystematicsBook({"up": h1, "down": h3})})`. -/
example : [1, 3].map (fun i =>
    match (BT.book .book .none (.cons (nm "sys") (.book .systematics .absent (.cons (nm "up") (.hist 1)
      (.cons (nm "down") (.hist 3) .nil))) .nil)).fillIt treeMore (fun _ => none) goalsGet xHists [.name "x"] id with
    | .ok q => (List.range 5).map (q.1.bin i)
    | .error _ => []) = [[0, 0, 1, 2, 0], [0, 0, 1, 2, 0]] := by decide +kernel

end Verif
