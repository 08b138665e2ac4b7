import Verif.BookLemmas
import Mathlib.Data.List.Nodup

/-!
# Properties of books as dictionaries (C56-C59)
-/

namespace Verif

variable {α : Type}

/-! ## Examples -/

/-- Histograms are numbers; even ones are compatible with each other, and those below 10 have a systematic. -/
def numOps : HistOps ℕ := ⟨fun a b => a % 2 == b % 2, fun a => a < 10⟩

/-- A name. -/
def nm (s : String) : Str := s.toList

/-- A book with a histogram `x` and a book `a` with histograms `p` and `q`. -/
def demoBook : BT ℕ :=
  .book .book .none (.cons (nm "x") (.hist 1) (.cons (nm "a") (.book .book .none
    (.cons (nm "p") (.hist 2) (.cons (nm "q") (.hist 3) .nil))) .nil))

theorem demoBook_wf : demoBook.WF := by
  simp only [demoBook, BT.WF, BL.WF, BL.keys]
  repeat' apply And.intro
  all_goals first | trivial | decide +kernel

/-- Every path matches. -/
def matchAll : Str → Str → Bool := fun _ _ => true

/-! ## C57: what can be built -/

theorem delEach_wf (o : HistOps α) : ∀ (ns : List Str) (b : BT α), b.WF → (outcome (delEach o ns b)).WF := by
  intro ns
  induction ns with
  | nil => intro b h; exact h
  | cons n ns ih =>
    intro b h
    have hd := delP_wf o (p := comps n) h (comps_noslash n)
    rw [delEach]
    match hr : b.delP o (comps n) with
    | .ok b' => rw [hr] at hd; exact ih b' hd
    | .error e => rw [hr] at hd; exact hd

/-- **C57.** In every book that a program can build the names on each level are distinct and have no slash. -/
theorem C57_built {o : HistOps α} {b : BT α} (h : Built o b) : b.WF := by
  induction h with
  | hist h => trivial
  | empty c f => exact ⟨List.nodup_nil, trivial⟩
  | set name _ _ hb hv => exact setP_wf o hv hb (comps_noslash name)
  | del name _ hb =>
    rw [BT.delitem]
    split
    · exact delEach_wf o _ _ hb
    · exact delP_wf o hb (comps_noslash name)
  | sub p _ hx hb => exact at_wf hb hx
  | inner n _ hf _ hb hy => exact ⟨nodup_put hb.1 n _, hb.2.put (hb.2.find hf).1 hy⟩

/-- **C57.** A book lists each path once, and lists exactly the entries that there are. -/
theorem C57_listing {b : BT α} (h : b.WF) (hb : b.isBook) :
    b.content.allkeys.Nodup ∧
      ∀ (name : Str) (x : BT α), (name, x) ∈ b.content.allitems ↔ b.at (comps name) = some x := by
  cases b with
  | hist k => exact absurd hb id
  | book c f l =>
    have hns : ∀ q x, (q, x) ∈ l.all [] → q ≠ [] ∧ ∀ n ∈ q, '/' ∉ n := by
      intro q x hq
      obtain ⟨n, t, y, rfl, hf, ha⟩ := (mem_all_BL l [] q x h.1 h.2).mp hq
      refine ⟨by simp, ?_⟩
      exact at_noslash (b := .book c f l) (x := x) h (by simp [BT.at, hf, ha])
    constructor
    · have hn := nodup_all_BL l [] h.1 h.2
      simp only [BT.content, BL.allkeys, BL.allitems, List.map_map]
      refine List.Nodup.map_on ?_ (List.Nodup.of_map _ hn)
      rintro ⟨p, x⟩ hp ⟨q, y⟩ hq hpq
      simp only [Function.comp] at hpq
      have hpp := hns p x hp
      have hqq := hns q y hq
      have : p = q := by
        rw [← comps_joinS hpp.1 hpp.2, ← comps_joinS hqq.1 hqq.2, hpq]
      exact List.inj_on_of_nodup_map hn hp hq this
    · intro name x
      simp only [BT.content, BL.allitems, List.mem_map, Prod.mk.injEq, Prod.exists]
      constructor
      · rintro ⟨p, y, hp, rfl, rfl⟩
        have hpp := hns p y hp
        rw [comps_joinS hpp.1 hpp.2]
        obtain ⟨n, t, z, rfl, hf, ha⟩ := (mem_all_BL l [] p y h.1 h.2).mp hp
        simp [BT.at, hf, ha]
      · intro ha
        refine ⟨comps name, x, ?_, joinS_comps name, rfl⟩
        have := (mem_all_BT (.book c f l) [] (comps name) x h).mpr ⟨comps name, comps_ne_nil name, rfl, ha⟩
        exact this

/-- **C57**, for names without wildcards.  `in` and lookup agree with the listing. -/
theorem C57_lookup_partial {b : BT α} (h : b.WF) (hb : b.isBook) (fnm : Str → Str → Bool) {name : Str}
    (hname : isGlob name = false) :
    (∀ x, b.getitem fnm name = .ok (.one x) ↔ (name, x) ∈ b.content.allitems) ∧
      (b.contains fnm name = true ↔ name ∈ b.content.allkeys) := by
  have hl := (C57_listing h hb).2 name
  have hg : b.getP (comps name) = b.at (comps name) := getP_eq h hb (comps_ne_nil name)
  have h1 : ∀ x, b.getitem fnm name = .ok (.one x) ↔ (name, x) ∈ b.content.allitems := by
    intro x
    rw [hl x, BT.getitem, hname, if_neg (by simp), hg]
    cases b.at (comps name) with
    | none => simp
    | some y => simp
  refine ⟨h1, ?_⟩
  have h2 : name ∈ b.content.allkeys ↔ ∃ x, (name, x) ∈ b.content.allitems := by
    simp [BL.allkeys, List.mem_map]
  rw [h2, BT.contains]
  constructor
  · intro hc
    match hm : b.getitem fnm name with
    | .ok (.one x) => exact ⟨x, (h1 x).mp hm⟩
    | .ok (.list l) =>
      rw [BT.getitem, hname, if_neg (by simp)] at hm
      split at hm <;> cases hm
    | .error e => rw [hm] at hc; cases hc
  · rintro ⟨x, hx⟩
    rw [(h1 x).mpr hx]

example : demoBook.content.allkeys = [nm "x", nm "a", nm "a/p", nm "a/q"] ∧
    demoBook.contains matchAll (nm "a/p") = true ∧ demoBook.contains matchAll (nm "a/r") = false := by decide +kernel

/-- **C57** for patterns: a name with `*`, `?` or `[`, and no other, gives a list; in it are the entries of all paths
that match it, in the order of the listing. -/
theorem C57_patterns {b : BT α} (h : b.WF) (hb : b.isBook) (fnm : Str → Str → Bool) (name : Str) :
    ((∃ l, b.getitem fnm name = .ok (.list l)) ↔ '*' ∈ name ∨ '?' ∈ name ∨ '[' ∈ name) ∧
      ∀ l, b.getitem fnm name = .ok (.list l) → l.Sublist (b.content.allitems.map (·.2)) ∧
        ∀ x, x ∈ l ↔ ∃ path, fnm path name = true ∧ b.at (comps path) = some x := by
  have hg : isGlob name = true ↔ '*' ∈ name ∨ '?' ∈ name ∨ '[' ∈ name := by
    simp only [isGlob, List.any_eq_true, Bool.or_eq_true, decide_eq_true_eq]
    constructor
    · rintro ⟨c, hc, (rfl | rfl) | rfl⟩ <;> simp [hc]
    · rintro (hc | hc | hc)
      · exact ⟨_, hc, .inl (.inl rfl)⟩
      · exact ⟨_, hc, .inl (.inr rfl)⟩
      · exact ⟨_, hc, .inr rfl⟩
  by_cases hn : isGlob name = true
  · refine ⟨⟨fun _ => hg.1 hn, fun _ => ⟨_, by rw [BT.getitem, if_pos hn]⟩⟩, fun l hl => ?_⟩
    rw [BT.getitem, if_pos hn] at hl
    cases hl
    refine ⟨List.Sublist.map _ List.filter_sublist, fun x => ?_⟩
    simp only [List.mem_map, List.mem_filter, Prod.exists, exists_eq_right, (C57_listing h hb).2]
    exact ⟨fun ⟨p, h1, h2⟩ => ⟨p, h2, h1⟩, fun ⟨p, h1, h2⟩ => ⟨p, h2, h1⟩⟩
  · have key : ∀ l, b.getitem fnm name ≠ .ok (.list l) := by
      intro l hl
      rw [BT.getitem, if_neg hn] at hl
      split at hl <;> cases hl
    exact ⟨⟨fun ⟨l, hl⟩ => absurd hl (key l), fun h' => absurd (hg.2 h') hn⟩, fun l hl => absurd hl (key l)⟩

/-- **C57 is violated** by names with wildcards: they are in every book. -/
theorem C57_refuted_wildcard (b : BT α) (fnm : Str → Str → Bool) {name : Str} (h : isGlob name = true) :
    b.contains fnm name = true := by
  rw [BT.contains, BT.getitem, if_pos h]

/-- The empty book has nothing, but `"*" in book`. -/
theorem C57_refuted : ∃ (b : BT ℕ) (name : Str), b.WF ∧ b.content.allkeys = [] ∧ ∀ fnm, b.contains fnm name = true :=
  ⟨newBook, nm "*", ⟨List.nodup_nil, trivial⟩, rfl, fun fnm => C57_refuted_wildcard _ fnm (by decide +kernel)⟩

/-! ## C56: assignment, lookup and deletion -/

/-- **C56**, for names without wildcards.  After `book[name] = v`, `book[name]` is `v`; below it are the entries
of `v`; entries that are neither above nor below are as before; those above are books of the same class as before,
or new books. -/
theorem C56_set_partial {o : HistOps α} {b b' v : BT α} {name : Str} (hv : v.WF) (h : b.WF)
    (hset : b.setitem o name v = .ok b') :
    b'.WF ∧ b'.at (comps name) = some v ∧
      (isGlob name = false → ∀ fnm, b'.getitem fnm name = .ok (.one v)) ∧
      (∀ q, b'.at (comps name ++ q) = v.at q) ∧
      (∀ q, ¬ comps name <+: q → ¬ q <+: comps name → b'.at q = b.at q) ∧
      (∀ q, q <+: comps name → q ≠ comps name → ∃ x, b'.at q = some x ∧ x.isBook ∧
        (match b.at q with | some y => x.cls? = y.cls? | none => x.cls? = some .book)) := by
  have hw : b'.WF := by
    have := setP_wf o hv h (comps_noslash name)
    rw [BT.setitem] at hset
    rwa [hset] at this
  have hat := setP_at hset (comps_ne_nil name)
  have hbook : b'.isBook := by
    cases b' with
    | hist k =>
      match hc : comps name, comps_ne_nil name with
      | n :: t, _ => rw [hc] at hat; cases hat
    | book c f l => trivial
  refine ⟨hw, hat, ?_, ?_, ?_, fun q => setP_prefix hset⟩
  · intro hg fnm
    exact ((C57_lookup_partial hw hbook fnm hg).1 v).mpr (((C57_listing hw hbook).2 name v).mpr hat)
  · intro q
    rw [at_append, hat, Option.bind_some]
  · intro q h1 h2
    have := setP_other (o := o) (v := v) (b := b) h1 h2
    rw [BT.setitem] at hset
    rwa [hset] at this

/-- **C56.**  `book[name] = v` succeeds unless there is a histogram on the way, and then raises a `KeyError`.  (A
`SystematicsBook` on the way may reject the value: `C59_refuted`.) -/
theorem C56_set_accepts_partial {o : HistOps α} {b v : BT α} {name : Str} (hb : b.isBook)
    (hu : Unchecked b (comps name)) :
    ((∃ b', b.setitem o name v = .ok b') ↔
        ∀ q, q <+: comps name → q ≠ comps name → ∀ h, b.at q ≠ some (.hist h)) ∧
      ∀ e b', b.setitem o name v = .error (e, b') → e = .keyError :=
  ⟨setP_isOk (comps_ne_nil name) hb hu, fun _ _ h => setP_error (comps_ne_nil name) hb hu h⟩

/-- **C56**, for names without wildcards.  `del book[name]` succeeds if there is something under this name and
otherwise raises a `KeyError`; then nothing is at this path or below; entries that are neither above nor below are
as before, and those above remain books. -/
theorem C56_del_partial {o : HistOps α} {b : BT α} {name : Str} (h : b.WF) (hb : b.isBook)
    (hname : isGlob name = false) (hu : Unchecked b (comps name)) :
    ((∃ b', b.delitem o name = .ok b') ↔ ∃ x, b.at (comps name) = some x) ∧
      (∀ e b', b.delitem o name = .error (e, b') → e = .keyError ∧ b' = b) ∧
      ∀ b', b.delitem o name = .ok b' →
        b'.WF ∧ (∀ q, b'.at (comps name ++ q) = none) ∧
          (∀ q, ¬ comps name <+: q → ¬ q <+: comps name → b'.at q = b.at q) ∧
          (∀ q, q <+: comps name → q ≠ comps name →
            ∃ x y, b'.at q = some x ∧ b.at q = some y ∧ x.isBook ∧ x.cls? = y.cls?) := by
  have hd : b.delitem o name = b.delP o (comps name) := by rw [BT.delitem, hname, if_neg (by simp)]
  rw [hd]
  refine ⟨delP_isOk (comps_ne_nil name) h hb hu, ?_, ?_⟩
  · intro e b' he
    have hk := delP_error (comps_ne_nil name) h hb hu he
    exact ⟨hk, delP_same h he (by rw [hk]; simp)⟩
  · intro b' hb'
    have hw := delP_wf o (p := comps name) h (comps_noslash name)
    rw [hb'] at hw
    refine ⟨hw, ?_, ?_, fun q => delP_prefix h hb'⟩
    · intro q
      rw [at_append, delP_at h hb']
      rfl
    · intro q h1 h2
      have := delP_other (o := o) h h1 h2
      rwa [hb'] at this

example : Unchecked demoBook (comps (nm "a/r")) := by
  intro q hq _ x hx
  have hq' : q = [] ∨ q = [nm "a"] ∨ q = [nm "a", nm "r"] := by
    have hc : comps (nm "a/r") = [nm "a", nm "r"] := by decide +kernel
    rw [hc] at hq
    rcases List.prefix_cons_iff.mp hq with h | ⟨t, h, ht⟩
    · exact Or.inl h
    · rcases List.prefix_cons_iff.mp ht with h' | ⟨s, h', hs⟩
      · subst h'; exact Or.inr (Or.inl h)
      · rw [List.prefix_nil.mp hs] at h'; subst h'; exact Or.inr (Or.inr h)
  rcases hq' with rfl | rfl | rfl
  · cases hx; simp [demoBook, BT.cls?]
  · simp [demoBook, BT.at, BL.find, nm] at hx; subst hx; simp [BT.cls?]
  · simp [demoBook, BT.at, BL.find, nm] at hx

/-- **C56 is violated** by names with wildcards: what was assigned is never found under its name. -/
theorem C56_refuted_wildcard {o : HistOps α} {b b' v : BT α} {name : Str} (h : isGlob name = true)
    (_ : b.setitem o name v = .ok b') (fnm : Str → Str → Bool) : ∀ x, b'.getitem fnm name ≠ .ok (.one x) := by
  intro x hx
  rw [BT.getitem, if_pos h] at hx
  cases hx

/-- An example: `book["x*"] = h`. -/
theorem C56_refuted : ∃ (b b' v : BT ℕ) (name : Str), b.WF ∧ b.setitem numOps name v = .ok b' ∧
    ∀ fnm x, b'.getitem fnm name ≠ .ok (.one x) :=
  ⟨newBook, _, .hist 1, nm "x*", ⟨List.nodup_nil, trivial⟩, rfl, fun fnm =>
    C56_refuted_wildcard (o := numOps) (b := newBook) (v := .hist 1) (by decide +kernel) rfl fnm⟩

/-! ## C58: deletion with wildcards -/

/-- No entry of the book is a book. -/
def BL.Flat : BL α → Prop
  | .nil => True
  | .cons _ x r => x.hist?.isSome = true ∧ r.Flat

theorem all_flat {c : BL α} (h : c.Flat) (path : List Str) : (c.all path).map (·.1) = c.keys.map fun n => path ++ [n] := by
  match c with
  | .nil => rfl
  | .cons n (.hist k) r =>
    simp only [BL.Flat] at h
    simp [BL.all, BT.all, BL.keys, all_flat h.2 path]
  | .cons n (.book _ _ _) r => simp [BL.Flat, BT.hist?] at h

theorem delEach_flat {o : HistOps α} {c : BClass} (hc : c ≠ .systematics) : ∀ (l : BL α) (f : Fields α),
    l.keys.Nodup → l.WF → ∃ f', delEach o l.keys (.book c f l) = .ok (.book c f' .nil) := by
  intro l
  match l with
  | .nil => intro f _ _; exact ⟨f, rfl⟩
  | .cons n x r =>
    intro f hn hw
    simp only [BL.WF] at hw
    simp only [BL.keys, List.nodup_cons] at hn
    rw [BL.keys, delEach, comps_self hw.1]
    obtain ⟨b, hb⟩ := changed_isOk (o := o) hc f r
    obtain ⟨f', rfl⟩ := changed_ok hb
    have : BT.delP o [n] (.book c f (.cons n x r)) = .ok (.book c f' r) := by
      simp only [BT.delP, BL.find, if_true, BL.del]; exact hb
    rw [this]
    exact delEach_flat hc r f' hn.2 hw.2.2

/-- **C58 is violated.**  `del book[pattern]` empties a book of histograms, whatever matches the pattern. -/
theorem C58_refuted_flat {o : HistOps α} {c : BClass} (hc : c ≠ .systematics) {f : Fields α} {l : BL α}
    (h : (BT.book c f l).WF) (hl : l.Flat) {pattern : Str} (hp : isGlob pattern = true) :
    ∃ f', (BT.book c f l).delitem o pattern = .ok (.book c f' .nil) := by
  rw [BT.delitem, if_pos hp]
  have : l.allkeys = l.keys := by
    have h1 := all_flat hl []
    simp only [BL.allkeys, BL.allitems, List.map_map]
    have h2 : (l.all []).map ((fun x : Str × BT α => x.1) ∘ fun p => (joinS p.1, p.2)) = ((l.all []).map (·.1)).map joinS := by
      rw [List.map_map]; rfl
    rw [h2, h1, List.map_map]
    have h3 : (joinS ∘ fun n => ([] : List Str) ++ [n]) = id := by funext n; rfl
    rw [h3, List.map_id]
  simp only [BT.content, this]
  exact delEach_flat hc l f h.1 h.2

/-- A book with a histogram `x`, from which `del book["y*"]` removes `x`. -/
theorem C58_refuted : ∃ (b b' : BT ℕ) (pattern : Str) (fnm : Str → Str → Bool), b.WF ∧ isGlob pattern = true ∧
    fnm (nm "x") pattern = false ∧ b.contains fnm (nm "x") = true ∧ b.delitem numOps pattern = .ok b' ∧
    b'.contains fnm (nm "x") = false := by
  refine ⟨.book .book .none (.cons (nm "x") (.hist 1) .nil), .book .book .none .nil, nm "y*",
    fun path pattern => path.head? = pattern.head?, ?_, ?_, ?_, ?_, rfl, ?_⟩
  · simp only [BT.WF, BL.WF, BL.keys]; repeat' apply And.intro
    all_goals first | trivial | decide +kernel
  all_goals decide +kernel

/-- With a book inside it fails in the middle, because what is inside is deleted with the book. -/
theorem C58_refuted_nested : ∃ b' : BT ℕ, demoBook.delitem numOps (nm "y*") = .error (.keyError, b') ∧
    b'.content.allkeys = [] := by
  refine ⟨.book .book .none .nil, rfl, rfl⟩

/-- **C58**, for books of histograms that all match. -/
theorem C58_partial {o : HistOps α} {c : BClass} (hc : c ≠ .systematics) {f : Fields α} {l : BL α}
    (h : (BT.book c f l).WF) (hl : l.Flat) {pattern : Str} (hp : isGlob pattern = true) (fnm : Str → Str → Bool)
    (hall : ∀ n ∈ l.keys, fnm n pattern = true) :
    ∃ b', (BT.book c f l).delitem o pattern = .ok b' ∧
      ∀ n x, b'.content.find n = some x ↔ (l.find n = some x ∧ fnm n pattern = false) := by
  obtain ⟨f', hf⟩ := C58_refuted_flat (o := o) hc h hl hp
  refine ⟨_, hf, fun n x => ⟨fun hx => ?_, fun ⟨hx, hm⟩ => ?_⟩⟩
  · cases hx
  rw [hall n ((mem_keys_iff n l).mpr ⟨x, hx⟩)] at hm
  cases hm

/-! ## C59: failed assignments -/

/-- **C59**, except for the checks of a `SystematicsBook`.  If `book[name] = v` raises anything but the
`ValueError` of these checks, the book is as before; and without a `SystematicsBook` on the way there is no such
`ValueError`. -/
theorem C59_partial {o : HistOps α} {b b' v : BT α} {name : Str} {e : Err} (hb : b.isBook)
    (h : b.setitem o name v = .error (e, b')) (hu : e ≠ .valueError ∨ Unchecked b (comps name)) : b' = b := by
  refine setP_same h ?_
  rcases hu with hu | hu
  · exact hu
  · rw [setP_error (comps_ne_nil name) hb hu h]; simp

example : ∃ b', demoBook.setitem numOps (nm "x/y") (.hist 5) = .error (.keyError, b') := ⟨_, rfl⟩

/-- **C59 is violated** by `SystematicsBook`: a histogram that is rejected stays in the book. -/
theorem C59_refuted : ∃ (b b' v : BT ℕ) (name : Str), b.WF ∧ v.WF ∧
    b.setitem numOps name v = .error (.valueError, b') ∧
    b.contains matchAll name = false ∧ b'.contains matchAll name = true := by
  refine ⟨.book .systematics .absent (.cons (nm "up") (.hist 1) .nil),
    .book .systematics .absent (.cons (nm "up") (.hist 1) (.cons (nm "down") (.hist 2) .nil)), .hist 2, nm "down",
    ?_, trivial, rfl, ?_, ?_⟩
  · simp only [BT.WF, BL.WF, BL.keys]; repeat' apply And.intro
    all_goals first | trivial | decide +kernel
  all_goals decide +kernel

/-- Also a histogram without systematic stays. -/
theorem C59_refuted_systematic : ∃ (b b' v : BT ℕ) (name : Str), b.WF ∧ v.WF ∧
    b.setitem numOps name v = .error (.valueError, b') ∧
    b.contains matchAll name = false ∧ b'.contains matchAll name = true := by
  refine ⟨.book .systematics .absent .nil, .book .systematics .absent (.cons (nm "up") (.hist 11) .nil), .hist 11,
    nm "up", ⟨List.nodup_nil, trivial⟩, trivial, rfl, ?_, ?_⟩
  all_goals decide +kernel

end Verif
