import Verif.BookMapping
import Verif.PropsBook

/-!
# Books as mappings: C84
-/

namespace Verif

variable {α : Type}

/-- **C84**, `pop` of a name without wildcards: gives what was there and deletes it, and raises a `KeyError`
without changing the book if there is nothing. -/
theorem C84_pop_partial {o : HistOps α} {b : BT α} {name : Str} (h : b.WF) (hb : b.isBook) (hname : isGlob name = false)
    (hu : Unchecked b (comps name)) (fnm : Str → Str → Bool) :
    (∀ x, b.at (comps name) = some x → ∃ b', b.pop fnm o (.name name) = .ok (b', .one x) ∧ b'.WF ∧
      (∀ q, b'.at (comps name ++ q) = none) ∧ ∀ q, ¬ comps name <+: q → ¬ q <+: comps name → b'.at q = b.at q) ∧
    (b.at (comps name) = none → b.pop fnm o (.name name) = .error (.keyError, b)) := by
  obtain ⟨h1, h2, h3⟩ := C56_del_partial (o := o) h hb hname hu
  obtain ⟨g1, g2⟩ := C57_lookup_partial h hb fnm hname
  constructor
  · intro x hx
    obtain ⟨b', hb'⟩ := h1.2 ⟨x, hx⟩
    have hget : b.getitem fnm name = .ok (.one x) := (g1 x).2 (((C57_listing h hb).2 name x).2 hx)
    obtain ⟨k1, k2, k3, -⟩ := h3 b' hb'
    refine ⟨b', ?_, k1, k2, k3⟩
    simp only [BT.pop, BT.getKey, hget, BT.delKey, hb', withBook]
  · intro hx
    have hget : b.getitem fnm name = .error .keyError := by
      rw [BT.getitem, hname, if_neg (by simp), getP_eq h hb (comps_ne_nil name), hx]
    simp only [BT.pop, BT.getKey, hget]

/-- **C84**, `setdefault` with a name without wildcards: what is there, or else the value is put there. -/
theorem C84_setdefault_partial {o : HistOps α} {b v : BT α} {name : Str} (h : b.WF) (hb : b.isBook)
    (hname : isGlob name = false) (fnm : Str → Str → Bool) :
    (∀ x, b.at (comps name) = some x → b.setdefault fnm o (.name name) v = .ok (b, .one x)) ∧
    ∀ b', b.at (comps name) = none → b.setitem o name v = .ok b' →
      b.setdefault fnm o (.name name) v = .ok (b', .one v) := by
  obtain ⟨g1, -⟩ := C57_lookup_partial h hb fnm hname
  constructor
  · intro x hx
    have hget : b.getitem fnm name = .ok (.one x) := (g1 x).2 (((C57_listing h hb).2 name x).2 hx)
    simp only [BT.setdefault, BT.getKey, hget]
  · intro b' hx hs
    have hget : b.getitem fnm name = .error .keyError := by
      rw [BT.getitem, hname, if_neg (by simp), getP_eq h hb (comps_ne_nil name), hx]
    simp only [BT.setdefault, BT.getKey, hget, BT.setKey, hs, withBook]

/-- **C84**, `update` with a dict of distinct names without slashes: they are all there afterwards, and the other
entries are as before. -/
theorem C84_update_partial {o : HistOps α} {c : BClass} (hc : c ≠ .systematics) : ∀ (d : List (Str × BT α)) (f : Fields α)
    (x : BL α), (∀ p ∈ d, '/' ∉ p.1) → (d.map (·.1)).Nodup →
    ∃ f' x', (BT.book c f x).updateDict o d = .ok (.book c f' x') ∧ (∀ n v, (n, v) ∈ d → x'.find n = some v) ∧
      ∀ n, n ∉ d.map (·.1) → x'.find n = x.find n
  | [], f, x, _, _ => ⟨f, x, rfl, by simp, by simp⟩
  | (m, v) :: d, f, x, hs, hn => by
    rw [List.map_cons, List.nodup_cons] at hn
    obtain ⟨b, hb⟩ := changed_isOk (o := o) hc f (x.put m v)
    obtain ⟨f1, rfl⟩ := changed_ok hb
    obtain ⟨f', x', h1, h2, h3⟩ := C84_update_partial hc d f1 (x.put m v) (fun p hp => hs p (by simp [hp])) hn.2
    refine ⟨f', x', ?_, ?_, ?_⟩
    · rw [BT.updateDict, setEach, BT.setitem, comps_self (hs (m, v) (by simp)), BT.setP, hb]
      exact h1
    · intro n w hw
      rcases List.mem_cons.1 hw with e | hw
      · cases e
        rw [h3 m hn.1, find_put_self]
      · exact h2 n w hw
    · intro n hnn
      simp only [List.map_cons, List.mem_cons, not_or] at hnn
      rw [h3 n hnn.2, find_put_ne hnn.1]

theorem iter_pairs (b : BT α) : ∀ k ∈ b.iter, ∃ n x, k = .pair n x := by
  intro k hk
  simp only [BT.iter, List.mem_map] at hk
  obtain ⟨p, -, rfl⟩ := hk
  exact ⟨p.1, p.2, rfl⟩

/-- **C84 is violated**: what a book is iterated over are not its keys; `book[k]` raises a `TypeError` for each of them. -/
theorem C84_refuted_iteration (b : BT α) (fnm : Str → Str → Bool) : ∀ k ∈ b.iter, b.getKey fnm k = .error .typeError := by
  intro k hk
  obtain ⟨n, x, rfl⟩ := iter_pairs b k hk
  rfl

/-- Nor can it be used for assignment, deletion, `pop` and `setdefault`; the book stays as it is. -/
theorem C84_refuted_keys (b v : BT α) (fnm : Str → Str → Bool) (o : HistOps α) : ∀ k ∈ b.iter,
    b.setKey o k v = .error (.typeError, b) ∧ b.delKey o k = .error (.typeError, b) ∧ b.pop fnm o k = .error (.typeError, b) ∧
    b.setdefault fnm o k v = .error (.typeError, b) := by
  intro k hk
  obtain ⟨n, x, rfl⟩ := iter_pairs b k hk
  exact ⟨rfl, rfl, rfl, rfl⟩

theorem iter_nonempty {b : BT α} {p : List Str} {h : α} (hw : b.WF) (hb : b.isBook) (hp : b.at p = some (.hist h)) :
    b.iter ≠ [] := by
  cases p with
  | nil => cases b with
    | hist k => exact absurd hb id
    | book c f x => cases hp
  | cons n t =>
    have hns := at_noslash hw hp
    have hm : (joinS (n :: t), BT.hist h) ∈ b.content.allitems := by
      rw [(C57_listing hw hb).2, comps_joinS (by simp) hns]
      exact hp
    intro he
    simp only [BT.iter, List.map_eq_nil_iff, List.filter_eq_nil_iff] at he
    exact he _ hm rfl

/-- **C84 is violated**: `popitem` raises a `TypeError` for every book that has a histogram somewhere. -/
theorem C84_refuted_popitem {b : BT α} {p : List Str} {h : α} (hw : b.WF) (hb : b.isBook) (hp : b.at p = some (.hist h))
    (fnm : Str → Str → Bool) (o : HistOps α) : b.popitem fnm o = .error (.typeError, b) := by
  have hne := iter_nonempty hw hb hp
  cases hi : b.iter with
  | nil => exact absurd hi hne
  | cons k ks =>
    have := C84_refuted_iteration b fnm k (by rw [hi]; simp)
    simp only [BT.popitem, hi, this]

/-- **C84 is violated**: `update` with another book raises a `TypeError` if the other one has a histogram somewhere. -/
theorem C84_refuted_update {b other : BT α} {p : List Str} {h : α} (hw : other.WF) (hb : other.isBook)
    (hp : other.at p = some (.hist h)) (fnm : Str → Str → Bool) (o : HistOps α) :
    b.updateBook fnm o other = .error (.typeError, b) := by
  have hne := iter_nonempty hw hb hp
  cases hi : other.iter with
  | nil => exact absurd hi hne
  | cons k ks =>
    have := C84_refuted_iteration other fnm k (by rw [hi]; simp)
    simp only [BT.updateBook, hi, updateWith, this]

/-- **C84 is violated**: a book with a book inside, which has two histograms, has length 1, but two elements. -/
theorem C84_refuted_length : ∃ b : BT ℕ, b.WF ∧ b.len = 1 ∧ b.iter.length = 2 := by
  refine ⟨.book .book .none (.cons (nm "in") (.book .book .none (.cons (nm "x") (.hist 1) (.cons (nm "y") (.hist 2) .nil))) .nil),
    ?_, rfl, rfl⟩
  simp only [BT.WF, BL.WF, BL.keys]; repeat' apply And.intro
  all_goals first | trivial | decide +kernel

example : demoBook.WF ∧ ∃ b', demoBook.pop matchAll numOps (.name (nm "x")) = .ok (b', .one (.hist 1)) := by
  refine ⟨demoBook_wf, _, rfl⟩

end Verif
