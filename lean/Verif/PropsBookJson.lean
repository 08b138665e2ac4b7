import Verif.BookJson
import Verif.PropsHistJson

/-!
# Properties of restored books (C68)
-/

namespace Verif

variable {α : Type}

/-! ## Specification -/

/-- The names of a dictionary. -/
def ABL.names : ABL α → List String
  | .nil => []
  | .cons n _ r => n :: r.names

mutual
/-- A book as assignments can build it: on each level the names are distinct and without slashes, and a
`SystematicsBook` passes its own check; its histograms satisfy `Q`. -/
def AB.Proper (o : HistOps α) (Q : α → Prop) : AB α → Prop
  | .hist h => Q h
  | .book c x a => x.Proper o Q ∧ (AB.book c x a).check o = .ok ()
/-- For the entries. -/
def ABL.Proper (o : HistOps α) (Q : α → Prop) : ABL α → Prop
  | .nil => True
  | .cons n x r => n ∉ r.names ∧ '/' ∉ n.toList ∧ x.Proper o Q ∧ r.Proper o Q
end

mutual
/-- The attachments of all books survive being written as text. -/
def AB.textual (render : Key → String) : AB α → Prop
  | .hist _ => True
  | .book _ x a => x.textual render ∧ (J.obj a).text render = .obj a
/-- For the entries. -/
def ABL.textual (render : Key → String) : ABL α → Prop
  | .nil => True
  | .cons _ x r => x.textual render ∧ r.textual render
end

/-! ## Lemmas -/

/-- The entries as a list. -/
def ABL.toList : ABL α → List (String × AB α)
  | .nil => []
  | .cons n x r => (n, x) :: r.toList

/-- The dictionary of a list. -/
def ABL.ofList : List (String × AB α) → ABL α
  | [] => .nil
  | p :: r => .cons p.1 p.2 (ABL.ofList r)

theorem ABL.ofList_toList : ∀ x : ABL α, ABL.ofList x.toList = x
  | .nil => rfl
  | .cons n y r => by rw [ABL.toList, ABL.ofList, ABL.ofList_toList r]

theorem ABL.names_toList : ∀ x : ABL α, x.names = x.toList.map (·.1)
  | .nil => rfl
  | .cons n y r => by rw [ABL.toList, ABL.names, ABL.names_toList r]; rfl

theorem ABL.put_fresh (n : String) (v : AB α) : ∀ l : List (String × AB α), n ∉ l.map (·.1) →
    (ABL.ofList l).put n v = ABL.ofList (l ++ [(n, v)])
  | [], _ => rfl
  | p :: l, h => by
    simp only [List.map_cons, List.mem_cons, not_or] at h
    simp only [ABL.ofList, ABL.put, List.cons_append]
    rw [if_neg fun e => h.1 e.symm, ABL.put_fresh n v l h.2]

theorem items_plain : ∀ l : List (String × AB α),
    (ABL.ofList l).plainBook.items = l.map fun p => (p.1.toList, p.2.plainBook)
  | [] => rfl
  | p :: l => by
    simp only [ABL.ofList, ABL.plainBook, BL.items, items_plain l, List.map_cons]

theorem all_plain (path : List Str) : ∀ l m : List (String × AB α),
    (ABL.ofList (l ++ m)).plainBook.all path =
      (ABL.ofList l).plainBook.all path ++ (ABL.ofList m).plainBook.all path
  | [], m => by simp [ABL.ofList, ABL.plainBook, BL.all]
  | p :: l, m => by
    simp only [List.cons_append, ABL.ofList, ABL.plainBook, BL.all, all_plain path l m, List.append_assoc]

theorem neighbours_prefix (o : HistOps α) : ∀ l m : List (BT α), neighbours o (l ++ m) = true → neighbours o l = true
  | [], _, _ => rfl
  | [_], _, _ => rfl
  | x :: y :: l, m, h => by
    simp only [List.cons_append, neighbours, Bool.and_eq_true] at h ⊢
    exact ⟨h.1, neighbours_prefix o (y :: l) m h.2⟩

theorem check_iff (o : HistOps α) (c : BClass) (x : ABL α) (a : List (String × J)) :
    (AB.book c x a).check o = .ok () ↔ (c = .systematics →
      (x.plainBook.compatible o && x.plainBook.hists.all o.sys) = true) := by
  unfold AB.check
  cases c <;> simp only [AB.plainBook, BT.changed, reduceCtorEq, false_imp_iff, true_imp_iff]
  by_cases h : (x.plainBook.compatible o && x.plainBook.hists.all o.sys) = true
  · rw [if_pos h]; simp [h]
  · rw [if_neg h]; simp [h]

theorem check_prefix {o : HistOps α} {c : BClass} {l m : List (String × AB α)} {a : List (String × J)}
    (h : (AB.book c (ABL.ofList (l ++ m)) a).check o = .ok ()) : (AB.book c (ABL.ofList l) a).check o = .ok () := by
  rw [check_iff] at h ⊢
  intro hc
  have := h hc
  simp only [Bool.and_eq_true, BL.compatible, BL.hists, items_plain, all_plain, List.filterMap_append, List.map_append,
    List.all_append] at this ⊢
  exact ⟨neighbours_prefix o _ _ this.1, this.2.1⟩

theorem abSetEach_ok {o : HistOps α} {c : BClass} {a : List (String × J)} : ∀ (r pre : List (String × AB α)),
    ((pre ++ r).map (·.1)).Nodup → (∀ p ∈ r, '/' ∉ p.1.toList) →
    (AB.book c (ABL.ofList (pre ++ r)) a).check o = .ok () →
    abSetEach o c a r (ABL.ofList pre) = .ok (ABL.ofList (pre ++ r))
  | [], pre, _, _, _ => by simp [abSetEach]
  | (n, v) :: r, pre, hn, hs, hc => by
    have hfresh : n ∉ pre.map (·.1) := by
      intro hm
      rw [List.map_append, List.map_cons, List.nodup_append] at hn
      exact hn.2.2 n hm n (by simp) rfl
    have h1 : pre ++ (n, v) :: r = (pre ++ [(n, v)]) ++ r := by simp
    rw [abSetEach, if_neg (hs (n, v) (by simp)), ABL.put_fresh n v pre hfresh]
    rw [h1] at hn hc ⊢
    simp only [check_prefix hc]
    exact abSetEach_ok r _ hn (fun p hp => hs p (List.mem_cons_of_mem _ hp)) hc

theorem ABL.proper_names {o : HistOps α} {Q : α → Prop} : ∀ {x : ABL α}, x.Proper o Q →
    (x.toList.map (·.1)).Nodup ∧ ∀ p ∈ x.toList, '/' ∉ p.1.toList
  | .nil, _ => by simp [ABL.toList]
  | .cons n y r, h => by
    rw [ABL.Proper] at h
    obtain ⟨h1, h2⟩ := ABL.proper_names h.2.2.2
    rw [ABL.names_toList] at h
    simp only [ABL.toList, List.map_cons, List.nodup_cons, List.mem_cons]
    refine ⟨⟨h.1, h1⟩, ?_⟩
    rintro p (rfl | hp)
    · exact h.2.1
    · exact h2 p hp

theorem abFromdicts_ok {o : HistOps α} {Q : α → Prop} {c : BClass} {x : ABL α} {a : List (String × J)}
    (h : (AB.book c x a).Proper o Q) : abFromdicts o c x.toList a = .ok (.book c x a) := by
  rw [AB.Proper] at h
  obtain ⟨h1, h2⟩ := ABL.proper_names h.1
  have := abSetEach_ok (o := o) (c := c) (a := a) x.toList [] (by simpa using h1) h2
    (by simpa [ABL.ofList_toList] using h.2)
  simp only [List.nil_append, ABL.ofList_toList] at this
  unfold abFromdicts
  change (match abSetEach o c a x.toList (ABL.ofList []) with | .error e => _ | .ok x => _) = _
  rw [this]
  simp only [h.2]

theorem putItem_fresh (n : String) (v : AB α) : ∀ l : List (String × AB α), n ∉ l.map (·.1) →
    putItem n v l = l ++ [(n, v)]
  | [], _ => rfl
  | p :: l, h => by
    simp only [List.map_cons, List.mem_cons, not_or] at h
    rw [putItem, if_neg fun e => h.1 e.symm, putItem_fresh n v l h.2]
    rfl

/-- An added name, or nothing. -/
def NameOnly (extra : List (String × J)) : Prop := extra = [] ∨ ∃ n, extra = [("name", J.str n)]

theorem find_extra {e extra : List (String × J)} (hx : NameOnly extra) {k : String} (hk : k ≠ "name") :
    ((e ++ extra).find? fun p => decide (p.1 = k)) = e.find? fun p => decide (p.1 = k) := by
  rcases hx with rfl | ⟨n, rfl⟩
  · simp
  · rw [List.find?_append]
    simp [Ne.symm hk]

theorem get_extra {e extra : List (String × J)} (hx : NameOnly extra) {k : String} (hk : k ≠ "name") :
    (J.obj (e ++ extra)).get k = (J.obj e).get k := by
  rw [get_obj, get_obj, find_extra hx hk]

/-- A histogram is written so that it is restored from it, also with a name added. -/
structure Restores (hj : HistJ α) (h : α) (e : List (String × J)) : Prop where
  written : hj.entries h = .ok e
  typed : (J.obj e).get "type" = .ok (.str "Hist")
  nameless : (e.find? fun p => decide (p.1 = "name")) = none
  restored : ∀ extra, NameOnly extra → hj.fromjson (.obj (e ++ extra)) = .ok h

theorem get_name {e : List (String × J)} {n : String} (h : (e.find? fun p => decide (p.1 = "name")) = none) :
    (J.obj (e ++ [("name", J.str n)])).get "name" = .ok (.str n) := by
  rw [get_obj, List.find?_append, h]
  rfl

theorem classOf_name (c : BClass) : classOf c.name = .ok c ∧ c.name ≠ "Hist" := by
  cases c <;> exact ⟨by decide +kernel, by decide +kernel⟩

mutual
theorem AB.restored {hj : HistJ α} {o : HistOps α} {Q : α → Prop} (hq : ∀ h, Q h → ∃ e, Restores hj h e) :
    ∀ b : AB α, b.Proper o Q → ∃ e, b.entries hj = .ok e ∧ (e.find? fun p => decide (p.1 = "name")) = none ∧
      ∀ extra, NameOnly extra → abOf hj o (.obj (e ++ extra)) = .ok b
  | .hist h, hp => by
    rw [AB.Proper] at hp
    obtain ⟨e, he⟩ := hq h hp
    refine ⟨e, by rw [AB.entries]; exact he.written, he.nameless, fun extra hx => ?_⟩
    have h1 : (J.obj (e ++ extra)).typeOf = .ok "Hist" := by
      unfold J.typeOf
      rw [get_extra hx (by decide), he.typed]
      rfl
    have h2 := he.restored extra hx
    unfold J.obj at h1 h2 ⊢
    simp only [abOf, h1, if_true, h2]
    rfl
  | .book c x a, hp => by
    have hp' := hp
    rw [AB.Proper] at hp'
    obtain ⟨js, h1, h2⟩ := ABL.restored hq x hp'.1
    have hnames := (ABL.proper_names hp'.1).1
    have h3 := h2 [] (by simpa using hnames)
    refine ⟨_, by rw [AB.entries, h1], ?_, fun extra hx => ?_⟩
    · cases a <;> simp [entryIf]
    · have ht : (J.obj ([("type", J.str c.name), ("content", J.list js)] ++
          entryIf (!a.isEmpty) "attachment" (J.obj a) ++ extra)).typeOf = .ok c.name := by
        unfold J.typeOf
        rw [get_extra hx (by decide), get_obj]
        rfl
      have ha : ((J.obj ([("type", J.str c.name), ("content", J.list js)] ++
          entryIf (!a.isEmpty) "attachment" (J.obj a) ++ extra)).getN "attachment").objOf = .ok a := by
        unfold J.getN
        rw [get_extra hx (by decide), get_obj]
        cases a with
        | nil => simp [entryIf, foundJ, J.objOf]
        | cons p a => simp [entryIf, foundJ, objOf_obj]
      have hcont : ∀ rest : List (Key × J), abContent hj o
          ((Key.str "type", J.str c.name) :: (Key.str "content", J.list js) :: rest) = .ok x.toList := by
        intro rest
        rw [abContent, if_neg (by simp), abContent, if_pos rfl, abPair, abList, h3, List.nil_append]
      unfold J.obj at ht ha ⊢
      simp only [List.cons_append, List.nil_append, List.map_cons] at ht ha ⊢
      simp only [abOf, ht, (classOf_name c).1, (classOf_name c).2, if_false, hcont, ha, abFromdicts_ok hp]
theorem ABL.restored {hj : HistJ α} {o : HistOps α} {Q : α → Prop} (hq : ∀ h, Q h → ∃ e, Restores hj h e) :
    ∀ x : ABL α, x.Proper o Q → ∃ js, x.nodes hj = .ok js ∧
      ∀ acc, ((acc ++ x.toList).map (·.1)).Nodup → abNodes hj o js acc = .ok (acc ++ x.toList)
  | .nil, _ => ⟨[], by rw [ABL.nodes], fun acc _ => by simp [abNodes, ABL.toList]⟩
  | .cons n y r, hp => by
    rw [ABL.Proper] at hp
    obtain ⟨e, e1, e2, e3⟩ := AB.restored hq y hp.2.2.1
    obtain ⟨js, j1, j2⟩ := ABL.restored hq r hp.2.2.2
    refine ⟨J.obj (e ++ [("name", J.str n)]) :: js, by simp only [ABL.nodes, e1, j1], fun acc hn => ?_⟩
    have h1 : acc ++ (ABL.cons n y r).toList = (acc ++ [(n, y)]) ++ r.toList := by simp [ABL.toList]
    have hfresh : n ∉ acc.map (·.1) := by
      intro hm
      rw [ABL.toList, List.map_append, List.map_cons, List.nodup_append] at hn
      exact hn.2.2 n hm n (by simp) rfl
    rw [h1] at hn ⊢
    simp only [abNodes, e3 _ (.inr ⟨n, rfl⟩), get_name e2, putItem_fresh n y acc hfresh]
    exact j2 _ hn
end

mutual
theorem AB.Proper.weaken {o : HistOps α} {Q R : α → Prop} (hq : ∀ h, Q h → R h) : ∀ {b : AB α}, b.Proper o Q →
    b.Proper o R
  | .hist h, hp => by rw [AB.Proper] at hp ⊢; exact hq h hp
  | .book c x a, hp => by rw [AB.Proper] at hp ⊢; exact ⟨ABL.Proper.weaken hq hp.1, hp.2⟩
theorem ABL.Proper.weaken {o : HistOps α} {Q R : α → Prop} (hq : ∀ h, Q h → R h) : ∀ {x : ABL α}, x.Proper o Q →
    x.Proper o R
  | .nil, _ => by rw [ABL.Proper]; trivial
  | .cons n y r, hp => by
    rw [ABL.Proper] at hp ⊢
    exact ⟨hp.1, hp.2.1, AB.Proper.weaken hq hp.2.2.1, ABL.Proper.weaken hq hp.2.2.2⟩
end

/-! ## Text -/

mutual
theorem AB.written_text {hj : HistJ α} {render : Key → String} (hr : ∀ s, render (.str s) = s) {o : HistOps α}
    {Q : α → Prop} (hq : ∀ h, Q h → ∀ e, hj.entries h = .ok e → (J.obj e).text render = .obj e) :
    ∀ b : AB α, b.Proper o Q → b.textual render → ∀ e, b.entries hj = .ok e → (J.obj e).text render = .obj e
  | .hist h, hp, _, e, he => by
    rw [AB.Proper] at hp
    rw [AB.entries] at he
    exact hq h hp e he
  | .book c x a, hp, ht, e, he => by
    rw [AB.Proper] at hp
    rw [AB.textual] at ht
    rw [AB.entries] at he
    cases hn : x.nodes hj with
    | error _ => rw [hn] at he; cases he
    | ok js =>
      rw [hn] at he
      cases he
      have hjs := ABL.nodes_text hr hq x hp.1 ht.1 js hn
      refine obj_text_append (obj_text_append (l := [("type", .str c.name)]) (obj_text_single hr (by rw [J.text]))
        (obj_text_single hr (by rw [J.text, hjs]))) ?_
      unfold entryIf
      split
      · exact obj_text_single hr ht.2
      · simp [J.obj, J.text, J.textD]
theorem ABL.nodes_text {hj : HistJ α} {render : Key → String} (hr : ∀ s, render (.str s) = s) {o : HistOps α}
    {Q : α → Prop} (hq : ∀ h, Q h → ∀ e, hj.entries h = .ok e → (J.obj e).text render = .obj e) :
    ∀ x : ABL α, x.Proper o Q → x.textual render → ∀ js, x.nodes hj = .ok js → J.textL render js = js
  | .nil, _, _, js, h => by rw [ABL.nodes] at h; cases h; rw [J.textL]
  | .cons n y r, hp, ht, js, h => by
    rw [ABL.Proper] at hp
    rw [ABL.textual] at ht
    rw [ABL.nodes] at h
    cases he : y.entries hj with
    | error _ => rw [he] at h; cases h
    | ok e =>
      cases hn : r.nodes hj with
      | error _ => simp only [he, hn] at h; cases h
      | ok js' =>
        simp only [he, hn] at h
        cases h
        rw [J.textL, ABL.nodes_text hr hq r hp.2.2.2 ht.2 js' hn,
          obj_text_append (AB.written_text hr hq y hp.2.2.1 ht.1 e he) (obj_text_single hr (by rw [J.text]))]
end

/-! ## Histograms -/

variable {β : Type}

theorem histFromjson_extra (P : Parser β) {e extra : List (String × J)} (hx : NameOnly extra) :
    histFromjson P (.obj (e ++ extra)) = histFromjson P (.obj e) := by
  have hg : ∀ k, k ≠ "name" → (J.obj (e ++ extra)).get k = (J.obj e).get k := fun k hk => get_extra hx hk
  unfold histFromjson J.checkType J.getN
  simp only [hg "type" (by decide), hg "axis" (by decide), hg "filter" (by decide), hg "defs" (by decide),
    hg "attachment" (by decide), hg "weight" (by decide), hg "content" (by decide)]

theorem hist_restores {P : Parser β} {h : HistX β} (hb : BuiltHist P h) : ∃ e, Restores (histJ P) h e := by
  obtain ⟨j, h1, h2, -⟩ := C67_restored_partial hb
  unfold HistX.tojson at h1
  cases he : h.entries with
  | error _ => rw [he] at h1; cases h1
  | ok e =>
    rw [he] at h1
    cases h1
    have he' := he
    unfold HistX.entries at he'
    split at he'
    · cases he'
    · rename_i as _
      split at he'
      · cases he'
      · rename_i c hc
        have hc' : c = [] ∨ ∃ j, c = [("content", j)] := by
          unfold contentEntry at hc
          split at hc
          · cases hc; exact .inl rfl
          · split at hc
            · cases hc; exact .inr ⟨_, rfl⟩
            · cases hc
        cases he'
        refine ⟨_, he, ?_, ?_, fun extra hx => ?_⟩
        · rw [get_obj]; rfl
        · cases h.weight <;> cases h.filter <;> cases h.defs <;> cases h.attachment <;>
            rcases hc' with rfl | ⟨j, rfl⟩ <;> simp [weightEntry, filterEntry, entryIf]
        · change histFromjson P _ = _
          rw [histFromjson_extra P hx]
          exact h2

/-- **C68**, for books of any nesting and of any of the classes, whose histograms are those of C66: the book restored
from its JSON is the identical book (classes, names in order, histograms, attachments), and so it is after the JSON has
gone through text if the group keys are strings and the attachments survive text. -/
theorem C68_restored_partial {P : Parser β} {o : HistOps (HistX β)} {c : BClass} {x : ABL (HistX β)}
    {a : List (String × J)} (hb : (AB.book c x a).Proper o (BuiltHist P)) :
    ∃ j, (AB.book c x a).tojson (histJ P) = .ok j ∧ bookFromjson (histJ P) o j = .ok (.book c x a) := by
  obtain ⟨e, h1, -, h3⟩ := AB.restored (hj := histJ P) (fun h hh => hist_restores hh) _ hb
  have h3 := h3 [] (.inl rfl)
  rw [List.append_nil] at h3
  refine ⟨.obj e, by unfold AB.tojson; rw [h1]; rfl, ?_⟩
  have ht : (J.obj e).typeOf = .ok c.name := by
    rw [AB.entries] at h1
    split at h1
    · cases h1
    · cases h1
      unfold J.typeOf
      rw [get_obj]
      rfl
  unfold bookFromjson
  simp only [ht, (classOf_name c).2, if_false]
  exact h3

/-- Conditions on a histogram to survive text. -/
def TextHist (P : Parser β) (render : Key → String) (h : HistX β) : Prop :=
  BuiltHist P h ∧ h.content.strKeys ∧ (J.obj h.attachment).text render = .obj h.attachment

/-- **C68** through text. -/
theorem C68_text_partial {P : Parser β} {o : HistOps (HistX β)} {c : BClass} {x : ABL (HistX β)}
    {a : List (String × J)} {render : Key → String} (hr : ∀ s, render (.str s) = s)
    (hb : (AB.book c x a).Proper o (TextHist P render)) (ht : (AB.book c x a).textual render) :
    ∃ j, (AB.book c x a).tojson (histJ P) = .ok j ∧
      bookFromjson (histJ P) o (j.text render) = .ok (.book c x a) := by
  obtain ⟨j, h1, h2⟩ := C68_restored_partial (hb.weaken fun h hh => hh.1)
  refine ⟨j, h1, ?_⟩
  have hj : j.text render = j := by
    unfold AB.tojson at h1
    cases he : (AB.book c x a).entries (histJ P) with
    | error _ => rw [he] at h1; cases h1
    | ok e =>
      rw [he] at h1
      cases h1
      refine AB.written_text hr (fun h hh e he => ?_) _ hb ht e he
      obtain ⟨j, g1, -, g3⟩ := hist_written hh.1
      have g3 := g3 render hr hh.2.1 hh.2.2
      unfold HistX.tojson at g1
      rw [show h.entries = .ok e from he] at g1
      cases g1
      exact g3
  rw [hj]
  exact h2

/-! ## Repeated names -/

theorem abput_find (n : String) (v : AB α) (m : String) : ∀ x : ABL α,
    ((x.put n v).toList.find? fun p => p.1 = m) = if n = m then some (n, v) else x.toList.find? fun p => p.1 = m
  | .nil => by by_cases h : n = m <;> simp [ABL.put, ABL.toList, h]
  | .cons k y r => by
    by_cases h : k = n
    · subst h
      by_cases h' : k = m <;> simp [ABL.put, ABL.toList, h']
    · by_cases h' : k = m
      · subst h'
        simp [ABL.put, ABL.toList, h, Ne.symm h]
      · simp [ABL.put, ABL.toList, h, h', abput_find n v m r]

theorem abSetEach_find {o : HistOps α} {c : BClass} {a : List (String × J)} (m : String) : ∀ (items : List (String × AB α)) (x y : ABL α),
    abSetEach o c a items x = .ok y → (y.toList.find? fun p => p.1 = m) =
      ((items.reverse.find? fun p => p.1 = m).or (x.toList.find? fun p => p.1 = m))
  | [], x, y, h => by
    cases h
    simp
  | (n, v) :: r, x, y, h => by
    unfold abSetEach at h
    split at h
    · cases h
    · split at h
      · cases h
      · rw [abSetEach_find m r _ y h, abput_find, List.reverse_cons, List.find?_append]
        by_cases h' : n = m <;> simp [h', Option.or_assoc]

/-- **C68** if a name is given more than once, as a JSON text may: the last entry counts. -/
theorem C68_repeated {o : HistOps α} {c : BClass} {items : List (String × AB α)} {a : List (String × J)} {b : AB α}
    (h : abFromdicts o c items a = .ok b) : ∃ x, b = .book c x a ∧
      ∀ n, (x.toList.find? fun p => p.1 = n) = items.reverse.find? fun p => p.1 = n := by
  unfold abFromdicts at h
  split at h
  · cases h
  · rename_i x hx
    split at h
    · cases h
    · cases h
      refine ⟨x, rfl, fun n => ?_⟩
      rw [abSetEach_find n _ _ _ hx]
      simp [ABL.toList]

/-! ## Examples -/

/-- Three entries, of which two have the same name. -/
example : ∃ b, abFromdicts (α := ℕ) ⟨fun _ _ => true, fun _ => true⟩ .book [("a", .hist 1), ("b", .hist 2), ("a", .hist 3)] [] = .ok b :=
  ⟨_, rfl⟩

/-- A histogram of one systematic variation, as `Hist(..., systematic=[x])` makes it. -/
def variation (x : ℚ) : HistX String := { sampleHist with attachment := [("systematic", .list [.float (.fin x)])] }

theorem BuiltHist.attached {P : Parser β} {h : HistX β} (hb : BuiltHist P h) (a : List (String × J)) :
    BuiltHist P { h with attachment := a } := by
  obtain ⟨⟨axes, w, f, d, at_, h₀, h1, h2, h3⟩, hf⟩ := hb
  refine ⟨⟨axes, w, f, d, at_, h₀, h1, h2, ?_⟩, hf⟩
  rw [h3]

/-- What `compatible` and `_changed` ask of them. -/
def sampleOps : HistOps (HistX String) :=
  ⟨fun a b => axesEq (a.axes.map (·.1)) (b.axes.map (·.1)), fun h => h.attachment.any fun p => p.1 = "systematic"⟩

/-- A book of a histogram and a `SystematicsBook`. -/
def sampleBook : AB (HistX String) :=
  .book .book (.cons "nominal" (.hist sampleHist) (.cons "up and down" (.book .systematics
    (.cons "+1" (.hist (variation 1)) (.cons "-1" (.hist (variation (-1))) .nil)) []) .nil))
    [("author", .str "me")]

theorem sampleBook_proper : sampleBook.Proper sampleOps (TextHist namesParser fun k => match k with
    | .str s => s
    | _ => "1.0") := by
  have hs : ∀ a, (J.obj a).text (fun k => match k with | .str s => s | _ => "1.0") = .obj a →
      TextHist namesParser (fun k => match k with | .str s => s | _ => "1.0") { sampleHist with attachment := a } :=
    fun a ha => ⟨sampleHist_built.attached a, ⟨⟨"a", rfl⟩, trivial, trivial⟩, ha⟩
  unfold sampleBook
  simp only [AB.Proper, ABL.Proper, ABL.names]
  refine ⟨⟨by decide +kernel, by decide +kernel, hs _ rfl, ⟨by decide +kernel, by decide +kernel, ⟨⟨by decide +kernel,
    by decide +kernel, hs _ rfl, by decide +kernel, by decide +kernel, hs _ rfl, trivial⟩, by decide +kernel⟩,
    trivial⟩⟩, by decide +kernel⟩

example : ∃ j, sampleBook.tojson (histJ namesParser) = .ok j ∧
    bookFromjson (histJ namesParser) sampleOps (j.text fun k => match k with
      | .str s => s
      | _ => "1.0") = .ok sampleBook :=
  C68_text_partial (fun _ => rfl) sampleBook_proper (by
    simp only [AB.textual, ABL.textual]
    exact ⟨⟨trivial, ⟨⟨trivial, trivial, trivial⟩, rfl⟩, trivial⟩, rfl⟩)

example : ∃ j, sampleBook.tojson (histJ namesParser) = .ok j ∧
    bookFromjson (histJ namesParser) sampleOps j = .ok sampleBook :=
  C68_restored_partial (sampleBook_proper.weaken fun _ h => h.1)

/-- **C68 is violated** through text by a book with a histogram whose group keys are numbers, whatever text makes of
them. -/
theorem C68_refuted_keys : ∃ j, (AB.book .book (.cons "h" (.hist numberHist) .nil) []).tojson (histJ namesParser) = .ok j ∧
    ∀ render : Key → String, (∀ s, render (.str s) = s) → ∃ h' : HistX String,
      bookFromjson (histJ namesParser) sampleOps (j.text render) = .ok (.book .book (.cons "h" (.hist h') .nil) []) ∧
      numberHist.eq h' = false := by
  have hp : ∀ h, BuiltHist namesParser h →
      (AB.book .book (.cons "h" (.hist h) .nil) []).Proper sampleOps (BuiltHist namesParser) := by
    intro h hh
    simp only [AB.Proper, ABL.Proper, ABL.names]
    refine ⟨⟨by decide +kernel, by decide +kernel, hh, trivial⟩, ?_⟩
    rw [check_iff]
    intro h
    cases h
  obtain ⟨j, h1, -⟩ := C68_restored_partial (hp _ numberHist_built)
  refine ⟨j, h1, fun render hr => ?_⟩
  obtain ⟨j', h1', h2'⟩ := C68_restored_partial (hp _ (stringHist_built (render (.num 1))))
  refine ⟨stringHist (render (.num 1)), ?_, ?_⟩
  · have : j.text render = j' := by
      have e1 := h1.symm
      have e2 := h1'.symm
      simp [AB.tojson, AB.entries, ABL.nodes, histJ, HistX.entries, numberHist, stringHist, sampleHist, HistX.axes, mapE,
        AxisX.tojson, contentEntry, Cn.tojson, CnL.tojson, tolist, chunks, cells, entryIf, weightEntry, filterEntry,
        Except.map, BClass.name] at e1 e2
      rw [e1, e2]
      simp [J.text, J.textD, J.textP, J.textL, J.obj, hr]
    rw [this]
    exact h2'
  · simp [HistX.eq, Cn.eq, CnL.keys, numberHist, stringHist, sampleHist]

/-- `Hist` is unknown to `fromjson` of books: a histogram written on its own is not restored by it. -/
theorem bookFromjson_hist {hj : HistJ α} {o : HistOps α} {h : α} {e : List (String × J)} (he : Restores hj h e) :
    bookFromjson hj o (.obj e) = .error .attributeError := by
  have h1 : (J.obj e).typeOf = .ok "Hist" := by
    unfold J.typeOf
    rw [he.typed]
    rfl
  unfold bookFromjson
  simp only [h1, if_true]

end Verif
