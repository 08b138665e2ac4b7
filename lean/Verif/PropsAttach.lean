import Verif.Attach

/-!
# Properties of attachments (C70)
-/

namespace Verif

/-! ## Specification: each variable has a dict of its own -/

/-- The attachments of each variable, as values. -/
abbrev Ideal := List Dct

/-- The attachments of one variable. -/
def Ideal.see (w : Ideal) (i : ℕ) : Except Err Dct := named w[i]?

/-- The attachments of several variables together; of two with the same key the later one counts. -/
def Ideal.union (w : Ideal) : List ℕ → Dct → Except Err Dct
  | [], d => .ok d
  | i :: is, d => do w.union is (d.update (← w.see i))

/-- What the operations should do: `attach` and `detach` change the one variable, the others make a new variable with a
dict of its own and change nothing. -/
def Ideal.step (w : Ideal) : AOp → Except Err Ideal
  | .hist a => .ok (w ++ [a])
  | .histWith i none | .derive i | .mulHist i | .mulBook i | .view i | .rebuilt i => do .ok (w ++ [← w.see i])
  | .histWith i (some v) | .systematic i v => do
    let d ← w.see i
    if d.has "systematic" then .error .valueError else .ok (w ++ [d.put "systematic" v])
  | .attach i k v => do .ok (w.set i ((← w.see i).put k v))
  | .detach i k => do .ok (w.set i (← (← w.see i).del k))
  | .addHist i j => do
    let _ ← w.see j
    .ok (w ++ [← w.see i])
  | .addBook i j => do .ok (w ++ [(← w.see i).update (← w.see j)])
  | .groupHist => .ok (w ++ [[]])
  | .groupBook is => do .ok (w ++ [← w.union is []])

/-- A program, with exceptions caught. -/
def Ideal.run (w : Ideal) : List AOp → Ideal
  | [] => w
  | op :: ops =>
    match w.step op with
    | .ok w' => w'.run ops
    | .error _ => w.run ops

/-- The operations that do not take over the dict of another object: all but sums and products of histograms, views,
restored objects and a dict given as `attachment=`. -/
def AOp.own : AOp → Bool
  | .histWith _ _ | .addHist _ _ | .mulHist _ | .view _ | .rebuilt _ => false
  | _ => true

/-- Each variable has a dict, and no two have the same. -/
def AWorld.Separate (w : AWorld) : Prop := w.vars.Nodup ∧ ∀ a ∈ w.vars, a < w.dicts.length

/-- Each variable has a dict. -/
def AWorld.Valid (w : AWorld) : Prop := ∀ a ∈ w.vars, a < w.dicts.length

/-- The attachments of each variable. -/
def AWorld.views (w : AWorld) : Ideal := w.vars.map fun a => w.dicts.getD a []

/-- The operations that make a new object out of old ones, and give it a dict of its own or of an old one. -/
def AOp.makes : AOp → Bool
  | .attach _ _ _ | .detach _ _ | .histWith _ (some _) => false
  | _ => true

/-! ## Dictionary laws -/

theorem Dct.get_put (d : Dct) (k k' : String) (v : J) :
    (Dct.put k v d).get k' = if k = k' then some v else d.get k' := by
  induction d with
  | nil => by_cases h : k = k' <;> simp [Dct.put, Dct.get, h]
  | cons p d ih =>
    unfold Dct.get at ih ⊢
    by_cases hp : p.1 = k
    · rw [Dct.put, if_pos hp]
      by_cases h : k = k'
      · simp [h]
      · rw [if_neg h, List.find?_cons, List.find?_cons, hp, decide_eq_false h]
    · rw [Dct.put, if_neg hp]
      by_cases hp' : p.1 = k'
      · have : k ≠ k' := fun e => hp (hp'.trans e.symm)
        simp [hp', this]
      · simp only [List.find?_cons, hp', decide_false, ih]

theorem Dct.has_get (d : Dct) (k : String) : d.has k = (d.get k).isSome := by
  unfold Dct.has Dct.get
  rw [Option.isSome_map]
  induction d with
  | nil => rfl
  | cons p d ih =>
    by_cases h : p.1 = k <;> simp [h] at ih ⊢
    · exact ih

theorem Dct.get_filter (d : Dct) (k k' : String) :
    Dct.get (d.filter fun p => p.1 ≠ k) k' = if k = k' then none else d.get k' := by
  unfold Dct.get
  induction d with
  | nil => simp
  | cons p d ih =>
    by_cases hp : p.1 = k
    · simp only [List.filter_cons, hp, ne_eq, not_true_eq_false, decide_false, Bool.false_eq_true, if_false] at ih ⊢
      rw [ih]
      by_cases h : k = k'
      · simp [h]
      · rw [if_neg h, if_neg h, List.find?_cons, hp, decide_eq_false h]
    · simp only [List.filter_cons, hp, ne_eq, not_false_eq_true, decide_true, if_true] at ih ⊢
      by_cases hp' : p.1 = k'
      · have : k ≠ k' := fun e => hp (hp'.trans e.symm)
        simp [hp', this]
      · simp only [List.find?_cons, hp', decide_false, ih]

theorem Dct.get_update (e d : Dct) (k : String) (hn : (e.map (·.1)).Nodup) :
    (d.update e).get k = (e.get k).or (d.get k) := by
  unfold Dct.update
  induction e generalizing d with
  | nil => simp [Dct.get]
  | cons p e ih =>
    simp only [List.map_cons, List.nodup_cons] at hn
    rw [List.foldl_cons, ih _ hn.2, Dct.get_put]
    by_cases h : p.1 = k
    · have : Dct.get e k = none := by
        unfold Dct.get
        rw [Option.map_eq_none_iff, List.find?_eq_none]
        intro q hq hk
        simp only [decide_eq_true_eq] at hk
        exact hn.1 (List.mem_map.2 ⟨q, hq, hk.trans h.symm⟩)
      rw [this]
      simp [Dct.get, h]
    · simp [Dct.get, h]

/-! ## Reading -/

theorem named_ok {β : Type} {o : Option β} {x : β} : named o = .ok x ↔ o = some x := by
  cases o <;> simp [named]

theorem see_ok {w : AWorld} {i : ℕ} {d : Dct} : w.see i = .ok d ↔ ∃ a, w.vars[i]? = some a ∧ w.dicts[a]? = some d := by
  unfold AWorld.see
  rw [named_ok, Option.bind_eq_some_iff]

theorem addr_ok {w : AWorld} {i a : ℕ} : w.addr i = .ok a ↔ w.vars[i]? = some a := by
  unfold AWorld.addr
  rw [named_ok]

theorem views_see {w : AWorld} (hv : w.Valid) (i : ℕ) : w.views.see i = w.see i := by
  unfold AWorld.views Ideal.see AWorld.see
  rw [List.getElem?_map]
  cases ha : w.vars[i]? with
  | none => rfl
  | some a =>
    have := hv a (List.mem_of_getElem? ha)
    simp [List.getElem?_eq_getElem this]

theorem views_union {w : AWorld} (hv : w.Valid) : ∀ (is : List ℕ) (d : Dct), w.views.union is d = w.union is d
  | [], _ => rfl
  | i :: is, d => by
    rw [Ideal.union, AWorld.union, views_see hv]
    cases w.see i with
    | error _ => rfl
    | ok e => exact views_union hv is _

theorem views_new {w : AWorld} (hv : w.Valid) (d : Dct) : (w.new d).views = w.views ++ [d] := by
  unfold AWorld.views AWorld.new
  simp only [List.map_append, List.map_cons, List.map_nil]
  congr 1
  · apply List.map_congr_left
    intro a ha
    have := hv a ha
    simp [List.getElem?_append_left this]
  · simp

theorem views_share {w : AWorld} {i a : ℕ} {d : Dct} (ha : w.vars[i]? = some a) (hd : w.dicts[a]? = some d) :
    (w.share a).views = w.views ++ [d] := by
  unfold AWorld.views AWorld.share
  simp [hd]

theorem addr_of_see {w : AWorld} (hv : w.Valid) (i : ℕ) :
    (∃ a d, w.vars[i]? = some a ∧ w.dicts[a]? = some d ∧ w.addr i = .ok a ∧ w.see i = .ok d) ∨
      (w.addr i = .error .nameError ∧ w.see i = .error .nameError) := by
  cases ha : w.vars[i]? with
  | none => right; simp [AWorld.addr, AWorld.see, ha, named]
  | some a =>
    left
    have := hv a (List.mem_of_getElem? ha)
    refine ⟨a, w.dicts[a], rfl, List.getElem?_eq_getElem this, ?_, ?_⟩
    · rw [addr_ok]; exact ha
    · rw [see_ok]; exact ⟨a, ha, List.getElem?_eq_getElem this⟩

/-- One operation that makes something, on the attachments seen. -/
theorem views_makes {w : AWorld} (hv : w.Valid) (op : AOp) (ho : op.makes) :
    (w.step op).map AWorld.views = w.views.step op := by
  cases op with
  | hist a => simp [AWorld.step, Ideal.step, Except.map, views_new hv]
  | groupHist => simp [AWorld.step, Ideal.step, Except.map, views_new hv]
  | attach => simp [AOp.makes] at ho
  | detach => simp [AOp.makes] at ho
  | histWith i v =>
    cases v with
    | some v => simp [AOp.makes] at ho
    | none =>
      rcases addr_of_see hv i with ⟨a, d, h1, h2, h3, h4⟩ | ⟨h1, h2⟩
      · simp [AWorld.step, Ideal.step, views_see hv, h3, h4, Except.map, bind, Except.bind, views_share h1 h2]
      · simp [AWorld.step, Ideal.step, views_see hv, h1, h2, Except.map, bind, Except.bind]
  | derive i | mulBook i =>
    rcases addr_of_see hv i with ⟨a, d, h1, h2, h3, h4⟩ | ⟨h1, h2⟩
    · simp [AWorld.step, Ideal.step, views_see hv, h4, Except.map, bind, Except.bind, views_new hv]
    · simp [AWorld.step, Ideal.step, views_see hv, h2, Except.map, bind, Except.bind]
  | mulHist i | view i =>
    rcases addr_of_see hv i with ⟨a, d, h1, h2, h3, h4⟩ | ⟨h1, h2⟩
    · simp [AWorld.step, Ideal.step, views_see hv, h3, h4, Except.map, bind, Except.bind, views_share h1 h2]
    · simp [AWorld.step, Ideal.step, views_see hv, h1, h2, Except.map, bind, Except.bind]
  | systematic i v =>
    rcases addr_of_see hv i with ⟨a, d, h1, h2, h3, h4⟩ | ⟨h1, h2⟩
    · simp only [AWorld.step, Ideal.step, views_see hv, h4, Except.map, bind, Except.bind]
      by_cases hs : d.has "systematic" = true
      · simp [hs]
      · simp [hs, views_new hv]
    · simp [AWorld.step, Ideal.step, views_see hv, h2, Except.map, bind, Except.bind]
  | addHist i j =>
    rcases addr_of_see hv j with ⟨b, e, g1, g2, g3, g4⟩ | ⟨g1, g2⟩
    · rcases addr_of_see hv i with ⟨a, d, h1, h2, h3, h4⟩ | ⟨h1, h2⟩
      · simp [AWorld.step, Ideal.step, views_see hv, h3, h4, g3, g4, Except.map, bind, Except.bind, views_share h1 h2]
      · simp [AWorld.step, Ideal.step, views_see hv, h1, h2, g3, g4, Except.map, bind, Except.bind]
    · simp [AWorld.step, Ideal.step, views_see hv, g1, g2, Except.map, bind, Except.bind]
  | addBook i j =>
    simp only [AWorld.step, Ideal.step, views_see hv, Except.map, bind, Except.bind]
    cases w.see i with
    | error _ => rfl
    | ok d =>
      cases w.see j with
      | error _ => rfl
      | ok e => simp [views_new hv]
  | groupBook is =>
    simp only [AWorld.step, Ideal.step, views_union hv, Except.map, bind, Except.bind]
    cases w.union is [] with
    | error _ => rfl
    | ok d => simp [views_new hv]
  | rebuilt i =>
    rcases addr_of_see hv i with ⟨a, d, h1, h2, h3, h4⟩ | ⟨h1, h2⟩
    · simp only [AWorld.step, Ideal.step, views_see hv, h3, h4, Except.map, bind, Except.bind]
      cases d with
      | nil => simp [views_new hv]
      | cons p d => simp [views_share h1 h2]
    · simp [AWorld.step, Ideal.step, views_see hv, h2, Except.map, bind, Except.bind]

theorem valid_new {w : AWorld} (hv : w.Valid) (d : Dct) : (w.new d).Valid := by
  intro a ha
  simp only [AWorld.new, List.mem_append, List.mem_singleton, List.length_append, List.length_singleton] at ha ⊢
  rcases ha with ha | rfl
  · exact Nat.lt_succ_of_lt (hv a ha)
  · exact Nat.lt_succ_self _

theorem valid_share {w : AWorld} (hv : w.Valid) {i a : ℕ} (ha : w.vars[i]? = some a) : (w.share a).Valid := by
  intro b hb
  simp only [AWorld.share, List.mem_append, List.mem_singleton] at hb ⊢
  rcases hb with hb | rfl
  · exact hv b hb
  · exact hv b (List.mem_of_getElem? ha)

theorem valid_write {w : AWorld} (hv : w.Valid) (a : ℕ) (d : Dct) : (w.write a d).Valid := by
  intro b hb
  simpa [AWorld.write] using hv b hb

/-- Every operation keeps the worlds valid, and so every program does. -/
theorem valid_step {w w' : AWorld} (hv : w.Valid) {op : AOp} (h : w.step op = .ok w') : w'.Valid := by
  have hshare : ∀ i w', (do .ok (w.share (← w.addr i)) : Except Err AWorld) = .ok w' → w'.Valid := by
    intro i w' h
    rcases addr_of_see hv i with ⟨a, d, h1, h2, h3, h4⟩ | ⟨h1, h2⟩
    · rw [h3] at h; cases h; exact valid_share hv h1
    · rw [h1] at h; cases h
  have hnew : ∀ (r : Except Err Dct) w', (do .ok (w.new (← r)) : Except Err AWorld) = .ok w' → w'.Valid := by
    intro r w' h
    cases r with
    | error _ => cases h
    | ok d => cases h; exact valid_new hv d
  cases op with
  | hist a => cases h; exact valid_new hv a
  | groupHist => cases h; exact valid_new hv []
  | histWith i v =>
    cases v with
    | none => exact hshare i w' h
    | some v =>
      rcases addr_of_see hv i with ⟨a, d, h1, h2, h3, h4⟩ | ⟨h1, h2⟩
      · simp only [AWorld.step, h3, h4, bind, Except.bind] at h
        by_cases hs : d.has "systematic" = true
        · rw [if_pos hs] at h; cases h
        · rw [if_neg hs] at h; cases h; exact valid_share (valid_write hv a _) h1
      · simp [AWorld.step, h2, bind, Except.bind] at h
  | attach i k v =>
    rcases addr_of_see hv i with ⟨a, d, h1, h2, h3, h4⟩ | ⟨h1, h2⟩
    · simp only [AWorld.step, h3, h4, bind, Except.bind] at h; cases h; exact valid_write hv a _
    · simp [AWorld.step, h1, bind, Except.bind] at h
  | detach i k =>
    rcases addr_of_see hv i with ⟨a, d, h1, h2, h3, h4⟩ | ⟨h1, h2⟩
    · simp only [AWorld.step, h3, h4, bind, Except.bind] at h
      cases hd : d.del k with
      | error _ => rw [hd] at h; cases h
      | ok d' => rw [hd] at h; cases h; exact valid_write hv a _
    · simp [AWorld.step, h1, bind, Except.bind] at h
  | derive i | mulBook i => exact hnew (w.see i) w' h
  | mulHist i | view i => exact hshare i w' h
  | systematic i v =>
    rcases addr_of_see hv i with ⟨a, d, h1, h2, h3, h4⟩ | ⟨h1, h2⟩
    · simp only [AWorld.step, h4, bind, Except.bind] at h
      by_cases hs : d.has "systematic" = true
      · rw [if_pos hs] at h; cases h
      · rw [if_neg hs] at h; cases h; exact valid_new hv _
    · simp [AWorld.step, h2, bind, Except.bind] at h
  | addHist i j =>
    simp only [AWorld.step, bind, Except.bind] at h
    cases hj : w.addr j with
    | error _ => rw [hj] at h; cases h
    | ok b => rw [hj] at h; exact hshare i w' h
  | addBook i j =>
    simp only [AWorld.step, bind, Except.bind] at h
    cases hi : w.see i with
    | error _ => rw [hi] at h; cases h
    | ok d =>
      cases hj : w.see j with
      | error _ => simp [hi, hj] at h
      | ok e => simp only [hi, hj] at h; cases h; exact valid_new hv _
  | groupBook is => exact hnew (w.union is []) w' h
  | rebuilt i =>
    rcases addr_of_see hv i with ⟨a, d, h1, h2, h3, h4⟩ | ⟨h1, h2⟩
    · simp only [AWorld.step, h3, h4, bind, Except.bind] at h
      by_cases hs : d.isEmpty = true
      · rw [if_pos hs] at h; cases h; exact valid_new hv _
      · rw [if_neg hs] at h; cases h; exact valid_share hv h1
    · simp [AWorld.step, h2, bind, Except.bind] at h

theorem views_write {w : AWorld} (hs : w.Separate) {i a : ℕ} (ha : w.vars[i]? = some a) (d : Dct) :
    (w.write a d).views = w.views.set i d := by
  unfold AWorld.views AWorld.write
  apply List.ext_getElem?
  intro j
  rw [List.getElem?_map, List.getElem?_set, List.getElem?_map, List.length_map]
  have hi : i < w.vars.length := (List.getElem?_eq_some_iff.1 ha).1
  have hal := hs.2 a (List.mem_of_getElem? ha)
  by_cases hij : i = j
  · subst hij
    rw [ha]
    simp [hi, hal]
  · rw [if_neg hij]
    cases hj : w.vars[j]? with
    | none => rfl
    | some b =>
      have hab : a ≠ b := by
        rintro rfl
        obtain ⟨g1, g2⟩ := List.getElem?_eq_some_iff.1 ha
        obtain ⟨g3, g4⟩ := List.getElem?_eq_some_iff.1 hj
        exact hij ((List.Nodup.getElem_inj_iff hs.1).1 (g2.trans g4.symm))
      simp [List.getElem?_set, hab]

/-- Operations that take over no dict keep the dicts separate. -/
theorem separate_step {w w' : AWorld} (hs : w.Separate) {op : AOp} (ho : op.own) (h : w.step op = .ok w') :
    w'.Separate := by
  have hv : w.Valid := hs.2
  refine ⟨?_, valid_step hv h⟩
  have hnew : ∀ d, (w.new d).vars.Nodup := by
    intro d
    simp only [AWorld.new, List.nodup_append, List.nodup_singleton, List.mem_singleton, true_and]
    refine ⟨hs.1, ?_⟩
    rintro a ha b rfl rfl
    exact absurd (hs.2 _ ha) (by omega)
  have hnew' : ∀ (r : Except Err Dct) w', (do .ok (w.new (← r)) : Except Err AWorld) = .ok w' → w'.vars.Nodup := by
    intro r w' h
    cases r with
    | error _ => cases h
    | ok d => cases h; exact hnew d
  cases op with
  | histWith | addHist | mulHist | view | rebuilt => simp [AOp.own] at ho
  | hist a => cases h; exact hnew a
  | groupHist => cases h; exact hnew []
  | attach i k v =>
    rcases addr_of_see hv i with ⟨a, d, h1, h2, h3, h4⟩ | ⟨h1, h2⟩
    · simp only [AWorld.step, h3, h4, bind, Except.bind] at h; cases h; exact hs.1
    · simp [AWorld.step, h1, bind, Except.bind] at h
  | detach i k =>
    rcases addr_of_see hv i with ⟨a, d, h1, h2, h3, h4⟩ | ⟨h1, h2⟩
    · simp only [AWorld.step, h3, h4, bind, Except.bind] at h
      cases hd : d.del k with
      | error _ => rw [hd] at h; cases h
      | ok d' => rw [hd] at h; cases h; exact hs.1
    · simp [AWorld.step, h1, bind, Except.bind] at h
  | derive i | mulBook i => exact hnew' (w.see i) w' h
  | systematic i v =>
    rcases addr_of_see hv i with ⟨a, d, h1, h2, h3, h4⟩ | ⟨h1, h2⟩
    · simp only [AWorld.step, h4, bind, Except.bind] at h
      by_cases hs : d.has "systematic" = true
      · rw [if_pos hs] at h; cases h
      · rw [if_neg hs] at h; cases h; exact hnew _
    · simp [AWorld.step, h2, bind, Except.bind] at h
  | addBook i j =>
    simp only [AWorld.step, bind, Except.bind] at h
    cases hi : w.see i with
    | error _ => rw [hi] at h; cases h
    | ok d =>
      cases hj : w.see j with
      | error _ => simp [hi, hj] at h
      | ok e => simp only [hi, hj] at h; cases h; exact hnew _
  | groupBook is => exact hnew' (w.union is []) w' h

theorem views_own {w : AWorld} (hs : w.Separate) (op : AOp) (ho : op.own) :
    (w.step op).map AWorld.views = w.views.step op := by
  have hv : w.Valid := hs.2
  by_cases hm : op.makes = true
  · exact views_makes hv op hm
  · cases op with
    | attach i k v =>
      rcases addr_of_see hv i with ⟨a, d, h1, h2, h3, h4⟩ | ⟨h1, h2⟩
      · simp [AWorld.step, Ideal.step, views_see hv, h3, h4, Except.map, bind, Except.bind, views_write hs h1]
      · simp [AWorld.step, Ideal.step, views_see hv, h1, h2, Except.map, bind, Except.bind]
    | detach i k =>
      rcases addr_of_see hv i with ⟨a, d, h1, h2, h3, h4⟩ | ⟨h1, h2⟩
      · simp only [AWorld.step, Ideal.step, views_see hv, h3, h4, Except.map, bind, Except.bind]
        cases d.del k with
        | error _ => rfl
        | ok d' => simp [views_write hs h1]
      · simp [AWorld.step, Ideal.step, views_see hv, h1, h2, Except.map, bind, Except.bind]
    | histWith => simp [AOp.own] at ho
    | _ => simp [AOp.makes] at hm

/-! ## Properties -/

/-- **C70**, one object: `attach`, `detach`, `has` and `get` of a histogram or a book are those of a dictionary, in any
state whatever. -/
theorem C70_dictionary {w : AWorld} {i : ℕ} {d : Dct} (hd : w.see i = .ok d) (k : String) :
    (∀ v, ∃ w', w.step (.attach i k v) = .ok w' ∧ ∀ k',
      w'.getItem i k' [] = (if k = k' then .ok v else w.getItem i k' []) ∧
      w'.has i k' = (if k = k' then .ok true else w.has i k')) ∧
    (w.has i k = .ok true → ∃ w', w.step (.detach i k) = .ok w' ∧ ∀ k',
      w'.getItem i k' [] = (if k = k' then .error .keyError else w.getItem i k' []) ∧
      w'.has i k' = (if k = k' then .ok false else w.has i k')) ∧
    (w.has i k = .ok false → w.step (.detach i k) = .error .keyError ∧ w.getItem i k [] = .error .keyError ∧
      ∀ x, w.getItem i k [x] = .ok x) ∧
    (w.has i k = .ok true → ∃ v, w.getItem i k [] = .ok v ∧ ∀ x, w.getItem i k [x] = .ok v) ∧
    ∀ x y l, w.getItem i k (x :: y :: l) = .error .typeError := by
  obtain ⟨a, ha, hda⟩ := see_ok.1 hd
  have hl := (List.getElem?_eq_some_iff.1 hda).1
  have haddr : w.addr i = .ok a := addr_ok.2 ha
  have hw : ∀ d', (w.write a d').see i = .ok d' := by
    intro d'
    rw [see_ok]
    exact ⟨a, ha, by simp [AWorld.write, hl]⟩
  refine ⟨fun v => ⟨w.write a (d.put k v), ?_, fun k' => ?_⟩, fun hh => ⟨w.write a (d.filter fun p => p.1 ≠ k), ?_,
    fun k' => ?_⟩, fun hh => ?_, fun hh => ?_, fun x y l => ?_⟩
  · simp [AWorld.step, haddr, hd, bind, Except.bind]
  · simp only [AWorld.getItem, AWorld.has, hw, hd, bind, Except.bind, Dct.has_get, Dct.get_put]
    by_cases h : k = k' <;> simp [h]
  · have : d.has k = true := by simpa [AWorld.has, hd, bind, Except.bind] using hh
    simp [AWorld.step, haddr, hd, bind, Except.bind, Dct.del, this]
  · simp only [AWorld.getItem, AWorld.has, hw, hd, bind, Except.bind, Dct.has_get, Dct.get_filter]
    by_cases h : k = k' <;> simp [h]
  · have : d.has k = false := by simpa [AWorld.has, hd, bind, Except.bind] using hh
    have hg : d.get k = none := by simpa [Dct.has_get] using this
    simp [AWorld.step, AWorld.getItem, haddr, hd, bind, Except.bind, Dct.del, this, hg]
  · have : d.has k = true := by simpa [AWorld.has, hd, bind, Except.bind] using hh
    rw [Dct.has_get, Option.isSome_iff_exists] at this
    obtain ⟨v, hv⟩ := this
    exact ⟨v, by simp [AWorld.getItem, hd, bind, Except.bind, hv], fun x => by
      simp [AWorld.getItem, hd, bind, Except.bind, hv]⟩
  · simp [AWorld.getItem, hd, bind, Except.bind]

/-- **C70**, what new objects come with: whatever is made by whatever program before, the new object has the attachments
it should have (those of its origin, of both books of a sum, ...), no other object changes, and exceptions are raised
for the same reasons. -/
theorem C70_made (ops : List AOp) (op : AOp) (ho : op.makes) :
    (((AWorld.mk [] []).run ops).step op).map AWorld.views = ((AWorld.mk [] []).run ops).views.step op := by
  refine views_makes ?_ op ho
  have : ∀ (ops : List AOp) (w : AWorld), w.Valid → (w.run ops).Valid := by
    intro ops
    induction ops with
    | nil => exact fun w h => h
    | cons op ops ih =>
      intro w hv
      rw [AWorld.run]
      cases h : w.step op with
      | error _ => exact ih w hv
      | ok w' => exact ih w' (valid_step hv h)
  exact this ops _ (by intro a ha; cases ha)

/-- **C70**, histories: after any program without sums and products of histograms, views, restored objects and dicts given
as `attachment=`, every object has the attachments that it would have if all were independent of each other. -/
theorem C70_independent_partial (ops : List AOp) (ho : ∀ op ∈ ops, op.own = true) :
    ((AWorld.mk [] []).run ops).views = Ideal.run [] ops := by
  have : ∀ (ops : List AOp), (∀ op ∈ ops, op.own = true) → ∀ w : AWorld, w.Separate → (w.run ops).views =
      w.views.run ops := by
    intro ops
    induction ops with
    | nil => exact fun _ w _ => rfl
    | cons op ops ih =>
      intro ho w hs
      have h1 := views_own hs op (ho op (by simp))
      rw [AWorld.run, Ideal.run, ← h1]
      cases h : w.step op with
      | error _ => exact ih (fun o h => ho o (by simp [h])) w hs
      | ok w' => exact ih (fun o h => ho o (by simp [h])) w' (separate_step hs (ho op (by simp)) h)
  exact this ops ho _ ⟨List.nodup_nil, by intro a ha; cases ha⟩

/-- **C70**, sums of books: the attachments of both, of two with the same key that of the right one.  (The keys of a Python
dict are distinct.) -/
theorem C70_sum {w : AWorld} (hv : w.Valid) {i j : ℕ} {d e : Dct} (hi : w.see i = .ok d) (hj : w.see j = .ok e)
    (hn : (e.map (·.1)).Nodup) : ∃ w', w.step (.addBook i j) = .ok w' ∧ ∀ k,
      w'.getItem w.vars.length k [] = if e.has k then w.getItem j k [] else w.getItem i k [] := by
  refine ⟨w.new (d.update e), by simp [AWorld.step, hi, hj, bind, Except.bind], fun k => ?_⟩
  have : (w.new (d.update e)).see w.vars.length = .ok (d.update e) := by
    rw [← views_see (valid_new hv _), views_new hv]
    simp [Ideal.see, AWorld.views, named]
  simp only [AWorld.getItem, this, hi, hj, bind, Except.bind, Dct.get_update e d k hn, Dct.has_get]
  cases hk : e.get k <;> simp

/-- Who else is disturbed: attaching something to one object changes exactly the objects with the same dict. -/
theorem C70_disturbed {w w' : AWorld} (hv : w.Valid) {i : ℕ} {k : String} {v : J}
    (h : w.step (.attach i k v) = .ok w') (j : ℕ) :
    w'.see j = if w.vars[j]? = w.vars[i]? then (w.see i).map (Dct.put k v) else w.see j := by
  rcases addr_of_see hv i with ⟨a, d, h1, h2, h3, h4⟩ | ⟨h1, h2⟩
  · simp only [AWorld.step, h3, h4, bind, Except.bind] at h
    cases h
    have hl := (List.getElem?_eq_some_iff.1 h2).1
    rw [h1, h4]
    by_cases hj : w.vars[j]? = some a
    · rw [if_pos hj]
      simp [AWorld.see, AWorld.write, hj, hl, named, Except.map]
    · rw [if_neg hj]
      simp only [AWorld.see, AWorld.write]
      cases hj' : w.vars[j]? with
      | none => rfl
      | some b =>
        have : a ≠ b := fun e => hj (by rw [hj', e])
        simp [List.getElem?_set, this]
  · simp [AWorld.step, h1, bind, Except.bind] at h

/-- **C70 is violated** by every sum and product of histograms and every view of a book: whatever is attached to it is
also attached to the left operand (the histogram, the book). -/
theorem C70_refuted_shared {w : AWorld} {i j : ℕ} {d e : Dct} (hi : w.see i = .ok d)
    (hj : w.see j = .ok e) (k : String) (v : J) (op : AOp) (hop : op = .addHist i j ∨ op = .mulHist i ∨ op = .view i) :
    ∃ w' w'', w.step op = .ok w' ∧ w'.step (.attach w.vars.length k v) = .ok w'' ∧ w''.getItem i k [] = .ok v := by
  obtain ⟨a, ha, hda⟩ := see_ok.1 hi
  obtain ⟨b, hb, -⟩ := see_ok.1 hj
  have haddr : w.addr i = .ok a := addr_ok.2 ha
  have hstep : w.step op = .ok (w.share a) := by
    rcases hop with rfl | rfl | rfl
    · simp [AWorld.step, haddr, addr_ok.2 hb, bind, Except.bind]
    · simp [AWorld.step, haddr, bind, Except.bind]
    · simp [AWorld.step, haddr, bind, Except.bind]
  have hl := (List.getElem?_eq_some_iff.1 ha).1
  have hn : (w.share a).see w.vars.length = .ok d := see_ok.2 ⟨a, by simp [AWorld.share], hda⟩
  have hna : (w.share a).addr w.vars.length = .ok a := addr_ok.2 (by simp [AWorld.share])
  refine ⟨w.share a, (w.share a).write a (d.put k v), hstep, by simp [AWorld.step, hn, hna, bind, Except.bind], ?_⟩
  have : ((w.share a).write a (d.put k v)).see i = .ok (d.put k v) := by
    refine see_ok.2 ⟨a, ?_, ?_⟩
    · simp [AWorld.share, AWorld.write, List.getElem?_append_left hl, ha]
    · simp [AWorld.share, AWorld.write, (List.getElem?_eq_some_iff.1 hda).1]
  simp [AWorld.getItem, this, bind, Except.bind, Dct.get_put]

/-- A sum, then an attachment to it; a restored histogram with an attachment; a user's dict given to two histograms as
`attachment=` with `systematic=`: the second one raises because the first one has put its own vector into the dict. -/
theorem C70_refuted :
    ((AWorld.mk [] []).run [.hist [], .hist [], .addHist 0 1, .attach 2 "fit" (.int 1)]).has 0 "fit" = .ok true ∧
    ((AWorld.mk [] []).run [.hist [("a", .int 1)], .rebuilt 0, .detach 1 "a"]).has 0 "a" = .ok false ∧
    (((AWorld.mk [] []).run [.hist [("a", .int 1)], .histWith 0 (some (.int 1))]).step
      (.histWith 0 (some (.int 2)))).toOption.isNone ∧
    ((AWorld.mk [] []).run [.hist [("a", .int 1)], .histWith 0 (some (.int 1))]).has 0 "systematic" = .ok true := by
  refine ⟨rfl, rfl, rfl, rfl⟩

example : ((AWorld.mk [] []).run [.hist [("a", .int 1)], .derive 0, .attach 1 "b" (.int 2), .detach 0 "a",
    .addBook 0 1, .detach 0 "z", .systematic 1 (.int 3)]).views =
    [[], [("a", .int 1), ("b", .int 2)], [("a", .int 1), ("b", .int 2)],
      [("a", .int 1), ("b", .int 2), ("systematic", .int 3)]] := by
  rw [C70_independent_partial _ (by decide)]
  rfl

example : ∃ w', (AWorld.mk [[("a", .int 1)]] [0, 0]).step (.attach 1 "b" (.int 2)) = .ok w' ∧
    w'.getItem 0 "b" [] = .ok (.int 2) := ⟨_, rfl, rfl⟩

example : (AWorld.mk [[]] [0, 0]).Valid := by unfold AWorld.Valid; decide

end Verif
