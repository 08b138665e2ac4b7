import Verif.InstrLemmas

/-!
# Lemmas about the execution of instructions
-/

namespace Verif

variable {V : Type} {lib : Lib V} {ext : Node → Except Err V}

/-! ## Variables -/

theorem Vars.get_put_self (s : Vars V) (n : ℕ) (v : V) : (s.put n v).get n = .ok v := by
  simp [Vars.get, Vars.put]

theorem find_filter_ne (s : Vars V) {n m : ℕ} (h : m ≠ n) :
    (s.filter fun p => p.1 ≠ n).find? (fun p => decide (p.1 = m)) = s.find? fun p => decide (p.1 = m) := by
  induction s with
  | nil => rfl
  | cons p s ih =>
    by_cases hp : p.1 = n
    · have : ¬ p.1 = m := by rw [hp]; exact fun h' => h h'.symm
      rw [List.filter_cons_of_neg (by simp [hp]), List.find?_cons_of_neg (by simpa using this)]; exact ih
    · rw [List.filter_cons_of_pos (by simp [hp])]
      by_cases hm : p.1 = m
      · rw [List.find?_cons_of_pos (by simpa using hm), List.find?_cons_of_pos (by simpa using hm)]
      · rw [List.find?_cons_of_neg (by simpa using hm), List.find?_cons_of_neg (by simpa using hm)]; exact ih

theorem Vars.get_put_ne (s : Vars V) {n m : ℕ} (v : V) (h : m ≠ n) : (s.put n v).get m = s.get m := by
  unfold Vars.get Vars.put
  rw [List.find?_cons_of_neg (by simpa using fun h' => h h'.symm), find_filter_ne s h]

theorem Vars.get_filter_ne (s : Vars V) {n m : ℕ} (h : m ≠ n) :
    Vars.get (s.filter fun p => p.1 ≠ n) m = s.get m := by
  unfold Vars.get
  rw [find_filter_ne s h]

/-- The variables hold the values of the live nodes, and there are no others. -/
structure VarsOK (lib : Lib V) (ext : Node → Except Err V) (s : Vars V) (live : List (ℕ × Node)) : Prop where
  val : ∀ p ∈ live, ∃ v, own lib ext p.2 = .ok v ∧ s.get p.1 = .ok v
  key : ∀ q ∈ s, q.1 ∈ live.map (·.1)

theorem get_any {s : Vars V} {n : ℕ} {v : V} (h : s.get n = .ok v) : s.any (fun p => p.1 = n) = true := by
  unfold Vars.get at h
  split at h
  · rename_i p hp
    rw [List.any_eq_true]
    exact ⟨p, List.mem_of_find?_eq_some hp, by simpa using List.find?_some hp⟩
  · cases h

/-- Deleting the variables of dead nodes. -/
theorem exec_deletes {is : List Ins} : ∀ (dead live : List (ℕ × Node)) (s : Vars V),
    VarsOK lib ext s (dead ++ live) → ((dead ++ live).map (·.1)).Nodup →
    ∃ s', VarsOK lib ext s' live ∧
      exec lib ext s (dead.map (fun p => .delete p.1) ++ is) = exec lib ext s' is
  | [], live, s, h, _ => ⟨s, h, rfl⟩
  | p :: dead, live, s, h, hn => by
    obtain ⟨v, _, hv⟩ := h.val p (by simp)
    have hd : s.del p.1 = .ok (s.filter fun q => q.1 ≠ p.1) := by
      unfold Vars.del; rw [if_pos (get_any hv)]
    have hn' : p.1 ∉ (dead ++ live).map (·.1) ∧ ((dead ++ live).map (·.1)).Nodup := by
      simpa using hn
    have h' : VarsOK lib ext (s.filter fun q => q.1 ≠ p.1) (dead ++ live) := by
      constructor
      · intro q hq
        obtain ⟨w, h1, h2⟩ := h.val q (by simp at hq ⊢; tauto)
        refine ⟨w, h1, ?_⟩
        rw [Vars.get_filter_ne s, h2]
        intro he
        exact hn'.1 (he ▸ List.mem_map_of_mem hq)
      · intro q hq
        obtain ⟨h1, h2⟩ := List.mem_filter.1 hq
        have := h.key q h1
        simp only [List.cons_append, List.map_cons, List.mem_cons] at this
        rcases this with h3 | h3
        · exact absurd h3 (by simpa using h2)
        · exact h3
    obtain ⟨s', h1, h2⟩ := exec_deletes dead live _ h' hn'.2
    refine ⟨s', h1, ?_⟩
    simp only [List.map_cons, List.cons_append, exec, hd]
    exact h2

/-! ## Renaming -/

theorem varOf_mem {names : List (Node × ℕ)} {t : Node} {n : ℕ} (h : varOf names t = some n) :
    (t, n) ∈ names := by
  unfold varOf at h
  obtain ⟨p, hp, rfl⟩ := Option.map_eq_some_iff.1 h
  have h1 := List.mem_of_find?_eq_some hp
  have h2 : p.1 = t := by simpa using List.find?_some hp
  subst h2; exact h1

theorem varOf_some {names : List (Node × ℕ)} {t : Node} {n : ℕ} (h : (t, n) ∈ names) :
    ∃ m, varOf names t = some m := by
  unfold varOf
  cases hf : names.find? (fun p => decide (p.1 = t)) with
  | none => exact absurd (List.find?_eq_none.1 hf _ h) (by simp)
  | some p => exact ⟨p.2, rfl⟩

/-- An argument whose node has a live variable is computed to the value of the node. -/
theorem rename_arg {names : List (Node × ℕ)} {s : Vars V} {a : Node} {n : ℕ} {v : V}
    (hn : varOf names a = some n) (ho : own lib ext a = .ok v) (hv : s.get n = .ok v)
    (hc : a.isConst = false) :
    ∃ x, a.rename names = .ok x ∧ calculate lib s.get x = own lib ext a := by
  cases a with
  | const v => simp [T.isConst] at hc
  | bconst m v =>
    refine ⟨.bconst (some n) v, ?_, by rw [ho]; exact hv⟩
    simp only [T.rename, nameVar, hn]; rfl
  | name m =>
    refine ⟨.name n, ?_, by rw [ho]; exact hv⟩
    simp only [T.rename, nameVar, hn]; rfl
  | pred m b =>
    refine ⟨.pred n true, ?_, by rw [ho]; exact hv⟩
    simp only [T.rename, nameVar, hn]; rfl
  | call f args =>
    refine ⟨.name n, ?_, by rw [ho]; exact hv⟩
    simp only [T.rename, hn]

theorem rename_args {names : List (Node × ℕ)} {s : Vars V} : ∀ (args : List Node),
    (∀ a ∈ args, a.isConst = false → ∃ n v, varOf names a = some n ∧ own lib ext a = .ok v ∧ s.get n = .ok v) →
    ∃ xs, T.renameL names args = .ok xs ∧ calculateL lib s.get xs = ownL lib ext args
  | [], _ => ⟨[], rfl, rfl⟩
  | a :: as, h => by
    obtain ⟨xs, h1, h2⟩ := rename_args as (fun b hb => h b (by simp [hb]))
    have : ∃ x, a.rename names = .ok x ∧ calculate lib s.get x = own lib ext a := by
      cases hc : a.isConst with
      | true =>
        cases a <;> simp [T.isConst] at hc
        exact ⟨_, rfl, rfl⟩
      | false =>
        obtain ⟨n, v, g1, g2, g3⟩ := h a (by simp) hc
        exact rename_arg g1 g2 g3 hc
    obtain ⟨x, h3, h4⟩ := this
    refine ⟨x :: xs, ?_, ?_⟩
    · simp only [T.renameL, h3, h1]; rfl
    · simp only [calculateL, ownL, h2, h4]

/-! ## Emitting and executing -/

/-- Positions of the nodes that are done. -/
def posOf (done : List Node) : List (Node × ℕ) := done.zipIdx

/-- The live variables: those of nodes that are still needed. -/
def liveOf (g : Graph) (done rest : List Node) : List (ℕ × Node) :=
  (done.zipIdx.map fun p => (p.2, p.1)).filter fun p => neededBy g p.2 rest

theorem zip_keys (done : List Node) : ((done.zipIdx.map fun p => (p.2, p.1)).map (·.1)) = List.range done.length := by
  rw [List.map_map]
  have : (fun p : Node × ℕ => p.2) = Prod.snd := rfl
  simp only [Function.comp_def]
  rw [this, List.zipIdx_map_snd]
  simp [List.range_eq_range']

theorem needed_tail {g : Graph} {x n : Node} {rest : List Node} (h : neededBy g x rest = true) :
    neededBy g x (n :: rest) = true := by
  simp only [neededBy, List.any_cons, Bool.or_eq_true] at h ⊢
  exact .inr h

theorem live_step (g : Graph) (done rest : List Node) (n : Node) :
    (liveOf g done (n :: rest) ++ [(done.length, n)]).filter (fun p => neededBy g p.2 rest) =
      liveOf g (done ++ [n]) rest := by
  unfold liveOf
  rw [List.filter_append, List.filter_filter, List.zipIdx_append, List.map_append, List.filter_append]
  congr 1
  · refine List.filter_congr ?_
    intro p _
    cases h : neededBy g p.2 rest
    · simp
    · simp [needed_tail h]
  · simp

theorem rename_ok {names : List (Node × ℕ)} {a : Node} {n : ℕ} (hn : varOf names a = some n) :
    ∃ x, a.rename names = .ok x := by
  cases a with
  | const v => exact ⟨_, rfl⟩
  | bconst m v => exact ⟨.bconst (some n) v, by simp only [T.rename, nameVar, hn]; rfl⟩
  | name m => exact ⟨.name n, by simp only [T.rename, nameVar, hn]; rfl⟩
  | pred m b => exact ⟨.pred n true, by simp only [T.rename, nameVar, hn]; rfl⟩
  | call f args => exact ⟨.name n, by simp only [T.rename, hn]⟩

theorem renameL_ok {names : List (Node × ℕ)} : ∀ (args : List Node),
    (∀ a ∈ args, a.isConst = false → ∃ n, varOf names a = some n) → ∃ xs, T.renameL names args = .ok xs
  | [], _ => ⟨[], rfl⟩
  | a :: as, h => by
    obtain ⟨xs, h1⟩ := renameL_ok as (fun b hb => h b (by simp [hb]))
    have : ∃ x, a.rename names = .ok x := by
      cases hc : a.isConst with
      | true =>
        cases a <;> simp [T.isConst] at hc
        exact ⟨_, rfl⟩
      | false =>
        obtain ⟨n, g1⟩ := h a (by simp) hc
        exact rename_ok g1
    obtain ⟨x, h3⟩ := this
    exact ⟨x :: xs, by simp only [T.renameL, h3, h1]; rfl⟩

theorem varOf_done {done : List Node} {c : Node} (hcd : c ∈ done) : ∃ k, varOf (posOf done) c = some k := by
  obtain ⟨j, hj, hje⟩ := List.getElem_of_mem hcd
  have hz : (c, j) ∈ posOf done := by
    unfold posOf; rw [List.mem_zipIdx_iff_getElem?]; simp [List.getElem?_eq_getElem hj, hje]
  exact varOf_some hz

theorem pos_step (done : List Node) (n : Node) : posOf (done ++ [n]) = posOf done ++ [(n, done.length)] := by
  simp [posOf, List.zipIdx_append]

/-- Instructions are produced. -/
theorem emit_ok (g : Graph) (goals : List Node) : ∀ (rest done : List Node) (live : List (ℕ × Node)),
    (done ++ rest).Nodup → Topo (done ++ rest) → (∀ x ∈ done ++ rest, x.isConst = false) →
    ∃ is, emit g goals done.length (posOf done) live rest = .ok is
  | [], done, live, _, _, _ => ⟨[], rfl⟩
  | n :: rest, done, live, hn, ht, hm => by
    have happ : done ++ n :: rest = (done ++ [n]) ++ rest := by simp
    have hlen : (done ++ [n]).length = done.length + 1 := by simp
    have hfresh : n ∉ done := by
      intro h
      rw [List.nodup_append] at hn
      exact hn.2.2 n h n (by simp) rfl
    have hvar : varOf (posOf done) n = none := by
      cases h : varOf (posOf done) n with
      | none => rfl
      | some k => exact absurd (List.fst_mem_of_mem_zipIdx (varOf_mem h)) hfresh
    have hhead : ∃ h, headIns (posOf done) done.length n = .ok h := by
      cases n with
      | const v => simpa [T.isConst] using hm (.const v) (by simp)
      | bconst m v => exact ⟨_, rfl⟩
      | name m => exact ⟨_, rfl⟩
      | pred m b => exact ⟨_, rfl⟩
      | call f args =>
        obtain ⟨xs, h1⟩ := renameL_ok (names := posOf done) args
          (fun a ha hc => varOf_done (ht done _ rest rfl a (by simp [T.needs, ha, hc])))
        exact ⟨.assign done.length (.call f xs), by simp only [headIns, T.rename, hvar, h1]; rfl⟩
    obtain ⟨h, hh⟩ := hhead
    obtain ⟨tail, htail⟩ := emit_ok g goals rest (done ++ [n])
      ((live ++ [(done.length, n)]).filter fun p => neededBy g p.2 rest) (happ ▸ hn) (happ ▸ ht) (happ ▸ hm)
    rw [hlen, pos_step] at htail
    refine ⟨h :: (if n ∈ goals then [.export done.length n] else []) ++
      ((live ++ [(done.length, n)]).filter fun p => !neededBy g p.2 rest).map (fun p => .delete p.1) ++ tail, ?_⟩
    simp only [emit, hh]
    change (emit g goals (done.length + 1) _ _ rest >>= _) = _
    rw [htail]; rfl

theorem exec_emit {goals : List Node} {g : Graph} (ok : GraphOK goals g) : ∀ (rest done : List Node) (s : Vars V),
    (done ++ rest).Nodup → Topo (done ++ rest) → (∀ x ∈ done ++ rest, x ∈ g.table ∧ x.isConst = false) →
    VarsOK lib ext s (liveOf g done rest) →
    ∃ is, emit g goals done.length (posOf done) (liveOf g done rest) rest = .ok is ∧
      exec lib ext s is = (runAll lib ext goals rest).map fun r => (r, [])
  | [], done, s, _, _, _, hv => by
    refine ⟨[], rfl, ?_⟩
    have : s = [] := by
      cases s with
      | nil => rfl
      | cons q s =>
        have := hv.key q (by simp)
        simp [liveOf, neededBy] at this
    subst this; rfl
  | n :: rest, done, s, hn, ht, hm, hv => by
    have happ : done ++ n :: rest = (done ++ [n]) ++ rest := by simp
    have hlen : (done ++ [n]).length = done.length + 1 := by simp
    have hpos : posOf (done ++ [n]) = posOf done ++ [(n, done.length)] := by
      simp [posOf, List.zipIdx_append]
    obtain ⟨hnt, hnc⟩ := hm n (by simp)
    have hfresh : n ∉ done := by
      intro h
      rw [List.nodup_append] at hn
      exact hn.2.2 n h n (by simp) rfl
    have hvar : varOf (posOf done) n = none := by
      cases h : varOf (posOf done) n with
      | none => rfl
      | some k =>
        have := varOf_mem h
        exact absurd (List.fst_mem_of_mem_zipIdx this) hfresh
    -- the arguments are live
    have harg : ∀ c ∈ n.needs, ∃ k v, varOf (posOf done) c = some k ∧ own lib ext c = .ok v ∧ s.get k = .ok v := by
      intro c hc
      have hcd : c ∈ done := ht done n rest rfl c hc
      obtain ⟨j, hj, hje⟩ := List.getElem_of_mem hcd
      have hz : (c, j) ∈ posOf done := by
        unfold posOf; rw [List.mem_zipIdx_iff_getElem?]; simp [List.getElem?_eq_getElem hj, hje]
      obtain ⟨k, hk⟩ := varOf_some hz
      have hkm := varOf_mem hk
      have hl : (k, c) ∈ liveOf g done (n :: rest) := by
        unfold liveOf
        refine List.mem_filter.2 ⟨List.mem_map.2 ⟨(c, k), hkm, rfl⟩, ?_⟩
        simp only [neededBy, List.any_cons, Bool.or_eq_true]
        exact .inl (by simpa using (mem_requires ok hnt).2 hc)
      obtain ⟨v, h1, h2⟩ := hv.val _ hl
      exact ⟨k, v, hk, h1, h2⟩
    -- the instruction that computes the node
    have hhead : ∃ h, headIns (posOf done) done.length n = .ok h ∧ ∀ is,
        exec lib ext s (h :: is) = (own lib ext n >>= fun v => exec lib ext (s.put done.length v) is) := by
      cases n with
      | const v => simp [T.isConst] at hnc
      | bconst m v => exact ⟨_, rfl, fun is => rfl⟩
      | name m => exact ⟨_, rfl, fun is => rfl⟩
      | pred m b => exact ⟨_, rfl, fun is => rfl⟩
      | call f args =>
        obtain ⟨xs, h1, h2⟩ := rename_args (lib := lib) (ext := ext) (s := s) (names := posOf done) args
          (fun a ha hc => harg a (by simp [T.needs, ha, hc]))
        refine ⟨.assign done.length (.call f xs), ?_, ?_⟩
        · simp only [headIns, T.rename, hvar, h1]; rfl
        · intro is
          simp only [exec, calculate, own, h2]
          cases lib.fn f <;> rfl
    obtain ⟨h, hh, hx⟩ := hhead
    -- keys
    have hkeys : ((liveOf g done (n :: rest) ++ [(done.length, n)]).map (·.1)).Nodup := by
      have h1 : (List.map (·.1) ((done.zipIdx.map fun p => (p.2, p.1)) ++ [(done.length, n)])).Nodup := by
        rw [List.map_append, zip_keys]
        simp only [List.map_cons, List.map_nil]
        rw [← List.range_succ]
        exact List.nodup_range
      refine List.Nodup.sublist (List.Sublist.map _ ?_) h1
      exact List.Sublist.append List.filter_sublist (List.Sublist.refl _)
    set live' := liveOf g done (n :: rest) ++ [(done.length, n)] with hlive'
    set dead := live'.filter (fun p => !neededBy g p.2 rest) with hdead
    have hstep : live'.filter (fun p => neededBy g p.2 rest) = liveOf g (done ++ [n]) rest :=
      live_step g done rest n
    have hperm : (dead ++ liveOf g (done ++ [n]) rest).Perm live' := by
      rw [← hstep, hdead]
      have := List.filter_append_perm (fun p => !neededBy g p.2 rest) live'
      simpa using this
    -- the instructions are produced
    have hvalue : ∀ v, own lib ext n = .ok v → VarsOK lib ext (s.put done.length v) (dead ++ liveOf g (done ++ [n]) rest) := by
      intro v hvn
      have base : VarsOK lib ext (s.put done.length v) live' := by
        constructor
        · intro p hp
          rcases List.mem_append.1 hp with h1 | h1
          · obtain ⟨w, h2, h3⟩ := hv.val p h1
            refine ⟨w, h2, ?_⟩
            rw [Vars.get_put_ne s v, h3]
            intro he
            rw [hlive', List.map_append, List.nodup_append] at hkeys
            exact hkeys.2.2 p.1 (List.mem_map_of_mem h1) p.1 (by simp [he]) rfl
          · have : p = (done.length, n) := by simpa using h1
            subst this
            exact ⟨v, hvn, Vars.get_put_self s _ v⟩
        · intro q hq
          rcases List.mem_cons.1 hq with rfl | hq
          · simp [hlive']
          · have := hv.key q (List.mem_filter.1 hq).1
            rw [hlive', List.map_append]
            exact List.mem_append.2 (.inl this)
      exact ⟨fun p hp => base.val p (hperm.mem_iff.1 hp),
        fun q hq => (hperm.map _).mem_iff.2 (base.key q hq)⟩
    -- a state for which the rest is emitted
    have hrest : ∀ s', VarsOK lib ext s' (liveOf g (done ++ [n]) rest) →
        ∃ is, emit g goals (done.length + 1) (posOf done ++ [(n, done.length)]) (liveOf g (done ++ [n]) rest) rest =
          .ok is ∧ exec lib ext s' is = (runAll lib ext goals rest).map fun r => (r, []) := by
      intro s' hs'
      have := exec_emit ok rest (done ++ [n]) s' (happ ▸ hn) (happ ▸ ht) (happ ▸ hm) hs'
      rw [hlen, hpos] at this
      exact this
    have hem : ∃ is, emit g goals (done.length + 1) (posOf done ++ [(n, done.length)]) (liveOf g (done ++ [n]) rest) rest =
        .ok is := by
      have := emit_ok g goals rest (done ++ [n]) (liveOf g (done ++ [n]) rest) (happ ▸ hn) (happ ▸ ht)
        (fun x hx => (hm x (happ ▸ hx)).2)
      rw [hlen, hpos] at this
      exact this
    obtain ⟨tail, htail⟩ := hem
    refine ⟨h :: (if n ∈ goals then [.export done.length n] else []) ++
      dead.map (fun p => .delete p.1) ++ tail, ?_, ?_⟩
    · simp only [emit, hh]
      change (emit g goals (done.length + 1) _ (live'.filter _) rest >>= _) = _
      rw [hstep, htail]; rfl
    · rw [List.cons_append, List.cons_append, hx]
      cases hvn : own lib ext n with
      | error e => simp only [runAll, hvn]; rfl
      | ok v =>
        obtain ⟨s', h1, h2⟩ := exec_deletes (is := tail) dead _ _ (hvalue v hvn)
          ((hperm.map _).nodup_iff.2 hkeys)
        obtain ⟨is, h3, h4⟩ := hrest s' h1
        rw [htail] at h3
        have := Except.ok.inj h3; subst this
        simp only [runAll, hvn]
        change exec lib ext (s.put done.length v) ((if n ∈ goals then [.export done.length n] else []) ++
          dead.map (fun p => .delete p.1) ++ tail) = _
        split_ifs with hg
        · simp only [List.cons_append, List.nil_append, exec, Vars.get_put_self]
          change (exec lib ext (s.put done.length v) _ >>= _) = _
          rw [h2, h4]
          change _ = (runAll lib ext goals rest >>= _).map _
          cases runAll lib ext goals rest <;> rfl
        · simp only [List.nil_append]
          rw [h2, h4]
          change _ = (runAll lib ext goals rest >>= _).map _
          cases runAll lib ext goals rest <;> rfl

end Verif
