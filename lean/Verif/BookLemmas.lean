import Verif.SpecBook

/-!
# Lemmas on books
-/

namespace Verif

variable {α : Type}

/-! ## Paths -/

theorem comps_ne_nil (s : Str) : comps s ≠ [] := by
  cases s with
  | nil => simp [comps]
  | cons c cs =>
    rw [comps]
    split
    · simp
    · split <;> simp

theorem joinS_comps (s : Str) : joinS (comps s) = s := by
  induction s with
  | nil => rfl
  | cons c cs ih =>
    rw [comps]
    by_cases hc : c = '/'
    · rw [if_pos hc]
      have h := comps_ne_nil cs
      match hm : comps cs with
      | [] => exact absurd hm h
      | a :: t => rw [hm] at ih; simp [joinS, ih, hc]
    · rw [if_neg hc]
      match hm : comps cs with
      | [] => exact absurd hm (comps_ne_nil cs)
      | [a] => rw [hm] at ih; simp only [joinS] at ih ⊢; rw [ih]
      | a :: b :: t => rw [hm] at ih; simp only [joinS] at ih ⊢; rw [List.cons_append, ih]

theorem comps_noslash (s : Str) : ∀ n ∈ comps s, '/' ∉ n := by
  induction s with
  | nil => intro n hn; simp [comps] at hn; simp [hn]
  | cons c cs ih =>
    intro n hn
    rw [comps] at hn
    by_cases hc : c = '/'
    · rw [if_pos hc] at hn
      rcases List.mem_cons.mp hn with rfl | hn
      · simp
      · exact ih n hn
    · rw [if_neg hc] at hn
      match hm : comps cs with
      | [] => exact absurd hm (comps_ne_nil cs)
      | a :: t =>
        rw [hm] at hn ih
        rcases List.mem_cons.mp hn with rfl | hn
        · intro h
          rcases List.mem_cons.mp h with h | h
          · exact hc h.symm
          · exact ih a List.mem_cons_self h
        · exact ih n (List.mem_cons_of_mem _ hn)

/-- A name without slash is its own only part. -/
theorem comps_self {n : Str} (h : '/' ∉ n) : comps n = [n] := by
  induction n with
  | nil => rfl
  | cons c cs ih =>
    have hc : c ≠ '/' := fun e => h (e ▸ List.mem_cons_self)
    have := ih fun e => h (List.mem_cons_of_mem _ e)
    rw [comps, if_neg hc, this]

/-- The first part and the rest are what Python gets by cutting at the first slash. -/
theorem comps_slash {a : Str} (b : Str) (h : '/' ∉ a) : comps (a ++ '/' :: b) = a :: comps b := by
  induction a with
  | nil => simp [comps]
  | cons c cs ih =>
    have hc : c ≠ '/' := fun e => h (e ▸ List.mem_cons_self)
    have := ih fun e => h (List.mem_cons_of_mem _ e)
    rw [List.cons_append, comps, if_neg hc, this]

theorem comps_joinS {p : List Str} (hp : p ≠ []) (h : ∀ n ∈ p, '/' ∉ n) : comps (joinS p) = p := by
  induction p with
  | nil => exact absurd rfl hp
  | cons a t ih =>
    cases t with
    | nil => exact comps_self (h a List.mem_cons_self)
    | cons b t =>
      rw [joinS, comps_slash _ (h a List.mem_cons_self), ih (by simp) fun n hn => h n (List.mem_cons_of_mem _ hn)]

theorem slash_mem_joinS (a b : Str) (t : List Str) : '/' ∈ joinS (a :: b :: t) := by simp [joinS]

/-! ## The dictionary -/

theorem find_put_self (n : Str) (v : BT α) (c : BL α) : (c.put n v).find n = some v := by
  match c with
  | .nil => simp [BL.put, BL.find]
  | .cons m x r =>
    have := find_put_self n v r
    by_cases h : m = n
    · simp [BL.put, BL.find, h]
    · simp [BL.put, BL.find, h, this]

theorem find_put_ne {n m : Str} (h : m ≠ n) (v : BT α) (c : BL α) : (c.put n v).find m = c.find m := by
  match c with
  | .nil => simp [BL.put, BL.find, Ne.symm h]
  | .cons k x r =>
    have := find_put_ne h v r
    by_cases hk : k = n
    · subst hk; simp [BL.put, BL.find, Ne.symm h]
    · by_cases hm : k = m
      · subst hm; simp [BL.put, BL.find, h]
      · simp [BL.put, BL.find, hk, hm, this]

theorem mem_keys_iff (n : Str) (c : BL α) : n ∈ c.keys ↔ ∃ x, c.find n = some x := by
  match c with
  | .nil => simp [BL.keys, BL.find]
  | .cons m x r =>
    have := mem_keys_iff n r
    by_cases h : m = n
    · simp [BL.keys, BL.find, h]
    · simp [BL.keys, BL.find, h, this, Ne.symm h]

theorem find_none_iff (n : Str) (c : BL α) : c.find n = none ↔ n ∉ c.keys := by
  rw [mem_keys_iff, not_exists, Option.eq_none_iff_forall_ne_some]

theorem keys_put (n : Str) (v : BT α) (c : BL α) :
    (c.put n v).keys = if n ∈ c.keys then c.keys else c.keys ++ [n] := by
  match c with
  | .nil => simp [BL.put, BL.keys]
  | .cons m x r =>
    have := keys_put n v r
    by_cases h : m = n
    · simp [BL.put, BL.keys, h]
    · have h' : n ≠ m := Ne.symm h
      by_cases hr : n ∈ r.keys <;> simp [BL.put, BL.keys, h, h', hr, this]

theorem keys_del (n : Str) (c : BL α) : (c.del n).keys = c.keys.erase n := by
  match c with
  | .nil => simp [BL.del, BL.keys]
  | .cons m x r =>
    have := keys_del n r
    by_cases h : m = n
    · simp [BL.del, BL.keys, h]
    · rw [BL.del, if_neg h, BL.keys, BL.keys, this, List.erase_cons_tail (by simpa using h)]

theorem find_del_self {n : Str} {c : BL α} (h : c.keys.Nodup) : (c.del n).find n = none := by
  rw [find_none_iff, keys_del]
  exact fun hm => (List.Nodup.mem_erase_iff h).mp hm |>.1 rfl

theorem find_del_ne {n m : Str} (h : m ≠ n) (c : BL α) : (c.del n).find m = c.find m := by
  match c with
  | .nil => simp [BL.del]
  | .cons k x r =>
    have := find_del_ne h r
    by_cases hk : k = n
    · subst hk; simp [BL.del, BL.find, Ne.symm h]
    · by_cases hm : k = m
      · subst hm; simp [BL.del, BL.find, h]
      · simp [BL.del, BL.find, hk, hm, this]

theorem put_find {n : Str} {v : BT α} {c : BL α} (h : c.find n = some v) : c.put n v = c := by
  match c with
  | .nil => simp [BL.find] at h
  | .cons m x r =>
    by_cases hm : m = n
    · simp [BL.find, hm] at h; simp [BL.put, hm, h]
    · simp only [BL.find, hm, if_false] at h
      simp [BL.put, hm, put_find h]

/-! ## Well-formed books -/

theorem BL.WF.find {c : BL α} (h : c.WF) {n : Str} {x : BT α} (hx : c.find n = some x) : '/' ∉ n ∧ x.WF := by
  match c with
  | .nil => simp [BL.find] at hx
  | .cons m y r =>
    simp only [BL.WF] at h
    by_cases hm : m = n
    · simp only [BL.find, hm, if_true, Option.some.injEq] at hx
      subst hx; subst hm; exact ⟨h.1, h.2.1⟩
    · simp only [BL.find, hm, if_false] at hx
      exact BL.WF.find h.2.2 hx

theorem BL.WF.put {c : BL α} (h : c.WF) {n : Str} (hn : '/' ∉ n) {v : BT α} (hv : v.WF) : (c.put n v).WF := by
  match c with
  | .nil => simp [BL.put, BL.WF, hn, hv]
  | .cons m y r =>
    simp only [BL.WF] at h
    by_cases hm : m = n
    · simp [BL.put, hm, BL.WF, hn, hv, h.2.2]
    · simp [BL.put, hm, BL.WF, h.1, h.2.1, BL.WF.put h.2.2 hn hv]

theorem BL.WF.del {c : BL α} (h : c.WF) (n : Str) : (c.del n).WF := by
  match c with
  | .nil => simp [BL.del, BL.WF]
  | .cons m y r =>
    simp only [BL.WF] at h
    by_cases hm : m = n
    · simp [BL.del, hm, h.2.2]
    · simp [BL.del, hm, BL.WF, h.1, h.2.1, BL.WF.del h.2.2 n]

theorem nodup_put {c : BL α} (h : c.keys.Nodup) (n : Str) (v : BT α) : (c.put n v).keys.Nodup := by
  rw [keys_put]
  split
  · exact h
  · rename_i hn
    rw [List.nodup_append]
    refine ⟨h, by simp, ?_⟩
    intro a ha b hb
    simp only [List.mem_singleton] at hb
    rintro rfl; exact hn (hb ▸ ha)

theorem find_joined {c : BL α} (h : c.WF) (n m : Str) (r : List Str) : c.find (joinS (n :: m :: r)) = none := by
  match hf : c.find (joinS (n :: m :: r)) with
  | none => rfl
  | some x => exact absurd (slash_mem_joinS n m r) (h.find hf).1

/-- On well-formed books `_get` follows the path. -/
theorem getP_eq {b : BT α} (h : b.WF) (hb : b.isBook) : ∀ {p : List Str}, p ≠ [] → b.getP p = b.at p := by
  intro p
  induction p generalizing b with
  | nil => intro h; exact absurd rfl h
  | cons n t ih =>
    intro _
    cases b with
    | hist x => exact absurd hb id
    | book c f x =>
      have hx : x.WF := h.2
      cases t with
      | nil => simp [BT.getP, BT.at]
      | cons m r =>
        simp only [BT.getP, find_joined hx, BT.at]
        match hf : x.find n with
        | none => rfl
        | some (.hist k) => rfl
        | some (.book c' f' y) => exact ih (hx.find hf).2 trivial (by simp)

theorem changed_content (o : HistOps α) (c : BClass) (f : Fields α) (x : BL α) :
    ∃ f', outcome ((BT.book c f x).changed o) = .book c f' x := by
  cases c
  case systematics =>
    refine ⟨f, ?_⟩
    simp only [BT.changed]
    split <;> rfl
  all_goals exact ⟨_, rfl⟩

theorem changed_ok {o : HistOps α} {c : BClass} {f : Fields α} {x : BL α} {b : BT α}
    (h : (BT.book c f x).changed o = .ok b) : ∃ f', b = .book c f' x := by
  obtain ⟨f', hf⟩ := changed_content o c f x
  rw [h] at hf
  exact ⟨f', hf⟩

/-- What an operation leaves behind one level up. -/
theorem within_outcome (o : HistOps α) (c : BClass) (f : Fields α) (x : BL α) (n : Str)
    (r : Except (Err × BT α) (BT α)) :
    ∃ f', outcome (within o (fun b => .book c f (x.put n b)) r) = .book c f' (x.put n (outcome r)) := by
  cases r with
  | ok b => exact changed_content o c f _
  | error e => exact ⟨f, rfl⟩

theorem within_ok {o : HistOps α} {c : BClass} {f : Fields α} {x : BL α} {n : Str}
    {r : Except (Err × BT α) (BT α)} {b : BT α}
    (h : within o (fun b => .book c f (x.put n b)) r = .ok b) : ∃ y f', r = .ok y ∧ b = .book c f' (x.put n y) := by
  cases r with
  | ok y => obtain ⟨f', hf⟩ := changed_ok h; exact ⟨y, f', rfl, hf⟩
  | error e => cases h

/-! ## Assignment -/

/-- The entry at a path after an assignment, whether or not it raised. -/
theorem setP_wf (o : HistOps α) {v : BT α} (hv : v.WF) : ∀ {p : List Str} {b : BT α}, b.WF → (∀ n ∈ p, '/' ∉ n) →
    (outcome (BT.setP o v p b)).WF := by
  intro p
  induction p with
  | nil => intro b hb _; cases b <;> exact hb
  | cons n t ih =>
    intro b hb hp
    cases b with
    | hist x => cases t <;> exact hb
    | book c f x =>
      have hn : '/' ∉ n := hp n List.mem_cons_self
      have ht : ∀ m ∈ t, '/' ∉ m := fun m hm => hp m (List.mem_cons_of_mem _ hm)
      cases t with
      | nil =>
        obtain ⟨f', hf⟩ := changed_content o c f (x.put n v)
        rw [BT.setP, hf]
        exact ⟨nodup_put hb.1 n v, hb.2.put hn hv⟩
      | cons m r =>
        rw [BT.setP]
        split
        · obtain ⟨f', hf⟩ := within_outcome o c f x n (BT.setP o v (m :: r) newBook)
          rw [hf]
          exact ⟨nodup_put hb.1 n _, hb.2.put hn (ih (by simp [newBook, BT.WF, BL.WF, BL.keys]) ht)⟩
        · rename_i c' f' x' hfind
          obtain ⟨f'', hf⟩ := within_outcome o c f x n (BT.setP o v (m :: r) (.book c' f' x'))
          rw [hf]
          exact ⟨nodup_put hb.1 n _, hb.2.put hn (ih (hb.2.find hfind).2 ht)⟩
        · exact hb

theorem setP_at {o : HistOps α} {v : BT α} : ∀ {p : List Str} {b b' : BT α}, BT.setP o v p b = .ok b' →
    p ≠ [] → b'.at p = some v := by
  intro p
  induction p with
  | nil => intro b b' _ h; exact absurd rfl h
  | cons n t ih =>
    intro b b' h _
    cases b with
    | hist x => simp [BT.setP] at h
    | book c f x =>
      cases t with
      | nil =>
        obtain ⟨f', rfl⟩ := changed_ok h
        simp [BT.at, find_put_self]
      | cons m r =>
        rw [BT.setP] at h
        split at h
        · obtain ⟨y, f', hy, rfl⟩ := within_ok h
          simp only [BT.at, find_put_self, Option.bind_some]
          exact ih hy (by simp)
        · obtain ⟨y, f', hy, rfl⟩ := within_ok h
          simp only [BT.at, find_put_self, Option.bind_some]
          exact ih hy (by simp)
        · cases h

/-- An assignment does not change entries elsewhere. -/
theorem setP_other {o : HistOps α} {v : BT α} : ∀ {p : List Str} {b : BT α} {q : List Str},
    ¬ p <+: q → ¬ q <+: p → (outcome (BT.setP o v p b)).at q = b.at q := by
  intro p
  induction p with
  | nil => intro b q h; exact absurd (List.nil_prefix) h
  | cons n t ih =>
    intro b q hpq hqp
    cases q with
    | nil => exact absurd (List.nil_prefix) hqp
    | cons k s =>
      cases b with
      | hist x => cases t <;> rfl
      | book c f x =>
        cases t with
        | nil =>
          obtain ⟨f', hf⟩ := changed_content o c f (x.put n v)
          rw [BT.setP, hf, BT.at, BT.at]
          have hk : k ≠ n := by
            rintro rfl; exact hpq (by simp)
          rw [find_put_ne hk]
        | cons m r =>
          have step : ∀ y, x.find n = some y ∨ (x.find n = none ∧ y = newBook) → ∀ f'',
              (BT.book c f'' (x.put n (outcome (BT.setP o v (m :: r) y)))).at (k :: s) = (BT.book c f x).at (k :: s) := by
            intro y hy f''
            simp only [BT.at]
            by_cases hk : k = n
            · subst hk
              have h1 : ¬ (m :: r) <+: s := fun h => hpq ((List.cons_prefix_cons).mpr ⟨rfl, h⟩)
              have h2 : ¬ s <+: (m :: r) := fun h => hqp ((List.cons_prefix_cons).mpr ⟨rfl, h⟩)
              rw [find_put_self, Option.bind_some, ih h1 h2]
              rcases hy with hy | ⟨hy, rfl⟩
              · rw [hy, Option.bind_some]
              · rw [hy]
                cases s with
                | nil => exact absurd (List.nil_prefix) h2
                | cons a b => rfl
            · rw [find_put_ne hk]
          rw [BT.setP]
          split
          · rename_i hfind
            obtain ⟨f', hf⟩ := within_outcome o c f x n (BT.setP o v (m :: r) newBook)
            rw [hf]
            exact step newBook (Or.inr ⟨hfind, rfl⟩) f'
          · rename_i c' f' x' hfind
            obtain ⟨f'', hf⟩ := within_outcome o c f x n (BT.setP o v (m :: r) (.book c' f' x'))
            rw [hf]
            exact step _ (Or.inl hfind) f''
          · rfl

/-- On the way to the new entry there are books, of the same class if they were there before. -/
theorem setP_prefix {o : HistOps α} {v : BT α} : ∀ {p : List Str} {b b' : BT α} {q : List Str},
    BT.setP o v p b = .ok b' → q <+: p → q ≠ p →
    ∃ x, b'.at q = some x ∧ x.isBook ∧ (match b.at q with | some y => x.cls? = y.cls? | none => x.cls? = some .book) := by
  intro p
  induction p with
  | nil => intro b b' q _ h hne; exact absurd (List.prefix_nil.mp h) hne
  | cons n t ih =>
    intro b b' q h hq hne
    cases b with
    | hist x => simp [BT.setP] at h
    | book c f x =>
      cases q with
      | nil =>
        have key : ∀ l f', b' = BT.book c f' l → ∃ x_1, b'.at [] = some x_1 ∧ x_1.isBook ∧
            (match (BT.book c f x).at [] with | some y => x_1.cls? = y.cls? | none => x_1.cls? = some .book) := by
          rintro l f' rfl; exact ⟨_, rfl, trivial, rfl⟩
        cases t with
        | nil => obtain ⟨f', hf⟩ := changed_ok h; exact key _ _ hf
        | cons m r =>
          rw [BT.setP] at h
          split at h
          · obtain ⟨y, f', hy, hf⟩ := within_ok h; exact key _ _ hf
          · obtain ⟨y, f', hy, hf⟩ := within_ok h; exact key _ _ hf
          · cases h
      | cons k s =>
        obtain ⟨rfl, hs⟩ := List.cons_prefix_cons.mp hq
        have hne' : s ≠ t := fun e => hne (e ▸ rfl)
        cases t with
        | nil => exact absurd (List.prefix_nil.mp hs) hne'
        | cons m r =>
          rw [BT.setP] at h
          split at h
          · rename_i hfind
            obtain ⟨y, f', hy, rfl⟩ := within_ok h
            obtain ⟨z, hz, hb, hc⟩ := ih hy hs hne'
            refine ⟨z, by simp only [BT.at, find_put_self, Option.bind_some]; exact hz, hb, ?_⟩
            simp only [BT.at, hfind, Option.bind_none]
            cases s with
            | nil => simpa [BT.at, newBook, BT.cls?] using hc
            | cons a b => simpa [BT.at, newBook, BL.find] using hc
          · rename_i c' f' x' hfind
            obtain ⟨y, f'', hy, rfl⟩ := within_ok h
            obtain ⟨z, hz, hb, hc⟩ := ih hy hs hne'
            refine ⟨z, by simp only [BT.at, find_put_self, Option.bind_some]; exact hz, hb, ?_⟩
            simp only [BT.at, hfind, Option.bind_some]
            exact hc
          · cases h

/-! ## Exceptions of assignments -/

theorem changed_error {o : HistOps α} {c : BClass} {f : Fields α} {x : BL α} {e : Err} {b : BT α}
    (h : (BT.book c f x).changed o = .error (e, b)) : c = .systematics ∧ e = .valueError := by
  cases c <;> simp only [BT.changed] at h <;> try cases h
  split at h
  · cases h
  · cases h; exact ⟨rfl, rfl⟩

theorem changed_isOk {o : HistOps α} {c : BClass} (hc : c ≠ .systematics) (f : Fields α) (x : BL α) :
    ∃ b, (BT.book c f x).changed o = .ok b := by
  cases c
  case systematics => exact absurd rfl hc
  all_goals exact ⟨_, rfl⟩

theorem setP_newBook (o : HistOps α) (v : BT α) : ∀ {p : List Str}, p ≠ [] → ∃ b, BT.setP o v p newBook = .ok b := by
  intro p
  induction p with
  | nil => intro h; exact absurd rfl h
  | cons n t ih =>
    intro _
    cases t with
    | nil => exact changed_isOk (by simp) _ _
    | cons m r =>
      obtain ⟨y, hy⟩ := ih (by simp)
      obtain ⟨b, hb⟩ := changed_isOk (o := o) (c := .book) (by simp) .none ((BL.nil : BL α).put n y)
      refine ⟨b, ?_⟩
      simp only [newBook] at hy
      simp only [newBook, BT.setP, BL.find, within, hy]
      exact hb

/-- After an exception other than that of `_changed` the book is as before. -/
theorem setP_same {o : HistOps α} {v : BT α} : ∀ {p : List Str} {b b' : BT α} {e : Err},
    BT.setP o v p b = .error (e, b') → e ≠ .valueError → b' = b := by
  intro p
  induction p with
  | nil => intro b b' e h _; cases b <;> (cases h; rfl)
  | cons n t ih =>
    intro b b' e h he
    cases b with
    | hist x => cases t <;> (cases h; rfl)
    | book c f x =>
      cases t with
      | nil => exact absurd (changed_error h).2 he
      | cons m r =>
        rw [BT.setP] at h
        split at h
        · obtain ⟨y, hy⟩ := setP_newBook o v (p := m :: r) (by simp)
          rw [hy] at h
          exact absurd (changed_error h).2 he
        · rename_i c' f' x' hfind
          match hr : BT.setP o v (m :: r) (.book c' f' x') with
          | .ok y => rw [hr] at h; exact absurd (changed_error h).2 he
          | .error (e', y) =>
            rw [hr] at h
            simp only [within, Except.error.injEq, Prod.mk.injEq] at h
            obtain ⟨rfl, rfl⟩ := h
            rw [ih hr he, put_find hfind]
        · cases h; rfl

theorem Unchecked.sub {c : BClass} {f : Fields α} {x : BL α} {n : Str} {t : List Str} {y : BT α}
    (h : Unchecked (.book c f x) (n :: t)) (hy : x.find n = some y) : Unchecked y t := by
  intro q hq hne z hz
  refine h (n :: q) (List.cons_prefix_cons.mpr ⟨rfl, hq⟩) (by simpa using hne) z ?_
  simp only [BT.at, hy, Option.bind_some]
  exact hz

theorem Unchecked.head {c : BClass} {f : Fields α} {x : BL α} {n : Str} {t : List Str}
    (h : Unchecked (.book c f x) (n :: t)) : c ≠ .systematics := by
  rintro rfl
  exact h [] List.nil_prefix (by simp) _ rfl rfl

/-- Which assignments succeed. -/
theorem setP_isOk {o : HistOps α} {v : BT α} : ∀ {p : List Str} {b : BT α}, p ≠ [] → b.isBook → Unchecked b p →
    ((∃ b', BT.setP o v p b = .ok b') ↔ ∀ q, q <+: p → q ≠ p → ∀ h, b.at q ≠ some (.hist h)) := by
  intro p
  induction p with
  | nil => intro b h; exact absurd rfl h
  | cons n t ih =>
    intro b _ hb hu
    cases b with
    | hist x => exact absurd hb id
    | book c f x =>
      cases t with
      | nil =>
        refine ⟨fun _ q hq hne h => ?_, fun _ => changed_isOk hu.head _ _⟩
        cases q with
        | nil => simp [BT.at]
        | cons a s =>
          obtain ⟨rfl, hs⟩ := List.cons_prefix_cons.mp hq
          exact absurd (by rw [List.prefix_nil.mp hs]) hne
      | cons m r =>
        rw [BT.setP]
        match hf : x.find n with
        | none =>
          refine ⟨fun _ q hq hne h => ?_, fun _ => ?_⟩
          · cases q with
            | nil => simp [BT.at]
            | cons a s =>
              obtain ⟨rfl, hs⟩ := List.cons_prefix_cons.mp hq
              simp [BT.at, hf]
          · obtain ⟨y, hy⟩ := setP_newBook o v (p := m :: r) (by simp)
            rw [hy]
            exact changed_isOk hu.head _ _
        | some (.hist k) =>
          refine ⟨fun ⟨b', hb'⟩ => (by cases hb'), fun h => ?_⟩
          exact absurd (by simp [BT.at, hf]) (h [n] (by simp) (by simp) k)
        | some (.book c' f' x') =>
          have := ih (b := .book c' f' x') (by simp) trivial (hu.sub hf)
          constructor
          · rintro ⟨b', hb'⟩ q hq hne h
            obtain ⟨y, f'', hy, rfl⟩ := within_ok hb'
            cases q with
            | nil => simp [BT.at]
            | cons a s =>
              obtain ⟨rfl, hs⟩ := List.cons_prefix_cons.mp hq
              simp only [BT.at, hf, Option.bind_some]
              exact this.mp ⟨y, hy⟩ s hs (by simpa using hne) h
          · intro h
            obtain ⟨y, hy⟩ := this.mpr fun q hq hne k hk =>
              h (n :: q) (List.cons_prefix_cons.mpr ⟨rfl, hq⟩) (by simpa using hne) k
                (by simp only [BT.at, hf, Option.bind_some]; exact hk)
            simp only [hy]
            exact changed_isOk hu.head _ _

/-- The exception is a `KeyError`. -/
theorem setP_error {o : HistOps α} {v : BT α} : ∀ {p : List Str} {b b' : BT α} {e : Err}, p ≠ [] → b.isBook →
    Unchecked b p → BT.setP o v p b = .error (e, b') → e = .keyError := by
  intro p
  induction p with
  | nil => intro b b' e h; exact absurd rfl h
  | cons n t ih =>
    intro b b' e _ hb hu h
    cases b with
    | hist x => exact absurd hb id
    | book c f x =>
      cases t with
      | nil => exact absurd (changed_error h).1 hu.head
      | cons m r =>
        rw [BT.setP] at h
        split at h
        · obtain ⟨y, hy⟩ := setP_newBook o v (p := m :: r) (by simp)
          rw [hy] at h
          exact absurd (changed_error h).1 hu.head
        · rename_i c' f' x' hfind
          match hr : BT.setP o v (m :: r) (.book c' f' x') with
          | .ok y => rw [hr] at h; exact absurd (changed_error h).1 hu.head
          | .error (e', y) =>
            rw [hr] at h
            simp only [within, Except.error.injEq, Prod.mk.injEq] at h
            obtain ⟨rfl, rfl⟩ := h
            exact ih (b := .book c' f' x') (by simp) trivial (hu.sub hfind) hr
        · cases h; rfl

/-! ## Deletion -/

theorem delP_cons {o : HistOps α} {c : BClass} {f : Fields α} {x : BL α} (hx : x.WF) (n m : Str) (r : List Str) :
    BT.delP o (n :: m :: r) (.book c f x) =
      match x.find n with
      | some (.book c' f' y) => within o (fun b => .book c f (x.put n b)) (BT.delP o (m :: r) (.book c' f' y))
      | _ => .error (.keyError, .book c f x) := by
  simp only [BT.delP, find_joined hx]
  rcases x.find n with _ | (_ | _) <;> rfl

theorem delP_wf (o : HistOps α) : ∀ {p : List Str} {b : BT α}, b.WF → (∀ n ∈ p, '/' ∉ n) →
    (outcome (BT.delP o p b)).WF := by
  intro p
  induction p with
  | nil => intro b hb _; cases b <;> exact hb
  | cons n t ih =>
    intro b hb hp
    cases b with
    | hist x => cases t <;> exact hb
    | book c f x =>
      have hn : '/' ∉ n := hp n List.mem_cons_self
      cases t with
      | nil =>
        rw [BT.delP]
        split
        · obtain ⟨f', hf⟩ := changed_content o c f (x.del n)
          rw [hf]
          exact ⟨by rw [keys_del]; exact hb.1.erase n, hb.2.del n⟩
        · exact hb
      | cons m r =>
        rw [delP_cons hb.2]
        split
        · rename_i c' f' y hfind
          obtain ⟨f'', hf⟩ := within_outcome o c f x n (BT.delP o (m :: r) (.book c' f' y))
          rw [hf]
          exact ⟨nodup_put hb.1 n _, hb.2.put hn (ih (hb.2.find hfind).2 fun k hk => hp k (List.mem_cons_of_mem _ hk))⟩
        · exact hb

theorem at_append (p q : List Str) (b : BT α) : b.at (p ++ q) = (b.at p).bind (BT.at q) := by
  induction p generalizing b with
  | nil => rfl
  | cons n t ih =>
    cases b with
    | hist x => rfl
    | book c f x =>
      simp only [List.cons_append, BT.at]
      cases x.find n with
      | none => rfl
      | some y => exact ih y

theorem delP_at {o : HistOps α} : ∀ {p : List Str} {b b' : BT α}, b.WF → BT.delP o p b = .ok b' → b'.at p = none := by
  intro p
  induction p with
  | nil => intro b b' _ h; cases b <;> cases h
  | cons n t ih =>
    intro b b' hb h
    cases b with
    | hist x => cases t <;> cases h
    | book c f x =>
      cases t with
      | nil =>
        rw [BT.delP] at h
        split at h
        · obtain ⟨f', rfl⟩ := changed_ok h
          simp [BT.at, find_del_self hb.1]
        · cases h
      | cons m r =>
        rw [delP_cons hb.2] at h
        split at h
        · rename_i c' f' y hfind
          obtain ⟨z, f'', hz, rfl⟩ := within_ok h
          simp only [BT.at, find_put_self, Option.bind_some]
          exact ih (hb.2.find hfind).2 hz
        · cases h

theorem delP_other {o : HistOps α} : ∀ {p : List Str} {b : BT α} {q : List Str}, b.WF →
    ¬ p <+: q → ¬ q <+: p → (outcome (BT.delP o p b)).at q = b.at q := by
  intro p
  induction p with
  | nil => intro b q _ h; exact absurd (List.nil_prefix) h
  | cons n t ih =>
    intro b q hb hpq hqp
    cases q with
    | nil => exact absurd (List.nil_prefix) hqp
    | cons k s =>
      cases b with
      | hist x => cases t <;> rfl
      | book c f x =>
        cases t with
        | nil =>
          rw [BT.delP]
          split
          · obtain ⟨f', hf⟩ := changed_content o c f (x.del n)
            rw [hf, BT.at, BT.at]
            have hk : k ≠ n := by
              rintro rfl; exact hpq (by simp)
            rw [find_del_ne hk]
          · rfl
        | cons m r =>
          rw [delP_cons hb.2]
          split
          · rename_i c' f' y hfind
            obtain ⟨f'', hf⟩ := within_outcome o c f x n (BT.delP o (m :: r) (.book c' f' y))
            rw [hf, BT.at, BT.at]
            by_cases hk : k = n
            · subst hk
              have h1 : ¬ (m :: r) <+: s := fun h => hpq ((List.cons_prefix_cons).mpr ⟨rfl, h⟩)
              have h2 : ¬ s <+: (m :: r) := fun h => hqp ((List.cons_prefix_cons).mpr ⟨rfl, h⟩)
              rw [find_put_self, Option.bind_some, ih (hb.2.find hfind).2 h1 h2, hfind, Option.bind_some]
            · rw [find_put_ne hk]
          · rfl

theorem delP_prefix {o : HistOps α} : ∀ {p : List Str} {b b' : BT α} {q : List Str}, b.WF →
    BT.delP o p b = .ok b' → q <+: p → q ≠ p →
    ∃ x y, b'.at q = some x ∧ b.at q = some y ∧ x.isBook ∧ x.cls? = y.cls? := by
  intro p
  induction p with
  | nil => intro b b' q _ _ h hne; exact absurd (List.prefix_nil.mp h) hne
  | cons n t ih =>
    intro b b' q hb h hq hne
    cases b with
    | hist x => cases t <;> cases h
    | book c f x =>
      cases t with
      | nil =>
        rw [BT.delP] at h
        split at h
        · obtain ⟨f', rfl⟩ := changed_ok h
          cases q with
          | nil => exact ⟨_, _, rfl, rfl, trivial, rfl⟩
          | cons a s =>
            obtain ⟨rfl, hs⟩ := List.cons_prefix_cons.mp hq
            exact absurd (by rw [List.prefix_nil.mp hs]) hne
        · cases h
      | cons m r =>
        rw [delP_cons hb.2] at h
        split at h
        · rename_i c' f' y hfind
          obtain ⟨z, f'', hz, rfl⟩ := within_ok h
          cases q with
          | nil => exact ⟨_, _, rfl, rfl, trivial, rfl⟩
          | cons a s =>
            obtain ⟨rfl, hs⟩ := List.cons_prefix_cons.mp hq
            obtain ⟨u, v, hu, hv, h1, h2⟩ := ih (hb.2.find hfind).2 hz hs (by simpa using hne)
            refine ⟨u, v, ?_, ?_, h1, h2⟩
            · simp only [BT.at, find_put_self, Option.bind_some]; exact hu
            · simp only [BT.at, hfind, Option.bind_some]; exact hv
        · cases h

theorem delP_isOk {o : HistOps α} : ∀ {p : List Str} {b : BT α}, p ≠ [] → b.WF → b.isBook → Unchecked b p →
    ((∃ b', BT.delP o p b = .ok b') ↔ ∃ x, b.at p = some x) := by
  intro p
  induction p with
  | nil => intro b h; exact absurd rfl h
  | cons n t ih =>
    intro b _ hw hb hu
    cases b with
    | hist x => exact absurd hb id
    | book c f x =>
      cases t with
      | nil =>
        rw [BT.delP]
        match hf : x.find n with
        | some y =>
          exact ⟨fun _ => ⟨y, by simp [BT.at, hf]⟩, fun _ => changed_isOk hu.head _ _⟩
        | none =>
          refine ⟨fun ⟨b', hb'⟩ => (by cases hb'), fun ⟨y, hy⟩ => ?_⟩
          simp [BT.at, hf] at hy
      | cons m r =>
        rw [delP_cons hw.2]
        match hf : x.find n with
        | none =>
          refine ⟨fun ⟨b', hb'⟩ => (by cases hb'), fun ⟨y, hy⟩ => ?_⟩
          simp [BT.at, hf] at hy
        | some (.hist k) =>
          refine ⟨fun ⟨b', hb'⟩ => (by cases hb'), fun ⟨y, hy⟩ => ?_⟩
          simp [BT.at, hf] at hy
        | some (.book c' f' y) =>
          have := ih (b := .book c' f' y) (by simp) (hw.2.find hf).2 trivial (hu.sub hf)
          constructor
          · rintro ⟨b', hb'⟩
            obtain ⟨z, f'', hz, rfl⟩ := within_ok hb'
            obtain ⟨u, hu⟩ := this.mp ⟨z, hz⟩
            exact ⟨u, by rw [BT.at, hf, Option.bind_some]; exact hu⟩
          · rintro ⟨u, hu'⟩
            rw [BT.at, hf, Option.bind_some] at hu'
            obtain ⟨z, hz⟩ := this.mpr ⟨u, hu'⟩
            simp only [hz]
            exact changed_isOk hu.head _ _

theorem delP_same {o : HistOps α} : ∀ {p : List Str} {b b' : BT α} {e : Err}, b.WF →
    BT.delP o p b = .error (e, b') → e ≠ .valueError → b' = b := by
  intro p
  induction p with
  | nil => intro b b' e _ h _; cases b <;> (cases h; rfl)
  | cons n t ih =>
    intro b b' e hb h he
    cases b with
    | hist x => cases t <;> (cases h; rfl)
    | book c f x =>
      cases t with
      | nil =>
        rw [BT.delP] at h
        split at h
        · exact absurd (changed_error h).2 he
        · cases h; rfl
      | cons m r =>
        rw [delP_cons hb.2] at h
        split at h
        · rename_i c' f' x' hfind
          match hr : BT.delP o (m :: r) (.book c' f' x') with
          | .ok y => rw [hr] at h; exact absurd (changed_error h).2 he
          | .error (e', y) =>
            rw [hr] at h
            simp only [within, Except.error.injEq, Prod.mk.injEq] at h
            obtain ⟨rfl, rfl⟩ := h
            rw [ih (hb.2.find hfind).2 hr he, put_find hfind]
        · cases h; rfl

theorem delP_error {o : HistOps α} : ∀ {p : List Str} {b b' : BT α} {e : Err}, p ≠ [] → b.WF → b.isBook →
    Unchecked b p → BT.delP o p b = .error (e, b') → e = .keyError := by
  intro p
  induction p with
  | nil => intro b b' e h; exact absurd rfl h
  | cons n t ih =>
    intro b b' e _ hw hb hu h
    cases b with
    | hist x => exact absurd hb id
    | book c f x =>
      cases t with
      | nil =>
        rw [BT.delP] at h
        split at h
        · exact absurd (changed_error h).1 hu.head
        · cases h; rfl
      | cons m r =>
        rw [delP_cons hw.2] at h
        split at h
        · rename_i c' f' x' hfind
          match hr : BT.delP o (m :: r) (.book c' f' x') with
          | .ok y => rw [hr] at h; exact absurd (changed_error h).1 hu.head
          | .error (e', y) =>
            rw [hr] at h
            simp only [within, Except.error.injEq, Prod.mk.injEq] at h
            obtain ⟨rfl, rfl⟩ := h
            exact ih (b := .book c' f' x') (by simp) (hw.2.find hfind).2 trivial (hu.sub hfind) hr
        · cases h; rfl

/-! ## Listing -/

mutual
theorem mem_all_BL (c : BL α) (path q : List Str) (x : BT α) (hn : c.keys.Nodup) (hw : c.WF) :
    (q, x) ∈ c.all path ↔ ∃ n t y, q = path ++ n :: t ∧ c.find n = some y ∧ y.at t = some x := by
  match c with
  | .nil => simp [BL.all, BL.find]
  | .cons m z r =>
    simp only [BL.WF] at hw
    simp only [BL.keys, List.nodup_cons] at hn
    have h1 := mem_all_BT z (path ++ [m]) q x hw.2.1
    have h2 := mem_all_BL r path q x hn.2 hw.2.2
    rw [BL.all, List.cons_append, List.mem_cons, List.mem_append, h1, h2]
    constructor
    · rintro (h | ⟨t, ht, rfl, ha⟩ | ⟨n, t, y, rfl, hf, ha⟩)
      · cases h
        exact ⟨m, [], x, rfl, by simp [BL.find], rfl⟩
      · exact ⟨m, t, z, by simp, by simp [BL.find], ha⟩
      · refine ⟨n, t, y, rfl, ?_, ha⟩
        have : m ≠ n := by
          rintro rfl
          exact hn.1 ((mem_keys_iff m r).mpr ⟨y, hf⟩)
        simp [BL.find, this, hf]
    · rintro ⟨n, t, y, rfl, hf, ha⟩
      by_cases hm : m = n
      · subst hm
        simp only [BL.find, if_true, Option.some.injEq] at hf
        subst hf
        cases t with
        | nil =>
          left
          simp only [BT.at, Option.some.injEq] at ha
          rw [ha]
        | cons a s => right; left; exact ⟨a :: s, by simp, by simp, ha⟩
      · simp only [BL.find, hm, if_false] at hf
        right; right
        exact ⟨n, t, y, rfl, hf, ha⟩
theorem mem_all_BT (b : BT α) (path q : List Str) (x : BT α) (hw : b.WF) :
    (q, x) ∈ b.all path ↔ ∃ t, t ≠ [] ∧ q = path ++ t ∧ b.at t = some x := by
  match b with
  | .hist h =>
    simp only [BT.all, List.not_mem_nil, false_iff, not_exists]
    rintro t ⟨ht, rfl, ha⟩
    cases t with
    | nil => exact ht rfl
    | cons a s => cases ha
  | .book c f l =>
    rw [BT.all, mem_all_BL l path q x hw.1 hw.2]
    constructor
    · rintro ⟨n, t, y, rfl, hf, ha⟩
      exact ⟨n :: t, by simp, rfl, by simp [BT.at, hf, ha]⟩
    · rintro ⟨t, ht, rfl, ha⟩
      cases t with
      | nil => exact absurd rfl ht
      | cons n s =>
        simp only [BT.at] at ha
        match hf : l.find n with
        | none => rw [hf] at ha; cases ha
        | some y => rw [hf] at ha; exact ⟨n, s, y, rfl, hf, ha⟩
end

mutual
theorem nodup_all_BL (c : BL α) (path : List Str) (hn : c.keys.Nodup) (hw : c.WF) :
    ((c.all path).map (·.1)).Nodup := by
  match c with
  | .nil => simp [BL.all]
  | .cons m z r =>
    simp only [BL.WF] at hw
    simp only [BL.keys, List.nodup_cons] at hn
    have h1 := nodup_all_BT z (path ++ [m]) hw.2.1
    have h2 := nodup_all_BL r path hn.2 hw.2.2
    rw [BL.all, List.cons_append, List.map_cons, List.nodup_cons, List.map_append, List.nodup_append]
    have hr : ∀ q, q ∈ (r.all path).map (·.1) → ∃ n t, q = path ++ n :: t ∧ n ∈ r.keys := by
      intro q hq
      obtain ⟨⟨q', x⟩, hx, rfl⟩ := List.mem_map.mp hq
      obtain ⟨n, t, y, h, hf, _⟩ := (mem_all_BL r path q' x hn.2 hw.2.2).mp hx
      exact ⟨n, t, h, (mem_keys_iff n r).mpr ⟨y, hf⟩⟩
    have hz : ∀ q, q ∈ (z.all (path ++ [m])).map (·.1) → ∃ t, t ≠ [] ∧ q = path ++ m :: t := by
      intro q hq
      obtain ⟨⟨q', x⟩, hx, rfl⟩ := List.mem_map.mp hq
      obtain ⟨t, ht, h, _⟩ := (mem_all_BT z (path ++ [m]) q' x hw.2.1).mp hx
      exact ⟨t, ht, by rw [h]; simp⟩
    refine ⟨?_, h1, h2, ?_⟩
    · rw [List.mem_append]
      rintro (h | h)
      · obtain ⟨t, ht, h⟩ := hz _ h
        simp only [List.append_cancel_left_eq, List.cons.injEq, true_and] at h
        exact ht h.symm
      · obtain ⟨n, t, h, hk⟩ := hr _ h
        simp only [List.append_cancel_left_eq, List.cons.injEq] at h
        exact hn.1 (h.1 ▸ hk)
    · rintro a ha b hb rfl
      obtain ⟨t, ht, h⟩ := hz _ ha
      obtain ⟨n, t', h', hk⟩ := hr _ hb
      rw [h] at h'
      simp only [List.append_cancel_left_eq, List.cons.injEq] at h'
      exact hn.1 (h'.1 ▸ hk)
theorem nodup_all_BT (b : BT α) (path : List Str) (hw : b.WF) : ((b.all path).map (·.1)).Nodup := by
  match b with
  | .hist h => simp [BT.all]
  | .book c f l => rw [BT.all]; exact nodup_all_BL l path hw.1 hw.2
end

/-- The names on the way to an entry have no slash. -/
theorem at_noslash : ∀ {p : List Str} {b x : BT α}, b.WF → b.at p = some x → ∀ n ∈ p, '/' ∉ n := by
  intro p
  induction p with
  | nil => intro b x _ _ n hn; cases hn
  | cons m t ih =>
    intro b x hb h n hn
    cases b with
    | hist k => cases h
    | book c f l =>
      simp only [BT.at] at h
      match hf : l.find m with
      | none => rw [hf] at h; cases h
      | some y =>
        rw [hf] at h
        rcases List.mem_cons.mp hn with rfl | hn
        · exact (hb.2.find hf).1
        · exact ih (hb.2.find hf).2 h n hn

theorem at_wf : ∀ {p : List Str} {b x : BT α}, b.WF → b.at p = some x → x.WF := by
  intro p
  induction p with
  | nil => intro b x hb h; cases h; exact hb
  | cons m t ih =>
    intro b x hb h
    cases b with
    | hist k => cases h
    | book c f l =>
      simp only [BT.at] at h
      match hf : l.find m with
      | none => rw [hf] at h; cases h
      | some y => rw [hf] at h; exact ih (hb.2.find hf).2 h

end Verif
