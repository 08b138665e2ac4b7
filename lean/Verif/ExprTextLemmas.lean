import Verif.SpecExprText

/-!
# Lemmas on reading expressions
-/

namespace Verif

theorem bind_imp {α β : Type} {x y : Option α} {f g : α → Option β} {r : β} (h : x.bind f = some r)
    (hx : ∀ a, x = some a → y = some a) (hf : ∀ a, f a = some r → g a = some r) : y.bind g = some r := by
  cases x with
  | none => simp at h
  | some a => rw [hx a rfl]; exact hf a h

theorem readSet_mono : ∀ (f : ℕ) (ts : List XTok) (r : List ℚ × List XTok), readSet f ts = some r →
    readSet (f + 1) ts = some r
  | 0, _, _, h => by simp [readSet] at h
  | f + 1, ts, r, h => by
    rw [readSet] at h ⊢
    refine bind_imp h (fun _ h => h) fun p hp => ?_
    split at hp
    · exact bind_imp hp (fun a ha => readSet_mono f _ a ha) fun _ h => h
    · exact hp
    · simp at hp

theorem rdMore_op (f lvl : ℕ) (l : Py) (o : PyOp) (ts : List XTok) :
    rdMore (f + 1) lvl l (.op o :: ts) =
      if lvl ≤ o.prec then (rd f o.right ts).bind fun p => rdMore f lvl (.bin o l p.1) p.2
      else some (l, .op o :: ts) := by
  rw [rdMore]

theorem rdMore_cmp (f lvl : ℕ) (l : Py) (c : PyCmp) (ts : List XTok) :
    rdMore (f + 1) lvl l (.cmp c :: ts) =
      if lvl ≤ 2 then (rd f 3 ts).bind fun p => some (.compare l [c] [p.1], p.2)
      else some (l, .cmp c :: ts) := by
  rw [rdMore]

/-- More steps do not change what is read. -/
theorem rd_mono : ∀ f : ℕ,
    (∀ lvl ts r, rd f lvl ts = some r → rd (f + 1) lvl ts = some r) ∧
    (∀ lvl ts r, rdFirst f lvl ts = some r → rdFirst (f + 1) lvl ts = some r) ∧
    (∀ lvl l ts r, rdMore f lvl l ts = some r → rdMore (f + 1) lvl l ts = some r) ∧
    (∀ ts r, rdArgs f ts = some r → rdArgs (f + 1) ts = some r)
  | 0 => by simp [rd, rdFirst, rdMore, rdArgs]
  | f + 1 => by
    obtain ⟨h1, h2, h3, h4⟩ := rd_mono f
    refine ⟨?_, ?_, ?_, ?_⟩
    · intro lvl ts r h
      rw [rd] at h ⊢
      exact bind_imp h (fun a ha => h2 _ _ a ha) fun p hp => h3 _ _ _ _ hp
    · intro lvl ts r h
      have call : ∀ (s : String) (ts : List XTok), ((rdArgs f ts).bind fun p => some (Py.call s p.1, p.2)) = some r →
          ((rdArgs (f + 1) ts).bind fun p => some (Py.call s p.1, p.2)) = some r :=
        fun s ts h => bind_imp h (fun a ha => h4 _ a ha) fun p hp => hp
      rcases ts with _ | ⟨t, ts⟩
      · simp [rdFirst] at h
      cases t with
      | name s =>
        rcases ts with _ | ⟨t, ts⟩
        · simpa [rdFirst] using h
        cases t
        case lpar =>
          rcases ts with _ | ⟨t, ts⟩
          · simp only [rdFirst] at h ⊢
            exact call _ _ h
          cases t <;> simp only [rdFirst] at h ⊢ <;> first | exact h | exact call _ _ h
        all_goals simpa [rdFirst] using h
      | op o =>
        cases o
        case sub =>
          simp only [rdFirst] at h ⊢
          exact bind_imp h (fun a ha => h1 _ _ a ha) fun p hp => hp
        all_goals simp [rdFirst] at h
      | not =>
        simp only [rdFirst] at h ⊢
        split_ifs at h ⊢
        exact bind_imp h (fun a ha => h1 _ _ a ha) fun p hp => hp
      | lpar =>
        simp only [rdFirst] at h ⊢
        exact bind_imp h (fun a ha => h1 _ _ a ha) fun p hp => hp
      | lbrace =>
        simp only [rdFirst] at h ⊢
        exact bind_imp h (fun a ha => readSet_mono _ _ a ha) fun p hp => hp
      | num q => simpa [rdFirst] using h
      | _ => simp [rdFirst] at h
    · intro lvl l ts r h
      rcases ts with _ | ⟨t, ts⟩
      · simpa [rdMore] using h
      cases t with
      | op o =>
        rw [rdMore_op] at h ⊢
        split_ifs at h ⊢
        · exact bind_imp h (fun a ha => h1 _ _ a ha) fun p hp => h3 _ _ _ _ hp
        · exact h
      | cmp c =>
        rw [rdMore_cmp] at h ⊢
        split_ifs at h ⊢
        · exact bind_imp h (fun a ha => h1 _ _ a ha) fun p hp => hp
        · exact h
      | _ => simpa [rdMore] using h
    · intro ts r h
      rw [rdArgs] at h ⊢
      refine bind_imp h (fun a ha => h1 _ _ a ha) fun p hp => ?_
      split at hp
      · exact bind_imp hp (fun a ha => h4 _ a ha) fun _ h => h
      · exact hp
      · simp at hp

theorem rd_le {f g : ℕ} (hfg : f ≤ g) {lvl : ℕ} {ts : List XTok} {r : Py × List XTok} (h : rd f lvl ts = some r) :
    rd g lvl ts = some r := by
  induction hfg with
  | refl => exact h
  | step _ ih => exact (rd_mono _).1 _ _ _ ih

theorem rdFirst_le {f g : ℕ} (hfg : f ≤ g) {lvl : ℕ} {ts : List XTok} {r : Py × List XTok}
    (h : rdFirst f lvl ts = some r) : rdFirst g lvl ts = some r := by
  induction hfg with
  | refl => exact h
  | step _ ih => exact (rd_mono _).2.1 _ _ _ ih

theorem rdMore_le {f g : ℕ} (hfg : f ≤ g) {lvl : ℕ} {l : Py} {ts : List XTok} {r : Py × List XTok}
    (h : rdMore f lvl l ts = some r) : rdMore g lvl l ts = some r := by
  induction hfg with
  | refl => exact h
  | step _ ih => exact (rd_mono _).2.2.1 _ _ _ _ ih

theorem rdArgs_le {f g : ℕ} (hfg : f ≤ g) {ts : List XTok} {r : List Py × List XTok}
    (h : rdArgs f ts = some r) : rdArgs g ts = some r := by
  induction hfg with
  | refl => exact h
  | step _ ih => exact (rd_mono _).2.2.2 _ _ ih

theorem readSet_le {f g : ℕ} (hfg : f ≤ g) {ts : List XTok} {r : List ℚ × List XTok}
    (h : readSet f ts = some r) : readSet g ts = some r := by
  induction hfg with
  | refl => exact h
  | step _ ih => exact readSet_mono _ _ _ ih

/-- A text is read in one way only. -/
theorem reads_unique {ts : List XTok} {s s' : Py} (h : Reads ts s) (h' : Reads ts s') : s = s' := by
  obtain ⟨f, hf⟩ := h
  obtain ⟨g, hg⟩ := h'
  have h1 := rd_le (le_max_left f g) hf
  have h2 := rd_le (le_max_right f g) hg
  rw [h1] at h2
  exact congrArg Prod.fst (Option.some.inj h2)

/-- Reading at level `m` stops here. -/
def Stop (m : ℕ) : List XTok → Prop
  | .op o :: _ => o.prec < m
  | .cmp _ :: _ => 2 < m
  | .lpar :: _ => False
  | _ => True

theorem Stop.mono {m m' : ℕ} (h : m ≤ m') : ∀ {ts : List XTok}, Stop m ts → Stop m' ts
  | [], _ => trivial
  | t :: ts, hs => by
    cases t with
    | op o => exact Nat.lt_of_lt_of_le hs h
    | cmp c => exact Nat.lt_of_lt_of_le hs h
    | lpar => exact hs
    | _ => trivial

theorem Stop.more {m : ℕ} {ts : List XTok} (h : Stop m ts) (l : Py) : rdMore 1 m l ts = some (l, ts) := by
  rcases ts with _ | ⟨t, ts⟩
  · simp [rdMore]
  cases t with
  | op o => rw [rdMore_op, if_neg (Nat.not_le.2 h)]
  | cmp c => rw [rdMore_cmp, if_neg (Nat.not_le.2 h)]
  | _ => simp [rdMore]

/-- What may follow a text of the given level. -/
def after (p : ℕ) : ℕ := if p = 10 ∨ p ≤ 2 then p else p + 1

theorem after_mono {p q : ℕ} (h : p ≤ q) : after p ≤ after q := by
  unfold after
  split_ifs <;> omega

/-- The text is read as the expression, and reading goes on after it. -/
def Shows (p : ℕ) (t : List XTok) (s : Py) : Prop :=
  ∀ lvl ≤ p, ∀ rest, Stop (after p) rest → ∀ f r, rdMore f lvl s rest = some r → ∃ g, rd g lvl (t ++ rest) = some r

theorem Shows.lower {p q : ℕ} {t : List XTok} {s : Py} (h : Shows q t s) (hpq : p ≤ q) : Shows p t s :=
  fun lvl hl rest hr => h lvl (hl.trans hpq) rest (hr.mono (after_mono hpq))

theorem Shows.read {p : ℕ} {t : List XTok} {s : Py} (h : Shows p t s) {lvl : ℕ} (hl : lvl ≤ p) {rest : List XTok}
    (hr : Stop lvl rest) : ∃ g, rd g lvl (t ++ rest) = some (s, rest) :=
  h lvl hl rest (hr.mono (by unfold after; split_ifs <;> omega)) 1 _ (hr.more s)

theorem Shows.reads {p : ℕ} {t : List XTok} {s : Py} (h : Shows p t s) : Reads t s := by
  obtain ⟨g, hg⟩ := h.read (Nat.zero_le p) (rest := []) trivial
  exact ⟨g, by simpa using hg⟩

/-- Something that is read at once, like a name. -/
theorem shows_first {p : ℕ} {t : List XTok} {s : Py}
    (h : ∀ lvl ≤ p, ∀ rest, Stop (after p) rest → ∃ f, rdFirst f lvl (t ++ rest) = some (s, rest)) : Shows p t s := by
  intro lvl hl rest hr f r hm
  obtain ⟨g, hg⟩ := h lvl hl rest hr
  refine ⟨max f g + 1, ?_⟩
  rw [rd, rdFirst_le (le_max_right f g) hg]
  exact rdMore_le (le_max_left f g) hm

theorem shows_num {q : ℚ} : Shows 11 [.num q] (.num q) :=
  shows_first fun lvl _ rest _ => ⟨1, by simp [rdFirst]⟩

theorem shows_name {s : String} : Shows 11 [.name s] (.name s) :=
  shows_first fun lvl _ rest hr => ⟨1, by
    rcases rest with _ | ⟨t, ts⟩
    · simp [rdFirst]
    cases t with
    | lpar => exact hr.elim
    | _ => simp [rdFirst]⟩

theorem shows_neg {q : ℚ} : Shows 9 [.op .sub, .num q] (.neg (.num q)) :=
  shows_first fun lvl _ rest hr => by
    obtain ⟨g, hg⟩ := (shows_num (q := q)).read (lvl := 9) (by omega) (rest := rest) (by
      rcases rest with _ | ⟨t, ts⟩
      · trivial
      cases t with
      | op o =>
        have : o.prec < 10 := hr
        show o.prec < 9
        cases o <;> simp_all [PyOp.prec]
      | cmp c => show 2 < 9; omega
      | lpar => exact hr.elim
      | _ => trivial)
    refine ⟨g + 1, ?_⟩
    have hg' : rd g 9 (.num q :: rest) = some (.num q, rest) := hg
    simp [rdFirst, hg']

/-- A number as it is written. -/
def numPy (q : ℚ) : Py := if q < 0 then .neg (.num (-q)) else .num q

theorem shows_const {q : ℚ} : Shows (numLevel q) (numToks q) (numPy q) := by
  unfold numLevel numToks numPy
  split_ifs
  · exact shows_neg
  · exact shows_num

theorem shows_parens {p : ℕ} {t : List XTok} {s : Py} (h : Shows p t s) : Shows 11 (.lpar :: t ++ [.rpar]) s :=
  shows_first fun lvl _ rest _ => by
    obtain ⟨g, hg⟩ := h.read (Nat.zero_le p) (rest := .rpar :: rest) trivial
    refine ⟨g + 1, ?_⟩
    simp [rdFirst, hg, closing]

theorem shows_not {s : String} : Shows 1 [.not, .name s] (.lnot (.name s)) :=
  shows_first fun lvl hl rest hr => by
    obtain ⟨g, hg⟩ := (shows_name (s := s)).read (lvl := 1) (by omega) (rest := rest) hr
    refine ⟨g + 1, ?_⟩
    have hg' : rd g 1 (.name s :: rest) = some (.name s, rest) := hg
    simp [rdFirst, hg', hl]

/-! ## Calls -/

theorem rdArgs_shows : ∀ (l : List (ℕ × List XTok × Py)), l ≠ [] → (∀ x ∈ l, Shows x.1 x.2.1 x.2.2) →
    ∀ rest, ∃ f, rdArgs f (commas (l.map (·.2.1)) ++ .rpar :: rest) = some (l.map (·.2.2), rest)
  | [], h, _, _ => (h rfl).elim
  | [x], _, h, rest => by
    obtain ⟨g, hg⟩ := (h x (by simp)).read (Nat.zero_le _) (rest := .rpar :: rest) trivial
    exact ⟨g + 1, by simp [commas, rdArgs, hg]⟩
  | x :: y :: l, _, h, rest => by
    obtain ⟨f, hf⟩ := rdArgs_shows (y :: l) (by simp) (fun z hz => h z (by simp [hz])) rest
    obtain ⟨g, hg⟩ := (h x (by simp)).read (Nat.zero_le _)
      (rest := .comma :: commas ((y :: l).map (·.2.1)) ++ .rpar :: rest) trivial
    refine ⟨max f g + 1, ?_⟩
    have e : commas ((x :: y :: l).map (·.2.1)) ++ .rpar :: rest =
        x.2.1 ++ (.comma :: commas ((y :: l).map (·.2.1)) ++ .rpar :: rest) := by
      simp [commas]
    rw [e, rdArgs, rd_le (le_max_right f g) hg]
    have := rdArgs_le (le_max_left f g) hf
    simp only [Option.bind_some, List.cons_append] at this ⊢
    rw [this]
    simp

theorem commas_head (t : List XTok) (ts : List (List XTok)) : ∃ r, commas (t :: ts) = t ++ r := by
  cases ts with
  | nil => exact ⟨[], by simp [commas]⟩
  | cons u us => exact ⟨_, rfl⟩

theorem not_rpar {p : ℕ} {t : List XTok} {s : Py} (h : Shows p t s) (r : List XTok) : ∃ u us, t ++ r = u :: us ∧ u ≠ .rpar := by
  obtain ⟨g, hg⟩ := h.read (Nat.zero_le p) (rest := []) trivial
  rcases t with _ | ⟨u, us⟩
  · exfalso
    cases g with
    | zero => simp [rd] at hg
    | succ g =>
      cases g with
      | zero => simp [rd, rdFirst] at hg
      | succ g => simp [rd, rdFirst] at hg
  · refine ⟨u, us ++ r, rfl, ?_⟩
    rintro rfl
    cases g with
    | zero => simp [rd] at hg
    | succ g =>
      cases g with
      | zero => simp [rd, rdFirst] at hg
      | succ g => simp [rd, rdFirst] at hg

theorem shows_call {f : String} (l : List (ℕ × List XTok × Py)) (h : ∀ x ∈ l, Shows x.1 x.2.1 x.2.2) :
    Shows 11 (.name f :: .lpar :: commas (l.map (·.2.1)) ++ [.rpar]) (.call f (l.map (·.2.2))) :=
  shows_first fun lvl _ rest _ => by
    cases l with
    | nil => exact ⟨1, by simp [rdFirst, commas]⟩
    | cons x l =>
      obtain ⟨g, hg⟩ := rdArgs_shows (x :: l) (by simp) h rest
      obtain ⟨r, hr⟩ := commas_head x.2.1 (l.map (·.2.1))
      obtain ⟨u, us, hu, hne⟩ := not_rpar (h x (by simp)) (r ++ .rpar :: rest)
      have e : commas ((x :: l).map (·.2.1)) ++ .rpar :: rest = u :: us := by
        rw [List.map_cons, hr, List.append_assoc, hu]
      refine ⟨g + 1, ?_⟩
      have e' : (.name f :: .lpar :: commas ((x :: l).map (·.2.1)) ++ [.rpar]) ++ rest =
          .name f :: .lpar :: u :: us := by
        rw [← e]; simp
      rw [e] at hg
      rw [e']
      cases u <;> first | exact (hne rfl).elim | simp only [rdFirst, hg, Option.bind_some]

theorem readNum_toks (q : ℚ) (rest : List XTok) : readNum (numToks q ++ rest) = some (q, rest) := by
  unfold numToks
  split_ifs <;> simp [readNum]

theorem readSet_toks : ∀ (l : List ℚ), l ≠ [] → ∀ rest,
    ∃ f, readSet f (commas (l.map numToks) ++ .rbrace :: rest) = some (l, rest)
  | [], h, _ => (h rfl).elim
  | [q], _, rest => ⟨1, by simp [commas, readSet, readNum_toks]⟩
  | q :: q' :: l, _, rest => by
    obtain ⟨f, hf⟩ := readSet_toks (q' :: l) (by simp) rest
    refine ⟨f + 1, ?_⟩
    have e : commas ((q :: q' :: l).map numToks) ++ .rbrace :: rest =
        numToks q ++ (.comma :: (commas ((q' :: l).map numToks) ++ .rbrace :: rest)) := by simp [commas]
    rw [e, readSet, readNum_toks]
    simp only [Option.bind_some]
    rw [hf]
    rfl

theorem shows_set {l : List ℚ} (h : l ≠ []) : Shows 11 (setToks l) (.set l) :=
  shows_first fun lvl _ rest _ => by
    obtain ⟨q, l', rfl⟩ : ∃ q l', l = q :: l' := by
      cases l with
      | nil => exact (h rfl).elim
      | cons q l' => exact ⟨q, l', rfl⟩
    obtain ⟨f, hf⟩ := readSet_toks (q :: l') h rest
    refine ⟨f + 1, ?_⟩
    have e : setToks (q :: l') ++ rest = .lbrace :: (commas ((q :: l').map numToks) ++ .rbrace :: rest) := by
      simp [setToks]
    rw [e]
    simp only [rdFirst, hf, Option.bind_some]

/-! ## Operators -/

/-- Operators with their right operands. -/
def opToks : List (PyOp × List XTok × Py) → List XTok
  | [] => []
  | x :: xs => .op x.1 :: x.2.1 ++ opToks xs

/-- What is read of them, from the left. -/
def opPy (l : Py) (items : List (PyOp × List XTok × Py)) : Py := items.foldl (fun a x => .bin x.1 a x.2.2) l

theorem stop_ops {p : ℕ} : ∀ (items : List (PyOp × List XTok × Py)), (∀ x ∈ items, x.1.prec = p) →
    ∀ {rest : List XTok}, Stop (p + 1) rest → Stop (p + 1) (opToks items ++ rest)
  | [], _, _, h => h
  | x :: xs, hx, _, _ => by
    show x.1.prec < p + 1
    rw [hx x (by simp)]; omega

theorem more_chain {p : ℕ} : ∀ (items : List (PyOp × List XTok × Py)),
    (∀ x ∈ items, x.1.prec = p ∧ x.1.right = p + 1 ∧ Shows (p + 1) x.2.1 x.2.2) → ∀ lvl ≤ p, ∀ rest, Stop (p + 1) rest →
    ∀ l f r, rdMore f lvl (opPy l items) rest = some r → ∃ g, rdMore g lvl l (opToks items ++ rest) = some r
  | [], _, _, _, _, _, _, f, _, h => ⟨f, h⟩
  | x :: xs, hx, lvl, hl, rest, hr, l, f, r, h => by
    obtain ⟨h1, h2, h3⟩ := hx x (by simp)
    obtain ⟨g, hg⟩ := more_chain xs (fun y hy => hx y (by simp [hy])) lvl hl rest hr (.bin x.1 l x.2.2) f r h
    obtain ⟨k, hk⟩ := h3.read (le_refl (p + 1)) (stop_ops xs (fun y hy => (hx y (by simp [hy])).1) hr)
    refine ⟨max g k + 1, ?_⟩
    have e : opToks (x :: xs) ++ rest = .op x.1 :: (x.2.1 ++ (opToks xs ++ rest)) := by simp [opToks]
    rw [e, rdMore_op, if_pos (by omega), h2, rd_le (le_max_right g k) hk]
    exact rdMore_le (le_max_left g k) hg

theorem shows_chain {p : ℕ} (hp : after p = p + 1) {t : List XTok} {s : Py} (h : Shows p t s)
    (items : List (PyOp × List XTok × Py))
    (hx : ∀ x ∈ items, x.1.prec = p ∧ x.1.right = p + 1 ∧ Shows (p + 1) x.2.1 x.2.2) :
    Shows p (t ++ opToks items) (opPy s items) := by
  intro lvl hl rest hr f r hm
  rw [hp] at hr
  obtain ⟨g, hg⟩ := more_chain items hx lvl hl rest hr s f r hm
  rw [List.append_assoc]
  exact h lvl hl _ (by rw [hp]; exact stop_ops items (fun y hy => (hx y hy).1) hr) g r hg

theorem shows_pow {t u : List XTok} {a b : Py} (h : Shows 11 t a) (h' : Shows 9 u b) :
    Shows 10 (t ++ .op .pow :: u) (.bin .pow a b) := by
  intro lvl hl rest hr f r hm
  have hr : Stop 10 rest := hr
  have hr9 : Stop 9 rest := by
    rcases rest with _ | ⟨t, ts⟩
    · trivial
    cases t with
    | op o =>
      have : o.prec < 10 := hr
      show o.prec < 9
      cases o <;> simp_all [PyOp.prec]
    | cmp c => show 2 < 9; omega
    | lpar => exact hr.elim
    | _ => trivial
  obtain ⟨g, hg⟩ := h'.read (le_refl 9) hr9
  rw [List.append_assoc]
  refine h lvl (by omega) _ (by show (10 : ℕ) < 12; omega) (max f g + 1) r ?_
  rw [List.cons_append, rdMore_op, if_pos (show lvl ≤ PyOp.pow.prec from hl)]
  have : rd (max f g) PyOp.pow.right (u ++ rest) = some (b, rest) := rd_le (le_max_right f g) hg
  rw [this]
  exact rdMore_le (le_max_left f g) hm

theorem shows_cmp {t u : List XTok} {a b : Py} {c : PyCmp} (h : Shows 3 t a) (h' : Shows 3 u b) :
    Shows 2 (t ++ .cmp c :: u) (.compare a [c] [b]) := by
  intro lvl hl rest hr f r hm
  have hr : Stop 2 rest := hr
  obtain ⟨g, hg⟩ := h'.read (le_refl 3) (hr.mono (by omega : 2 ≤ 3))
  have hstop : Stop lvl rest := by
    rcases rest with _ | ⟨t, ts⟩
    · trivial
    cases t with
    | op o =>
      have : o.prec < 2 := hr
      cases o <;> simp [PyOp.prec] at this
    | cmp c => exact absurd (show 2 < 2 from hr) (by omega)
    | lpar => exact hr.elim
    | _ => trivial
  have hr' : r = (.compare a [c] [b], rest) := by
    have h1 := rdMore_le (le_max_left f 1) hm
    have h2 := rdMore_le (le_max_right f 1) (hstop.more (.compare a [c] [b]))
    rw [h1] at h2
    exact Option.some.inj h2
  rw [List.append_assoc]
  refine h lvl (by omega) _ (by show (2 : ℕ) < 4; omega) (g + 1) r ?_
  rw [List.cons_append, rdMore_cmp, if_pos hl, hg, hr']
  rfl

end Verif
