import Verif.SpecText
import Verif.SpecHistJson
import Verif.HistJsonLemmas
import Verif.PropsHistJson

/-!
# Lemmas about reading text
-/

namespace Verif

/-- Is there exactly one element? -/
def Args.single : Args → Bool
  | .pos _ .nil => true
  | _ => false

/-- The keyword or the key. -/
def keyToks (b : Brack) (k : String) : List Tok := if b = .dict then [.str k, .colon] else [.name k, .eq]

mutual
/-- How an expression is written. -/
def Syn.toks : Syn → List Tok
  | .name s => [.name s]
  | .str s => [.str s]
  | .int n => [.int n]
  | .float q => [.float q]
  | .neg a => .minus :: a.toks
  | .tuple l => .lpar :: (l.toks .tuple ++ ((if l.single then [.comma] else []) ++ [.rpar]))
  | .dict l => .lbrace :: (l.toks .dict ++ [.rbrace])
  | .call f l => .name f :: .lpar :: (l.toks .call ++ [.rpar])
/-- How arguments are written. -/
def Args.toks : Brack → Args → List Tok
  | _, .nil => []
  | b, .pos a r => a.toks ++ Args.more b r
  | b, .kw k a r => keyToks b k ++ (a.toks ++ Args.more b r)
/-- How further arguments are written. -/
def Args.more : Brack → Args → List Tok
  | _, .nil => []
  | b, .pos a r => .comma :: (a.toks ++ Args.more b r)
  | b, .kw k a r => .comma :: (keyToks b k ++ (a.toks ++ Args.more b r))
end

mutual
/-- Expressions that can be written. -/
def Syn.Good : Syn → Prop
  | .neg a => a.Good
  | .tuple l => l.Good .tuple
  | .dict l => l.Good .dict
  | .call _ l => l.Good .call
  | _ => True
/-- Arguments that can be written. -/
def Args.Good : Brack → Args → Prop
  | _, .nil => True
  | b, .pos a r => b ≠ .dict ∧ a.Good ∧ Args.Good b r
  | b, .kw _ a r => b ≠ .tuple ∧ a.Good ∧ Args.Good b r
end

/-- What may follow an expression. -/
def Follows : List Tok → Prop
  | [] => True
  | t :: _ => t = .comma ∨ t = .rpar ∨ t = .rbrace

/-- A positional argument is read as an expression. -/
theorem readArgs_pos (n : ℕ) (b : Brack) (hb : b ≠ .dict) (a : Syn) (r : List Tok) (hr : Follows r) :
    readArgs (n + 1) b (a.toks ++ r) = readThen (readSyn n (a.toks ++ r)) (readNext n b) .pos := by
  cases b with
  | dict => exact absurd rfl hb
  | tuple => cases a <;> simp [Syn.toks, readArgs, Brack.close]
  | call =>
    cases a with
    | name s =>
      cases r with
      | nil => simp [Syn.toks, readArgs, Brack.close]
      | cons t r => rcases hr with rfl | rfl | rfl <;> simp [Syn.toks, readArgs, Brack.close]
    | _ => simp [Syn.toks, readArgs, Brack.close]

/-- A named argument is read as such. -/
theorem readArgs_kw (n : ℕ) (b : Brack) (hb : b ≠ .tuple) (k : String) (r : List Tok) :
    readArgs (n + 1) b (keyToks b k ++ r) = readThen (readSyn n r) (readNext n b) (.kw k) := by
  cases b with
  | tuple => exact absurd rfl hb
  | _ => simp [keyToks, readArgs, Brack.close]

/-- What follows arguments. -/
theorem follows_more (b : Brack) (l : Args) (r : List Tok) (hr : Follows r) : Follows (l.more b ++ r) := by
  cases l with
  | nil => simpa [Args.more] using hr
  | pos a l => simp [Args.more, Follows]
  | kw k a l => simp [Args.more, Follows]

theorem follows_close (b : Brack) (r : List Tok) : Follows (b.close :: r) := by cases b <;> simp [Follows, Brack.close]

theorem close_ne_comma (b : Brack) : b.close ≠ .comma := by cases b <;> simp [Brack.close]

mutual
/-- Reading what was written. -/
theorem readSyn_toks : ∀ (a : Syn) (n : ℕ) (r : List Tok), a.Good → 2 * a.toks.length ≤ n → Follows r →
    readSyn n (a.toks ++ r) = some (a, r)
  | .name s, n, r, _, hn, hr => by
    obtain ⟨n, rfl⟩ : ∃ m, n = m + 1 := ⟨n - 1, by simp [Syn.toks] at hn; omega⟩
    cases r with
    | nil => simp [Syn.toks, readSyn]
    | cons t r => rcases hr with rfl | rfl | rfl <;> simp [Syn.toks, readSyn]
  | .str s, n, r, _, hn, hr => by
    obtain ⟨n, rfl⟩ : ∃ m, n = m + 1 := ⟨n - 1, by simp [Syn.toks] at hn; omega⟩
    simp [Syn.toks, readSyn]
  | .int s, n, r, _, hn, hr => by
    obtain ⟨n, rfl⟩ : ∃ m, n = m + 1 := ⟨n - 1, by simp [Syn.toks] at hn; omega⟩
    simp [Syn.toks, readSyn]
  | .float s, n, r, _, hn, hr => by
    obtain ⟨n, rfl⟩ : ∃ m, n = m + 1 := ⟨n - 1, by simp [Syn.toks] at hn; omega⟩
    simp [Syn.toks, readSyn]
  | .neg a, n, r, hg, hn, hr => by
    obtain ⟨n, rfl⟩ : ∃ m, n = m + 1 := ⟨n - 1, by simp [Syn.toks] at hn; omega⟩
    simp only [Syn.toks, List.length_cons] at hn
    simp [Syn.toks, readSyn, readSyn_toks a n r (by simpa [Syn.Good] using hg) (by omega) hr]
  | .call f l, n, r, hg, hn, hr => by
    obtain ⟨n, rfl⟩ : ∃ m, n = m + 1 := ⟨n - 1, by simp [Syn.toks] at hn; omega⟩
    simp only [Syn.toks, List.length_cons, List.length_append] at hn
    have := readArgs_toks .call l n [] r (Or.inl rfl) (by simpa [Syn.Good] using hg) (by omega)
    simp only [Brack.close, List.nil_append] at this
    simp [Syn.toks, readSyn, this]
  | .dict l, n, r, hg, hn, hr => by
    obtain ⟨n, rfl⟩ : ∃ m, n = m + 1 := ⟨n - 1, by simp [Syn.toks] at hn; omega⟩
    simp only [Syn.toks, List.length_cons, List.length_append] at hn
    have := readArgs_toks .dict l n [] r (Or.inl rfl) (by simpa [Syn.Good] using hg) (by omega)
    simp only [Brack.close, List.nil_append] at this
    simp [Syn.toks, readSyn, this]
  | .tuple l, n, r, hg, hn, hr => by
    obtain ⟨n, rfl⟩ : ∃ m, n = m + 1 := ⟨n - 1, by simp [Syn.toks] at hn; omega⟩
    simp only [Syn.toks, List.length_cons, List.length_append] at hn
    have := readArgs_toks .tuple l n (if l.single then [.comma] else []) r
      (by cases l.single <;> simp) (by simpa [Syn.Good] using hg) (by split at hn <;> simp at hn <;> omega)
    simp only [Brack.close] at this
    have h2 : ∀ a r', readSyn n (l.toks .tuple ++ ((if l.single then [.comma] else []) ++ .rpar :: r)) =
        some (a, r') → r'.head? ≠ some .rpar := by
      intro a r' h
      cases l with
      | nil =>
        cases n with
        | zero => simp [readSyn] at h
        | succ n => simp [Args.toks, Args.single, readSyn] at h
      | kw k a l => simp [Syn.Good, Args.Good] at hg
      | pos x l =>
        simp only [Args.toks, List.append_assoc] at h
        simp only [Args.toks, List.length_append] at hn
        simp only [Syn.Good, Args.Good] at hg
        rw [readSyn_toks x n _ hg.2.1 (by omega) (follows_more _ _ _ (by split <;> simp [Follows]))] at h
        simp only [Option.some.injEq, Prod.mk.injEq] at h
        rw [← h.2]
        cases l with
        | nil => simp [Args.more, Args.single]
        | pos y l => simp [Args.more]
        | kw k y l => simp [Args.more]
    simp only [Syn.toks, List.cons_append, readSyn, List.append_assoc, List.nil_append]
    split
    · rename_i a r' heq
      exact absurd rfl (h2 a _ heq)
    · rw [this]
      rfl
/-- Reading arguments that were written. -/
theorem readArgs_toks : ∀ (b : Brack) (l : Args) (n : ℕ) (c r : List Tok), c = [] ∨ c = [.comma] ∧ l.single = true →
    l.Good b → 2 * (l.toks b).length + 3 ≤ n → readArgs n b (l.toks b ++ (c ++ b.close :: r)) = some (l, r)
  | b, .nil, n, c, r, hc, _, hn => by
    obtain ⟨n, rfl⟩ : ∃ m, n = m + 1 := ⟨n - 1, by omega⟩
    rcases hc with rfl | ⟨rfl, h⟩
    · simp [Args.toks, readArgs]
    · simp [Args.single] at h
  | b, .pos a l, n, c, r, hc, hg, hn => by
    obtain ⟨n, rfl⟩ : ∃ m, n = m + 1 := ⟨n - 1, by omega⟩
    simp only [Args.toks, List.length_append] at hn
    simp only [Args.Good] at hg
    simp only [Args.toks, List.append_assoc]
    have hf : Follows (l.more b ++ (c ++ b.close :: r)) := by
      apply follows_more
      rcases hc with rfl | ⟨rfl, _⟩
      · exact follows_close b r
      · simp [Follows]
    rw [readArgs_pos n b hg.1 a _ hf, readSyn_toks a n _ hg.2.1 (by omega) hf]
    have hc' : c = [] ∨ c = [.comma] ∧ l = .nil := by
      rcases hc with h | ⟨h, h'⟩
      · exact Or.inl h
      · refine Or.inr ⟨h, ?_⟩
        cases l <;> simp_all [Args.single]
    simp [readThen, readNext_toks b l n c r hc' hg.2.2 (by omega)]
  | b, .kw k a l, n, c, r, hc, hg, hn => by
    obtain ⟨n, rfl⟩ : ∃ m, n = m + 1 := ⟨n - 1, by omega⟩
    simp only [Args.toks, List.length_append] at hn
    simp only [Args.Good] at hg
    simp only [Args.toks, List.append_assoc]
    have hc' : c = [] := by
      rcases hc with h | ⟨h, h'⟩
      · exact h
      · simp [Args.single] at h'
    subst hc'
    have hf : Follows (l.more b ++ ([] ++ b.close :: r)) := follows_more _ _ _ (follows_close b r)
    rw [readArgs_kw n b hg.1 k, readSyn_toks a n _ hg.2.1 (by omega) hf]
    have h := readNext_toks b l n [] r (Or.inl rfl) hg.2.2 (by omega)
    simp only [List.nil_append] at h
    simp [readThen, h]
/-- Reading further arguments that were written. -/
theorem readNext_toks : ∀ (b : Brack) (l : Args) (n : ℕ) (c r : List Tok), c = [] ∨ c = [.comma] ∧ l = .nil →
    l.Good b → 2 * (l.more b).length + 2 ≤ n → readNext n b (l.more b ++ (c ++ b.close :: r)) = some (l, r)
  | b, .nil, n, c, r, hc, _, hn => by
    obtain ⟨n, rfl⟩ : ∃ m, n = m + 2 := ⟨n - 2, by omega⟩
    rcases hc with rfl | ⟨rfl, h⟩
    · simp [Args.more, readNext, close_ne_comma]
    · simp [Args.more, readNext, readArgs]
  | b, .pos a l, n, c, r, hc, hg, hn => by
    obtain ⟨n, rfl⟩ : ∃ m, n = m + 1 := ⟨n - 1, by omega⟩
    simp only [Args.more, List.length_cons, List.length_append] at hn
    have hc' : c = [] := by
      rcases hc with h | ⟨h, h'⟩
      · exact h
      · simp at h'
    subst hc'
    obtain ⟨n, rfl⟩ : ∃ m, n = m + 1 := ⟨n - 1, by omega⟩
    simp only [Args.Good] at hg
    have hf : Follows (l.more b ++ ([] ++ b.close :: r)) := follows_more _ _ _ (follows_close b r)
    simp only [Args.more, List.cons_append, List.append_assoc, readNext, if_pos trivial]
    rw [readArgs_pos n b hg.1 a _ hf, readSyn_toks a n _ hg.2.1 (by omega) hf]
    have h := readNext_toks b l n [] r (Or.inl rfl) hg.2.2 (by omega)
    simp only [List.nil_append] at h
    simp [readThen, h]
  | b, .kw k a l, n, c, r, hc, hg, hn => by
    obtain ⟨n, rfl⟩ : ∃ m, n = m + 1 := ⟨n - 1, by omega⟩
    simp only [Args.more, List.length_cons, List.length_append] at hn
    have hc' : c = [] := by
      rcases hc with h | ⟨h, h'⟩
      · exact h
      · simp at h'
    subst hc'
    obtain ⟨n, rfl⟩ : ∃ m, n = m + 1 := ⟨n - 1, by omega⟩
    simp only [Args.Good] at hg
    have hf : Follows (l.more b ++ ([] ++ b.close :: r)) := follows_more _ _ _ (follows_close b r)
    simp only [Args.more, List.cons_append, List.append_assoc, readNext, if_pos trivial]
    rw [readArgs_kw n b hg.1 k, readSyn_toks a n _ hg.2.1 (by omega) hf]
    have h := readNext_toks b l n [] r (Or.inl rfl) hg.2.2 (by omega)
    simp only [List.nil_append] at h
    simp [readThen, h]
end

/-- A text that was written is read as it was written. -/
theorem readText_toks (a : Syn) (h : a.Good) : readText a.toks = some a := by
  have := readSyn_toks a (2 * a.toks.length) [] h le_rfl trivial
  rw [List.append_nil] at this
  simp [readText, this]

/-! ## Axes as expressions -/

/-- Arguments. -/
def argsFrom : List (Option String × Syn) → Args
  | [] => .nil
  | (none, a) :: l => .pos a (argsFrom l)
  | (some k, a) :: l => .kw k a (argsFrom l)

/-- An argument as it is written. -/
def itemToks (p : Option String × Syn) : List Tok :=
  match p.1 with
  | none => p.2.toks
  | some k => keyword k p.2.toks

theorem argsFrom_more : ∀ l : List (Option String × Syn), (argsFrom l).more .call = (l.map fun p => .comma :: itemToks p).flatten
  | [] => rfl
  | (none, a) :: l => by simp [argsFrom, Args.more, argsFrom_more l, itemToks]
  | (some k, a) :: l => by simp [argsFrom, Args.more, argsFrom_more l, itemToks, keyToks, keyword]

theorem joinComma_cons (a : List Tok) : ∀ l : List (List Tok), joinComma (a :: l) = a ++ (l.map fun x => .comma :: x).flatten
  | [] => by simp [joinComma]
  | b :: l => by rw [joinComma, joinComma_cons b l]; simp

theorem argsFrom_toks (l : List (Option String × Syn)) : (argsFrom l).toks .call = joinComma (l.map itemToks) := by
  cases l with
  | nil => rfl
  | cons p l =>
    obtain ⟨k, a⟩ := p
    rw [List.map_cons, joinComma_cons]
    cases k with
    | none => simp [argsFrom, Args.toks, argsFrom_more, itemToks, Function.comp_def]
    | some k => simp [argsFrom, Args.toks, argsFrom_more, itemToks, Function.comp_def, keyToks, keyword]

theorem argsFrom_good (l : List (Option String × Syn)) (h : ∀ p ∈ l, p.2.Good) : (argsFrom l).Good .call := by
  induction l with
  | nil => simp [argsFrom, Args.Good]
  | cons p l ih =>
    obtain ⟨k, a⟩ := p
    have h1 := h _ (List.mem_cons_self ..)
    have h2 := ih fun p hp => h p (List.mem_cons_of_mem _ hp)
    cases k <;> simp [argsFrom, Args.Good, h2] <;> exact h1

/-- Values of arguments. -/
theorem argsFrom_values : ∀ (l : List (Option String × Syn)) (vs : List J), l.length = vs.length →
    (∀ x ∈ l.zip vs, x.1.2.value = .ok x.2) → (argsFrom l).values = .ok ((l.map (·.1)).zip vs)
  | [], [], _, _ => by simp [argsFrom, Args.values]
  | (k, a) :: l, v :: vs, hl, h => by
    have h1 := h ((k, a), v) (by simp)
    simp only at h1
    have h2 := argsFrom_values l vs (by simpa using hl) fun x hx => h x (by simp [hx])
    cases k <;> simp [argsFrom, Args.values, h1, h2, bind, Except.bind]

/-- A float as an expression. -/
def synFloat : Num → Syn
  | .fin q => if q < 0 then .neg (.float (-q)) else .float q
  | .pinf => .name "inf"
  | .ninf => .neg (.name "inf")
  | .nan => .name "nan"

/-- An integer as an expression. -/
def synInt (i : ℤ) : Syn := if i < 0 then .neg (.int i.natAbs) else .int i.natAbs

theorem synFloat_toks (v : Num) : (synFloat v).toks = reprFloat v := by
  cases v with
  | fin q => simp only [synFloat, reprFloat]; split <;> simp [Syn.toks]
  | _ => simp [synFloat, reprFloat, Syn.toks]

theorem synFloat_good (v : Num) : (synFloat v).Good := by
  cases v with
  | fin q => simp only [synFloat]; split <;> simp [Syn.Good]
  | _ => simp [synFloat, Syn.Good]

theorem synFloat_value (q : ℚ) : (synFloat (.fin q)).value = .ok (.float (.fin q)) := by
  simp only [synFloat]
  split <;> simp [Syn.value, negJ, bind, Except.bind]

theorem synInt_toks (i : ℤ) : (synInt i).toks = reprInt i := by
  simp only [synInt, reprInt]; split <;> simp [Syn.toks]

theorem synInt_good (i : ℤ) : (synInt i).Good := by
  simp only [synInt]; split <;> simp [Syn.Good]

theorem synInt_value (i : ℤ) : (synInt i).value = .ok (.int i) := by
  simp only [synInt]
  split
  · rename_i h
    simp [Syn.value, negJ, bind, Except.bind, abs_of_neg h]
  · simp [Syn.value]; omega

/-- A tuple of floats as an expression. -/
def elemsOf : List Num → Args
  | [] => .nil
  | v :: l => .pos (synFloat v) (elemsOf l)

theorem elems_more : ∀ l : List Num, (elemsOf l).more .tuple = (l.map fun v => .comma :: reprFloat v).flatten
  | [] => rfl
  | v :: l => by simp [elemsOf, Args.more, elems_more l, synFloat_toks]

theorem elems_toks (l : List Num) : (Syn.tuple (elemsOf l)).toks = reprTuple l := by
  match l with
  | [] => simp [elemsOf, Syn.toks, Args.toks, Args.single, reprTuple, joinComma]
  | [v] => simp [elemsOf, Syn.toks, Args.toks, Args.more, Args.single, reprTuple, synFloat_toks]
  | v :: w :: l =>
    rw [reprTuple, List.map_cons, joinComma_cons]
    · simp [elemsOf, Syn.toks, Args.toks, Args.more, Args.single, elems_more, synFloat_toks, Function.comp_def]
    · simp

theorem elems_good : ∀ l : List Num, (elemsOf l).Good .tuple
  | [] => by simp [elemsOf, Args.Good]
  | v :: l => by simp [elemsOf, Args.Good, synFloat_good, elems_good l]

theorem elems_values : ∀ l : List Num, (∀ v ∈ l, ∃ q, v = .fin q) → (elemsOf l).values = .ok (l.map fun v => (none, .float v))
  | [], _ => by simp [elemsOf, Args.values]
  | v :: l, h => by
    obtain ⟨q, rfl⟩ := h v (by simp)
    simp [elemsOf, Args.values, synFloat_value, elems_values l fun v hv => h v (by simp [hv]), bind, Except.bind]

theorem elems_value (l : List Num) (h : ∀ v ∈ l, ∃ q, v = .fin q) :
    (Syn.tuple (elemsOf l)).value = .ok (.list (l.map .float)) := by
  simp [Syn.value, elems_values l h, bind, Except.bind, Function.comp_def]

/-- An option as an argument. -/
def optItem (k : String) (b : Bool) : List (Option String × Syn) := if b then [] else [(some k, .name "False")]

theorem optItem_toks (k : String) (b : Bool) : (optItem k b).map itemToks = unlessTrue k b := by
  cases b <;> simp [optItem, unlessTrue, itemToks, keyword, Syn.toks, reprBool]

theorem optItem_good (k : String) (b : Bool) : ∀ p ∈ optItem k b, p.2.Good := by
  cases b <;> simp [optItem, Syn.Good]

/-- The name and the arguments in the text of an axis. -/
def AxisX.items : AxisX → String × List (Option String × Syn)
  | .groupby e => ("groupby", [(none, .str e)])
  | .groupbin e w o n c => ("groupbin", [(none, .str e), (none, synFloat w)] ++
      (if Num.eq o (.fin 0) then [] else [(some "origin", synFloat o)]) ++ optItem "nanflow" n ++ optItem "closedlow" c)
  | .bin e k lo hi u o n c => ("bin", [(none, .str e), (none, synInt k), (none, synFloat lo), (none, synFloat hi)] ++
      optItem "underflow" u ++ optItem "overflow" o ++ optItem "nanflow" n ++ optItem "closedlow" c)
  | .intbin e lo hi u o => ("intbin", [(none, .str e), (none, synInt lo), (none, synInt hi)] ++ optItem "underflow" u ++
      optItem "overflow" o)
  | .split e es u o n c => ("split", [(none, .str e), (none, .tuple (elemsOf es))] ++ optItem "underflow" u ++
      optItem "overflow" o ++ optItem "nanflow" n ++ optItem "closedlow" c)
  | .cut e => ("cut", [(none, .str e)])
  | .profile e => ("profile", [(none, .str e)])
  | .null => ("_nullaxis", [])

/-- The text of an axis as an expression. -/
def AxisX.syn (a : AxisX) : Syn := .call a.items.1 (argsFrom a.items.2)

theorem axis_toks (a : AxisX) : a.syn.toks = a.toks := by
  simp only [AxisX.syn, Syn.toks, argsFrom_toks]
  cases a with
  | groupbin e w o n c =>
    simp only [AxisX.items, AxisX.toks, callToks, List.map_append, optItem_toks]
    split <;> simp [itemToks, Syn.toks, synFloat_toks, keyword]
  | _ => simp [AxisX.items, AxisX.toks, callToks, optItem_toks, itemToks, Syn.toks, synFloat_toks, synInt_toks,
      ← elems_toks]

theorem axis_good (a : AxisX) : a.syn.Good := by
  simp only [AxisX.syn, Syn.Good]
  apply argsFrom_good
  have hO := optItem_good
  intro p hp
  cases a with
  | groupbin e w o n c =>
    simp only [AxisX.items, List.mem_append] at hp
    rcases hp with ((hp | hp) | hp) | hp
    · simp at hp; rcases hp with rfl | rfl <;> simp [Syn.Good, synFloat_good]
    · split at hp
      · simp at hp
      · simp at hp; subst hp; exact synFloat_good _
    · exact hO _ _ _ hp
    · exact hO _ _ _ hp
  | bin e k lo hi u o n c =>
    simp only [AxisX.items, List.mem_append] at hp
    rcases hp with (((hp | hp) | hp) | hp) | hp
    · simp at hp; rcases hp with rfl | rfl | rfl | rfl <;> simp [Syn.Good, synFloat_good, synInt_good]
    all_goals exact hO _ _ _ hp
  | intbin e lo hi u o =>
    simp only [AxisX.items, List.mem_append] at hp
    rcases hp with (hp | hp) | hp
    · simp at hp; rcases hp with rfl | rfl | rfl <;> simp [Syn.Good, synInt_good]
    all_goals exact hO _ _ _ hp
  | split e es u o n c =>
    simp only [AxisX.items, List.mem_append] at hp
    rcases hp with (((hp | hp) | hp) | hp) | hp
    · simp at hp; rcases hp with rfl | rfl <;> simp [Syn.Good, elems_good]
    all_goals exact hO _ _ _ hp
  | _ => simp [AxisX.items] at hp <;> subst hp <;> simp [Syn.Good]

/-- None of the numbers is infinite or NaN. -/
theorem axis_value {a : AxisX} (hm : Made a) (hf : ∀ v ∈ a.numbers, ∃ q, v = .fin q) : a.syn.axis = .ok a := by
  have hv := made_valid hm
  have hn : a.noNaN := fun h => by obtain ⟨q, h⟩ := hf _ h; cases h
  cases a with
  | groupby e =>
    simp [AxisX.syn, AxisX.items, argsFrom, Syn.axis, signature, Args.values, Syn.value, applyTo, keywords, positional,
      bindArgs, AxCls.call, bind, Except.bind]
  | cut e =>
    simp [AxisX.syn, AxisX.items, argsFrom, Syn.axis, signature, Args.values, Syn.value, applyTo, keywords, positional,
      bindArgs, AxCls.call, bind, Except.bind]
  | profile e =>
    simp [AxisX.syn, AxisX.items, argsFrom, Syn.axis, signature, Args.values, Syn.value, applyTo, keywords, positional,
      bindArgs, AxCls.call, bind, Except.bind]
  | null => exact absurd hv id
  | intbin e lo hi u o =>
    have h := mkIntbin_again (e := e) (u := u) (o := o) hv
    cases u <;> cases o <;>
    simpa [AxisX.syn, AxisX.items, argsFrom, Syn.axis, signature, Args.values, Syn.value, synInt_value, applyTo,
      keywords, positional, bindArgs, AxCls.call, optItem, bind, Except.bind] using h
  | bin e k lo hi u o n c =>
    obtain ⟨lo, rfl⟩ := hf lo (by simp [AxisX.numbers])
    obtain ⟨hi, rfl⟩ := hf hi (by simp [AxisX.numbers])
    have h := mkBin_again (e := e) (c := c) hv.1 hv.2
    cases u <;> cases o <;> cases n <;> cases c <;>
    simpa [AxisX.syn, AxisX.items, argsFrom, Syn.axis, signature, Args.values, Syn.value, synInt_value, synFloat_value,
      applyTo, keywords, positional, bindArgs, AxCls.call, optItem, bind, Except.bind] using h
  | split e es u o n c =>
    have h := mkSplit_again (e := e) (c := c) hv.1 (hv.2.1 hn) hv.2.2.1 hv.2.2.2
    have he := elems_values es hf
    cases u <;> cases o <;> cases n <;> cases c <;>
    simpa [AxisX.syn, AxisX.items, argsFrom, Syn.axis, signature, Args.values, Syn.value, he, Function.comp_def,
      applyTo, keywords, positional, bindArgs, AxCls.call, optItem, bind, Except.bind] using h
  | groupbin e w o n c =>
    obtain ⟨w, rfl⟩ := hf w (by simp [AxisX.numbers])
    obtain ⟨o, rfl⟩ := hf o (by simp [AxisX.numbers])
    by_cases ho : o = 0
    · subst ho
      have h := mkGroupbin_again (e := e) (o := .fin 0) (n := n) (c := c) hv
      have h' : ∀ n' c', mkGroupbin e (.float (.fin w)) (.int 0) n' c' = mkGroupbin e (.float (.fin w)) (.float (.fin 0)) n' c' := by
        intro n' c'
        simp [mkGroupbin, realOf]
      cases n <;> cases c <;>
      simpa [AxisX.syn, AxisX.items, argsFrom, Syn.axis, signature, Args.values, Syn.value, synFloat_value, Num.eq, Num.isnan,
        applyTo, keywords, positional, bindArgs, AxCls.call, optItem, bind, Except.bind, h'] using h
    · have h := mkGroupbin_again (e := e) (o := .fin o) (n := n) (c := c) hv
      cases n <;> cases c <;>
      simpa [AxisX.syn, AxisX.items, argsFrom, Syn.axis, signature, Args.values, Syn.value, synFloat_value, Num.eq, Num.isnan,
        applyTo, keywords, positional, bindArgs, AxCls.call, optItem, bind, Except.bind, ho] using h

/-! ## Histograms as expressions -/

/-- The weight as an expression. -/
def synJ : J → Syn
  | .null => .name "None"
  | .bool b => .name (if b then "True" else "False")
  | .int i => synInt i
  | .float v => synFloat v
  | .str s => .str s
  | _ => .name "None"

/-- A weight that can be written: `None`, a string or a number that is finite. -/
def J.Simple : J → Prop
  | .list _ | .dict _ => False
  | .float v => ∃ q, v = .fin q
  | _ => True

theorem synJ_toks (j : J) (h : j.Simple) : (synJ j).toks = reprJ j := by
  cases j <;> simp_all [synJ, reprJ, J.Simple, Syn.toks, reprBool, synInt_toks, synFloat_toks]

theorem synJ_good (j : J) : (synJ j).Good := by
  cases j <;> simp [synJ, Syn.Good, synInt_good, synFloat_good]

theorem synJ_value (j : J) (h : j.Simple) : (synJ j).value = .ok j := by
  cases j with
  | bool b => cases b <;> simp [synJ, Syn.value]
  | float v => obtain ⟨q, rfl⟩ := h; exact synFloat_value q
  | int i => exact synInt_value i
  | list l => exact absurd h id
  | dict l => exact absurd h id
  | _ => simp [synJ, Syn.value]

/-- The definitions as an expression. -/
def defArgs : List (String × String) → Args
  | [] => .nil
  | d :: l => .kw d.1 (.str d.2) (defArgs l)

theorem defArgs_more : ∀ l, (defArgs l).more .dict = (l.map fun d => .comma :: defToks d).flatten
  | [] => rfl
  | d :: l => by simp [defArgs, Args.more, defArgs_more l, defToks, keyToks, Syn.toks]

theorem defArgs_toks (l : List (String × String)) :
    (Syn.dict (defArgs l)).toks = .lbrace :: joinComma (l.map defToks) ++ [.rbrace] := by
  cases l with
  | nil => simp [defArgs, Syn.toks, Args.toks, joinComma]
  | cons d l =>
    rw [List.map_cons, joinComma_cons]
    simp [defArgs, Syn.toks, Args.toks, defArgs_more, defToks, keyToks, Function.comp_def]

theorem defArgs_good : ∀ l, (defArgs l).Good .dict
  | [] => by simp [defArgs, Args.Good]
  | d :: l => by simp [defArgs, Args.Good, Syn.Good, defArgs_good l]

theorem defArgs_values : ∀ l, (defArgs l).values = .ok (l.map fun d => (some d.1, .str d.2))
  | [] => by simp [defArgs, Args.values]
  | d :: l => by simp [defArgs, Args.values, Syn.value, defArgs_values l, bind, Except.bind]

theorem defArgs_value (l : List (String × String)) :
    (Syn.dict (defArgs l)).value = .ok (.obj (l.map fun p => (p.1, .str p.2))) := by
  simp [Syn.value, defArgs_values, bind, Except.bind, J.obj, Function.comp_def]

/-- The options in the text of a histogram. -/
def HistX.optItems {β : Type} (h : HistX β) : List (String × Syn) :=
  (match h.weight with | .null => [] | w => [("weight", synJ w)]) ++
    (match h.filter with | none => [] | some f => [("filter", .str f)]) ++
    (if h.defs.length > 0 then [("defs", .dict (defArgs h.defs))] else [])

/-- The text of a histogram as an expression. -/
def HistX.syn {β : Type} (h : HistX β) : Syn :=
  .call "Hist" (argsFrom (h.axes.map (fun x => (none, x.1.syn)) ++ h.optItems.map fun p => (some p.1, p.2)))

theorem hist_toks {β : Type} (h : HistX β) (hw : h.weight.Simple) : h.syn.toks = h.toks := by
  simp only [HistX.syn, Syn.toks, argsFrom_toks, HistX.toks, callToks, List.append_assoc, List.map_append, List.map_map]
  have h1 : (h.axes.map (itemToks ∘ fun x => (none, x.1.syn))) = h.axes.map fun x => x.1.toks := by
    apply List.map_congr_left
    intro x _
    simp [itemToks, axis_toks]
  have h2 : h.optItems.map (itemToks ∘ fun p => (some p.1, p.2)) =
      weightToks h.weight ++ (filterToks h.filter ++ defsToks h.defs) := by
    have e1 : List.map (itemToks ∘ fun p : String × Syn => (some p.1, p.2))
        (match h.weight with | .null => [] | w => [("weight", synJ w)]) = weightToks h.weight := by
      revert hw
      cases h.weight <;> intro hw <;> simp [weightToks, itemToks, synJ_toks _ hw]
    have e2 : List.map (itemToks ∘ fun p : String × Syn => (some p.1, p.2))
        (match h.filter with | none => [] | some f => [("filter", .str f)]) = filterToks h.filter := by
      cases h.filter <;> simp [filterToks, itemToks, Syn.toks]
    have e3 : List.map (itemToks ∘ fun p : String × Syn => (some p.1, p.2))
        (if h.defs.length > 0 then [("defs", .dict (defArgs h.defs))] else []) = defsToks h.defs := by
      unfold defsToks
      split
      · simp only [List.map_cons, List.map_nil, Function.comp, itemToks, defArgs_toks]
      · rfl
    rw [HistX.optItems, List.map_append, List.map_append, e1, e2, e3, List.append_assoc]
  rw [h1, h2]
  rfl

theorem hist_good {β : Type} (h : HistX β) : h.syn.Good := by
  simp only [HistX.syn, Syn.Good]
  apply argsFrom_good
  intro p hp
  rcases List.mem_append.mp hp with hp | hp
  · obtain ⟨x, _, rfl⟩ := List.mem_map.mp hp
    exact axis_good _
  · obtain ⟨x, hx, rfl⟩ := List.mem_map.mp hp
    simp only [HistX.optItems, List.mem_append] at hx
    rcases hx with (hx | hx) | hx
    · split at hx
      · simp at hx
      · simp only [List.mem_singleton] at hx; subst hx; exact synJ_good _
    · split at hx
      · simp at hx
      · simp only [List.mem_singleton] at hx; subst hx; simp [Syn.Good]
    · split at hx
      · simp only [List.mem_singleton] at hx; subst hx; simpa [Syn.Good] using defArgs_good _
      · simp at hx

theorem args_axes : ∀ (l : List AxisX) (k : List (String × Syn)), (∀ a ∈ l, a.syn.axis = .ok a) →
    (argsFrom (l.map (fun a => (none, a.syn)) ++ k.map fun p => (some p.1, p.2))).axes = .ok l
  | [], [], _ => by simp [argsFrom, Args.axes]
  | [], p :: k, _ => by simpa [argsFrom, Args.axes] using args_axes [] k (by simp)
  | a :: l, k, h => by
    have := args_axes l k fun a ha => h a (by simp [ha])
    simp [argsFrom, Args.axes, h a (by simp), this, bind, Except.bind]

theorem args_options : ∀ (l : List Syn) (k : List (String × Syn)) (v : List (String × J)), 
    mapE (fun p : String × Syn => p.2.value.map fun v => (p.1, v)) k = .ok v →
    (argsFrom (l.map (fun a => (none, a)) ++ k.map fun p => (some p.1, p.2))).options = .ok v
  | [], [], v, h => by simpa [argsFrom, Args.options, mapE] using h
  | [], p :: k, v, h => by
    obtain ⟨n, a⟩ := p
    simp only [mapE] at h
    cases ha : a.value with
    | error e => simp [ha, Except.map, bind, Except.bind] at h
    | ok x =>
      simp only [ha, Except.map, bind, Except.bind] at h
      split at h
      · cases h
      · rename_i w hw
        have := args_options [] k w hw
        simp only [List.map_nil, List.nil_append] at this
        simp only [pure, Except.pure, Except.ok.injEq] at h
        simp [argsFrom, Args.options, ha, this, bind, Except.bind, h]
  | a :: l, k, v, h => by simpa [argsFrom, Args.options] using args_options l k v h

end Verif
