import Verif.SpecVegaComb
import Mathlib.Data.Nat.Digits.Defs

/-!
# Lemmas about combinations of plots
-/

namespace Verif

/-! ## names -/

theorem varLoop_digits : ∀ (fuel i : ℕ), i ≤ fuel → varLoop fuel i = (Nat.digits 26 i).map fun d => "abcdefghijklmnopqrstuvwxyz".toList.getD d 'a'
  | 0, i, h => by
    have : i = 0 := by omega
    subst this
    simp [varLoop]
  | fuel + 1, i, h => by
    unfold varLoop
    by_cases hi : 0 < i
    · rw [if_pos hi, Nat.digits_def' (by norm_num) hi, List.map_cons, varLoop_digits fuel (i / 26) (by omega)]
    · rw [if_neg hi]
      have : i = 0 := by omega
      subst this
      simp

theorem letter_inj : ∀ d < 26, ∀ e < 26, "abcdefghijklmnopqrstuvwxyz".toList.getD d 'a' = "abcdefghijklmnopqrstuvwxyz".toList.getD e 'a' → d = e := by
  decide +kernel

theorem letter_range : ∀ d < 26, ("abcdefghijklmnopqrstuvwxyz".toList.getD d 'a').isLower = true := by decide +kernel

theorem map_inj_on {α β : Type} (f : α → β) (p : α → Prop) (h : ∀ a, p a → ∀ b, p b → f a = f b → a = b) :
    ∀ (l m : List α), (∀ a ∈ l, p a) → (∀ a ∈ m, p a) → l.map f = m.map f → l = m
  | [], [], _, _, _ => rfl
  | [], b :: m, _, _, e => by simp at e
  | a :: l, [], _, _, e => by simp at e
  | a :: l, b :: m, hl, hm, e => by
    simp only [List.map_cons, List.cons.injEq] at e
    rw [h a (hl a (by simp)) b (hm b (by simp)) e.1, map_inj_on f p h l m (fun x hx => hl x (by simp [hx])) (fun x hx => hm x (by simp [hx])) e.2]

theorem varname_injective : Function.Injective varname := by
  intro i j h
  unfold varname at h
  have h1 : (varLoop (i + 1) (i + 1)) = varLoop (j + 1) (j + 1) := by
    have := congrArg String.toList h
    simpa using this
  rw [varLoop_digits _ _ le_rfl, varLoop_digits _ _ le_rfl] at h1
  have h2 := map_inj_on _ (fun d => d < 26) (fun d hd e he => letter_inj d hd e he) _ _ (fun d hd => Nat.digits_lt_base (by norm_num) hd)
    (fun d hd => Nat.digits_lt_base (by norm_num) hd) h1
  have := Nat.digits_inj_iff.1 h2
  omega

theorem varname_lower (i : ℕ) : varname i ≠ "" ∧ ∀ c ∈ (varname i).toList, c.isLower = true := by
  unfold varname
  constructor
  · intro h
    have h1 := congrArg String.toList h
    rw [varLoop_digits _ _ le_rfl] at h1
    simp [Nat.digits_ne_nil_iff_ne_zero] at h1
  · intro c hc
    rw [varLoop_digits _ _ le_rfl] at hc
    simp only [String.toList_ofList, List.mem_reverse, List.mem_map] at hc
    obtain ⟨d, hd, rfl⟩ := hc
    exact letter_range d (Nat.digits_lt_base (by norm_num) hd)

theorem lower_digit (c : Char) (h : c.isLower = true) : c.isDigit = false := by
  simp only [Char.isLower, Char.isDigit, Bool.and_eq_true, decide_eq_true_eq, Bool.and_eq_false_iff, decide_eq_false_iff_not] at *
  right
  intro h2
  have h3 := UInt32.le_trans h.1 h2
  revert h3
  decide

theorem toDigits_injective (i j : ℕ) (h : Nat.toDigits 10 i = Nat.toDigits 10 j) : i = j := by
  have h1 := Nat.ofDigitChars_toDigits (b := 10) (n := i) (by norm_num) (by norm_num)
  have h2 := Nat.ofDigitChars_toDigits (b := 10) (n := j) (by norm_num) (by norm_num)
  rw [h, h2] at h1
  exact h1.symm

theorem split_digits (v w : List Char) (d e : List Char) (hv : ∀ c ∈ v, c.isLower = true) (hw : ∀ c ∈ w, c.isLower = true)
    (hd : ∀ c ∈ d, c.isDigit = true) (he : ∀ c ∈ e, c.isDigit = true) (hd0 : d ≠ []) (he0 : e ≠ []) (x y : List Char) (h : v ++ d ++ x = w ++ e ++ y) : v = w ∧ d ++ x = e ++ y := by
  induction v generalizing w with
  | nil =>
    cases w with
    | nil => exact ⟨rfl, by simpa using h⟩
    | cons b w =>
      cases d with
      | nil => exact absurd rfl hd0
      | cons c d =>
        simp only [List.nil_append, List.cons_append, List.cons.injEq] at h
        have h1 := hd c (by simp)
        have h2 := lower_digit b (hw b (by simp))
        rw [h.1, h2] at h1
        cases h1
  | cons a v ih =>
    cases w with
    | nil =>
      cases e with
      | nil => exact absurd rfl he0
      | cons c e =>
        simp only [List.nil_append, List.cons_append, List.cons.injEq] at h
        have h1 := he c (by simp)
        have h2 := lower_digit a (hv a (by simp))
        rw [← h.1, h2] at h1
        cases h1
    | cons b w =>
      simp only [List.cons_append, List.cons.injEq] at h
      obtain ⟨h1, h2⟩ := ih w (fun c hc => hv c (by simp [hc])) (fun c hc => hw c (by simp [hc])) h.2
      exact ⟨by rw [h.1, h1], h2⟩

/-- The name of the plot has small letters only, and at least one. -/
def PName.Lower : PName → Prop
  | .id => True
  | .col v _ => v ≠ "" ∧ ∀ c ∈ v.toList, c.isLower = true
  | .centre v _ => v ≠ "" ∧ ∀ c ∈ v.toList, c.isLower = true

theorem toDigits_digit (i : ℕ) : ∀ c ∈ Nat.toDigits 10 i, c.isDigit = true := fun _ h => Nat.isDigit_of_mem_toDigits (by norm_num) (by norm_num) h

theorem digits_c (d e : List Char) (hd : ∀ c ∈ d, c.isDigit = true) (h : d = e ++ ['c']) : False := by
  have := hd 'c' (by rw [h]; simp)
  revert this
  decide

theorem letters_digits (x v : List Char) (i : ℕ) (z : List Char) (hx : ∀ c ∈ x, c.isDigit = false) (h : x = v ++ Nat.toDigits 10 i ++ z) : False := by
  have h1 : Nat.toDigits 10 i ≠ [] := by simp
  obtain ⟨c, cs, hc⟩ := List.exists_cons_of_ne_nil h1
  have h2 := toDigits_digit i c (by rw [hc]; simp)
  rw [hx c (by rw [h, hc]; simp)] at h2
  cases h2

/-- Different fields have different names. -/
theorem text_injective (p q : PName) (hp : p.Lower) (hq : q.Lower) (h : p.text = q.text) : p = q := by
  have hid : ∀ c ∈ "id".toList, c.isDigit = false := by decide
  have h0 := congrArg String.toList h
  cases p with
  | id =>
    cases q with
    | id => rfl
    | col w j =>
      simp only [PName.text, String.toList_append, Nat.toString_eq_repr, Nat.toList_repr] at h0
      exact (letters_digits _ w.toList j [] hid (by simpa using h0)).elim
    | centre w j =>
      simp only [PName.text, String.toList_append, Nat.toString_eq_repr, Nat.toList_repr] at h0
      exact (letters_digits _ w.toList j _ hid h0).elim
  | col v i =>
    cases q with
    | id =>
      simp only [PName.text, String.toList_append, Nat.toString_eq_repr, Nat.toList_repr] at h0
      exact (letters_digits _ v.toList i [] hid (by simpa using h0.symm)).elim
    | col w j =>
      simp only [PName.text, String.toList_append, Nat.toString_eq_repr, Nat.toList_repr] at h0
      obtain ⟨h1, h2⟩ := split_digits v.toList w.toList _ _ hp.2 hq.2 (toDigits_digit i) (toDigits_digit j) (by simp) (by simp) [] [] (by simpa using h0)
      rw [String.toList_inj.1 h1, toDigits_injective i j (by simpa using h2)]
    | centre w j =>
      simp only [PName.text, String.toList_append, Nat.toString_eq_repr, Nat.toList_repr] at h0
      obtain ⟨h1, h2⟩ := split_digits v.toList w.toList _ _ hp.2 hq.2 (toDigits_digit i) (toDigits_digit j) (by simp) (by simp) [] ['c'] (by simpa using h0)
      exact (digits_c _ _ (toDigits_digit i) (by simpa using h2)).elim
  | centre v i =>
    cases q with
    | id =>
      simp only [PName.text, String.toList_append, Nat.toString_eq_repr, Nat.toList_repr] at h0
      exact (letters_digits _ v.toList i _ hid h0.symm).elim
    | col w j =>
      simp only [PName.text, String.toList_append, Nat.toString_eq_repr, Nat.toList_repr] at h0
      obtain ⟨h1, h2⟩ := split_digits v.toList w.toList _ _ hp.2 hq.2 (toDigits_digit i) (toDigits_digit j) (by simp) (by simp) ['c'] [] (by simpa using h0)
      exact (digits_c _ _ (toDigits_digit j) (by simpa using h2.symm)).elim
    | centre w j =>
      simp only [PName.text, String.toList_append, Nat.toString_eq_repr, Nat.toList_repr] at h0
      obtain ⟨h1, h2⟩ := split_digits v.toList w.toList _ _ hp.2 hq.2 (toDigits_digit i) (toDigits_digit j) (by simp) (by simp) ['c'] ['c'] (by simpa using h0)
      rw [String.toList_inj.1 h1, toDigits_injective i j (by simpa using h2)]

/-! ## the same plot under another name -/

theorem mkDatum_rename (pre : Datum) (v : String) (row : List DVal) : mkDatum pre v row = pre ++ (mkDatum [] "a" row).map fun p => (p.1.rename v, p.2) := by
  simp [mkDatum, PName.rename, Function.comp_def]

theorem except_map_map {α β γ : Type} (f : α → β) (g : β → γ) (x : Except Err α) : (x.map f).map g = x.map fun a => g (f a) := by
  cases x <;> rfl

theorem data1d_rename (H : HistDef) (F : Fmt) (P : Plot1d) (st : H.State) (pre : Datum) (v : String) :
    H.data1d F P pre v st = (H.data1d F P [] "a" st).map fun D => ⟨D.data.map fun d => pre ++ d.map fun p => (p.1.rename v, p.2), D.domains⟩ := by
  unfold HistDef.data1d
  simp only
  rw [except_map_map]
  congr 1
  funext r
  simp only [List.map_map]
  congr 1
  refine List.map_congr_left fun x _ => ?_
  simp only [Function.comp]
  split
  · simp only [addCentre, List.map_append, List.map_cons, List.map_nil, PName.rename]
    rw [mkDatum_rename pre v, List.append_assoc]
    rfl
  · simp only [id]
    rw [mkDatum_rename pre v]

theorem data2d_rename (H : HistDef) (F : Fmt) (P : Plot2d) (st : H.State) (pre : Datum) (v : String) :
    H.data2d F P pre v st = (H.data2d F P [] "a" st).map fun D => ⟨D.data.map fun d => pre ++ d.map fun p => (p.1.rename v, p.2), D.domains⟩ := by
  unfold HistDef.data2d
  simp only
  rw [except_map_map]
  congr 1
  funext r
  simp only [List.map_map]
  congr 1
  refine List.map_congr_left fun x _ => ?_
  simp only [Function.comp]
  rw [mkDatum_rename pre v]

theorem foldE_map {α β γ : Type} (f : β → α → Except Err β) (g : γ → α → Except Err γ) (r : β → γ) (h : ∀ b a, g (r b) a = (f b a).map r) :
    ∀ (xs : List α) (b : β), foldE g (r b) xs = (foldE f b xs).map r
  | [], _ => rfl
  | x :: xs, b => by
    unfold foldE
    rw [h]
    cases f b x with
    | error e => rfl
    | ok b' => exact foldE_map f g r h xs b'

theorem encodeChannel_rename (F : Fmt) (axes : List ℕ) (doms : List (Option (List DKey))) (v : String) (e : Encoding) (c : Channel) :
    encodeChannel F axes doms v (e.rename v) c = (encodeChannel F axes doms "a" e c).map (Encoding.rename v) := by
  obtain ⟨k, i⟩ := c
  unfold encodeChannel
  cases k with
  | overlay =>
    simp only
    cases doms.getD (placeOf axes i) none with
    | none => rfl
    | some ks =>
      simp only
      cases sortDomain ks <;> rfl
  | stack o =>
    cases o with
    | none =>
      simp only
      cases doms.getD (placeOf axes i) none with
      | none => rfl
      | some ks =>
        simp only
        cases hs : sortDomain ks with
        | error e => rfl
        | ok ks =>
          simp only
          cases makeorder 0 (ks.map (DKey.text F)) <;> rfl
    | some o =>
      simp only
      cases makeorder 0 o <;> rfl
  | beside => rfl
  | below => rfl

theorem layers1d_rename (H : HistDef) (F : Fmt) (P : Plot1d) (doms : List (Option (List DKey))) (v : String) :
    H.layers1d F P doms v = (H.layers1d F P doms "a").map (List.map (Drawn.rename v)) := by
  unfold HistDef.layers1d
  simp only
  rw [except_map_map, show ({ x := .col v (placeOf P.axes P.axis), xtype := H.xtype P, y := .col v (H.plotAxes P.axes) } : Encoding) =
    Encoding.rename v { x := .col "a" (placeOf P.axes P.axis), xtype := H.xtype P, y := .col "a" (H.plotAxes P.axes) } from rfl,
    foldE_map _ _ (Encoding.rename v) (encodeChannel_rename F P.axes doms v), except_map_map]
  congr 1
  funext e
  cases P.error
  · rfl
  · cases P.mark.baseline <;> rfl

theorem encodeChannel2_rename (axes : List ℕ) (v : String) (e : Encoding2) (c : Channel) :
    encodeChannel2 axes v (e.rename v) c = (encodeChannel2 axes "a" e c).map (Encoding2.rename v) := by
  obtain ⟨k, i⟩ := c
  cases k <;> rfl

theorem layers2d_rename (H : HistDef) (P : Plot2d) (v : String) : H.layers2d P v = (H.layers2d P "a").map (List.map (Drawn.rename v)) := by
  unfold HistDef.layers2d
  cases extent2d false (H.axisAt P.xaxis) with
  | error e => rfl
  | ok xb =>
    cases extent2d true (H.axisAt P.yaxis) with
    | error e => rfl
    | ok yb =>
      simp only
      rw [except_map_map, show (⟨.col v (placeOf P.axes P.xaxis), .col v (placeOf P.axes P.yaxis), .col v (H.plotAxes P.axes), xb, yb, none, none⟩ : Encoding2) =
        Encoding2.rename v ⟨.col "a" (placeOf P.axes P.xaxis), .col "a" (placeOf P.axes P.yaxis), .col "a" (H.plotAxes P.axes), xb, yb, none, none⟩ from rfl,
        foldE_map _ _ (Encoding2.rename v) (encodeChannel2_rename P.axes v), except_map_map]
      rfl

theorem Leaf.data_rename (F : Fmt) (l : Leaf) (pre : Datum) (v : String) :
    l.data F pre v = (l.data F [] "a").map fun D => ⟨D.data.map fun d => pre ++ d.map fun p => (p.1.rename v, p.2), D.domains⟩ := by
  cases l with
  | one H st P => exact data1d_rename H F P st pre v
  | two H st P => exact data2d_rename H F P st pre v

theorem Leaf.layers_rename (F : Fmt) (l : Leaf) (doms : List (Option (List DKey))) (v : String) :
    l.layers F doms v = (l.layers F doms "a").map (List.map (Drawn.rename v)) := by
  cases l with
  | one H st P => exact layers1d_rename H F P doms v
  | two H st P => exact layers2d_rename H P v

/-! ## combinations -/

/-- What a plot gives if it is made. -/
def Leaf.aloneD (F : Fmt) (l : Leaf) : PlotData := (l.data F [] "a").toOption.getD ⟨[], []⟩

def Leaf.aloneL (F : Fmt) (l : Leaf) : List Drawn := (l.layers F (l.aloneD F).domains "a").toOption.getD []

/-- The plot can be made. -/
def Leaf.Ok (F : Fmt) (l : Leaf) : Prop := (∃ D, l.data F [] "a" = .ok D) ∧ ∃ ds, l.layers F (l.aloneD F).domains "a" = .ok ds

theorem Leaf.collect_eq (F : Fmt) (i : ℕ) (l : Leaf) (h : ∃ D, l.data F [] "a" = .ok D) :
    l.collect F i = .ok ⟨(l.aloneD F).data.map (Datum.tagged (varname i)), (l.aloneD F).domains⟩ := by
  obtain ⟨D, hD⟩ := h
  unfold Leaf.collect Leaf.aloneD
  rw [Leaf.data_rename, hD]
  rfl

theorem Leaf.fill_eq (F : Fmt) (doms : List (List (Option (List DKey)))) (i : ℕ) (l : Leaf) (h : ∃ ds, l.layers F (l.aloneD F).domains "a" = .ok ds)
    (hd : doms.getD i [] = (l.aloneD F).domains) : l.fill F doms i = .ok ((l.aloneL F).map (Drawn.rename (varname i))) := by
  obtain ⟨ds, hds⟩ := h
  unfold Leaf.fill Leaf.aloneL
  rw [Leaf.layers_rename, hd, hds]
  rfl

mutual
theorem collect_ok (F : Fmt) : ∀ (c : Comb) (b : Bool) (i : ℕ), (∀ l ∈ c.leaves b, ∃ D, l.1.data F [] "a" = .ok D) →
    c.collect F i = .ok (((c.leaves b).zipIdx i).map fun p => ⟨(p.1.1.aloneD F).data.map (Datum.tagged (varname p.2)), (p.1.1.aloneD F).domains⟩,
      i + (c.leaves b).length)
  | .leaf l, b, i, h => by
    rw [Comb.collect, Leaf.collect_eq F i l (h (l, b) (by simp [Comb.leaves]))]
    simp [Comb.leaves, Except.map]
  | .node k cs, b, i, h => by
    rw [Comb.collect]
    cases k with
    | overlay => rw [collectL_ok F cs true i (by simpa [Comb.leaves] using h)]; simp [Comb.leaves]
    | beside => rw [collectL_ok F cs false i (by simpa [Comb.leaves] using h)]; simp [Comb.leaves]
    | below => rw [collectL_ok F cs false i (by simpa [Comb.leaves] using h)]; simp [Comb.leaves]
    | grid n => rw [collectL_ok F cs false i (by simpa [Comb.leaves] using h)]; simp [Comb.leaves]
theorem collectL_ok (F : Fmt) : ∀ (cs : CombL) (b : Bool) (i : ℕ), (∀ l ∈ cs.leaves b, ∃ D, l.1.data F [] "a" = .ok D) →
    cs.collect F i = .ok (((cs.leaves b).zipIdx i).map fun p => ⟨(p.1.1.aloneD F).data.map (Datum.tagged (varname p.2)), (p.1.1.aloneD F).domains⟩,
      i + (cs.leaves b).length)
  | .nil, b, i, _ => by simp [CombL.collect, CombL.leaves]
  | .cons c cs, b, i, h => by
    rw [CombL.collect, collect_ok F c b i (fun l hl => h l (by simp [CombL.leaves, hl]))]
    simp only
    rw [collectL_ok F cs b _ (fun l hl => h l (by simp [CombL.leaves, hl]))]
    simp [Except.map, CombL.leaves, List.zipIdx_append, Nat.add_assoc]
end

mutual
theorem collect_inv (F : Fmt) : ∀ (c : Comb) (b : Bool) (i : ℕ) (r : List PlotData × ℕ), c.collect F i = .ok r → ∀ l ∈ c.leaves b, ∃ D, l.1.data F [] "a" = .ok D
  | .leaf l, b, i, r, h, l', hl => by
    simp only [Comb.leaves, List.mem_singleton] at hl
    subst hl
    simp only [Comb.collect, Leaf.collect] at h
    rw [Leaf.data_rename] at h
    cases hd : l.data F [] "a" with
    | error e => rw [hd] at h; cases h
    | ok D => exact ⟨D, rfl⟩
  | .node k cs, b, i, r, h, l', hl => by
    rw [Comb.collect] at h
    cases k with
    | overlay => exact collectL_inv F cs true i r h l' (by simpa [Comb.leaves] using hl)
    | beside => exact collectL_inv F cs false i r h l' (by simpa [Comb.leaves] using hl)
    | below => exact collectL_inv F cs false i r h l' (by simpa [Comb.leaves] using hl)
    | grid n => exact collectL_inv F cs false i r h l' (by simpa [Comb.leaves] using hl)
theorem collectL_inv (F : Fmt) : ∀ (cs : CombL) (b : Bool) (i : ℕ) (r : List PlotData × ℕ), cs.collect F i = .ok r → ∀ l ∈ cs.leaves b, ∃ D, l.1.data F [] "a" = .ok D
  | .nil, b, i, r, _, l', hl => by simp [CombL.leaves] at hl
  | .cons c cs, b, i, r, h, l', hl => by
    rw [CombL.collect] at h
    cases hc : c.collect F i with
    | error e => rw [hc] at h; cases h
    | ok r1 =>
      rw [hc] at h
      simp only at h
      cases hs : cs.collect F r1.2 with
      | error e => rw [hs] at h; cases h
      | ok r2 =>
        simp only [CombL.leaves, List.mem_append] at hl
        rcases hl with hl | hl
        · exact collect_inv F c b i r1 hc l' hl
        · exact collectL_inv F cs b _ r2 hs l' hl
end

/-- The layers of the plots from number `i` on. -/
def panelLayers (F : Fmt) (ls : List (Leaf × Bool)) (i : ℕ) : List LayerSpec :=
  (ls.zipIdx i).flatMap fun p => (p.1.1.aloneL F).map fun d =>
    ⟨d.rename (varname p.2), if p.1.2 || decide ((p.1.1.aloneL F).length = 1) then some (varname p.2) else none⟩

theorem panelLayers_append (F : Fmt) (ls ms : List (Leaf × Bool)) (i : ℕ) :
    panelLayers F (ls ++ ms) i = panelLayers F ls i ++ panelLayers F ms (i + ls.length) := by
  simp [panelLayers, List.zipIdx_append]

theorem leafPanel_layers (i : ℕ) (ds : List Drawn) :
    (leafPanel i ds).layers = ds.map fun d => ⟨d, if ds.length = 1 then some (varname i) else none⟩ := by
  match ds with
  | [] => rfl
  | [d] => rfl
  | d :: e :: ds => simp [leafPanel, Panel.layers]

/-- `doms` has the keys of the plots from number `i` on. -/
def DomsFrom (F : Fmt) (doms : List (List (Option (List DKey)))) (ls : List (Leaf × Bool)) (i : ℕ) : Prop :=
  ∀ j l, ls[j]? = some l → doms.getD (i + j) [] = (l.1.aloneD F).domains

theorem DomsFrom.left {F : Fmt} {doms : List (List (Option (List DKey)))} {ls ms : List (Leaf × Bool)} {i : ℕ} (h : DomsFrom F doms (ls ++ ms) i) : DomsFrom F doms ls i :=
  fun j l hl => h j l (by
    rw [List.getElem?_append_left (List.getElem?_eq_some_iff.1 hl).1]
    exact hl)

theorem DomsFrom.right {F : Fmt} {doms : List (List (Option (List DKey)))} {ls ms : List (Leaf × Bool)} {i : ℕ} (h : DomsFrom F doms (ls ++ ms) i) :
    DomsFrom F doms ms (i + ls.length) :=
  fun j l hl => by
    have := h (ls.length + j) l (by rw [List.getElem?_append_right (by omega)]; simpa using hl)
    rwa [← Nat.add_assoc] at this

theorem accepts_of_combine {k : CKind} {cs : CombL} (h : combine k cs = .ok (.node k cs)) : ∀ c ∈ cs.toList, k.accepts c = true := by
  unfold combine at h
  by_cases hc : cs.toList.all k.accepts = true
  · exact List.all_eq_true.1 hc
  · rw [if_neg hc] at h
    cases h

theorem fillOverlay_ok (F : Fmt) (doms : List (List (Option (List DKey)))) : ∀ (cs : CombL) (i : ℕ), (∀ c ∈ cs.toList, CKind.overlay.accepts c = true) →
    (∀ l ∈ cs.leaves true, ∃ ds, l.1.layers F (l.1.aloneD F).domains "a" = .ok ds) → DomsFrom F doms (cs.leaves true) i →
    fillOverlay F doms cs i = .ok (panelLayers F (cs.leaves true) i, i + (cs.leaves true).length)
  | .nil, i, _, _, _ => rfl
  | .cons (.leaf l) cs, i, ha, h, hd => by
    rw [fillOverlay, Leaf.fill_eq F doms i l (h (l, true) (by simp [CombL.leaves, Comb.leaves])) (hd 0 (l, true) (by simp [CombL.leaves, Comb.leaves]))]
    simp only
    rw [fillOverlay_ok F doms cs (i + 1) (fun c hc => ha c (by simp [CombL.toList, hc])) (fun l hl => h l (by simp [CombL.leaves, hl]))
      (by have := hd.right (ls := [(l, true)]); simpa [CombL.leaves, Comb.leaves] using this)]
    simp [Except.map, CombL.leaves, Comb.leaves, panelLayers, Function.comp_def, Nat.add_assoc, Nat.add_comm]
  | .cons (.node k ds) cs, i, ha, _, _ => by
    have := ha (.node k ds) (by simp [CombL.toList])
    cases k <;> simp [CKind.accepts] at this

theorem Leaf.fill_inv (F : Fmt) (doms : List (List (Option (List DKey)))) (i : ℕ) (l : Leaf) (h0 : doms.getD (i + 0) [] = (l.aloneD F).domains) {ds : List Drawn}
    (hf : l.fill F doms i = .ok ds) : ∃ ds, l.layers F (l.aloneD F).domains "a" = .ok ds := by
  rw [Nat.add_zero] at h0
  unfold Leaf.fill at hf
  rw [Leaf.layers_rename, h0] at hf
  cases hx : l.layers F (l.aloneD F).domains "a" with
  | error e => rw [hx] at hf; cases hf
  | ok x => exact ⟨x, rfl⟩

theorem fillOverlay_inv (F : Fmt) (doms : List (List (Option (List DKey)))) : ∀ (cs : CombL) (i : ℕ) (r : List LayerSpec × ℕ), (∀ c ∈ cs.toList, CKind.overlay.accepts c = true) →
    DomsFrom F doms (cs.leaves true) i → fillOverlay F doms cs i = .ok r →
    ∀ l ∈ cs.leaves true, ∃ ds, l.1.layers F (l.1.aloneD F).domains "a" = .ok ds
  | .nil, i, _, _, _, _, l, hl => by simp [CombL.leaves] at hl
  | .cons (.leaf l) cs, i, r, ha, hd, h, l', hl => by
    have h0 := hd 0 (l, true) (by simp [CombL.leaves, Comb.leaves])
    rw [fillOverlay] at h
    cases hf : l.fill F doms i with
    | error e => rw [hf] at h; cases h
    | ok ds =>
      rw [hf] at h
      simp only at h
      cases hs : fillOverlay F doms cs (i + 1) with
      | error e => rw [hs] at h; cases h
      | ok r2 =>
        simp only [CombL.leaves, Comb.leaves, List.mem_append, List.mem_singleton] at hl
        rcases hl with rfl | hl
        · exact Leaf.fill_inv F doms i l h0 hf
        · exact fillOverlay_inv F doms cs (i + 1) r2 (fun c hc => ha c (by simp [CombL.toList, hc]))
            (by have := hd.right (ls := [(l, true)]); simpa [CombL.leaves, Comb.leaves] using this) hs l' hl
  | .cons (.node k ds) cs, i, r, ha, _, _, _, _ => by
    have := ha (.node k ds) (by simp [CombL.toList])
    cases k <;> simp [CKind.accepts] at this

theorem not_grid {k : CKind} {n : ℕ} {cs : CombL} (h : k.accepts (.node (.grid n) cs) = true) : False := by
  cases k <;> simp [CKind.accepts] at h

mutual
theorem fillPanel_ok (F : Fmt) (doms : List (List (Option (List DKey)))) : ∀ (c : Comb) (i : ℕ), c.Built → (∃ k : CKind, k.accepts c = true) →
    (∀ l ∈ c.leaves false, ∃ ds, l.1.layers F (l.1.aloneD F).domains "a" = .ok ds) → DomsFrom F doms (c.leaves false) i →
    ∃ p, fillPanel F doms c i = .ok (p, i + (c.leaves false).length) ∧ p.layers = panelLayers F (c.leaves false) i ∧ p.shape = c.shape
  | .leaf l, i, _, _, h, hd => by
    refine ⟨leafPanel i ((l.aloneL F).map (Drawn.rename (varname i))), ?_, ?_, ?_⟩
    · rw [fillPanel, Leaf.fill_eq F doms i l (h (l, false) (by simp [Comb.leaves])) (hd 0 (l, false) (by simp [Comb.leaves]))]
      rfl
    · rw [leafPanel_layers]
      simp [Comb.leaves, panelLayers, Function.comp_def]
    · match (l.aloneL F).map (Drawn.rename (varname i)) with
      | [] => rfl
      | [_] => rfl
      | _ :: _ :: _ => rfl
  | .node .overlay cs, i, hb, _, h, hd => by
    refine ⟨.layer (panelLayers F (cs.leaves true) i), ?_, rfl, rfl⟩
    rw [fillPanel, fillOverlay_ok F doms cs i (accepts_of_combine hb.2) (by simpa [Comb.leaves] using h) (by simpa [Comb.leaves] using hd)]
    simp [Except.map, Comb.leaves]
  | .node .beside cs, i, hb, _, h, hd => by
    obtain ⟨ps, h1, h2, h3⟩ := fillPanels_ok F doms cs i hb.1 (fun c hc => ⟨_, accepts_of_combine hb.2 c hc⟩) (by simpa [Comb.leaves] using h) (by simpa [Comb.leaves] using hd)
    refine ⟨.hconcat ps, ?_, by simpa [Panel.layers, Comb.leaves] using h2, by simp [Panel.shape, Comb.shape, h3]⟩
    rw [fillPanel, h1]
    simp [Except.map, Comb.leaves]
  | .node .below cs, i, hb, _, h, hd => by
    obtain ⟨ps, h1, h2, h3⟩ := fillPanels_ok F doms cs i hb.1 (fun c hc => ⟨_, accepts_of_combine hb.2 c hc⟩) (by simpa [Comb.leaves] using h) (by simpa [Comb.leaves] using hd)
    refine ⟨.vconcat ps, ?_, by simpa [Panel.layers, Comb.leaves] using h2, by simp [Panel.shape, Comb.shape, h3]⟩
    rw [fillPanel, h1]
    simp [Except.map, Comb.leaves]
  | .node (.grid _) _, _, _, hk, _, _ => by
    obtain ⟨k, hk⟩ := hk
    exact (not_grid hk).elim
theorem fillPanels_ok (F : Fmt) (doms : List (List (Option (List DKey)))) : ∀ (cs : CombL) (i : ℕ), cs.Built → (∀ c ∈ cs.toList, ∃ k : CKind, k.accepts c = true) →
    (∀ l ∈ cs.leaves false, ∃ ds, l.1.layers F (l.1.aloneD F).domains "a" = .ok ds) → DomsFrom F doms (cs.leaves false) i →
    ∃ ps, fillPanels F doms cs i = .ok (ps, i + (cs.leaves false).length) ∧ Panel.layersL ps = panelLayers F (cs.leaves false) i ∧ Panel.shapes ps = cs.shapes
  | .nil, i, _, _, _, _ => ⟨[], by simp [fillPanels, CombL.leaves], rfl, rfl⟩
  | .cons c cs, i, hb, ha, h, hd => by
    obtain ⟨p, h1, h2, h3⟩ := fillPanel_ok F doms c i hb.1 (ha c (by simp [CombL.toList])) (fun l hl => h l (by simp [CombL.leaves, hl])) hd.left
    obtain ⟨ps, k1, k2, k3⟩ := fillPanels_ok F doms cs (i + (c.leaves false).length) hb.2 (fun c hc => ha c (by simp [CombL.toList, hc]))
      (fun l hl => h l (by simp [CombL.leaves, hl])) hd.right
    refine ⟨p :: ps, ?_, ?_, ?_⟩
    · rw [fillPanels, h1]
      simp only
      rw [k1]
      simp [Except.map, CombL.leaves, Nat.add_assoc]
    · rw [Panel.layersL, h2, k2, CombL.leaves, panelLayers_append]
    · rw [Panel.shapes, h3, k3, CombL.shapes]
end

mutual
theorem fillPanel_inv (F : Fmt) (doms : List (List (Option (List DKey)))) : ∀ (c : Comb) (i : ℕ) (r : Panel × ℕ), c.Built → (∃ k : CKind, k.accepts c = true) →
    DomsFrom F doms (c.leaves false) i → fillPanel F doms c i = .ok r →
    r.2 = i + (c.leaves false).length ∧ ∀ l ∈ c.leaves false, ∃ ds, l.1.layers F (l.1.aloneD F).domains "a" = .ok ds
  | .leaf l, i, r, _, _, hd, h => by
    rw [fillPanel] at h
    cases hf : l.fill F doms i with
    | error e => rw [hf] at h; cases h
    | ok ds =>
      rw [hf] at h
      cases h
      refine ⟨by simp [Comb.leaves], fun l' hl => ?_⟩
      simp only [Comb.leaves, List.mem_singleton] at hl
      subst hl
      exact Leaf.fill_inv F doms i l (hd 0 (l, false) (by simp [Comb.leaves])) hf
  | .node .overlay cs, i, r, hb, _, hd, h => by
    rw [fillPanel] at h
    cases hf : fillOverlay F doms cs i with
    | error e => rw [hf] at h; cases h
    | ok r' =>
      have hall := fillOverlay_inv F doms cs i r' (accepts_of_combine hb.2) (by simpa [Comb.leaves] using hd) hf
      rw [hf] at h
      cases h
      rw [fillOverlay_ok F doms cs i (accepts_of_combine hb.2) hall (by simpa [Comb.leaves] using hd)] at hf
      cases hf
      exact ⟨by simp [Comb.leaves], by simpa [Comb.leaves] using hall⟩
  | .node .beside cs, i, r, hb, _, hd, h => by
    rw [fillPanel] at h
    cases hf : fillPanels F doms cs i with
    | error e => rw [hf] at h; cases h
    | ok r' =>
      obtain ⟨h1, h2⟩ := fillPanels_inv F doms cs i r' hb.1 (fun c hc => ⟨_, accepts_of_combine hb.2 c hc⟩) (by simpa [Comb.leaves] using hd) hf
      rw [hf] at h
      cases h
      exact ⟨by simpa [Comb.leaves] using h1, by simpa [Comb.leaves] using h2⟩
  | .node .below cs, i, r, hb, _, hd, h => by
    rw [fillPanel] at h
    cases hf : fillPanels F doms cs i with
    | error e => rw [hf] at h; cases h
    | ok r' =>
      obtain ⟨h1, h2⟩ := fillPanels_inv F doms cs i r' hb.1 (fun c hc => ⟨_, accepts_of_combine hb.2 c hc⟩) (by simpa [Comb.leaves] using hd) hf
      rw [hf] at h
      cases h
      exact ⟨by simpa [Comb.leaves] using h1, by simpa [Comb.leaves] using h2⟩
  | .node (.grid _) _, _, _, _, hk, _, _ => by
    obtain ⟨k, hk⟩ := hk
    exact (not_grid hk).elim
theorem fillPanels_inv (F : Fmt) (doms : List (List (Option (List DKey)))) : ∀ (cs : CombL) (i : ℕ) (r : List Panel × ℕ), cs.Built →
    (∀ c ∈ cs.toList, ∃ k : CKind, k.accepts c = true) → DomsFrom F doms (cs.leaves false) i → fillPanels F doms cs i = .ok r →
    r.2 = i + (cs.leaves false).length ∧ ∀ l ∈ cs.leaves false, ∃ ds, l.1.layers F (l.1.aloneD F).domains "a" = .ok ds
  | .nil, i, r, _, _, _, h => by
    rw [fillPanels] at h
    cases h
    simp [CombL.leaves]
  | .cons c cs, i, r, hb, ha, hd, h => by
    rw [fillPanels] at h
    cases hf : fillPanel F doms c i with
    | error e => rw [hf] at h; cases h
    | ok r1 =>
      rw [hf] at h
      simp only at h
      obtain ⟨h1, h2⟩ := fillPanel_inv F doms c i r1 hb.1 (ha c (by simp [CombL.toList])) hd.left hf
      cases hs : fillPanels F doms cs r1.2 with
      | error e => rw [hs] at h; cases h
      | ok r2 =>
        rw [hs] at h
        cases h
        obtain ⟨k1, k2⟩ := fillPanels_inv F doms cs r1.2 r2 hb.2 (fun c hc => ha c (by simp [CombL.toList, hc])) (h1 ▸ hd.right) hs
        refine ⟨by rw [k1, h1]; simp [CombL.leaves, Nat.add_assoc], fun l hl => ?_⟩
        simp only [CombL.leaves, List.mem_append] at hl
        rcases hl with hl | hl
        · exact h2 l hl
        · exact k2 l hl
end

/-! ## grids -/

theorem Panel.layersL_append (ps qs : List Panel) : Panel.layersL (ps ++ qs) = Panel.layersL ps ++ Panel.layersL qs := by
  induction ps with
  | nil => rfl
  | cons p ps ih => simp [Panel.layersL, ih]

theorem Panel.layersL_rows (rows : List (List Panel)) : Panel.layersL (rows.map .hconcat) = Panel.layersL rows.flatten := by
  induction rows with
  | nil => rfl
  | cons r rows ih => simp [Panel.layersL, Panel.layers, ih, Panel.layersL_append]

theorem dropLast_getLastD (rows : List (List Panel)) (h : rows ≠ []) : rows.dropLast ++ [rows.getLastD []] = rows := by
  have h1 : rows.getLastD [] = rows.getLast h := by
    cases rows with
    | nil => exact absurd rfl h
    | cons r rows => rw [List.getLastD_cons, List.getLast_eq_getLastD]
  rw [h1, List.dropLast_append_getLast]

/-- All rows but the last one are full, and the last one is not too long. -/
def RowsOk (n : ℕ) (rows : List (List Panel)) : Prop := (∀ r ∈ rows.dropLast, r.length = n) ∧ (rows.getLastD []).length ≤ n

theorem gridRows_spec (n : ℕ) (hn : 0 < n) : ∀ (ps : List Panel) (rows : List (List Panel)), rows ≠ [] → RowsOk n rows →
    (gridRows n rows ps).flatten = rows.flatten ++ ps ∧ RowsOk n (gridRows n rows ps) ∧ gridRows n rows ps ≠ [] ∧
      (ps ≠ [] ∨ rows.getLastD [] ≠ [] → (gridRows n rows ps).getLastD [] ≠ [])
  | [], rows, h0, h => ⟨by simp [gridRows], h, h0, fun hx => by simpa [gridRows] using hx⟩
  | p :: ps, rows, h0, h => by
    rw [gridRows]
    by_cases hc : n ≤ (rows.getLastD []).length
    · rw [if_pos hc]
      have hr : RowsOk n (rows ++ [[p]]) := by
        refine ⟨fun r hr => ?_, by simp; omega⟩
        rw [List.dropLast_concat] at hr
        rw [← dropLast_getLastD rows h0, List.mem_append, List.mem_singleton] at hr
        rcases hr with hr | rfl
        · exact h.1 r hr
        · exact le_antisymm h.2 hc
      obtain ⟨h1, h2, h3, h4⟩ := gridRows_spec n hn ps (rows ++ [[p]]) (by simp) hr
      exact ⟨by rw [h1]; simp, h2, h3, fun _ => h4 (Or.inr (by simp))⟩
    · rw [if_neg hc]
      have hr : RowsOk n (rows.dropLast ++ [rows.getLastD [] ++ [p]]) := by
        refine ⟨fun r hr => ?_, ?_⟩
        · rw [List.dropLast_concat] at hr
          exact h.1 r hr
        · simp only [List.getLastD_concat, List.length_append, List.length_cons, List.length_nil]
          omega
      obtain ⟨h1, h2, h3, h4⟩ := gridRows_spec n hn ps (rows.dropLast ++ [rows.getLastD [] ++ [p]]) (by simp) hr
      refine ⟨?_, h2, h3, fun _ => h4 (Or.inr (by simp))⟩
      rw [h1]
      conv_rhs => rw [← dropLast_getLastD rows h0]
      simp

end Verif
