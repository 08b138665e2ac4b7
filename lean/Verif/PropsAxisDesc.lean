import Verif.AxisDescLemmas

/-!
# Properties of axis descriptions and intervals (C74, C76, and C63 for axes and histograms)
-/

namespace Verif

/-! ## C76 -/

theorem tojson_text (render : Key → String) (hr : ∀ s, render (.str s) = s) {a : AxisX} {j : J}
    (h : a.tojson = .ok j) : j.text render = j := by
  have hl : ∀ es : List Num, J.textL render (es.map J.float) = es.map J.float := by
    intro es
    induction es with
    | nil => rfl
    | cons e es ih => simp [J.textL, J.text, ih]
  cases a <;> simp only [AxisX.tojson, Except.ok.injEq, reduceCtorEq] at h <;> subst h <;>
    simp [J.obj, J.text, J.textD, J.textP, hr, hl]

/-- **C76**, for axes without NaN among their numbers.  An axis that was made by a constructor is the same after
`_pack` and `_unpack` (as in pickling), `copy`, `tojson` and `fromjson`, and writing the JSON as text in between; and
`==` says so.  `relabel` gives the axis with the new label and the same binning. -/
theorem C76_restored_partial {a : AxisX} (hm : Made a) (hn : a.noNaN) :
    (∃ p, a.pack = .ok p ∧ unpack p = .ok a) ∧ a.copy = .ok a ∧
      (∃ j, a.tojson = .ok j ∧ axisFromjson j = .ok a ∧
        ∀ render : Key → String, (∀ s, render (.str s) = s) → axisFromjson (j.text render) = .ok a) ∧
      (∀ b, a.eq b = true ↔ a = b) ∧
      ∀ l, ∃ b, a.relabel l = .ok b ∧ b.label = some l ∧ b.binning = a.binning ∧ Made b := by
  have hv := made_valid hm
  have hpack : ∃ p, a.pack = .ok p ∧ unpack p = .ok a := by
    cases a with
    | groupby e => exact ⟨_, rfl, rfl⟩
    | groupbin e w o n c => exact ⟨_, rfl, mkGroupbin_again hv⟩
    | bin e k lo hi u o n c => exact ⟨_, rfl, mkBin_again hv.1 hv.2⟩
    | intbin e lo hi u o => exact ⟨_, rfl, mkIntbin_again hv⟩
    | split e es u o n c => exact ⟨_, rfl, mkSplit_again hv.1 (hv.2.1 hn) hv.2.2.1 hv.2.2.2⟩
    | cut e => exact ⟨_, rfl, rfl⟩
    | profile e => exact ⟨_, rfl, rfl⟩
    | null => exact absurd hv id
  have hjson : ∃ j, a.tojson = .ok j ∧ axisFromjson j = .ok a := by
    cases a with
    | groupby e => exact ⟨_, rfl, by simp [axisFromjson, J.get, J.obj, J.strOf, AxCls.call, bind, Except.bind]⟩
    | groupbin e w o n c =>
      exact ⟨_, rfl, by simpa [axisFromjson, J.get, J.obj, J.strOf, AxCls.call, bind, Except.bind, argsOf, mapE,
        pure, Except.pure] using mkGroupbin_again hv⟩
    | bin e k lo hi u o n c =>
      exact ⟨_, rfl, by simpa [axisFromjson, J.get, J.obj, J.strOf, AxCls.call, bind, Except.bind, argsOf, mapE,
        pure, Except.pure] using mkBin_again hv.1 hv.2⟩
    | intbin e lo hi u o =>
      exact ⟨_, rfl, by simpa [axisFromjson, J.get, J.obj, J.strOf, AxCls.call, bind, Except.bind, argsOf, mapE,
        pure, Except.pure] using mkIntbin_again hv⟩
    | split e es u o n c =>
      exact ⟨_, rfl, by simpa [axisFromjson, J.get, J.obj, J.strOf, AxCls.call, bind, Except.bind, argsOf, mapE,
        pure, Except.pure] using mkSplit_again hv.1 (hv.2.1 hn) hv.2.2.1 hv.2.2.2⟩
    | cut e => exact ⟨_, rfl, by simp [axisFromjson, J.get, J.obj, J.strOf, AxCls.call, bind, Except.bind]⟩
    | profile e => exact ⟨_, rfl, by simp [axisFromjson, J.get, J.obj, J.strOf, AxCls.call, bind, Except.bind]⟩
    | null => exact absurd hv id
  refine ⟨hpack, ?_, ?_, ?_, ?_⟩
  · cases a with
    | groupby e => rfl
    | groupbin e w o n c => exact mkGroupbin_again hv
    | bin e k lo hi u o n c => exact mkBin_again hv.1 hv.2
    | intbin e lo hi u o => exact mkIntbin_again hv
    | split e es u o n c => exact mkSplit_again hv.1 (hv.2.1 hn) hv.2.2.1 hv.2.2.2
    | cut e => rfl
    | profile e => rfl
    | null => exact absurd hv id
  · obtain ⟨j, h1, h2⟩ := hjson
    exact ⟨j, h1, h2, fun render hr => by rw [tojson_text render hr h1]; exact h2⟩
  · intro b
    rw [eq_iff_noNaN]
    exact ⟨fun h => h.2, fun h => ⟨hn, h⟩⟩
  · intro l
    cases a with
    | groupby e => exact ⟨_, rfl, rfl, rfl, .groupby, l, [], rfl⟩
    | groupbin e w o n c =>
      have h := mkGroupbin_again (e := l) (o := o) (n := n) (c := c) hv
      exact ⟨_, h, rfl, rfl, .groupbin, l, [.float w, .float o, .bool n, .bool c], h⟩
    | bin e k lo hi u o n c =>
      have h := mkBin_again (e := l) (c := c) hv.1 hv.2
      exact ⟨_, h, rfl, rfl, .bin, l,
        [.int k, .float lo, .float hi, .bool u, .bool o, .bool n, .bool c], h⟩
    | intbin e lo hi u o =>
      have h := mkIntbin_again (e := l) (u := u) (o := o) hv
      exact ⟨_, h, rfl, rfl, .intbin, l, [.int lo, .int hi, .bool u, .bool o], h⟩
    | split e es u o n c =>
      have h := mkSplit_again (e := l) (c := c) hv.1 (hv.2.1 hn) hv.2.2.1 hv.2.2.2
      exact ⟨_, h, rfl, rfl, .split, l,
        [.list (es.map .float), .bool u, .bool o, .bool n, .bool c], h⟩
    | cut e => exact ⟨_, rfl, rfl, rfl, .cut, l, [], rfl⟩
    | profile e => exact ⟨_, rfl, rfl, rfl, .profile, l, [], rfl⟩
    | null => exact absurd hv id

/-- An axis made from edges in any order, with a boolean among them. -/
example : Made (.split "x" [.ninf, .fin 1, .fin 2] true false true true) ∧
    (AxisX.split "x" [.ninf, .fin 1, .fin 2] true false true true).noNaN :=
  ⟨⟨.split, "x", [.list [.int 2, .bool true, .float .ninf], .bool true, .bool false, .bool true, .bool true], by
    decide +kernel⟩, by decide +kernel⟩

/-- **C76** (binning).  What `fill` does with values depends on the binning alone: axes with the same binning are the
same axis in the model of filling, and made axes with finite numbers are there. -/
theorem C76_bins_identically {a b : AxisX} (h : a.binning = b.binning) :
    a.fixed? = b.fixed? ∧ a.group? = b.group? := by
  cases a <;> cases b <;> simp_all [AxisX.binning, AxisX.fixed?, AxisX.group?]

/-- **C76** (arguments).  `True` and `False` are accepted wherever a number is, and mean 1 and 0; numbers are not accepted for a
flag, and a number that is not an integer not as the limit of an `intbin` or a number of bins. -/
theorem C76_bool_arguments (e : String) (b : Bool) (x y z : J) :
    (∀ u o, mkIntbin e (.bool b) y u o = mkIntbin e (.int (if b then 1 else 0)) y u o ∧
      mkIntbin e x (.bool b) u o = mkIntbin e x (.int (if b then 1 else 0)) u o) ∧
    (∀ u o n c, mkBin e (.bool b) x y u o n c = mkBin e (.int (if b then 1 else 0)) x y u o n c ∧
      mkBin e x (.bool b) y u o n c = mkBin e x (.int (if b then 1 else 0)) y u o n c ∧
      mkBin e x y (.bool b) u o n c = mkBin e x y (.int (if b then 1 else 0)) u o n c) ∧
    (∀ (v : Num) u o, mkIntbin e (.float v) y u o = .error .typeError) ∧
    (∀ (v : Num) u o n c, mkBin e (.float v) x y u o n c = .error .typeError) ∧
    ∀ (i j k : ℤ) (o : J), mkIntbin e (.int i) (.int j) (.int k) o = .error .typeError := by
  cases b <;> exact ⟨fun _ _ => ⟨rfl, rfl⟩, fun _ _ _ _ => ⟨rfl, rfl, rfl⟩, fun _ _ _ => rfl, fun _ _ _ _ _ => rfl, fun _ _ _ _ => rfl⟩

example : mkIntbin "x" (.bool true) (.int 5) (.bool true) (.bool true) = .ok (.intbin "x" 1 5 true true) := rfl

/-- **C76 is violated** by axes with NaN: the constructors accept it, and then the axis is not equal to itself, nor to
its restored copies. -/
theorem C76_refuted_nan : ∃ a : AxisX, Made a ∧ a.copy = .ok a ∧ a.eq a = false :=
  ⟨.bin "x" 10 .nan (.fin 1) true true true true,
    ⟨.bin, "x", [.int 10, .float .nan, .int 1, .bool true, .bool true, .bool true, .bool true], by decide +kernel⟩,
    by decide +kernel, by decide +kernel⟩

/-- What `select` leaves of a one-sided selection has neither `_pack` nor `tojson`. -/
theorem C76_null : AxisX.null.pack = .error .attributeError ∧ AxisX.null.tojson = .error .attributeError := ⟨rfl, rfl⟩

/-! ### The constructors agree with those of the model of filling -/

theorem mapM_fin? : ∀ l : List ℚ, (l.map Num.fin).mapM Num.fin? = some l
  | [] => rfl
  | q :: l => by simp [List.mapM_cons, Num.fin?, mapM_fin? l]

theorem orderedInsert_fin (q : ℚ) : ∀ l : List ℚ,
    (l.map Num.fin).orderedInsert NLe (.fin q) = (l.orderedInsert (· ≤ ·) q).map Num.fin
  | [] => rfl
  | r :: l => by
    simp only [List.map_cons, List.orderedInsert_cons]
    by_cases h : q ≤ r
    · rw [if_pos (show NLe (.fin q) (.fin r) by simpa [NLe, Num.le] using h), if_pos h]; rfl
    · rw [if_neg (show ¬ NLe (.fin q) (.fin r) by simpa [NLe, Num.le] using h), if_neg h, orderedInsert_fin q l]; rfl

theorem insertionSort_fin : ∀ l : List ℚ,
    (l.map Num.fin).insertionSort NLe = (l.insertionSort (· ≤ ·)).map Num.fin
  | [] => rfl
  | q :: l => by
    rw [List.map_cons, List.insertionSort_cons, List.insertionSort_cons, insertionSort_fin l, orderedInsert_fin]

/-- **C76.**  The constructors of this model and of the model of filling accept the same finite numbers and give the
same axes. -/
theorem C76_constructors (e : String) :
    (∀ (k : ℕ) (lo hi : ℚ) (u o n c : Bool),
      (mkBin e (.int k) (.float (.fin lo)) (.float (.fin hi)) (.bool u) (.bool o) (.bool n) (.bool c)).map
        AxisX.fixed? = (BinAxis.init k lo hi u o n c).map fun b => some (.bin b)) ∧
    (∀ (lo hi : ℤ) (u o : Bool), (mkIntbin e (.int lo) (.int hi) (.bool u) (.bool o)).map AxisX.fixed? =
      (IntbinAxis.init lo hi u o).map fun b => some (.intbin b)) ∧
    (∀ (es : List ℚ) (u o n c : Bool),
      (mkSplit e (.list (es.map fun q => .float (.fin q))) (.bool u) (.bool o) (.bool n) (.bool c)).map AxisX.fixed? =
        (SplitAxis.init es u o n c).map fun b => some (.split b)) ∧
    ∀ (w o : ℚ) (n c : Bool),
      (mkGroupbin e (.float (.fin w)) (.float (.fin o)) (.bool n) (.bool c)).map AxisX.group? =
        (GroupbinAxis.init w o n c).map fun b => some (.groupbin b) := by
  refine ⟨?_, ?_, ?_, ?_⟩
  · intro k lo hi u o n c
    by_cases h1 : (0 < k ∧ lo ≥ hi) ∨ lo > hi
    · have h1' : (0 < k ∧ Num.le (.fin hi) (.fin lo) = true) ∨ Num.lt (.fin hi) (.fin lo) = true := by
        simpa [Num.le, Num.lt] using h1
      have hk : natOf (.int (k : ℤ)) = .ok k := by rw [natOf, if_neg (by omega)]; simp
      unfold mkBin BinAxis.init
      rw [hk, if_pos h1]
      change Except.map _ (if _ then _ else _) = _
      rw [if_pos h1']
      rfl
    · have h1' : ¬ ((0 < k ∧ Num.le (.fin hi) (.fin lo) = true) ∨ Num.lt (.fin hi) (.fin lo) = true) := by
        simpa [Num.le, Num.lt] using h1
      by_cases h2 : k + b2n u + b2n o + b2n n = 0
      · have hk : natOf (.int (k : ℤ)) = .ok k := by rw [natOf, if_neg (by omega)]; simp
        unfold mkBin BinAxis.init
        rw [hk, if_neg h1]
        change Except.map _ (if _ then _ else _) = _
        rw [if_neg h1']
        change Except.map _ (if _ then _ else _) = _
        have h2' : BinAxis.totbins ⟨k, lo, hi, u, o, n, c⟩ = 0 := h2
        simp only []
        rw [if_pos h2, if_pos h2']
        rfl
      · rw [mkBin_again h1' h2]
        unfold BinAxis.init
        rw [if_neg h1]
        have h2' : ¬ BinAxis.totbins ⟨k, lo, hi, u, o, n, c⟩ = 0 := h2
        simp only []
        rw [if_neg h2']
        rfl
  · intro lo hi u o
    by_cases h : hi < lo
    · unfold mkIntbin IntbinAxis.init
      change Except.map _ (if _ then _ else _) = _
      rw [if_pos h, if_pos h]
      rfl
    · rw [mkIntbin_again h]
      unfold IntbinAxis.init
      rw [if_neg h]
      rfl
  · intro es u o n c
    have hmap : (es.map fun q => J.float (.fin q)) = (es.map Num.fin).map J.float := by simp
    rw [hmap]
    unfold SplitAxis.init mkSplit
    by_cases h0 : es.length < 1
    · have : ¬ 1 ≤ es.length := by omega
      rw [if_pos h0]
      simp only [edgesOf, List.length_map, h0, if_true]
      rfl
    · have hsort := insertionSort_fin es
      have hes : edgesOf (.list ((es.map Num.fin).map J.float)) =
          .ok ((es.insertionSort (· ≤ ·)).map Num.fin) := by
        rw [edgesOf, if_neg (by simpa using h0), mapE_realOf]
        change Except.ok ((es.map Num.fin).insertionSort NLe) = _
        rw [hsort]
      have hnod : ((es.insertionSort (· ≤ ·)).map Num.fin).dedup.length ≠
          ((es.insertionSort (· ≤ ·)).map Num.fin).length ↔ ¬ (es.insertionSort (· ≤ ·)).Nodup := by
        rw [not_iff_not]
        have hinj : Function.Injective Num.fin := fun a b h => by injection h
        rw [← List.nodup_map_iff hinj]
        constructor
        · intro h
          have := (List.dedup_sublist ((es.insertionSort (· ≤ ·)).map Num.fin)).eq_of_length h
          rw [← this]; exact List.nodup_dedup _
        · intro h
          rw [h.dedup]
      rw [if_neg h0, hes]
      change Except.map _ (if _ then _ else _) = _
      simp only []
      by_cases hn : (es.insertionSort (· ≤ ·)).Nodup
      · rw [if_neg (fun h => (hnod.mp h) hn), if_neg (not_not.mpr hn)]
        change Except.map _ (if _ then _ else _) = _
        have hlen : ((es.insertionSort (· ≤ ·)).map Num.fin).length = (es.insertionSort (· ≤ ·)).length := by simp
        rw [hlen]
        by_cases ht : SplitAxis.totbins ⟨es.insertionSort (· ≤ ·), u, o, n, c⟩ = 0
        · rw [if_pos (show _ - 1 + b2n u + b2n o + b2n n = 0 from ht), if_pos ht]; rfl
        · rw [if_neg (show ¬ _ - 1 + b2n u + b2n o + b2n n = 0 from ht), if_neg ht]
          change Except.ok ((((es.insertionSort (· ≤ ·)).map Num.fin).mapM Num.fin?).bind _) = _
          rw [mapM_fin?]
          rfl
      · rw [if_pos (hnod.mpr hn), if_pos hn]; rfl
  · intro w o n c
    by_cases h : w ≤ 0
    · unfold mkGroupbin GroupbinAxis.init
      change Except.map _ (if _ then _ else _) = _
      rw [if_pos (show Num.le (.fin w) (.fin 0) = true by simpa [Num.le] using h), if_pos h]
      rfl
    · rw [mkGroupbin_again (show ¬ Num.le (.fin w) (.fin 0) = true by simpa [Num.le] using h)]
      unfold GroupbinAxis.init
      rw [if_neg h]
      rfl

/-! ## C74 -/

/-- **C74 is violated**: the NaN bin is less than itself. -/
theorem C74_refuted_irreflexive : BinLabel.nan.lt .nan = .ok true ∧ BinLabel.nan.eq .nan = true := ⟨rfl, rfl⟩

/-- **C74 is violated**: of two intervals with the same low edge each is greater than the other. -/
theorem C74_refuted_same_low (lo hi hi' : Num) (cl ch cl' ch' : Bool) (h : hi ≠ hi') :
    (BinLabel.iv lo hi cl ch).gt (.iv lo hi' cl' ch') = .ok true ∧
      (BinLabel.iv lo hi' cl' ch').gt (.iv lo hi cl ch) = .ok true := by
  have h1 : Num.lt lo lo = false := by cases lo <;> simp [Num.lt]
  have h2 : Num.eq hi hi' = false := by
    rw [Bool.eq_false_iff]; intro he; exact h (Num.eq_iff.mp he).2
  have h3 : Num.eq hi' hi = false := by
    rw [Bool.eq_false_iff]; intro he; exact h (Num.eq_iff.mp he).2.symm
  simp [BinLabel.gt, BinLabel.lt, BinLabel.eq, Except.map, h1, h2, h3]

/-- **C74 is violated**: the labels of one `intbin` axis with flow bins cannot be ordered at all. -/
theorem C74_refuted_mixed (i : ℤ) (lo hi : Num) (cl ch : Bool) :
    (BinLabel.int i).lt (.iv lo hi cl ch) = .error .typeError ∧
      (BinLabel.iv lo hi cl ch).lt (.int i) = .error .typeError := ⟨rfl, rfl⟩

/-- **C74**, what holds of all intervals and the NaN bin: comparing never raises; `<` is transitive; an interval is
not less than itself, and NaN comes after every interval; what is less is not equal or greater, unless both are
NaN. -/
theorem C74_order_partial {a b c : BinLabel} (ha : a.isInterval) (hb : b.isInterval) (hc : c.isInterval) :
    (∃ x, a.lt b = .ok x) ∧ (a.lt b = .ok true → b.lt c = .ok true → a.lt c = .ok true) ∧
      (a ≠ .nan → a.lt a = .ok false ∧ a.lt .nan = .ok true ∧ BinLabel.nan.lt a = .ok false) ∧
      (a.lt b = .ok true → a ≠ .nan → a.eq b = false ∧ b.lt a = .ok false) ∧ a.eq a = true ∧
      (a.eq b = true ↔ a = b) := by
  have ltt : ∀ {x y z : Num}, Num.lt x y = true → Num.lt y z = true → Num.lt x z = true := by
    intro x y z h1 h2
    cases x <;> cases y <;> cases z <;> simp_all [Num.lt]
    exact _root_.lt_trans h1 h2
  have lirr : ∀ x : Num, Num.lt x x = false := by intro x; cases x <;> simp [Num.lt]
  have lasym : ∀ {x y : Num}, Num.lt x y = true → Num.lt y x = false := by
    intro x y h
    rw [Bool.eq_false_iff]; intro h'
    have := ltt h h'
    rw [lirr] at this; cases this
  cases a with
  | int i => exact absurd ha id
  | bool x => exact absurd ha id
  | nan =>
    cases b with
    | int i => exact absurd hb id
    | bool x => exact absurd hb id
    | nan =>
      cases c with
      | int i => exact absurd hc id
      | bool x => exact absurd hc id
      | nan => simp [BinLabel.lt, BinLabel.eq]
      | iv lo hi cl ch => simp [BinLabel.lt, BinLabel.eq]
    | iv lo hi cl ch => simp [BinLabel.lt, BinLabel.eq]
  | iv lo hi cl ch =>
    cases b with
    | int i => exact absurd hb id
    | bool x => exact absurd hb id
    | nan =>
      cases c with
      | int i => exact absurd hc id
      | bool x => exact absurd hc id
      | nan => simp [BinLabel.lt, BinLabel.eq, lirr, Num.eq_iff, ha.1, ha.2]
      | iv lo hi cl ch => simp [BinLabel.lt, BinLabel.eq, lirr, Num.eq_iff, ha.1, ha.2]
    | iv lo' hi' cl' ch' =>
      have hne : Num.lt lo lo' = true → Num.eq lo lo' = false := by
        intro h
        rw [Bool.eq_false_iff]; intro he
        rw [(Num.eq_iff.mp he).2, lirr] at h; cases h
      have heq : (BinLabel.iv lo hi cl ch).eq (.iv lo' hi' cl' ch') = true ↔
          BinLabel.iv lo hi cl ch = .iv lo' hi' cl' ch' := by
        simp [BinLabel.eq, Num.eq_iff, ha.1, ha.2, and_assoc]
      cases c with
      | int i => exact absurd hc id
      | bool x => exact absurd hc id
      | nan =>
        refine ⟨⟨_, rfl⟩, by simp [BinLabel.lt], fun _ => ⟨by simp [BinLabel.lt, lirr], rfl, rfl⟩, ?_, ?_, heq⟩
        · intro h _
          simp only [BinLabel.lt, Except.ok.injEq] at h
          exact ⟨by simp [BinLabel.eq, hne h], by simp [BinLabel.lt, lasym h]⟩
        · simp [BinLabel.eq, Num.eq_iff, ha.1, ha.2]
      | iv lo'' hi'' cl'' ch'' =>
        refine ⟨⟨_, rfl⟩, ?_, fun _ => ⟨by simp [BinLabel.lt, lirr], rfl, rfl⟩, ?_, ?_, heq⟩
        · simp only [BinLabel.lt, Except.ok.injEq]; exact ltt
        · intro h _
          simp only [BinLabel.lt, Except.ok.injEq] at h
          exact ⟨by simp [BinLabel.eq, hne h], by simp [BinLabel.lt, lasym h]⟩
        · simp [BinLabel.eq, Num.eq_iff, ha.1, ha.2]

example : (BinLabel.iv .ninf (.fin 0) true false).isInterval ∧ (BinLabel.iv (.fin 0) .pinf true true).isInterval ∧
    BinLabel.nan.isInterval := ⟨⟨by simp, by simp⟩, ⟨by simp, by simp⟩, trivial⟩

theorem flowKeys_increasing {e : ℕ → ℚ} {n : ℕ} (he : ∀ i j, i < j → j ≤ n → e i < e j) (u o na cl : Bool) :
    (flowKeys e n u o na cl).Pairwise fun a b => a.lt b = .ok true := by
  rw [List.pairwise_iff_getElem]
  intro i j hi hj hij
  have h1 := (flowKeys_get e n u o na cl i _).mp (List.getElem?_eq_getElem hi)
  have h2 := (flowKeys_get e n u o na cl j _).mp (List.getElem?_eq_getElem hj)
  have hlt : ∀ i j, i < j → j ≤ n → Num.lt (.fin (e i)) (.fin (e j)) = true := by
    intro i j h h'; simpa [Num.lt] using he i j h h'
  rcases h1 with ⟨_, h1, h1'⟩ | ⟨a, ha, h1, h1'⟩ | ⟨_, h1, h1'⟩ | ⟨_, h1, h1'⟩ <;>
    rcases h2 with ⟨_, h2, h2'⟩ | ⟨b, hb, h2, h2'⟩ | ⟨_, h2, h2'⟩ | ⟨_, h2, h2'⟩ <;>
    rw [h1', h2'] <;> simp only [BinLabel.lt, Except.ok.injEq] <;>
    first
    | rfl
    | omega
    | (simp only [Num.lt]; done)
    | exact hlt _ _ (by omega) (by omega)
    | skip
  all_goals (exfalso; have : b2n u ≤ 1 := by cases u <;> simp [b2n]); omega

/-- **C74**, for the intervals of one axis: `keys()` of a `bin` or `split` axis lists them in strictly increasing
order, so that of two different ones exactly one is less and the other greater. -/
theorem C74_axis_partial :
    (∀ {k : ℕ} {lo hi : ℚ} {u o n c : Bool} {a : BinAxis}, BinAxis.init k lo hi u o n c = .ok a →
      a.keys.Pairwise fun x y => x.lt y = .ok true) ∧
    ∀ {es : List ℚ} {u o n c : Bool} {a : SplitAxis}, SplitAxis.init es u o n c = .ok a →
      a.keys.Pairwise fun x y => x.lt y = .ok true := by
  constructor
  · intro k lo hi u o n c a h
    obtain ⟨rfl, h1, _, _⟩ := BinAxis.init_ok h
    rcases Nat.eq_zero_or_pos k with rfl | hk
    · cases u <;> cases o <;> cases n <;> simp [BinAxis.keys, BinLabel.lt, Num.lt]
    rw [BinAxis.keys_eq _ hk]
    apply flowKeys_increasing
    intro i j hij hj
    simp only [BinAxis.i2x]
    have hkq : (0 : ℚ) < (k : ℚ) := by exact_mod_cast hk
    have : (i : ℚ) / k < (j : ℚ) / k := by
      apply div_lt_div_of_pos_right _ hkq
      exact_mod_cast hij
    have hw : 0 < hi - lo := sub_pos.mpr (h1 hk)
    have := mul_lt_mul_of_pos_right this hw
    linarith
  · intro es u o n c a h
    obtain ⟨hg, _, rfl, rfl, rfl, rfl, _⟩ := SplitAxis.init_ok h
    rw [SplitAxis.keys_eq _ hg.1]
    apply flowKeys_increasing
    intro i j hij hj
    have hl : 0 < a.edges.length := List.length_pos_of_ne_nil hg.1
    have hi' : i < a.edges.length := by omega
    have hj' : j < a.edges.length := by omega
    simp only [List.getD_eq_getElem?_getD, List.getElem?_eq_getElem hi', List.getElem?_eq_getElem hj', Option.getD_some]
    exact (List.pairwise_iff_getElem.mp hg.2) i j hi' hj' hij

example : ∃ a, BinAxis.init 3 0 1 true true true false = .ok a ∧ a.keys.length = 6 := ⟨_, rfl, by decide +kernel⟩

/-- **C74**, the other comparisons: if an interval is less than another one, `>`, `>=`, `<=` and `==` say so too; and equal
intervals are `>=` and `<=` each other. -/
theorem C74_comparisons_partial {a b : BinLabel} (ha : a.isInterval) (hb : b.isInterval) (hn : a ≠ .nan) :
    (a.lt b = .ok true → b.gt a = .ok true ∧ b.ge a = .ok true ∧ a.le b = .ok true ∧ a.gt b = .ok false ∧
      a.ge b = .ok false ∧ b.le a = .ok false ∧ a.eq b = false ∧ b.eq a = false) ∧
    a.ge a = .ok true ∧ a.le a = .ok true ∧ a.gt a = .ok false := by
  obtain ⟨-, -, h3, h4, h5, h6⟩ := C74_order_partial ha hb hb
  refine ⟨fun h => ?_, ?_⟩
  · obtain ⟨g1, g2⟩ := h4 h hn
    have g3 : b.eq a = false := by
      rw [Bool.eq_false_iff]
      intro e
      have := (C74_order_partial hb ha ha).2.2.2.2.2.mp e
      rw [h6.mpr this.symm] at g1; cases g1
    simp [BinLabel.gt, BinLabel.ge, BinLabel.le, h, g1, g2, g3, Except.map]
  · obtain ⟨g1, -, -⟩ := h3 hn
    simp [BinLabel.gt, BinLabel.ge, BinLabel.le, g1, h5, Except.map]

/-! ## C63 for axes and histograms -/

/-- The axes that have a method `compatible`: all but `profile` and what `select` leaves behind. -/
def AxisX.comparable : AxisX → Prop
  | .profile _ => False
  | .null => False
  | _ => True

/-- **C63**, for axes without NaN among their numbers.  `compatible` says whether two axes have the same binning.  So
it is reflexive, symmetric and transitive. -/
theorem C63_axis_partial {a : AxisX} (ha : a.comparable) (hn : a.noNaN) (b : AxisX) :
    a.compatible b = .ok (decide (a.binning = b.binning)) := by
  have hx : ∀ {x y : Num}, x ≠ .nan → Num.eq x y = decide (x = y) := by
    intro x y h
    rw [Bool.eq_iff_iff, Num.eq_iff, decide_eq_true_iff]
    exact ⟨fun h => h.2, fun h' => ⟨h, h'⟩⟩
  have hl : ∀ {x y : List Num}, Num.nan ∉ x → numsEq x y = decide (x = y) := by
    intro x y h
    rw [Bool.eq_iff_iff, numsEq_iff, decide_eq_true_iff]
    exact ⟨fun h => h.2, fun h' => ⟨h, h'⟩⟩
  cases a with
  | profile e => exact absurd ha id
  | null => exact absurd ha id
  | groupby e => cases b <;> simp [AxisX.compatible, AxisX.binning]
  | cut e => cases b <;> simp [AxisX.compatible, AxisX.binning]
  | groupbin e w o n c =>
    simp only [AxisX.noNaN, AxisX.numbers, List.mem_cons, List.not_mem_nil, or_false, not_or] at hn
    cases b <;>
      simp [AxisX.compatible, AxisX.binning, hx (fun h => hn.1 h.symm), hx (fun h => hn.2 h.symm), Bool.and_assoc]
  | bin e k lo hi u o n c =>
    simp only [AxisX.noNaN, AxisX.numbers, List.mem_cons, List.not_mem_nil, or_false, not_or] at hn
    cases b <;>
      simp [AxisX.compatible, AxisX.binning, hx (fun h => hn.1 h.symm), hx (fun h => hn.2 h.symm), Bool.and_assoc]
  | intbin e lo hi u o => cases b <;> simp [AxisX.compatible, AxisX.binning, Bool.and_assoc]
  | split e es u o n c =>
    have hn' : Num.nan ∉ es := hn
    cases b <;> simp [AxisX.compatible, AxisX.binning, hl hn', Bool.and_assoc]

/-- **C63 is violated** by axes with NaN (not compatible with themselves), and by what `select` leaves behind, which
cannot be compared. -/
theorem C63_refuted_axis : (∃ a : AxisX, Made a ∧ a.compatible a = .ok false) ∧
    ∀ b, AxisX.null.compatible b = .error .attributeError :=
  ⟨⟨.groupbin "x" .nan (.fin 0) true true, ⟨.groupbin, "x", [.float .nan, .int 0, .bool true, .bool true], by
    decide +kernel⟩, by decide +kernel⟩, fun _ => rfl⟩

theorem zipCompat_iff : ∀ {l m : List AxisX}, (∀ a ∈ l, a.comparable ∧ a.noNaN) → l.length = m.length →
    zipCompat l m = .ok (decide (l.map AxisX.binning = m.map AxisX.binning))
  | [], [], _, _ => rfl
  | a :: l, b :: m, h, hlen => by
    have ha := h a (by simp)
    have ih := zipCompat_iff (l := l) (m := m) (fun x hx => h x (by simp [hx])) (by simpa using hlen)
    rw [zipCompat, C63_axis_partial ha.1 ha.2]
    change (if decide (a.binning = b.binning) = true then _ else _) = _
    by_cases hab : a.binning = b.binning
    · rw [if_pos (by simpa using hab), ih]; simp [hab]
    · rw [if_neg (by simpa using hab)]; simp [hab]
  | [], _ :: _, _, hlen => by simp at hlen
  | _ :: _, [], _, hlen => by simp at hlen

/-- **C63**, for histograms.  `compatible` says whether the group axes and the fixed axes have the same binnings in
the same order. -/
theorem C63_hist_partial {g f g' f' : List AxisX} (h : ∀ a ∈ g ++ f, a.comparable ∧ a.noNaN) :
    histCompat g f g' f' =
      .ok (decide (g.map AxisX.binning = g'.map AxisX.binning ∧ f.map AxisX.binning = f'.map AxisX.binning)) := by
  rw [histCompat]
  by_cases hl : g.length = g'.length ∧ f.length = f'.length
  · rw [if_pos hl, zipCompat_iff h (by simp [hl.1, hl.2])]
    congr 1
    rw [decide_eq_decide, List.map_append, List.map_append]
    constructor
    · intro he; exact List.append_inj he (by simp [hl.1])
    · rintro ⟨h1, h2⟩; rw [h1, h2]
  · rw [if_neg hl]
    congr 1
    symm
    rw [decide_eq_false_iff_not]
    rintro ⟨h1, h2⟩
    exact hl ⟨by simpa using congrArg List.length h1, by simpa using congrArg List.length h2⟩

example : ∀ a ∈ [AxisX.groupby "s"] ++ [AxisX.bin "x" 10 (.fin 0) (.fin 1) true true true true, .cut "y > 0"],
    a.comparable ∧ a.noNaN := by
  intro a ha
  simp only [List.cons_append, List.nil_append, List.mem_cons, List.not_mem_nil, or_false] at ha
  rcases ha with rfl | rfl | rfl <;> exact ⟨trivial, by decide +kernel⟩

/-- **C63 is violated** by histograms after a selection. -/
theorem C63_refuted_hist : histCompat [] [.null] [] [.null] = .error .attributeError := rfl

end Verif
