import Verif.PropsFloatBin
import Verif.PropsFloatFraction
import Verif.PropsRebin

/-!
# Rebinning with the machine's arithmetic

`rebin` of a `bin` axis (`/repo/histbook/proj.py` 96-135, `/repo/histbook/axis.py` 660-666, 686-687 and 1146-1207), with the
edges and sums rounded to double precision.  The sums of neighbouring bins are taken from left to right; numpy sums eight or
more neighbouring numbers of a contiguous array in another order.
-/

namespace Verif

/-- axis.py:661: the edges of `bin.split()`, in double precision. -/
def BinAxis.edgesF (a : BinAxis) : List ℚ := (List.range a.numbins).map a.i2xF ++ [a.high]

/-- axis.py:660-666 `bin.split`. -/
def BinAxis.splitF (a : BinAxis) : Except Err SplitAxis :=
  SplitAxis.init a.edgesF a.underflow a.overflow a.nanflow a.closedlow

/-- axis.py:1163-1203 for one axis: each new bin is the sum of old ones. -/
def rebinSums (ranges : List (ℕ × ℕ)) (numbins : ℕ) (c : List ℚ) : List ℚ :=
  (List.range numbins).map fun i =>
    let r := ranges.getD i (0, 0)
    sumF 0 ((List.range' r.1 (r.2 - r.1)).map fun k => c.getD k 0)

/-- axis.py:686-687 and 1146-1207: the new axis and its content. -/
def BinAxis.rebinF (a : BinAxis) (edges : List ℚ) (c : List ℚ) : Except Err (SplitAxis × List ℚ) :=
  match a.splitF with
  | .error e => .error e
  | .ok s =>
    match s.rebinned edges with
    | .error e => .error e
    | .ok b => .ok (b, rebinSums (rebinRanges s b) b.totbins c)

/-! ## Lemmas -/

/-- No comparison with `v` tells the two numbers apart. -/
def SameSide (v : Num) (x y : ℚ) : Prop :=
  Num.le (.fin x) v = Num.le (.fin y) v ∧ Num.lt (.fin x) v = Num.lt (.fin y) v ∧
    Num.le v (.fin x) = Num.le v (.fin y) ∧ Num.lt v (.fin x) = Num.lt v (.fin y)

theorem SameSide.rfl {v : Num} {x : ℚ} : SameSide v x x := ⟨by rfl, by rfl, by rfl, by rfl⟩

theorem SameSide.nan (x y : ℚ) : SameSide .nan x y := ⟨by rfl, by rfl, by rfl, by rfl⟩

theorem SameSide.ninf (x y : ℚ) : SameSide .ninf x y := ⟨by rfl, by rfl, by rfl, by rfl⟩

theorem SameSide.fin {q x y : ℚ} (h : (x < q ∧ y < q) ∨ (q < x ∧ q < y)) : SameSide (.fin q) x y := by
  unfold SameSide Num.le Num.lt
  simp only [decide_eq_decide]
  rcases h with ⟨h1, h2⟩ | ⟨h1, h2⟩
  · exact ⟨⟨fun _ => h2.le, fun _ => h1.le⟩, ⟨fun _ => h2, fun _ => h1⟩, ⟨fun h => absurd h1 (not_lt.2 h), fun h => absurd h2 (not_lt.2 h)⟩,
      ⟨fun h => absurd h1 (not_lt.2 h.le), fun h => absurd h2 (not_lt.2 h.le)⟩⟩
  · exact ⟨⟨fun h => absurd h1 (not_lt.2 h), fun h => absurd h2 (not_lt.2 h)⟩,
      ⟨fun h => absurd h1 (not_lt.2 h.le), fun h => absurd h2 (not_lt.2 h.le)⟩, ⟨fun _ => h2.le, fun _ => h1.le⟩, ⟨fun _ => h2, fun _ => h1⟩⟩

/-- The labels of an axis with the given edges. -/
def edgeLabels (u o n cl : Bool) (N : ℕ) (lo hi : ℚ) (f g : ℕ → ℚ) : List BinLabel :=
  (if u then [.iv .ninf (.fin lo) true (!cl)] else []) ++ (List.range N).map (fun i => .iv (.fin (f i)) (.fin (g i)) cl (!cl)) ++
  (if o then [.iv (.fin hi) .pinf cl true] else []) ++ (if n then [.nan] else [])

theorem forall₂_opt {P : BinLabel → BinLabel → Prop} (b : Bool) {x y : BinLabel} (h : P x y) :
    List.Forall₂ P (if b then [x] else []) (if b then [y] else []) := by
  cases b <;> simp [h]

theorem edgeLabels_alike (v : Num) (u o n cl : Bool) (N : ℕ) (lo lo' hi hi' : ℚ) (f f' g g' : ℕ → ℚ) (hlo : SameSide v lo lo') (hhi : SameSide v hi hi')
    (hf : ∀ i < N, SameSide v (f i) (f' i)) (hg : ∀ i < N, SameSide v (g i) (g' i)) :
    List.Forall₂ (fun k k' : BinLabel => k.mem v ↔ k'.mem v) (edgeLabels u o n cl N lo hi f g) (edgeLabels u o n cl N lo' hi' f' g') := by
  have ap : ∀ {P : BinLabel → BinLabel → Prop} {a b c d : List BinLabel}, List.Forall₂ P a b → List.Forall₂ P c d → List.Forall₂ P (a ++ c) (b ++ d) :=
    fun h1 h2 => List.rel_append h1 h2
  unfold edgeLabels
  refine ap (ap (ap (forall₂_opt u ?_) ?_) (forall₂_opt o ?_)) (forall₂_opt n Iff.rfl)
  · simp only [BinLabel.mem]
    rw [hlo.2.2.1, hlo.2.2.2]
  · rw [List.forall₂_map_left_iff, List.forall₂_map_right_iff, List.forall₂_same]
    intro i hi
    have hi := List.mem_range.1 hi
    simp only [BinLabel.mem]
    rw [(hf i hi).1, (hf i hi).2.1, (hg i hi).2.2.1, (hg i hi).2.2.2]
  · simp only [BinLabel.mem]
    rw [hhi.1, hhi.2.1]

theorem IndexCorrect.alike {keys keys' : List BinLabel} {v : Num} {r : Option ℤ}
    (h : List.Forall₂ (fun k k' : BinLabel => k.mem v ↔ k'.mem v) keys keys') (hr : IndexCorrect keys v r) : IndexCorrect keys' v r := by
  have hlen := h.length_eq
  have hget : ∀ (j : ℕ) (k' : BinLabel), keys'[j]? = some k' → ∃ k, keys[j]? = some k ∧ (k.mem v ↔ k'.mem v) := by
    intro j k' hk'
    obtain ⟨hj, rfl⟩ := List.getElem?_eq_some_iff.1 hk'
    exact ⟨keys[j], by simp [hlen, hj], (List.forall₂_iff_get.1 h).2 j (by omega) hj⟩
  cases r with
  | none =>
    intro k' hk' hm
    obtain ⟨j, hj, rfl⟩ := List.getElem_of_mem hk'
    obtain ⟨k, hk, hkm⟩ := hget j _ (List.getElem?_eq_getElem hj)
    exact hr k (List.mem_of_getElem? hk) (hkm.2 hm)
  | some i =>
    obtain ⟨h0, ⟨k, hk, hm⟩, huniq⟩ := hr
    refine ⟨h0, ?_, fun j k' hk' hm' => ?_⟩
    · obtain ⟨hi, rfl⟩ := List.getElem?_eq_some_iff.1 hk
      exact ⟨keys'[i.toNat], by simp [← hlen, hi], ((List.forall₂_iff_get.1 h).2 i.toNat hi (by omega)).1 hm⟩
    · obtain ⟨k, hk, hkm⟩ := hget j k' hk'
      exact huniq j k hk (hkm.2 hm')

/-- The edge number `i` of the axis. -/
def BinAxis.edgeF (a : BinAxis) (i : ℕ) : ℚ := if i < a.numbins then a.i2xF i else a.high

theorem BinAxis.edgesF_eq (a : BinAxis) : a.edgesF = (List.range (a.numbins + 1)).map a.edgeF := by
  unfold BinAxis.edgesF
  rw [List.range_succ, List.map_append]
  congr 1
  · refine List.map_congr_left fun i hi => ?_
    unfold BinAxis.edgeF
    rw [if_pos (List.mem_range.1 hi)]
  · simp [BinAxis.edgeF]

theorem BinAxis.Ordinary.edge_steps {a : BinAxis} (h : a.Ordinary) {M : ℚ} (hl : |a.low| ≤ M) (hh : |a.high| ≤ M)
    (hwide : M / 2 ^ 48 * a.numbins ≤ a.high - a.low) {i j : ℕ} (hij : i < j) (hj : j ≤ a.numbins) : a.edgeF i < a.edgeF j := by
  have he := eps_pos
  have hN : (0 : ℚ) < a.numbins := by exact_mod_cast h.bins
  have hMp : 0 < M := by
    have h1 := abs_le.1 hl
    have h2 := abs_le.1 hh
    linarith [h.order, h1.1, h2.2]
  have h48 : M / 2 ^ 48 = 32 * eps * M := by
    unfold eps
    rw [zpow_neg]; norm_num; ring
  rw [h48] at hwide
  have hx : ∀ k ≤ a.numbins, |a.edgeF k - a.i2x k| ≤ 12 * eps * M := by
    intro k hk
    unfold BinAxis.edgeF
    split_ifs with hlt
    · exact h.i2xF_err M hl hh hk
    · have : k = a.numbins := by omega
      rw [this, BinAxis.i2x_numbins a h.bins, sub_self, abs_zero]
      positivity
  have hstep : a.i2x i + 32 * eps * M ≤ a.i2x j := by
    unfold BinAxis.i2x
    have h1 : (i : ℚ) + 1 ≤ j := by exact_mod_cast hij
    have h2 : 32 * eps * M ≤ (a.high - a.low) / a.numbins := by rw [le_div_iff₀ hN]; exact hwide
    have h3 : (0 : ℚ) < a.high - a.low := by linarith [h.order]
    have h4 : ((i : ℚ) + 1) / a.numbins ≤ j / a.numbins := by gcongr
    have h5 : ((i : ℚ) + 1) / a.numbins * (a.high - a.low) ≤ j / a.numbins * (a.high - a.low) := mul_le_mul_of_nonneg_right h4 h3.le
    have h6 : ((i : ℚ) + 1) / a.numbins * (a.high - a.low) = i / a.numbins * (a.high - a.low) + (a.high - a.low) / a.numbins := by
      field_simp
    linarith
  have h1 := abs_le.1 (hx i (by omega))
  have h2 := abs_le.1 (hx j hj)
  have : 0 < eps * M := by positivity
  linarith [h1.2, h2.1]

/-- The axis that `split` gives, when the bins are wide enough for the edges to be told apart. -/
theorem BinAxis.Ordinary.splitF_ok {a : BinAxis} (h : a.Ordinary) {M : ℚ} (hl : |a.low| ≤ M) (hh : |a.high| ≤ M)
    (hwide : M / 2 ^ 48 * a.numbins ≤ a.high - a.low) :
    a.splitF = .ok ⟨a.edgesF, a.underflow, a.overflow, a.nanflow, a.closedlow⟩ ∧ a.edgesF.Pairwise (· < ·) := by
  have hs : a.edgesF.Pairwise (· < ·) := by
    rw [a.edgesF_eq, List.pairwise_map]
    refine List.Pairwise.imp_of_mem (R := (· < ·)) (fun {i j} hi hj hij => ?_) List.pairwise_lt_range
    exact h.edge_steps hl hh hwide hij (by have := List.mem_range.1 hj; omega)
  have hsorted : a.edgesF.insertionSort (· ≤ ·) = a.edgesF := (hs.imp (fun h => le_of_lt h)).insertionSort_eq
  have hlen : a.edgesF.length = a.numbins + 1 := by simp [BinAxis.edgesF]
  have hb := h.bins
  refine ⟨?_, hs⟩
  unfold BinAxis.splitF SplitAxis.init
  rw [if_neg (by omega), hsorted]
  simp only
  rw [if_neg (by rw [not_not]; exact hs.imp (fun h => ne_of_lt h)), if_neg]
  unfold SplitAxis.totbins
  simp only [hlen]
  omega

end Verif
