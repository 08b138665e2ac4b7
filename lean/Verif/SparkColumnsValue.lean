import Verif.SparkColumnsLemmas

/-!
# Lemmas: the value of a Spark column
-/

namespace Verif

variable {ty : String → STy} {sm : SMath} {field : String → Option ℚ} {more : More}

/-- Function names by the shape of the arguments. -/
theorem sparkSig_cases {f : String} {ts : List STy} {τ : STy} (h : sparkSig f ts = some τ) :
    (ts = [.num] ∧ ((f = "isnan" ∧ τ = .bool) ∨ (τ = .num ∧ f ∈ ["abs", "fabs", "ceil", "floor"]) ∨
        (τ = .num ∧ f ∈ math1))) ∨
    (ts = [.num, .num] ∧ τ = .num ∧ (f ∈ ["max", "fmax", "min", "fmin", "mod"] ∨ f ∈ math2)) ∨
    (f = "where" ∧ ts = [.bool, τ, τ]) := by
  unfold sparkSig at h
  split at h
  · left
    refine ⟨rfl, ?_⟩
    by_cases h1 : f = "isnan"
    · rw [if_pos h1] at h
      exact .inl ⟨h1, by simpa using h.symm⟩
    · rw [if_neg h1] at h
      split_ifs at h with h2
      have ht : τ = .num := by simpa using h.symm
      right
      simp only [List.mem_cons, List.not_mem_nil, or_false] at h2
      rcases h2 with h2 | h2 | h2 | h2 | h2 | h2 | h2 | h2 | h2 | h2 | h2 | h2 | h2 | h2 | h2 | h2 | h2 | h2 |
        h2 | h2 | h2 | h2 | h2 | h2 <;> subst h2 <;>
        first
          | exact .inl ⟨ht, by decide⟩
          | exact .inr ⟨ht, by decide⟩
  · right; left
    split_ifs at h with h2
    have ht : τ = .num := by simpa using h.symm
    refine ⟨rfl, ht, ?_⟩
    simp only [List.mem_cons, List.not_mem_nil, or_false] at h2
    rcases h2 with h2 | h2 | h2 | h2 | h2 | h2 | h2 | h2 <;> subst h2 <;>
      first
        | exact .inl (by decide)
        | exact .inr (by decide)
  · right; right
    split_ifs at h with h2
    obtain ⟨h2, rfl⟩ := h2
    obtain rfl := Option.some.inj h
    exact ⟨h2, rfl⟩
  · simp at h

theorem ColL.one {l : List E} {cs : List SCol} {a : STy} (h : ColL ty l cs [a]) :
    ∃ t c, l = [t] ∧ cs = [c] ∧ IsCol ty t c a := by
  cases h with
  | cons h1 h => cases h; exact ⟨_, _, rfl, rfl, h1⟩

theorem ColL.two {l : List E} {cs : List SCol} {a b : STy} (h : ColL ty l cs [a, b]) :
    ∃ t u c d, l = [t, u] ∧ cs = [c, d] ∧ IsCol ty t c a ∧ IsCol ty u d b := by
  cases h with
  | cons h1 h =>
    obtain ⟨u, d, rfl, rfl, h2⟩ := h.one
    exact ⟨_, _, _, _, rfl, rfl, h1, h2⟩

theorem ColL.three {l : List E} {cs : List SCol} {a b c' : STy} (h : ColL ty l cs [a, b, c']) :
    ∃ t u v c d e, l = [t, u, v] ∧ cs = [c, d, e] ∧ IsCol ty t c a ∧ IsCol ty u d b ∧ IsCol ty v e c' := by
  cases h with
  | cons h1 h =>
    obtain ⟨u, v, d, e, rfl, rfl, h2, h3⟩ := h.two
    exact ⟨_, _, _, _, _, _, rfl, rfl, h1, h2, h3⟩

/-- A call with a signature is a column. -/
theorem call_col {f : String} {ts : List STy} {τ : STy} (h : sparkSig f ts = some τ) {l : List E}
    {cs : List SCol} (hl : ColL ty l cs ts) :
    ∃ g, sparkFn f = some g ∧ IsCol ty (E.callE f l) (.fn g cs) τ := by
  have hcs := sparkSig_cases h
  clear h
  rcases hcs with ⟨rfl, h⟩ | ⟨rfl, rfl, h⟩ | ⟨rfl, rfl⟩
  · obtain ⟨t, c, rfl, rfl, h1⟩ := hl.one
    rcases h with ⟨rfl, rfl⟩ | ⟨rfl, h⟩ | ⟨rfl, h⟩
    · exact ⟨.isnan, by decide +kernel, hl.call (by decide +kernel) rfl rfl rfl⟩
    · simp only [List.mem_cons, List.not_mem_nil, or_false] at h
      rcases h with rfl | rfl | rfl | rfl
      · exact ⟨.abs, by decide +kernel, hl.call (by decide +kernel) rfl rfl rfl⟩
      · exact ⟨.abs, by decide +kernel, hl.call (by decide +kernel) rfl rfl rfl⟩
      · exact ⟨.ceil, by decide +kernel, hl.call (by decide +kernel) rfl rfl rfl⟩
      · exact ⟨.floor, by decide +kernel, hl.call (by decide +kernel) rfl rfl rfl⟩
    · have hf : sparkFn f = some (.math f 1) := by unfold sparkFn; rw [if_pos h]
      exact ⟨_, hf, hl.call hf rfl rfl rfl⟩
  · obtain ⟨t, u, c, d, rfl, rfl, h1, h2⟩ := hl.two
    rcases h with h | h
    · simp only [List.mem_cons, List.not_mem_nil, or_false] at h
      rcases h with rfl | rfl | rfl | rfl | rfl
      · exact ⟨.greatest, by decide +kernel, hl.call (by decide +kernel) rfl rfl rfl⟩
      · exact ⟨.greatest, by decide +kernel, hl.call (by decide +kernel) rfl rfl rfl⟩
      · exact ⟨.least, by decide +kernel, hl.call (by decide +kernel) rfl rfl rfl⟩
      · exact ⟨.least, by decide +kernel, hl.call (by decide +kernel) rfl rfl rfl⟩
      · exact ⟨.mod, by decide +kernel, hl.call (by decide +kernel) rfl rfl rfl⟩
    · have h' : f ∉ math1 := by
        have : ∀ f ∈ math2, f ∉ math1 := by decide
        exact this f h
      have hf : sparkFn f = some (.math f 2) := by unfold sparkFn; rw [if_neg h', if_pos h]
      exact ⟨_, hf, hl.call hf rfl rfl rfl⟩
  · obtain ⟨t, u, v, c, d, e, rfl, rfl, h1, h2, h3⟩ := hl.three
    exact ⟨.when, by decide +kernel, hl.call (by decide +kernel) rfl rfl (by simp [SFn.type])⟩

/-- Values of columns. -/
inductive RepL : List STy → List SVal → List (Option ℚ) → Prop
  | nil : RepL [] [] []
  | cons {τ : STy} {s : SVal} {v : Option ℚ} {ts : List STy} {ss : List SVal} {vs : List (Option ℚ)} :
      Rep τ s v → RepL ts ss vs → RepL (τ :: ts) (s :: ss) (v :: vs)

theorem RepL.num1 {ss : List SVal} {vs : List (Option ℚ)} (h : RepL [.num] ss vs) :
    ∃ x, ss = [.num x] ∧ vs = [x] := by
  cases h with
  | cons h1 h => cases h; exact ⟨_, by rw [show _ = SVal.num _ from h1], rfl⟩

theorem RepL.num2 {ss : List SVal} {vs : List (Option ℚ)} (h : RepL [.num, .num] ss vs) :
    ∃ x y, ss = [.num x, .num y] ∧ vs = [x, y] := by
  cases h with
  | cons h1 h =>
    obtain ⟨y, rfl, rfl⟩ := h.num1
    exact ⟨_, y, by rw [show _ = SVal.num _ from h1], rfl⟩

theorem satLong_of {z : ℤ} (h : IsLong z) : satLong z = z := by
  unfold IsLong at h; unfold satLong; omega

theorem libFn_rat (hm : SparkLib more) {f : String} {g : List (Option ℚ) → Option ℚ} (h : libRat f = some g)
    (xs : List (Option ℚ)) : libFn more f xs = g xs := by
  unfold libFn; rw [hm.rat f g h]

theorem math_apply {f : String} {n : ℕ} {ss : List SVal} {vs : List (Option ℚ)} (hs : ss = vs.map .num)
    (h : sm f vs = some (libFn more f vs)) : (SFn.math f n).apply sm ss = .num (libFn more f vs) := by
  have hn : ∀ l : List (Option ℚ), SVal.nums (l.map .num) = l := by
    intro l
    induction l with
    | nil => rfl
    | cons x l ih => simp [SVal.nums, ih]
  subst hs
  simp only [SFn.apply, hn, List.length_map, lt_irrefl, if_false, h]

/-- The value of a function on Spark and in NumPy. -/
theorem call_value (hm : SparkLib more) {f : String} {ts : List STy} {τ : STy} (h : sparkSig f ts = some τ)
    (hw : f ≠ "where") {g : SFn} (hg : sparkFn f = some g) {ss : List SVal} {vs : List (Option ℚ)}
    (hr : RepL ts ss vs) (hf : sparkFine more sm f vs) : Rep τ (g.apply sm ss) (libFn more f vs) := by
  have hcs := sparkSig_cases h
  clear h
  rcases hcs with ⟨rfl, h⟩ | ⟨rfl, rfl, h⟩ | ⟨rfl, rfl⟩
  · obtain ⟨x, rfl, rfl⟩ := hr.num1
    rcases h with ⟨rfl, rfl⟩ | ⟨rfl, h⟩ | ⟨rfl, h⟩
    · obtain rfl : SFn.isnan = g := Option.some.inj ((by decide +kernel : sparkFn "isnan" = some .isnan).symm.trans hg)
      refine ⟨_, rfl, ?_⟩
      unfold libFn; rw [hm.isnan]; rfl
    · simp only [List.mem_cons, List.not_mem_nil, or_false] at h
      rcases h with rfl | rfl | rfl | rfl
      · obtain rfl : SFn.abs = g := Option.some.inj ((by decide +kernel : sparkFn "abs" = some .abs).symm.trans hg)
        rw [libFn_rat hm (f := "abs") rfl]
        cases x <;> rfl
      · obtain rfl : SFn.abs = g := Option.some.inj ((by decide +kernel : sparkFn "fabs" = some .abs).symm.trans hg)
        rw [libFn_rat hm (f := "fabs") rfl]
        cases x <;> rfl
      · obtain rfl : SFn.ceil = g := Option.some.inj ((by decide +kernel : sparkFn "ceil" = some .ceil).symm.trans hg)
        rw [libFn_rat hm (f := "ceil") rfl]
        obtain ⟨q, hq, hl⟩ : ∃ q : ℚ, [x] = [some q] ∧ IsLong ⌈q⌉ := by simpa [sparkFine] using hf
        obtain rfl : x = some q := by simpa using hq
        simp only [SFn.apply, SVal.lift, sparkLong, satLong_of hl]; rfl
      · obtain rfl : SFn.floor = g := Option.some.inj ((by decide +kernel : sparkFn "floor" = some .floor).symm.trans hg)
        rw [libFn_rat hm (f := "floor") rfl]
        obtain ⟨q, hq, hl⟩ : ∃ q : ℚ, [x] = [some q] ∧ IsLong ⌊q⌋ := by simpa [sparkFine] using hf
        obtain rfl : x = some q := by simpa using hq
        simp only [SFn.apply, SVal.lift, sparkLong, satLong_of hl]; rfl
    · have hs : sparkFn f = some (.math f 1) := by unfold sparkFn; rw [if_pos h]
      obtain rfl := Option.some.inj (hs.symm.trans hg)
      refine math_apply (vs := [x]) rfl ?_
      have hn : ∀ f ∈ math1, f ∉ ["abs", "fabs", "isnan"] ∧ f ≠ "ceil" ∧ f ≠ "floor" ∧
          f ∉ ["max", "fmax", "min", "fmin"] ∧ f ≠ "mod" := by decide
      obtain ⟨n1, n2, n3, n4, n5⟩ := hn f h
      unfold sparkFine at hf
      rwa [if_neg n1, if_neg n2, if_neg n3, if_neg n4, if_neg n5] at hf
  · obtain ⟨x, y, rfl, rfl⟩ := hr.num2
    rcases h with h | h
    · simp only [List.mem_cons, List.not_mem_nil, or_false] at h
      have two : f ∈ ["max", "fmax", "min", "fmin"] → ∃ q r : ℚ, x = some q ∧ y = some r := by
        intro hi
        have hnn : none ∉ [x, y] := by
          have hn : ∀ f ∈ ["max", "fmax", "min", "fmin"], f ∉ ["abs", "fabs", "isnan"] ∧ f ≠ "ceil" ∧
              f ≠ "floor" := by decide
          obtain ⟨n1, n2, n3⟩ := hn f hi
          unfold sparkFine at hf
          rwa [if_neg n1, if_neg n2, if_neg n3, if_pos hi] at hf
        cases x with
        | none => simp at hnn
        | some q =>
          cases y with
          | none => simp at hnn
          | some r => exact ⟨q, r, rfl, rfl⟩
      have gr : ∀ q r : ℚ, SFn.apply sm .greatest [.num (some q), .num (some r)] = .num (some (max q r)) := by
        intro q r
        simp only [SFn.apply, SVal.extreme, SVal.nums, List.foldl, sparkLt, decide_eq_true_eq]
        by_cases hqr : q < r
        · rw [if_pos hqr, max_eq_right hqr.le]
        · rw [if_neg hqr, max_eq_left (not_lt.1 hqr)]
      have le : ∀ q r : ℚ, SFn.apply sm .least [.num (some q), .num (some r)] = .num (some (min q r)) := by
        intro q r
        simp only [SFn.apply, SVal.extreme, SVal.nums, List.foldl, sparkLt, decide_eq_true_eq]
        by_cases hqr : r < q
        · rw [if_pos hqr, min_eq_right hqr.le]
        · rw [if_neg hqr, min_eq_left (not_lt.1 hqr)]
      rcases h with rfl | rfl | rfl | rfl | rfl
      · obtain rfl : SFn.greatest = g := Option.some.inj ((by decide +kernel : sparkFn "max" = some .greatest).symm.trans hg)
        rw [libFn_rat hm (f := "max") rfl]
        obtain ⟨q, r, rfl, rfl⟩ := two (by decide)
        exact gr q r
      · obtain rfl : SFn.greatest = g := Option.some.inj ((by decide +kernel : sparkFn "fmax" = some .greatest).symm.trans hg)
        rw [libFn_rat hm (f := "fmax") rfl]
        obtain ⟨q, r, rfl, rfl⟩ := two (by decide)
        exact gr q r
      · obtain rfl : SFn.least = g := Option.some.inj ((by decide +kernel : sparkFn "min" = some .least).symm.trans hg)
        rw [libFn_rat hm (f := "min") rfl]
        obtain ⟨q, r, rfl, rfl⟩ := two (by decide)
        exact le q r
      · obtain rfl : SFn.least = g := Option.some.inj ((by decide +kernel : sparkFn "fmin" = some .least).symm.trans hg)
        rw [libFn_rat hm (f := "fmin") rfl]
        obtain ⟨q, r, rfl, rfl⟩ := two (by decide)
        exact le q r
      · obtain rfl : SFn.mod = g := Option.some.inj ((by decide +kernel : sparkFn "mod" = some .mod).symm.trans hg)
        rw [libFn_rat hm (f := "mod") rfl]
        obtain ⟨q, r, hq, hr0, hs⟩ : ∃ q r : ℚ, [x, y] = [some q, some r] ∧ r ≠ 0 ∧
            (0 ≤ q / r ∨ ∃ z : ℤ, q / r = z) := by simpa [sparkFine] using hf
        obtain ⟨rfl, rfl⟩ : x = some q ∧ y = some r := by simpa using hq
        have ht : truncQ (q / r) = ⌊q / r⌋ := by
          unfold truncQ
          rcases hs with hs | ⟨z, hz⟩
          · rw [if_pos hs]
          · rw [hz]; split_ifs <;> simp
        have : sparkMod (some q) (some r) = .num (some (q - r * truncQ (q / r))) := by
          unfold sparkMod
          rw [if_neg (by simpa using hr0)]
        simp only [SFn.apply, SVal.arith, this, ht, npRemainder, if_neg hr0]; rfl
    · have h' : f ∉ math1 := by
        have : ∀ f ∈ math2, f ∉ math1 := by decide
        exact this f h
      have hs : sparkFn f = some (.math f 2) := by unfold sparkFn; rw [if_neg h', if_pos h]
      obtain rfl := Option.some.inj (hs.symm.trans hg)
      refine math_apply (vs := [x, y]) rfl ?_
      have hn : ∀ f ∈ math2, f ∉ ["abs", "fabs", "isnan"] ∧ f ≠ "ceil" ∧ f ≠ "floor" ∧
          f ∉ ["max", "fmax", "min", "fmin"] ∧ f ≠ "mod" := by decide
      obtain ⟨n1, n2, n3, n4, n5⟩ := hn f h
      unfold sparkFine at hf
      rwa [if_neg n1, if_neg n2, if_neg n3, if_neg n4, if_neg n5] at hf
  · exact absurd rfl hw

end Verif
