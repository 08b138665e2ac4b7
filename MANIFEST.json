{
 "claims": [
  {
   "property": "C01",
   "status": "proved",
   "theorems": [
    "Verif.C01_bin_fill_matches_keys",
    "Verif.C01_bin_nan"
   ],
   "note": "Exact rational arithmetic; position at most 2^31-3 bins above low."
  },
  {
   "property": "C02",
   "status": "partial",
   "theorems": [
    "Verif.C02_refuted",
    "Verif.C02_pinf_is_underflow",
    "Verif.C02_huge_is_underflow",
    "Verif.C02_partial"
   ],
   "note": "Violated by the code: +inf and very large values are counted as underflow (C02_refuted). The part that holds is C02_partial."
  },
  {
   "property": "C03",
   "status": "proved",
   "theorems": [
    "Verif.C03_split_fill_matches_keys"
   ],
   "note": "Every edge list the constructor accepts, every value including NaN and infinities."
  },
  {
   "property": "C04",
   "status": "partial",
   "theorems": [
    "Verif.C04_intbin_ints_partial",
    "Verif.C04_intbin_floats_partial",
    "Verif.C04_refuted_wraps",
    "Verif.C04_refuted_truncates"
   ],
   "note": "Violated by the code: int64 values wrap modulo 2^32 (C04_refuted_wraps) and non-integers are truncated toward zero (C04_refuted_truncates). Holds for integers within int32."
  },
  {
   "property": "C05",
   "status": "partial",
   "theorems": [
    "Verif.C05_groupbin_interval_contains",
    "Verif.C05_groupbin_same_key_iff",
    "Verif.C05_groupbin_special",
    "Verif.C05_refuted_nan_interval"
   ],
   "note": "Proved for finite values; the interval of the \"NaN\" group cannot be read back (C05_refuted_nan_interval)."
  },
  {
   "property": "C06",
   "status": "proved",
   "theorems": [
    "Verif.C06_bin_keys_partition",
    "Verif.C06_split_keys_partition",
    "Verif.C06_intbin_keys_partition"
   ],
   "note": "bin (at least one regular bin), split and intbin."
  },
  {
   "property": "C07",
   "status": "proved",
   "theorems": [
    "Verif.C07_bin_split_same",
    "Verif.C07_intbin_bin_same"
   ],
   "note": "Exact rational arithmetic, positions within int32."
  },
  {
   "property": "C08",
   "status": "proved",
   "theorems": [
    "Verif.C08_flat_index"
   ],
   "note": "Any number of fixed axes."
  },
  {
   "property": "C09",
   "status": "proved",
   "theorems": [
    "Verif.C09_any_rounding_in_range",
    "Verif.C09_any_rounding_monotone"
   ],
   "note": "The rounded position is an arbitrary number."
  },
  {
   "property": "C10",
   "status": "partial",
   "theorems": [
    "Verif.C10_refuted",
    "Verif.C10_refuted_raises",
    "Verif.C10_every_value_same_bin",
    "Verif.C10_partial"
   ],
   "note": "Violated by the code: C10_refuted, C10_refuted_raises; C10_every_value_same_bin says what happens instead."
  },
  {
   "property": "C11",
   "status": "proved",
   "theorems": [
    "Verif.C11_content_is_sum",
    "Verif.C11_fill_adds"
   ],
   "note": "Any sequence of fills, any number of group axes; exact rational arithmetic."
  },
  {
   "property": "C12",
   "status": "partial",
   "theorems": [
    "Verif.C12_batches_partial",
    "Verif.C12_refuted"
   ],
   "note": "Same cells for every way of batching (C12_batches_partial). Equality including the set of groups is violated with two or more group axes (C12_refuted)."
  },
  {
   "property": "C13",
   "status": "proved",
   "theorems": [
    "Verif.C13_order_irrelevant"
   ],
   "note": "Cells and group keys."
  },
  {
   "property": "C14",
   "status": "proved",
   "theorems": [
    "Verif.C14_conservation",
    "Verif.C14_all_flow_on",
    "Verif.C14_every_row_counted"
   ],
   "note": "Conservation for any flow-bin setting; with all flow bins on every row is counted."
  },
  {
   "property": "C15",
   "status": "partial",
   "theorems": [
    "Verif.C15_nan_weight_ignored_partial",
    "Verif.Flt.C15_nan_weight_partial",
    "Verif.Flt.C15_refuted_in_general",
    "Verif.Flt.C15_refuted"
   ],
   "note": "Proved for the sums of weights and squared weights whatever the values (C15_nan_weight_partial), and for profiles whose values are finite in the rows with NaN weight. Violated otherwise: zero times NaN or infinity makes the sums of the profile NaN (C15_refuted; C15_refuted_in_general: always)."
  },
  {
   "property": "C16",
   "status": "partial",
   "theorems": [
    "Verif.C16_filter_partial",
    "Verif.C16_refuted",
    "Verif.Flt.C16_numbers_partial",
    "Verif.Flt.C16_refuted_profile"
   ],
   "note": "All columns of all cells if the values of profiles are numbers in the rows that do not pass (C16_filter_partial, C16_numbers_partial; the weights may be anything). Violated for the set of groups: a group with no passing row still appears (C16_refuted); and for profiles: a row that does not pass makes the sums of its bin NaN if its value is NaN or infinite (C16_refuted_profile: always)."
  },
  {
   "property": "C17",
   "status": "partial",
   "theorems": [
    "Verif.C17_absent_partial",
    "Verif.C17_groups_kept",
    "Verif.C17_no_new_groups",
    "Verif.C17_no_groups_partial",
    "Verif.C17_refuted"
   ],
   "note": "Without group axes nothing changes, whatever the data. Violated with a group axis (C17_refuted); even then every group whose key on some axis is not among those of the rows reads as before (C17_absent_partial) and is not made (C17_no_new_groups), and no group is lost (C17_groups_kept)."
  },
  {
   "property": "C18",
   "status": "partial",
   "theorems": [
    "Verif.C18_refuted",
    "Verif.C18_always_raises",
    "Verif.C18_partial"
   ],
   "note": "Violated by the code (C18_refuted); C18_always_raises says when it raises; C18_partial is what holds."
  },
  {
   "property": "C19",
   "status": "proved",
   "theorems": [
    "Verif.C19_signs_and_bounds"
   ],
   "note": "Cauchy-Schwarz for non-negative weights."
  },
  {
   "property": "C20",
   "status": "partial",
   "theorems": [
    "Verif.C20_one_group_axis_partial",
    "Verif.C20_groups_exactly",
    "Verif.C20_refuted"
   ],
   "note": "One group axis: exact. Several: C20_groups_exactly says which groups exist; the property is violated (C20_refuted)."
  },
  {
   "property": "C21",
   "status": "proved",
   "theorems": [
    "Verif.C21_sum_is_fill_of_both"
   ],
   "note": "== and equal entries with the histogram filled with all batches; equal entries for any other batching of the same rows."
  },
  {
   "property": "C22",
   "status": "proved",
   "theorems": [
    "Verif.C22_comm",
    "Verif.C22_assoc",
    "Verif.C22_zero"
   ],
   "note": "Proper contents (arrays of the right shape in dicts with distinct keys), which is what fill, + and * produce."
  },
  {
   "property": "C23",
   "status": "partial",
   "theorems": [
    "Verif.C23_iadd_is_add",
    "Verif.C23_right_operand_partial",
    "Verif.C23_iadd_value",
    "Verif.C23_refuted"
   ],
   "note": "value of a += b proved equal to a + b for any two histograms of any program; right operand unchanged, also later, for histograms made by the constructor; refuted when one is a sum that shares groups with the other"
  },
  {
   "property": "C24",
   "status": "partial",
   "theorems": [
    "Verif.C24_sum_independent_partial",
    "Verif.C24_histograms_are_values_partial",
    "Verif.C24_refuted"
   ],
   "note": "proved for histograms without group axes, under arbitrary programs; refuted with group axes (leaf arrays are shared)"
  },
  {
   "property": "C25",
   "status": "partial",
   "theorems": [
    "Verif.C25_linear_partial",
    "Verif.C25_refuted_unfilled",
    "Verif.C25_distributes_partial",
    "Verif.C25_repeated_sum_partial"
   ],
   "note": "Violated by the code for histograms that were never filled (C25_refuted_unfilled); holds for filled ones, sums of factors and repeated sums included."
  },
  {
   "property": "C26",
   "status": "partial",
   "theorems": [
    "Verif.C26_scaled_counts_partial",
    "Verif.C26_refuted",
    "Verif.C26_right_iff"
   ],
   "note": "Violated by the code: sums of squared weights are scaled by k instead of k^2 (C26_refuted), which is right exactly for the factors 0 and 1 and for histograms without squared weights (C26_right_iff); the other columns are right."
  },
  {
   "property": "C27",
   "status": "proved",
   "theorems": [
    "Verif.C27_makers_change_nothing",
    "Verif.C27_copy_equal",
    "Verif.C27_copy_independent"
   ],
   "note": "heap model with sharing, arbitrary programs before and after"
  },
  {
   "property": "C28",
   "status": "partial",
   "theorems": [
    "Verif.C28_fill_copy_partial",
    "Verif.C28_refuted_book",
    "Verif.C28_refuted_original"
   ],
   "note": "direct fill of the copy and everything after it proved; refuted for fills through a book and for filling the original first"
  },
  {
   "property": "C29",
   "status": "partial",
   "theorems": [
    "Verif.C29_same_columns_partial",
    "Verif.C29_raises_partial",
    "Verif.C29_refuted",
    "Verif.C29_refuted_groups",
    "Verif.C29_refuted_always",
    "Verif.C29_refuted_counts",
    "Verif.C29_common_partial",
    "Verif.C29_refuted_apart",
    "Verif.C29_inplace_partial"
   ],
   "note": "Violated by the code: without profiles every sum of an unweighted and a weighted histogram is accepted and adds counts to squared weights, in every common group (C29_refuted_always, C29_refuted_counts); with group axes every sum of two without a common group is accepted and has arrays of different shapes (C29_refuted_groups, C29_refuted_apart). Same columns are added column by column; with a profile, every sum of two with a common group (or without group axes) raises ValueError (C29_raises_partial, C29_common_partial). In place, an unweighted histogram refuses a weighted one, and with a profile a weighted one an unweighted one, exactly if they have a group in common (C29_inplace_partial)."
  },
  {
   "property": "C30",
   "status": "partial",
   "theorems": [
    "Verif.C30_group_partial",
    "Verif.C30_refuted_order",
    "Verif.C30_refuted_mixed",
    "Verif.C30_refuted_filter",
    "Verif.C30_refused"
   ],
   "note": "Violated by the code for mixed weights and for filters (C30_refuted_order, C30_refuted_mixed, C30_refuted_filter)."
  },
  {
   "property": "C31",
   "status": "partial",
   "theorems": [
    "Verif.C31_project_partial",
    "Verif.C31_project_fixed"
   ],
   "note": "C31_project_fixed is the full property for histograms without group axes.  With group axes the code is wrong unless the number of merged keys at every level is a power of two (C32): C31_project_partial proves the property under exactly that condition."
  },
  {
   "property": "C32",
   "status": "partial",
   "theorems": [
    "Verif.C32_power_of_two_partial",
    "Verif.C32_right_iff_power_of_two",
    "Verif.C32_three_keys_refuted",
    "Verif.C32_one_key_refuted",
    "Verif.C32_no_keys_refuted"
   ],
   "note": "Violated by the code: the pairwise sum is wrong unless the number of keys is a power of two, at least two.  C32_three_keys_refuted (a nested array of the wrong rank), C32_one_key_refuted (a list instead of an array), C32_no_keys_refuted (AssertionError).  C32_power_of_two_partial: right for 2^k keys; C32_right_iff_power_of_two: right exactly then."
  },
  {
   "property": "C33",
   "status": "partial",
   "theorems": [
    "Verif.C33_projections_compose_partial",
    "Verif.C33_total_unchanged"
   ],
   "note": "C33_total_unchanged holds for any content of fixed axes; C33_projections_compose_partial: projecting twice is projecting once, under the power-of-two condition of C32 for group axes."
  },
  {
   "property": "C34",
   "status": "partial",
   "theorems": [
    "Verif.C34_select_bin_partial"
   ],
   "note": "Accepted selections on a bin axis with a tolerance up to half a bin width: new axis, content, and equality with filling the kept rows, relative to the edge the threshold was rounded to. Larger tolerances are refuted under C37."
  },
  {
   "property": "C35",
   "status": "proved",
   "theorems": [
    "Verif.C35_select_split"
   ],
   "note": "Accepted selections on a split axis, any tolerance: new axis and content are those of the rows on the selected side of the matching edge, which is the threshold itself or within the tolerance of it."
  },
  {
   "property": "C36",
   "status": "partial",
   "theorems": [
    "Verif.C36_select_intbin_partial",
    "Verif.C36_refuted_infinite",
    "Verif.C36_refuted_tolerance",
    "Verif.C36_large_tolerance_always"
   ],
   "note": "Accepted selections on an intbin axis with integer data and tolerance up to 1/2. Refuted: with a larger tolerance values outside the request are kept (C36_refuted_tolerance); infinite thresholds, which bin and split axes accept, raise AttributeError (C36_refuted_infinite). Non-integer data is excluded by a hypothesis."
  },
  {
   "property": "C37",
   "status": "partial",
   "theorems": [
    "Verif.C37_tolerance_harmless",
    "Verif.C37_bin_rejects",
    "Verif.C37_split_rejects",
    "Verif.C37_intbin_rejects_partial",
    "Verif.C37_cut_rejects",
    "Verif.C37_bin_accepts",
    "Verif.C37_intbin_accepts",
    "Verif.C37_refuted_intbin_flow",
    "Verif.C37_split_accepts",
    "Verif.C37_large_tolerance_refuted",
    "Verif.C37_large_tolerance_above",
    "Verif.C37_large_tolerance_below"
   ],
   "note": "Rejections: bin, split and intbin reject a threshold that is no edge and a comparison that would cut a bin; a tolerance above half a bin width (also the default 1e-12, with narrower bins) makes every bin axis accept thresholds outside of it and gives it one bin too many (C37_large_tolerance_above, C37_large_tolerance_below; for intbin axes C36_large_tolerance_always). Acceptances: bin, split and intbin accept every edge (integer) with a fitting inequality if a bin is left. Refuted: on an intbin axis the values in the underflow bin and those in the overflow bin cannot be selected (C37_refuted_intbin_flow)."
  },
  {
   "property": "C38",
   "status": "partial",
   "theorems": [
    "Verif.C38_not_nan_partial",
    "Verif.C38_eq_nan_refuted",
    "Verif.C38_eq_nan_refuted_always"
   ],
   "note": "`x != nan` keeps exactly the non-NaN rows. `x == nan` is refuted for every bin and split axis and every content (C38_eq_nan_refuted_always): the content is that of the NaN bin, but the axis keeps all the other bins, so that array and axis disagree in size."
  },
  {
   "property": "C39",
   "status": "partial",
   "theorems": [
    "Verif.C39_groupbin_infinity",
    "Verif.C39_groupbin_infinity_refused",
    "Verif.C39_groupbin_at_most_infinity",
    "Verif.C39_groupbin_nan_key_refuted_always",
    "Verif.C39_and_groupby",
    "Verif.C39_or_two_groupby_partial",
    "Verif.C39_and_accepts",
    "Verif.C39_inequality_refused",
    "Verif.C39_or_three_refuted",
    "Verif.C39_or_and_refuted",
    "Verif.C39_and_or_refuted",
    "Verif.C39_groupbin",
    "Verif.C39_groupbin_nan",
    "Verif.C39_groupbin_inf_refuted",
    "Verif.C39_groupbin_nan_key_refuted"
   ],
   "note": "groupby: any number of comparisons joined by 'and', and two joined by 'or', select exactly the rows whose key satisfies them; every other form with 'or' is proved wrong (raises or drops terms). groupbin: one comparison with a number or NaN; an accepted comparison with an infinity keeps every number, finite or infinite, which is right for x >= -inf and x <= inf only (C39_groupbin_infinity); next to a group of NaN every comparison with a number is refused (C39_groupbin_nan_key_refuted_always). Inequalities between words and numbers raise TypeError (C39_inequality_refused)."
  },
  {
   "property": "C40",
   "status": "partial",
   "theorems": [
    "Verif.C40_select_cut_partial"
   ],
   "note": "A selection on a cut axis keeps exactly the rows with the requested truth value. Cut expressions that are conjunctions cannot be named in a selection: see C99_cut_and_refuted."
  },
  {
   "property": "C41",
   "status": "proved",
   "theorems": [
    "Verif.C41_rebin_split",
    "Verif.C41_rebin_bin",
    "Verif.C41_rebin_intbin",
    "Verif.C41_rebin_accepts"
   ],
   "note": "split, bin and (integer data) intbin axes: rebinning to any subset of the edges gives the content of the coarser axis; exactly which edge lists are accepted. numpy's indexing with a list of slices is taken to work as in the numpy of the time."
  },
  {
   "property": "C42",
   "status": "partial",
   "theorems": [
    "Verif.C42_rebinby_refuted",
    "Verif.C42_rebinby_typeError"
   ],
   "note": "Refuted: rebinby raises for every axis and factor (TypeError on bin, intbin, split). Nothing positive remains to be proved."
  },
  {
   "property": "C43",
   "status": "partial",
   "theorems": [
    "Verif.C43_drop_all_partial",
    "Verif.C43_drop_shape",
    "Verif.C43_dropped_not_addable",
    "Verif.C43_drop_nothing",
    "Verif.C43_drop_one_refuted",
    "Verif.C43_drop_first_refuted",
    "Verif.C43_drop_filter_refuted"
   ],
   "note": "Dropping all profiles leaves counts and squared weights exactly as if the profiles had never been there (proved for all histograms); dropping nothing changes nothing. Refuted: dropping some but not all profiles, or with a filter and no weight, takes wrong columns; exactly when the shape of the result is right is characterised."
  },
  {
   "property": "C44",
   "status": "partial",
   "theorems": [
    "Verif.C44_safe_programs_partial",
    "Verif.C44_new_histogram",
    "Verif.C44_disturbed_iff",
    "Verif.C44_project_refuted",
    "Verif.C44_copy_refuted",
    "Verif.C44_select_cut_refuted",
    "Verif.C44_drop_refuted"
   ],
   "note": "Proved for all programs of operations on shared axis objects: a histogram is disturbed exactly when a later operation renumbers one of its axes to another place; programs without such operations are safe. Refuted for project, copy, select on a cut and drop."
  },
  {
   "property": "C45",
   "status": "proved",
   "theorems": [
    "Verif.C45_table",
    "Verif.C45_ranges",
    "Verif.C45_no_such_profile"
   ],
   "note": "Every cell of every table equals the statistics of the rows that land in it; ranges of means, variances and effective counts. Square roots are not taken in the model; histograms whose axis objects were renumbered (C44) are excluded."
  },
  {
   "property": "C46",
   "status": "partial",
   "theorems": [
    "Verif.C46_split_refused",
    "Verif.C46_split_first_always",
    "Verif.C46_widths_taken",
    "Verif.C46_widths_partial",
    "Verif.C46_normalized",
    "Verif.C46_uniform_partial",
    "Verif.C46_group_refuted",
    "Verif.C46_split_first_refuted",
    "Verif.C46_normalized_refuted"
   ],
   "note": "Refuted: the counts themselves sum to 1, not counts times widths; the exact value of the integral is proved, which is 1 when all finite bins have width 1. Refuted also for group axes (AttributeError) and split axes that are not last: wrong widths (C46_split_first_always; C46_widths_taken gives the widths that are used in every histogram without group axes) or ValueError (C46_split_refused, for every histogram with such an axis)."
  },
  {
   "property": "C47",
   "status": "partial",
   "theorems": [
    "Verif.C47_fraction_partial",
    "Verif.C47_range",
    "Verif.C47_no_profile_refuted",
    "Verif.C47_filter_refuted"
   ],
   "note": "Proved for histograms with a profile and with a weight if they have a filter: every cell is passing over total with the binomial error, in [0,1] for non-negative weights, complements add to 1. Refuted: without profiles IndexError always, with filter and no weight ValueError. The methods of computing errors are in C95."
  },
  {
   "property": "C48",
   "status": "partial",
   "theorems": [
    "Verif.C48_value_partial",
    "Verif.C48_divFree",
    "Verif.C48_product_defect",
    "Verif.C48_constant_lost",
    "Verif.C48_constant_lost_quotient",
    "Verif.C48_wrong_factor_cancelled",
    "Verif.C48_safe_partial",
    "Verif.C48_sum",
    "Verif.C48_numerator_lost"
   ],
   "note": "Proved for all arithmetic without division, for quotients by one factor or a number (class Py.safe, described by syntax), for sums and differences of any accepted expressions, and in general under the condition Py.Exact on products and quotients. Refuted: 2*(x+1) loses the constant (the exact defect of every division-free product is proved), (x+1)/2, x*y*z/(x*y), z/(x*x)*x. Runtime floats are rationals in the model; rows on which a part has no value (division by zero) are excluded."
  },
  {
   "property": "C49",
   "status": "partial",
   "theorems": [
    "Verif.C49_parses_partial",
    "Verif.C49_index_error",
    "Verif.C49_constant_power",
    "Verif.C49_set_operand",
    "Verif.C49_invert",
    "Verif.C49_bitwise",
    "Verif.C49_cancelled_base",
    "Verif.C49_safe_partial"
   ],
   "note": "Proved for all arithmetic without division and for the class Py.safe with quotients and negative powers. Refuted: x/(x*x) raises IndexError; **, //, % and ^ on two constants always raise; x**0-like cancelled bases raise; a set as operand raises; ~ works for integer constants only."
  },
  {
   "property": "C50",
   "status": "partial",
   "theorems": [
    "Verif.C50_truth_partial",
    "Verif.C50_not_less_on_nan",
    "Verif.C50_parses",
    "Verif.C50_call_operand"
   ],
   "note": "Proved for all nestings of comparisons, chains, in/not in, and/or/not over division-free operands (class condClass): accepted, and the truth value is kept on every row, NaN rows included, unless an odd number of not stands above an ordering comparison of a NaN. Refuted: not (x < y) on NaN; a function call as operand of and/or is rejected."
  },
  {
   "property": "C51",
   "status": "partial",
   "theorems": [
    "Verif.C51_variant_partial",
    "Verif.C51_lookup",
    "Verif.C51_sum",
    "Verif.C51_product",
    "Verif.C51_product_order"
   ],
   "note": "Proved: closure of all single steps (swap + and *, swap < with >, permute and/or, inside any context) parses to the identical expression; any reordering of division-free sums of any length and of products without constant terms. Refuted: 2*y*(x+1) and 2*(x+1)*y parse to different expressions."
  },
  {
   "property": "C52",
   "status": "partial",
   "theorems": [
    "Verif.C52_tree_partial",
    "Verif.C52_written_partial",
    "Verif.C52_condition_partial",
    "Verif.C52_negated_field",
    "Verif.C52_negated_field_and",
    "Verif.C52_in_always_false"
   ],
   "note": "Proved for every accepted expression of arithmetic, library functions, comparisons, and/or/not and positive boolean fields: the tree of calls computes and gives the value of the expression; end to end, the value the expression is written with. Refuted: a negated boolean field is computed as the field itself; 'x in {...}' is always false and 'not in' always true."
  },
  {
   "property": "C53",
   "status": "proved",
   "theorems": [
    "Verif.C53_one_pass",
    "Verif.C53_order_irrelevant",
    "Verif.C53_shared_once"
   ],
   "note": "For any set of goals, any iteration order of the sets and any library: the compiled instructions are executable, each exported value is the value of the quantity on its own, the first exception is one of a requested quantity, and each distinct call and field is computed exactly once. Subexpressions that are never reached are C54."
  },
  {
   "property": "C54",
   "status": "partial",
   "theorems": [
    "Verif.C54_refuted_histogram",
    "Verif.C54_refuted_weight",
    "Verif.C54_computed_iff",
    "Verif.C54_refuted"
   ],
   "note": "Exact characterisation: a requested quantity is computed if and only if every function in it has an argument that is not a constant. Refuted for sqrt(2)*x and sqrt(x - x) in every order and with any other quantities; a histogram of sqrt(2)*x adds the number of rows to every bin."
  },
  {
   "property": "C55",
   "status": "proved",
   "theorems": [
    "Verif.C55_written_out",
    "Verif.C55_value_partial",
    "Verif.C55_condition_partial",
    "Verif.C55_condition_as_number"
   ],
   "note": "Whenever the text with the definitions written out is accepted, the text with definitions is parsed to the identical expression (C55_written_out), so every value agrees; C55_value_partial and C55_condition_partial connect it to the value of the text for the classes of C48 and C50. The converse acceptance fails: a definition that is a condition may be used as a number (C55_condition_as_number)."
  },
  {
   "property": "C56",
   "status": "partial",
   "theorems": [
    "Verif.C56_set_partial",
    "Verif.C56_set_accepts_partial",
    "Verif.C56_del_partial",
    "Verif.C56_refuted_wildcard",
    "Verif.C56_refuted"
   ],
   "note": "Proved for names without wildcards, at any depth, in all books with distinct names on each level (every book that can be built, C57_built): what is found after assignment and deletion at, above, below and beside the path; when they succeed and that they raise KeyError otherwise, unless a SystematicsBook stands on the way. Refuted: a value assigned under a name with a wildcard is never found under it."
  },
  {
   "property": "C57",
   "status": "partial",
   "theorems": [
    "Verif.C57_built",
    "Verif.C57_listing",
    "Verif.C57_lookup_partial",
    "Verif.C57_patterns",
    "Verif.C57_refuted_wildcard",
    "Verif.C57_refuted"
   ],
   "note": "Listing proved for all books that can be built: each path once, exactly those where something is. in and lookup agree for names without wildcards. Refuted: every name with a wildcard is in every book, the empty one included."
  },
  {
   "property": "C58",
   "status": "partial",
   "theorems": [
    "Verif.C58_refuted_flat",
    "Verif.C58_refuted",
    "Verif.C58_refuted_nested",
    "Verif.C58_partial"
   ],
   "note": "Refuted: deletion with a wildcard empties every book of histograms whatever matches, and fails in the middle when there is a book inside. Remaining case proved: books of histograms that all match."
  },
  {
   "property": "C59",
   "status": "partial",
   "theorems": [
    "Verif.C59_partial",
    "Verif.C59_refuted",
    "Verif.C59_refuted_systematic",
    "Verif.C59_refuted_inside"
   ],
   "note": "Proved for all books without a SystematicsBook on the path, and for every other exception than its ValueError. Refuted: a value rejected by the checks of a SystematicsBook stays in the book, also if that is inside another."
  },
  {
   "property": "C60",
   "status": "partial",
   "theorems": [
    "Verif.C60_fill_partial",
    "Verif.C60_raises_partial",
    "Verif.C60_stale_partial",
    "Verif.C60_content_partial",
    "Verif.C60_refuted_twice",
    "Verif.C60_refuted_number",
    "Verif.C60_refuted_lengths",
    "Verif.C60_refuted_constant",
    "Verif.C60_refuted_empty",
    "Verif.C60_raises_hist",
    "Verif.C60_refuted_middle"
   ],
   "note": "Any number of distinct histograms with any goals, whose arguments describe the same number of rows for each, no constants mixed with fields: the book's fill succeeds exactly if each histogram's own fill does, leaves each as its own fill would (whatever the order of computation) and no other histogram changed; what an earlier fill that raised left behind has no effect; with C81, each bin gets the sum over its rows. Refuted: a histogram listed twice (every bin gets the number of rows in addition), numbers next to arrays, arrays of different lengths, constants next to fields, empty books; a fill that raises in the middle leaves some histograms filled. Spark and copyonfill are not in this model (C64, C71)."
  },
  {
   "property": "C61",
   "status": "partial",
   "theorems": [
    "Verif.C61_partial",
    "Verif.C61_refuted_inside",
    "Verif.C61_refuted_replaced",
    "Verif.C61_refuted_stale"
   ],
   "note": "Any history of assignments, deletions (also with patterns) and fillings on any level, with or without exceptions, through the outermost book, without SystematicsBooks: the next fill of any book inside fills exactly the histograms it now has, as in C60. Refuted: book['in']['c'] = h is not seen by the outer book after its first fill, and every bin of h gets the number of rows; in general such a histogram is filled without its data."
  },
  {
   "property": "C62",
   "status": "partial",
   "theorems": [
    "Verif.C62_sum_partial",
    "Verif.C62_sum_raises",
    "Verif.C62_separate_partial",
    "Verif.C62_refuted_shared",
    "Verif.C62_product_partial",
    "Verif.C62_imul_partial",
    "Verif.C62_imul_agrees_partial",
    "Verif.C62_iadd_partial",
    "Verif.C62_iadd_keeps",
    "Verif.C62_iadd_agrees_partial",
    "Verif.C62_agree_partial",
    "Verif.C62_bins_partial",
    "Verif.C62_refuted_operands",
    "Verif.C62_refuted_iadd_shared",
    "Verif.C62_refuted_twice",
    "Verif.C62_refuted_wildcards",
    "Verif.C62_refuted_unfilled",
    "Verif.C62_refuted_failed",
    "Verif.C62_product_checked_partial"
   ],
   "note": "Books of any nesting, over histograms as objects. Sum: exactly when what is under common paths can be added, with names without wildcards and no SystematicsBook on the left, each path has the sum or the one that exists, both operands unchanged, every common bin the sum of the bins; if both have the same paths all histograms of the sum are new. *, *=: every histogram scaled, *= agrees with *, += agrees with + and changes only histograms of the left book (books without histograms in common or twice). Refuted: what only one operand has is shared with the result (both for + and +=), so scaling the sum scales the operand; a histogram listed twice is scaled twice by *=; names with wildcards are lost or raise; never-filled histograms cannot be multiplied; an in-place sum that raises has already changed what came before, in the books inside too (but loses no histogram: C62_iadd_keeps)."
  },
  {
   "property": "C63",
   "status": "partial",
   "theorems": [
    "Verif.C63_axis_partial",
    "Verif.C63_refuted_axis",
    "Verif.C63_hist_partial",
    "Verif.C63_refuted_hist",
    "Verif.C63_neighbours_partial",
    "Verif.C63_neighbours_complete",
    "Verif.C63_books_partial",
    "Verif.C63_refuted_symmetry",
    "Verif.C63_refuted_wildcard",
    "Verif.C63_refuted_wildcard_checked"
   ],
   "note": "Axes: compatible is the decision of equal binning, for all axes without NaN parameters; histograms: equality of the binnings of group and fixed axes in order; books without wildcard names: compatible is True exactly when paths and histograms correspond, and acceptance by the neighbour check of a SystematicsBook is equivalent to all entries corresponding to each other. Refuted: axes with NaN parameters; histograms after a selection (AttributeError); books of different shape (False in one direction, AttributeError in the other); names with wildcards."
  },
  {
   "property": "C64",
   "status": "partial",
   "theorems": [
    "Verif.C64_made_partial",
    "Verif.C64_independent_partial",
    "Verif.C64_values_partial",
    "Verif.C64_one_by_one_partial",
    "Verif.C64_refuted",
    "Verif.C64_mixed_refused"
   ],
   "note": "Refuted for templates that had been filled: Book.fill does not look at _copyonfill, so filling one sample through its book changes the other samples and the template. For templates never filled: whatever the program does before and after, filling any of the histograms of one sample together, or any operation on one of them, changes no histogram of another sample nor one from before, and each histogram has exactly the data given to its sample. For any template the samples are independent when their histograms are filled one by one with Hist.fill. The constructor succeeds for slash-free names without SystematicsBooks, with one book per sample of the template's shape and contents. Views are lists of histograms of a sample here (their making is C85)."
  },
  {
   "property": "C65",
   "status": "partial",
   "theorems": [
    "Verif.C65_refuted",
    "Verif.C65_inside_partial"
   ],
   "note": "Refuted for every SystematicsBook that can be made and all data: fill raises AttributeError, because its _changed replaces the one that sets _fields. What remains: its histograms are filled with the ordinary book that contains it."
  },
  {
   "property": "C66",
   "status": "partial",
   "theorems": [
    "Verif.C66_filter_number",
    "Verif.C66_restored_partial",
    "Verif.C66_equal",
    "Verif.C66_filter",
    "Verif.C66_refuted_nan",
    "Verif.C66_refuted_reused",
    "Verif.C66_refuted_null"
   ],
   "note": "Every histogram made by Hist(...) from axes of its own (any accepted arguments, no NaN parameters), with any content of its shape and any attachments: the restored histogram is the identical one, parsed expressions included, for any parser; and it is == if there is no NaN in it. Refuted: NaN content (not == to itself); axes taken from another histogram with other definitions (== but computes other quantities); what select leaves of an axis (cannot be pickled). Definitions are strings."
  },
  {
   "property": "C67",
   "status": "partial",
   "theorems": [
    "Verif.C67_type",
    "Verif.C67_restored_partial",
    "Verif.C67_refuted_keys",
    "Verif.C67_refuted_unfilled"
   ],
   "note": "Same histograms as C66: fromjson(tojson(h)) is the identical histogram, also through JSON text if the group keys are strings and the attachments survive text. Refuted: numeric group keys come back as strings, whatever way numbers are written; a group with a never-filled member and a null axis cannot be written."
  },
  {
   "property": "C68",
   "status": "partial",
   "theorems": [
    "Verif.C68_restored_partial",
    "Verif.C68_text_partial",
    "Verif.C68_repeated",
    "Verif.C68_refuted_keys"
   ],
   "note": "Books of any nesting and any of the six classes, with attachments, whose histograms are those of C66, with distinct slash-free names and SystematicsBooks that pass their own checks (as all that can be built): the restored book is the identical one, also through JSON text if the group keys are strings and the attachments survive text. Of entries with the same name the last counts. Refuted through text for numeric group keys; a histogram written on its own is not restored by GenericBook.fromjson."
  },
  {
   "property": "C69",
   "status": "partial",
   "theorems": [
    "Verif.C69_eq_partial",
    "Verif.C69_refuted",
    "Verif.C69_refuted_nan",
    "Verif.C69_means_partial",
    "Verif.C69_order_partial"
   ],
   "note": "Equivalence for rational contents. With any content, definitions and attachments without NaN: two histograms are equal exactly if axes, parsed weight and filter, definitions, the content under all keys and the attachments at all places are the same (C69_means_partial), and so == is symmetric and transitive there. Violated: reading a never-filled histogram changes it (C69_refuted), NaN content (C69_refuted_nan)."
  },
  {
   "property": "C70",
   "status": "partial",
   "theorems": [
    "Verif.C70_dictionary",
    "Verif.C70_made",
    "Verif.C70_independent_partial",
    "Verif.C70_sum",
    "Verif.C70_disturbed",
    "Verif.C70_refuted_shared",
    "Verif.C70_refuted"
   ],
   "note": "Model of which dict objects histograms, books and users share. Proved: attach, detach, has and get follow dictionary laws in every state; everything that is made comes with the right attachments and changes no other object; after any program without the sharing operations all objects are independent; attaching changes exactly the objects with the same dict. Refuted for every sum and product of histograms and every view of a book: what is attached to the result is attached to the operand; also for objects restored from a JSON object or by copy.copy, and for dicts given as attachment= together with systematic=."
  },
  {
   "property": "C71",
   "status": "partial",
   "theorems": [
    "Verif.C71_axis_partial",
    "Verif.C71_refuted_under",
    "Verif.C71_refuted_over",
    "Verif.C71_refuted_nan",
    "Verif.C71_refuted_integer",
    "Verif.C71_refuted_integer_nan",
    "Verif.C71_refuted_infinity",
    "Verif.C71_fill_partial",
    "Verif.C71_refuted_groups",
    "Verif.C71_refuted_filter",
    "Verif.C71_refuted_filter_profile",
    "Verif.C71_refuted_nan_weight"
   ],
   "note": "The index columns, sums and their addition to the content, over the values of the axis expressions. Any number of axes, profiles, rows and any order of the collected sums: if every needed flow bin exists (no values below an axis without underflow, no values above and no NaN on an axis with NaN bin but no overflow bin, nothing above an intbin axis, no inf), the groups exist already and weights are not NaN, every bin gets exactly its rows and reads as after filling with arrays. Refuted, in general: values below an axis without underflow are counted in the last bin; values above an axis without overflow are counted as NaN and NaN is lost; values above an intbin axis, NaN and infinities on it are counted as its maximum; inf is counted in the underflow bin; a new histogram with a group axis raises AttributeError (histbook.hist.COUNTTYPE); a NaN weight makes its bin NaN. Refuted by example: a filter without a weight is ignored, with a profile it raises ValueError. By reading: Book.fill with a DataFrame raises NameError (book.py:558 uses threading, which is not imported) if the book has a histogram. The translation of expressions into columns is C93. Null values: C133."
  },
  {
   "property": "C72",
   "status": "partial",
   "theorems": [
    "Verif.C72_table_partial",
    "Verif.C72_refuted_infinite",
    "Verif.C72_refuted_sorted",
    "Verif.C72_refuted_fraction",
    "Verif.C72_refused",
    "Verif.C72_fraction_partial",
    "Verif.C72_refuted_only_cuts",
    "Verif.C72_normalized_partial",
    "Verif.C72_order"
   ],
   "note": "Tables of histograms with any group and fixed axes, any columns, after any fills, where no value is infinite and the keys of each group axis are all texts or all numbers: as many rows as labels, each row has the numbers of exactly the data that its labels describe, and each entry is described by exactly one row. The order of the rows, for every export that succeeds (C72_order): groups strictly increase by the values of their keys, bins in the order of their axis, the last axis fastest. Refuted: infinite values are counted in rows whose label [x, inf) does not contain them; a groupbin axis with numbers and NaN cannot be exported (TypeError from sorted); fractions of any histogram without an axis besides groups and the given cuts have labels but no numbers (C72_refuted_only_cuts). Normalized tables (no group axes, split axes last): the count in each row is that of the data which its labels describe, over the width that these labels describe, over the sum of all such numbers; the other columns are as in any table. Fractions (with another axis): each row has the fractions of exactly the data that its labels describe, and each entry is described by exactly one row (C72_fraction_partial). Names of columns and levels: C112. Missing: NaN as key of groupby."
  },
  {
   "property": "C73",
   "status": "partial",
   "theorems": [
    "Verif.C73_counts_partial",
    "Verif.C73_profile_partial",
    "Verif.C73_only",
    "Verif.C73_refuted_integer",
    "Verif.C73_refuted_one_group",
    "Verif.C73_refuted_split",
    "Verif.C73_refused"
   ],
   "note": "All bin axes, flags and fills, also after projecting other axes away (group axes only where project is right, C41): every slot of the exported TH1 or TProfile, the flow slots included, has the sum of weights, squared error, mean and error of exactly the data in the interval that ROOT gives to this slot; absent flow bins are zero and NaN is left out. Everything but one bin or split axis raises (C73_only). Refuted: intbin axes and cuts raise AttributeError; so does projecting away a group axis with one group; split axes are exported with bins of equal widths."
  },
  {
   "property": "C74",
   "status": "partial",
   "theorems": [
    "Verif.C74_refuted_irreflexive",
    "Verif.C74_refuted_same_low",
    "Verif.C74_refuted_mixed",
    "Verif.C74_order_partial",
    "Verif.C74_axis_partial",
    "Verif.C74_comparisons_partial"
   ],
   "note": "Proved for all intervals: comparisons never raise, transitivity, irreflexivity except for NaN, NaN last; the bins of a bin or split axis are published in strictly increasing order. Refuted: the NaN bin is less than itself; two intervals with the same low edge are each greater than the other; integer labels and intervals of one intbin axis cannot be compared."
  },
  {
   "property": "C75",
   "status": "proved",
   "theorems": [
    "Verif.C75_keyword_first",
    "Verif.C75_columns",
    "Verif.C75_reported"
   ],
   "note": "For any goals, iteration orders and library: precedence of keywords, which column each field gets, the number of rows, and that a missing field or arrays of unequal lengths raise (ValueError if the functions do not raise themselves). The text of the message, more-dimensional arrays and Spark are not modelled. Constants among the quantities: C80."
  },
  {
   "property": "C76",
   "status": "partial",
   "theorems": [
    "Verif.C76_restored_partial",
    "Verif.C76_bins_identically",
    "Verif.C76_bool_arguments",
    "Verif.C76_refuted_nan",
    "Verif.C76_null",
    "Verif.C76_constructors"
   ],
   "note": "All seven kinds, any accepted arguments, without NaN among the parameters: pack/unpack, copy and JSON (also as text) give the identical description, relabel changes only the label; the constructors agree with those of the filling model. Labels are strings (no lambdas). Refuted: NaN parameters are accepted and then the axis differs from itself. The null axis left by select has neither _pack nor tojson."
  },
  {
   "property": "C77",
   "status": "partial",
   "theorems": [
    "Verif.C77_computes_partial",
    "Verif.C77_functions",
    "Verif.C77_floordiv",
    "Verif.C77_xor",
    "Verif.C77_round"
   ],
   "note": "Proved for arithmetic without // and ^, library functions and conditions without negated fields; every recognised function except round is in the library. Refuted for //, ^ and round, whatever the operands."
  },
  {
   "property": "C78",
   "status": "partial",
   "theorems": [
    "Verif.C78_unchanged_partial",
    "Verif.C78_overwritten",
    "Verif.C78_overwritten_two",
    "Verif.C78_accepted"
   ],
   "note": "Proved for computations in which no function that can write into an argument is called with one argument more than it has inputs. Refuted: one argument more, as log(x, y), is accepted and overwrites the array of y."
  },
  {
   "property": "C79",
   "status": "partial",
   "theorems": [
    "Verif.C79_mod",
    "Verif.C79_percent",
    "Verif.C79_fmod_partial",
    "Verif.C79_fmod_wrong",
    "Verif.C79_fmax_partial",
    "Verif.C79_fmax_nan",
    "Verif.C79_rounding",
    "Verif.C79_signs",
    "Verif.C79_nan"
   ],
   "note": "Proved: mod and % are Python's %. fmod proved where the quotient is nonnegative or an integer, refuted everywhere else (too large by y); fmax/fmin proved on numbers, refuted when one operand is NaN. Proved against separate specifications: floor, ceil, trunc, rint, abs, sign, copysign, heaviside, max, min, where, and which of them give NaN for NaN. Simplified: no negative zero, no sign of NaN. Functions that are not rational are uninterpreted."
  },
  {
   "property": "C80",
   "status": "partial",
   "theorems": [
    "Verif.C80_refuted_alone",
    "Verif.C80_refuted_weighted",
    "Verif.C80_one_row_partial",
    "Verif.C80_refuted_mixed"
   ],
   "note": "Refuted: a constant together with a field makes every fill raise TypeError in Python 3, whatever the arguments; a constant alone counts one row however many are given. Proved: if all expressions are constants, fill counts exactly one row with these values."
  },
  {
   "property": "C81",
   "status": "partial",
   "theorems": [
    "Verif.C81_rows_partial",
    "Verif.C81_content_partial",
    "Verif.C81_weights",
    "Verif.C81_written_partial",
    "Verif.C81_text_rows_partial",
    "Verif.C81_text_content_partial"
   ],
   "note": "The whole way from the arguments through goals, call graph, execution and binning to the content, for any iteration order: equals filling with the rows of expression values, and each bin grows by the sum over its rows. Needs: expressions that vary and contain no function of constants only (C54, C80), that are computed (C52, C77); profile values that are not NaN; at least one row. Arrays are numbers (NaN included), or texts for a field that is grouped by (C81_text_*: then there is a group for each text, and each bin of it grows by the sum over the rows with this text); texts in other expressions and arrays of mixed values are not in this model."
  },
  {
   "property": "C82",
   "status": "proved",
   "theorems": [
    "Verif.C82_copies",
    "Verif.C82_copy",
    "Verif.C82_cleared"
   ],
   "note": "All books, the histograms being objects: copy() and cleared() succeed exactly if each SystematicsBook inside passes its own checks (the only books whose constructor refuses anything), and then have the same classes under the same paths and only new, distinct histograms with the copied (empty) values; the SystematicsBooks of the copy pass too; the original is as before; clear() changes exactly the histograms of the book. What a SystematicsBook asks of histograms may be any function of definition and settings. That Hist.copy shares no arrays is C27; copyonfill is in C64."
  },
  {
   "property": "C83",
   "status": "partial",
   "theorems": [
    "Verif.C83_made_partial",
    "Verif.C83_raises"
   ],
   "note": "Full statement for axes that the constructors of axes give (no NaN among their numbers) and any expression parser; the rejections likewise. Axes already parsed for another histogram are taken as they are (see C66_refuted_reused)."
  },
  {
   "property": "C84",
   "status": "partial",
   "theorems": [
    "Verif.C84_pop_partial",
    "Verif.C84_setdefault_partial",
    "Verif.C84_update_partial",
    "Verif.C84_refuted_iteration",
    "Verif.C84_refuted_keys",
    "Verif.C84_refuted_popitem",
    "Verif.C84_refuted_update",
    "Verif.C84_refuted_length"
   ],
   "note": "pop and setdefault with names without wildcards, update with a dict of slash-free names. Refuted for every book with a histogram: what iterating gives cannot be used as key (lookup, assignment, deletion, pop, setdefault), popitem and update with another book raise TypeError; len counts the top level, iteration all levels."
  },
  {
   "property": "C85",
   "status": "proved",
   "theorems": [
    "Verif.C85_view",
    "Verif.C85_fills"
   ],
   "note": "For all well-formed books (distinct slash-free names on each level, the invariant of C56/C57) and any matching function in place of fnmatch.fnmatchcase. The list of histograms that fill of the view goes through is the list of matching histograms; what filling a list of histograms does is C60."
  },
  {
   "property": "C86",
   "status": "partial",
   "theorems": [
    "Verif.C86_refuted_normalized_split",
    "Verif.C86_texts_partial",
    "Verif.C86_centres_partial",
    "Verif.C86_written",
    "Verif.C86_refuted_normalized",
    "Verif.C86_refuted_nan"
   ],
   "note": "Any histogram as its constructors make it, after any fills, any chain of channels, any prefix and variable name, counts or profiles, with or without errors, normalized or not (normalized: split axes last); the records in any order (the order is that of the axes, but not stated), errors as squares (their square roots are not modelled), for any way to write numbers and keys. What is written for an integer bin has the same integers in it as the published bin (C86_written). Group axes that are added up need 1, 2, 4, 8, ... keys (C32). Refuted: a groupbin axis with NaN in the data raises TypeError; every normalized plot of a histogram with group axes raises AttributeError (C86_refuted_normalized); a normalized plot with a split axis before the last axis used raises ValueError, unless the numbers of intervals and bins happen to agree (C86_refuted_normalized_split). Missing: error bars of steps and areas without numbers; mixed keys (C29/C72)."
  },
  {
   "property": "C87",
   "status": "partial",
   "theorems": [
    "Verif.C87_outline_partial",
    "Verif.C87_refuted_narrow"
   ],
   "note": "As in C86, for any bin, intbin or split axis whose first bin is wider than 1e-10 of the axis (bin axes with fewer than 10^10 bins always are); with errors, each record also has the centre of its bin. Numbers are exact here: with floats the last edge may differ from `high` so that the closing zero is missing. Refuted: edges [0, 1e-11, 1] show the value of the first bin all over the second one."
  },
  {
   "property": "C88",
   "status": "partial",
   "theorems": [
    "Verif.C88_records_partial",
    "Verif.C88_drawn_partial",
    "Verif.C88_refuted_intbin",
    "Verif.C88_refuted_split"
   ],
   "note": "Any histogram as its constructors make it, after any fills, any axes, any beside/below; records in any order, for any way to write numbers and keys; groupbin keys at the centre of their interval. C88_drawn_partial: the columns and ranges of the drawing. Refuted: an intbin axis as y raises AttributeError (vega.py 837, `may`); a split axis as x or y raises NotImplementedError when drawing (C88_refuted_split). Missing: group axes that are added up need 1, 2, 4, 8, ... keys (C32)."
  },
  {
   "property": "C89",
   "status": "partial",
   "theorems": [
    "Verif.C89_legend_partial",
    "Verif.C89_refuted_cut",
    "Verif.C89_refuted_intbin",
    "Verif.C89_refuted_intflow",
    "Verif.C89_refuted_empty",
    "Verif.C89_refuted_both"
   ],
   "note": "Any histogram, fills and chain with at most one of overlay and stack, along bin, split, groupby and groupbin axes, and any plot that has records; the legend is in the order of the axis (reversed when stacked). Refuted: cut axes have legends 'False'/'True' but records 'fail'/'pass'; intbin axes have legends '3' but records '[2.5, 3.5)', with flow bins sorting them raises TypeError; plots without content raise AssertionError or KeyError; of overlay and stack together only the later is drawn. Not modelled: titles, scales, the stack's `aggregate`."
  },
  {
   "property": "C90",
   "status": "partial",
   "theorems": [
    "Verif.C90_combination_partial",
    "Verif.C90_arrangement",
    "Verif.C90_grid",
    "Verif.C90_raises",
    "Verif.C90_refuted_error",
    "Verif.C90_refuted_split"
   ],
   "note": "Any tree of combinations that the constructors accept, any plots. Refuted: the layers of a plot with error bars that is placed beside or below another plot or in a grid are not limited to its records (vega.py 1042, no thislayer); the constructors accept plots that are already split although the code means to reject them (it looks for channels among plots). Titles, sizes and config: C109."
  },
  {
   "property": "C91",
   "status": "proved",
   "theorems": [
    "Verif.C91_chain",
    "Verif.C91_plot",
    "Verif.C91_heatmap"
   ],
   "note": "Exactly: accepted iff the conditions hold, with the resulting plot given; a method called twice raises TypeError (C91_chain). Axes are given by number (what the user passes to `_singleaxis` is modelled as an axis or nothing)."
  },
  {
   "property": "C92",
   "status": "partial",
   "theorems": [
    "Verif.C92_errors_partial",
    "Verif.C92_refuted_text",
    "Verif.C92_refuted_stack"
   ],
   "note": "Along an axis of numbers for steps, areas, lines and markers, any chain without stack: bars at the centre of each finite bin around its value, and bars of no length at zero at both ends of outlines; the second value is the squared error (square roots are not modelled). Refuted: for bars and axes without numbers, the field is a text while the layer says quantitative; in stacks, bars reach the sum of the values below but error bars are around the value alone. Missing: what is missing in C86 and C87."
  },
  {
   "property": "C93",
   "status": "partial",
   "theorems": [
    "Verif.C93_remainder_partial",
    "Verif.C93_refuted_nan_always",
    "Verif.C93_refuted_nan_floor_always",
    "Verif.C93_refuted_zero_always",
    "Verif.C93_refuted_percent_always",
    "Verif.C93_refuted_flag_always",
    "Verif.C93_accepts_partial",
    "Verif.C93_same_partial",
    "Verif.C93_written_partial",
    "Verif.C93_refuted_nan",
    "Verif.C93_refuted_nan_functions",
    "Verif.C93_refuted_remainder",
    "Verif.C93_refuted_zero",
    "Verif.C93_refuted_null",
    "Verif.C93_refuted_missing",
    "Verif.C93_functions",
    "Verif.C93_refuted_percent",
    "Verif.C93_refuted_in",
    "Verif.C93_refuted_flag",
    "Verif.C93_max_of_many",
    "Verif.C93_min_of_many"
   ],
   "note": "Any accepted expression of arithmetic, comparisons other than in, logic, boolean fields that are not negated and the functions that Spark is given, with operands of the right type: it is computed on Spark on every row, with the value from arrays wherever no divisor is zero, no NaN is compared and floor, ceil, min, max, mod get arguments as described (also if the branch of where that is not taken, or a condition next to a false one, is not safe). Functions of analysis enter as parameters that must agree at the given arguments. Refuted: NaN is equal to itself and greater than all numbers on Spark; floor(NaN) is 0 and min skips NaN; mod differs exactly for opposite signs with a rest (C93_remainder_partial); quotients by zero are null; 18 functions raise NotImplementedError, among them fmod and with it the operator %; in is refused; arithmetic with boolean fields is refused; null from a quotient by zero makes every result null, except of logic (C93_refuted_null). C93_max_of_many, C93_min_of_many: max and min of any number of fields are those of all of them on Spark (from arrays a third argument is overwritten, C78_overwritten_two)."
  },
  {
   "property": "C94",
   "status": "proved",
   "theorems": [
    "Verif.Flt.C94_sum",
    "Verif.Flt.C94_own_bin",
    "Verif.Flt.C94_own_profile",
    "Verif.Flt.C94_finite",
    "Verif.Flt.C94_batches",
    "Verif.Flt.C94_agrees",
    "Verif.Flt.C94_ieee"
   ],
   "note": "Profile values, weights and contents are NaN, infinities or exact rationals, added and multiplied as IEEE 754 prescribes (no rounding, no overflow). The sum, what it depends on, when it is finite, order and batches, for all histograms made by the constructor and all data that can be filled (with profiles: every row in some bin, C18). C94_ieee states the contents with an independent description of IEEE sums and products. C94_agrees: with rational data the contents are those of the rational model."
  },
  {
   "property": "C95",
   "status": "partial",
   "theorems": [
    "Verif.C95_normal_partial",
    "Verif.C95_normal_bounds",
    "Verif.C95_refuted_methods",
    "Verif.C95_refuted_wilson_upper",
    "Verif.C95_refuted_wilson",
    "Verif.C95_refuted_unknown",
    "Verif.C95_refuted_sigmas",
    "Verif.C95_refuted_units"
   ],
   "note": "Over real numbers with square roots. For error='normal', any numbers of cuts and levels: each column of a bin has what its name says, and the error is between 0 and z/(2 sqrt n). Refuted: five of the seven documented methods raise NotImplementedError; 'wilson' gives the upper end of Wilson's interval (proved to be that) instead of an uncertainty, 1 if all entries pass; any other text as method shifts the columns; without scipy one sigma is taken for less than 0.8 (a factor sqrt 2 is missing); with weights the errors depend on the unit of the weights."
  },
  {
   "property": "C96",
   "status": "partial",
   "theorems": [
    "Verif.C96_axis_partial",
    "Verif.C96_hist_partial",
    "Verif.C96_told_apart_partial",
    "Verif.C96_refuted_infinite",
    "Verif.C96_refuted_null",
    "Verif.C96_refuted_reused"
   ],
   "note": "Text is a list of tokens (blanks and the characters of single literals are not modelled), read back by a reader for Python's calls, tuples, dicts and literals. Proved for all made axes and all histograms made from axes of their own, with finite numbers and text definitions. Refuted: an infinite edge is shown as the unknown name inf; the axis that select leaves when one flow bin is left is shown as _nullaxis(), which is not exported; a histogram made with an axis of another histogram is shown like one of another quantity."
  },
  {
   "property": "C97",
   "status": "partial",
   "theorems": [
    "Verif.C97_value_partial",
    "Verif.C97_written_partial",
    "Verif.C97_as_written_partial",
    "Verif.C97_denominator",
    "Verif.C97_base",
    "Verif.C97_square",
    "Verif.C97_remainder",
    "Verif.C97_sign",
    "Verif.C97_conditions",
    "Verif.C97_empty_set"
   ],
   "note": "Text is a list of tokens, read back by a precedence reader of Python's operators, comparisons, calls, sets and parentheses that is written apart from the model. Proved for all expressions in whose text no parentheses are missing, which includes everything written with + - *, division by products, powers of names and calls, and one comparison. Refuted: sums in denominators (x/(y+1) is shown as x/1+y), sums and negative numbers as bases of powers, products with remainders, conditions with and/or (shown as names of classes), the empty set."
  },
  {
   "property": "C98",
   "status": "partial",
   "theorems": [
    "Verif.C98_name_partial",
    "Verif.C98_one_axis",
    "Verif.C98_dict",
    "Verif.C98_refuted"
   ],
   "note": "Proved for quantities that are a bare name; several axes give a TypeError. Refuted for every other quantity that depends on a field: the array is passed under the text of the whole expression (for example 2*x), which is not the name of a field, so that fill raises a ValueError for the missing field x. The key is a token text, so this rests on field names being single names."
  },
  {
   "property": "C99",
   "status": "partial",
   "theorems": [
    "Verif.C99_constant_names",
    "Verif.C99_constants",
    "Verif.C99_refuted_intbin_error",
    "Verif.C99_value_error",
    "Verif.C99_select_partial",
    "Verif.C99_written_partial",
    "Verif.C99_or_refused",
    "Verif.C99_cut_and_refuted",
    "Verif.C99_cut_negated_refuted",
    "Verif.C99_name_is_constant_refuted",
    "Verif.C99_intbin_error_refuted",
    "Verif.C99_nearest_edge",
    "Verif.C99_nearest_axis"
   ],
   "note": "The whole of select after parsing: asconst, normalizeexpr, logical, the search over the axes with its exceptions, and the chain over an and. Proved by induction over the conditions with the invariant that content, axes and edges stay right. Asked of the rows: none lies between a constant and an edge within the tolerance of it (C37), fields used as conditions hold 0 or 1, and fields named like constants (pi, e) have that value. Ors of two conditions; longer ones are refuted in C39. Proved: without group axes any or is refused. Refuted: an and that is the expression of a cut axis, the negation of the condition of a cut axis, fields named e or pi, and the exceptions for intbin axes: every refused equality with an integer raises AttributeError, and every refused comparison with another number in the range raises it if an odd number of axes follow (C99_refuted_intbin_error). With bin axes (with ordinary bins) and split axes only, every refused comparison of their quantities with a number raises ValueError (C99_value_error). Not treated: strings, infinite and NaN constants."
  },
  {
   "property": "C100",
   "status": "partial",
   "theorems": [
    "Verif.C100_groupkeys_exactly",
    "Verif.C100_groupkeys_partial",
    "Verif.C100_left_out_refuted",
    "Verif.C100_never_filled_refuted",
    "Verif.C100_refused",
    "Verif.C100_object",
    "Verif.C100_object_refused"
   ],
   "note": "Proved for any number of batches: exactly the keys of this axis in the batches in which each earlier group axis has some key, so exactly the keys in the data if no row is left out by an earlier axis; the axis may be given as an object, too (C100_object). Refuted: keys of rows that an earlier groupbin axis leaves out (NaN with nanflow=False) are missing; a histogram that was never filled raises an AttributeError; with no group axes a NameError (UnboundLocalError) replaces the IndexError."
  },
  {
   "property": "C101",
   "status": "partial",
   "theorems": [
    "Verif.C101_togroup_refuted"
   ],
   "note": "Refuted for all calls: the method is defined without `self`, so that h.togroup(...) raises a TypeError and Hist.togroup(...) a NameError. Nothing is left to prove."
  },
  {
   "property": "C102",
   "status": "partial",
   "theorems": [
    "Verif.C102_all_listed",
    "Verif.C102_by_expression",
    "Verif.C102_by_class",
    "Verif.C102_arguments",
    "Verif.C102_position_refuted",
    "Verif.C102_position_partial",
    "Verif.C102_edges_list_refuted",
    "Verif.C102_of_histogram"
   ],
   "note": "Lookup by quantity and by class is proved for all lists of axes. Positions count in the order group axes, fixed axes, profiles; refuted for other orders of the constructor arguments. A split axis is not found by the list of edges with which it was made, because its edges are a tuple. Null axes are not modelled."
  },
  {
   "property": "C103",
   "status": "partial",
   "theorems": [
    "Verif.C103_listing",
    "Verif.C103_options",
    "Verif.C103_books_first",
    "Verif.C103_methods",
    "Verif.C103_default_refuted"
   ],
   "note": "Proved for all books whose names are distinct and without slash, which are those that can be built (C57_built). Refuted: the documented default recursive=True."
  },
  {
   "property": "C104",
   "status": "partial",
   "theorems": [
    "Verif.C104_rounding",
    "Verif.C104_right_partial",
    "Verif.C104_order",
    "Verif.C104_low",
    "Verif.C104_below_partial",
    "Verif.C104_edges",
    "Verif.C104_special",
    "Verif.C104_no_width",
    "Verif.C104_edge_refuted",
    "Verif.C104_high_refuted",
    "Verif.C104_gap_refuted",
    "Verif.C104_below_refuted"
   ],
   "note": "Doubles are rationals rounded to nearest, ties to even (C104_rounding), without overflow to infinity and without signed zeros. Proved for numbers further from all published edges than 2^-48 of the largest number involved. Refuted at the edges: 0.29 on bin(\"x\", 100, 0, 1) is in the bin before the one that begins with it, 49 on bin(\"x\", 1, 0, 49) is not in the overflow bin, published bins can overlap or leave a gap at `high`, and -1e-300 on bin(\"x\", 1, 0, 1e300) is in the first bin. The split axis only compares, so that C03 holds for doubles as it stands."
  },
  {
   "property": "C105",
   "status": "partial",
   "theorems": [
    "Verif.C105_order",
    "Verif.C105_same_key_partial",
    "Verif.C105_interval_partial",
    "Verif.C105_refuted_nan_interval",
    "Verif.C105_special",
    "Verif.C105_interval_refuted"
   ],
   "note": "Refuted at the ends of intervals: 0.3 on groupbin(\"x\", 0.1) gets an interval that begins above 0.3; 2.01 on groupbin(\"x\", 0.01) gets the interval that ends there."
  },
  {
   "property": "C106",
   "status": "partial",
   "theorems": [
    "Verif.C106_counts_saturate",
    "Verif.C106_counts_refuted_always",
    "Verif.C106_batches",
    "Verif.C106_counts_partial",
    "Verif.C106_merge_counts",
    "Verif.C106_weights_partial",
    "Verif.C106_integer_weights",
    "Verif.C106_counts_refuted",
    "Verif.C106_order_refuted"
   ],
   "note": "For histograms with one bin axis; groups do the same with their own rows. Without weights, proved for any number of entries: a bin holds the number of its values or 2^53, whichever is smaller, so a count is refuted exactly beyond 2^53 (C106_counts_refuted_always). Refuted: the order of weighted entries and the way of merging change the last bit."
  },
  {
   "property": "C107",
   "status": "partial",
   "theorems": [
    "Verif.C107_binwidth_partial",
    "Verif.C107_binwidth_refuted",
    "Verif.C107_no_bins"
   ],
   "note": "Proved within nine roundings, with at most three corrections. Refuted: binwidth of bin(\"x\", 10, 0, 10) is 0.9999999999999999 although its bins are 1 wide."
  },
  {
   "property": "C108",
   "status": "partial",
   "theorems": [
    "Verif.C108_accepts_partial",
    "Verif.C108_refuses_partial",
    "Verif.C108_below_partial",
    "Verif.C108_from_partial",
    "Verif.C108_edge_refuted"
   ],
   "note": "Proved for tolerances that exceed the distance from the edge by 2^-48 of the largest number involved, and for data further from the edges than 2^-47 of it. Refuted with the default tolerance 1e-12, which does not grow with the numbers: the published edge 31000.000000000004 of bin(\"x\", 60, 0, 60000) is refused."
  },
  {
   "property": "C109",
   "status": "partial",
   "theorems": [
    "Verif.C109_alone",
    "Verif.C109_combined",
    "Verif.C109_settings_partial",
    "Verif.C109_refuted_nested",
    "Verif.C109_arrangement",
    "Verif.C109_grid",
    "Verif.C109_unknown"
   ],
   "note": "Sizes and titles proved for all combinations; in a combination they are repeated on every layer of a plot with error bars. Settings proved where combinations inside other combinations have none of their own; refuted otherwise: the `config` of an inner combination is silently dropped."
  },
  {
   "property": "C110",
   "status": "partial",
   "theorems": [
    "Verif.C110_one_partial",
    "Verif.C110_heatmap",
    "Verif.C110_once",
    "Verif.C110_heatmap_colors",
    "Verif.C110_refuted_order",
    "Verif.C110_refuted_shape"
   ],
   "note": "Proved what every channel gets, for all chains and options. Refuted: a `colorscale` discards the order of the colours of a stack or overlay, and `shapescale` never has an effect since no plot has shapes."
  },
  {
   "property": "C111",
   "status": "partial",
   "theorems": [
    "Verif.C111_chain_partial",
    "Verif.C111_refuted_options",
    "Verif.C111_options_shown"
   ],
   "note": "Proved for chains whose last channel has a single axis and no options, with the restrictions of C96; an order of a stack is a tuple of texts. Refuted for every option of the last channel and for every heatmap: the arguments are joined without commas."
  },
  {
   "property": "C112",
   "status": "partial",
   "theorems": [
    "Verif.C112_table_partial",
    "Verif.C112_fraction_partial",
    "Verif.C112_levels_partial",
    "Verif.C112_refuted_levels",
    "Verif.C112_refuted_twice",
    "Verif.C112_refuted_digits"
   ],
   "note": "Proved for any histogram after any fills wherever the names are different; errors are squared as in C45 and C47 (square roots are not modelled); the texts of expressions and of confidence levels are parameters. Refuted: the same profile asked for twice raises ValueError if there is content (C112_refuted_twice), so do two confidence levels that agree to six digits (C112_refuted_digits); in the frame of a histogram with group axes that is not filled, only the first level has a name (C112_refuted_levels)."
  },
  {
   "property": "C113",
   "status": "partial",
   "theorems": [
    "Verif.C113_fair_partial",
    "Verif.C113_functions",
    "Verif.C113_written_partial",
    "Verif.C113_numeric_partial",
    "Verif.C113_refuted_flags",
    "Verif.C113_refuted_difference",
    "Verif.C113_refuted_names",
    "Verif.C113_refuted_square"
   ],
   "note": "Proved for any accepted expression whose sums, after like terms are collected, have at most one boolean term on each side and are not one boolean minus another (a decidable condition on the parsed expression): the value is the one with 0 and 1, and the result is boolean exactly for fields, comparisons, isnan and the like and their products; which functions give booleans is stated separately as NumPy documents them (C113_functions); expressions without booleans are computed as in C52. Refuted: a sum of any two or more different boolean fields is computed to whether any is set (C113_refuted_flags), any difference of two raises TypeError (C113_refuted_difference), the result depends on the names of the fields (C113_refuted_names), and a flag plus its square is the flag (C113_refuted_square). Functions other than add, subtract and multiply see booleans as 0 and 1 (16-bit results and refusals of single functions are not modelled)."
  },
  {
   "property": "C114",
   "status": "partial",
   "theorems": [
    "Verif.C114_refused_partial",
    "Verif.C114_condition_partial",
    "Verif.C114_argument",
    "Verif.C114_refuted_difference",
    "Verif.C114_refuted_cancel",
    "Verif.C114_refuted_keywords"
   ],
   "note": "Proved: when the value of the written arithmetic or condition depends on its unsupported parts (with the same value for all of them) on some row, the histogram is refused with an AssertionError (C114_refused_partial for sums, differences, functions and quotients as in C48, C114_condition_partial for conditions as in C50); on its own or as an argument of a function an unsupported part is always refused (C114_argument). Refuted: any two unsupported parts count as the same, so that x[0] - x[1] is accepted as 0, x[0]/x[1] as 1, and x[0] - x[1] vanishes from any sum (C114_refuted_difference, C114_refuted_cancel); keyword arguments are never looked at (C114_refuted_keywords). Which exception comes first when two unsupported parts are multiplied is simplified."
  },
  {
   "property": "C115",
   "status": "partial",
   "theorems": [
    "Verif.C115_select_partial",
    "Verif.C115_not_nan_partial",
    "Verif.C115_rebin",
    "Verif.C115_rebin_intbin",
    "Verif.C115_project_partial",
    "Verif.C115_refuted_cut",
    "Verif.C115_refuted_group",
    "Verif.C115_refuted_groupbin",
    "Verif.C115_drop_partial",
    "Verif.C115_refuted_profile"
   ],
   "note": "Proved for selections on bin, intbin and split axes with a number, on bin and split axes with NaN and infinities, for rebinning, for dropping all profiles, and for projections up to the later rows without a bin on a removed axis. Refuted in general for selections on cut, groupby and groupbin axes: later rows that fail the condition are counted after all (exactly those). Refuted with profiles: filling a selection with a row that fails raises. Not covered: tolerances larger than half a bin, on groupbin axes thresholds that are no edges."
  },
  {
   "property": "C116",
   "status": "partial",
   "theorems": [
    "Verif.C116_independent_partial",
    "Verif.C116_arrays_partial",
    "Verif.C116_select_partial",
    "Verif.C116_rebin_partial",
    "Verif.C116_drop_partial",
    "Verif.C116_refuted_group",
    "Verif.C116_refuted"
   ],
   "note": "Proved for selections on axes that are not group axes, for rebin and drop (object by object), and for project given that numpy.sum and + make new arrays. Refuted for selections on group axes: the selection puts the same arrays into a new dict (proj.py:469), so the original and the selection show the same numbers in every selected group after any sequence of fills of any histograms (unless the original was made with copyonfill)."
  },
  {
   "property": "C117",
   "status": "partial",
   "theorems": [
    "Verif.C117_label",
    "Verif.C117_contains",
    "Verif.C117_number",
    "Verif.C117_same",
    "Verif.C117_bins_partial",
    "Verif.C117_from_zero",
    "Verif.C117_groupbin_partial",
    "Verif.C117_refuted_narrow",
    "Verif.C117_refuted",
    "Verif.C117_cells_partial"
   ],
   "note": "Format g is modelled with all its cases (six digits, ties to even, exponents, trailing zeros), and read back by a separate reader of decimal notation. Proved: the number read from a label is within 5 millionths of the edge, for all numbers, and in order; two edges are written alike exactly if they agree in six digits; a whole label is read as the interval with both edges in order and the same ends closed (C117_label), which has every number of its bin in it (C117_contains); all labels of an axis are different if its bins are wider than 1/100000 of its largest edge (always for fewer than 100000 bins from zero). Refuted otherwise: of any four bins within one unit of the sixth digit two have the same label; four hours at a time stamp of 1.5e9 drawn beside each other are put into three pictures. Numbers are exact, negative zero is not modelled; keys of groupby axes are written by a parameter."
  },
  {
   "property": "C118",
   "status": "partial",
   "theorems": [
    "Verif.C118_table",
    "Verif.C118_mean_partial",
    "Verif.C118_error_partial",
    "Verif.C118_single",
    "Verif.C118_same_integer",
    "Verif.C118_refuted_nan",
    "Verif.C118_refuted_lost",
    "Verif.C118_root_partial",
    "Verif.C118_weighted_mean_partial",
    "Verif.C118_weighted_effcount_partial",
    "Verif.C118_weighted_error_partial",
    "Verif.C118_weighted_table",
    "Verif.C118_weighted_refuted_outside",
    "Verif.C118_weighted_ones",
    "Verif.C118_weighted_refuted_ones"
   ],
   "note": "Every operation is rounded to nearest even (no overflow). Proved for histograms without weights: what is computed per bin for any batches; the mean is within 2(n+1)/2^53 of the mean size; the square of the error is within (6n+16)/2^53 of the mean square over n; NaN occurs only if the variance is less than (6n+14)/2^53 of the mean square; exact for one entry and for equal integers. Refuted otherwise: three entries of 0.1 give an error of NaN and a mean above 0.1; 100000000 and 100000001 give the error zero. With the root taken (C134) the square is within (6n+19)/2^53 of it (C118_root_partial). With weights (values zero or at least 2^-100 in size, weights between 2^-100 and 2^100, at most 2^30 entries): what the table computes per bin for any batches (C118_weighted_table), the mean within (5n+4)/2^53 of the weighted mean size, the effective number of entries within (7n+6)/2^53 of itself, the square of the error within (24n+27)/2^53 of the mean square over that number (C118_weighted_*_partial). Weights of one give exactly what no weights give up to 94906265 entries; 94906267 of them count as a little less (C118_weighted_refuted_ones). With weights and profiles, filling raises if a row is in no bin (C118_weighted_refuted_outside)."
  },
  {
   "property": "C119",
   "status": "proved",
   "theorems": [
    "Verif.C119_range",
    "Verif.C119_counts",
    "Verif.C119_weights",
    "Verif.C119_refuted_negative"
   ],
   "note": "Every operation is rounded to nearest even, one batch, sums from left to right (numpy sums eight or more neighbouring cells, i.e. three or more cuts, in a blocked order), no overflow; the error is that of the method normal, before the root. With a negative weight the claim fails: a fraction of 2 with an error of NaN (C119_refuted_negative)."
  },
  {
   "property": "C120",
   "status": "partial",
   "theorems": [
    "Verif.C120_qualified_partial",
    "Verif.C120_dotted",
    "Verif.C120_bare",
    "Verif.C120_bare_function_partial",
    "Verif.C120_refuted_table",
    "Verif.C120_bare_math",
    "Verif.C120_refuted_unknown",
    "Verif.C120_refuted_np",
    "Verif.C120_refuted_attribute",
    "Verif.C120_refuted_fmod"
   ],
   "note": "Over an abstract Python (objects, globals of expr.py, attributes). Proved: exactly the names of the table are accepted without a module, each meaning itself, any other is an ExpressionError; every reference to a listed function of math or NumPy is accepted and applies the function of NumPy that it is by the documentations (a separate table), except fmod and round. Refuted: fmod in all three spellings gives the rest of division rounded down; a function after a dot that is not listed is an AttributeError; math's own names such as acos are refused without the module (C120_bare_math, by design of the table)."
  },
  {
   "property": "C121",
   "status": "partial",
   "theorems": [
    "Verif.C121_edges",
    "Verif.C121_counts_partial",
    "Verif.C121_refuted_edge",
    "Verif.C121_refuted_value",
    "Verif.C121_weights_partial"
   ],
   "note": "Every operation is rounded to nearest even, one axis. Proved for values that are further from every published edge than 2^-48 of the largest number involved. False on the edges: bin(\"x\", 100, 0, 1) rebinned to [0, 0.29, 1] has the value 0.29 in the first bin, split(\"x\", [0, 0.29, 1]) in the second (C121_refuted_value); and the edge 0.3 of bin(\"x\", 30, 0, 3) is refused (C121_refuted_edge). With weights each new bin has the sum of the weights of its values up to (1+2^-53)^(n+m)-1 of the sum of their sizes (C121_weights_partial). Missing: several axes in double precision."
  },
  {
   "property": "C122",
   "status": "proved",
   "theorems": [
    "Verif.C122_any_order",
    "Verif.C122_counts",
    "Verif.C122_same",
    "Verif.C122_laws",
    "Verif.C122_grows",
    "Verif.C122_refuted_assoc",
    "Verif.C122_refuted_cancel"
   ],
   "note": "Every addition is rounded to nearest even, no overflow, one axis. Addition of weighted histograms is not associative (C122_refuted_assoc), and with weights of both signs the rounding can be all of the content (C122_refuted_cancel); the claim therefore bounds the difference by the sizes of the weights."
  },
  {
   "property": "C123",
   "status": "partial",
   "theorems": [
    "Verif.C123_uniform_partial",
    "Verif.C123_order_partial",
    "Verif.C123_product_partial",
    "Verif.C123_logical_partial",
    "Verif.C123_refuted_equal_less",
    "Verif.C123_refuted_cycle",
    "Verif.C123_refuted_product",
    "Verif.C123_refuted_sets"
   ],
   "note": "Proved for expressions in which all numbers have one type and of two sets one contains the other: then == is identity, < is a strict total order, and sorting does not depend on the writing. False otherwise: 1 == 1.0 while 1.0 < 1 (C123_refuted_equal_less), so that x > 1, y > 1.0, z > 0 form a cycle (C123_refuted_cycle); atan2(1, a)*atan2(1.0, b)*atan2(0, c) and atan2(1.0, b)*atan2(0, c)*atan2(1, a) are parsed into different expressions (C123_refuted_product); the order of x in {1} or x in {2} is that in which Python goes through a set (C123_refuted_sets). C51 has one type of number and does not see this. Sorting is that of CPython for less than 64 elements; products are of single factors."
  },
  {
   "property": "C124",
   "status": "partial",
   "theorems": [
    "Verif.C124_wraps_partial",
    "Verif.C124_exact_partial",
    "Verif.C124_refuted_quotient",
    "Verif.C124_refuted_collected",
    "Verif.C124_refuted_unsigned",
    "Verif.C124_intbin_partial",
    "Verif.C124_intbin_overflow",
    "Verif.C124_refuted_intbin",
    "Verif.C124_refuted_unsigned_axis"
   ],
   "note": "Proved for sums, differences and products of integer columns: the computed value is the written integer modulo the type, hence exact if it fits, provided that the collected constants of the expression fit the type (C124_wraps_partial, C124_exact_partial). intbin is right if the offset and the shifted value belong to the type and int32 (C124_intbin_partial). False otherwise: x/z*y is computed as (x*y)/z, which overflows (C124_refuted_quotient); 100*w + 100*w collects to 200, which does not fit one byte, and x - 5 becomes the addition of -5, which unsigned columns refuse (C124_refuted_collected, C124_refuted_unsigned; NumPy 2, while NumPy 1 takes a wider type); every value of a signed column whose shift overflows is counted as underflow or not at all (C124_intbin_overflow), e.g. 127 in intbin(0, 200) (C124_refuted_intbin); unsigned columns raise for an intbin starting above its first bin's shift (C124_refuted_unsigned_axis). All columns have one type; products with two constant terms (C48) and powers are left out."
  },
  {
   "property": "C125",
   "status": "partial",
   "theorems": [
    "Verif.C125_float_partial",
    "Verif.C125_fits_partial",
    "Verif.C125_one_type_partial",
    "Verif.C125_refuted",
    "Verif.C125_refuted_inner",
    "Verif.C125_first"
   ],
   "note": "Proved for floating point columns (C125_float_partial), for integer columns when nothing overflows (C125_fits_partial), and for all columns when no number is written with both types (C125_one_type_partial). False for integer columns: for the byte 127, x + 1.0 gives 128 alone and -128 in a pass in which x + 1 comes first (C125_refuted, C125_refuted_inner, C125_first); goals are kept in sets, so which one comes first can depend on the hash seed. Boolean, text, tuple and set constants are left out; the pass itself is C53."
  },
  {
   "property": "C126",
   "status": "partial",
   "theorems": [
    "Verif.C126_text_partial",
    "Verif.C126_names_partial",
    "Verif.C126_distinct_partial",
    "Verif.C126_message_partial",
    "Verif.C126_same_partial",
    "Verif.C126_modern_partial",
    "Verif.C126_refuted_literal",
    "Verif.C126_refuted_lambda",
    "Verif.C126_number",
    "Verif.C126_tree"
   ],
   "note": "Proved before Python 3.8 for every refused expression (C126_message_partial) and for every syntax tree of the modelled kinds (C126_text_partial, C126_distinct_partial), by reading the text with the grammar and the precedences of Python; since Python 3.8 for parts without literals (C126_names_partial, C126_modern_partial); what is accepted and the other exceptions do not depend on the version (C126_same_partial). False since Python 3.8 where the quoted part has a literal: the unparser has no method for ast.Constant, and the user gets an AttributeError in place of the ExpressionError (C126_refuted_literal; setup.py names 2.7 to 3.7 only); and for lambdas with positional-only parameters, which are left out of the text (C126_refuted_lambda). Missing: comprehensions, starred elements, slices, f-strings, default values of lambdas; the spelling of tokens is not modelled."
  },
  {
   "property": "C127",
   "status": "partial",
   "theorems": [
    "Verif.C127_select",
    "Verif.C127_cut",
    "Verif.C127_rebin",
    "Verif.C127_drop",
    "Verif.C127_multiples",
    "Verif.C127_groups",
    "Verif.C127_project_partial",
    "Verif.C127_project_fixed",
    "Verif.C127_project_multiple_partial",
    "Verif.C127_refuted_project"
   ],
   "note": "Proved for selections of bins (C127_select, C127_cut), of groups (C127_groups, both directions), for rebin (C127_rebin), drop (C127_drop), for multiples (C127_multiples) and for projections to fixed axes (C127_project_fixed); for projections of group axes if each content has 2, 4, 8, ... keys on them (C127_project_partial, C127_project_multiple_partial). False for projections of group axes in general, because of the defect of C32: two histograms with two groups each are projected correctly and their sum with three groups is not (C127_refuted_project). Exact arithmetic."
  },
  {
   "property": "C128",
   "status": "partial",
   "theorems": [
    "Verif.C128_select_select",
    "Verif.C128_select_rebin",
    "Verif.C128_rebin_rebin",
    "Verif.C128_drop_select",
    "Verif.C128_group_select",
    "Verif.C128_group_rebin",
    "Verif.C128_groups_partial",
    "Verif.C128_refuted_groups",
    "Verif.C128_range",
    "Verif.C128_refuted_flow",
    "Verif.C128_project_group_partial",
    "Verif.C128_project_group_fixed",
    "Verif.C128_project_select_partial",
    "Verif.C128_project_rebin_partial",
    "Verif.C128_project_fixed",
    "Verif.C128_project_refused",
    "Verif.C128_project_group_refused_partial"
   ],
   "note": "Proved for select and rebin on different fixed axes in all combinations (C128_select_select, C128_select_rebin, C128_rebin_rebin), for drop (C128_drop_select), for a selection of groups with select or rebin on a fixed axis, exceptions included (C128_group_select, C128_group_rebin), for two selections of groups that both work by themselves (C128_groups_partial), and for the two ends of a range on a bin axis, with the result spelled out (C128_range). False if one of two selections of groups raises an exception by itself (C128_refuted_groups), and for two selections on one bin axis if the first leaves only the overflow: every further one raises ZeroDivisionError (C128_refuted_flow). A projection and a selection or rebin on a fixed axis that is kept can be exchanged if all group axes are kept (C128_project_fixed), and otherwise if the group axes projected away have 2, 4, 8, ... keys (C128_project_select_partial, C128_project_rebin_partial). The same holds for a projection and a selection of groups on a group axis that is kept (C128_project_group_partial, C128_project_group_fixed). A selection or rebin on a kept fixed axis is refused before and after the projection with the same exception (C128_project_refused). A selection of groups on a kept axis is refused if and only if it is refused after the projection (C128_project_group_refused_partial; not for keys without bins, and without the kind of exception). Exact arithmetic."
  },
  {
   "property": "C129",
   "status": "partial",
   "theorems": [
    "Verif.C129_fixed",
    "Verif.C129_group",
    "Verif.C129_table_partial",
    "Verif.C129_refuted_nan",
    "Verif.C129_refuted_infinite",
    "Verif.C129_normalized_partial",
    "Verif.C129_group_order"
   ],
   "note": "Proved for the items of one axis: fixed axes (C129_fixed, with the rejection) and group axes (C129_group: all groups once in the order of their keys, with the interval of each, and exactly which dicts raise TypeError); and for nested loops over the tables of all histograms whose values on groupbin axes are finite and whose groupby keys can be compared (C129_table_partial; infinite values and NaN on other axes included, unlike C72). False for NaN on groupbin axes, whose key is a text that no number can be added to (C129_refuted_nan), and for infinite values on groupbin axes, whose label is the empty interval [inf, inf) (C129_refuted_infinite). Normalized tables as far as C46 allows them (C129_normalized_partial: no group axes, split axes last)."
  },
  {
   "property": "C130",
   "status": "partial",
   "theorems": [
    "Verif.C130_refuted_intbin_below",
    "Verif.C130_refuted_intbin_above",
    "Verif.C130_fixed_partial",
    "Verif.C130_refused_partial",
    "Verif.C130_refuted_intbin",
    "Verif.C130_cut",
    "Verif.C130_groups",
    "Verif.C130_refuted_nan"
   ],
   "note": "Proved for bin, split and intbin axes if both selections are accepted (C130_fixed_partial; the tolerance is at most half a bin), for bin and split axes if only one is (C130_refused_partial: the other raises ValueError and the first has all the entries), for cut axes (C130_cut) and for a comparison of a group axis (C130_groups). False for intbin axes: `n >= min` is accepted, `n < min` is refused, and the entries of the underflow bin are in neither, whatever the content, and likewise above (C130_refuted_intbin_below, C130_refuted_intbin_above). Inequalities with NaN are false together with their opposites (C130_refuted_nan)."
  },
  {
   "property": "C131",
   "status": "partial",
   "theorems": [
    "Verif.C131_bin_partial",
    "Verif.C131_split",
    "Verif.C131_not_nan",
    "Verif.C131_intbin_partial",
    "Verif.C131_refuted_intbin",
    "Verif.C131_refuted_flow",
    "Verif.C131_groups",
    "Verif.C131_refuted_cut"
   ],
   "note": "Proved for split axes (C131_split), for bin axes if the selection left an ordinary bin (C131_bin_partial; the tolerance is at most half a bin), for `!= nan` (C131_not_nan), for `<=` and `>=` on intbin axes (C131_intbin_partial), and for all conditions about group axes (C131_groups). False for `<` and `>` on intbin axes, where the second selection always raises ValueError (C131_refuted_intbin); for selections on bin axes that leave a flow bin only, where it raises ZeroDivisionError (C131_refuted_flow); and for cut axes, which are removed (C131_refuted_cut)."
  },
  {
   "property": "C132",
   "status": "proved",
   "theorems": [
    "Verif.C132_steps",
    "Verif.C132_same",
    "Verif.C132_total",
    "Verif.C132_lost"
   ],
   "note": "C132_steps, C132_same and C132_total, each for all rebinnable axes (bin, intbin and split; a split axis with sorted edges, as its constructor makes them) and all contents. C132_lost shows that the condition in C132_total is needed: an axis without an underflow bin loses what lies below the new first edge."
  },
  {
   "property": "C133",
   "status": "partial",
   "theorems": [
    "Verif.C133_refuted_profile_bin",
    "Verif.C133_fill_partial",
    "Verif.C133_refuted_integer",
    "Verif.C133_refuted_groups",
    "Verif.C133_refuted_weights",
    "Verif.C133_refuted_profile"
   ],
   "note": "Proved for nulls on bin, split and cut axes and for missing weights next to others that are given, with all combinations and any order of the results (C133_fill_partial; conditions as in C71). False for profiles: a missing value counts as zero in the mean (C133_refuted_profile; in general by C133_fill_partial). False for intbin axes, where a missing value is counted as the largest integer (C133_refuted_integer), for group axes, where filling raises (C133_refuted_groups: always; AttributeError in the example), and for bins in which all weights are missing, where filling raises (C133_refuted_weights; TypeError in the example), or all values of a profiled quantity (C133_refuted_profile_bin). Nulls inside expressions are not modelled: the values of the axes are given as in C71."
  },
  {
   "property": "C134",
   "status": "partial",
   "theorems": [
    "Verif.C134_root",
    "Verif.C134_counts",
    "Verif.C134_more",
    "Verif.C134_table",
    "Verif.C134_weights_partial",
    "Verif.C134_grows",
    "Verif.C134_ones",
    "Verif.C134_refuted_small"
   ],
   "note": "numpy.sqrt is modelled as the root to 53 bits, rounded to nearest, and proved to be the nearest double (C134_root; the definition of nearest does not mention the model). Without weights the table shows the number and the nearest double to its root for up to 2^53 rows in any batches (C134_counts, C134_more). With weights it is the nearest double to the root of the rounded sum of rounded squares for all batches (C134_table), whose square is within (2n+5)/2^53 of the exact sum of squares for weights between 2^-200 and 2^200 or zero and up to 2^30 entries (C134_weights_partial); further rows never make it smaller, whatever the weights (C134_grows), and the weight 1 is like no weight (C134_ones). False for small weights: two entries of weight 2^-600 have the error zero (C134_refuted_small). Overflow of the sums is not modelled."
  },
  {
   "property": "C135",
   "status": "partial",
   "theorems": [
    "Verif.C135_unchanged_partial",
    "Verif.C135_own_groups_partial",
    "Verif.C135_same_columns",
    "Verif.C135_refuted",
    "Verif.C135_refuted_after_sum"
   ],
   "note": "Violated by the code with two group axes (C135_refuted) and with one group axis if a is itself a sum of a weighted and an unweighted histogram (C135_refuted_after_sum): groups before the one that raises have been added. With at most one group axis, any other axes, profiles, weights and fills, nothing has changed (C135_unchanged_partial); with any number of group axes the groups that a had keep their numbers, and what has been added are groups of b that a had not (C135_own_groups_partial); with the same columns nothing raises (C135_same_columns). That the axes are the same is by typing; else TypeError is raised before anything is added."
  }
 ]
}