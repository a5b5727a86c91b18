{
 "claims": [
  {
   "property": "C01",
   "status": "proved",
   "theorems": [
    "Stl4go.C01_lowerBoundFunc_partition",
    "Stl4go.C01_lowerBound_partition"
   ],
   "note": ""
  },
  {
   "property": "C02",
   "status": "proved",
   "theorems": [
    "Stl4go.C02_upperBoundFunc_partition",
    "Stl4go.C02_upperBound_partition"
   ],
   "note": ""
  },
  {
   "property": "C03",
   "status": "proved",
   "theorems": [
    "Stl4go.C03_binarySearchFunc",
    "Stl4go.C03_binarySearch"
   ],
   "note": ""
  },
  {
   "property": "C04",
   "status": "proved",
   "theorems": [
    "Stl4go.C04_bounds_total",
    "Stl4go.C04_ordered_bounds_total",
    "Stl4go.C04_search_total",
    "Stl4go.C04_ordered_search_total"
   ],
   "note": ""
  },
  {
   "property": "C05",
   "status": "proved",
   "theorems": [
    "Stl4go.C05_lowerBound_cost",
    "Stl4go.C05_upperBound_cost",
    "Stl4go.C05_ordered_same_loop",
    "Stl4go.C05_calls",
    "Stl4go.C05_counter"
   ],
   "note": ""
  },
  {
   "property": "C06",
   "status": "proved",
   "theorems": [
    "Stl4go.C06_equal_range"
   ],
   "note": ""
  },
  {
   "property": "C07",
   "status": "proved",
   "theorems": [
    "Stl4go.C07_makeHeapFunc",
    "Stl4go.C07_makeMinHeap"
   ],
   "note": ""
  },
  {
   "property": "C08",
   "status": "proved",
   "theorems": [
    "Stl4go.C08_isMinHeap_iff",
    "Stl4go.C08_isMinHeap_root",
    "Stl4go.C08_isMinHeap_makeMinHeap"
   ],
   "note": ""
  },
  {
   "property": "C09",
   "status": "partial",
   "theorems": [
    "Stl4go.C09_counterexample",
    "Stl4go.C09_isHeapFunc_partial"
   ],
   "note": "False of the code: IsHeapFunc tests !less(parent,child) and rejects heaps with equivalent neighbours (C09_counterexample, witness [1,1]). C09_isHeapFunc_partial proves soundness, the exact characterisation of the answer, and completeness when no element is equivalent to its parent."
  },
  {
   "property": "C10",
   "status": "proved",
   "theorems": [
    "Stl4go.C10_pushHeapFunc",
    "Stl4go.C10_pushMinHeap"
   ],
   "note": ""
  },
  {
   "property": "C11",
   "status": "proved",
   "theorems": [
    "Stl4go.C11_popHeapFunc",
    "Stl4go.C11_popMinHeap",
    "Stl4go.C11_pop_empty"
   ],
   "note": ""
  },
  {
   "property": "C12",
   "status": "proved",
   "theorems": [
    "Stl4go.C12_removeHeapFunc",
    "Stl4go.C12_removeMinHeap",
    "Stl4go.C12_remove_panic"
   ],
   "note": ""
  },
  {
   "property": "C13",
   "status": "proved",
   "theorems": [
    "Stl4go.C13_wrapping_sift_down"
   ],
   "note": ""
  },
  {
   "property": "C14",
   "status": "proved",
   "theorems": [
    "Stl4go.C14_calls",
    "Stl4go.C14_counter",
    "Stl4go.C14_push_cost",
    "Stl4go.C14_pop_cost",
    "Stl4go.C14_remove_cost",
    "Stl4go.C14_make_cost"
   ],
   "note": ""
  },
  {
   "property": "C15",
   "status": "proved",
   "theorems": [
    "Stl4go.C15_newPriorityQueueFunc",
    "Stl4go.C15_newPriorityQueue",
    "Stl4go.C15_newPriorityQueueOn",
    "Stl4go.C15_panic_iff_empty"
   ],
   "note": ""
  },
  {
   "property": "C16",
   "status": "proved",
   "theorems": [
    "Stl4go.C16_drain_sorts"
   ],
   "note": ""
  },
  {
   "property": "C17",
   "status": "proved",
   "theorems": [
    "Stl4go.C17_history",
    "Stl4go.C17_spec_is_map"
   ],
   "note": ""
  },
  {
   "property": "C18",
   "status": "proved",
   "theorems": [
    "Stl4go.C18_iterate",
    "Stl4go.C18_iterate_find",
    "Stl4go.C18_forEach",
    "Stl4go.C18_forEach_record"
   ],
   "note": ""
  },
  {
   "property": "C19",
   "status": "proved",
   "theorems": [
    "Stl4go.C19_bounds"
   ],
   "note": ""
  },
  {
   "property": "C20",
   "status": "partial",
   "theorems": [
    "Stl4go.C20_counterexample",
    "Stl4go.C20_findRange_partial"
   ],
   "note": "False of the code: the end iterator is upperBound(last), so a key equal to last is yielded (C20_counterexample). C20_findRange_partial: for first<=last the iteration is exactly first<=key<=last, which is [first,last) when last is not a key."
  },
  {
   "property": "C21",
   "status": "partial",
   "theorems": [
    "Stl4go.C21_counterexample",
    "Stl4go.C21_findRange_partial"
   ],
   "note": "False of the code: FindRange(first,last) with a key strictly between last and first runs past the end and dereferences nil (C21_counterexample). C21_findRange_partial: it panics exactly then, never hangs, and never panics for first<=last."
  },
  {
   "property": "C22",
   "status": "proved",
   "theorems": [
    "Stl4go.C22_total"
   ],
   "note": ""
  },
  {
   "property": "C23",
   "status": "proved",
   "theorems": [
    "Stl4go.C23_randomLevel"
   ],
   "note": ""
  },
  {
   "property": "C24",
   "status": "proved",
   "theorems": [
    "Stl4go.C24_func_eq_ordered"
   ],
   "note": ""
  },
  {
   "property": "C25",
   "status": "proved",
   "theorems": [
    "Stl4go.C25_fromMap",
    "Stl4go.C25_order_independent"
   ],
   "note": ""
  },
  {
   "property": "C26",
   "status": "proved",
   "theorems": [
    "Stl4go.C26_find",
    "Stl4go.C26_write",
    "Stl4go.C26_stable"
   ],
   "note": ""
  },
  {
   "property": "C27",
   "status": "proved",
   "theorems": [
    "Stl4go.C27_forEachIf",
    "Stl4go.C27_forEachMutable",
    "Stl4go.C27_forEachMutableIf"
   ],
   "note": ""
  },
  {
   "property": "C28",
   "status": "proved",
   "theorems": [
    "Stl4go.C28_sweep",
    "Stl4go.C28_remove_all"
   ],
   "note": ""
  },
  {
   "property": "C29",
   "status": "proved",
   "theorems": [
    "Stl4go.C29_clear"
   ],
   "note": ""
  },
  {
   "property": "C30",
   "status": "partial",
   "theorems": [
    "Stl4go.C30_counterexample",
    "Stl4go.C30_counterexample_hides",
    "Stl4go.C30_insert_has_partial"
   ],
   "note": "False for NaN keys (C30_counterexample; C30_counterexample_hides shows NaN also hides ordinary keys). C30_insert_has_partial proves it for every lawful order and compare function."
  },
  {
   "property": "C31",
   "status": "proved",
   "theorems": [
    "Stl4go.C31_history",
    "Stl4go.C31_setOf",
    "Stl4go.C31_sorted",
    "Stl4go.C31_spec_is_set",
    "Stl4go.C31_forEach",
    "Stl4go.C31_forEachIf"
   ],
   "note": ""
  },
  {
   "property": "C32",
   "status": "partial",
   "theorems": [
    "Stl4go.C32_bounds",
    "Stl4go.C32_counterexample",
    "Stl4go.C32_findRange_partial"
   ],
   "note": "LowerBound/UpperBound proved (C32_bounds). The FindRange half is false of the code: last is included (C32_counterexample). C32_findRange_partial gives the exact behaviour for all pairs, including when it panics."
  },
  {
   "property": "C33",
   "status": "proved",
   "theorems": [
    "Stl4go.C33_history",
    "Stl4go.C33_panics",
    "Stl4go.C33_panic_keeps"
   ],
   "note": ""
  },
  {
   "property": "C34",
   "status": "proved",
   "theorems": [
    "Stl4go.C34_visit",
    "Stl4go.C34_mutable",
    "Stl4go.C34_mutableIf",
    "Stl4go.C34_pointer"
   ],
   "note": ""
  },
  {
   "property": "C35",
   "status": "proved",
   "theorems": [
    "Stl4go.C35_independent",
    "Stl4go.C35_frame"
   ],
   "note": ""
  },
  {
   "property": "C36",
   "status": "proved",
   "theorems": [
    "Stl4go.C36_history",
    "Stl4go.C36_fifo"
   ],
   "note": ""
  },
  {
   "property": "C37",
   "status": "proved",
   "theorems": [
    "Stl4go.C37_history",
    "Stl4go.C37_panics"
   ],
   "note": ""
  },
  {
   "property": "C38",
   "status": "proved",
   "theorems": [
    "Stl4go.C38_reverse",
    "Stl4go.C38_ends",
    "Stl4go.C38_involutive",
    "Stl4go.C38_push_after"
   ],
   "note": ""
  },
  {
   "property": "C39",
   "status": "proved",
   "theorems": [
    "Stl4go.C39_visit",
    "Stl4go.C39_mutable"
   ],
   "note": ""
  },
  {
   "property": "C40",
   "status": "proved",
   "theorems": [
    "Stl4go.C40_history",
    "Stl4go.C40_history_from"
   ],
   "note": ""
  },
  {
   "property": "C41",
   "status": "proved",
   "theorems": [
    "Stl4go.C41_at",
    "Stl4go.C41_set",
    "Stl4go.C41_insert",
    "Stl4go.C41_remove",
    "Stl4go.C41_back"
   ],
   "note": ""
  },
  {
   "property": "C42",
   "status": "partial",
   "theorems": [
    "Stl4go.C42_counterexample",
    "Stl4go.C42_insert_partial",
    "Stl4go.C42_insert_inPlace",
    "Stl4go.C42_append"
   ],
   "note": "False of the code: an in-place Insert of a sub-slice of v that starts after position i reads it after the tail has moved (C42_counterexample: v=[1,2,3] cap 4, v.Insert(0, v[1:2]...) gives [1,1,2,3]). C42_insert_partial proves it for every other x (also overlapping); C42_insert_inPlace gives the exact effect for every x; C42_append shows Append is right for every x."
  },
  {
   "property": "C43",
   "status": "partial",
   "theorems": [
    "Stl4go.C43_counterexample",
    "Stl4go.C43_removeRange_partial",
    "Stl4go.C43_reversed"
   ],
   "note": "False of the code: RemoveRange(i,j) with j<i panics only after *v was lengthened (C43_counterexample: [1,2,3].RemoveRange(2,1) leaves [1,2,2,3]). C43_removeRange_partial: exact removal for valid ranges, a panic for all others, nothing changed unless 0<=j<i<=Cap, j<=Len; C43_reversed gives the contents left in that case."
  },
  {
   "property": "C44",
   "status": "proved",
   "theorems": [
    "Stl4go.C44_clean",
    "Stl4go.C44_clean_step"
   ],
   "note": ""
  },
  {
   "property": "C45",
   "status": "partial",
   "theorems": [
    "Stl4go.C45_reserve",
    "Stl4go.C45_counterexample",
    "Stl4go.C45_shrink_partial",
    "Stl4go.C45_observed_partial"
   ],
   "note": "Reserve proved in full (C45_reserve). Shrink to Cap()==Len() is false when the runtime rounds allocations up (C45_counterexample); C45_shrink_partial: contents kept, capacity is what append gives, equal to Len if the runtime does not round up. C45_observed_partial: the same seen through Cap and Len."
  },
  {
   "property": "C46",
   "status": "proved",
   "theorems": [
    "Stl4go.C46_frame",
    "Stl4go.C46_disjoint",
    "Stl4go.C46_independent",
    "Stl4go.C46_rest",
    "Stl4go.C46_append_moves"
   ],
   "note": ""
  },
  {
   "property": "C47",
   "status": "partial",
   "theorems": [
    "Stl4go.C47_counterexample",
    "Stl4go.C47_iterateRange_partial"
   ],
   "note": "False of the code: v[i:j] is bounded by the capacity, so IterateRange(i,j) with Len<j<=Cap yields slots beyond the end (C47_counterexample). C47_iterateRange_partial: exact elements and exact panic condition (0<=i<=j<=Cap)."
  },
  {
   "property": "C48",
   "status": "proved",
   "theorems": [
    "Stl4go.C48_iterate",
    "Stl4go.C48_iterate_update",
    "Stl4go.C48_forEach",
    "Stl4go.C48_forEachIf",
    "Stl4go.C48_forEachMutable",
    "Stl4go.C48_forEachMutableIf"
   ],
   "note": ""
  },
  {
   "property": "C49",
   "status": "proved",
   "theorems": [
    "Stl4go.C49_history",
    "Stl4go.C49_empty",
    "Stl4go.C49_rest",
    "Stl4go.C49_lifo"
   ],
   "note": ""
  },
  {
   "property": "C50",
   "status": "proved",
   "theorems": [
    "Stl4go.C50_copy",
    "Stl4go.C50_copyTo"
   ],
   "note": ""
  },
  {
   "property": "C51",
   "status": "proved",
   "theorems": [
    "Stl4go.C51_fill",
    "Stl4go.C51_fillZero",
    "Stl4go.C51_fillPattern",
    "Stl4go.C51_fillPattern_panics",
    "Stl4go.C51_fill_huge"
   ],
   "note": ""
  },
  {
   "property": "C52",
   "status": "proved",
   "theorems": [
    "Stl4go.C52_transform",
    "Stl4go.C52_transform_map",
    "Stl4go.C52_transformCopy",
    "Stl4go.C52_transformTo"
   ],
   "note": ""
  },
  {
   "property": "C53",
   "status": "partial",
   "theorems": [
    "Stl4go.C53_counterexample",
    "Stl4go.C53_transformTo_partial",
    "Stl4go.C53_overlap"
   ],
   "note": "False of the code: when b starts strictly inside a, TransformTo overwrites elements before reading them (C53_counterexample). C53_transformTo_partial proves it for every b that starts no later than a or not before a's end (any overlap otherwise); C53_overlap gives the exact results for the remaining b: op gets its own earlier result wherever that was written over an element."
  },
  {
   "property": "C54",
   "status": "proved",
   "theorems": [
    "Stl4go.C54_replace",
    "Stl4go.C54_replaceIf"
   ],
   "note": ""
  },
  {
   "property": "C55",
   "status": "proved",
   "theorems": [
    "Stl4go.C55_unique",
    "Stl4go.C55_uniqueCopy",
    "Stl4go.C55_sorted"
   ],
   "note": ""
  },
  {
   "property": "C56",
   "status": "proved",
   "theorems": [
    "Stl4go.C56_remove",
    "Stl4go.C56_removeCopy",
    "Stl4go.C56_removeIf",
    "Stl4go.C56_removeIf_filter",
    "Stl4go.C56_removeIfCopy"
   ],
   "note": ""
  },
  {
   "property": "C57",
   "status": "proved",
   "theorems": [
    "Stl4go.C57_reverse",
    "Stl4go.C57_involution",
    "Stl4go.C57_reverseCopy"
   ],
   "note": ""
  },
  {
   "property": "C58",
   "status": "proved",
   "theorems": [
    "Stl4go.C58_shuffle"
   ],
   "note": ""
  },
  {
   "property": "C59",
   "status": "partial",
   "theorems": [
    "Stl4go.C59_counterexample",
    "Stl4go.C59_range_partial",
    "Stl4go.C59_panics"
   ],
   "note": "False of the code: Range[int8](-128,127) panics because last-first wraps (C59_counterexample). C59_range_partial proves it when last-first fits the type and int; C59_panics: on 64-bit platforms every other pair panics; C85_exact: the outcome for every pair of every integer type on both word sizes."
  },
  {
   "property": "C60",
   "status": "partial",
   "theorems": [
    "Stl4go.C60_counterexample",
    "Stl4go.C60_int_partial",
    "Stl4go.C60_none_partial",
    "Stl4go.C60_float_partial",
    "Stl4go.C60_float_exact",
    "Stl4go.C60_infinite",
    "Stl4go.C60_unbounded",
    "Stl4go.C60_order",
    "Stl4go.C60_float_integral",
    "Stl4go.C60_endless"
   ],
   "note": "False of the code: float64 Range(1<<53, 1<<53+2) never ends (C60_counterexample); C60_endless shows it for every start from 2^(prec+1). Proved for all integer types, for all floats within 2^prec, and whenever first<last is false (NaN). C60_float_exact gives, for every finite start and every end, the exact condition under which the loop ends; C60_infinite covers infinite starts."
  },
  {
   "property": "C61",
   "status": "proved",
   "theorems": [
    "Stl4go.C61_generate"
   ],
   "note": ""
  },
  {
   "property": "C62",
   "status": "proved",
   "theorems": [
    "Stl4go.C62_sortFunc",
    "Stl4go.C62_sort",
    "Stl4go.C62_descSort",
    "Stl4go.C62_check"
   ],
   "note": "sort.Sort is library code: its contract (sorts by the given Less/Swap, stays in range) is a hypothesis, met by an insertion sort in Proofs/SortWitness."
  },
  {
   "property": "C63",
   "status": "proved",
   "theorems": [
    "Stl4go.C63_stableSortFunc",
    "Stl4go.C63_stableSort",
    "Stl4go.C63_descStableSort",
    "Stl4go.C63_unique"
   ],
   "note": "sort.Stable's contract is a hypothesis, met by an insertion sort in Proofs/SortWitness."
  },
  {
   "property": "C64",
   "status": "proved",
   "theorems": [
    "Stl4go.C64_isSorted",
    "Stl4go.C64_isDescSorted",
    "Stl4go.C64_neighbours",
    "Stl4go.C64_nan"
   ],
   "note": ""
  },
  {
   "property": "C65",
   "status": "proved",
   "theorems": [
    "Stl4go.C65_equal"
   ],
   "note": ""
  },
  {
   "property": "C66",
   "status": "proved",
   "theorems": [
    "Stl4go.C66_compare_lex",
    "Stl4go.C66_compare_antisymm",
    "Stl4go.C66_compare_trans",
    "Stl4go.C66_compare_zero_iff_equal"
   ],
   "note": ""
  },
  {
   "property": "C67",
   "status": "proved",
   "theorems": [
    "Stl4go.C67_orderedCompare",
    "Stl4go.C67_orderedCompare_laws"
   ],
   "note": ""
  },
  {
   "property": "C68",
   "status": "proved",
   "theorems": [
    "Stl4go.C68_max",
    "Stl4go.C68_min",
    "Stl4go.C68_minMax",
    "Stl4go.C68_maxN",
    "Stl4go.C68_minN",
    "Stl4go.C68_minMaxN",
    "Stl4go.C68_panic_iff",
    "Stl4go.C68_first",
    "Stl4go.C68_equal"
   ],
   "note": ""
  },
  {
   "property": "C69",
   "status": "proved",
   "theorems": [
    "Stl4go.C69_findIf",
    "Stl4go.C69_find",
    "Stl4go.C69_index"
   ],
   "note": ""
  },
  {
   "property": "C70",
   "status": "proved",
   "theorems": [
    "Stl4go.C70_allOf",
    "Stl4go.C70_anyOf",
    "Stl4go.C70_noneOf",
    "Stl4go.C70_count",
    "Stl4go.C70_countIf"
   ],
   "note": ""
  },
  {
   "property": "C71",
   "status": "proved",
   "theorems": [
    "Stl4go.C71_sumAs",
    "Stl4go.C71_unique",
    "Stl4go.C71_ranges",
    "Stl4go.C71_sum",
    "Stl4go.C71_exact"
   ],
   "note": ""
  },
  {
   "property": "C72",
   "status": "partial",
   "theorems": [
    "Stl4go.C72_counterexample",
    "Stl4go.C72_sum_partial",
    "Stl4go.C72_small"
   ],
   "note": "False of the code: a defined integer type is summed in float64 (C72_counterexample: 1<<53 + 1). C72_sum_partial: exact when elements and partial sums stay within 2^53; C72_small: always for types up to 32 bits and 2^21 elements."
  },
  {
   "property": "C73",
   "status": "partial",
   "theorems": [
    "Stl4go.C73_counterexample",
    "Stl4go.C73_word32",
    "Stl4go.C73_average_partial",
    "Stl4go.C73_average_exact",
    "Stl4go.C73_panics"
   ],
   "note": "False of the code: for 2^31+1 uint32 maxima the sum fits uint64 but Average converts it to int64 (C73_counterexample); on 32-bit platforms uint sums are cut to 32 bits (C73_word32). C73_average_partial: the truncated mean whenever the sum fits the type Average divides in; C73_average_exact gives the value in every case; C73_panics (panic iff empty) is proved in full."
  },
  {
   "property": "C74",
   "status": "partial",
   "theorems": [
    "Stl4go.C74_counterexample",
    "Stl4go.C74_wrong",
    "Stl4go.C74_averageAs_partial",
    "Stl4go.C74_defined_partial",
    "Stl4go.C74_panics",
    "Stl4go.C74_averageAs_exact"
   ],
   "note": "False of the code: AverageAs[int8] of 256 elements divides by zero (C74_counterexample, C74_wrong). C74_averageAs_partial and C74_defined_partial: right when length and sum fit the result type; C74_averageAs_exact gives the value for predeclared element types in every case; C74_panics: exact panic condition (length a multiple of 2^bits)."
  },
  {
   "property": "C75",
   "status": "proved",
   "theorems": [
    "Stl4go.C75_history",
    "Stl4go.C75_size",
    "Stl4go.C75_insert_remove"
   ],
   "note": ""
  },
  {
   "property": "C76",
   "status": "proved",
   "theorems": [
    "Stl4go.C76_union",
    "Stl4go.C76_intersection",
    "Stl4go.C76_difference",
    "Stl4go.C76_reachable"
   ],
   "note": ""
  },
  {
   "property": "C77",
   "status": "proved",
   "theorems": [
    "Stl4go.C77_subset",
    "Stl4go.C77_superset",
    "Stl4go.C77_disjoint"
   ],
   "note": ""
  },
  {
   "property": "C78",
   "status": "proved",
   "theorems": [
    "Stl4go.C78_keys",
    "Stl4go.C78_forEach",
    "Stl4go.C78_forEachIf",
    "Stl4go.C78_any_order"
   ],
   "note": ""
  },
  {
   "property": "C79",
   "status": "partial",
   "theorems": [
    "Stl4go.C79_counterexample",
    "Stl4go.C79_clear_partial",
    "Stl4go.C79_survivors"
   ],
   "note": "False of the code: a NaN key cannot be deleted (C79_counterexample: set {NaN} has Len 1 after Clear). C79_clear_partial: empty whenever all keys are equal to themselves; C79_survivors: in general exactly the keys not equal to themselves stay."
  },
  {
   "property": "C80",
   "status": "proved",
   "theorems": [
    "Stl4go.C80_reads",
    "Stl4go.C80_writes",
    "Stl4go.C80_operand"
   ],
   "note": ""
  },
  {
   "property": "C81",
   "status": "proved",
   "theorems": [
    "Stl4go.C81_exclusive",
    "Stl4go.C81_exclusive_withNew",
    "Stl4go.C81_nonnil",
    "Stl4go.C81_put_nil",
    "Stl4go.C81_put",
    "Stl4go.C81_every_choice",
    "Stl4go.C81_no_new",
    "Stl4go.C81_no_invention",
    "Stl4go.C81_zero_size",
    "Stl4go.C81_double_put"
   ],
   "note": ""
  },
  {
   "property": "C82",
   "status": "proved",
   "theorems": [
    "Stl4go.C82_any_less_make",
    "Stl4go.C82_any_less_push",
    "Stl4go.C82_any_less_pop",
    "Stl4go.C82_any_less_remove",
    "Stl4go.C82_operator_forms"
   ],
   "note": ""
  },
  {
   "property": "C83",
   "status": "proved",
   "theorems": [
    "Stl4go.C83_independent"
   ],
   "note": ""
  },
  {
   "property": "C84",
   "status": "partial",
   "theorems": [
    "Stl4go.C84_counterexample",
    "Stl4go.C84_slots_partial",
    "Stl4go.C84_exact"
   ],
   "note": "False of the code: Pop, TryPop and Clear leave the elements in the array (C84_counterexample). C84_slots_partial: every slot is zero or a value pushed in the history; C84_exact: what each slot of each stack's array holds after any history."
  },
  {
   "property": "C85",
   "status": "partial",
   "theorems": [
    "Stl4go.C85_counterexample",
    "Stl4go.C85_equal_partial",
    "Stl4go.C85_narrow_partial",
    "Stl4go.C85_panics",
    "Stl4go.C85_panics_unsigned",
    "Stl4go.C85_exact"
   ],
   "note": "False of the code: Range(1,0) panics (C85_counterexample). Proved for equal bounds and for unsigned types narrower than int; C85_panics and C85_panics_unsigned show that reversed pairs of the other types panic on 64-bit platforms unless the difference overflows; C85_exact gives the outcome for every pair of every integer type on both word sizes."
  },
  {
   "property": "C86",
   "status": "proved",
   "theorems": [
    "Stl4go.C86_formats",
    "Stl4go.C86_sumAs",
    "Stl4go.C86_exact"
   ],
   "note": ""
  },
  {
   "property": "C87",
   "status": "proved",
   "theorems": [
    "Stl4go.C87_float64",
    "Stl4go.C87_float32",
    "Stl4go.C87_no_panic",
    "Stl4go.C87_empty"
   ],
   "note": ""
  },
  {
   "property": "C88",
   "status": "proved",
   "theorems": [
    "Stl4go.C88_not_finite"
   ],
   "note": ""
  },
  {
   "property": "C89",
   "status": "proved",
   "theorems": [
    "Stl4go.C89_sortFunc",
    "Stl4go.C89_others"
   ],
   "note": ""
  },
  {
   "property": "C90",
   "status": "proved",
   "theorems": [
    "Stl4go.C90_history",
    "Stl4go.C90_step"
   ],
   "note": ""
  },
  {
   "property": "C91",
   "status": "proved",
   "theorems": [
    "Stl4go.C91_insert_find"
   ],
   "note": ""
  },
  {
   "property": "C92",
   "status": "proved",
   "theorems": [
    "Stl4go.C92_insert_then_find",
    "Stl4go.C92_needs_self"
   ],
   "note": ""
  },
  {
   "property": "C93",
   "status": "proved",
   "theorems": [
    "Stl4go.C93_insert_then_remove"
   ],
   "note": ""
  },
  {
   "property": "C94",
   "status": "proved",
   "theorems": [
    "Stl4go.C94_make",
    "Stl4go.C94_push",
    "Stl4go.C94_pop",
    "Stl4go.C94_remove",
    "Stl4go.C94_ordered"
   ],
   "note": ""
  },
  {
   "property": "C95",
   "status": "proved",
   "theorems": [
    "Stl4go.C95_make",
    "Stl4go.C95_push",
    "Stl4go.C95_pop",
    "Stl4go.C95_remove",
    "Stl4go.C95_ends"
   ],
   "note": ""
  },
  {
   "property": "C96",
   "status": "proved",
   "theorems": [
    "Stl4go.C96_effects"
   ],
   "note": ""
  },
  {
   "property": "C97",
   "status": "partial",
   "theorems": [
    "Stl4go.C97_counterexample",
    "Stl4go.C97_slots_partial",
    "Stl4go.C97_exact"
   ],
   "note": "False of the code: Pop leaves the element in the slot behind the new length (C97_counterexample: Push(5); Pop() keeps 5). C97_slots_partial: every slot is zero or a value put into a queue by the history; C94_pop says which slot. C97_exact: exactly what the unused slots of every queue hold after every history."
  },
  {
   "property": "C98",
   "status": "proved",
   "theorems": [
    "Stl4go.C98_heapsort",
    "Stl4go.C98_queue"
   ],
   "note": ""
  },
  {
   "property": "C99",
   "status": "proved",
   "theorems": [
    "Stl4go.C99_history",
    "Stl4go.C99_rest"
   ],
   "note": ""
  },
  {
   "property": "C100",
   "status": "partial",
   "theorems": [
    "Stl4go.C100_counterexample",
    "Stl4go.C100_window_partial",
    "Stl4go.C100_full_partial"
   ],
   "note": "False of the code: Push appends within the capacity of the given slice and overwrites what follows it (C100_counterexample). C100_window_partial: writes stay within the capacity and the queue behaves as a multiset; C100_full_partial: the full statement when cap = len."
  },
  {
   "property": "C101",
   "status": "proved",
   "theorems": [
    "Stl4go.C101_history",
    "Stl4go.C101_any",
    "Stl4go.C101_total",
    "Stl4go.C101_findRange"
   ],
   "note": ""
  },
  {
   "property": "C102",
   "status": "proved",
   "theorems": [
    "Stl4go.C102_arguments"
   ],
   "note": ""
  },
  {
   "property": "C103",
   "status": "proved",
   "theorems": [
    "Stl4go.C103_cost",
    "Stl4go.C103_any"
   ],
   "note": ""
  },
  {
   "property": "C104",
   "status": "partial",
   "theorems": [
    "Stl4go.C104_counterexample",
    "Stl4go.C104_ghost",
    "Stl4go.C104_hang",
    "Stl4go.C104_hang_forever",
    "Stl4go.C104_reads_partial"
   ],
   "note": "False of the code: one wrong answer during Remove(2) makes a later Remove(1) index prevs out of range (C104_counterexample); another brings a removed key back (C104_ghost); after two, Find hangs (C104_hang, C104_hang_forever). Without Remove it holds (C127). C104_reads_partial: Find, Has, LowerBound and UpperBound leave the list unchanged and show entries that are there, whatever is answered."
  },
  {
   "property": "C105",
   "status": "proved",
   "theorems": [
    "Stl4go.C105_average",
    "Stl4go.C105_defined",
    "Stl4go.C105_history",
    "Stl4go.C105_levels"
   ],
   "note": ""
  },
  {
   "property": "C106",
   "status": "proved",
   "theorems": [
    "Stl4go.C106_removeIf",
    "Stl4go.C106_removeIf_keeps",
    "Stl4go.C106_vector_removeIf",
    "Stl4go.C106_transform",
    "Stl4go.C106_replaceIf",
    "Stl4go.C106_generate"
   ],
   "note": ""
  },
  {
   "property": "C107",
   "status": "partial",
   "theorems": [
    "Stl4go.C107_counterexample",
    "Stl4go.C107_counterexample_transform",
    "Stl4go.C107_removeIf_partial",
    "Stl4go.C107_replaceIf_partial",
    "Stl4go.C107_transform_partial"
   ],
   "note": "False of the code: RemoveIf has moved kept elements forward, and repeats some of them (C107_counterexample: [1,2,3] without 1 gives 2,2,3); Transform is applied twice to the elements before the panic (C107_counterexample_transform). C107_removeIf_partial and C107_transform_partial give the exact result of the second call; C107_replaceIf_partial: the full statement for ReplaceIf."
  },
  {
   "property": "C108",
   "status": "proved",
   "theorems": [
    "Stl4go.C108_findIf",
    "Stl4go.C108_anyOf",
    "Stl4go.C108_noneOf",
    "Stl4go.C108_allOf",
    "Stl4go.C108_countIf",
    "Stl4go.C108_forEach",
    "Stl4go.C108_forEachIf",
    "Stl4go.C108_calls"
   ],
   "note": ""
  },
  {
   "property": "C109",
   "status": "proved",
   "theorems": [
    "Stl4go.C109_removeIfCopy",
    "Stl4go.C109_transformCopy",
    "Stl4go.C109_transformCopy_other",
    "Stl4go.C109_transformTo",
    "Stl4go.C109_transformTo_other"
   ],
   "note": ""
  },
  {
   "property": "C110",
   "status": "proved",
   "theorems": [
    "Stl4go.C110_lowerBound",
    "Stl4go.C110_upperBound",
    "Stl4go.C110_binarySearch"
   ],
   "note": ""
  },
  {
   "property": "C111",
   "status": "proved",
   "theorems": [
    "Stl4go.C111_findIf",
    "Stl4go.C111_anyOf",
    "Stl4go.C111_noneOf",
    "Stl4go.C111_allOf",
    "Stl4go.C111_countIf",
    "Stl4go.C111_transform",
    "Stl4go.C111_generate",
    "Stl4go.C111_replaceIf",
    "Stl4go.C111_removeIf",
    "Stl4go.C111_forEach",
    "Stl4go.C111_forEachIf",
    "Stl4go.C111_forEachMutable",
    "Stl4go.C111_forEachMutableIf",
    "Stl4go.C111_at_most",
    "Stl4go.C111_ends"
   ],
   "note": ""
  },
  {
   "property": "C112",
   "status": "proved",
   "theorems": [
    "Stl4go.C112_forEach_push"
   ],
   "note": ""
  },
  {
   "property": "C113",
   "status": "partial",
   "theorems": [
    "Stl4go.C113_removeIf_partial",
    "Stl4go.C113_forEachMutable_partial",
    "Stl4go.C113_forEachMutable_room_partial",
    "Stl4go.C113_counterexample",
    "Stl4go.C113_counterexample_mutable"
   ],
   "note": "False of the code: RemoveIf assigns a part of the old slice to the vector (C113_counterexample); once a push has moved the vector, ForEachMutable passes addresses of the old array (C113_counterexample_mutable). C113_removeIf_partial and C113_forEachMutable_partial give the exact results; C113_forEachMutable_room_partial: the full statement when there is room."
  },
  {
   "property": "C114",
   "status": "proved",
   "theorems": [
    "Stl4go.C114_history",
    "Stl4go.C114_rest",
    "Stl4go.C114_popped"
   ],
   "note": ""
  },
  {
   "property": "C115",
   "status": "proved",
   "theorems": [
    "Stl4go.C115_forEachMutableIf",
    "Stl4go.C115_forEachMutable",
    "Stl4go.C115_forEachIf",
    "Stl4go.C115_forEach",
    "Stl4go.C115_worklist",
    "Stl4go.C115_pushFront",
    "Stl4go.C115_clear"
   ],
   "note": ""
  },
  {
   "property": "C116",
   "status": "partial",
   "theorems": [
    "Stl4go.C116_popFront_panics",
    "Stl4go.C116_popBack_partial",
    "Stl4go.C116_counterexample"
   ],
   "note": "False of the code: popping the element the loop stands on clears its links, and the loop follows them (C116_counterexample; C116_popFront_panics: PopFront in every round panics on every list with an element, the rest of the list stays intact). C116_popBack_partial: PopBack in every round works exactly when the length is even, and what it visits and leaves."
  },
  {
   "property": "C117",
   "status": "partial",
   "theorems": [
    "Stl4go.C117_counterexample",
    "Stl4go.C117_usable_partial"
   ],
   "note": "False of the code: Iterate of a list that was never pushed to gives a nil pointer, which is not the end after the first push (C117_counterexample); the same after moving on from a popped element. C117_usable_partial: the full statement, and that a loop from the iterator ends, for histories without pops and without iterators of lists never pushed to."
  },
  {
   "property": "C118",
   "status": "proved",
   "theorems": [
    "Stl4go.C118_history",
    "Stl4go.C118_rest",
    "Stl4go.C118_usable"
   ],
   "note": ""
  },
  {
   "property": "C119",
   "status": "proved",
   "theorems": [
    "Stl4go.C119_forEachMutableIf",
    "Stl4go.C119_forEachMutable",
    "Stl4go.C119_forEachIf",
    "Stl4go.C119_forEach",
    "Stl4go.C119_panics",
    "Stl4go.C119_popFront",
    "Stl4go.C119_transfer",
    "Stl4go.C119_append",
    "Stl4go.C119_detach",
    "Stl4go.C119_worklist",
    "Stl4go.C119_reverse"
   ],
   "note": ""
  },
  {
   "property": "C120",
   "status": "proved",
   "theorems": [
    "Stl4go.C120_history",
    "Stl4go.C120_rest",
    "Stl4go.C120_usable",
    "Stl4go.C120_pointer"
   ],
   "note": ""
  },
  {
   "property": "C121",
   "status": "proved",
   "theorems": [
    "Stl4go.C121_ascending",
    "Stl4go.C121_unskipped",
    "Stl4go.C121_bounded"
   ],
   "note": ""
  },
  {
   "property": "C122",
   "status": "partial",
   "theorems": [
    "Stl4go.C122_counterexample",
    "Stl4go.C122_present_partial",
    "Stl4go.C122_removed"
   ],
   "note": "False of the code: an iterator on a removed entry follows the link the entry had when it was removed, past entries inserted since (C122_counterexample). C122_present_partial: the full statement if the iterator is on an entry of the map; C122_removed: where it goes otherwise."
  },
  {
   "property": "C123",
   "status": "partial",
   "theorems": [
    "Stl4go.C123_counterexample",
    "Stl4go.C123_counterexample_insert",
    "Stl4go.C123_range_partial"
   ],
   "note": "False of the code: FindRange remembers the first entry after the range; if it is removed, the iterator does not meet it and runs off the list (C123_counterexample); an entry inserted between b and that entry is shown (C123_counterexample_insert). C123_range_partial: as long as that entry is not removed, the iterator always has a key, before that entry exactly as long as IsNotEnd is true."
  },
  {
   "property": "C124",
   "status": "proved",
   "theorems": [
    "Stl4go.C124_erase"
   ],
   "note": ""
  },
  {
   "property": "C125",
   "status": "proved",
   "theorems": [
    "Stl4go.C125_forEachMutableIf",
    "Stl4go.C125_forEachMutable",
    "Stl4go.C125_forEachIf",
    "Stl4go.C125_forEach"
   ],
   "note": ""
  },
  {
   "property": "C126",
   "status": "proved",
   "theorems": [
    "Stl4go.C126_ascending",
    "Stl4go.C126_visited",
    "Stl4go.C126_ends",
    "Stl4go.C126_panics",
    "Stl4go.C126_clearing",
    "Stl4go.C126_endless"
   ],
   "note": ""
  },
  {
   "property": "C127",
   "status": "proved",
   "theorems": [
    "Stl4go.C127_history",
    "Stl4go.C127_total",
    "Stl4go.C127_kept"
   ],
   "note": ""
  },
  {
   "property": "C128",
   "status": "proved",
   "theorems": [
    "Stl4go.C128_history",
    "Stl4go.C128_forEachIf",
    "Stl4go.C128_forEach"
   ],
   "note": ""
  },
  {
   "property": "C129",
   "status": "proved",
   "theorems": [
    "Stl4go.C129_member",
    "Stl4go.C129_visits",
    "Stl4go.C129_sieve"
   ],
   "note": ""
  },
  {
   "property": "C130",
   "status": "partial",
   "theorems": [
    "Stl4go.C130_forever",
    "Stl4go.C130_counterexample",
    "Stl4go.C130_ends_partial",
    "Stl4go.C130_old",
    "Stl4go.C130_update_nan"
   ],
   "note": "False of the code: Go leaves open whether a loop over a map produces entries made during the loop, so a callback that inserts a new member every time may go on forever (C130_counterexample, C130_forever), and so may s.Update(s) with a NaN (C130_update_nan). C130_ends_partial: the full statement for callbacks that do not insert into the set of the loop; C130_old: for all callbacks if the runtime does not produce new entries."
  },
  {
   "property": "C131",
   "status": "proved",
   "theorems": [
    "Stl4go.C131_slist",
    "Stl4go.C131_slist_apart",
    "Stl4go.C131_dlist",
    "Stl4go.C131_dlist_apart",
    "Stl4go.C131_dlistqueue"
   ],
   "note": ""
  },
  {
   "property": "C132",
   "status": "partial",
   "theorems": [
    "Stl4go.C132_leak",
    "Stl4go.C132_counterexample",
    "Stl4go.C132_leak_stays",
    "Stl4go.C132_no_clear_partial",
    "Stl4go.C132_partial",
    "Stl4go.C132_remove_partial"
   ],
   "note": "False of the code: Clear leaves prevsCache, through which a node of the cleared list and all that follow it stay reachable (C132_counterexample), possibly for ever (C132_leak_stays). C132_no_clear_partial: the full statement for histories without Clear. C132_partial: in all histories only entries that were in the list at an earlier Clear are held besides. C132_remove_partial: what Remove removes is released at once and for good."
  },
  {
   "property": "C133",
   "status": "proved",
   "theorems": [
    "Stl4go.C133_history",
    "Stl4go.C133_usable",
    "Stl4go.C133_one",
    "Stl4go.C133_growing",
    "Stl4go.C133_moved"
   ],
   "note": ""
  },
  {
   "property": "C134",
   "status": "proved",
   "theorems": [
    "Stl4go.C134_find",
    "Stl4go.C134_count",
    "Stl4go.C134_equal",
    "Stl4go.C134_replace",
    "Stl4go.C134_remove",
    "Stl4go.C134_unique",
    "Stl4go.C134_unique_empty",
    "Stl4go.C134_removeCopy",
    "Stl4go.C134_uniqueCopy",
    "Stl4go.C134_same_runs",
    "Stl4go.C134_total"
   ],
   "note": ""
  },
  {
   "property": "C135",
   "status": "proved",
   "theorems": [
    "Stl4go.C135_history",
    "Stl4go.C135_members",
    "Stl4go.C135_unasked",
    "Stl4go.C135_total"
   ],
   "note": ""
  },
  {
   "property": "C136",
   "status": "proved",
   "theorems": [
    "Stl4go.C136_name",
    "Stl4go.C136_set",
    "Stl4go.C136_determines",
    "Stl4go.C136_lists"
   ],
   "note": ""
  },
  {
   "property": "C137",
   "status": "proved",
   "theorems": [
    "Stl4go.C137_search",
    "Stl4go.C137_sorts",
    "Stl4go.C137_bags",
    "Stl4go.C137_distinct",
    "Stl4go.C137_extremes",
    "Stl4go.C137_sorted",
    "Stl4go.C137_remove",
    "Stl4go.C137_quantifiers"
   ],
   "note": ""
  },
  {
   "property": "C138",
   "status": "proved",
   "theorems": [
    "Stl4go.C138_make",
    "Stl4go.C138_push",
    "Stl4go.C138_pop",
    "Stl4go.C138_remove",
    "Stl4go.C138_isHeap",
    "Stl4go.C138_ends",
    "Stl4go.C138_outside",
    "Stl4go.C138_elements",
    "Stl4go.C138_same"
   ],
   "note": ""
  },
  {
   "property": "C139",
   "status": "proved",
   "theorems": [
    "Stl4go.C139_stack",
    "Stl4go.C139_vector",
    "Stl4go.C139_queue",
    "Stl4go.C139_total",
    "Stl4go.C139_go",
    "Stl4go.C139_room",
    "Stl4go.C139_reserve",
    "Stl4go.C139_insert"
   ],
   "note": ""
  },
  {
   "property": "C140",
   "status": "proved",
   "theorems": [
    "Stl4go.C140_nested",
    "Stl4go.C140_ends",
    "Stl4go.C140_pairs",
    "Stl4go.C140_plain"
   ],
   "note": ""
  },
  {
   "property": "C141",
   "status": "partial",
   "theorems": [
    "Stl4go.C141_counterexample",
    "Stl4go.C141_slist_partial",
    "Stl4go.C141_dlist_partial",
    "Stl4go.C141_slist_pushBack_partial",
    "Stl4go.C141_dlist_shared_partial"
   ],
   "note": "False of the code: copies share nodes (C141_counterexample). C141_slist_partial, C141_dlist_partial: the full statement for histories in which no list is relinked while another variable shares its nodes (SList: PushBack and Reverse; DList: any change). C141_slist_pushBack_partial, C141_dlist_shared_partial: outside this condition the copy is wrong every time."
  },
  {
   "property": "C142",
   "status": "proved",
   "theorems": [
    "Stl4go.C142_history",
    "Stl4go.C142_own",
    "Stl4go.C142_asVector",
    "Stl4go.C142_snapshot",
    "Stl4go.C142_moved",
    "Stl4go.C142_one",
    "Stl4go.C142_both"
   ],
   "note": ""
  },
  {
   "property": "C143",
   "status": "proved",
   "theorems": [
    "Stl4go.C143_runs",
    "Stl4go.C143_panics",
    "Stl4go.C143_effects",
    "Stl4go.C143_stable",
    "Stl4go.C143_elements",
    "Stl4go.C143_same"
   ],
   "note": ""
  },
  {
   "property": "C144",
   "status": "proved",
   "theorems": [
    "Stl4go.C144_average",
    "Stl4go.C144_nodes",
    "Stl4go.C144_level"
   ],
   "note": ""
  },
  {
   "property": "C145",
   "status": "proved",
   "theorems": [
    "Stl4go.C145_history",
    "Stl4go.C145_methods",
    "Stl4go.C145_forEachIf",
    "Stl4go.C145_forEach",
    "Stl4go.C145_ascending",
    "Stl4go.C145_visited",
    "Stl4go.C145_ends",
    "Stl4go.C145_panics"
   ],
   "note": ""
  },
  {
   "property": "C146",
   "status": "partial",
   "theorems": [
    "Stl4go.C146_counterexample",
    "Stl4go.C146_exact_partial",
    "Stl4go.C146_snapshots_partial",
    "Stl4go.C146_shares_partial"
   ],
   "note": "False of the code: the field impl of a copy points to the copied queue (C146_counterexample; C146_shares_partial: after every history). C146_exact_partial: what copies do, in every history. C146_snapshots_partial: the full statement for histories in which copies are not pushed to or popped from and their Top is not read after the copied queue changed."
  },
  {
   "property": "C147",
   "status": "partial",
   "theorems": [
    "Stl4go.C147_counterexample",
    "Stl4go.C147_exact_partial",
    "Stl4go.C147_own_partial",
    "Stl4go.C147_over_partial",
    "Stl4go.C147_both_partial"
   ],
   "note": "False of the code: a copy shares the array of elements (C147_counterexample; C147_over_partial, C147_both_partial: after every history). C147_exact_partial: what copies do, in every history. C147_own_partial: the full statement for histories in which no Push within the capacity happens while another stack on the same array reaches higher."
  },
  {
   "property": "C148",
   "status": "partial",
   "theorems": [
    "Stl4go.C148_counterexample",
    "Stl4go.C148_shared_partial",
    "Stl4go.C148_panics_partial"
   ],
   "note": "False of the code: a copy shares the nodes and searches through the list (C148_counterexample). C148_shared_partial: what copies and zero values do, in every history in which a copy gets a new key only on levels that both have. C148_panics_partial: after every such history, a new key of a new copy on a higher level makes Remove panic. Missing: what happens after such an insertion, other than to Remove of that key."
  },
  {
   "property": "C149",
   "status": "proved",
   "theorems": [
    "Stl4go.C149_stacks",
    "Stl4go.C149_queues",
    "Stl4go.C149_sets"
   ],
   "note": ""
  },
  {
   "property": "C150",
   "status": "partial",
   "theorems": [
    "Stl4go.C150_counterexample",
    "Stl4go.C150_damage",
    "Stl4go.C150_reads_partial",
    "Stl4go.C150_guarded_partial",
    "Stl4go.C150_findRange_partial",
    "Stl4go.C150_endless"
   ],
   "note": "False of the code: Remove of an absent key, called by the compare function during Insert, overwrites prevsCache and a later Remove panics (C150_counterexample, C150_damage). C150_reads_partial: compare functions that only look at the list, which may also panic and hang. C150_guarded_partial: with a guard all methods return. C150_endless: the last part of the statement. Missing: compare functions that call Remove."
  },
  {
   "property": "C151",
   "status": "proved",
   "theorems": [
    "Stl4go.C151_programs",
    "Stl4go.C151_settled",
    "Stl4go.C151_visits",
    "Stl4go.C151_pairs",
    "Stl4go.C151_transfer",
    "Stl4go.C151_forEach"
   ],
   "note": ""
  },
  {
   "property": "C152",
   "status": "proved",
   "theorems": [
    "Stl4go.C152_programs",
    "Stl4go.C152_settled",
    "Stl4go.C152_visits",
    "Stl4go.C152_calm",
    "Stl4go.C152_pairs",
    "Stl4go.C152_forEach"
   ],
   "note": ""
  },
  {
   "property": "C153",
   "status": "proved",
   "theorems": [
    "Stl4go.C153_vector",
    "Stl4go.C153_stack_queue",
    "Stl4go.C153_dlist",
    "Stl4go.C153_slist",
    "Stl4go.C153_skiplist",
    "Stl4go.C153_set",
    "Stl4go.C153_callbacks",
    "Stl4go.C153_goroutines",
    "Stl4go.C153_remove_writes"
   ],
   "note": ""
  },
  {
   "property": "C154",
   "status": "proved",
   "theorems": [
    "Stl4go.C154_draws",
    "Stl4go.C154_distinct",
    "Stl4go.C154_positions"
   ],
   "note": ""
  },
  {
   "property": "C155",
   "status": "proved",
   "theorems": [
    "Stl4go.C155_float64",
    "Stl4go.C155_finite",
    "Stl4go.C155_float32",
    "Stl4go.C155_gamma",
    "Stl4go.C155_nonneg",
    "Stl4go.C155_defined",
    "Stl4go.C155_averageAs",
    "Stl4go.C155_average"
   ],
   "note": ""
  },
  {
   "property": "C156",
   "status": "partial",
   "theorems": [
    "Stl4go.C156_counterexample_int",
    "Stl4go.C156_counterexample_float",
    "Stl4go.C156_counterexample",
    "Stl4go.C156_int_partial",
    "Stl4go.C156_small_partial",
    "Stl4go.C156_integral_partial",
    "Stl4go.C156_two_partial"
   ],
   "note": "False of the code: ten times 0.1 as float64 averages to 0.09999999999999999 (C156_counterexample_float), the largest int64 twice to -1 (C156_counterexample_int). C156_int_partial: integers whose sum fits. C156_small_partial: fewer than 2^31 integers of at most 32 bits, without further conditions. C156_integral_partial: integral float64 values with partial sums within 2^53. C156_two_partial: any two floats of either type whose sum does not overflow. Missing: other float slices; C155_average says how far they are off."
  },
  {
   "property": "C157",
   "status": "proved",
   "theorems": [
    "Stl4go.C157_relations",
    "Stl4go.C157_bools",
    "Stl4go.C157_tests",
    "Stl4go.C157_opposites",
    "Stl4go.C157_nan",
    "Stl4go.C157_panic",
    "Stl4go.C157_contained",
    "Stl4go.C157_kept"
   ],
   "note": ""
  },
  {
   "property": "C158",
   "status": "proved",
   "theorems": [
    "Stl4go.C158_programs",
    "Stl4go.C158_ascending",
    "Stl4go.C158_ascending_mutable",
    "Stl4go.C158_visited",
    "Stl4go.C158_ends",
    "Stl4go.C158_visits",
    "Stl4go.C158_pairs",
    "Stl4go.C158_transfer",
    "Stl4go.C158_forEach"
   ],
   "note": ""
  },
  {
   "property": "C159",
   "status": "proved",
   "theorems": [
    "Stl4go.C159_history",
    "Stl4go.C159_others",
    "Stl4go.C159_fifo",
    "Stl4go.C159_set"
   ],
   "note": ""
  },
  {
   "property": "C160",
   "status": "proved",
   "theorems": [
    "Stl4go.C160_tail",
    "Stl4go.C160_rare",
    "Stl4go.C160_history",
    "Stl4go.C160_defined"
   ],
   "note": ""
  },
  {
   "property": "C161",
   "status": "proved",
   "theorems": [
    "Stl4go.C161_intersection",
    "Stl4go.C161_difference",
    "Stl4go.C161_union",
    "Stl4go.C161_update",
    "Stl4go.C161_count",
    "Stl4go.C161_intersection_cost",
    "Stl4go.C161_difference_cost",
    "Stl4go.C161_disjoint_cost",
    "Stl4go.C161_subset_cost"
   ],
   "note": ""
  },
  {
   "property": "C162",
   "status": "proved",
   "theorems": [
    "Stl4go.C162_transform",
    "Stl4go.C162_reverse",
    "Stl4go.C162_removeIf",
    "Stl4go.C162_again",
    "Stl4go.C162_unique",
    "Stl4go.C162_replace",
    "Stl4go.C162_fill",
    "Stl4go.C162_sum"
   ],
   "note": ""
  },
  {
   "property": "C163",
   "status": "proved",
   "theorems": [
    "Stl4go.C163_keys",
    "Stl4go.C163_again"
   ],
   "note": ""
  },
  {
   "property": "C164",
   "status": "proved",
   "theorems": [
    "Stl4go.C164_remove",
    "Stl4go.C164_fix",
    "Stl4go.C164_min"
   ],
   "note": ""
  },
  {
   "property": "C165",
   "status": "proved",
   "theorems": [
    "Stl4go.C165_greatest",
    "Stl4go.C165_merge",
    "Stl4go.C165_median"
   ],
   "note": ""
  },
  {
   "property": "C166",
   "status": "partial",
   "theorems": [
    "Stl4go.C166_intact",
    "Stl4go.C166_ordered_partial",
    "Stl4go.C166_recovers",
    "Stl4go.C166_compare",
    "Stl4go.C166_slices_partial",
    "Stl4go.C166_counterexample"
   ],
   "note": "False of the code: the list stores the slice, not what it held (C166_counterexample). C166_slices_partial: true if no slice is written while it is a key of the map. C166_ordered_partial: for any compare function that reads changing state, true as long as every change leaves the stored keys in ascending order. C166_intact and C166_recovers hold without such conditions. C175 says what a search finds while the stored keys are out of order."
  },
  {
   "property": "C167",
   "status": "proved",
   "theorems": [
    "Stl4go.C167_inPlace",
    "Stl4go.C167_fill",
    "Stl4go.C167_copies",
    "Stl4go.C167_appending",
    "Stl4go.C167_vector_one",
    "Stl4go.C167_vector_all",
    "Stl4go.C167_insert",
    "Stl4go.C167_append",
    "Stl4go.C167_remove",
    "Stl4go.C167_pushes"
   ],
   "note": ""
  },
  {
   "property": "C168",
   "status": "proved",
   "theorems": [
    "Stl4go.C168_lookup",
    "Stl4go.C168_compute",
    "Stl4go.C168_equal",
    "Stl4go.C168_compare",
    "Stl4go.C168_sorted",
    "Stl4go.C168_extremes",
    "Stl4go.C168_cost",
    "Stl4go.C168_generate"
   ],
   "note": ""
  },
  {
   "property": "C169",
   "status": "proved",
   "theorems": [
    "Stl4go.C169_searches",
    "Stl4go.C169_remove",
    "Stl4go.C169_insert",
    "Stl4go.C169_insert_overflow"
   ],
   "note": ""
  },
  {
   "property": "C170",
   "status": "proved",
   "theorems": [
    "Stl4go.C170_dlist",
    "Stl4go.C170_dlist_one",
    "Stl4go.C170_queue",
    "Stl4go.C170_slist",
    "Stl4go.C170_iterators"
   ],
   "note": ""
  },
  {
   "property": "C171",
   "status": "proved",
   "theorems": [
    "Stl4go.C171_push",
    "Stl4go.C171_pop",
    "Stl4go.C171_remove",
    "Stl4go.C171_min",
    "Stl4go.C171_queue",
    "Stl4go.C171_few",
    "Stl4go.C171_push_keeps"
   ],
   "note": ""
  },
  {
   "property": "C172",
   "status": "proved",
   "theorems": [
    "Stl4go.C172_level",
    "Stl4go.C172_calls",
    "Stl4go.C172_forever",
    "Stl4go.C172_detour"
   ],
   "note": ""
  },
  {
   "property": "C173",
   "status": "proved",
   "theorems": [
    "Stl4go.C173_first",
    "Stl4go.C173_last",
    "Stl4go.C173_make",
    "Stl4go.C173_test",
    "Stl4go.C173_push",
    "Stl4go.C173_ascending",
    "Stl4go.C173_rename",
    "Stl4go.C173_field"
   ],
   "note": ""
  },
  {
   "property": "C174",
   "status": "proved",
   "theorems": [
    "Stl4go.C174_alone",
    "Stl4go.C174_results",
    "Stl4go.C174_progress",
    "Stl4go.C174_rest",
    "Stl4go.C174_order",
    "Stl4go.C174_race",
    "Stl4go.C174_parallel"
   ],
   "note": ""
  },
  {
   "property": "C175",
   "status": "proved",
   "theorems": [
    "Stl4go.C175_missed",
    "Stl4go.C175_found",
    "Stl4go.C175_remove",
    "Stl4go.C175_absent",
    "Stl4go.C175_present",
    "Stl4go.C175_unlawful",
    "Stl4go.C175_changed"
   ],
   "note": ""
  },
  {
   "property": "C176",
   "status": "proved",
   "theorems": [
    "Stl4go.C176_eval",
    "Stl4go.C176_identity",
    "Stl4go.C176_inclusion",
    "Stl4go.C176_only",
    "Stl4go.C176_nan"
   ],
   "note": ""
  },
  {
   "property": "C177",
   "status": "proved",
   "theorems": [
    "Stl4go.C177_two",
    "Stl4go.C177_many",
    "Stl4go.C177_compare",
    "Stl4go.C177_compare_zero",
    "Stl4go.C177_compare_swap",
    "Stl4go.C177_lookup",
    "Stl4go.C177_bounds",
    "Stl4go.C177_nan_last",
    "Stl4go.C177_nan_first",
    "Stl4go.C177_transform",
    "Stl4go.C177_newSkipList",
    "Stl4go.C177_newSkipListFunc",
    "Stl4go.C177_compare_nan",
    "Stl4go.C177_hidden"
   ],
   "note": ""
  },
  {
   "property": "C178",
   "status": "proved",
   "theorems": [
    "Stl4go.C178_rename_search",
    "Stl4go.C178_rename_queue",
    "Stl4go.C178_rename_skiplist",
    "Stl4go.C178_search",
    "Stl4go.C178_sort",
    "Stl4go.C178_stable",
    "Stl4go.C178_heap",
    "Stl4go.C178_queue",
    "Stl4go.C178_skiplist",
    "Stl4go.C178_floats",
    "Stl4go.C178_float_sort",
    "Stl4go.C178_float_heap",
    "Stl4go.C178_float_queue",
    "Stl4go.C178_float_skiplist",
    "Stl4go.C178_float_isSorted"
   ],
   "note": ""
  },
  {
   "property": "C179",
   "status": "proved",
   "theorems": [
    "Stl4go.C179_stay",
    "Stl4go.C179_push",
    "Stl4go.C179_last",
    "Stl4go.C179_root",
    "Stl4go.C179_twice",
    "Stl4go.C179_tail",
    "Stl4go.C179_isHeapFunc",
    "Stl4go.C179_nan",
    "Stl4go.C179_push_keeps",
    "Stl4go.C179_above",
    "Stl4go.C179_numbers_first",
    "Stl4go.C179_queue",
    "Stl4go.C179_breaks"
   ],
   "note": ""
  },
  {
   "property": "C180",
   "status": "proved",
   "theorems": [
    "Stl4go.C180_alone",
    "Stl4go.C180_structure",
    "Stl4go.C180_results",
    "Stl4go.C180_progress",
    "Stl4go.C180_rest",
    "Stl4go.C180_serial",
    "Stl4go.C180_race",
    "Stl4go.C180_map",
    "Stl4go.C180_lost"
   ],
   "note": ""
  },
  {
   "property": "C181",
   "status": "proved",
   "theorems": [
    "Stl4go.C181_serial",
    "Stl4go.C181_order",
    "Stl4go.C181_exclusive",
    "Stl4go.C181_finish",
    "Stl4go.C181_alone",
    "Stl4go.C181_map",
    "Stl4go.C181_map_finish",
    "Stl4go.C181_lost_entry",
    "Stl4go.C181_lost_count",
    "Stl4go.C181_panic",
    "Stl4go.C181_removed_twice"
   ],
   "note": ""
  },
  {
   "property": "C182",
   "status": "proved",
   "theorems": [
    "Stl4go.C182_slices",
    "Stl4go.C182_callbacks",
    "Stl4go.C182_heaps",
    "Stl4go.C182_push",
    "Stl4go.C182_copies",
    "Stl4go.C182_vectors",
    "Stl4go.C182_vector_grow",
    "Stl4go.C182_dlist",
    "Stl4go.C182_slist",
    "Stl4go.C182_skiplist",
    "Stl4go.C182_skiplist_insert"
   ],
   "note": ""
  },
  {
   "property": "C183",
   "status": "proved",
   "theorems": [
    "Stl4go.C183_guarded",
    "Stl4go.C183_finish",
    "Stl4go.C183_readers",
    "Stl4go.C183_queue_alone",
    "Stl4go.C183_queue",
    "Stl4go.C183_queue_finish",
    "Stl4go.C183_fifo",
    "Stl4go.C183_stack_alone",
    "Stl4go.C183_stack",
    "Stl4go.C183_stack_finish",
    "Stl4go.C183_queue_lost",
    "Stl4go.C183_queue_count",
    "Stl4go.C183_queue_push_panics",
    "Stl4go.C183_queue_twice",
    "Stl4go.C183_queue_try_panics",
    "Stl4go.C183_queue_negative",
    "Stl4go.C183_stack_lost",
    "Stl4go.C183_stack_twice",
    "Stl4go.C183_stack_dropped",
    "Stl4go.C183_stack_try_panics",
    "Stl4go.C183_stack_pop_panics"
   ],
   "note": ""
  },
  {
   "property": "C184",
   "status": "proved",
   "theorems": [
    "Stl4go.C184_looking",
    "Stl4go.C184_changing",
    "Stl4go.C184_searching",
    "Stl4go.C184_make",
    "Stl4go.C184_push",
    "Stl4go.C184_pop",
    "Stl4go.C184_remove",
    "Stl4go.C184_queue",
    "Stl4go.C184_queue_one",
    "Stl4go.C184_queue_len",
    "Stl4go.C184_skiplist"
   ],
   "note": ""
  },
  {
   "property": "C185",
   "status": "proved",
   "theorems": [
    "Stl4go.C185_nan",
    "Stl4go.C185_opposite",
    "Stl4go.C185_infinity",
    "Stl4go.C185_infinity_exact",
    "Stl4go.C185_finite",
    "Stl4go.C185_nan_iff",
    "Stl4go.C185_averageAs",
    "Stl4go.C185_average",
    "Stl4go.C185_average_infinity",
    "Stl4go.C185_order"
   ],
   "note": ""
  },
  {
   "property": "C186",
   "status": "proved",
   "theorems": [
    "Stl4go.C186_least",
    "Stl4go.C186_worst",
    "Stl4go.C186_nil"
   ],
   "note": ""
  },
  {
   "property": "C187",
   "status": "proved",
   "theorems": [
    "Stl4go.C187_program",
    "Stl4go.C187_contract",
    "Stl4go.C187_calls",
    "Stl4go.C187_worst",
    "Stl4go.C187_drain"
   ],
   "note": ""
  },
  {
   "property": "C188",
   "status": "proved",
   "theorems": [
    "Stl4go.C188_calls",
    "Stl4go.C188_extremes",
    "Stl4go.C188_optimal",
    "Stl4go.C188_optimal_upper",
    "Stl4go.C188_program"
   ],
   "note": ""
  },
  {
   "property": "C189",
   "status": "proved",
   "theorems": [
    "Stl4go.C189_extremes",
    "Stl4go.C189_sorted",
    "Stl4go.C189_heap",
    "Stl4go.C189_possible",
    "Stl4go.C189_library",
    "Stl4go.C189_both"
   ],
   "note": ""
  },
  {
   "property": "C190",
   "status": "proved",
   "theorems": [
    "Stl4go.C190_calls",
    "Stl4go.C190_optimal",
    "Stl4go.C190_program",
    "Stl4go.C190_unordered",
    "Stl4go.C190_library"
   ],
   "note": ""
  },
  {
   "property": "C191",
   "status": "proved",
   "theorems": [
    "Stl4go.C191_sum",
    "Stl4go.C191_count",
    "Stl4go.C191_conditions",
    "Stl4go.C191_integers",
    "Stl4go.C191_order",
    "Stl4go.C191_library"
   ],
   "note": ""
  },
  {
   "property": "C192",
   "status": "proved",
   "theorems": [
    "Stl4go.C192_least",
    "Stl4go.C192_enough",
    "Stl4go.C192_library"
   ],
   "note": ""
  },
  {
   "property": "C193",
   "status": "proved",
   "theorems": [
    "Stl4go.C193_count",
    "Stl4go.C193_missed",
    "Stl4go.C193_enough",
    "Stl4go.C193_sizes"
   ],
   "note": ""
  },
  {
   "property": "C194",
   "status": "proved",
   "theorems": [
    "Stl4go.C194_needed",
    "Stl4go.C194_shuffle",
    "Stl4go.C194_moved",
    "Stl4go.C194_reverse"
   ],
   "note": ""
  }
 ]
}