{
 "C09": {
  "status": "partial",
  "note": "False of the code: IsHeapFunc tests !less(parent,child) and rejects heaps with equivalent neighbours (C09_counterexample, witness [1,1]). C09_isHeapFunc_partial proves soundness, the exact characterisation of the answer, and completeness when no element is equivalent to its parent."
 },
 "C20": {
  "status": "partial",
  "note": "False of the code: the end iterator is upperBound(last), so a key equal to last is yielded (C20_counterexample). C20_findRange_partial: for first<=last the iteration is exactly first<=key<=last, which is [first,last) when last is not a key."
 },
 "C21": {
  "status": "partial",
  "note": "False of the code: FindRange(first,last) with a key strictly between last and first runs past the end and dereferences nil (C21_counterexample). C21_findRange_partial: it panics exactly then, never hangs, and never panics for first<=last."
 },
 "C30": {
  "status": "partial",
  "note": "False for NaN keys (C30_counterexample; C30_counterexample_hides shows NaN also hides ordinary keys). C30_insert_has_partial proves it for every lawful order and compare function."
 },
 "C32": {
  "status": "partial",
  "note": "LowerBound/UpperBound proved (C32_bounds). The FindRange half is false of the code: last is included (C32_counterexample). C32_findRange_partial gives the exact behaviour for all pairs, including when it panics."
 },
 "C53": {
  "status": "partial",
  "note": "False of the code: when b starts strictly inside a, TransformTo overwrites elements before reading them (C53_counterexample). C53_transformTo_partial proves it for every b that starts no later than a or not before a's end (any overlap otherwise); C53_overlap gives the exact results for the remaining b: op gets its own earlier result wherever that was written over an element."
 },
 "C42": {
  "status": "partial",
  "note": "False of the code: an in-place Insert of a sub-slice of v that starts after position i reads it after the tail has moved (C42_counterexample: v=[1,2,3] cap 4, v.Insert(0, v[1:2]...) gives [1,1,2,3]). C42_insert_partial proves it for every other x (also overlapping); C42_insert_inPlace gives the exact effect for every x; C42_append shows Append is right for every x."
 },
 "C43": {
  "status": "partial",
  "note": "False of the code: RemoveRange(i,j) with j<i panics only after *v was lengthened (C43_counterexample: [1,2,3].RemoveRange(2,1) leaves [1,2,2,3]). C43_removeRange_partial: exact removal for valid ranges, a panic for all others, nothing changed unless 0<=j<i<=Cap, j<=Len; C43_reversed gives the contents left in that case."
 },
 "C45": {
  "status": "partial",
  "note": "Reserve proved in full (C45_reserve). Shrink to Cap()==Len() is false when the runtime rounds allocations up (C45_counterexample); C45_shrink_partial: contents kept, capacity is what append gives, equal to Len if the runtime does not round up. C45_observed_partial: the same seen through Cap and Len."
 },
 "C47": {
  "status": "partial",
  "note": "False of the code: v[i:j] is bounded by the capacity, so IterateRange(i,j) with Len<j<=Cap yields slots beyond the end (C47_counterexample). C47_iterateRange_partial: exact elements and exact panic condition (0<=i<=j<=Cap)."
 },
 "C84": {
  "status": "partial",
  "note": "False of the code: Pop, TryPop and Clear leave the elements in the array (C84_counterexample). C84_slots_partial: every slot is zero or a value pushed in the history; C84_exact: what each slot of each stack's array holds after any history."
 },
 "C59": {
  "status": "partial",
  "note": "False of the code: Range[int8](-128,127) panics because last-first wraps (C59_counterexample). C59_range_partial proves it when last-first fits the type and int; C59_panics: on 64-bit platforms every other pair panics; C85_exact: the outcome for every pair of every integer type on both word sizes."
 },
 "C60": {
  "status": "partial",
  "note": "False of the code: float64 Range(1<<53, 1<<53+2) never ends (C60_counterexample); C60_endless shows it for every start from 2^(prec+1). Proved for all integer types, for all floats within 2^prec, and whenever first<last is false (NaN). C60_float_exact gives, for every finite start and every end, the exact condition under which the loop ends; C60_infinite covers infinite starts."
 },
 "C85": {
  "status": "partial",
  "note": "False of the code: Range(1,0) panics (C85_counterexample). Proved for equal bounds and for unsigned types narrower than int; C85_panics and C85_panics_unsigned show that reversed pairs of the other types panic on 64-bit platforms unless the difference overflows; C85_exact gives the outcome for every pair of every integer type on both word sizes."
 },
 "C72": {
  "status": "partial",
  "note": "False of the code: a defined integer type is summed in float64 (C72_counterexample: 1<<53 + 1). C72_sum_partial: exact when elements and partial sums stay within 2^53; C72_small: always for types up to 32 bits and 2^21 elements."
 },
 "C73": {
  "status": "partial",
  "note": "False of the code: for 2^31+1 uint32 maxima the sum fits uint64 but Average converts it to int64 (C73_counterexample); on 32-bit platforms uint sums are cut to 32 bits (C73_word32). C73_average_partial: the truncated mean whenever the sum fits the type Average divides in; C73_average_exact gives the value in every case; C73_panics (panic iff empty) is proved in full."
 },
 "C74": {
  "status": "partial",
  "note": "False of the code: AverageAs[int8] of 256 elements divides by zero (C74_counterexample, C74_wrong). C74_averageAs_partial and C74_defined_partial: right when length and sum fit the result type; C74_averageAs_exact gives the value for predeclared element types in every case; C74_panics: exact panic condition (length a multiple of 2^bits)."
 },
 "C79": {
  "status": "partial",
  "note": "False of the code: a NaN key cannot be deleted (C79_counterexample: set {NaN} has Len 1 after Clear). C79_clear_partial: empty whenever all keys are equal to themselves; C79_survivors: in general exactly the keys not equal to themselves stay."
 },
 "C62": {
  "note": "sort.Sort is library code: its contract (sorts by the given Less/Swap, stays in range) is a hypothesis, met by an insertion sort in Proofs/SortWitness."
 },
 "C63": {
  "note": "sort.Stable's contract is a hypothesis, met by an insertion sort in Proofs/SortWitness."
 },
 "C97": {
  "status": "partial",
  "note": "False of the code: Pop leaves the element in the slot behind the new length (C97_counterexample: Push(5); Pop() keeps 5). C97_slots_partial: every slot is zero or a value put into a queue by the history; C94_pop says which slot. C97_exact: exactly what the unused slots of every queue hold after every history."
 },
 "C100": {
  "status": "partial",
  "note": "False of the code: Push appends within the capacity of the given slice and overwrites what follows it (C100_counterexample). C100_window_partial: writes stay within the capacity and the queue behaves as a multiset; C100_full_partial: the full statement when cap = len."
 },
 "C104": {
  "status": "partial",
  "note": "False of the code: one wrong answer during Remove(2) makes a later Remove(1) index prevs out of range (C104_counterexample); another brings a removed key back (C104_ghost); after two, Find hangs (C104_hang, C104_hang_forever). Without Remove it holds (C127). C104_reads_partial: Find, Has, LowerBound and UpperBound leave the list unchanged and show entries that are there, whatever is answered."
 },
 "C107": {
  "status": "partial",
  "note": "False of the code: RemoveIf has moved kept elements forward, and repeats some of them (C107_counterexample: [1,2,3] without 1 gives 2,2,3); Transform is applied twice to the elements before the panic (C107_counterexample_transform). C107_removeIf_partial and C107_transform_partial give the exact result of the second call; C107_replaceIf_partial: the full statement for ReplaceIf."
 },
 "C113": {
  "status": "partial",
  "note": "False of the code: RemoveIf assigns a part of the old slice to the vector (C113_counterexample); once a push has moved the vector, ForEachMutable passes addresses of the old array (C113_counterexample_mutable). C113_removeIf_partial and C113_forEachMutable_partial give the exact results; C113_forEachMutable_room_partial: the full statement when there is room."
 },
 "C116": {
  "status": "partial",
  "note": "False of the code: popping the element the loop stands on clears its links, and the loop follows them (C116_counterexample; C116_popFront_panics: PopFront in every round panics on every list with an element, the rest of the list stays intact). C116_popBack_partial: PopBack in every round works exactly when the length is even, and what it visits and leaves."
 },
 "C117": {
  "status": "partial",
  "note": "False of the code: Iterate of a list that was never pushed to gives a nil pointer, which is not the end after the first push (C117_counterexample); the same after moving on from a popped element. C117_usable_partial: the full statement, and that a loop from the iterator ends, for histories without pops and without iterators of lists never pushed to."
 },
 "C122": {
  "status": "partial",
  "note": "False of the code: an iterator on a removed entry follows the link the entry had when it was removed, past entries inserted since (C122_counterexample). C122_present_partial: the full statement if the iterator is on an entry of the map; C122_removed: where it goes otherwise."
 },
 "C123": {
  "status": "partial",
  "note": "False of the code: FindRange remembers the first entry after the range; if it is removed, the iterator does not meet it and runs off the list (C123_counterexample); an entry inserted between b and that entry is shown (C123_counterexample_insert). C123_range_partial: as long as that entry is not removed, the iterator always has a key, before that entry exactly as long as IsNotEnd is true."
 },
 "C130": {
  "status": "partial",
  "note": "False of the code: Go leaves open whether a loop over a map produces entries made during the loop, so a callback that inserts a new member every time may go on forever (C130_counterexample, C130_forever), and so may s.Update(s) with a NaN (C130_update_nan). C130_ends_partial: the full statement for callbacks that do not insert into the set of the loop; C130_old: for all callbacks if the runtime does not produce new entries."
 },
 "C132": {
  "status": "partial",
  "note": "False of the code: Clear leaves prevsCache, through which a node of the cleared list and all that follow it stay reachable (C132_counterexample), possibly for ever (C132_leak_stays). C132_no_clear_partial: the full statement for histories without Clear. C132_partial: in all histories only entries that were in the list at an earlier Clear are held besides. C132_remove_partial: what Remove removes is released at once and for good."
 },
 "C141": {
  "status": "partial",
  "note": "False of the code: copies share nodes (C141_counterexample). C141_slist_partial, C141_dlist_partial: the full statement for histories in which no list is relinked while another variable shares its nodes (SList: PushBack and Reverse; DList: any change). C141_slist_pushBack_partial, C141_dlist_shared_partial: outside this condition the copy is wrong every time."
 },
 "C146": {
  "status": "partial",
  "note": "False of the code: the field impl of a copy points to the copied queue (C146_counterexample; C146_shares_partial: after every history). C146_exact_partial: what copies do, in every history. C146_snapshots_partial: the full statement for histories in which copies are not pushed to or popped from and their Top is not read after the copied queue changed."
 },
 "C147": {
  "status": "partial",
  "note": "False of the code: a copy shares the array of elements (C147_counterexample; C147_over_partial, C147_both_partial: after every history). C147_exact_partial: what copies do, in every history. C147_own_partial: the full statement for histories in which no Push within the capacity happens while another stack on the same array reaches higher."
 },
 "C148": {
  "status": "partial",
  "note": "False of the code: a copy shares the nodes and searches through the list (C148_counterexample). C148_shared_partial: what copies and zero values do, in every history in which a copy gets a new key only on levels that both have. C148_panics_partial: after every such history, a new key of a new copy on a higher level makes Remove panic. Missing: what happens after such an insertion, other than to Remove of that key."
 },
 "C150": {
  "status": "partial",
  "note": "False of the code: Remove of an absent key, called by the compare function during Insert, overwrites prevsCache and a later Remove panics (C150_counterexample, C150_damage). C150_reads_partial: compare functions that only look at the list, which may also panic and hang. C150_guarded_partial: with a guard all methods return. C150_endless: the last part of the statement. Missing: compare functions that call Remove."
 },
 "C156": {
  "status": "partial",
  "note": "False of the code: ten times 0.1 as float64 averages to 0.09999999999999999 (C156_counterexample_float), the largest int64 twice to -1 (C156_counterexample_int). C156_int_partial: integers whose sum fits. C156_small_partial: fewer than 2^31 integers of at most 32 bits, without further conditions. C156_integral_partial: integral float64 values with partial sums within 2^53. C156_two_partial: any two floats of either type whose sum does not overflow. Missing: other float slices; C155_average says how far they are off."
 },
 "C166": {
  "status": "partial",
  "note": "False of the code: the list stores the slice, not what it held (C166_counterexample). C166_slices_partial: true if no slice is written while it is a key of the map. C166_ordered_partial: for any compare function that reads changing state, true as long as every change leaves the stored keys in ascending order. C166_intact and C166_recovers hold without such conditions. C175 says what a search finds while the stored keys are out of order."
 }
}