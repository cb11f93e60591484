{
 "C02": {
  "note": "False of the code: mu_bisync_decode copies the SOH into the output (C02_false). Proved: decoding an encoded payload gives SOH followed by the payload, always. Exact behaviour: C63."
 },
 "C04": {
  "note": "False of the code: [SOH, DLE, EOT] is accepted (C04_false). Proved: the exact set of accepted inputs. See C64."
 },
 "C17": {
  "note": "False of the code: deleting an item that is not the last leaves the count unchanged and reads past the used part (C17_delete_false), outside the storage if the array is full (C17_delete_oob_false). Proved: correct exactly for the last item and out-of-range indices. Exact behaviour: C65."
 },
 "C19": {
  "note": "False for one item where size_t is as wide as int: signed overflow in heapify (C19_sort_single_item_false). Proved in every other case (up to (INT_MAX+1)/2 items). See C66."
 },
 "C20": {
  "note": "As C19: false only for one item where size_t is as wide as int; proved in every other case. See C67."
 },
 "C35": {
  "note": "False of the code: the hook is called and the state written even if the new state equals the old (C35_no_effect_if_equal_false). Proved: everything else. Exact behaviour: C68."
 },
 "C39": {
  "note": "False of the code for start or end below -capacity (C39_false). Proved for indices from -capacity up. Exact behaviour: C69."
 },
 "C40": {
  "note": "False of the code for an index below -capacity (C40_false). Proved from -capacity up. Exact behaviour: C70."
 },
 "C44": {
  "note": "False of the code: if every byte matches, the whole buffer is returned (C44_false). Proved if some byte does not match. Exact behaviour: C71."
 },
 "C45": {
  "note": "False of the code: rtrim also drops the last byte that does not match, and returns everything if all match (C45_rtrim_false). Proved: what it returns. Exact behaviour: C72."
 },
 "C47": {
  "note": "False of the code: the text of the least value of a type at least as wide as int overflows (C47_false). Proved: all values that do not overflow, and the modular result of the narrow types. Exact behaviour: C73."
 },
 "C50": {
  "note": "False of the code: every path that copies reads uninitialised variables (C50_false). Proved: only the paths that copy nothing are defined. Exact behaviour: C74."
 },
 "C51": {
  "note": "Proved for every non-empty buffer; for an empty one the code forms a pointer before the buffer (C51_empty_false). Exact: C75."
 },
 "C52": {
  "note": "Proved for every non-empty buffer; for an empty one the code does not terminate (C52_empty_false). Exact: C76."
 },
 "C53": {
  "note": "Proved for every shift except INT_MIN, which the code negates (C53_int_min_false). Exact: C77."
 },
 "C56": {
  "note": "Domain: nesting below max_level, fewer items per level than SIZE_MAX (C56_item_limit shows what happens otherwise)."
 },
 "C58": {
  "note": "max_level 0 is undefined behaviour (C58_zero_levels); everything else is safe at every depth."
 },
 "C86": {
  "note": "Includes the negative part: with a producer on another core during the reset, a task can run twice (C86_concurrent_reset_stale)."
 },
 "C42": {
  "note": "NOT_FOUND characterises absence for capacities below INT_MAX; at exactly INT_MAX a found position can equal MU_BBUF_NOT_FOUND."
 },
 "C01": {
  "note": "Includes that a capacity above INT_MAX is converted modulo 2^ib (C01_large_capacity_refused)."
 },
 "C79": {
  "note": "Store buffers are FIFO per thread (x86-TSO). With reordered stores FIFO fails: swapped_stores_break_fifo in Props/SpscTso."
 }
}