{
 "C18": {
  "status": "partial",
  "note": "False as stated: a range that starts one past the end with a negative stride passes the assertions and selects a non-existent element (C18_counterexample). Proved for all handles whose ranges avoid that one case. C18_exact: necessary and sufficient condition for every accepted view."
 },
 "C42": {
  "status": "partial",
  "note": "The derivations of >, <=, >= are proved in full. Antisymmetry (a<=b and b<=a implies a==b) is false when an extent is zero (C42_antisymmetry_counterexample); proved when shapes agree or one side has no zero extent. C42_antisymmetry_exact: necessary and sufficient condition."
 },
 "C45": {
  "status": "partial",
  "note": "False as stated: index_range::size truncates (C45_counterexample). Proved exact when the stride divides finish-start; otherwise proved to be one too small. C45_size_exact: necessary and sufficient condition."
 },
 "C50": {
  "status": "partial",
  "note": "The claim is false of the code: constructors leak on a throwing element constructor or copy (both counterexamples proved, for all shapes). Proved instead: never undefined behaviour, existing storage untouched, at most the one fresh block remains, nothing remains when allocation itself throws. C50_leak_exact: the block is leaked precisely when the exception is not from the allocation."
 },
 "C54": {
  "status": "partial",
  "note": "False as stated: after reindex a previously obtained subarray is displaced by sum((new base-old base)*stride) over its own dimensions (C54_displacement, exact), and in-range accesses may leave the block (C54_counterexample). Proved: it survives exactly when that displacement is zero."
 },
 "C57": {
  "status": "partial",
  "note": "False as stated, in two ways: a begin() iterator asserts when dereferenced after reindex (C57_counterexample); an iterator over a 2-dimensional array yields a row whose elements are displaced, partly out of the storage, when the bases of the second dimension change (C57_counterexample_two_dimensions). Proved, for iterators over arrays, views and their subarrays and any history of reindex calls: with assertions off the same subarray object results; with assertions on it can be dereferenced exactly when its old index lies in the new index range; the subarray's elements are displaced by one distance, and are the same exactly when it is 0."
 },
 "C58": {
  "status": "partial",
  "note": "False as stated: a subarray of a temporary view dangles once the view is gone (C58_counterexample_temporary_view). Proved: a subarray depends on nothing but the object it was taken from. C58_exact: usable precisely while that object exists."
 },
 "C59": {
  "status": "partial",
  "note": "False as stated: multi_array_ref's implicit copy constructor accepts a const multi_array (C59_counterexample_const_array); const sub_array leaks a mutable pointer through its base class and by copying. Proved for const_multi_array_ref, const_subarray, const_array_view and the const iterators. C59_exact: exactly which expression types cannot reach mutable access."
 },
 "C68": {
  "status": "partial",
  "note": "False as stated: origin() of a one-based array lies before the storage and every access starts from it (C68_counterexample_one_based); an empty Fortran-order array forms a[2] past its empty storage (C68_counterexample_empty_fortran). Proved: for every array, subarray and view whose index ranges contain 0, for every newly created non-empty view, and for all zero-based C-order arrays including empty ones. C68_origin_exact: necessary and sufficient condition for every array."
 }
}