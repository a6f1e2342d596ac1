{
 "m09": [
  "C44_single_setters",
  "C44_strided_meaning",
  "C44_shift"
 ],
 "m13": [
  "C10_handle_address",
  "C01_brackets_in_block",
  "C02_brackets_distinct",
  "C03_brackets_every_element"
 ],
 "n47": [
  "C30_multi_array_assignment",
  "C31_multi_array_assignment",
  "C32_multi_array_self_assignment"
 ],
 "n50": [
  "C57_iterators"
 ],
 "n55": [
  "C55_const_preserved (ReadOnly now includes const views)",
  "C55_const_subarray_members"
 ],
 "n67": [
  "hazard theorem in Props/MachineIt"
 ],
 "p13": [
  "C62_schedule_independence and C62_no_data_race (threads may now call assign(first,last))"
 ],
 "p21": [
  "C11_view_reindex_relabels"
 ],
 "p22": [
  "C11_view_reindex_relabels"
 ],
 "p43": [
  "C58_held_subarray_is_the_expression_partial"
 ],
 "m31": [
  "C11_view_reindex_relabels"
 ],
 "r36": [
  "C29_reverse_iterator_laws",
  "C75_algorithms_on_rows"
 ],
 "r08": [
  "C58_held_subarray_is_the_expression_partial"
 ],
 "r45": [
  "C06_view_members",
  "C07_members_checked"
 ],
 "r49": [
  "C16_slice_members"
 ],
 "r58": [
  "C43_extent_range_forms"
 ],
 "r60": [
  "C44_set_index_range"
 ],
 "r61": [
  "C44_set_index_range"
 ],
 "s35": [
  "C21_all_view"
 ]
}