{
 "claims": [
  {
   "property": "C01",
   "status": "proved",
   "theorems": [
    "Ustl.Search.bounds_memory_safe",
    "Ustl.Search.lower_bound_spec",
    "Ustl.Search.lower_bound_spec_partitioned",
    "Ustl.Search.upper_bound_spec",
    "Ustl.Search.equal_range_spec"
   ],
   "note": ""
  },
  {
   "property": "C02",
   "status": "partial",
   "theorems": [
    "Ustl.Search.binary_search_spec",
    "Ustl.Search.binary_search_comp_partial",
    "Ustl.Search.binary_search_comp_violated"
   ],
   "note": "The overload without comparison object is fully proved; the overload with one is false as stated (it returns true whenever lower_bound is not last): witness binary_search_comp_violated."
  },
  {
   "property": "C03",
   "status": "proved",
   "theorems": [
    "Ustl.Heap.make_heap_spec",
    "Ustl.Heap.push_heap_spec",
    "Ustl.Heap.pop_heap_spec",
    "Ustl.Heap.sort_heap_spec",
    "Ustl.Heap.make_then_sort_heap",
    "Ustl.Heap.is_heap_spec"
   ],
   "note": ""
  },
  {
   "property": "C04",
   "status": "partial",
   "theorems": [
    "Ustl.Heap.priority_queue_partial",
    "Ustl.Heap.priority_queue_comp_violated",
    "Ustl.Heap.priority_queue_range_container_partial",
    "Ustl.Heap.priority_queue_container_partial",
    "Ustl.Heap.priority_queue_container_violated",
    "Ustl.Heap.priority_queue_pushes"
   ],
   "note": "Proved when the comparison object agrees with operator<; false otherwise because pop() ignores the comparison object. The constructor from a container alone does not make a heap: proved for containers that are heaps already, refuted for others."
  },
  {
   "property": "C05",
   "status": "proved",
   "theorems": [
    "Ustl.Permute.stable_sort_spec"
   ],
   "note": ""
  },
  {
   "property": "C06",
   "status": "partial",
   "theorems": [
    "Ustl.Permute.reverse_spec",
    "Ustl.Permute.reverse_copy_spec",
    "Ustl.Permute.rotate_spec_partial",
    "Ustl.Permute.rotate_result_violated",
    "Ustl.Permute.rotate_copy_spec",
    "Ustl.Permute.swap_ranges_spec",
    "Ustl.Bytes.rotate_fast_spec",
    "Ustl.Bytes.rotate_fast_x86_partial",
    "Ustl.Bytes.rotate_fast_x86_violated"
   ],
   "note": "Generic, triple-reverse and scratch-buffer paths proved; on x86 the scratch-buffer path is proved except for the byte ranges on which copy_backward_fast is wrong (witness rotate_fast_x86_violated). The generic rotate's return value is wrong (rotate_result_violated)."
  },
  {
   "property": "C07",
   "status": "proved",
   "theorems": [
    "Ustl.Permute.stable_partition_spec",
    "Ustl.Permute.partition_boundary"
   ],
   "note": ""
  },
  {
   "property": "C08",
   "status": "partial",
   "theorems": [
    "Ustl.Permute.merge_spec_partial",
    "Ustl.Permute.inplace_merge_eq_merge",
    "Ustl.Permute.inplace_merge_spec_partial",
    "Ustl.Permute.merge_stability_violated"
   ],
   "note": "Everything but stability is proved; stability is false (equivalent elements of the second range come first)."
  },
  {
   "property": "C09",
   "status": "proved",
   "theorems": [
    "Ustl.SetOps.includes_spec",
    "Ustl.SetOps.set_union_spec",
    "Ustl.SetOps.set_intersection_spec",
    "Ustl.SetOps.set_difference_spec",
    "Ustl.SetOps.set_symmetric_difference_spec"
   ],
   "note": ""
  },
  {
   "property": "C10",
   "status": "proved",
   "theorems": [
    "Ustl.Permute.next_permutation_spec",
    "Ustl.Permute.prev_permutation_spec"
   ],
   "note": ""
  },
  {
   "property": "C100",
   "status": "partial",
   "theorems": [
    "Ustl.Pipe.os_from_is",
    "Ustl.Pipe.os_from_os",
    "Ustl.Pipe.is_of_os",
    "Ustl.Pipe.read_partial",
    "Ustl.Pipe.read_loses_violated",
    "Ustl.Pipe.read_all",
    "Ustl.Pipe.text_of_stream",
    "Ustl.Pipe.text_of_file_violated"
   ],
   "note": "Right for memory streams with room, and without room if the output stream throws. Refuted: os.read (is) with exceptions off and no room skips all input, which is then in neither stream; os << is with an ifstream writes only what is in its buffer, so nothing of a file just opened."
  },
  {
   "property": "C101",
   "status": "partial",
   "theorems": [
    "Ustl.Vector.assign_own_partial",
    "Ustl.Vector.assign_piece_violated",
    "Ustl.Vector.assign_pod_partial",
    "Ustl.Vector.assign_value_partial",
    "Ustl.Vector.assign_value_pod_partial",
    "Ustl.Vector.assign_value_violated",
    "Ustl.Vector.assign_value_room_violated",
    "Ustl.Vector.push_back_own_partial",
    "Ustl.Vector.push_back_own_violated",
    "Ustl.Vector.resize_own_shrink_partial",
    "Ustl.Vector.resize_own_partial",
    "Ustl.Vector.resize_own_violated",
    "Ustl.Vector.insert_own_partial",
    "Ustl.Vector.insert_value_partial",
    "Ustl.Vector.insert_after_violated",
    "Ustl.Vector.insert_value_after_violated",
    "Ustl.Vector.insert_across_violated",
    "Ustl.Vector.insert_hole_violated",
    "Ustl.Vector.insert_own_room_violated"
   ],
   "note": "Right with room if the source is before the place (insert), is kept by the resize (assign), or anywhere (push_back, resize). Refuted for everything else: without room the source is read from a freed block; assign of a range that does not begin at the beginning reads destroyed elements (not for pod types); insert reads the wrong elements, the hole, or its own output."
  },
  {
   "property": "C102",
   "status": "partial",
   "theorems": [
    "Ustl.Text.Copy.streams_are_values_partial",
    "Ustl.Text.Copy.streams_no_ub_partial",
    "Ustl.Text.Copy.streams_step",
    "Ustl.Text.Copy.streams_no_leak",
    "Ustl.Text.Copy.swap_exchanges",
    "Ustl.Text.Copy.self_assign_violated",
    "Ustl.Text.Copy.copy_after_number_violated",
    "Ustl.Text.Copy.copy_outlives_violated",
    "Ustl.Text.Copy.assign_after_number_violated",
    "Ustl.Text.Copy.member_swap_violated"
   ],
   "note": "For all histories of streams that text and numbers are written to (from the default constructor or str (v)); copies of a stream a number was written to show the right text, but are not written to. Refuted: a copy of a stream a number was written to writes into the memory of the original (and into freed memory after it); what is written after str () behind a number is not assigned by b = a; os = os empties the stream; a.swap (b) exchanges positions but not texts."
  },
  {
   "property": "C103",
   "status": "partial",
   "theorems": [
    "Ustl.Fds.files_partial",
    "Ustl.Fds.all_closed_partial",
    "Ustl.Fds.close_forgets",
    "Ustl.Fds.copy_violated",
    "Ustl.Fds.copy_writes_violated",
    "Ustl.Fds.copy_crosses_violated",
    "Ustl.Fds.assign_violated",
    "Ustl.Fds.assign_leaks_violated"
   ],
   "note": "Refinement: programs without plain copies, with files handed over by copy and detach, behave as if every object had its file itself. Refuted for plain copies and assignments: the descriptor is closed twice and the assertion in the destructor fails; text goes to the file of another object; the file an object had is never closed. Writes are complete and calls fail only for descriptors that are not open (short, interrupted and failing calls: C44, C60)."
  },
  {
   "property": "C104",
   "status": "partial",
   "theorems": [
    "Ustl.New.new_delete_partial",
    "Ustl.New.new_throws_spec",
    "Ustl.New.new_zero_violated"
   ],
   "note": "Refinement to objects that have nothing to do with each other, for every standard malloc. Refuted: new of 0 bytes throws where malloc (0) returns a null pointer, as C allows. Not modelled: alignment, placement new (returns its argument), new handlers (the library has none: new throws at the first failure)."
  },
  {
   "property": "C11",
   "status": "partial",
   "theorems": [
    "Ustl.Forward.copy_if_spec",
    "Ustl.Forward.remove_copy_if_spec",
    "Ustl.Forward.remove_copy_iters_spec",
    "Ustl.Forward.remove_if_spec",
    "Ustl.Forward.unique_copy_spec",
    "Ustl.Forward.unique_spec",
    "Ustl.Forward.runHeads_no_repeat",
    "Ustl.Forward.replace_if_spec",
    "Ustl.Forward.transform_spec",
    "Ustl.Forward.transform2_spec",
    "Ustl.Forward.for_each_spec",
    "Ustl.Forward.generate_spec",
    "Ustl.Forward.replace_copy_violated"
   ],
   "note": "All proved except replace_copy/replace_copy_if, whose every call is undefined behaviour (missing return)."
  },
  {
   "property": "C12",
   "status": "proved",
   "theorems": [
    "Ustl.Forward.find_if_spec",
    "Ustl.Forward.find_first_of_spec",
    "Ustl.Forward.count_if_spec",
    "Ustl.Forward.adjacent_find_spec",
    "Ustl.Forward.mismatch_spec",
    "Ustl.Forward.equal_spec",
    "Ustl.Forward.lexicographical_compare_spec"
   ],
   "note": ""
  },
  {
   "property": "C13",
   "status": "partial",
   "theorems": [
    "Ustl.Forward.search_spec",
    "Ustl.Forward.find_end_partial",
    "Ustl.Forward.find_end_violated",
    "Ustl.Forward.search_n_partial",
    "Ustl.Forward.search_n_zero_violated"
   ],
   "note": "search fully; find_end misses an occurrence at the first position (witness); search_n proved for positive counts, false for 0."
  },
  {
   "property": "C14",
   "status": "proved",
   "theorems": [
    "Ustl.Permute.random_shuffle_spec"
   ],
   "note": ""
  },
  {
   "property": "C15",
   "status": "proved",
   "theorems": [
    "Ustl.Permute.partial_sort_spec",
    "Ustl.Permute.nth_element_spec",
    "Ustl.Permute.partial_sort_copy_spec"
   ],
   "note": "nth_element with a comparison object calls sort (libc qsort), which is outside the model."
  },
  {
   "property": "C16",
   "status": "proved",
   "theorems": [
    "Ustl.Forward.is_sorted_spec",
    "Ustl.Forward.max_element_spec",
    "Ustl.Forward.min_element_spec",
    "Ustl.Forward.extrema_empty",
    "Ustl.Forward.minmax_element_spec",
    "Ustl.Forward.min_max_spec",
    "Ustl.Forward.clamp_spec"
   ],
   "note": ""
  },
  {
   "property": "C17",
   "status": "partial",
   "theorems": [
    "Ustl.Forward.accumulate_spec",
    "Ustl.Forward.inner_product_spec",
    "Ustl.Forward.iota_spec",
    "Ustl.Forward.power_spec",
    "Ustl.Forward.partial_sum_partial",
    "Ustl.Forward.partial_sum_order_violated",
    "Ustl.Forward.adjacent_difference_violated"
   ],
   "note": "accumulate, inner_product, iota, power proved; partial_sum depends on an unsequenced evaluation order in C++14; adjacent_difference never terminates on two or more elements."
  },
  {
   "property": "C18",
   "status": "partial",
   "theorems": [
    "Ustl.Memblock.memblock_history_partial",
    "Ustl.Memblock.memblock_no_ub_partial",
    "Ustl.Memblock.step_ok",
    "Ustl.Memblock.reserve_linked_violated",
    "Ustl.Memblock.self_assign_violated",
    "Ustl.Memblock.rotate_generic_ok",
    "Ustl.Memblock.rotate_fast_ok"
   ],
   "note": "Every history within the stated preconditions refines byte strings; outside them the code is wrong (witnesses)."
  },
  {
   "property": "C19",
   "status": "partial",
   "theorems": [
    "Ustl.Memblock.memblock_ownership_partial",
    "Ustl.Memblock.memblock_no_ub_partial",
    "Ustl.Memblock.step_no_leak",
    "Ustl.Memblock.memblock_no_leak"
   ],
   "note": "No double free, no shared ownership, no write to foreign memory, in every history; no leak provided link/unlink is not applied to an owner (which leaks by design)."
  },
  {
   "property": "C20",
   "status": "partial",
   "theorems": [
    "Ustl.Memblock.reserve_room_partial",
    "Ustl.Memblock.resize_room",
    "Ustl.Memblock.reserve_wraps_violated"
   ],
   "note": "Proved for requests up to 2^31; above that NextPow2 wraps (witness)."
  },
  {
   "property": "C21",
   "status": "partial",
   "theorems": [
    "Ustl.Memblock.copy_link_partial",
    "Ustl.Memblock.copy_link_overread_violated"
   ],
   "note": "copy_link reads one byte beyond the linked range; proved when that byte exists, witness otherwise."
  },
  {
   "property": "C22",
   "status": "partial",
   "theorems": [
    "Ustl.Vector.vector_history_partial",
    "Ustl.Vector.vector_no_ub_partial",
    "Ustl.Vector.vector_no_leak",
    "Ustl.Vector.vector_capacity_mono",
    "Ustl.Vector.vector_step",
    "Ustl.Vector.append_stable",
    "Ustl.Vector.push_back_alias_violated",
    "Ustl.Vector.insert_alias_violated"
   ],
   "note": "All histories over any number of vectors and element sizes, with arbitrary allocation failures, at byte level with live/raw cells. Excluded: requests above 2^31 bytes, linked vectors, and arguments aliasing the vector (witnesses show the code is wrong there)."
  },
  {
   "property": "C23",
   "status": "partial",
   "theorems": [
    "Ustl.Str.string_terminated_partial",
    "Ustl.Str.format_throw_violated",
    "Ustl.Str.shrink_to_fit_violated",
    "Ustl.Str.moved_from_violated"
   ],
   "note": "All histories of constructors, editing calls, swap and destruction over any number of strings with arbitrary allocation failures. Excluded: shrink_to_fit, moved-from strings, format interrupted by bad_alloc (witnesses show the claim is false there)."
  },
  {
   "property": "C24",
   "status": "partial",
   "theorems": [
    "Ustl.Str.string_history_partial",
    "Ustl.Str.string_no_ub_partial",
    "Ustl.Str.string_no_leak",
    "Ustl.Str.string_step",
    "Ustl.Str.string_copy_out",
    "Ustl.Str.append_self_violated",
    "Ustl.Str.assign_self_violated",
    "Ustl.Str.substr_wrap_violated",
    "Ustl.Str.replace_linked_violated",
    "Ustl.Str.erase_pos_violated",
    "Ustl.Str.insert_str_violated",
    "Ustl.Str.concat_spec",
    "Ustl.Str.concatPtr_spec",
    "Ustl.Str.copyto_partial",
    "Ustl.Str.copyto_violated"
   ],
   "note": "All histories. Includes substr and the calls that take another string (or the string itself). Excluded: self-sources that the call moves or overwrites, insert of a string argument, erase beyond the end, same-length replace in a linked string, requests above 2^31 (witnesses given). operator+ (both forms) and copyto are separate theorems; copyto with no room writes the whole string."
  },
  {
   "property": "C25",
   "status": "partial",
   "theorems": [
    "Ustl.StrFind.find_char_first",
    "Ustl.StrFind.find_str_first_partial",
    "Ustl.StrFind.find_first_of_first",
    "Ustl.StrFind.find_first_not_of_first",
    "Ustl.StrFind.find_empty_violated"
   ],
   "note": "All texts, needles and positions; only the empty needle deviates."
  },
  {
   "property": "C26",
   "status": "partial",
   "theorems": [
    "Ustl.StrFind.rfind_char_last_partial",
    "Ustl.StrFind.find_last_of_last_partial",
    "Ustl.StrFind.find_last_not_of_last_partial",
    "Ustl.StrFind.rfind_str_last_partial",
    "Ustl.StrFind.rfind_char_empty_violated",
    "Ustl.StrFind.rfind_str_start_violated",
    "Ustl.StrFind.rfind_str_empty_violated"
   ],
   "note": "The code violates the property on empty strings, for needles at index 0 or 1 and for empty needles; the rest is proved."
  },
  {
   "property": "C27",
   "status": "partial",
   "theorems": [
    "Ustl.StrFind.compare_lex_partial",
    "Ustl.StrFind.eq_iff",
    "Ustl.StrFind.order_partial",
    "Ustl.StrFind.compare_long_violated",
    "Ustl.StrFind.compare_part_partial",
    "Ustl.StrFind.compare_part_violated",
    "Ustl.StrFind.ptr_cmp_partial",
    "Ustl.StrFind.ptr_le_violated"
   ],
   "note": "Any memcmp meeting the C standard; strings below 2^31 characters (longer ones violate it). Includes parts of strings, C strings on either side and characters; \"cs <= s\" and \"cs >= s\" compare addresses, a count of SIZE_MAX makes a negative range."
  },
  {
   "property": "C28",
   "status": "proved",
   "theorems": [
    "Ustl.Utf8.utf8Bytes_builds",
    "Ustl.Utf8.out_is_table",
    "Ustl.Utf8.out_size",
    "Ustl.Utf8.outAll_size",
    "Ustl.Utf8.read_back",
    "Ustl.Utf8.prefix_free",
    "Ustl.Utf8.text_injective",
    "Ustl.Utf8.out_big_violated"
   ],
   "note": "Every value below 2^31 in any surrounding memory, both builds of Utf8Bytes. Values from 2^31 are outside the claim (undefined shift)."
  },
  {
   "property": "C29",
   "status": "proved",
   "theorems": [
    "Ustl.Utf8.length_chars",
    "Ustl.Utf8.iterate_chars",
    "Ustl.Utf8.wiat_begins",
    "Ustl.Utf8.any_bytes_safe",
    "Ustl.Utf8.insertWide_eq",
    "Ustl.Utf8.insertWides_text",
    "Ustl.Utf8.truncated_differs"
   ],
   "note": "All sequences of values below 2^31 (zero included), and memory safety for arbitrary bytes."
  },
  {
   "property": "C30",
   "status": "proved",
   "theorems": [
    "Ustl.Assoc.set_history",
    "Ustl.Assoc.set_progress",
    "Ustl.Assoc.set_insert_result",
    "Ustl.Assoc.set_find_count",
    "Ustl.Assoc.set_bounds",
    "Ustl.Assoc.set_ctor_n_violated",
    "Ustl.Assoc.set_find_equiv_violated"
   ],
   "note": "Every history from the empty set, any linear order. The size constructor set(n) builds n equal keys (set_ctor_n_violated), and find uses == so it can miss an equivalent key of a non-linear order (set_find_equiv_violated); both are outside the claim."
  },
  {
   "property": "C31",
   "status": "proved",
   "theorems": [
    "Ustl.Assoc.multi_history",
    "Ustl.Assoc.multi_progress",
    "Ustl.Assoc.multi_count_range",
    "Ustl.Assoc.multi_insert_last",
    "Ustl.Assoc.multiset_erase_count",
    "Ustl.Assoc.multiset_find",
    "Ustl.Assoc.multiset_multiplicity"
   ],
   "note": "Every history; any strict weak order except for find, which needs == to agree with equivalence."
  },
  {
   "property": "C32",
   "status": "proved",
   "theorems": [
    "Ustl.Assoc.map_history",
    "Ustl.Assoc.map_progress",
    "Ustl.Assoc.map_lookup",
    "Ustl.Assoc.map_insert_result",
    "Ustl.Assoc.map_index_result",
    "Ustl.Assoc.find_data_first"
   ],
   "note": "Every history, any linear order on keys, any value type."
  },
  {
   "property": "C33",
   "status": "proved",
   "theorems": [
    "Ustl.Assoc.multi_history",
    "Ustl.Assoc.multi_progress",
    "Ustl.Assoc.multi_count_range",
    "Ustl.Assoc.multi_insert_last",
    "Ustl.Assoc.multimap_find"
   ],
   "note": "Every history, any strict weak order."
  },
  {
   "property": "C34",
   "status": "partial",
   "theorems": [
    "Ustl.Seq.queue_history_partial",
    "Ustl.Seq.queue_progress",
    "Ustl.Seq.queue_memory",
    "Ustl.Seq.queue_copy_shows",
    "Ustl.Seq.queue_copy_violated",
    "Ustl.Seq.queue_eq_violated"
   ],
   "note": "Proved for all histories of push, pop, construction and move over any number of queues. False for copies: the copy constructor resets the front index, so popped elements reappear (queue_copy_violated); == also looks at popped elements."
  },
  {
   "property": "C35",
   "status": "proved",
   "theorems": [
    "Ustl.Seq.stack_history",
    "Ustl.Seq.stack_progress"
   ],
   "note": "All histories over any number of stacks, with copies and moves. swap and move assignment do not compile and are not modelled."
  },
  {
   "property": "C36",
   "status": "partial",
   "theorems": [
    "Ustl.Seq.list_front_ops",
    "Ustl.Seq.list_remove_if",
    "Ustl.Seq.list_remove_partial",
    "Ustl.Seq.list_remove_ref_violated",
    "Ustl.Seq.list_unique",
    "Ustl.Seq.list_reverse",
    "Ustl.Seq.list_merge_eq",
    "Ustl.Seq.list_merge",
    "Ustl.Seq.list_splice",
    "Ustl.Seq.qsortAdapter_consistent",
    "Ustl.Seq.list_sort",
    "Ustl.Seq.list_merge_self_violated",
    "Ustl.Seq.list_splice_self_partial",
    "Ustl.Seq.list_splice_self_full_violated",
    "Ustl.Seq.list_splice_self_violated"
   ],
   "note": "All lists and positions; sort for any qsort meeting C's contract. remove(v) is wrong when v is a reference into the list (list_remove_ref_violated). A list merged with itself gets as many unrelated elements in front; a range spliced within one list is moved correctly only to a later place and only if the block has room: to an earlier place another element is moved, and with a full block the freed block is read."
  },
  {
   "property": "C37",
   "status": "partial",
   "theorems": [
    "Ustl.Bitset.bitset_bits",
    "Ustl.Bitset.bitset_at_range",
    "Ustl.Bitset.bitset_whole_words",
    "Ustl.Bitset.bitset_whole_partial",
    "Ustl.Bitset.bitset_progress",
    "Ustl.Bitset.bitset_padding_violated",
    "Ustl.Bitset.setRange_violated"
   ],
   "note": "Single-bit operations, test, to_string and ranges for all sizes and histories; whole-set operations for all sizes and histories without set()/flip()/~, and for all histories when the size is a multiple of 32. Otherwise false: set()/flip()/~ set the padding bits of the last word (bitset_padding_violated). Ranged set only ORs (setRange_violated)."
  },
  {
   "property": "C38",
   "status": "partial",
   "theorems": [
    "Ustl.Stream.round_trip",
    "Ustl.Stream.round_trip_room",
    "Ustl.Stream.round_trip_violated"
   ],
   "note": "Any sequence of values of any nesting of integers, bool, raw types, strings, blocks, pairs, arrays and vectors (sets, maps) whose element types have no hidden padding trouble (Good) reads back equal, and for every type when enough bytes follow. Otherwise false: a map<uint32_t,uint64_t> with one entry cannot be read back from what it wrote (round_trip_violated)."
  },
  {
   "property": "C39",
   "status": "partial",
   "theorems": [
    "Ustl.Stream.stream_size_exact",
    "Ustl.Stream.stream_size_violated",
    "Ustl.Stream.align_base_violated"
   ],
   "note": "stream_size equals the bytes written for every Good type and value at a suitably aligned position. False for e.g. map<uint64_t,uint64_t> (stream_size_violated), and when the block's address is not 8-aligned (align_base_violated)."
  },
  {
   "property": "C40",
   "status": "partial",
   "theorems": [
    "Ustl.Stream.istream_safe",
    "Ustl.Stream.read_exact",
    "Ustl.Stream.read_beyond",
    "Ustl.Stream.readsome_exact",
    "Ustl.Stream.readsome_short",
    "Ustl.Stream.vector_read_bounded",
    "Ustl.Stream.string_read_bounded",
    "Ustl.Stream.string_read_refused",
    "Ustl.Stream.memblock_read_bounded",
    "Ustl.Stream.readStrz_inside",
    "Ustl.Stream.readStrz_violated"
   ],
   "note": "All operations except read_strz, in any sequence, on any bytes; read_strz when not at the end. read_strz at the end moves the position past the end and the next read leaves the block (readStrz_violated)."
  },
  {
   "property": "C41",
   "status": "partial",
   "theorems": [
    "Ustl.Stream.ostream_safe",
    "Ustl.Stream.write_exact",
    "Ustl.Stream.write_beyond",
    "Ustl.Stream.insert_exact",
    "Ustl.Stream.erase_exact",
    "Ustl.Stream.insert_violated"
   ],
   "note": "All operations in any sequence; insert and erase only when they fit and keep the position inside, since they check nothing (insert_violated)."
  },
  {
   "property": "C42",
   "status": "partial",
   "theorems": [
    "Ustl.Text.writeInt_partial",
    "Ustl.Text.int_roundtrip_partial",
    "Ustl.Text.ints_roundtrip_partial",
    "Ustl.Text.reads_default",
    "Ustl.Text.unsigned_violated",
    "Ustl.Text.negative_hex_violated",
    "Ustl.Text.zero_fill_violated",
    "Ustl.Text.width_violated",
    "Ustl.Text.width_left_violated"
   ],
   "note": "Round trip proved for every integer type, base and list with no width. False of the code: unsigned long from 2^63, negative long in hex or octal, zero fill, widths of two digits, width with left; each has a _violated theorem. vsnprintf and strtol are modelled from the C standard; floating point is not modelled."
  },
  {
   "property": "C43",
   "status": "partial",
   "theorems": [
    "Ustl.Text.readChar_spec",
    "Ustl.Text.readWord_partial",
    "Ustl.Text.readQuoted_partial",
    "Ustl.Text.readString_violated",
    "Ustl.Text.getStr_spec",
    "Ustl.Text.getline_spec",
    "Ustl.Text.getlines_spec",
    "Ustl.Text.getBuf_spec",
    "Ustl.Text.getlineBuf_spec",
    "Ustl.Text.getBuf_violated",
    "Ustl.Text.readBlock_spec",
    "Ustl.Text.readBlock_violated",
    "Ustl.Text.get_peek_spec",
    "Ustl.Text.peek_violated",
    "Ustl.Text.ignore_partial",
    "Ustl.Text.ignore_violated",
    "Ustl.Text.reading_safe_partial",
    "Ustl.Text.readInt_violated",
    "Ustl.Text.readBool_violated",
    "Ustl.Text.delimiters_spec",
    "Ustl.Text.default_delimiters",
    "Ustl.Text.read_wchar",
    "Ustl.Text.read_bool_partial",
    "Ustl.Text.read_bool_digit",
    "Ustl.Text.read_bool_end_violated"
   ],
   "note": "Characters, words, quoted texts, lines and blocks are read as specified, and any history of reads on a C string stays inside it. False of the code: escaped backslashes, peek at the end, gcount after ignore, short block reads, zero-byte buffers, numbers at the end of unterminated text, bool in text with zeros (see the _violated theorems). A boolean at the very end of the text leaves its last letter unread (read_bool_end_violated)."
  },
  {
   "property": "C44",
   "status": "partial",
   "theorems": [
    "Ustl.File.write_spec",
    "Ustl.File.write_ends",
    "Ustl.File.read_spec",
    "Ustl.File.read_ends",
    "Ustl.File.readsome_violated"
   ],
   "note": "write and read proved for every pattern of answers (short, EINTR, EAGAIN, error, end of file) and shown to end. False for readsome(p, 0), which reports the end of file."
  },
  {
   "property": "C45",
   "status": "partial",
   "theorems": [
    "Ustl.Util.align_spec",
    "Ustl.Util.alignDown_spec",
    "Ustl.Util.align_violated",
    "Ustl.Util.alignDown_signed",
    "Ustl.Util.alignDown_signed_violated",
    "Ustl.Util.divRU_nonneg",
    "Ustl.Util.divRU_neg",
    "Ustl.Util.divRU_unsigned",
    "Ustl.Util.divRU_violated",
    "Ustl.Util.firstBit_spec",
    "Ustl.Util.nextPow2_spec",
    "Ustl.Util.nextPow2_violated"
   ],
   "note": "Proved for every input whose intermediate sum fits. False as stated otherwise: Align wraps (align_violated), AlignDown of a negative number with a grain that is not a power of two (alignDown_signed_violated), DivRU of negatives or near the top (divRU_violated), NextPow2 of 0, 1 and above 2^31 (nextPow2_violated)."
  },
  {
   "property": "C46",
   "status": "partial",
   "theorems": [
    "Ustl.Util.gcd_spec",
    "Ustl.Util.lcm_spec",
    "Ustl.Util.lcm_violated",
    "Ustl.Util.absv_spec",
    "Ustl.Util.bswap_spec",
    "Ustl.Util.bswap_byte",
    "Ustl.Util.rotate_bits",
    "Ustl.Util.rol_ror_inverse",
    "Ustl.Util.rotate_zero_violated",
    "Ustl.Util.packType_spec",
    "Ustl.Util.popcount32_spec",
    "Ustl.Util.popcount64_spec"
   ],
   "note": "All values, except: lcm of a negative number is negative and lcm(0,0) divides by zero (lcm_violated); Rol/Ror by 0 shift by the full width (rotate_zero_violated)."
  },
  {
   "property": "C47",
   "status": "proved",
   "theorems": [
    "Ustl.Chrono.mkRatio_spec",
    "Ustl.Chrono.mkRatio_total",
    "Ustl.Chrono.ratioAdd_spec",
    "Ustl.Chrono.ratioSub_spec",
    "Ustl.Chrono.ratioMul_spec",
    "Ustl.Chrono.ratioDiv_spec",
    "Ustl.Chrono.ratio_compare",
    "Ustl.Chrono.ratio_total"
   ],
   "note": "A ratio that compiles (no 64-bit overflow in the constant expressions) is the exact rational, reduced, with positive denominator; and everything compiles for parts of 31 bits."
  },
  {
   "property": "C48",
   "status": "partial",
   "theorems": [
    "Ustl.Chrono.add_spec",
    "Ustl.Chrono.sub_spec",
    "Ustl.Chrono.dec_spec",
    "Ustl.Chrono.add_sub_total",
    "Ustl.Chrono.inc_spec_partial",
    "Ustl.Chrono.inc_violated",
    "Ustl.Chrono.mul_spec_partial",
    "Ustl.Chrono.mul_violated",
    "Ustl.Chrono.neg_spec_partial",
    "Ustl.Chrono.div_spec_partial",
    "Ustl.Chrono.div_violated",
    "Ustl.Chrono.compare_spec",
    "Ustl.Chrono.ofInt_spec",
    "Ustl.Chrono.durationCast_spec",
    "Ustl.Chrono.durationCast64",
    "Ustl.Chrono.durationCast_violated",
    "Ustl.Chrono.hrCast_spec_partial",
    "Ustl.Chrono.hrCast_violated",
    "Ustl.Chrono.inc_many_partial"
   ],
   "note": "+, -, -- and comparisons are right. False as stated: ++ leaves 10^9 nanoseconds at the end of a second (inc_violated), * by a negative and unary minus leave negative nanoseconds, / adds the undivided remainder of the seconds whenever the divisor does not divide them (div_violated, for all such inputs), duration_cast truncates to a narrow type first (durationCast_violated) and of hrtime_t is wrong before the epoch and for some periods (hrCast_violated)."
  },
  {
   "property": "C49",
   "status": "proved",
   "theorems": [
    "Ustl.SmartPtr.owner_history",
    "Ustl.SmartPtr.owner_no_leak",
    "Ustl.SmartPtr.resource_history"
   ],
   "note": "auto_ptr, unique_ptr and unique_resource, any number of pointers, any history of the listed operations. The deleters of unique_resource are all the same function; exceptions from new are not modelled."
  },
  {
   "property": "C50",
   "status": "partial",
   "theorems": [
    "Ustl.Shared.shared_never_early",
    "Ustl.Shared.shared_no_leak",
    "Ustl.Shared.shared_double_violated",
    "Ustl.Shared.shared_serial_partial"
   ],
   "note": "For every schedule the count is right, nothing is destroyed while owned and nothing leaks. 'Exactly once' is false of the code: atomic::operator-- returns a reference that is loaded afterwards, so two threads dropping the last two references can both see zero (shared_double_violated). It is proved for schedules in which the resets of one object do not overlap. Copy assignment does not compile and is not modelled."
  },
  {
   "property": "C51",
   "status": "partial",
   "theorems": [
    "Ustl.LinAlg.mul_spec",
    "Ustl.LinAlg.transform_spec",
    "Ustl.LinAlg.transpose_spec",
    "Ustl.LinAlg.transpose_transpose",
    "Ustl.LinAlg.row_spec",
    "Ustl.LinAlg.column_spec",
    "Ustl.LinAlg.loadIdentity_partial",
    "Ustl.LinAlg.loadIdentity_square",
    "Ustl.LinAlg.mul_identity",
    "Ustl.LinAlg.transform_mul",
    "Ustl.LinAlg.opScalar_spec",
    "Ustl.LinAlg.opScalarRef_partial",
    "Ustl.LinAlg.opScalarNew_spec",
    "Ustl.LinAlg.opAssign_spec",
    "Ustl.LinAlg.opNew_spec",
    "Ustl.LinAlg.packop2_spec",
    "Ustl.LinAlg.passign_spec",
    "Ustl.LinAlg.tupleEq_spec",
    "Ustl.LinAlg.tupleLt_spec",
    "Ustl.LinAlg.tupleSwap_spec",
    "Ustl.LinAlg.tupleOf_partial",
    "Ustl.LinAlg.tupleAssign_spec",
    "Ustl.LinAlg.tupleOpList_spec",
    "Ustl.LinAlg.arrayOpList_partial",
    "Ustl.LinAlg.unrolled_spec",
    "Ustl.LinAlg.sse_identity_spec",
    "Ustl.LinAlg.transform3dnow_spec",
    "Ustl.LinAlg.sse_transform_iff",
    "Ustl.LinAlg.sse_transform_violated",
    "Ustl.LinAlg.sse_mul_violated",
    "Ustl.LinAlg.loadIdentity_violated",
    "Ustl.LinAlg.opScalarRef_violated",
    "Ustl.LinAlg.packop1_violated",
    "Ustl.LinAlg.tupleOf_violated",
    "Ustl.LinAlg.arrayOpList_violated",
    "Ustl.LinAlg.pconvert_spec",
    "Ustl.LinAlg.tupleCopy_spec",
    "Ustl.LinAlg.tupleCopySelf_spec",
    "Ustl.LinAlg.ofPointer_spec",
    "Ustl.LinAlg.ofPointer_short",
    "Ustl.LinAlg.packAssign_spec",
    "Ustl.LinAlg.packNew_spec",
    "Ustl.LinAlg.opSelf_spec",
    "Ustl.LinAlg.fillSelf_spec"
   ],
   "note": "Proved over every (semi)ring and all dimensions against Mathlib's Matrix. False: load_identity of tall matrices, the SSE 4x4 float product (wrong shuffle), t *= t[0], the unary packed operations (no effect), array op= short list (reads past it), tuple<1>(a,b,c). Rounding of floats is not modelled."
  },
  {
   "property": "C52",
   "status": "partial",
   "theorems": [
    "Ustl.Iter.rev_traverse",
    "Ustl.Iter.rev_algebra",
    "Ustl.Iter.rev_diff_violated",
    "Ustl.Iter.mov_traverse_partial",
    "Ustl.Iter.mov_add_violated",
    "Ustl.Iter.idx_traverse_partial",
    "Ustl.Iter.idx_diff_violated",
    "Ustl.Iter.indexv_spec",
    "Ustl.Iter.ibyi_spec"
   ],
   "note": "Traversal and i+n-n are right; differences of reverse iterators have the wrong sign, move_iterator + goes backwards, and index_iterate differences are of the index pointers' targets wrongly (see the _violated theorems)."
  },
  {
   "property": "C53",
   "status": "partial",
   "theorems": [
    "Ustl.Bytes.copy_spec",
    "Ustl.Bytes.copy_backward_spec",
    "Ustl.Bytes.copy_n_fast_spec",
    "Ustl.Bytes.copy_n_memmove_spec",
    "Ustl.Bytes.copy_backward_memmove_spec",
    "Ustl.Bytes.copy_backward_fast_partial",
    "Ustl.Bytes.copy_backward_fast_residue_violated",
    "Ustl.Bytes.copy_backward_fast_underflow_violated",
    "Ustl.Bytes.fill_n_spec",
    "Ustl.Bytes.fill_n8_fast_spec",
    "Ustl.Bytes.fill_n_fast_partial",
    "Ustl.Bytes.fill_n32_fast_violated"
   ],
   "note": "All copies and fills proved for all alignments and counts, except copy_backward_fast (x86) and fill_n16/32_fast (MMX), which are false in general: proved on the stated sub-domains, with violation witnesses."
  },
  {
   "property": "C54",
   "status": "proved",
   "theorems": [
    "Ustl.StrFind.hash_value_eq",
    "Ustl.StrFind.hash_eq"
   ],
   "note": "Over all string histories; the value is the 32-bit rotate-left-7-and-add of the characters."
  },
  {
   "property": "C55",
   "status": "partial",
   "theorems": [
    "Ustl.Str.format_partial",
    "Ustl.Str.format_empty_violated",
    "Ustl.Str.format_throw_violated"
   ],
   "note": "Terminates and yields the text unless nothing is formatted into a string without memory, where it loops forever."
  },
  {
   "property": "C56",
   "status": "proved",
   "theorems": [
    "Ustl.Iter.copy_inserter",
    "Ustl.Iter.copy_back_front"
   ],
   "note": ""
  },
  {
   "property": "C57",
   "status": "partial",
   "theorems": [
    "Ustl.Text.ostringstream_history",
    "Ustl.Text.new_ok",
    "Ustl.Text.initial_text_violated",
    "Ustl.Text.set_str",
    "Ustl.Text.wchar_roundtrip"
   ],
   "note": "Proved for every history with texts below 2 GB and the number settings of C42. False for a stream made with an initial text: str() loses it."
  },
  {
   "property": "C58",
   "status": "partial",
   "theorems": [
    "Ustl.File.ofstream_history",
    "Ustl.File.ofFd_ok",
    "Ustl.File.flush_spec",
    "Ustl.File.flush_ends",
    "Ustl.File.ofstream_close_spec",
    "Ustl.File.ofstream_close_failed",
    "Ustl.File.flush_violated",
    "Ustl.File.ofstream_close_violated",
    "Ustl.File.ofstream_retry_violated"
   ],
   "note": "History, flush and close proved for every system. False: flush of a failed stream never returns; an error of close(2) is not seen in the state; with exceptions on, a partly written buffer is written again."
  },
  {
   "property": "C59",
   "status": "partial",
   "theorems": [
    "Ustl.File.ifstream_as_string_partial",
    "Ustl.File.file_lines_spec",
    "Ustl.File.ofFile_rel",
    "Ustl.File.underflow_is",
    "Ustl.File.read_block_partial",
    "Ustl.File.read_number_partial",
    "Ustl.File.read_block_violated",
    "Ustl.File.getline_buf_violated",
    "Ustl.File.read_number_violated",
    "Ustl.File.read_number_split_violated",
    "Ustl.File.set_buffer_spec",
    "Ustl.File.set_buffer_partial",
    "Ustl.File.set_buffer_violated"
   ],
   "note": "Proved for characters, words, lines and parts of lines. False for read(p, n) across a buffer boundary, getline(p, n), and numbers that straddle a piece; each has a counterexample theorem. set_buffer_size: proved harmless when everything fetched was read; otherwise what was fetched is lost."
  },
  {
   "property": "C60",
   "status": "partial",
   "theorems": [
    "Ustl.File.openmode_spec",
    "Ustl.File.fd_closed_once_partial",
    "Ustl.File.name_partial",
    "Ustl.File.openmode_violated",
    "Ustl.File.close_eintr_violated",
    "Ustl.File.close_exn_violated",
    "Ustl.File.attach_self_violated",
    "Ustl.File.name_violated"
   ],
   "note": "Closed exactly once if close is not interrupted and exceptions are off; false otherwise (counterexamples), and for attach of its own descriptor; the name is lost on reopening."
  },
  {
   "property": "C61",
   "status": "partial",
   "theorems": [
    "Ustl.LinAlg.fpadds_partial",
    "Ustl.LinAlg.fpsubs_partial",
    "Ustl.LinAlg.fpavg_partial",
    "Ustl.LinAlg.mmxAdds_spec",
    "Ustl.LinAlg.mmxSubs_spec",
    "Ustl.LinAlg.mmxAvg_spec",
    "Ustl.LinAlg.fpadds_violated",
    "Ustl.LinAlg.fpadds_int_violated",
    "Ustl.LinAlg.fpsubs_violated",
    "Ustl.LinAlg.fpsubs_int_violated",
    "Ustl.LinAlg.fpavg_violated"
   ],
   "note": "Proved for unsigned types and for half the signed values; false for the rest."
  },
  {
   "property": "C62",
   "status": "partial",
   "theorems": [
    "Ustl.Exn.exception_round_trip",
    "Ustl.Exn.exception_size_exact",
    "Ustl.Exn.backtrace_read_safe_partial",
    "Ustl.Exn.backtrace_read_violated"
   ],
   "note": "Round trip and size hold for every class and field value. Reading hostile bytes is safe only if the frame count is at most 64 and the symbol size is not 2^32-1: a larger count is not refused and overflows the array of addresses (backtrace_read_violated)."
  },
  {
   "property": "C63",
   "status": "partial",
   "theorems": [
    "Ustl.Exn.frame_name",
    "Ustl.Exn.frame_name_plain",
    "Ustl.Exn.frame_name_safe_partial",
    "Ustl.Exn.frame_name_violated",
    "Ustl.Exn.demangle_exact",
    "Ustl.Exn.demangle_violated",
    "Ustl.Exn.capture_symbols",
    "Ustl.Exn.backtrace_text_partial",
    "Ustl.Exn.backtrace_text_violated",
    "Ustl.Exn.backtrace_copy_partial",
    "Ustl.Exn.backtrace_assign_violated"
   ],
   "note": "Holds for names without newline or NUL when the C library had memory for the symbols. Refuted: a + before the first ( (libstdc++.so.6(...)) copies 255 bytes from the wrong place; a demangled name above 255 characters makes the runtime reallocate a stack array; a backtrace without symbols cannot be printed or copied; assignment leaks the old table."
  },
  {
   "property": "C64",
   "status": "partial",
   "theorems": [
    "Ustl.Cmp.derived_spec",
    "Ustl.Cmp.derived_trichotomy",
    "Ustl.Cmp.derived_order",
    "Ustl.Cmp.min_max_spec",
    "Ustl.Cmp.min_max_violated",
    "Ustl.Cmp.min_max_mixed_partial",
    "Ustl.Cmp.min_unsigned",
    "Ustl.Cmp.min_max_mixed_violated",
    "Ustl.Cmp.vectorElement_spec",
    "Ustl.Cmp.pair_order",
    "Ustl.Cmp.array_lt_spec",
    "Ustl.Cmp.array_eq_spec",
    "Ustl.Cmp.stack_lt_partial",
    "Ustl.Cmp.stack_lt_violated",
    "Ustl.Cmp.pair_stack_violated",
    "Ustl.Cmp.queue_eq_partial",
    "Ustl.Cmp.queue_eq_violated",
    "Ustl.Cmp.vector_eq_partial",
    "Ustl.Cmp.vector_eq_violated",
    "Ustl.Cmp.ptr_order",
    "Ustl.Cmp.auto_ptr_partial",
    "Ustl.Cmp.auto_ptr_violated",
    "Ustl.Cmp.isi_end_partial",
    "Ustl.Cmp.isi_lt_violated",
    "Ustl.Cmp.isi_eq_violated",
    "Ustl.Cmp.error_code_spec"
   ],
   "note": "Holds for the derived operators, pairs, arrays, tuples, unique_ptr and shared_ptr, for every element type. Refuted: stacks and queues are ordered by size only; queues with the same contents may be unequal; == of vectors compares bytes; auto_ptr is ordered backwards; the end of an input stream is less than itself; min and max of mixed integer types, and of equivalent values (both return the second)."
  },
  {
   "property": "C65",
   "status": "partial",
   "theorems": [
    "Ustl.Link.link_step",
    "Ustl.Link.link_history",
    "Ustl.Link.link_eq",
    "Ustl.Link.fill_alias_violated",
    "Ustl.Link.resize_violated",
    "Ustl.Link.memlink_round_trip",
    "Ustl.Link.memlink_read_refused",
    "Ustl.Link.memlink_read_bounded",
    "Ustl.Link.memlink_read_twice_violated",
    "Ustl.Link.link_range"
   ],
   "note": "Proved for every history of documented use. Refuted beyond it: filling with a pattern taken from the filled range overwrites the pattern first; resize is not checked and may exceed the memory; reading a short block shrinks the link, so that a longer one that the storage would hold is then refused."
  },
  {
   "property": "C66",
   "status": "partial",
   "theorems": [
    "Ustl.File.write_file_partial",
    "Ustl.File.write_file_again_violated",
    "Ustl.File.write_file_close_violated",
    "Ustl.File.read_file_partial",
    "Ustl.File.read_file_zero_violated",
    "Ustl.File.read_file_exn_violated",
    "Ustl.File.read_file_string_violated",
    "Ustl.File.file_round_trip",
    "Ustl.File.file_round_trip_works",
    "Ustl.File.write_file_errors",
    "Ustl.File.read_file_errors"
   ],
   "note": "The round trip is proved for all answers of the system except EAGAIN to a write. Refuted: EAGAIN makes write_file return with part of the data; a failing close is repeated by the destructor; files whose size fstat does not know (/proc, pipes) read as empty without an error; when reading fails the old contents of the block are partly overwritten; a string that reads a file is not terminated."
  },
  {
   "property": "C67",
   "status": "partial",
   "theorems": [
    "Ustl.Str.to_string_spec",
    "Ustl.Str.to_string_round_trip",
    "Ustl.Str.numeral_sto",
    "Ustl.Str.stol_spec",
    "Ustl.Str.stoul_spec",
    "Ustl.Str.stoi_partial",
    "Ustl.Str.stoi_violated",
    "Ustl.Str.begins_unique",
    "Ustl.Str.sto_base"
   ],
   "note": "Everything holds for the 64-bit types. stoi of a number that is no int is neither clipped nor refused but cut to 32 bits. Floating-point conversions are not modelled."
  },
  {
   "property": "C68",
   "status": "partial",
   "theorems": [
    "Ustl.Atomic.every_call",
    "Ustl.Atomic.adds_total",
    "Ustl.Atomic.adds_seen",
    "Ustl.Atomic.tickets",
    "Ustl.Atomic.tickets_distinct",
    "Ustl.Atomic.last_reference",
    "Ustl.Atomic.sets_total",
    "Ustl.Atomic.keeps_total",
    "Ustl.Atomic.flips_total",
    "Ustl.Atomic.claim_once",
    "Ustl.Atomic.exchange_conserves",
    "Ustl.Atomic.compare_exchange",
    "Ustl.Atomic.one_winner",
    "Ustl.Atomic.CasLoop.cas_loop_atomic",
    "Ustl.Atomic.CasLoop.cas_loop_lock_free",
    "Ustl.Atomic.Spin.spin_exclusion",
    "Ustl.Atomic.Spin.spin_counts",
    "Ustl.Atomic.Spin.spin_progress",
    "Ustl.Atomic.pre_increment_violated"
   ],
   "note": "All parts are proved for all schedules except the value of ++a, which is refuted: ++, --, += and the like return a reference to the object, and reading through it is a second load, so two threads can both get 2 from ++a. The postfix forms do not compile before C++17. Operations take effect in one total order (sequential consistency, or a single object with any order)."
  },
  {
   "property": "C69",
   "status": "partial",
   "theorems": [
    "Ustl.Stream.iter_copy",
    "Ustl.Stream.iter_copy_unique",
    "Ustl.Stream.iter_prefix_partial",
    "Ustl.Stream.iter_back",
    "Ustl.Stream.iter_forward",
    "Ustl.Stream.iter_end_violated",
    "Ustl.Stream.iter_early_violated",
    "Ustl.Stream.iter_back_violated",
    "Ustl.Stream.iter_compare_violated",
    "Ustl.Text.text_iter_partial",
    "Ustl.Text.text_iter_unique",
    "Ustl.Text.text_iter_last_violated"
   ],
   "note": "Proved for values of one stream size with exceptions off; for other types only that a prefix is delivered. Refuted: with the default exceptions every such copy ends in stream_bounds_exception; strings and other types of varying size stop early, because the size asked for is that of the value before; -- on the first value moves forward; iterators on one stream always compare equal with difference 0; from text the last number is lost unless a separator follows it."
  },
  {
   "property": "C70",
   "status": "partial",
   "theorems": [
    "Ustl.File.seek_reads_partial",
    "Ustl.File.seekg_good",
    "Ustl.File.seek_eof_violated",
    "Ustl.File.seek_cur_partial",
    "Ustl.File.seek_cur_violated",
    "Ustl.File.seekg_refused",
    "Ustl.File.seek_refused_violated",
    "Ustl.File.tellg_pipe_violated",
    "Ustl.File.sync_spec",
    "Ustl.File.sync_violated",
    "Ustl.File.seek_writes_partial",
    "Ustl.File.seekp_refused",
    "Ustl.File.tellp_append_violated",
    "Ustl.File.tellp_pipe_violated"
   ],
   "note": "Reading: proved for histories with seeks from the beginning or the end, in good state or after clear(). Writing: proved for every history and every behaviour of the system, for files opened for appending too (except tellp). Refuted: seekg after the end was reached reads nothing (eofbit stays); seekg(n, cur) starts from the end of what is in the buffer; a refused seekg loses the buffer; sync returns -1 for success; tellp of an appended file, tellg and tellp of a pipe."
  },
  {
   "property": "C71",
   "status": "partial",
   "theorems": [
    "Ustl.File.control_spec",
    "Ustl.File.refusals_reported",
    "Ustl.File.munmap_unlinks",
    "Ustl.File.mmap_violated",
    "Ustl.File.size_spec",
    "Ustl.File.nonblock_flags",
    "Ustl.File.nonblock_violated"
   ],
   "note": "Refuted: a refused mmap with exceptions off returns a link of the given size to MAP_FAILED; a refusal in set_nonblock with exceptions on ends the program (noexcept)."
  },
  {
   "property": "C72",
   "status": "partial",
   "theorems": [
    "Ustl.Ctr.sort_partial",
    "Ustl.Ctr.sort_less",
    "Ustl.Ctr.sort_ctr",
    "Ustl.Ctr.sort_ctr_comp_partial",
    "Ustl.Ctr.nth_element_comp_partial",
    "Ustl.Ctr.sort_compare_violated",
    "Ustl.Ctr.sort_ignores_object",
    "Ustl.Ctr.sort_pointer_violated"
   ],
   "note": "Proved for operator< and for comparison objects that behave as a default-constructed one of their type does. Refuted for the rest: sort ignores the object and makes its own, so an object with state sorts by the default state, and a function pointer is called uninitialised."
  },
  {
   "property": "C73",
   "status": "partial",
   "theorems": [
    "Ustl.Ctr.ctr_find",
    "Ustl.Ctr.ctr_count",
    "Ustl.Ctr.ctr_for_each",
    "Ustl.Ctr.ctr_copies",
    "Ustl.Ctr.ctr_transform",
    "Ustl.Ctr.ctr_replace_partial",
    "Ustl.Ctr.ctr_replace_ref",
    "Ustl.Ctr.ctr_replace_ref_violated",
    "Ustl.Ctr.ctr_replace_if",
    "Ustl.Ctr.ctr_fill",
    "Ustl.Ctr.ctr_generate",
    "Ustl.Ctr.ctr_remove_if",
    "Ustl.Ctr.ctr_remove_partial",
    "Ustl.Ctr.ctr_remove_back",
    "Ustl.Ctr.ctr_remove_ref_violated",
    "Ustl.Ctr.ctr_remove_iters",
    "Ustl.Ctr.ctr_unique",
    "Ustl.Ctr.ctr_removals_sorted",
    "Ustl.Ctr.ctr_reverse",
    "Ustl.Ctr.ctr_rotate_right",
    "Ustl.Ctr.ctr_rotate_left_partial",
    "Ustl.Ctr.ctr_rotate_back",
    "Ustl.Ctr.ctr_rotate_empty_violated",
    "Ustl.Ctr.ctr_stable_sort",
    "Ustl.Ctr.ctr_search"
   ],
   "note": "Refuted: replace(c, c[k], n) leaves occurrences after k; remove(c, c[k]) is wrong when more than k elements stay (c.back() is always right); rotate of an empty container by 0 fails its assertion."
  },
  {
   "property": "C74",
   "status": "proved",
   "theorems": [
    "Ustl.Ctr.order_functors",
    "Ustl.Ctr.less_equal_total",
    "Ustl.Ctr.compare_functor",
    "Ustl.Ctr.keyed_order",
    "Ustl.Ctr.deref_order",
    "Ustl.Ctr.bound_counts",
    "Ustl.Ctr.member_find",
    "Ustl.Ctr.member_counts",
    "Ustl.Ctr.deref_unary",
    "Ustl.Ctr.composed",
    "Ustl.Ctr.sorted_by"
   ],
   "note": "The arithmetic and bitwise objects (plus, ..., negate) are the operators of the type and have no theorem of their own; function and member-function pointers call the function."
  },
  {
   "property": "C75",
   "status": "proved",
   "theorems": [
    "Ustl.Raw.scope_exit_once",
    "Ustl.Raw.scope_exit_all",
    "Ustl.Raw.scope_exit_moved",
    "Ustl.Raw.unique_resource_checked"
   ],
   "note": "unique_resource over histories is C49. What the action's own move constructor does is not modelled."
  },
  {
   "property": "C76",
   "status": "partial",
   "theorems": [
    "Ustl.Raw.raw_default_construct_partial",
    "Ustl.Raw.raw_n_forms",
    "Ustl.Raw.raw_pod_construct",
    "Ustl.Raw.raw_destroy_partial",
    "Ustl.Raw.raw_empty",
    "Ustl.Raw.raw_half_violated",
    "Ustl.Raw.raw_half_empty_violated",
    "Ustl.Raw.raw_fill",
    "Ustl.Raw.raw_copy",
    "Ustl.Raw.raw_fill_throw",
    "Ustl.Raw.raw_copy_throw",
    "Ustl.Raw.raw_throw_violated",
    "Ustl.Raw.raw_temporary"
   ],
   "note": "Refuted: construct and destroy compare addresses as signed numbers, so a range across the middle of the address space (2 GB on a 32-bit machine) is skipped and an empty range there is overrun; no algorithm destroys what it made when a constructor throws."
  },
  {
   "property": "C77",
   "status": "partial",
   "theorems": [
    "Ustl.Raw.vec_throw_partial",
    "Ustl.Raw.vec_history",
    "Ustl.Raw.vec_no_leak",
    "Ustl.Raw.vec_push_violated",
    "Ustl.Raw.vec_insert_violated",
    "Ustl.Raw.vec_resize_leak_violated"
   ],
   "note": "Proved for every operation if copy and move constructors do not throw, and for resize, assign, operator=, erase, clear, reserve whatever throws. Refuted: push_back, emplace_back, insert and emplace count the new slots before constructing them, so after an exception the destructor destroys what never existed; resize loses the objects made before the exception."
  },
  {
   "property": "C78",
   "status": "partial",
   "theorems": [
    "Ustl.Chrono.duration_arith",
    "Ustl.Chrono.duration_divmod",
    "Ustl.Chrono.convert_exact",
    "Ustl.Chrono.convert_back",
    "Ustl.Chrono.unit_lengths",
    "Ustl.Chrono.intRep_right",
    "Ustl.Chrono.hrRep_right",
    "Ustl.Chrono.time_point_arith",
    "Ustl.Chrono.time_point_defined",
    "Ustl.Chrono.time_point_mixed",
    "Ustl.Chrono.limits_partial",
    "Ustl.Chrono.hrtime_min_violated",
    "Ustl.Chrono.steady_now",
    "Ustl.Chrono.steady_monotone",
    "Ustl.Chrono.system_hr_now",
    "Ustl.Chrono.system_ms_now",
    "Ustl.Chrono.high_resolution_diff",
    "Ustl.Chrono.system_time_t",
    "Ustl.Chrono.hrtime_text_partial",
    "Ustl.Chrono.hrtime_text_violated",
    "Ustl.Chrono.duration_text",
    "Ustl.Chrono.duration_text_inj"
   ],
   "note": "Refuted: duration<hrtime_t>::min() is not the least value; an hrtime_t before the epoch with a fraction of a second is printed as a different number (-0.5 s as -1.500000000). Readings before 1970 and floating-point representations are not covered; comparisons of durations of different periods do not compile in this library."
  },
  {
   "property": "C79",
   "status": "partial",
   "theorems": [
    "Ustl.File.ofstream_destroy",
    "Ustl.File.ofstream_life_partial",
    "Ustl.File.ofstream_open_failed",
    "Ustl.File.open_failed",
    "Ustl.File.sessions_partial",
    "Ustl.File.cin_flushes_cout",
    "Ustl.File.other_leaves_cout",
    "Ustl.File.ifstream_open",
    "Ustl.File.low_fd_violated",
    "Ustl.File.destroy_failed_violated",
    "Ustl.File.unopened_violated",
    "Ustl.File.reopen_violated",
    "Ustl.File.fail_leaks_violated",
    "Ustl.File.failed_open_leaks_violated",
    "Ustl.File.ifstream_fd_violated"
   ],
   "note": "Refuted: a file that happens to get descriptor 0, 1 or 2 is never closed; destroying a stream whose file failed, or that was never opened, with text in it does not return; open without close, close after a failure, and text written after a failed open all send text to the next file opened; ifstream(fd) is good on a descriptor that is none. The positive theorems assume a system that takes something at every request."
  },
  {
   "property": "C80",
   "status": "partial",
   "theorems": [
    "Ustl.Text.manip_history_partial",
    "Ustl.Text.manip_new_partial",
    "Ustl.Text.manip_step",
    "Ustl.Text.flags_restored",
    "Ustl.Text.setf_field_partial",
    "Ustl.Text.setw_violated",
    "Ustl.Text.fill_violated",
    "Ustl.Text.width_wrap_violated",
    "Ustl.Text.setf_field_violated"
   ],
   "note": "Refuted: setw stays in force after the value (the C++ standard makes it one-shot); the fill character is ignored unless it is 0; ios::width keeps 16 bits; setf(f,mask) returns the flags with the mask already cleared, so that the save-and-restore idiom loses the field. Integers are covered for the settings whose format string is right (C42)."
  },
  {
   "property": "C81",
   "status": "partial",
   "theorems": [
    "Ustl.Text.composite_text_partial",
    "Ustl.Text.text_faithful_partial",
    "Ustl.Text.bitset_text",
    "Ustl.Text.bitset_read",
    "Ustl.Text.bitset_roundtrip",
    "Ustl.Text.negative_byte_violated",
    "Ustl.Text.ambiguous_violated",
    "Ustl.Text.bitset_short_violated",
    "Ustl.Text.bitset_junk_violated"
   ],
   "note": "Refuted: a container with a negative int8_t calls isprint outside its domain; containers of strings are ambiguous ({\"a,b\"} and {\"a\",\"b\"}); a text shorter than the bitset sets the high bits, and characters that are not bits are read as zeros. Numbers with the settings of C42."
  },
  {
   "property": "C82",
   "status": "partial",
   "theorems": [
    "Ustl.LinAlg.Limits.limits_partial",
    "Ustl.LinAlg.Limits.between_partial",
    "Ustl.LinAlg.Limits.is_signed_partial",
    "Ustl.LinAlg.Limits.wchar_violated",
    "Ustl.LinAlg.Limits.digits10_enough",
    "Ustl.LinAlg.Limits.digits10_tight",
    "Ustl.LinAlg.Limits.digits10_violated",
    "Ustl.LinAlg.Limits.digits_partial",
    "Ustl.LinAlg.Limits.digits_violated",
    "Ustl.LinAlg.Limits.modulo_violated",
    "Ustl.LinAlg.Limits.tuple_limits_partial"
   ],
   "note": "Refuted: wchar_t, signed on this platform, has min() 0 and is_signed false; digits counts the sign bit; digits10 as the standard has it is too large for every type; is_modulo is true for int. Floating point types are not modelled."
  },
  {
   "property": "C83",
   "status": "partial",
   "theorems": [
    "Ustl.Stream.ostream_iterator_copy",
    "Ustl.Stream.utf8out_copy",
    "Ustl.Stream.utf8in_copy",
    "Ustl.Stream.utf8in_end_violated",
    "Ustl.Stream.utf8in_unique",
    "Ustl.Stream.utf8_round_trip",
    "Ustl.Stream.iterators_round_trip"
   ],
   "note": "Refuted: with the exceptions a stream throws by default, a copy from utf8in to the end never returns, as the end is found by running over it (utf8in_end_violated). istream_iterator: values of one stream size, see C69."
  },
  {
   "property": "C84",
   "status": "proved",
   "theorems": [
    "Ustl.Stream.long4grain_write",
    "Ustl.Stream.long4grain_read",
    "Ustl.Stream.grain4_round_trip",
    "Ustl.Stream.long4grain_size"
   ],
   "note": "The big-endian build is not modelled."
  },
  {
   "property": "C85",
   "status": "partial",
   "theorems": [
    "Ustl.LinAlg.Packed.packed_partial",
    "Ustl.LinAlg.Packed.packed_avg_violated",
    "Ustl.LinAlg.Packed.packed_loop",
    "Ustl.LinAlg.Packed.packed_plain",
    "Ustl.LinAlg.Packed.builds_agree",
    "Ustl.LinAlg.Packed.builds_adds_violated",
    "Ustl.LinAlg.Packed.packed_copy",
    "Ustl.LinAlg.Packed.packed_copy2",
    "Ustl.LinAlg.Packed.packed_swap",
    "Ustl.LinAlg.Packed.packed_zero",
    "Ustl.LinAlg.Packed.packed_copy_loop",
    "Ustl.LinAlg.Packed.copy_overlap_violated"
   ],
   "note": "Refuted: averages of signed elements take them as unsigned; the generic saturating sum differs from the MMX one; a generic copy onto a tuple that begins inside the source repeats elements. Floating point is not modelled; the three-operand forms do not compile."
  },
  {
   "property": "C86",
   "status": "partial",
   "theorems": [
    "Ustl.VecLink.linked_vectors_partial",
    "Ustl.VecLink.linked_vectors_no_ub_partial",
    "Ustl.VecLink.edits_unlink",
    "Ustl.VecLink.Own.linked_pop_violated",
    "Ustl.VecLink.Own.linked_erase_violated",
    "Ustl.VecLink.Own.linked_copy_violated"
   ],
   "note": "Proved for plain (POD) elements and arrays followed by one readable byte. Refuted for elements with destructors: pop_back and erase on a linked vector destroy the owner's elements, and every private copy is a bitwise copy, so that each element is destroyed twice."
  },
  {
   "property": "C87",
   "status": "partial",
   "theorems": [
    "Ustl.Assoc.set_base_history_partial",
    "Ustl.Assoc.set_base_progress",
    "Ustl.Assoc.set_nth",
    "Ustl.Assoc.map_base_history_partial",
    "Ustl.Assoc.map_base_progress",
    "Ustl.Assoc.multi_base_history_partial",
    "Ustl.Assoc.multi_base_progress",
    "Ustl.Assoc.set_grow_violated",
    "Ustl.Assoc.set_grow_find_violated",
    "Ustl.Assoc.multi_grow_violated",
    "Ustl.Assoc.set_write_violated",
    "Ustl.Assoc.set_load_violated"
   ],
   "note": "Proved for pop_back, shrinking resize, writes between the neighbours and loading sorted data. Refuted: a growing resize, a write through operator[] or an iterator and reading from a stream can leave an object that is not sorted or holds a key twice, and find then misses elements."
  },
  {
   "property": "C88",
   "status": "partial",
   "theorems": [
    "Ustl.Meta.length_spec",
    "Ustl.Meta.type_at_spec",
    "Ustl.Meta.type_at_non_strict_spec",
    "Ustl.Meta.index_of_spec",
    "Ustl.Meta.append_spec",
    "Ustl.Meta.append_one_spec",
    "Ustl.Meta.erase_spec",
    "Ustl.Meta.no_duplicates_spec",
    "Ustl.Meta.replace_spec",
    "Ustl.Meta.replace_all_spec",
    "Ustl.Meta.reverse_spec_partial",
    "Ustl.Meta.reverse_null_violated",
    "Ustl.Meta.reverse_nested_violated",
    "Ustl.Meta.most_derived_spec",
    "Ustl.Meta.derived_to_front_spec",
    "Ustl.Meta.seq_spec",
    "Ustl.Meta.seq_empty_violated"
   ],
   "note": "All operations proved, except: Reverse is proved for lists of types that are neither NullType nor lists, and refuted for the others (a NullType is lost, a nested list is flattened); Seq<> is refuted to be the empty list, it holds one NullType."
  },
  {
   "property": "C89",
   "status": "partial",
   "theorems": [
    "Ustl.Meta.remove_cv_spec",
    "Ustl.Meta.add_cv_spec",
    "Ustl.Meta.extents_spec",
    "Ustl.Meta.nest_all",
    "Ustl.Meta.category_spec_partial",
    "Ustl.Meta.category_violated",
    "Ustl.Meta.member_function_violated",
    "Ustl.Meta.composite_spec_partial",
    "Ustl.Meta.composite_violated",
    "Ustl.Meta.is_signed_spec_partial",
    "Ustl.Meta.is_signed_violated",
    "Ustl.Meta.is_unsigned_violated",
    "Ustl.Meta.make_signed_spec_partial",
    "Ustl.Meta.make_signed_violated",
    "Ustl.Meta.reference_spec",
    "Ustl.Meta.pointer_spec_partial",
    "Ustl.Meta.remove_pointer_violated",
    "Ustl.Meta.add_pointer_violated",
    "Ustl.Meta.decay_spec_partial",
    "Ustl.Meta.decay_violated",
    "Ustl.Meta.is_same_spec",
    "Ustl.Meta.is_base_of_spec_partial",
    "Ustl.Meta.is_base_of_violated"
   ],
   "note": "Qualifiers, references and arrays in full. Refuted: char16_t, char32_t, nullptr_t are in no category; pointers to const member functions pass for data member pointers; signed char and the floating types are \"unsigned\", as is every class and pointer; make_signed ignores qualified types; remove_pointer ignores T* const, add_pointer<T*> is T*; is_base_of<C,C> is false. Not modelled: the constructibility and triviality traits (compiler builtins), common_type, is_convertible."
  },
  {
   "property": "C90",
   "status": "partial",
   "theorems": [
    "Ustl.Meta.type_traits_exists_partial",
    "Ustl.Meta.type_traits_exists_violated",
    "Ustl.Meta.type_traits_quals_spec",
    "Ustl.Meta.referred_type_violated",
    "Ustl.Meta.type_traits_pointer_spec",
    "Ustl.Meta.type_traits_function_spec_partial",
    "Ustl.Meta.function_violated",
    "Ustl.Meta.type_traits_arith_spec_partial",
    "Ustl.Meta.arith_violated",
    "Ustl.Meta.parameter_type_spec",
    "Ustl.Meta.add_reference_spec"
   ],
   "note": "Refuted: TypeTraits of an rvalue reference or of const void does not compile; ReferredType of a non-reference is the type itself; functions of more than nine parameters are not functions; long long and long double are not fundamental; char is not signed."
  },
  {
   "property": "C91",
   "status": "partial",
   "theorems": [
    "Ustl.Exn.info_text_partial",
    "Ustl.Exn.what_text",
    "Ustl.Exn.info_fmt_file",
    "Ustl.Exn.info_fmt_sys",
    "Ustl.Exn.info_fmt_alloc",
    "Ustl.Exn.info_returns",
    "Ustl.Exn.info_returns_default",
    "Ustl.Exn.message_owned",
    "Ustl.Exn.operation_literal",
    "Ustl.Exn.info_alloc_violated",
    "Ustl.Exn.info_bounds_violated",
    "Ustl.Exn.info_empty_violated",
    "Ustl.Exn.operation_dangles_violated",
    "Ustl.Exn.format_code_violated"
   ],
   "note": "Proved for numbers that fit the conversions. Refuted: bad_alloc of 2^31 bytes reports a negative number (%d for a size_t), an offset of 4 GB reads 0 (%X for 64 bits), a format of the caller that yields nothing never returns, the operation of a system_error made from a string dangles once that string is gone, and system_error made from a code has the format() of error_message."
  },
  {
   "property": "C92",
   "status": "partial",
   "theorems": [
    "Ustl.Err.errc_value_partial",
    "Ustl.Err.code_is_partial",
    "Ustl.Err.errc_distinct_partial",
    "Ustl.Err.errc_nonzero",
    "Ustl.Err.history",
    "Ustl.Err.equality",
    "Ustl.Err.default_condition",
    "Ustl.Err.exception_code",
    "Ustl.Err.not_supported_violated",
    "Ustl.Err.categories_violated"
   ],
   "note": "Refuted: errc::not_supported is EINVAL, not ENOTSUP, so it coincides with invalid_argument; system_category() == generic_category()."
  },
  {
   "property": "C93",
   "status": "partial",
   "theorems": [
    "Ustl.LinAlg.Packed.float_packed",
    "Ustl.LinAlg.Packed.float_builds_agree",
    "Ustl.LinAlg.Packed.round_packed",
    "Ustl.LinAlg.Packed.float_of_int_packed",
    "Ustl.LinAlg.Packed.convert_loop",
    "Ustl.LinAlg.Packed.matrix_copy",
    "Ustl.LinAlg.Packed.matrix_zero",
    "Ustl.LinAlg.Packed.pair_update",
    "Ustl.LinAlg.Packed.pair_new",
    "Ustl.LinAlg.Packed.pair_assign",
    "Ustl.LinAlg.Packed.pair_swap",
    "Ustl.LinAlg.Packed.pair_zero",
    "Ustl.LinAlg.Packed.matrix_copy_violated"
   ],
   "note": "Refuted: a matrix copied onto one that begins inside it comes out wrong. The value of a single float operation is a parameter, not a model of IEEE 754; the 3DNow! versions are not modelled."
  },
  {
   "property": "C94",
   "status": "partial",
   "theorems": [
    "Ustl.Atomic.Tas.one_holder",
    "Ustl.Atomic.Tas.free_is_taken",
    "Ustl.Atomic.Tas.first_wins",
    "Ustl.Atomic.Tas.portable_alone",
    "Ustl.Atomic.Tas.portable_violated"
   ],
   "note": "Proved for x86, where the exchange is one step. Refuted for the portable branch: there is an order of steps in which all threads win; it is right for calls that do not overlap."
  },
  {
   "property": "C95",
   "status": "partial",
   "theorems": [
    "Ustl.Bytes.copy_n_ptr",
    "Ustl.Bytes.copy_ptr",
    "Ustl.Bytes.copy_backward_ptr_partial",
    "Ustl.Bytes.fill_n_ptr_partial",
    "Ustl.Bytes.copy_backward_ptr_violated"
   ],
   "note": "Refuted: copy_backward of bytes and 16-bit elements returns result unchanged, for char and int8_t only if the pointers are not to const. fill of 16- and 32-bit elements is right only as far as fill_n_fast is (C53)."
  },
  {
   "property": "C96",
   "status": "partial",
   "theorems": [
    "Ustl.Str.assign_self",
    "Ustl.Str.assign_self_partial",
    "Ustl.Str.assign_piece_violated",
    "Ustl.Str.append_self_partial",
    "Ustl.Str.append_piece_violated",
    "Ustl.Str.insert_self",
    "Ustl.Str.insert_self_partial",
    "Ustl.Str.insert_piece_violated",
    "Ustl.Str.insert_full_violated",
    "Ustl.Str.replace_self_partial",
    "Ustl.Str.replace_self",
    "Ustl.Str.replace_before_partial",
    "Ustl.Str.replace_after_violated",
    "Ustl.Str.insert_middle_violated"
   ],
   "note": "For strings that own their characters (linked ones: string_history_partial, C24). Right: assigning a piece that begins at the beginning or further from it than it is long; appending with room; inserting a piece from before the place with room; replacing by a piece of the same length, or by a piece of any length from before the place. Refuted: s.assign (s, 1, n) always ends in a NUL character; appending or inserting without room reads freed memory; inserting a piece from after the place inserts its neighbour. A piece with the place in its middle inserts its first part again and again; replacing by a piece of another length from after the place takes other characters. Missing: a replaced range that begins inside the piece."
  },
  {
   "property": "C97",
   "status": "partial",
   "theorems": [
    "Ustl.Text.in_settings",
    "Ustl.Text.read_base_partial",
    "Ustl.Text.dec_violated"
   ],
   "note": "in_settings: after any calls the settings on are those asked for. Numbers are read in the base asked for, saturated at long as strtol does (clip) and truncated to the type. Refuted for decimal numbers that begin with 0: dec gives base 0 to strtol, so 010 is read as 8 even right after dec."
  },
  {
   "property": "C98",
   "status": "partial",
   "theorems": [
    "Ustl.Util.min_max_partial",
    "Ustl.Util.min_max_right",
    "Ustl.Util.min_max_violated",
    "Ustl.Util.minmax_list",
    "Ustl.Util.minmax_equivalent_violated"
   ],
   "note": "Right for one type, for non-negative numbers (min), and for types of one signedness when the result fits the first type. Refuted: min (-1, 5u) is 5; max (uint8_t (5), 256) is 0. minmax of a list: extreme elements always; among equivalent ones the last (without) or first (with comparison) of both kinds is taken, which differs from C++ and between the overloads."
  },
  {
   "property": "C99",
   "status": "partial",
   "theorems": [
    "Ustl.Text.float_written_partial",
    "Ustl.Text.precision_violated",
    "Ustl.Text.left_width_violated",
    "Ustl.Text.format_fits"
   ],
   "note": "Right for precisions below 10 and widths below 10 without left. Refuted: a precision of two different digits is taken backwards (12 decimals asked for, 21 written; 10 asked for, 1 written); left with a width makes a format string the C library does not define. scientific, infinities and NaNs are not modelled; the conversion %f of the C library is taken to be correctly rounded."
  }
 ]
}