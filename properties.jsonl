{"id": "C01", "title": "Binary searches return the partition points of a sorted range", "statement": "On a range sorted under the comparison, lower_bound returns the first position whose element is not less than the value, upper_bound the first position whose element is greater, and equal_range the pair of both; on any range whatsoever (sorted or not) they terminate and read only positions inside [first,last).", "quantifier": "all element types with a strict weak order, all ranges of every length, all values", "why_tests_cant": "The midpoint/boundary arithmetic has to be right for every length and every position of the value; tests only sample lengths.", "anchors": ["ualgo.h:lower_bound", "ualgo.h:upper_bound", "ualgo.h:equal_range", "upredalgo.h:lower_bound", "upredalgo.h:upper_bound", "upredalgo.h:equal_range"]}
{"id": "C02", "title": "binary_search answers membership", "statement": "binary_search(first,last,value) on a sorted range is true iff some element is equivalent to value; the same holds of the overload taking a comparison.", "quantifier": "all sorted ranges, all values, all strict weak orders", "why_tests_cant": "The two overloads are written separately; only a proof over all sorted ranges shows whether each is an exact membership test.", "anchors": ["ualgo.h:binary_search", "upredalgo.h:binary_search"]}
{"id": "C03", "title": "Heap algorithms maintain the heap and never lose an element", "statement": "make_heap turns any range into a heap, push_heap/pop_heap preserve it (pop_heap moving a maximum to the end), sort_heap sorts it ascending, is_heap decides exactly the heap property; each only permutes the elements and never touches memory outside the range.", "quantifier": "all ranges of every length, all strict weak orders", "why_tests_cant": "Sift loops depend on parity and depth of the tree; the property must hold for every length and ordering.", "anchors": ["uheap.h:is_heap", "uheap.h:make_heap", "uheap.h:push_heap", "uheap.h:pop_heap", "uheap.h:sort_heap", "uheap.h:trickle_down_heap"]}
{"id": "C04", "title": "priority_queue always serves a maximum", "statement": "However a queue is constructed (empty, from a range, from a container, from both), after any sequence of push and pop, top() is a maximum (under the queue's comparison) of the multiset of elements pushed and not yet popped, and pop removes exactly one such element.", "quantifier": "all operation histories, all element types, all comparisons", "why_tests_cant": "A property of every history and every comparison; a test with the default comparison cannot see a pop that ignores the comparison.", "anchors": ["uheap.h:priority_queue", "uheap.h:priority_queue::pop", "uheap.h:priority_queue::push"]}
{"id": "C05", "title": "stable_sort sorts stably", "statement": "stable_sort leaves the range sorted, a permutation of the input, with equivalent elements in their original relative order.", "quantifier": "all ranges, all strict weak orders (including preorders with many equivalent elements)", "why_tests_cant": "Stability concerns every pair of equivalent elements in every input.", "anchors": ["ualgo.h:stable_sort", "upredalgo.h:stable_sort"]}
{"id": "C06", "title": "rotate and reverse are exact permutations", "statement": "rotate(first,middle,last) leaves the elements of [middle,last) followed by those of [first,middle), in order, whether it goes through the generic, the scratch-buffer or the triple-reverse code path; reverse leaves the reversed sequence; reverse_copy, rotate_copy and swap_ranges likewise; none touches memory outside the ranges.", "quantifier": "all ranges, all middle points, all element sizes", "why_tests_cant": "Off-by-one faults in these loops depend on parity and on the sizes of the two halves.", "anchors": ["ualgobase.h:rotate", "ualgobase.cc:rotate_fast", "ualgo.h:reverse", "ualgo.h:rotate", "ualgobase.cc:reverse"]}
{"id": "C07", "title": "partition algorithms separate without loss", "statement": "partition/stable_partition return the boundary such that exactly the elements satisfying the predicate come before it; stable_partition keeps both groups in original order; the range is only permuted.", "quantifier": "all ranges, all predicates", "why_tests_cant": "Recursive halving must be right for every split of every length.", "anchors": ["upredalgo.h:partition", "upredalgo.h:stable_partition"]}
{"id": "C08", "title": "merge and inplace_merge produce the sorted union, stably", "statement": "merging two sorted ranges yields a sorted sequence that is a permutation of both, and (as the standard requires) equivalent elements of the first range precede those of the second.", "quantifier": "all pairs of sorted ranges, all strict weak orders", "why_tests_cant": "Stability only shows on elements that are equivalent but distinguishable, in every interleaving.", "anchors": ["ualgo.h:merge", "ualgo.h:inplace_merge", "upredalgo.h:merge", "upredalgo.h:inplace_merge"]}
{"id": "C09", "title": "Sorted set algorithms compute multiset operations", "statement": "On sorted ranges includes, set_union, set_intersection, set_difference and set_symmetric_difference compute the sub-multiset test, and the max, min, truncated difference and absolute difference of multiplicities of every element, and the output is sorted.", "quantifier": "all pairs of sorted ranges (with duplicates)", "why_tests_cant": "Multiplicity arithmetic must hold for every pair of multiplicities.", "anchors": ["ualgo.h:includes", "ualgo.h:set_union", "ualgo.h:set_intersection", "ualgo.h:set_difference", "ualgo.h:set_symmetric_difference"]}
{"id": "C10", "title": "next_permutation/prev_permutation step through the lexicographic order", "statement": "next_permutation replaces the range by its immediate successor among the permutations of its elements in lexicographic order and returns true, or by the sorted range and returns false when there is none; prev_permutation is the mirror image; either only permutes the range.", "quantifier": "all ranges over a linear order, with or without duplicates", "why_tests_cant": "Immediate successor quantifies over all permutations of all ranges.", "anchors": ["ualgo.h:next_permutation", "ualgo.h:prev_permutation"]}
{"id": "C100", "title": "One stream written into another", "statement": "os << is and os.read (is) write exactly what has not been read of is, os << os2 exactly what was written to os2, in order, to binary and text streams alike; os.read (is) leaves nothing to read in is; istream is (os) reads back exactly what was written to os. If there is no room nothing is written and no byte is lost.", "quantifier": "all streams, positions, contents, states, exception settings, and any number of streams moved into one", "why_tests_cant": "Any combination of positions, sizes and exception settings of two streams, and any number of streams one after another.", "anchors": ["mistream.cc:istream::write", "mistream.cc:istream::text_write", "mistream.cc:ostream::read", "mistream.cc:ostream::text_write", "mistream.cc:istream::istream (const ostream&)", "mostream.h:ostream::write (ostream&)"]}
{"id": "C101", "title": "A vector edited with its own elements", "statement": "assign, push_back, resize and insert whose argument is an element of the vector itself, or a range of its own iterators, do the same as with a copy of that element or range; v = v changes nothing. If memory runs out nothing changes.", "quantifier": "all element types, contents, spare room, positions and numbers of elements", "why_tests_cant": "The result depends on where the element is, on how much room is left, on the places relative to each other and on the destructor of the element type.", "anchors": ["uvector.h:vector::assign", "uvector.h:vector::push_back", "uvector.h:vector::resize", "uvector.h:vector::insert", "uvector.h:vector::operator="]}
{"id": "C102", "title": "Text streams copied, assigned, moved and swapped", "statement": "An ostringstream is a value: after a copy, an assignment, a move or swap (a, b), each stream shows in str () what it was given and what was written to it since, and nothing that is done to a copy, or to the original, shows in the other. os = os changes nothing. a.swap (b) exchanges the streams. All memory is given back when the streams are gone. If memory runs out while a stream is written to, its text is as before.", "quantifier": "all numbers of streams, texts, orders of writing, copying, assigning, moving, swapping, destroying and calls of str (), and allocations that fail", "why_tests_cant": "Whether a copy is independent depends on how much room the original happened to have left when it was copied, and shows only when both are used afterwards.", "anchors": ["sostream.h:ostringstream", "sostream.cc:ostringstream::overflow", "sostream.cc:ostringstream::write", "mostream.h:ostream::swap", "mistream.cc:ostream::unlink", "cmemlink.cc:cmemlink::link"]}
{"id": "C103", "title": "Each file is closed and written by one object", "statement": "With any number of fstream objects in one process: what is written through an object is added to the file that this object opened, or that was handed to it, and to no other; closing, reopening and destroying an object closes its file and no other; a file stays open until then; when all objects are gone every file is closed. A copy of an object can be used and destroyed like the original.", "quantifier": "all numbers of objects, all orders of making, opening, writing, closing, detaching, copying, assigning and destroying them, and all choices of descriptors by the system", "why_tests_cant": "An object that closes a descriptor twice, or keeps one it has not got any more, does harm only if another object was given the same number in between; tests open one file at a time.", "anchors": ["fstream.h:fstream", "fstream.cc:fstream::close", "fstream.cc:fstream::attach", "fstream.cc:fstream::detach", "fstream.cc:fstream::open", "fstream.cc:fstream::~fstream"]}
{"id": "C104", "title": "Storage from operator new", "statement": "With the operator new and delete of the library: each object has storage of the size asked for to itself; what is stored in it stays until it is overwritten or deleted; deleting one object ends no other, and deleting a null pointer does nothing; new never returns a null pointer but throws bad_alloc with the size; when everything is deleted nothing is left allocated.", "quantifier": "all programs (sequences of new, new[], delete, sized delete, stores and loads, any number of objects of any size), every C library whose malloc and free do what C says, with failures at any time", "why_tests_cant": "What malloc returns depends on all calls made before, in the whole process; that no byte is shared and nothing is freed twice must hold for all of these histories and for failures a test cannot provoke.", "anchors": ["unew.cc:tmalloc", "unew.cc:nfree", "unew.cc:nfreen", "unew.h:operator new", "unew.h:operator delete"]}
{"id": "C11", "title": "remove/unique/replace and their copy forms keep exactly the right elements in order", "statement": "remove_copy(_if)/remove(_if) keep exactly the elements that do not match, in order; unique_copy/unique keep the first element of each run; replace(_if) substitutes matching elements only; copy_if keeps those that match; transform and for_each apply to each element once in order.", "quantifier": "all ranges, all predicates/values", "why_tests_cant": "The claim ranges over all contents, including adjacent and boundary matches.", "anchors": ["ualgo.h:remove_copy", "ualgo.h:unique_copy", "ualgo.h:replace", "upredalgo.h:remove_copy_if", "upredalgo.h:unique_copy", "ualgo.h:unique", "uctralgo.h"]}
{"id": "C12", "title": "find/count/adjacent_find/mismatch/equal/lexicographical_compare decide what they say", "statement": "find returns the first match or last; count the number of matches; adjacent_find the first equal neighbour pair; mismatch the length of the longest common prefix; equal is pointwise equality; lexicographical_compare is the lexicographic strict order.", "quantifier": "all ranges and values", "why_tests_cant": "First-match claims quantify over all prefixes of all ranges.", "anchors": ["ualgo.h:find", "ualgo.h:count", "ualgo.h:adjacent_find", "ualgo.h:mismatch", "ualgo.h:equal", "ualgo.h:lexicographical_compare", "upredalgo.h:find_if"]}
{"id": "C13", "title": "search/find_end/search_n locate subsequences", "statement": "search returns the first occurrence of the pattern, find_end the last occurrence, search_n the first run of the given length, and each returns last exactly when there is none.", "quantifier": "all texts, all patterns, all counts", "why_tests_cant": "First/last occurrence is a claim about every position of every text; boundary occurrences are easily missed by tests.", "anchors": ["ualgo.h:search", "ualgo.h:find_end", "ualgo.h:search_n", "upredalgo.h:search", "upredalgo.h:find_end", "upredalgo.h:search_n"]}
{"id": "C14", "title": "random_shuffle permutes for every random source", "statement": "Whatever numbers the generator returns, random_shuffle leaves a permutation of the range and touches only the range.", "quantifier": "all ranges, all sequences of generator results", "why_tests_cant": "Quantifies over every behaviour of the random source.", "anchors": ["ualgo.h:random_shuffle", "upredalgo.h:random_shuffle"]}
{"id": "C15", "title": "partial_sort, partial_sort_copy and nth_element select the smallest elements", "statement": "partial_sort leaves the smallest middle-first elements, sorted, in the prefix and the rest after; partial_sort_copy writes the smallest min(n,m) elements sorted; nth_element leaves at nth the element a full sort would place there.", "quantifier": "all ranges, all middle points, all strict weak orders", "why_tests_cant": "Order statistics for every input.", "anchors": ["ualgo.h:partial_sort", "ualgo.h:nth_element", "ualgo.h:partial_sort_copy"]}
{"id": "C16", "title": "min/max/min_element/max_element/is_sorted are exact", "statement": "max_element returns the first maximum, min_element the first minimum, is_sorted is true iff the range is sorted; min/max return one of their arguments that bounds both.", "quantifier": "all ranges, all strict weak orders", "why_tests_cant": "First extremum quantifies over all positions.", "anchors": ["ualgo.h:max_element", "ualgo.h:min_element", "ualgo.h:is_sorted", "uutility.h:min", "uutility.h:max"]}
{"id": "C17", "title": "Numeric algorithms compute sums, products and differences, and terminate", "statement": "accumulate, inner_product, partial_sum, adjacent_difference, iota produce the fold, dot product, prefix sums, successive differences, and consecutive values of any range, and return after reading each element once.", "quantifier": "all ranges over any additive structure", "why_tests_cant": "Termination and exactness for every length.", "anchors": ["unumeric.h:accumulate", "unumeric.h:inner_product", "unumeric.h:partial_sum", "unumeric.h:adjacent_difference"]}
{"id": "C18", "title": "memblock: every operation history behaves like a byte string", "statement": "After any sequence of assign, append-style resize, insert, erase, reserve, shrink_to_fit, clear, link, unlink, manage, copy and move, the bytes visible through begin()/size() are exactly those of the same operations on a byte list; an allocation failure leaves the old contents intact.", "quantifier": "all histories of operations, all sizes, all allocation failures", "why_tests_cant": "Quantifies over all histories and crash (bad_alloc) points.", "anchors": ["memblock.cc", "memlink.cc", "cmemlink.cc", "memblock.h"]}
{"id": "C19", "title": "memblock owns what it frees", "statement": "In any history every heap block is freed at most once, linked (foreign) memory is never freed, a linked block is never written by insert/erase/resize until it has been copied, and size never exceeds capacity of an owned block.", "quantifier": "all histories of operations over several memblocks", "why_tests_cant": "Ownership is a property of all histories.", "anchors": ["memblock.cc:reserve", "memblock.cc:deallocate", "memblock.cc:manage", "memblock.h:unlink", "memlink.h:link"]}
{"id": "C20", "title": "memblock::reserve always provides the requested room", "statement": "After reserve(n)/resize(n) succeeds, capacity() >= n (+ the minimum free capacity) and all n bytes are inside the allocated block.", "quantifier": "all 32-bit sizes", "why_tests_cant": "Wrap-around in the power-of-two rounding occurs only at sizes no test allocates.", "anchors": ["memblock.cc:reserve", "memblock.cc:resize", "uutility.h:NextPow2"]}
{"id": "C21", "title": "Taking a private copy of linked memory reads only the linked memory", "statement": "When a block linked to n foreign bytes is copied into owned storage (by reserve, resize, insert or erase) only those n bytes are read.", "quantifier": "all linked sizes and all requested capacities", "why_tests_cant": "An over-read of one byte is invisible unless the foreign block ends at an unmapped page.", "anchors": ["memblock.cc:reserve", "memblock.cc:resize"]}
{"id": "C22", "title": "vector: every operation history behaves like a sequence of elements", "statement": "After any sequence of push_back, pop_back, insert (one, n copies, range), erase, resize, assign, clear, swap, a vector's elements equal those of a mathematical sequence under the same operations, size/empty/front/back/[] agree, capacity is monotone except by shrink_to_fit, and each element slot is constructed once and destroyed once.", "quantifier": "all histories, all element sizes", "why_tests_cant": "Quantifies over all histories.", "anchors": ["uvector.h"]}
{"id": "C23", "title": "string is NUL-terminated after every operation", "statement": "After any sequence of string operations c_str()[size()] is the NUL character, within capacity, and size() does not count it.", "quantifier": "all histories of string operations", "why_tests_cant": "Each operation manages the terminator by hand; one missing case in one history breaks c_str().", "anchors": ["ustring.h", "ustring.cc:resize", "ustring.cc:assign", "ustring.cc:append", "ustring.cc:insert", "ustring.cc:erase"]}
{"id": "C24", "title": "string editing operations have sequence semantics", "statement": "assign, append, insert, erase, replace, substr, push_back, pop_back and resize produce the character sequences the interface describes, with out-of-range positions clamped.", "quantifier": "all strings, positions and counts", "why_tests_cant": "Sequence equality for every combination of position and length.", "anchors": ["ustring.cc:append", "ustring.cc:insert", "ustring.cc:erase", "ustring.cc:replace", "ustring.h:substr"]}
{"id": "C25", "title": "string::find returns the first occurrence", "statement": "find(c,pos) and find(s,pos) return the smallest index >= pos at which the character/string occurs and npos exactly when there is none; find_first_of / find_first_not_of likewise.", "quantifier": "all texts, needles and start positions", "why_tests_cant": "The skip loop is a Boyer-Moore variant: its correctness needs a proof over all texts and needles.", "anchors": ["ustring.cc:find", "ustring.cc:find_first_of", "ustring.cc:find_first_not_of"]}
{"id": "C26", "title": "string::rfind and find_last_of return the last occurrence", "statement": "rfind(c,pos)/rfind(s,pos)/find_last_of/find_last_not_of return the largest index <= pos at which a match starts, npos exactly when there is none, and read only the string.", "quantifier": "all texts, needles and start positions", "why_tests_cant": "Last-occurrence and boundary (index 0, empty string) claims quantify over all positions.", "anchors": ["ustring.cc:rfind", "ustring.cc:find_last_of", "ustring.cc:find_last_not_of"]}
{"id": "C27", "title": "string comparison is a total order consistent with equality", "statement": "compare is the lexicographic order of unsigned bytes then length: antisymmetric, transitive, total; ==, !=, <, >, <=, >= agree with it, and compare()==0 iff sizes and bytes are equal.", "quantifier": "all pairs and triples of strings (shorter than 2^31)", "why_tests_cant": "Order axioms quantify over triples of arbitrary strings.", "anchors": ["ustring.cc:compare", "ustring.h:operator==", "ustring.h:operator<"]}
{"id": "C28", "title": "UTF-8 encoding and decoding are inverse", "statement": "Writing a code point through utf8 output and reading it back through utf8in yields the same value; the encoded size equals Utf8Bytes; sequence length is determined by the first byte; distinct values have distinct, prefix-free encodings.", "quantifier": "all code values below 2^31", "why_tests_cant": "2^31 values and all concatenations of them.", "anchors": ["utf8.h:Utf8Bytes", "utf8.h:Utf8SequenceBytes", "utf8.h:utf8out_iterator", "utf8.h:utf8in_iterator"]}
{"id": "C29", "title": "UTF-8 string iteration and length are faithful", "statement": "For a string holding the encodings of code points v1..vn (nonzero), length() is n, iterating utf8_begin..utf8_end yields v1..vn, and utf8_iat(k) addresses the encoding of v(k+1).", "quantifier": "all sequences of nonzero code points below 2^31", "why_tests_cant": "Induction over sequences of mixed-width encodings.", "anchors": ["ustring.h:length", "ustring.h:utf8_begin", "utf8.h:utf8in_iterator", "ustring.h:wiat"]}
{"id": "C30", "title": "set holds each key once, in order", "statement": "After any history of insert/erase/clear/assign a set's elements are strictly increasing and are exactly those of the corresponding mathematical set; find/count/insert's result agree with membership.", "quantifier": "all histories, all key types with a linear order", "why_tests_cant": "All histories.", "anchors": ["uset.h"]}
{"id": "C31", "title": "multiset keeps all copies in order", "statement": "After any history of insert/erase a multiset is sorted and the multiplicity of every key is insertions minus removals; a new equal element goes after existing ones; erase(v) removes all copies and returns their number; count/find/equal_range agree.", "quantifier": "all histories", "why_tests_cant": "All histories.", "anchors": ["umultiset.h"]}
{"id": "C32", "title": "map is a finite map", "statement": "After any history of insert, operator[], erase, a map's keys are strictly increasing and lookup (find, operator[], count, at) agrees with the mathematical finite map; insert does not overwrite, operator[] creates a default entry.", "quantifier": "all histories, all key/value types", "why_tests_cant": "All histories.", "anchors": ["umap.h"]}
{"id": "C33", "title": "multimap is a finite multi-valued map", "statement": "After any history of insert and erase keys are sorted, values of one key stay in insertion order, and count/equal_range/erase(k) agree with the mathematical multimap.", "quantifier": "all histories", "why_tests_cant": "All histories.", "anchors": ["umultimap.h"]}
{"id": "C34", "title": "queue is first-in first-out", "statement": "After any history of push/pop, front is the oldest element not popped, back the newest, size and empty agree; a copied queue behaves like the original.", "quantifier": "all histories, including compaction points and copies", "why_tests_cant": "The storage is compacted at history-dependent moments.", "anchors": ["uqueue.h"]}
{"id": "C35", "title": "stack is last-in first-out", "statement": "After any history of push/pop top is the newest element not popped.", "quantifier": "all histories", "why_tests_cant": "All histories.", "anchors": ["ustack.h"]}
{"id": "C36", "title": "list operations have sequence semantics", "statement": "list push/pop/insert/erase/splice/remove/unique/reverse/sort/merge produce the sequences the interface describes.", "quantifier": "all lists and positions", "why_tests_cant": "All contents and positions.", "anchors": ["ulist.h"]}
{"id": "C37", "title": "bitset bits are independent and whole-set operations see only its Size bits", "statement": "set/reset/flip/test of a bit affect that bit only; &,|,^,~,==,any,none,count,to_string,to_value agree with the mathematical Size-bit vector after any history.", "quantifier": "all sizes, positions and histories", "why_tests_cant": "Word-boundary and padding effects appear only for particular sizes and histories.", "anchors": ["ubitset.h", "ubitset.cc"]}
{"id": "C38", "title": "Binary streams round-trip", "statement": "Any sequence of values (integers of every width, pairs, strings, memory blocks, vectors, nested vectors, maps) written to an ostream and read by an istream with the same types comes back equal, leaving the read position equal to the write position.", "quantifier": "all values and all sequences of values", "why_tests_cant": "All nested values of all sizes.", "anchors": ["mostream.h", "mistream.h", "uctrstrm.h", "cmemlink.cc:write", "memblock.cc:read", "ustring.cc:read", "ustring.cc:write"]}
{"id": "C39", "title": "stream_size_of is exact", "statement": "stream_size_of(v) equals the number of bytes written for v when writing starts at an aligned position.", "quantifier": "all values", "why_tests_cant": "All nested values.", "anchors": ["strmsize.h", "uctrstrm.h:container_stream_size", "cmemlink.cc:stream_size", "ustring.h:stream_size"]}
{"id": "C40", "title": "istream never reads outside its memory", "statement": "For any bytes (including hostile ones) and any sequence of reads, skips, seeks and aligns, no byte outside the buffer is read and pos() <= size(); a read beyond the end sets failbit or throws and transfers nothing.", "quantifier": "all buffers, all operation sequences", "why_tests_cant": "Hostile inputs and all op sequences.", "anchors": ["mistream.h", "mistream.cc", "uios.h"]}
{"id": "C41", "title": "ostream never writes outside its memory", "statement": "For any sequence of writes, skips, aligns and inserts, no byte outside the linked memory is written and pos() <= size(); an overrun sets failbit or throws and writes nothing.", "quantifier": "all op sequences", "why_tests_cant": "All op sequences.", "anchors": ["mostream.h", "mistream.cc", "uios.h"]}
{"id": "C42", "title": "Text formatting and parsing of integers round-trip", "statement": "An integer of any supported type, written by ostringstream in decimal, octal or hexadecimal, and read by istringstream in the same base, gives back the value and consumes exactly what was written; a list of integers with separators is read back as that list; a width only adds fill up to that width.", "quantifier": "all integers of all supported types, all three bases, all lists of them, all widths and fills", "why_tests_cant": "All 2^64 values, all lists, all widths.", "anchors": ["sostream.cc:iwrite", "sostream.h", "sistream.cc:iread", "sistream.h"]}
{"id": "C43", "title": "istringstream tokenising", "statement": "Reading strings/characters skips delimiters, returns maximal runs of non-delimiters (or the quoted text), getline returns the text before the next newline, and nothing outside the buffer is read.", "quantifier": "all inputs", "why_tests_cant": "All inputs.", "anchors": ["sistream.cc"]}
{"id": "C44", "title": "File streams write and read everything despite short transfers", "statement": "fstream::write transfers all bytes in order or reports failure, for every pattern of short transfers, EINTR and errors returned by the system; read likewise.", "quantifier": "all data, all behaviours of the system calls", "why_tests_cant": "Quantifies over all OS behaviours.", "anchors": ["fstream.cc:write", "fstream.cc:read", "ofstream.cc"]}
{"id": "C45", "title": "Alignment helpers", "statement": "Align(n,g) is the smallest multiple of g that is >= n, AlignDown the largest <= n, DivRU the ceiling quotient, NextPow2 the smallest power of two >= v, for every representable input, without wrap-around.", "quantifier": "all machine integers", "why_tests_cant": "All 2^32/2^64 values.", "anchors": ["uutility.h:Align", "uutility.h:AlignDown", "uutility.h:DivRU", "uutility.h:NextPow2"]}
{"id": "C46", "title": "gcd, lcm, abs, sign and byte swapping are the mathematical functions", "statement": "gcd returns the greatest common divisor, lcm the least common multiple, bswap is an involution that reverses bytes, Rol/Ror are inverse rotations, pack_type replicates a value, popcount counts ones.", "quantifier": "all machine integers", "why_tests_cant": "All inputs.", "anchors": ["uutility.h:gcd", "uutility.h:lcm", "uutility.h:bswap", "uutility.h:Rol", "uutility.h:Ror", "ualgobase.cc:popcount"]}
{"id": "C47", "title": "ratio arithmetic is exact rational arithmetic in lowest terms", "statement": "ratio<n,d>, ratio_add/subtract/multiply/divide and the comparisons denote the rational operations, reduced with positive denominator.", "quantifier": "all numerators and nonzero denominators without overflow", "why_tests_cant": "All rationals.", "anchors": ["uratio.h"]}
{"id": "C48", "title": "hrtime_t and duration arithmetic", "statement": "hrtime_t +,-,*,/,++,-- agree with arithmetic on total nanoseconds and keep 0 <= tv_nsec < 10^9; duration_cast truncates toward zero the exact conversion.", "quantifier": "all normalised times", "why_tests_cant": "Carry/borrow corner cases.", "anchors": ["uchrono.h"]}
{"id": "C49", "title": "Owning pointers destroy each object exactly once", "statement": "Under any sequence of construct, move, assign, reset, release, swap, destruct on unique_ptr/auto_ptr/unique_resource, each adopted object is destroyed exactly once or released, and never used after destruction.", "quantifier": "all histories over any number of pointers", "why_tests_cant": "All histories.", "anchors": ["umemory.h:unique_ptr", "umemory.h:auto_ptr"]}
{"id": "C50", "title": "shared_ptr counts references under concurrency", "statement": "For every interleaving of copies, resets and destructions by any number of threads on distinct shared_ptr objects, the object is destroyed exactly once, after the last owner is gone.", "quantifier": "all schedules, any number of threads", "why_tests_cant": "All interleavings.", "anchors": ["umemory.h:shared_ptr", "uatomic.h:atomic"]}
{"id": "C51", "title": "Matrix and tuple arithmetic", "statement": "multiply of matrices is the matrix product, transform is the vector-matrix product, transpose an involution, identity neutral; tuple/array elementwise operators are componentwise.", "quantifier": "all matrices over any commutative ring, all dimensions", "why_tests_cant": "All dimensions and values.", "anchors": ["ulaalgo.h", "umatrix.h", "utuple.h", "simd.h"]}
{"id": "C52", "title": "Iterator adaptors obey iterator algebra", "statement": "reverse_iterator traverses in reverse; (i+n)-n == i, (i+n)-i == n, *(i+n) == i[n] for reverse_iterator, move_iterator and index_iterate.", "quantifier": "all positions and offsets", "why_tests_cant": "All offsets.", "anchors": ["uiterator.h:reverse_iterator", "uiterator.h:move_iterator", "uiterator.h:index_iterate"]}
{"id": "C53", "title": "fill and copy primitives touch exactly the destination", "statement": "copy, copy_backward, copy_n, fill, fill_n (including the word-at-a-time specialisations) write exactly the destination range with exactly the given values.", "quantifier": "all counts, all destination alignments, all element sizes", "why_tests_cant": "Alignment/count combinations; over-writes by the wide path show up only for particular addresses.", "anchors": ["ualgobase.h:copy", "ualgobase.h:copy_backward", "ualgobase.h:fill_n", "ualgobase.cc:fill_n_fast", "ualgobase.cc:copy_n_fast"]}
{"id": "C54", "title": "string hash respects equality", "statement": "Equal strings hash equally, and the hash depends only on the character sequence.", "quantifier": "all strings", "why_tests_cant": "All pairs.", "anchors": ["ustring.cc:hash", "ustring.h:hash"]}
{"id": "C55", "title": "string::format terminates with the formatted text", "statement": "format/vformat returns for every format result and leaves exactly the formatted text in the string, whatever the string held before; if memory runs out it throws and leaves a valid string.", "quantifier": "all formatted texts, all prior string states (linked, owned, any capacity), all allocation outcomes", "why_tests_cant": "The retry loop must terminate for every combination of old capacity and text length.", "anchors": ["ustring.cc:vformat", "ustring.cc:format"]}
{"id": "C56", "title": "Insert iterators insert in order", "statement": "Copying a sequence through inserter inserts it in order at the position, through back_inserter appends it, through front_inserter prepends it reversed; the rest of the container is unchanged.", "quantifier": "all sequences, containers and positions", "why_tests_cant": "All lengths and positions.", "anchors": ["uiterator.h:insert_iterator", "uiterator.h:back_insert_iterator", "uiterator.h:front_insert_iterator"]}
{"id": "C57", "title": "ostringstream holds everything written, in order", "statement": "After any sequence of put, write, format, << of integers and booleans, and of str() calls between them, str() is what the stream held followed by the text of every write in order, and no byte is stored outside the stream's memory.", "quantifier": "all sequences of writes, all texts, all growth patterns of the buffer", "why_tests_cant": "The buffer grows at different moments for every history, and every growth must keep the position and the text.", "anchors": ["sostream.cc:write", "sostream.cc:vformat", "sostream.cc:overflow", "sostream.h:str"]}
{"id": "C58", "title": "ofstream delivers its text to the file in order and once", "statement": "After any sequence of writes and flushes, the bytes the file was given followed by those still buffered are the text written, in order, each once; when flush or close of a good stream returns, all of it is in the file.", "quantifier": "all sequences of operations, all answers of write(2) (short, interrupted, failed)", "why_tests_cant": "Quantifies over operating-system behaviours and histories.", "anchors": ["ofstream.cc:overflow", "ofstream.cc:flush", "ofstream.cc:close"]}
{"id": "C59", "title": "Reading a file does not depend on how it arrives", "statement": "Reading characters, words, lines and numbers from an ifstream gives the same values as reading them from a string with the contents of the file, whatever the buffer size and the sizes of the pieces read(2) returns.", "quantifier": "all file contents, all sequences of reads, all buffer sizes, all piece patterns", "why_tests_cant": "Tests see one pattern of pieces; a token may straddle any boundary.", "anchors": ["ofstream.cc:underflow", "sistream.cc:iread", "sistream.cc:getline"]}
{"id": "C60", "title": "File descriptors are closed once; modes and names are right", "statement": "Every descriptor given to a file stream by open or attach is closed exactly once over its life (unless detached) and none other is; the flags passed to open are those the mode asks for; name() is the name of the open file.", "quantifier": "all histories of open, attach, detach, close and I/O; all mode combinations; all answers of the system", "why_tests_cant": "Histories and OS failures are unbounded.", "anchors": ["fstream.cc:attach", "fstream.cc:detach", "fstream.cc:close", "fstream.cc:om_to_flags"]}
{"id": "C61", "title": "Packed saturating arithmetic clamps and averages", "statement": "The saturating functors of simd.h return the value of the type nearest to the true sum or difference, the averaging functor the average rounded up, for every pair of values, and the generic and the hardware versions agree.", "quantifier": "all integer types and all pairs of values", "why_tests_cant": "2^128 pairs for the widest types; overflow depends on sign combinations.", "anchors": ["simd.h:fpadds", "simd.h:fpsubs", "simd.h:fpavg"]}
{"id": "C62", "title": "Exceptions survive the trip through a stream", "statement": "An exception written to an aligned stream and read into an exception of the same class comes back with the same format, fields and backtrace, the writer advancing by exactly stream_size(); reading bytes nobody vouches for stays inside the stream and inside the object.", "quantifier": "all exception classes of the library, all field values, all backtraces, all positions; all contents of the stream being read", "why_tests_cant": "Field values, backtraces and hostile streams are unbounded; the overflow needs a frame count above 64.", "anchors": ["bktrace.cc:read", "bktrace.cc:write", "uexception.cc:read", "uexception.cc:write", "ustdxept.cc:read", "ustdxept.cc:write", "ustdxept.h:stream_size"]}
{"id": "C63", "title": "Backtraces name their frames", "statement": "The symbol table and the text of a captured backtrace have one line per frame, in order, with the address and the (demangled) function name the C library reported; names are extracted without reading beyond the text given; copying a backtrace copies it exactly and leaks nothing.", "quantifier": "all texts the C library can report, all demanglers, all frame counts and addresses", "why_tests_cant": "Texts and names are unbounded; the defects need a + before the (, or a demangled name above 255 characters.", "anchors": ["bktrace.cc:ExtractAbiName", "bktrace.cc:GetSymbols", "bktrace.cc:text_write", "bktrace.cc:operator=", "uexception.cc:demangle_type_name"]}
{"id": "C64", "title": "Comparison operators are consistent", "statement": "For every type that offers them, !=, >, <= and >= mean what < and == say, < is a strict order, exactly one of <, ==, > holds of any two values, and min and max return the lesser and the greater argument; for pairs, arrays and tuples < is the lexicographic order.", "quantifier": "all element types with a strict weak order, all values, all lengths, all pairs of integer types", "why_tests_cant": "A transitivity failure needs three particular values, and the element type, length and integer types are arbitrary.", "anchors": ["uutility.h:min", "uutility.h:max", "uutility.h:rel_ops", "upair.h:operator<", "uarray.h:operator<", "utuple.h:operator<", "ustack.h:operator<", "uqueue.h:operator<", "uvector.h:operator==", "umemory.h:operator<", "mistream.h:operator<", "uerror.h:operator=="]}
{"id": "C65", "title": "Links view memory without owning it", "statement": "A cmemlink or memlink shows a range of memory that belongs to somebody else. Linking, unlinking, copying, swapping and shrinking move only the view; fill, insert, erase and stores through a memlink change exactly the bytes of the range they name, as every other link to the same memory then sees; nothing is ever allocated, freed or resized; bytes no link covers never change; link(nullptr, n) throws; == compares the bytes shown; a block written to a stream and read into linked storage arrives in it, and a block too large for the storage is refused.", "quantifier": "all memory contents, all ranges, any number of links sharing memory in any way, all histories of operations, all stream contents", "why_tests_cant": "Aliasing between links and the history of operations are unbounded; tests look at one or two links to one buffer.", "anchors": ["cmemlink.cc:link", "cmemlink.h:operator==", "cmemlink.h:swap", "cmemlink.h:resize", "memlink.cc:fill", "memlink.cc:read", "memlink.h:insert", "memlink.h:erase"]}
{"id": "C66", "title": "Whole files are saved and loaded", "statement": "write_file writes exactly what the block shows to the file, and read_file makes the block show exactly what is in the file, however the system splits, delays or interrupts the transfers; errors are thrown; nothing outside the block is accessed; the file is closed exactly once on every path.", "quantifier": "all contents, all blocks, all sequences of answers of the system to open, fstat, read, write and close", "why_tests_cant": "Partial transfers, interruptions and errors come at any point, in any order; tests see one cooperative system.", "anchors": ["cmemlink.cc:write_file", "memblock.cc:read_file", "fstream.cc:size", "fstream.cc:stat", "fstream.cc:open", "fstream.cc:~fstream"]}
{"id": "C67", "title": "Numbers and strings convert back and forth", "statement": "to_string of any integer is its decimal numeral; stoi, stol, stoul, stoll and stoull give the number a string begins with, in the given base (with 0 the prefix decides), and how many characters it took, 0 and 0 if there is none; out of range values are clipped; nothing beyond the terminator is read; to_string and sto* are inverse; memory is neither lost nor damaged when allocation fails.", "quantifier": "all values of the six integer types, all strings, all bases, all answers of the allocator", "why_tests_cant": "All 64-bit values and all strings; the numeral can be longer than the buffer to_string starts with.", "anchors": ["ustring.h:to_string", "ustring.h:stoi", "ustring.h:stol", "ustring.h:stoul", "ustring.h:stoll", "ustring.h:stoull", "ustring.cc:vformat"]}
{"id": "C68", "title": "Atomic objects work under every schedule", "statement": "Whatever the order in which the calls of any number of threads take effect: additions and subtractions on an atomic are all counted, and each call sees exactly what took effect before it; up to 2^b calls of fetch_add (1) get distinct, consecutive tickets; of n holders releasing a count of n exactly the last sees 0; set, cleared and flipped bits are the union, intersection and parity of what was asked; of the callers claiming a bit with fetch_or exactly one gets it; exchange neither loses nor copies a value; compare-exchange replaces exactly when it says so, and one racer wins; the value of ++a is the value the increment produced. A compare-exchange loop applies every function exactly once and is lock-free; a spin lock made of an atomic_flag gives mutual exclusion, loses no increment of the variable it protects, and never deadlocks.", "quantifier": "all word sizes, any number of threads and calls, all schedules, all spurious failures of the weak compare-exchange", "why_tests_cant": "The number of schedules is unbounded, and a test run sees one of them.", "anchors": ["uatomic.h:atomic", "uatomic.h:atomic_flag"]}
{"id": "C69", "title": "Streams can be read through istream_iterator", "statement": "Copying from istream_iterator<T>(is) to istream_iterator<T>() delivers exactly the values that are in the stream, in order, and then ends normally, leaving bytes too few for another value unread; --, -= and += move by that many values; iterators at different places compare different, and their difference is the number of values between them.", "quantifier": "all streamable types, all streams and values, all positions; for text all integer types, bases and separators", "why_tests_cant": "The end of a stream, sizes of neighbouring values and the error state interact in ways a few streams do not show.", "anchors": ["mistream.h:istream_iterator", "mistream.h:required_stream_size", "mistream.h:stream_at_eof", "mistream.cc:underflow"]}
{"id": "C70", "title": "Files can be read and written at any position", "statement": "After seekg(p) the next thing read from an ifstream is what the file has from p on, and tellg is the position of the next character that will be read, whatever the buffer holds; what is written to an ofstream before a seekp goes before it and what is written after it goes to the new position, tellp is where the next byte will go, and at any moment, also at a crash, the file has what some beginning of the same actions done without a buffer would have made of it; a seek that is refused is reported and moves nothing.", "quantifier": "all file contents, all sequences of reads, writes, seeks and tells, all buffer sizes, all answers of the system", "why_tests_cant": "Which bytes are in the buffer at a seek depends on the history, on the sizes and on how the system splits transfers.", "anchors": ["ofstream.cc:seekp", "ofstream.cc:seekg", "ofstream.cc:sync", "ofstream.h:tellp", "ofstream.h:tellg", "fstream.cc:seek", "fstream.cc:pos"]}
{"id": "C71", "title": "Control calls on files report refusals", "statement": "sync, ioctl, fcntl, mmap, munmap, msync, stat and size either do what was asked and return the system's answer, or report the refusal by fail() and, if asked for, an exception; set_nonblock changes no flag but O_NONBLOCK; a link returned by mmap can be used.", "quantifier": "all answers of the system, all flags, all exception masks", "why_tests_cant": "Refusals by the system are rare, and their handling differs from call to call.", "anchors": ["fstream.cc:sync", "fstream.cc:stat", "fstream.cc:ioctl", "fstream.cc:fcntl", "fstream.cc:set_nonblock", "fstream.cc:mmap", "fstream.cc:munmap", "fstream.cc:msync"]}
{"id": "C72", "title": "sort sorts by the comparison it is given", "statement": "sort(first,last), sort(first,last,comp), sort(ctr), sort(ctr,comp) and nth_element(first,nth,last,comp) leave a permutation of the range, ordered by operator< or by the comparison object passed, and touch nothing outside the range.", "quantifier": "all ranges, all strict weak orders, all comparison objects (with state, function pointers), every qsort meeting the contract of C", "why_tests_cant": "The comparison object may carry state; qsort may compare and move elements in any order its contract allows.", "anchors": ["ualgo.h:sort", "ualgo.h:qsort_adapter", "upredalgo.h:nth_element", "uctralgo.h:sort"]}
{"id": "C73", "title": "Algorithms on whole containers", "statement": "The forms of the algorithms that take a container do to all of its elements what the range forms do; remove, remove_if, unique and remove by iterators leave exactly the elements not removed, in order, and shorten the container; rotate(ctr, n) moves every element n places towards the end (n > 0) or the front (n < 0); a value argument may be an element of the container.", "quantifier": "all containers, values inside or outside the container, predicates, sorted sequences of iterators, offsets smaller than the size", "why_tests_cant": "The removing forms copy the container over itself, so the value compared with may be overwritten on the way.", "anchors": ["uctralgo.h", "ualgo.h:remove_copy", "ualgo.h:replace", "ualgobase.h:fill"]}
{"id": "C74", "title": "Function objects compute what their names say", "statement": "For a strict weak operator<, less and greater are strict weak orders, reverses of each other; less_equal and greater_equal their complements; compare has the sign of the comparison; bound, negated and composed objects, and objects applied to a member or through pointers, behave in algorithms as the function they denote: counting, finding, transforming, stably sorting by a member or in descending order.", "quantifier": "all element types with a strict weak order, all members, all stores of pointed-to objects, all containers", "why_tests_cant": "The laws range over all pairs and triples of elements.", "anchors": ["ufunction.h"]}
{"id": "C75", "title": "A scope guard runs its action exactly once", "statement": "Over any sequence of making, moving, releasing and destroying scope_exit objects, the action given to make_scope_exit runs exactly once, when the guard that then has it is destroyed, unless that guard was released, in which case it never runs; make_unique_resource_checked releases a valid resource once and an invalid one never.", "quantifier": "all histories of any number of guards, all actions", "why_tests_cant": "A guard is moved on every return from a function; the number of moves and the order of destruction are unbounded.", "anchors": ["umemory.h:scope_exit", "umemory.h:make_scope_exit", "umemory.h:make_unique_resource_checked"]}
{"id": "C76", "title": "Raw storage algorithms construct and destroy each slot once", "statement": "uninitialized_default_construct, _value_construct, _copy, _move, _fill, their counting forms, construct and destroy construct (destroy) every slot of the range exactly once, with the right value, and touch no other slot; if a constructor throws, the objects already made are destroyed.", "quantifier": "all ranges (empty and null included), all element sizes and addresses, all element values, every constructor call that may throw", "why_tests_cant": "Addresses, sizes and the point of the exception are unbounded.", "anchors": ["umemory.h:uninitialized_copy", "umemory.h:uninitialized_fill", "umemory.h:uninitialized_move", "umemory.h:uninitialized_default_construct", "umemory.h:destroy"]}
{"id": "C77", "title": "A vector survives exceptions from its elements", "statement": "If an element constructor or assignment, or the allocator, throws during an operation of a vector, the vector still holds a valid sequence of elements (its old ones unless the operation assigns), every one of them is destroyed exactly once later, and no object is lost.", "quantifier": "all vectors, all operations, every element operation and allocation at which an exception may occur, all histories of caught exceptions", "why_tests_cant": "The exception may come from any of an unbounded number of calls, in any operation of any history.", "anchors": ["uvector.h:push_back", "uvector.h:insert", "uvector.h:resize", "uvector.h:assign", "uvector.h:append_hole", "uvector.h:insert_hole"]}
{"id": "C78", "title": "Durations, time points and clocks keep time exactly", "statement": "Duration and time_point arithmetic is that of exact times; an implicit conversion is offered only where it is exact and then is; comparisons and differences of time points of different periods are those of the times; steady_clock::now is exactly the monotonic clock and system_clock_hr::now is its clock rounded down, both never going back when the clock does not; min, max and the text of a duration or time stand for what they should.", "quantifier": "all counts, all canonical periods, all clock readings, both representations", "why_tests_cant": "Counts, periods and clock readings are unbounded; overflow and rounding depend on all of them.", "anchors": ["uchrono.h:duration", "uchrono.h:time_point", "uchrono.h:steady_clock", "uchrono.h:system_clock_hr", "uchrono.h:hrtime_t::text_write", "uchrono.h:duration_values"]}
{"id": "C79", "title": "File streams keep their promises from construction to destruction", "statement": "A file stream that is constructed, written to and destroyed has delivered everything written to its file, in order and once, and has closed its descriptor exactly once (the standard three are left open); several files written in turn through one stream each get exactly their own text; a stream that could not be opened is visibly not good, and using and destroying it returns and touches no file; before standard input is read, everything written to cout is delivered.", "quantifier": "all texts and sequences of writes and flushes, all descriptors, all sequences of files, all sizes of partial writes", "why_tests_cant": "Quantifies over histories, operating-system behaviours and the moments at which a stream dies.", "anchors": ["ofstream.cc:ofstream", "ofstream.cc:~ofstream", "ofstream.h:open", "ofstream.cc:close", "ofstream.cc:underflow", "ofstream.cc:ifstream", "fstream.cc:~fstream", "fstream.cc:attach"]}
{"id": "C80", "title": "Manipulators set what they name and nothing else", "statement": "In any sequence of values and manipulators sent to a text stream, every value is written with the format settings in force at that moment; a flag turns itself on and the other flags of its group (base, float format, adjustment) off and no other; setw, setfill, setiosflags, resetiosflags, flags, setf, unsetf and ios::base set what they name and leave everything else; no manipulator adds text, except endl which adds one line end; the value returned by flags, setf and unsetf restores the flags when given to flags.", "quantifier": "all sequences of values and manipulators, all flag combinations, all initial settings and texts", "why_tests_cant": "Quantifies over unbounded interleavings of manipulators and values and over all combinations of flags.", "anchors": ["sostream.h:flags", "sostream.h:setf", "sostream.h:unsetf", "sostream.h:iwrite(fmtflags_bits)", "sostream.h:Sendl", "sostream.h:setiosflags", "sostream.h:setw", "sostream.h:setfill", "uiosfunc.h:width", "uiosfunc.h:base", "uios.h:fmtflags_bits"]}
{"id": "C81", "title": "The text of composite values", "statement": "Writing a pair, a container, a matrix or a bitset to a text stream writes the texts of its parts with the documented punctuation around them - (a,b), (a,b,c), ((a,b)(c,d)) - to any depth of nesting and nothing else, with the current format settings for the numbers; two different values built from numbers never have the same text; a bitset read from the text another bitset of the same size wrote is equal to it, and exactly that text is consumed.", "quantifier": "all types built from integers, bytes, booleans, characters and strings by pairs, containers and matrices, all their values, all stream states; all bitset sizes and contents", "why_tests_cant": "Quantifies over all nested types and values; that no two values share a text is a statement about all pairs of values.", "anchors": ["uspecial.h:pair::text_write", "uspecial.h:matrix::text_write", "uspecial.h:chartype_text_write", "uspecial.h:bitset::text_read", "uctrstrm.h:container_text_write", "uctrstrm.h:container_element_text_write", "ubitset.h:text_write", "sostream.h:operator<<"]}
{"id": "C82", "title": "The limits of the integer types", "statement": "For every integer type and for pointers, numeric_limits<T>::min() and max() are values of T, every value of T is between them and every number between them is a value of T; is_signed is true exactly if T has negative values; digits10 decimal digits suffice for every value, and digits is the number of bits that hold the value; the limits of a tuple bound every tuple component by component.", "quantifier": "all integer types and pointers, all their values; all tuple sizes and contents", "why_tests_cant": "Ranges over all 2^64 values of each type; that a bound is a bound cannot be tested value by value.", "anchors": ["ulimits.h:numeric_limits", "ulimits.h:_NUMERIC_LIMITS", "uspecial.h:numeric_limits"]}
{"id": "C83", "title": "Iterators over binary streams", "statement": "Copying values to an ostream_iterator writes their serialised forms one after another and nothing else; copying characters to utf8out (os) writes their UTF-8 text; copying from utf8in (is) to the end stores exactly the characters whose text remains in the stream and consumes it, dropping a character cut off by the end; what was written through an output iterator is read back through the input iterator; without room, writing throws.", "quantifier": "all serialisable types and sequences of values, all character sequences, all stream states and positions, every place the text may be cut off", "why_tests_cant": "Quantifies over all types, sequences and stream positions, and over every place where the input may end.", "anchors": ["mostream.h:ostream_iterator", "mistream.h:istream_iterator", "utf8.h:utf8out_iterator", "utf8.h:utf8in_iterator", "utf8.h:utf8out", "utf8.h:utf8in"]}
{"id": "C84", "title": "64-bit values in a stream of 4-byte grain", "statement": "Writing a 64-bit value or a pointer with long4grain or ptr4grain writes its 8 bytes at the position, with no padding whatever the alignment, and changes nothing else; reading gives the value of the 8 bytes there and moves 8 bytes on; the build for x86-64 and the portable one do the same; a file of 32-bit numbers and such values in any order is read back as written; without room or bytes it throws.", "quantifier": "all values, all sequences of 32-bit and 64-bit values, all stream states and positions", "why_tests_cant": "Quantifies over all 64-bit values, positions and mixed sequences, and over two builds.", "anchors": ["uspecial.h:_long4grain", "uspecial.h:long4grain", "uspecial.h:ptr4grain"]}
{"id": "C85", "title": "Packed operations in MMX and SSE registers", "statement": "A packed sum, difference, bit operation, saturated sum or difference, minimum, maximum or average of two tuples of integers makes of every element of the second exactly what the operation makes of the two elements, with no carry from one to another, and changes no other byte of memory; the versions with MMX instructions and the generic loops leave the same memory; copies, swaps and zeroing through registers do so element by element.", "quantifier": "all contents of the tuples and registers, all addresses, also the same tuple twice, all element types and sizes the library specialises", "why_tests_cant": "Quantifies over all 2^128 contents of two registers and over all placements in memory.", "anchors": ["simd.h:packop", "simd.h:passign", "simd.h:ipassign", "simd.h:MMX_PKOP2_SPEC", "simd.h:MMX_DBL_PKOP2_SPEC", "simd.h:MMX_PASSIGN_SPEC", "utuple.h:swap", "utuple.h:tuple"]}
{"id": "C86", "title": "Vectors linked to memory they do not own", "statement": "A vector linked to an array shows the elements of that array; editing it (push_back, insert, erase, resize, assign, copy_link) gives it a private copy and never changes, frees or destroys anything in the array; unlink forgets, manage takes over and frees once; destroying a linked vector leaves the array alone.", "quantifier": "all histories of linking, managing, copying and editing over any number of vectors, all element lists, all patterns of allocation failure", "why_tests_cant": "Ownership of shared memory is a property of all histories, and a double destruction shows only when the second owner is destroyed.", "anchors": ["uvector.h:link", "uvector.h:manage", "uvector.h:unlink", "uvector.h:copy_link", "uvector.h:destroy_all", "uvector.h:erase", "uvector.h:pop_back", "memblock.cc:reserve"]}
{"id": "C87", "title": "Sorted containers used through the vector they are", "statement": "set, multiset, map and multimap publicly are vectors. front() and back() are the smallest and greatest element, operator[] (i) of a set the element with exactly i smaller ones; pop_back removes the greatest (the newest of the greatest key), resize to a smaller n keeps the n smallest; and after any mixture of these with the container's own operations it is still sorted, without duplicates where promised, and every search works.", "quantifier": "all histories mixing own and inherited calls, all strict weak (linear) orders and contents", "why_tests_cant": "The damage of one inherited call shows only in later searches; which element is removed depends on the whole history.", "anchors": ["uset.h:set", "umultiset.h:multiset", "umap.h:map", "umultimap.h:multimap", "uvector.h:pop_back", "uvector.h:resize", "uvector.h:front", "uvector.h:back", "uvector.h:at", "uvector.h:read"]}
{"id": "C88", "title": "Type lists are lists of types", "statement": "Length, TypeAt, TypeAtNonStrict, IndexOf, Append, Erase, EraseAll, NoDuplicates, Replace, ReplaceAll and Reverse on a tl::Typelist compute what the list operation of that name computes on the sequence of its types; NoDuplicates keeps the order of first occurrences; MostDerived is a type of the list from which none of the others is derived, DerivedToFront a rearrangement in which no class follows one of its bases; Seq of up to nine types lists exactly these.", "quantifier": "all lists of types of every length, including types that are lists or NullType, and all derivation relations", "why_tests_cant": "A test program can instantiate the templates for a few lists only; the recursion over the list is what has to be right for every length.", "anchors": ["typelist.h: tl::Length, TypeAt, TypeAtNonStrict, IndexOf, Append, Erase, EraseAll, NoDuplicates, Replace, ReplaceAll, Reverse, MostDerived, DerivedToFront, Seq", "typet.h: tm::Select, tm::SuperSubclass"]}
{"id": "C89", "title": "Type traits agree with the language", "statement": "Every type has exactly one primary category and the is_... traits tell it; the composite categories, is_const/is_volatile, is_signed/is_unsigned, rank and extent say what the standard's traits of that name say; remove_/add_ const, volatile, cv, reference, pointer, extent, make_signed/make_unsigned, decay, is_same and is_base_of compute the types and answers the standard gives, for every type.", "quantifier": "all C++14 types: any nesting of qualifiers, pointers, references, arrays of known and unknown bound, functions with any qualifiers, member pointers", "why_tests_cant": "The types are infinitely many; partial specialisations match or miss a whole shape of types, and a static_assert covers one type of it.", "anchors": ["uttraits.h: remove_cv, add_cv, remove_reference, add_pointer, remove_extent, make_signed, is_integral, is_function, is_member_function_pointer, is_scalar, is_compound, rank, extent, decay, is_base_of"]}
{"id": "C90", "title": "TypeTraits<T> tells what it documents", "statement": "tm::TypeTraits<T> exists for every type; isConst, isVolatile, the unqualified types, isReference, ReferredType, isPointer, PointeeType, isMemberPointer, isFunction, isFunctionPointer, the integer and floating classes and ParameterType are as documented, looking through one reference and qualifiers; ParameterType never copies a class.", "quantifier": "all C++14 types", "why_tests_cant": "As for C89: whole families of types fall through the specialisations.", "anchors": ["traits.h: TypeTraits, IsFunctionPointerRaw, IsMemberFunctionPointerRaw, AddPointer, AddParameterType"]}
{"id": "C91", "title": "Exceptions say what went wrong", "statement": "For every exception class of the library and every argument of its constructors, what() is the title of the class or the message given, and info() with the default format leaves in the string exactly the description: \"<name>: <message>\", \"<operation>: <strerror>\", \"<operation> <file>: <strerror>\", \"failed to allocate <n> bytes\", \"<type> stream <operation>: @0x<offset>: need <n> bytes, have <m>\"; a format of the caller gets the same pieces in the same order. info() never throws and always returns. The texts live as long as the exception does.", "quantifier": "all classes, all texts (null pointers included), all error codes and numbers, all formats with the right conversions, all prior strings, all allocation outcomes", "why_tests_cant": "Texts, numbers and allocation outcomes are unbounded; the wrong conversions show only above 2^31, the dangling text only when the memory is reused.", "anchors": ["uexception.cc:exception::info", "uexception.cc:bad_alloc::info", "ustdxept.cc:error_message", "ustdxept.cc:error_message::info", "ustdxept.cc:system_error", "ustdxept.cc:file_exception::info", "ustdxept.cc:stream_bounds_exception::info", "ustdxept.h:system_error"]}
{"id": "C92", "title": "Error codes and conditions compare by the error they name", "statement": "Every errc enumerator has the value the C++ standard gives it; a code or condition with any number compares equal to an enumerator exactly if the number is that error, whichever side it is on; equality is by value on and between codes and conditions; a code or condition holds what was stored in it last and converts to true exactly if that is not 0; default_error_condition is equivalent to the code and has its message; an exception made from a code gives it back.", "quantifier": "all 78 enumerators, all int values, all histories of assignments", "why_tests_cant": "Tests compare a few codes; a wrong value in the table shows only for that enumerator.", "anchors": ["uerror.h:errc", "uerror.h:error_code", "uerror.h:error_condition", "uerror.h:error_category", "ustdxept.h:system_error::code"]}
{"id": "C93", "title": "Packed floats, conversions, 4x4 matrices and pairs of 16 bits", "statement": "A packed operation on four floats makes of every element what the processor makes of the two elements, and with and without SSE the result is the same, also for min and max of values that do not compare; packed rounding and its inverse put the converted element i at place i; copying a 4x4 matrix copies all 16 elements and a new one is zero; tuple<2,int16_t> and tuple<2,uint16_t> add and subtract modulo 65536, copy (also between each other), swap and start as zero; none of these changes any other byte.", "quantifier": "all contents of memory and registers, all addresses, every arithmetic, comparison and conversion of single floats", "why_tests_cant": "Quantifies over all 128-bit contents, all placements including overlapping ones, and the element order of a conversion shows only with four different values.", "anchors": ["simd.h:SSE_PKOP2_SPEC", "simd.h:pconvert", "simd.h:SIMD_CONVERT_SPEC", "umatrix.h:SSE_TUPLE_SPECS", "utuple.h:UINT32_TUPLE_SPECS"]}
{"id": "C94", "title": "TestAndSet is a lock", "statement": "Of any threads calling TestAndSet on one int in any order, a call returns true exactly if the int was 0, after any call it is 1, and between two calls that return true somebody stored a 0; of calls on a 0 that nobody stores to exactly the first returns true.", "quantifier": "all numbers of threads, all orders of their steps, all values of the int", "why_tests_cant": "Quantifies over all schedules.", "anchors": ["uutility.h:TestAndSet"]}
{"id": "C95", "title": "copy, copy_backward and fill with pointers", "statement": "Whatever the pointers of a copy, copy_n, copy_backward, fill or fill_n point to, and const or not, every element of the destination gets the element or value meant for it, nothing else changes, and what is returned is the end (for copy_backward the beginning) of what was written, as with any other iterators.", "quantifier": "all element types and sizes, all addresses and counts, ranges that overlap as the algorithm allows", "why_tests_cant": "The version chosen depends on type and constness; a wrong alias shows only for one type, a wrong return value only where it is used.", "anchors": ["ualgobase.h:COPY_ALIAS_FUNC", "ualgobase.h:COPY_N_ALIAS_FUNC", "ualgobase.h:COPY_BACKWARD_ALIAS_FUNC", "ualgobase.h:FILL_ALIAS_FUNC", "ualgobase.h:FILL_N_ALIAS_FUNC", "ualgobase.h:unrolled_copy", "ualgobase.h:unrolled_fill", "ualgobase.h:copy_backward"]}
{"id": "C96", "title": "A string edited with its own characters", "statement": "Assigning, appending, inserting or replacing with a piece of the very string gives the same as with a copy of that piece.", "quantifier": "all contents, capacities, pieces and places, whether the allocator gives memory or refuses", "why_tests_cant": "The source moves, is overwritten by the new terminator or is freed during the call, depending on lengths and spare capacity.", "anchors": ["ustring.cc:string::assign", "ustring.cc:string::append", "ustring.cc:string::insert", "ustring.cc:string::replace", "ustring.cc:string::resize", "memblock.cc:memblock::insert"]}
{"id": "C97", "title": "The base in which numbers are read", "statement": "A text input stream reads a number in the base that was set last: 16 after hex, 8 after oct, 10 otherwise. Setting one base clears the others, and likewise for float formats and alignments.", "quantifier": "all sequences of calls that change the settings, all stream contents, signs, digits and integer types", "why_tests_cant": "Settings accumulate over any sequence of calls, and the number may have any length.", "anchors": ["sistream.h:istringstream::iread(ios_base::fmtflags_bits)", "sistream.h:istringstream::setf", "sistream.h:istringstream::unsetf", "sistream.h:istringstream::flags", "sistream.cc:istringstream::read_number"]}
{"id": "C98", "title": "Least and greatest", "statement": "min (a, b) is the lesser and max (a, b) the greater of two numbers, whatever their types; minmax ({...}) is the first of the least and the last of the greatest elements of the list, with or without a comparison object.", "quantifier": "all integer types and values, all element types, strict weak orders and non-empty lists", "why_tests_cant": "Which pairs of types and values go wrong depends on conversion rules over the whole range of both types.", "anchors": ["uutility.h:min", "uutility.h:max", "ualgo.h:minmax(std::initializer_list<T>)", "ualgo.h:minmax(std::initializer_list<T>, Compare)"]}
{"id": "C99", "title": "Floating-point numbers as text", "statement": "A finite float, double or long double written to a text stream appears in decimal, rounded to the nearest number with as many decimals as the precision set for the stream, padded to the width. The format string for the C library never overruns its buffer.", "quantifier": "all finite values, types, precisions, widths, fill characters, flags and stream contents", "why_tests_cant": "Values, precisions and widths range over large sets, and the format string is built from all settings together.", "anchors": ["sostream.cc:ostringstream::fmtstring", "sostream.cc:ostringstream::encode_dec", "sostream.h:ostringstream::iformat", "sostream.h:printf_typestring", "sostream.h:ios::setprecision"]}
