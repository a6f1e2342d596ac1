{"id": "C01", "title": "Element addressing stays inside the data block", "statement": "For any array over a block data(), built by any constructor and then changed by any sequence of reindex and reshape calls, every index tuple that is in range for index_bases()/shape() addresses an element at offset 0 <= k < num_elements() from data().", "quantifier": "every number of dimensions, all extents (including zero), all index bases (including negative), every valid storage order (any permutation, any ascending/descending mix), all in-range index tuples, all reindex/reshape histories", "why_tests_cant": "Tests fix one or two shapes (2x3x4), a handful of storage orders and bases; the claim is about all of them at once.", "anchors": ["include/boost/multi_array/multi_array_ref.hpp: init_multi_array_ref, operator()", "include/boost/multi_array/base.hpp: compute_strides, calculate_origin_offset, access_element"]}
{"id": "C02", "title": "Distinct indices address distinct elements", "statement": "Two different in-range index tuples of the same array never refer to the same element.", "quantifier": "every number of dimensions, all extents (including zero), all index bases (including negative), every valid storage order (any permutation, any ascending/descending mix), all pairs of in-range index tuples", "why_tests_cant": "Tests fix one or two shapes (2x3x4), a handful of storage orders and bases; the claim is about all of them at once.", "anchors": ["include/boost/multi_array/base.hpp: compute_strides, access_element"]}
{"id": "C03", "title": "Every stored element is addressable", "statement": "Every position of [data(), data()+num_elements()) is the element of exactly one in-range index tuple, so no storage is wasted or hidden.", "quantifier": "every number of dimensions, all extents (including zero), all index bases (including negative), every valid storage order (any permutation, any ascending/descending mix), every position", "why_tests_cant": "Tests fix one or two shapes (2x3x4), a handful of storage orders and bases; the claim is about all of them at once.", "anchors": ["include/boost/multi_array/base.hpp: compute_strides, calculate_origin_offset"]}
{"id": "C04", "title": "C and Fortran storage orders are row-major and column-major", "statement": "With c_storage_order the element at zero-based tuple (k1..kN) is at data()[((k1*e2+k2)*e3+k3)...]; with fortran_storage_order it is at data()[k1+e1*(k2+e2*(k3+...))]. Constructors without a storage order argument are row-major.", "quantifier": "every number of dimensions, all extents, all bases, all in-range tuples", "why_tests_cant": "Tests fix one or two shapes (2x3x4), a handful of storage orders and bases; the claim is about all of them at once.", "anchors": ["include/boost/multi_array/storage_order.hpp: general_storage_order(c_storage_order), general_storage_order(fortran_storage_order)", "include/boost/multi_array/base.hpp: compute_strides"]}
{"id": "C05", "title": "general_storage_order strides and mirroring", "statement": "For a custom storage order, the stride of dimension ordering[n] is the product of the extents of ordering[0..n-1], negated when that dimension is descending; storing a dimension in descending order places zero-based index k where ascending order places extent-1-k, for all other dimensions unchanged. Hence, for every storage order, the element at zero-based k is the storageRank(k)-th one from data(), where the rank counts the dimensions in the order of `ordering`, fastest first, a descending dimension from its far end.", "quantifier": "every number of dimensions, all extents (including zero), all index bases (including negative), every valid storage order (any permutation, any ascending/descending mix)", "why_tests_cant": "Tests fix one or two shapes (2x3x4), a handful of storage orders and bases; the claim is about all of them at once.", "anchors": ["include/boost/multi_array/base.hpp: compute_strides, calculate_descending_dimension_offset", "include/boost/multi_array/storage_order.hpp: general_storage_order"]}
{"id": "C06", "title": "Accessor equivalence", "statement": "a[i1][i2]...[iN] and a({i1,...,iN}) refer to the same element, and fail an assertion on the same inputs.", "quantifier": "all arrays of every dimension (array, subarray and view alike), all index tuples in or out of range, assertions on or off", "why_tests_cant": "The documented MultiArray invariant 'Accessor Equivalence' ranges over all indices and layouts.", "anchors": ["include/boost/multi_array/base.hpp: value_accessor_n::access, value_accessor_one::access, access_element"]}
{"id": "C07", "title": "Range checking is exact", "statement": "With assertions enabled, element access with an index tuple of the right length succeeds exactly when every index lies in [base, base+extent); otherwise an assertion fails, and out-of-block memory is never touched.", "quantifier": "all arrays, all index tuples (any integers)", "why_tests_cant": "assert.cpp checks a few indices; exactness is a two-sided claim over all integers.", "anchors": ["include/boost/multi_array/base.hpp: access, access_element (BOOST_ASSERT)"]}
{"id": "C08", "title": "Disabling assertions does not change valid programs", "statement": "Every element access, view creation and assignment that succeeds with assertions enabled gives the same result (same element, same view, same final memory) with assertions disabled.", "quantifier": "all arrays, all index tuples, all view specifications, all assignments", "why_tests_cant": "Builds with and without BOOST_DISABLE_ASSERTS are separate programs; tests can only compare sampled runs.", "anchors": ["include/boost/multi_array/base.hpp: access, access_element, generate_array_view", "include/boost/multi_array/subarray.hpp: operator=", "include/boost/multi_array/view.hpp: operator="]}
{"id": "C09", "title": "Shape queries agree", "statement": "num_elements() is the product of shape(), size()==shape()[0], empty() iff size()==0, max_size()==num_elements(), num_dimensions() equals the length of shape/strides/index_bases, and num_elements() is the number of in-range index tuples - for arrays, subarrays and views, after any reindex/reshape/resize history.", "quantifier": "every number of dimensions, all extents (including zero), all index bases (including negative), every valid storage order (any permutation, any ascending/descending mix), all histories", "why_tests_cant": "Tests fix one or two shapes (2x3x4), a handful of storage orders and bases; the claim is about all of them at once.", "anchors": ["include/boost/multi_array/multi_array_ref.hpp: size, num_elements, empty, max_size", "include/boost/multi_array/subarray.hpp: num_elements", "include/boost/multi_array/view.hpp: num_elements"]}
{"id": "C10", "title": "origin() and data()", "statement": "An element's address is always origin() + sum(index*stride); data() equals origin() when all bases are 0 and all dimensions ascending; with all bases 0, origin() is the address of a[0]...[0]; the first element in memory is data().", "quantifier": "every number of dimensions, all extents (including zero), all index bases (including negative), every valid storage order (any permutation, any ascending/descending mix)", "why_tests_cant": "Tests fix one or two shapes (2x3x4), a handful of storage orders and bases; the claim is about all of them at once.", "anchors": ["include/boost/multi_array/multi_array_ref.hpp: origin, data", "include/boost/multi_array/base.hpp: calculate_origin_offset"]}
{"id": "C11", "title": "reindex only relabels", "statement": "After reindex, index_bases() are the requested values, shape, strides, storage order, data(), num_elements() and memory are unchanged, and the element formerly at base+k is now at newbase+k, for every k.", "quantifier": "every number of dimensions, all extents (including zero), all index bases (including negative), every valid storage order (any permutation, any ascending/descending mix), all new bases", "why_tests_cant": "Tests fix one or two shapes (2x3x4), a handful of storage orders and bases; the claim is about all of them at once.", "anchors": ["include/boost/multi_array/multi_array_ref.hpp: reindex", "include/boost/multi_array/view.hpp: reindex", "include/boost/multi_array/base.hpp: calculate_origin_offset, calculate_indexing_offset"]}
{"id": "C12", "title": "reindex histories collapse", "statement": "A sequence of reindex calls leaves the array (or the view) exactly as the last call alone would; reindexing back to the original bases restores the original array (or view) exactly.", "quantifier": "all arrays, all views of them, and all finite sequences of reindex calls (both overloads)", "why_tests_cant": "Quantifies over call histories.", "anchors": ["include/boost/multi_array/multi_array_ref.hpp: reindex", "include/boost/multi_array/view.hpp: reindex"]}
{"id": "C13", "title": "reshape preserves contents and order in memory", "statement": "After reshape to extents with the same product, shape() is the requested one; data(), num_elements(), index bases, storage order and memory are unchanged; all in-range tuples of the new shape address exactly the same set of elements, each position k of data() remaining the k-th element in storage order.", "quantifier": "every number of dimensions, all extents (including zero), all index bases (including negative), every valid storage order (any permutation, any ascending/descending mix), all compatible shapes", "why_tests_cant": "Tests fix one or two shapes (2x3x4), a handful of storage orders and bases; the claim is about all of them at once.", "anchors": ["include/boost/multi_array/multi_array_ref.hpp: reshape"]}
{"id": "C14", "title": "reshape round trip", "statement": "Reshaping and then reshaping back restores every observable of the array: shape, strides, origin and the element at every index.", "quantifier": "all arrays and all finite sequences of legal reshapes, with any reindexing in between, ending in the original shape and index bases", "why_tests_cant": "Tests fix one or two shapes (2x3x4), a handful of storage orders and bases; the claim is about all of them at once.", "anchors": ["include/boost/multi_array/multi_array_ref.hpp: reshape"]}
{"id": "C15", "title": "reshape rejects exactly the incompatible shapes", "statement": "With assertions enabled, reshape with N extents fails an assertion iff the product of the extents differs from num_elements(); otherwise it succeeds.", "quantifier": "all arrays, all extent lists of length N", "why_tests_cant": "Two-sided claim over all integers lists.", "anchors": ["include/boost/multi_array/multi_array_ref.hpp: reshape (BOOST_ASSERT)"]}
{"id": "C16", "title": "A view's elements are the selected ones", "statement": "For a view v = a[indices...], v(j) refers to the element a(i) where in each ranged dimension i = start + j*stride and in each degenerate dimension i = the given index (without the range check where that index is out of range, see C18).", "quantifier": "all arrays (also subarrays and views) of every dimension, all range lists accepted by the library, all in-range view indices, all bases and layouts", "why_tests_cant": "slice.cpp and reverse_view.cpp sample a few ranges.", "anchors": ["include/boost/multi_array/base.hpp: generate_array_view", "include/boost/multi_array/index_range.hpp: get_start, get_finish"]}
{"id": "C17", "title": "A view's extents count the selected indices exactly", "statement": "The extent of each ranged dimension of a view is the number of k>=0 with start+k*stride still before finish in the direction of stride; it is 0 when the interval is empty in that direction.", "quantifier": "all start, finish and non-zero stride (both signs)", "why_tests_cant": "The truncating 'integral trick' has boundary cases at every sign/remainder combination.", "anchors": ["include/boost/multi_array/base.hpp: generate_array_view (len, shrinkage)"]}
{"id": "C18", "title": "Views never reach outside the viewed array", "statement": "If a view is created without failing an assertion then every in-range view index denotes an in-range element of the viewed array.", "quantifier": "all arrays, all range lists", "why_tests_cant": "Bounds checks interact with stride sign, empty dims and default endpoints.", "anchors": ["include/boost/multi_array/base.hpp: generate_array_view (BOOST_ASSERTs)"]}
{"id": "C19", "title": "Distinct view indices denote distinct elements", "statement": "Two different in-range indices of a view select different index tuples of the viewed array, and refer to different elements whenever both tuples are in range there (always, unless a backward range starts one past the end, see C18).", "quantifier": "all arrays, subarrays and views, all accepted range lists, all index pairs", "why_tests_cant": "Tests fix one or two shapes (2x3x4), a handful of storage orders and bases; the claim is about all of them at once.", "anchors": ["include/boost/multi_array/base.hpp: generate_array_view"]}
{"id": "C20", "title": "Views of views compose", "statement": "Taking a view of a view (also of one that has since been reindexed) equals taking one view of the original with composed ranges (start = s1 + s2*t1, stride = t1*t2): same shape, strides and elements; hence nested slicing to any depth only ever selects elements of the original.", "quantifier": "all arrays with bounds in the range of index values, all pairs of accepted range lists that select no index outside what they view (the others of C18 compose element by element, C16, but the composed range list need not be accepted), any nesting depth", "why_tests_cant": "Quantifies over arbitrarily deep nesting.", "anchors": ["include/boost/multi_array/base.hpp: generate_array_view", "include/boost/multi_array/view.hpp: operator[]"]}
{"id": "C21", "title": "Default ranges inherit the array's bounds", "statement": "A default range (or all()) selects the whole dimension; omitting start or finish inherits index base or index base + extent; the all-default view has the same shape and the same elements, re-based to 0.", "quantifier": "all arrays, all bases and extents", "why_tests_cant": "Tests fix one or two shapes (2x3x4), a handful of storage orders and bases; the claim is about all of them at once.", "anchors": ["include/boost/multi_array/index_range.hpp: index_range(), all, get_start, get_finish", "include/boost/multi_array/base.hpp: generate_array_view"]}
{"id": "C22", "title": "View creation accepts exactly the legal ranges", "statement": "With assertions enabled, view creation fails an assertion iff some range has zero stride, a start outside [base, base+extent] or a finish outside [base,base+extent] (shifted down by one for negative stride); for other range lists of matching arity it succeeds.", "quantifier": "all arrays, all range lists of the array's dimension built through index_gen", "why_tests_cant": "Two-sided claim over all integers.", "anchors": ["include/boost/multi_array/base.hpp: generate_array_view (BOOST_ASSERTs)"]}
{"id": "C23", "title": "Writes through any handle hit exactly one element", "statement": "Storing through a(i), a chain a[i1]..[iN], an iterator, a subarray or a view changes the one denoted element and leaves every other element of every array and all metadata unchanged; a subsequent read through any handle denoting it returns the stored value.", "quantifier": "all arrays, handles, indices and memory states", "why_tests_cant": "Frame conditions quantify over all other memory.", "anchors": ["include/boost/multi_array/base.hpp: access, access_element", "include/boost/multi_array/iterator.hpp: dereference"]}
{"id": "C24", "title": "Reversing twice is the identity", "statement": "Viewing a dimension with range(base+ext-1, base-1, -1) reverses it (index j denotes base+ext-1-j), and doing so twice gives back the original elements in order.", "quantifier": "all arrays, all dimensions with positive extent", "why_tests_cant": "Tests fix one or two shapes (2x3x4), a handful of storage orders and bases; the claim is about all of them at once.", "anchors": ["include/boost/multi_array/base.hpp: generate_array_view"]}
{"id": "C25", "title": "Subarrays are slices", "statement": "a[i] has shape, strides and bases of a without the first dimension, a[i](rest) is a(i,rest), and a[i] denotes the same elements as the degenerate view a[indices[i][range()]...] (up to re-basing).", "quantifier": "all arrays with at least two dimensions, all indices", "why_tests_cant": "Tests fix one or two shapes (2x3x4), a handful of storage orders and bases; the claim is about all of them at once.", "anchors": ["include/boost/multi_array/base.hpp: value_accessor_n::access", "include/boost/multi_array/subarray.hpp: const_sub_array"]}
{"id": "C26", "title": "Iterator range", "statement": "end()-begin()==size(); *(begin()+k) is the value a[base+k] for every 0<=k<size(); stepping begin() size() times reaches end() and not before.", "quantifier": "all arrays, subarrays and views, all k", "why_tests_cant": "Tests fix one or two shapes (2x3x4), a handful of storage orders and bases; the claim is about all of them at once.", "anchors": ["include/boost/multi_array/iterator.hpp: array_iterator", "include/boost/multi_array/multi_array_ref.hpp: begin, end"]}
{"id": "C27", "title": "Iterator arithmetic obeys random-access laws", "statement": "(it+m)+n==it+(m+n), (it+n)-n==it, (it+n)-it==n, ++/-- are +1/-1, iterators of one array are equal iff at the same position, and <,> agree with positions.", "quantifier": "all iterators and all signed offsets", "why_tests_cant": "Laws over all integers.", "anchors": ["include/boost/multi_array/iterator.hpp: increment, decrement, advance, distance_to, equal"]}
{"id": "C28", "title": "Nested iteration visits every element exactly once", "statement": "Iterating over an array and recursively over its values visits every in-range element exactly once, in lexicographic index order; for an array the set of visited addresses is all of [data(),data()+num_elements()).", "quantifier": "every number of dimensions, all extents (including zero), all index bases (including negative), every valid storage order (any permutation, any ascending/descending mix)", "why_tests_cant": "iterators.cpp checks 2x3x4.", "anchors": ["include/boost/multi_array/iterator.hpp: array_iterator", "include/boost/multi_array/multi_array_ref.hpp: begin, end"]}
{"id": "C29", "title": "Reverse iteration is the exact reverse", "statement": "rbegin()..rend() yields the values of begin()..end() in reverse order.", "quantifier": "all arrays, subarrays and views", "why_tests_cant": "Tests fix one or two shapes (2x3x4), a handful of storage orders and bases; the claim is about all of them at once.", "anchors": ["include/boost/multi_array/multi_array_ref.hpp: rbegin, rend", "include/boost/multi_array/subarray.hpp: rbegin, rend", "include/boost/multi_array/view.hpp: rbegin, rend"]}
{"id": "C30", "title": "Assignment is a deep element-wise copy", "statement": "Assigning between arrays, refs, subarrays and views of equal shape (any bases, any storage orders, non-overlapping storage) makes every destination element equal to the source element at the same zero-based position; source and all other memory are unchanged and the destination's shape, bases and layout stay as they were.", "quantifier": "all pairs of arrays/subarrays/views of equal shape without overlap, all contents", "why_tests_cant": "Tests fix one or two shapes (2x3x4), a handful of storage orders and bases; the claim is about all of them at once.", "anchors": ["include/boost/multi_array/multi_array_ref.hpp: operator=", "include/boost/multi_array/subarray.hpp: operator=", "include/boost/multi_array/view.hpp: operator="]}
{"id": "C31", "title": "Assignment with different shapes is rejected before any write", "statement": "With assertions enabled, assigning arrays of different shape fails an assertion and no element has been written.", "quantifier": "all pairs of arrays of different shape", "why_tests_cant": "Two-sided over all shapes.", "anchors": ["include/boost/multi_array/multi_array_ref.hpp: operator= (BOOST_ASSERT)", "include/boost/multi_array/subarray.hpp: operator=", "include/boost/multi_array/view.hpp: operator="]}
{"id": "C32", "title": "Self-assignment is harmless; overlap is not copied correctly in general", "statement": "Assigning an array to itself, or to another handle with the same elements in the same order, leaves all contents unchanged. (Assigning between overlapping but differently ordered views is performed in index order and may smear values.)", "quantifier": "all arrays and contents; for the hazard, existence of an overlapping pair", "why_tests_cant": "Aliasing cases are unbounded.", "anchors": ["include/boost/multi_array/multi_array_ref.hpp: operator=", "include/boost/multi_array/view.hpp: operator="]}
{"id": "C33", "title": "assign(first,last) fills storage in memory order", "statement": "assign copies the first min(distance, num_elements()) values to data()[0..), in memory order, leaves the rest of the elements unchanged and never writes past num_elements().", "quantifier": "all arrays, all input sequences of any length", "why_tests_cant": "Tests fix one or two shapes (2x3x4), a handful of storage orders and bases; the claim is about all of them at once.", "anchors": ["include/boost/multi_array/multi_array_ref.hpp: assign"]}
{"id": "C34", "title": "Copies are equal and independent", "statement": "A copy-constructed multi_array has the same shape, bases, storage order and elements as the original and compares equal to it; later writes to either never affect the other.", "quantifier": "all arrays, all contents, all later writes", "why_tests_cant": "Independence quantifies over all later operations.", "anchors": ["include/boost/multi_array.hpp: multi_array(const multi_array&), allocate_space"]}
{"id": "C35", "title": "Conversion construction preserves values across storage orders", "statement": "Constructing a multi_array from any ref, subarray or view, with any target storage order, yields the same shape and index bases and an equal element at every index, in freshly allocated storage. Conversion without a storage order argument always gives a row-major array, whatever the source's layout.", "quantifier": "all source layouts, all target storage orders, all contents", "why_tests_cant": "storage_order_convert.cpp samples three orders.", "anchors": ["include/boost/multi_array.hpp: multi_array(const_multi_array_ref), multi_array(const_sub_array), multi_array(const_multi_array_view)"]}
{"id": "C36", "title": "copy_array agrees with assignment", "statement": "The generic copy_array utility produces the same final memory as operator= for arrays of equal shape.", "quantifier": "all pairs of arrays of equal shape, all memory states", "why_tests_cant": "Tests fix one or two shapes (2x3x4), a handful of storage orders and bases; the claim is about all of them at once.", "anchors": ["include/boost/multi_array/copy_array.hpp: copy_dispatch::copy_array, copy_array"]}
{"id": "C37", "title": "resize keeps the common part and default-initialises the rest", "statement": "After resize, shape and bases are the requested ones (bases 0 for a plain extent list), the storage order is unchanged, every element whose zero-based position exists in both shapes keeps its value, and every other element is value-initialised.", "quantifier": "all arrays, all new extents (growing, shrinking, mixed, zero), all bases, all contents", "why_tests_cant": "resize.cpp samples a few shapes.", "anchors": ["include/boost/multi_array.hpp: resize, populate_index_ranges"]}
{"id": "C38", "title": "resize round trip", "statement": "Resizing to the same shape preserves every element; growing every dimension and then shrinking back restores all elements. After any sequence of resizes, an element whose position existed in the original shape and in every shape since has its original value; every other element is value-initialised.", "quantifier": "all arrays, all larger shapes; all sequences of requested shapes, of any length", "why_tests_cant": "Tests fix one or two shapes (2x3x4), a handful of storage orders and bases; the claim is about all of them at once.", "anchors": ["include/boost/multi_array.hpp: resize"]}
{"id": "C39", "title": "resize releases the old storage exactly once", "statement": "After resize the array owns exactly one freshly allocated block of num_elements() live elements, the old block has had each element destroyed and has been deallocated, and no other block is touched. However many resizes follow each other, in the end one new block has replaced the original one and nothing else has changed.", "quantifier": "all arrays, all new shapes, all memory states", "why_tests_cant": "Leak/double free freedom is a statement about all of memory.", "anchors": ["include/boost/multi_array.hpp: resize, allocate_space, deallocate_space, ~multi_array"]}
{"id": "C40", "title": "Equality compares shape and elements only", "statement": "a==b iff shapes are equal and elements at every zero-based position compare equal, irrespective of index bases, strides and storage order; == is reflexive, symmetric and transitive when element equality is; != is its negation.", "quantifier": "all pairs of arrays/subarrays/views, all contents, all element equalities", "why_tests_cant": "Tests fix one or two shapes (2x3x4), a handful of storage orders and bases; the claim is about all of them at once.", "anchors": ["include/boost/multi_array/multi_array_ref.hpp: operator==, operator!=", "include/boost/multi_array/subarray.hpp: operator==", "include/boost/multi_array/view.hpp: operator=="]}
{"id": "C41", "title": "operator< is lexicographic and a strict weak order", "statement": "a<b is the recursive lexicographic comparison of values; for elements with a strict total order it is irreflexive, asymmetric and transitive, and for arrays of equal shape exactly one of a<b, a==b, b<a holds; for arrays of equal shape a<b holds exactly when, at the first position in row-major order whose elements are not equivalent, the element of a is the smaller.", "quantifier": "all arrays of the same dimensionality (shapes may differ), all contents", "why_tests_cant": "Order laws quantify over triples.", "anchors": ["include/boost/multi_array/multi_array_ref.hpp: operator<", "include/boost/multi_array/subarray.hpp: operator<", "include/boost/multi_array/view.hpp: operator<"]}
{"id": "C42", "title": "Derived comparison operators are consistent", "statement": "a>b iff b<a, a<=b iff not a>b, a>=b iff not a<b, and a<=b && b<=a implies a==b.", "quantifier": "all pairs of arrays of the same dimensionality", "why_tests_cant": "Quantifies over all pairs including arrays with zero extents.", "anchors": ["include/boost/multi_array/multi_array_ref.hpp: operator>, operator<=, operator>=", "include/boost/multi_array/subarray.hpp: operator>, operator<=", "include/boost/multi_array/view.hpp: operator>, operator<="]}
{"id": "C43", "title": "Generator chaining", "statement": "extents[r1]...[rN] denotes exactly the list r1..rN, extents[n] meaning [0,n); indices[x1]...[xN] denotes x1..xN where an integer denotes a degenerate range, and the view dimension equals the number of non-integer entries; intermediate generators are not modified.", "quantifier": "all finite chains of any length, all ranges", "why_tests_cant": "Tests fix one or two shapes (2x3x4), a handful of storage orders and bases; the claim is about all of them at once.", "anchors": ["include/boost/multi_array/extent_gen.hpp: operator[]", "include/boost/multi_array/index_gen.hpp: operator[]", "include/boost/multi_array/range_list.hpp: range_list_generator"]}
{"id": "C44", "title": "index_range inequality syntax", "statement": "s <= r < f, s < r <= f, r.start(s).finish(f), etc. denote exactly the half-open interval with the documented endpoints and preserve the stride, in any order of application.", "quantifier": "all index_ranges, all endpoints and strides", "why_tests_cant": "Tests fix one or two shapes (2x3x4), a handful of storage orders and bases; the claim is about all of them at once.", "anchors": ["include/boost/multi_array/index_range.hpp: operator<, operator<=, start, finish, stride"]}
{"id": "C45", "title": "index_range::size agrees with the view it creates", "statement": "For a range with explicit start and finish, size() equals the extent of the view dimension it selects.", "quantifier": "all ranges with explicit endpoints and non-zero stride", "why_tests_cant": "Depends on divisibility and sign of stride.", "anchors": ["include/boost/multi_array/index_range.hpp: size", "include/boost/multi_array/base.hpp: generate_array_view"]}
{"id": "C46", "title": "Storage order objects", "statement": "general_storage_order built from c_storage_order/fortran_storage_order (constructor or conversion) is a valid order of every dimension count; two storage orders compare equal iff all entries agree; all_dims_ascending() is true iff every dimension ascends.", "quantifier": "every number of dimensions, all orders", "why_tests_cant": "Quantifies over dimensions and entries.", "anchors": ["include/boost/multi_array/storage_order.hpp: general_storage_order, c_storage_order, fortran_storage_order"]}
{"id": "C47", "title": "Element lifetimes are balanced", "statement": "For any history of constructing, copying, assigning, resizing and destroying multi_arrays (no exceptions), every element is constructed before use and destroyed exactly once, each block is deallocated exactly once with the count it was allocated with, and when all arrays are destroyed no block remains.", "quantifier": "all finite histories of operations on any number of arrays", "why_tests_cant": "Quantifies over histories.", "anchors": ["include/boost/multi_array.hpp: allocate_space, deallocate_space, resize, ~multi_array"]}
{"id": "C48", "title": "resize is strongly exception safe for the array's value", "statement": "If an allocation, element construction or element copy throws at any point inside resize, the array still has its old shape, bases, storage and element values.", "quantifier": "all arrays, all new shapes, every throw point", "why_tests_cant": "Every crash point.", "anchors": ["include/boost/multi_array.hpp: resize"]}
{"id": "C49", "title": "Interrupted assignment copies a prefix", "statement": "If the k-th element copy of an assignment throws, exactly the elements before it in lexicographic order have the source's values, later ones keep their old values, and metadata is unchanged.", "quantifier": "all same-shape non-overlapping pairs, every throw point k", "why_tests_cant": "Every crash point.", "anchors": ["include/boost/multi_array/multi_array_ref.hpp: operator=", "include/boost/multi_array/subarray.hpp: operator="]}
{"id": "C50", "title": "Failed construction releases what it acquired", "statement": "If constructing a multi_array throws (element construction or copy), no storage remains allocated.", "quantifier": "all constructors, shapes and throw points", "why_tests_cant": "Every crash point.", "anchors": ["include/boost/multi_array.hpp: multi_array constructors, allocate_space"]}
{"id": "C51", "title": "64-bit arithmetic is exact when sizes fit", "statement": "When num_elements and the index values involved fit in ptrdiff_t, the strides, origin offset, element offsets and view lengths computed with wrapping size_t / signed ptrdiff_t arithmetic involve no signed overflow and equal their ideal integer values; this covers the unsigned wrap (extent-1) for extent 0; likewise iterator arithmetic (begin, end, ++, --, +n, difference, dereference) over arrays, subarrays and views visits exactly the ideal elements without overflow.", "quantifier": "all shapes, bases, storage orders and indices within the stated bounds", "why_tests_cant": "Overflow boundaries cannot be enumerated.", "anchors": ["include/boost/multi_array/base.hpp: compute_strides, calculate_descending_dimension_offset, calculate_indexing_offset, access_element, generate_array_view", "include/boost/multi_array/types.hpp: size_type, index", "include/boost/multi_array/iterator.hpp: array_iterator"]}
{"id": "C52", "title": "Any operation history behaves like a simple abstract array", "statement": "For any sequence of element reads/writes, reindex, reshape, assign, fill and resize calls on a multi_array, the results of all reads and queries are those of an abstract array (shape, bases, storage order, list of values).", "quantifier": "all finite operation sequences with legal arguments", "why_tests_cant": "Quantifies over histories.", "anchors": ["include/boost/multi_array.hpp: multi_array", "include/boost/multi_array/multi_array_ref.hpp: multi_array_ref"]}
{"id": "C53", "title": "Views survive reindex and reshape of their array", "statement": "A view taken before reindex or reshape of the parent still denotes the same elements afterwards.", "quantifier": "all arrays, views and later reindex/reshape calls", "why_tests_cant": "Quantifies over later histories.", "anchors": ["include/boost/multi_array/view.hpp: const_multi_array_view", "include/boost/multi_array/multi_array_ref.hpp: reindex, reshape"]}
{"id": "C54", "title": "Subarrays survive reindex of their array", "statement": "A subarray a[i] held across a reindex of the parent still denotes the same elements (its first element is at its index_bases()).", "quantifier": "all arrays, subarrays and later reindex calls", "why_tests_cant": "The subarray aliases the parent's metadata; quantifies over later calls.", "anchors": ["include/boost/multi_array/subarray.hpp: const_sub_array (extents_, strides_, index_base_ pointers)", "include/boost/multi_array/multi_array_ref.hpp: reindex"]}
{"id": "C55", "title": "Const-ness is preserved", "statement": "Starting from a const array, const array_view, const_multi_array_ref, const_subarray or const_array_view, no chain of element access, slicing, iteration or queries yields mutable access to an element.", "quantifier": "all finite chains of access operations", "why_tests_cant": "fail_*.cpp check single expressions; chains are unbounded.", "anchors": ["include/boost/multi_array/multi_array_ref.hpp: operator[], begin, origin, data", "include/boost/multi_array/subarray.hpp: operator[], begin", "include/boost/multi_array/view.hpp: operator[], begin"]}
{"id": "C56", "title": "for_each applies the functor to each element exactly once", "statement": "The example for_each utility replaces every element x of the array by f(x), visiting in lexicographic index order, and changes nothing else.", "quantifier": "all arrays, all functors, all contents", "why_tests_cant": "Tests fix one or two shapes (2x3x4), a handful of storage orders and bases; the claim is about all of them at once.", "anchors": ["example/for_each.hpp: for_each"]}
{"id": "C57", "title": "Iterators survive reindex of their array", "statement": "An iterator obtained from an array or view before reindex can still be dereferenced afterwards and still denotes the same element or subarray.", "quantifier": "all arrays and views, all iterators over them, all later sequences of reindex calls", "why_tests_cant": "Iterators alias the array's metadata; the claim quantifies over later histories of calls.", "anchors": ["include/boost/multi_array/iterator.hpp: array_iterator (extents_, strides_, index_base_ pointers)", "include/boost/multi_array/multi_array_ref.hpp: reindex"]}
{"id": "C58", "title": "Subarrays stay valid while the array's elements exist", "statement": "A subarray stays usable, denoting the same elements, as long as the array whose elements it denotes exists, even when the intermediate object it was taken from is gone.", "quantifier": "all arrays, views, subarrays of views, and object lifetimes", "why_tests_cant": "Quantifies over lifetimes; a dangling metadata pointer often appears to work in a test.", "anchors": ["include/boost/multi_array/subarray.hpp: const_sub_array (extents_, strides_, index_base_ pointers)", "include/boost/multi_array/view.hpp: const_multi_array_view (owns extent_list_, stride_list_, index_base_list_)"]}
{"id": "C59", "title": "Copying a read-only handle does not give mutable access", "statement": "Copying or converting a const array handle (const multi_array, multi_array_ref, subarray or view, or the const_ classes) without a cast never yields an object through which the original elements can be written.", "quantifier": "all class templates, all numbers of dimensions, all finite chains of access, copy and conversion steps", "why_tests_cant": "Compile-fail tests check single expressions; the claim ranges over all chains of copies and conversions.", "anchors": ["include/boost/multi_array/multi_array_ref.hpp: multi_array_ref (implicit copy constructor)", "include/boost/multi_array/subarray.hpp: const_sub_array::origin, sub_array", "include/boost/multi_array/view.hpp: multi_array_view"]}
{"id": "C60", "title": "Fortran order is the transpose of C order", "statement": "An array in Fortran order of shape (e1,...,eN) and an array in C order of shape (eN,...,e1) over the same data have the same elements with reversed index lists: f(k1,...,kN) and c(kN,...,k1) (relative to the index bases) are the same object.", "quantifier": "all numbers of dimensions, all shapes, all index bases, all reachable arrays, all in-range index lists", "why_tests_cant": "A test checks one shape; interoperation with column-major libraries needs it for every shape and rank.", "anchors": ["include/boost/multi_array/storage_order.hpp: fortran_storage_order, c_storage_order", "include/boost/multi_array/multi_array_ref.hpp: compute_strides, calculate_origin_offset"]}
{"id": "C61", "title": "Descending storage is a reversed view of ascending storage", "statement": "An array some of whose dimensions are stored in descending order has, position by position, the elements of the view that reverses exactly those dimensions of the all-ascending array with the same data, shape and ordering.", "quantifier": "all numbers of dimensions, all shapes without a zero extent, all orderings, all sets of descending dimensions, all positions", "why_tests_cant": "There are 2^N N! storage orders for each rank N and unboundedly many shapes.", "anchors": ["include/boost/multi_array/storage_order.hpp: general_storage_order", "include/boost/multi_array/base.hpp: calculate_descending_dimension_offset, generate_array_view"]}
{"id": "C62", "title": "Concurrent use of separate parts is schedule-independent", "statement": "If threads use array operations (element reads and writes, =, copy_array, for_each, comparisons on arrays, subarrays and views) such that no element written by one thread is accessed by another, then every interleaving of their element accesses is free of data races, never gets stuck, and ends with the memory obtained by running the threads one after the other. Different rows of an array are separate in this sense, so a parallel loop over rows computes the same as the sequential operation; threads that only read or compare never race.", "quantifier": "all numbers of threads, all thread programs (later actions may depend on values read), all arrays, shapes and storage orders, all schedules", "why_tests_cant": "The number of interleavings is exponential and a test run observes a few of them; hidden accesses to neighbouring elements would show up only under particular schedules.", "anchors": ["include/boost/multi_array/multi_array_ref.hpp: operator=, operator==, operator<", "include/boost/multi_array/subarray.hpp: operator=", "include/boost/multi_array/copy_array.hpp: copy_array", "example/for_each.hpp: for_each"]}
{"id": "C63", "title": "Equal arrays have equal parts", "statement": "Two arrays (subarrays, views) of at least two dimensions are equal iff they have the same shape and, position by position, their subarrays are equal; two equal arrays with the same index bases accept the same range lists and the views selected are equal, whatever the layouts of the two arrays.", "quantifier": "all numbers of dimensions, all readable arrays, subarrays and views in any layout, all element equality functions, all accepted range lists whose views stay inside (see C18)", "why_tests_cant": "Substituting an equal array for another is sound only if it holds for every shape, layout and range list.", "anchors": ["include/boost/multi_array/multi_array_ref.hpp: operator==", "include/boost/multi_array/subarray.hpp: operator==", "include/boost/multi_array/base.hpp: generate_array_view, access"]}
{"id": "C64", "title": "Element-wise operations are flat loops, also when interrupted", "statement": "operator=, copy_array and the for_each utility are equivalent to one flat loop over all positions of the shape in lexicographic order, in every memory state, for every pattern of exceptions, for overlapping operands and for functors with arbitrary effects. Consequently an interrupted for_each, copy_array or assign(first,last) has processed exactly a prefix of the elements and leaves all others unchanged.", "quantifier": "all numbers of dimensions, all arrays, subarrays and views, all functors, all memories, all points at which an exception is thrown", "why_tests_cant": "Exceptions can occur at any element of arrays of any shape, and functors are arbitrary.", "anchors": ["include/boost/multi_array/multi_array_ref.hpp: operator=, assign", "include/boost/multi_array/copy_array.hpp: copy_array", "example/for_each.hpp: for_each"]}
{"id": "C65", "title": "Overlapping copies that move toward the front are correct", "statement": "Assignment between overlapping handles yields the original source values in the destination whenever no element is written at a position of lower rank than the one at which it is read; in particular assigning a window of an array to another window of the same array works when the source window is ahead of the destination window in the direction of the ranges (e.g. deleting the first m rows by moving the others forward). The condition is exact for sources with different values; and in general a destination element whose source element was written earlier at another position gets what was written there.", "quantifier": "all numbers of dimensions, all arrays, subarrays and views, all pairs of windows with equal strides, all shift distances", "why_tests_cant": "Correctness depends on the traversal order for every shape, layout and displacement.", "anchors": ["include/boost/multi_array/view.hpp: operator=", "include/boost/multi_array/base.hpp: generate_array_view"]}
{"id": "C66", "title": "Storage is returned to the allocator that provided it", "statement": "With any number of unequal stateful allocators, an array's elements always live in storage provided by the array's own allocator, and are returned to that allocator. An array's allocator is the constructor's argument, or the copied array's on copy construction; assignment, resize, reindex and reshape never change it, even when an operation throws.", "quantifier": "all programs of constructions, copies, conversions, assignments, resizes, reindexes, reshapes, element operations and destructions, over any number of arrays and allocators, and all schedules of exceptions", "why_tests_cant": "Pairing must hold along every history; std::allocator instances are all equal, so tests with the default allocator cannot see a mismatch.", "anchors": ["include/boost/multi_array.hpp: allocate_space, deallocate_space, resize, multi_array(const multi_array&), operator="]}
{"id": "C67", "title": "Whole programs compute what abstract arrays compute", "statement": "A program over any number of multi_arrays, their subarrays and their views - constructing, copying, converting, destroying, assigning wholes and parts (overlapping or not), copy_array, reading and writing elements, for_each, nested iteration, ==, <, reindex, reshape, resize, assign(first,last), queries - whose every command meets its documented precondition runs to completion in both build modes, returns from every command exactly what a machine returns that knows only index bases, extents and value sequences, and at the end every live variable holds the abstract array and no storage is leaked.", "quantifier": "all finite programs, all numbers of arrays, ranks, extents, bases, storage orders, view expressions of any depth, element types with any == and <", "why_tests_cant": "Every composition of operations must be free of interference; the space of programs is infinite.", "anchors": ["include/boost/multi_array.hpp: multi_array", "include/boost/multi_array/multi_array_ref.hpp: multi_array_ref", "include/boost/multi_array/subarray.hpp: sub_array", "include/boost/multi_array/view.hpp: multi_array_view", "include/boost/multi_array/base.hpp: access, generate_array_view", "include/boost/multi_array/copy_array.hpp: copy_array", "example/for_each.hpp: for_each"]}
{"id": "C68", "title": "Pointer arithmetic stays inside the storage", "statement": "On the way to an in-range element of an array, subarray or view, every pointer the library computes (origin(), the base pointer of each intermediate subarray, the base of a newly created view) points to an element of the array's storage or one past its end.", "quantifier": "all arrays, subarrays and views, all index bases, extents and storage orders, all in-range index tuples and prefixes of them", "why_tests_cant": "An out-of-block intermediate pointer has no visible effect on common machines; whether it occurs depends on bases, strides and emptiness.", "anchors": ["include/boost/multi_array/base.hpp: access, access_element, generate_array_view", "include/boost/multi_array/base.hpp: calculate_origin_offset", "include/boost/multi_array/multi_array_ref.hpp: origin"]}
{"id": "C69", "title": "Exchanging arrays, rows and views through a temporary", "statement": "std::swap of two arrays of equal extents, and the exchange `value_type tmp = p; p = q; q = tmp` of two rows, subarrays or views of equal extents (of different arrays, or of one array without a common element, or the same expression twice), complete, exchange the elements position by position, leave every other element of every array and every shape, index base and storage order as they were, and release the temporary. Consequently any algorithm that permutes the rows of an array by such exchanges, std::reverse for instance, permutes exactly the rows.", "quantifier": "for all program states, arrays, storage orders, index bases, legal subarray and view expressions of equal shape, all sequences of exchanged row pairs of any length, both build modes", "why_tests_cant": "it depends on the aliasing between the temporary, the two parts and all other arrays, for every shape, storage order and sequence of exchanges", "anchors": ["include/boost/multi_array.hpp: multi_array(const const_sub_array&), multi_array(const multi_array&), operator=", "include/boost/multi_array/subarray.hpp: sub_array::operator=", "include/boost/multi_array/view.hpp: multi_array_view::operator=", "include/boost/multi_array/iterator.hpp: array_iterator::reference"]}
{"id": "C70", "title": "Which elements views share", "statement": "The elements of a view are exactly the elements of the viewed array whose index is selected in every dimension by the given integer or range. Hence two views of the same array, subarray or view (also after reindexing the views) share no element if and only if in some dimension no index is selected by both; and the views of every s-th row starting at row j, for j = 0..s-1, partition the array.", "quantifier": "for all arrays, storage orders, subarrays and views nested to any depth, all legal pairs of view expressions whose ranges stay inside the array (see C18), all strides s, both build modes", "why_tests_cant": "disjointness and coverage of views must hold for every combination of shapes, bases, strides and ranges", "anchors": ["include/boost/multi_array/base.hpp: multi_array_impl_base::generate_array_view", "include/boost/multi_array/view.hpp: multi_array_view", "include/boost/multi_array/index_range.hpp: index_range"]}
{"id": "C71", "title": "Whole client programs when the allocator and the elements may throw", "statement": "A client program that chooses its next operation from everything that happened so far (values read, exceptions caught), over any number of multi_arrays, subarrays and views, and that respects the documented preconditions whatever happens, runs into no undefined behaviour and no failed assertion even if allocation, element construction and element assignment throw at arbitrary points any number of times: each operation either completes exactly as on abstract arrays, or throws with the documented partial effect (construction and resize: none; element assignment: that element has some value; assignment, copy_array, assign(first,last), for_each: a prefix of the element assignments is complete, the next element has some value); operations throw only if an exception was raised; at the end every live variable holds the abstract array in storage of its own; and at most one storage block per throwing construction or resize is lost.", "quantifier": "all clients (functions from histories to operations), all numbers of steps, all exception schedules, all numbers of arrays, ranks, extents, bases, storage orders, view expressions, element types", "why_tests_cant": "Exceptions can strike at every element operation of every operation of every program, and the program continues afterwards; the histories are unbounded.", "anchors": ["include/boost/multi_array.hpp: multi_array, allocate_space, deallocate_space, resize", "include/boost/multi_array/multi_array_ref.hpp: multi_array_ref::operator=, assign", "include/boost/multi_array/subarray.hpp: sub_array::operator=", "include/boost/multi_array/view.hpp: multi_array_view::operator=", "include/boost/multi_array/copy_array.hpp: copy_array", "example/for_each.hpp: for_each"]}
{"id": "C72", "title": "Assignment with any element assignment operator", "statement": "Assignment and copy_array between arrays, subarrays or views of equal shape apply the element type's assignment operator exactly once per position, to the two elements at that position, in lexicographic order, whatever that operator does (conversion between different element types, side effects, exceptions). In particular, assigning an array of one element type to an array of another makes every destination element the conversion of the source element at the same position and changes nothing else; if the operator throws at some position, no operator is applied at any later one; and with assertions a shape mismatch is rejected before any element operation.", "quantifier": "all element assignment operations (arbitrary computations on memory), all arrays/subarrays/views in any layout, all shapes and dimensions, all memory states, assertions on or off", "why_tests_cant": "The element operator is user code; tests run finitely many operators, shapes and layouts.", "anchors": ["include/boost/multi_array/multi_array_ref.hpp: operator=", "include/boost/multi_array/subarray.hpp: operator=", "include/boost/multi_array/view.hpp: operator=", "include/boost/multi_array/copy_array.hpp: copy_array"]}
{"id": "C73", "title": "Whole programs with shared storage behave as place maps into storages", "statement": "In any program that keeps, in variables, multi_arrays, multi_array_refs (over the client's own memory or over another array's storage, at any offset and with any shape and order), held views and held subarrays, and that uses them after later reindex, reshape, resize, assignment or destruction of other variables, every legal operation completes and returns exactly what an abstract machine says in which each variable is only index bases, extents and a map from indices to places of a storage: writes through one handle are seen through all handles that have that place and nowhere else; held views and references keep their places, bases and extents whatever is done to the object they came from; shallow copies share; and storage is released exactly with its owner.", "quantifier": "all programs (command sequences of any length over any number of variables) legal for the abstract machine, all ranks, shapes, orders, index bases, offsets, element types and values, both build modes", "why_tests_cant": "The interaction of several handles on one storage depends on the whole history of the program: tests cover a few hand-picked aliasing patterns, not every sequence of creations, relabellings, writes and destructions.", "anchors": ["include/boost/multi_array.hpp", "include/boost/multi_array/multi_array_ref.hpp:const_multi_array_ref", "include/boost/multi_array/view.hpp:const_multi_array_view", "include/boost/multi_array/subarray.hpp:const_sub_array"]}
{"id": "C74", "title": "Whole operations and programs do not overflow on a 64-bit machine when their shapes fit", "statement": "If every array of a program fits (product of its non-zero extents plus the sum of |index base * stride| below 2^63, indices strictly inside the index type) and the ranges of its views involve only representable numbers, then construction, conversion, element access, iteration, assignment, copy_array, for_each, comparison, reindex, reshape and resize - with every intermediate size_type computation wrapping modulo 2^64 and every index computation undefined on overflow - produce exactly the results of exact integer arithmetic, including where an element operation throws; whole programs return what the abstract arrays say. Only newly created or reshaped arrays need checking; zero-based arrays with fewer than 2^63 elements fit, and in arrays with extents up to 2^62 all views that start inside the array with strides of at most the extent fit. Without the condition an array of 2^32 x 2^32 elements is silently created with no storage.", "quantifier": "all programs over any number of arrays, subarrays and (reindexed, nested) views, all ranks, shapes, storage orders, index bases, element types and values satisfying the size conditions, both build modes", "why_tests_cant": "Overflow depends on extents, bases and strides near 2^31..2^63 in combination; tests with real memory can only use small arrays, and silent wrap-around passes unnoticed.", "anchors": ["include/boost/multi_array.hpp:resize", "include/boost/multi_array/multi_array_ref.hpp:init_multi_array_ref", "include/boost/multi_array/base.hpp:generate_array_view", "include/boost/multi_array/iterator.hpp", "include/boost/multi_array/copy_array.hpp"]}
{"id": "C75", "title": "One-dimensional arrays, rows and views are random-access sequences for any iterator algorithm", "statement": "Any algorithm that works on one-dimensional arrays, rows, columns or views only through begin/end/rbegin/rend, ++, --, +=, ==, <, -, [], * and base() - in any order, and depending in any way on what it reads - computes on them exactly what it computes on plain sequences: the same result, and afterwards the same elements. This holds for several sequences at once, also if they share elements (two overlapping views), for every stride, index base and storage order, and if an element assignment throws. As long as the algorithm stays within begin..end nothing undefined happens, no assertion fails, and no memory outside the elements it assigns changes. In particular std::reverse reverses a row, column or strided view.", "quantifier": "every iterator algorithm (any decision tree over the operations), every family of one-dimensional handles of live arrays, every memory state and exception schedule", "why_tests_cant": "The algorithms, the interleavings of iterator operations, and the combinations of strides, bases, directions and overlaps are unbounded.", "anchors": ["include/boost/multi_array/iterator.hpp: array_iterator", "include/boost/multi_array/multi_array_ref.hpp: begin/end/rbegin/rend", "include/boost/multi_array/subarray.hpp: begin/end/rbegin/rend", "include/boost/multi_array/view.hpp: begin/end/rbegin/rend"]}
{"id": "C76", "title": "Programs that catch exceptions run on a 64-bit machine exactly as on an ideal one", "statement": "If a client program respects the preconditions whatever exceptions it catches, uses only views that fit and creates - or tries to create - only arrays that fit the 64-bit types, then with any exceptions thrown by allocation, element construction and element assignment, at any points and any number of times, nothing overflows or wraps, no assertion fails, and the program returns, throws and leaves in memory exactly what it would with exact integer arithmetic: construction and resize that throw have no effect, interrupted assignments have completed a prefix, live variables hold the abstract arrays in disjoint storage, and at most one block is lost per construction or resize that threw.", "quantifier": "all client programs (reacting arbitrarily to what they have seen), all exception schedules, any number of commands, all ranks, shapes, orders, index bases, views and element types satisfying the size conditions, both build modes", "why_tests_cant": "The points at which exceptions strike, the client's reactions and the sizes near 2^63 multiply; real memory cannot hold arrays at the limits.", "anchors": ["include/boost/multi_array.hpp:resize", "include/boost/multi_array.hpp:allocate_space", "include/boost/multi_array/multi_array_ref.hpp:init_multi_array_ref", "include/boost/multi_array/base.hpp:generate_array_view", "include/boost/multi_array/copy_array.hpp"]}
{"id": "C77", "title": "Programs with shared storage survive exceptions", "statement": "A client program keeps multi_arrays, multi_array_refs, its own buffers, held views and held subarrays in variables that share storage, and catches every exception thrown by the allocator, by element constructors and by element assignments, at any point and any number of times. Then the library never runs into undefined behaviour or a failed assertion; everything it returns and throws is a possible run of the abstract machine in which construction and resize that throw have no effect and an interrupted sequence of element assignments has completed a prefix and left some value in one further element; no element outside the destination changes, through whichever handle it is read; no command throws unless an exception was due; afterwards every legal expression over existing storage reads what the abstract machine says; and at most one block per construction or resize that threw is lost.", "quantifier": "all client strategies (next command a function of everything that happened) that respect the preconditions, all schedules of exceptions, all numbers of commands, variables, ranks, shapes, orders, element types and values, both build modes", "why_tests_cant": "The exception may come at any allocation, construction or assignment of any command in any history of aliased handles; tests inject a handful of failures in isolated calls.", "anchors": ["include/boost/multi_array.hpp:resize", "include/boost/multi_array.hpp:allocate_space", "include/boost/multi_array/multi_array_ref.hpp:assign", "include/boost/multi_array/subarray.hpp:operator=", "include/boost/multi_array/view.hpp:operator=", "include/boost/multi_array/copy_array.hpp:copy_array"]}
{"id": "C78", "title": "Generic output through iterators", "statement": "Printing any array, subarray or view with the generic recursive print function of the examples, which uses only const_iterators, begin(), end(), boost::next and !=, writes exactly the nested bracket notation of the elements in index order (one comma between neighbours, none at the end), terminates, and modifies nothing. For arrays without empty dimensions the text determines the array: two arrays, subarrays or views of the same number of dimensions print the same text iff they compare equal with ==. With an empty dimension it does not: 0x3 and 0x5 arrays both print as [] and are not equal.", "quantifier": "every array, subarray or view of every number of dimensions, extents, bases, strides and storage order, every element type and contents", "why_tests_cant": "the test prints one 2x3 array", "anchors": ["example/print_array.cpp:print", "include/boost/multi_array/iterator.hpp:array_iterator"]}
{"id": "C79", "title": "Programs with shared storage on a 64-bit machine", "statement": "A program over multi_arrays, multi_array_refs, client buffers, held views and held subarrays that share storage, in which every array made, resized, reshaped or reindexed, every reindexed view and every view expression fits (sizes, strides, origin offsets and view arithmetic representable), runs with 64-bit index, size_type and ptrdiff_t exactly as it does with unbounded integers: no signed overflow, no wrap-around that matters, no exception, no failed assertion; every command returns what the abstract machine says and nothing leaks. The condition on reindexed views is needed: reindexing a view within the ideal preconditions can overflow.", "quantifier": "all programs and their lengths, all variables, ranks, shapes, bases, orders, element types and values, both build modes", "why_tests_cant": "Overflow appears only for extreme bases, strides and extents reached through particular histories of aliased handles.", "anchors": ["include/boost/multi_array/base.hpp:calculate_origin_offset", "include/boost/multi_array/base.hpp:access_element", "include/boost/multi_array/base.hpp:generate_array_view", "include/boost/multi_array/multi_array_ref.hpp:reindex", "include/boost/multi_array/view.hpp:reindex", "include/boost/multi_array/subarray.hpp:operator[]"]}
{"id": "C80", "title": "Shared-storage clients under exceptions on a 64-bit machine", "statement": "Everything C77 says about a client that keeps arrays, references, buffers, held views and held subarrays sharing storage and catches every exception also holds with 64-bit index, size_type and ptrdiff_t, provided that whatever happens the client uses only views that fit and only tries to create, resize, reshape or reindex to arrays and views that fit: the 64-bit library returns, throws and leaves in memory exactly what the ideal one does, in both build modes, and an exception never leaves a handle in a state from which later index arithmetic overflows.", "quantifier": "all client strategies that respect the preconditions and the size conditions, all schedules of exceptions, all numbers of commands, variables, ranks, shapes, bases, orders, element types and values, both build modes", "why_tests_cant": "Needs the combination of extreme sizes, a failure at an arbitrary operation and an arbitrary history of aliased handles.", "anchors": ["include/boost/multi_array.hpp:resize", "include/boost/multi_array.hpp:allocate_space", "include/boost/multi_array/base.hpp:generate_array_view", "include/boost/multi_array/multi_array_ref.hpp:reindex", "include/boost/multi_array/view.hpp:operator=", "include/boost/multi_array/subarray.hpp:operator="]}
{"id": "C81", "title": "Exact cost: no hidden allocations, constructions or element copies", "statement": "Every operation performs exactly the allocations, element constructions and element assignments its documentation implies, and no others: a constructor allocates once and constructs each element once, and the copy and converting constructors additionally assign each element once; resize allocates once, constructs each element of the new shape once and assigns each element common to both shapes once; assignment between arrays, subarrays or views and copy_array assign each element once; assign(first,last) performs one assignment per stored value; for_each one per element; element reads and destructors none. The operation completes if and only if none of these throws; otherwise the exception propagates immediately and no further operation is performed.", "quantifier": "every constructor and every legal argument, all shapes, bases, orders, handles (overlapping or not), every memory state and every pattern of exceptions from the allocator and the elements, with or without assertions", "why_tests_cant": "the count is a function of arbitrary shapes and of where an exception occurs; a hidden temporary or a double copy in one dimension or one shape only shows there", "anchors": ["include/boost/multi_array.hpp: multi_array constructors, resize, allocate_space, deallocate_space", "include/boost/multi_array/multi_array_ref.hpp: operator=, assign", "include/boost/multi_array/copy_array.hpp: copy_array", "example/for_each.hpp: for_each"]}
{"id": "C82", "title": "Loops and copies divided among threads by any partition", "statement": "If an array, subarray or view is divided into parts in any way such that every element belongs to exactly one part, and one thread per part runs for_each on it, then under every schedule the result is that of the sequential for_each on the whole, there is no data race, every schedule ends after the same number of steps, and no thread is ever stuck. The same holds for copying: if destination and source are divided in the same way and one thread per part assigns its part of the source to its part of the destination, the result is that of the sequential assignment. In particular the s strided views indices[range(b+j,b+e,s)][range()]... (j<s) may be handed to s workers: view j has ceil((e-j)/s) rows, and its row k is the array's row j+k*s.", "quantifier": "every array, subarray and view, every division into subarrays and views, every number of workers, all shapes, bases, storage orders and contents, every element function, every schedule", "why_tests_cant": "the schedules and the partitions are unbounded families; a loop bound or stride error that makes two parts share an element, or omit one, is only visible for particular remainders and interleavings", "anchors": ["include/boost/multi_array/base.hpp: generate_array_view", "include/boost/multi_array/subarray.hpp: sub_array::operator=, operator[]", "include/boost/multi_array/view.hpp: multi_array_view::operator=", "include/boost/multi_array/index_range.hpp: index_range", "example/for_each.hpp: for_each"]}
{"id": "C83", "title": "Threads running whole programs on arrays of their own do not affect each other", "statement": "Any number of threads each run a whole client program - constructing, copying, filling, resizing, reindexing, traversing, comparing and destroying multi_arrays of their own, with exceptions thrown by the allocator and by element constructors and assignments at any point and caught - in one memory that may already contain other things. However their memory operations (allocation and release of a block; construction, destruction, reading and assignment of one element) are interleaved, and wherever the allocator places their blocks (it may reuse freed addresses): no two threads ever race, no thread is ever stuck in undefined behaviour or a failed assertion, each thread ends after exactly as many operations as alone, what was in memory before is untouched, and a thread that has ended has returned and thrown exactly what it would have alone; each of its arrays has the shape, bases and elements the abstract machine says and shares storage with no other array of any thread. When all have ended, all new storage belongs to a live array, except at most one block per construction or resize that threw. The same isolation holds for arbitrary code over these operations, and with shared blocks that all threads only read.", "quantifier": "every number of threads, every client program per thread (any reaction to values read and exceptions caught), every sequence of exceptions per thread, every interleaving, every choice of addresses by the allocator, every previous content of memory, both build modes", "why_tests_cant": "interleavings, allocator placements and exception points are unbounded families; hidden shared state (a static buffer, a cached allocator, an address-dependent decision) would only show in particular schedules", "anchors": ["include/boost/multi_array.hpp: multi_array constructors, allocate_space, deallocate_space, resize, operator=", "include/boost/multi_array/multi_array_ref.hpp: operator=, assign, reindex, reshape, operator==, operator<", "include/boost/multi_array/algorithm.hpp: copy_n", "include/boost/multi_array/iterator.hpp: array_iterator"]}
{"id": "C84", "title": "Parallel sections: threads that own some arrays and read others in common, joined and continued", "statement": "A program may run in parallel sections: it divides its arrays among threads, so that what one thread constructs, destroys, resizes, reindexes, assigns or writes no other thread uses, while any number of threads may read other arrays (element access, traversal, comparison, copying from them) in common. Then, whatever the interleaving of the threads' memory operations, the addresses the allocator returns and the exceptions that are thrown (each thread catching its own): no two threads race for a block of storage, no thread is ever stuck, each thread ends after as many operations as it would perform alone, storage not owned by a thread is not touched, and each thread sees and does exactly what it would have seen and done alone. After the section the program holds exactly the arrays that the abstract machine prescribes, each in storage of its own, and it can go on with another division of its arrays in another section, any number of times; at most one block is lost per construction or resize that threw. Without exceptions the whole computation, through all sections, is independent of interleaving and placement.", "quantifier": "all programs of parallel sections (each section chosen from the results of all earlier ones), all numbers of threads, all divisions of the variables among the threads, all clients respecting the library's preconditions, all exception schedules, all interleavings, all free addresses the allocator may return, both debug settings, all element types", "why_tests_cant": "The interleavings, allocator choices and programs are unbounded; a data race or dependence on placement may show only under one of them.", "anchors": ["include/boost/multi_array.hpp: multi_array(const multi_array&), ~multi_array, resize, operator=", "include/boost/multi_array/multi_array_ref.hpp: operator=, operator==, operator<, assign, begin, end", "include/boost/multi_array/copy_array.hpp: copy_array", "include/boost/multi_array/base.hpp: access_element, generate_array_view"]}
{"id": "C85", "title": "Comparisons with any element comparison operator, and the exact number of element comparisons", "statement": "a == b and a != b call the element type's == on the elements at equal positions in lexicographic order of positions, each pair at most once, stopping at the first pair that differs, and touch no element if the shapes differ. a < b, a > b, a <= b, a >= b compare the nested lists of elements row by row: first row(a) < row(b), if false row(b) < row(a), if false the next row. Both hold for element operators with arbitrary effects: they may modify memory and throw. For element operators that leave memory alone and may throw, the number of element comparisons is exactly determined by the contents; a == b makes at most one comparison per element and exactly one if the arrays are equal; a < b makes at most 2^n per element of the common shape in n dimensions, and exactly 2^n per element for arrays of the same shape with equivalent elements (in particular a < a): ordering comparisons are exponential in the number of dimensions. An exception thrown by an element comparison propagates at once and memory is untouched.", "quantifier": "all arrays, subarrays and views, all numbers of dimensions, extents, index bases, storage orders and strides, all element comparison operators (with effects, throwing), all memory states and exception schedules, both debug settings", "why_tests_cant": "Tests compare small arrays of int by values; number and order of element comparisons, and behaviour of operators with effects or exceptions, range over all shapes, contents and operators.", "anchors": ["include/boost/multi_array/multi_array_ref.hpp: operator==, operator<, operator!=, operator>, operator<=, operator>=", "include/boost/multi_array/subarray.hpp: operator==, operator<, operator!=, operator>, operator<=, operator>=", "include/boost/multi_array/view.hpp: operator==, operator<, operator!=, operator>, operator<=, operator>="]}
{"id": "C86", "title": "assign(first,last) with any input iterator, also one that reads the array's own storage", "statement": "a.assign(first,last) takes elements from the input iterator one at a time and stores each before it takes the next. It never takes more than num_elements() elements, and if it takes fewer the iterator was at its end. On a sequence of values it does what C33 says; an input iterator that throws leaves the values it has delivered in the array and the exception propagates. If the input is read from memory (pointer ranges, iterators of one-dimensional arrays, rows and views, also of the same array) it is the loop that copies the sources to the storage in memory order. If no element is written before it has been read, the element of rank k gets the value source k had before the call: a.assign(a.data()+m, ...) moves elements toward the front. A pointer range that starts d elements before the array's storage and runs into it is not copied: the first d values are repeated (element k gets the old value of source k mod d).", "quantifier": "all arrays and storage orders, all input iterators (with state and effects, throwing, reading memory that the call writes), all lengths of input, all memory states", "why_tests_cant": "Tests assign from a fixed buffer disjoint from the array; the iterators, their effects, their overlap with the array and the lengths are unbounded.", "anchors": ["include/boost/multi_array/multi_array_ref.hpp: assign", "include/boost/multi_array/iterator.hpp: dereference, increment, equal"]}
{"id": "C87", "title": "Builds without assertions: what out-of-contract operations do", "statement": "With assertions compiled out (NDEBUG), the operations whose preconditions are violated do exactly the following. Element access with any index tuple of the right length denotes origin() + sum of index*stride (for C order: the row-major position computed with the given integers, so an index that runs over a row continues in the next one); on a multi_array it therefore either reads and writes some element of the same array, or lies outside the storage and is undefined - nothing else. Assignment and copy_array between arrays, subarrays and views of the same dimension but different shapes is the loop over the positions of the source's shape; if the source fits inside the destination it overwrites exactly the leading part, and in general the assignment to a multi_array is defined iff every source position denotes some element of the destination. A view accepts every range except stride 0; its extents count the values before the finish and its elements are the places the selected indices denote. reshape to a shape with another number of elements re-labels the storage by rank, leaves num_elements() unchanged, and reaches outside the storage iff the new shape has more elements.", "quantifier": "all reachable arrays, handles, index tuples, shapes, ranges with any bounds and strides, all memory states", "why_tests_cant": "Tests run with assertions enabled and within the contract; the out-of-contract arguments are unbounded, and whether a bad access is silently another element or undefined depends on all of shape, storage order, bases and index.", "anchors": ["include/boost/multi_array/base.hpp: access, access_element, generate_array_view", "include/boost/multi_array/multi_array_ref.hpp: operator=, reshape", "include/boost/multi_array/subarray.hpp: operator=", "include/boost/multi_array/view.hpp: operator=", "include/boost/multi_array/copy_array.hpp: copy_array"]}
{"id": "C88", "title": "Which element operations each call performs, on which objects, in which order", "statement": "Element types may have constructors, assignments and destructors with side effects (counting, logging, registering the object). Every constructor allocates one block, constructs the elements from the first to the last in memory order, and then copies (copy constructor: memory order; converting constructors: lexicographic order of the positions) - nothing else; the destructor destroys the elements from the last to the first and releases the block; assignment, copy_array and for_each read and assign element after element in lexicographic order; assign(first,last) assigns in memory order; resize allocates, constructs all new elements, copies the common positions in lexicographic order, and only then destroys the old elements in reverse and releases the old block. When something throws, the operations so far are undone as documented in the same fixed order (constructed elements destroyed in reverse). Every run of any code on the library respects object lifetimes: only live objects are read, assigned or destroyed, objects are only constructed in storage without an object, only whole empty blocks are released, to their own allocator; constructions, destructions, allocations and releases balance, and in a whole program in which no allocating call threw they balance to zero when the last array is gone.", "quantifier": "all arrays, shapes, storage orders, handles, element values, memory states, exception schedules, and all client programs of any length", "why_tests_cant": "Order and pairing of side effects must hold for every shape, every exception point and every program history; counting tests check totals of a few runs only.", "anchors": ["include/boost/multi_array.hpp: constructors, destructor, operator=, resize, allocate_space, deallocate_space", "include/boost/multi_array/algorithm.hpp: copy_n", "include/boost/multi_array/multi_array_ref.hpp: operator=, assign", "include/boost/multi_array/copy_array.hpp: copy_array", "example/for_each.hpp: for_each"]}
{"id": "C89", "title": "Exactly which pointers, references, iterators, subarrays and views a command invalidates", "statement": "Take any array held by a program variable. Pointers, references and views obtained from it stay valid - they still denote live elements in the same storage - across any sequence of library calls, on this or other arrays, completed or interrupted by exceptions, as long as none of them destroys the array or completes a resize of it: writes, assignments, for_each, copy_array, reindex, reshape and failed resizes never invalidate them. Subarrays and iterators, which read the extents and strides of the array they came from, stay valid under the additional condition that none of the calls completes a reindex or reshape of the array: then the array object, shape included, is unchanged. If none of the calls targets the array at all, every element is unchanged as well. Destroying it, or completing a resize of it (even to the same extents), invalidates all of them - the old storage no longer exists, and reading or writing through them is undefined - and invalidates nothing obtained from any other array; a call that throws invalidates nothing.", "quantifier": "all legal client programs of any length, any two points of their run, all variables, all handles, all exception schedules, debug and release builds", "why_tests_cant": "A test holds a few pointers across a few calls; invalidation rules must hold for every history, every exception point and every handle.", "anchors": ["include/boost/multi_array.hpp: resize, ~multi_array, deallocate_space, operator=", "include/boost/multi_array/multi_array_ref.hpp: reshape, reindex, operator=, assign"]}
{"id": "C90", "title": "Collections passed as arguments: exactly which entries are read, and what a wrong length does", "statement": "Constructors from an extent list, reindex(list), operator()(list) and resize(list) use exactly the first NumDims entries of the collection: further entries have no effect on any outcome. If it has fewer entries they read past its end - undefined, in debug builds too, since no assertion checks the length (operator() may first stop at an assertion on one of the given indices, and only there). reshape(list) uses the whole collection: too many entries are written past the end of the array's extent list (undefined, unless the product assertion stops it); with too few entries whose product is num_elements() a debug build accepts the call and keeps the old extents of the remaining dimensions, so that the array then has in-range indices outside its storage unless it is empty or the kept extents are 1.", "quantifier": "all collections of every length, all reachable arrays, views and handles, all numbers of dimensions, storage orders, memory states and exception schedules, debug and release builds", "why_tests_cant": "Tests pass collections of the right length; the outcome for every other length, shape and entry is a universally quantified statement, and the accepted-but-broken reshape appears only for particular shapes.", "anchors": ["include/boost/multi_array/multi_array_ref.hpp: constructors, reindex, reshape, operator(), init_multi_array_ref", "include/boost/multi_array/view.hpp: reindex, operator()", "include/boost/multi_array/base.hpp: access_element", "include/boost/multi_array/algorithm.hpp: copy_n", "include/boost/multi_array.hpp: resize(const ExtentList&)"]}
{"id": "C91", "title": "Strides and contiguity: what raw-pointer code may assume", "statement": "For every array, subarray and view, moving by m in dimension j moves the address by m*strides()[j]. A non-empty one is contiguous in row-major order (last index fastest, from its first element on) exactly if every dimension with more than one element has as its stride the product of the extents behind it, and contiguous in column-major order exactly if it is the product of the extents before it. C-order arrays are row-major contiguous and Fortran-order arrays column-major contiguous from data() on, after any reindex/reshape history; subarrays of row-major contiguous arrays, subarrays and views are row-major contiguous; slices with integers first, then one unit-stride range, then whole dimensions are row-major contiguous, and mirrored slices of column-major contiguous ones are column-major contiguous. Code that reads or writes num_elements() objects through a pointer to the first element then sees or sets exactly the elements, in that order.", "quantifier": "all reachable arrays (any dimensions, extents, bases, storage orders, reindex/reshape histories), all subarrays and views nested to any depth, all index tuples", "why_tests_cant": "Interfacing with C routines relies on the layout for every shape and every slice; a test checks a few addresses.", "anchors": ["include/boost/multi_array/base.hpp: compute_strides, access, generate_array_view", "include/boost/multi_array/multi_array_ref.hpp: strides, data, origin, operator[]", "include/boost/multi_array/view.hpp: strides", "include/boost/multi_array/subarray.hpp: strides"]}
{"id": "C92", "title": "Iterator algorithms on the rows of multi-dimensional arrays behave as on plain lists of rows", "statement": "Any algorithm that works on the rows (first-dimension subarrays) of arrays, subarrays and views of two or more dimensions through begin()/end()/rbegin()/rend(), iterator arithmetic, comparison and base(), that copies rows into temporaries of the iterator's value_type, copies and destroys temporaries, assigns rows and temporaries to each other in every combination, looks at the elements of rows, and compares rows with rows or temporaries with temporaries by == and <, computes what it computes on plain lists of rows, leaves the rows as it leaves the lists, and changes no other element and no shape; nothing throws, asserts or is undefined as long as the algorithm respects the bounds of the lists. In particular insertion sort with a temporary value sorts the rows of any array or view by any strict weak order: the rows afterwards are a sorted permutation of the rows before.", "quantifier": "all algorithms (trees of steps whose next step depends on everything observed), all numbers of row sequences without common elements in any arrays, subarrays and views nested to any depth, of any rank, extents, strides (also negative), index bases and storage orders, all element values", "why_tests_cant": "Iterators over rows are proxy iterators: their reference is not value_type&, so whether an algorithm works depends on every combination of row, temporary and proxy it uses; a test runs one algorithm on one shape.", "anchors": ["include/boost/multi_array/iterator.hpp: array_iterator", "include/boost/multi_array/base.hpp: value_accessor_n", "include/boost/multi_array/subarray.hpp: operator=, operator==, operator<, begin, end", "include/boost/multi_array/multi_array_ref.hpp: operator=, operator==, operator<", "include/boost/multi_array.hpp: multi_array(const_sub_array), multi_array(const multi_array&), operator=, ~multi_array"]}
{"id": "C93", "title": "Programs do not depend on the element type, and no element value comes from nowhere", "statement": "Take any legal client program (arrays, multi_array_refs over shared memory, held views and subarrays; branching on everything it observes) and the same program over another element type, where a relation R says which values correspond: if the default values correspond, == and < agree on corresponding values, and the values and functors the two programs supply correspond, then the library completes both and everything they observe is the same except that element values correspond. Hence the library inspects elements only through ==, < and copying. In particular every element value a program ever reads is the default value, one the program supplied, or the result of a functor on such values: any predicate closed under these holds of every value read.", "quantifier": "all pairs of element types, all relations between them, all interactive programs of all lengths, all shapes, storage orders and views, both build modes for each", "why_tests_cant": "Relational claim over all element types and all programs; tests instantiate one type.", "anchors": ["include/boost/multi_array.hpp: multi_array constructors, resize, operator=", "include/boost/multi_array/multi_array_ref.hpp: assign, operator=, operator==, operator<", "include/boost/multi_array/subarray.hpp", "include/boost/multi_array/view.hpp", "include/boost/multi_array/algorithm.hpp: copy_n, uninitialized_copy", "include/boost/multi_array/copy_array.hpp"]}
{"id": "C94", "title": "Index, extent and base collections may hold integers of any type", "statement": "Collections passed to operator(), constructors, reindex and reshape may hold integers of any signedness and width up to 64 bits (boost::array<std::size_t,N>, boost::array<short,N>, ...). For every array, subarray or view that fits the machine: if the entries denote an index tuple in range (each equal to the index modulo 2^64, so std::size_t(-1) denotes -1), x(indices) and x[i]...[j] yield the element with that index in debug and release builds; if they denote none, a debug build stops at an assertion (signed entries need a representable distance to the base; 64-bit unsigned entries passed to operator() are unrestricted). Extent lists with non-negative entries construct and reshape as the list of those numbers, base lists reindex as the bases they denote. A negative extent is not detected: it is a huge one.", "quantifier": "all eight integer types, all collections, all reachable arrays, subarrays and views that fit 64 bits, all storage orders and bases, both build modes", "why_tests_cant": "The mixed signed/unsigned arithmetic has to be right for every value, including wrapped ones near 2^63 and 2^64; tests try a few small values of one type.", "anchors": ["include/boost/multi_array/base.hpp: access_element", "include/boost/multi_array/multi_array_ref.hpp: constructors, reindex, reshape, operator(), operator[]", "include/boost/multi_array/view.hpp: reindex", "include/boost/multi_array/types.hpp"]}
{"id": "C95", "title": "Element types whose assignment has a precondition; arrays of arrays", "statement": "Let the element type's operator= assert some relation between the old and the new value before it changes anything (as multi_array itself does: equal shapes). Constructors without a source never trip it. The copy constructor and the converting constructors assign each source element over a value-initialised one, resize does so for each retained element, assignment and copy_array (no shared elements) and assign(first,last) assign over the old element at the same position: each behaves exactly as for an unrestricted element type, exceptions included, if the relation holds at all those positions, and otherwise (without exceptions) ends in that assertion. Hence a multi_array of multi_arrays can be copied exactly if every inner array still has the default shape (all extents zero), and can be assigned exactly if inner shapes agree position by position.", "quantifier": "all element types and assignment preconditions, all arrays, subarrays and views, all shapes, storage orders and index bases, all contents, all exception schedules", "why_tests_cant": "Which values meet in an assignment depends on the whole shape arithmetic and on every element; tests with arrays of arrays try one or two inner shapes.", "anchors": ["include/boost/multi_array.hpp: copy constructor, converting constructors, resize, operator=", "include/boost/multi_array/multi_array_ref.hpp: operator=, assign", "include/boost/multi_array/copy_array.hpp"]}
{"id": "C96", "title": "const_multi_array_ref over any pointer type", "statement": "const_multi_array_ref takes its pointer type TPtr as a template parameter. Whatever was constructed, reindexed and reshaped: the constructors and modifiers never touch the pointer and fail exactly when they would over a plain pointer; if converting base+k to const T* gives the address k elements after base for the one number k = origin() - data(), then origin, data, element access, subarrays, views and iterators are exactly those of the reference over the plain pointer (so in particular for every pointer type whose addition and conversion commute). For a bounds-checked pointer the reference is fully usable exactly if origin() falls into the pointer's block (or its end), e.g. whenever the all-zero tuple is in range or the array is zero-based and ascending; otherwise every access traps even for in-range indices, e.g. for a one-based array over exactly its elements. A pointer into segmented storage (deque) reads wrong elements. Conversion between references over different pointer types and comparison across pointer types agree with the plain-pointer case.", "quantifier": "all pointer types (any addition and conversion, total or refusing), all constructors, all histories of reindex and reshape, all index tuples, ranges and contents", "why_tests_cant": "TPtr is a template parameter: tests instantiate it with one or two pointer types and a few shapes.", "anchors": ["include/boost/multi_array/multi_array_ref.hpp: const_multi_array_ref (TPtr), origin, data, converting constructor, comparison operators", "include/boost/multi_array/base.hpp: const_sub_array, const_multi_array_view, const_iterator types"]}
{"id": "C97", "title": "Algorithms on rows when elements or the allocator throw", "statement": "Let any algorithm work through iterators on the rows (subarrays) of arrays, subarrays and views of two or more dimensions, with temporary rows (value_type objects made from a row, assigned from rows and to rows), and let any allocation, element construction or element assignment throw. Then the algorithm never runs into undefined behaviour or a failed assertion; unless an exception was due it completes with the result and rows it has on plain lists of rows; and if an exception leaves it, all temporaries are destroyed by unwinding, every row of the sequences is one of the rows there were at the start except at most the one row being assigned (which has a prefix of its new value, one left-over element, and the rest of its old value), no element outside the sequences has changed, every live variable still owns its storage, and at most one block of storage is lost. In particular an interrupted insertion sort of rows leaves such a state.", "quantifier": "all algorithms (finite trees of iterator operations, temporaries, row assignments and comparisons, depending on everything observed), all arrays, parts and states, all positions and numbers of exceptions, both build modes", "why_tests_cant": "a test fixes one algorithm and one point where one exception is thrown; the claim is about every algorithm and every point of interruption", "anchors": ["include/boost/multi_array.hpp: multi_array(const sub_array&), multi_array::operator=, ~multi_array, allocate_space, deallocate_space", "include/boost/multi_array/subarray.hpp: sub_array::operator=", "include/boost/multi_array/iterator.hpp: array_iterator", "include/boost/multi_array/base.hpp: value_accessor_n"]}
{"id": "C98", "title": "Iterator algorithms never overflow on a 64-bit machine", "statement": "If every array and view of a program fits a machine with a 64-bit signed index type, then any algorithm that works through iterators or reverse iterators of parts of arrays - on elements, or on rows with temporaries of the row's value type - and that is legal on plain sequences performs no arithmetic overflow in any iterator, indexing, comparison, copy or construction step, and its result, element contents and exceptions are those of the algorithm on plain sequences. For rows, arrays with the shape and index bases of the rows must fit too (their temporaries are stored in C order); this is automatic if the rows have index bases 0, and cannot be dropped: an array and its rows may fit while a copy of a row does not.", "quantifier": "all arrays, subarrays and views (any dimension, storage order, index base, stride, size up to the limits of the machine), all legal algorithms over iterators and reverse iterators, all positions at which an allocation, construction or assignment throws, both build modes", "why_tests_cant": "overflow depends on sizes, bases and strides near 2^63 combined with the history of an arbitrary algorithm; a test runs one algorithm on one small array, and signed overflow is undefined rather than visible", "anchors": ["include/boost/multi_array/iterator.hpp: array_iterator::increment, decrement, advance, distance_to, dereference", "include/boost/multi_array/base.hpp: value_accessor_n::access, generate_array_view", "include/boost/multi_array/subarray.hpp: begin, end, rbegin, rend, operator=, operator==, operator<", "include/boost/multi_array.hpp: multi_array(const_sub_array), multi_array(const multi_array&), operator="]}
{"id": "C99", "title": "Iterators, subarrays and views held as variables in whole programs", "statement": "A program may keep array references, subarrays, views, iterators and reverse iterators in variables of its own and use them later, across any constructions, destructions, resizes, assignments, element writes and caught exceptions, as long as their own array has not been destroyed, resized, reindexed or reshaped since: every use (dereference, subscript, ++, --, +=, comparison, difference, base(), indexing and slicing further, assigning, comparing, traversing) then does exactly what the index expression it stands for does, a command that throws invalidates nothing, every held iterator is the one one would get by taking it anew, and nothing overflows on a 64-bit machine if the arrays and views fit.", "quantifier": "all client programs that react to everything observed so far, with any number of held handles and iterators, any number of commands, any element type, rank, shape, storage order, views of views, any exceptions thrown by the allocator and by element constructors and assignments at any point, both build modes", "why_tests_cant": "Tests hold one iterator across one operation; invalidation depends on the whole history of the program, including exceptions caught between taking and using the handle.", "anchors": ["boost/multi_array/iterator.hpp: array_iterator", "boost/multi_array/subarray.hpp: sub_array", "boost/multi_array/view.hpp: multi_array_view", "boost/multi_array/base.hpp: access, generate_array_view", "boost/multi_array.hpp: resize, operator=, ~multi_array", "boost/multi_array/multi_array_ref.hpp: begin, end, rbegin, rend"]}
{"id": "C100", "title": "Subarrays and iterators live as long as the object they point into", "statement": "A subarray or an iterator does not own extents, strides and index bases: it points into those of the array, or of the view object, it was obtained from. A program that keeps in variables only subarrays and iterators whose array or view object lives on (so never one obtained from a temporary view such as a[indices[range()]].begin(), and none whose view variable has been set anew) never follows a dangling pointer, observes exactly what it would if every handle and iterator carried its own copy of these arrays, and overflows nothing on a 64-bit machine if the arrays and views fit. View objects carry their own arrays and may be kept freely.", "quantifier": "all client programs that react to everything observed so far, with any number of variables holding subarrays, views and iterators, of any depth of subscripting and slicing, any number of commands, any element type, rank, shape and storage order, any exceptions at any point, both build modes", "why_tests_cant": "Whether a pointer dangles depends on the lifetimes of all objects over the whole history of a program; a test observes one history, and a read through a dangling pointer often returns the old value.", "anchors": ["boost/multi_array/base.hpp: multi_array_impl_base::access, generate_array_view", "boost/multi_array/subarray.hpp: const_sub_array (base_, extents_, strides_, index_base_)", "boost/multi_array/iterator.hpp: array_iterator (extents_, strides_, index_base_)", "boost/multi_array/view.hpp: const_multi_array_view (extent_list_, stride_list_, index_base_list_)"]}
{"id": "C101", "title": "Everything derived from an array models the documented MultiArray concept", "statement": "Every array and array reference, and every subarray and view derived from one, satisfies the whole table of valid expressions and invariants of the reference manual's MultiArray concept: shape(), strides(), index_bases() have num_dimensions() entries; num_elements() is the product of the shape; size() is shape()[0]; [begin(),end()) is a valid range of size() values that visits a[base], a[base+1], ... in order, and [rbegin(),rend()) the reverse; a[idx] is *(begin()+idx-index_bases()[0]); a(index_list) is at origin() plus the sum of index times stride and equals a[i1]...[iN]; index lists are unique; and both the values a[i] and all legal views a[indices...] are again MultiArrays, so generic code may nest these expressions without end.", "quantifier": "all arrays over any element type, rank, shape, index bases and storage order, after any reindex and reshape history; all handles derived from them by any nesting of subscripts, slices and reindexing of views; all indices and index lists; both build modes", "why_tests_cant": "The concept is recursive in two directions (values and views of a MultiArray are MultiArrays), so the handles it must hold for form an infinite set; the concept-check header only checks that expressions compile.", "anchors": ["doc/reference.html: MultiArray Concept, Tables 3 and 4", "boost/multi_array/concept_checks.hpp", "boost/multi_array/multi_array_ref.hpp: const_multi_array_ref", "boost/multi_array/subarray.hpp: const_sub_array", "boost/multi_array/view.hpp: const_multi_array_view", "boost/multi_array/base.hpp: access, access_element, generate_array_view"]}
{"id": "C102", "title": "Storage order cannot be observed by programs that do not look at memory", "statement": "Take two programs that differ only in the storage orders (C, Fortran, any permutation of the dimensions with any of them descending) and allocators they ask for when they construct arrays, that do not use reshape or assign(first,last), and whose decisions do not depend on strides(). If one respects the documented preconditions then so does the other; run for the same number of commands, both observe the same element values, comparisons, traversals, iterator positions, shapes and index bases, and at the end the same variables exist and hold the same elements at the same indices. With exceptions, whatever may happen to one program may happen to the other. reshape and assign(first,last) do distinguish storage orders.", "quantifier": "all pairs of client programs that are alike in this sense (any decisions, any number of arrays, views, iterators held), all storage orders, element types, comparison functions, build modes and numbers of commands", "why_tests_cant": "it relates two runs of every program for every pair of storage orders; tests compare a few programs in C and Fortran order", "anchors": ["include/boost/multi_array/storage_order.hpp: general_storage_order", "include/boost/multi_array.hpp: multi_array", "include/boost/multi_array/multi_array_ref.hpp: compute_strides, calculate_origin_offset", "include/boost/multi_array/iterator.hpp: array_iterator"]}
{"id": "C103", "title": "Exact behaviour under exceptions: what throws, what is left half done and what leaks is determined", "statement": "For every client program (any commands on any arrays, subarrays, views and iterators, reacting to what it observed and caught) and every schedule of exceptions from allocations, element constructions and element assignments, the run of the library is exactly the one a simple abstract machine predicts: a command performs a number of allocations, constructions and assignments that depends only on the shapes (one allocation and one construction per element for a constructor, plus one assignment per element for a copy or conversion; for resize one assignment per element of the common part; one assignment per element for assignments, copies, assign(first,last) and for_each) and throws iff one of them is due to throw; construction and resize then have no effect, an interrupted copy, assign or for_each has completed exactly the assignments before the one that threw, in traversal order; exactly one block of storage is lost for every constructor that throws after its allocation and every resize in which constructing the new elements throws, and none for anything else; assertions make no difference.", "quantifier": "all element types and values, all client programs that respect the preconditions in the run considered, all ranks, shapes and storage orders, all exception schedules, any number of commands, both build modes", "why_tests_cant": "Tests inject an exception at a few places in a few operations; the claim covers every injection point of every operation in every program, and any number of exceptions in one run", "anchors": ["include/boost/multi_array.hpp: multi_array, allocate_space, deallocate_space, resize", "include/boost/multi_array/multi_array_ref.hpp: multi_array_ref::operator=, assign", "include/boost/multi_array/subarray.hpp: sub_array::operator=", "include/boost/multi_array/view.hpp: multi_array_view::operator=", "include/boost/multi_array/copy_array.hpp: copy_array", "example/for_each.hpp: for_each"]}
{"id": "C104", "title": "Traversals that compare iterators end, after exactly one step per position", "statement": "Every traversal in the library goes on while an iterator differs from end(). For every array, subarray and view, whatever its shape, bases, strides and storage order, and whatever the element operations do (assign, compare, call user code, throw, modify memory), each such loop of copy_array, of the assignment operators, of the converting constructors, of for_each, of == and of < takes at most as many steps as the extent of the dimension it walks; a traversal from begin() to end() whose body never stops it takes exactly that many; the results are those of the traversal that counts its steps. A range whose last iterator lies before the first never ends. On a machine with 64-bit index and pointer-difference types these loops do the same, with no overflow, whenever one past the last index, the extents and the element offsets are representable; an array whose last index is the largest representable one cannot be traversed (the last ++ overflows), although all its elements can be accessed.", "quantifier": "all shapes, bases, strides (also zero and negative), pointers, element operations with arbitrary effects, memory states, exception schedules; both build modes; 64-bit arithmetic", "why_tests_cant": "Termination of `!=` loops for all shapes and bases is not a finite observation: a test sees only that the loops over the shapes tried ended", "anchors": ["include/boost/multi_array/copy_array.hpp: copy_dispatch::copy_array", "include/boost/multi_array/iterator.hpp: array_iterator::equal, increment", "include/boost/multi_array/multi_array_ref.hpp: operator=, operator==, operator<", "include/boost/multi_array.hpp: converting constructors", "example/for_each.hpp: for_each"]}
{"id": "C105", "title": "Threads may share array and view objects that nobody changes; an array may be reindexed or reshaped while other threads use views of it", "statement": "Let several threads share multi_array, multi_array_ref and view objects as well as elements, each reading and writing elements, taking subarrays, creating views, calling reindex and reshape, assigning, copying (copy_array), transforming and comparing (==, <) whole arrays. If no object that one thread changes (reindexes, reshapes or creates) is looked at or changed by another thread, and no element written by one is used by another, then under every interleaving of the single accesses to data members and elements: no two threads race, no thread gets stuck (undefined behaviour or failed assertion), all schedules take the same number of steps, and they end with the objects and elements that running the threads one after the other gives. In particular one thread may reindex and reshape an array while others use views of the array made before, since views carry their own shape. Without the condition on objects this fails: a reshape concurrent with an element access whose index is valid before and after can make the access go outside the array.", "quantifier": "any number of threads, any thread programs (later actions may depend on values read), any objects, shapes and contents, every schedule at the granularity of data members and elements", "why_tests_cant": "The number of schedules is astronomical and a stress test exercises a handful of them; the failing interleavings are narrow windows between two member reads.", "anchors": ["include/boost/multi_array/multi_array_ref.hpp: reindex, reshape, operator(), operator[], origin", "include/boost/multi_array/view.hpp: reindex, multi_array_view", "include/boost/multi_array/subarray.hpp: const_sub_array", "include/boost/multi_array/base.hpp: access, access_element, generate_array_view"]}
{"id": "C106", "title": "Saving and loading round trip", "statement": "Writing out the elements of an array and reading them in again restores it. By memory: the sequence data()[0..num_elements()) given later to assign(first,last) of an array of the same extents and storage order, whatever its index bases and its place in memory, puts every element back at its position; between a C-order array and a Fortran-order array with reversed extents it yields the transpose; between different storage orders it does not restore the elements. By index: for_each with a functor that appends each element to a sequence writes the elements in row-major order of their positions whatever the storage order, strides and bases, and leaves the array unchanged; for_each with a functor that replaces each element by the next value of a sequence consumes min(length, num_elements()) values and puts value r at the position of row-major rank r, leaving the elements beyond the input unchanged; so saving any array, subarray or view and loading the result into any other of the same extents puts every element back at its position (== holds), leaves what follows in the input for the next reader, and changes nothing else. The memory sequences of two arrays of the same extents and storage order are equal entry by entry exactly when ==; those of two C-order arrays of the same extents compare lexicographically exactly as < does, which fails for Fortran order.", "quantifier": "all element types and values, all shapes, storage orders, bases and strides of the two arrays, subarrays or views, all memory states between saving and loading, any other content of the sequence; both build modes", "why_tests_cant": "A test saves and loads a few shapes; the claim relates every pair of layouts of every shape", "anchors": ["include/boost/multi_array/multi_array_ref.hpp: assign, data, num_elements", "example/for_each.hpp: for_each", "include/boost/multi_array/storage_order.hpp: c_storage_order, fortran_storage_order"]}
{"id": "C107", "title": "Interrupted operations can be repeated", "statement": "If an assignment between arrays, subarrays or views of equal shape that share no element, a copy_array, an assign(first,last) or a resize has thrown (an allocation, element construction or element assignment failed, any number of times, at any points), catching the exception and performing the operation again succeeds after at most as many failures as exceptions are due, and the result is that of an operation that was never interrupted: same shape and contents, source unchanged, no other element changed. for_each cannot in general be repeated this way: elements already transformed are transformed again.", "quantifier": "all arrays, subarrays, views, contents and shapes; all exception schedules with any number of exceptions at any points; any number of attempts; both build modes", "why_tests_cant": "Tests inject one exception at a chosen point and do not repeat the operation; the claim is about all sequences of failure points", "anchors": ["include/boost/multi_array/multi_array_ref.hpp: operator=, assign", "include/boost/multi_array/copy_array.hpp: copy_array", "include/boost/multi_array.hpp: resize", "example/for_each.hpp: for_each"]}
{"id": "C108", "title": "Chains of conversions between storage orders", "statement": "Constructing a multi_array from an array, subarray or view, another one from that, and so on, each with any storage order and allocator, gives at the end an array with the shape, the index bases and, at every position, the element of the first source, with the storage order requested last, and leaves everything that existed before unchanged. What is produced depends only on the elements of the source and on the last storage order, not on the way taken: converting an array through any storage orders and back to its own gives an array with the same memory image as the original. If exceptions interrupt the chain, at any points, the source and everything else that existed before are unchanged.", "quantifier": "all arrays, subarrays, views, contents, shapes, index bases; all finite sequences of valid storage orders (including any dimension permutation and descending dimensions) and allocators; all exception schedules (for the last sentence); both build modes", "why_tests_cant": "Tests convert once, between C and Fortran order, at fixed small shapes; the claim is about all sequences of permutations and directions and all shapes", "anchors": ["include/boost/multi_array.hpp: multi_array(const multi_array_ref&, storage_order), multi_array(const detail::multi_array::const_sub_array&, storage_order), multi_array(const const_multi_array_view&, storage_order)", "include/boost/multi_array/base.hpp: compute_strides"]}
