{"id": "C01", "title": "Enum text round trip", "statement": "For an enum type whose metadata lists pairwise distinct names, parse_enum(enum_to_string(v)) returns v for every listed value v, also when the text is surrounded by any amount of whitespace (space, tab, LF, CR).", "quantifier": "all metadata lists accepted by the library with pairwise distinct names, all listed values, all whitespace prefixes and suffixes", "why_tests_cant": "Metadata lists are user-defined and unbounded; tests exercise one or two enums with fixed paddings.", "anchors": ["include/makeshift/detail/serialize.hpp: enum_to_string, enum_from_string, try_enum_from_string, trim", "include/makeshift/string.hpp: enum_to_string, parse_enum"]}
{"id": "C02", "title": "parse_enum accepts exactly the listed names", "statement": "parse_enum(s) returns a value iff s with surrounding whitespace removed equals one of the listed names, the value being that of the first such entry; for every other string it throws std::runtime_error. enum_to_string(v) returns the first listed name of v and fails fast for every unlisted v.", "quantifier": "all metadata lists, all input strings, all values", "why_tests_cant": "The set of rejected strings is infinite.", "anchors": ["include/makeshift/detail/serialize.hpp: try_enum_from_string, enum_from_string, enum_to_string"]}
{"id": "C03", "title": "Enum parse error message", "statement": "The exception thrown by parse_enum carries a message made of the type description (if any) followed by ': ', the offending text verbatim in quotes, and the full list of supported names in declaration order, each quoted, separated by ', ' exactly between consecutive names; parse_flags does so for the offending token with the '+'-delimited hint.", "quantifier": "all metadata lists (including empty), all descriptions, all rejected inputs", "why_tests_cant": "The separator logic must be right for every list length.", "anchors": ["include/makeshift/detail/serialize.hpp: enum_from_string_error, enum_from_string, flags_from_string"]}
{"id": "C04", "title": "Flags text round trip", "statement": "For a bitmask type with distinct, delimiter-free, trimmed names, parse_flags(flags_to_string(f)) == f for every f composed of defined flags. (Without the assumption on names the library accepts metadata for which this is false; that is shown by a witness.)", "quantifier": "all bit widths, all accepted flag metadata with clean names, all combinations of defined flags", "why_tests_cant": "There are 2^n flag combinations per type and unboundedly many types.", "anchors": ["include/makeshift/detail/serialize.hpp: make_flags_metadata, flags_to_string, flags_from_string, trim", "include/makeshift/string.hpp: flags_to_string, parse_flags"]}
{"id": "C05", "title": "flags_to_string output shape", "statement": "flags_to_string(f) fails fast iff f has a bit outside the defined flags; otherwise it returns the none-name (first name listed for 0, else empty) for f = 0, and for f != 0 the '+'-joined names of single-bit flags contained in f, in declaration order, each bit of f named exactly once, no other names.", "quantifier": "all bit widths, all accepted flag metadata, all values f", "why_tests_cant": "Exponentially many values; aliasing names for one bit are a rarely tested case.", "anchors": ["include/makeshift/detail/serialize.hpp: flags_to_string, make_flags_metadata"]}
{"id": "C06", "title": "parse_flags denotation", "statement": "parse_flags(s) splits s at every '+' or '|', trims each token, and returns the union of the values named by the tokens; it fails iff some token is not a listed name, where only an empty last token is forgiven. The result never has a bit outside the union of the listed values, and is independent of token order and repetition and of which delimiter is used.", "quantifier": "all metadata, all input strings, all permutations and repetitions of tokens", "why_tests_cant": "Input strings are unbounded; order independence is a statement about all permutations.", "anchors": ["include/makeshift/detail/serialize.hpp: flags_from_string"]}
{"id": "C07", "title": "Failed parse leaves the target unchanged", "statement": "When extracting an enum or flags value from a good stream with as_enum/as_flags fails, failbit is set and the target variable is left unchanged; when it succeeds the target is overwritten with the parsed value and failbit is not set. as_enum keeps this promise in every stream state. as_flags does not: on a stream that is not good it leaves failbit set but overwrites the target with the empty set, and with nothing but whitespace to read it succeeds with the empty set (both proved as theorems).", "quantifier": "all metadata, all stream contents and stream states, all previous target values", "why_tests_cant": "All stream states and contents cannot be enumerated.", "anchors": ["include/makeshift/iomanip.hpp: as_enum, as_flags", "include/makeshift/detail/serialize.hpp: try_enum_from_string, flags_from_string"]}
{"id": "C08", "title": "as_enum consumes exactly one token", "statement": "Extracting with as_enum from a good stream skips leading whitespace, consumes the maximal run of characters that are legal in enum names, and leaves the rest of the stream (from the first delimiter on) unread.", "quantifier": "all stream contents", "why_tests_cant": "Stream contents are unbounded.", "anchors": ["include/makeshift/iomanip.hpp: as_enum", "include/makeshift/detail/serialize.hpp: char_bitset, enum_forbidden_char_set"]}
{"id": "C09", "title": "as_flags consumes exactly one flags expression", "statement": "Extracting with as_flags from a good stream skips leading whitespace and consumes the maximal run of characters up to the first of ',[]{}():/\\\\', which includes interior whitespace, '+' and '|', leaving the rest unread.", "quantifier": "all stream contents", "why_tests_cant": "Stream contents are unbounded.", "anchors": ["include/makeshift/iomanip.hpp: as_flags", "include/makeshift/detail/serialize.hpp: flags_forbidden_char_set"]}
{"id": "C10", "title": "Stream round trip of value sequences", "statement": "Writing any sequence of enum values with as_enum, separated by non-empty whitespace, and reading the same number of values with as_enum from the resulting text yields the same sequence; likewise for non-empty sequences of flags separated by ','. No name may begin with a character skipped by std::ws (a name beginning with a vertical tab is accepted by the library but cannot be read back, shown by a witness).", "quantifier": "all sequences of listed values of any length, all accepted metadata with distinct clean names, all whitespace separators", "why_tests_cant": "Sequences are unbounded and failures depend on what precedes or follows a token.", "anchors": ["include/makeshift/iomanip.hpp: as_enum, as_flags"]}
{"id": "C11", "title": "Whitespace trimming", "statement": "The whitespace trimming applied to parser input removes exactly the maximal leading and trailing runs of space, tab, LF and CR: s = pre + trim(s) + post with pre, post whitespace and trim(s) neither starting nor ending with whitespace; trimming twice equals trimming once; an all-whitespace string trims to the empty string.", "quantifier": "all strings", "why_tests_cant": "Strings are unbounded; the index arithmetic must be right at every position.", "anchors": ["include/makeshift/detail/serialize.hpp: trim, whitespace_chars"]}
{"id": "C12", "title": "Metadata name validation", "statement": "Constructing the enum (flags) parser tables fails fast iff a name is empty or contains a character from the documented forbidden set; the 256-entry character set used for tokenising streams agrees with that list for every char value, including negative ones.", "quantifier": "all name lists, all 256 char values, all character lists used to build a set", "why_tests_cant": "Bit-index arithmetic over all characters and all lists.", "anchors": ["include/makeshift/detail/serialize.hpp: make_enum_metadata, make_flags_metadata, char_bitset"]}
{"id": "C13", "title": "Flags metadata normalisation", "statement": "Building the flags tables reorders entries so that single-bit flags come first and all others after, keeping declaration order within both groups and losing or duplicating no entry; it is accepted iff every bit used by any entry is also defined by a single-bit entry.", "quantifier": "all bit widths, all value/name lists", "why_tests_cant": "All lists and all bit patterns, including the sign bit.", "anchors": ["include/makeshift/detail/serialize.hpp: make_flags_metadata, is_power_of_2"]}
{"id": "C14", "title": "expand maps a runtime value to the matching constval", "statement": "expand(v, values) holds the constant equal to v whenever v occurs in the value list and throws unsupported_runtime_value otherwise; try_expand returns nullopt and expand_failfast fails fast exactly in the latter case. Holds whichever lookup strategy (contiguous, binary, linear) is chosen.", "quantifier": "all value lists (any length, order, duplicates), all runtime values", "why_tests_cant": "Lookup correctness is needed at every position and every gap for lists of every length.", "anchors": ["include/makeshift/variant.hpp: expand, try_expand, expand_failfast", "include/makeshift/detail/variant.hpp: search_value_index, search_value_index_0, search_value_index_1, search_value_index_2"]}
{"id": "C15", "title": "Binary search lookup is exact on sorted lists", "statement": "For any list sorted with respect to the element order (duplicates allowed), the binary lookup terminates, never reads outside the list, returns an index holding the searched value when one exists and -1 otherwise.", "quantifier": "all sorted lists of any length over any linear order, all searched values", "why_tests_cant": "Off-by-one errors appear at specific lengths/positions; the statement is for all lengths.", "anchors": ["include/makeshift/detail/variant.hpp: search_value_index_2, are_values_sorted"]}
{"id": "C16", "title": "Contiguous lookup is exact for machine integers", "statement": "For values that form a contiguous ascending run, the O(1) lookup agrees with linear search for every runtime value of the integer type and has no undefined behaviour. This is false in general: for unsigned types a run that wraps past the maximum is accepted as contiguous although its wrapped members are then not found, and for int a subtraction can overflow; it is proved for runs that do not wrap and differences that fit.", "quantifier": "all integer widths and signedness, all start values, run lengths and runtime values", "why_tests_cant": "2^64 values; failures sit only at the extremes of the type.", "anchors": ["include/makeshift/detail/variant.hpp: are_values_contiguous, search_value_index_1"]}
{"id": "C17", "title": "variant_transform visits the active alternatives and merges result types", "statement": "variant_transform(f, v1..vn) calls f once with the active alternatives and returns a variant holding exactly f's result; the result variant's type lists every non-void result type of f over all combinations of alternatives exactly once and nothing else; a void result fails fast after f was called; if f returns void for every combination there is no such variant and the call does not compile.", "quantifier": "any number of variant arguments, any numbers of alternatives, any functor", "why_tests_cant": "All arities and shapes of type lists.", "anchors": ["include/makeshift/variant.hpp: variant_transform", "include/makeshift/detail/variant.hpp: variant_transform_result_"]}
{"id": "C18", "title": "Alternative combinations are enumerated exactly once", "statement": "The set of result types computed for variant_transform covers every combination of alternatives of the argument variants: decoding the linear index visits every index tuple of the product shape exactly once.", "quantifier": "all shapes (any number of dimensions of any size)", "why_tests_cant": "Mixed-radix arithmetic for all shapes.", "anchors": ["include/makeshift/detail/variant.hpp: compute_strides_, compute_size_, variant_transform_result_1_"]}
{"id": "C19", "title": "variant_transform_many flattens", "statement": "variant_transform_many returns the alternative held by the variant returned by f, and its type lists every alternative of every variant type f can return exactly once.", "quantifier": "all functors returning variants, all shapes", "why_tests_cant": "All arities and shapes of type lists.", "anchors": ["include/makeshift/variant.hpp: variant_transform_many", "include/makeshift/detail/variant.hpp: flatten_variant_, variant_transform_many_result_"]}
{"id": "C20", "title": "apply_permutation permutes", "statement": "If indices is a permutation p of 0..n-1, apply_permutation terminates normally, afterwards element i is the old element p(i) for every i, and the index array is the identity.", "quantifier": "all n, all permutations, all element values", "why_tests_cant": "n! permutations for every n.", "anchors": ["include/makeshift/experimental/algorithm.hpp: apply_permutation"]}
{"id": "C21", "title": "apply_permutation rejects invalid index arrays", "statement": "If indices is not a permutation of 0..n-1 (out-of-range or repeated index), apply_permutation terminates by failing fast, never accesses anything out of bounds, and only ever rearranges elements (no element lost or duplicated). With fewer indices than elements it never returns normally; if they are a permutation of the first elements, these are permuted, and then the index range is read past its end.", "quantifier": "all n, all index arrays", "why_tests_cant": "All malformed inputs.", "anchors": ["include/makeshift/experimental/algorithm.hpp: apply_permutation"]}
{"id": "C22", "title": "apply_reverse_permutation permutes inversely", "statement": "If indices is a permutation p, apply_reverse_permutation terminates normally and places old element i at position p(i) for every i, leaving the identity in the index array.", "quantifier": "all n, all permutations", "why_tests_cant": "n! permutations for every n.", "anchors": ["include/makeshift/experimental/algorithm.hpp: apply_reverse_permutation"]}
{"id": "C23", "title": "apply_reverse_permutation rejects invalid index arrays", "statement": "If indices is not a permutation of 0..n-1, apply_reverse_permutation fails fast after finitely many steps without out-of-bounds access, having only rearranged elements. With fewer indices than elements it never returns normally; if they are a permutation of the first elements, these are permuted, and then the index range is read past its end.", "quantifier": "all n, all index arrays", "why_tests_cant": "All malformed inputs.", "anchors": ["include/makeshift/experimental/algorithm.hpp: apply_reverse_permutation"]}
{"id": "C24", "title": "Permutation and reverse permutation cancel", "statement": "Applying apply_permutation and then apply_reverse_permutation (or vice versa) with copies of the same index array restores the original sequence.", "quantifier": "all n, all permutations, all element sequences", "why_tests_cant": "n! permutations for every n.", "anchors": ["include/makeshift/experimental/algorithm.hpp: apply_permutation, apply_reverse_permutation"]}
{"id": "C25", "title": "shuffle is an unbiased permutation", "statement": "shuffle only permutes the range, requests random indices within the bounds of the not-yet-fixed prefix, never accesses out of bounds, and maps the sequences of random draws one-to-one onto the permutations of the range, so that ideal uniform draws give every permutation equal probability.", "quantifier": "all range lengths, all draw sequences", "why_tests_cant": "n! outcomes for each n; bias is not observable by a finite test.", "anchors": ["include/makeshift/algorithm.hpp: shuffle"]}
{"id": "C26", "title": "range_for visits tuples in order exactly once", "statement": "range_for(f, r1..rk) over ranges of equal length n calls f exactly n times, the i-th call with the i-th element of every range (and i for range_index), in ascending order, for every mix of contiguous ranges, sized non-contiguous ranges, unsized iterator-pair ranges and index ranges.", "quantifier": "all numbers and kinds of ranges, all lengths, all contents", "why_tests_cant": "All combinations of range kinds and lengths.", "anchors": ["include/makeshift/algorithm.hpp: range_for", "include/makeshift/detail/algorithm.hpp: zip_iterator_sentinel, zip_iterator_base", "include/makeshift/detail/zip.hpp: zip_iterator_leaf"]}
{"id": "C27", "title": "Length mismatch fails fast before out-of-bounds access", "statement": "When the ranges passed to range_for (or range_transform_reduce, range_count_if, ...) differ in length, the call fails fast and no range is ever dereferenced or advanced beyond its own end. If two of the ranges know their sizes and these differ, the functor is not called at all; otherwise range_for has called it for exactly the positions all ranges have.", "quantifier": "all numbers and kinds of ranges, all length combinations", "why_tests_cant": "All combinations of lengths and kinds; memory-safety at each step.", "anchors": ["include/makeshift/detail/algorithm.hpp: zip_iterator_sentinel", "include/makeshift/detail/zip.hpp: merge_sizes, is_end"]}
{"id": "C28", "title": "Size merging", "statement": "The common size computed for zipped ranges is independent of argument order; it is the common length of all ranges of known length (unknown if none is known), and fails fast (or is rejected at compile time) iff two known lengths differ.", "quantifier": "all numbers of ranges, all static/dynamic/unknown size combinations, all argument orders", "why_tests_cant": "All permutations of all mixes.", "anchors": ["include/makeshift/detail/zip.hpp: merge_sizes_0, merge_sizes"]}
{"id": "C29", "title": "range_zip iterators are random access iterators", "statement": "For zipped ranges of equal length, iterators reached from begin() by any sequence of ++, --, +=, -= steps that stays in bounds dereference to the tuple of elements at that position; it[n], it+n, it2-it1 and comparisons agree with positions; iterating to end() visits every tuple once.", "quantifier": "all range kinds, all lengths, all movement histories", "why_tests_cant": "Histories of iterator movements are unbounded.", "anchors": ["include/makeshift/detail/algorithm.hpp: zip_iterator_base, zip_common_range", "include/makeshift/detail/zip.hpp: zip_iterator_leaf"]}
{"id": "C30", "title": "range_zip can be traversed backward from end()", "statement": "Decrementing end() of a zipped range gives the last tuple. This holds if every zipped range is contiguous, an index, or unsized; it is false when a zipped range has a size() but no data(), because its end iterator starts at the range's beginning (shown by a witness).", "quantifier": "all range kinds, all lengths", "why_tests_cant": "Depends on the combination of range kinds.", "anchors": ["include/makeshift/detail/zip.hpp: zip_iterator_leaf<_, zip_iterator_leaf_mode::iterator>", "include/makeshift/detail/algorithm.hpp: common_end"]}
{"id": "C31", "title": "range_zip does not read past a shorter unsized range", "statement": "Iterating range_zip(...) from begin() to end() never dereferences past the end of any range. False when an unsized iterator-pair range is shorter than the sized ones (shown by a witness); proved for ranges whose lengths all agree.", "quantifier": "all range kinds and lengths", "why_tests_cant": "Absence of out-of-bounds access over all inputs.", "anchors": ["include/makeshift/detail/algorithm.hpp: zip_common_range", "include/makeshift/algorithm.hpp: range_zip"]}
{"id": "C32", "title": "range_reduce and range_transform_reduce are left folds", "statement": "range_transform_reduce(init, reduce, transform, r1..rk) returns reduce(...reduce(reduce(init, t0), t1)..., tn-1) with ti the transform of the i-th elements, in order, for any (non-associative, non-commutative) functors; range_reduce is the same with the identity transform.", "quantifier": "all functors, all lengths, all numbers of ranges", "why_tests_cant": "All functors including non-associative ones.", "anchors": ["include/makeshift/algorithm.hpp: range_transform_reduce, range_reduce"]}
{"id": "C33", "title": "range_all_of / any_of / none_of / count_if", "statement": "range_count_if returns the number of positions satisfying the predicate; range_all_of/any_of/none_of return the corresponding quantifier, evaluate positions in ascending order and stop at the first position that decides the result; none_of == !any_of and all_of(p) == !any_of(not p); empty ranges give true/false/true/0.", "quantifier": "all predicates, all lengths", "why_tests_cant": "All predicates and lengths; evaluation counts.", "anchors": ["include/makeshift/algorithm.hpp: range_count_if, range_all_of, range_any_of, range_none_of"]}
{"id": "C34", "title": "range_iota, range_fill, range_generate", "statement": "After range_iota element i equals value advanced i times; after range_fill every element equals the value; range_generate assigns the results of successive calls in order. range_iota also increments once past the last element, which for a signed type holding its maximum is undefined although every stored value is representable (shown by a witness).", "quantifier": "all lengths, all start values and increment functions, all integer widths", "why_tests_cant": "Overflow happens only at the extreme of the type.", "anchors": ["include/makeshift/algorithm.hpp: range_iota, range_fill, range_generate"]}
{"id": "C35", "title": "Zip iterator category", "statement": "The iterator category of a zipped range is the weakest category among the zipped iterators.", "quantifier": "all lists of iterator categories of any length", "why_tests_cant": "Bit-trick computation over arbitrary lists.", "anchors": ["include/makeshift/detail/zip.hpp: common_iterator_tag_, iterator_tag_bit_, cbitand, bit_width"]}
{"id": "C36", "title": "index_range", "statement": "index_range(first, last) enumerates exactly first, first+1, ..., last-1 (nothing if first == last) and fails fast iff first > last; index_range(n) enumerates 0..n-1 and fails fast iff n < 0; its iterators obey the random access laws.", "quantifier": "all integers first, last, n, all movement histories", "why_tests_cant": "All integer pairs and histories.", "anchors": ["include/makeshift/ranges.hpp: index_range", "include/makeshift/iterator.hpp: index_iterator"]}
{"id": "C37", "title": "range bounds checking", "statement": "range::operator[] on a random access range returns the i-th element iff i < size() and fails fast otherwise; a range with static extent constructed from a start and an extent fails fast iff the extents differ. Construction from a pair of iterators does not check the static extent (witness: size() disagrees with the distance).", "quantifier": "all ranges, all indices, all extents", "why_tests_cant": "All indices and extents.", "anchors": ["include/makeshift/ranges.hpp: range", "include/makeshift/detail/ranges.hpp: random_access_range_base, static_random_access_range_base"]}
{"id": "C38", "title": "template_for order and template/tuple transform pointwise", "statement": "template_for(f, t1..tk) calls f once per index in ascending order with the i-th elements (range_index and tuple_index arguments receiving the index); tuple_transform and array_transform return the container whose i-th element is the result of calling f for the i-th elements, each index being called exactly once. array_transform makes the calls in ascending order; for tuple_transform the order is up to the compiler, which matters only for functors with side effects (witness).", "quantifier": "all tuple sizes, all numbers of arguments, all functors", "why_tests_cant": "All sizes and arities.", "anchors": ["include/makeshift/tuple.hpp: template_for, tuple_transform", "include/makeshift/detail/tuple-transform.hpp: template_for_impl, transform_element", "include/makeshift/array.hpp: array_transform"]}
{"id": "C39", "title": "Tuple size agreement", "statement": "template_for / tuple_transform / array_transform require all tuple arguments (and an explicitly given N) to have the same size. Tuples of differing sizes are rejected; but an explicit N smaller than the tuple size is accepted and silently ignores the remaining elements (shown by a witness).", "quantifier": "all lists of tuple sizes and all N", "why_tests_cant": "All combinations of sizes.", "anchors": ["include/makeshift/detail/tuple-transform.hpp: tuple_transform_size, equal_sizes_"]}
{"id": "C40", "title": "template_reduce is a left fold; template quantifiers", "statement": "template_transform_reduce/template_reduce combine elements left to right; template_all_of/any_of/none_of return the corresponding quantifier, satisfy the De Morgan laws, and stop evaluating at the first deciding element.", "quantifier": "all tuple sizes, all functors", "why_tests_cant": "All sizes and functors.", "anchors": ["include/makeshift/tuple.hpp: template_transform_reduce, template_reduce, template_all_of, template_any_of, template_none_of", "include/makeshift/detail/tuple.hpp: transform_reduce_fn, conjunction_fn"]}
{"id": "C41", "title": "tuple_cat and array_cat concatenate", "statement": "tuple_cat/array_cat return exactly the concatenation of their arguments in order, including empty ones: the element at flat position k is the element of the unique (argument, offset) pair determined by k, and the size is the sum of sizes.", "quantifier": "all numbers of arguments, all sizes including zero", "why_tests_cant": "Index arithmetic with empty arguments in any position.", "anchors": ["include/makeshift/tuple.hpp: tuple_cat", "include/makeshift/array.hpp: array_cat", "include/makeshift/detail/indices-2d.hpp: indices_2d_"]}
{"id": "C42", "title": "value_tuple ordering is lexicographic", "statement": "operator<, >, <=, >= on value_tuple are the lexicographic order (a strict total order if the element orders are), and == is element-wise equality.", "quantifier": "all tuple lengths and element values", "why_tests_cant": "All values; transitivity ranges over triples.", "anchors": ["include/makeshift/detail/tuple.hpp: value_tuple_base operators"]}
{"id": "C43", "title": "value_tuple != is the negation of ==", "statement": "a != b iff not (a == b). This is false: != holds only if every element differs (shown by a witness; empty tuples even satisfy both); proved for tuples with exactly one element.", "quantifier": "all tuple lengths and element values", "why_tests_cant": "Universal over all pairs.", "anchors": ["include/makeshift/detail/tuple.hpp: value_tuple_base::operator !="]}
{"id": "C44", "title": "array_iota and array_fill", "statement": "array_iota<N>(v) contains v, v+1, ..., v+N-1 in order; array_fill contains N copies. array_iota increments the counter once more than needed, which is undefined for a signed type if v+N-1 is its maximum (witness).", "quantifier": "all N, all start values, all integer widths", "why_tests_cant": "Failure only at the extreme of the type.", "anchors": ["include/makeshift/array.hpp: array_iota, array_fill"]}
{"id": "C45", "title": "unique type sequence", "statement": "unique_sequence contains each distinct type of the argument exactly once and no other, ordered by last occurrence; it is idempotent.", "quantifier": "all type lists", "why_tests_cant": "All lists.", "anchors": ["include/makeshift/detail/type_traits.hpp: unique_sequence_, is_in_", "include/makeshift/type_traits.hpp: unique_sequence"]}
{"id": "C46", "title": "type index search", "statement": "search_type_pack_index yields the index of T iff T occurs exactly once and a negative value otherwise; search_tuple_element_index distinguishes none (-1) from several (-2); the first-match variant yields the first matching index or a negative value.", "quantifier": "all type lists and predicates", "why_tests_cant": "All lists.", "anchors": ["include/makeshift/detail/type_traits.hpp: try_type_pack_index_, search_tuple_element_index"]}
{"id": "C47", "title": "type sequence concatenation, filter, membership", "statement": "type_sequence_cat is list concatenation (associative, empty sequences neutral); filtering keeps exactly the matching types in order; is_in holds iff the type occurs. is_in_v should equal is_in::value but ignores the list and is always false (witness).", "quantifier": "all type lists, all predicates", "why_tests_cant": "All lists.", "anchors": ["include/makeshift/detail/type_traits.hpp: type_sequence_cat_, filter_sequence_, is_in_", "include/makeshift/type_traits.hpp: is_in, is_in_v"]}
{"id": "C48", "title": "Constval normalisation preserves the value", "statement": "make_constval / MAKESHIFT_CONSTVAL yields a constval whose value is the original value, for every nesting of scalars, arrays, tuples and tuple-likes; constval objects inside the value are replaced by the values they represent; elements of an array or tuple constval are constvals of the elements. It is well-formed for all values except arrays of constval objects (other than type tags) and tuples with a type_sequence or a type tag.", "quantifier": "all finite value trees (arrays/tuples of arbitrary nesting depth)", "why_tests_cant": "Unbounded nesting.", "anchors": ["include/makeshift/detail/constval.hpp: make_constval_, make_array_constval_, make_tuple_constval_"]}
{"id": "C49", "title": "Constval normalisation is canonical", "statement": "Normalising a constval yields the same type again (idempotence), and two functors whose values are built from scalars, arrays and tuples yield the same constval type iff the values are equal. (For other types, and for array_constant types written by hand, constvals with equal values may have different types: witnesses.)", "quantifier": "all finite value trees", "why_tests_cant": "Unbounded nesting.", "anchors": ["include/makeshift/detail/constval.hpp: make_constval_"]}
{"id": "C50", "title": "constval_transform and constval_extend commute with value extraction", "statement": "If all arguments are constvals, constval_transform(f, cs...) is a constval with value f(values...); if some argument is not an empty class, it equals f(values...) computed at run time; constval_extend passes the arguments themselves; constval_extract undoes make_constval. Arguments which are empty classes but not constvals are treated inconsistently (witnesses).", "quantifier": "all functors, all argument lists mixing constvals and plain values", "why_tests_cant": "All mixes and functors.", "anchors": ["include/makeshift/detail/constval.hpp: constval_transform, constval_extend, get_hvalue"]}
{"id": "C51", "title": "values and value_names are aligned", "statement": "For every metadata object in which values are given as a record list, metadata::values and value_names (and further columns) have equal length and entry i of both stems from the same record; searching a value by name then yields the index of the first record with that name. If some record lacks the requested column, or the metadata lists no records, no column is available.", "quantifier": "all metadata trees", "why_tests_cant": "User-defined metadata is unbounded.", "anchors": ["include/makeshift/detail/metadata.hpp: extract_values, extract_value_metadata, record_index, extract_column", "include/makeshift/metadata.hpp: search_value_index_by_name"]}
{"id": "C52", "title": "metadata extraction by occurrence", "statement": "metadata::name is the first and metadata::description the second string of the metadata tuple; in general extracting occurrence k yields the k-th matching element or nothing if there are fewer.", "quantifier": "all metadata trees, all occurrences", "why_tests_cant": "All trees.", "anchors": ["include/makeshift/detail/metadata.hpp: extract_metadata, record_index", "include/makeshift/metadata.hpp: extract, name, description"]}
{"id": "C53", "title": "members and member_names are aligned; lookup by name finds the right member", "statement": "metadata::members and member_names list base class members first, have equal length and correspond position by position, so that find_member_by_name(n) yields the member named n; likewise for member_descriptions. False for class hierarchies of depth two or more, where members is recursive but member_names only includes direct bases and lookup returns a different member (witness); proved for classes whose bases do not inherit members. The order of members is proved for all hierarchies.", "quantifier": "all class hierarchies", "why_tests_cant": "Hierarchies are unbounded; tests only use one base level.", "anchors": ["include/makeshift/detail/metadata.hpp: all_members, extract_all_member_metadata", "include/makeshift/metadata.hpp: search_member_by_name, find_member_by_name"]}
{"id": "C54", "title": "value index search", "statement": "search_value_index(v) returns the index of the first listed value equal to v or -1; find_value_index returns the same index and fails fast where search returns -1; same by name and for members.", "quantifier": "all metadata lists, all values and names", "why_tests_cant": "All lists.", "anchors": ["include/makeshift/metadata.hpp: search_value_index, find_value_index, search_value_index_by_name, find_value_index_by_name", "include/makeshift/detail/metadata.hpp: search_index"]}
{"id": "C55", "title": "buffer storage discipline", "statement": "For every history of constructions, copies, element reads and writes, assignments and destructions of buffers which uses only existing buffers, indices below the size and elements which have been given a value, every heap block is released exactly once, no access is out of bounds or to released memory, and reads return the last value written through the same buffer (copies are independent). The heap is used exactly when the documentation says so.", "quantifier": "all histories of operations over any number of buffers, all sizes and in-place capacities", "why_tests_cant": "Histories are unbounded.", "anchors": ["include/makeshift/experimental/detail/buffer.hpp: dynamic_buffer_base, static_buffer_base, buffer_base", "include/makeshift/experimental/buffer.hpp: buffer"]}
{"id": "C56", "title": "buffer elements are value-initialised", "statement": "A buffer constructed from an extent has value-initialised elements. Holds with a static extent, on the heap and for fixed_buffer; false for a dynamic extent when the elements are stored in place, where they are left uninitialised and reading or copying them is undefined (proved for all such buffers).", "quantifier": "all extents and in-place capacities", "why_tests_cant": "Uninitialised reads often look fine in tests.", "anchors": ["include/makeshift/experimental/detail/buffer.hpp: dynamic_buffer_base, static_buffer_base"]}
{"id": "C57", "title": "fixed_buffer capacity", "statement": "A fixed_buffer never holds more elements than its maximal extent: construction from an extent fails fast iff the extent is negative, exceeds the maximum or contradicts a static extent. Construction from an array longer than the maximum with dynamic extent is not checked and writes out of bounds (witness).", "quantifier": "all extents, maxima and array lengths", "why_tests_cant": "All extents.", "anchors": ["include/makeshift/experimental/buffer.hpp: fixed_buffer", "include/makeshift/experimental/detail/buffer.hpp: static_buffer_base, check_buffer_extents, check_fixed_buffer_extents"]}
{"id": "C58", "title": "soa_span element access and subspans", "statement": "soa_span can be made from columns iff their sizes agree and fails fast otherwise. s[i] refers to the i-th elements of all columns iff i < size() and fails fast otherwise; subspan/first/last refer to the corresponding contiguous part and fail fast iff it is not contained in the span (except first(size_t(-1)), which is the whole span); subspan of subspan composes; writing through a subspan changes exactly the corresponding rows; end() - begin() is the size and *(begin() + n) is s[n].", "quantifier": "all spans, offsets and counts (including the default count)", "why_tests_cant": "All offsets/counts including wrap-around extremes.", "anchors": ["include/makeshift/experimental/span.hpp: soa_span"]}
{"id": "C59", "title": "soa_span::empty, front and back", "statement": "empty() holds iff size() == 0, and front()/back() return the first/last row of any non-empty span and fail fast on an empty one. False: empty() is inverted, so front()/back() fail fast exactly on non-empty spans and back() on an empty one goes on to an out-of-range index (proved for all spans).", "quantifier": "all spans", "why_tests_cant": "Universal over spans.", "anchors": ["include/makeshift/experimental/span.hpp: soa_span::empty, front, back"]}
{"id": "C60", "title": "soa_span rows can be swapped and permuted", "statement": "swap of two soa references exchanges exactly the two rows in all columns; assignment copies a row; apply_permutation/shuffle on a soa_span therefore permutes all columns in lockstep.", "quantifier": "all spans, all row indices, all permutations", "why_tests_cant": "All permutations.", "anchors": ["include/makeshift/experimental/detail/span.hpp: soa_reference, swap", "include/makeshift/experimental/algorithm.hpp: apply_permutation"]}
{"id": "C61", "title": "Flag predicates", "statement": "has_flag, has_any_flag_of, has_no_flag_of and has_all_flags_of decide membership of the needle's bits in the haystack: any = exists common bit, none = not any, all = subset; has_flag agrees with both any and all on single-bit needles. The audit check accepts every single-bit flag except, for signed underlying types, the sign bit (witness).", "quantifier": "all bit widths, all values", "why_tests_cant": "2^w values for all w.", "anchors": ["include/makeshift/experimental/enum.hpp: has_flag, has_any_flag_of, has_no_flag_of, has_all_flags_of", "include/makeshift/experimental/detail/enum.hpp: is_flag_power_of_2"]}
{"id": "C62", "title": "type_enum identifies types", "statement": "For a type enumeration over pairwise distinct types, the enumeration value made from type T equals type_c<U> iff T = U, a switch over it selects the label T, and the default values are 0..n-1; construction from a 32-bit integer fails fast iff it is outside 0..n-1 (wider integers are truncated before the check: witness); conversions to and from the integer round-trip. At most 23 types are accepted, although the message says 24.", "quantifier": "all type lists of admissible length, all integers", "why_tests_cant": "All lists.", "anchors": ["include/makeshift/experimental/detail/enum.hpp: define_type_enum_base", "include/makeshift/experimental/enum.hpp: type_enum"]}
{"id": "C63", "title": "variant/optional conversions", "statement": "optional_to_variant and variant_to_optional are mutually inverse (on variants whose alternatives are distinct and not monostate), variant_cast to a superset of alternatives preserves the held value; variant_cat_t lists the alternatives of all arguments. The last is false for three or more variants, where everything after the second is dropped (witness).", "quantifier": "all type lists, all held values", "why_tests_cant": "All lists.", "anchors": ["include/makeshift/experimental/variant.hpp: variant_cast, variant_to_optional, optional_to_variant, variant_cat_t", "include/makeshift/experimental/detail/variant.hpp: variant_cat_"]}
{"id": "C64", "title": "with<I> replaces one tuple element", "statement": "For every tuple, with<I>(t, x) has x at position I and t's elements, with their types, elsewhere; with<T> and with(t, pred, x) do the same at the only matching position. False: the functions do not accept lvalues at all, so the documented uses do not compile, and for rvalues every other element is given the type of the I-th element (witnesses); proved for rvalue tuples where that type coincides.", "quantifier": "all tuples and positions", "why_tests_cant": "All type lists.", "anchors": ["include/makeshift/experimental/detail/tuple.hpp: replace_element, with_element, with", "include/makeshift/experimental/tuple.hpp: with"]}
{"id": "C65", "title": "y_combinator computes the recursive function", "statement": "y_combinator(f)(x) evaluates to f applied to itself and x: it satisfies the fixed-point equation, is defined whenever the recursion described by f is well-founded, and then equals the well-founded recursive function. All recursive calls share the state of the one functor object.", "quantifier": "all functors, all arguments, all recursion depths", "why_tests_cant": "Unbounded recursion depth.", "anchors": ["include/makeshift/functional.hpp: y_combinator", "include/makeshift/detail/functional.hpp: y_combinator_func_ref"]}
{"id": "C66", "title": "buffer checks the extent it is given", "statement": "Constructing a buffer from an extent succeeds if the extent is non-negative and agrees with a static extent, and fails fast otherwise. Holds for static extents with in-place storage; otherwise the allocation comes before the check, so that a negative extent throws bad_alloc instead (proved for all negative extents; the outcome is determined in all cases).", "quantifier": "all extents (values of integer types of up to 64 bits), all static extents, in-place capacities and allocation limits", "why_tests_cant": "All extents including the extremes of the integer types.", "anchors": ["include/makeshift/experimental/buffer.hpp: buffer::buffer", "include/makeshift/experimental/detail/buffer.hpp: check_buffer_extents, dynamic_buffer_base"]}
{"id": "C67", "title": "Lifetime of soa_span references and iterators", "statement": "A reference or iterator obtained from a soa_span can be used as long as the columns exist, as with std::span. False: it refers to the span object, so every use after that object is gone (a temporary subspan, say) is undefined, and assigning to the span object redirects it; it remains valid as long as the span object is unchanged and the columns exist.", "quantifier": "all spans, rows, and later states", "why_tests_cant": "Use of dangling references may appear to work in a test.", "anchors": ["include/makeshift/experimental/detail/span.hpp: soa_reference::data_, soa_span_iterator::data_"]}
{"id": "C68", "title": "soa_span with const columns is read-only", "statement": "Nothing can be modified through a soa_span whose columns are const. False: assignment to a row compiles and overwrites the elements, which is undefined if they are really const. swap of rows and assignment through get<I>() are rejected.", "quantifier": "all spans, rows and values", "why_tests_cant": "Needs a claim about all programs; modifying const objects may appear to work.", "anchors": ["include/makeshift/experimental/detail/span.hpp: soa_reference::operator =, swap", "include/makeshift/experimental/span.hpp: soa_span constructor"]}
{"id": "C69", "title": "single and single_or_default select the matching element", "statement": "single(t, pred) returns the only element of t whose type satisfies pred; single_or_default(t, pred, d) returns it, or d if there is none. False: neither function accepts an lvalue; for rvalues the index is searched in the wrong list, so that single never compiles and single_or_default always returns d (proved for all tuples and predicates); true only where no element satisfies pred.", "quantifier": "all tuple types, predicates and values", "why_tests_cant": "All type lists and predicates; a test can show single failures only.", "anchors": ["include/makeshift/experimental/tuple.hpp: single, single_or_default", "include/makeshift/experimental/detail/tuple.hpp: single_or_default"]}
{"id": "C70", "title": "Constval and tuple-like types are recognised by their interface", "statement": "A class with a value_type, a static constexpr data member value of that type, a nullary call operator and a conversion to value_type is recognised as constval by is_constval_v and by the concept constval; every type with std::tuple_size satisfies the concept tuple_like. False: only specialisations of integral_constant and classes deriving from constval_tag are recognised unless value is not const; the concepts reject every class with a static data member value whose value_type is not a reference.", "quantifier": "all class types, described by what the traits inspect", "why_tests_cant": "Quantifies over all user-defined classes; a test covers single classes, and the concepts only exist in C++20.", "anchors": ["include/makeshift/detail/type_traits.hpp: is_constval_, is_tuple_like", "include/makeshift/concepts.hpp: constval, constval_of, tuple_like"]}
{"id": "C71", "title": "csize and cssize yield the number of elements", "statement": "csize(c) is the number of elements of the array, tuple or container c, and cssize(c) is the same number as a signed integer, both as a constval iff the number is known at compile time. cssize requires fewer than 2^63 elements: for more, it is negative or does not compile.", "quantifier": "all arguments, all size types and sizes", "why_tests_cant": "Sizes near the limit of the size type cannot be allocated in a test.", "anchors": ["include/makeshift/constval.hpp: csize, cssize", "include/makeshift/detail/constval.hpp: csize_impl, cssize_impl"]}
{"id": "C72", "title": "tie_members gives access to all members", "statement": "tie_members(x) is a tuple of references to exactly the members of x that the metadata of its class and its bases list, in that order: assigning a tuple of values writes each of them and nothing else, tie_members(y) = tie_members(x) copies the members, and comparison compares them. tie_members_by_name(x, names) refers to the members with these names, or does not compile if one is not found. False for by-name access if the class has indirect bases (wrong members), for assignment of values if a member is listed twice, and for assignment between tuples of the same object in different orders (no permutation).", "quantifier": "all metadata and class hierarchies, all objects and values, every order in which std::tuple assigns its elements", "why_tests_cant": "All hierarchies and member lists; the order of element assignment is unspecified, so that a test sees only one.", "anchors": ["include/makeshift/tuple.hpp: tie_members, tie_members_by_name", "include/makeshift/detail/tuple.hpp: tie_members_functor"]}
{"id": "C73", "title": "Permutation algorithms with narrow index types", "statement": "apply_permutation and apply_reverse_permutation do what C20 to C24 say for every integer type of the indices that can represent the indices of the permutation. This holds if the type can also represent the number of elements; for exactly one further length (256 elements with std::uint8_t indices, 128 with signed char, ...) the length wraps and nothing is done, without an error.", "quantifier": "all standard integer types, element lists and index lists", "why_tests_cant": "The failing length is a single value per index type and needs 2^31 or more elements for the common ones.", "anchors": ["include/makeshift/experimental/algorithm.hpp: apply_permutation, apply_reverse_permutation"]}
{"id": "C74", "title": "Value-category wrappers and forward_to", "statement": "rvalue_ref_fn, lvalue_ref_fn and lvalue_const_ref_fn wrap a function object such that it can be called on non-const rvalues, non-const lvalues, and lvalues only, forwarding the call with that value category; forward_to(f) forwards the value category of the call to f. False for lvalue_const_ref_fn, which accepts rvalues too; forward_to never compiles for function objects that expect a capture forwarder.", "quantifier": "all function objects and value categories", "why_tests_cant": "Ill-formed calls cannot be unit-tested; quantifies over all function objects.", "anchors": ["include/makeshift/experimental/functional.hpp", "include/makeshift/experimental/detail/functional.hpp"]}
{"id": "C75", "title": "Text conversion follows the declared metadata", "statement": "For a type whose metadata contains a table of values, `enum_to_string` prints the first string of the first record of a value, `parse_enum` returns the value of the first record with the given name, printing and parsing round-trips if the names are distinct, and error messages start with the description (else the name) of the type and list the names in declaration order; likewise flags, where `parse_flags` and the messages take the records of a single bit before all others and `flags_to_string` prints single bits only. The functions compile exactly for the types whose records all have a name which is non-empty and free of reserved characters (and, for flags, whose composite values are covered by single-bit values); without a table they do not compile.", "quantifier": "for every metadata object (any nesting of tuples and arrays, any number of records, strings as `char const*` or `std::string_view`), every value and every text", "why_tests_cant": "Tests check particular enumerations; which metadata trees are accepted, and that names and values stay aligned through extraction, table construction and lookup, is a statement about all metadata trees.", "anchors": ["include/makeshift/detail/serialize.hpp:66-113", "include/makeshift/detail/serialize.hpp:206-269", "include/makeshift/string.hpp:25-54", "include/makeshift/metadata.hpp:163-198"]}
{"id": "C76", "title": "Element types of transformed and concatenated arrays", "statement": "`array_transform` without explicit element type returns an array whose element type is the decayed result type of the functor, for arrays and for tuples alike; with an explicit element type it compiles exactly if every result converts to this type without narrowing. `tuple_transform` returns a tuple of the decayed results, which may have different types. `array_cat<T>` compiles exactly if every element of every argument converts to `T` without narrowing.", "quantifier": "for every functor (described by the type of its call for each list of argument types), every number, kind, size and value category of the arguments, every conversion relation", "why_tests_cant": "Whether a call compiles and which type it has are statements about all functors and argument types; a test only sees instantiations that compile.", "anchors": ["include/makeshift/detail/array.hpp:22-116", "include/makeshift/detail/array.hpp:119-133", "include/makeshift/array.hpp:43-176", "include/makeshift/detail/tuple-transform.hpp:62-75"]}
{"id": "C77", "title": "Dispatch of runtime values to constants", "statement": "`expand(value, values)` returns a variant with one alternative per listed value, in order, whose active alternative is the constant equal to `value`; `visit(f, expand(...), ...)` therefore calls `f` exactly once, with the constants equal to all the runtime values, and returns its result. If some value is not listed, `unsupported_runtime_value` is thrown (`expand_failfast` terminates, `try_expand` is empty) and `f` is not called. `variant_transform` on expanded values has exactly the non-void results of `f` for combinations of listed values as alternatives. Without a list, the values in the metadata of the type are used; `bool` always works. A list which is empty or lists a value twice (e.g. metadata with an alias of an enumerator) does not compile.", "quantifier": "for every number of arguments, every list of distinct values of an integral, enumeration or Boolean type, every runtime value, every functor; values are such that the differences to the first listed value and the increments of listed values do not overflow (C16)", "why_tests_cant": "The number of combinations of listed values grows exponentially, and the failure to compile for duplicate values cannot be observed by a unit test.", "anchors": ["include/makeshift/variant.hpp:28-238", "include/makeshift/detail/variant.hpp:45-164", "include/makeshift/detail/metadata.hpp:43-47"]}
{"id": "C78", "title": "Stream manipulators bind and forward their arguments", "statement": "With `m = make_manipulator(f, g)`, `stream << m(args...)` calls `f(stream, args...)` exactly once and `stream >> m(args...)` calls `g(stream, args...)` exactly once; lvalue arguments are the caller's own variables (so extraction stores into them), rvalue arguments are private copies that live as long as the bound manipulator and never alias a variable. A bound manipulator that is streamed later sees the current values of its lvalue arguments and the original values of its rvalue arguments. `stream << as_enum(v)`, `stream >> as_enum(v)` and the same for `as_flags` have defined behaviour.", "quantifier": "for every pair of functions (any effect on stream and objects), every number of arguments of each value category, every state of memory, every sequence of events between binding and streaming that leaves the referenced objects alive", "why_tests_cant": "Lifetime errors are not observable by tests on common implementations, and reference binding is observed only for the tested argument patterns.", "anchors": ["include/makeshift/detail/iomanip.hpp:20-103", "include/makeshift/iomanip.hpp:25-89"]}
{"id": "C79", "title": "soa_span iterators are random access iterators", "statement": "The iterators of a `soa_span` satisfy the requirements of a C++20 random access iterator: moved by any sequence of `++`, `--`, `+=`, `-=`, `+`, `-` within the span, an iterator designates the row given by the sum of the steps, postfix operators yield the old position, `it[n]` is row `n` steps further, comparisons and differences agree with positions, and all required operations are provided.", "quantifier": "for every span, every starting position and every sequence of operations of any length that stays within the span", "why_tests_cant": "Tests follow a few paths; iterator laws quantify over all sequences of steps.", "anchors": ["include/makeshift/experimental/detail/span.hpp:109-227"]}
{"id": "C80", "title": "values, bases and members list what the metadata mentions", "statement": "metadata::values<T>, bases<T> and exclusive_members<T> list exactly the values of T, base classes of T and members of T that the metadata object mentions, whether they are given as a table of records, as a plain list, as a single record or as a single item, and only these; which layout is meant is unambiguous.", "quantifier": "all metadata trees, all class hierarchies", "why_tests_cant": "Tests try a handful of layouts; the claim is about all trees.", "anchors": ["include/makeshift/detail/metadata.hpp:87-153", "include/makeshift/detail/metadata.hpp:241-377", "include/makeshift/metadata.hpp:177-190"]}
{"id": "C81", "title": "constness does not matter for metadata", "statement": "All functions of namespace metadata give the same result for T const as for T.", "quantifier": "all metadata trees, all reflectors, all types", "why_tests_cant": "Tests use unqualified types.", "anchors": ["include/makeshift/metadata.hpp:27", "include/makeshift/metadata.hpp:34-258", "include/makeshift/detail/metadata.hpp:166-172"]}
{"id": "C82", "title": "Constvals of arrays and tuples are put together from constvals and taken apart again", "statement": "make_array_constant(cs...) accepts constvals iff there is at least one and all values have the same type, and returns a constval of the std::array of the values in order; make_tuple_constant(cs...) accepts any constvals and returns a constval of the std::tuple of the values in order. Applying them to the constvals which get<0>, get<1>, ... return for a constval of an array or tuple gives back the same constval type, and array_constant{ cs... } is the same as make_array_constant(cs...). The last two claims are false in general: for element types which are neither scalars nor arrays or tuples thereof (e.g. double), reassembling gives an equal value but a different type and array_constant{ cs... } is ill-formed; for a single array_constant, array_constant{ a } is a copy rather than an array of one array. They are proved for elements of scalars, arrays and tuples, for which the constval type is a function of the value.", "quantifier": "For all environments of user-defined functors and static objects, all lists of constval types (any length and nesting) and all values.", "why_tests_cant": "A test instantiates a handful of types; that types agree for every nesting, and exactly which argument lists are ill-formed, is a statement about all types (and an ill-formed instantiation is not testable at all). The functions have no tests.", "anchors": ["include/makeshift/constval.hpp:284-357", "include/makeshift/constval.hpp:365-421", "include/makeshift/detail/constval.hpp:213-231"]}
{"id": "C83", "title": "Buffers are exception-safe: no leaks, no double destruction, and constructors have no effect if they throw", "statement": "A program which creates, copies, reads, writes, assigns and destroys buffers and fixed_buffers of a class type, catching exceptions and going on, has no undefined behaviour whichever constructors and assignments of elements throw and whichever allocations fail, as long as it keeps to the contract (buffers exist when used and not when created, indices in range, fixed_buffers not constructed from too long an array). It observes sequences of elements: a new buffer holds value-initialised elements resp. those of the array or of the buffer copied. A constructor which throws (from an extent, from an array, or copying) has no effect: the buffers, the elements which are alive, their values and the allocated blocks are those of before. An assignment which throws has replaced the elements before the one which threw, and no others. Operations throw only if an element operation does or if memory for the elements asked for is not available. At any time the elements which are alive are exactly those of existing buffers (including unused elements in place), the allocated blocks are exactly those of existing buffers, and no two buffers share one; in particular, nothing is left when no buffer is.", "quantifier": "For all programs (interactive, of any length), all types of buffers, all extents and contents, all sets of failing element operations, all limits of allocation.", "why_tests_cant": "Exceptions at every possible point of every program cannot be enumerated by tests; leaks and double destructions are not observable without instrumentation. The existing tests use scalars only and no exceptions.", "anchors": ["include/makeshift/experimental/buffer.hpp:48-178", "include/makeshift/experimental/detail/buffer.hpp:97-267"]}
{"id": "C84", "title": "value_tuple can be used in place of std::tuple", "statement": "A value_tuple<Ts...> can be constructed, accessed and decomposed like std::tuple<Ts...>: get<I>() of a value_tuple with any constness and value category has the type that std::get<I>() has for the std::tuple; every structured binding declaration (auto, auto&, auto const&, auto&&) which works for a std::tuple compiles, and binds the same types; it can be constructed from arguments whenever each element can be initialised from its argument, each element then holds the value of its argument or refers to it, and the objects moved from are exactly the arguments passed as non-const rvalues for elements of object type; value_tuple{ args... } has one element per argument.", "quantifier": "For all element types (objects, lvalue and rvalue references, const or not), all constnesses and value categories of the tuple, all argument lists, all contents of the objects.", "why_tests_cant": "Types of expressions and ill-formedness are decided at compile time for each combination; tests exercise a few lvalue tuples of ints. That a declaration does not compile cannot be tested at run time.", "anchors": ["include/makeshift/tuple.hpp:67-108", "include/makeshift/detail/tuple.hpp:25-100", "include/makeshift/tuple.hpp:366-391"]}
{"id": "C85", "title": "Tuple algorithms hand every element to the functor once, intact, and copy or move each object at most once", "statement": "The tuple algorithms forward their arguments over and over; nevertheless, if each element is an object of its own (or is shared only through const references), each functor call sees the contents which its elements had before the algorithm was called, even if the functor moves from the elements of rvalue tuples or writes to those of lvalue tuples. Elements of an rvalue std::tuple, pair or array are passed as rvalues, all others as lvalues, with the constness of the tuple or of what they refer to. The results hold what the calls returned, in order; each object ends up as the call to which it was passed left it, and is moved from if the functor returned it as a non-const rvalue; no other object changes. Reductions combine the original contents from left to right and never move from an lvalue initial value; quantifiers do not touch elements after the one which decides. tuple_cat and array_cat compile exactly if each element can be initialised from the forwarded element; the result holds the original contents in order, exactly the elements of object type in non-const rvalue std::tuples are moved from, and all other objects are unchanged.", "quantifier": "For all tuples of all kinds (std::tuple, pair, array, value_tuple), constness, value categories and element types, all functors which read, write, move from and return references to their arguments, all program states, and all orders of evaluation for tuple_transform.", "why_tests_cant": "A use after move shows only with functors which move and types which are changed by being moved from; tests use ints and lvalues. The claim is about all functors and all argument combinations.", "anchors": ["include/makeshift/detail/tuple-transform.hpp:62-92", "include/makeshift/detail/tuple.hpp:129-181", "include/makeshift/detail/tuple.hpp:260-273", "include/makeshift/tuple.hpp:116-363", "include/makeshift/array.hpp:43-279"]}
{"id": "C86", "title": "visit<R> and the variant transforms treat functor and variants as std::visit does", "statement": "variant_transform(f, vs...), variant_transform_many(f, vs...) and visit<R>(f, vs...) compile whenever std::visit would call f for all alternatives and the results fit into the result type. f itself is then called exactly once, as an lvalue or rvalue as it was passed (so that state changes are visible to the caller), and its arguments are the objects in the variants, const or not and lvalues or rvalues like the variants; each object ends up as the call left it. The result holds what f returned, in the alternative of that type, and its alternatives are exactly the object types that f can return. If a variant is valueless, std::bad_variant_access is thrown, and neither f nor any object is touched.", "quantifier": "For all variants with any alternatives, constness and value category, all functors with state and any overloads, all contents of the objects.", "why_tests_cant": "Ill-formedness and the choice of overloads happen at compile time for each combination of alternatives, value categories and functor types; tests use lvalue variants and stateless lambdas.", "anchors": ["include/makeshift/variant.hpp:221-335", "include/makeshift/detail/variant.hpp:182-277"]}
{"id": "C87", "title": "A range can be made of what its documentation says, and be passed to the algorithms and used as a tuple", "statement": "range(first, last) and make_range(first, last) make a range from any iterator and sentinel, range(start, n) and make_range(start, n) from any random access iterator and extent; the extent is static exactly if n is an integral constant. Every range made this way is accepted by the range_* algorithms and, if its size is known, by csize(), and its size is static exactly if its extent is. A range of static extent can be used as a tuple: get<I>() refers to its element I, and it can be decomposed by all forms of structured bindings.", "quantifier": "For all iterator and sentinel types (random access or not, convertible to an integer or not, constexpr default-constructible or not, any reference type), all extents.", "why_tests_cant": "Each combination of types is another instantiation which compiles or does not; a test only contains code that compiles, and there are none for make_range, for ranges passed to algorithms or for structured bindings.", "anchors": ["include/makeshift/ranges.hpp:27-76", "include/makeshift/ranges.hpp:124-129", "include/makeshift/detail/ranges.hpp:95-174", "include/makeshift/detail/zip.hpp:540-563"]}
{"id": "C88", "title": "as_enum and as_flags are inserted and extracted like strings and numbers: field width, stream state and exceptions", "statement": "stream << as_enum(v) and stream << as_flags(v) write the text of the value padded to the field width of the stream with its fill character on the side given by its adjustment, reset the width to 0, and write nothing if the stream is not good. Tables written this way with whitespace as fill character, with any widths and adjustments per field, read back as the same values. If exceptions are enabled for some state bits, extraction throws exactly if the stream ends in a state with one of these bits; otherwise the same value is stored as without exceptions. As for the built-in extractors, a value that has been read is stored even if reaching the end of the input throws.", "quantifier": "For all enum and flags types, values, stream states, widths, fill characters, adjustments and exception masks, and for tables of any length.", "why_tests_cant": "The tests write and read single values with default formatting and no exceptions; the claim ranges over all masks, states and sequences of fields.", "anchors": ["include/makeshift/iomanip.hpp:39-88"]}
{"id": "C89", "title": "Range algorithms work on the elements themselves and stop at the first exception", "statement": "range_for, range_transform_reduce, range_reduce, range_count_if, range_all_of, range_any_of and range_none_of, called with functors which modify elements through the references they receive, have state of their own, or throw, have the effects of a hand-written loop over the positions 0, 1, ..., n-1: the call for position i receives the i-th elements themselves (not copies) and sees the effects of all earlier calls, also when the ranges overlap; an exception thrown by a functor leaves the algorithm at once, without further calls and with the effects of the earlier calls in place. If ranges differ in length, the functor has not been called at all if two ranges know their sizes and these differ, and otherwise for exactly the positions all ranges have (unless it throws), before the violation is reported. Assigning f(dst, src) elementwise gives the values computed from the original elements whenever no element of src is written before it is read, and changes nothing else. range_transform_reduce and range_reduce return what the reducer returned last. range_fill may be given an element of the range as value; a generator of range_generate may read the elements generated so far; if an increment in range_iota or a generator fails, exactly the elements before it have been written.", "quantifier": "for all numbers, kinds and lengths of ranges, all aliasing between them, all functors with arbitrary effects and outcomes, all program states", "why_tests_cant": "Tests use pure lambdas on disjoint ranges; the interplay of arbitrary effects, aliasing and exceptions at any position cannot be enumerated.", "anchors": ["include/makeshift/algorithm.hpp:90-304", "include/makeshift/detail/algorithm.hpp:142-261", "include/makeshift/detail/zip.hpp:305-425"]}
{"id": "C90", "title": "Which types can be passed to the range algorithms", "statement": "Any object that a range-based for loop can iterate - a container, an array, a view; const or not; lvalue or temporary - can be passed to range_for, range_transform_reduce, range_count_if, range_all_of, range_any_of and range_none_of, alone, together with others, or together with range_index, and is then iterated over its elements; range_zip of such objects can be iterated as well, in particular when the objects are temporaries as in the documentation.", "quantifier": "for all numbers of arguments, all combinations of the operations a type may support (begin/end, data, size, tuple_size, each for const and non-const objects; iterators of any category, with a sentinel or not), all value categories", "why_tests_cant": "Whether an argument list compiles depends on combinations of type traits; a test suite contains only combinations which compile.", "anchors": ["include/makeshift/detail/zip.hpp:93-97", "include/makeshift/detail/zip.hpp:205-243", "include/makeshift/detail/zip.hpp:303-454", "include/makeshift/detail/zip.hpp:540-568", "include/makeshift/detail/algorithm.hpp:76-126", "include/makeshift/detail/algorithm.hpp:374-468", "include/makeshift/algorithm.hpp:64-103"]}
{"id": "C91", "title": "apply calls functions, function objects and pointers to members as std::apply does", "statement": "apply(f, t) calls f exactly once, with the elements of t in order, as std::apply does for a std::tuple: functions and function objects are called with the constness and value category in which they were passed; a pointer to a member function or data member is applied to the first element if that is an object of the class or a derived class, to the object a std::reference_wrapper refers to, or else to what the first element points to; elements of an rvalue tuple arrive as rvalues; the result keeps its constness and value category. A call which is not valid for std::apply does not compile.", "quantifier": "for all tuples and pairs of any size, element types, value categories and constness; all functors, member pointers with all qualifiers, and all relations between the classes", "why_tests_cant": "The number of combinations of qualifiers, value categories and ways to reach the object is too large to test, and calls which must be rejected cannot be unit-tested.", "anchors": ["include/makeshift/tuple.hpp:321-326", "include/makeshift/detail/tuple.hpp:183-258", "include/makeshift/tuple.hpp:84-97"]}
{"id": "C92", "title": "Metadata queries return objects, and their result tells whether the metadata is available", "statement": "The result of a metadata query (extract, extract_for_values, extract_for_exclusive_members, extract_for_members, name, description, bases, values, value_names, value_descriptions, exclusive_members, exclusive_member_names, exclusive_member_descriptions, members, member_names, member_descriptions) is an object, never a reference to the metadata object, which is a temporary; metadata::is_available(query) is true exactly if the query found something, and metadata::is_available_v<decltype(query)> is true in the same cases.", "quantifier": "for all reflected types, metadata of any shape and all queries with arbitrary predicates and occurrences", "why_tests_cant": "Whether a result dangles or a type is const depends on the branch taken at compile time for a shape of metadata; tests compare the values of a few shapes.", "anchors": ["include/makeshift/metadata.hpp:34-258", "include/makeshift/detail/metadata.hpp:174-479", "include/makeshift/detail/metadata.hpp:521-584"]}
{"id": "C93", "title": "expand with listed values of another type than the runtime value", "statement": "The runtime value passed to expand, try_expand and expand_failfast may be of another integral type than the listed values: the result holds the listed constant whose value is mathematically equal to the runtime value, and the value counts as unsupported if there is none.", "quantifier": "for all integral types of the runtime value and of the list, lists of any length and order, and runtime values", "why_tests_cant": "The comparisons undergo the usual arithmetic conversions, and whether the listed values are converted beforehand depends on whether they are contiguous; tests use one type.", "anchors": ["include/makeshift/detail/variant.hpp:62-181", "include/makeshift/variant.hpp:43-50", "include/makeshift/variant.hpp:98-105", "include/makeshift/variant.hpp:153-160"]}
{"id": "C94", "title": "type_sequence is a tuple of type_identity objects", "statement": "A type_sequence<Ts...> is a tuple: std::tuple_size is the number of types, get<I> and std::tuple_element denote the I-th type, get<T> compiles exactly if T appears exactly once. make_type_sequence() and class template argument deduction put a type sequence together again from its elements; a single type_sequence argument is copied by the latter, not nested.", "quantifier": "for all lists of types, indices and argument lists", "why_tests_cant": "Statement about all lists of types, including what must not compile.", "anchors": ["include/makeshift/utility.hpp:26-88", "include/makeshift/utility.hpp:132-133"]}
{"id": "C95", "title": "overload calls the best match among all functors", "statement": "overload(f, g, ...) combines function objects, each with its state, into one; a call is resolved among the call operators of all functors, i.e. it calls the one which is better than all other viable ones and does not compile if there is none. Neither the order of the functors nor nesting of overload objects matters.", "quantifier": "for all numbers of functors with any number of call operators, all lists of arguments (given by the viable call operators and the order of conversions), const and non-const objects", "why_tests_cant": "Overload resolution happens at compile time for the types of a particular call; tests can only show single calls which compile.", "anchors": ["include/makeshift/functional.hpp:23-37"]}
{"id": "C96", "title": "make_buffer and make_fixed_buffer return what is documented, and buffers are ranges and tuples of their elements", "statement": "make_buffer and make_fixed_buffer return buffers of the documented type (static extent for a constval, dynamic extent otherwise) with as many elements as asked for, in place or on the heap as documented, and sizes which do not fit are rejected at compile time for constvals and at run time otherwise. After any sequence of operations, get<I> compiles exactly for the elements of a buffer with static extent and yields them, structured bindings to them compile, and a loop from begin() to end() as well as the range algorithms see exactly the elements, in order.", "quantifier": "for all sizes, extents, heap states, all sequences of operations on any number of buffers, all numbers of buffers passed to range_for", "why_tests_cant": "Depends on all combinations of extents and storage sizes and on all histories of a buffer; what must not compile cannot be tested.", "anchors": ["include/makeshift/experimental/buffer.hpp:35-214", "include/makeshift/experimental/buffer.hpp:217-262", "include/makeshift/experimental/detail/buffer.hpp:42-60", "include/makeshift/experimental/detail/buffer.hpp:107-143", "include/makeshift/experimental/detail/buffer.hpp:320-350"]}
{"id": "C97", "title": "Functions declared constexpr can be evaluated in constant expressions with the same result as at run time", "statement": "range_for, range_transform_reduce, range_count_if, range_all_of, range_any_of, range_none_of, expand, try_expand, expand_failfast, shuffle, apply_permutation and apply_reverse_permutation are declared constexpr; in a constant expression they yield the same result and effects as at run time whenever the functors and operations on elements they call are constant expressions which return regularly.", "quantifier": "for all ranges, functors with arbitrary effects and outcomes, element types with and without a constexpr swap of their own, C++17 and C++20", "why_tests_cant": "A test only shows that particular calls are constant expressions; that no call is one, or that all are, is a statement about all ranges and functors.", "anchors": ["include/makeshift/algorithm.hpp:34-53", "include/makeshift/algorithm.hpp:90-103", "include/makeshift/algorithm.hpp:164-304", "include/makeshift/variant.hpp:43-160", "include/makeshift/detail/variant.hpp:83-181", "include/makeshift/detail/algorithm.hpp:60-107", "include/makeshift/experimental/algorithm.hpp:26-88"]}
{"id": "C98", "title": "is_bitmask and the flag predicates accept exactly the types with bitmask operations", "statement": "is_bitmask_v<T> holds exactly for the types for which the operations |, ^, ~ and & are well-formed, and has_flag, has_any_flag_of, has_no_flag_of and has_all_flags_of (with the flags as template argument or as function argument) can be called for exactly these types. The concept bitmask (C++20) holds for exactly the same types.", "quantifier": "for all integer types, bool, all enumerations and class types with any set of overloaded operators with any return types", "why_tests_cant": "Whether a call compiles for all types with some set of operators, and that other calls do not compile, cannot be shown by tests.", "anchors": ["include/makeshift/type_traits.hpp:156-167", "include/makeshift/detail/type_traits.hpp:206-219", "include/makeshift/experimental/enum.hpp:25-134", "include/makeshift/concepts.hpp:42-53"]}
{"id": "C99", "title": "Exceptions thrown by the user's types reach the caller", "statement": "If a function supplied by the user throws - the copy constructor, assignment or swap of an element of an SoA span, an operator of an iterator in a range, size() of a range passed to a range algorithm, get<> of a tuple-like type or the functor passed to a tuple algorithm, or a constructor of an element of the tuple returned by with<>() - the exception reaches the caller of the library function, after exactly the operations before it have taken effect.", "quantifier": "All element, iterator, range and tuple types, all functors, all states of the program, all numbers of columns, ranges, tuples and elements.", "why_tests_cant": "Exceptions of user types are not tested at all; a test could only try a few types and positions, and a terminated program ends the test run.", "anchors": ["include/makeshift/experimental/detail/span.hpp:53-107", "include/makeshift/detail/ranges.hpp:56-92", "include/makeshift/detail/zip.hpp:540-564", "include/makeshift/detail/tuple-transform.hpp:62-92", "include/makeshift/detail/tuple.hpp:138-144", "include/makeshift/experimental/detail/tuple.hpp:31-57", "include/makeshift/algorithm.hpp:90-103"]}
{"id": "C100", "title": "Permuting takes the least possible number of swaps", "statement": "apply_permutation and apply_reverse_permutation call swap exactly n - c times for a permutation of n elements with c cycles, which is the least number of swaps that can bring about the permutation; swap is only called for pairs of different elements both of which are moved by the permutation, so that elements which stay in place are never touched. shuffle calls swap once for each position other than the first for which another position is drawn, and never for an element with itself.", "quantifier": "for all element types and iterators (arbitrary effects of swap), all lengths, all permutations, all sequences of random numbers; minimality against all sequences of swaps", "why_tests_cant": "Tests can count the swaps for some permutations, but neither for all of them nor compare with all other sequences of swaps.", "anchors": ["include/makeshift/experimental/algorithm.hpp:26-88", "include/makeshift/algorithm.hpp:34-53"]}
{"id": "C101", "title": "Cost of looking up a runtime value", "statement": "expand, try_expand and expand_failfast look a runtime value up with a number of comparisons that does not depend on the length of the list if the listed values are consecutive integers or enumerators, with at most 2 k + 3 comparisons if the list is sorted and has at most 2^k + 1 elements (hence at most 2 log2 n + 5), also in the presence of duplicates, and otherwise by comparing with the listed values in order up to and including the first equal one. Only listed values are compared with.", "quantifier": "for all element types with or without an order, all lists of any length, all runtime values", "why_tests_cant": "The number of comparisons in the worst case over all lists and values cannot be established by running lookups.", "anchors": ["include/makeshift/detail/variant.hpp:83-164"]}
{"id": "C102", "title": "Permuting when swap throws", "statement": "If swapping two elements throws an exception (and leaves both elements as they are), apply_permutation, apply_reverse_permutation and shuffle lose no element: the range holds a rearrangement of the elements. Both permutation functions can be called again with the same ranges to complete the permutation.", "quantifier": "for all element types, lengths, index arrays, positions of the exception, and numbers of interrupted calls in sequence", "why_tests_cant": "An exception may occur at any of the swaps of any permutation, and repeatedly; tests inject it at some of them.", "anchors": ["include/makeshift/experimental/algorithm.hpp:26-88", "include/makeshift/algorithm.hpp:34-53"]}
{"id": "C103", "title": "Columns and iterator types of soa_span", "statement": "A soa_span is a tuple of its columns: get<I>(s), structured bindings and make_soa_span() are inverse to each other, the columns of a part are the parts of the columns, and element i of column I is component I of row i, also when it is written. Its iterators convert to const_iterators, its references to const_references, and never to types that are less const.", "quantifier": "for all column types, with any of them const, numbers of columns, sizes, contents, subspans, and spans that can be obtained by the operations", "why_tests_cant": "Tests use some numbers and types of columns; which conversions exist depends on the constness of every column, and the negative cases are compile errors.", "anchors": ["include/makeshift/experimental/span.hpp:34-55", "include/makeshift/experimental/span.hpp:84-93", "include/makeshift/experimental/span.hpp:149-177", "include/makeshift/experimental/detail/span.hpp:110-140", "include/makeshift/experimental/detail/span.hpp:258-261"]}
{"id": "C104", "title": "mdarray", "statement": "mdarray<T, N1, ..., Nd> is the equivalent of T[N1]...[Nd]: it contains N1 * ... * Nd elements, a[i1]...[id] with all subscripts in range is the element at the row-major position, every element is reached by exactly one sequence of subscripts, fewer subscripts give the mdarray of the remaining dimensions, and comparisons compare the elements in row-major order.", "quantifier": "for all element types, numbers and sizes of dimensions (also 0), subscripts, contents and comparison operators", "why_tests_cant": "Tests can only cover some shapes; the claim is about all shapes and all subscripts.", "anchors": ["include/makeshift/array.hpp:25-31", "include/makeshift/detail/array.hpp:128-130"]}
{"id": "C105", "title": "to_stream and from_stream wrap the stream operators", "statement": "to_stream<>{ }(stream, arg) and from_stream<>{ }(stream, arg) can be called exactly if stream << arg and stream >> arg are well-formed, and do the same; so do to_stream<T> and from_stream<T> for arguments of type T.", "quantifier": "for all argument types, described by which operators exist for which constness and value category, with any effects", "why_tests_cant": "Most of the cases are calls that do not compile, and the quantification is over all operators that users may define.", "anchors": ["include/makeshift/iostream.hpp:20-89", "include/makeshift/detail/iomanip.hpp:25-53"]}
{"id": "C106", "title": "constval_range_to_array", "statement": "constval_range_to_array(f) returns an array of the elements of the range that f returns, in the same order, whether it is used in a constant expression or at run time.", "quantifier": "for all element types, lengths, and functors, which may return another range at run time", "why_tests_cant": "All ranges of all lengths; and a functor that distinguishes constant evaluation makes a difference only at run time.", "anchors": ["include/makeshift/constval.hpp:261-277", "include/makeshift/detail/constval.hpp:316-326"]}
{"id": "C107", "title": "index_iterator is a random access iterator over the integers, but std::prev is undefined for it", "statement": "Starting from any position, any sequence of ++, --, +=, -=, +, - (prefix, postfix and both operand orders) takes an index_iterator to the position integer arithmetic gives, and every expression designates the right position (the old one for postfix operators); the sequence has undefined behaviour exactly if some position on the way is not representable in std::ptrdiff_t. it[n] equals *(it + n), (it + n) - it equals n. All expressions required of a C++20 random access iterator are supported, for const iterators where required, and the random access concept is declared; a default-constructed iterator equals exactly the iterators at -1. Because the declared C++17 category is that of input iterators, std::next and std::advance with n >= 0 agree with + and std::distance agrees with - if the second iterator is not before the first, but std::prev, std::advance with a negative count, and std::distance with the second iterator before the first are undefined although it - n and last - first are defined. Reverse iterators over [first, last) visit last - 1, ..., first, also if first is the smallest representable value.", "quantifier": "for all positions, all sequences of operations, all offsets and all ranges of indices", "why_tests_cant": "tests move an iterator a few steps near zero; they neither cover all sequences of operations nor positions near the limits, and undefined behaviour of std::prev cannot be observed by a test", "anchors": ["include/makeshift/iterator.hpp:22-200"]}
{"id": "C108", "title": "The library's own range types as arguments of the range algorithms", "statement": "The range types of the library - index_range, range, soa_span, buffers, and the results of range_zip and range_zip_sentinel - can be passed to range_for, range_transform_reduce, range_count_if, range_all_of, range_any_of and range_none_of, alone or together with other ranges of as many elements, and are then iterated over exactly their elements, in order.", "quantifier": "For all numbers of arguments, all bounds, all iterator types and extents of range, all numbers of columns and rows of an SoA span, const or not, lvalue or temporary.", "why_tests_cant": "Whether two parts of the library compose is a matter of type traits; the test suite passes containers and arrays only. That a span of the wrong number of rows is cut short silently is not visible in a test whose span happens to have as many rows as columns.", "anchors": ["include/makeshift/ranges.hpp:32-119", "include/makeshift/detail/ranges.hpp:24-128", "include/makeshift/experimental/span.hpp:34-156", "include/makeshift/experimental/detail/span.hpp:126-145", "include/makeshift/experimental/detail/span.hpp:260", "include/makeshift/detail/algorithm.hpp:76-154", "include/makeshift/detail/algorithm.hpp:289-457", "include/makeshift/detail/zip.hpp:303-454", "include/makeshift/detail/zip.hpp:540-568"]}
{"id": "C109", "title": "Zip iterators under the standard library's iterator functions", "statement": "For zipped ranges of equal length, from every position reached from begin(), std::advance and std::next by d and std::prev by -d arrive where it + d does, for every destination within the range, if all zipped iterators have the (C++17) category needed for the direction; if some zipped iterator is not bidirectional - as those of an index range - going back is undefined, although it - d is defined. std::distance is the difference of the positions if the second iterator is not before the first or all zipped iterators are random access iterators; otherwise it never returns. std::prev(end(), k) designates the k-th tuple from the end and reverse iterators visit the tuples in reverse order, if no zipped range has a size() but no data(); with such a range both are undefined for every k > 0 and every non-empty range. The zipped range has a subscript operator iff all zipped iterators are random access iterators. Of the expressions C++20 requires of random access iterators, zip iterators lack exactly default construction, and * and [] for const iterators.", "quantifier": "for all numbers and kinds of ranges, all lists of iterator categories, all lengths, all movement histories and all distances", "why_tests_cant": "The functions of namespace std dispatch on a category computed from all zipped ranges; every mix of ranges is a different program, and going back from end() over a range without data() happens to work or not depending on memory layout.", "anchors": ["include/makeshift/detail/algorithm.hpp:94-270", "include/makeshift/detail/algorithm.hpp:286", "include/makeshift/detail/algorithm.hpp:378-429", "include/makeshift/detail/zip.hpp:136-222", "include/makeshift/detail/zip.hpp:303-426"]}
{"id": "C110", "title": "Constvals of functors which return references or const objects", "statement": "make_constval(f) for a stateless functor f represents the value f() returns, and is a constval, also if f is declared to return a const object or a reference; with these, unlike by value, it compiles whatever the value is. But then its type is not canonical: const arrays and tuples, and everything returned by reference, give every functor its own constval type, different from that of the same value returned by value; const scalars are as if returned by value. get<I> works for const arrays and tuples, with canonical element types, and does not exist for references to them; constval_transform with a functor that returns its argument leads back to the canonical type in all cases. The constval of a functor which returns a reference refers, when called, to the same object, while its member value names a copy; for a reference to a non-const object, neither value nor constval_extract can be used.", "quantifier": "for all functors, all ways to declare the result, all nested values and all indices", "why_tests_cant": "Every functor type is a different instantiation, and the difference between T, T const and T const& shows only in types and in the identity of objects.", "anchors": ["include/makeshift/detail/constval.hpp:59-119", "include/makeshift/detail/constval.hpp:180-211", "include/makeshift/detail/constval.hpp:292-301", "include/makeshift/constval.hpp:213-218"]}
{"id": "C111", "title": "Reading enums and flags from streams with a failing buffer or another locale", "statement": "If the stream buffer fails (throws) while as_enum or as_flags reads, badbit is set and the target keeps its value; with badbit in the exception mask, the buffer's exception is passed on. A failure behind the end of the token is not noticed. [False without badbit in the mask: the part of the token that was read before the failure is looked up as if it were complete; if it is a name (or, for flags, an expression, such as the empty text), the target is overwritten although the extraction has failed.] In a locale other than the classic one, the whitespace before the token is that of the locale, while the token ends only at a reserved character: sequences of names written with separators that are both read back, unless a name begins with whitespace of the locale.", "quantifier": "for all metadata, stream contents, points of failure, exception masks, and for all classifications of characters as whitespace", "why_tests_cant": "Tests use string streams, which never fail, in the classic locale.", "anchors": ["include/makeshift/iomanip.hpp:39-88", "include/makeshift/detail/serialize.hpp"]}
{"id": "C112", "title": "Dispatch on text", "statement": "A program which reads the name of an enumerator and dispatches on it - visit(f, expand(parse_enum<T>(s))) - calls f exactly once, with the constant whose record has this name; unsupported_runtime_value is never thrown, and the value of the constant is printed as the text it was read from (without surrounding whitespace). For any other text it gets the exception of parse_enum, which lists the supported names, and f is not called. The same holds for flags. [False for flags: only the values declared themselves can be dispatched on, combinations which flags_to_string prints and parse_flags accepts cannot.]", "quantifier": "for every metadata object with distinct values and valid names, every text, every functor; values as in C77", "why_tests_cant": "Tests dispatch on a few enumerators; whether the values accepted by the parser and by expand agree depends on how both extract the table from arbitrary metadata.", "anchors": ["include/makeshift/string.hpp:25-54", "include/makeshift/variant.hpp:153-238", "include/makeshift/detail/serialize.hpp:66-113", "include/makeshift/detail/metadata.hpp"]}
{"id": "C113", "title": "Permuting a range together with its own index array", "statement": "apply_permutation and apply_reverse_permutation can be applied to a range which contains the index array - a soa_span one column of which is the index array, or the index array itself -: the elements are permuted as by a separate copy of the indices. [False: apply_permutation then fails fast for every valid permutation other than the identity, after one swap; apply_reverse_permutation swaps the same two elements for ever.]", "quantifier": "for all lengths, contents of the other columns, and index arrays; for all numbers of steps", "why_tests_cant": "That a call never returns cannot be observed by a test, and the tests keep indices and elements apart.", "anchors": ["include/makeshift/experimental/algorithm.hpp:26-88", "include/makeshift/experimental/span.hpp"]}
{"id": "C114", "title": "Assigning and swapping elements of zipped ranges", "statement": "Assigning through dereferenced iterators of a zipped range, *it = *jt, assigns the elements of all ranges at that position and nothing else; swapping the two tuples of references, or exchanging them by way of an object of the iterator's value_type, exchanges the elements of all ranges; a copy made with auto refers to the elements, so that exchanging by way of it loses one of the tuples. apply_permutation, apply_reverse_permutation and shuffle on a zipped range compile only in C++23 and without range_index among the ranges; they then rearrange all ranges in the same way, and change nothing else. This presupposes that the ranges have no element in common: swapping elements of a range zipped with itself has no effect.", "quantifier": "for all lists of ranges of all kinds, positions, contents of memory, permutations, and draws", "why_tests_cant": "Whether assignment writes through, and whether anything is touched besides, is a matter of all elements of all ranges, and of the number of ranges; the tests only read zipped ranges.", "anchors": ["include/makeshift/detail/algorithm.hpp:114-156", "include/makeshift/algorithm.hpp:34-75", "include/makeshift/experimental/algorithm.hpp:26-88"]}
{"id": "C115", "title": "expand with values whose < is not a linear order", "statement": "expand, try_expand and expand_failfast only ever yield one of the listed values or report that the runtime value is unsupported, whatever the operators < and == of the value type do. They yield a listed value that compares equal to the runtime value whenever there is one, and report an unsupported value otherwise.", "quantifier": "for all value types, all functions < (or none) and ==, all lists of constants, and all runtime values", "why_tests_cant": "Exactness of a lookup concerns all lists and values; which laws of < it depends on cannot be seen from examples that use integers, enumerations and strings, all of which are linearly ordered.", "anchors": ["include/makeshift/detail/variant.hpp:59-121", "include/makeshift/detail/variant.hpp:132-137", "include/makeshift/variant.hpp:43-160"]}
{"id": "C116", "title": "shuffle with a distribution over any integer type", "statement": "If the result type of the distribution passed to shuffle can represent every position of the range, shuffle rearranges the range, different draws give different arrangements, and every arrangement is the result of some draws. A distribution over an unsigned type that cannot represent all positions still only rearranges the range, without access out of bounds, but the last element never stays in its place, so not every arrangement is possible; with a signed type that cannot represent all positions, behaviour is undefined whatever is drawn. With a distribution of any kind, behaviour is undefined exactly if the distribution is asked for a value from an empty interval, or if it yields a value which is not a position of the range.", "quantifier": "for all integer types, range lengths up to 2^63, ranges, and draws within the requested bounds", "why_tests_cant": "Concerns all lengths relative to the width of the type, and the set of all results; a test observes a few shuffles of short ranges.", "anchors": ["include/makeshift/algorithm.hpp:34-53"]}
{"id": "C117", "title": "Laws of permuting", "statement": "What apply_permutation and apply_reverse_permutation do, and how they end, does not depend on the values of the elements, even for invalid index arrays, so that ranges permuted with copies of one index array stay in step. Permuting with p and then with q is the same as permuting once with the index array obtained by permuting p with q; permuting in reverse with p and then with q is the same as permuting in reverse with the index array obtained by permuting q with p. Permuting 0, 1, ..., n-1 yields the index array, and permuting it in reverse yields the inverse permutation, with which either function does what the other does with the original.", "quantifier": "for all ranges of all lengths and element types, all index arrays (first sentence) and all permutations", "why_tests_cant": "Laws relating several calls for all permutations; a test fixes the permutations.", "anchors": ["include/makeshift/experimental/algorithm.hpp:26-88"]}
{"id": "C118", "title": "Combining texts of flag sets", "statement": "If a text s does not end, apart from whitespace, with a delimiter and is not blank, parse_flags of s, a '+' or '|', and any text t yields the union of the results for s and t, and fails with the same message as the first of the two that fails. In particular, joining the texts printed for two combinations of flags gives a text for their union if the first is not empty. If s is blank or ends with a delimiter, the combined text is rejected, so the text printed for the empty combination, which is empty if 0 has no name, can only be put last.", "quantifier": "for all metadata, all texts, all delimiters, all combinations of flags", "why_tests_cant": "A law relating the parses of all pairs of texts.", "anchors": ["include/makeshift/detail/serialize.hpp:268-365", "include/makeshift/string.hpp:40-54"]}
{"id": "C119", "title": "Laws of variant_transform and variant_transform_many", "statement": "The alternatives of the result of variant_transform are the distinct non-void result types for all combinations of alternatives, ordered by the last combination with that type, the alternatives of the first argument varying fastest (similarly for variant_transform_many). Transforming with f, which never returns void, and then with g gives the same type, alternative and value as transforming with the composition. Transforming with the identity returns an equal variant if and only if the alternatives of the argument are distinct. variant_transform_many satisfies the laws of a monad, the unit laws if and only if alternatives are distinct, and variant_transform is variant_transform_many with a functor which wraps the result.", "quantifier": "for all variants with any number of alternatives, any number of arguments, all functors", "why_tests_cant": "Laws relating calls with arbitrary functors and arbitrary lists of alternatives, including the order of the resulting alternatives.", "anchors": ["include/makeshift/variant.hpp:249-335", "include/makeshift/detail/variant.hpp:183-277", "include/makeshift/detail/type_traits.hpp:130-163"]}
{"id": "C120", "title": "Laws of constval_transform, constval_extend and constval_extract", "statement": "For any mixture of constvals and plain values, extracting the value of constval_transform(f, args...) gives f of the extracted arguments, and the result can be used as an argument again. Both hold unless f returns an object of an empty class at run time (a returned integral_constant is extracted by the next call, witness). Transforming with f and then with g gives the same result as transforming with the composition, also the same type, if the value is built of scalars, arrays and tuples; for other values only the value is the same. Transforming with the identity returns a constval of the same type, if it was made from such a value. constval_extend with a functor that extracts its arguments is constval_transform.", "quantifier": "for all functors, all lists of arguments, all values", "why_tests_cant": "Type identities for arbitrary functors and nested values.", "anchors": ["include/makeshift/constval.hpp:213-258", "include/makeshift/detail/constval.hpp:234-301"]}
{"id": "C121", "title": "Algorithms for ranges and for tuples agree", "statement": "If ranges have the elements of tuples (and range_index is passed in the same places), template_for and range_for make the same calls in the same order; template_transform_reduce and range_transform_reduce return the same value for functors which agree on the same arguments; and template_all_of, template_any_of, template_none_of return what range_all_of, range_any_of, range_none_of return, after the same calls to the predicate.", "quantifier": "for all numbers of arguments, all lengths, all kinds of ranges, all functors", "why_tests_cant": "Equivalence of two independent implementations for all inputs.", "anchors": ["include/makeshift/algorithm.hpp:90-304", "include/makeshift/tuple.hpp:111-330", "include/makeshift/detail/tuple.hpp: transform_reduce_fn, conjunction_fn", "include/makeshift/detail/tuple-transform.hpp:20-111"]}
{"id": "C122", "title": "Programs working on the rows of a soa_span behave as on a vector of tuples", "statement": "A program which copies rows of a soa_span to variables of type value_type, assigns such variables or other rows to rows, reads and writes single elements, swaps rows, and calls itself or other programs for subspans - and whose next step may depend on everything it has read - returns what it returns for a std::vector of tuples with the same contents, and leaves the same rows; nothing outside of the span changes, and the layout of the columns does not matter. If it uses indices, it fails fast when it refers to a row or part which does not exist, and never has undefined behaviour. In particular, algorithms for sorting sort the rows. It does not hold for variables declared with auto: they refer to the row.", "quantifier": "for all terminating programs of any length, all numbers of columns and rows, all nestings of subspans", "why_tests_cant": "Quantifies over all programs; tests run particular algorithms.", "anchors": ["include/makeshift/experimental/span.hpp:34-147", "include/makeshift/experimental/detail/span.hpp:36-149"]}
{"id": "C123", "title": "Programs working on the elements of zipped ranges behave as on a vector of tuples", "statement": "A program as in C122 which works on range_zip(ranges...) by iterators - without range_index, and if no two ranges have an element in common - returns what it returns for a std::vector of tuples with the same contents and leaves the same values in the ranges, and nothing else changes; in particular, algorithms for sorting which keep elements in variables of type value_type sort the zipped ranges alike. Zipped ranges and a soa_span over columns with the same contents are interchangeable.", "quantifier": "for all terminating programs of any length, all numbers of ranges of all kinds, all lengths", "why_tests_cant": "Quantifies over all programs; tests run particular algorithms.", "anchors": ["include/makeshift/algorithm.hpp:66-86", "include/makeshift/detail/algorithm.hpp:94-262", "include/makeshift/detail/zip.hpp:282-425"]}
{"id": "C124", "title": "any_sink makes fallback overloads", "statement": "A function whose parameters are of type any_sink is called if no other function of the overload set is viable, and exactly if no viable function takes an argument by a standard conversion and every one takes one by way of an ellipsis or is a template. It never diverts a call from a function which takes an argument by a standard conversion and none by way of an ellipsis. A call which needs user-defined conversions for all arguments becomes ambiguous by the fallback. An argument which is an any_sink itself is passed on by a standard conversion. A fallback with an ellipsis, f(...), by contrast changes no call of a function which takes no argument by way of an ellipsis.", "quantifier": "for all overload sets, all numbers of arguments, all conversion sequences and all orders of standard conversions", "why_tests_cant": "Overload sets with arbitrary conversions cannot be enumerated; a failed overload resolution is a compilation error.", "anchors": ["include/makeshift/experimental/utility.hpp:79-95", "include/makeshift/detail/type_traits.hpp:17-23"]}
{"id": "C125", "title": "Iterator categories given by user-defined tag classes", "statement": "The tags of zipped iterators may be any classes: a class is classified by the standard tags from which it is derived, and the tag of the zip iterator is derived from a standard tag if and only if all tags are; it can be classified again, and zipping a zip with further ranges gives the category of zipping all of them. A class which is derived twice from its strongest tag, and a class which is not derived from a tag but has a conversion function to one, are rejected by the compiler.", "quantifier": "for all class hierarchies, all tags, all lists of tags, all nestings of zips", "why_tests_cant": "Quantifies over class hierarchies.", "anchors": ["include/makeshift/detail/zip.hpp:136-203", "include/makeshift/detail/algorithm.hpp:119-127"]}
{"id": "C126", "title": "Ranges which read their elements from a stream", "statement": "Algorithms over ranges whose iterators read from a stream (such as std::istream_iterator<>) do the same as for containers of the stream's elements, if every range has a stream of its own; when they are done, each stream has been read up to the element after those passed to the functor, or up to the last of these if the algorithm stopped there. If one such range is passed k times, the elements are visited in groups of k, and the program is terminated if elements are left over. Iterating over range_zip_sentinel() or range_zip() visits the elements as for containers. The latter is false for ranges which have a size(): range_zip(...).end() then reads and loses an element.", "quantifier": "for all lists of ranges, all stream contents, all functors and all algorithms which visit elements in order and may stop", "why_tests_cant": "Stream contents, argument lists and functors are unbounded; reading past or losing an element depends on the combination of ranges.", "anchors": ["include/makeshift/algorithm.hpp:64-103", "include/makeshift/algorithm.hpp:164-304", "include/makeshift/detail/algorithm.hpp:24-156", "include/makeshift/detail/zip.hpp:303-386", "include/makeshift/experimental/algorithm.hpp:99-107"]}
{"id": "C127", "title": "Functors which change the containers an algorithm runs over", "statement": "If at least one of the ranges passed to a range algorithm has a size() when the algorithm starts, the functor is called for that many elements, each as it is when its turn comes, no matter what the functor does to later elements or appends, as long as the first so many elements of lists are not erased or reordered and those of vectors stay where they are in memory; it is undefined to shrink a list which has a size() below that. If a range without size() then has fewer elements, from the beginning or because the functor has erased some which have not been visited, the program is terminated before the call for which there is no element; if elements have been appended to it, the program is terminated after the last call. A loop over range_zip() checks neither: it is undefined in the first case and ends normally in the second. If there is only one list without a size, the algorithm follows it as it changes: elements inserted behind the current one are visited, elements erased there are not, and erasing the current element is undefined unless the algorithm stops then. range_reduce() follows any list in this way, and is undefined for a vector whose number of elements is changed by the functor.", "quantifier": "for all lists of ranges, all containers, all functors which may change values, insert and erase, and all algorithms which visit elements in order and may stop", "why_tests_cant": "Which operations a functor performs on the containers, and when, is unbounded; dangling iterators often go unnoticed in tests.", "anchors": ["include/makeshift/algorithm.hpp:64-103", "include/makeshift/algorithm.hpp:164-304", "include/makeshift/detail/algorithm.hpp:24-156", "include/makeshift/detail/zip.hpp:303-426", "include/makeshift/detail/zip.hpp:540-568"]}
{"id": "C128", "title": "Filling a range from itself", "statement": "range_fill(range, range[k]) fills the range with the value the element had before the call, and range_iota(range, range[k]) counts from the value it had before. A value which is converted when it is assigned and refers to an element of the range, however, is read again for each assignment: the elements behind the one referred to get the value converted twice, so the elements of a filled range need not be equal. A generator passed to range_generate() which reads the range sees the elements generated so far, and the former values of the current and later elements; generating a range is generating its parts one after another, even if the generator changes elements itself.", "quantifier": "for all ranges of cells of all lengths, also with repeated cells, all values read from memory, all conversions and all generators", "why_tests_cant": "Aliasing between the arguments of an algorithm shows only for particular element positions and conversions, and ranges of any length may be filled.", "anchors": ["include/makeshift/algorithm.hpp:109-151"]}
{"id": "C129", "title": "Laws of the range algorithms", "statement": "Range algorithms depend on the elements only: containers of other kinds with the same elements give the same results. Arguments may be reordered, repeated or left out if the functor takes its arguments accordingly. Reducing ranges which are put together from two parts is reducing the first parts and then the second parts with the result as initial value; counts add up, and quantifiers over the whole are combined from quantifiers over the parts; this does not extend to range_index, which counts from zero in each part. If all ranges are reordered in the same way, counts and quantifiers stay the same, and so do reductions for which the order in which two elements are taken in does not matter.", "quantifier": "for all lists of ranges of all kinds and lengths, all functors, all permutations and all ways to split ranges in two", "why_tests_cant": "The laws relate different calls, with ranges of arbitrary kinds and lengths.", "anchors": ["include/makeshift/algorithm.hpp:157-304", "include/makeshift/detail/algorithm.hpp:24-156", "include/makeshift/detail/zip.hpp:303-426"]}
{"id": "C130", "title": "Laws of the tuple and array algorithms", "statement": "Concatenating tuples in groups and then concatenating the results is concatenating them all. Running template_for(), array_transform(), template_transform_reduce(), template_all_of() or template_any_of() over concatenated tuples is the same as running it over the first parts and then over the second parts, also for functors with side effects (for tuple_transform(): for functors without); this does not extend to range_index and tuple_index, which count from zero in each part. Transforming a transformed tuple is transforming once with the composed functor, and reducing with a transformation is transforming and then reducing, if the functors have no side effects (not otherwise, witness). Arguments may be reordered, repeated or left out if the functor takes its arguments accordingly.", "quantifier": "for all lists of tuples of all sizes, all functors and states, all ways to split tuples in two, and all orders of evaluation", "why_tests_cant": "The laws relate different calls, with tuples of arbitrary sizes and arbitrary functors.", "anchors": ["include/makeshift/tuple.hpp:105-363", "include/makeshift/array.hpp:43-279", "include/makeshift/detail/tuple.hpp:129-181", "include/makeshift/detail/tuple.hpp:260-273"]}
{"id": "C131", "title": "swap() for references to rows of a soa_span", "statement": "Swapping two rows of a soa_span exchanges their elements in all columns, no matter how the two references are given. False: if both references are named (lvalues, not const) and std::swap() is found, by a using-declaration or because of a column type from namespace std, then std::swap() is called, which overwrites the first row with the second one and loses the former, even for const columns; the same holds for std::ranges::swap(). It is true for temporaries as in swap(s[i], s[j]), for std::iter_swap(), for const references, and if std::swap() is not found; rows can also be exchanged by way of an object of the value_type.", "quantifier": "for all spans, rows, column types, kinds of arguments and ways in which std::swap() may be found", "why_tests_cant": "Which function is called depends on the column types and on the context of the call; a test with one combination says nothing about the others.", "anchors": ["include/makeshift/experimental/detail/span.hpp:36-107", "include/makeshift/experimental/detail/span.hpp:142-149"]}
{"id": "C132", "title": "Which function supplies the metadata of a type", "statement": "The metadata of a type T is what the function reflect(gsl::type_identity<T>) returns, if there is one in a namespace which T mentions (its own, those of its base classes and template arguments) or as a friend in a class which T mentions (T itself, the class it is a member of, base classes, template arguments), whatever else is declared; failing that, a function template for the specialisations of T's class template, then a function template for all types. Functions in other namespaces, friends of other classes and functions for other types (base classes, element types, T without const) have no effect; in particular no metadata can be supplied for fundamental types, for which a function in the user's namespace is silently ignored. A type for which nothing is found has no metadata, and bool has both truth values. Two equally good functions are ambiguous, as is a user's fallback which converts from every type, whereas a fallback with an ellipsis has no effect. All uses in a program agree if the function is declared before the first use in every translation unit; if it is declared after a use or missing in one translation unit, the program is ill-formed without a diagnosis.", "quantifier": "for all types (nested template arguments, pointers, base classes), all sets of user-defined functions, and all programs of any number of translation units", "why_tests_cant": "Which function is found depends on all declarations in all namespaces, and on their order relative to the uses; tests have one arrangement.", "anchors": ["include/makeshift/detail/metadata.hpp:30-57", "include/makeshift/detail/metadata.hpp:164-172", "include/makeshift/metadata.hpp:25-28"]}
{"id": "C133", "title": "Output which is cut off", "statement": "Whatever a program inserts into a stream with as_enum, as_flags, strings and field widths, and wherever the stream's buffer stops accepting characters (by an error or by throwing): what arrives is the beginning of the complete text; the stream is good at the end if and only if the text is complete; with an exception mask of failbit and badbit an exception is thrown if and only if it is incomplete, with an empty mask none is. A value which is not listed ends the program even if the stream has failed before. If no name is the beginning of another one, a sequence of enum values which has been cut off is read back exactly up to the last complete value, followed by a failure, so that no wrong value is ever read; a sequence of flags values gives subsets of the values written, and all but the last are right unless a failure is reported. Otherwise the text of a value which is cut off can be read as another value without notice; for every value of two or more flags this is so in any case.", "quantifier": "for all metadata, all programs inserting any number of items, all points at which the buffer fails, all exception masks, all sequences of values", "why_tests_cant": "Every prefix of every output would have to be tried for every set of names; tests write to string streams, which do not fail.", "anchors": ["include/makeshift/iomanip.hpp:39-88", "include/makeshift/detail/serialize.hpp:115-141", "include/makeshift/detail/serialize.hpp:271-367"]}
{"id": "C134", "title": "Lifetimes of ranges and of their iterators", "statement": "An iterator obtained from a range, an index_range or a zipped range can be used when the range object and the spans it was made from are gone (the former two are declared as borrowed ranges): it refers to the same place for ever, reads what is there at the time, and its use is undefined if and only if the element does not exist any more. A zipped range which is kept has as many rows as its arguments had elements when it was made, and a loop over it reads the elements that its arguments have at the time of the loop, wherever they are now; it is undefined if one of them has become shorter, and arguments of different sizes are rejected when the range is made. Besides, only a span which does not fit into its vector and an index_range which ends before it begins are rejected; any other mistake is undefined. Arrays passed as constant temporaries are kept in the range and do not change; a copy of the range has its own. A reference bound to the result of range::begin() cannot be used when the range is gone, a zipped range cannot be used when one of its lvalue arguments is gone, and an iterator into an array which is kept in a zipped range cannot be used when the latter is gone.", "quantifier": "for all programs, of any length, that create, change and destroy vectors, lists, spans, ranges, index ranges and zipped ranges and move iterators around; all element types", "why_tests_cant": "Use after the end of a lifetime is undefined and often goes unnoticed; the orders in which objects can be destroyed and containers changed are unlimited.", "anchors": ["include/makeshift/ranges.hpp:29-49", "include/makeshift/ranges.hpp:90-117", "include/makeshift/ranges.hpp:129-136", "include/makeshift/detail/ranges.hpp:24-64", "include/makeshift/detail/algorithm.hpp:290-400", "include/makeshift/detail/zip.hpp:353-426"]}
{"id": "C135", "title": "Texts written with one metadata and read with another", "statement": "A value printed with one reflector (or by one version of a program) and parsed with another yields the value of the first entry of the other table which has the name printed, and is rejected if there is none; all values survive iff every name printed belongs to the same value in the other table. A table may therefore grow and be reordered as long as names stay distinct; entries appended at the end change neither a text printed nor a text accepted before, even if they repeat names, whereas a second name listed in front of the first one changes what is printed. Likewise flags: a combination survives in every grown or reordered table with distinct names; an older program either restores it or rejects it, depending on whether it knows the names of all flags contained, and never takes it for another combination; names for combinations of flags have no influence on what is printed.", "quantifier": "for all pairs of tables accepted by the library, all values and all combinations of flags, all bit widths", "why_tests_cant": "The number of pairs of tables and of combinations is unlimited; texts outlive the program which wrote them, so the other version is not there to be tested.", "anchors": ["include/makeshift/string.hpp:25-54", "include/makeshift/detail/serialize.hpp:89-185", "include/makeshift/detail/serialize.hpp:206-367"]}
{"id": "C136", "title": "Saving and loading objects by the names of their members", "statement": "A program which writes selected members of an object as `name:text,` (member_names, tie_members, template_for with tuple_index, as_enum or as_flags) and one which reads such entries (std::getline, search_member_index_by_name, the same algorithms) are inverse to each other: every selected member of the object read into receives the value it had in the object written, in whichever order they are listed, nothing else is changed, and reading stops right after the text, if the member names are distinct and free of ':' and the names of the values can be read back (C10). Each entry is stored in the member to which the metadata give the name. Unknown names, texts without meaning and the end of the text end the process with failbit set and without changing anything, and no text whatever changes other members or stores a value not listed. Saving fails (assertion) at the first member whose value has no name. False for classes with indirect bases, where an entry is stored in another member without any error, and where the text ends before the value of a flags member, which is set to 0.", "quantifier": "for all classes and class hierarchies, all selections and orders of members, all values, all texts, objects and memory contents", "why_tests_cant": "The composition of five parts of the library has unlimitedly many states and texts; the loss of a member is only noticed if the test looks at the member in question.", "anchors": ["include/makeshift/metadata.hpp:244-250", "include/makeshift/metadata.hpp:313-320", "include/makeshift/tuple.hpp:116-142", "include/makeshift/tuple.hpp:366-390", "include/makeshift/iomanip.hpp:39-88"]}
{"id": "C137", "title": "The type in which integers are reduced", "statement": "range_reduce and range_transform_reduce compute in the type of the initial value: the reducer's result is converted to it after every call; the result is the mathematical one whenever all intermediate results fit that type, whatever the type of the elements is, it is the mathematical one converted to that type whenever the reduction is defined, and it is undefined exactly if a call of std::plus<>, std::minus<> or std::multiplies<> overflows a signed common type. template_reduce and template_transform_reduce pass the reducer's result on: the result has the common type of everything seen, is the mathematical one if all intermediate results fit these types, and is undefined exactly if a call overflows a signed common type of the value so far and the element (in an unsigned one it is reduced modulo a power of two). For a range and a tuple with the same elements both give the same result if the initial value has the common type, and otherwise (where both are defined) the range's result is the tuple's, converted. They need not agree in general: values differ for small types, and either may be undefined where the other is defined.", "quantifier": "for all integer types of 8 to 64 bits, all initial values, all elements and numbers of elements, ranges and tuples of any sizes", "why_tests_cant": "Overflow depends on every intermediate result; tests with small numbers in int see no difference between the two families.", "anchors": ["include/makeshift/algorithm.hpp:164-203", "include/makeshift/tuple.hpp:229-259", "include/makeshift/detail/tuple.hpp:146-164"]}
{"id": "C138", "title": "Sorting by indices", "statement": "Filling an array of indices with range_iota, sorting it with std::sort by comparing the rows at the indices, and calling apply_permutation for the rows sorts the rows, for any strict weak ordering, whatever the array of indices held before; with std::stable_sort the sort is stable, its result does not depend on the algorithm or on the index type, and rows which are in order are left alone. Further arrays permuted with copies of the sorted indices stay in step with the rows, and apply_reverse_permutation with a copy restores the original order. All of this holds if the number of rows is representable in the index type and there are as many indices as rows.", "quantifier": "for all rows, strict weak orderings, sorting algorithms meeting the guarantees of the standard, index types of 8 to 64 bits, and numbers of rows", "why_tests_cant": "The result relies on the interplay of three algorithms for every permutation which sorting can produce, and on limits of the index type which small tests do not reach.", "anchors": ["include/makeshift/algorithm.hpp:109-119", "include/makeshift/experimental/algorithm.hpp:26-88"]}
{"id": "C139", "title": "Shuffling by indices", "statement": "Filling an array of indices with range_iota, shuffling it, and calling apply_permutation for several arrays with copies of it gives exactly what calling shuffle for each of the arrays with the same random numbers would give: the arrays stay in step, with a conforming distribution over a type which is wide enough every order comes from exactly one sequence of random numbers, and apply_reverse_permutation with a copy of the indices restores the original order. It is undefined exactly if shuffling the arrays is. All of this holds if the number of rows is representable in the index type.", "quantifier": "for all rows, index types and distributions over types of 8 to 64 bits, random numbers and numbers of rows", "why_tests_cant": "The statement is about all sequences of random numbers, and about limits of the index type which small tests do not reach.", "anchors": ["include/makeshift/algorithm.hpp:34-53", "include/makeshift/algorithm.hpp:109-119", "include/makeshift/experimental/algorithm.hpp:26-88"]}
{"id": "C140", "title": "Moving rows", "statement": "Algorithms which move elements - value_type t = std::move(*it), *it = std::move(*jt), *it = std::move(t), as std::sort() does - have the same result for the rows of a soa_span and for zipped ranges as for a std::vector of tuples, if that result does not depend on elements which have been moved from. But the rows are copied, not moved: every move from a row is a copy, and for soa_span also every move from a variable to a row; rows keep their values after having been moved from. Single elements obtained with get<I>() are moved. Hence for elements which can be moved but not copied, only programs compile which swap rows, move single elements, or look at elements where they are - and, for zipped ranges, move variables to rows; sorting by swapping is possible, sorting by moving is not.", "quantifier": "for all terminating programs of any length, numbers of columns and rows, and contents", "why_tests_cant": "Tests with int elements cannot tell a copy from a move, and tests exercise a few algorithms; whether any algorithm which is correct for vectors is correct for proxies is a statement about all programs.", "anchors": ["include/makeshift/experimental/detail/span.hpp:34-107", "include/makeshift/detail/algorithm.hpp:118-122", "include/makeshift/detail/algorithm.hpp:145-149", "include/makeshift/detail/algorithm.hpp:206-209"]}
{"id": "C141", "title": "Size and subscripts of zipped ranges", "statement": "range_zip() and range_zip_sentinel() compile iff some range has a size and no two constant sizes differ (if all other sizes agree), and fail fast iff two sizes differ otherwise. size() is the common length of the ranges which have a size, empty() tells whether it is 0, which is also whether begin() == end(), and end() - begin() is size(); size() and empty() are static functions iff one of the sizes is a constant. For ranges of equal length, iterating to end(), iterating to the sentinel and the loop over the indices 0 .. size()-1 with z[i] give the same size() tuples. z[i] exists iff all zipped iterators are random access iterators; it is the tuple of the i-th elements for every i within all ranges, and undefined (not checked) for every other i, also for those which do not fit ptrdiff_t. If a range without a size is shorter than the others, some index below size() is undefined.", "quantifier": "for all numbers and kinds of ranges, all lengths below 2^63, all indices of type size_t", "why_tests_cant": "Which of the three size representations is used depends on the combination of static, dynamic and unknown sizes; tests cover a few combinations and cannot show that no index is checked.", "anchors": ["include/makeshift/algorithm.hpp:64-75", "include/makeshift/experimental/algorithm.hpp:99-107", "include/makeshift/detail/algorithm.hpp:287-468"]}
{"id": "C142", "title": "Type tags as constants", "statement": "type_c<T> is a constval whose value is itself. type_c<T> == type_c<U> is true iff T and U are the same type, != is its negation; but only the result of != is a constval: constval_extract() of type_c<T> == type_c<U> is the std::is_same object, not a bool, while make_constval() of either is the integral_constant of the Boolean value. A function of types called for tags by constval_transform() or constval_extend() yields the tag of the result, calls can be chained, and for tags the two functions compile for the same functors, have the same value, and the same type if that value is built of scalars, arrays and tuples; next to run-time values, tags are passed on as they are. Comparing tags by constval_transform() with std::equal_to<> or std::not_equal_to<> gives a constval of an object which represents the Boolean value. Constant arrays of tags can be made, of size and elements as given; constant tuples with a tag and arrays of type sequences cannot.", "quantifier": "for all types, all functors, all lists of tags mixed with run-time values", "why_tests_cant": "Statements about types and overloads for arbitrary functors, including which programs do not compile.", "anchors": ["include/makeshift/experimental/utility.hpp:29-122", "include/makeshift/experimental/detail/utility.hpp:19-40", "include/makeshift/detail/constval.hpp:63-301"]}
{"id": "C143", "title": "Reading lists of unknown length", "statement": "A program writes lists of enums, flags, pairs a:b and further lists as [a,b,c] with as_enum() and as_flags() and reads them back with the same manipulators. Every value made of listed enum values and defined flags is read back from any stream that begins with the text, and the reader stops just behind the closing bracket; texts with whitespace around names and with other expressions for the same flags are read as well, and no text means two values. The reader ends on every stream, what it has read does not depend on what follows, and a text cut off anywhere is rejected, after which eof() tells that it was cut off: a text rejected without eof() would be rejected whatever followed. The one exception: a list of a single empty set of flags without a name is written [] and read back as the empty list. The loop while (stream >> as_enum(v)) ends and has read exactly the leading names; but a misspelt name at the end looks the same afterwards as a proper end. The loop while (stream >> as_flags(v)) reads at most one value, reads one empty set from an empty stream, overwrites the variable with the empty set at the end, and never ends if the flags expression is followed by one of the reserved characters.", "quantifier": "for all metadata, all documents of any nesting depth and length, all texts and stream contents", "why_tests_cant": "Nesting, lengths and contents are unbounded, and one statement is that a loop does not end.", "anchors": ["include/makeshift/iomanip.hpp:39-88", "include/makeshift/detail/serialize.hpp:78", "include/makeshift/detail/serialize.hpp:188"]}
{"id": "C144", "title": "Permutations and range algorithms with contract checks switched off", "statement": "In a program compiled with gsl-lite configured to drop precondition checks, calls whose preconditions hold do exactly what they do with checks. apply_permutation() and apply_reverse_permutation() never return a wrong result: if the indices are not a permutation, they do not return at all; if all indices are in range but some occur twice, they run forever (as far as C++ defines this, which it does not for loops without side effects), and if no index occurs twice but some are out of range, they access an element out of range after a bounded number of steps. The range algorithms, given ranges of different lengths, take one length: a constant size if one of the ranges has one, else a size that one of them reports (of two ranges, the first), else the length of the first range. Longer ranges are silently cut off (so range_all_of() may return true although it does not hold for all elements), and if a range is shorter, the functor is called for the positions that exist in all ranges, and then the program reads past the end.", "quantifier": "for all element lists, index lists, argument lists of all range kinds and lengths, all functors", "why_tests_cant": "Non-termination and undefined behaviour cannot be observed by a test; the lengths and index lists are unbounded.", "anchors": ["include/makeshift/experimental/algorithm.hpp:26-88", "include/makeshift/detail/zip.hpp:249-282", "include/makeshift/detail/zip.hpp:344-347", "include/makeshift/detail/zip.hpp:457-568", "include/makeshift/algorithm.hpp:90-103"]}
{"id": "C145", "title": "Text of enums and flags with contract checks switched off", "statement": "In a program compiled with gsl-lite configured to drop precondition checks, everything that is accepted with checks gives the same tables and texts. flags_to_string() accepts any value, and its text means the value without the bits not listed as flags of their own: undefined bits, and bits that only occur in combinations, are silently dropped; if nothing is left, the text is empty and not the name for no flags. Metadata are not validated: enum names with reserved characters are converted to strings and back correctly if they are distinct and do not begin or end with whitespace, but they are not read back from streams, which stop at the reserved character and may deliver another value; flags with empty names disappear from texts.", "quantifier": "for all metadata, all values of any width, all names and stream contents", "why_tests_cant": "Values, names and metadata are unbounded, and the configuration without checks is one a test suite is not run in.", "anchors": ["include/makeshift/detail/serialize.hpp:89-113", "include/makeshift/detail/serialize.hpp:206-297", "include/makeshift/iomanip.hpp:39-88"]}
{"id": "C146", "title": "Ranges, spans, type enumerations and expand_failfast() with contract checks switched off", "statement": "In a program compiled with gsl-lite configured to drop precondition checks, every call which satisfies its preconditions has the same outcome as with checks. Otherwise: range[i] gives the array element i places behind the beginning even if the range does not contain it, and is undefined exactly if there is no such element; a range with a compile-time extent keeps it whatever number of elements it is made with; a loop over index_range(first, last) with last < first, or over index_range(n) with negative n, does not end but counts until it overflows; a span of columns of different lengths is as long as the last column; rows and subspans outside of the span, including ones in front of it, can be addressed and are undefined exactly if an array has no such element; front() and back() of a span become usable, since with checks they fail for all spans with elements; a type enumeration takes on any 32-bit number, which then equals no type; expand_failfast() gives what try_expand() gives and is undefined where that returns nothing; these are the values not listed, except for lists of integers of 32 or more bits in which the largest number of the type is not the last one, or whose differences overflow.", "quantifier": "for all arrays, ranges, extents, indices, spans with any number of columns, type lists and value lists", "why_tests_cant": "Arrays, indices and numbers of columns are unbounded, undefined behaviour need not show in a test, and the configuration without checks is one a test suite is not run in.", "anchors": ["include/makeshift/ranges.hpp:34-119", "include/makeshift/detail/ranges.hpp:41-93", "include/makeshift/experimental/span.hpp:56-147", "include/makeshift/experimental/detail/span.hpp:230-246", "include/makeshift/experimental/detail/enum.hpp:65-73", "include/makeshift/variant.hpp:43-50"]}
{"id": "C147", "title": "Programs on buffers with contract checks switched off", "statement": "In a program compiled with gsl-lite configured to drop precondition checks, any sequence of operations on buffer<> and fixed_buffer<> objects which violates no check gives the same responses, exceptions and contents as with checks. For all other programs: a buffer with static extent whose elements are in the object has that extent whatever extent is passed to its constructor, but one whose elements are on the heap gets as many elements as were asked for, so that size() differs from the static extent; a fixed_buffer with dynamic extent reports any size it was constructed with, while exactly its maximal number of elements can be accessed; negative extents of a buffer with dynamic extent throw std::bad_alloc with or without checks; assigning an array of another length leaves the size, overwrites the first elements, and is undefined exactly if the storage is too small; back() of an empty buffer is undefined, front() of an empty fixed_buffer with room for elements is zero, of other empty buffers undefined. Memory is neither leaked nor released twice even then.", "quantifier": "for all programs on any number of buffers of any types, extents and contents, and all amounts of free memory", "why_tests_cant": "Programs, extents and sizes are unbounded, undefined behaviour need not show in a test, and the configuration without checks is one a test suite is not run in.", "anchors": ["include/makeshift/experimental/buffer.hpp:48-178", "include/makeshift/experimental/detail/buffer.hpp:61-350"]}
{"id": "C148", "title": "What rejected permutations leave behind", "statement": "If apply_permutation() rejects its indices and the program goes on (contract violations reported by exceptions), or is inspected after the failure, the index range holds the identity before some position, and at that position one of the given indices which is out of range or had been given at least twice; likewise for apply_reverse_permutation(), which moves indices along with the elements, so that each element still has its index beside it. The elements are only rearranged, and the index range is not a permutation: every later call of either function on the same ranges, in any order and number, is rejected too. If the indices are a permutation, the first call succeeds and all later ones succeed without changing anything.", "quantifier": "for all element and index ranges of equal length, and all sequences of calls", "why_tests_cant": "Lengths, index values and numbers of calls are unbounded.", "anchors": ["include/makeshift/experimental/algorithm.hpp:26-88"]}
{"id": "C149", "title": "Programs on buffers which catch exceptions", "statement": "If contract violations are reported by exceptions (as in the project's own tests), a program on buffer<> and fixed_buffer<> objects which catches exceptions, goes on, and decides by what it has observed, observes what it would observe if operations that throw (because a contract is violated, or memory is exhausted) had no effect: all buffers keep their contents, memory which a constructor allocated before it rejected the extent is released, and nothing is leaked or released twice.", "quantifier": "for all programs on any number of buffers of any types, extents and contents (with scalar elements), and all amounts of free memory", "why_tests_cant": "Programs, extents and sizes are unbounded; leaks do not show in the results of tests.", "anchors": ["include/makeshift/experimental/buffer.hpp:48-178", "include/makeshift/experimental/detail/buffer.hpp:61-350", "test/CMakeLists.txt:26"]}
{"id": "C150", "title": "Programs on buffers of a class type which catch violated contracts too", "statement": "If contract violations are reported by exceptions, a program on buffer<> and fixed_buffer<> objects whose elements' constructors and assignments may throw, which catches all exceptions and goes on, runs without undefined behaviour whichever element operations throw and whichever contracts it violates among those the library checks. An operation which reports a violated contract has no effect: the elements a constructor created before it rejected the extent are destroyed, and their memory is released. At any time the elements alive and the memory allocated are those of the existing buffers.", "quantifier": "for all programs on any number of buffers of any types, extents and contents, and all ways in which element operations and allocations may fail", "why_tests_cant": "Which element operation throws, and when, multiplies with the states a program can reach; leaked or twice destroyed elements do not show in results.", "anchors": ["include/makeshift/experimental/buffer.hpp:48-178", "include/makeshift/experimental/detail/buffer.hpp:61-350", "test/CMakeLists.txt:26"]}
{"id": "C151", "title": "Programs on rows of a soa_span which catch violated contracts", "statement": "If contract violations are reported by exceptions, a program which works on the rows of a soa_span by index - it reads, assigns, copies and swaps rows and elements, calls functions with subspans, catches the exceptions wherever it likes, throws them itself, and lets them pass through the functions it calls - never has undefined behaviour. It does exactly what it does to a vector of tuples: it returns the same value or is left by an exception in the same cases, and leaves the same rows in either case. A statement which refers to a row that does not exist has no effect at all. The result does not depend on how the columns are laid out in memory.", "quantifier": "for all programs, all numbers of columns and rows, all contents, all nested subspans and handlers", "why_tests_cant": "Programs, nestings of handlers and subspans, and contents are unbounded; that nothing else is written cannot be observed in a test.", "anchors": ["include/makeshift/experimental/span.hpp:95-150", "include/makeshift/experimental/detail/span.hpp:36-107", "test/CMakeLists.txt:26"]}
{"id": "C152", "title": "Programs on ranges which catch violated contracts", "statement": "If contract violations are reported by exceptions, a program can catch the exceptions by which the constructors of index_range report negative or reversed bounds, and go on. But subscripting a range<> out of bounds terminates the program, whichever handlers it has: operator [] is declared noexcept. Handlers around such subscripts are never executed, so that two programs which differ in them only do the same. The behaviour is never undefined.", "quantifier": "for all arrays, all parts of them covered by ranges of dynamic or static extent, all programs and handlers", "why_tests_cant": "A test which calls operator [] out of bounds ends the test program, and programs and handlers are unbounded.", "anchors": ["include/makeshift/detail/ranges.hpp:60-64", "include/makeshift/detail/ranges.hpp:88-92", "include/makeshift/ranges.hpp:99-108", "test/CMakeLists.txt:26"]}
{"id": "C153", "title": "Programs on rows of a soa_span with columns of different types", "statement": "A program which works on the rows of a soa_span<Ts...> does what it does to a vector of std::tuple<Ts...>, for any types Ts: it returns the same value or is left by an exception, leaves the same tuples, and changes nothing else. No object is ever read or written as an object of another type: if the arrays of the columns hold objects of the types of the columns, this remains so, whatever the program does.", "quantifier": "for all programs, all lists of column types, all numbers of rows, all contents", "why_tests_cant": "Lists of types, programs and contents are unbounded; an object written to a place of another type need not be noticed.", "anchors": ["include/makeshift/experimental/span.hpp:33-150", "include/makeshift/experimental/detail/span.hpp:36-107"]}
{"id": "C154", "title": "Operations performed on the user's iterators", "statement": "Whatever the user's range and iterator classes do - their answers may depend on everything that happened before, and any of their functions may throw -, range_for(), range_transform_reduce(), range_count_if(), range_all_of(), range_any_of() and range_none_of() follow the protocol of input iterators on every range, in whichever order the compiler evaluates arguments: size() at most once, begin() and end() (or data()) once, and then over and over one comparison with the end (only for ranges without a size), one *it, one ++it. The functor receives what *it has returned since the last ++it. Once an iterator has been found to be at the end, no iterator is dereferenced or incremented any more. If an algorithm runs to its end, every range has been walked exactly as far as every known size says; if the functor ends it, nothing is called after the functor. After an exception nothing else is called, and it leaves the algorithm; but if size() throws, the program is terminated. A loop over range_zip() calls begin() and end() once more, never compares iterators of the ranges, and accesses the elements from left to right. All of them are accepted by the compiler if constant sizes agree and one of the ranges has a size (all but range_zip() also if enough of the ranges without size can tell where the end is). range_generate() calls the generator before it accesses the element; range_iota(), range_fill() and range_reduce() likewise do one comparison, one *it and one ++it per element.", "quantifier": "for all ranges, all behaviours of the user's classes and functors, all orders of evaluation, all numbers of arguments and elements", "why_tests_cant": "Behaviours of user-defined iterators, their dependence on earlier calls, the places of exceptions and orders of evaluation are unbounded; a test sees one compiler and well-behaved iterators.", "anchors": ["include/makeshift/algorithm.hpp:64-304", "include/makeshift/detail/algorithm.hpp:24-156", "include/makeshift/detail/algorithm.hpp:258-276", "include/makeshift/detail/algorithm.hpp:385-399", "include/makeshift/detail/zip.hpp:284-420", "include/makeshift/detail/zip.hpp:540-568"]}
{"id": "C155", "title": "Pointers and iterators into buffers", "statement": "What begin(), end() and data() of a buffer or fixed_buffer return designates positions of that buffer until it is destroyed, wherever its elements are stored and whatever happens to this and other buffers in the meantime (assignments, copies, construction and destruction of others): in every program, reading and writing through a stored pointer can be replaced by reading and writing the element by its index. end() - begin() is the number of elements, and iterating from begin() to end() visits exactly the elements, in order. Programs which interleave operations on buffers and on any number of pointers into them behave as if a pointer were a position in a sequence. After the buffer's destruction the pointer is dangling for good, also if another buffer is constructed in its place.", "quantifier": "for all types, sizes and numbers of buffers, all pointers, all programs (which may depend on what they have seen), all allocation limits", "why_tests_cant": "Programs, interleavings and lifetimes are unbounded; a dangling or displaced pointer often reads the expected value in a test.", "anchors": ["include/makeshift/experimental/detail/buffer.hpp:36-59", "include/makeshift/experimental/detail/buffer.hpp:97-170", "include/makeshift/experimental/detail/buffer.hpp:173-267", "include/makeshift/experimental/buffer.hpp:48-82", "include/makeshift/experimental/buffer.hpp:140-178"]}
{"id": "C156", "title": "Results of visit<R>", "statement": "visit<R>(f, vs...) calls f once and initialises its result, of type R, from what f returns, as std::visit<R> does. If R is an object type, the result is the very object returned by f if it is of class R, and otherwise what the implicit conversion (or copy, or move) makes of the object f returned or referred to, as it is after the call; exceptions of f and of the conversion are passed on. If R is a reference type, the result refers to the object f referred to, if that has the same class. If f returns an object instead, or a reference to an object which has to be converted, the program compiles for const and rvalue references, but the result is dangling from the start; reading it is undefined exactly then. visit<R> compiles if and only if each result of f, for all combinations of alternatives, can initialise R; it compiles whenever std::visit<R> does, except for pointers to members and, if R is void, for functors which return something.", "quantifier": "for all types, conversions (which may throw or change what they convert from), functors with state, numbers of variants and alternatives, contents", "why_tests_cant": "Functors, conversions and numbers of alternatives are unbounded; a dangling reference usually still reads the expected value in a test.", "anchors": ["include/makeshift/variant.hpp:213-238"]}
{"id": "C157", "title": "can_instantiate<> and is_instantiation_of<>", "statement": "For an alias template Z, can_instantiate_v<Z, Ts...> is true if and only if Z takes that number of arguments and the alias, with all aliases in it replaced by what they stand for, denotes a type. If no definition of a class template is ill-formed for any arguments, it is false otherwise; if an error is met while a class is instantiated, asking the question is itself an error. For a class template, it only tells whether the number of arguments is right: the class is not instantiated, so the answer is true even if no instantiation is valid. is_instantiation_of_v<T, U> is true if and only if T is an instantiation of the class template U, also if T is named through alias templates, and false for const types, references, and if U is an alias template.", "quantifier": "for all programs of class and alias templates with type parameters, members, template arguments", "why_tests_cant": "The templates users ask about are not known to the library, and a program which fails to compile cannot be a unit test.", "anchors": ["include/makeshift/type_traits.hpp:121-150", "include/makeshift/detail/type_traits.hpp:25-33"]}
{"id": "C158", "title": "Which buffers can be copied, moved and assigned", "statement": "Buffers and fixed_buffers whose elements are always stored in place are copied, moved and assigned element by element, exactly if the elements can be (rvalues of buffers are copied if the elements reject rvalues but not lvalues), and type traits tell the truth about them if they do about the elements; without elements, everything compiles. All other buffers can be copied exactly if elements can be initialised from { } and assigned copies, moving them does the same and leaves the source alone, and copy and move assignment never compile; nevertheless all of std::is_copy_constructible, is_move_constructible, is_copy_assignable and is_move_assignable hold for them, whatever the element type. A class with such a buffer as a member, and without special member functions of its own, can never be assigned, and objects of it are never moved without copying elements. Construction from an extent compiles exactly if elements can be initialised from { } (or there are none), construction and assignment from an rvalue array if elements can also be move-assigned, so that elements need not be copyable. Buffers cannot be initialised from { }, so that buffers of buffers cannot be constructed, unless they are stored in place and have no room for elements.", "quantifier": "for all element classes (with special member functions that are declared, deleted, ignored or ill-formed), extents and in-place capacities, and all classes with buffers as members", "why_tests_cant": "Element types are unbounded, and programs which must not compile cannot be unit tests; traits which say yes for operations that do not compile cannot be found by testing the traits.", "anchors": ["include/makeshift/experimental/detail/buffer.hpp:97-267", "include/makeshift/experimental/detail/buffer.hpp:287-318", "include/makeshift/experimental/buffer.hpp:48-82", "include/makeshift/experimental/buffer.hpp:140-178"]}
{"id": "C159", "title": "Iterators of one's own which walk sequences", "statement": "If the iterators and ranges of the user's behave like positions in sequences (nothing is assumed about iterators at or behind the end being dereferenced or incremented), then the range algorithms behave as documented, in whichever order arguments are evaluated and whatever the functor answers: call k of the functor receives the elements with index k (or the index) of all ranges, all of which have such an element; if the functor never ends the loop and the ranges are equally long, there are as many calls as elements; if two ranges differ in length, this is detected, before the first call if both have a size, and otherwise when the shortest has ended; if the functor ends the loop or throws, nothing else is called. The same holds for loops over range_zip() of equally long ranges, range_reduce(), range_fill(), range_iota() and range_generate(), which assign to every element once and in order.", "quantifier": "for all sequences, all numbers and kinds of range arguments, all functors (which may know everything that has happened before, and may throw), and all orders of evaluation", "why_tests_cant": "User-defined iterators, functors with state, sequence lengths and evaluation orders are unbounded; a test uses a few containers with one compiler's evaluation order.", "anchors": ["include/makeshift/algorithm.hpp:64-304", "include/makeshift/detail/algorithm.hpp:24-156", "include/makeshift/detail/zip.hpp:303-410"]}
{"id": "C160", "title": "What can be initialised from any_source, and that it has no value", "statement": "An aggregate S can be initialised as S{ any_source{ }, ... } with k initialisers if and only if it consists of at least k objects and references, where arrays count element by element, none of the first k is a reference to a non-const lvalue, and the others can be initialised from { }. So the largest such k is the number of members if and only if every array member has only one element; it is found by searching from above but not always by searching from below; and nothing is accepted if a member is a reference to a non-const lvalue. Against its documentation any_source yields no value: an expression which would call a conversion has undefined behaviour, and all others do not depend on what a conversion might return.", "quantifier": "for all aggregates with members of any types (arrays of arrays, references, classes), all numbers of initialisers, and all expressions of conversions, sums, conditional operators and unevaluated operands", "why_tests_cant": "Types and expressions are unbounded families; ill-formed initialisations cannot be compiled as test cases, and undefined behaviour may look like any value.", "anchors": ["include/makeshift/experimental/utility.hpp:88-97"]}
{"id": "C161", "title": "Cost of converting values to text and back", "statement": "enum_to_string() compares the value with the listed values up to the first match, and parse_enum() the trimmed text with the listed names, so that no more comparisons are made than there are values. flags_to_string() looks at every individual flag exactly once. parse_flags() searches the names from the front for every token up to the first one which is unknown; it makes at most as many comparisons as the number of delimiters plus one, times the number of names, and looks at every character at most twice, apart from one, in search of delimiters and whitespace, so that the time taken is linear in the length of the text.", "quantifier": "for all metadata, values and texts, valid or not", "why_tests_cant": "Numbers of comparisons cannot be observed for built-in types, and growth with the length of the text cannot be settled by measuring some texts.", "anchors": ["include/makeshift/detail/serialize.hpp:53-63", "include/makeshift/detail/serialize.hpp:115-185", "include/makeshift/detail/serialize.hpp:271-367"]}
{"id": "C162", "title": "Comparisons of value_tuples with user-defined operators", "statement": "The operators == and != of value_tuple<> call the operators of the elements one after the other until one of them answers false or throws, and return true only if all answer true. The operator < calls only the operators < of the elements, first lhs < rhs and then rhs < lhs for every element, until one of them answers true or throws; > begins with the other direction, and <= and >= make the calls of > and < and negate the result. So at most one call per element is made for == and !=, and at most two for the others; exceptions are passed on and nothing is compared afterwards. For operators without side effects the results are the conjunction and the lexicographic comparison. The results have type bool unless there is exactly one element, when they have the type of its comparison; in this case <, >, <= and >= are declared but do not compile unless this type can be converted from and to bool.", "quantifier": "for all numbers of elements and all operators of the elements, with side effects, exceptions, and changing answers", "why_tests_cant": "Tests would have to try all user-defined operators, which may answer differently whenever they are called, and whether a declared operator compiles cannot be tested without failing to compile.", "anchors": ["include/makeshift/detail/tuple.hpp:69-126"]}
{"id": "C163", "title": "expand() and comparison operators which throw or change their minds", "statement": "Whatever the operators < and == of the value type do at run time - throw, have side effects, or answer differently at different times - expand, try_expand and expand_failfast come to an end, compare the runtime value with listed values only, make at most 2 k + 3 comparisons if the listed values are sorted and at most 2^k + 1, and at most one for each listed value otherwise, then in order. They yield a listed value only if the last comparisons say that it is equal: == has answered true, or < has answered false in both directions. An exception of a comparison ends the search and reaches the caller. For operators without side effects, the comparisons and results are those of C15, C101 and C115.", "quantifier": "for all numbers of listed values, and all operators with side effects, exceptions and changing answers", "why_tests_cant": "Tests would have to try all sequences of answers of user-defined operators, including inconsistent ones.", "anchors": ["include/makeshift/detail/variant.hpp:83-137", "include/makeshift/variant.hpp:43-50", "include/makeshift/variant.hpp:98-105", "include/makeshift/variant.hpp:153-160"]}
{"id": "C164", "title": "Permuting with an index range which answers anything", "statement": "Whatever the index range passed to apply_permutation or apply_reverse_permutation answers when it is read - it may compute its indices, ignore assignments, throw, or be changed by somebody else at any time - nothing outside the two ranges is ever accessed; the first call of the user's code which throws is the last one, and its exception reaches the caller; and the function runs to its end only if every position has been read from the index range. apply_permutation never swaps an element with itself. With an index array which keeps what is stored in it, both functions come to an end with the results of C20 to C23; with other index ranges they may run forever although no contract is violated.", "quantifier": "for all lengths, all answers of the index range depending on everything that has happened before, all exceptions, and any number of steps", "why_tests_cant": "Tests cannot try all behaviours of index ranges, in particular not concurrent changes, and cannot show that an execution never ends or never leaves its bounds.", "anchors": ["include/makeshift/experimental/algorithm.hpp:26-88"]}
{"id": "C165", "title": "How many types and combinations the compiler's nesting limit permits", "statement": "Removing duplicates from a list of n types, and filtering it, uses two nested template instantiations per type and two more, no matter how many types remain; concatenating lists of types uses one per list and two more, no matter how long the lists are; comparing types uses one per type up to the first difference; searching for the only tuple element which matches uses two per element, wherever the match is, whereas searching for the first one uses none for the elements behind it. Therefore a call of variant_transform compiles just if the compiler's limit is at least twice the number of combinations of alternatives plus three (and what the functor and the standard library need), even if the functor returns the same type for all combinations: 448 combinations with a limit of 900, 510 with the recommended limit of 1024. variant_transform_many needs two levels for every alternative of every result, counted as often as it is returned. If the limit suffices, the results are those of C18 and C47.", "quantifier": "for all lists of types, functors, predicates, numbers of arguments and alternatives, compiler limits, and needs of the standard library and the functor", "why_tests_cant": "Tests compile small lists only; how the limit depends on the number of combinations, and that fewer distinct result types do not help, is a statement about all sizes.", "anchors": ["include/makeshift/detail/type_traits.hpp:100-113", "include/makeshift/detail/type_traits.hpp:128-169", "include/makeshift/detail/type_traits.hpp:222-228", "include/makeshift/detail/variant.hpp:183-277"]}
{"id": "C166", "title": "Too many combinations of alternatives are a compile error", "statement": "variant_transform and variant_transform_many enumerate the combinations of alternatives with signed machine integers. If every argument has an alternative, the call compiles only if the number of combinations is representable as std::ptrdiff_t; then there is exactly one result for every combination: overflow never makes combinations disappear or appear twice. For type lists without elements, whether there is an error depends on the position of the empty list.", "quantifier": "for all numbers of arguments and alternatives, all result types, and all ranges of std::ptrdiff_t", "why_tests_cant": "No test can instantiate enough alternatives for an overflow; the comment in the code claims the compile error without evidence.", "anchors": ["include/makeshift/detail/variant.hpp:193-240"]}
{"id": "C167", "title": "Shuffling with a generator which throws or whose numbers depend on each other", "statement": "Whatever the generator and the distribution passed to shuffle do - they may throw, and every number may depend on all previous ones - the first exception ends the call and reaches the caller, the range holds a rearrangement of its elements, and exactly one number fewer than there are elements is drawn if the function returns; behaviour is undefined only if a number is drawn which is no position of the range. If the distribution keeps to the intervals it is asked for, the last k elements are final once k numbers have been drawn, whatever happens later; and every selection of k elements in any order is the outcome of exactly one of the possible sequences of k numbers, so that a shuffle which is cut short by an exception leaves a fair sample at the end of the range.", "quantifier": "for all ranges, all k, and all generators whose answers depend on everything drawn before", "why_tests_cant": "Fairness is a counting statement about all sequences of random numbers; tests can neither enumerate them nor all ways in which a generator may fail.", "anchors": ["include/makeshift/algorithm.hpp:26-53"]}
