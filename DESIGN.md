# Formal model of makeshift: design

Source: `/repo` (mbeutel/makeshift, pinned commit), read as text only. Paths below are relative to
`/repo/include/makeshift`.

## Layout

    lean/Verif/Outcome.lean      outcomes of a C++ call (ok / throw / fail-fast / undefined behaviour)
    lean/Verif/Model/*.lean      the model, one file per area; every definition cites file:lines
    lean/Verif/Spec/*.lean       small specification vocabulary, independent of the model's helpers
    lean/Verif/Lemmas/*.lean     helper lemmas
    lean/Verif/Props/*.lean      the property theorems, each followed by a non-vacuity `example`
    lean/Verif/Conformance/*.lean  the project's own unit tests, run on the model: evidence of fidelity, not proofs
    properties.jsonl             the property list
    MANIFEST.json                property -> theorem names and status
    seeded/LOG.jsonl             log of wrong-program experiments on the model

## General modelling decisions

* **Outcomes.** A call has one of four outcomes: `ok v`, `throw e` (C++ exception), `failFast`
  (`gsl_Expects`/`gsl_Assert`/`gsl_FailFast`, gsl-lite default mode: terminate; C144 - C147 are about the mode in which checks are dropped, C148 - C152 about the mode in which violations throw), `ub` (undefined behaviour:
  out-of-bounds access, signed overflow, uninitialised read, double free). UB is a distinct outcome; nothing
  is assumed away.
* **char** is `UInt8`; `std::string`/`std::string_view` is `List UInt8`.
* **Integers** are `Nat`/`Int` where the property is not about overflow, `BitVec w` (any `w`) where it is
  (flags, character sets, contiguous lookup, iota).
* **Types** in type lists are elements of an arbitrary type with decidable equality (a type list is a `List`).
* **Template recursion / pack expansion** becomes structural recursion on lists.
* **Loops** become structural recursion or recursion with a proved termination measure. The permutation
  algorithms, whose termination is part of the claim, are total functions on every input, valid or not; the
  measure is the number of positions whose index is not yet its own position.
* **Memory** (buffer) is an explicit heap with allocation identifiers; containers elsewhere are lists.

## Plan per property

Serialisation (`detail/serialize.hpp`, `string.hpp`, `iomanip.hpp`)

* C01, C02, C03: model `trim` (via find_first/last_not_of and substr), the name/value loops, message builder.
  Prove by induction on the table. C01 hypotheses: table accepted by `make_enum_metadata`, names distinct.
* C04, C05, C06: flags are `BitVec w`. Spec of C06: split at delimiters, trim, look up, fold with `|||`.
  Round trip by induction on the individual-flag table with the "already printed" accumulator as invariant.
  Negation witness for C04 with a flag name containing `+`.
* C07 - C10: stream = remaining characters + state bits (good/eof/fail); model of `std::ws`, `peek`, `get`.
  C10 by induction on the sequence.
* C11: `trim` decomposition; C12: character bitset as four 64-bit words (`BitVec 64`) indexed by `uc/64`,
  `uc%64`; C13: stable partition.

Runtime-to-compile-time expansion and variants (`variant.hpp`, `detail/variant.hpp`)

* C14 - C16: the three lookups; binary search over an arbitrary decidable linear preorder with proved
  termination; contiguous lookup over `BitVec w` signed and unsigned with C++ integral promotion rules.
* C17 - C19: strides/size/decode on naturals; result type list via filter + unique; variant = type tag + value.

Algorithms and zip (`algorithm.hpp`, `detail/algorithm.hpp`, `detail/zip.hpp`, `experimental/algorithm.hpp`)

* C20 - C24: element list + index list (Int); inner while loop by well-founded recursion on the number of
  non-fixed positions; multiset invariants.
* C25: Fisher-Yates with a draw list; injectivity + surjectivity onto permutations.
* C26 - C31: leaf iterators with modes and their own positions, sentinel check, `is_end` combination,
  `merge_sizes` recursion. C30/C31 negation witnesses.
* C32 - C34: loops over the zipped sequence with an effect log. C35: BitVec 32 mask arithmetic.
* C36, C37: index iterators and range classes.

Tuples, arrays, type traits, constvals, metadata

* C38 - C44: tuples as lists; call log for evaluation order; `indices_2d_` row/col loops; value_tuple operators.
* C45 - C47: type lists. C48 - C50: value trees and constval type terms. C51 - C54: metadata trees; class
  hierarchies as a finite table of class descriptions.

Experimental

* C55 - C57: heap model, buffers as object states, operation histories. C58 - C60: columns as lists.
* C61: `BitVec w`. C62: index in type list. C63, C64: tagged values and type lists. C65: fuel-indexed
  evaluation of the recursive call operator.

Properties the code violates are kept at full strength in properties.jsonl; the negation is proved with a
concrete witness and the true part is proved under a `_partial` name.

Added while the model grew

* C66: outcome of every construction from an extent, from the heap model. C67, C68: numbered span objects, so that
  references into a destroyed or reassigned span are a distinct outcome; memory with constant cells.
* C69: tuples and predicates on types. C70: a class is what the traits and concepts inspect (member declarations, the type
  of a call, convertibility). C71: sizes with their integer type. C72: cells (object, class, member) and a memory.
* C73: the permutation algorithms with a bounded index type, as a refinement of the unbounded model.
* C74: a functor per value category of the object expression. C75: composition of the metadata model and the serialisation
  model. C76: types with `const` and references; a functor is the type of its call expression for every argument list.
* C77: composition of the lookup (C14), variant (C17) and metadata (C51) models; alternatives are given by an injective map from
  values to types. C78: objects with addresses and lifetimes; a functor is an arbitrary effect on objects and stream.
* C80: the layouts of metadata as a separate specification (`Spec/MetadataLists.lean`); one proof for the common shape of the three
  extraction functions. C81: the functions of `metadata.hpp` for a possibly const type. Negation witnesses for both.
* C82: `make_array_constant`, `make_tuple_constant` and deduction for `array_constant` on the terms of C48; canonical types as an
  inductive specification; a type is either canonical or larger than the functor it was made of. Negation witness for `double`.
* C83: element objects with lifetimes at places in memory; every constructor and assignment of an element may throw; programs are trees
  which branch on what they observe. Simulation by a store of lists, with an invariant which relates live elements and blocks to buffers.
* C84: types with `const` and references; `get` and structured bindings as functions on types, constructors on a memory of objects,
  all compared with `std::tuple`. Negation witnesses. C85: the algorithms of C38 - C41 are run on references to objects in a memory;
  the specification refers to the original contents only.
* C86: `visit<R>` and the variant transforms on variants which are objects in the same memory, with functors whose type of result
  depends on value categories and which have state; exact conditions under which they compile. Negation witnesses.
* C87: which overloads, deduction guides and partial specialisations are viable for given iterator types, as decision logic; structured
  bindings as in C84. Negation witnesses for pointers.
* C88: the code of C07 - C10 on streams with width, fill, adjustment, state bits and exception mask; extraction is compared with extraction
  without exceptions, tables by induction over their fields. Negation witness for `eofbit` in the mask.
* C89: the loops of C26 - C33 with references to objects as elements and functors which transform the whole program state and may
  end exceptionally; equality with recursion over the argument tuples, by induction; elementwise assignment with aliasing.
* C90: a type is the set of operations it supports for const and non-const objects; the traits which select the iteration mode, as
  decision logic; arguments which compile are connected with the ranges of C26.
* C91: `invoke` as a decision procedure on expressions (type, constness, value category, object), refined against `INVOKE` of the
  standard as inductive relations; the elements as in C84.
* C92: the return type (object, const object, reference) of every function on the path of a query, next to the value of C51 - C53.
* C93: the lookups of C14 - C16 with usual arithmetic conversions between the type of the runtime value and that of the list; reduction to
  C15 and C16, as the conversions are the identity on representable values. Negation witnesses.
* C94: lists of types; reduction to C46; deduction as decision logic.
* C95: inheritance and using-declarations as concatenation of candidate lists; overload resolution for arbitrary viability and order.
* C96: size arguments as integers, constants and derived constants; extents, `static_assert`s and construction on top of C55; `get`,
  bindings, a pointer loop and range arguments (C90) after any history, by the simulation of C55.
* C97: evaluation in constant expressions: the loops of C89 where a call of a function which is not `constexpr`, an exception, `terminate`
  or undefined behaviour makes the result `notConstant`; equality with the run-time model by induction on the number of rounds; the
  permutation algorithms with a `swap` which may not be called, characterised by induction on positions.
* C98: result types of the bitmask operators for integers, `bool`, enumerations and classes with arbitrary overloads; `is_bitmask` and the
  static assertions of the flag predicates as decision logic.
* C99: calls of functions of the user as actions on a program state which may throw; `noexcept` turns an exception into termination; by
  induction over the operations in order, against a big-step relation in which exceptions reach the caller.
* C100: the permutation algorithms over an abstract swap, with a log of the calls; the number of cycles grows by one with every swap (taking
  a position out of its cycle), by induction; minimality by labels of positions that are merged by swaps.
* C101: the lookup of C14 - C16 with a record of the comparisons made; by induction over the exponent of the bound, and over the list.
* C102: the permutation algorithms with a swap that throws after a given number of calls; by induction over the loops, an interrupted
  state of `apply_reverse_permutation` has the same continuation; that of `apply_permutation` has it iff its index array is a permutation.
* C103: the columns of a span as pairs of pointer and size, by cases over the operations which make spans; the conversions of iterators by the
  constraint of the converting constructor, over lists of column types.
* C104: the nested array type with offsets of subscripted objects; by induction over the dimensions.
* C105: the operators of an argument type as a function of constness and value category; by cases.
* C106: the two calls of the functor in their evaluation contexts; by induction over the copy.
* C107: all operations of `index_iterator` on unbounded integers with a representability check, and `std::advance`, `std::prev`, `std::distance`, `std::reverse_iterator` as the standard defines them for the declared category; by induction over the operations, the steps and the range.
* C108: the range types of the library as type descriptions in the sense of C90, read off their declarations; decision logic for what compiles, then
  `range_for` on SoA spans by induction over the rows, and on index ranges by C90.
* C109: the zip iterators of C29 with the category of C35, and `std::advance`, `std::next`, `std::prev`, `std::distance`, `std::reverse_iterator` dispatching on it; `+=` of a distance equals repeated `++`/`--` leaf by leaf, then by induction over the distance. The functions of the iterator are listed with their constness.
* C110: `make_constval` by the declared return type of the functor, on top of the normalisation of C48/C49; objects named by the call
  operator and by `value`.
* C111: the code of C88 on streams with a buffer that throws and with any classification of whitespace; agreement with C88 where nothing
  fails, splits of the input as in C08 and C09, round trip by induction. Negation witnesses for names cut off by a failure.
* C112: composition of the models of C75 and C77: the program `visit(f, expand(parse_enum<T>(s)))`; that the parser and `expand` accept the same values
  follows from both being determined by the table in the metadata.  For flags, the declared values only (`_partial`), with the negation.
* C113: the two permutation loops on a list of pairs (other columns, index), where swapping elements swaps the indices as well; the loops have fuel since they
  need not end.  Proved: exactly when they return (`_partial`: the identity only), with the negation.
* C114: tuples of references to elements named by address; assignment, swap and copies of such tuples, by induction over the ranges whose elements are
  pairwise distinct; permutation algorithms by simulation, as for C60.
* C115: the lookups of `Model/Expand.lean` with arbitrary functions for `<` and `==` (`Spec/SearchOrders.lean` states the laws assumed and
  contains the orders of the counterexamples): a loop invariant without any law for memory safety and membership; with the laws of a strict
  weak order, the invariant that all elements compared equal lie between `first` and `last`.
* C116: `shuffle` with the conversions of the bound to the integer type of the distribution and of the result to `ptrdiff_t`
  (`Model/ShuffleDist.lean`); by induction over the loop it agrees with the model of C25 as long as no bound wraps.
* C117: consequences of C20 and C22 for sequences of calls, and naturality in the elements by induction over both loops.
* C118: consequence of the denotation of `parse_flags` (C06): splitting distributes over concatenation at a delimiter.
* C119: the enumeration of combinations (C18) is the product in which the first factor varies fastest, by induction; `unique_sequence_`
  keeps last occurrences, hence commutes with mapping and flattening.  Compositions and nested calls are compared by type and value.
* C120: consequences of C48-C50: the value of every argument and result is determined, and types are determined by values (C49).
* C121: both families are shown to make the calls of one specification (C26, C32, C33, C38, C40); the lists of calls are related.
* C122, C123: a program is a well-founded tree of row operations (`RowProg`); its run on a span, resp. on zipped ranges, refines its run on a list of rows (`runRows` in Spec/RowPrograms.lean), by induction over the program; each step is C58/C60/C103, resp. C29/C114.
* C124: overload resolution ([over.match.best]) over arbitrary conversion sequences; the comparisons with the fallback are computed and quantified over the overload set. C125: classes are numbered in the order of definition with lists of bases; the overload sets for tags are resolved by the model of C124, the classes `common_iterator_tag` are described by their bases.
* C126: streams are part of the state; leaf iterators are those of C26 - C29 with operations which read from a stream. Runs over streams simulate runs over
  containers of the streams' contents (by induction over the loop, with the invariant that each iterator holds the element read last); for a stream which is passed
  several times, induction over the blocks of elements.
* C127: the containers are part of the state, list elements are nodes with numbers, vectors have a memory block; functors map states to states. Loops over
  ranges with a size: induction over the elements which are left, with the invariant that leaf iterators refer to the element with the current number. Loops
  over one list without a size: equivalence with a relation which goes from node to node, by induction over the run in both directions.
  A range without a size which is too short next to one with a size: induction over the elements before the missing one.
* C128: a range is a list of cells of a memory, a value is a function of the memory; induction over the cells. C129: consequences of C26, C32 and C33, by
  relating the lists of tuples of the two calls.
* C130: consequences of C38, C40 and C41, by relating the lists of calls. C131: overload resolution between the two `swap()` functions by case distinction;
  the effect of `std::swap()` is two row assignments (C60).
* C132: types are trees, associated namespaces and classes a recursive function (compared with an inductive relation); overload resolution is the unique best among the candidates.
  A program is a list of translation units, its meaning is taken over all points of instantiation.
* C133: `as_enum` and `as_flags` into output streams whose buffer accepts a given number of characters and then reports an error or throws; programs are lists of
  insertions, and the text a program should write is a separate inductive specification. Induction over programs for what arrives, over sequences of values for what is read back.
* C134: programs which create, change and destroy containers, spans and ranges, over numbered blocks of storage and numbered objects; iterators by an invariant over
  the execution (the places an iterator refers to do not depend on objects), contents of kept arrays by an invariant on the ownership of blocks, loops by induction
  over the number of steps.
  Which statements are rejected: the first argument which cannot be used decides, by induction over the arguments.
* C135: the models of C01 - C06 with two tables; which names are printed follows from the shape of the output (C05), what they mean from the denotation of
  `parse_flags` (C06).
* C136: two client programs composed of the models of metadata, `tie_members`, `template_for` and the stream manipulators; induction over the list of members saved.
  Partial: for classes with indirect bases the member an entry is stored in is not the one named (as in C53).
* C137: the models of the reductions, instantiated with machine integers and the function objects of `<functional>`; induction over the elements with the mathematical result as
  invariant, congruence modulo powers of two.
* C138: the client program (`range_iota`, `std::sort` of the indices by the rows, `apply_permutation` for the rows and others) is composed of the models of C34
  and C73; the sorting algorithm is a parameter which meets the guarantees of the standard (`Verif/Spec/SortByIndex.lean`; insertion sort is shown to meet them).
* C139: the client program is composed of the models of C34, C73 and C116; `shuffle` commutes with applying a function to the elements, so that shuffling rows is shuffling
  their positions.
* C140: the programs of C122 are extended by statements which move rows, variables and elements; elements which have been moved from are distinct values. What the
  statements do for a vector of tuples is the specification; for proxies, moves of rows are translated to copies, as the operators of `soa_reference` and of `std::tuple<T&...>` do. A
  simulation between the two by induction on programs, composed with C122 and C123.
* C141: the members of what `range_zip` and `range_zip_sentinel` return (`Model/ZipMembers.lean`), with the conversions between `std::size_t` and
  `std::ptrdiff_t`; the size from the merged sizes (C28), the loops from C26 and C29, subscripts from the lemma for iterators.
* C142: type tags as two more terms of C48 (`type_tag<T>`, which is its own value, and `std::is_same<T, U>`); functions of types are functors on tag objects.
* C143: client programs on the streams of C08 and C09: a writer and a reader for nested lists and pairs of enums and flags, as functions on a type of
  documents, and the loop `while (stream >> manipulator)`, which is given a number of evaluations of its condition after which it counts as not ended.  The texts of
  a document are specified without the reader; that it ends is shown with the number of characters left.
* C144: the permutation algorithms and the zip loop once more with a parameter which says whether `gsl_Expects` and `gsl_Assert` are evaluated
  (`Model/Unchecked.lean`), shown to be the models of C20 - C23 and C29 if they are.  Loops have a step bound, so that running forever is being unfinished for every bound.
  For duplicates in range: no step of the loops leaves the state "in range", and every end that is not reached with checks cannot be reached without.
* C145: the tables and `flags_to_string` with the same parameter (`Model/UncheckedText.lean`); the text of a value is related to the value without unlisted bits by
  the lemmas for C04 and C05, which do not need the checks once names are clean.
* C146: ranges, spans, type enumerations and `expand_failfast` with the same parameter (`Model/UncheckedRanges.lean`); pointers are moved with explicit bounds, conversions
  between `std::size_t` and `std::ptrdiff_t` wrap around.  Rows are specified by their distance from the first row, which may be negative.
* C147: programs on buffers with the same parameter (`Model/UncheckedBuffer.lean`), by induction over the operations: agreement with C55 - C57 and C66 where no check fails, and
  for all programs a refinement of a specification without pointers and heap (`Spec/UncheckedBuffer.lean`), undefined behaviour included.
* C148: `Model/PermutationRetry.lean`: the state in which `apply_permutation` and `apply_reverse_permutation` fail, by induction over their loops;
  sequences of calls by induction.
* C149: `Model/BufferCaught.lean`: programs on buffers whose operations may throw, contract violations included, with stack unwinding;
  refinement of a specification in which failed operations have no effect.
* C150: `Model/BufferExCaught.lean`: C83's elements (alive or not, and any of their operations may throw) together with C149's reporting of violated
  contracts; the constructor destroys its base class when the exception leaves its body. Same invariant as C83; the only new case is an object which is
  destroyed right after its construction, with a `fixed_buffer<>` whose size exceeds its capacity among them.
* C79: iterator operations on `std::ptrdiff_t`, by induction over the sequence of operations.

* C151: the programs of C122 with handlers for violated contracts; refinement of programs on vectors of tuples by induction on the program, reusing the simulation of
  C122 for single statements and the lemmas about entering and leaving a subspan.

* C152: programs which subscript ranges and make `index_range`s; a call of a `noexcept` function turns the exception of a check into `std::terminate`. The specification is an
  inductive relation, shown to be the graph of the model.

* C153: C151 for memory whose cells hold values together with their types; typed programs are translated to programs on such memory, and the translation commutes with
  what the programs do to lists of tuples.

* C154: the user's code is a function from the record of all earlier calls to an answer or an exception; the algorithms are programs which extend the record, with the unspecified
  orders of evaluation as parameters. The specification (`Spec/UserOps.lean`) describes the records with inductive relations; the theorems about protocol, arguments, ends and
  exceptions are proved from it. `C154_answers` ties the record to the user's code; `C154_accepted` says when the compiler accepts the call, so that the case
  `rejected` of the specification is not a way out. Copies and destruction of iterators are not recorded.

* C155: the model adds pointer variables to the one of C55; a pointer is an array (heap block, or in-place array of the n-th object in a variable) with an offset. The specification knows
  buffers and positions only. Simulation, with the invariant that pointers to existing buffers agree and pointers to destroyed buffers point to arrays which do not exist and never will again
  (heap blocks are not reused in the model, as the language does not let a program rely on it). Scalar elements only; const and non-const pointers are not distinguished.
* C156: the result of the functor is an object or a reference to a location, the initialisation of a result of type `R` is a case distinction on the types
  ([dcl.init.ref]), compared with a relation which states the rules one by one; all combinations of alternatives as in C86.
* C157: programs are lists of class templates and alias templates; substitution gives a type, a failure in the immediate context, or an error while a class is
  instantiated.  `can_instantiate` is compared, by mutual induction on expressions, with a relation "the expression denotes the type" which knows nothing about
  the order of substitution.
* C158: the language rules about implicit, deleted and ignored special member functions are applied to the class hierarchy of the buffers, for any element class; the result is given in closed
  form.  A function whose definition does not compile is distinguished from one which is deleted, because type traits cannot see the former.
* C159: the user's code of C154 is restricted to iterators which walk sequences; from the calls an algorithm makes (C154) and the answers recorded, an invariant (every iterator has been incremented as often
  as the functor has been called) gives the arguments and the end of the loop.  This connects C154, where nothing is assumed about the user's code, with C26 and C27, where ranges are lists.
* C160: the members of an aggregate as objects, references and arrays; the initialisation from `k` objects of type `any_source` member by member with brace
  elision, compared with the flat list of objects and references; expressions with the conversion as undefined behaviour, compared with an evaluation which
  supplies an arbitrary value and counts conversions; inductions on types and expressions.
* C161: the functions of Model/Serialize.lean with counters (Model/TextCost.lean), proved to have the same results; the counters are compared with the length of a
  search from the front (`List.findIdx`) over the tokens of the text as in C06; bounds by strong induction on the length of the text.
* C162: the user's operators as an arbitrary function from the calls made so far to answers, exceptions included (Model/TupleCompare.lean); induction on the number of
  elements left.  The result types follow from the rule that a fold over one element is this element.
* C163: the searches of C15 and C101 with the user's operators as an arbitrary function from the comparisons made so far to answers, exceptions included
  (Model/SearchAnswers.lean); strong induction on the length of the interval left, with the invariant that all comparisons so far have returned and concern listed values.
* C164: the loops of the permutation algorithms up to any number of steps, with every access to the index range, every assignment and every swap as a call of the user's code (Model/PermutationAnswers.lean).  Safety
  is proved with a small program logic (preconditions and postconditions on the calls made); two endless executions are given explicitly; for arrays, a simulation of the model of C20 to C23.
* C165: the recursive templates once more, as functions of the number of nested instantiations which the compiler still permits (Model/InstantiationDepth.lean); exceeding the limit is `none`.
  Exact conditions by induction over the lists, for any needs of the templates outside the model.  Simplified: no instantiation has been made before by other code.
* C166: `seq_size_`, `compute_strides_`, `compute_size_` and the index computation with a largest integer `max` (Model/StrideOverflow.lean); overflow, narrowing and division by zero are compile errors.
  The exact condition by induction over the shape; the results agree with C18 and C119.
* C167: the loop of `shuffle` with the generator as a function of the numbers drawn so far, which may throw (Model/ShuffleAnswers.lean).  The first number determines the last element and the others rearrange the
  rest, so finality and the bijection between numbers and samples follow by induction.  Simplified: no negative numbers, `swap` does not throw (C116, C102).

## Which code is modelled

| header | modelled | not modelled |
|---|---|---|
| `algorithm.hpp`, `detail/algorithm.hpp` | shuffle, zipped elements under assignment and swap (C114) and in programs (C123), single-pass ranges (C126), functors which change the containers (C127), all `range_*` algorithms, fill/iota/generate, also from the range itself (C128); shuffle with generators which throw (C167); calls of functions of user-defined iterators (C154), user-defined iterators which walk sequences (C159) | copies of iterators |
| `detail/zip.hpp` | leaf iterators by mode, sentinel checks, `is_end`, size merging, iterator tags, the zip range, type requirements (C90), std::advance etc. (C109) | move-only iterators, tuple leaves (see tuple algorithms), proxy reference types |
| `experimental/algorithm.hpp` | both permutation algorithms (unbounded, bounded, over an abstract swap; in programs which sort or shuffle by indices, C138, C139), `range_zip_sentinel`; without contract checks (C144), after a rejected call (C148), with index ranges which answer anything (C164) | - |
| `array.hpp`, `detail/array.hpp` | values (C38 - C41, C44), result types (C76), `mdarray` (C104) | - |
| `concepts.hpp` | constval, constval_of, tuple_like, bitmask (C98) | the remaining concepts are restatements of traits |
| `constval.hpp`, `detail/constval.hpp` | make_constval, normalisation, transform, extend, `make_array_constant`, `make_tuple_constant`, deduction for `array_constant`, csize, cssize, `constval_range_to_array` (C106), functors returning references or `const` objects (C110) | VC++ work-arounds |
| `functional.hpp`, `detail/functional.hpp` | y_combinator (C65), overload (C95) | - |
| `iomanip.hpp`, `detail/iomanip.hpp`, `iostream.hpp` | as_enum, as_flags on streams; std::ws, peek, get; manipulator objects and their lifetimes (C78); field width, fill, exception masks (C88); failing stream buffers and locales on input (C111); stream buffers which fail on output (C133); `to_stream`, `from_stream` (C105); programs which read lists and nested documents (C143) | wide streams |
| `iterator.hpp`, `ranges.hpp`, `detail/ranges.hpp` | index_range, range and its checks (C35 - C37), index_iterator (C107), as arguments of algorithms (C108), types, sizes and tuple protocol of ranges (C87), lifetimes (C134), with violations reported by exceptions (C152) | the C++20 concepts for borrowed ranges |
| `metadata.hpp`, `detail/metadata.hpp` | all extraction, value tables, members, searches, choice of the `reflect` function (C132) | `volatile` |
| `string.hpp`, `detail/serialize.hpp` | all; the work done (C161) | - |
| `tuple.hpp`, `detail/tuple*.hpp`, `detail/indices-2d.hpp` | template_*, transforms, reductions, cat (values C38 - C41, objects and value categories C85), tie_members, value_tuple (operators C42, C43, C162; access and construction C84), apply (C91) | - |
| `type_traits.hpp`, `detail/type_traits.hpp`, `utility.hpp` | type lists, index searches, is_constval, is_tuple_like, is_bitmask (C98), type_sequence (C94), can_instantiate and is_instantiation_of (C157), nesting of instantiations (C165) | composition |
| `variant.hpp`, `detail/variant.hpp` | expand (results C14 - C16, cost C101, operators with side effects C163), visit, variant_transform(_many); value categories and functor objects (C86), results of `visit<R>` (C156), limits of the compiler (C165) and of `std::ptrdiff_t` (C166) | - |
| `experimental/buffer.hpp`, `experimental/detail/buffer.hpp` | scalar elements (C55 - C57, C66), types, tuple protocol and iteration (C96), class elements whose operations may throw (C83), without contract checks (C147), with violations reported by exceptions (C149, class elements: C150), pointers and iterators into buffers (C155), special member functions for any elements (C158) | types whose destructor throws |
| `experimental/enum.hpp`, `experimental/detail/enum.hpp` | flag predicates (values C61, accepted types C98), type_enum | - |
| `experimental/functional.hpp`, `.../detail/functional.hpp` | forward_to, value-category wrappers | - |
| `experimental/span.hpp`, `.../detail/span.hpp` | soa_span, references, iterators, subspans, columns, conversions (C58, C79, C103), programs on rows (C122; with violations reported by exceptions, C151; columns of different types, C153), named references in swap() (C131) | - |
| `experimental/tuple.hpp`, `experimental/variant.hpp` | all | - |
| `experimental/utility.hpp` | type_c conversions (with type_enum), comparisons and use as constants (C142), any_sink (C124), any_source (C160) | - |

In general not modelled: value categories and forwarding (except C74, C76, C84 - C86), overload resolution/SFINAE (except where a property is about it),
exceptions from user functors and types (except C83, C85, C89, C99), floating point, `constexpr` versus run-time evaluation (except C97), intellisense work-arounds.

Conventions worth knowing when reading the model:

* Zip: a C array would be a leaf in pair mode with known size, but the iterator's category does not compile for it (C90). Argument lists for which the loop condition does not compile (three
  or more trailing arguments without an end) are excluded by `LoopCompiles`, and the exclusion is proved exact. Loops over
  iterators carry a step bound; every theorem holds for all bounds above the length, so the bound is not a limit on inputs.
* Contiguous lookup and `iota` use mathematical integers with an explicit integer type (`IntTy`: width and signedness,
  promotion, wrap-around, overflow as `ub`) rather than `BitVec`, because operands of different types are mixed.
* `tuple_transform` evaluates its calls in an unspecified order: the order is a parameter of the model.
* Buffer: allocation limit is a parameter; moves of scalars are copies; copy assignment of dynamic buffers does not compile.
* Static enum and flags tables are constant expressions: a contract violation in them is a compile error (`none`).
* `none` at the outermost level of a result is "does not compile"; `Outcome.ub` is undefined behaviour at run time.

## Where the code departs from what it promises

Each item is proved for the model with a concrete witness or for all inputs; the property list keeps the full claim.

* Serialisation: equal names break the enum round trip (C01); `+` is accepted in flag names but is a delimiter (C04); `as_flags`
  overwrites its target on a stream that is not good (C07); names starting with a vertical tab are lost (C10); `bool` has values
  but no value table, so it cannot be converted to text (C75).
* expand: metadata with an alias of an enumerator can be converted to text but not expanded (C77); differences overflow or wrap, runs that end at the maximum are rejected, narrowing finds absent values (C14, C16).
* Permutations: fewer indices than elements is undefined although wrong indices are otherwise detected (C21); an index type that
  can hold all indices but not the length is rejected or wraps (C73).
* Zip: `range_zip` with a sized range without random access to its end cannot be traversed backward (C30) and reads past a shorter
  unsized range (C31); the loop condition does not compile with three trailing unbounded ranges (C26).
* `range_iota`/`array_iota` increment past the last value, which may overflow (C34, C44); `index_range` distances overflow (C36);
  the extent of a static range is checked too late or not at all (C37).
* Tuples: an explicit size smaller than the tuples is accepted (C39); `!=` of value tuples means "all elements differ" and `<=` is not
  `<` or `==` for unordered elements (C42, C43); `array_transform` with tuple arguments does not compile for functors returning
  references (C76).
* Type traits: `is_in_v` is always false (C47); the comment on first-index search is wrong (C46); the concepts `constval` and
  `tuple_like` are satisfied by no type, hence the explicit-member overloads of `tie_members` cannot be called (C70, C72).
* Constvals: hand-written constval types are not canonicalised (C49); not all values are representable (C48).
* Metadata: `member_names` covers direct bases only, so lookups by name fail in deeper hierarchies (C53, C72); an empty tuple in the
  metadata hides members (C53); without a table `values` and `value_names` disagree with the comment (C51).
* buffer: dynamic extent with in-place storage leaves elements uninitialised (C56); construction from a too long array overruns (C57);
  a negative extent throws rather than failing the contract (C66).
* soa_span: `empty` is inverted, so `front`/`back` are unusable (C59); `first(npos)` (C58); references refer to the span object (C67);
  const columns can be overwritten (C68).
* experimental: sign-bit flags (C61); more types than the limit (C62); `variant_cat_t` drops arguments (C63); `with` computes wrong
  element types and, like `single` and `single_or_default`, rejects lvalues, so that no documented use compiles (C64, C69); `single`
  does not compile with a match (C69); `lvalue_const_ref_fn` accepts rvalues and `forward_to` does not
  compile (C74).
* Manipulators: `as_enum` and `as_flags` return an object that refers to a destroyed temporary, so streaming it is undefined,
  harmless only because the stored lambdas are stateless (C78).
* as_enum, as_flags: with `eofbit` in `stream.exceptions()`, extraction of a valid name at the very end of the input throws before the
  value is stored, unlike extraction of numbers and strings (C88). Tables with vertical tab as fill character do not read back.
* as_enum, as_flags: if the stream buffer fails in the middle of a name, the part that was read is looked up as if it were complete, and
  the target is overwritten if it happens to be a name; as_flags stores "no flags" if the buffer fails before the expression (C111).
* `metadata::bases`, `values` and `exclusive_members` lose all but the first item in some layouts (C80): metadata which consists of just
  the list of base classes, several items at the top level, tuples of values. `name`, `description`, `bases` and the descriptions are
  unavailable for `T const` although `is_available_for<T const>()` holds (C81).
* `array_constant{ cs... }` is ill-formed for constvals of type `double` or of a class, for which `make_array_constant(cs...)` works:
  the constructor expects `ref_constval<T, C::value>` instead of `C` (C82). `make_array_constant()` without arguments is ill-formed.
* `soa_span` iterators claim to be C++20 random access iterators but lack a default constructor and `-=` (C79).
* An assignment to a buffer which throws leaves it with some elements replaced (C83); this is not documented either way.
* `value_tuple`: `get` of an rvalue yields a const lvalue, so elements are never moved out of it; there is no overload of `get` for
  non-const rvalues that structured bindings could use, so `auto [a, b] = value_tuple{...}` does not compile; elements are copied in
  the constructor, so move-only types cannot be stored; `value_tuple{ value_tuple{ 1 } }` is a copy (C84).
* Variants: `variant_transform` and `variant_transform_many` do not compile for const rvalue variants, and `variant_transform` not for
  functors which always return void; `visit<void>` does not compile if the functor returns something, unlike `std::visit<void>`.
  `variant_transform_many` calls a const copy of the functor, but computes the result type for the functor passed (C17, C86).
* `make_range`: the overload for extents is constrained by the negated condition, so it never accepts an extent and makes the overload
  for pairs ambiguous unless the sentinel cannot be default-constructed in a constant expression (C87).
* The partial specialisations of `tuple_size` for `range<It, It, -1>` are ambiguous, so neither `csize` nor any algorithm accepts a
  `range(p, n)` or a `range(p, q)` with equal types; `auto [a, b] = range(...)` does not compile (C87).
* `range_transform_reduce` and `range_reduce` assign the variable `result` to itself as an rvalue when the reducer returns its first
  argument as `T&&`; types which do not survive that lose the result (C89). `std::accumulate` of C++20 has the same trait.
* The zipped range algorithms reject C arrays (the category of the decayed type, a pointer, is asked for), `std::initializer_list`
  (`std::data` accepts it, but it has no member function `data`), and classes with `data()` but without `size()`. `range_zip` keeps
  temporaries as members and hands them to the iterator as const objects, but the iterator expects non-const ones; the documented
  `range_zip(range_index, std::array{ 1, 2, 3 })` hence cannot be iterated (C90).
* `apply(f, value_tuple{ ... })` passes the elements as const lvalues, also those which are references to non-const objects (C91).
* `values`, `value_names`, `exclusive_members`, `exclusive_member_names`, `members` and the `extract_for_` functions return
  `std::nullopt_t const` if the metadata is not available, so `is_available_v<decltype(...)>` is true for all of them (C92). For the same
  reason the tests in detail/metadata.hpp:437 and 466 are never true; they could not be true otherwise either.
* `expand` compares the runtime value with listed values of another type after the usual arithmetic conversions:
  `expand(-1, {UINT_MAX, 5u})` yields `UINT_MAX`, `expand(5u, {-3, -2, 5})` throws (C93).
* `overload` is documented with parentheses, which does not compile in C++17 because it is an aggregate (C95).
* The extent of a `make_buffer` or `make_fixed_buffer` result is static only for objects whose type is exactly `std::integral_constant`;
  for a derived class, such as `std::tuple_size<X>`, `make_buffer<T>(size)` allocates on the heap although the size is a constval. The
  constant -1 is taken for `dynamic_extent` rather than rejected. `auto [a, b] = buf` does not compile because `get<I>` of an rvalue is
  a const lvalue while `tuple_element` is not const (C96).
* `expand`, `try_expand` and `expand_failfast` are declared `constexpr` but call `search_value_index`, which is not, so they cannot be used
  in constant expressions (C97).  The range algorithms call `zip_iterator_base::_is_end`, which is not `constexpr`, if no range knows its
  size (C97).  `shuffle` and the permutation algorithms call `std::swap`, which is `constexpr` only since C++20;
  `apply_reverse_permutation` does so for the indices even if the elements have their own `swap` (C97).
* `is_bitmask` is documented to hold for types for which `|`, `^`, `~`, `&` are well-formed; it does not hold for integers narrower than
  `int`, `bool` and unscoped enumerations without operators, since the operators yield another type.  `int` is a bitmask type, but
  `has_flag` cannot be called for it because it uses `std::underlying_type_t` (C98).
* `soa_reference::operator =`, its conversion to a tuple and `swap`, `size()`, `end()` and `operator []` of `range<>`, `range_size` and
  `get_element` are `noexcept` although they call functions of the user; if these throw, the program is terminated, possibly with some of
  the columns assigned or swapped (C99).
* C102: `apply_permutation` stores `indices[current] = current` for the elements of a cycle one by one, so that within a cycle the index
  array is not a permutation; after an exception thrown by `swap` the intended permutation can neither be completed nor be recovered
  from the index array. `apply_reverse_permutation` swaps indices along with elements and can be called again.
* C103: the converting constructor of `soa_span_iterator` requires that no column of the source is `const`, so `iterator` of
  `soa_span<int, double const>` does not convert to `const_iterator`. There is no conversion from `reference` to `const_reference`. The
  `value_type` of the iterators keeps `const` (that of the span does not), so for `const_iterator` it is a tuple which cannot be assigned.
* C105: the operators of bound manipulators take them by rvalue reference, so `to_stream<>{ }(stream, as_enum(x))` does not compile (the argument
  is a const lvalue inside), nor does `from_stream<>{ }(stream, as_enum(x))`.
* C108: `range::begin()` returns `It const &`, for which `std::iterator_traits` has no members, so no `range` can be passed to the range algorithms
  (C108_range).  The zip iterator has a non-const `operator *`, but leaves are dereferenced as const, so a zipped range cannot be passed to
  an algorithm (C108_zip).  An SoA span is tuple-like, so the algorithms take its number of columns for its number of rows (C108_soa).
  `range_zip` over an unsized range with a sentinel does not compile (C90_zip_partial).
* C109: `std::prev(end())` and reverse iterators are undefined for zips which contain a range with `size()` but no `data()` (C109_prev_end_undefined, C109_reverse_undefined), and `std::prev` is undefined for all zips which contain an index range (C109_advance_undefined); zip iterators declare the C++20 concept but lack default construction and `*`, `[]` for `const` iterators (C109_concept).
* C107: `index_iterator` declares the category of input iterators, so `std::prev(it)` is undefined (C107_prev_negated), although `it - 1` and `--it` are not.
* C106: `constval_range_to_array` evaluates the functor a second time, at run time if it is called at run time, without comparing the sizes.
* C110: a functor returning `T const&` does not give a canonical constval, although `make_constval()` is documented to return the
  canonical representation; `::value` of that constval is a copy of the object which the call operator refers to.
* Combinations of flags can be printed and parsed, but `expand` without a list of values supports only the values declared themselves (C112).
* A range cannot be permuted by an index array which is part of it: `apply_permutation` fails fast, `apply_reverse_permutation` does not return (C113).  The
  documentation does not mention that the ranges must not overlap.
* The comment algorithm.hpp:68-69 says that `swap()` cannot be used on a zipped range.  Since C++23, which can swap tuples of references that are rvalues, it
  can, unless `range_index` is among the ranges; the algorithms which swap then work on zipped ranges (C114).
* `expand` uses binary search as soon as the list is ascending with respect to `<`, and takes the runtime value to be found if neither it nor the
  element is less than the other (detail/variant.hpp:100-104; the comment there says `value == values[half]`).  For types whose `<` is coarser
  than `==` or only a partial order, the result may be a constant that does not equal the runtime value, and a listed value may be missed; a
  runtime NaN selects the second of the listed numbers (C115).
* `shuffle` converts positions to the integer type of the distribution with `Param(0, i)` without a check (algorithm.hpp:46): with a type that
  is too narrow for the length of the range, behaviour is undefined (signed) or the shuffle is biased (unsigned) (C116).
* An `any_sink` overload is not a mere fallback: it makes calls ambiguous which need user-defined conversions (C124). In particular, iterators
  whose category is a class convertible to (but not derived from) a standard tag cannot be zipped (C125).
* `range_zip(...).end()` makes the end iterator of a range with `size()` by calling its `begin()` (detail/zip.hpp:362-365), which reads an element if the
  range is single-pass, e.g. a counted view of a `std::istream_iterator<>`; the second element is lost (C126). `range_zip_sentinel()` and the algorithms are not affected.
* Algorithms differ in what they do if the functor appends to the container: for a `std::list<>` or a vector with enough capacity, `range_for()` visits the
  elements there were at the beginning; `range_reduce()` visits the appended list elements too, and is undefined for the vector (C127).
* `range_fill()` with a value that refers into the range leaves elements which are not equal if the assignment converts the value (C128), since the value is
  taken by reference (algorithm.hpp:109-118).
* `auto a = s[i]; auto b = s[j]; using std::swap; swap(a, b);` loses a row of a `soa_span`: `std::swap()` is preferred over the overload for `soa_reference const&`
  and copies references instead of rows (C131).
* A function `reflect(gsl::type_identity<int>)` (or for another type which does not mention the function's namespace) is ignored without notice (C132); a use of the metadata above the
  declaration makes the program ill-formed, no diagnostic required.
* C133: names of which one is the beginning of another (`error`, `errors`) are accepted, although an output which is cut off is then read back as another value.
* C134: `range::begin()` returns a reference to a member, so `auto const& it = make_range(...).begin()` dangles, although `range` is declared as a borrowed range (whose
  iterators, when copied, do outlive it).  A zipped range keeps references to lvalue arguments even if these are views.
* C136: consequence of C53 for programs which load objects by member names: for a class with indirect bases, `search_member_index_by_name` yields a position in a list
  which lacks the members of indirect bases, and an entry is stored in another member without any error (`C136_deep`).  Consequence of C07: if the text ends within an entry for a flags member, before the value, the
  member is set to 0, although failbit is set (`C136_cut_off_partial`).
* C137: `range_reduce` and `template_reduce` compute in different types (the type of the initial value, or the type of the reducer's result): `range_reduce` of `std::uint8_t`
  200 and 100 is 44, `template_reduce` 300, and each of them may overflow where the other does not (`C137_differ`).
* C98: the concept `bitmask` looks at lvalues and the trait `is_bitmask` at const lvalues; they disagree for classes with operators which are not const (`C98_concept_differs`).
* C138: `apply_permutation` consumes the indices, so that a second array which is to be permuted in the same way is left as it is, and nothing reports it
  (`C138_no_copy_negated`). An array of 256 rows is not sorted with indices of type `std::uint8_t`, although they can address all rows (`C138_one_too_many_unsorted`).
* C139: 256 rows are not shuffled by indices of type `std::uint8_t` (`C139_one_too_many`).
* C140: moving a row of a `soa_span` or a dereferenced zip iterator copies the elements, so that e.g. sorting by `std::sort()`-like algorithms does not compile for
  `std::unique_ptr` columns, and `s[i] = std::move(t)` copies `t` (`C140_take_keeps`, `C140_move_only_negated`).
* Type tags (C142): `type_c<T> == type_c<U>` returns `std::is_same<T, U>`, which `is_constval` does not recognise (it is derived from `integral_constant`), whereas
  `!=` returns an `integral_constant`; so `constval_extract` yields a `bool` for one and not for the other. `type<T>::value` is a proxy which cannot be compared
  with `==` (template argument deduction does not look through its conversion). `any_source::operator T` has no `return` statement, so that it is
  usable in unevaluated operands only (C160: `C160_no_value`, `C160_value`).
* `constval_transform` and run-time results (C120): a functor which returns an object of an empty class (e.g. an `integral_constant`) at run time
  breaks the composition laws, because the next call extracts it. An earlier version of the model took such a result for a plain value; it is now
  treated as the code does, and C120 states the condition.
* Reading lists (C143): `while (stream >> as_flags(v))` never ends when a reserved character follows (an empty text is a valid flags expression, so that nothing is
  consumed and nothing fails), and reads one empty set from an empty stream; a list of one unnamed empty set of flags has the same text as the empty list.
* With contract checks switched off, the permutation algorithms run forever on duplicate indices, and range algorithms silently ignore what a range has beyond the length taken, or read past
  the end of a shorter one (C144).
* With contract checks switched off, `flags_to_string` silently drops bits which are not listed, and enum names with reserved characters, which are not noticed then, cannot be read from
  streams (C145).
* With contract checks switched off, `soa_span::last(n)` of a shorter span reaches in front of the span, and a span of columns of different lengths takes the length of the last column (C146).
  `soa_span::front()` and `back()` work only then, because `empty()` is inverted.
* With contract checks switched off, a `buffer<>` with a static extent on the heap takes on any other extent it is constructed with, whereas one with its elements in the object
  ignores the argument; `fixed_buffer` reports sizes beyond its storage (C147).
* C152: `range::operator []` is declared `noexcept`, so that gsl-lite's configuration in which violated contracts throw (the one used by the library's own tests) does not
  work for it: an index out of bounds terminates the program. All other checks are in functions which are not `noexcept`.
* C127, C144: where a theorem says that a loop runs forever, it means that the loop does not return on the abstract machine. C++ lets compilers assume that loops without side effects
  terminate ([intro.progress]), so that for the loops in question (cycles of indices which occur twice; a list to which the functor appends forever only if the functor has no other
  side effects) the behaviour is formally undefined.
* C154: `detail::range_size()` is declared `noexcept`, so that an exception thrown by `size()` of a range terminates the program, whereas exceptions thrown by any other function of the
  range or its iterators leave the algorithm.
* `visit<R>` with a reference type `R` compiles for functors which return objects, and returns a dangling reference (C156); `std::visit<R>` of C++20 does the same.
* Buffers which may use the heap are never moved: moving copies the elements, and assignment does not compile although `std::is_copy_assignable_v<>` and `std::is_move_assignable_v<>` hold (C158).
  The same is true for classes with such members.  For elements which cannot be copied, `std::is_copy_constructible_v<>` of such buffers holds too.
* `can_instantiate` is documented as telling "whether the template instantiation `Z<Ts...>` would be valid"; for class templates it only checks the number of arguments, because naming a
  specialisation does not instantiate it (C157_class_negated).
* Not modelled but noticed: `enum_forbidden_char_set` and `flags_forbidden_char_set` (detail/serialize.hpp:79, 189) are `static` variables which are used in function templates
  (iomanip.hpp:53, 79), so that a program of several translation units has different definitions of the same template, which is a violation of the one-definition rule without effect in practice.
* Buffers of buffers (C158): a buffer cannot be constructed if its elements are buffers (they cannot be initialised from `{ }`), neither from an extent nor from an array of them (`C158_nested`).
* The operators `<`, `>`, `<=`, `>=` of a `value_tuple` with one element are declared with the type of the comparison of this element but return a `bool` (detail/tuple.hpp:86, 104): if
  the type cannot be constructed from `bool`, they appear to exist but do not compile (`C162_less_type`).
* With an index range which does not keep what is assigned to it, `apply_permutation` and `apply_reverse_permutation` may run forever (`C164_endless`); they are meant for arrays, but this is not documented.
* The number of nested template instantiations grows with twice the number of combinations of alternatives (`C165_transform`), so `variant_transform` with more than about 450 combinations does not compile with the
  default limit of gcc, however few distinct results there are (`C165_limit`); `is_in_` avoids recursion, but the loops around it do not.
* The comment in detail/variant.hpp:195 ("a compile error on overflow") is right (`C166_combinations`), and the error also occurs for some lists without any combination (`C166_empty`), which a `std::variant` cannot have.
* Not modelled but noticed: `composition` (utility.hpp:105-114) is documented to inherit from its template arguments but is an empty class;
  `experimental/enum.hpp` uses `type<>` of `experimental/utility.hpp` without
  including it.

## Trusted base

Lean 4.33.0 kernel; the axioms listed per theorem below, at most `propext`, `Classical.choice`, `Quot.sound`; the faithfulness of
the model to the cited lines (the code is not run; the checks of the project's test files which exercise modelled code all hold of the model, see
`lean/Verif/Conformance`); the reading of the C++17 standard library functions the code calls (each is a
definition of the model with a comment).

## Wrong-program experiments

`seeded/LOG.jsonl` has one line per experiment, run in a copy outside this repository. To let files downstream of a broken
lemma still be checked, proofs that no longer check are replaced by placeholders in the copy. `proofs_failing_directly` lists
those proofs. `theorems_failed` lists the property theorems that are such a proof or rest on one, so it over-approximates:
a listed theorem may still be true of the wrong program, but a theorem that is *not* listed certainly still proves.
`claims_not_caught` lists claims broken by the edit for which no theorem failed; the theorem was then tightened.

## Axioms per theorem

<!-- axioms: generated -->

**No axioms** (15)

C16_max_before_end_rejected, C32_reduce, C34_iota_past_last, C36_distance_overflows, C44_iota_past_last,
C46_first_index_comment_is_wrong, C84_get_rvalue_const, C91_value_tuple_rvalue, C105_to_stream_partial,
C105_to_stream_negated, C105_from_stream_negated, C128_generate_parts, C140_move_only_negated, C160_not_from_below,
C160_no_value

**Axioms: propext** (112)

C29_derived_operators, C34_fill, C37_reversed_pair, C38_tuple_transform_order_unspecified, C39_smaller_size_accepted,
C40_none_not_any, C42_strict_total_order, C42_le_iff, C42_le_unordered, C43_not_negation, C43_negation_partial,
C47_type_sequence_cat, C47_filter_sequence, C47_is_in_v_always_false, C48_unaltered, C48_collapse,
C48_not_representable, C49_not_canonical_other, C49_not_canonical_by_hand, C50_extend_values, C50_functor_argument,
C50_empty_argument, C52_extract_self, C52_extract_unavailable, C52_extract_no_match, C52_name_only, C54_find,
C59_empty_inverted, C63_monostate_types, C63_cat_partial, C64_lvalue, C67_dangling, C69_lvalue, C69_same_type,
C69_documented_example, C70_trait_iff, C70_concept_never, C70_concept_needs_reference, C70_concept_iff,
C70_mutable_accepted, C70_untagged_iff, C70_is_constval_partial, C70_constval_of, C70_tuple_like, C70_tuple_like_iff,
C70_tuple_like_never, C72_no_swap, C72_duplicate, C74_rvalue_ref_fn, C74_lvalue_ref_fn,
C74_lvalue_const_ref_fn_partial, C74_forward_to, C76_index_as_lvalue, C79_not_random_access, C80_unambiguous,
C80_unavailable, C81_unqualified, C81_const_partial, C81_const_unavailable, C81_inconsistent, C81_generic_reflector,
C83_assign_not_strong, C84_bindings_std, C86_visit_void_witness, C87_make_range_pointers, C89_reduce_partial,
C89_self_move, C90_initializer_list, C90_data_without_size, C90_zip_temporary, C90_valid, C92_by_value,
C92_is_available, C92_is_available_v_partial, C96_binding_type, C98_promotion, C98_predicates_partial, C98_rejected,
C98_predicates_class, C98_concept_differs, C99_soa_partial, C99_soa_terminates, C99_range_terminates,
C99_static_range_partial, C104_count, C105_from_stream_partial, C105_fixed_type, C105_sfinae, C107_concept,
C107_const, C108_zip_of, C110_reference_get, C110_reference_object, C110_of_constval, C127_reduce_differs_negated,
C127_shrunk_negated, C129_index_parts_negated, C130_index_cat_negated, C130_reduce_transform_effects_negated,
C137_narrow_product, C137_differ, C142_tag, C142_compare, C142_same_type, C142_extract, C142_constval_of_result,
C146_checked_ranges, C146_valid_ranges, C146_span_size, C146_type_enum_checked, C154_answers, C162_less_type

**Axioms: Quot.sound** (1)

C65_fixed_point

**Axioms: Quot.sound, propext** (337)

C15_sorted_test, C15_binary_search_exact, C16_difference_overflows, C16_wrapped_run_not_found,
C16_narrowing_finds_absent_value, C17_result_type, C19_result_type, C21_too_few_indices_is_ub, C21_too_few,
C23_too_few, C25_shuffle_permutes, C25_shuffle_injective, C26_tuples_unique, C29_walk_from_begin,
C29_difference_and_comparison, C30_backward_is_undefined, C34_iota_elements, C34_iota_returns_iff, C34_generate,
C35_no_ranges, C36_enumerates, C36_enumerates_from_zero, C36_fails_iff, C36_walk, C36_compare, C37_subscript,
C37_static_subscript, C37_extent_check, C37_extent_check_too_late, C37_pair_unchecked, C38_calls_exist,
C40_right_reduce, C40_any_not_all_not, C41_cat, C41_positions, C42_eq, C42_eq_iff_eq, C42_lt, C42_le,
C42_element_types, C43_ne_all_differ, C43_negation_iff, C44_iota_elements, C44_iota_returns_iff, C44_fill,
C45_unique_sequence, C45_ordered_by_last_occurrence, C45_idempotent, C46_nth_type, C47_is_in,
C47_is_in_v_agrees_only_if_absent, C47_equal_types, C48_value, C48_value_extracted, C48_exists_iff, C48_is_constval,
C48_get, C49_idempotent, C49_same_type_iff, C49_any_environment, C49_ref_constant, C49_get_tuple,
C50_transform_constvals, C50_transform_values, C50_extend_constvals, C50_extract, C50_returned_objects, C51_strings,
C51_descriptions, C51_missing_string, C51_no_metadata, C52_extract, C52_name, C52_description, C52_extract_typed,
C52_extract_cstr_ill_formed, C53_exclusive, C53_exclusive_descriptions, C53_exclusive_aligned, C53_find_exclusive,
C53_members_order, C53_aligned_partial, C53_descriptions_partial, C53_find_partial, C54_unavailable, C58_index,
C58_subspan, C58_first_last, C58_first_npos, C58_compose, C58_iterators, C59_front_back_fail, C59_front_back_empty,
C61_all, C62_from_int, C62_from_wide_int, C62_round_trip, C62_limit, C63_cat_drops, C64_types, C64_with_partial,
C64_types_right_iff, C64_ill_formed, C64_documented_example, C67_follows_assignment, C67_valid_partial,
C68_swap_get_partial, C71_cssize_large, C72_assign_values, C72_assign_object, C72_equal, C72_self_assign,
C72_by_name_partial, C72_by_name_missing, C73_one_too_many, C73_uint8_reversal, C74_const_ref_accepts_rvalues,
C76_array_cat, C78_make, C78_dangling, C78_as_enum_dangling, C79_walk_partial, C79_deref, C79_compare, C80_bases,
C80_members, C80_sound, C80_bases_dropped, C80_others_dropped, C82_make_array_iff, C82_make_array_value,
C82_make_array_constvals, C82_make_tuple, C82_split_join_array_partial, C82_split_join_tuple_partial,
C82_deduced_copy, C83_runs, C83_step, C83_strong, C83_throws_only_if, C83_balance, C83_no_leak, C84_get_partial,
C84_get_lvalue, C84_bindings_partial, C84_no_auto_binding, C84_construct_iff, C84_no_move_only, C84_construct_values,
C84_deduce_partial, C84_deduce_single, C85_own_objects, C85_cat_iff, C85_cat, C85_array_cat, C85_cat_value_tuple,
C86_visit_compiles_partial, C86_visit_void, C87_range, C87_make_range_partial, C87_make_range_extent,
C87_size_partial, C87_csize, C87_dynamic_rejected, C87_get, C87_get_type, C87_bindings_partial, C87_no_auto_binding,
C89_fill, C90_compiles_partial, C90_compiles_iff, C90_zip_partial, C90_zip_sentinel, C91_invoke, C91_apply_partial,
C91_value_tuple, C92_type_does_not_tell, C92_intermediate, C94_get, C94_round_trip, C94_deduction, C95_nested,
C95_compiles, C95_make_partial, C95_parentheses, C96_get_type, C97_shuffle_partial, C97_permutation_partial,
C97_reverse_partial, C97_swap_negated, C98_class_iff, C98_integer_iff, C98_operators_do_not_suffice,
C98_bitmask_has_operators, C98_has_flag_integer, C98_concept_partial, C99_range_partial, C99_range_for_partial,
C99_size_terminates, C99_tuple_partial, C99_get_terminates, C99_with_partial, C100_shuffle,
C101_bound_nearly_attained, C103_subspan, C103_elements, C103_to_const_reference_negated, C103_value_type, C104_type,
C106_runtime_negated, C107_walk, C107_access, C107_prev_negated, C108_index_range_elems, C108_index_range_unchecked,
C108_soa_with_container, C109_concept, C109_const, C110_value, C110_is_constval, C110_exists, C110_canonical,
C110_reference_type, C110_const_type, C110_const_get, C110_transform, C110_value_object, C114_assign, C114_swap,
C114_value_type, C114_auto_negated, C114_same_range_twice, C114_shuffle, C114_does_not_compile,
C117_values_do_not_matter, C119_order, C120_extract_transform, C120_result_as_argument, C120_compose,
C120_compose_objects, C120_compose_other_types, C120_identity, C120_extend_extracting, C124_selected_iff,
C124_only_viable, C124_kept_iff, C124_user_conversion_ill_formed, C124_forwarded, C124_ellipsis_fallback, C127_follow,
C127_erasing, C127_endless, C127_reduce_list, C127_reduce_vector, C127_reduce_vector_grown, C127_moved,
C127_list_erased, C127_list, C127_reduce_vector_exact, C128_fill_stable, C128_fill_element, C128_fill_converting,
C128_fill_equal_negated, C128_iota_element, C128_generate_reads, C130_cat_nested, C131_ranges_swap, C132_relevant,
C132_own, C132_friend, C132_unavailable, C132_elsewhere, C132_other_types, C132_own_negated, C132_fundamental,
C132_template, C132_every, C132_ambiguous, C132_converting, C132_ellipsis, C132_agree, C132_late, C132_missing,
C133_no_fault, C134_iterator, C134_reference, C134_checks, C134_unset, C138_no_copy_negated, C142_type_function,
C142_chain, C142_transform_extend, C142_mixed, C142_compare_transform, C142_arrays, C144_range_checked,
C146_range_subscript, C146_static_extent, C146_span_subscript, C146_span_ends, C146_subspan, C146_last,
C152_handlers_unused, C154_after_end, C154_exceptions, C154_fill_calls, C154_reduce_calls, C158_in_place,
C158_in_place_empty, C158_dynamic_construct, C158_dynamic_assign, C158_dynamic_traits, C158_in_place_traits,
C158_member, C159_reduce, C160_accepts, C160_count, C160_lvalue, C160_upward, C160_value, C162_equal, C162_less,
C162_number, C162_pure_equal, C162_equal_type, C163_number, C163_linear, C164_forward, C164_endless, C164_array,
C165_filter, C165_cat, C165_equal, C165_search, C165_search_first, C166_exact, C166_combinations

**Axioms: Classical.choice, Quot.sound, propext** (685)

C01_enum_round_trip, C01_enum_round_trip_needs_distinct_names, C02_parse_enum_iff, C02_parse_enum_total,
C02_parse_enum_accepts_iff, C02_enum_to_string, C03_enum_error_message, C03_flags_error_message, C04_flags_round_trip,
C04_flags_round_trip_fails_for_names_with_plus, C05_flags_to_string_fails_iff, C05_flags_to_string_zero,
C05_flags_to_string_shape, C06_parse_flags_denotation, C06_parse_flags_ok_iff, C06_parse_flags_within_defined,
C06_parse_flags_order_independent, C07_as_enum_failure, C07_as_flags_failure_partial,
C07_as_flags_clobbers_on_bad_stream, C07_sequence_after_failure, C07_nothing_to_read, C08_as_enum_token,
C08_split_exists, C09_as_flags_token, C09_not_delimiters, C09_split_exists, C10_enum_sequence_round_trip,
C10_leading_vertical_tab_is_lost, C10_flags_sequence_round_trip, C11_trim, C11_trim_idempotent, C11_trim_empty_iff,
C12_enum_name_validation, C12_flags_name_validation, C12_char_set, C12_forbidden_sets,
C13_flags_metadata_accepted_iff, C13_flags_metadata_partition, C14_expand_general, C14_expand_integral_partial,
C14_expand_narrow, C14_expand_misses_listed_value, C14_expand_ub, C16_contiguity_test_partial,
C16_contiguous_lookup_exact_partial, C16_lookup_ub_iff, C17_compiles_iff, C17_transform, C17_valueless,
C18_enumerates_shape, C19_transform_many, C19_valueless_result, C20_apply_permutation, C21_apply_permutation_rejects,
C21_too_few_permutation, C22_apply_reverse_permutation, C23_apply_reverse_permutation_rejects,
C23_too_few_permutation, C24_cancel, C25_shuffle_draws_used, C25_shuffle_surjective, C26_range_for,
C26_loop_condition_ill_formed, C27_range_for_mismatch, C27_calls, C27_any_algorithm, C27_transform_reduce_mismatch,
C27_count_if_mismatch, C28_merge_iff, C28_merge_value, C28_merge_kind, C28_order_independent, C28_static_rejection,
C29_iteration, C30_walk_from_end_partial, C31_no_over_read_partial, C31_over_read, C31_sentinel_like_range_for,
C31_sentinel_unsized, C32_transform_reduce, C33_count_if, C33_any_of, C33_none_of, C33_all_of, C33_duality, C33_empty,
C34_iota_integers, C34_iota_undefined, C34_iota_wraps, C35_weakest_category, C38_template_for, C38_array_transform,
C38_array_transform_pointwise, C38_tuple_transform, C38_tuple_transform_pointwise, C39_no_size, C39_no_size_transform,
C39_explicit_size, C39_size_agreement_partial, C40_transform_reduce, C40_reduce, C40_all_of, C40_any_of, C40_none_of,
C44_iota_integers, C44_iota_undefined, C44_iota_wraps, C46_type_pack_index, C46_type_pack_index_well_formed,
C46_tuple_element_index, C46_first_tuple_element_index, C46_tuple_element_index_well_formed, C51_values, C51_aligned,
C51_names, C51_no_table, C51_search_by_name, C52_extract_typed_type, C53_deep_hierarchy,
C53_empty_tuple_hides_members, C53_find_own, C53_find_first_partial, C54_search_value, C54_search_value_by_name,
C54_search_exclusive_member, C54_search_member, C55_refinement, C55_no_leak, C55_independent, C55_allocates_iff,
C55_copy_assignable_iff, C56_value_initialised_partial, C56_uninitialised, C57_extent, C57_capacity_partial,
C57_array_overflow, C58_construct, C58_write_through_subspan, C59_first_last_row_partial, C60_assign_values,
C60_assign_row, C60_assign_across, C60_swap_across, C60_swap, C60_apply_permutation, C60_apply_reverse_permutation,
C60_rejects, C60_shuffle, C61_any, C61_none, C61_accepts, C61_has_flag, C61_has_flag_rejects, C61_sign_bit,
C62_from_type, C62_identifies, C62_default_values, C62_switch, C62_enumerators, C62_repeated, C63_cast,
C63_cast_ambiguous, C63_optional_to_variant, C63_variant_to_optional, C63_round_trip_optional, C63_round_trip_variant,
C63_second_monostate, C64_with_type, C64_with_pred, C65_deterministic, C65_computes, C65_total, C65_equals,
C65_read_only, C66_outcome, C66_checked_partial, C66_negative_throws, C68_const_overwritten, C69_single_ill_formed,
C69_default_always, C69_single_or_default_partial, C71_csize, C71_cssize, C71_cssize_narrow, C72_refers,
C72_by_name_first_partial, C72_by_name_deep, C73_exact, C73_permutes, C75_enum_compiles_iff, C75_no_table,
C75_enum_to_string, C75_parse_enum, C75_enum_round_trip, C75_flags_compiles_iff, C75_flags_round_trip,
C75_parse_flags, C75_flags_to_string, C76_element_type_partial, C76_tuple_args, C76_reference_results,
C76_empty_tuple, C76_explicit_type, C76_tuple_transform, C76_array_but_not_tuple, C77_expand, C77_compiles_only,
C77_dispatch, C77_dispatch_unsupported, C77_dispatch_transform, C77_metadata, C77_alias, C77_no_metadata, C77_bool,
C78_insert_partial, C78_extract_partial, C78_only_lvalues, C78_deferred, C79_advance_difference, C80_values,
C80_values_sound, C80_bases_complete_partial, C80_members_complete_partial, C80_values_complete_partial,
C82_canonical, C82_deduced_iff, C82_other_elements, C85_template_for, C85_array_transform, C85_tuple_transform,
C85_transform_reduce, C85_reduce, C85_all_of, C85_any_of_none_of, C86_transform_compiles_partial,
C86_transform_const_rvalue, C86_transform, C86_transform_valueless, C86_many_calls_copy, C86_many_compiles_partial,
C86_many_partial, C86_visit, C86_visit_valueless, C86_transform_const_rvalue_witness, C86_many_mutable_witness,
C86_many_overload_witness, C87_construct, C88_insert_enum, C88_insert_flags, C88_extract_enum_partial,
C88_extract_flags_partial, C88_eof_loses_value, C88_enum_table, C88_vertical_tab_fill, C88_flags_table, C89_for,
C89_mismatch, C89_mismatch_calls, C89_elementwise, C89_transform_reduce_partial, C89_count_if, C89_all_of, C89_any_of,
C89_none_of, C89_generate, C89_iota, C90_c_array, C90_iterators, C90_range_for, C93_expand_partial,
C93_listed_partial, C93_finds_absent_value, C93_misses_listed_value, C93_conversion_finds_absent_value,
C94_get_by_type, C95_call, C95_order, C95_twice, C96_make_buffer_partial, C96_derived_constant, C96_minus_one,
C96_make_fixed_buffer, C96_make_fixed_buffer_max_partial, C96_derived_fixed, C96_static_check, C96_get,
C96_bindings_partial, C96_no_auto_binding, C96_iterate, C96_range_argument, C96_range_for, C97_ranges_partial,
C97_unsized, C97_ranges_negated, C97_expand, C98_enum_iff, C98_concept_iff, C99_soa_negated, C100_apply_permutation,
C100_apply_reverse_permutation, C100_minimal, C101_result, C101_sorted, C101_logarithmic, C101_unsorted,
C101_contiguous, C101_integral, C102_reverse_resumes, C102_reverse_retry, C102_forward_partial, C102_forward_negated,
C102_enough_calls, C102_shuffle, C103_columns, C103_reassemble, C103_write, C103_conversion,
C103_to_const_iterator_partial, C103_to_const_iterator_negated, C103_keeps_const, C104_element, C104_slice,
C104_bijection, C104_order, C104_write, C104_compare, C106_constant, C106_runtime_partial, C107_default, C107_next,
C107_distance, C107_reverse, C107_reverse_behind, C108_index_range_partial, C108_range, C108_zip, C108_soa,
C108_soa_negated, C109_advance, C109_advance_undefined, C109_distance, C109_prev_end, C109_prev_end_undefined,
C109_reverse, C109_reverse_mismatch, C109_reverse_undefined, C109_subscript, C110_const, C111_no_fault,
C111_classic_split, C111_split_exists, C111_fault_after_token, C111_enum_fault_partial, C111_enum_truncated,
C111_flags_fault_partial, C111_flags_truncated, C111_flags_cleared, C111_not_good, C111_locale_enum,
C111_locale_flags, C111_locale_round_trip, C111_locale_leading_blank, C111_locale_no_separator, C112_enum,
C112_prints, C112_flags_partial, C112_flags_combination, C112_flags_negated, C113_forward_partial,
C113_reverse_partial, C113_reverse_any, C113_negated, C114_apply_permutation, C114_apply_reverse_permutation,
C115_safe, C115_expand_partial, C115_first_match, C115_unlisted_accepted, C115_listed_mistaken, C115_listed_refused,
C115_incomparable_accepted, C115_nan_accepted, C115_nan_listed, C116_wide, C116_unsigned, C116_unsigned_narrow,
C116_signed_narrow, C116_undefined, C117_compose, C117_compose_reverse, C117_inverse, C118_concat, C118_concat_blank,
C118_texts, C118_empty_first, C119_order_unique, C119_compose, C119_identity, C119_many_unit_left,
C119_many_unit_right, C119_many_assoc, C119_transform_as_many, C121_for, C121_transform_reduce, C121_quantifiers,
C122_refines, C122_checked, C122_layout, C122_sort, C122_auto_negated, C123_refines, C123_sort, C123_zip_or_soa,
C125_classified, C125_ambiguous_base, C125_convertible, C125_common_tag, C125_well_formed, C125_zip_classified,
C125_nested, C126_as_container, C126_read, C126_algorithms, C126_any_of_read, C126_groups, C126_reduce,
C126_zip_sentinel, C126_zip_partial, C126_zip_skips, C126_zip_negated, C127_by_size, C127_sizes_differ, C127_zip,
C127_vector, C127_unsized_short, C128_generate_recurrence, C129_kinds, C129_arguments, C129_reduce_parts,
C129_predicate_parts, C129_predicate_reordered, C129_reduce_reordered, C130_for_cat, C130_transform_cat,
C130_tuple_transform_cat, C130_reduce_cat, C130_all_of_cat, C130_any_of_cat, C130_transform_transform,
C130_reduce_transform, C130_arguments, C130_arguments_reduce, C130_arguments_predicates, C130_arguments_tuple,
C131_selected, C131_exchanges_partial, C131_iter_swap, C131_row_lost, C131_exchanges_negated, C131_by_value,
C133_prefix, C133_unlisted, C133_enum_sequence, C133_enum_wrong_value, C133_flags_subset, C133_flags_undetected,
C133_flags_wrong_value, C133_flags_sequence, C134_outlives, C134_each, C134_size, C134_mismatch, C134_array,
C134_copy, C134_argument, C134_array_dangling, C134_argument_gone, C134_dangling, C134_views, C134_zip_argument,
C134_rejected, C135_enum, C135_enum_all_iff, C135_enum_grown, C135_enum_grown_needs_distinct_names,
C135_enum_appended, C135_enum_alias_in_front, C135_flags, C135_flags_grown, C135_flags_grown_needs_distinct_names,
C135_flags_shrunk, C135_flags_composite, C136_save_load, C136_named_partial, C136_any_text, C136_unknown_key,
C136_bad_value, C136_cut_off_partial, C136_save_fails, C136_deep, C136_same_name, C137_range_exact,
C137_range_unsigned, C137_range_signed, C137_narrow_sum, C137_range_transform, C137_template_type,
C137_template_exact, C137_template_modular, C137_template_steps, C137_template_transform, C137_template_is_range,
C137_agree, C137_converted_partial, C138_sorted, C138_stable, C138_stable_unique, C138_already_sorted, C138_in_step,
C138_no_copy, C138_undo, C138_one_too_many, C138_one_too_many_unsorted, C138_signed_overflow, C138_narrow_overflow,
C138_unsigned_overflow, C138_more_indices, C138_fewer_indices, C139_same, C139_uniform, C139_one_too_many, C139_undo,
C140_soa, C140_zip, C140_keeps, C140_take_keeps, C140_element, C140_sort, C140_move_only, C140_move_only_sort,
C141_make, C141_size, C141_visits, C141_subscript, C141_shorter_unsized, C142_no_tuples, C142_no_arrays_of_sequences,
C143_round_trip, C143_texts, C143_texts_unique, C143_reader_ends, C143_no_lookahead, C143_rejected, C143_truncated,
C143_single_empty_set, C143_leading_exists, C143_while_enum, C143_while_enum_misspelt, C143_while_flags,
C143_while_empty, C144_permutation_checked, C144_reverse_checked, C144_permutation_valid,
C144_permutation_never_returns, C144_permutation_duplicates, C144_permutation_out_of_range, C144_reverse_valid,
C144_reverse_never_returns, C144_reverse_duplicates, C144_reverse_out_of_range, C144_range_valid, C144_range_for,
C144_first_decides, C144_all_of_wrong, C144_reduce_cut_off, C145_checked, C145_valid, C145_enum_round_trip,
C145_enum_stream, C145_enum_stream_negated, C145_flags_dropped, C145_combination_lost_negated,
C145_empty_name_negated, C145_flags_stream, C146_checked_span, C146_valid_span, C146_index_range_reversed,
C146_index_range_negative, C146_first, C146_type_enum_any, C146_expand_checked, C146_expand_versus_try,
C146_expand_unlisted, C146_expand_unlisted_integral, C147_checked, C147_valid, C147_refinement, C147_no_leak,
C147_static_in_object, C147_static_on_heap, C147_fixed_dynamic, C147_negative_extent, C147_array_assignment,
C147_ends_of_empty, C148_apply_left, C148_reverse_left, C148_calls_permutation, C148_calls_rejected, C149_refinement,
C149_no_leak, C149_no_effect, C150_runs, C150_step, C150_no_effect, C150_throws_only_if, C150_balance, C150_no_leak,
C151_refines, C151_statement, C151_layout, C152_runs, C152_subscript, C152_probe_negated, C153_refines, C153_types,
C154_calls, C154_protocol, C154_finished, C154_returned, C154_arguments, C154_zip_calls, C154_zip_no_comparisons,
C154_zip_finished, C154_zip_arguments, C154_accepted, C154_zip_order, C155_refinement, C155_stable_read,
C155_stable_write, C155_dangling, C155_loop, C156_compiles, C156_valueless, C156_object, C156_reference, C156_reading,
C156_void, C156_std, C157_class, C157_class_negated, C157_alias, C157_answers, C157_answers_negated,
C157_instantiation_of, C158_from_array, C158_assignable, C158_nested, C159_arguments, C159_same_length,
C159_different, C159_interrupted, C159_zip, C159_fill, C160_members_iff, C161_same, C161_enum, C161_flags_to_string,
C161_parse_flags, C161_linear, C162_pure_less, C163_sound, C163_pure, C163_expand, C164_reverse, C164_array_reverse,
C165_unique, C165_transform, C165_many, C165_limit, C166_empty, C167_run, C167_final, C167_sample, C167_agrees
