# Formal model of boostorg/multi_array in Lean 4 — design

Source: `/repo/include/boost/multi_array.hpp`, `/repo/include/boost/multi_array/*.hpp` and the example utilities
`/repo/example/*.hpp|cpp` named below.  Lean project: `/verif/lean`, modules under `lean/Verif`.

* `Verif/Model/*` — the model, one definition per C++ function, each citing file and lines.
* `Verif/Spec*.lean` — the vocabulary used in theorem statements (index boxes, valid storage orders, abstract arrays, legal programs). Nothing there
  models library code; a reader needs only the Spec files, the model's *signatures* and the statements in `Verif/Props`.
* `Verif/Lemmas/*` — proofs. `Verif/Props/*` — the property theorems, named `Cnn_…` after the property they state, each followed by an `example` that
  a concrete non-trivial case meets its hypotheses.
* `MANIFEST.json` is generated by `tools/manifest.py` (theorem names from `Verif/Props`, notes from `tools/notes.json`).
* `seeded/LOG.jsonl` — mutation tests: wrong programs tried against the theorems (§6).

## 1. Modelling decisions

Template parameters become ordinary arguments: `NumDims` is the length of the extent/stride/base lists, the element type is an arbitrary `T : Type`.

| Lean module (`Model/…`) | C++ | remarks |
|---|---|---|
| `Res` | — | outcomes of pure code: `ok`, failed `BOOST_ASSERT`, undefined behaviour; `dbg : Bool` says whether assertions are compiled in |
| `StorageOrder` | `storage_order.hpp` | |
| `Ranges` | `index_range.hpp`, `extent_range.hpp`, `extent_gen.hpp`, `index_gen.hpp`, `range_list.hpp` | sentinels of `index_range` are the numbers `-2^63`, `2^63-1` |
| `Base` | `base.hpp`: `access`, `access_element`, `compute_strides`, `calculate_*_offset`, `generate_array_view` | loop by loop |
| `Classes` | `const_multi_array_ref`, `const_sub_array`, `const_multi_array_view`: members, constructors, queries, `reindex`, `reshape` | the mutable classes add no data |
| `Iterator` | `iterator.hpp`, `begin/end/rbegin/rend` | `iterator_facade` and `reverse_iterator` (external) by their documented definitions |
| `Memory` | what the library uses: allocator, `alloc_construct_n`, `alloc_destroy_n`, element assignment | heap of blocks of cells (`raw`/`obj v`), each recording the allocator that provided it (deallocating through another one is `ub`); a schedule says which operations throw; every lifetime error is the outcome `ub`. Stricter than C++ in one point: deallocating storage that still holds live objects is `ub`, so lost destructor calls are visible |
| `Copy`, `Compare` | the `operator=` family, `assign`, `copy_array.hpp`, `example/for_each.hpp`; `==`, `<` and derived operators | `std::copy`, `std::equal`, `std::lexicographical_compare` by their standard definitions |
| `Loops` | the loops of `copy_array.hpp`, `operator=`, `for_each`, `==`, `<` and the converting constructors with the loop condition of the source, `first != last` | bounded number of iterations; shown to agree with `Copy`, `Compare` (C104) |
| `Headers` | the data members of arrays and views as memory cells; `reindex`, `reshape`, view construction, `operator()`, `operator[]`, assignment, `copy_array`, `for_each`, `==`, `<` as trees of single member and element accesses (iterators re-read the members of the object they point into) | a `boost::array` member is one cell (C105) |
| `MultiArr` | `multi_array.hpp`: constructors, `resize`, destructor, `allocate_space`, `deallocate_space`, member-by-member `swap` | members of `*this` are part of every outcome, also exceptional ones |
| `Handles`, `HandleIters` | the same subarrays and iterators (of objects and of subarrays), now with their *pointers into the owner's arrays* | for C53, C54, C57, C58; `chain_agrees` relates it to `Classes` |
| `MachineLoops` | the loops of `Loops` with every address and every `++` computed in 64-bit arithmetic | C104: equal to the counted loops whenever the arrays fit; counterexample at the limit |
| `Machine`, `MachineIt` | the arithmetic of `base.hpp`, `multi_array_ref.hpp`, `view.hpp`, `iterator.hpp` in 64-bit `size_t`/`ptrdiff_t`, signed overflow = UB | C51 relates it to the ideal-integer model |
| `MachineOps` | whole operations (element access, assignment, `copy_array`, `for_each`, comparison, constructors, conversion, `resize`, `index_gen[i]`) in the same 64-bit arithmetic | C74 |
| `Steps` | the functions of `Copy` and `Compare` as trees of single accesses | C62 |
| `Code` | constructors, destructor, `resize`, assignment, element access as trees of single memory operations (element and block level) with exception edges | C83; `Lemmas/Code` proves equality with `MultiArr` |
| `Const` | class and overload declarations (types only) | C55, C59 |
| `Clients` | constructors with defaulted arguments, iterator conversion, `operator->`, `example/resize_from_other.cpp`, `example/print_array.cpp` | C04, C27, C35, C37, C78 |
| `IntTypes` | element access, construction, `reindex`, `reshape` with collections of other integer types | C94 |
| `Guarded` | element types whose assignment has a precondition (arrays of arrays) | C95 |
| `GenPtr` | `const_multi_array_ref<T,NumDims,TPtr>` over an arbitrary pointer type | C96 |
| `MachineHandles` | `operator[]` on objects and on subarrays in 64-bit arithmetic | C79 |

Integers are ideal (`Nat` for `size_type`, `Int` for `index`) except in `Machine`, which proves when that idealisation is exact.  A pointer is a block id and an
integer offset; pointer *arithmetic* is unchecked (the library forms `origin()` outside the block by design), *dereferencing* is checked.

Not modelled: template machinery (SFINAE, `disable_if`, concept checks), `multi_array_concepts`, compile-time errors other than the const-overload table, serialization
(none in the library), iostreams except where an example is named, MSVC work-arounds, `BOOST_NO_*` variants, allocators with fancy pointers, element types whose construction or
destruction has side effects on the arrays themselves (which objects are constructed and destroyed, and in which order, is C88; assignment, comparison, functors and input iterators with arbitrary effects: C64, C72, C85, C86), and the identity comparison shortcut in `array_iterator::equal` (shown irrelevant in the comment there).

## 2. Plan and proof method per property

* C01–C03, C05, C09, C10: mixed-radix representation. `compute_strides` produces prefix products along `ordering`; the offset of a tuple is a mixed-radix numeral whose
  digits are the (mirrored) zero-based indices; bounds, injectivity, surjectivity by induction on the ordering list. Reachability by induction over reindex/reshape.
* C04: specialise to the two orders; Horner-form specification.
* C06–C08: induction over the dimension lists of `access` vs `access_element`, outcome by outcome.
* C11–C15: unfold; offsets cancel (`Σ (b+k)*s - Σ b*s`).
* C16–C22, C24: loop invariant of `generate_array_view`; truncated-division lemmas for the length.
* C23: frame lemma on `store`; combined with C02/C19.
* C25–C29: `access` computations, induction on dimension count for traversal.
* C30–C36, C49, C56: nested copy = sequential list of (dst,src) address pairs in lexicographic order; then list induction.
* C37–C39, C47, C48, C50: monadic reasoning about `resize`/constructors with the exception schedule. Sequences of resizes (`C38_any_resizes`, `C39_any_resizes`): induction on the list of requests.
* C40–C42: comparison = comparison of nested lists; order laws by induction on dimension.
* C43–C46: direct / induction over chains.
* C51: refinement `Machine` = ideal under bounds.
* C52: simulation between the heap model and an abstract array, induction over operation lists.
* C53, C54, C57, C58: handles resolved against the owner's current members.
* C55, C59: finite overload table, induction over operation chains.
* C60, C61: consequences of C04, C05 and C24 (relations between storage orders and views), with list-reversal lemmas for the ranks.
* C63: equality as agreement of elements (C40), addresses of subarrays (C06) and of view elements (C19).
* C62: the copying, comparing and for_each functions are written a second time as trees of single element accesses (`Model/Steps`); `Lemmas/Steps` proves that running such a tree
  without interference is the sequential model, and that each tree accesses only elements of its operands.  Steps of threads with separate footprints commute (diamond), so all
  complete schedules have the same length and final memory as the sequential one.  Changes of array and view objects (reindex, reshape) concurrent with other threads: C105.
  Allocation, construction, resizing and exceptions inside threads: C83.
* C64: the nested loops equal a flat loop over `Spec.positions` (equation between computations), by induction over the dimensions; interrupted runs by list induction.
* C65: copy lemma with the weaker condition `written address differs from every address still to be read`; for windows the condition follows from injectivity of addresses and comparison of the range starts.
* C66 (allocator pairing): blocks record their provider and deallocation through any other allocator is `ub`; induction over histories with a small separate tracker of which allocator each variable should hold (`SpecAlloc`).
* C67 (whole programs): an abstract machine over variables (`SpecProg`: parts are bases, extents and an index map; commands; preconditions on the abstract state only); forward simulation command by command against the model of the library (`World.exec`), with the relation `World.Rep`; induction over the program.
* C68: `Handle.embedding` on the tuple padded with zeros; C order separately (zero strides before a zero extent).
* C69: element-by-element law of copying on abstract states (no destination is a later source or destination), composed with C67 for the four commands of an exchange (SpecExchange.lean); induction over the list of exchanged pairs.
* C70: the tuples reached by a list of ranges are those selected in every dimension (list induction with the length formula of C17); injectivity of addresses (C02/C19) turns shared elements into shared tuples; residues modulo the stride for the partition.
* C71 (programs under exceptions): `SpecProgX` gives the abstract effect of an interrupted command and clients as functions from traces to commands; the memory with exceptions due and leaked blocks is related to one without (`Calm`), so that completed commands reduce to C67 and interrupted ones to the completed prefix; induction over the number of steps. A separate induction over all computations shows that a throw consumes an exception that was due.
* C72: the nested `std::copy` loops are modelled with the element assignment as a parameter (`assignRefW`, `copyArrayW`); the plain operations are the instance `eltCopy`.  Proved by induction on the dimensions that they are the flat loop `flatAssign` over all positions; converting assignment (`eltConv`), interruption and shape mismatch follow.
* C73: SpecShare.lean gives an abstract machine with storages and place maps; Lemmas/Share*.lean relate a running program (blocks, headers, held views with their own arrays, held subarrays that point into their owner) to it by a simulation with a ghost map from storages to blocks; one lemma per command; induction over the program.  Held subarrays whose object is changed are not used by legal programs (their behaviour is C54/C58).
* C74: `Model/MachineOps.lean` repeats the operations in 64-bit arithmetic; `SpecProgM.lean` states the size conditions on abstract arrays and runs whole programs on that model. Proof: equality of each 64-bit operation with the ideal one (induction over dimensions and loop steps), an invariant `DescFits` for parts reached by any path of subarrays and views, then induction over the program on top of C67.
* C75: `Spec.IAlg` is the type of iterator algorithms (a tree of iterator operations whose continuation depends on what was observed), with a meaning on abstract sequences (`IAlg.run`) and an execution that calls only the modelled iterator functions (`IAlg.exec`); a simulation by induction on the algorithm relates the two, for sequences of shared places and for one list; `std::reverse` is the worked instance.
* C76: `Client.runM` is the client of C71 with every library call replaced by its 64-bit counterpart (SpecProgXM.lean); a step-by-step equality with `Client.run` under `Client.Fits`, using C74's operation equalities in every memory state, transfers C71.
* C77: C73's programs as a client that sees exceptions (SpecShareX.lean). The running state is related to a calm copy (no exceptions due, leaked blocks removed) that represents the abstract state; library calls that complete agree in both (`Agree`), calls that throw are analysed directly (interrupted copies, `for_each`, `assign`, constructors, `resize`).
* **C78**: `printArray` (Model/Clients.lean) models example/print_array.cpp over the modelled iterators; SpecPrint.lean gives the bracket notation independently; proved by induction on the dimensions and the loop, and unique parsing of the notation by induction. Model/Clients.lean also has the constructors without a storage order (C04, C35), iterator conversion and `->` (C27) and `resize_from_MultiArray` (C37).
* C79: `SWorld.execAllM` (SpecShareM.lean) is C73's interpreter with every library call replaced by its 64-bit counterpart; the fitting conditions carry the strides of held views (`stridesAfter`); an invariant (`FitInv`) plus C74's per-operation equalities gives a step-by-step equality with `SWorld.execAll`, which transfers C73.
* C80: `SClient.runM` (SpecShareXM.lean) is C77's client with every library call replaced by its 64-bit counterpart; the runs considered carry the strides of held handles (`ReachesS`); the invariant `FitInv` of C79 is shown to survive completed and interrupted commands, and a step-by-step equality with `SClient.run` transfers C77.
* C81: `Performs k s out` (SpecWork) reads the cost off the environment schedule: completion consumes exactly k entries, none of which throws; an exception consumes up to and including the first entry that throws. Proved compositionally (`Takes`, Lemmas/Work) for each model function; definedness comes from the earlier any-schedule theorems (ctor_any, resize_any, copy_any).
* C82: `Partition`/`CutTogether` (SpecParallel) state the division by sets of element addresses and positions only. C62_schedule_independence reduces any schedule to one fixed sequential order; both that order and the plain loop are shown to produce the same memory (mapSeq_result, copySeq_ok). The cyclic instances use C70_strided_views_partition and the exact position map of the strided view (C82_cyclic_part).
* C83: Model/Code writes the owning class a second time as trees of single memory operations with exception edges; Lemmas/Code proves that running such a tree alone equals the functions of Model/MultiArr, and Lemmas/ClientCode that a client's tree equals Client.run of C71. SpecThreads gives the interleaving semantics (each thread names its blocks; the allocator picks any free address) and Lemmas/Threads the simulation: every step of the pool is a step of one thread's solo run. The solo facts then come from C71. Assumed: the allocator and the element type's operations are themselves free of data races (each is one step here), memory is sequentially consistent (harmless, since no races occur), and programs do not compare addresses of different blocks (the library only compares with null).
* C84: `Section.fork`/`Joins`/`Script.Runs` (SpecFork.lean) run `Client.code` (Model/Code.lean functions) in threads that share a heap and name the blocks they see by their address; every library function is shown never to write outside the blocks of the arrays it changes (`Code.Avoids`, Lemmas/Avoid*.lean), so the simulation of C83 applies with the commonly read blocks as the shared ones; the invariant `World.Holding` is carried through the joins by induction over the sections.
* C85: `equalRefX`, `lessRefX` (Model/Compare.lean) are the operators over an effectful element comparison; they are shown equal, as computations, to iterator-free loops (`flatEqual`, `nestedLess` in SpecCompare.lean), and for comparisons `cmpElem` to `k` possibly throwing steps followed by the result (`mayThrowTimes`), `k` being `equalCost`/`lessCost`; bounds by induction on the rank.
* C86: `assignLoopX` (Model/Copy.lean) is the loop over an abstract input iterator (end test, `*it++`) with arbitrary effects; for iterators that read a list of addresses (`ReadsFrom`, SpecAssign.lean; pointers and array iterators are shown to) it equals a sequence of element copies, to which the overlap lemmas of C65 apply; the periodic law by strong induction on the rank.
* C87: `dbg = false` in the model. Access: offset loop without checks; assignment: the destination's extents are not read without assertions (`assignRefW_false_extents`), so it is the equal-shape copy into the clipped destination; definedness by induction over the flat loop (liveness of cells is invariant). Views: the loop without assertions for nonzero strides. reshape: the header equals that of a fresh array of the new shape over the same data, except num_elements. Props/Release.lean, SpecRelease.lean.
* C88: `Code.log` (SpecLog.lean) watches the code of Model/Code.lean run and lists every memory operation in order. Expected logs are plain lists over positions/ranks; each operation's code is shown equal to a flat sequence (by induction over the dimensions), whose log is computed; failures by inversion of bind/onThrow. Lifetimes: one relation on (blocks, live addresses), each primitive shown to respect it, lifted to all code by induction over the code tree; balances by counting; whole programs via C71 and the refinement of clients by code. SpecLog.lean, Lemmas/Log.lean, Lemmas/Lives.lean, Props/Log.lean.
* C89: a static predicate on commands (`Cmd.Drops`: destroy or resize of the variable; `Cmd.Relabels`: reindex or reshape of it) is compared with what the run of an arbitrary legal client does to the array object and its block. Per command by case analysis (done/threw); composed over any number of commands by induction with the whole-program invariant of C71. SpecStable.lean, Lemmas/Stable.lean, Props/Stable.lean.
* C90: equations between the model functions on a collection and on its first `NumDims` entries; list induction for the index loops; reshape with a short list is the unchecked reshape of C87 to the completed extents. Props/Collections.lean.
* C91: contiguity is stated as an equation between the list of element addresses in row-major (column-major) order and p, p+1, p+2, ... (SpecContig.lean); reduced to a condition on strides by induction over the dimensions; slices through the exact strides and extents of generated views; column-major by reversing all lists. Lemmas/Contig.lean, Props/Contig.lean.
* C92: algorithms are free trees of iterator, temporary and row operations (SpecRows.lean), with a meaning on plain lists of rows and one that only calls the modelled library functions; proved equal by induction over the algorithm with an invariant built on C67's step refinement (Lemmas/Rows.lean, Lemmas/RowsExec.lean); insertion sort as an instance is proved on lists by two loop inductions (Props/Rows.lean). Library == and < between a row and a temporary do not compile, so the algorithms compare them by looking at their elements.
* C93: logical relation between the abstract machines of SpecShare.lean over two element types (same variables and place maps, corresponding storages), preserved by every command; transported to the library model by C73's step refinement on both sides; the predicate version is the relation v = u and P v. SpecParam.lean, Props/Param.lean.
* C94: `Model/IntTypes.lean` models the implicit conversions of LP64 (64-bit unsigned operands force unsigned arithmetic modulo 2^64, all others become `index`) in `access_element`, `operator[]`, the constructors, `reindex`, `reshape`; proved against the ideal-integer model through C51 by congruence modulo 2^64 (`SpecIntTypes.lean`: Denote, HandleFits).
* C95: `Code.execG ok` (Model/Guarded.lean) runs the code of Model/Code.lean with a guard on every element assignment. Proof: `Code.overwrites` lists (old value, new value) of all assignments of a run; guarded and unguarded runs agree iff all of them satisfy the guard (induction over code); the list is computed for every copying operation from `copyCode` (Lemmas/Log.lean).
* C96: `GRef P` (Model/GenPtr.lean) is const_multi_array_ref over a pointer type given by its addition and its conversion, both allowed to refuse. Proof: the header part of a history is independent of the pointer (commuting square with the plain-pointer model, induction over the history), and every member goes through origin().
* C97: SpecRowsX.lean runs the algorithms of C92 with `Result`s that keep exceptions, unwinds the live temporaries, and says by recursion over the algorithm what the rows may be when it is interrupted; Lemmas/RowsX.lean keeps a twin world without exceptions (the relation of C71) beside the real one, proves what an interrupted copy between parts has done, and goes by induction over the algorithm; C97_no_row_invented and C97_insertion_sort are consequences.
* C98: 64-bit versions of every iterator and reverse-iterator operation (MachineIt.lean); the algorithms of C75 and C92/C97 with every call replaced by its 64-bit version (SpecSeqM.lean); by induction on the algorithm, with the invariants of C75/C97 and the invariant that each temporary has the header of a row, both executions are equal; then C75 and C97 apply. Hazard shown by a concrete execution.
* C99: registers that hold descriptors and iterator objects, next to the commands of C71; abstractly a held handle is a path and a held iterator a position. Invariant: each valid register equals what its expression denotes now (headers are stable, C89), so each command equals the spelled-out one. 64-bit: as C76 and C98. Assumes the client keeps a view object alive while iterators into it are held; C100 drops that assumption.
* C100: the clients of C99 with registers that hold pointers (home object, depth, base pointer) instead of descriptors; what a pointer denotes is looked up at every use. Abstractly each register has a home and loses its value when its home is set anew. Invariant: every valid register denotes the descriptor or iterator of C99, so the run is that of C99 (simulation), also on the 64-bit machine. Hazard examples: the row or iterator of a temporary view denotes nothing.
* C101: the documented table as a structure over descriptors (SpecConcept.lean), parameterised by which objects are MultiArrays; an object models the concept if it is in some class closed under the table (greatest fixed point). Proof: the class of all handles of a reachable array is closed, clause by clause from C02, C07, C09, C16, C25, C26, C29.
* C102: a relation between abstract states with the same shapes and elements but different storage orders (Lemmas/LayoutFree.lean) is a bisimulation for the whole-program machine with held handles of C99; together with C99 it gives the theorem about the model of the library. Alike programs are defined in SpecLayoutFree.lean without reference to the library.
* C103: the abstract machine gets a schedule and a cost for each command (SpecExactX.lean: firstThrow, Cmd.cost, AState.stopped, Cmd.lost, AMach.step, HClient.predict); each library operation is shown to consume exactly its cost and to stop exactly at the due exception (Lemmas/ExactX.lean, from the operation counts of C81 and the invariant InvX of C71), then induction on the number of commands.  C102 is strengthened with the same exception schedule.
* C104: the loops are modelled a second time as the source writes them, comparing iterators, with a bound on the number of iterations and the result none if a loop has not ended (Model/Loops.lean); the comparing and the counting versions are proved equal as computations by induction on the rank and the number of steps left (Lemmas/Loops.lean). Model/MachineLoops.lean has the comparing loops in 64-bit arithmetic; they are compared with the counted ideal ones directly (Lemmas/MachineLoops.lean, Lemmas/MachineConvertLoop.lean), each `++` being in range because one past the last index is.
* C105: Model/Headers.lean puts the data members of arrays and views into memory cells next to the elements and gives `reindex`, `reshape`, view construction, element access etc. as programs of single member and element accesses. Lemmas/Solo.lean generalises the diamond argument of C62 to programs whose *own* run stays in a footprint; Lemmas/HeadersThread.lean shows that a legal thread run alone does so and agrees with the sequential model (Lemmas/Pads.lean: the whole-array algorithms are those of Model/Steps.lean with reads of known members in between). The hazard (a reshape racing with an access valid before and after) is a concrete schedule, computed by the kernel.
* C106: no new model; corollaries of C33 (assign in storage order), C05 (layout formula), C04 and C56 (order of for_each), with the two functors of SpecStore.lean; C40 for the final ==. `C41_same_shape`: nested lexicographic order of equal shapes reduced to the first differing rank, by induction on the number of dimensions; the memory-image comparisons follow with C04/C05.
* C107: no new model; the client's retry loop is SpecRetry.lean. One attempt either completes (C30, C33, C37) or throws, keeps an invariant (source and other cells unchanged, elements alive; for resize C48) and uses up one due exception (C49, C81); induction on the number of attempts.
* C108 (`SpecChain.lean`, `Props/Chain.lean`): a chain is a client that calls the modelled converting constructor once per storage order; induction over the chain with the C35 step; the memory images agree because every place of a block is that of exactly one position (C03, C05).

Every listed property can be expressed in the model; none is marked not applicable.

## 3. Properties that are false of the code (machine-checked counterexamples, `_partial` theorems)

| Property | What the code does | Counterexample |
|---|---|---|
| C18 | a range with negative stride starting at `base+extent` passes the assertions and selects a non-existent element | `C18_counterexample` |
| C42 | `a<=b && b<=a` holds for arrays of different shape when an extent is 0 | `C42_antisymmetry_counterexample` |
| C45 | `index_range::size()` truncates, the view rounds up | `C45_counterexample` |
| C50 | constructors leak their block (and, for copies, its live objects) when an element operation throws | `C50_counterexample_*` |
| C54 | a held subarray is displaced by `Σ(new-old base)*stride` after `reindex`; it may then leave the block | `C54_counterexample` |
| C57 | a held `begin()` iterator asserts when dereferenced after `reindex`; if only the bases of later dimensions change, the row it denotes is displaced as in C54 | `C57_counterexample`, `C57_counterexample_two_dimensions` |
| C58 | a subarray of a temporary view dangles once the view is destroyed | `C58_counterexample_temporary_view` |
| C59 | `multi_array_ref`'s implicit copy constructor accepts a const `multi_array`; a const `sub_array` leaks `T*` through its base class | `C59_counterexample_*` |
| C68 | `origin()` of a one-based array points before the storage (documented: the origin need not exist), and every access computes `origin + ...`; an empty Fortran-order array forms `a[2]` past its storage | `C68_counterexample_*` |

For each of them the exact condition under which the claim holds is also proved (`Props/Exact`: `C18_exact`, `C42_antisymmetry_exact`, `C45_size_exact`,
`C50_leak_exact`, `C58_exact`, `C59_exact`; the iff statements of C54 and C57 are in their `_partial` theorems).

Further findings, recorded as theorems or in comments: `reshape` with a list shorter than `NumDims` whose product matches leaves a mixed shape
(`C15_short_list_hazard`; exactly when: `C90_reshape_too_short`); shifting a default `index_range` breaks its sentinels (`C44_shift_default_hazard`); `indices[index_range(5)]` (a degenerate *range*
object) has the wrong arity and asserts (`C22_arity_mismatch`); overlapping assignment smears (`C32_overlap_hazard`); `num_elements()` wraps silently, e.g. 2^32 x 2^32
(`C51_hazard_size_wraps`); an array may use index 2^63-1 but its `end()` then overflows (`C51_hazard_end_overflows`); `directional_offset_` is stale after `reshape` (never read again, so unobservable); `range(b,b-1,-1)` on an empty dimension passes the
assertions with length 1 (an instance of C18); integer indices `-2^63` and `2^63-2` collide with the sentinels; `operator->` on one-dimensional iterators is
ill-formed.

## 4. Hypotheses that recur

* `Reachable n a`: `a` was built by some constructor with a valid storage order and then changed by any reindex/reshape history.
* `Handle root d`: `d` is the array, or an in-range subarray, or a view accepted by the assertions whose in-range indices select in-range indices of what is viewed (`StaysInside`; only the C18 overrun fails this), nested to any depth.
* `OwnsVals s n a vs`: `a` is a live `multi_array` in memory `s`; established by every constructor (`C47`, `C50`) and preserved by every operation (`C47`).
* `Representable bases extents`: bases and ends are 64-bit values, so that the sentinels of `index_range` cannot be confused with real positions (needed by `resize`, which
  goes through `index_range`).
* `SaneHeap s`: allocator state; true at program start and preserved.

## 5. Trusted base

Lean 4.33.0's kernel; axioms at most `propext`, `Classical.choice`, `Quot.sound` (no axiom of ours, no compiled evaluation); the reading of the C++ code recorded in the
comments of `Verif/Model`; the standard meaning of the external facilities listed in §1 (`std::copy`, `std::equal`, `std::lexicographical_compare`,
`boost::iterator_facade`, `boost::reverse_iterator`, `boost::alloc_construct_n/destroy_n`, `boost::array`); 64-bit `size_t`/`ptrdiff_t`.  The C++ code itself was not
compiled or run.

## 6. Mutation testing

Each mutation edits one model definition as a realistic bug would, recompiles everything downstream in a scratch copy with errors tolerated, and reports which `Cnn` theorems no
longer hold (statement or proof broken, directly or through a lemma that now fails).  `seeded/LOG.jsonl` has one line per attempt; where a theorem whose English claim had become false still
went through, it was tightened and the line says so.

## 7. Conformance tests of the model

`Verif/Conformance` transcribes the library's own test programs and examples as executions of the model, evaluated by the kernel (`decide +kernel`): the generative tests of
`test/generative_tests.hpp` (access, assign, assign_to_array, iterators, slice: each on 7 kinds of array x 3 storage orders x 4 modifications), the other `run` tests of `test/Jamfile.v2`, the
`compile-fail` tests and `concept_checks.cpp` against the model of the declarations, and the programs of `example/`.  All of them come out as the library's authors expect.  These are tests: they are
evidence that the model is a faithful reading of the code (which could not be run here), and no claim of MANIFEST.json rests on them.
