{"id": "C01", "title": "toposort neither loses nor duplicates a node", "statement": "When toposort returns, every distinct input node appears exactly once in the concatenation of `ordered` and `failed`, and nothing else appears there.", "quantifier": "every node list (with or without duplicates), every dependency list over those nodes, every comparison function, every hash-map iteration order", "why_tests_cant": "graphs are unbounded; a test samples a few graphs and one hash seed", "anchors": ["cc_bindings_from_rs/toposort.rs:toposort", "cc_bindings_from_rs/toposort.rs:TopoSortResult"]}
{"id": "C02", "title": "ordered respects every dependency", "statement": "For every dependency (p, s), if s is in `ordered` then p is in `ordered` too and occurs strictly before s.", "quantifier": "every node list, dependency list (duplicates and self-loops included), comparison function, iteration order", "why_tests_cant": "unbounded graphs and shapes", "anchors": ["cc_bindings_from_rs/toposort.rs:toposort"]}
{"id": "C03", "title": "failed is exactly the set of nodes that are on, or downstream of, a dependency cycle", "statement": "A node is in `failed` iff some node lying on a dependency cycle reaches it through zero or more dependencies; in particular `failed` is empty iff the dependencies are acyclic.", "quantifier": "every node list and dependency list", "why_tests_cant": "needs reachability over arbitrary graphs", "anchors": ["cc_bindings_from_rs/toposort.rs:toposort"]}
{"id": "C04", "title": "ordered is the greedy best-preference topological order", "statement": "At each position, `ordered` holds the most preferred node (ties: earliest in the input) among all nodes whose predecessors have all already been emitted; consequently if the preferred order is itself a valid topological order, `ordered` is the input sorted by it.", "quantifier": "every graph and every total preorder as preference", "why_tests_cant": "quantifies over all graphs and all comparison functions", "anchors": ["cc_bindings_from_rs/toposort.rs:toposort", "cc_bindings_from_rs/toposort.rs:HeapNode::cmp"]}
{"id": "C05", "title": "toposort output does not depend on hash-map iteration order", "statement": "For the same nodes, dependencies and preference, `ordered` is the same whatever order the hash map enumerates its entries; `failed` is the same too when the preference is a strict total order on the failed nodes (with ties it may vary: recorded as a disagreement).", "quantifier": "every pair of enumeration orders", "why_tests_cant": "a process sees one random seed", "anchors": ["cc_bindings_from_rs/toposort.rs:toposort"]}
{"id": "C06", "title": "toposort panics exactly when a dependency names an unknown node", "statement": "toposort panics iff some dependency has a successor or predecessor that is not in `nodes`; none of its other unwraps or assertions can fire.", "quantifier": "every node list and dependency list", "why_tests_cant": "absence of panics over all inputs", "anchors": ["cc_bindings_from_rs/toposort.rs:toposort"]}
{"id": "C07", "title": "Rust bridge encode/decode round-trips", "statement": "Encoding any value with any ABI schema built from transmute, tuple and option, then decoding the buffer with the same schema, yields the value back, whatever the buffer held before.", "quantifier": "every schema (any nesting), every value of the schema, every initial buffer content", "why_tests_cant": "schemas are an infinite recursive family", "anchors": ["support/crubit_bridge_rust/src/bridge.rs:CrubitAbi", "support/crubit_bridge_rust/src/bridge.rs:internal::encode", "support/crubit_bridge_rust/src/bridge.rs:internal::decode"]}
{"id": "C08", "title": "C++ and Rust agree on the bridge byte layout", "statement": "For every schema, the bytes written by the C++ encoder are the bytes written by the Rust encoder, so a value encoded on either side decodes to the same value on the other (C++ pairs correspond to two-element tuples).", "quantifier": "every schema and value", "why_tests_cant": "cross-language agreement over all nestings", "anchors": ["support/crubit_bridge_rust/src/bridge.rs:CrubitAbi", "support/bridge.h:TupleAbi", "support/bridge.h:PairAbi", "support/bridge.h:OptionAbi"]}
{"id": "C09", "title": "bridge encoding stays within SIZE", "statement": "Encoding or decoding through a buffer of SIZE bytes never underflows the remaining-byte counter and never touches a byte outside the first SIZE bytes of the buffer.", "quantifier": "every schema and value, every surrounding memory", "why_tests_cant": "memory safety of a recursive family", "anchors": ["support/crubit_bridge_rust/src/bridge.rs:Encoder", "support/crubit_bridge_rust/src/bridge.rs:TransmuteAbi", "support/bridge.h:Encoder::Next"]}
{"id": "C10", "title": "boxed values are freed exactly once and cross intact", "statement": "A value encoded through the C++ boxed ABI occupies exactly one heap cell until it is decoded; decoding returns that value and releases exactly that cell, leaving all other live cells untouched.", "quantifier": "every heap state, schema nesting and value", "why_tests_cant": "leak freedom over all nestings", "anchors": ["support/bridge.h:BoxedAbi"]}
{"id": "C11", "title": "memoised queries return the unmemoised value on acyclic queries", "statement": "For any query whose recursive dependencies are well-founded, calling it through the database returns exactly the value the plain recursive function would compute, regardless of which other queries (even cyclic ones) were made before.", "quantifier": "every family of query functions, every history of earlier calls", "why_tests_cant": "all call histories and all functions", "anchors": ["common/memoized.rs:query_group", "common/memoized.rs:internal_memoized_call"]}
{"id": "C12", "title": "each acyclic query body runs at most once", "statement": "Over any history of calls in which no cycle is hit, the body of a query function is executed at most once for each argument value.", "quantifier": "every history of calls", "why_tests_cant": "all histories", "anchors": ["common/memoized.rs:internal_memoized_call"]}
{"id": "C13", "title": "values tainted by a cycle default are never cached while the cycle is open", "statement": "A result is stored in the cache only when no cycle default that it may have used belongs to a call still in progress; in particular a cached value is a function of the cache and not of the call stack it was computed under.", "quantifier": "every family of query functions and every history", "why_tests_cant": "all cyclic call graphs", "anchors": ["common/memoized.rs:internal_memoized_call"]}
{"id": "C14", "title": "cycle bookkeeping is balanced and the cache is stable", "statement": "Whenever a top-level call returns, no query is marked active, the open-cycle counter is zero, the cache has only grown, and repeating the call returns the same value without running any body.", "quantifier": "every family of query functions and every history", "why_tests_cant": "all histories", "anchors": ["common/memoized.rs:internal_memoized_call", "common/memoized.rs:query_group"]}
{"id": "C15", "title": "cyclic queries terminate with the default", "statement": "If the set of argument values is finite, every call to a break_cycles query terminates, and a query that asks only for itself returns exactly the declared default.", "quantifier": "every finite family of total query functions", "why_tests_cant": "termination", "anchors": ["common/memoized.rs:query_group"]}
{"id": "C16", "title": "interned handles are equal iff the values are equal", "statement": "For handles produced by one interner over any sequence of intern calls, two handles compare equal iff the values they were created from are equal, and dereferencing a handle always yields the value interned. (Found false of the code for empty strings and slices, because handles compare thin pointers; true for all non-empty values.)", "quantifier": "every sequence of intern calls", "why_tests_cant": "all histories", "anchors": ["common/interner.rs:Interner::intern", "common/interner.rs:Interned"]}
{"id": "C17", "title": "interning is idempotent and allocation-minimal", "statement": "Re-interning a value returns the earlier handle; the arena holds exactly one allocation per distinct value interned so far, and old handles stay valid.", "quantifier": "every sequence of intern calls", "why_tests_cant": "all histories", "anchors": ["common/interner.rs:Interner::intern_slice", "common/interner.rs:Interner::intern_str"]}
{"id": "C18", "title": "lossy formatting is independent of how the bytes are chunked", "statement": "Writing a byte sequence in any sequence of slices, single bytes and fills and then flushing produces the same text as lossily decoding the whole concatenation at once, when the underlying writer never fails.", "quantifier": "every byte string, every way to split it into write_slice / write_byte / write_fill calls", "why_tests_cant": "all splits of all byte strings", "anchors": ["support/rs_std/lossy_formatter.rs:LossyFormatter"]}
{"id": "C19", "title": "valid UTF-8 passes through unchanged", "statement": "If the concatenation of everything written is valid UTF-8 the output text is exactly that text and nothing stays buffered.", "quantifier": "every valid UTF-8 string and every split of it", "why_tests_cant": "all strings", "anchors": ["support/rs_std/lossy_formatter.rs:LossyFormatter::write_slice"]}
{"id": "C20", "title": "the formatter never panics and buffers at most three bytes", "statement": "No internal assertion, expect or index in the formatter can fail; after any history the pending buffer holds a proper prefix (at most three bytes) of a well-formed multi-byte sequence.", "quantifier": "every history of operations and every writer behaviour", "why_tests_cant": "all histories", "anchors": ["support/rs_std/lossy_formatter.rs:IncompleteUtf8"]}
{"id": "C21", "title": "progress counts report write errors faithfully", "statement": "write_slice and write_fill return a count equal to the input length iff no underlying write failed, and never more than the input length; write_fill is equivalent to repeated write_byte even when the writer fails.", "quantifier": "every writer failure point and every history", "why_tests_cant": "all failure points", "anchors": ["support/rs_std/lossy_formatter.rs:write_slice", "support/rs_std/lossy_formatter.rs:write_fill"]}
{"id": "C22", "title": "feature lists behave as sets", "statement": "The feature set obtained from a list of names does not depend on the order or multiplicity of the names, and a list containing an unknown name is rejected.", "quantifier": "every list of names", "why_tests_cant": "all lists", "anchors": ["common/crubit_feature.rs:SerializedCrubitFeatures", "common/crubit_feature.rs:named_features"]}
{"id": "C23", "title": "no_assume_lifetimes always wins", "statement": "After resolution, the no_assume_lifetimes marker never appears; assume_lifetimes is enabled iff some listed name enables it and no listed name disables it; every other feature is enabled iff some listed name enables it.", "quantifier": "every list of names", "why_tests_cant": "all lists", "anchors": ["common/crubit_feature.rs:SerializedCrubitFeatures::resolved"]}
{"id": "C24", "title": "feature short names and the all/supported bundles are consistent", "statement": "Each feature is enabled by its own short name, distinct features have distinct short names, a single short name other than the bundles enables only its feature, and `supported` brings `types`.", "quantifier": "every feature", "why_tests_cant": "must track the whole table", "anchors": ["common/crubit_feature.rs:CrubitFeature::short_name", "common/crubit_feature.rs:named_features"]}
{"id": "C25", "title": "the C++ identifier of a label is collision free and well formed", "statement": "convert_to_cc_identifier maps different label strings to different identifiers, and every result is a valid C++ identifier (starts with underscore, only [A-Za-z0-9_]).", "quantifier": "every label string", "why_tests_cant": "injectivity over all strings", "anchors": ["rs_bindings_from_cc/bazel_label.rs:convert_to_cc_identifier"]}
{"id": "C26", "title": "label equality, ordering and hashing agree", "statement": "Label equality is an equivalence relation, compare returns Equal exactly for equal labels, is a total order, and equal labels hash the same components; //a/b and //a/b:b are equal.", "quantifier": "every pair/triple of labels", "why_tests_cant": "all labels", "anchors": ["rs_bindings_from_cc/bazel_label.rs:BazelLabel"]}
{"id": "C27", "title": "escaped crate names are usable and never shadow core", "statement": "target_name_escaped only contains ASCII alphanumerics and underscores, never starts with a digit, is never `core`, and is empty only if the target name is empty.", "quantifier": "every label string", "why_tests_cant": "all strings", "anchors": ["rs_bindings_from_cc/bazel_label.rs:target_name_escaped"]}
{"id": "C28", "title": "rs_std::char_ accepts exactly the Unicode scalar values", "statement": "from_u32 succeeds iff the argument is at most 0x10FFFF and not a surrogate, and the value converts back to the same integer; comparisons agree with the integer order.", "quantifier": "every 32-bit integer", "why_tests_cant": "2^32 inputs", "anchors": ["support/rs_std/char.h:char_::from_u32"]}
{"id": "C29", "title": "char_::encode_utf8 emits the well-formed UTF-8 encoding", "statement": "For every char_, encode_utf8 writes exactly len_utf8() bytes, they are the unique well-formed UTF-8 encoding of the scalar (decoding yields it back), bytes beyond are untouched, and too-small buffers are rejected.", "quantifier": "every scalar value and every buffer", "why_tests_cant": "all scalars", "anchors": ["support/rs_std/char.cc:encode_utf8", "support/rs_std/char.h:len_utf8"]}
{"id": "C30", "title": "merged namespace tree contains every namespace of every dependency and no other", "statement": "After merging any sequence of target hierarchies, a namespace path exists in the merged tree iff some merged target declares it.", "quantifier": "every list of hierarchies of any depth", "why_tests_cant": "all trees", "anchors": ["support/cc_import/merged_namespaces.rs:MergedNamespaceHierarchy::merge", "support/cc_import/merged_namespaces.rs:add_child"]}
{"id": "C31", "title": "which targets a merged namespace re-exports", "statement": "After merging a sequence of target hierarchies, a target is listed at a namespace path iff it declares the path and either the path is top level, or the target declares something inside it, or no target merged earlier declares it. (The intended rule, that every declaring target is listed, is false of the code for leaf namespaces at depth two or more: a witness is proved.)", "quantifier": "every list of hierarchies of any depth", "why_tests_cant": "all trees", "anchors": ["support/cc_import/merged_namespaces.rs:MergedNamespace::add_child", "support/cc_import/merged_namespaces.rs:to_use_stmts"]}
{"id": "C32", "title": "databases never see each other's side-table results", "statement": "A function memoised with memoized! returns, for each database, what its own body computes for that database, whatever was called on other databases, as long as at most 256 databases are created in the process; the 257th database reuses the first one's table (recorded as a disagreement).", "quantifier": "every interleaving of database creations and calls", "why_tests_cant": "needs all interleavings and a 257-database history", "anchors": ["common/memoized.rs:memoized", "common/memoized.rs:internal::db_index"]}
{"id": "C33", "title": "the reported namespace hierarchy of a target is exact", "statement": "For every acyclic IR, collecting the namespaces of the current target terminates, yields at every level siblings with pairwise distinct names however often namespaces are re-opened, and declares a namespace path iff some chain of nested namespace items owned by the current target has those names.", "quantifier": "every IR (any number of re-openings, any depth)", "why_tests_cant": "all IR graphs", "anchors": ["rs_bindings_from_cc/collect_namespaces.cc:CollectNamespaces", "rs_bindings_from_cc/collect_namespaces.cc:NamespaceTrie"]}
{"id": "C34", "title": "StrRef::FromUtf8 accepts exactly well-formed UTF-8", "statement": "For every byte string, validation terminates and StrRef::FromUtf8 returns a StrRef over exactly those bytes if the string is well-formed UTF-8 (the concatenation of the encodings of Unicode scalar values: no surrogates, no overlong forms, nothing above U+10FFFF, no truncation) and nullopt otherwise; Rust may therefore treat any StrRef built this way as &str.", "quantifier": "every byte string of every length", "why_tests_cant": "there are unboundedly many byte strings", "anchors": ["support/rs_std/internal/is_utf8.h:IsUtf8", "support/rs_std/internal/is_utf8.h:IsUtf8Char", "support/rs_std/str_ref.h:StrRef::FromUtf8"]}
{"id": "C35", "title": "SliceRef never hands Rust a null or misaligned pointer and behaves like a span", "statement": "Whatever pointer and size a SliceRef is built from, the pointer word Rust sees is non-null and aligned if the input was; size and (when non-empty) pointer are those it was built from; converting to a span and back gives the same slice; two slices compare equal iff they have equal length and equal elements.", "quantifier": "every pointer, size, alignment and memory content", "why_tests_cant": "all pointer/size pairs and contents", "anchors": ["support/rs_std/slice_ref.h:SliceRef", "support/rs_std/slice_ref.h:EqualImpl"]}
{"id": "C36", "title": "the mutable-aliasing check is exact", "statement": "For any number of reference, pointer and slice arguments, a generated C++ function goes on to call Rust iff no two distinct mutable arguments share a byte and no mutable argument shares a byte with a const one, whatever order std::sort leaves equal elements in.", "quantifier": "every number of arguments, every address layout, every sort implementation", "why_tests_cant": "unboundedly many argument counts and layouts", "anchors": ["support/internal/check_no_mutable_aliasing.h:HasMutableAliasing", "support/internal/check_no_mutable_aliasing.cc:HasMutableAliasingSpans", "support/internal/check_no_mutable_aliasing.h:CheckNoMutableAliasing"]}
{"id": "C37", "title": "Movable and Slot destroy every object exactly once", "statement": "In every history of constructions, moves, copies, self-assignments, mutations and destructions of rs::Movable objects and of filling, taking and dropping crubit::Slots, nothing is constructed over a live object, read or destroyed when absent, or destroyed twice; each Movable reads as an optional value that a move leaves valueless; when everything is gone every constructed object has been destroyed, except values left in a slot that was destructed while full.", "quantifier": "every history of operations on any number of objects, for relocatable and non-relocatable T", "why_tests_cant": "all histories", "anchors": ["support/movable.h:Movable", "support/movable.h:internal::Relocate", "support/internal/slot.h:Slot"]}
{"id": "C38", "title": "nullability inference does not depend on the order or grouping of evidence", "statement": "Any two ways of merging the same evidence for a slot (any order, any grouping into partial results, any map iteration order) reach the same nullability, conflict flag and trivial flag; a given merging history always yields the same samples, at most three of a kind, at distinct locations, each a real piece of evidence, fewer than three only if all locations are shown; evidence collected from test code is ignored; grouping by slot gives every slot the verdict of exactly its own evidence.", "quantifier": "every list of evidence, every merge tree, every iteration order", "why_tests_cant": "all merge trees and permutations", "anchors": ["nullability/inference/merge.cc:mergePartials", "nullability/inference/merge.cc:finalize", "nullability/inference/merge.cc:mergeSampleEvidence", "nullability/inference/infer_tu.cc:groupAndMergeEvidence"]}
{"id": "C39", "title": "the inference decision follows the documented precedence", "statement": "With fewer than 2^32 pieces of evidence: contradictory annotations give Unknown with a conflict, one annotation decides alone and is trivial; otherwise a conflict is reported iff some evidence demands Nonnull and some demands Nullable, uncontested demands decide, an unchecked dereference always gives Nonnull, and Nonnull/Nullable is never concluded without evidence that demands or suggests it. With 2^32 pieces the counter wraps and evidence is forgotten (disagreement).", "quantifier": "every multiset of evidence", "why_tests_cant": "all combinations of evidence kinds and counts", "anchors": ["nullability/inference/merge.cc:infer", "nullability/inference/merge.cc:update", "nullability/inference/inference.proto:Evidence"]}
{"id": "C40", "title": "a nullability verdict says exactly what is known about the pointer", "statement": "With a solver that answers, at any program point and under any additional constraints, a pointer is NonNull iff no run reaching the point leaves it null, Nullable iff it is not NonNull and either it is null in every run (and the point is reachable) or some run has it null with a nullable source, Unspecified otherwise. A solver that gives up can only turn a verdict less definite: NonNull and Nullable remain justified. A nullptr literal is Nullable iff its point is reachable; contradictory additional constraints on a reachable point wrongly give Nullable (disagreement).", "quantifier": "every flow condition, null state, constraint and solver", "why_tests_cant": "quantifies over all runs described by a flow condition, and all solver timeouts", "anchors": ["nullability/pointer_nullability.cc:getNullability", "nullability/pointer_nullability.cc:isNullable", "nullability/pointer_nullability.cc:isReachableNullptrLiteral"]}
{"id": "C41", "title": "joining two paths loses no run and invents none", "statement": "After joining two environments, each run of either path is a run of the join with the same program facts and the null state of that path; in each run of the join, each merged property has the value it has on a path the run takes, and both come from the same path if the run takes only one; the pointer is NonNull after the join iff it is NonNull at the end of both paths; a pointer that may be null from a nullable source on one path is Nullable after the join. Because the two properties are merged one by one, NonNull joined with Unspecified can give Nullable (disagreement).", "quantifier": "every pair of flow conditions and null states", "why_tests_cant": "all formulas and flow-condition graphs", "anchors": ["nullability/pointer_nullability_analysis.cc:PointerNullabilityAnalysis::join", "nullability/pointer_nullability_analysis.cc:mergeFormulas"]}
{"id": "C42", "title": "widening is sound and a pointer cannot change forever in a row", "statement": "Widening never makes a pointer NonNull that was not, and never hides a pointer that may be null from a nullable source; it reports Unchanged only if each property was unknown, identical or provably equal before and now; at most three consecutive iterations can report a change for a pointer. However a property that became unknown does not stay unknown, and with two pointers every iteration can change one of them for ever (disagreement).", "quantifier": "every sequence of loop iterations", "why_tests_cant": "unboundedly many iterations and all formulas", "anchors": ["nullability/pointer_nullability_analysis.cc:PointerNullabilityAnalysis::widen", "nullability/pointer_nullability_analysis.cc:widenNullabilityProperty"]}
{"id": "C43", "title": "a pointer gets the nullability of its source until it is checked", "statement": "At any reachable point a new pointer gets the verdict of its source (NonNull, Nullable or Unspecified; unknown source: Nullable), a symbolic source gives NonNull where the symbol is assumed non-null; the first source wins; in the branch where a pointer was tested non-null it is NonNull whatever its source, in the reachable branch where it was tested null it is Nullable, and a branch contradicting what is known is unreachable.", "quantifier": "every context, flow condition, source and null state", "why_tests_cant": "all contexts and formulas", "anchors": ["nullability/pointer_nullability.cc:initPointerNullState", "nullability/pointer_nullability.cc:tryCreatePointerNullState", "nullability/pointer_nullability.cc:getNullability"]}
{"id": "C44", "title": "created lifetimes are pairwise distinct", "statement": "In any history of fewer than 2^31-2 creations of variable lifetimes and 2^31-1 of local ones, by any threads, the created lifetimes are pairwise distinct, valid, of the requested kind and none is the static lifetime. The 2^31-1st variable is a local constant (disagreement: the counter wraps).", "quantifier": "every history and interleaving of creations", "why_tests_cant": "histories of 2^31 calls, all interleavings", "anchors": ["lifetime_annotations/lifetime.cc:CreateVariable", "lifetime_annotations/lifetime.cc:CreateLocal"]}
{"id": "C45", "title": "the lifetime symbol table is a one-to-one mapping with first-unused generated names", "statement": "Generated names are all the non-empty lowercase words, shortest first then alphabetical, each once. Naming an unnamed lifetime always ends and gives it the first word not yet in the table, whatever was declared before; after any history that respects the preconditions a name stands for a lifetime iff the lifetime has that name; declaring a name makes a lifetime nothing was called before; a name stays bound until it is rebound. Rebinding to a lifetime that already has a name breaks the mapping, and \"static\" is among the generated names (disagreements).", "quantifier": "every history of declarations, additions, rebindings and generated names", "why_tests_cant": "all histories; names of unbounded length", "anchors": ["lifetime_annotations/lifetime_symbol_table.cc:LookupLifetimeAndMaybeDeclare", "lifetime_annotations/lifetime_symbol_table.cc:NameFromIndex", "lifetime_annotations/lifetime_symbol_table.cc:Rebind"]}
{"id": "C46", "title": "lifetime substitution always ends, and adding composes", "statement": "After any history of Adds for variables, in any order, with repetitions, self-substitutions and circles, Add and Substitute return; the result is final; constants are unchanged; Add(v, l) makes exactly the lifetimes replaced through v end where l ended, and for a v not replaced before it is the composition of substitutions.", "quantifier": "every history of additions and every lifetime", "why_tests_cant": "termination and all histories", "anchors": ["lifetime_annotations/lifetime_substitutions.cc:Add", "lifetime_annotations/lifetime_substitutions.cc:Substitute"]}
{"id": "C47", "title": "the outliving lifetimes are exactly the implied ones", "statement": "For every set of outlives constraints, with circles or not, GetOutlivingLifetimes(l) returns, and returns exactly the other lifetimes that are at least l in every ordering that satisfies the constraints; joining constraints is conjunction and reports Changed iff a constraint was added.", "quantifier": "every set of constraints, every lifetime, every interpretation", "why_tests_cant": "termination and logical consequence over all interpretations", "anchors": ["lifetime_analysis/lifetime_constraints.cc:GetOutlivingLifetimes", "lifetime_analysis/lifetime_constraints.cc:join"]}
{"id": "C48", "title": "the lifetime lattice join is a least upper bound and cannot change for ever", "statement": "The join of two analysis states says exactly what either says (points-to facts, object sets, constraints, objects that are not single-valued; an error says everything, the first error is kept); it reports Changed iff something is new and otherwise leaves the state untouched; a run drawing facts from a finite set U is changed at most |U|+1 times; setting, extending and reading points-to sets do what they say. Equality ignores the single-valued objects, so a Changed state can equal the old one, and a doubly parenthesized expression is a fatal error (disagreements).", "quantifier": "every pair of states and every sequence of joins", "why_tests_cant": "all histories of joins; all finite maps", "anchors": ["lifetime_analysis/lifetime_lattice.cc:join", "lifetime_analysis/lifetime_lattice.cc:operator==", "lifetime_analysis/points_to_map.cc:Union", "lifetime_analysis/points_to_map.cc:GetExprObjectSet"]}
{"id": "C49", "title": "applying constraints to a signature is sound and merges exactly what is linked", "statement": "For every set of constraints, every signature of variables and static lifetimes and every hash order, ApplyToFunctionLifetimes returns without failing an assertion; it fails iff a local is implied to outlive static; otherwise a lifetime becomes static iff it is implied to outlive static, local iff it is outlived by a local, and other lifetimes become equal iff linked by implied constraints through such lifetimes; so every implied constraint is met. The outcome does not depend on hash order up to the choice of representatives.", "quantifier": "every constraint set, signature and iteration order", "why_tests_cant": "all graphs and all hash orders", "anchors": ["lifetime_analysis/lifetime_constraints.cc:ApplyToFunctionLifetimes", "lifetime_analysis/lifetime_constraints.cc:LifetimeDSU"]}
{"id": "C50", "title": "constraints for callable substitution are exactly what convertibility needs", "statement": "For two signatures of the same type, of any nesting (pointers to const and non-const, template arguments, lifetime parameters, functions returning and taking functions, this), the full constraints for callable substitution hold under an ordering of lifetimes iff a value of the first signature may be used as one of the second; the projected constraints mention only lifetimes of the first and hold iff the ordering can be extended to make the conversion valid; IsIsomorphic answers true iff each can be used as the other whatever is assumed about its own lifetimes. The documented direction is the opposite, and a signature with static is isomorphic to one with a variable (disagreements).", "quantifier": "every pair of signatures of the same type and every ordering of lifetimes", "why_tests_cant": "types nest without bound; all orderings", "anchors": ["lifetime_analysis/lifetime_constraints.cc:CollectLifetimeConstraints", "lifetime_analysis/lifetime_constraints.cc:ForCallableSubstitution", "lifetime_analysis/lifetime_constraints.cc:ForCallableSubstitutionFull", "lifetime_analysis/analyze.cc:IsIsomorphic"]}
{"id": "C51", "title": "after constraining, every overriding method can be called through the base", "statement": "For a base method whose lifetimes are variables and any list of overriding methods with lifetimes of their own, in any order and for every hash order, constraining succeeds, replaces lifetimes of the base by lifetimes of the base, merges exactly those linked by the constraints, and afterwards for every meaning of the base lifetimes every override is usable as the base. With a static lifetime in an override this fails: the base stays unchanged (disagreement).", "quantifier": "every base, every list of overrides, every meaning of lifetimes", "why_tests_cant": "all signatures, all hierarchies, all hash orders", "anchors": ["lifetime_analysis/analyze.cc:UpdateFunctionLifetimesWithOverrides", "lifetime_analysis/analyze.cc:ConstrainLifetimes"]}
{"id": "C52", "title": "lifetime names form a stack of scopes and are never reused", "statement": "For any history of binding names, asking for fresh names, using names and closing bindings, a use gives the newest open binding of the name (or makes one), a new binding gets the name itself or the least numbered variant nobody had before, closing restores the binding below, and it panics exactly if there is no open binding; the search for a fresh name always ends.", "quantifier": "every history of operations", "why_tests_cant": "unbounded histories and names", "anchors": ["rs_bindings_from_cc/generate_bindings/lifetime_defaults_transform.rs:BindingContext", "rs_bindings_from_cc/generate_bindings/lifetime_defaults_transform.rs:fresh_name_for", "rs_bindings_from_cc/generate_bindings/lifetime_defaults_transform.rs:push_new_binding", "rs_bindings_from_cc/generate_bindings/lifetime_defaults_transform.rs:get_or_push_new_binding", "rs_bindings_from_cc/generate_bindings/lifetime_defaults_transform.rs:pop_binding"]}
{"id": "C53", "title": "transformed functions only use declared lifetimes", "statement": "Whatever the parameters, annotations and enclosing items, a transformed function declares each lifetime once, under names no enclosing item uses; each place of a parameter that takes a lifetime has none or one declared by the function or an enclosing item or static; the same for the result, apart from unknown and from lifetimes below an annotated reference (disagreements).", "quantifier": "every function, every nesting of items", "why_tests_cant": "types nest without bound; any number of parameters and binders", "anchors": ["rs_bindings_from_cc/generate_bindings/lifetime_defaults_transform.rs:add_lifetime_to_func", "rs_bindings_from_cc/generate_bindings/lifetime_defaults_transform.rs:add_lifetime_to_input_type", "rs_bindings_from_cc/generate_bindings/lifetime_defaults_transform.rs:add_lifetime_to_output_type", "rs_bindings_from_cc/generate_bindings/lifetime_defaults_transform.rs:bind_lifetime_inputs"]}
{"id": "C54", "title": "default lifetimes follow the elision rules", "statement": "A function without lifetimebound is always accepted; nothing but lifetimes changes (and this becomes a reference); each unannotated place of a parameter gets a lifetime of its own, annotations get the innermost binder; unannotated places of the result get the lifetime of this, otherwise the one lifetime shared by all outermost places of the parameters; if there is none, references in the result become raw non-null pointers. An undeclared annotation can be captured by a name invented for an earlier parameter (disagreement).", "quantifier": "every function without lifetimebound", "why_tests_cant": "types nest without bound; any number of parameters", "anchors": ["rs_bindings_from_cc/generate_bindings/lifetime_defaults_transform.rs:add_lifetime_to_func", "rs_bindings_from_cc/generate_bindings/lifetime_defaults_transform.rs:LifetimeState", "rs_bindings_from_cc/generate_bindings/lifetime_defaults_transform.rs:add_lifetime_to_output_type"]}
{"id": "C55", "title": "lifetimebound ties the result to the bound parameters", "statement": "If a parameter marked lifetimebound gets a lifetime then the result gets the same; conflicting annotations on bound parameters and the result are rejected and agreeing ones accepted; a record and its methods agree about the names of the lifetimes of the record; a bound method of a record with one lifetime that keeps its name gives it to *this and the result. With nested records whose lifetimes share a name the method uses a lifetime of its own (disagreement).", "quantifier": "every function, every annotation, every nesting of records", "why_tests_cant": "any number of parameters and any names", "anchors": ["rs_bindings_from_cc/generate_bindings/lifetime_defaults_transform.rs:lower_clang_annotations", "rs_bindings_from_cc/generate_bindings/lifetime_defaults_transform.rs:inject_lifetimes_into_this", "rs_bindings_from_cc/generate_bindings/lifetime_defaults_transform.rs:bind_lifetime_inputs", "rs_bindings_from_cc/generate_bindings/lifetime_defaults_transform.rs:add_lifetime_to_record"]}
{"id": "C56", "title": "the Rust struct has the layout of the C++ struct", "statement": "For every C++ struct whose fields are placed in order (naturally aligned, bitfields packed, the tail of an opaque field possibly reused, any bytes in front for bases and vtable), generation does not panic and the repr(C) struct has the size and alignment of the record and each field that takes space and is no bitfield at its C++ offset, with its size if its type is known; the generated assertions hold.", "quantifier": "every list of fields, sizes, alignments", "why_tests_cant": "all records; layouts depend on all neighbours", "anchors": ["rs_bindings_from_cc/generate_bindings/generate_struct_and_union.rs:generate_record", "rs_bindings_from_cc/generate_bindings/generate_struct_and_union.rs:field_definition", "rs_bindings_from_cc/generate_bindings/database/code_snippet.rs:BitPadding"]}
{"id": "C57", "title": "the Rust union has the layout of the C++ union", "statement": "For every C++ union whose bitfields are no wider than its alignment, generation does not panic and the repr(C) union has its size and alignment, each member at offset 0. With wider bitfields the size may be too small (disagreement).", "quantifier": "every list of members", "why_tests_cant": "all unions", "anchors": ["rs_bindings_from_cc/generate_bindings/generate_struct_and_union.rs:generate_record", "rs_bindings_from_cc/generate_bindings/generate_struct_and_union.rs:field_definition"]}
{"id": "C58", "title": "every class laid out by the Itanium ABI gets the right layout", "statement": "For every class given by its declarations (fields of known or opaque type, no_unique_address fields, bitfields with or without name) after any base and vtable bytes, laid out by the Itanium ABI rules, the Rust type has the same size, alignment and offsets; a thread-safe record becomes one opaque member of the same size and alignment. Fields without size (empty no_unique_address fields, zero-width bitfields) break this (disagreements).", "quantifier": "every list of declarations without empty fields, every base", "why_tests_cant": "all classes", "anchors": ["rs_bindings_from_cc/generate_bindings/generate_struct_and_union.rs:generate_record", "rs_bindings_from_cc/importers/cxx_record.cc:ImportFields"]}
{"id": "C59", "title": "the C++ class has the layout of the Rust struct", "statement": "For every layout of a Rust struct (any order of the fields, gaps anywhere but at the start, fields with and without a C++ type, zero-sized fields without C++ type, repr(C), packed), generation does not panic and the C++ class has its size and alignment, each field that has a C++ type is a member of the right size at the Rust offset, members for fields are at the offsets the generated assertions check, and the bytes of all other fields are in members without a type. repr(C, packed(2)) breaks this (disagreement).", "quantifier": "every list of fields, every order and offsets chosen by rustc", "why_tests_cant": "all structs; layouts depend on all neighbours", "anchors": ["cc_bindings_from_rs/generate_bindings/generate_struct_and_union.rs:generate_struct", "cc_bindings_from_rs/generate_bindings/generate_struct_and_union.rs:variant_fields", "cc_bindings_from_rs/generate_bindings/generate_struct_and_union.rs:emit_struct_field", "cc_bindings_from_rs/generate_bindings/generate_struct_and_union.rs:emit_field_err"]}
{"id": "C60", "title": "C++ unions and tagged unions have the layout of Rust unions and repr(C) enums", "statement": "For every Rust union whose fields have C++ types, the C++ union has its size and alignment and all members. For every repr(C) enum with any variants and fields with C++ types and any size of the tag, generation does not panic, and the C++ class has its size and alignment and the same tag, and all fields of all variants are at the offsets chosen by rustc. Fields without C++ type break both (disagreements).", "quantifier": "every list of fields; every list of variants and fields", "why_tests_cant": "all unions and enums", "anchors": ["cc_bindings_from_rs/generate_bindings/generate_struct_and_union.rs:generate_union", "cc_bindings_from_rs/generate_bindings/generate_struct_and_union.rs:generate_enum", "cc_bindings_from_rs/generate_bindings/query_compiler.rs:get_tag_size_with_padding"]}
{"id": "C61", "title": "constructors of variants without fields build the value rustc would build", "statement": "For enums represented as bytes, the bytes of a variant without fields have the size of the enum, contain the tag value at the offset of the tag in the byte order of the target, and zeros elsewhere, for all sizes, offsets and values of the tag that fit.", "quantifier": "every size, tag offset, tag size and value, both byte orders", "why_tests_cant": "all 128-bit tags", "anchors": ["cc_bindings_from_rs/generate_bindings/generate_struct_and_union.rs:generate_enum"]}
{"id": "C62", "title": "shared_ptr never dangles, never leaks and destroys its value exactly once", "statement": "Under any interleaving of any number of threads in Rust and C++ that create, clone, project, release, lock and drop shared_ptr and weak_ptr, no step uses freed memory; whatever a shared_ptr points to is alive; a value is destroyed at most once and not before its last owner is gone, its memory freed at most once and after it; when drops have run, a value without owners is destroyed exactly once and without weak_ptrs its memory is freed; the Box, Arc or deleter argument it owned is released exactly once, when it is destroyed.", "quantifier": "every program, every schedule, every number of threads and pointers", "why_tests_cant": "interleavings and histories are unbounded", "anchors": ["support/cc_std_impl/shared_ptr.rs:shared_ptr", "support/cc_std_impl/shared_ptr.rs:SharedInner::deleter", "support/cc_std_impl/std_allocator.h:DynControlBlock"]}
{"id": "C63", "title": "shared_ptr counts are exact and drops finish", "statement": "In every reachable state use_count is the number of owners, an Arc counts all shared_ptrs made from it as one, Boxes have at most one owner, lock gives a pointer iff there is an owner, and drops under way can always be completed without changing other pointers.", "quantifier": "every reachable state of every program", "why_tests_cant": "interleavings and histories are unbounded", "anchors": ["support/cc_std_impl/shared_ptr.rs:use_count", "support/cc_std_impl/shared_ptr.rs:from_arc", "support/cc_std_impl/shared_ptr.rs:clone"]}
{"id": "C64", "title": "vector behaves as Vec", "statement": "Every program that moves vectors between Rust and C++ and calls any methods on them in any order has no undefined behaviour and no ASan report, and every vector has the elements, length and capacity that a Vec, a plain list with a capacity, would have; push, insert, extend, pop, remove, swap_remove, truncate, retain, reserve, append, split_off, clone, into_iter in both directions, and conversions from and to Vec do what their documentation says.", "quantifier": "every sequence of operations, every number of vectors, elements and capacities", "why_tests_cant": "histories are unbounded; freed, poisoned and uninitialized memory show only under some of them", "anchors": ["support/cc_std_impl/vector.rs:vector", "support/cc_std_impl/vector.rs:mutate_self_as_vec", "support/cc_std_impl/vector.rs:set_begin_len_capacity", "support/cc_std_impl/vector.rs:create_vec_from_raw_parts"]}
{"id": "C65", "title": "elements of vectors are dropped exactly once, and memory is freed", "statement": "In every such program each element is made once, owned by at most one value, dropped at most once and never while owned; without panics nothing is leaked, and when no value is left all elements have been dropped exactly once. Every allocation not yet freed belongs to exactly one vector or iterator, and none is left when no value is left.", "quantifier": "every sequence of operations", "why_tests_cant": "histories are unbounded", "anchors": ["support/cc_std_impl/vector.rs:drop", "support/cc_std_impl/vector.rs:into_vec", "support/cc_std_impl/vector.rs:into_iter", "support/cc_std_impl/vector.rs:split_off", "support/cc_std_impl/vector.rs:append"]}
{"id": "C66", "title": "C++ always sees a valid std::vector", "statement": "Between any two operations each vector has the representation libc++ expects: three null pointers exactly when the capacity is 0, otherwise start, end and end of capacity in one allocation of that capacity whose first elements are those of the vector, and the ASan annotation covers exactly the tail (unless prepare_to_write_into_tail or a panic opened it).", "quantifier": "every sequence of operations", "why_tests_cant": "histories are unbounded; the representation after each is not observable from Rust", "anchors": ["support/cc_std_impl/vector.rs:poison_tail", "support/cc_std_impl/vector.rs:unpoison_tail", "support/cc_std_impl/vector.rs:set_len", "support/cc_std_impl/vector.rs:prepare_to_write_into_tail"]}
{"id": "C67", "title": "a panic that has not yet moved or removed elements leaves the vector valid", "statement": "If a method panics in user code before it grew, shrank or removed anything, the vector keeps its length and capacity and all operations remain safe, at worst leaking the new elements. A panic after growth leaves a dangling vector, and a panic after a removal drops elements twice (disagreements).", "quantifier": "every program, every point of the panic before growth or removal", "why_tests_cant": "panics can happen in any user code at any time", "anchors": ["support/cc_std_impl/vector.rs:mutate_self_as_vec"]}
{"id": "C68", "title": "values constructed in place stay pinned", "statement": "In every program that emplaces values in boxes, Rc, Arc, on the stack or in slots with any nesting of Ctor combinators, ctor!{} fields, slots and ManuallyDrop, replaces, clears, reconstructs and drops them, with errors and panics in any constructors: a value constructed in place is dropped at the address where it was constructed, memory is never constructed into while a value is there, and never freed before the values pinned in it are dropped (ManuallyDrop excepted). A failing closure given to ctor_then breaks this (disagreement).", "quantifier": "every program, every nesting of Ctors, every constructor that fails or panics", "why_tests_cant": "failures can happen at any constructor at any depth", "anchors": ["support/ctor.rs:Ctor", "support/ctor.rs:unsafe_ctor_impl", "support/ctor.rs:Slot", "support/ctor.rs:Emplace", "support/ctor.rs:reconstruct"]}
{"id": "C69", "title": "every value given to or made by a Ctor is dropped exactly once", "statement": "In every such program each value, whether moved into a Ctor, made by one, or partially constructed when a later field fails or panics, is dropped at most once, is undropped exactly while the program still has it, and when nothing is left every value has been dropped exactly once; a struct is only dropped as a whole if all its fields were constructed.", "quantifier": "every program, every failure point", "why_tests_cant": "failures can happen at any constructor at any depth", "anchors": ["support/ctor.rs:unsafe_ctor_impl", "support/ctor.rs:UnsafeDropGuard", "support/ctor.rs:Slot::clear", "support/ctor.rs:CtorOrElse"]}
{"id": "C70", "title": "Ctor combinators give the documented results", "statement": "Emplacing any Ctor succeeds, fails with the same error or panics exactly as the corresponding expression on Result (and_then, map_err, or_else, expect, unwrap, unwrap_or_default) would, the value has one field per Ctor in order, a failed replace leaves the slot empty, and a failed reconstruct aborts.", "quantifier": "every nesting of Ctors", "why_tests_cant": "all combinations of combinators", "anchors": ["support/ctor.rs:CtorThen", "support/ctor.rs:CtorMapErr", "support/ctor.rs:CtorOrElse", "support/ctor.rs:CtorExpect", "support/ctor.rs:CtorUnwrapOrDefault", "support/ctor.rs:try_replace"]}
{"id": "C71", "title": "rs_std::Option and Rust agree on every value", "statement": "After any sequence of constructions, assignments, conversions from and to std::optional, moves, copies, relocations and writes by Rust, for any payload type, tag size, tag position and niche: has_value() is true exactly when Rust reads Some, operator* yields the bytes Rust reads and aborts for None, and the value is the one an ordinary optional would hold. For little-endian targets or one-byte tags (big-endian disagrees, see DESIGN.md).", "quantifier": "every layout rustc may choose, every payload type, every history", "why_tests_cant": "layouts and histories are unbounded", "anchors": ["cc_bindings_from_rs/generate_bindings/generate_template_specialization.rs:specialize_option", "cc_bindings_from_rs/generate_bindings/generate_template_specialization.rs:OptionApiGenerator", "support/rs_std/option.h:OptionBase"]}
{"id": "C72", "title": "payloads of rs_std::Option are constructed and destroyed exactly once", "statement": "No sequence of operations on options constructs a payload over a live one, destroys or uses one that is not live, writes outside the storage, or releases storage in which a payload with a destructor is live; a payload is live exactly when has_value() is true.", "quantifier": "every layout, every payload type, every history", "why_tests_cant": "histories are unbounded; a leak or double destruction is invisible to most tests", "anchors": ["cc_bindings_from_rs/generate_bindings/generate_template_specialization.rs:OptionApiGenerator::api_snippets", "support/rs_std/option.h:reset", "support/internal/move_assign.h:MoveAssignOrDestroyAndConstruct"]}
{"id": "C73", "title": "rs_std::Result and Rust agree on every value", "statement": "After any sequence of constructions, assignments of values and errors, moves, copies, relocations and writes by Rust, for any two payload types, whichever variant carries the niche: has_value() is true exactly when Rust reads Ok, value() and error() yield the bytes Rust reads or abort, and the result is the one last stored.", "quantifier": "every layout rustc may choose, every pair of payload types, every history", "why_tests_cant": "layouts and histories are unbounded", "anchors": ["cc_bindings_from_rs/generate_bindings/generate_template_specialization.rs:specialize_result", "cc_bindings_from_rs/generate_bindings/generate_template_specialization.rs:ResultApiGenerator", "support/rs_std/result.h:ResultBase"]}
{"id": "C74", "title": "payloads of rs_std::Result are constructed and destroyed exactly once", "statement": "No sequence of operations on results constructs a payload over a live one, destroys or uses one that is not live or of the other variant, writes outside the storage or releases storage with a live payload; tag writes never change a live payload; exactly one payload is live and it is the one the tag selects. Assigning a result its own error breaks this (disagreement).", "quantifier": "every layout, every pair of payload types, every history", "why_tests_cant": "histories are unbounded", "anchors": ["cc_bindings_from_rs/generate_bindings/generate_template_specialization.rs:ResultApiGenerator::api_snippets", "support/rs_std/result.h:Reset"]}
{"id": "C75", "title": "rs_std::DynCallable behaves like an owning slot for one Rust closure", "statement": "For every client program of DynCallable operations (receiving from Rust, default and move construction, move assignment incl. aliasing, swap incl. self-swap, calls, bool checks, passing to Rust, conversion to absl::AnyInvocable, destruction) and each of the const, plain and && signatures: the calls, drops, hand-overs, bool answers and terminations are those of a variable that is empty, holds one closure, or is spent; undefined behaviour arises exactly when an empty callable is called, a non-empty one is moved to itself, or a spent one is sent to Rust.", "quantifier": "every program, any number of variables and closures, every signature kind", "why_tests_cant": "histories and aliasing are unbounded", "anchors": ["support/rs_std/dyn_callable.h:ManagedCallable", "support/rs_std/dyn_callable.h:Impl", "support/rs_std/dyn_callable.h:DynCallableAbi", "support/rs_std/dyn_callable.rs:manager", "rs_bindings_from_cc/generate_bindings/lib.rs:generate_dyn_callable_invoker_and_manager_defs"]}
{"id": "C76", "title": "every Rust closure passed to C++ is released exactly once", "statement": "In every run each closure is called, dropped, consumed or handed over only while C++ owns it, and once all DynCallable variables are gone every closure received has been dropped, consumed, or given to Rust or AnyInvocable exactly once per receipt.", "quantifier": "every program, including ones that terminate", "why_tests_cant": "double drops and leaks depend on the whole history", "anchors": ["support/rs_std/dyn_callable.h:ManagedCallable", "support/rs_std/dyn_callable.rs:DynCallableAbi"]}
{"id": "C77", "title": "checking a DynCallable for emptiness is enough", "statement": "For const and non-const signatures, after any completed program, any next operation other than a self-move is well defined provided calls are only made on callables that bool(f) reports as non-empty. For && signatures this is false: a spent callable reports true (disagreement).", "quantifier": "every program and every next operation", "why_tests_cant": "histories are unbounded", "anchors": ["support/rs_std/dyn_callable.h:HasValue", "support/rs_std/dyn_callable.h:operator()"]}
{"id": "C78", "title": "a Rust function called from C++ sees the caller's arguments and returns its own result", "statement": "For every signature of passable types and every body, calling the generated C++ function runs the body exactly once on the caller's argument values (translated to their Rust side where the type is bridged) and returns exactly the body's result (translated back); when no type is bridged, the call is the identity on both.", "quantifier": "any number of parameters, tuples nested to any depth, every mix of by-value, by-pointer, bridged and buffer-encoded types, methods and free functions, with and without LayoutCompatTuple, every body and every argument value", "why_tests_cant": "signatures nest without bound and each passing convention is a pair of code generators that must agree", "anchors": ["cc_bindings_from_rs/generate_bindings/generate_function.rs:cc_param_to_c_abi", "cc_bindings_from_rs/generate_bindings/generate_function.rs:cc_return_value_from_c_abi", "cc_bindings_from_rs/generate_bindings/generate_function.rs:generate_thunk_call", "cc_bindings_from_rs/generate_bindings/generate_function_thunk.rs:generate_thunk_impl", "cc_bindings_from_rs/generate_bindings/generate_function_thunk.rs:convert_value_from_c_abi_to_rust", "cc_bindings_from_rs/generate_bindings/generate_function_thunk.rs:write_rs_value_to_c_abi_ptr", "support/internal/slot.h:Slot"]}
{"id": "C79", "title": "every owned value passed to or returned from Rust has exactly one owner", "statement": "When the body starts it owns exactly what the arguments owned and no C++ argument object (including *this of a consuming method) owns anything any more, so their destructors release nothing; the wrapper's own destructors release nothing; the caller owns exactly what the result owned, except that annotated conversion functions clone and Rust then drops exactly the originals. False for repr(transparent) wrappers with drop glue, which are released twice (disagreement).", "quantifier": "as C78", "why_tests_cant": "double drops and leaks appear only for particular nestings of droppable types", "anchors": ["cc_bindings_from_rs/generate_bindings/generate_function.rs:cc_param_to_c_abi", "cc_bindings_from_rs/generate_bindings/generate_function.rs:cc_return_value_from_c_abi", "cc_bindings_from_rs/generate_bindings/generate_function_thunk.rs:write_rs_value_to_c_abi_ptr", "support/internal/slot.h:AssumeInitAndTakeValue"]}
{"id": "C80", "title": "calling a C++ function through its Rust binding does what the C++ call would do", "statement": "For every C++ function that gets bindings (free functions, methods incl. virtual, inherited and &&-qualified, constructors, comparison operators), every body and every argument list that fits the Rust signature: the call goes through; the function that runs is the one a C++ call would run (the final overrider for a virtual method); its parameters have the passed values (a bridged value through its codec, a copy where the trait wants a reference, the contents of the caller's object where an immovable type is passed as an rvalue); the caller gets the function's own result, negated for != built on ==; the world is what the function left.", "quantifier": "any number of parameters of every passing convention in any mix, every result type, every body, every argument value, every world, with and without a thunk", "why_tests_cant": "each parameter type has its own pair of code generators in two languages that must agree, and signatures mix them without bound", "anchors": ["rs_bindings_from_cc/generate_bindings/generate_function.rs:function_signature", "rs_bindings_from_cc/generate_bindings/generate_function.rs:generate_func_body", "rs_bindings_from_cc/generate_bindings/generate_function.rs:materialize_ctor_in_caller", "rs_bindings_from_cc/generate_bindings/generate_function.rs:adjust_param_types_for_trait_impl", "rs_bindings_from_cc/generate_bindings/generate_function_thunk.rs:generate_function_thunk", "rs_bindings_from_cc/generate_bindings/generate_function_thunk.rs:generate_cc_thunk_parts", "rs_bindings_from_cc/generate_bindings/generate_function_thunk.rs:can_skip_cc_thunk", "rs_bindings_from_cc/generate_bindings/database/rs_snippet.rs:passing_convention"]}
{"id": "C81", "title": "a call to C++ releases every owned value exactly once and leaves no memory in use", "statement": "What a call releases is exactly what the C++ function released itself, what its by-value parameters still owned when it returned, a result the binding drops, and whatever the moved-from arguments, temporaries and copies were left with; in particular arguments the function leaves alone are released once each and nothing else is; afterwards every local, temporary, byte buffer, thunk parameter and result slot is empty, so nothing is leaked.", "quantifier": "as C80", "why_tests_cant": "double drops and leaks show only for particular combinations of conventions, and most tests do not observe them", "anchors": ["rs_bindings_from_cc/generate_bindings/generate_function.rs:generate_func_body", "rs_bindings_from_cc/generate_bindings/generate_function_thunk.rs:generate_cc_thunk_parts", "support/bridge.h"]}
{"id": "C82", "title": "the extern \"C\" declaration in the Rust file matches what it is linked with", "statement": "For every function and every shape of its Rust API, the parameters and the result of the extern \"C\" declaration are passed the same way (as a value, as the address of an object, as the address of a byte buffer, as an added out parameter) as those of the C++ thunk; and when no thunk is generated the C++ function has a symbol, unique and with the C calling convention, its own parameters and result are passed as declared, and jumping to it without dispatch is what a C++ call would do.", "quantifier": "every function, every shape", "why_tests_cant": "a mismatch is undefined behaviour that often happens to work in a test", "anchors": ["rs_bindings_from_cc/generate_bindings/generate_function_thunk.rs:generate_function_thunk", "rs_bindings_from_cc/generate_bindings/generate_function_thunk.rs:generate_cc_thunk_parts", "rs_bindings_from_cc/generate_bindings/generate_function_thunk.rs:can_skip_cc_thunk"]}
{"id": "C83", "title": "a constructor that is never run drops the arguments it holds", "statement": "A Rust function that returns an immovable C++ type returns a constructor that keeps the arguments; if it is dropped without being run, the C++ function does not run, the world is unchanged and what the arguments own is released once each.", "quantifier": "every function, every argument list", "why_tests_cant": "values captured by an un-run closure are easy to leak and rarely tested", "anchors": ["rs_bindings_from_cc/generate_bindings/generate_function.rs:generate_func_body"]}
{"id": "C84", "title": "Rust futures polled from C++ do what their documentation says, and leave nothing in memory", "statement": "For every interleaving of moves, relocations, polls and destructions of DynErasedFuture variables, of calls on DynFuture values, of what running futures do with their context and of what any thread does with the wakers it holds: a poll reaches the future the variable holds (a moved-from variable holds one that is never ready), returns true and writes the output exactly when the future is ready, writes nothing when it is pending and never drops the waker it was lent; a DynFuture drops its future as soon as it is ready, panics when polled again and answers is_completed_or_discarded accordingly; boxes and live variables correspond one to one, so when all variables are gone no box is left.", "quantifier": "every schedule of any length over any number of variables, futures, wakers and threads", "why_tests_cant": "races between polls, moves and wakes on other threads cannot be enumerated; leaks of the placeholder of moved-from objects are invisible", "anchors": ["support/rs_std/dyn_erased_future.h:DynErasedFuture", "support/rs_std/dyn_erased_future.rs", "support/rs_std/erased_future.rs:poll_erased", "support/rs_std/dyn_future.rs:DynFuture"]}
{"id": "C85", "title": "every Rust future made for C++ ends exactly once", "statement": "The number of times a future has been dropped or handed over as a box, plus the number of variables that hold it, is the number of times it was made; so a future made once is dropped at most once, and exactly once when all variables are gone, however often it was moved, relocated in registers, polled or discarded.", "quantifier": "as C84", "why_tests_cant": "double drops need a particular order of moves and destructions", "anchors": ["support/rs_std/dyn_erased_future.h:DynErasedFuture", "support/rs_std/dyn_erased_future.rs", "support/rs_std/dyn_future.rs:DynFuture"]}
{"id": "C86", "title": "C++ waker objects given to Rust are given back once each and are never called otherwise", "statement": "For every C++ waker object: the number of times Clone() returned it is the number of times Destroy() or WakeAndDestroy() was called on it plus the number of live Rust wakers that stand for it; and whenever a virtual call reaches an object, the object is either lent to a poll under way and is not given back by that call, or has been given out more often than given back.", "quantifier": "as C84; any pointers returned by Clone()", "why_tests_cant": "use after free of a waker needs a wake that races with the end of a poll", "anchors": ["support/rs_std/waker.h:Waker", "support/rs_std/waker.cc", "support/rs_std/cpp_waker.cc", "support/rs_std/dyn_erased_future.rs:RS_STD_WAKER_VTABLE", "support/rs_std/dyn_future.rs:RS_STD_CPP_WAKER_VTABLE"]}
{"id": "C87", "title": "reference-counted C++ wakers are neither freed too early nor kept too long", "statement": "If C++ implements Clone() by counting and returning this, and WakeAndDestroy() and Destroy() by counting down, lends only objects it holds a reference to and keeps that reference during the poll, then no schedule makes Rust call a dead object, and an object is dead exactly when C++ has given up its reference and no Rust waker stands for it (so an address may be reused).", "quantifier": "as C84, interleaved with C++ making and giving up waker objects", "why_tests_cant": "as C86", "anchors": ["support/rs_std/waker.h:Waker", "support/rs_std/cpp_waker.h:CppWaker", "support/rs_std/dyn_erased_future.rs:rs_std_dyn_erased_future_poll", "support/rs_std/dyn_future.rs:DynFuture::poll"]}
{"id": "C88", "title": "the C++ default constructor, copy and move operations of a Rust type exist and do what the documentation says", "statement": "For every combination of Copy, Clone, Default, Unpin and drop glue, every Default/Clone implementation and every C++ program over variables of the type: an operation exists exactly when docs/rust/movable_types.md says so; after any allowed program every variable holds the documented contents (default value, bitwise or cloned copy, a moved-from object holding the default value, the swapped value or, for types that move by copying, its own value), self-assignment changes nothing, and no Rust code ever sees uninitialised bytes. False for repr(transparent) types that are passed in registers and have drop glue (disagreement).", "quantifier": "every trait combination, every Clone/Default implementation, every program of any length over any number of variables", "why_tests_cant": "each test pins one type and one short sequence of operations; uninitialised bytes are usually harmless in tests", "anchors": ["cc_bindings_from_rs/generate_bindings/lib.rs:generate_default_ctor", "cc_bindings_from_rs/generate_bindings/lib.rs:generate_copy_ctor_and_assignment_operator", "cc_bindings_from_rs/generate_bindings/lib.rs:generate_move_ctor_and_assignment_operator", "cc_bindings_from_rs/generate_bindings/generate_struct_and_union.rs:generate_adt", "cc_bindings_from_rs/generate_bindings/database/adt_core_bindings.rs:MoveCtorStyle", "support/internal/memswap.h:MemSwap", "docs/rust/movable_types.md"]}
{"id": "C89", "title": "every Rust value held by C++ variables has one owner and is dropped exactly once", "statement": "Through every program of default construction, copying, moving (by bytes, by default-and-swap, by copy), relocation, mutation, values coming from Rust and destruction, each value made is in at most one variable, is dropped at most once and never while a variable still holds it; when all variables are gone, every value made has been dropped exactly once.", "quantifier": "as C88, for types with drop glue", "why_tests_cant": "double drops need particular orders of moves and destructions", "anchors": ["cc_bindings_from_rs/generate_bindings/lib.rs:generate_default_ctor", "cc_bindings_from_rs/generate_bindings/lib.rs:generate_copy_ctor_and_assignment_operator", "cc_bindings_from_rs/generate_bindings/lib.rs:generate_move_ctor_and_assignment_operator", "cc_bindings_from_rs/generate_bindings/generate_struct_and_union.rs:generate_adt", "support/internal/memswap.h:MemSwap", "support/internal/slot.h:Slot"]}
{"id": "C90", "title": "the generated C++ header can be compiled from top to bottom", "statement": "For every set of items and template specializations with any stated requirements (headers to include, items that must be defined, items that must be declared, specializations that must be complete or must exist): in the header that is generated, each piece of text comes after the definitions, declarations and specializations it requires; everything it needs included is included; every specialization mentioned anywhere is in the header; and nothing is defined or forward-declared twice.", "quantifier": "every crate: any number of items and specializations, any requirements between them, any hash order", "why_tests_cant": "a missing forward declaration or a wrong order shows only for particular dependency graphs", "anchors": ["cc_bindings_from_rs/generate_bindings/lib.rs:generate_crate", "cc_bindings_from_rs/generate_bindings/lib.rs:generate_specializations_fixpoint", "cc_bindings_from_rs/generate_bindings/database/code_snippet.rs:CcPrerequisites", "cc_bindings_from_rs/toposort.rs:toposort"]}
{"id": "C91", "title": "the generated C++ header is complete and has nothing in excess", "statement": "The header has, in the namespace of the item, the text of the definition and of the details of every item, a using declaration in the namespace of every further path, and the text of every specialization that is needed (asked for by an item, by a trait implementation, or by a specialization that is needed) with its details; it has no others; a forward declaration is there only if something before the definition asks for it; and the includes are exactly those asked for.", "quantifier": "as C90", "why_tests_cant": "losing what only a nested specialization asks for needs particular programs", "anchors": ["cc_bindings_from_rs/generate_bindings/lib.rs:generate_crate", "cc_bindings_from_rs/generate_bindings/lib.rs:generate_specializations_fixpoint", "cc_bindings_from_rs/generate_bindings/database/code_snippet.rs:CcPrerequisites"]}
{"id": "C92", "title": "the generated code does not depend on hash order", "statement": "Two runs over the same crate, with every hash map and hash set enumerated in any order, give the same includes, the same text in the same order and the same Rust thunks and declarations.", "quantifier": "as C90; any two enumeration orders of all hash maps and hash sets", "why_tests_cant": "hash order varies between runs and is rarely varied in tests", "anchors": ["cc_bindings_from_rs/generate_bindings/lib.rs:generate_crate", "cc_bindings_from_rs/generate_bindings/lib.rs:generate_specializations_fixpoint", "cc_bindings_from_rs/toposort.rs:toposort"]}
{"id": "C93", "title": "the header generator fails just when definitions need each other in a circle", "statement": "If the items are distinct and finitely many specializations are needed, the fixpoint over specializations ends, no lookup of a node fails, and the generator ends with a header exactly when no definition transitively needs itself through another one; otherwise it ends with the documented assertion.", "quantifier": "as C90", "why_tests_cant": "the graph of specializations has cycles (through lazy ones) that must not make the generator loop", "anchors": ["cc_bindings_from_rs/generate_bindings/lib.rs:generate_crate", "cc_bindings_from_rs/generate_bindings/lib.rs:generate_specializations_fixpoint", "cc_bindings_from_rs/toposort.rs:toposort"]}
{"id": "C94", "title": "grouping text in namespace blocks keeps the namespace of every piece", "statement": "For every list of pieces with their namespaces, the printed blocks contain the same text in the same order, each piece inside exactly its own namespace; the namespace directly around a piece is marked deprecated exactly when the module of the piece is deprecated, and no other namespace is.", "quantifier": "every list of pieces, namespaces and deprecated modules", "why_tests_cant": "coalescing errors depend on which pieces happen to be adjacent", "anchors": ["cc_bindings_from_rs/generate_bindings/lib.rs:format_namespace_bound_cc_tokens", "cc_bindings_from_rs/generate_bindings/lib.rs:format_with_cc_body"]}
{"id": "C95", "title": "the C++ names of Rust items are exactly spellable public paths", "statement": "For every crate with finitely many modules (cycles of re-exports included), the search for public paths ends; each path that it gives for an item can be written in Rust (public modules and re-exports all the way, no `_`, no unstable or foreign items, type aliases standing for their type), no path is given twice, and every public item is found under each public name, by a path no longer than any path with that name.", "quantifier": "every crate: any graph of modules, re-exports and aliases, with cycles", "why_tests_cant": "module graphs with cyclic and repeated re-exports have unboundedly many paths; a test sees a few", "anchors": ["cc_bindings_from_rs/generate_bindings/lib.rs:public_paths_by_def_id", "cc_bindings_from_rs/generate_bindings/database/fully_qualified_name.rs:PublicPaths::insert"]}
{"id": "C96", "title": "the canonical path of an item is the preferred one", "statement": "Among the paths that the search gives for an item in a crate, the canonical one is not hidden if any is not, then shortest, then not a type alias if possible, then not a re-export if possible; the other paths follow in strict order; if no module is #[doc(hidden)], no way at all to write the item is preferred to the canonical path.", "quantifier": "every crate and item", "why_tests_cant": "the choice depends on the order in which paths are found and inserted", "anchors": ["cc_bindings_from_rs/generate_bindings/database/fully_qualified_name.rs:ExportedPath::cmp", "cc_bindings_from_rs/generate_bindings/database/fully_qualified_name.rs:PublicPaths::insert", "cc_bindings_from_rs/generate_bindings/lib.rs:public_paths_by_def_id"]}
{"id": "C97", "title": "an item is attributed to the crate that owns it", "statement": "For every list of importable crates, the global paths of an item are exactly those of all crates; the canonical one belongs to a crate that owns the item most (the defining crate, else std or alloc for core and alloc items, else any re-exporting crate), and within that to the preferred path; an item exported by its own crate has the same canonical path whatever other crates are there and in whatever order; without ties the order of crates does not matter.", "quantifier": "every list of crates and every item", "why_tests_cant": "depends on which crates a target happens to use", "anchors": ["cc_bindings_from_rs/generate_bindings/lib.rs:all_public_paths_by_def_id", "cc_bindings_from_rs/generate_bindings/lib.rs:CrateOwnershipRank", "cc_bindings_from_rs/generate_bindings/database/fully_qualified_name.rs:PublicPaths::merge", "cc_bindings_from_rs/generate_bindings/database/fully_qualified_name.rs:PublicPaths::insert_aliases"]}
{"id": "C98", "title": "each public path of an item is declared once in C++", "statement": "The header of a crate gives every public path of the crate for an item exactly once, as the definition or as an alias; among headers made with the same crates exactly one defines the item, under its canonical path.", "quantifier": "every list of crates, every source crate and every item", "why_tests_cant": "an ODR violation needs a combination of crates", "anchors": ["cc_bindings_from_rs/generate_bindings/lib.rs:formatted_items_in_crate", "cc_bindings_from_rs/generate_bindings/lib.rs:all_public_paths_by_def_id"]}
{"id": "C99", "title": "spellings of one type have corresponding nullability vectors", "statement": "For every type, however it is spelled (typedefs, alias templates, template parameters, qualified names, annotations, default arguments, packs), the nullability vector has exactly one entry for each pointer of the canonical type, smart pointers included, in preorder; so any two spellings of a type have vectors of the same length whose entries stand for the same pointers, and counting pointers and listing locations agree with it.", "quantifier": "every type whose template parameters are found in the templates whose arguments were introduced last (no bound on depth); canonical types without condition", "why_tests_cant": "sugar nests without bound, and an offset error only shows with a particular nesting", "anchors": ["nullability/type_nullability.cc:NullabilityWalker", "nullability/type_nullability.cc:getTypeNullability", "nullability/type_nullability.cc:countPointersInType", "nullability/type_nullability.cc:getTypeNullabilityLocs", "nullability/type_nullability.h:TypeNullability"]}
{"id": "C100", "title": "a nullability annotation is about one pointer", "statement": "An annotation around a type (attribute or Nullable<T>-like alias template) sets the entry of the outermost pointer if the type is a pointer, and no other entry; it does nothing otherwise; of two the outer one wins, except that \"unspecified\" counts only directly on a spelled-out pointer; pointers without annotation have the default of the file that spells them: of the typedef or alias for its own text, of the user for template arguments; a nullability known to the caller for a template parameter is kept unless it is unspecified.", "quantifier": "every type as in C99, every annotation, every pragma", "why_tests_cant": "interactions of nested annotations, aliases and parameters", "anchors": ["nullability/type_nullability.cc:NullabilityWalker", "nullability/type_nullability.cc:isUnknownValidOn", "nullability/type_nullability.cc:unwrapAlias", "nullability/type_nullability.cc:TypeNullabilityDefaults::get", "nullability/type_nullability.cc:getTypeNullability"]}
{"id": "C101", "title": "types rebuilt with a nullability vector carry it", "statement": "For every type whose pointers are raw and outside of packs and enclosing classes, rebuilding with a vector works exactly for the vectors of the right length, gives a spelling of the same type, and the nullability vector of the result is the given one (symbolic entries as unspecified).", "quantifier": "every such type and every vector", "why_tests_cant": "round trip over unbounded types", "anchors": ["nullability/type_nullability.cc:rebuildWithNullability", "nullability/type_nullability.cc:Rebuilder"]}
{"id": "C102", "title": "lifetime analysis handles every function once, callees first", "statement": "For every finite call graph (any recursion), analysing a translation unit ends with an empty call stack; exactly the functions asked for and those they reach (builtins apart) get a result, each once; a function is analysed after its callees or together with them; functions that reach each other are analysed together, a recursive function is never analysed alone, and the first function of a group is recursive.", "quantifier": "every call graph, every order of functions and of callees", "why_tests_cant": "an unbounded graph traversal with shared mutable stack; the callee order is that of a pointer hash set", "anchors": ["lifetime_analysis/analyze.cc:AnalyzeFunctionRecursive", "lifetime_analysis/analyze.cc:FindAndMarkCycleWithFunc", "lifetime_analysis/analyze.cc:AnalyzeTranslationUnitAndCollectTemplates"]}
{"id": "C103", "title": "every lifetime result agrees with the results of the callees at the end", "statement": "When the analysis of a translation unit is over, the result of a function analysed alone is what the analysis of its body gives with the final results of all callees; the results of a recursive group are either all the same error, or stable: analysing any body again gives isomorphic lifetimes; declared functions have their annotations.", "quantifier": "every call graph, every analysis of bodies that looks only at callees", "why_tests_cant": "results are written at different times; a later overwrite would only show in some graphs", "anchors": ["lifetime_analysis/analyze.cc:AnalyzeRecursiveFunctions", "lifetime_analysis/analyze.cc:AnalyzeFunctionRecursive"]}
{"id": "C104", "title": "without recursion the order of functions and callees does not matter", "statement": "If no function analysed reaches itself, the results are the same for every order of the functions in the translation unit and every enumeration order of callees, and are the only ones that agree with the bodies.", "quantifier": "every call graph without recursion, every two orders", "why_tests_cant": "enumeration order of a pointer hash set changes from run to run", "anchors": ["lifetime_analysis/analyze.cc:AnalyzeFunctionRecursive", "lifetime_analysis/analyze.cc:GetCallees"]}
{"id": "C105", "title": "the names of a scope resolve exactly when their uses go together", "statement": "The generator resolves the names of a scope (a namespace block, a class or the top level) without a panic exactly if, for each name, all its uses are blocks of one namespace, or are functions and variables together with at most one type, where an existing Rust type may be repeated and a class may be declared several times around one definition.", "quantifier": "every list of items of a scope", "why_tests_cant": "clashes come from renaming attributes and from every combination of kinds of items in every order", "anchors": ["rs_bindings_from_cc/generate_bindings/has_bindings.rs:resolve_names", "rs_bindings_from_cc/generate_bindings/has_bindings.rs:determine_name_conflict_action", "rs_bindings_from_cc/generate_bindings/database/code_snippet.rs:ResolvedName::coalesce"]}
{"id": "C106", "title": "the module of a class takes nobody else's name", "statement": "If the names of a scope resolve, each class of the scope with nested items gets the module name that was reserved for it; the name is that of no item of the scope and of no other class's module.", "quantifier": "every list of items of a scope, every snake-case function", "why_tests_cant": "collisions need adversarial names such as foo, Foo, foo_items, foo_items_", "anchors": ["rs_bindings_from_cc/generate_bindings/has_bindings.rs:resolve_names", "rs_bindings_from_cc/generate_bindings/database/db.rs:record_to_associated_module_name"]}
{"id": "C107", "title": "an item nested in a class is never refused because of its module", "statement": "If the names of a scope resolve, then for each class of the scope and each item in it the check for the module of the parent succeeds, in whatever order the names are enumerated, and the module it finds is the one that is generated.", "quantifier": "every list of items of a scope, every enumeration order of the names", "why_tests_cant": "names are enumerated in the order of a hash map", "anchors": ["rs_bindings_from_cc/generate_bindings/has_bindings.rs:has_bindings", "rs_bindings_from_cc/generate_bindings/has_bindings.rs:resolve_names", "rs_bindings_from_cc/generate_bindings/database/db.rs:record_to_associated_module_name", "rs_bindings_from_cc/ir.rs:place_in_nested_module_if_nested_in_record"]}
{"id": "C108", "title": "bindings are no more visible than the types they mention", "statement": "A type is refused in a target exactly if it contains a struct that is pub(crate) in another target. If it is accepted, each class and alias in it (with bindings, not inside the arguments of a handwritten generic Rust type) is public or belongs to the target, and is public if the type is; a function is refused exactly if one of its types is, and public exactly if all are, whatever the order of the parameters.", "quantifier": "every type, every function, every assignment of features to targets", "why_tests_cant": "the combinations of nested types, owners and features are unbounded", "anchors": ["rs_bindings_from_cc/generate_bindings/has_bindings.rs:type_target_restriction", "rs_bindings_from_cc/generate_bindings/has_bindings.rs:func_has_bindings", "rs_bindings_from_cc/generate_bindings/database/db.rs:type_visibility", "rs_bindings_from_cc/generate_bindings/database/code_snippet.rs:Visibility::or", "rs_bindings_from_cc/generate_bindings/database/rs_snippet.rs:RsTypeKindIter"]}
{"id": "C109", "title": "the features a type needs", "statement": "The reasons reported for a type are exactly: that Crubit is not enabled, and one for each contained type for which the features of the target do not suffice. A function gets past the check exactly if there are no reasons for any of its types in the defining and the owning target. More features never give more reasons to refuse.", "quantifier": "every type and every set of features", "why_tests_cant": "nested types and sets of features are unbounded", "anchors": ["rs_bindings_from_cc/generate_bindings/database/rs_snippet.rs:missing_feature_descriptions_of_type", "rs_bindings_from_cc/generate_bindings/database/code_snippet.rs:missing_feature_descriptions"]}
{"id": "C110", "title": "C++ strings held by Rust are sequences of bytes", "statement": "Whatever a program does with owned C++ strings (make, clone, compare, read, write, send over the bridge, move into and out of std::string places), no operation touches a string that is not there, and every read and comparison gives the bytes the program put there; only strings that were moved from are unspecified, and all operations stay defined on them.", "quantifier": "every program over any number of strings, every content left by C++ in moved-from strings", "why_tests_cant": "ownership passes through raw pointers in two languages; use after free shows only for some histories", "anchors": ["support/cc_std_impl/string.rs:string_wrapper", "support/cc_std_impl/string.rs:BoxedCppStringAbi", "support/cc_std_impl/string.rs:rust_string_to_cpp_string", "support/cc_std_impl/string.rs:cpp_string_to_rust_string", "support/cc_std_impl/string.rs:new_string", "support/cc_std_impl/conversion_function_helpers.h"]}
{"id": "C111", "title": "each C++ string made by Rust is deleted exactly once", "statement": "At every point of every program each heap string is owned by exactly one Rust value or one bridge buffer, no string is deleted twice, and when the values are gone every string ever made has been deleted exactly once.", "quantifier": "every program over any number of strings", "why_tests_cant": "leaks and double deletes depend on the whole history", "anchors": ["support/cc_std_impl/string.rs:string_wrapper", "support/cc_std_impl/string.rs:BoxedCppStringAbi::encode", "support/cc_std_impl/conversion_function_helpers.h:StringDelete"]}
{"id": "C112", "title": "a unique_ptr in Rust is nothing or an object of its own", "statement": "Every program that keeps the documented contract of new, with any mix of release, moves in Rust and in C++, reads, writes and drops of unique_ptr and virtual_unique_ptr, has no undefined behaviour, and get, as_ref and as_mut report exactly what was put there.", "quantifier": "every program over any number of pointers and types", "why_tests_cant": "aliasing and use after free depend on the whole history in two languages", "anchors": ["support/cc_std_impl/unique_ptr.rs:unique_ptr", "support/cc_std_impl/unique_ptr.rs:virtual_unique_ptr"]}
{"id": "C113", "title": "each object behind a unique_ptr is destroyed and freed once, by the right functions", "statement": "At every point of every such program each object is owned by exactly one pointer or has been destroyed exactly once, by the destructor of its most derived type, and then freed exactly once by the operator delete overload (size, alignment) that fits its allocation; when no pointer is left all objects have been destroyed.", "quantifier": "every program, every size and alignment, with and without sized deallocation", "why_tests_cant": "a wrong overload shows only with some allocators, leaks only for some histories", "anchors": ["support/cc_std_impl/unique_ptr.rs:unique_ptr::drop", "support/cc_std_impl/unique_ptr.rs:virtual_unique_ptr::drop", "support/cc_std_impl/std_allocator.h:cpp_delete"]}
{"id": "C114", "title": "string views and slices convert without loss", "statement": "Every valid Rust slice becomes a valid C++ view of the same bytes, null exactly if it is empty; every valid C++ view, null ones included, becomes a valid Rust slice of the same bytes; round trips keep the bytes, and Rust orders and compares views exactly as C++ does.", "quantifier": "every slice, view and memory", "why_tests_cant": "null and empty cases at every address and length, all pairs for the order", "anchors": ["support/cc_std_impl/string_view.rs:raw_string_view", "support/cc_std_impl/string_view.rs:string_view", "support/cc_std_impl/slice_ptr.rs:get_raw_parts"]}
{"id": "C115", "title": "generated files contain the tokens that were generated", "statement": "Rust compilers, and C++ compilers after joining lines that end in a backslash, read in the printed text of a token stream exactly the tokens of the stream: no two tokens are glued together or taken apart, placeholders for blanks, markers and comments add nothing; for streams with well-formed identifiers and literals, without invisible groups, whose separate punctuation does not form a comment and, in C++, whose comments end in neither a backslash nor a quote.", "quantifier": "every token stream, nested to any depth", "why_tests_cant": "the blank between two tokens depends on the tokens before and after, and comments can swallow code", "anchors": ["common/token_stream_printer.rs:tokens_to_string", "common/token_stream_printer.rs:tokens_require_whitespace", "common/token_stream_printer.rs:write_stream"]}
{"id": "C116", "title": "comments stay comments, literal text is verbatim", "statement": "Whatever the text of a comment (newlines, quotes, backslashes, text that looks like an escape), every line of it in the generated file is a comment, and nothing after it is; in C++ this needs that the text ends in neither a backslash nor a quote, otherwise the next line of code is lost. Literal text without control characters is written as it is, and a newline, unless it ends in a quote, which becomes a backslash.", "quantifier": "every comment and literal text, every text after it", "why_tests_cant": "unescaping is done by textual replacement, whose results overlap", "anchors": ["common/token_stream_printer.rs:write_stream", "cc_bindings_from_rs/generate_bindings/lib.rs:generate_doc_comment"]}
{"id": "C117", "title": "captured identifiers are recorded and found again after formatting", "statement": "Each identifier captured in a stream is recorded with the number and the source location of the last tag before it and the number of occurrences of its text since that tag, without a failure; in every text that contains from the place of the tag on the same words in the same order, the record leads to the same word, not to a part of another.", "quantifier": "every token stream with captures around single identifiers; every reformatting that keeps the words", "why_tests_cant": "the same text occurs as part of other words any number of times before", "anchors": ["common/token_stream_printer.rs:tokens_to_string_with_provenance", "common/token_stream_printer.rs:fix_provenance_map_postformatting", "common/kythe_metadata.rs:embed_provenance_map"]}
{"id": "C118", "title": "inferred lifetime signatures are sound", "statement": "For a function over pointers, references, arrays and statics for which the lifetime analysis infers a signature: if a caller passes arguments that fit the parameter lifetimes of that signature, then however the function runs, when it returns the result fits the return lifetimes, every cell of the caller still holds a value of its type and lifetime, every static variable points to static memory only, and none of them points to a local or parameter of the function.", "quantifier": "every function of the fragment (any control flow graph, any pointer depth, any qualifiers without a non-const level directly above a const level above a pointer), every order of hash-set iteration, every fixpoint of the dataflow engine, every caller memory including aliasing, every choice of regions for the lifetime variables, every terminating execution", "why_tests_cant": "the analysis is a may-analysis with strong updates, joins, variance and unification; its tests compare inferred signatures of small functions with expected strings and never run the functions", "anchors": ["lifetime_analysis/lifetime_analysis.cc:TransferStmtVisitor", "lifetime_analysis/lifetime_analysis.cc:GenerateConstraintsForAssignment", "lifetime_analysis/lifetime_analysis.cc:HandlePointsToSetExtension", "lifetime_analysis/analyze.cc:AnalyzeFunctionBody", "lifetime_analysis/analyze.cc:ConstructFunctionLifetimes", "lifetime_analysis/analyze.cc:DiagnoseReturnLocal", "lifetime_analysis/object_repository.cc:CreateObjectsRecursively", "lifetime_analysis/points_to_map.cc"]}
{"id": "C119", "title": "points-to sets over-approximate memory", "statement": "If a signature has been inferred and the arguments fit it, then whenever an execution is at a point from which the exit can be reached and a variable holds the address of a variable of the function, the points-to set computed for that point contains it.", "quantifier": "every function of the fragment, every point of every execution, every caller", "why_tests_cant": "strong updates and joins at loops are only right if no execution reaches a state they miss; tests look at final signatures", "anchors": ["lifetime_analysis/lifetime_analysis.cc:TransferStmtVisitor", "lifetime_analysis/points_to_map.cc", "lifetime_analysis/lifetime_lattice.cc:join"]}
{"id": "C120", "title": "static memory never leads to locals in an accepted function", "statement": "The loop that forces everything reachable from static pointers to be static stops for every points-to map; if a signature is inferred then no chain of points-to edges leads from a static object to a local one, so the later check for this stops and never reports an error.", "quantifier": "every function, every state at its exit", "why_tests_cant": "needs the closure of a worklist loop over arbitrary, possibly cyclic, graphs", "anchors": ["lifetime_analysis/analyze.cc:AnalyzeFunctionBody", "lifetime_analysis/analyze.cc:PropagateStaticToPointees"]}
{"id": "C121", "title": "no nullability warnings, no use of a null pointer from an annotated source", "statement": "For a function over raw and smart pointers that the checker has analysed without error: whenever an execution, started with arguments that fit the annotations, dereferences, offsets, passes for a Nonnull parameter, returns as a Nonnull result or stores in a Nonnull variable a null pointer that comes from a null literal or an annotated source, or uses a Nonnull smart pointer that holds one, a warning of that kind is reported. Excepted are output parameters with an annotated inner pointer, p + 0, p += 0, comparisons of two smart pointers and self-moves (C125).", "quantifier": "every function of the language (assignments, calls with output arguments, casts, arithmetic, null checks with && || !, comparisons, reset, release, move, swap, value_or, CHECK_NE, branches, loops, early exits), every execution, every solver that answers", "why_tests_cant": "the verdict at a point depends on everything that can happen before it, through joins, loops, widening and a solver; tests compare warnings of small functions with expected ones and never run the functions", "anchors": ["nullability/pointer_nullability_diagnosis.cc:diagnosePointerNullability", "nullability/value_transferer.cc:transferCallExpr", "nullability/pointer_nullability_analysis.cc:widen", "nullability/pointer_nullability_analysis.cc:join", "nullability/pointer_nullability.cc:isNullable"]}
{"id": "C122", "title": "in a fully annotated function no warnings means no null pointer is used", "statement": "If in addition every callee is annotated, the same is true of every null pointer, whatever its source.", "quantifier": "every function whose callees are all annotated, every execution, every solver that answers", "why_tests_cant": "unannotated pointers are deliberately not reported; where this leaves no hole is a property of all executions", "anchors": ["nullability/pointer_nullability_diagnosis.cc:diagnosePointerNullability", "nullability/pointer_nullability.cc:isNullable"]}
{"id": "C123", "title": "a pointer that has just been checked is not reported", "statement": "Under if (c), or after if (c) return, where c (not c) implies by a null check or comparison with nullptr inside any && and || that x is not null, any number of dereferences, arithmetic, copies, casts, returns of x and calls that take x adds no warning to those of the condition itself.", "quantifier": "every state of the analysis, every such condition and sequence of uses, every solver that answers", "why_tests_cant": "what is known about x when the check is reached is arbitrary, including nothing after widening", "anchors": ["nullability/value_transferer.cc:transferNullCheckComparison", "nullability/value_transferer.cc:transferNullCheckImplicitCastPtrToBool", "nullability/value_transferer.cc:unpackPointerValue", "nullability/pointer_nullability.cc:isNullable"]}
{"id": "C124", "title": "the analysis of every function ends", "statement": "The iteration over a loop in a function with m pointer variables stops after at most 4m + 2 passes, so the analysis ends with a list of warnings, for every solver, also one that gives up or answers differently each time.", "quantifier": "every function of the language, nested loops included, every solver", "why_tests_cant": "needs a measure that every pass decreases; values do not get steadily less precise, because widening can restore what an earlier pass had forgotten", "anchors": ["nullability/pointer_nullability_analysis.cc:widen", "nullability/pointer_nullability_analysis.cc:widenNullabilityProperty", "nullability/value_transferer.cc:unpackPointerValue"]}
{"id": "C125", "title": "what the checker misses", "statement": "A Nullable pointer can be dereferenced without a warning, whatever the solver, after q = p + 0, after p += 0, under x == y for two smart pointers, after passing &p for an output parameter annotated Nullable, and under if (x) after x = std::move(x).", "quantifier": "every solver that answers, every iteration limit", "why_tests_cant": "a statement about the absence of warnings in all configurations, together with an execution that faults", "anchors": ["nullability/pointer_nullability_diagnosis.cc:diagnoseAddSubtract", "nullability/value_transferer.cc:transferSmartPointerComparisonOpCall", "nullability/value_transferer.cc:initializeOutputParameter", "nullability/value_transferer.cc:transferSmartPointerAssignment", "nullability/value_transferer.cc:transferPointerAddOrSubAssign"]}
{"id": "C126", "title": "saving and reloading a summary loses nothing", "statement": "The evidence collected from the saved summary of a definition is exactly the evidence that the analysis of the definition gives at the points where the behaviours were observed, in the same order, whatever the numbering of atoms and for any previous inferences.", "quantifier": "every logical context, list of slots, list of behaviours, previous inferences and pair of solvers that answer", "why_tests_cant": "summaries go through text with renumbered atoms, lazily created in parsing order; agreement has to hold for every formula and context, not for the samples of a round-trip test", "anchors": ["nullability/inference/collect_evidence.cc:summarizeDefinition", "nullability/inference/collect_evidence.cc:collectEvidenceFromSummary", "nullability/inference/collect_evidence.cc:loadLogicalContext", "nullability/inference/collect_evidence.cc:getAtom", "nullability/inference/collect_evidence.cc:SummaryCollector"]}
{"id": "C127", "title": "evidence is what the code needs", "statement": "For each behaviour of a definition, evidence is given exactly when called for. A requirement that is neither certain nor impossible gives evidence for the first slot (test boundaries last) whose being Nonnull makes it hold in every run, at most one, or for every slot whose being Nullable does. Values passed, returned, assigned or left in fields give the evidence that says whether they may be null. Whatever the solver fails to answer, evidence for a requirement names a slot that suffices, and does not depend on what was inferred before.", "quantifier": "every behaviour, context, point, list of slots, previous inferences; exactness for every solver that answers, soundness for every solver", "why_tests_cant": "the verdicts quantify over all runs of the analysed function that reach the point", "anchors": ["nullability/inference/collect_evidence.cc:EvidenceCollector::mustBeTrueByMarkingNonnull", "nullability/inference/collect_evidence.cc:EvidenceCollector::mustBeTrueByMarkingNullable", "nullability/inference/collect_evidence.cc:EvidenceCollector::collectAssignmentToType", "nullability/inference/collect_evidence.cc:EvidenceCollector::collectArgBinding", "nullability/inference/collect_evidence.cc:EvidenceCollector::collectReturn", "nullability/inference/collect_evidence.cc:EvidenceCollector::collectAssignmentFromValue", "nullability/inference/collect_evidence.cc:EvidenceCollector::collectConstructorExitBlock"]}
{"id": "C128", "title": "acting on the evidence settles the requirement", "statement": "Once the slot that evidence names has been inferred Nonnull (Nullable), the requirement holds in every run that has the inferred annotations, and the value in question is Nonnull evidence wherever it is passed on or returned. Evidence from values forces Nullable exactly for values that may be null, and Nonnull exactly for non-null values bound to a mutable reference.", "quantifier": "every requirement, point and pair of rounds", "why_tests_cant": "relates what is inferred in one round to every run considered in later ones", "anchors": ["nullability/inference/collect_evidence.cc:EvidenceCollector::mustBeTrueByMarkingNonnull", "nullability/inference/collect_evidence.cc:getConstraintsOnInferableSlots", "nullability/inference/collect_evidence.cc:getArgEvidenceKindFromNullability"]}
{"id": "C129", "title": "the index of virtual methods is the overriding relation", "statement": "If methods are visited after those they override, the index records for every method exactly the methods it overrides, directly or through others, exactly the methods that override it, and whether it is in a test. A template instantiated with a class declared after it is visited too early, and what that class overrides is missed.", "quantifier": "every list of methods in visiting order, redeclarations included, multiple inheritance included", "why_tests_cant": "a transitive closure computed in one pass; whether it is complete depends on the order over all hierarchies", "anchors": ["nullability/inference/collect_evidence.cc:getVirtualMethodIndex"]}
{"id": "C130", "title": "methods and their overrides are inferred consistently", "statement": "After propagation, evidence of a kind that limits overrides (a parameter must accept null, a result must not be null) is about a method exactly if some method it overrides, or itself, gave it; evidence that limits what is overridden comes exactly from the methods that override it, tests to non-tests excepted; evidence about references both ways. So what forces a parameter to be Nonnull in an override forces it in every method overridden, and what forces Nullable in a method forces it in every override, or the conflict is reported. The part of the index saved with a definition gives the same propagation for the functions it references.", "quantifier": "every overriding relation, every list of evidence, every slot and classified kind", "why_tests_cant": "propagation is a relation over whole class hierarchies and all evidence kinds", "anchors": ["nullability/inference/collect_evidence.cc:getFlowDirection", "nullability/inference/collect_evidence.cc:getAdditionalTargetsForVirtualMethod", "nullability/inference/collect_evidence.cc:evidenceEmitterWithPropagation", "nullability/inference/collect_evidence.cc:saveCFGScopeVirtualMethodIndex"]}
{"id": "C131", "title": "rounds of inference", "statement": "After any number of rounds every slot has the verdict of exactly its evidence in the last round, and only new conclusions without conflict are assumed in the next. A parameter that a definition dereferences without a check is inferred Nonnull in every round unless annotated, as is the same parameter of the methods overridden, and from the next round on the value is taken to be non-null in every run, unless the conclusion was in conflict.", "quantifier": "every number of rounds, set of summaries and declarations, sort and merge order", "why_tests_cant": "an invariant over all rounds, each of which changes the assumptions of the next", "anchors": ["nullability/inference/infer_tu.cc:iterativelyInfer", "nullability/inference/infer_tu.cc:inferenceRound", "nullability/inference/infer_tu.cc:groupAndMergeEvidence"]}
{"id": "C132", "title": "dropping a Rust value of a C++ class destroys the C++ object", "statement": "For every C++ class that anybody may destroy: when a Rust value of it is dropped, exactly those destructor bodies run that C++ runs when it destroys an object of the class (of the class, its bases, fields and array elements, however deep), on the same subobjects and in the same order, and each of them once; Rust destroys no field a second time. Members of unions are not destroyed.", "quantifier": "every class (any nesting of bases, fields, arrays and unions; any special members, access, annotations and features) whose generated definition the Rust compiler accepts", "why_tests_cant": "the class is any tree of classes; that no field at any depth is dropped twice or forgotten depends on how each level is wrapped", "anchors": ["rs_bindings_from_cc/generate_bindings/generate_struct_and_union.rs:field_definition", "rs_bindings_from_cc/generate_bindings/generate_struct_and_union.rs:needs_manually_drop", "rs_bindings_from_cc/ir.rs:should_implement_drop", "rs_bindings_from_cc/generate_bindings/generate_function.rs:api_func_shape_for_destructor", "rs_bindings_from_cc/ast_convert.cc:GetSpecialMemberFunc"]}
{"id": "C133", "title": "Copy and Clone do what the C++ copy constructor does", "statement": "If a generated type is Clone, anybody may copy objects of the class in C++, and clone() runs exactly the copy constructor bodies that copying in C++ runs, in the same order on the same subobjects. If it is Copy, C++ copies bytes and no destructor does anything. A class is Copy exactly if it is Rust-movable, not abstract, publicly and trivially copyable and destructible, and no annotation, mutable field or thread safety prevents it. Every Rust-movable class that can be copied and destroyed publicly is Clone. (No derivation forced by annotation; no copy constructor with a non-const parameter.)", "quantifier": "every class, as in C132", "why_tests_cant": "the triviality of a copy constructor depends on all parts of the class at any depth", "anchors": ["rs_bindings_from_cc/ir.rs:should_derive_copy", "rs_bindings_from_cc/generate_bindings/database/rs_snippet.rs:should_derive_clone", "rs_bindings_from_cc/generate_bindings/generate_function.rs:api_func_shape_for_constructor", "rs_bindings_from_cc/ast_convert.cc:GetCopyCtor"]}
{"id": "C134", "title": "Rust programs release every C++ resource exactly once", "statement": "Take any Rust program that makes values of C++ classes, moves, copies, clones and drops them in any order, where every class with a destructor body also writes or deletes its copy constructor. No resource held by a subobject is released twice; none that was not acquired; no value that is still there holds a resource that was released or that another value holds; and once all values are dropped every resource has been released exactly once.", "quantifier": "every sequence of operations on any number of values of any classes with those properties", "why_tests_cant": "an invariant over all programs and class hierarchies", "anchors": ["rs_bindings_from_cc/ir.rs:should_derive_copy", "rs_bindings_from_cc/generate_bindings/database/rs_snippet.rs:should_derive_clone", "rs_bindings_from_cc/generate_bindings/generate_struct_and_union.rs:field_definition", "rs_bindings_from_cc/generate_bindings/generate_function.rs:api_func_shape_for_destructor"]}
{"id": "C135", "title": "the generated definitions of records are accepted by the Rust compiler", "statement": "For every class without surprises (public special members, no derive annotations, no thread safety annotation, no mutable fields or mutable references, all members of unions visible, Rust-movable fields in Rust-movable classes, likewise for all fields) the generated struct or union compiles: derive(Copy) only with Copy fields and without Drop, derive(Clone) only with Clone fields, unions only with allowed fields. Each of the conditions is needed: without it there is a class whose definition is refused.", "quantifier": "every such class, at any depth", "why_tests_cant": "the traits of fields depend on their whole class; tests have a few shapes", "anchors": ["rs_bindings_from_cc/generate_bindings/generate_struct_and_union.rs:generate_derives", "rs_bindings_from_cc/generate_bindings/generate_struct_and_union.rs:field_definition", "rs_bindings_from_cc/generate_bindings/database/rs_snippet.rs:implements_copy", "rs_bindings_from_cc/generate_bindings/database/code_snippet.rs:BitPadding"]}
{"id": "C136", "title": "Rust-movable classes are Unpin", "statement": "If a class with a field that is not Rust-movable is not Rust-movable either, then a generated type is Unpin exactly if C++ passes the class in registers; a class that is not passed in registers is never Unpin.", "quantifier": "every class", "why_tests_cant": "Unpin is an auto trait: it depends on all fields at any depth", "anchors": ["rs_bindings_from_cc/ir.rs:is_unpin", "rs_bindings_from_cc/generate_bindings/generate_struct_and_union.rs:generate_record", "support/ctor_proc_macros.rs:recursively_pinned"]}
{"id": "C137", "title": "what C++ modifies behind const is in a Cell in Rust", "statement": "If some part of an object of a C++ class can be modified through a const reference, because it is or is inside a mutable field at any depth, then the bytes of that part are in a Cell or UnsafeCell in the generated Rust type, so that Rust does not assume that they stay the same behind a shared reference. This needs that no class that is Copy in Rust has something mutable in a base class or in a field that Rust does not see; without that, there are classes with mutable parts outside of any Cell.", "quantifier": "every class, of any nesting, with any annotations, and every part of its objects", "why_tests_cant": "the part can be at any depth, and each level decides on its own how fields are represented", "anchors": ["rs_bindings_from_cc/generate_bindings/generate_struct_and_union.rs:field_definition", "rs_bindings_from_cc/ir.rs:should_derive_copy", "rs_bindings_from_cc/generate_bindings/database/code_snippet.rs:FieldType", "rs_bindings_from_cc/generate_bindings/database/code_snippet.rs:BitPadding"]}
{"id": "C138", "title": "upcasts are offered exactly to the bases that C++ converts to", "statement": "Each base class for which the generated type implements Inherits is one to which everybody can convert in C++: it has only one subobject in the derived class, and is reachable by public inheritance all the way; each base is given once. Conversely every imported base that everybody can convert to is given, if no base of the hierarchy is virtual, or if all are public. (With virtual and private inheritance mixed, there are hierarchies where a conversion is missed.)", "quantifier": "every class hierarchy, with any virtual, private and repeated bases, at any depth; every layout", "why_tests_cant": "hierarchies are unbounded graphs; ambiguity depends on all paths", "anchors": ["rs_bindings_from_cc/importers/cxx_record.cc:GetUnambiguousPublicBases", "rs_bindings_from_cc/generate_bindings/generate_struct_and_union.rs:cc_struct_upcast_impl"]}
{"id": "C139", "title": "an upcast pointer points to the base subobject", "statement": "In every object that contains an object of the derived class, complete or not, at any address and with any placement of the virtual bases, upcasting a pointer in Rust gives the address of the one subobject of the base class; a constant offset is only used if the way to the base has no virtual step.", "quantifier": "every class hierarchy, layout, object and base with an upcast", "why_tests_cant": "the position of a virtual base depends on the complete object, which may be of a class that does not exist yet", "anchors": ["rs_bindings_from_cc/importers/cxx_record.cc:GetUnambiguousPublicBases", "rs_bindings_from_cc/generate_bindings/generate_struct_and_union.rs:cc_struct_upcast_impl", "rs_bindings_from_cc/generate_bindings/database/code_snippet.rs:UpcastImpl"]}
{"id": "C140", "title": "inherited methods are those that C++ finds", "statement": "If a function of a base class becomes a method of the derived class, then it is in a base with an upcast, and member name lookup in C++ finds exactly that class, in its one subobject, provided that every declaration of the name in the class and its bases is a function with bindings under its own name, in the class or a base with an upcast. A function becomes a method exactly if it has bindings and an identifier as name, the class has no function of that name, and no other function of the bases with upcasts has it. The methods and their order do not depend on the iteration order of hash maps.", "quantifier": "every class hierarchy and all member functions", "why_tests_cant": "name lookup depends on the whole hierarchy: what hides what in which subobject", "anchors": ["rs_bindings_from_cc/generate_bindings/generate_struct_and_union.rs:filter_out_ambiguous_member_functions", "rs_bindings_from_cc/generate_bindings/generate_struct_and_union.rs:collect_unqualified_member_functions_from_all_bases", "rs_bindings_from_cc/generate_bindings/generate_struct_and_union.rs:collect_unqualified_member_functions"]}
{"id": "C141", "title": "the nullability of an expression is that of its type", "statement": "The nullability vector that the checker computes for an expression is the list of the nullabilities of the pointers of the type that the expression has when template arguments, with their annotations, are put into declared types: `v.front()` for `vector<int* _Nullable> v` is `int* _Nullable`, whatever the file of vector says about unannotated pointers; likewise through `->`, `*`, `&`, `[]`, calls, pointers to functions, member operators, conversions to a base class (whose template arguments may mention the parameters of the derived class), pointer arithmetic, assignments, explicit template arguments and qualifiers of names, at any nesting. The entries inside are those of the annotations at the places where the types are written. (Classes that are smart pointers are not the object of `.`, and are not converted to bases; unknown template arguments count as unannotated pointers at the place of the declaration; examples record what happens there.)", "quantifier": "every program of the model and every expression, at any depth, with any types", "why_tests_cant": "the vector of a subexpression is cut and pasted at positions that depend on the number of pointers in types of any size", "anchors": ["nullability/type_transferer.cc:transferMemberExpr", "nullability/type_transferer.cc:transferDeclRefExpr", "nullability/type_transferer.cc:FromEnclosingClassNullability", "nullability/type_transferer.cc:FromTemplateArgs", "nullability/type_transferer.cc:transferCastExpr", "nullability/type_transferer.cc:transferCXXOperatorCallExpr", "nullability/type_transferer.cc:computeTypeNullabilityForCallExpr", "nullability/type_nullability.cc:getTypeNullability"]}
{"id": "C142", "title": "vectors have one entry for each pointer", "statement": "The vector of an expression has exactly as many entries as its type has pointers, whatever the expression is; for the expressions of C141 the computed vector has that length by itself, so that it is never discarded.", "quantifier": "every expression", "why_tests_cant": "lengths depend on types of any size", "anchors": ["nullability/type_transferer.cc:computeNullability", "nullability/type_transferer.cc:getNullabilityForChild"]}
{"id": "C143", "title": "annotations of template arguments reach the uses", "statement": "If a member function of a class template returns T& for the i-th parameter T, then the result of the call has the nullability that is written in the i-th template argument of the object; the same holds for fields of type T, through pointers, and for the result T of a function template that is called with explicit template arguments.", "quantifier": "every class template and function template instance, argument index, arguments of any types", "why_tests_cant": "the position of an argument in the vector depends on all arguments before it", "anchors": ["nullability/type_transferer.cc:FromEnclosingClassNullability", "nullability/type_transferer.cc:FromTemplateArgs", "nullability/type_transferer.cc:addTemplateArgs"]}
{"id": "C144", "title": "C++ integer constants have the same value in Rust", "statement": "Every enumerator, enumerator of an anonymous enum, and constexpr variable of a C++ integer type of at most 64 bits becomes a Rust constant that compiles in the type the bindings give it and has the value it has in C++, on each platform, including the extremes of each type; the only exception is a negative constant of plain char, whose binding does not compile. Constants of signed 128-bit type are bound exactly if they fit 64 bits, with the right value. So generated enum values compare in Rust as in C++.", "quantifier": "every platform data model, signedness of char, integer type and bit pattern", "why_tests_cant": "64-bit values cannot be enumerated; sign and width matter at boundaries", "anchors": ["rs_bindings_from_cc/ir.h:IntegerConstant::FromAPValue", "rs_bindings_from_cc/ir.cc:IntegerConstant::WriteToProto", "rs_bindings_from_cc/generate_bindings/database/code_snippet.rs:integer_constant_to_token_stream", "rs_bindings_from_cc/generate_bindings/generate_enum.rs:generate_enum", "rs_bindings_from_cc/generate_bindings/lib.rs:generate_constant"]}
{"id": "C145", "title": "Rust integer constants have the same value in C++", "statement": "Every Rust constant of bool or of an integer type of at most 64 bits, every enumerator of a cpp_enum and every tag of a repr(C) enum variant is written as a C++ expression that is well formed (its literal has a type) and has exactly the value of the constant, so that no conversion changes it and no narrowing error occurs, on each platform. Constants of ffi_11::c_char keep their bits. (The least c_longlong on Linux, and c_long on iOS and OpenBSD, are exceptions.)", "quantifier": "every platform, type and bit pattern", "why_tests_cant": "64-bit values cannot be enumerated; the type of a C++ literal depends on its value and on the platform", "anchors": ["cc_bindings_from_rs/generate_bindings/generate_struct_and_union.rs:scalar_value_to_string", "cc_bindings_from_rs/generate_bindings/generate_struct_and_union.rs:generate_cpp_enum", "cc_bindings_from_rs/generate_bindings/lib.rs:generate_const"]}
{"id": "C146", "title": "constants survive the round trip", "statement": "A constant of a builtin Rust integer type that is exported to C++ and imported back from there has the same type and the same value.", "quantifier": "every platform, builtin integer type of at most 64 bits and value", "why_tests_cant": "as for C144 and C145; composition of two tools", "anchors": ["cc_bindings_from_rs/generate_bindings/generate_struct_and_union.rs:scalar_value_to_string", "rs_bindings_from_cc/generate_bindings/database/code_snippet.rs:integer_constant_to_token_stream", "cc_bindings_from_rs/generate_bindings/format_type.rs:format_int_ty_for_cc"]}
{"id": "C147", "title": "C++ constructors of fieldless variants make that variant", "statement": "The object that the C++ static constructor of a variant without fields of an opaque Rust enum makes has the size of the enum, holds the tag of that variant at the place of the tag in the byte order of the target, and is zero elsewhere.", "quantifier": "every size, tag offset, tag size of at most 16 bytes, tag value and byte order", "why_tests_cant": "the layout is chosen by rustc; tags range over 128 bits", "anchors": ["cc_bindings_from_rs/generate_bindings/generate_struct_and_union.rs:generate_adt"]}
{"id": "C148", "title": "distinct C++ integer types are distinct Rust types", "statement": "On each platform, two different C++ integer types are different types in ffi_11; a type c_X is a builtin iN or uN exactly if the C++ type X is intN_t or uintN_t there, and has the width of X. In bindings, two C++ integer types that become the same Rust type are the same C++ type, except that char16_t and char32_t become u16 and u32.", "quantifier": "all platforms and pairs of types", "why_tests_cant": "tests run on one platform", "anchors": ["support/ffi_11/src/lib.rs:c_long", "support/ffi_11/src/lib.rs:c_char", "rs_bindings_from_cc/generate_bindings/database/rs_snippet.rs:PrimitiveName::from_primitive"]}
{"id": "C149", "title": "one function per overload set, the canonical one", "statement": "Among the C++ functions that would get the same Rust path, a function is bound exactly if every other one has a lower rank (deprecated functions rank below the others); so at most one is bound, a single non-deprecated overload is bound whatever deprecated ones exist, two non-deprecated ones hide each other, and the result does not depend on declaration or hash order.", "quantifier": "every list of functions, path assignment and ranking", "why_tests_cant": "overload sets have any size and order", "anchors": ["rs_bindings_from_cc/generate_bindings/generate_function.rs:overload_sets", "rs_bindings_from_cc/generate_bindings/database/db.rs:is_ambiguous_function", "rs_bindings_from_cc/generate_bindings/lib.rs:generate_item_impl"]}
{"id": "C150", "title": "a Rust operator is the C++ operator with the same symbol", "statement": "Whenever a core::ops trait is implemented for a C++ class, the C++ function behind it is the operator with the same token and number of operands as the Rust operator, the left operand is the first C++ parameter and the right one the second, and compound assignments are the ones that drop the C++ result. Conversely each overloadable Rust operator is offered for a C++ operator with that token on a reference to a Rust-movable class.", "quantifier": "every library of C++ operators, parameter types and class properties", "why_tests_cant": "operators, types and libraries are open-ended", "anchors": ["rs_bindings_from_cc/generate_bindings/generate_function.rs:OPERATOR_METADATA", "rs_bindings_from_cc/generate_bindings/generate_function.rs:api_func_shape_for_operator", "rs_bindings_from_cc/generate_bindings/generate_function.rs:extract_first_operator_parameter", "rs_bindings_from_cc/generate_bindings/generate_function.rs:record_type_of_compound_assignment"]}
{"id": "C151", "title": "Rust == is the C++ ==", "statement": "A Rust a == b between C++ classes that compiles evaluates the C++ operator== for these classes on a and b in that order (by-value parameters receive copies), or, only if C++ has no usable operator== with the same parameters, the negation of operator!=. For each pair of classes there is at most one, and no two operator impls conflict, as long as types are written without aliases and named lifetimes. An operator== on const references that no other overload of == or != for these classes competes with is available in Rust.", "quantifier": "every library of operators, parameter types, class properties and values", "why_tests_cant": "which function is used depends on all overloads of the library", "anchors": ["rs_bindings_from_cc/generate_bindings/generate_function.rs:api_func_shape_for_operator_eq", "rs_bindings_from_cc/generate_bindings/generate_function.rs:api_func_shape_for_operator_ne", "rs_bindings_from_cc/generate_bindings/generate_function.rs:get_binding", "rs_bindings_from_cc/generate_bindings/generate_function.rs:adjust_param_types_for_trait_impl", "rs_bindings_from_cc/generate_bindings/generate_function.rs:generate_func_body"]}
{"id": "C152", "title": "ordering in Rust follows the C++ < and ==", "statement": "PartialOrd is implemented only for a class with operator< between two values of the class and a bindable operator== with the same parameters, never in an uncallable form. Its methods satisfy the documented contract of PartialOrd if and only if C++ never has both a == b and a < b; a < b and b > a agree if and only if a < b excludes b < a and b == a; for a strict total order with its equality, Rust comparisons are that order and never answer None; None means neither equal nor ordered.", "quantifier": "every class, pair of C++ operators and pair of values", "why_tests_cant": "the laws quantify over all values and all C++ implementations of the operators", "anchors": ["rs_bindings_from_cc/generate_bindings/generate_function.rs:api_func_shape_for_operator_lt", "rs_bindings_from_cc/generate_bindings/generate_function.rs:generate_function", "rs_bindings_from_cc/generate_bindings/generate_function.rs:get_binding"]}
{"id": "C153", "title": "indexing keeps shared and exclusive access apart", "statement": "A C++ operator[] that Rust can call through a shared reference is a const method returning an lvalue reference to const, one that Rust calls through an exclusive reference is a non-const method returning an lvalue reference to non-const, and rvalue-qualified ones are never bound. IndexMut is implemented only beside a const operator[] with the same index type, which gives Index.", "quantifier": "every class and set of operator[] overloads", "why_tests_cant": "overloads and types are open-ended", "anchors": ["rs_bindings_from_cc/generate_bindings/generate_function.rs:api_func_shape_for_operator_index", "rs_bindings_from_cc/generate_bindings/generate_function.rs:has_matching_cc_index", "rs_bindings_from_cc/generate_bindings/generate_function.rs:generate_standard_indexing_impl"]}
{"id": "C154", "title": "lifetimes made up for parameters are fresh", "statement": "When by-value parameters that cannot be moved in Rust are turned into rvalue references, the search for a lifetime name always ends, each such parameter gets a lifetime different from all lifetimes in the signature and from each other, and all other parameters are unchanged.", "quantifier": "every signature, parameter names and existing lifetimes", "why_tests_cant": "names may collide with generated names in unboundedly many ways", "anchors": ["rs_bindings_from_cc/generate_bindings/generate_function.rs:materialize_ctor_in_caller"]}
{"id": "C155", "title": "C++ blocks in a Rust file are found exactly", "statement": "From a Rust source file the extraction tools get exactly the blocks inline_cpp!{...}, global_cpp!{...} and DO_NOT_SUBMIT_CPP_DECL!{...} (with any path in front), in order, each with its text up to the matching brace and with the right byte offsets, lines and columns; braces, names and colons inside strings and comments do not count, text after one block is searched on, and a block that is never closed is an error that names its line.", "quantifier": "every token sequence of a file", "why_tests_cant": "files are unbounded; nesting and position arithmetic must be right everywhere", "anchors": ["support/extract_cpp_from_rust/parse_inline_cpp_macros.rs:parse_inline_cpp_macros", "support/extract_cpp_from_rust/parse_inline_cpp_macros.rs:check_macro_path", "support/extract_cpp_from_rust/parse_inline_cpp_macros.rs:next_macro"]}
{"id": "C156", "title": "C++ diagnostics point at the Rust source", "statement": "Every block of every file is in the extracted header, and for each character of it the file, line and column that the C++ compiler reports are those of that character in the Rust file.", "quantifier": "every list of files, block and character of a block without line directives of its own before it", "why_tests_cant": "the mapping must hold for all positions in all files", "anchors": ["support/extract_cpp_from_rust/extract_cpp_from_rust.rs:extract_global_cpp", "support/extract_cpp_from_rust/extract_cpp_from_rust.rs:extract_inline_cpp", "support/extract_cpp_from_rust/extract_cpp_from_rust.rs:main"]}
{"id": "C157", "title": "an inline_cpp! invocation calls the function made from its own body", "statement": "The function that the expansion of inline_cpp! calls is defined in the extracted header, with the text of that invocation as parameters and body; different invocations in a file, or in files with different names, get different function names, and the names are valid identifiers.", "quantifier": "every list of files and block; lines below 65536 and columns below 256", "why_tests_cant": "a hash over target, path, line and column must not collide for any pair of places", "anchors": ["support/extract_cpp_from_rust/inline_cpp_utils.rs:compute_thunk_name", "support/extract_cpp_from_rust/inline_cpp_utils.rs:Fnv1aHasher", "support/extract_cpp_from_rust/inline_cpp_macro.rs:inline_cpp", "support/extract_cpp_from_rust/extract_cpp_from_rust.rs:extract_inline_cpp"]}
{"id": "C158", "title": "malformed inline_cpp! bodies are rejected", "statement": "The header is produced only if every inline_cpp! body has the form (parameters) -> type { ... } with white space around, and every body of that form is accepted.", "quantifier": "every token sequence of a body", "why_tests_cant": "bodies are unbounded", "anchors": ["support/extract_cpp_from_rust/extract_cpp_from_rust.rs:validate_inline_cpp_syntax"]}
{"id": "C159", "title": "formatting changes only the layout of C++ bodies", "statement": "Formatting a Rust file with embedded C++ fails only if a block is unclosed; otherwise the Rust text outside of block bodies is unchanged, the bodies are indented four columns deeper than the line the block begins in, and no character other than white space is added, lost or moved, provided that clang-format itself changes only white space and keeps the auxiliary function name in one piece.", "quantifier": "every file and every clang-format", "why_tests_cant": "files are unbounded and the replacements are spliced by byte offsets", "anchors": ["support/extract_cpp_from_rust/rust_with_cpp_fmt.rs:format_rust_source", "support/extract_cpp_from_rust/rust_with_cpp_fmt.rs:run_clang_format"]}
{"id": "C160", "title": "the generated C++ asserts the exact type of a function", "statement": "The type that the C++ compiler reads from the spelling of a parameter or result type in the generated assertion is the type declared in the header, const included, through aliases, pointers, references, slices and function pointers. (Exceptions: slices of const pointers, and function pointer types that are variadic, noexcept or return const; see the disagreements.)", "quantifier": "every C++ type built from built-in types, classes, aliases, pointers, references, slices and function pointers, and every choice of imported names and lifetime options", "why_tests_cant": "types nest without bound and const, * and & bind to what is before them", "anchors": ["rs_bindings_from_cc/importer.cc:ConvertQualType", "rs_bindings_from_cc/importer.cc:ConvertUnattributedType", "rs_bindings_from_cc/generate_bindings/rs_type_kind.rs:rs_type_kind_with_lifetime_elision", "rs_bindings_from_cc/generate_bindings/cpp_type_name.rs:format_cpp_type_inner", "rs_bindings_from_cc/generate_bindings/generate_function_thunk.rs:generate_function_assertion_for_identifier"]}
{"id": "C161", "title": "thunks are declared with the type of the function, references as pointers", "statement": "The type that the C++ compiler reads from the spelling of a type in a thunk is the type declared in the header with an outermost reference replaced by a pointer and all inner types, including references inside of function pointer types, unchanged.", "quantifier": "every C++ type built from built-in types, classes, aliases, pointers, references, slices and function pointers", "why_tests_cant": "types nest without bound", "anchors": ["rs_bindings_from_cc/generate_bindings/cpp_type_name.rs:format_cpp_type", "rs_bindings_from_cc/generate_bindings/cpp_type_name.rs:format_cpp_type_inner"]}
{"id": "C162", "title": "Rust types agree with the C++ types they stand for", "statement": "The Rust type of a C++ type has the same structure; Rust may write through a pointer, reference or slice exactly if C++ may; a C++ pointer becomes a Rust raw pointer and never a reference; a function pointer is wrapped in Option exactly if it is a pointer and not a reference; calling conventions are kept.", "quantifier": "every C++ type without variadic functions and every choice of lifetime options", "why_tests_cant": "types nest without bound, aliases add const invisibly", "anchors": ["rs_bindings_from_cc/importer.cc:ConvertUnattributedType", "rs_bindings_from_cc/generate_bindings/rs_type_kind.rs:rs_type_kind_with_lifetime_elision", "rs_bindings_from_cc/generate_bindings/database/rs_snippet.rs:to_token_stream"]}
{"id": "C163", "title": "C++ types of Rust types", "statement": "The type that the C++ compiler reads from the generated spelling of a Rust type corresponds to the Rust type in its place: integers have the same width and sign, pointers and references lead to what the Rust ones lead to and are const exactly if the Rust ones are shared (or writable where shared references are to thread-safe types), references are used only for parameters, results and constants, slices, strings, arrays, tuples, Option, Result, Vec and function pointers have the element types in order. (Exception: slices of RvalueReference; see the disagreements.)", "quantifier": "every Rust type built from these constructors, every place of it in the header, and every choice of features and supported types", "why_tests_cant": "types nest without bound, and const, * and & bind to what is before them", "anchors": ["cc_bindings_from_rs/generate_bindings/format_type.rs:format_ty_for_cc", "cc_bindings_from_rs/generate_bindings/format_type.rs:format_pointer_or_reference_ty_for_cc", "cc_bindings_from_rs/generate_bindings/format_type.rs:format_slice_ref_for_cc", "cc_bindings_from_rs/generate_bindings/format_type.rs:treat_ref_as_ptr"]}
{"id": "C164", "title": "generated C++ types are well formed", "statement": "A generated C++ type never has void as an element, template argument or parameter, never has a pointer or reference to a reference, references as elements or template arguments, or a function type other than behind a pointer or reference.", "quantifier": "every Rust type and place as for C163", "why_tests_cant": "types nest without bound", "anchors": ["cc_bindings_from_rs/generate_bindings/format_type.rs:format_ty_for_cc", "cc_bindings_from_rs/generate_bindings/type_location.rs:TypeLocation"]}
{"id": "C165", "title": "types in thunks are the types of the Rust API", "statement": "Every type that gets a C++ spelling also has a spelling in the generated Rust thunk, and the Rust compiler reads it as the original type with all lifetimes replaced by the static one; a spelling with lifetimes is read as exactly the original type.", "quantifier": "every Rust type as for C163 whose generic types have the right number of arguments", "why_tests_cant": "types nest without bound, one-element tuples and unit results are special cases", "anchors": ["cc_bindings_from_rs/generate_bindings/format_type.rs:format_ty_for_rs", "cc_bindings_from_rs/generate_bindings/format_type.rs:format_fn_ptr_for_rs", "cc_bindings_from_rs/generate_bindings/generate_function_thunk.rs:replace_all_regions_with_static"]}
{"id": "C166", "title": "overloads for usize, u32 and u64 do not collide", "statement": "Of implementations of a trait for several types, one is rejected exactly if another one has the preferred type of its group (usize or isize for the types of 32, 64 and pointer width, also behind references, pointers, slices, arrays and in tuples), and that one is kept; order is kept. Kept implementations in a group have different C++ parameter types on every target where types of 32 and 64 bits differ, and a rejected one would have the type of a kept one on a target with pointers of 32 or 64 bits. (The last two for types without tuples; see the disagreements.)", "quantifier": "every list of items, key types and target", "why_tests_cant": "targets differ in which typedefs are the same", "anchors": ["cc_bindings_from_rs/generate_bindings/avoid_colliding_types.rs:avoid_colliding_types", "cc_bindings_from_rs/generate_bindings/avoid_colliding_types.rs:get_preferred_type"]}
{"id": "C167", "title": "namespaces that are opened several times become one module each", "statement": "If the numbers of declarations are different, all blocks of a namespace are in the same namespace, and the first (if it is in the target) and the last block of each namespace with bindings have bindings, the generator does not fail; every declaration of the target is exactly once in the generated code, in the module of its namespace and in the order of the headers, also if its namespace is opened several times, in other targets first, or is nested in one that is opened several times; and there is exactly one module for each namespace that has a block with bindings, which is deprecated exactly if one of the blocks is.", "quantifier": "every tree of namespaces, blocks and declarations, before and after declarations of other targets", "why_tests_cant": "blocks can be split and nested in any way", "anchors": ["rs_bindings_from_cc/generate_bindings/lib.rs:generate_namespace", "rs_bindings_from_cc/generate_bindings/lib.rs:generate_item", "rs_bindings_from_cc/generate_bindings/database/code_snippet.rs:append", "rs_bindings_from_cc/generate_bindings/database/code_snippet.rs:merge", "rs_bindings_from_cc/generate_bindings/database/code_snippet.rs:generated_items_to_tokens", "rs_bindings_from_cc/ir.rs:make_ir", "rs_bindings_from_cc/ir.rs:is_last_reopened_namespace"]}
{"id": "C168", "title": "thunks for Rust functions have different names", "statement": "The name of the thunk for a Rust function determines its symbol name and the crate id, so thunks of different functions or crates never have the same name; the name is an identifier in Rust and C++ and not a reserved word. In general symbols that are different stay different when they are escaped, and an escaped symbol that is not empty is an identifier.", "quantifier": "every symbol name and crate id, and every classification of characters outside ASCII", "why_tests_cant": "there are infinitely many symbols", "anchors": ["common/code_gen_utils.rs:escape_non_identifier_chars", "cc_bindings_from_rs/generate_bindings/generate_function_thunk.rs:make_thunk_name"]}
{"id": "C169", "title": "C++ names of Rust names are not reserved", "statement": "A Rust name that is not written with r# gets a C++ name exactly if it is an identifier and either is not reserved in C++ or reserved words are escaped; that name is the same, with an underscore if it is reserved, and is an identifier, not a keyword of C++ and not reserved. Two names get the same C++ name only if one is reserved and the other is the same with an underscore. Every field has a name which is an identifier and not reserved; it keeps its name if that is not reserved nor the name of a method; and fields of a tuple struct get different names.", "quantifier": "every name, with and without the features for escaping and for standard macros, and every set of methods", "why_tests_cant": "any string can be a name", "anchors": ["common/code_gen_utils.rs:is_cpp_reserved_keyword", "common/code_gen_utils.rs:is_cpp_nonportable_word", "common/code_gen_utils.rs:unkeyword_cpp_ident", "common/code_gen_utils.rs:format_cc_ident", "cc_bindings_from_rs/generate_bindings/generate_struct_and_union.rs:analyze_field"]}
{"id": "C170", "title": "Rust identifiers for C++ names and targets", "statement": "A name gets a Rust identifier exactly if it is an identifier after hyphens are replaced by underscores and is none of crate, self, super, Self and _; the identifier is accepted by Rust (written with r# if it is a keyword) and stands for the name with hyphens replaced. Different names without hyphens get different identifiers, and every C++ identifier that is imported, except _, gets an identifier with its name.", "quantifier": "every name without #, and every list of keywords that contains the keywords of Rust (except the five that are special cases)", "why_tests_cant": "any string can be a name, and which keywords the parser knows depends on its version", "anchors": ["common/code_gen_utils.rs:try_make_rs_ident", "common/code_gen_utils.rs:hyphen_to_underscore", "rs_bindings_from_cc/importer.cc:GetTranslatedName"]}
{"id": "C171", "title": "thunks for C++ functions have different names", "statement": "The name of the thunk for a C++ function is an identifier in C++ and Rust. If mangled names consist of characters of identifiers and do not begin like a hash, two functions of a target have thunks with the same name only if they have the same mangled name and the same hash; and a function outside class templates whose mangled name is unique gets a thunk named after the mangled name alone.", "quantifier": "every list of functions with their mangled names and hashes", "why_tests_cant": "lists are unbounded", "anchors": ["rs_bindings_from_cc/generate_bindings/generate_function_thunk.rs:thunk_ident", "rs_bindings_from_cc/generate_bindings/generate_function_thunk.rs:ident_fragment_from_mangled_name", "rs_bindings_from_cc/generate_bindings/generate_function_thunk.rs:compute_disambiguator_hash", "rs_bindings_from_cc/generate_bindings/database/db.rs:has_conflicting_mangled_name"]}
{"id": "C172", "title": "C++ pointer types given by users are recognised", "statement": "A pointer to something that is not a pointer is recognised as a pointer, and as a pointer to const exactly if const is written before or after the pointee; what is not a pointer is not taken for one. (Pointers to pointers and const pointers: see the disagreements.)", "quantifier": "every C++ type made of tokens, const and *", "why_tests_cant": "names of types can be arbitrary lists of tokens", "anchors": ["common/code_gen_utils.rs:is_cpp_pointer_type"]}
{"id": "C173", "title": "Rust iterators in C++ loops", "statement": "C++ code that uses a Rust iterator through the adapter sees the results of next() in order, one per increment; dereferencing gives the element until the code itself moves it out, and fails only where Rust has returned None. next() is called exactly once more than the adapter is incremented, a C++ loop up to the end visits the same elements as a Rust for loop, and every element is dropped or handed over exactly once.", "quantifier": "every Rust iterator, and every sequence of operations on the adapter", "why_tests_cant": "iterators can be infinite, not fused and have any state; sequences of operations are unbounded", "anchors": ["support/rs_std/iterator_adapter.h:IteratorAdapter"]}
{"id": "C174", "title": "cc_template! finds the class it asks for", "statement": "The instantiations requested from the C++ side are exactly those of the cc_template! invocations in the scanned sources, also nested in groups, each once and in an order that does not depend on hashing. If the canonical C++ spelling of each requested class is the text in the invocation, each invocation is expanded to the Rust name of the class that it names, also if the macro prints tokens with other spaces than the scanner; and only requested classes can be named. (If the canonical spelling has a space: see the disagreements.)", "quantifier": "every list of files as trees of tokens, every order of hash sets, every printer that differs only in spaces", "why_tests_cant": "token trees nest without bound", "anchors": ["rs_bindings_from_cc/collect_instantiations.rs:find_cc_template_calls", "rs_bindings_from_cc/collect_instantiations.rs:collect_instantiations_impl", "support/cc_template/cc_template_impl.rs:get_instantiation_struct_name", "rs_bindings_from_cc/generate_bindings_and_metadata.cc:FindInstantiationsInNamespace", "rs_bindings_from_cc/ir_from_cc.cc:IrFromCc"]}
{"id": "C175", "title": "Targets on the command line", "statement": "The descriptions of targets given to rs_bindings_from_cc are accepted exactly if no label, header or feature in them is empty; then a header belongs to the alphabetically first of all targets that list it (to none only if none does), each target has exactly the features listed for it, wherever, and the last crate name given for it; the order of the descriptions is irrelevant to headers and features. The command line is accepted exactly if what is required is present, and then each public header belongs to a target that lists it.", "quantifier": "every list of descriptions, with any headers, features and repeated targets, and all other flags", "why_tests_cant": "lists are unbounded and conflicts can be between any number of targets", "anchors": ["rs_bindings_from_cc/cmdline.cc:ParseTargetArgs", "rs_bindings_from_cc/cmdline.cc:Create"]}
{"id": "C176", "title": "Arguments from files and about targets", "statement": "Arguments written to a file one per line, with backslashes before backslashes and line ends, are read back as they are, and take the place of @file on the command line; other arguments are unchanged. All --target_to_arg before -- are replaced, at the place of the first, by one --target_args with the list of the values in order, and all other arguments stay in order. (Three corner cases: see the disagreements.)", "quantifier": "every list of arguments with any characters, every file", "why_tests_cant": "arguments are arbitrary strings and lists of them are unbounded", "anchors": ["rs_bindings_from_cc/cmdline.cc:ExpandParamfiles", "rs_bindings_from_cc/cmdline.cc:PreprocessTargetArgs"]}
{"id": "C177", "title": "Error reports are complete", "statement": "Whatever a generator does inside nested item scopes, the report contains each error exactly once, under the innermost item in which it was found and in order (lists of errors one by one, errors with context as their root cause), the categories added to each item, and an entry with its name (and the unique name and target with which it was entered first) for each item, with errors or without; and nothing else. It panics exactly if two items have the same number but different names. All fatal errors are in the string that is taken, and not taking it panics.", "quantifier": "every tree of scopes with any errors, categories and repeated items", "why_tests_cant": "scopes, lists of errors and contexts nest without bound", "anchors": ["common/error_report.rs:ErrorReport", "common/error_report.rs:ItemScope", "common/error_report.rs:FormattedError", "common/error_report.rs:FatalErrors"]}
{"id": "C178", "title": "Error reports do not depend on unstable details", "statement": "The messages in a report are the same whatever line and column rustc prints in identifiers of definitions and whatever hash it prints for a crate, wherever in the message; hashes are left out and other messages are unchanged. (Messages without a format string, and hashes that appear only when another is left out: see the disagreements.)", "quantifier": "every message with such details anywhere, every set of digits", "why_tests_cant": "messages are arbitrary strings", "anchors": ["common/error_report.rs:hide_unstable_details", "common/error_report.rs:FormattedError"]}
{"id": "C179", "title": "ABI types and expressions in generated code", "statement": "For the ABI of every bridged type, however nested, the Rust type in generated code is a type and the Rust expression an expression of that type, the same holds for C++, and the Rust and the C++ type encode values in the same way: pointers of equal constness, slices as slices, pairs and user-defined ABIs part by part. Paths of ABIs in annotations appear in the code as they are written. (C++ references and const pointers to pointers: see the disagreements.)", "quantifier": "every nesting of pairs, options, user-defined ABIs, strings, messages, pointers and given types", "why_tests_cant": "ABIs nest without bound", "anchors": ["common/crubit_abi_type.rs:CrubitAbiType", "common/crubit_abi_type.rs:CrubitAbiTypeToRustTokens", "common/crubit_abi_type.rs:CrubitAbiTypeToRustExprTokens", "common/crubit_abi_type.rs:CrubitAbiTypeToCppTokens", "common/crubit_abi_type.rs:CrubitAbiTypeToCppExprTokens", "common/crubit_abi_type.rs:FullyQualifiedPath"]}
{"id": "C180", "title": "The default nullability of a file is that of its first valid pragma", "statement": "After any sequence of `#pragma nullability file_default` directives in a translation unit, the default nullability of a file is what the first directive in it that says `nullable` or `nonnull` says, and unspecified if there is none; directives in other files, later directives and malformed ones never change it. A malformed directive in a file gets exactly one warning that it is invalid, a well-formed one after another in its file exactly one that it is repeated, in order, and no other directive gets any.", "quantifier": "every sequence of directives over any files, with any tokens", "why_tests_cant": "sequences of directives over files are unbounded and their effect depends on the history", "anchors": ["nullability/pragma.cc:HandlePragma", "nullability/pragma.cc:parseNullabilityKind", "nullability/type_nullability.cc:TypeNullabilityDefaults::get"]}
{"id": "C181", "title": "Source filters depend only on what is asked about", "statement": "Whatever a location filter was asked before, its answer for a location is: always yes for kAllowAll; not in the main file for kAllowAllButNotMainFile; for kMainFileOrHeader, in the main file, or in a file of the same directory with the same stem as the main file or with the stem of which the main file is a test (`_test`, `-test`, `_unittest`, `-unittest`); for kMainHeaderButNotMainFile the same without the main file; an invalid location is refused by the last two. The inference tool analyzes exactly the declarations whose file passes -file-filter and whose qualified name passes -name-filter, a leading `-` negating.", "quantifier": "every sequence of questions, every set of files, every pattern matcher", "why_tests_cant": "caches make answers depend on history unless proved otherwise", "anchors": ["nullability/loc_filter.cc:InMainFileOrHeader", "nullability/loc_filter.cc:AllButMainFileFilter", "nullability/loc_filter.cc:getLocFilter", "nullability/inference/infer_tu_main.cc:DeclFilter"]}
{"id": "C182", "title": "Replaced macros keep their meaning under another name", "statement": "In a translation unit that includes the header of replacements once, a macro the header defines is, after the code defines or undefines it in any way, defined exactly when it would be without the tool, and then with the header's definition; the code's last definition of it is the definition of the macro with the reserved prefix, to which the header's expands. Every macro that the header does not define or the code does not touch is what it would be without the tool.", "quantifier": "every sequence of includes, definitions and undefinitions before, in and after the header", "why_tests_cant": "histories of directives are unbounded", "anchors": ["nullability/inference/replace_macros.cc:ReplaceMacrosCallbacks::FileChanged", "nullability/inference/replace_macros.cc:ReplaceMacrosCallbacks::MacroDefined", "nullability/inference/clang_tidy_nullability_replacement_macros.h:CHECK"]}
{"id": "C183", "title": "Documentation comments arrive line for line", "statement": "The comment of a C++ declaration that reaches the bindings consists of exactly the lines of the original comment that are not clang-tidy suppressions (blanks and slashes, a NOLINT word, perhaps a parenthesis), in order; it is absent exactly if nothing is left. In the Rust bindings the documentation is the comment, a \"# Safety\" section and the source location as paragraphs, every line led by one blank, and is present exactly if there is one of the three; in the C++ bindings it is the Rust documentation and the location as paragraphs. Golden tests that do not ask for locations get none.", "quantifier": "every comment text, safety text, location and mode", "why_tests_cant": "the regular expression and the splitting are defined on all texts; tests have a handful of comments", "anchors": ["rs_bindings_from_cc/importer.cc:Importer::GetComment", "rs_bindings_from_cc/importer.cc:ShouldKeepCommentLine", "rs_bindings_from_cc/generate_bindings/generate_comment.rs:generate_doc_comment", "cc_bindings_from_rs/generate_bindings/lib.rs:generate_doc_comment"]}
{"id": "C184", "title": "Source locations in bindings", "statement": "The location text names the file (without a leading \"./\") and line where the declaration is spelled and, for a declaration from a macro, below it where the macro is expanded. It determines the file (up to a leading \"./\") and the line. For no location the importer writes - in a macro or not - does the generator of Rust bindings find byte offsets in it, unless a path has a bracket: captures in Kythe metadata get a stub instead. Were the offsets there, the file name found would include the words \"Generated from: \".", "quantifier": "every spelling and expansion location; every file name without \";\", every numeral", "why_tests_cant": "a test of the parser uses a text that the importer never writes; that none of its texts matches is a statement on all of them", "anchors": ["rs_bindings_from_cc/importer.cc:Importer::ConvertSourceLocation", "rs_bindings_from_cc/generate_bindings/generate_comment.rs:parse_extended_source_loc"]}
{"id": "C185", "title": "Includes of generated C++", "statement": "The #include lines of generated C++ do not depend on the order in which bindings ask for headers or on how often: every header asked for is there once, C++ headers first, then headers of the user, after one empty line exactly if there are both, then support headers and re-exported ones, each group sorted. A path in angle brackets becomes an include in angle brackets and every other path one in quotes. A compiler reads the path that was meant from a line if no character of it is escaped in literals, and another path (with the escapes) otherwise.", "quantifier": "every list of includes asked for; every path", "why_tests_cant": "order independence and exactly-once range over all sequences of requests", "anchors": ["common/code_gen_utils.rs:CcInclude", "common/code_gen_utils.rs:format_cc_includes"]}
{"id": "C186", "title": "Annotations are read from all declarations alike", "statement": "An entity has an annotation, with the arguments of the first declaration that is annotated, exactly if some declaration is annotated, no declaration twice, and all annotations of the name on all declarations agree argument by argument: the same number of the same type, the same string literal, or objects of the same class. It has none exactly if no declaration is annotated; otherwise reading is an error. So reading does not depend on the order of the declarations. A flag is set exactly if it is there, nowhere with arguments; string arguments are exactly the literals, on every declaration; a type has the annotation that is around it exactly once; a truth value is read exactly from a constant of type bool.", "quantifier": "every list of redeclarations with any annotations and arguments of any kind", "why_tests_cant": "declarations, annotations and arguments are unbounded in number; agreement has to be an equivalence for comparing with the first to suffice", "anchors": ["common/annotation_reader.cc:GetAnnotateAttrArgs", "common/annotation_reader.cc:HasAnnotationWithoutArgs", "common/annotation_reader.cc:GetAnnotationWithStringArgs", "common/annotation_reader.cc:GetTypeAnnotationSingleDecl", "common/annotation_reader.cc:GetExprAsBool"]}
{"id": "C187", "title": "Format strings given at run time", "statement": "A format string is accepted exactly if it consists of characters other than braces, doubled braces, and known names in braces, perhaps with blanks around them; it can be read in one way only. Formatting copies the characters, halves the doubled braces and puts for each name what is given for it, uninterpreted, without ever panicking; a text whose braces are doubled stands for itself. Of all other format strings the first thing out of order is reported: a closing brace without an opening one, an opening one that is not closed, or the unknown name. Two format strings give equal formats exactly if they differ in blanks around names only.", "quantifier": "every format string, every list of names and of what is given for them", "why_tests_cant": "format strings come from the command line; a grammar is a statement on all strings", "anchors": ["common/dyn_format.rs:Format::parse_with_metavars", "common/dyn_format.rs:Format::format"]}
{"id": "C188", "title": "Casts between forward declarations and complete types", "statement": "cpp_coerce compiles from one type to another exactly if both are the same type of C++: declared or defined under one name; pointers or references that allow the same (reading, or writing) for the same lifetime to the same type, of whatever kind (&, Pin<&>, CRef; &mut, Pin<&mut>, CMut); arrays of one length, or slices, of the same type (a slice counts as an array of usize::MAX elements). So casts can be undone, any chain of casts leads no further than one cast, no chain turns one complete type into another, removes const, changes a lifetime or gives an unpinned &mut to a forward declaration or another type that is not Unpin. The value arrives byte for byte; a cast panics exactly if sizes differ, which for pointers happens only between slices and arrays of usize::MAX elements, and never between types without forward declarations by value and such arrays. (Found false of the code without that exception: vectors of references to slices can be cast, unchecked, to vectors of references to such arrays.)", "quantifier": "all types built from declarations, definitions, pointers, references, arrays and slices; all chains of casts", "why_tests_cant": "which casts compile is a statement on all pairs of types", "anchors": ["support/forward_declare.rs:CppType", "support/forward_declare.rs:CppCoerce", "support/forward_declare.rs:Incomplete", "support/forward_declare.rs:unsafe_define", "support/forward_declare_proc_macros.rs:symbol"]}
{"id": "C189", "title": "Collected errors are not lost", "statement": "Whatever calls are made on a collection of errors, consolidate returns exactly the errors given since the last call that handed errors out or threw them away, in order, and Ok exactly if there are none; is_empty says whether there are none; consume_error and consolidate_on_err return the value of a success unchanged, the latter for an error the errors collected followed by it, and never panics. Dropping the collection panics exactly if there are errors left, and names them all. If discard is never called, each error given is handed out or named by the panic exactly once, in order.", "quantifier": "every history of calls", "why_tests_cant": "histories are unbounded", "anchors": ["common/errors.rs:Errors::add", "common/errors.rs:Errors::consume_error", "common/errors.rs:Errors::consolidate", "common/errors.rs:Errors::consolidate_on_err", "common/errors.rs:Errors::discard", "common/errors.rs:Errors::drop"]}
