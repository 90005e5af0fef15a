# Formal model of google/crubit in Lean 4

## Trusted base
* Lean 4.33.0's kernel. Property theorems depend on at most `propext`, `Classical.choice`, `Quot.sound`
  (`tools/axioms.sh` prints the axioms of every theorem listed in MANIFEST.json).
* The faithfulness of the hand-written model: every definition cites the file and lines in /repo it models,
  and says where it simplifies. The code itself is never run.
* Standard-library components are modelled by their documented contract, at the level named in each section
  (hash maps: finite maps with an arbitrary enumeration order; BinaryHeap: pop returns a maximum;
  slice sort: a stable sorted permutation; `str::from_utf8`, `utf8_chunks`: the Unicode "maximal subpart" rule).

Layout: `lean/Verif/<Area>/Model.lean` (model), `Spec.lean` where the specification needs vocabulary of its own,
`Lemmas.lean` (helpers), `Props.lean` (property theorems and non-vacuity examples).
`tools/props_*.py` is the single source of properties.jsonl and MANIFEST.json (`python3 tools/gen.py`).

## Plan per property

| Property | What is modelled | How it is proved |
|---|---|---|
| C01-C06 | `toposort` whole function: graph construction with panics, heap, Kahn loop, failed list; hash-map enumeration order is a parameter | loop invariant over the Kahn loop; graph reachability spec by an inductive path relation |
| C07-C10 | Rust `CrubitAbi` and C++ `bridge.h` encoders and decoders over a byte memory, backwards counter with explicit underflow | structural induction on the schema |
| C11-C15 | `internal_memoized_call` + `query_group!`: memo table, active table, cycle counter; query bodies are arbitrary ask-trees | invariants by induction on evaluation (fuelled interpreter), spec = plain recursion |
| C16-C17 | `Interner` with an arena of cells | invariant over op sequences |
| C18-C21 | `LossyFormatter`, `IncompleteUtf8`, a model of UTF-8 chunking, a writer that may fail at any point | refinement to a byte-at-a-time lossy decoder |
| C22-C24 | feature table and resolution | set reasoning; finite table by `decide` |
| C25-C27 | `BazelLabel` on character/byte lists | injectivity by list induction |
| C28-C29 | `char_` with 32-bit values and bytes | bit arithmetic / case split |
| C30-C31 | `MergedNamespace` trees | structural induction; counterexample for C31 |
| C32 | `memoized!` side tables and the process-wide database counter (wrapping `u8`) | refinement of every interleaving to per-database calls |
| C33 | `CollectNamespaces` and `NamespaceTrie` over an arbitrary acyclic IR | induction on the IR; independent path relation as specification |
| C34-C35 | `IsUtf8` (table, fall-through switch, loop), `SliceRef`, `StrRef::FromUtf8` | case split per encoded length; induction on the string |
| C36 | `HasMutableAliasing` (pairwise and sort+sweep) with an arbitrary `std::sort` | sorted-list invariants |
| C37 | `Movable`, `Slot` over explicit storage cells with object identities | simulation to an ideal optional value + ledger invariant over histories |
| C38-C39 | nullability/inference/merge.{h,cc} whole, `groupAndMergeEvidence`; 32-bit counters, arbitrary map iteration order | verdict as a function of per-kind totals, by induction on the merge tree |
| C40-C43 | nullability null states, verdicts, join and widen over a contract model of clang's flow conditions (token <=> constraints, dependency closure, invariant, a solver that may give up) | semantic runs as the specification; fresh-atom extension lemmas; counterexamples by explicit contexts |
| C44-C46 | lifetime ids, symbol table with generated names, substitutions, as state machines over histories | invariants over histories; base-26 enumeration proved via rank; chains of a redirected partial function |
| C47-C49 | outlives constraints (DFS, join, union-find with path compression, ApplyToFunctionLifetimes under any hash order), points-to maps and the lattice | reachability = logical consequence; facts of a state as specification; phase invariants with substitutions as functions and unions as EqvGen |
| C50-C51 | CollectLifetimeConstraints over nested value lifetimes, the projection to the callable's lifetimes, IsIsomorphic, ConstrainLifetimes over lists of overrides | an inductive convertibility relation as specification; mutual induction over types; the override's lifetimes are chosen as infima in any complete lattice |
| C52-C55 | lifetime_defaults_transform.rs: BindingContext, add_lifetime_to_input/output_type, lower_clang_annotations, bind_lifetime_inputs, add_lifetime_to_func and _record; record_lifetime_arity is a parameter | scopes as a separate stack specification refined by the context; slots of types, filled by an inductive relation; induction over types and parameters with a monotone context invariant |
| C56-C58 | generate_struct_and_union.rs `generate_record`, `field_definition`: field bounds, coalescing of bitfields, padding, head padding, `repr(align)`, offset assertions; types by size and alignment only. Not: virtual bases, packed records, `alignas` on fields whose type stays known, lifetime markers | spec: layout of `repr(C)` types and of C++ classes (Itanium rules); invariant on the position reached, one member at a time; the Itanium layout satisfies the assumptions |
| C59–C61 | `CcLayout/Model.lean`: fields with rustc's offsets, sorting by offset, blobs and padding, `alignas`, `packed`; unions; `repr(C)` enums with tag and payload structs; bytes of variant constructors. Types are sizes and alignments. Not modelled: names, visibility, attributes, documentation, enums without layout, the constructors other than their bytes | `CcLayout/Spec.lean`: placement of members in C++ classes and unions, what holds of rustc layouts (structs: any order and gaps; enums: the layout prescribed by the reference). Induction over the sorted fields: after each field the C++ position is the offset of the next |
| C62–C63 | `SharedPtr/Model.lean`: shared_ptr.rs and `DynControlBlock`; libc++'s reference counts as environment, one atomic access per step; owners, weak pointers and drops under way are tokens, so any schedule of any number of threads is a sequence of steps. Sub-objects are not distinguished; panics in `f` of `project`, unwinding destructors and counter overflow are not modelled | an invariant relating counts to tokens and log, preserved by each step; termination of drops by a weight |
| C64–C67 | `Vector/Model.lean`: vector.rs (layout with three pointers) and the parts of `Vec<T, StdAllocator>` it uses, over memory that may be freed, uninitialized or poisoned; memory is counted in elements. Zero-sized `T`, the granularity of ASan and capacity overflow are not modelled | refinement: the state of memory represents the lists of `Vector/Spec.lean` (`Rel`), for each operation; ownership by counting owners of each element |
| C68–C70 | `Ctor/Model.lean`: all `Ctor` implementations and combinators, `ctor!`, `Slot`, `Emplace`, `reconstruct` of support/ctor.rs; memory is a tree of addresses, code appends events to a log. Closures only return, fail or panic; operations on slots that are fields, `Assign` and `construct` (for `Unpin` types) are not modelled | `Ctor/Spec.lean` is a machine that says which events memory allows; the log of each `Ctor` is accepted by it (mutual induction), hence of each program; consequences for any accepted log by induction |
| C71–C74 | `RsStd/{Layout,Option,Result}.lean`: `specialize_option`, `specialize_result`, the generated `tag()`/`set_tag()` loops, `OptionBase`, `ResultBase`, `MoveAssignOrDestroyAndConstruct`, `MoveCtorStyle` for these types; storage is bytes, payload types are arbitrary sets of byte strings, destructors leave arbitrary bytes. rustc's layouts and variant rule are the environment (`Layout.WF`, `rustVariant`); `std::optional` is trusted; arguments of assignments are not part of the object unless stated | refinement to a byte-free machine (`OptionSpec.lean`, `arStep`) by a simulation relation, for every sequence of operations including Rust writes |
| C75–C77 | `DynCallable/Model.lean`: `ManagedCallable`, `Impl`, `DynCallable`, `DynCallableAbi` (C++ and Rust), `manager`, the generated invoker; memory locations incl. the temporaries of `std::swap` and by-value parameters, so aliasing is real. Not modelled: arguments and results of calls, absl's side of `AnyInvocable`, the Rust fallback closure. | `Spec.lean` is a three-state cell per variable; forward simulation (`Refine.lean`) gives equality of observations for all programs; ownership is an invariant of the specification (`Ownership.lean`) carried over by the refinement. |
| C78–C79 | `FnCall/Model.lean`: both halves of a call from C++ to Rust as *code generators* (`cc_param_to_c_abi`, `cc_return_value_from_c_abi`, `generate_thunk_call`; `c_abi_for_param_type`, `convert_value_from_c_abi_to_rust`, `write_rs_value_to_c_abi_ptr`, `generate_thunk_impl`) producing C++ statements / Rust conversions over structured names, and an operational semantics (references, `std::get`, slots, unions, pointer arrays, buffers, moves, scope-exit destructors). Type confusion and redeclaration are stuck. Proof: induction over nested types with a frame invariant (names below the parameter, the root object at its path); results similarly; then composition over the parameter list. Not modelled: `async`, `is_constructor`, `ctor::RvalueReference`/`ByValue`, glued-name collisions between parameters (C++ compile error). |
| C80 | `Verif/CcCall`: the generator's choices (passing conventions, argument expressions, thunk statements, `can_skip_cc_thunk`) as functions from an IR function to code; the code gets an operational meaning on explicit memory (locals, temporaries, buffers, thunk parameters, callee parameters, result slot). | simulation, stage by stage: each stage's memory is given per parameter, induction over the parameter list |
| C81 | same model; destroying an object appends what it owns to a release log | corollary of the same simulation, plus a counting lemma for untouched parameters |
| C82 | same model: `Sig` classes of declaration, thunk and symbol | case analysis on conventions, `map_congr` over parameters |
| C83 | same model, `dropRust` | induction over parameters |
| C84 | `Future`: heap of boxes, C++ storage, contexts, raw wakers and virtual tables as a step function over schedules, against a machine without pointers | simulation with an ownership invariant (boxes ↔ variables), induction over schedules |
| C85 | same, counting `dropped`/`handed` events against creations | counting invariant on the specification, transferred by C84's simulation |
| C86 | same, counting `Clone`/`Destroy`/`WakeAndDestroy` per object | counting invariant; case analysis of the step that makes the call |
| C87 | same, composed with a reference-counting C++ program | invariant: count = own reference + live Rust wakers |
| C88 | `Verif/Special`: traits → special members → object memory with identities and uninitialised bytes; spec = docs/rust/movable_types.md as a state machine over variables | forward simulation over programs; case analysis for availability |
| C89 | same, identities of values | invariant: each identity is in one place or in the drop list, exactly once |
| C90 | `Verif/Header`: the whole of `generate_crate` (items → worklist of specializations → toposort → forward declarations → pieces), with generated snippets as inputs; spec = one pass over the header | invariants of the fixpoint and of the forward-declaration loop, on top of C01–C06 |
| C91 | same; `Needed` is an inductive relation over the input | fixpoint invariant both ways |
| C92 | same, two inputs equal up to the order of all sets | lock-step of the two fixpoints, uniqueness of the greedy order |
| C93 | same; `Uses` relation over the input | termination by counting, toposort failure iff cycle |
| C94 | `format_namespace_bound_cc_tokens`, `format_with_cc_body`; spec = token ↦ (namespace, marked namespaces) | induction over coalescing |
| C95 | `Verif/Paths`: `public_paths_by_def_id` as a queue machine over an arbitrary module graph; spec = `Walk`/`Spells` | loop invariant (entries sorted by length, window of one, each opened module has an entry as short) |
| C96 | same; `PublicPaths::insert` over a `binary_search` contract; spec = `Prefer`, `Better` | least element of a fold; BFS shortest-path invariant |
| C97 | `all_public_paths_by_def_id`, `merge`, `insert_aliases`; spec = `ownership` | fold over crates, permutation invariants |
| C98 | `formatted_items_in_crate` | from C97 |
| C99 | `NullabilityWalker` with its template contexts, `getTypeNullability`, `countPointersInType`, `getTypeNullabilityLocs` on types with sugar (Verif/NullTy); locations, cv-qualifiers and the recognition of smart pointers are not modelled; written packs are taken as flattened | walk with fuel; a structural scoping condition gives ok lookups (induction on the type with a semantic invariant of the context), ok lookups give the slots (induction on fuel) |
| C100 | as C99, with `isUnknownValidOn`, `unwrapAlias`, file defaults, `SubstituteTypeParam` | induction on fuel: a pending annotation sets the head |
| C101 | `Rebuilder`, `rebuildWithNullability` | induction on the canonical type |
| C102 | `AnalyzeFunctionRecursive`, `FindAndMarkCycleWithFunc` as a fuelled recursion with the stack of marked entries; the event log is added | invariant of the traversal (stack, marks, log); what a visit does to the stack as induction on fuel; free functions decrease |
| C103 | `AnalyzeRecursiveFunctions`, results map; the analysis of a body is a parameter that looks only at callees | each event is sound for the final map: later events do not change the results it looked at |
| C104 | two runs, callees reordered | induction on the log of one run; marks imply recursion |
| C105–C107 | `resolve_names` with both passes (names of the items, then the modules of the classes), `coalesce`, `determine_name_conflict_action`, the check for the parent's module in `has_bindings`, and `record_to_associated_module_name` (`Verif/ModName`). The snake-case function is arbitrary; maps are association lists. C105: the entry of a name is the state of an automaton over the uses of the name, and the automaton accepts exactly the compatible uses. C106: pass 2 only adds free names, the loop that appends `_` ends at a free name, and `record_to_associated_module_name`, run on the final map, takes the same path as pass 2 did. C107: exactly one entry names the class, so every enumeration finds it. |
| C108–C109 | The iterator over the types in a type (explicit stack), `type_target_restriction` with its loop, `type_visibility`, `Visibility::or`, the loop of `func_has_bindings`, and `missing_feature_descriptions_of_type` with its use for functions (`Verif/TypeVis`). Targets are numbers, features any function, messages numbers; the set of reasons is a list without duplicates. The iterator is shown to visit exactly the types seen (induction on the number of calls, bounded by the number of types); the loops are characterised by the set of targets met. |
| C110–C111 | `StrOwn`: heap of C++ strings, Rust variables and bridge buffers as pointers, places holding strings; specification without pointers | simulation with an ownership invariant over all programs; what moved-from strings hold is an arbitrary function |
| C112–C113 | `UniqPtr`: heap cells with how they were allocated, pointers as addresses, logs of constructions, destructor calls and deallocations; specification: a pointer is nothing or an object | simulation with the ownership invariant of `Common/Own`; undefined behaviour is an explicit outcome |
| C114 | `StrView`: views and slices as address and length, 64-bit arithmetic | direct proofs for all memories |
| C115–C117 | `Printer`: token streams with placeholders, `write_stream` with its provenance state, the textual unescaping, `match_indices`; spec: a tokenizer for the common part of Rust and C++, line splicing, maximal words | induction on streams with the text that follows; the tokenizer's step count is shown sufficient; matches of a word never cross word borders, so they depend on the words only |
| C118–C120 | `PtsTo`: expressions, statements, object chains, points-to maps, constraint generation, joins, static closure, inference; spec: a big-step semantics with a memory of places, region types with variance, callers with arbitrary memory | invariant: every pointer in memory has an object in the points-to set of its holder that stands for its target (a variable of the function, or memory whose region type is a subtype); constraints accumulate along paths; an interpretation of all lifetimes is built from one of the signature by suprema over implied constraints (C49) |
| C121–C125 | `NullSound`: the value transfer functions, diagnosis, join, widening and loop iteration of the nullability checker, on a small language of pointer variables; spec: a big-step semantics in which every pointer has an address and a ghost bit (from an annotated source or not), and the faults | C121: an assignment of truth values to the atoms and addresses to the locations satisfies the flow condition and describes the store, kept by every step; at a loop exit the widened environment describes every later iteration. C122: simulation that marks every pointer as annotated. C123: the flow condition excludes null, kept by uses. C124: measure Σ (forgettable properties + incomplete entry values still in place), values with the same location are equal. C125: concrete functions, every solver |
| C126–C131 | `Infer`: evidence collection of nullability inference (slots, the evidence of each behaviour, saving and loading of summaries, the virtual method index, propagation, rounds); spec: `NullFlow.Run`, `Needs`, `Tells`, the overriding relation | C126: loading is an injective renaming of atoms that only grows; queries are invariant under renaming. C127: each test is a statement about all runs. C128: from sufficiency. C129: invariant over visited prefixes. C130: membership of propagated evidence, transitivity. C131: C126-C130 with C38/C39 for every round |
| C132–C136 | `CcValue`: classification of special members (`ast_convert.cc`), `should_implement_drop`, `should_derive_copy`, `should_derive_clone`, `implements_copy`, `get_field_rs_type_kind_for_layout`, `field_definition`, derives, `Drop`/`PinnedDrop`/`Clone` implementations; spec: classes as trees, the C++ rules for destructors and copy constructors, what destroying and copying runs; Rust: drop glue, derived traits, which definitions are refused, auto trait `Unpin` | C132: induction over the class: `Copy` types have nothing to drop, trivial destructors do nothing on either side, records with `Drop` wrap all other fields; each place once by induction over places. C133: where C++ copies bytes `clone` copies bytes. C134: invariant: released resources and those held by values are a permutation of those acquired. C135: induction over plain classes. C136: induction over fields. `canPassInRegisters` is an oracle: the theorems hold whatever Clang answers |
| C137 | Cell/UnsafeCell placement in the generated record, against the `mutable` parts of the C++ class (`CcValue/Cells`) | mutual induction over classes and their subobjects |
| C138–C140 | `Bases`: `GetUnambiguousPublicBases` with Clang's `CXXBasePaths::lookupInBases`, `MergeAccess`, `isAmbiguous` (modelled from Clang, not in /repo), the offsets of `Inherits`, and the inherited member functions; spec: hierarchies as trees of classes, subobjects as (virtual base, non-virtual path), convertibility, placement of subobjects, member name lookup with hiding | C138: the DFS covers every subobject of the class it looks for, and its counts are the number of subobjects (induction over the bases, generalised over the classes met before); rounds: `seen` grows by a base each time. C139: induction over the path. C140: the counting map holds for each name the number of functions with it |
| C141-C143 | `ExprNull`: types with nullabilities as trees, substitution of template arguments, typing rules for expressions (Spec); `type_transferer.cc` on vectors with slices computed from pointer counts, on top of `NullTy.getTypeNullability` (Model) | `Walk`: the walk over an instantiated declared type reads off the tree; `Typed`: induction over typing derivations |
| C144-C148 | `Consts`: integer types per platform, rules for literals in Rust and C++ (Spec); `IntegerConstant`, `integer_constant_to_token_stream`, `ffi_11`, `scalar_value_to_string`, variant tag bytes (Model) | bit-level lemma on `getSignificantBits` by induction; decimal text read back by `Nat.ofDigits_digits`; case analysis over types with arithmetic on values |
| C149-C154 | `Ops`: operator traits of Rust, conflict of impls, contract of `PartialOrd`, canonical overload (Spec); shapes of operators, `get_binding`, `generate_function` as far as errors decide, `FunctionId`, `overload_sets`, `partial_cmp`, indexing, `materialize_ctor_in_caller` (Model) | invariant of the overload map by induction over the functions; inversion of shapes by operator; case analysis on Booleans for the laws of comparison; pigeonhole for fresh names |
| C155-C159 | `InlineCpp`: blocks of a token list and their places, line directives of C++, signatures, layout (Spec); `parse_inline_cpp_macros`, `compute_thunk_name` with the FNV hash, the extraction to a header, `validate_inline_cpp_syntax`, pass 2 of `rust_with_cpp_fmt` (Model) | induction over the tokens with the position as an invariant; uniqueness of blocks by the first place they can begin; injectivity of the hash on the two bytes of the line and one of the column by invertibility of the multiplier; splicing from the end by induction over the blocks |
| C160-C162 | `CppTypes`: written and canonical C++ types, a reader for the tokens of C++ types as the compiler parses them, agreement of Rust and C++ types (Spec); `ConvertQualType`, `rs_type_kind_with_lifetime_elision`, `format_cpp_type_inner`, `to_token_stream` (Model) | mutual induction over the written type: the reader applied to the spelling followed by any tokens gives the type; const flags of the IR equal those of the desugared type |
| C163, C164 | `format_ty_for_cc` on Rust types as a function to C++ tokens, per place in the header (`RsTypes/Model`); a reader for C++ types and a correspondence of Rust and C++ types in `RsTypes/Spec`. Mutual induction on types: the tokens are read as a type that corresponds; well-formedness from correspondence. |
| C165 | `format_ty_for_rs` and `replace_all_regions_with_static` (`RsTypes/RsModel`), a reader for Rust types (`RsTypes/RsSpec`). Mutual induction on types. |
| C166 | `avoid_colliding_types` (`RsTypes/Collide`); C++ types with typedefs resolved by any target. Induction on the common structure of two types. |
| C167 | `generate_namespace`, `generate_item`, `ApiSnippets::append`, `GeneratedItem::merge`, `make_ir`'s counts and the namespace part of `generated_items_to_tokens` over trees of blocks (`Reopen/Model`). The table is shown to stand for the list of contributions (`Reopen/Gen`), rendering from it to be the same as rendering from merged trees (`Reopen/Main`), and that is compared to the wanted contents of each module (`Reopen/Tree`). Induction on trees and on depth. |
| C168 | `escape_non_identifier_chars`, `make_thunk_name` (`Names/Model`). Escapes of characters are a prefix code (`Names/Escape`); induction on symbols and numbers. |
| C169 | The lists of keywords and macros (`Names/Words`), `unkeyword_cpp_ident`, `format_cc_ident`, names of fields. The lists are finite and fixed, so facts about them are evaluated by the kernel (`Names/Facts`); everything about names is for all strings (`Names/Reserved`). Not modelled: blanks and comments that `syn` skips. |
| C170 | `hyphen_to_underscore`, `try_make_rs_ident` with `syn::parse_str` given by a list of keywords (`Names/RsIdent`). Induction on the name for `split`. |
| C171 | `thunk_ident` with the hash as a number below 2^32 (`Names/Thunk`). Induction on lists. |
| C172 | `is_cpp_pointer_type` over tokens, compared to a grammar of types (`Names/Pointer`). Induction on types. |
| C173 | `IteratorAdapter` over an arbitrary `next` function (`Iter/Model`), with what becomes of each element. Invariant relating the adapter to the number of increments, induction on operations; loops by induction on the elements. Not modelled: copies of adapters (values of their own), the static requirements of `std::input_iterator`. |
| C174 | `find_cc_template_calls`, `collect_instantiations_impl`, the aliases, the map and `get_instantiation_struct_name` (`Tmpl/Model`). Induction on token trees. Not modelled: reading and parsing files, JSON, clang (a function from spellings to classes). |
| C175 | `ParseTargetArgs` after reading JSON and the checks of `Cmdline::Create` (`Cmd/Model`), maps as functions. Induction on the list; the owner is the least target in any strict total order. Not modelled: JSON, absl flags. |
| C176 | `ExpandParamfiles`, `PreprocessTargetArgs` (`Cmd/Model`), loop for loop. Induction on strings and lists. |
| C177 | `ErrorReport` with `ItemScope`, `FormattedError`, `FatalErrors` (`Report/Model`), calls as trees of scopes. Mutual induction on trees with an invariant of the map. Not modelled: JSON, unwinding. |
| C178 | `hide_unstable_details` (`Report/Model`): both regular expressions as functions and `replace_all`, leftmost matches. Matches can not cross the beginning of another one. |
| C179 | `CrubitAbiType`, its four `ToTokens` implementations, `FullyQualifiedPath` (`AbiTy/Model`). The specification has types and expressions of both languages, how they are written, a typing relation and a relation of ABIs with the same encoding; induction on ABIs gives witnesses for all four texts. Not modelled: how ABIs are chosen for types; the inside of callables and coroutines (tokens in the code, too). |
| C180 | `HandlePragma`, `parseNullabilityKind`, `TypeNullabilityDefaults::get` (`Pre/Model`). Induction on the sequence of directives from its end; the specification speaks of the first directive that asks for something. Not modelled: lexing, macro expansion in the pragma. |
| C181 | `loc_filter.cc` whole, `DeclFilter` (`Pre/Model`). The source manager's answers (`isInMainFile`, `getFileID`, file entries) are inputs; stems are specified by decomposition of the path. An invariant on the cache (it holds what would be computed) carried through any list of questions. Not modelled: regular expressions of the flags (a parameter). |
| C182 | `ReplaceMacrosCallbacks` and the macro table beside it (`Pre/Model`). The three phases of the run, induction on each part; compared with a preprocessor without callbacks. Assumed: the header consists of definitions, is entered once, and the rest of the code does not define reserved names. |
| C183 | `ShouldKeepCommentLine`, `GetComment`, both `generate_doc_comment` (`Doc/Model`). The regular expression is executed with greedy steps and proved equivalent to the decomposition of a line in the specification; lines of a text are specified by joining. Not modelled: clang's formatting of comments, Kythe annotations, how rustdoc renders. |
| C184 | `ConvertSourceLocation`, `parse_extended_source_loc`, `generate_source_location` (`Doc/Model`). An invariant (no bracket in what the importer writes) refutes every match. |
| C185 | `CcInclude`, `format_cc_includes` (`Doc/Model`). The derived order is proved a strict linear order, so sorted sets are determined by their elements. Not modelled: the printer's spacing inside system paths. |
| C186 | `annotation_reader.cc` whole (`Annot/Model`). Agreement of arguments is proved an equivalence, so comparing with the first annotation compares all pairs; induction on declarations with the annotation found first as state. What an argument evaluates to is an input. |
| C187 | `dyn_format.rs` whole (`Fmt/Model`). The specification is a grammar of pieces; the loop, which takes runs of characters at once, is shown to take pieces one by one, and every text is decomposed into pieces in order up to its end or the first thing out of order, which gives both directions for acceptance and each error. |
| C188 | The `impl`s of `CppType` and `CppCoerce` of `forward_declare.rs` (`Fwd/Model`): which types have names, and which casts compile. The specification relates types without names; induction on types. Not modelled: alignment, `UnsafeCppCoerce` (no implementations here), what Rust does with the types afterwards. |
| C189 | `Errors` of `errors.rs` whole (`Errs/Model`). The specification says which errors are pending after a history, in terms of calls only, and how a call is answered; both are shown unique. Induction on the history. |

## Disagreements between the code and what its API suggests (found while modelling)
* C05: the order of the `failed` list depends on hash order when the preference function ties.
* C08: C++ `TupleAbi::Decode` depends on the evaluation order of the `make_tuple` arguments (braced/left-to-right assumed).
* C11: the value of a query that is part of a cycle depends on which query was asked first.
* C16: handles compare by thin pointer, so an empty interned value can equal a non-empty one (`empty_value_collides`).
* C25-C27: `//foo` equals `//foo:foo` but gets another C++ identifier; `target_name` splits at the first ':' and
  `package_name` at the last; escaped crate names of distinct targets can collide.
* C31: a label of a re-opened leaf namespace at depth 2 or more is dropped (`reopened_leaf_label_lost`).
* C32: the database index is a wrapping byte: the 257th database reads the first one's table.
* C36: for empty ranges other than (0,0) the large-arity check depends on the order the unstable sort leaves
  (`empty_range_depends_on_sort`; the bindings never build such ranges).
* C37: `Slot`'s move constructor assigns to uninitialized storage (`slot_move_is_ub`).
* C38: `mergePartials` is documented as commutative, but the retained samples depend on the order (`samples_depend_on_order`).
* C39: per-kind counts are `uint32`: 2^32 pieces of one kind count as none (`wraparound_forgets`).
* C40: with contradictory additional constraints a nullptr literal at a reachable point is Nullable (`contradictory_constraints_nullable`).
* C41: the two properties are merged separately, so NonNull joined with Unspecified can become Nullable (`join_mixes_paths`).
* C42: `widen` returns the current pointer when nothing changed, so a property that had become "top" is reset
  (`top_does_not_stay_top`), and two pointers can change alternately for ever (`two_pointers_never_settle`).
* C44: the id counters of `Lifetime` wrap: the variable after 2^31-2 variables is a local constant (`variable_ids_wrap`).
* C45: `LifetimeSymbolTable` calls itself one-to-one, but `Rebind` to a lifetime that already has a name leaves two names for it (`rebind_to_used_lifetime`); the generated names include "static" (index 234916996), which then names a non-static lifetime (`generated_static`).
* C48: `LifetimeLattice::operator==` ignores the single-valued objects although `join` reports `Changed` for them
  (`equality_misses_change`); `GetExprObjectSet` skips one pair of parentheses only (`double_parens_fatal`).
* C50: ForCallableSubstitution is documented to allow `replacement` where `callable` is requested; the constraints are those for the opposite direction. IsIsomorphic takes `f('static)` and `f('z)` for the same, so a recursive function found to need static keeps its old signature (analyze.cc 1072-1080).
* C51: an override that requires a static argument does not change the base.
* C53: a reference result annotated `$unknown` keeps the undeclared lifetime `'unknown` (records lose it); a reference parameter annotated `$unknown` stays a reference without a lifetime, contrary to the comment in rs_type_kind.rs 132-133; lifetimes below an annotated reference of the result are neither renamed nor declared.
* C54: the lifetime invented for a parameter called `a` captures the undeclared annotation `$a` of a later parameter.
* C55: nested records whose lifetimes have the same name: bound methods of the inner one use a lifetime of their own as names are renamed twice.
* C57: two adjacent bitfields of a union are merged and only the size of the last is kept: `union { int : 20; char c : 3; }` has 3 bytes, the Rust union 1 (`union_bitfields`).
* C58: fields without size are dropped, although they can determine layout: an empty `[[no_unique_address]]` first field at offset 0 of a derived class hides the base (`empty_first_field`); a class with only such fields gets size 0 (`only_empty_fields`); their alignment is lost (`empty_aligned_field`); a zero-width bitfield does not separate known fields (`zero_width_bitfield`). The generated assertions then fail to compile.
* Not modelled, seen while reading: in code_snippet.rs line 597 lifetime markers are emitted without separating commas, so a record with two lifetime parameters gives invalid Rust.
* C59: `#[repr(C, packed(2))] struct { u8, u32 }`: padding is omitted for `repr(C)`, and `__attribute__((packed))` means alignment 1, so the second field is at 1, not 2 (`packed2_wrong`). A zero-sized field that has a C++ type (`[T; 0]` as `std::array<T, 0>`) takes space in C++; excluded by hypothesis.
* C60: a union field without C++ type that is not last is omitted, because its size is computed up to the offset of the next field, 0 (`union_opaque_wrong`). A payload without C++ type and with an alignment above that of the tag gets `alignas(0)`: it is placed too early (`enum_opaque_wrong`). In both cases the generated assertions fail to compile.
* C62: `from_ptr_and_deleter` allows a null pointer in its documentation, but line 228 (`&*d.ptr`) makes a reference from it; the model has only the case of a non-null pointer. If `f` panics in `project`, the share is leaked (lines 140–147 release it before calling `f`).
* C67: if a closure panics in `mutate_self_as_vec` (lines 295–312) after the `Vec` moved to a new allocation (`extend`, `resize_with`, `insert`), the vector keeps pointing to freed memory (`panic_after_growth`). If it panics after `Vec` set its length down (a panicking `Drop` in `truncate`, `retain`, `clear`), the vector still contains the dropped elements (`panic_double_drop`).
* C64: `set_len` down and up again without `prepare_to_write_into_tail` is within its safety comment, but leaves live elements poisoned (`set_len_poisons`). For zero-sized `T`, `len` and `capacity` panic, because `offset_from` does.
* C68: `ctor_then` (lines 313–320) leaves the constructed value in place when the closure fails or panics: the value is pinned, but never dropped, and its memory is freed or reused (`then_leaks`). This breaks the drop guarantee of `Pin`.
* C69: `Slot::clear` (lines 1107–1119) resets `is_initialized` after `drop_in_place`; if that panics, the value is dropped again with the slot (`clear_drops_twice`).
* C71: on a big-endian target with a tag wider than one byte, `set_tag` reverses bytes that `bit_cast` already put in memory order, so C++ and Rust disagree about the variant (`big_endian_option_disagrees`); the property is proved for little-endian targets and one-byte tags.
* C74: `r = r.error()` (possible when `T` is constructible from `E`) destroys the error before using it (`assign_own_error_uses_destroyed_value`).
* C75: `f = std::move(f)` on a non-empty `DynCallable` drops the closure and calls `copy_nonoverlapping` with equal pointers (`self_move_is_ub`).
* C77: after `std::move(f)()` an `FnOnce` callable still reports `bool(f) == true`; passing it to Rust sends `present = true` with an uninitialised box (`spent_to_rust_is_ub`), while the header says a moved-from value arrives as a panicking fallback. Also `ManagedCallable(ManagedCallable&&)` would call an uninitialised `manager_`; it is never invoked.
* C79: a `repr(transparent)` wrapper of a by-value type that implements `Drop` is classified as C-ABI-compatible by value (`query_compiler.rs:88–108`, unless `portable_abi_compatible`), so the wrapper passes the C++ object itself and its destructor runs as well as Rust's (`droppable_by_value_released_twice`).
* C79 (not in the model): `Slot<std::array<UT, S>>` (`slot.h`, `unsigned S`) is selected where `size_t` is `unsigned` (32-bit targets); its value constructor `memcpy`s relocatable elements out of the parameter without suppressing the parameter's destructor, so by-value arrays of droppable elements are dropped twice there.
* C78: a buffer-encoded element of a tuple parameter would be read through the wrong level of indirection (`composable_in_tuple_confused`); only the refusal in `format_type.rs:426–440` prevents it. As a result type the same tuple would work (`composable_in_tuple_result`), so the refusal is broader than needed there.
* C80–C83 simplifications: a value is (owned resource, contents); exceptions and panics, ThunklessAccessors getters/setters, the `inline_cpp` path, `CcIndex` traits and destructors are not modelled; `is_record_clonable` is simplified to "Rust may move it", which it implies; `Ok` states what the importer guarantees of IR functions (distinct parameter names, `__this` first for methods and constructors, only methods virtual); distinct moved objects is Rust's exclusivity of rvalue references.
* C84–C87 simplifications: steps are atomic (the Rust and C++ memory models are not modelled; `Waker` requires thread-safe virtual functions); panics inside a user's future are not modelled; the output is a number, absent for zero-sized types; a relocated (`trivial_abi`) argument is modelled as a change of address; `finish … (some v)` of a `DynFuture` has no value.
* C88: docs/rust/movable_types.md says `Default` is enough for a non-trivial move; the code also requires `Unpin` (the specification follows the code here).
* C88: a `#[repr(transparent)]` type whose inner type is passed in registers and which has drop glue: the generated default constructor and cloning copy constructor assign the thunk's result to `*this`, whose bytes are not initialised, and the assignment swaps/clones into it and runs the Rust destructor (or `clone_from`) on those bytes (`transparent_default_drops_garbage`, `transparent_clone_sees_garbage`; the golden `cc_bindings_from_rs/test/pass_by_value_unmovable/pass_by_value_unmovable_cc_api.h:113–134` has this code). C88's theorem excludes these types (`cabi → ¬needsDrop`).
* C88/C89 simplifications: contents are numbers; panics in Default/Clone are not modelled; `relocate` stands for the relocating constructor and for `trivial_abi` argument passing.
* C90: `DetailsOk` is needed because forward declarations asked for by the text that follows the definitions (`cc_details`, `using` declarations, details of specializations) are ignored by `generate_crate` (`lib.rs:2448–2474` looks at `main_apis` and `specializations` only); such a declaration is provided only if the item is itself defined in the header.
* C94: a `using` declaration is grouped by the parent of the original item, so the namespace of an alias is marked deprecated when the *original* module is (`lib.rs:2308–2319`, a TODO in the code); the theorem states this behaviour.
* C90–C94 simplifications: identifiers, sort keys, tokens and includes are numbers; failures of formatting a namespace name, `error_scope` and the text of unsupported items (comments) are not modelled separately; `#include` printing is covered by other properties.
* C96: "choose the lexicographically smallest path" compares `Vec<Symbol>` in interner order, not by string (`not_lexicographic`); names are compared by string. Which path is canonical can change when an unrelated string is interned earlier.
* C96: "a less preferable path than any non-hidden path regardless of length": a module is visited only under the first path found, so an item of a module first reached through a `#[doc(hidden)]` module gets the hidden path though a visible longer one exists (`hidden_chosen`).
* C97: crates that re-export the same foreign item under the same path tie; the first in `used_crates` order gets the definition, so two headers generated with different crate orders may both define it, or neither (`tie_by_order`).
* C97: "Aliases are sorted" / "The returned vector is sorted" fail after `merge` (`merge_unsorted`).
* C99: the comment of `NullabilityWalker` says that canonically equivalent types give equivalent reports. `visitSubstTemplateTypeParmType` walks the argument found in `Ctx` in `CurrentTemplateContext->ArgContext` instead of `Ctx->ArgContext`. When the argument was found further out, its own template parameters can be resolved in an inner use of the same alias template: `Example.too_many_slots` is a C++ type with 3 pointers and 4 slots. (`visitRecordType` uses `Ctx->ArgContext`.)
* C100: `_Null_unspecified` on a template parameter of a class template counts as one on a spelled-out pointer, so it hides `_Nullable` of the argument, against the assertion in `sawNullability` (`Example.unspecified_hides_nullable`).
* C101: `rebuildWithNullability` (used by `printWithNullability`) does not consume entries for smart pointers, pointers in packs and in enclosing classes, so the vector of such a type ends in the internal error "too long" (`smart_pointers_are_not_rebuilt`).
* C102/C103: which functions form a group depends on the enumeration order of the `DenseSet` of callees (pointer addresses) and on the order of functions: adjacent cycles are merged, and functions that are not recursive are included. The error of one member is given to all, so a recursive function that can be analysed gets the error of its caller for one order and a result for another (`error_of_caller`, `other_callee_order`, `other_function_order`, `nonrecursive_in_group`).
* C103: `expected_iterations` is the largest number of parameters plus one, but information travels one function per pass against the order of the group: `f0 → f1 → f2 → f0` with one parameter each, where only `f2` returns its parameter, ends in "Recursive cycle requires more than the expected 2 iterations" when `f0` is visited first, and succeeds when `f2` is (`too_few_passes`, `enough_passes`).
* C105: names that coincide after `CRUBIT_RUST_NAME` make `resolve_names` panic, so there are no bindings for the whole target (`clash_panics`).
* C106: a class whose module holds only friend functions is not counted in pass 2, although `pub mod` is generated for it: two such classes with the same snake-case name get the same module (`friends_clash`). The name under which a type alias re-exports the module of its class is not reserved (`alias_clash`). The blocks of a namespace are resolved one by one, so a module can have the name of an item in another block (`blocks_clash`).
* C107: the branches of `coalesce` for `RecordNestedItems` and the error `ParentModuleNameNotUnique` are dead code.
* C108: the iterator does not visit the arguments of handwritten generic types (`std::vector<T>`, `std::unique_ptr<T>`, …), of bridged types and of existing Rust types: a function with `std::vector<T<int>>` is public, in any target, although the struct for `T<int>` is `pub(crate)` (`vector_of_private`). The first type without bindings decides (`first_error_decides`). An alias for a pointer to a bridged type is `pub(crate)`, but functions of other targets that use it get bindings that name it (`alias_of_error`).
* C109: for the same reason no features are required for such arguments (`vector_of_incomplete`); global variables and constants are not checked for features. The branch of `func_has_bindings` for `MissingRequiredFeatures` is dead code: `type_visibility` never returns it.
* C115: only colons are kept apart: separate `&` `&` print as `&&`, separate `/` `/` as a comment, `t` `.` `0` `.` `1` as `t.0.1`; invisible groups glue words (`separate_puncts_glued` etc.).
* C116: a comment whose text ends in `"` loses the quote but keeps the backslash of its escape; in C++ this (or a text that ends in a backslash) joins the next line of the header to the comment (`comment_swallows_cpp`, `quote_swallows`). Literal text that ends in a quote ends in a backslash instead (`literally_quote`). Text such as `C:\\new` breaks the line (`path_breaks`).
* C117: `__CAPTURE_TAG__` is before the documentation, the pattern searched for in the formatted text is after it, so an item whose documentation names it gets a wrong location or none (`found_documented_wrong`); documentation with a line `Generated from:` shifts all later tags (`found_pattern_wrong`); captures of punctuation can make `unwrap` fail (`record_panics`).
* C118: `GenerateConstraintsForAssignmentRecursive` overwrites `is_in_invariant_context` at each level instead of keeping it once set; below a non-const pointer to a pointer-to-const the constraints are only covariant, and the inferred signature can be unsound (`variance_gap`); hence `Ty.Regular`.
* C118: static variables of pointer type are updated strongly although a parameter may alias them (`g = a; r = *pp; g = nullptr; return r;` with `pp` = `&g` returns `'static`); the model excludes taking their address. Calls are left out: points-to sets of locals whose address is passed are not extended by calls, so a strong update after a call can lose what the callee stored. Reads of a local after its scope has ended are not looked at by the analysis and have no special meaning in the model.
* C125: `p + 0`, `p += 0` (result is made Nonnull without a check, pointer_nullability_diagnosis.cc:633-650), `==` on two smart pointers (modelled as equality of locations, value_transferer.cc:589-628, so two null pointers are 'different'), output arguments with an annotated inner pointer (left unchanged, value_transferer.cc:883-938), self-moves (the pointer is taken to be null) hide faults from the nullability checker.
* C124: the comment on `widenNullabilityProperty` says that Top stays Top; `widen` returns the current value, with known properties, when the location and the effects are unchanged (pointer_nullability_analysis.cc:263-265; `widen_regains`). The iteration stops all the same.
* C129: an implicit instantiation is visited at its template's position, so `D<B>`, with `template <class T> struct D : T` declared before `B`, is indexed before `B`'s own bases are known; evidence from `D<B>::f` does not reach what `B::f` overrides (collect_evidence.cc:134-148).
* C130: evidence about references (flow direction kBoth) does not go on to sibling overrides; an annotation on an override counts as an annotation of the method it overrides, whose inference becomes `trivial` and hides conflicting evidence, although inference.proto calls only what is written in the source trivial (merge.cc:97-110); parameters captured by a lambda are inferable in the lambda's body, but their method is not in its saved index, so that evidence does not reach overridden methods (collect_evidence.cc:3112-3126, 3159-3170).
* C135: `should_derive_copy` looks only at the mutable fields of the record itself, and at Clang's triviality of its copy constructor. If a field has a class that is not `Copy` for reasons of crubit's own (a mutable field, even a private one; thread-safe; annotated; not passed in registers; a private defaulted copy constructor with the record as friend; a mutable reference), `derive(Copy)` is still emitted, and the Rust file does not compile (`Example.mutable_in_member_breaks_copy` and others).
* C135: members of a union that are not `Copy` and have no Rust type (arrays, private members, bit-fields) become `[Cell<MaybeUninit<u8>>; N]`, which Rust refuses in unions (E0740) (`Example.array_in_union_refused`).
* C132: for a class whose destructor is private or deleted no `Drop` is generated, but its public fields are not wrapped in `ManuallyDrop`: dropping a Rust value of it (an aggregate can be built) destroys the fields without the object (`Example.private_destructor_drops_fields`).
* C133: with two copy constructors the first one that is declared decides whether the type is `Copy`, also when overload resolution for `const` sources would choose the other (`Example.first_copy_constructor_decides`).
* C136: a class can be passed in registers although a field cannot (deleted copy constructor, field with a non-trivial one): crubit treats it as `Unpin`, Rust does not (`Example.user_move_breaks_copy`).
* C137: `should_derive_copy` looks only at the record's own fields: a class that is Copy and has a base or a private member with a `mutable` field keeps that field in plain bytes, not in a Cell, although C++ writes to it through shared references (`mutable_in_base_not_a_cell`, `mutable_in_private_not_a_cell`).
* C138: `lookupInBases` goes into a virtual base only once; if the first way to it is private and a later one public, bases of the virtual base are not listed, although C++ converts to them (`Bases.Example.public_path_missed`).
* C140: only functions with bindings in listed bases are counted. A private function, a field, an overloaded function or anything without bindings in a nearer base does not hide the function of a farther base, and a function in a private base does not make it ambiguous: Rust then has a method where C++ reports an error (`Bases.Example.hidden_by_private`, `hidden_by_unbound`, `ambiguous_with_private_base`).
* C141: the slice of a template argument in the vector of a smart pointer class does not skip the entry of the smart pointer itself: for a smart pointer `P<int* _Nullable> _Nonnull u`, a member of type `T` has the nullability of `u` (`ExprNull.Example.smart_pointer_slice`).
* C141: deduced template arguments take the file default of the file of the template: a template in a file with `#pragma nullability file_default nonnull` gives `_Nonnull` for a nullable argument (`deduced_argument`).
* C141: on conversion to an indirect base only the last base specifier counts, whose template parameters are those of the class between, and count as unannotated (`two_steps`).
* C141: template parameters of an outer class are not found for members of an inner class, although the vector has their nullability (`inner_class`).
* C144: a negative constant of type `char` becomes `-n as u8`, which rustc refuses (`Consts.negative_char_refused`).
* C144: constants of type `unsigned __int128` of at least 2^128 - 2^63 pass the check "fits in 64 bits", which counts significant bits as if the number was signed, and get a wrong value; those from 2^63 to 2^64 - 1 are refused although they fit (`huge_u128_wrong`, `u128_refused`).
* C145: on iOS and OpenBSD constants of type `ffi_11::c_long` and `c_ulong` make the generator panic: it takes the newtype to have 32 bits, but it has 64 (`apple_long_panics`).
* C145: the least `ffi_11::c_longlong` on Linux is written `INT64_C(-9223372036854775808)`, which is ill-formed, although `i64` has a special case for it (`least_longlong_ill_formed`).
* C145: an enumerator of a cpp_enum over `c_char` of at least 128 is a narrowing error where char is signed (`c_char_enumerator_ill_formed`).
* C148: `char16_t` and `char32_t` become `u16` and `u32`, so that overloads that differ from `uint16_t`, `uint32_t` collide, although `ffi_11` has types for them (`char16_collides`).
* C151: `operator==(const A&, const A&)` next to `operator!=(A, A)` (or `==` next to `!=` with otherwise different spellings of the parameters) get the same Rust path, so both disappear as ambiguous (`Ops.mixed_params_lose_both`).
* C151: with `using B = A`, `operator==(const A&, const A&)` and `operator!=(const B&, const B&)` become `impl PartialEq for A` and `impl PartialEq<B> for A`, which conflict: the crate does not compile (`alias_conflict`). The same is possible for all operator traits, since paths are compared as written.
* C152: the check for `operator==` does not ask whether it is ambiguous; `impl PartialOrd` without `impl PartialEq` is possible, and the crate does not compile (`partialOrd_without_partialEq`).
* C152: C++ operators `>`, `<=`, `>=`, and `!=` beside `==`, are not used, even where they are not the ones derived from `<` and `==`.
* C153: the element types of const and non-const `operator[]` are not compared; if they differ `IndexMut` does not type-check (`index_outputs_differ`).
* C149: `impl Trait for T` and `impl Trait for &T` have the same path, so they hide each other although Rust would accept both.
* C155: only `{` … `}` invocations are found. `inline_cpp!( … )`, and invocations with a comment before `!` or `{`, are expanded by rustc but not extracted (`InlineCpp.parentheses_not_extracted`, `comment_not_extracted`): the C++ function is then undefined.
* C157: white space or a comment within the path to the macro makes the tool and rustc compute different names (`space_in_path_name`). File names with characters other than letters, digits, `_`, `.` and `-` give names that are no identifiers (`space_in_file_name`). Two files with the same base name are kept apart only by the 64-bit hash.
* C156: file names are not escaped in `#line`, so `"` or a backslash in a path breaks the mapping; so does a body that contains its own `#line`.
* C158: only the first tokens and the last token of a body are looked at, so further declarations after the function are accepted (`trailing_declaration_accepted`).
* C159: the auxiliary function name is removed by looking for it on one line, while the column limit passed to clang-format can be smaller than that name: if clang-format breaks the line the name is written to the user's file (`wrapper_leaks`). Multi-line raw strings get indented, which changes the program (`raw_string_changes`).
* C160: `SliceRef<T* const>` is spelled `SliceRef<const T*>`, a slice of pointers to const (`CppTypes.Ex.slice_of_const_pointers`); the C++ then does not compile or refers to another type. An enum renamed for Rust is spelled with its Rust name in C++ (`Ex.renamed_enum`). Variadic and `noexcept` are dropped from function pointer types, which C162 shows to be unsound for variadic functions (`Ex.variadic_noexcept_dropped`), and so is `const` on their result (`Ex.const_result_dropped`). An rvalue reference to a function makes the tool fail a CHECK (an error in the model).
* C163: the elements of `&[RvalueReference<T>]` are spelled `const T *` (const on the pointee instead of the pointer, because only raw pointers, references and function pointers are treated as pointers): C++ may not write to the `T`s although it may in Rust, and may write to the elements although it may not (`slice_of_rvref_const`).
* C165: `replace_all_regions_with_static` also replaces the lifetimes a function pointer is polymorphic over, and `format_fn_ptr_for_rs` accepts them if they have no name: `fn(&i32)` is spelled `fn(&'static i32)`, another type (`hrtb_spelled_static`). Such types have no C++ spelling, so that functions with them get no bindings.
* C166: `(usize, u64)` and `(u64, usize)` are both kept, and so are `Vec<usize>` and `Vec<u64>`; where pointers have 64 bits they have the same C++ spelling (`tuples_collide`, `vecs_collide`).
* C167: if the last block of a namespace has no bindings (e.g. because of an unknown attribute) but others do, everything in the others is lost without an error, because only the last block stands for the module (`Example.lost_run`). If the first block has no bindings but another does, a comment and a module are merged under the same number, which is `unreachable!`: the generator panics (`Example.panics_run`).
* C169: a struct with the fields `int` and `int_` gets two members `int_` in C++ (`fields_collide`); a field `x` beside methods `x` and `x_` gets the name of a method (`field_named_like_method`). A name with `r#` (as Rust's `Ident` prints keywords) is accepted with the `r#`, which C++ does not accept (`raw_name_not_ident`).
* C170: C++ may declare `_`; the importer lets it through and `make_rs_ident` panics (`underscore_panics`). Targets `a-b` and `a_b` get the same crate name (`crates_collide`).
* C171: `a.b` and `a_u46_b` get the same fragment, as a comment in the code says is possible (`fragments_collide`).
* C172: `const T**` is said to be a pointer to const although `const T*` is not const (`pointer_to_pointer_misread`); `T* const` is not recognised as a pointer (`const_pointer_not_recognised`).
* C174: the map of instantiations has clang's canonical spellings as keys, which have a space after each comma between template arguments, but both the scanner and the macro remove all spaces, so `cc_template!(Pair<int, int>)` can never be expanded (`spaces_never_found`); `unsigned short` is requested as `unsignedshort` (`Example.words_joined`).
* C176: `@file` loses its last argument if that is empty and no line end follows (`empty_last_lost`); `--target_to_arg` after `--` is replaced if there is none before `--` (`after_stop_changed`); `--target_to_arg` as the last argument makes `--target_args=]` (`missing_value`).
* C178: `hide_unstable_details` is applied to `full_error` only, so messages made without a format string (`anyhow!(err)`), which are kept in `fmt`, keep unstable details (`dynamic_not_hidden`); what remains after a hash is removed can look like a hash (`hash_in_hash`).
* C177: an error whose message is empty is displayed as its format string (`empty_message`).
* C179: for a C++ reference (`is_cpp_ref`) the type is `TransmuteAbi<T &>` but the expression has type `TransmuteAbi<T *>` (`ref_mismatch`); `const` is written before the whole pointee, so a const pointer to `int *` becomes `const int * *` (`const_misread`).
* C181: a location inside a macro expansion in the associated header has a `FileID` without file entry and is refused, though its expansion is in the header; the same location in the main file is allowed.
* C184: `parse_extended_source_loc` needs `[begin,end]` after the line, which `ConvertSourceLocation` receives but does not write; its file group would also contain `Generated from: `.
* C185: a quoted include is written as a Rust string literal, so a backslash in the path is doubled, and C++ reads another path.
* C186: an annotation that is twice on one declaration is refused although both agree; on two declarations it is accepted.
* C187: a name in braces may contain an opening brace.
* C188: `Vec<&[T]>` can be cast to `Vec<&[T; usize::MAX]>` in safe code without a check of sizes (`vec_reinterpreted`); `&[Complete]` can be cast to `&[Incomplete]`, contrary to the comment, as `Incomplete` is `Sized` (`slice_of_forward`).

## Not modelled
rustc and clang themselves, proc-macro token parsing, the file system, threads, rustfmt/clang-format.
