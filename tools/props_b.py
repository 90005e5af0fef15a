P=[]
def p(id,title,statement,quantifier,why,anchors,status='partial',theorems=(),note=''):
    P.append(dict(id=id,title=title,statement=statement,quantifier=quantifier,why=why,anchors=list(anchors),status=status,theorems=list(theorems),note=note))
M='common/memoized.rs'
p('C32','databases never see each other\'s side-table results',
 'A function memoised with memoized! returns, for each database, what its own body computes for that database, whatever was called on other databases, as long as at most 256 databases are created in the process; the 257th database reuses the first one\'s table (recorded as a disagreement).',
 'every interleaving of database creations and calls','needs all interleavings and a 257-database history',[M+':memoized',M+':internal::db_index'])
CN='rs_bindings_from_cc/collect_namespaces.cc'
p('C33','the reported namespace hierarchy of a target is exact',
 'For every acyclic IR, collecting the namespaces of the current target terminates, yields at every level siblings with pairwise distinct names however often namespaces are re-opened, and declares a namespace path iff some chain of nested namespace items owned by the current target has those names.',
 'every IR (any number of re-openings, any depth)','all IR graphs',[CN+':CollectNamespaces',CN+':NamespaceTrie'])
U='support/rs_std/internal/is_utf8.h'; SR='support/rs_std/slice_ref.h'
p('C34','StrRef::FromUtf8 accepts exactly well-formed UTF-8',
 'For every byte string, validation terminates and StrRef::FromUtf8 returns a StrRef over exactly those bytes if the string is well-formed UTF-8 (the concatenation of the encodings of Unicode scalar values: no surrogates, no overlong forms, nothing above U+10FFFF, no truncation) and nullopt otherwise; Rust may therefore treat any StrRef built this way as &str.',
 'every byte string of every length','there are unboundedly many byte strings',[U+':IsUtf8',U+':IsUtf8Char','support/rs_std/str_ref.h:StrRef::FromUtf8'])
p('C35','SliceRef never hands Rust a null or misaligned pointer and behaves like a span',
 'Whatever pointer and size a SliceRef is built from, the pointer word Rust sees is non-null and aligned if the input was; size and (when non-empty) pointer are those it was built from; converting to a span and back gives the same slice; two slices compare equal iff they have equal length and equal elements.',
 'every pointer, size, alignment and memory content','all pointer/size pairs and contents',[SR+':SliceRef',SR+':EqualImpl'])
A='support/internal/check_no_mutable_aliasing'
p('C36','the mutable-aliasing check is exact',
 'For any number of reference, pointer and slice arguments, a generated C++ function goes on to call Rust iff no two distinct mutable arguments share a byte and no mutable argument shares a byte with a const one, whatever order std::sort leaves equal elements in.',
 'every number of arguments, every address layout, every sort implementation','unboundedly many argument counts and layouts',[A+'.h:HasMutableAliasing',A+'.cc:HasMutableAliasingSpans',A+'.h:CheckNoMutableAliasing'])
p('C37','Movable and Slot destroy every object exactly once',
 'In every history of constructions, moves, copies, self-assignments, mutations and destructions of rs::Movable objects and of filling, taking and dropping crubit::Slots, nothing is constructed over a live object, read or destroyed when absent, or destroyed twice; each Movable reads as an optional value that a move leaves valueless; when everything is gone every constructed object has been destroyed, except values left in a slot that was destructed while full.',
 'every history of operations on any number of objects, for relocatable and non-relocatable T','all histories',['support/movable.h:Movable','support/movable.h:internal::Relocate','support/internal/slot.h:Slot'])
MG='nullability/inference/merge.cc'
p('C38','nullability inference does not depend on the order or grouping of evidence',
 'Any two ways of merging the same evidence for a slot (any order, any grouping into partial results, any map iteration order) reach the same nullability, conflict flag and trivial flag; a given merging history always yields the same samples, at most three of a kind, at distinct locations, each a real piece of evidence, fewer than three only if all locations are shown; evidence collected from test code is ignored; grouping by slot gives every slot the verdict of exactly its own evidence.',
 'every list of evidence, every merge tree, every iteration order','all merge trees and permutations',[MG+':mergePartials',MG+':finalize',MG+':mergeSampleEvidence','nullability/inference/infer_tu.cc:groupAndMergeEvidence'])
p('C39','the inference decision follows the documented precedence',
 'With fewer than 2^32 pieces of evidence: contradictory annotations give Unknown with a conflict, one annotation decides alone and is trivial; otherwise a conflict is reported iff some evidence demands Nonnull and some demands Nullable, uncontested demands decide, an unchecked dereference always gives Nonnull, and Nonnull/Nullable is never concluded without evidence that demands or suggests it. With 2^32 pieces the counter wraps and evidence is forgotten (disagreement).',
 'every multiset of evidence','all combinations of evidence kinds and counts',[MG+':infer',MG+':update','nullability/inference/inference.proto:Evidence'])

PN='nullability/pointer_nullability.cc'; PA='nullability/pointer_nullability_analysis.cc'
p('C40','a nullability verdict says exactly what is known about the pointer',
 'With a solver that answers, at any program point and under any additional constraints, a pointer is NonNull iff no run reaching the point leaves it null, Nullable iff it is not NonNull and either it is null in every run (and the point is reachable) or some run has it null with a nullable source, Unspecified otherwise. A solver that gives up can only turn a verdict less definite: NonNull and Nullable remain justified. A nullptr literal is Nullable iff its point is reachable; contradictory additional constraints on a reachable point wrongly give Nullable (disagreement).',
 'every flow condition, null state, constraint and solver','quantifies over all runs described by a flow condition, and all solver timeouts',[PN+':getNullability',PN+':isNullable',PN+':isReachableNullptrLiteral'])
p('C41','joining two paths loses no run and invents none',
 'After joining two environments, each run of either path is a run of the join with the same program facts and the null state of that path; in each run of the join, each merged property has the value it has on a path the run takes, and both come from the same path if the run takes only one; the pointer is NonNull after the join iff it is NonNull at the end of both paths; a pointer that may be null from a nullable source on one path is Nullable after the join. Because the two properties are merged one by one, NonNull joined with Unspecified can give Nullable (disagreement).',
 'every pair of flow conditions and null states','all formulas and flow-condition graphs',[PA+':PointerNullabilityAnalysis::join',PA+':mergeFormulas'])
p('C42','widening is sound and a pointer cannot change forever in a row',
 'Widening never makes a pointer NonNull that was not, and never hides a pointer that may be null from a nullable source; it reports Unchanged only if each property was unknown, identical or provably equal before and now; at most three consecutive iterations can report a change for a pointer. However a property that became unknown does not stay unknown, and with two pointers every iteration can change one of them for ever (disagreement).',
 'every sequence of loop iterations','unboundedly many iterations and all formulas',[PA+':PointerNullabilityAnalysis::widen',PA+':widenNullabilityProperty'])
p('C43','a pointer gets the nullability of its source until it is checked',
 'At any reachable point a new pointer gets the verdict of its source (NonNull, Nullable or Unspecified; unknown source: Nullable), a symbolic source gives NonNull where the symbol is assumed non-null; the first source wins; in the branch where a pointer was tested non-null it is NonNull whatever its source, in the reachable branch where it was tested null it is Nullable, and a branch contradicting what is known is unreachable.',
 'every context, flow condition, source and null state','all contexts and formulas',[PN+':initPointerNullState',PN+':tryCreatePointerNullState',PN+':getNullability'])

LA='lifetime_annotations/'
p('C44','created lifetimes are pairwise distinct',
 'In any history of fewer than 2^31-2 creations of variable lifetimes and 2^31-1 of local ones, by any threads, the created lifetimes are pairwise distinct, valid, of the requested kind and none is the static lifetime. The 2^31-1st variable is a local constant (disagreement: the counter wraps).',
 'every history and interleaving of creations','histories of 2^31 calls, all interleavings',[LA+'lifetime.cc:CreateVariable',LA+'lifetime.cc:CreateLocal'])
p('C45','the lifetime symbol table is a one-to-one mapping with first-unused generated names',
 'Generated names are all the non-empty lowercase words, shortest first then alphabetical, each once. Naming an unnamed lifetime always ends and gives it the first word not yet in the table, whatever was declared before; after any history that respects the preconditions a name stands for a lifetime iff the lifetime has that name; declaring a name makes a lifetime nothing was called before; a name stays bound until it is rebound. Rebinding to a lifetime that already has a name breaks the mapping, and "static" is among the generated names (disagreements).',
 'every history of declarations, additions, rebindings and generated names','all histories; names of unbounded length',[LA+'lifetime_symbol_table.cc:LookupLifetimeAndMaybeDeclare',LA+'lifetime_symbol_table.cc:NameFromIndex',LA+'lifetime_symbol_table.cc:Rebind'])
p('C46','lifetime substitution always ends, and adding composes',
 'After any history of Adds for variables, in any order, with repetitions, self-substitutions and circles, Add and Substitute return; the result is final; constants are unchanged; Add(v, l) makes exactly the lifetimes replaced through v end where l ended, and for a v not replaced before it is the composition of substitutions.',
 'every history of additions and every lifetime','termination and all histories',[LA+'lifetime_substitutions.cc:Add',LA+'lifetime_substitutions.cc:Substitute'])

LZ='lifetime_analysis/'
p('C47','the outliving lifetimes are exactly the implied ones',
 'For every set of outlives constraints, with circles or not, GetOutlivingLifetimes(l) returns, and returns exactly the other lifetimes that are at least l in every ordering that satisfies the constraints; joining constraints is conjunction and reports Changed iff a constraint was added.',
 'every set of constraints, every lifetime, every interpretation','termination and logical consequence over all interpretations',[LZ+'lifetime_constraints.cc:GetOutlivingLifetimes',LZ+'lifetime_constraints.cc:join'])
p('C48','the lifetime lattice join is a least upper bound and cannot change for ever',
 'The join of two analysis states says exactly what either says (points-to facts, object sets, constraints, objects that are not single-valued; an error says everything, the first error is kept); it reports Changed iff something is new and otherwise leaves the state untouched; a run drawing facts from a finite set U is changed at most |U|+1 times; setting, extending and reading points-to sets do what they say. Equality ignores the single-valued objects, so a Changed state can equal the old one, and a doubly parenthesized expression is a fatal error (disagreements).',
 'every pair of states and every sequence of joins','all histories of joins; all finite maps',[LZ+'lifetime_lattice.cc:join',LZ+'lifetime_lattice.cc:operator==',LZ+'points_to_map.cc:Union',LZ+'points_to_map.cc:GetExprObjectSet'])
p('C49','applying constraints to a signature is sound and merges exactly what is linked',
 'For every set of constraints, every signature of variables and static lifetimes and every hash order, ApplyToFunctionLifetimes returns without failing an assertion; it fails iff a local is implied to outlive static; otherwise a lifetime becomes static iff it is implied to outlive static, local iff it is outlived by a local, and other lifetimes become equal iff linked by implied constraints through such lifetimes; so every implied constraint is met. The outcome does not depend on hash order up to the choice of representatives.',
 'every constraint set, signature and iteration order','all graphs and all hash orders',[LZ+'lifetime_constraints.cc:ApplyToFunctionLifetimes',LZ+'lifetime_constraints.cc:LifetimeDSU'])
p('C50','constraints for callable substitution are exactly what convertibility needs',
 'For two signatures of the same type, of any nesting (pointers to const and non-const, template arguments, lifetime parameters, functions returning and taking functions, this), the full constraints for callable substitution hold under an ordering of lifetimes iff a value of the first signature may be used as one of the second; the projected constraints mention only lifetimes of the first and hold iff the ordering can be extended to make the conversion valid; IsIsomorphic answers true iff each can be used as the other whatever is assumed about its own lifetimes. The documented direction is the opposite, and a signature with static is isomorphic to one with a variable (disagreements).',
 'every pair of signatures of the same type and every ordering of lifetimes','types nest without bound; all orderings',[LZ+'lifetime_constraints.cc:CollectLifetimeConstraints',LZ+'lifetime_constraints.cc:ForCallableSubstitution',LZ+'lifetime_constraints.cc:ForCallableSubstitutionFull',LZ+'analyze.cc:IsIsomorphic'])
p('C51','after constraining, every overriding method can be called through the base',
 'For a base method whose lifetimes are variables and any list of overriding methods with lifetimes of their own, in any order and for every hash order, constraining succeeds, replaces lifetimes of the base by lifetimes of the base, merges exactly those linked by the constraints, and afterwards for every meaning of the base lifetimes every override is usable as the base. With a static lifetime in an override this fails: the base stays unchanged (disagreement).',
 'every base, every list of overrides, every meaning of lifetimes','all signatures, all hierarchies, all hash orders',[LZ+'analyze.cc:UpdateFunctionLifetimesWithOverrides',LZ+'analyze.cc:ConstrainLifetimes'])
LD='rs_bindings_from_cc/generate_bindings/lifetime_defaults_transform.rs:'
p('C52','lifetime names form a stack of scopes and are never reused',
 'For any history of binding names, asking for fresh names, using names and closing bindings, a use gives the newest open binding of the name (or makes one), a new binding gets the name itself or the least numbered variant nobody had before, closing restores the binding below, and it panics exactly if there is no open binding; the search for a fresh name always ends.',
 'every history of operations','unbounded histories and names',[LD+'BindingContext',LD+'fresh_name_for',LD+'push_new_binding',LD+'get_or_push_new_binding',LD+'pop_binding'])
p('C53','transformed functions only use declared lifetimes',
 'Whatever the parameters, annotations and enclosing items, a transformed function declares each lifetime once, under names no enclosing item uses; each place of a parameter that takes a lifetime has none or one declared by the function or an enclosing item or static; the same for the result, apart from unknown and from lifetimes below an annotated reference (disagreements).',
 'every function, every nesting of items','types nest without bound; any number of parameters and binders',[LD+'add_lifetime_to_func',LD+'add_lifetime_to_input_type',LD+'add_lifetime_to_output_type',LD+'bind_lifetime_inputs'])
p('C54','default lifetimes follow the elision rules',
 'A function without lifetimebound is always accepted; nothing but lifetimes changes (and this becomes a reference); each unannotated place of a parameter gets a lifetime of its own, annotations get the innermost binder; unannotated places of the result get the lifetime of this, otherwise the one lifetime shared by all outermost places of the parameters; if there is none, references in the result become raw non-null pointers. An undeclared annotation can be captured by a name invented for an earlier parameter (disagreement).',
 'every function without lifetimebound','types nest without bound; any number of parameters',[LD+'add_lifetime_to_func',LD+'LifetimeState',LD+'add_lifetime_to_output_type'])
p('C55','lifetimebound ties the result to the bound parameters',
 'If a parameter marked lifetimebound gets a lifetime then the result gets the same; conflicting annotations on bound parameters and the result are rejected and agreeing ones accepted; a record and its methods agree about the names of the lifetimes of the record; a bound method of a record with one lifetime that keeps its name gives it to *this and the result. With nested records whose lifetimes share a name the method uses a lifetime of its own (disagreement).',
 'every function, every annotation, every nesting of records','any number of parameters and any names',[LD+'lower_clang_annotations',LD+'inject_lifetimes_into_this',LD+'bind_lifetime_inputs',LD+'add_lifetime_to_record'])
LS='rs_bindings_from_cc/generate_bindings/generate_struct_and_union.rs:'
p('C56','the Rust struct has the layout of the C++ struct',
 'For every C++ struct whose fields are placed in order (naturally aligned, bitfields packed, the tail of an opaque field possibly reused, any bytes in front for bases and vtable), generation does not panic and the repr(C) struct has the size and alignment of the record and each field that takes space and is no bitfield at its C++ offset, with its size if its type is known; the generated assertions hold.',
 'every list of fields, sizes, alignments','all records; layouts depend on all neighbours',[LS+'generate_record',LS+'field_definition','rs_bindings_from_cc/generate_bindings/database/code_snippet.rs:BitPadding'])
p('C57','the Rust union has the layout of the C++ union',
 'For every C++ union whose bitfields are no wider than its alignment, generation does not panic and the repr(C) union has its size and alignment, each member at offset 0. With wider bitfields the size may be too small (disagreement).',
 'every list of members','all unions',[LS+'generate_record',LS+'field_definition'])
p('C58','every class laid out by the Itanium ABI gets the right layout',
 'For every class given by its declarations (fields of known or opaque type, no_unique_address fields, bitfields with or without name) after any base and vtable bytes, laid out by the Itanium ABI rules, the Rust type has the same size, alignment and offsets; a thread-safe record becomes one opaque member of the same size and alignment. Fields without size (empty no_unique_address fields, zero-width bitfields) break this (disagreements).',
 'every list of declarations without empty fields, every base','all classes',[LS+'generate_record','rs_bindings_from_cc/importers/cxx_record.cc:ImportFields'])
CS='cc_bindings_from_rs/generate_bindings/generate_struct_and_union.rs:'
p('C59','the C++ class has the layout of the Rust struct',
 'For every layout of a Rust struct (any order of the fields, gaps anywhere but at the start, fields with and without a C++ type, zero-sized fields without C++ type, repr(C), packed), generation does not panic and the C++ class has its size and alignment, each field that has a C++ type is a member of the right size at the Rust offset, members for fields are at the offsets the generated assertions check, and the bytes of all other fields are in members without a type. repr(C, packed(2)) breaks this (disagreement).',
 'every list of fields, every order and offsets chosen by rustc','all structs; layouts depend on all neighbours',[CS+'generate_struct',CS+'variant_fields',CS+'emit_struct_field',CS+'emit_field_err'])
p('C60','C++ unions and tagged unions have the layout of Rust unions and repr(C) enums',
 'For every Rust union whose fields have C++ types, the C++ union has its size and alignment and all members. For every repr(C) enum with any variants and fields with C++ types and any size of the tag, generation does not panic, and the C++ class has its size and alignment and the same tag, and all fields of all variants are at the offsets chosen by rustc. Fields without C++ type break both (disagreements).',
 'every list of fields; every list of variants and fields','all unions and enums',[CS+'generate_union',CS+'generate_enum','cc_bindings_from_rs/generate_bindings/query_compiler.rs:get_tag_size_with_padding'])
p('C61','constructors of variants without fields build the value rustc would build',
 'For enums represented as bytes, the bytes of a variant without fields have the size of the enum, contain the tag value at the offset of the tag in the byte order of the target, and zeros elsewhere, for all sizes, offsets and values of the tag that fit.',
 'every size, tag offset, tag size and value, both byte orders','all 128-bit tags',[CS+'generate_enum'])
SP='support/cc_std_impl/shared_ptr.rs:'
p('C62','shared_ptr never dangles, never leaks and destroys its value exactly once',
 'Under any interleaving of any number of threads in Rust and C++ that create, clone, project, release, lock and drop shared_ptr and weak_ptr, no step uses freed memory; whatever a shared_ptr points to is alive; a value is destroyed at most once and not before its last owner is gone, its memory freed at most once and after it; when drops have run, a value without owners is destroyed exactly once and without weak_ptrs its memory is freed; the Box, Arc or deleter argument it owned is released exactly once, when it is destroyed.',
 'every program, every schedule, every number of threads and pointers','interleavings and histories are unbounded',[SP+'shared_ptr',SP+'SharedInner::deleter','support/cc_std_impl/std_allocator.h:DynControlBlock'])
p('C63','shared_ptr counts are exact and drops finish',
 'In every reachable state use_count is the number of owners, an Arc counts all shared_ptrs made from it as one, Boxes have at most one owner, lock gives a pointer iff there is an owner, and drops under way can always be completed without changing other pointers.',
 'every reachable state of every program','interleavings and histories are unbounded',[SP+'use_count',SP+'from_arc',SP+'clone'])
VC='support/cc_std_impl/vector.rs:'
p('C64','vector behaves as Vec',
 'Every program that moves vectors between Rust and C++ and calls any methods on them in any order has no undefined behaviour and no ASan report, and every vector has the elements, length and capacity that a Vec, a plain list with a capacity, would have; push, insert, extend, pop, remove, swap_remove, truncate, retain, reserve, append, split_off, clone, into_iter in both directions, and conversions from and to Vec do what their documentation says.',
 'every sequence of operations, every number of vectors, elements and capacities','histories are unbounded; freed, poisoned and uninitialized memory show only under some of them',[VC+'vector',VC+'mutate_self_as_vec',VC+'set_begin_len_capacity',VC+'create_vec_from_raw_parts'])
p('C65','elements of vectors are dropped exactly once, and memory is freed',
 'In every such program each element is made once, owned by at most one value, dropped at most once and never while owned; without panics nothing is leaked, and when no value is left all elements have been dropped exactly once. Every allocation not yet freed belongs to exactly one vector or iterator, and none is left when no value is left.',
 'every sequence of operations','histories are unbounded',[VC+'drop',VC+'into_vec',VC+'into_iter',VC+'split_off',VC+'append'])
p('C66','C++ always sees a valid std::vector',
 'Between any two operations each vector has the representation libc++ expects: three null pointers exactly when the capacity is 0, otherwise start, end and end of capacity in one allocation of that capacity whose first elements are those of the vector, and the ASan annotation covers exactly the tail (unless prepare_to_write_into_tail or a panic opened it).',
 'every sequence of operations','histories are unbounded; the representation after each is not observable from Rust',[VC+'poison_tail',VC+'unpoison_tail',VC+'set_len',VC+'prepare_to_write_into_tail'])
p('C67','a panic that has not yet moved or removed elements leaves the vector valid',
 'If a method panics in user code before it grew, shrank or removed anything, the vector keeps its length and capacity and all operations remain safe, at worst leaking the new elements. A panic after growth leaves a dangling vector, and a panic after a removal drops elements twice (disagreements).',
 'every program, every point of the panic before growth or removal','panics can happen in any user code at any time',[VC+'mutate_self_as_vec'])
CT='support/ctor.rs:'
p('C68','values constructed in place stay pinned',
 'In every program that emplaces values in boxes, Rc, Arc, on the stack or in slots with any nesting of Ctor combinators, ctor!{} fields, slots and ManuallyDrop, replaces, clears, reconstructs and drops them, with errors and panics in any constructors: a value constructed in place is dropped at the address where it was constructed, memory is never constructed into while a value is there, and never freed before the values pinned in it are dropped (ManuallyDrop excepted). A failing closure given to ctor_then breaks this (disagreement).',
 'every program, every nesting of Ctors, every constructor that fails or panics','failures can happen at any constructor at any depth',[CT+'Ctor',CT+'unsafe_ctor_impl',CT+'Slot',CT+'Emplace',CT+'reconstruct'])
p('C69','every value given to or made by a Ctor is dropped exactly once',
 'In every such program each value, whether moved into a Ctor, made by one, or partially constructed when a later field fails or panics, is dropped at most once, is undropped exactly while the program still has it, and when nothing is left every value has been dropped exactly once; a struct is only dropped as a whole if all its fields were constructed.',
 'every program, every failure point','failures can happen at any constructor at any depth',[CT+'unsafe_ctor_impl',CT+'UnsafeDropGuard',CT+'Slot::clear',CT+'CtorOrElse'])
p('C70','Ctor combinators give the documented results',
 'Emplacing any Ctor succeeds, fails with the same error or panics exactly as the corresponding expression on Result (and_then, map_err, or_else, expect, unwrap, unwrap_or_default) would, the value has one field per Ctor in order, a failed replace leaves the slot empty, and a failed reconstruct aborts.',
 'every nesting of Ctors','all combinations of combinators',[CT+'CtorThen',CT+'CtorMapErr',CT+'CtorOrElse',CT+'CtorExpect',CT+'CtorUnwrapOrDefault',CT+'try_replace'])

TS='cc_bindings_from_rs/generate_bindings/generate_template_specialization.rs:'
p('C71','rs_std::Option and Rust agree on every value',
 'After any sequence of constructions, assignments, conversions from and to std::optional, moves, copies, relocations and writes by Rust, for any payload type, tag size, tag position and niche: has_value() is true exactly when Rust reads Some, operator* yields the bytes Rust reads and aborts for None, and the value is the one an ordinary optional would hold. For little-endian targets or one-byte tags (big-endian disagrees, see DESIGN.md).',
 'every layout rustc may choose, every payload type, every history','layouts and histories are unbounded',[TS+'specialize_option',TS+'OptionApiGenerator','support/rs_std/option.h:OptionBase'])
p('C72','payloads of rs_std::Option are constructed and destroyed exactly once',
 'No sequence of operations on options constructs a payload over a live one, destroys or uses one that is not live, writes outside the storage, or releases storage in which a payload with a destructor is live; a payload is live exactly when has_value() is true.',
 'every layout, every payload type, every history','histories are unbounded; a leak or double destruction is invisible to most tests',[TS+'OptionApiGenerator::api_snippets','support/rs_std/option.h:reset','support/internal/move_assign.h:MoveAssignOrDestroyAndConstruct'])
p('C73','rs_std::Result and Rust agree on every value',
 'After any sequence of constructions, assignments of values and errors, moves, copies, relocations and writes by Rust, for any two payload types, whichever variant carries the niche: has_value() is true exactly when Rust reads Ok, value() and error() yield the bytes Rust reads or abort, and the result is the one last stored.',
 'every layout rustc may choose, every pair of payload types, every history','layouts and histories are unbounded',[TS+'specialize_result',TS+'ResultApiGenerator','support/rs_std/result.h:ResultBase'])
p('C74','payloads of rs_std::Result are constructed and destroyed exactly once',
 'No sequence of operations on results constructs a payload over a live one, destroys or uses one that is not live or of the other variant, writes outside the storage or releases storage with a live payload; tag writes never change a live payload; exactly one payload is live and it is the one the tag selects. Assigning a result its own error breaks this (disagreement).',
 'every layout, every pair of payload types, every history','histories are unbounded',[TS+'ResultApiGenerator::api_snippets','support/rs_std/result.h:Reset'])

DC='support/rs_std/dyn_callable.h:'
p('C75','rs_std::DynCallable behaves like an owning slot for one Rust closure',
 'For every client program of DynCallable operations (receiving from Rust, default and move construction, move assignment incl. aliasing, swap incl. self-swap, calls, bool checks, passing to Rust, conversion to absl::AnyInvocable, destruction) and each of the const, plain and && signatures: the calls, drops, hand-overs, bool answers and terminations are those of a variable that is empty, holds one closure, or is spent; undefined behaviour arises exactly when an empty callable is called, a non-empty one is moved to itself, or a spent one is sent to Rust.',
 'every program, any number of variables and closures, every signature kind','histories and aliasing are unbounded',[DC+'ManagedCallable',DC+'Impl',DC+'DynCallableAbi','support/rs_std/dyn_callable.rs:manager','rs_bindings_from_cc/generate_bindings/lib.rs:generate_dyn_callable_invoker_and_manager_defs'])
p('C76','every Rust closure passed to C++ is released exactly once',
 'In every run each closure is called, dropped, consumed or handed over only while C++ owns it, and once all DynCallable variables are gone every closure received has been dropped, consumed, or given to Rust or AnyInvocable exactly once per receipt.',
 'every program, including ones that terminate','double drops and leaks depend on the whole history',[DC+'ManagedCallable','support/rs_std/dyn_callable.rs:DynCallableAbi'])
p('C77','checking a DynCallable for emptiness is enough',
 'For const and non-const signatures, after any completed program, any next operation other than a self-move is well defined provided calls are only made on callables that bool(f) reports as non-empty. For && signatures this is false: a spent callable reports true (disagreement).',
 'every program and every next operation','histories are unbounded',[DC+'HasValue',DC+'operator()'])
FT='cc_bindings_from_rs/generate_bindings/generate_function_thunk.rs:'
FG='cc_bindings_from_rs/generate_bindings/generate_function.rs:'
p('C78','a Rust function called from C++ sees the caller\'s arguments and returns its own result',
 'For every signature of passable types and every body, calling the generated C++ function runs the body exactly once on the caller\'s argument values (translated to their Rust side where the type is bridged) and returns exactly the body\'s result (translated back); when no type is bridged, the call is the identity on both.',
 'any number of parameters, tuples nested to any depth, every mix of by-value, by-pointer, bridged and buffer-encoded types, methods and free functions, with and without LayoutCompatTuple, every body and every argument value',
 'signatures nest without bound and each passing convention is a pair of code generators that must agree',
 [FG+'cc_param_to_c_abi',FG+'cc_return_value_from_c_abi',FG+'generate_thunk_call',FT+'generate_thunk_impl',FT+'convert_value_from_c_abi_to_rust',FT+'write_rs_value_to_c_abi_ptr','support/internal/slot.h:Slot'])
p('C79','every owned value passed to or returned from Rust has exactly one owner',
 'When the body starts it owns exactly what the arguments owned and no C++ argument object (including *this of a consuming method) owns anything any more, so their destructors release nothing; the wrapper\'s own destructors release nothing; the caller owns exactly what the result owned, except that annotated conversion functions clone and Rust then drops exactly the originals. False for repr(transparent) wrappers with drop glue, which are released twice (disagreement).',
 'as C78','double drops and leaks appear only for particular nestings of droppable types',
 [FG+'cc_param_to_c_abi',FG+'cc_return_value_from_c_abi',FT+'write_rs_value_to_c_abi_ptr','support/internal/slot.h:AssumeInitAndTakeValue'])
RF='rs_bindings_from_cc/generate_bindings/generate_function.rs:'
RT='rs_bindings_from_cc/generate_bindings/generate_function_thunk.rs:'
p('C80','calling a C++ function through its Rust binding does what the C++ call would do',
 'For every C++ function that gets bindings (free functions, methods incl. virtual, inherited and &&-qualified, constructors, comparison operators), every body and every argument list that fits the Rust signature: the call goes through; the function that runs is the one a C++ call would run (the final overrider for a virtual method); its parameters have the passed values (a bridged value through its codec, a copy where the trait wants a reference, the contents of the caller\'s object where an immovable type is passed as an rvalue); the caller gets the function\'s own result, negated for != built on ==; the world is what the function left.',
 'any number of parameters of every passing convention in any mix, every result type, every body, every argument value, every world, with and without a thunk',
 'each parameter type has its own pair of code generators in two languages that must agree, and signatures mix them without bound',
 [RF+'function_signature',RF+'generate_func_body',RF+'materialize_ctor_in_caller',RF+'adjust_param_types_for_trait_impl',RT+'generate_function_thunk',RT+'generate_cc_thunk_parts',RT+'can_skip_cc_thunk','rs_bindings_from_cc/generate_bindings/database/rs_snippet.rs:passing_convention'])
p('C81','a call to C++ releases every owned value exactly once and leaves no memory in use',
 'What a call releases is exactly what the C++ function released itself, what its by-value parameters still owned when it returned, a result the binding drops, and whatever the moved-from arguments, temporaries and copies were left with; in particular arguments the function leaves alone are released once each and nothing else is; afterwards every local, temporary, byte buffer, thunk parameter and result slot is empty, so nothing is leaked.',
 'as C80','double drops and leaks show only for particular combinations of conventions, and most tests do not observe them',
 [RF+'generate_func_body',RT+'generate_cc_thunk_parts','support/bridge.h'])
p('C82','the extern "C" declaration in the Rust file matches what it is linked with',
 'For every function and every shape of its Rust API, the parameters and the result of the extern "C" declaration are passed the same way (as a value, as the address of an object, as the address of a byte buffer, as an added out parameter) as those of the C++ thunk; and when no thunk is generated the C++ function has a symbol, unique and with the C calling convention, its own parameters and result are passed as declared, and jumping to it without dispatch is what a C++ call would do.',
 'every function, every shape','a mismatch is undefined behaviour that often happens to work in a test',
 [RT+'generate_function_thunk',RT+'generate_cc_thunk_parts',RT+'can_skip_cc_thunk'])
p('C83','a constructor that is never run drops the arguments it holds',
 'A Rust function that returns an immovable C++ type returns a constructor that keeps the arguments; if it is dropped without being run, the C++ function does not run, the world is unchanged and what the arguments own is released once each.',
 'every function, every argument list','values captured by an un-run closure are easy to leak and rarely tested',
 [RF+'generate_func_body'])
RSS='support/rs_std/'
p('C84','Rust futures polled from C++ do what their documentation says, and leave nothing in memory',
 'For every interleaving of moves, relocations, polls and destructions of DynErasedFuture variables, of calls on DynFuture values, of what running futures do with their context and of what any thread does with the wakers it holds: a poll reaches the future the variable holds (a moved-from variable holds one that is never ready), returns true and writes the output exactly when the future is ready, writes nothing when it is pending and never drops the waker it was lent; a DynFuture drops its future as soon as it is ready, panics when polled again and answers is_completed_or_discarded accordingly; boxes and live variables correspond one to one, so when all variables are gone no box is left.',
 'every schedule of any length over any number of variables, futures, wakers and threads','races between polls, moves and wakes on other threads cannot be enumerated; leaks of the placeholder of moved-from objects are invisible',
 [RSS+'dyn_erased_future.h:DynErasedFuture',RSS+'dyn_erased_future.rs',RSS+'erased_future.rs:poll_erased',RSS+'dyn_future.rs:DynFuture'])
p('C85','every Rust future made for C++ ends exactly once',
 'The number of times a future has been dropped or handed over as a box, plus the number of variables that hold it, is the number of times it was made; so a future made once is dropped at most once, and exactly once when all variables are gone, however often it was moved, relocated in registers, polled or discarded.',
 'as C84','double drops need a particular order of moves and destructions',
 [RSS+'dyn_erased_future.h:DynErasedFuture',RSS+'dyn_erased_future.rs',RSS+'dyn_future.rs:DynFuture'])
p('C86','C++ waker objects given to Rust are given back once each and are never called otherwise',
 'For every C++ waker object: the number of times Clone() returned it is the number of times Destroy() or WakeAndDestroy() was called on it plus the number of live Rust wakers that stand for it; and whenever a virtual call reaches an object, the object is either lent to a poll under way and is not given back by that call, or has been given out more often than given back.',
 'as C84; any pointers returned by Clone()','use after free of a waker needs a wake that races with the end of a poll',
 [RSS+'waker.h:Waker',RSS+'waker.cc',RSS+'cpp_waker.cc',RSS+'dyn_erased_future.rs:RS_STD_WAKER_VTABLE',RSS+'dyn_future.rs:RS_STD_CPP_WAKER_VTABLE'])
p('C87','reference-counted C++ wakers are neither freed too early nor kept too long',
 'If C++ implements Clone() by counting and returning this, and WakeAndDestroy() and Destroy() by counting down, lends only objects it holds a reference to and keeps that reference during the poll, then no schedule makes Rust call a dead object, and an object is dead exactly when C++ has given up its reference and no Rust waker stands for it (so an address may be reused).',
 'as C84, interleaved with C++ making and giving up waker objects','as C86',
 [RSS+'waker.h:Waker',RSS+'cpp_waker.h:CppWaker',RSS+'dyn_erased_future.rs:rs_std_dyn_erased_future_poll',RSS+'dyn_future.rs:DynFuture::poll'])
CL='cc_bindings_from_rs/generate_bindings/lib.rs:'
CG='cc_bindings_from_rs/generate_bindings/generate_struct_and_union.rs:'
CA='cc_bindings_from_rs/generate_bindings/database/adt_core_bindings.rs:'
p('C88','the C++ default constructor, copy and move operations of a Rust type exist and do what the documentation says',
 'For every combination of Copy, Clone, Default, Unpin and drop glue, every Default/Clone implementation and every C++ program over variables of the type: an operation exists exactly when docs/rust/movable_types.md says so; after any allowed program every variable holds the documented contents (default value, bitwise or cloned copy, a moved-from object holding the default value, the swapped value or, for types that move by copying, its own value), self-assignment changes nothing, and no Rust code ever sees uninitialised bytes. False for repr(transparent) types that are passed in registers and have drop glue (disagreement).',
 'every trait combination, every Clone/Default implementation, every program of any length over any number of variables','each test pins one type and one short sequence of operations; uninitialised bytes are usually harmless in tests',
 [CL+'generate_default_ctor',CL+'generate_copy_ctor_and_assignment_operator',CL+'generate_move_ctor_and_assignment_operator',CG+'generate_adt',CA+'MoveCtorStyle','support/internal/memswap.h:MemSwap','docs/rust/movable_types.md'])
p('C89','every Rust value held by C++ variables has one owner and is dropped exactly once',
 'Through every program of default construction, copying, moving (by bytes, by default-and-swap, by copy), relocation, mutation, values coming from Rust and destruction, each value made is in at most one variable, is dropped at most once and never while a variable still holds it; when all variables are gone, every value made has been dropped exactly once.',
 'as C88, for types with drop glue','double drops need particular orders of moves and destructions',
 [CL+'generate_default_ctor',CL+'generate_copy_ctor_and_assignment_operator',CL+'generate_move_ctor_and_assignment_operator',CG+'generate_adt','support/internal/memswap.h:MemSwap','support/internal/slot.h:Slot'])
CSN='cc_bindings_from_rs/generate_bindings/database/code_snippet.rs:'
p('C90','the generated C++ header can be compiled from top to bottom',
 'For every set of items and template specializations with any stated requirements (headers to include, items that must be defined, items that must be declared, specializations that must be complete or must exist): in the header that is generated, each piece of text comes after the definitions, declarations and specializations it requires; everything it needs included is included; every specialization mentioned anywhere is in the header; and nothing is defined or forward-declared twice.',
 'every crate: any number of items and specializations, any requirements between them, any hash order','a missing forward declaration or a wrong order shows only for particular dependency graphs',
 [CL+'generate_crate',CL+'generate_specializations_fixpoint',CSN+'CcPrerequisites','cc_bindings_from_rs/toposort.rs:toposort'])
p('C91','the generated C++ header is complete and has nothing in excess',
 'The header has, in the namespace of the item, the text of the definition and of the details of every item, a using declaration in the namespace of every further path, and the text of every specialization that is needed (asked for by an item, by a trait implementation, or by a specialization that is needed) with its details; it has no others; a forward declaration is there only if something before the definition asks for it; and the includes are exactly those asked for.',
 'as C90','losing what only a nested specialization asks for needs particular programs',
 [CL+'generate_crate',CL+'generate_specializations_fixpoint',CSN+'CcPrerequisites'])
p('C92','the generated code does not depend on hash order',
 'Two runs over the same crate, with every hash map and hash set enumerated in any order, give the same includes, the same text in the same order and the same Rust thunks and declarations.',
 'as C90; any two enumeration orders of all hash maps and hash sets','hash order varies between runs and is rarely varied in tests',
 [CL+'generate_crate',CL+'generate_specializations_fixpoint','cc_bindings_from_rs/toposort.rs:toposort'])
p('C93','the header generator fails just when definitions need each other in a circle',
 'If the items are distinct and finitely many specializations are needed, the fixpoint over specializations ends, no lookup of a node fails, and the generator ends with a header exactly when no definition transitively needs itself through another one; otherwise it ends with the documented assertion.',
 'as C90','the graph of specializations has cycles (through lazy ones) that must not make the generator loop',
 [CL+'generate_crate',CL+'generate_specializations_fixpoint','cc_bindings_from_rs/toposort.rs:toposort'])
p('C94','grouping text in namespace blocks keeps the namespace of every piece',
 'For every list of pieces with their namespaces, the printed blocks contain the same text in the same order, each piece inside exactly its own namespace; the namespace directly around a piece is marked deprecated exactly when the module of the piece is deprecated, and no other namespace is.',
 'every list of pieces, namespaces and deprecated modules','coalescing errors depend on which pieces happen to be adjacent',
 [CL+'format_namespace_bound_cc_tokens',CL+'format_with_cc_body'])
CQ='cc_bindings_from_rs/generate_bindings/database/fully_qualified_name.rs:'
p('C95','the C++ names of Rust items are exactly spellable public paths',
 'For every crate with finitely many modules (cycles of re-exports included), the search for public paths ends; each path that it gives for an item can be written in Rust (public modules and re-exports all the way, no `_`, no unstable or foreign items, type aliases standing for their type), no path is given twice, and every public item is found under each public name, by a path no longer than any path with that name.',
 'every crate: any graph of modules, re-exports and aliases, with cycles','module graphs with cyclic and repeated re-exports have unboundedly many paths; a test sees a few',
 [CL+'public_paths_by_def_id',CQ+'PublicPaths::insert'])
p('C96','the canonical path of an item is the preferred one',
 'Among the paths that the search gives for an item in a crate, the canonical one is not hidden if any is not, then shortest, then not a type alias if possible, then not a re-export if possible; the other paths follow in strict order; if no module is #[doc(hidden)], no way at all to write the item is preferred to the canonical path.',
 'every crate and item','the choice depends on the order in which paths are found and inserted',
 [CQ+'ExportedPath::cmp',CQ+'PublicPaths::insert',CL+'public_paths_by_def_id'])
p('C97','an item is attributed to the crate that owns it',
 'For every list of importable crates, the global paths of an item are exactly those of all crates; the canonical one belongs to a crate that owns the item most (the defining crate, else std or alloc for core and alloc items, else any re-exporting crate), and within that to the preferred path; an item exported by its own crate has the same canonical path whatever other crates are there and in whatever order; without ties the order of crates does not matter.',
 'every list of crates and every item','depends on which crates a target happens to use',
 [CL+'all_public_paths_by_def_id',CL+'CrateOwnershipRank',CQ+'PublicPaths::merge',CQ+'PublicPaths::insert_aliases'])
p('C98','each public path of an item is declared once in C++',
 'The header of a crate gives every public path of the crate for an item exactly once, as the definition or as an alias; among headers made with the same crates exactly one defines the item, under its canonical path.',
 'every list of crates, every source crate and every item','an ODR violation needs a combination of crates',
 [CL+'formatted_items_in_crate',CL+'all_public_paths_by_def_id'])
CN='nullability/type_nullability.cc:'
p('C99','spellings of one type have corresponding nullability vectors',
 'For every type, however it is spelled (typedefs, alias templates, template parameters, qualified names, annotations, default arguments, packs), the nullability vector has exactly one entry for each pointer of the canonical type, smart pointers included, in preorder; so any two spellings of a type have vectors of the same length whose entries stand for the same pointers, and counting pointers and listing locations agree with it.',
 'every type whose template parameters are found in the templates whose arguments were introduced last (no bound on depth); canonical types without condition','sugar nests without bound, and an offset error only shows with a particular nesting',
 [CN+'NullabilityWalker',CN+'getTypeNullability',CN+'countPointersInType',CN+'getTypeNullabilityLocs','nullability/type_nullability.h:TypeNullability'])
p('C100','a nullability annotation is about one pointer',
 'An annotation around a type (attribute or Nullable<T>-like alias template) sets the entry of the outermost pointer if the type is a pointer, and no other entry; it does nothing otherwise; of two the outer one wins, except that "unspecified" counts only directly on a spelled-out pointer; pointers without annotation have the default of the file that spells them: of the typedef or alias for its own text, of the user for template arguments; a nullability known to the caller for a template parameter is kept unless it is unspecified.',
 'every type as in C99, every annotation, every pragma','interactions of nested annotations, aliases and parameters',
 [CN+'NullabilityWalker',CN+'isUnknownValidOn',CN+'unwrapAlias',CN+'TypeNullabilityDefaults::get',CN+'getTypeNullability'])
p('C101','types rebuilt with a nullability vector carry it',
 'For every type whose pointers are raw and outside of packs and enclosing classes, rebuilding with a vector works exactly for the vectors of the right length, gives a spelling of the same type, and the nullability vector of the result is the given one (symbolic entries as unspecified).',
 'every such type and every vector','round trip over unbounded types',
 [CN+'rebuildWithNullability',CN+'Rebuilder'])
AZ='lifetime_analysis/analyze.cc:'
p('C102','lifetime analysis handles every function once, callees first',
 'For every finite call graph (any recursion), analysing a translation unit ends with an empty call stack; exactly the functions asked for and those they reach (builtins apart) get a result, each once; a function is analysed after its callees or together with them; functions that reach each other are analysed together, a recursive function is never analysed alone, and the first function of a group is recursive.',
 'every call graph, every order of functions and of callees','an unbounded graph traversal with shared mutable stack; the callee order is that of a pointer hash set',
 [AZ+'AnalyzeFunctionRecursive',AZ+'FindAndMarkCycleWithFunc',AZ+'AnalyzeTranslationUnitAndCollectTemplates'])
p('C103','every lifetime result agrees with the results of the callees at the end',
 'When the analysis of a translation unit is over, the result of a function analysed alone is what the analysis of its body gives with the final results of all callees; the results of a recursive group are either all the same error, or stable: analysing any body again gives isomorphic lifetimes; declared functions have their annotations.',
 'every call graph, every analysis of bodies that looks only at callees','results are written at different times; a later overwrite would only show in some graphs',
 [AZ+'AnalyzeRecursiveFunctions',AZ+'AnalyzeFunctionRecursive'])
p('C104','without recursion the order of functions and callees does not matter',
 'If no function analysed reaches itself, the results are the same for every order of the functions in the translation unit and every enumeration order of callees, and are the only ones that agree with the bodies.',
 'every call graph without recursion, every two orders','enumeration order of a pointer hash set changes from run to run',
 [AZ+'AnalyzeFunctionRecursive',AZ+'GetCallees'])
HB='rs_bindings_from_cc/generate_bindings/has_bindings.rs:'
DB='rs_bindings_from_cc/generate_bindings/database/'
p('C105','the names of a scope resolve exactly when their uses go together',
 'The generator resolves the names of a scope (a namespace block, a class or the top level) without a panic exactly if, for each name, all its uses are blocks of one namespace, or are functions and variables together with at most one type, where an existing Rust type may be repeated and a class may be declared several times around one definition.',
 'every list of items of a scope','clashes come from renaming attributes and from every combination of kinds of items in every order',
 [HB+'resolve_names',HB+'determine_name_conflict_action',DB+'code_snippet.rs:ResolvedName::coalesce'])
p('C106','the module of a class takes nobody else\'s name',
 'If the names of a scope resolve, each class of the scope with nested items gets the module name that was reserved for it; the name is that of no item of the scope and of no other class\'s module.',
 'every list of items of a scope, every snake-case function','collisions need adversarial names such as foo, Foo, foo_items, foo_items_',
 [HB+'resolve_names',DB+'db.rs:record_to_associated_module_name'])
p('C107','an item nested in a class is never refused because of its module',
 'If the names of a scope resolve, then for each class of the scope and each item in it the check for the module of the parent succeeds, in whatever order the names are enumerated, and the module it finds is the one that is generated.',
 'every list of items of a scope, every enumeration order of the names','names are enumerated in the order of a hash map',
 [HB+'has_bindings',HB+'resolve_names',DB+'db.rs:record_to_associated_module_name','rs_bindings_from_cc/ir.rs:place_in_nested_module_if_nested_in_record'])
RK='rs_bindings_from_cc/generate_bindings/database/rs_snippet.rs:'
p('C108','bindings are no more visible than the types they mention',
 'A type is refused in a target exactly if it contains a struct that is pub(crate) in another target. If it is accepted, each class and alias in it (with bindings, not inside the arguments of a handwritten generic Rust type) is public or belongs to the target, and is public if the type is; a function is refused exactly if one of its types is, and public exactly if all are, whatever the order of the parameters.',
 'every type, every function, every assignment of features to targets','the combinations of nested types, owners and features are unbounded',
 [HB+'type_target_restriction',HB+'func_has_bindings',DB+'db.rs:type_visibility',DB+'code_snippet.rs:Visibility::or',RK+'RsTypeKindIter'])
p('C109','the features a type needs',
 'The reasons reported for a type are exactly: that Crubit is not enabled, and one for each contained type for which the features of the target do not suffice. A function gets past the check exactly if there are no reasons for any of its types in the defining and the owning target. More features never give more reasons to refuse.',
 'every type and every set of features','nested types and sets of features are unbounded',
 [RK+'missing_feature_descriptions_of_type',DB+'code_snippet.rs:missing_feature_descriptions'])
SR='support/cc_std_impl/string.rs:'
p('C110','C++ strings held by Rust are sequences of bytes',
 'Whatever a program does with owned C++ strings (make, clone, compare, read, write, send over the bridge, move into and out of std::string places), no operation touches a string that is not there, and every read and comparison gives the bytes the program put there; only strings that were moved from are unspecified, and all operations stay defined on them.',
 'every program over any number of strings, every content left by C++ in moved-from strings','ownership passes through raw pointers in two languages; use after free shows only for some histories',
 [SR+'string_wrapper',SR+'BoxedCppStringAbi',SR+'rust_string_to_cpp_string',SR+'cpp_string_to_rust_string',SR+'new_string','support/cc_std_impl/conversion_function_helpers.h'])
p('C111','each C++ string made by Rust is deleted exactly once',
 'At every point of every program each heap string is owned by exactly one Rust value or one bridge buffer, no string is deleted twice, and when the values are gone every string ever made has been deleted exactly once.',
 'every program over any number of strings','leaks and double deletes depend on the whole history',
 [SR+'string_wrapper',SR+'BoxedCppStringAbi::encode','support/cc_std_impl/conversion_function_helpers.h:StringDelete'])
UP='support/cc_std_impl/unique_ptr.rs:'
p('C112','a unique_ptr in Rust is nothing or an object of its own',
 'Every program that keeps the documented contract of new, with any mix of release, moves in Rust and in C++, reads, writes and drops of unique_ptr and virtual_unique_ptr, has no undefined behaviour, and get, as_ref and as_mut report exactly what was put there.',
 'every program over any number of pointers and types','aliasing and use after free depend on the whole history in two languages',
 [UP+'unique_ptr',UP+'virtual_unique_ptr'])
p('C113','each object behind a unique_ptr is destroyed and freed once, by the right functions',
 'At every point of every such program each object is owned by exactly one pointer or has been destroyed exactly once, by the destructor of its most derived type, and then freed exactly once by the operator delete overload (size, alignment) that fits its allocation; when no pointer is left all objects have been destroyed.',
 'every program, every size and alignment, with and without sized deallocation','a wrong overload shows only with some allocators, leaks only for some histories',
 [UP+'unique_ptr::drop',UP+'virtual_unique_ptr::drop','support/cc_std_impl/std_allocator.h:cpp_delete'])
SV='support/cc_std_impl/string_view.rs:'
p('C114','string views and slices convert without loss',
 'Every valid Rust slice becomes a valid C++ view of the same bytes, null exactly if it is empty; every valid C++ view, null ones included, becomes a valid Rust slice of the same bytes; round trips keep the bytes, and Rust orders and compares views exactly as C++ does.',
 'every slice, view and memory','null and empty cases at every address and length, all pairs for the order',
 [SV+'raw_string_view',SV+'string_view','support/cc_std_impl/slice_ptr.rs:get_raw_parts'])
TSP='common/token_stream_printer.rs:'
p('C115','generated files contain the tokens that were generated',
 'Rust compilers, and C++ compilers after joining lines that end in a backslash, read in the printed text of a token stream exactly the tokens of the stream: no two tokens are glued together or taken apart, placeholders for blanks, markers and comments add nothing; for streams with well-formed identifiers and literals, without invisible groups, whose separate punctuation does not form a comment and, in C++, whose comments end in neither a backslash nor a quote.',
 'every token stream, nested to any depth','the blank between two tokens depends on the tokens before and after, and comments can swallow code',
 [TSP+'tokens_to_string',TSP+'tokens_require_whitespace',TSP+'write_stream'])
p('C116','comments stay comments, literal text is verbatim',
 'Whatever the text of a comment (newlines, quotes, backslashes, text that looks like an escape), every line of it in the generated file is a comment, and nothing after it is; in C++ this needs that the text ends in neither a backslash nor a quote, otherwise the next line of code is lost. Literal text without control characters is written as it is, and a newline, unless it ends in a quote, which becomes a backslash.',
 'every comment and literal text, every text after it','unescaping is done by textual replacement, whose results overlap',
 [TSP+'write_stream','cc_bindings_from_rs/generate_bindings/lib.rs:generate_doc_comment'])
p('C117','captured identifiers are recorded and found again after formatting',
 'Each identifier captured in a stream is recorded with the number and the source location of the last tag before it and the number of occurrences of its text since that tag, without a failure; in every text that contains from the place of the tag on the same words in the same order, the record leads to the same word, not to a part of another.',
 'every token stream with captures around single identifiers; every reformatting that keeps the words','the same text occurs as part of other words any number of times before',
 [TSP+'tokens_to_string_with_provenance',TSP+'fix_provenance_map_postformatting','common/kythe_metadata.rs:embed_provenance_map'])

p('C118','inferred lifetime signatures are sound',
'For a function over pointers, references, arrays and statics for which the lifetime analysis infers a signature: if a caller passes arguments that fit the parameter lifetimes of that signature, then however the function runs, when it returns the result fits the return lifetimes, every cell of the caller still holds a value of its type and lifetime, every static variable points to static memory only, and none of them points to a local or parameter of the function.',
'every function of the fragment (any control flow graph, any pointer depth, any qualifiers without a non-const level directly above a const level above a pointer), every order of hash-set iteration, every fixpoint of the dataflow engine, every caller memory including aliasing, every choice of regions for the lifetime variables, every terminating execution',
'the analysis is a may-analysis with strong updates, joins, variance and unification; its tests compare inferred signatures of small functions with expected strings and never run the functions',
['lifetime_analysis/lifetime_analysis.cc:TransferStmtVisitor', 'lifetime_analysis/lifetime_analysis.cc:GenerateConstraintsForAssignment', 'lifetime_analysis/lifetime_analysis.cc:HandlePointsToSetExtension', 'lifetime_analysis/analyze.cc:AnalyzeFunctionBody', 'lifetime_analysis/analyze.cc:ConstructFunctionLifetimes', 'lifetime_analysis/analyze.cc:DiagnoseReturnLocal', 'lifetime_analysis/object_repository.cc:CreateObjectsRecursively', 'lifetime_analysis/points_to_map.cc'])
p('C119','points-to sets over-approximate memory',
'If a signature has been inferred and the arguments fit it, then whenever an execution is at a point from which the exit can be reached and a variable holds the address of a variable of the function, the points-to set computed for that point contains it.',
'every function of the fragment, every point of every execution, every caller',
'strong updates and joins at loops are only right if no execution reaches a state they miss; tests look at final signatures',
['lifetime_analysis/lifetime_analysis.cc:TransferStmtVisitor', 'lifetime_analysis/points_to_map.cc', 'lifetime_analysis/lifetime_lattice.cc:join'])
p('C120','static memory never leads to locals in an accepted function',
'The loop that forces everything reachable from static pointers to be static stops for every points-to map; if a signature is inferred then no chain of points-to edges leads from a static object to a local one, so the later check for this stops and never reports an error.',
'every function, every state at its exit',
'needs the closure of a worklist loop over arbitrary, possibly cyclic, graphs',
['lifetime_analysis/analyze.cc:AnalyzeFunctionBody', 'lifetime_analysis/analyze.cc:PropagateStaticToPointees'])

ND='nullability/pointer_nullability_diagnosis.cc:'
NV='nullability/value_transferer.cc:'
p('C121','no nullability warnings, no use of a null pointer from an annotated source',
'For a function over raw and smart pointers that the checker has analysed without error: whenever an execution, started with arguments that fit the annotations, dereferences, offsets, passes for a Nonnull parameter, returns as a Nonnull result or stores in a Nonnull variable a null pointer that comes from a null literal or an annotated source, or uses a Nonnull smart pointer that holds one, a warning of that kind is reported. Excepted are output parameters with an annotated inner pointer, p + 0, p += 0, comparisons of two smart pointers and self-moves (C125).',
'every function of the language (assignments, calls with output arguments, casts, arithmetic, null checks with && || !, comparisons, reset, release, move, swap, value_or, CHECK_NE, branches, loops, early exits), every execution, every solver that answers',
'the verdict at a point depends on everything that can happen before it, through joins, loops, widening and a solver; tests compare warnings of small functions with expected ones and never run the functions',
[ND+'diagnosePointerNullability',NV+'transferCallExpr','nullability/pointer_nullability_analysis.cc:widen','nullability/pointer_nullability_analysis.cc:join','nullability/pointer_nullability.cc:isNullable'])
p('C122','in a fully annotated function no warnings means no null pointer is used',
'If in addition every callee is annotated, the same is true of every null pointer, whatever its source.',
'every function whose callees are all annotated, every execution, every solver that answers',
'unannotated pointers are deliberately not reported; where this leaves no hole is a property of all executions',
[ND+'diagnosePointerNullability','nullability/pointer_nullability.cc:isNullable'])
p('C123','a pointer that has just been checked is not reported',
'Under if (c), or after if (c) return, where c (not c) implies by a null check or comparison with nullptr inside any && and || that x is not null, any number of dereferences, arithmetic, copies, casts, returns of x and calls that take x adds no warning to those of the condition itself.',
'every state of the analysis, every such condition and sequence of uses, every solver that answers',
'what is known about x when the check is reached is arbitrary, including nothing after widening',
[NV+'transferNullCheckComparison',NV+'transferNullCheckImplicitCastPtrToBool',NV+'unpackPointerValue','nullability/pointer_nullability.cc:isNullable'])
p('C124','the analysis of every function ends',
'The iteration over a loop in a function with m pointer variables stops after at most 4m + 2 passes, so the analysis ends with a list of warnings, for every solver, also one that gives up or answers differently each time.',
'every function of the language, nested loops included, every solver',
'needs a measure that every pass decreases; values do not get steadily less precise, because widening can restore what an earlier pass had forgotten',
['nullability/pointer_nullability_analysis.cc:widen','nullability/pointer_nullability_analysis.cc:widenNullabilityProperty',NV+'unpackPointerValue'])
p('C125','what the checker misses',
'A Nullable pointer can be dereferenced without a warning, whatever the solver, after q = p + 0, after p += 0, under x == y for two smart pointers, after passing &p for an output parameter annotated Nullable, and under if (x) after x = std::move(x).',
'every solver that answers, every iteration limit',
'a statement about the absence of warnings in all configurations, together with an execution that faults',
[ND+'diagnoseAddSubtract',NV+'transferSmartPointerComparisonOpCall',NV+'initializeOutputParameter',NV+'transferSmartPointerAssignment',NV+'transferPointerAddOrSubAssign'])

CE='nullability/inference/collect_evidence.cc:'
p('C126','saving and reloading a summary loses nothing',
'The evidence collected from the saved summary of a definition is exactly the evidence that the analysis of the definition gives at the points where the behaviours were observed, in the same order, whatever the numbering of atoms and for any previous inferences.',
'every logical context, list of slots, list of behaviours, previous inferences and pair of solvers that answer',
'summaries go through text with renumbered atoms, lazily created in parsing order; agreement has to hold for every formula and context, not for the samples of a round-trip test',
[CE+'summarizeDefinition',CE+'collectEvidenceFromSummary',CE+'loadLogicalContext',CE+'getAtom',CE+'SummaryCollector'])
p('C127','evidence is what the code needs',
'For each behaviour of a definition, evidence is given exactly when called for. A requirement that is neither certain nor impossible gives evidence for the first slot (test boundaries last) whose being Nonnull makes it hold in every run, at most one, or for every slot whose being Nullable does. Values passed, returned, assigned or left in fields give the evidence that says whether they may be null. Whatever the solver fails to answer, evidence for a requirement names a slot that suffices, and does not depend on what was inferred before.',
'every behaviour, context, point, list of slots, previous inferences; exactness for every solver that answers, soundness for every solver',
'the verdicts quantify over all runs of the analysed function that reach the point',
[CE+'EvidenceCollector::mustBeTrueByMarkingNonnull',CE+'EvidenceCollector::mustBeTrueByMarkingNullable',CE+'EvidenceCollector::collectAssignmentToType',CE+'EvidenceCollector::collectArgBinding',CE+'EvidenceCollector::collectReturn',CE+'EvidenceCollector::collectAssignmentFromValue',CE+'EvidenceCollector::collectConstructorExitBlock'])
p('C128','acting on the evidence settles the requirement',
'Once the slot that evidence names has been inferred Nonnull (Nullable), the requirement holds in every run that has the inferred annotations, and the value in question is Nonnull evidence wherever it is passed on or returned. Evidence from values forces Nullable exactly for values that may be null, and Nonnull exactly for non-null values bound to a mutable reference.',
'every requirement, point and pair of rounds',
'relates what is inferred in one round to every run considered in later ones',
[CE+'EvidenceCollector::mustBeTrueByMarkingNonnull',CE+'getConstraintsOnInferableSlots',CE+'getArgEvidenceKindFromNullability'])
p('C129','the index of virtual methods is the overriding relation',
'If methods are visited after those they override, the index records for every method exactly the methods it overrides, directly or through others, exactly the methods that override it, and whether it is in a test. A template instantiated with a class declared after it is visited too early, and what that class overrides is missed.',
'every list of methods in visiting order, redeclarations included, multiple inheritance included',
'a transitive closure computed in one pass; whether it is complete depends on the order over all hierarchies',
[CE+'getVirtualMethodIndex'])
p('C130','methods and their overrides are inferred consistently',
'After propagation, evidence of a kind that limits overrides (a parameter must accept null, a result must not be null) is about a method exactly if some method it overrides, or itself, gave it; evidence that limits what is overridden comes exactly from the methods that override it, tests to non-tests excepted; evidence about references both ways. So what forces a parameter to be Nonnull in an override forces it in every method overridden, and what forces Nullable in a method forces it in every override, or the conflict is reported. The part of the index saved with a definition gives the same propagation for the functions it references.',
'every overriding relation, every list of evidence, every slot and classified kind',
'propagation is a relation over whole class hierarchies and all evidence kinds',
[CE+'getFlowDirection',CE+'getAdditionalTargetsForVirtualMethod',CE+'evidenceEmitterWithPropagation',CE+'saveCFGScopeVirtualMethodIndex'])
p('C131','rounds of inference',
'After any number of rounds every slot has the verdict of exactly its evidence in the last round, and only new conclusions without conflict are assumed in the next. A parameter that a definition dereferences without a check is inferred Nonnull in every round unless annotated, as is the same parameter of the methods overridden, and from the next round on the value is taken to be non-null in every run, unless the conclusion was in conflict.',
'every number of rounds, set of summaries and declarations, sort and merge order',
'an invariant over all rounds, each of which changes the assumptions of the next',
['nullability/inference/infer_tu.cc:iterativelyInfer','nullability/inference/infer_tu.cc:inferenceRound','nullability/inference/infer_tu.cc:groupAndMergeEvidence'])
GS='rs_bindings_from_cc/generate_bindings/generate_struct_and_union.rs:'
GF='rs_bindings_from_cc/generate_bindings/generate_function.rs:'
RS='rs_bindings_from_cc/generate_bindings/database/rs_snippet.rs:'
AC='rs_bindings_from_cc/ast_convert.cc:'
p('C132','dropping a Rust value of a C++ class destroys the C++ object',
'For every C++ class that anybody may destroy: when a Rust value of it is dropped, exactly those destructor bodies run that C++ runs when it destroys an object of the class (of the class, its bases, fields and array elements, however deep), on the same subobjects and in the same order, and each of them once; Rust destroys no field a second time. Members of unions are not destroyed.',
'every class (any nesting of bases, fields, arrays and unions; any special members, access, annotations and features) whose generated definition the Rust compiler accepts',
'the class is any tree of classes; that no field at any depth is dropped twice or forgotten depends on how each level is wrapped',
[GS+'field_definition',GS+'needs_manually_drop','rs_bindings_from_cc/ir.rs:should_implement_drop',GF+'api_func_shape_for_destructor',AC+'GetSpecialMemberFunc'])
p('C133','Copy and Clone do what the C++ copy constructor does',
'If a generated type is Clone, anybody may copy objects of the class in C++, and clone() runs exactly the copy constructor bodies that copying in C++ runs, in the same order on the same subobjects. If it is Copy, C++ copies bytes and no destructor does anything. A class is Copy exactly if it is Rust-movable, not abstract, publicly and trivially copyable and destructible, and no annotation, mutable field or thread safety prevents it. Every Rust-movable class that can be copied and destroyed publicly is Clone. (No derivation forced by annotation; no copy constructor with a non-const parameter.)',
'every class, as in C132',
'the triviality of a copy constructor depends on all parts of the class at any depth',
['rs_bindings_from_cc/ir.rs:should_derive_copy',RS+'should_derive_clone',GF+'api_func_shape_for_constructor',AC+'GetCopyCtor'])
p('C134','Rust programs release every C++ resource exactly once',
'Take any Rust program that makes values of C++ classes, moves, copies, clones and drops them in any order, where every class with a destructor body also writes or deletes its copy constructor. No resource held by a subobject is released twice; none that was not acquired; no value that is still there holds a resource that was released or that another value holds; and once all values are dropped every resource has been released exactly once.',
'every sequence of operations on any number of values of any classes with those properties',
'an invariant over all programs and class hierarchies',
['rs_bindings_from_cc/ir.rs:should_derive_copy',RS+'should_derive_clone',GS+'field_definition',GF+'api_func_shape_for_destructor'])
p('C135','the generated definitions of records are accepted by the Rust compiler',
'For every class without surprises (public special members, no derive annotations, no thread safety annotation, no mutable fields or mutable references, all members of unions visible, Rust-movable fields in Rust-movable classes, likewise for all fields) the generated struct or union compiles: derive(Copy) only with Copy fields and without Drop, derive(Clone) only with Clone fields, unions only with allowed fields. Each of the conditions is needed: without it there is a class whose definition is refused.',
'every such class, at any depth',
'the traits of fields depend on their whole class; tests have a few shapes',
[GS+'generate_derives',GS+'field_definition',RS+'implements_copy','rs_bindings_from_cc/generate_bindings/database/code_snippet.rs:BitPadding'])
p('C136','Rust-movable classes are Unpin',
'If a class with a field that is not Rust-movable is not Rust-movable either, then a generated type is Unpin exactly if C++ passes the class in registers; a class that is not passed in registers is never Unpin.',
'every class',
'Unpin is an auto trait: it depends on all fields at any depth',
['rs_bindings_from_cc/ir.rs:is_unpin',GS+'generate_record','support/ctor_proc_macros.rs:recursively_pinned'])
p('C137','what C++ modifies behind const is in a Cell in Rust',
'If some part of an object of a C++ class can be modified through a const reference, because it is or is inside a mutable field at any depth, then the bytes of that part are in a Cell or UnsafeCell in the generated Rust type, so that Rust does not assume that they stay the same behind a shared reference. This needs that no class that is Copy in Rust has something mutable in a base class or in a field that Rust does not see; without that, there are classes with mutable parts outside of any Cell.',
'every class, of any nesting, with any annotations, and every part of its objects',
'the part can be at any depth, and each level decides on its own how fields are represented',
[GS+'field_definition','rs_bindings_from_cc/ir.rs:should_derive_copy','rs_bindings_from_cc/generate_bindings/database/code_snippet.rs:FieldType','rs_bindings_from_cc/generate_bindings/database/code_snippet.rs:BitPadding'])
p('C138','upcasts are offered exactly to the bases that C++ converts to',
'Each base class for which the generated type implements Inherits is one to which everybody can convert in C++: it has only one subobject in the derived class, and is reachable by public inheritance all the way; each base is given once. Conversely every imported base that everybody can convert to is given, if no base of the hierarchy is virtual, or if all are public. (With virtual and private inheritance mixed, there are hierarchies where a conversion is missed.)',
'every class hierarchy, with any virtual, private and repeated bases, at any depth; every layout',
'hierarchies are unbounded graphs; ambiguity depends on all paths',
['rs_bindings_from_cc/importers/cxx_record.cc:GetUnambiguousPublicBases',GS+'cc_struct_upcast_impl'])
p('C139','an upcast pointer points to the base subobject',
'In every object that contains an object of the derived class, complete or not, at any address and with any placement of the virtual bases, upcasting a pointer in Rust gives the address of the one subobject of the base class; a constant offset is only used if the way to the base has no virtual step.',
'every class hierarchy, layout, object and base with an upcast',
'the position of a virtual base depends on the complete object, which may be of a class that does not exist yet',
['rs_bindings_from_cc/importers/cxx_record.cc:GetUnambiguousPublicBases',GS+'cc_struct_upcast_impl','rs_bindings_from_cc/generate_bindings/database/code_snippet.rs:UpcastImpl'])
p('C140','inherited methods are those that C++ finds',
'If a function of a base class becomes a method of the derived class, then it is in a base with an upcast, and member name lookup in C++ finds exactly that class, in its one subobject, provided that every declaration of the name in the class and its bases is a function with bindings under its own name, in the class or a base with an upcast. A function becomes a method exactly if it has bindings and an identifier as name, the class has no function of that name, and no other function of the bases with upcasts has it. The methods and their order do not depend on the iteration order of hash maps.',
'every class hierarchy and all member functions',
'name lookup depends on the whole hierarchy: what hides what in which subobject',
[GS+'filter_out_ambiguous_member_functions',GS+'collect_unqualified_member_functions_from_all_bases',GS+'collect_unqualified_member_functions'])
TT='nullability/type_transferer.cc:'
p('C141','the nullability of an expression is that of its type',
'The nullability vector that the checker computes for an expression is the list of the nullabilities of the pointers of the type that the expression has when template arguments, with their annotations, are put into declared types: `v.front()` for `vector<int* _Nullable> v` is `int* _Nullable`, whatever the file of vector says about unannotated pointers; likewise through `->`, `*`, `&`, `[]`, calls, pointers to functions, member operators, conversions to a base class (whose template arguments may mention the parameters of the derived class), pointer arithmetic, assignments, explicit template arguments and qualifiers of names, at any nesting. The entries inside are those of the annotations at the places where the types are written. (Classes that are smart pointers are not the object of `.`, and are not converted to bases; unknown template arguments count as unannotated pointers at the place of the declaration; examples record what happens there.)',
'every program of the model and every expression, at any depth, with any types',
'the vector of a subexpression is cut and pasted at positions that depend on the number of pointers in types of any size',
[TT+'transferMemberExpr',TT+'transferDeclRefExpr',TT+'FromEnclosingClassNullability',TT+'FromTemplateArgs',TT+'transferCastExpr',TT+'transferCXXOperatorCallExpr',TT+'computeTypeNullabilityForCallExpr','nullability/type_nullability.cc:getTypeNullability'])
p('C142','vectors have one entry for each pointer',
'The vector of an expression has exactly as many entries as its type has pointers, whatever the expression is; for the expressions of C141 the computed vector has that length by itself, so that it is never discarded.',
'every expression',
'lengths depend on types of any size',
[TT+'computeNullability',TT+'getNullabilityForChild'])
p('C143','annotations of template arguments reach the uses',
'If a member function of a class template returns T& for the i-th parameter T, then the result of the call has the nullability that is written in the i-th template argument of the object; the same holds for fields of type T, through pointers, and for the result T of a function template that is called with explicit template arguments.',
'every class template and function template instance, argument index, arguments of any types',
'the position of an argument in the vector depends on all arguments before it',
[TT+'FromEnclosingClassNullability',TT+'FromTemplateArgs',TT+'addTemplateArgs'])
SU='cc_bindings_from_rs/generate_bindings/generate_struct_and_union.rs:'
p('C144','C++ integer constants have the same value in Rust',
'Every enumerator, enumerator of an anonymous enum, and constexpr variable of a C++ integer type of at most 64 bits becomes a Rust constant that compiles in the type the bindings give it and has the value it has in C++, on each platform, including the extremes of each type; the only exception is a negative constant of plain char, whose binding does not compile. Constants of signed 128-bit type are bound exactly if they fit 64 bits, with the right value. So generated enum values compare in Rust as in C++.',
'every platform data model, signedness of char, integer type and bit pattern',
'64-bit values cannot be enumerated; sign and width matter at boundaries',
['rs_bindings_from_cc/ir.h:IntegerConstant::FromAPValue','rs_bindings_from_cc/ir.cc:IntegerConstant::WriteToProto','rs_bindings_from_cc/generate_bindings/database/code_snippet.rs:integer_constant_to_token_stream','rs_bindings_from_cc/generate_bindings/generate_enum.rs:generate_enum','rs_bindings_from_cc/generate_bindings/lib.rs:generate_constant'])
p('C145','Rust integer constants have the same value in C++',
'Every Rust constant of bool or of an integer type of at most 64 bits, every enumerator of a cpp_enum and every tag of a repr(C) enum variant is written as a C++ expression that is well formed (its literal has a type) and has exactly the value of the constant, so that no conversion changes it and no narrowing error occurs, on each platform. Constants of ffi_11::c_char keep their bits. (The least c_longlong on Linux, and c_long on iOS and OpenBSD, are exceptions.)',
'every platform, type and bit pattern',
'64-bit values cannot be enumerated; the type of a C++ literal depends on its value and on the platform',
[SU+'scalar_value_to_string',SU+'generate_cpp_enum','cc_bindings_from_rs/generate_bindings/lib.rs:generate_const'])
p('C146','constants survive the round trip',
'A constant of a builtin Rust integer type that is exported to C++ and imported back from there has the same type and the same value.',
'every platform, builtin integer type of at most 64 bits and value',
'as for C144 and C145; composition of two tools',
[SU+'scalar_value_to_string','rs_bindings_from_cc/generate_bindings/database/code_snippet.rs:integer_constant_to_token_stream','cc_bindings_from_rs/generate_bindings/format_type.rs:format_int_ty_for_cc'])
p('C147','C++ constructors of fieldless variants make that variant',
'The object that the C++ static constructor of a variant without fields of an opaque Rust enum makes has the size of the enum, holds the tag of that variant at the place of the tag in the byte order of the target, and is zero elsewhere.',
'every size, tag offset, tag size of at most 16 bytes, tag value and byte order',
'the layout is chosen by rustc; tags range over 128 bits',
[SU+'generate_adt'])
p('C148','distinct C++ integer types are distinct Rust types',
'On each platform, two different C++ integer types are different types in ffi_11; a type c_X is a builtin iN or uN exactly if the C++ type X is intN_t or uintN_t there, and has the width of X. In bindings, two C++ integer types that become the same Rust type are the same C++ type, except that char16_t and char32_t become u16 and u32.',
'all platforms and pairs of types',
'tests run on one platform',
['support/ffi_11/src/lib.rs:c_long','support/ffi_11/src/lib.rs:c_char','rs_bindings_from_cc/generate_bindings/database/rs_snippet.rs:PrimitiveName::from_primitive'])
p('C149','one function per overload set, the canonical one',
'Among the C++ functions that would get the same Rust path, a function is bound exactly if every other one has a lower rank (deprecated functions rank below the others); so at most one is bound, a single non-deprecated overload is bound whatever deprecated ones exist, two non-deprecated ones hide each other, and the result does not depend on declaration or hash order.',
'every list of functions, path assignment and ranking',
'overload sets have any size and order',
[GF+'overload_sets','rs_bindings_from_cc/generate_bindings/database/db.rs:is_ambiguous_function','rs_bindings_from_cc/generate_bindings/lib.rs:generate_item_impl'])
p('C150','a Rust operator is the C++ operator with the same symbol',
'Whenever a core::ops trait is implemented for a C++ class, the C++ function behind it is the operator with the same token and number of operands as the Rust operator, the left operand is the first C++ parameter and the right one the second, and compound assignments are the ones that drop the C++ result. Conversely each overloadable Rust operator is offered for a C++ operator with that token on a reference to a Rust-movable class.',
'every library of C++ operators, parameter types and class properties',
'operators, types and libraries are open-ended',
[GF+'OPERATOR_METADATA',GF+'api_func_shape_for_operator',GF+'extract_first_operator_parameter',GF+'record_type_of_compound_assignment'])
p('C151','Rust == is the C++ ==',
'A Rust a == b between C++ classes that compiles evaluates the C++ operator== for these classes on a and b in that order (by-value parameters receive copies), or, only if C++ has no usable operator== with the same parameters, the negation of operator!=. For each pair of classes there is at most one, and no two operator impls conflict, as long as types are written without aliases and named lifetimes. An operator== on const references that no other overload of == or != for these classes competes with is available in Rust.',
'every library of operators, parameter types, class properties and values',
'which function is used depends on all overloads of the library',
[GF+'api_func_shape_for_operator_eq',GF+'api_func_shape_for_operator_ne',GF+'get_binding',GF+'adjust_param_types_for_trait_impl',GF+'generate_func_body'])
p('C152','ordering in Rust follows the C++ < and ==',
'PartialOrd is implemented only for a class with operator< between two values of the class and a bindable operator== with the same parameters, never in an uncallable form. Its methods satisfy the documented contract of PartialOrd if and only if C++ never has both a == b and a < b; a < b and b > a agree if and only if a < b excludes b < a and b == a; for a strict total order with its equality, Rust comparisons are that order and never answer None; None means neither equal nor ordered.',
'every class, pair of C++ operators and pair of values',
'the laws quantify over all values and all C++ implementations of the operators',
[GF+'api_func_shape_for_operator_lt',GF+'generate_function',GF+'get_binding'])
p('C153','indexing keeps shared and exclusive access apart',
'A C++ operator[] that Rust can call through a shared reference is a const method returning an lvalue reference to const, one that Rust calls through an exclusive reference is a non-const method returning an lvalue reference to non-const, and rvalue-qualified ones are never bound. IndexMut is implemented only beside a const operator[] with the same index type, which gives Index.',
'every class and set of operator[] overloads',
'overloads and types are open-ended',
[GF+'api_func_shape_for_operator_index',GF+'has_matching_cc_index',GF+'generate_standard_indexing_impl'])
p('C154','lifetimes made up for parameters are fresh',
'When by-value parameters that cannot be moved in Rust are turned into rvalue references, the search for a lifetime name always ends, each such parameter gets a lifetime different from all lifetimes in the signature and from each other, and all other parameters are unchanged.',
'every signature, parameter names and existing lifetimes',
'names may collide with generated names in unboundedly many ways',
[GF+'materialize_ctor_in_caller'])
X='support/extract_cpp_from_rust/'
p('C155','C++ blocks in a Rust file are found exactly',
'From a Rust source file the extraction tools get exactly the blocks inline_cpp!{...}, global_cpp!{...} and DO_NOT_SUBMIT_CPP_DECL!{...} (with any path in front), in order, each with its text up to the matching brace and with the right byte offsets, lines and columns; braces, names and colons inside strings and comments do not count, text after one block is searched on, and a block that is never closed is an error that names its line.',
'every token sequence of a file',
'files are unbounded; nesting and position arithmetic must be right everywhere',
[X+'parse_inline_cpp_macros.rs:parse_inline_cpp_macros',X+'parse_inline_cpp_macros.rs:check_macro_path',X+'parse_inline_cpp_macros.rs:next_macro'])
p('C156','C++ diagnostics point at the Rust source',
'Every block of every file is in the extracted header, and for each character of it the file, line and column that the C++ compiler reports are those of that character in the Rust file.',
'every list of files, block and character of a block without line directives of its own before it',
'the mapping must hold for all positions in all files',
[X+'extract_cpp_from_rust.rs:extract_global_cpp',X+'extract_cpp_from_rust.rs:extract_inline_cpp',X+'extract_cpp_from_rust.rs:main'])
p('C157','an inline_cpp! invocation calls the function made from its own body',
'The function that the expansion of inline_cpp! calls is defined in the extracted header, with the text of that invocation as parameters and body; different invocations in a file, or in files with different names, get different function names, and the names are valid identifiers.',
'every list of files and block; lines below 65536 and columns below 256',
'a hash over target, path, line and column must not collide for any pair of places',
[X+'inline_cpp_utils.rs:compute_thunk_name',X+'inline_cpp_utils.rs:Fnv1aHasher',X+'inline_cpp_macro.rs:inline_cpp',X+'extract_cpp_from_rust.rs:extract_inline_cpp'])
p('C158','malformed inline_cpp! bodies are rejected',
'The header is produced only if every inline_cpp! body has the form (parameters) -> type { ... } with white space around, and every body of that form is accepted.',
'every token sequence of a body',
'bodies are unbounded',
[X+'extract_cpp_from_rust.rs:validate_inline_cpp_syntax'])
p('C159','formatting changes only the layout of C++ bodies',
'Formatting a Rust file with embedded C++ fails only if a block is unclosed; otherwise the Rust text outside of block bodies is unchanged, the bodies are indented four columns deeper than the line the block begins in, and no character other than white space is added, lost or moved, provided that clang-format itself changes only white space and keeps the auxiliary function name in one piece.',
'every file and every clang-format',
'files are unbounded and the replacements are spliced by byte offsets',
[X+'rust_with_cpp_fmt.rs:format_rust_source',X+'rust_with_cpp_fmt.rs:run_clang_format'])
p('C160','the generated C++ asserts the exact type of a function',
'The type that the C++ compiler reads from the spelling of a parameter or result type in the generated assertion is the type declared in the header, const included, through aliases, pointers, references, slices and function pointers. (Exceptions: slices of const pointers, and function pointer types that are variadic, noexcept or return const; see the disagreements.)',
'every C++ type built from built-in types, classes, aliases, pointers, references, slices and function pointers, and every choice of imported names and lifetime options',
'types nest without bound and const, * and & bind to what is before them',
['rs_bindings_from_cc/importer.cc:ConvertQualType','rs_bindings_from_cc/importer.cc:ConvertUnattributedType','rs_bindings_from_cc/generate_bindings/rs_type_kind.rs:rs_type_kind_with_lifetime_elision','rs_bindings_from_cc/generate_bindings/cpp_type_name.rs:format_cpp_type_inner','rs_bindings_from_cc/generate_bindings/generate_function_thunk.rs:generate_function_assertion_for_identifier'])
p('C161','thunks are declared with the type of the function, references as pointers',
'The type that the C++ compiler reads from the spelling of a type in a thunk is the type declared in the header with an outermost reference replaced by a pointer and all inner types, including references inside of function pointer types, unchanged.',
'every C++ type built from built-in types, classes, aliases, pointers, references, slices and function pointers',
'types nest without bound',
['rs_bindings_from_cc/generate_bindings/cpp_type_name.rs:format_cpp_type','rs_bindings_from_cc/generate_bindings/cpp_type_name.rs:format_cpp_type_inner'])
p('C162','Rust types agree with the C++ types they stand for',
'The Rust type of a C++ type has the same structure; Rust may write through a pointer, reference or slice exactly if C++ may; a C++ pointer becomes a Rust raw pointer and never a reference; a function pointer is wrapped in Option exactly if it is a pointer and not a reference; calling conventions are kept.',
'every C++ type without variadic functions and every choice of lifetime options',
'types nest without bound, aliases add const invisibly',
['rs_bindings_from_cc/importer.cc:ConvertUnattributedType','rs_bindings_from_cc/generate_bindings/rs_type_kind.rs:rs_type_kind_with_lifetime_elision','rs_bindings_from_cc/generate_bindings/database/rs_snippet.rs:to_token_stream'])
p('C163',
'C++ types of Rust types',
'The type that the C++ compiler reads from the generated spelling of a Rust type corresponds to the Rust type in its place: integers have the same width and sign, pointers and references lead to what the Rust ones lead to and are const exactly if the Rust ones are shared (or writable where shared references are to thread-safe types), references are used only for parameters, results and constants, slices, strings, arrays, tuples, Option, Result, Vec and function pointers have the element types in order. (Exception: slices of RvalueReference; see the disagreements.)',
'every Rust type built from these constructors, every place of it in the header, and every choice of features and supported types',
'types nest without bound, and const, * and & bind to what is before them',
['cc_bindings_from_rs/generate_bindings/format_type.rs:format_ty_for_cc', 'cc_bindings_from_rs/generate_bindings/format_type.rs:format_pointer_or_reference_ty_for_cc', 'cc_bindings_from_rs/generate_bindings/format_type.rs:format_slice_ref_for_cc', 'cc_bindings_from_rs/generate_bindings/format_type.rs:treat_ref_as_ptr'])
p('C164',
'generated C++ types are well formed',
'A generated C++ type never has void as an element, template argument or parameter, never has a pointer or reference to a reference, references as elements or template arguments, or a function type other than behind a pointer or reference.',
'every Rust type and place as for C163',
'types nest without bound',
['cc_bindings_from_rs/generate_bindings/format_type.rs:format_ty_for_cc', 'cc_bindings_from_rs/generate_bindings/type_location.rs:TypeLocation'])
p('C165',
'types in thunks are the types of the Rust API',
'Every type that gets a C++ spelling also has a spelling in the generated Rust thunk, and the Rust compiler reads it as the original type with all lifetimes replaced by the static one; a spelling with lifetimes is read as exactly the original type.',
'every Rust type as for C163 whose generic types have the right number of arguments',
'types nest without bound, one-element tuples and unit results are special cases',
['cc_bindings_from_rs/generate_bindings/format_type.rs:format_ty_for_rs', 'cc_bindings_from_rs/generate_bindings/format_type.rs:format_fn_ptr_for_rs', 'cc_bindings_from_rs/generate_bindings/generate_function_thunk.rs:replace_all_regions_with_static'])
p('C166',
'overloads for usize, u32 and u64 do not collide',
'Of implementations of a trait for several types, one is rejected exactly if another one has the preferred type of its group (usize or isize for the types of 32, 64 and pointer width, also behind references, pointers, slices, arrays and in tuples), and that one is kept; order is kept. Kept implementations in a group have different C++ parameter types on every target where types of 32 and 64 bits differ, and a rejected one would have the type of a kept one on a target with pointers of 32 or 64 bits. (The last two for types without tuples; see the disagreements.)',
'every list of items, key types and target',
'targets differ in which typedefs are the same',
['cc_bindings_from_rs/generate_bindings/avoid_colliding_types.rs:avoid_colliding_types', 'cc_bindings_from_rs/generate_bindings/avoid_colliding_types.rs:get_preferred_type'])
p('C167',
'namespaces that are opened several times become one module each',
'If the numbers of declarations are different, all blocks of a namespace are in the same namespace, and the first (if it is in the target) and the last block of each namespace with bindings have bindings, the generator does not fail; every declaration of the target is exactly once in the generated code, in the module of its namespace and in the order of the headers, also if its namespace is opened several times, in other targets first, or is nested in one that is opened several times; and there is exactly one module for each namespace that has a block with bindings, which is deprecated exactly if one of the blocks is.',
'every tree of namespaces, blocks and declarations, before and after declarations of other targets',
'blocks can be split and nested in any way',
['rs_bindings_from_cc/generate_bindings/lib.rs:generate_namespace', 'rs_bindings_from_cc/generate_bindings/lib.rs:generate_item', 'rs_bindings_from_cc/generate_bindings/database/code_snippet.rs:append', 'rs_bindings_from_cc/generate_bindings/database/code_snippet.rs:merge', 'rs_bindings_from_cc/generate_bindings/database/code_snippet.rs:generated_items_to_tokens', 'rs_bindings_from_cc/ir.rs:make_ir', 'rs_bindings_from_cc/ir.rs:is_last_reopened_namespace'])
p('C168',
'thunks for Rust functions have different names',
'The name of the thunk for a Rust function determines its symbol name and the crate id, so thunks of different functions or crates never have the same name; the name is an identifier in Rust and C++ and not a reserved word. In general symbols that are different stay different when they are escaped, and an escaped symbol that is not empty is an identifier.',
'every symbol name and crate id, and every classification of characters outside ASCII',
'there are infinitely many symbols',
['common/code_gen_utils.rs:escape_non_identifier_chars', 'cc_bindings_from_rs/generate_bindings/generate_function_thunk.rs:make_thunk_name'])
p('C169',
'C++ names of Rust names are not reserved',
'A Rust name that is not written with r# gets a C++ name exactly if it is an identifier and either is not reserved in C++ or reserved words are escaped; that name is the same, with an underscore if it is reserved, and is an identifier, not a keyword of C++ and not reserved. Two names get the same C++ name only if one is reserved and the other is the same with an underscore. Every field has a name which is an identifier and not reserved; it keeps its name if that is not reserved nor the name of a method; and fields of a tuple struct get different names.',
'every name, with and without the features for escaping and for standard macros, and every set of methods',
'any string can be a name',
['common/code_gen_utils.rs:is_cpp_reserved_keyword', 'common/code_gen_utils.rs:is_cpp_nonportable_word', 'common/code_gen_utils.rs:unkeyword_cpp_ident', 'common/code_gen_utils.rs:format_cc_ident', 'cc_bindings_from_rs/generate_bindings/generate_struct_and_union.rs:analyze_field'])
p('C170',
'Rust identifiers for C++ names and targets',
'A name gets a Rust identifier exactly if it is an identifier after hyphens are replaced by underscores and is none of crate, self, super, Self and _; the identifier is accepted by Rust (written with r# if it is a keyword) and stands for the name with hyphens replaced. Different names without hyphens get different identifiers, and every C++ identifier that is imported, except _, gets an identifier with its name.',
'every name without #, and every list of keywords that contains the keywords of Rust (except the five that are special cases)',
'any string can be a name, and which keywords the parser knows depends on its version',
['common/code_gen_utils.rs:try_make_rs_ident', 'common/code_gen_utils.rs:hyphen_to_underscore', 'rs_bindings_from_cc/importer.cc:GetTranslatedName'])
p('C171',
'thunks for C++ functions have different names',
'The name of the thunk for a C++ function is an identifier in C++ and Rust. If mangled names consist of characters of identifiers and do not begin like a hash, two functions of a target have thunks with the same name only if they have the same mangled name and the same hash; and a function outside class templates whose mangled name is unique gets a thunk named after the mangled name alone.',
'every list of functions with their mangled names and hashes',
'lists are unbounded',
['rs_bindings_from_cc/generate_bindings/generate_function_thunk.rs:thunk_ident', 'rs_bindings_from_cc/generate_bindings/generate_function_thunk.rs:ident_fragment_from_mangled_name', 'rs_bindings_from_cc/generate_bindings/generate_function_thunk.rs:compute_disambiguator_hash', 'rs_bindings_from_cc/generate_bindings/database/db.rs:has_conflicting_mangled_name'])
p('C172',
'C++ pointer types given by users are recognised',
'A pointer to something that is not a pointer is recognised as a pointer, and as a pointer to const exactly if const is written before or after the pointee; what is not a pointer is not taken for one. (Pointers to pointers and const pointers: see the disagreements.)',
'every C++ type made of tokens, const and *',
'names of types can be arbitrary lists of tokens',
['common/code_gen_utils.rs:is_cpp_pointer_type'])
p('C173',
'Rust iterators in C++ loops',
'C++ code that uses a Rust iterator through the adapter sees the results of next() in order, one per increment; dereferencing gives the element until the code itself moves it out, and fails only where Rust has returned None. next() is called exactly once more than the adapter is incremented, a C++ loop up to the end visits the same elements as a Rust for loop, and every element is dropped or handed over exactly once.',
'every Rust iterator, and every sequence of operations on the adapter',
'iterators can be infinite, not fused and have any state; sequences of operations are unbounded',
['support/rs_std/iterator_adapter.h:IteratorAdapter'])
p('C174',
'cc_template! finds the class it asks for',
'The instantiations requested from the C++ side are exactly those of the cc_template! invocations in the scanned sources, also nested in groups, each once and in an order that does not depend on hashing. If the canonical C++ spelling of each requested class is the text in the invocation, each invocation is expanded to the Rust name of the class that it names, also if the macro prints tokens with other spaces than the scanner; and only requested classes can be named. (If the canonical spelling has a space: see the disagreements.)',
'every list of files as trees of tokens, every order of hash sets, every printer that differs only in spaces',
'token trees nest without bound',
['rs_bindings_from_cc/collect_instantiations.rs:find_cc_template_calls', 'rs_bindings_from_cc/collect_instantiations.rs:collect_instantiations_impl', 'support/cc_template/cc_template_impl.rs:get_instantiation_struct_name', 'rs_bindings_from_cc/generate_bindings_and_metadata.cc:FindInstantiationsInNamespace', 'rs_bindings_from_cc/ir_from_cc.cc:IrFromCc'])
p('C175',
'Targets on the command line',
'The descriptions of targets given to rs_bindings_from_cc are accepted exactly if no label, header or feature in them is empty; then a header belongs to the alphabetically first of all targets that list it (to none only if none does), each target has exactly the features listed for it, wherever, and the last crate name given for it; the order of the descriptions is irrelevant to headers and features. The command line is accepted exactly if what is required is present, and then each public header belongs to a target that lists it.',
'every list of descriptions, with any headers, features and repeated targets, and all other flags',
'lists are unbounded and conflicts can be between any number of targets',
['rs_bindings_from_cc/cmdline.cc:ParseTargetArgs', 'rs_bindings_from_cc/cmdline.cc:Create'])
p('C176',
'Arguments from files and about targets',
'Arguments written to a file one per line, with backslashes before backslashes and line ends, are read back as they are, and take the place of @file on the command line; other arguments are unchanged. All --target_to_arg before -- are replaced, at the place of the first, by one --target_args with the list of the values in order, and all other arguments stay in order. (Three corner cases: see the disagreements.)',
'every list of arguments with any characters, every file',
'arguments are arbitrary strings and lists of them are unbounded',
['rs_bindings_from_cc/cmdline.cc:ExpandParamfiles', 'rs_bindings_from_cc/cmdline.cc:PreprocessTargetArgs'])
p('C177',
'Error reports are complete',
'Whatever a generator does inside nested item scopes, the report contains each error exactly once, under the innermost item in which it was found and in order (lists of errors one by one, errors with context as their root cause), the categories added to each item, and an entry with its name (and the unique name and target with which it was entered first) for each item, with errors or without; and nothing else. It panics exactly if two items have the same number but different names. All fatal errors are in the string that is taken, and not taking it panics.',
'every tree of scopes with any errors, categories and repeated items',
'scopes, lists of errors and contexts nest without bound',
['common/error_report.rs:ErrorReport', 'common/error_report.rs:ItemScope', 'common/error_report.rs:FormattedError', 'common/error_report.rs:FatalErrors'])
p('C178',
'Error reports do not depend on unstable details',
'The messages in a report are the same whatever line and column rustc prints in identifiers of definitions and whatever hash it prints for a crate, wherever in the message; hashes are left out and other messages are unchanged. (Messages without a format string, and hashes that appear only when another is left out: see the disagreements.)',
'every message with such details anywhere, every set of digits',
'messages are arbitrary strings',
['common/error_report.rs:hide_unstable_details', 'common/error_report.rs:FormattedError'])
p('C179',
'ABI types and expressions in generated code',
'For the ABI of every bridged type, however nested, the Rust type in generated code is a type and the Rust expression an expression of that type, the same holds for C++, and the Rust and the C++ type encode values in the same way: pointers of equal constness, slices as slices, pairs and user-defined ABIs part by part. Paths of ABIs in annotations appear in the code as they are written. (C++ references and const pointers to pointers: see the disagreements.)',
'every nesting of pairs, options, user-defined ABIs, strings, messages, pointers and given types',
'ABIs nest without bound',
['common/crubit_abi_type.rs:CrubitAbiType', 'common/crubit_abi_type.rs:CrubitAbiTypeToRustTokens', 'common/crubit_abi_type.rs:CrubitAbiTypeToRustExprTokens', 'common/crubit_abi_type.rs:CrubitAbiTypeToCppTokens', 'common/crubit_abi_type.rs:CrubitAbiTypeToCppExprTokens', 'common/crubit_abi_type.rs:FullyQualifiedPath'])
p('C180','The default nullability of a file is that of its first valid pragma',
"After any sequence of `#pragma nullability file_default` directives in a translation unit, the default nullability of a file is what the first directive in it that says `nullable` or `nonnull` says, and unspecified if there is none; directives in other files, later directives and malformed ones never change it. A malformed directive in a file gets exactly one warning that it is invalid, a well-formed one after another in its file exactly one that it is repeated, in order, and no other directive gets any.",
'every sequence of directives over any files, with any tokens',
'sequences of directives over files are unbounded and their effect depends on the history',
['nullability/pragma.cc:HandlePragma', 'nullability/pragma.cc:parseNullabilityKind', 'nullability/type_nullability.cc:TypeNullabilityDefaults::get'])
p('C181','Source filters depend only on what is asked about',
"Whatever a location filter was asked before, its answer for a location is: always yes for kAllowAll; not in the main file for kAllowAllButNotMainFile; for kMainFileOrHeader, in the main file, or in a file of the same directory with the same stem as the main file or with the stem of which the main file is a test (`_test`, `-test`, `_unittest`, `-unittest`); for kMainHeaderButNotMainFile the same without the main file; an invalid location is refused by the last two. The inference tool analyzes exactly the declarations whose file passes -file-filter and whose qualified name passes -name-filter, a leading `-` negating.",
'every sequence of questions, every set of files, every pattern matcher',
'caches make answers depend on history unless proved otherwise',
['nullability/loc_filter.cc:InMainFileOrHeader', 'nullability/loc_filter.cc:AllButMainFileFilter', 'nullability/loc_filter.cc:getLocFilter', 'nullability/inference/infer_tu_main.cc:DeclFilter'])
p('C182','Replaced macros keep their meaning under another name',
"In a translation unit that includes the header of replacements once, a macro the header defines is, after the code defines or undefines it in any way, defined exactly when it would be without the tool, and then with the header's definition; the code's last definition of it is the definition of the macro with the reserved prefix, to which the header's expands. Every macro that the header does not define or the code does not touch is what it would be without the tool.",
'every sequence of includes, definitions and undefinitions before, in and after the header',
'histories of directives are unbounded',
['nullability/inference/replace_macros.cc:ReplaceMacrosCallbacks::FileChanged', 'nullability/inference/replace_macros.cc:ReplaceMacrosCallbacks::MacroDefined', 'nullability/inference/clang_tidy_nullability_replacement_macros.h:CHECK'])
p('C183','Documentation comments arrive line for line',
  'The comment of a C++ declaration that reaches the bindings consists of exactly the lines of the original comment that are not clang-tidy suppressions (blanks and slashes, a NOLINT word, perhaps a parenthesis), in order; it is absent exactly if nothing is left. In the Rust bindings the documentation is the comment, a "# Safety" section and the source location as paragraphs, every line led by one blank, and is present exactly if there is one of the three; in the C++ bindings it is the Rust documentation and the location as paragraphs. Golden tests that do not ask for locations get none.',
  'every comment text, safety text, location and mode',
  'the regular expression and the splitting are defined on all texts; tests have a handful of comments',
  ['rs_bindings_from_cc/importer.cc:Importer::GetComment','rs_bindings_from_cc/importer.cc:ShouldKeepCommentLine','rs_bindings_from_cc/generate_bindings/generate_comment.rs:generate_doc_comment','cc_bindings_from_rs/generate_bindings/lib.rs:generate_doc_comment'])
p('C184','Source locations in bindings',
  'The location text names the file (without a leading "./") and line where the declaration is spelled and, for a declaration from a macro, below it where the macro is expanded. It determines the file (up to a leading "./") and the line. For no location the importer writes - in a macro or not - does the generator of Rust bindings find byte offsets in it, unless a path has a bracket: captures in Kythe metadata get a stub instead. Were the offsets there, the file name found would include the words "Generated from: ".',
  'every spelling and expansion location; every file name without ";", every numeral',
  'a test of the parser uses a text that the importer never writes; that none of its texts matches is a statement on all of them',
  ['rs_bindings_from_cc/importer.cc:Importer::ConvertSourceLocation','rs_bindings_from_cc/generate_bindings/generate_comment.rs:parse_extended_source_loc'])
p('C185','Includes of generated C++',
  'The #include lines of generated C++ do not depend on the order in which bindings ask for headers or on how often: every header asked for is there once, C++ headers first, then headers of the user, after one empty line exactly if there are both, then support headers and re-exported ones, each group sorted. A path in angle brackets becomes an include in angle brackets and every other path one in quotes. A compiler reads the path that was meant from a line if no character of it is escaped in literals, and another path (with the escapes) otherwise.',
  'every list of includes asked for; every path',
  'order independence and exactly-once range over all sequences of requests',
  ['common/code_gen_utils.rs:CcInclude','common/code_gen_utils.rs:format_cc_includes'])
p('C186','Annotations are read from all declarations alike',
  'An entity has an annotation, with the arguments of the first declaration that is annotated, exactly if some declaration is annotated, no declaration twice, and all annotations of the name on all declarations agree argument by argument: the same number of the same type, the same string literal, or objects of the same class. It has none exactly if no declaration is annotated; otherwise reading is an error. So reading does not depend on the order of the declarations. A flag is set exactly if it is there, nowhere with arguments; string arguments are exactly the literals, on every declaration; a type has the annotation that is around it exactly once; a truth value is read exactly from a constant of type bool.',
  'every list of redeclarations with any annotations and arguments of any kind',
  'declarations, annotations and arguments are unbounded in number; agreement has to be an equivalence for comparing with the first to suffice',
  ['common/annotation_reader.cc:GetAnnotateAttrArgs','common/annotation_reader.cc:HasAnnotationWithoutArgs','common/annotation_reader.cc:GetAnnotationWithStringArgs','common/annotation_reader.cc:GetTypeAnnotationSingleDecl','common/annotation_reader.cc:GetExprAsBool'])
p('C187','Format strings given at run time',
  'A format string is accepted exactly if it consists of characters other than braces, doubled braces, and known names in braces, perhaps with blanks around them; it can be read in one way only. Formatting copies the characters, halves the doubled braces and puts for each name what is given for it, uninterpreted, without ever panicking; a text whose braces are doubled stands for itself. Of all other format strings the first thing out of order is reported: a closing brace without an opening one, an opening one that is not closed, or the unknown name. Two format strings give equal formats exactly if they differ in blanks around names only.',
  'every format string, every list of names and of what is given for them',
  'format strings come from the command line; a grammar is a statement on all strings',
  ['common/dyn_format.rs:Format::parse_with_metavars','common/dyn_format.rs:Format::format'])
p('C188','Casts between forward declarations and complete types',
  'cpp_coerce compiles from one type to another exactly if both are the same type of C++: declared or defined under one name; pointers or references that allow the same (reading, or writing) for the same lifetime to the same type, of whatever kind (&, Pin<&>, CRef; &mut, Pin<&mut>, CMut); arrays of one length, or slices, of the same type (a slice counts as an array of usize::MAX elements). So casts can be undone, any chain of casts leads no further than one cast, no chain turns one complete type into another, removes const, changes a lifetime or gives an unpinned &mut to a forward declaration or another type that is not Unpin. The value arrives byte for byte; a cast panics exactly if sizes differ, which for pointers happens only between slices and arrays of usize::MAX elements, and never between types without forward declarations by value and such arrays. (Found false of the code without that exception: vectors of references to slices can be cast, unchecked, to vectors of references to such arrays.)',
  'all types built from declarations, definitions, pointers, references, arrays and slices; all chains of casts',
  'which casts compile is a statement on all pairs of types',
  ['support/forward_declare.rs:CppType','support/forward_declare.rs:CppCoerce','support/forward_declare.rs:Incomplete','support/forward_declare.rs:unsafe_define','support/forward_declare_proc_macros.rs:symbol'])
p('C189','Collected errors are not lost',
  'Whatever calls are made on a collection of errors, consolidate returns exactly the errors given since the last call that handed errors out or threw them away, in order, and Ok exactly if there are none; is_empty says whether there are none; consume_error and consolidate_on_err return the value of a success unchanged, the latter for an error the errors collected followed by it, and never panics. Dropping the collection panics exactly if there are errors left, and names them all. If discard is never called, each error given is handed out or named by the panic exactly once, in order.',
  'every history of calls',
  'histories are unbounded',
  ['common/errors.rs:Errors::add','common/errors.rs:Errors::consume_error','common/errors.rs:Errors::consolidate','common/errors.rs:Errors::consolidate_on_err','common/errors.rs:Errors::discard','common/errors.rs:Errors::drop'])
