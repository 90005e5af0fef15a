P=[]
def p(id,title,statement,quantifier,why,anchors,status='partial',theorems=(),note=''):
    P.append(dict(id=id,title=title,statement=statement,quantifier=quantifier,why=why,anchors=list(anchors),status=status,theorems=list(theorems),note=note))
T='cc_bindings_from_rs/toposort.rs'
p('C01','toposort neither loses nor duplicates a node',
 'When toposort returns, every distinct input node appears exactly once in the concatenation of `ordered` and `failed`, and nothing else appears there.',
 'every node list (with or without duplicates), every dependency list over those nodes, every comparison function, every hash-map iteration order',
 'graphs are unbounded; a test samples a few graphs and one hash seed',[T+':toposort',T+':TopoSortResult'])
p('C02','ordered respects every dependency',
 'For every dependency (p, s), if s is in `ordered` then p is in `ordered` too and occurs strictly before s.',
 'every node list, dependency list (duplicates and self-loops included), comparison function, iteration order','unbounded graphs and shapes',[T+':toposort'])
p('C03','failed is exactly the set of nodes that are on, or downstream of, a dependency cycle',
 'A node is in `failed` iff some node lying on a dependency cycle reaches it through zero or more dependencies; in particular `failed` is empty iff the dependencies are acyclic.',
 'every node list and dependency list','needs reachability over arbitrary graphs',[T+':toposort'])
p('C04','ordered is the greedy best-preference topological order',
 'At each position, `ordered` holds the most preferred node (ties: earliest in the input) among all nodes whose predecessors have all already been emitted; consequently if the preferred order is itself a valid topological order, `ordered` is the input sorted by it.',
 'every graph and every total preorder as preference','quantifies over all graphs and all comparison functions',[T+':toposort',T+':HeapNode::cmp'])
p('C05','toposort output does not depend on hash-map iteration order',
 'For the same nodes, dependencies and preference, `ordered` is the same whatever order the hash map enumerates its entries; `failed` is the same too when the preference is a strict total order on the failed nodes (with ties it may vary: recorded as a disagreement).',
 'every pair of enumeration orders','a process sees one random seed',[T+':toposort'])
p('C06','toposort panics exactly when a dependency names an unknown node',
 'toposort panics iff some dependency has a successor or predecessor that is not in `nodes`; none of its other unwraps or assertions can fire.',
 'every node list and dependency list','absence of panics over all inputs',[T+':toposort'])
B='support/crubit_bridge_rust/src/bridge.rs'; BH='support/bridge.h'
p('C07','Rust bridge encode/decode round-trips',
 'Encoding any value with any ABI schema built from transmute, tuple and option, then decoding the buffer with the same schema, yields the value back, whatever the buffer held before.',
 'every schema (any nesting), every value of the schema, every initial buffer content','schemas are an infinite recursive family',[B+':CrubitAbi',B+':internal::encode',B+':internal::decode'])
p('C08','C++ and Rust agree on the bridge byte layout',
 'For every schema, the bytes written by the C++ encoder are the bytes written by the Rust encoder, so a value encoded on either side decodes to the same value on the other (C++ pairs correspond to two-element tuples).',
 'every schema and value','cross-language agreement over all nestings',[B+':CrubitAbi',BH+':TupleAbi',BH+':PairAbi',BH+':OptionAbi'])
p('C09','bridge encoding stays within SIZE',
 'Encoding or decoding through a buffer of SIZE bytes never underflows the remaining-byte counter and never touches a byte outside the first SIZE bytes of the buffer.',
 'every schema and value, every surrounding memory','memory safety of a recursive family',[B+':Encoder',B+':TransmuteAbi',BH+':Encoder::Next'])
p('C10','boxed values are freed exactly once and cross intact',
 'A value encoded through the C++ boxed ABI occupies exactly one heap cell until it is decoded; decoding returns that value and releases exactly that cell, leaving all other live cells untouched.',
 'every heap state, schema nesting and value','leak freedom over all nestings',[BH+':BoxedAbi'])
M='common/memoized.rs'
p('C11','memoised queries return the unmemoised value on acyclic queries',
 'For any query whose recursive dependencies are well-founded, calling it through the database returns exactly the value the plain recursive function would compute, regardless of which other queries (even cyclic ones) were made before.',
 'every family of query functions, every history of earlier calls','all call histories and all functions',[M+':query_group',M+':internal_memoized_call'])
p('C12','each acyclic query body runs at most once',
 'Over any history of calls in which no cycle is hit, the body of a query function is executed at most once for each argument value.',
 'every history of calls','all histories',[M+':internal_memoized_call'])
p('C13','values tainted by a cycle default are never cached while the cycle is open',
 'A result is stored in the cache only when no cycle default that it may have used belongs to a call still in progress; in particular a cached value is a function of the cache and not of the call stack it was computed under.',
 'every family of query functions and every history','all cyclic call graphs',[M+':internal_memoized_call'])
p('C14','cycle bookkeeping is balanced and the cache is stable',
 'Whenever a top-level call returns, no query is marked active, the open-cycle counter is zero, the cache has only grown, and repeating the call returns the same value without running any body.',
 'every family of query functions and every history','all histories',[M+':internal_memoized_call',M+':query_group'])
p('C15','cyclic queries terminate with the default',
 'If the set of argument values is finite, every call to a break_cycles query terminates, and a query that asks only for itself returns exactly the declared default.',
 'every finite family of total query functions','termination',[M+':query_group'])
I='common/interner.rs'
p('C16','interned handles are equal iff the values are equal',
 'For handles produced by one interner over any sequence of intern calls, two handles compare equal iff the values they were created from are equal, and dereferencing a handle always yields the value interned. (Found false of the code for empty strings and slices, because handles compare thin pointers; true for all non-empty values.)',
 'every sequence of intern calls','all histories',[I+':Interner::intern',I+':Interned'])
p('C17','interning is idempotent and allocation-minimal',
 'Re-interning a value returns the earlier handle; the arena holds exactly one allocation per distinct value interned so far, and old handles stay valid.',
 'every sequence of intern calls','all histories',[I+':Interner::intern_slice',I+':Interner::intern_str'])
L='support/rs_std/lossy_formatter.rs'
p('C18','lossy formatting is independent of how the bytes are chunked',
 'Writing a byte sequence in any sequence of slices, single bytes and fills and then flushing produces the same text as lossily decoding the whole concatenation at once, when the underlying writer never fails.',
 'every byte string, every way to split it into write_slice / write_byte / write_fill calls','all splits of all byte strings',[L+':LossyFormatter'])
p('C19','valid UTF-8 passes through unchanged',
 'If the concatenation of everything written is valid UTF-8 the output text is exactly that text and nothing stays buffered.',
 'every valid UTF-8 string and every split of it','all strings',[L+':LossyFormatter::write_slice'])
p('C20','the formatter never panics and buffers at most three bytes',
 'No internal assertion, expect or index in the formatter can fail; after any history the pending buffer holds a proper prefix (at most three bytes) of a well-formed multi-byte sequence.',
 'every history of operations and every writer behaviour','all histories',[L+':IncompleteUtf8'])
p('C21','progress counts report write errors faithfully',
 'write_slice and write_fill return a count equal to the input length iff no underlying write failed, and never more than the input length; write_fill is equivalent to repeated write_byte even when the writer fails.',
 'every writer failure point and every history','all failure points',[L+':write_slice',L+':write_fill'])
F='common/crubit_feature.rs'
p('C22','feature lists behave as sets',
 'The feature set obtained from a list of names does not depend on the order or multiplicity of the names, and a list containing an unknown name is rejected.',
 'every list of names','all lists',[F+':SerializedCrubitFeatures',F+':named_features'])
p('C23','no_assume_lifetimes always wins',
 'After resolution, the no_assume_lifetimes marker never appears; assume_lifetimes is enabled iff some listed name enables it and no listed name disables it; every other feature is enabled iff some listed name enables it.',
 'every list of names','all lists',[F+':SerializedCrubitFeatures::resolved'])
p('C24','feature short names and the all/supported bundles are consistent',
 'Each feature is enabled by its own short name, distinct features have distinct short names, a single short name other than the bundles enables only its feature, and `supported` brings `types`.',
 'every feature','must track the whole table',[F+':CrubitFeature::short_name',F+':named_features'])
Z='rs_bindings_from_cc/bazel_label.rs'
p('C25','the C++ identifier of a label is collision free and well formed',
 'convert_to_cc_identifier maps different label strings to different identifiers, and every result is a valid C++ identifier (starts with underscore, only [A-Za-z0-9_]).',
 'every label string','injectivity over all strings',[Z+':convert_to_cc_identifier'])
p('C26','label equality, ordering and hashing agree',
 'Label equality is an equivalence relation, compare returns Equal exactly for equal labels, is a total order, and equal labels hash the same components; //a/b and //a/b:b are equal.',
 'every pair/triple of labels','all labels',[Z+':BazelLabel'])
p('C27','escaped crate names are usable and never shadow core',
 'target_name_escaped only contains ASCII alphanumerics and underscores, never starts with a digit, is never `core`, and is empty only if the target name is empty.',
 'every label string','all strings',[Z+':target_name_escaped'])
H='support/rs_std/char.h'; HC='support/rs_std/char.cc'
p('C28','rs_std::char_ accepts exactly the Unicode scalar values',
 'from_u32 succeeds iff the argument is at most 0x10FFFF and not a surrogate, and the value converts back to the same integer; comparisons agree with the integer order.',
 'every 32-bit integer','2^32 inputs',[H+':char_::from_u32'])
p('C29','char_::encode_utf8 emits the well-formed UTF-8 encoding',
 'For every char_, encode_utf8 writes exactly len_utf8() bytes, they are the unique well-formed UTF-8 encoding of the scalar (decoding yields it back), bytes beyond are untouched, and too-small buffers are rejected.',
 'every scalar value and every buffer','all scalars',[HC+':encode_utf8',H+':len_utf8'])
N='support/cc_import/merged_namespaces.rs'
p('C30','merged namespace tree contains every namespace of every dependency and no other',
 'After merging any sequence of target hierarchies, a namespace path exists in the merged tree iff some merged target declares it.',
 'every list of hierarchies of any depth','all trees',[N+':MergedNamespaceHierarchy::merge',N+':add_child'])
p('C31','which targets a merged namespace re-exports',
 'After merging a sequence of target hierarchies, a target is listed at a namespace path iff it declares the path and either the path is top level, or the target declares something inside it, or no target merged earlier declares it. (The intended rule, that every declaring target is listed, is false of the code for leaf namespaces at depth two or more: a witness is proved.)',
 'every list of hierarchies of any depth','all trees',[N+':MergedNamespace::add_child',N+':to_use_stmts'])
