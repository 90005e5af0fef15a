"""id -> (status, namespace, theorem names, note)"""
C={}
def c(id,status,ns,thms,note=''): C[id]=dict(status=status,theorems=[('Verif.'+ns+'.'+t) for t in thms.split()],note=note)
T='Toposort'
c('C01','proved',T,'toposort_partition')
c('C02','proved',T,'toposort_respects_deps')
c('C03','proved',T,'toposort_failed_iff toposort_failed_empty_iff')
c('C04','proved',T,'toposort_greedy toposort_keeps_preferred')
c('C05','proved',T,'toposort_ordered_deterministic toposort_deterministic toposort_failed_sorted toposort_failed_order_depends_on_hash','with ties in the preference the order of `failed` does depend on the hash order: proved as a witness')
c('C06','proved',T,'toposort_panics_iff')
B='Bridge'
c('C07','proved',B,'rust_roundtrip')
c('C08','proved',B,'cpp_rust_same_size cpp_to_rust rust_to_cpp tuple_decode_needs_left_to_right','Rust to C++ assumes clang evaluates make_tuple arguments left to right; the last theorem shows the assumption is needed')
c('C09','proved',B,'rust_encode_in_bounds rust_decode_in_bounds cpp_encode_in_bounds cpp_decode_in_bounds')
c('C10','proved',B,'boxed_roundtrip cpp_encode_succeeds')
M='Memo'
c('C11','proved',M,'acyclic_query_correct acyclic_cache_correct cyclic_value_depends_on_history','the last theorem shows the restriction to acyclic queries is needed')
c('C12','proved',M,'bodies_run_at_most_once cached_bodies_never_rerun')
c('C13','proved',M,'cached_result_is_untainted cached_result_independent_of_stack')
c('C14','proved',M,'top_level_balanced calls_are_balanced bookkeeping_never_panics')
c('C15','proved',M,'finite_queries_terminate self_cycle_returns_default returned_values_closed')
c('C32','proved','Memo.DbIndex','databases_isolated databases_257_collide','isolation holds up to 256 databases per process; with 257 it is false of the code (u8 index wraps), proved as a witness')
I='Interner'
c('C16','partial',I,'interned_eq_iff_partial interned_deref interned_fat_eq_iff empty_value_collides','the full statement is false of the code for empty strings/slices (thin-pointer comparison; witness empty_value_collides); proved for all non-empty values, and for fat-pointer comparison')
c('C17','proved',I,'interned_minimal intern_idempotent old_handles_stay_valid')
L='Lossy'
c('C18','proved',L,'chunking_irrelevant splits_agree decoding_exists_unique')
c('C19','proved',L,'valid_passes_through')
c('C20','proved',L,'never_panics')
c('C21','proved',L,'count_faithful write_fill_eq_write_byte output_is_prefix')
R='RsChar'
c('C28','proved',R,'from_u32_iff reachable_iff cmp_iff')
c('C29','proved',R,'encode_utf8_spec encode_utf8_injective four_bytes_suffice')
F='Features'
c('C22','proved',F,'rejected_iff order_and_multiplicity_irrelevant')
c('C23','proved',F,'resolved_features only_marker_disables')
c('C24','proved',F,'short_names_consistent supported_brings_types')
BL='Label'
c('C25','proved',BL,'cc_identifier_injective cc_identifier_valid equal_labels_may_differ_in_identifier','injectivity is on the label text; the last theorem shows that two spellings of the same target get different identifiers')
c('C26','proved',BL,'equality_order_hash_agree long_form_eq short_form_eq')
c('C27','proved',BL,'escaped_name_ok escaped_name_keeps escaped_name_not_injective','the crate name is a legal identifier, but distinct target names can collide: proved as a witness')
N='Namespaces'
c('C30','proved',N,'merged_paths merged_paths_of_collected')
c('C31','proved',N,'merged_labels_exact merged_labels_sound reopened_leaf_label_lost','exact characterisation of what the code does; the last theorem is a witness that a re-opened nested leaf namespace loses the target label')
c('C33','proved',N,'collect_exact collect_terminates')
S='StrRef'
c('C34','proved',S,'is_utf8_iff from_utf8_iff')
c('C35','proved',S,'slice_never_null slice_span_roundtrip slice_eq_iff')
c('C36','proved','Alias','has_mutable_aliasing_iff check_passes_iff arguments_valid','the last theorem shows that the arguments the bindings convert meet the hypothesis of the first two')
c('C37','proved','Movable','movable_behaves destroyed_exactly_once leak_only_from_full_slot slot_move_is_ub','the last theorem records a disagreement: the move constructor of Slot assigns to uninitialized storage')
NM='NullMerge'
c('C38','proved',NM,'conclusion_order_independent merge_evidence_perm samples_sound conclude_deterministic merge_evidence_deterministic grouping_by_slot samples_depend_on_order','the last theorem records that which samples are kept depends on the order, although merge.h calls merging commutative')
c('C39','proved',NM,'inference_decision wraparound_forgets softRules_spec')

NF='NullFlow'
c('C40','proved',NF,'verdict_exact nonnull_sound nullable_sound nullptr_nullable_iff_reachable contradictory_constraints_nullable','clang\'s dataflow contexts and solver are modelled by contract; the last theorem records a disagreement')
c('C41','proved',NF,'join_keeps_runs join_adds_nothing join_nonnull_iff join_keeps_nullable join_mixes_paths','the last theorem records a disagreement')
c('C42','proved',NF,'widen_sound widen_unchanged widen_changes_bounded top_does_not_stay_top two_pointers_never_settle','the last two theorems record a disagreement')
c('C43','proved',NF,'source_verdict first_source_wins symbolic_source branch_runs null_check')

LT='Lifetimes'
c('C44','proved',LT,'lifetimes_distinct variable_ids_wrap','the last theorem records a disagreement')
c('C45','proved',LT,'names_enumerate naming_terminates generated_name_is_first_unused lookups_inverse declared_is_fresh lookup_after rebind_to_used_lifetime generated_static','the last two theorems record disagreements')
c('C46','proved',LT,'substitute_terminates add_redirects add_composes')

c('C47','proved',LT,'outliving_exact constraints_join')
c('C48','proved',LT,'Lattice.join_facts Lattice.join_effect Lattice.join_error Lattice.joins_change_finitely Lattice.equality_exact Lattice.points_to_updates Lattice.expr_lookup Lattice.equality_misses_change Lattice.double_parens_fatal','the last two theorems record disagreements')
c('C49','proved',LT,'apply_spec apply_sound apply_order_independent')
c('C50','proved',LT,'callable_constraints_exact callable_projection_exact isomorphic_iff static_isomorphic_to_variable','the last theorem records a disagreement')
c('C51','proved',LT,'constrain_sound constrain_all_sound override_static_lost','the last theorem records a disagreement; static lifetimes in the base are outside the soundness theorem')
DF='Defaults'
c('C52','proved',DF,'binding_context_scopes names_never_reused')
c('C53','proved',DF,'lifetimes_declared unknown_result unknown_parameter nested_annotation_undeclared','the last three theorems record disagreements')
c('C54','proved',DF,'defaults_function undeclared_annotation_captured','the last theorem records a disagreement')
c('C55','proved',DF,'lifetimebound_unifies lifetimebound_conflict lifetimebound_accepted record_names_agree lifetimebound_view nested_records_disagree','the last theorem records a disagreement; constructors are covered by C53 only')
LY='Layout'
c('C56','proved',LY,'struct_layout')
c('C57','proved',LY,'union_layout union_bitfields','the last theorem records a disagreement')
c('C58','proved',LY,'class_layout threadSafe_layout empty_first_field only_empty_fields empty_aligned_field zero_width_bitfield','the last four theorems record disagreements')
c('C59','proved','CcLayout','struct_layout packed2_wrong','the last theorem records a disagreement')
c('C60','proved','CcLayout','union_layout enum_layout union_opaque_wrong enum_opaque_wrong','the last two theorems record disagreements')
c('C61','proved','CcLayout','variant_bytes')
c('C62','proved','SharedPtr','shared_ptr_safe pointee_alive owned_not_destroyed destroyed_once no_leak released_iff','libc++ reference counts are modelled as environment; example_run is a non-trivial reachable state')
c('C63','proved','SharedPtr','use_count_exact object_owners unique_objects lock_iff drops_finish')
c('C64','proved','Vector','vector_is_list methods set_len_poisons','the last theorem records a disagreement; std Vec is modelled as environment, in steps')
c('C65','proved','Vector','elements_dropped_once memory_freed')
c('C66','proved','Vector','cpp_sees_vector')
c('C67','proved','Vector','panic_harmless panic_after_growth panic_double_drop','the last two theorems record disagreements')
c('C68','proved','Ctor','memory_respected pinned then_leaks','the last theorem records a disagreement')
c('C69','proved','Ctor','dropped_once clear_drops_twice','the last theorem records a disagreement')
c('C70','proved','Ctor','box_result replace_result reconstruct_result run_eval')

c('C71','proved','RsStd','option_agrees_with_rust big_endian_option_disagrees','the last theorem records a disagreement')
c('C72','proved','RsStd','option_lifetimes option_live_iff')
c('C73','proved','RsStd','result_agrees_with_rust')
c('C74','proved','RsStd','result_lifetimes result_live assign_own_error_uses_destroyed_value','the last theorem records a disagreement')

c('C75','proved','DynCallable','behaviour_eq self_move_is_ub','the last theorem records a disagreement')
c('C76','proved','DynCallable','well_owned all_released')
c('C77','proved','DynCallable','checked_use_is_defined spent_reports_value spent_to_rust_is_ub','the last two theorems record a disagreement')
c('C78','proved','FnCall','call_delivers plain_call_is_call composable_in_tuple_confused composable_in_tuple_result demo_good demo_call','composable_in_tuple_confused shows the check in format_type.rs is needed')
c('C79','proved','FnCall','call_ownership result_moves droppable_by_value_released_twice','the last theorem records a disagreement')
c('C80','proved','CcCall','call_correct Examples.many_ok Examples.many_returns Examples.eq_ok Examples.virt_ok Examples.ctor_ok')
c('C81','proved','CcCall','call_correct arguments_released_once')
c('C82','proved','CcCall','declaration_matches_definition')
c('C83','proved','CcCall','unrun_constructor')
c('C84','proved','Future','behaviour boxes')
c('C85','proved','Future','futures_accounted futures_end_once')
c('C86','proved','Future','wakers_accounted wakers_alive')
c('C87','proved','Future','refcounted_wakers')
c('C88','proved','Special','values available transparent_default_drops_garbage transparent_clone_sees_garbage','the last two theorems record a disagreement')
c('C89','proved','Special','one_owner all_dropped')
c('C90','proved','Header','header_compiles detailsOk0 run0','DetailsOk: text after all definitions forward-references only items of this header')
c('C91','proved','Header','header_complete rust_complete')
c('C92','proved','Header','header_deterministic header_text_deterministic w0_same','sort keys are assumed to tell items and specializations apart')
c('C93','proved','Header','header_fails_iff w2_none w0_needs')
c('C94','proved','Header','namespaces_kept formatPieces_congr')
c('C95','proved','Paths','paths_end paths_fuel paths_valid paths_complete paths_once crate1_run','binary_search and kmerge are given by their documented behaviour; rustc answers are inputs')
c('C96','proved','Paths','canonical_best canonical_shortest canonical_documented aliases_sorted not_lexicographic hidden_chosen','the last two theorems record disagreements: module names are compared by interner index, and a module first found through a hidden module is never visited again')
c('C97','proved','Paths','global_members global_owner defining_crate order_irrelevant tie_by_order merge_unsorted','the last two theorems record disagreements')
c('C98','proved','Paths','header_names defined_once maps3_headers')
c('C99','proved','NullTy','reports_are_the_slots vector_length spellings_correspond vector_unique count_is_slots locs_correspond canon_scoped Example.target_scoped Example.target_vector Example.too_many_slots','the last theorem records a disagreement: without the scoping condition the code can give a slot too many')
c('C100','proved','NullTy','annotation_changes_only_the_head annotation outer_wins unspecified_around_annotation alias_is_annotation alias_argument typedef_default unannotated_default unannotated_pragma unknown_valid_iff given_parameter Example.unspecified_hides_nullable','the last theorem records a disagreement')
c('C101','proved','NullTy','rebuild_roundtrip rebuild_iff smart_pointers_are_not_rebuilt Example.smart_not_rebuilt','the last two theorems record a disagreement')
c('C102','proved','CallOrder','analyzeAll_ends handled_all result_iff callees_first mutual_together alone_not_recursive group_recursive Example.nonrecursive_in_group Example.loop_view','virtual methods are not modelled; which further functions are in a group depends on the order of callees (nonrecursive_in_group)')
c('C103','proved','CallOrder','results_sound Example.error_of_caller Example.other_callee_order Example.other_function_order Example.too_few_passes Example.enough_passes Example.ring_settled','the examples record disagreements: a recursive function can get the error of its caller, depending on the order of a hash set, and three functions with one parameter can need more passes than the limit')
c('C104','proved','CallOrder','order_irrelevant result_eq Example.dag_reordered Example.dag_not_recursive')
c('C105','proved','ModName','resolves_iff compatible_iff Example.clash_panics','clash_panics records a disagreement: a clash of renamed items stops the generator')
c('C106','proved','ModName','module_reserved module_free Example.friends_clash Example.alias_clash Example.blocks_clash','the examples record disagreements: modules of classes with friend functions only, re-exports by type aliases and other blocks of a namespace are not protected')
c('C107','proved','ModName','nested_items_fine')
c('C108','proved','TypeVis','mem_dfs refused_iff public_iff public_iff_of_no_error record_visibility uses_accessible mentions_accessible function_visibility function_order Example.vector_of_private Example.first_error_decides Example.alias_of_error','the examples record disagreements: arguments of handwritten generic types are not visited, the first type without bindings decides, and an alias that is pub(crate) because of such a type is used in other crates')
c('C109','proved','TypeVis','reasons_iff no_reasons_iff signature_features features_monotone Example.vector_of_incomplete','the example records a disagreement: arguments of handwritten generic types are not checked; global variables and constants are not checked at all (code_snippet.rs:183-188)')
c('C110','proved','StrOwn','strings_refine prog_spec prog_code')
c('C111','proved','StrOwn','strings_owned strings_freed prog_freed','a program leaks a string only by dropping an encoded bridge buffer without decoding it (not an operation of the model)')
c('C112','proved','UniqPtr','unique_ptr_refines prog_spec prog_code')
c('C113','proved','UniqPtr','destroyed_once all_destroyed cppDelete_ok prog_spec prog_code','destructors that touch other pointers or throw are not modelled')
c('C114','proved','StrView','to_cpp to_rust roundtrip_slice roundtrip_view compare_agrees example_valid example_run null_not_empty')
c('C115','proved','Printer','print_lexes print_lexes_cpp lexN_enough exVec_clean exVec_print exVec_lex exVec_lex_cpp separate_puncts_glued separate_slashes_comment invisible_group_glues tuple_index_glued','the last four record what streams outside the hypothesis print')
c('C116','proved','Printer','comment_skipped comment_skipped_cpp comment_swallows_cpp literally_eq literally_quote quote_swallows quote_swallows_rust backslash_swallows literally_include path_breaks','comment_swallows_cpp records a disagreement: the next line of a header is lost after a comment that ends in a quote or backslash')
c('C117','proved','Printer','captures_recorded found_again fixUp_finds cleanLiteral_eq exVec_record found_undocumented found_documented_wrong found_pattern_wrong record_panics','found_documented_wrong records a disagreement: the index counts from the tag, which the generators put before the documentation, but the search starts after it')
c('C118','proved','PtsTo','inferred_signature_sound ev_sound run_sound exec_sound exists_rho Example.inferred Example.hS Example.hentry Example.hexec Example.locals_rejected Example.variance_gap','for the fragment in PtsTo/Spec.lean: no records, calls, unsafe casts, new; address of a static pointer variable not taken; regular types (variance_gap shows that the theorem fails without: is_in_invariant_context is overwritten instead of accumulated)')
c('C119','proved','PtsTo','points_to_sound exec_sound cs_reach','same fragment')
c('C120','proved','PtsTo','static_reaches_no_local staticReach_terminates staticReach_spec staticCheck_true','same fragment')
c('C121','proved','NullSound','fault_reported no_warnings_no_fault stmt_sound','for the language of NullSound/Spec.lean (three-address form; no fields, pointees of pointers, lambdas) without the five constructs of C125; a solver that gives up is an error in the code (pointer_nullability_diagnosis.cc:1720)')
c('C122','proved','NullSound','annotated_fault_reported annotated_no_warnings_no_fault','same fragment')
c('C123','proved','NullSound','checked_use_not_reported use_after_check_not_reported')
c('C124','proved','NullSound','diagnose_converges loop_converges Step.down widen_regains','an inner loop starts afresh in every pass over an outer one; the code counts block visits (20000) instead')
c('C125','proved','NullSound','offset_zero_missed add_zero_missed smart_compare_missed annotated_output_missed self_move_missed')
c('C126','proved','Infer','summary_lossless exportCtx_exported exFound','the framework (formula text, logical context export, solver) by contract; malformed text not modelled; no solver time-out between behaviours')
c('C127','proved','Infer','evidence_exact requirement_sound requirement_one requirement_stable exOpen exFirst','which behaviours a statement has (NullabilityBehaviorVisitor) is not modelled')
c('C128','proved','Infer','requirement_settled requirement_settled_nullable settled_value_is_nonnull value_evidence_demands')
c('C129','proved','Infer','index_exact exBasesFirst exConsistent exIndex instantiation_before_base','instantiation_before_base records a disagreement')
c('C130','proved','Infer','downward_exact upward_exact invariant_exact flows_down flows_up tests_do_not_constrain forced_down forced_up scoped_propagation siblings_not_reached override_annotation_hides_conflict captured_parameter_not_propagated','the last three record disagreements')
c('C131','proved','Infer','round_verdict previous_exact roundEvidence_spread dereference_inferred dereference_inferred_for_base dereference_settled exSorts exRound')
c('C132','proved','CcValue','drop_is_destroy drop_destroys_each_once Cls.mem_destroy Cls.nodup_destroy Example.box_ok Example.box_drop Example.box_drop_is_destroy Example.union_ok Example.private_destructor_drops_fields','virtual bases are destroyed with the class that names them; exceptions are not modelled; private_destructor_drops_fields records a disagreement')
c('C133','proved','CcValue','clone_is_copy copy_is_bitwise copy_iff clone_exists Example.box_clone Example.point_copy Example.first_copy_constructor_decides Example.forced_clone_releases_twice','first_copy_constructor_decides and forced_clone_releases_twice show why the two conditions are needed')
c('C134','proved','CcValue','no_double_release no_leak trivial_copy_no_body copy_covers Example.handle_good Example.ops_run Example.ops_good Example.bad_releases_twice','a copy constructor body is taken to give all subobjects resources of their own')
c('C135','proved','CcValue','plain_compiles Example.box_ok Example.mutable_in_member_breaks_copy Example.thread_safe_member_breaks_copy Example.annotated_member_breaks_copy Example.friend_copy_breaks_copy Example.mutable_reference_breaks_copy Example.user_move_breaks_copy Example.array_in_union_refused Example.mutable_field_is_fine','the examples record disagreements: definitions that are refused')
c('C136','proved','CcValue','unpin_iff not_unpin Example.point_copy Example.user_move_breaks_copy','user_move_breaks_copy records a disagreement')
c('C137','proved','CcValue','mutable_is_cell Example.holder_cells Example.mutable_in_base_not_a_cell Example.mutable_in_private_not_a_cell','the two last examples record a disagreement: mutable data of a base, or of a private field, of a class that is Copy')
c('C138','proved','Bases','listed_convertible convertible_listed Example.D_proper Example.diamond_listed Example.diamond_convertible Example.no_upcast_to_ambiguous Example.no_upcast_to_private Example.public_path_missed Example.public_path_exists Example.public_path_unambiguous','the Clang functions lookupInBases, MergeAccess and isAmbiguous are modelled from Clang, whose source is not in /repo; public_path_* record a disagreement')
c('C139','proved','Bases','upcast_address offset_static Example.placed Example.diamond_upcast','the C++ thunk that converts to virtual bases is taken to do what C++ says')
c('C140','proved','Bases','inherited_found inherited_iff inherited_deterministic Example.f_inherited Example.f_found Example.g_in_both Example.sort_exists Example.shuffle_exists Example.hidden_by_private Example.hidden_by_unbound Example.cxx_finds_hiding Example.ambiguous_with_private_base','hidden_by_* and ambiguous_with_private_base record disagreements, which is why the condition on the declarations is needed')
c('C141','proved','ExprNull','typed_vector typeNullability_eq Example.smart_pointer_slice Example.deduced_argument Example.two_steps Example.inner_class','parameter packs, member pointers and fields that may have been moved from are not modelled; the examples record disagreements with the annotations')
c('C142','proved','ExprNull','vector_length typed_vector')
c('C143','proved','ExprNull','element_access element_field explicit_argument')
c('C144','proved','Consts','constant_same_value constant_never_wrong constants_equal_iff int128_bound_iff negative_char_refused huge_u128_wrong u128_refused ex_int ex_extremes','negative_char_refused, huge_u128_wrong and u128_refused record disagreements; how Clang evaluates constants is not modelled')
c('C145','proved','Consts','rust_constant_same_value text_value c_char_same_bits rust_constant_given apple_long_panics least_longlong_ill_formed c_char_enumerator_ill_formed ex_roundtrip','floating point constants and strings are not modelled; the three before the last record disagreements')
c('C146','proved','Consts','rust_cpp_rust ex_roundtrip')
c('C147','proved','Consts','variant_constructor single_variant ex_tag','the layout computed by rustc (tag offset, size and value) is input')
c('C148','proved','Consts','ffi11_one_to_one ffi11_builtin_iff ffi11_width primitives_one_to_one char16_collides','char16_collides records a disagreement; nullptr_t and floating point types not modelled')
c('C149','proved','Ops','bound_iff_canonical bound_unique bound_perm nondeprecated_wins emitted_iff overload_example')
c('C150','proved','Ops','operator_symbol operands_in_order operator_available compare_example','the call through the thunk is C80')
c('C151','proved','Ops','rust_eq_is_cpp_eq rust_eq_unique no_conflicting_impls cpp_eq_reaches_rust compare_example mixed_params_lose_both alias_conflict','the last two record disagreements; derived PartialEq impls are not modelled')
c('C152','proved','Ops','partialOrd_has_eq contract_iff dual_iff total_order none_iff compare_example partialOrd_without_partialEq','the last records a disagreement: the operator== found may itself be hidden by an overload')
c('C153','proved','Ops','index_access indexMut_has_index index_example index_outputs_differ','the last records a disagreement')
c('C154','proved','Ops','fresh_not_used materialized_lifetimes_fresh materialize_example')
c('C155','proved','InlineCpp','parse_ok_iff parse_error_iff blocks_unique blocks_not_unclosed unclosed_unique example_parse example_unclosed parentheses_not_extracted comment_not_extracted','the last two record disagreements; the lexer is not modelled')
c('C156','proved','InlineCpp','diagnostics_map_back example_header example_noDirective','file names without quotes and newlines')
c('C157','proved','InlineCpp','thunkName_inj thunkName_files thunkName_ident thunks_distinct expansion_defined example_header example_name space_in_path_name space_in_file_name','the last two record disagreements; equal base names in different directories rely on the hash and are not claimed')
c('C158','proved','InlineCpp','validate_iff extractInline_ok_iff example_signature trailing_declaration_accepted','the last shows what the form allows')
c('C159','proved','InlineCpp','format_outside_unchanged newBody_indented format_content example_braces example_clang example_format wrapper_leaks raw_string_changes','the last two record disagreements')
c('C160','proved','CppTypes','assert_exact Ex.sample_assert Ex.sample_tokens Ex.slice_of_const_pointers Ex.renamed_enum Ex.variadic_noexcept_dropped Ex.const_result_dropped','the last four record disagreements; a name is one token, volatile and bridge types are not modelled')
c('C161','proved','CppTypes','thunk_exact Ex.sample_thunk','same exceptions as C160')
c('C162','proved','CppTypes','rust_agrees Ex.sample_agrees Ex.variadic_noexcept_dropped','the last records a disagreement')
c('C163','proved','RsTypes','cc_type_corresponds slice_of_rvref_const','the last records a disagreement; user-supplied C++ spellings, other generic types and prerequisites are not modelled')
c('C164','proved','RsTypes','cc_type_well_formed','same exception as C163')
c('C165','proved','RsTypes','rs_type_exact thunk_type_exact hrtb_spelled_static','the last records a disagreement; a path is one token')
c('C166','proved','RsTypes','avoid_items rejected_iff kept_types_differ rejected_collides usual_target tuples_collide vecs_collide','the last two record disagreements')
c('C167','proved','Reopen','reopened_namespaces Example.wf Example.tops_run Example.lost_run Example.panics_run','the last two record disagreements')
c('C168','proved','Names','escape_injective escape_ident thunk_names_differ thunk_name_ident','')
c('C169','proved','Names','cpp_keywords_reserved unkeyword_not_reserved unkeyword_other unkeyword_collides format_name format_name_safe field_name_safe field_name_kept field_name_not_method tuple_field_name tuple_fields_differ fields_collide field_named_like_method raw_name_not_ident','the last three record disagreements')
c('C170','proved','Names','hyphens_eq rs_ident_iff rs_ident_valid rs_ident_injective imported_name_ok import_refuses synKw_ok underscore_panics crates_collide','the last two record disagreements')
c('C171','proved','Names','fragment_cont fragment_id thunk_ident_ident thunks_differ thunk_readable itanium_plain fragments_collide','the last records a collision that a comment in the code admits')
c('C172','proved','Names','pointer_type pointer_to_base not_pointer const_pointer_not_recognised pointer_to_pointer_misread','the last two record disagreements')
c('C173','proved','Iter','adapter_observes adapter_source adapter_drops loop_same not_fused','the last is an example of an iterator that goes on after its end')
c('C174','proved','Tmpl','name_eq names_agree collect_mem collect_sorted collect_deterministic expands only_requested spaces_never_found Example.invoked Example.run Example.expanded Example.words_joined','spaces_never_found and words_joined record disagreements')
c('C175','proved','Cmd','targets_accepted header_owner target_features crate_name order_irrelevant public_headers_owned create_iff Example.run','')
c('C176','proved','Cmd','file_roundtrip file_no_newline expand_append expand_plain expand_file preprocess_items preprocess_none empty_last_lost after_stop_changed missing_value','the last three record disagreements')
c('C177','proved','Report','errors_reported categories_reported items_reported items_named only_items panics_iff displayed displayed_dynamic fatal_taken empty_message','the last records a disagreement; JSON is not modelled')
c('C178','proved','Report','hide_def_id hide_hash hide_other shown_static dynamic_not_hidden hash_in_hash','the last two record disagreements')
c('C179','proved','AbiTy','abi_sound path_text path_accepted ref_mismatch const_misread','the last two record disagreements')
c('C180','proved','Pre','default_is_first default_unspecified warnings_exact warnings_ordered','')
c('C181','proved','Pre','filter_answers selected_exact','pattern matching and the source manager are parameters')
c('C182','proved','Pre','replaced original_kept others_unchanged copy_unchanged','the code after the header does not itself write names with the reserved prefix')
c('C183','proved','Doc','keepLine_iff comment_exact trim_spec rust_doc cpp_doc','the comment text is what clang formats; documentation attributes of Rust are given as strings')
c('C184','proved','Doc','location_text no_offsets name_with_prefix place_injective','disagreement: importer drops the offsets that the parser of captures expects')
c('C185','proved','Doc','includes_order_free includes_exact fromPath_exact system_read quoted_read plain_read Example.backslash_read','escapes of literals are a parameter')
c('C186','proved','Annot','read_some_iff read_none_iff order_free flag_exact strings_exact string_exact type_exact bool_exact','the evaluation of arguments by clang is an input')
c('C187','proved','Fmt','parses_iff format_eq format_escape unmatched_close_iff unmatched_open_iff unknown_iff parse_ends formats_eq_iff unambiguous','')
c('C188','proved','Fwd','compiles_iff result back chain no_confusion stays_pinned pointer_panics_iff never_panics vec_compiles_iff vec_fits vec_reinterpreted slice_of_forward','')
c('C189','proved','Errs','history length_life answers_unique pending_exists pending_unique no_panic drop_panics nothing_lost','')
