{
 "claims": [
  {
   "property": "C01",
   "status": "proved",
   "theorems": [
    "Verif.Toposort.toposort_partition"
   ],
   "note": ""
  },
  {
   "property": "C02",
   "status": "proved",
   "theorems": [
    "Verif.Toposort.toposort_respects_deps"
   ],
   "note": ""
  },
  {
   "property": "C03",
   "status": "proved",
   "theorems": [
    "Verif.Toposort.toposort_failed_iff",
    "Verif.Toposort.toposort_failed_empty_iff"
   ],
   "note": ""
  },
  {
   "property": "C04",
   "status": "proved",
   "theorems": [
    "Verif.Toposort.toposort_greedy",
    "Verif.Toposort.toposort_keeps_preferred"
   ],
   "note": ""
  },
  {
   "property": "C05",
   "status": "proved",
   "theorems": [
    "Verif.Toposort.toposort_ordered_deterministic",
    "Verif.Toposort.toposort_deterministic",
    "Verif.Toposort.toposort_failed_sorted",
    "Verif.Toposort.toposort_failed_order_depends_on_hash"
   ],
   "note": "with ties in the preference the order of `failed` does depend on the hash order: proved as a witness"
  },
  {
   "property": "C06",
   "status": "proved",
   "theorems": [
    "Verif.Toposort.toposort_panics_iff"
   ],
   "note": ""
  },
  {
   "property": "C07",
   "status": "proved",
   "theorems": [
    "Verif.Bridge.rust_roundtrip"
   ],
   "note": ""
  },
  {
   "property": "C08",
   "status": "proved",
   "theorems": [
    "Verif.Bridge.cpp_rust_same_size",
    "Verif.Bridge.cpp_to_rust",
    "Verif.Bridge.rust_to_cpp",
    "Verif.Bridge.tuple_decode_needs_left_to_right"
   ],
   "note": "Rust to C++ assumes clang evaluates make_tuple arguments left to right; the last theorem shows the assumption is needed"
  },
  {
   "property": "C09",
   "status": "proved",
   "theorems": [
    "Verif.Bridge.rust_encode_in_bounds",
    "Verif.Bridge.rust_decode_in_bounds",
    "Verif.Bridge.cpp_encode_in_bounds",
    "Verif.Bridge.cpp_decode_in_bounds"
   ],
   "note": ""
  },
  {
   "property": "C10",
   "status": "proved",
   "theorems": [
    "Verif.Bridge.boxed_roundtrip",
    "Verif.Bridge.cpp_encode_succeeds"
   ],
   "note": ""
  },
  {
   "property": "C11",
   "status": "proved",
   "theorems": [
    "Verif.Memo.acyclic_query_correct",
    "Verif.Memo.acyclic_cache_correct",
    "Verif.Memo.cyclic_value_depends_on_history"
   ],
   "note": "the last theorem shows the restriction to acyclic queries is needed"
  },
  {
   "property": "C12",
   "status": "proved",
   "theorems": [
    "Verif.Memo.bodies_run_at_most_once",
    "Verif.Memo.cached_bodies_never_rerun"
   ],
   "note": ""
  },
  {
   "property": "C13",
   "status": "proved",
   "theorems": [
    "Verif.Memo.cached_result_is_untainted",
    "Verif.Memo.cached_result_independent_of_stack"
   ],
   "note": ""
  },
  {
   "property": "C14",
   "status": "proved",
   "theorems": [
    "Verif.Memo.top_level_balanced",
    "Verif.Memo.calls_are_balanced",
    "Verif.Memo.bookkeeping_never_panics"
   ],
   "note": ""
  },
  {
   "property": "C15",
   "status": "proved",
   "theorems": [
    "Verif.Memo.finite_queries_terminate",
    "Verif.Memo.self_cycle_returns_default",
    "Verif.Memo.returned_values_closed"
   ],
   "note": ""
  },
  {
   "property": "C16",
   "status": "partial",
   "theorems": [
    "Verif.Interner.interned_eq_iff_partial",
    "Verif.Interner.interned_deref",
    "Verif.Interner.interned_fat_eq_iff",
    "Verif.Interner.empty_value_collides"
   ],
   "note": "the full statement is false of the code for empty strings/slices (thin-pointer comparison; witness empty_value_collides); proved for all non-empty values, and for fat-pointer comparison"
  },
  {
   "property": "C17",
   "status": "proved",
   "theorems": [
    "Verif.Interner.interned_minimal",
    "Verif.Interner.intern_idempotent",
    "Verif.Interner.old_handles_stay_valid"
   ],
   "note": ""
  },
  {
   "property": "C18",
   "status": "proved",
   "theorems": [
    "Verif.Lossy.chunking_irrelevant",
    "Verif.Lossy.splits_agree",
    "Verif.Lossy.decoding_exists_unique"
   ],
   "note": ""
  },
  {
   "property": "C19",
   "status": "proved",
   "theorems": [
    "Verif.Lossy.valid_passes_through"
   ],
   "note": ""
  },
  {
   "property": "C20",
   "status": "proved",
   "theorems": [
    "Verif.Lossy.never_panics"
   ],
   "note": ""
  },
  {
   "property": "C21",
   "status": "proved",
   "theorems": [
    "Verif.Lossy.count_faithful",
    "Verif.Lossy.write_fill_eq_write_byte",
    "Verif.Lossy.output_is_prefix"
   ],
   "note": ""
  },
  {
   "property": "C22",
   "status": "proved",
   "theorems": [
    "Verif.Features.rejected_iff",
    "Verif.Features.order_and_multiplicity_irrelevant"
   ],
   "note": ""
  },
  {
   "property": "C23",
   "status": "proved",
   "theorems": [
    "Verif.Features.resolved_features",
    "Verif.Features.only_marker_disables"
   ],
   "note": ""
  },
  {
   "property": "C24",
   "status": "proved",
   "theorems": [
    "Verif.Features.short_names_consistent",
    "Verif.Features.supported_brings_types"
   ],
   "note": ""
  },
  {
   "property": "C25",
   "status": "proved",
   "theorems": [
    "Verif.Label.cc_identifier_injective",
    "Verif.Label.cc_identifier_valid",
    "Verif.Label.equal_labels_may_differ_in_identifier"
   ],
   "note": "injectivity is on the label text; the last theorem shows that two spellings of the same target get different identifiers"
  },
  {
   "property": "C26",
   "status": "proved",
   "theorems": [
    "Verif.Label.equality_order_hash_agree",
    "Verif.Label.long_form_eq",
    "Verif.Label.short_form_eq"
   ],
   "note": ""
  },
  {
   "property": "C27",
   "status": "proved",
   "theorems": [
    "Verif.Label.escaped_name_ok",
    "Verif.Label.escaped_name_keeps",
    "Verif.Label.escaped_name_not_injective"
   ],
   "note": "the crate name is a legal identifier, but distinct target names can collide: proved as a witness"
  },
  {
   "property": "C28",
   "status": "proved",
   "theorems": [
    "Verif.RsChar.from_u32_iff",
    "Verif.RsChar.reachable_iff",
    "Verif.RsChar.cmp_iff"
   ],
   "note": ""
  },
  {
   "property": "C29",
   "status": "proved",
   "theorems": [
    "Verif.RsChar.encode_utf8_spec",
    "Verif.RsChar.encode_utf8_injective",
    "Verif.RsChar.four_bytes_suffice"
   ],
   "note": ""
  },
  {
   "property": "C30",
   "status": "proved",
   "theorems": [
    "Verif.Namespaces.merged_paths",
    "Verif.Namespaces.merged_paths_of_collected"
   ],
   "note": ""
  },
  {
   "property": "C31",
   "status": "proved",
   "theorems": [
    "Verif.Namespaces.merged_labels_exact",
    "Verif.Namespaces.merged_labels_sound",
    "Verif.Namespaces.reopened_leaf_label_lost"
   ],
   "note": "exact characterisation of what the code does; the last theorem is a witness that a re-opened nested leaf namespace loses the target label"
  },
  {
   "property": "C32",
   "status": "proved",
   "theorems": [
    "Verif.Memo.DbIndex.databases_isolated",
    "Verif.Memo.DbIndex.databases_257_collide"
   ],
   "note": "isolation holds up to 256 databases per process; with 257 it is false of the code (u8 index wraps), proved as a witness"
  },
  {
   "property": "C33",
   "status": "proved",
   "theorems": [
    "Verif.Namespaces.collect_exact",
    "Verif.Namespaces.collect_terminates"
   ],
   "note": ""
  },
  {
   "property": "C34",
   "status": "proved",
   "theorems": [
    "Verif.StrRef.is_utf8_iff",
    "Verif.StrRef.from_utf8_iff"
   ],
   "note": ""
  },
  {
   "property": "C35",
   "status": "proved",
   "theorems": [
    "Verif.StrRef.slice_never_null",
    "Verif.StrRef.slice_span_roundtrip",
    "Verif.StrRef.slice_eq_iff"
   ],
   "note": ""
  },
  {
   "property": "C36",
   "status": "proved",
   "theorems": [
    "Verif.Alias.has_mutable_aliasing_iff",
    "Verif.Alias.check_passes_iff",
    "Verif.Alias.arguments_valid"
   ],
   "note": "the last theorem shows that the arguments the bindings convert meet the hypothesis of the first two"
  },
  {
   "property": "C37",
   "status": "proved",
   "theorems": [
    "Verif.Movable.movable_behaves",
    "Verif.Movable.destroyed_exactly_once",
    "Verif.Movable.leak_only_from_full_slot",
    "Verif.Movable.slot_move_is_ub"
   ],
   "note": "the last theorem records a disagreement: the move constructor of Slot assigns to uninitialized storage"
  },
  {
   "property": "C38",
   "status": "proved",
   "theorems": [
    "Verif.NullMerge.conclusion_order_independent",
    "Verif.NullMerge.merge_evidence_perm",
    "Verif.NullMerge.samples_sound",
    "Verif.NullMerge.conclude_deterministic",
    "Verif.NullMerge.merge_evidence_deterministic",
    "Verif.NullMerge.grouping_by_slot",
    "Verif.NullMerge.samples_depend_on_order"
   ],
   "note": "the last theorem records that which samples are kept depends on the order, although merge.h calls merging commutative"
  },
  {
   "property": "C39",
   "status": "proved",
   "theorems": [
    "Verif.NullMerge.inference_decision",
    "Verif.NullMerge.wraparound_forgets",
    "Verif.NullMerge.softRules_spec"
   ],
   "note": ""
  },
  {
   "property": "C40",
   "status": "proved",
   "theorems": [
    "Verif.NullFlow.verdict_exact",
    "Verif.NullFlow.nonnull_sound",
    "Verif.NullFlow.nullable_sound",
    "Verif.NullFlow.nullptr_nullable_iff_reachable",
    "Verif.NullFlow.contradictory_constraints_nullable"
   ],
   "note": "clang's dataflow contexts and solver are modelled by contract; the last theorem records a disagreement"
  },
  {
   "property": "C41",
   "status": "proved",
   "theorems": [
    "Verif.NullFlow.join_keeps_runs",
    "Verif.NullFlow.join_adds_nothing",
    "Verif.NullFlow.join_nonnull_iff",
    "Verif.NullFlow.join_keeps_nullable",
    "Verif.NullFlow.join_mixes_paths"
   ],
   "note": "the last theorem records a disagreement"
  },
  {
   "property": "C42",
   "status": "proved",
   "theorems": [
    "Verif.NullFlow.widen_sound",
    "Verif.NullFlow.widen_unchanged",
    "Verif.NullFlow.widen_changes_bounded",
    "Verif.NullFlow.top_does_not_stay_top",
    "Verif.NullFlow.two_pointers_never_settle"
   ],
   "note": "the last two theorems record a disagreement"
  },
  {
   "property": "C43",
   "status": "proved",
   "theorems": [
    "Verif.NullFlow.source_verdict",
    "Verif.NullFlow.first_source_wins",
    "Verif.NullFlow.symbolic_source",
    "Verif.NullFlow.branch_runs",
    "Verif.NullFlow.null_check"
   ],
   "note": ""
  },
  {
   "property": "C44",
   "status": "proved",
   "theorems": [
    "Verif.Lifetimes.lifetimes_distinct",
    "Verif.Lifetimes.variable_ids_wrap"
   ],
   "note": "the last theorem records a disagreement"
  },
  {
   "property": "C45",
   "status": "proved",
   "theorems": [
    "Verif.Lifetimes.names_enumerate",
    "Verif.Lifetimes.naming_terminates",
    "Verif.Lifetimes.generated_name_is_first_unused",
    "Verif.Lifetimes.lookups_inverse",
    "Verif.Lifetimes.declared_is_fresh",
    "Verif.Lifetimes.lookup_after",
    "Verif.Lifetimes.rebind_to_used_lifetime",
    "Verif.Lifetimes.generated_static"
   ],
   "note": "the last two theorems record disagreements"
  },
  {
   "property": "C46",
   "status": "proved",
   "theorems": [
    "Verif.Lifetimes.substitute_terminates",
    "Verif.Lifetimes.add_redirects",
    "Verif.Lifetimes.add_composes"
   ],
   "note": ""
  },
  {
   "property": "C47",
   "status": "proved",
   "theorems": [
    "Verif.Lifetimes.outliving_exact",
    "Verif.Lifetimes.constraints_join"
   ],
   "note": ""
  },
  {
   "property": "C48",
   "status": "proved",
   "theorems": [
    "Verif.Lifetimes.Lattice.join_facts",
    "Verif.Lifetimes.Lattice.join_effect",
    "Verif.Lifetimes.Lattice.join_error",
    "Verif.Lifetimes.Lattice.joins_change_finitely",
    "Verif.Lifetimes.Lattice.equality_exact",
    "Verif.Lifetimes.Lattice.points_to_updates",
    "Verif.Lifetimes.Lattice.expr_lookup",
    "Verif.Lifetimes.Lattice.equality_misses_change",
    "Verif.Lifetimes.Lattice.double_parens_fatal"
   ],
   "note": "the last two theorems record disagreements"
  },
  {
   "property": "C49",
   "status": "proved",
   "theorems": [
    "Verif.Lifetimes.apply_spec",
    "Verif.Lifetimes.apply_sound",
    "Verif.Lifetimes.apply_order_independent"
   ],
   "note": ""
  },
  {
   "property": "C50",
   "status": "proved",
   "theorems": [
    "Verif.Lifetimes.callable_constraints_exact",
    "Verif.Lifetimes.callable_projection_exact",
    "Verif.Lifetimes.isomorphic_iff",
    "Verif.Lifetimes.static_isomorphic_to_variable"
   ],
   "note": "the last theorem records a disagreement"
  },
  {
   "property": "C51",
   "status": "proved",
   "theorems": [
    "Verif.Lifetimes.constrain_sound",
    "Verif.Lifetimes.constrain_all_sound",
    "Verif.Lifetimes.override_static_lost"
   ],
   "note": "the last theorem records a disagreement; static lifetimes in the base are outside the soundness theorem"
  },
  {
   "property": "C52",
   "status": "proved",
   "theorems": [
    "Verif.Defaults.binding_context_scopes",
    "Verif.Defaults.names_never_reused"
   ],
   "note": ""
  },
  {
   "property": "C53",
   "status": "proved",
   "theorems": [
    "Verif.Defaults.lifetimes_declared",
    "Verif.Defaults.unknown_result",
    "Verif.Defaults.unknown_parameter",
    "Verif.Defaults.nested_annotation_undeclared"
   ],
   "note": "the last three theorems record disagreements"
  },
  {
   "property": "C54",
   "status": "proved",
   "theorems": [
    "Verif.Defaults.defaults_function",
    "Verif.Defaults.undeclared_annotation_captured"
   ],
   "note": "the last theorem records a disagreement"
  },
  {
   "property": "C55",
   "status": "proved",
   "theorems": [
    "Verif.Defaults.lifetimebound_unifies",
    "Verif.Defaults.lifetimebound_conflict",
    "Verif.Defaults.lifetimebound_accepted",
    "Verif.Defaults.record_names_agree",
    "Verif.Defaults.lifetimebound_view",
    "Verif.Defaults.nested_records_disagree"
   ],
   "note": "the last theorem records a disagreement; constructors are covered by C53 only"
  },
  {
   "property": "C56",
   "status": "proved",
   "theorems": [
    "Verif.Layout.struct_layout"
   ],
   "note": ""
  },
  {
   "property": "C57",
   "status": "proved",
   "theorems": [
    "Verif.Layout.union_layout",
    "Verif.Layout.union_bitfields"
   ],
   "note": "the last theorem records a disagreement"
  },
  {
   "property": "C58",
   "status": "proved",
   "theorems": [
    "Verif.Layout.class_layout",
    "Verif.Layout.threadSafe_layout",
    "Verif.Layout.empty_first_field",
    "Verif.Layout.only_empty_fields",
    "Verif.Layout.empty_aligned_field",
    "Verif.Layout.zero_width_bitfield"
   ],
   "note": "the last four theorems record disagreements"
  },
  {
   "property": "C59",
   "status": "proved",
   "theorems": [
    "Verif.CcLayout.struct_layout",
    "Verif.CcLayout.packed2_wrong"
   ],
   "note": "the last theorem records a disagreement"
  },
  {
   "property": "C60",
   "status": "proved",
   "theorems": [
    "Verif.CcLayout.union_layout",
    "Verif.CcLayout.enum_layout",
    "Verif.CcLayout.union_opaque_wrong",
    "Verif.CcLayout.enum_opaque_wrong"
   ],
   "note": "the last two theorems record disagreements"
  },
  {
   "property": "C61",
   "status": "proved",
   "theorems": [
    "Verif.CcLayout.variant_bytes"
   ],
   "note": ""
  },
  {
   "property": "C62",
   "status": "proved",
   "theorems": [
    "Verif.SharedPtr.shared_ptr_safe",
    "Verif.SharedPtr.pointee_alive",
    "Verif.SharedPtr.owned_not_destroyed",
    "Verif.SharedPtr.destroyed_once",
    "Verif.SharedPtr.no_leak",
    "Verif.SharedPtr.released_iff"
   ],
   "note": "libc++ reference counts are modelled as environment; example_run is a non-trivial reachable state"
  },
  {
   "property": "C63",
   "status": "proved",
   "theorems": [
    "Verif.SharedPtr.use_count_exact",
    "Verif.SharedPtr.object_owners",
    "Verif.SharedPtr.unique_objects",
    "Verif.SharedPtr.lock_iff",
    "Verif.SharedPtr.drops_finish"
   ],
   "note": ""
  },
  {
   "property": "C64",
   "status": "proved",
   "theorems": [
    "Verif.Vector.vector_is_list",
    "Verif.Vector.methods",
    "Verif.Vector.set_len_poisons"
   ],
   "note": "the last theorem records a disagreement; std Vec is modelled as environment, in steps"
  },
  {
   "property": "C65",
   "status": "proved",
   "theorems": [
    "Verif.Vector.elements_dropped_once",
    "Verif.Vector.memory_freed"
   ],
   "note": ""
  },
  {
   "property": "C66",
   "status": "proved",
   "theorems": [
    "Verif.Vector.cpp_sees_vector"
   ],
   "note": ""
  },
  {
   "property": "C67",
   "status": "proved",
   "theorems": [
    "Verif.Vector.panic_harmless",
    "Verif.Vector.panic_after_growth",
    "Verif.Vector.panic_double_drop"
   ],
   "note": "the last two theorems record disagreements"
  },
  {
   "property": "C68",
   "status": "proved",
   "theorems": [
    "Verif.Ctor.memory_respected",
    "Verif.Ctor.pinned",
    "Verif.Ctor.then_leaks"
   ],
   "note": "the last theorem records a disagreement"
  },
  {
   "property": "C69",
   "status": "proved",
   "theorems": [
    "Verif.Ctor.dropped_once",
    "Verif.Ctor.clear_drops_twice"
   ],
   "note": "the last theorem records a disagreement"
  },
  {
   "property": "C70",
   "status": "proved",
   "theorems": [
    "Verif.Ctor.box_result",
    "Verif.Ctor.replace_result",
    "Verif.Ctor.reconstruct_result",
    "Verif.Ctor.run_eval"
   ],
   "note": ""
  },
  {
   "property": "C71",
   "status": "proved",
   "theorems": [
    "Verif.RsStd.option_agrees_with_rust",
    "Verif.RsStd.big_endian_option_disagrees"
   ],
   "note": "the last theorem records a disagreement"
  },
  {
   "property": "C72",
   "status": "proved",
   "theorems": [
    "Verif.RsStd.option_lifetimes",
    "Verif.RsStd.option_live_iff"
   ],
   "note": ""
  },
  {
   "property": "C73",
   "status": "proved",
   "theorems": [
    "Verif.RsStd.result_agrees_with_rust"
   ],
   "note": ""
  },
  {
   "property": "C74",
   "status": "proved",
   "theorems": [
    "Verif.RsStd.result_lifetimes",
    "Verif.RsStd.result_live",
    "Verif.RsStd.assign_own_error_uses_destroyed_value"
   ],
   "note": "the last theorem records a disagreement"
  },
  {
   "property": "C75",
   "status": "proved",
   "theorems": [
    "Verif.DynCallable.behaviour_eq",
    "Verif.DynCallable.self_move_is_ub"
   ],
   "note": "the last theorem records a disagreement"
  },
  {
   "property": "C76",
   "status": "proved",
   "theorems": [
    "Verif.DynCallable.well_owned",
    "Verif.DynCallable.all_released"
   ],
   "note": ""
  },
  {
   "property": "C77",
   "status": "proved",
   "theorems": [
    "Verif.DynCallable.checked_use_is_defined",
    "Verif.DynCallable.spent_reports_value",
    "Verif.DynCallable.spent_to_rust_is_ub"
   ],
   "note": "the last two theorems record a disagreement"
  },
  {
   "property": "C78",
   "status": "proved",
   "theorems": [
    "Verif.FnCall.call_delivers",
    "Verif.FnCall.plain_call_is_call",
    "Verif.FnCall.composable_in_tuple_confused",
    "Verif.FnCall.composable_in_tuple_result",
    "Verif.FnCall.demo_good",
    "Verif.FnCall.demo_call"
   ],
   "note": "composable_in_tuple_confused shows the check in format_type.rs is needed"
  },
  {
   "property": "C79",
   "status": "proved",
   "theorems": [
    "Verif.FnCall.call_ownership",
    "Verif.FnCall.result_moves",
    "Verif.FnCall.droppable_by_value_released_twice"
   ],
   "note": "the last theorem records a disagreement"
  },
  {
   "property": "C80",
   "status": "proved",
   "theorems": [
    "Verif.CcCall.call_correct",
    "Verif.CcCall.Examples.many_ok",
    "Verif.CcCall.Examples.many_returns",
    "Verif.CcCall.Examples.eq_ok",
    "Verif.CcCall.Examples.virt_ok",
    "Verif.CcCall.Examples.ctor_ok"
   ],
   "note": ""
  },
  {
   "property": "C81",
   "status": "proved",
   "theorems": [
    "Verif.CcCall.call_correct",
    "Verif.CcCall.arguments_released_once"
   ],
   "note": ""
  },
  {
   "property": "C82",
   "status": "proved",
   "theorems": [
    "Verif.CcCall.declaration_matches_definition"
   ],
   "note": ""
  },
  {
   "property": "C83",
   "status": "proved",
   "theorems": [
    "Verif.CcCall.unrun_constructor"
   ],
   "note": ""
  },
  {
   "property": "C84",
   "status": "proved",
   "theorems": [
    "Verif.Future.behaviour",
    "Verif.Future.boxes"
   ],
   "note": ""
  },
  {
   "property": "C85",
   "status": "proved",
   "theorems": [
    "Verif.Future.futures_accounted",
    "Verif.Future.futures_end_once"
   ],
   "note": ""
  },
  {
   "property": "C86",
   "status": "proved",
   "theorems": [
    "Verif.Future.wakers_accounted",
    "Verif.Future.wakers_alive"
   ],
   "note": ""
  },
  {
   "property": "C87",
   "status": "proved",
   "theorems": [
    "Verif.Future.refcounted_wakers"
   ],
   "note": ""
  },
  {
   "property": "C88",
   "status": "proved",
   "theorems": [
    "Verif.Special.values",
    "Verif.Special.available",
    "Verif.Special.transparent_default_drops_garbage",
    "Verif.Special.transparent_clone_sees_garbage"
   ],
   "note": "the last two theorems record a disagreement"
  },
  {
   "property": "C89",
   "status": "proved",
   "theorems": [
    "Verif.Special.one_owner",
    "Verif.Special.all_dropped"
   ],
   "note": ""
  },
  {
   "property": "C90",
   "status": "proved",
   "theorems": [
    "Verif.Header.header_compiles",
    "Verif.Header.detailsOk0",
    "Verif.Header.run0"
   ],
   "note": "DetailsOk: text after all definitions forward-references only items of this header"
  },
  {
   "property": "C91",
   "status": "proved",
   "theorems": [
    "Verif.Header.header_complete",
    "Verif.Header.rust_complete"
   ],
   "note": ""
  },
  {
   "property": "C92",
   "status": "proved",
   "theorems": [
    "Verif.Header.header_deterministic",
    "Verif.Header.header_text_deterministic",
    "Verif.Header.w0_same"
   ],
   "note": "sort keys are assumed to tell items and specializations apart"
  },
  {
   "property": "C93",
   "status": "proved",
   "theorems": [
    "Verif.Header.header_fails_iff",
    "Verif.Header.w2_none",
    "Verif.Header.w0_needs"
   ],
   "note": ""
  },
  {
   "property": "C94",
   "status": "proved",
   "theorems": [
    "Verif.Header.namespaces_kept",
    "Verif.Header.formatPieces_congr"
   ],
   "note": ""
  },
  {
   "property": "C95",
   "status": "proved",
   "theorems": [
    "Verif.Paths.paths_end",
    "Verif.Paths.paths_fuel",
    "Verif.Paths.paths_valid",
    "Verif.Paths.paths_complete",
    "Verif.Paths.paths_once",
    "Verif.Paths.crate1_run"
   ],
   "note": "binary_search and kmerge are given by their documented behaviour; rustc answers are inputs"
  },
  {
   "property": "C96",
   "status": "proved",
   "theorems": [
    "Verif.Paths.canonical_best",
    "Verif.Paths.canonical_shortest",
    "Verif.Paths.canonical_documented",
    "Verif.Paths.aliases_sorted",
    "Verif.Paths.not_lexicographic",
    "Verif.Paths.hidden_chosen"
   ],
   "note": "the last two theorems record disagreements: module names are compared by interner index, and a module first found through a hidden module is never visited again"
  },
  {
   "property": "C97",
   "status": "proved",
   "theorems": [
    "Verif.Paths.global_members",
    "Verif.Paths.global_owner",
    "Verif.Paths.defining_crate",
    "Verif.Paths.order_irrelevant",
    "Verif.Paths.tie_by_order",
    "Verif.Paths.merge_unsorted"
   ],
   "note": "the last two theorems record disagreements"
  },
  {
   "property": "C98",
   "status": "proved",
   "theorems": [
    "Verif.Paths.header_names",
    "Verif.Paths.defined_once",
    "Verif.Paths.maps3_headers"
   ],
   "note": ""
  },
  {
   "property": "C99",
   "status": "proved",
   "theorems": [
    "Verif.NullTy.reports_are_the_slots",
    "Verif.NullTy.vector_length",
    "Verif.NullTy.spellings_correspond",
    "Verif.NullTy.vector_unique",
    "Verif.NullTy.count_is_slots",
    "Verif.NullTy.locs_correspond",
    "Verif.NullTy.canon_scoped",
    "Verif.NullTy.Example.target_scoped",
    "Verif.NullTy.Example.target_vector",
    "Verif.NullTy.Example.too_many_slots"
   ],
   "note": "the last theorem records a disagreement: without the scoping condition the code can give a slot too many"
  },
  {
   "property": "C100",
   "status": "proved",
   "theorems": [
    "Verif.NullTy.annotation_changes_only_the_head",
    "Verif.NullTy.annotation",
    "Verif.NullTy.outer_wins",
    "Verif.NullTy.unspecified_around_annotation",
    "Verif.NullTy.alias_is_annotation",
    "Verif.NullTy.alias_argument",
    "Verif.NullTy.typedef_default",
    "Verif.NullTy.unannotated_default",
    "Verif.NullTy.unannotated_pragma",
    "Verif.NullTy.unknown_valid_iff",
    "Verif.NullTy.given_parameter",
    "Verif.NullTy.Example.unspecified_hides_nullable"
   ],
   "note": "the last theorem records a disagreement"
  },
  {
   "property": "C101",
   "status": "proved",
   "theorems": [
    "Verif.NullTy.rebuild_roundtrip",
    "Verif.NullTy.rebuild_iff",
    "Verif.NullTy.smart_pointers_are_not_rebuilt",
    "Verif.NullTy.Example.smart_not_rebuilt"
   ],
   "note": "the last two theorems record a disagreement"
  },
  {
   "property": "C102",
   "status": "proved",
   "theorems": [
    "Verif.CallOrder.analyzeAll_ends",
    "Verif.CallOrder.handled_all",
    "Verif.CallOrder.result_iff",
    "Verif.CallOrder.callees_first",
    "Verif.CallOrder.mutual_together",
    "Verif.CallOrder.alone_not_recursive",
    "Verif.CallOrder.group_recursive",
    "Verif.CallOrder.Example.nonrecursive_in_group",
    "Verif.CallOrder.Example.loop_view"
   ],
   "note": "virtual methods are not modelled; which further functions are in a group depends on the order of callees (nonrecursive_in_group)"
  },
  {
   "property": "C103",
   "status": "proved",
   "theorems": [
    "Verif.CallOrder.results_sound",
    "Verif.CallOrder.Example.error_of_caller",
    "Verif.CallOrder.Example.other_callee_order",
    "Verif.CallOrder.Example.other_function_order",
    "Verif.CallOrder.Example.too_few_passes",
    "Verif.CallOrder.Example.enough_passes",
    "Verif.CallOrder.Example.ring_settled"
   ],
   "note": "the examples record disagreements: a recursive function can get the error of its caller, depending on the order of a hash set, and three functions with one parameter can need more passes than the limit"
  },
  {
   "property": "C104",
   "status": "proved",
   "theorems": [
    "Verif.CallOrder.order_irrelevant",
    "Verif.CallOrder.result_eq",
    "Verif.CallOrder.Example.dag_reordered",
    "Verif.CallOrder.Example.dag_not_recursive"
   ],
   "note": ""
  },
  {
   "property": "C105",
   "status": "proved",
   "theorems": [
    "Verif.ModName.resolves_iff",
    "Verif.ModName.compatible_iff",
    "Verif.ModName.Example.clash_panics"
   ],
   "note": "clash_panics records a disagreement: a clash of renamed items stops the generator"
  },
  {
   "property": "C106",
   "status": "proved",
   "theorems": [
    "Verif.ModName.module_reserved",
    "Verif.ModName.module_free",
    "Verif.ModName.Example.friends_clash",
    "Verif.ModName.Example.alias_clash",
    "Verif.ModName.Example.blocks_clash"
   ],
   "note": "the examples record disagreements: modules of classes with friend functions only, re-exports by type aliases and other blocks of a namespace are not protected"
  },
  {
   "property": "C107",
   "status": "proved",
   "theorems": [
    "Verif.ModName.nested_items_fine"
   ],
   "note": ""
  },
  {
   "property": "C108",
   "status": "proved",
   "theorems": [
    "Verif.TypeVis.mem_dfs",
    "Verif.TypeVis.refused_iff",
    "Verif.TypeVis.public_iff",
    "Verif.TypeVis.public_iff_of_no_error",
    "Verif.TypeVis.record_visibility",
    "Verif.TypeVis.uses_accessible",
    "Verif.TypeVis.mentions_accessible",
    "Verif.TypeVis.function_visibility",
    "Verif.TypeVis.function_order",
    "Verif.TypeVis.Example.vector_of_private",
    "Verif.TypeVis.Example.first_error_decides",
    "Verif.TypeVis.Example.alias_of_error"
   ],
   "note": "the examples record disagreements: arguments of handwritten generic types are not visited, the first type without bindings decides, and an alias that is pub(crate) because of such a type is used in other crates"
  },
  {
   "property": "C109",
   "status": "proved",
   "theorems": [
    "Verif.TypeVis.reasons_iff",
    "Verif.TypeVis.no_reasons_iff",
    "Verif.TypeVis.signature_features",
    "Verif.TypeVis.features_monotone",
    "Verif.TypeVis.Example.vector_of_incomplete"
   ],
   "note": "the example records a disagreement: arguments of handwritten generic types are not checked; global variables and constants are not checked at all (code_snippet.rs:183-188)"
  },
  {
   "property": "C110",
   "status": "proved",
   "theorems": [
    "Verif.StrOwn.strings_refine",
    "Verif.StrOwn.prog_spec",
    "Verif.StrOwn.prog_code"
   ],
   "note": ""
  },
  {
   "property": "C111",
   "status": "proved",
   "theorems": [
    "Verif.StrOwn.strings_owned",
    "Verif.StrOwn.strings_freed",
    "Verif.StrOwn.prog_freed"
   ],
   "note": "a program leaks a string only by dropping an encoded bridge buffer without decoding it (not an operation of the model)"
  },
  {
   "property": "C112",
   "status": "proved",
   "theorems": [
    "Verif.UniqPtr.unique_ptr_refines",
    "Verif.UniqPtr.prog_spec",
    "Verif.UniqPtr.prog_code"
   ],
   "note": ""
  },
  {
   "property": "C113",
   "status": "proved",
   "theorems": [
    "Verif.UniqPtr.destroyed_once",
    "Verif.UniqPtr.all_destroyed",
    "Verif.UniqPtr.cppDelete_ok",
    "Verif.UniqPtr.prog_spec",
    "Verif.UniqPtr.prog_code"
   ],
   "note": "destructors that touch other pointers or throw are not modelled"
  },
  {
   "property": "C114",
   "status": "proved",
   "theorems": [
    "Verif.StrView.to_cpp",
    "Verif.StrView.to_rust",
    "Verif.StrView.roundtrip_slice",
    "Verif.StrView.roundtrip_view",
    "Verif.StrView.compare_agrees",
    "Verif.StrView.example_valid",
    "Verif.StrView.example_run",
    "Verif.StrView.null_not_empty"
   ],
   "note": ""
  },
  {
   "property": "C115",
   "status": "proved",
   "theorems": [
    "Verif.Printer.print_lexes",
    "Verif.Printer.print_lexes_cpp",
    "Verif.Printer.lexN_enough",
    "Verif.Printer.exVec_clean",
    "Verif.Printer.exVec_print",
    "Verif.Printer.exVec_lex",
    "Verif.Printer.exVec_lex_cpp",
    "Verif.Printer.separate_puncts_glued",
    "Verif.Printer.separate_slashes_comment",
    "Verif.Printer.invisible_group_glues",
    "Verif.Printer.tuple_index_glued"
   ],
   "note": "the last four record what streams outside the hypothesis print"
  },
  {
   "property": "C116",
   "status": "proved",
   "theorems": [
    "Verif.Printer.comment_skipped",
    "Verif.Printer.comment_skipped_cpp",
    "Verif.Printer.comment_swallows_cpp",
    "Verif.Printer.literally_eq",
    "Verif.Printer.literally_quote",
    "Verif.Printer.quote_swallows",
    "Verif.Printer.quote_swallows_rust",
    "Verif.Printer.backslash_swallows",
    "Verif.Printer.literally_include",
    "Verif.Printer.path_breaks"
   ],
   "note": "comment_swallows_cpp records a disagreement: the next line of a header is lost after a comment that ends in a quote or backslash"
  },
  {
   "property": "C117",
   "status": "proved",
   "theorems": [
    "Verif.Printer.captures_recorded",
    "Verif.Printer.found_again",
    "Verif.Printer.fixUp_finds",
    "Verif.Printer.cleanLiteral_eq",
    "Verif.Printer.exVec_record",
    "Verif.Printer.found_undocumented",
    "Verif.Printer.found_documented_wrong",
    "Verif.Printer.found_pattern_wrong",
    "Verif.Printer.record_panics"
   ],
   "note": "found_documented_wrong records a disagreement: the index counts from the tag, which the generators put before the documentation, but the search starts after it"
  },
  {
   "property": "C118",
   "status": "proved",
   "theorems": [
    "Verif.PtsTo.inferred_signature_sound",
    "Verif.PtsTo.ev_sound",
    "Verif.PtsTo.run_sound",
    "Verif.PtsTo.exec_sound",
    "Verif.PtsTo.exists_rho",
    "Verif.PtsTo.Example.inferred",
    "Verif.PtsTo.Example.hS",
    "Verif.PtsTo.Example.hentry",
    "Verif.PtsTo.Example.hexec",
    "Verif.PtsTo.Example.locals_rejected",
    "Verif.PtsTo.Example.variance_gap"
   ],
   "note": "for the fragment in PtsTo/Spec.lean: no records, calls, unsafe casts, new; address of a static pointer variable not taken; regular types (variance_gap shows that the theorem fails without: is_in_invariant_context is overwritten instead of accumulated)"
  },
  {
   "property": "C119",
   "status": "proved",
   "theorems": [
    "Verif.PtsTo.points_to_sound",
    "Verif.PtsTo.exec_sound",
    "Verif.PtsTo.cs_reach"
   ],
   "note": "same fragment"
  },
  {
   "property": "C120",
   "status": "proved",
   "theorems": [
    "Verif.PtsTo.static_reaches_no_local",
    "Verif.PtsTo.staticReach_terminates",
    "Verif.PtsTo.staticReach_spec",
    "Verif.PtsTo.staticCheck_true"
   ],
   "note": "same fragment"
  },
  {
   "property": "C121",
   "status": "proved",
   "theorems": [
    "Verif.NullSound.fault_reported",
    "Verif.NullSound.no_warnings_no_fault",
    "Verif.NullSound.stmt_sound"
   ],
   "note": "for the language of NullSound/Spec.lean (three-address form; no fields, pointees of pointers, lambdas) without the five constructs of C125; a solver that gives up is an error in the code (pointer_nullability_diagnosis.cc:1720)"
  },
  {
   "property": "C122",
   "status": "proved",
   "theorems": [
    "Verif.NullSound.annotated_fault_reported",
    "Verif.NullSound.annotated_no_warnings_no_fault"
   ],
   "note": "same fragment"
  },
  {
   "property": "C123",
   "status": "proved",
   "theorems": [
    "Verif.NullSound.checked_use_not_reported",
    "Verif.NullSound.use_after_check_not_reported"
   ],
   "note": ""
  },
  {
   "property": "C124",
   "status": "proved",
   "theorems": [
    "Verif.NullSound.diagnose_converges",
    "Verif.NullSound.loop_converges",
    "Verif.NullSound.Step.down",
    "Verif.NullSound.widen_regains"
   ],
   "note": "an inner loop starts afresh in every pass over an outer one; the code counts block visits (20000) instead"
  },
  {
   "property": "C125",
   "status": "proved",
   "theorems": [
    "Verif.NullSound.offset_zero_missed",
    "Verif.NullSound.add_zero_missed",
    "Verif.NullSound.smart_compare_missed",
    "Verif.NullSound.annotated_output_missed",
    "Verif.NullSound.self_move_missed"
   ],
   "note": ""
  },
  {
   "property": "C126",
   "status": "proved",
   "theorems": [
    "Verif.Infer.summary_lossless",
    "Verif.Infer.exportCtx_exported",
    "Verif.Infer.exFound"
   ],
   "note": "the framework (formula text, logical context export, solver) by contract; malformed text not modelled; no solver time-out between behaviours"
  },
  {
   "property": "C127",
   "status": "proved",
   "theorems": [
    "Verif.Infer.evidence_exact",
    "Verif.Infer.requirement_sound",
    "Verif.Infer.requirement_one",
    "Verif.Infer.requirement_stable",
    "Verif.Infer.exOpen",
    "Verif.Infer.exFirst"
   ],
   "note": "which behaviours a statement has (NullabilityBehaviorVisitor) is not modelled"
  },
  {
   "property": "C128",
   "status": "proved",
   "theorems": [
    "Verif.Infer.requirement_settled",
    "Verif.Infer.requirement_settled_nullable",
    "Verif.Infer.settled_value_is_nonnull",
    "Verif.Infer.value_evidence_demands"
   ],
   "note": ""
  },
  {
   "property": "C129",
   "status": "proved",
   "theorems": [
    "Verif.Infer.index_exact",
    "Verif.Infer.exBasesFirst",
    "Verif.Infer.exConsistent",
    "Verif.Infer.exIndex",
    "Verif.Infer.instantiation_before_base"
   ],
   "note": "instantiation_before_base records a disagreement"
  },
  {
   "property": "C130",
   "status": "proved",
   "theorems": [
    "Verif.Infer.downward_exact",
    "Verif.Infer.upward_exact",
    "Verif.Infer.invariant_exact",
    "Verif.Infer.flows_down",
    "Verif.Infer.flows_up",
    "Verif.Infer.tests_do_not_constrain",
    "Verif.Infer.forced_down",
    "Verif.Infer.forced_up",
    "Verif.Infer.scoped_propagation",
    "Verif.Infer.siblings_not_reached",
    "Verif.Infer.override_annotation_hides_conflict",
    "Verif.Infer.captured_parameter_not_propagated"
   ],
   "note": "the last three record disagreements"
  },
  {
   "property": "C131",
   "status": "proved",
   "theorems": [
    "Verif.Infer.round_verdict",
    "Verif.Infer.previous_exact",
    "Verif.Infer.roundEvidence_spread",
    "Verif.Infer.dereference_inferred",
    "Verif.Infer.dereference_inferred_for_base",
    "Verif.Infer.dereference_settled",
    "Verif.Infer.exSorts",
    "Verif.Infer.exRound"
   ],
   "note": ""
  },
  {
   "property": "C132",
   "status": "proved",
   "theorems": [
    "Verif.CcValue.drop_is_destroy",
    "Verif.CcValue.drop_destroys_each_once",
    "Verif.CcValue.Cls.mem_destroy",
    "Verif.CcValue.Cls.nodup_destroy",
    "Verif.CcValue.Example.box_ok",
    "Verif.CcValue.Example.box_drop",
    "Verif.CcValue.Example.box_drop_is_destroy",
    "Verif.CcValue.Example.union_ok",
    "Verif.CcValue.Example.private_destructor_drops_fields"
   ],
   "note": "virtual bases are destroyed with the class that names them; exceptions are not modelled; private_destructor_drops_fields records a disagreement"
  },
  {
   "property": "C133",
   "status": "proved",
   "theorems": [
    "Verif.CcValue.clone_is_copy",
    "Verif.CcValue.copy_is_bitwise",
    "Verif.CcValue.copy_iff",
    "Verif.CcValue.clone_exists",
    "Verif.CcValue.Example.box_clone",
    "Verif.CcValue.Example.point_copy",
    "Verif.CcValue.Example.first_copy_constructor_decides",
    "Verif.CcValue.Example.forced_clone_releases_twice"
   ],
   "note": "first_copy_constructor_decides and forced_clone_releases_twice show why the two conditions are needed"
  },
  {
   "property": "C134",
   "status": "proved",
   "theorems": [
    "Verif.CcValue.no_double_release",
    "Verif.CcValue.no_leak",
    "Verif.CcValue.trivial_copy_no_body",
    "Verif.CcValue.copy_covers",
    "Verif.CcValue.Example.handle_good",
    "Verif.CcValue.Example.ops_run",
    "Verif.CcValue.Example.ops_good",
    "Verif.CcValue.Example.bad_releases_twice"
   ],
   "note": "a copy constructor body is taken to give all subobjects resources of their own"
  },
  {
   "property": "C135",
   "status": "proved",
   "theorems": [
    "Verif.CcValue.plain_compiles",
    "Verif.CcValue.Example.box_ok",
    "Verif.CcValue.Example.mutable_in_member_breaks_copy",
    "Verif.CcValue.Example.thread_safe_member_breaks_copy",
    "Verif.CcValue.Example.annotated_member_breaks_copy",
    "Verif.CcValue.Example.friend_copy_breaks_copy",
    "Verif.CcValue.Example.mutable_reference_breaks_copy",
    "Verif.CcValue.Example.user_move_breaks_copy",
    "Verif.CcValue.Example.array_in_union_refused",
    "Verif.CcValue.Example.mutable_field_is_fine"
   ],
   "note": "the examples record disagreements: definitions that are refused"
  },
  {
   "property": "C136",
   "status": "proved",
   "theorems": [
    "Verif.CcValue.unpin_iff",
    "Verif.CcValue.not_unpin",
    "Verif.CcValue.Example.point_copy",
    "Verif.CcValue.Example.user_move_breaks_copy"
   ],
   "note": "user_move_breaks_copy records a disagreement"
  },
  {
   "property": "C137",
   "status": "proved",
   "theorems": [
    "Verif.CcValue.mutable_is_cell",
    "Verif.CcValue.Example.holder_cells",
    "Verif.CcValue.Example.mutable_in_base_not_a_cell",
    "Verif.CcValue.Example.mutable_in_private_not_a_cell"
   ],
   "note": "the two last examples record a disagreement: mutable data of a base, or of a private field, of a class that is Copy"
  },
  {
   "property": "C138",
   "status": "proved",
   "theorems": [
    "Verif.Bases.listed_convertible",
    "Verif.Bases.convertible_listed",
    "Verif.Bases.Example.D_proper",
    "Verif.Bases.Example.diamond_listed",
    "Verif.Bases.Example.diamond_convertible",
    "Verif.Bases.Example.no_upcast_to_ambiguous",
    "Verif.Bases.Example.no_upcast_to_private",
    "Verif.Bases.Example.public_path_missed",
    "Verif.Bases.Example.public_path_exists",
    "Verif.Bases.Example.public_path_unambiguous"
   ],
   "note": "the Clang functions lookupInBases, MergeAccess and isAmbiguous are modelled from Clang, whose source is not in /repo; public_path_* record a disagreement"
  },
  {
   "property": "C139",
   "status": "proved",
   "theorems": [
    "Verif.Bases.upcast_address",
    "Verif.Bases.offset_static",
    "Verif.Bases.Example.placed",
    "Verif.Bases.Example.diamond_upcast"
   ],
   "note": "the C++ thunk that converts to virtual bases is taken to do what C++ says"
  },
  {
   "property": "C140",
   "status": "proved",
   "theorems": [
    "Verif.Bases.inherited_found",
    "Verif.Bases.inherited_iff",
    "Verif.Bases.inherited_deterministic",
    "Verif.Bases.Example.f_inherited",
    "Verif.Bases.Example.f_found",
    "Verif.Bases.Example.g_in_both",
    "Verif.Bases.Example.sort_exists",
    "Verif.Bases.Example.shuffle_exists",
    "Verif.Bases.Example.hidden_by_private",
    "Verif.Bases.Example.hidden_by_unbound",
    "Verif.Bases.Example.cxx_finds_hiding",
    "Verif.Bases.Example.ambiguous_with_private_base"
   ],
   "note": "hidden_by_* and ambiguous_with_private_base record disagreements, which is why the condition on the declarations is needed"
  },
  {
   "property": "C141",
   "status": "proved",
   "theorems": [
    "Verif.ExprNull.typed_vector",
    "Verif.ExprNull.typeNullability_eq",
    "Verif.ExprNull.Example.smart_pointer_slice",
    "Verif.ExprNull.Example.deduced_argument",
    "Verif.ExprNull.Example.two_steps",
    "Verif.ExprNull.Example.inner_class"
   ],
   "note": "parameter packs, member pointers and fields that may have been moved from are not modelled; the examples record disagreements with the annotations"
  },
  {
   "property": "C142",
   "status": "proved",
   "theorems": [
    "Verif.ExprNull.vector_length",
    "Verif.ExprNull.typed_vector"
   ],
   "note": ""
  },
  {
   "property": "C143",
   "status": "proved",
   "theorems": [
    "Verif.ExprNull.element_access",
    "Verif.ExprNull.element_field",
    "Verif.ExprNull.explicit_argument"
   ],
   "note": ""
  },
  {
   "property": "C144",
   "status": "proved",
   "theorems": [
    "Verif.Consts.constant_same_value",
    "Verif.Consts.constant_never_wrong",
    "Verif.Consts.constants_equal_iff",
    "Verif.Consts.int128_bound_iff",
    "Verif.Consts.negative_char_refused",
    "Verif.Consts.huge_u128_wrong",
    "Verif.Consts.u128_refused",
    "Verif.Consts.ex_int",
    "Verif.Consts.ex_extremes"
   ],
   "note": "negative_char_refused, huge_u128_wrong and u128_refused record disagreements; how Clang evaluates constants is not modelled"
  },
  {
   "property": "C145",
   "status": "proved",
   "theorems": [
    "Verif.Consts.rust_constant_same_value",
    "Verif.Consts.text_value",
    "Verif.Consts.c_char_same_bits",
    "Verif.Consts.rust_constant_given",
    "Verif.Consts.apple_long_panics",
    "Verif.Consts.least_longlong_ill_formed",
    "Verif.Consts.c_char_enumerator_ill_formed",
    "Verif.Consts.ex_roundtrip"
   ],
   "note": "floating point constants and strings are not modelled; the three before the last record disagreements"
  },
  {
   "property": "C146",
   "status": "proved",
   "theorems": [
    "Verif.Consts.rust_cpp_rust",
    "Verif.Consts.ex_roundtrip"
   ],
   "note": ""
  },
  {
   "property": "C147",
   "status": "proved",
   "theorems": [
    "Verif.Consts.variant_constructor",
    "Verif.Consts.single_variant",
    "Verif.Consts.ex_tag"
   ],
   "note": "the layout computed by rustc (tag offset, size and value) is input"
  },
  {
   "property": "C148",
   "status": "proved",
   "theorems": [
    "Verif.Consts.ffi11_one_to_one",
    "Verif.Consts.ffi11_builtin_iff",
    "Verif.Consts.ffi11_width",
    "Verif.Consts.primitives_one_to_one",
    "Verif.Consts.char16_collides"
   ],
   "note": "char16_collides records a disagreement; nullptr_t and floating point types not modelled"
  },
  {
   "property": "C149",
   "status": "proved",
   "theorems": [
    "Verif.Ops.bound_iff_canonical",
    "Verif.Ops.bound_unique",
    "Verif.Ops.bound_perm",
    "Verif.Ops.nondeprecated_wins",
    "Verif.Ops.emitted_iff",
    "Verif.Ops.overload_example"
   ],
   "note": ""
  },
  {
   "property": "C150",
   "status": "proved",
   "theorems": [
    "Verif.Ops.operator_symbol",
    "Verif.Ops.operands_in_order",
    "Verif.Ops.operator_available",
    "Verif.Ops.compare_example"
   ],
   "note": "the call through the thunk is C80"
  },
  {
   "property": "C151",
   "status": "proved",
   "theorems": [
    "Verif.Ops.rust_eq_is_cpp_eq",
    "Verif.Ops.rust_eq_unique",
    "Verif.Ops.no_conflicting_impls",
    "Verif.Ops.cpp_eq_reaches_rust",
    "Verif.Ops.compare_example",
    "Verif.Ops.mixed_params_lose_both",
    "Verif.Ops.alias_conflict"
   ],
   "note": "the last two record disagreements; derived PartialEq impls are not modelled"
  },
  {
   "property": "C152",
   "status": "proved",
   "theorems": [
    "Verif.Ops.partialOrd_has_eq",
    "Verif.Ops.contract_iff",
    "Verif.Ops.dual_iff",
    "Verif.Ops.total_order",
    "Verif.Ops.none_iff",
    "Verif.Ops.compare_example",
    "Verif.Ops.partialOrd_without_partialEq"
   ],
   "note": "the last records a disagreement: the operator== found may itself be hidden by an overload"
  },
  {
   "property": "C153",
   "status": "proved",
   "theorems": [
    "Verif.Ops.index_access",
    "Verif.Ops.indexMut_has_index",
    "Verif.Ops.index_example",
    "Verif.Ops.index_outputs_differ"
   ],
   "note": "the last records a disagreement"
  },
  {
   "property": "C154",
   "status": "proved",
   "theorems": [
    "Verif.Ops.fresh_not_used",
    "Verif.Ops.materialized_lifetimes_fresh",
    "Verif.Ops.materialize_example"
   ],
   "note": ""
  },
  {
   "property": "C155",
   "status": "proved",
   "theorems": [
    "Verif.InlineCpp.parse_ok_iff",
    "Verif.InlineCpp.parse_error_iff",
    "Verif.InlineCpp.blocks_unique",
    "Verif.InlineCpp.blocks_not_unclosed",
    "Verif.InlineCpp.unclosed_unique",
    "Verif.InlineCpp.example_parse",
    "Verif.InlineCpp.example_unclosed",
    "Verif.InlineCpp.parentheses_not_extracted",
    "Verif.InlineCpp.comment_not_extracted"
   ],
   "note": "the last two record disagreements; the lexer is not modelled"
  },
  {
   "property": "C156",
   "status": "proved",
   "theorems": [
    "Verif.InlineCpp.diagnostics_map_back",
    "Verif.InlineCpp.example_header",
    "Verif.InlineCpp.example_noDirective"
   ],
   "note": "file names without quotes and newlines"
  },
  {
   "property": "C157",
   "status": "proved",
   "theorems": [
    "Verif.InlineCpp.thunkName_inj",
    "Verif.InlineCpp.thunkName_files",
    "Verif.InlineCpp.thunkName_ident",
    "Verif.InlineCpp.thunks_distinct",
    "Verif.InlineCpp.expansion_defined",
    "Verif.InlineCpp.example_header",
    "Verif.InlineCpp.example_name",
    "Verif.InlineCpp.space_in_path_name",
    "Verif.InlineCpp.space_in_file_name"
   ],
   "note": "the last two record disagreements; equal base names in different directories rely on the hash and are not claimed"
  },
  {
   "property": "C158",
   "status": "proved",
   "theorems": [
    "Verif.InlineCpp.validate_iff",
    "Verif.InlineCpp.extractInline_ok_iff",
    "Verif.InlineCpp.example_signature",
    "Verif.InlineCpp.trailing_declaration_accepted"
   ],
   "note": "the last shows what the form allows"
  },
  {
   "property": "C159",
   "status": "proved",
   "theorems": [
    "Verif.InlineCpp.format_outside_unchanged",
    "Verif.InlineCpp.newBody_indented",
    "Verif.InlineCpp.format_content",
    "Verif.InlineCpp.example_braces",
    "Verif.InlineCpp.example_clang",
    "Verif.InlineCpp.example_format",
    "Verif.InlineCpp.wrapper_leaks",
    "Verif.InlineCpp.raw_string_changes"
   ],
   "note": "the last two record disagreements"
  },
  {
   "property": "C160",
   "status": "proved",
   "theorems": [
    "Verif.CppTypes.assert_exact",
    "Verif.CppTypes.Ex.sample_assert",
    "Verif.CppTypes.Ex.sample_tokens",
    "Verif.CppTypes.Ex.slice_of_const_pointers",
    "Verif.CppTypes.Ex.renamed_enum",
    "Verif.CppTypes.Ex.variadic_noexcept_dropped",
    "Verif.CppTypes.Ex.const_result_dropped"
   ],
   "note": "the last four record disagreements; a name is one token, volatile and bridge types are not modelled"
  },
  {
   "property": "C161",
   "status": "proved",
   "theorems": [
    "Verif.CppTypes.thunk_exact",
    "Verif.CppTypes.Ex.sample_thunk"
   ],
   "note": "same exceptions as C160"
  },
  {
   "property": "C162",
   "status": "proved",
   "theorems": [
    "Verif.CppTypes.rust_agrees",
    "Verif.CppTypes.Ex.sample_agrees",
    "Verif.CppTypes.Ex.variadic_noexcept_dropped"
   ],
   "note": "the last records a disagreement"
  },
  {
   "property": "C163",
   "status": "proved",
   "theorems": [
    "Verif.RsTypes.cc_type_corresponds",
    "Verif.RsTypes.slice_of_rvref_const"
   ],
   "note": "the last records a disagreement; user-supplied C++ spellings, other generic types and prerequisites are not modelled"
  },
  {
   "property": "C164",
   "status": "proved",
   "theorems": [
    "Verif.RsTypes.cc_type_well_formed"
   ],
   "note": "same exception as C163"
  },
  {
   "property": "C165",
   "status": "proved",
   "theorems": [
    "Verif.RsTypes.rs_type_exact",
    "Verif.RsTypes.thunk_type_exact",
    "Verif.RsTypes.hrtb_spelled_static"
   ],
   "note": "the last records a disagreement; a path is one token"
  },
  {
   "property": "C166",
   "status": "proved",
   "theorems": [
    "Verif.RsTypes.avoid_items",
    "Verif.RsTypes.rejected_iff",
    "Verif.RsTypes.kept_types_differ",
    "Verif.RsTypes.rejected_collides",
    "Verif.RsTypes.usual_target",
    "Verif.RsTypes.tuples_collide",
    "Verif.RsTypes.vecs_collide"
   ],
   "note": "the last two record disagreements"
  },
  {
   "property": "C167",
   "status": "proved",
   "theorems": [
    "Verif.Reopen.reopened_namespaces",
    "Verif.Reopen.Example.wf",
    "Verif.Reopen.Example.tops_run",
    "Verif.Reopen.Example.lost_run",
    "Verif.Reopen.Example.panics_run"
   ],
   "note": "the last two record disagreements"
  },
  {
   "property": "C168",
   "status": "proved",
   "theorems": [
    "Verif.Names.escape_injective",
    "Verif.Names.escape_ident",
    "Verif.Names.thunk_names_differ",
    "Verif.Names.thunk_name_ident"
   ],
   "note": ""
  },
  {
   "property": "C169",
   "status": "proved",
   "theorems": [
    "Verif.Names.cpp_keywords_reserved",
    "Verif.Names.unkeyword_not_reserved",
    "Verif.Names.unkeyword_other",
    "Verif.Names.unkeyword_collides",
    "Verif.Names.format_name",
    "Verif.Names.format_name_safe",
    "Verif.Names.field_name_safe",
    "Verif.Names.field_name_kept",
    "Verif.Names.field_name_not_method",
    "Verif.Names.tuple_field_name",
    "Verif.Names.tuple_fields_differ",
    "Verif.Names.fields_collide",
    "Verif.Names.field_named_like_method",
    "Verif.Names.raw_name_not_ident"
   ],
   "note": "the last three record disagreements"
  },
  {
   "property": "C170",
   "status": "proved",
   "theorems": [
    "Verif.Names.hyphens_eq",
    "Verif.Names.rs_ident_iff",
    "Verif.Names.rs_ident_valid",
    "Verif.Names.rs_ident_injective",
    "Verif.Names.imported_name_ok",
    "Verif.Names.import_refuses",
    "Verif.Names.synKw_ok",
    "Verif.Names.underscore_panics",
    "Verif.Names.crates_collide"
   ],
   "note": "the last two record disagreements"
  },
  {
   "property": "C171",
   "status": "proved",
   "theorems": [
    "Verif.Names.fragment_cont",
    "Verif.Names.fragment_id",
    "Verif.Names.thunk_ident_ident",
    "Verif.Names.thunks_differ",
    "Verif.Names.thunk_readable",
    "Verif.Names.itanium_plain",
    "Verif.Names.fragments_collide"
   ],
   "note": "the last records a collision that a comment in the code admits"
  },
  {
   "property": "C172",
   "status": "proved",
   "theorems": [
    "Verif.Names.pointer_type",
    "Verif.Names.pointer_to_base",
    "Verif.Names.not_pointer",
    "Verif.Names.const_pointer_not_recognised",
    "Verif.Names.pointer_to_pointer_misread"
   ],
   "note": "the last two record disagreements"
  },
  {
   "property": "C173",
   "status": "proved",
   "theorems": [
    "Verif.Iter.adapter_observes",
    "Verif.Iter.adapter_source",
    "Verif.Iter.adapter_drops",
    "Verif.Iter.loop_same",
    "Verif.Iter.not_fused"
   ],
   "note": "the last is an example of an iterator that goes on after its end"
  },
  {
   "property": "C174",
   "status": "proved",
   "theorems": [
    "Verif.Tmpl.name_eq",
    "Verif.Tmpl.names_agree",
    "Verif.Tmpl.collect_mem",
    "Verif.Tmpl.collect_sorted",
    "Verif.Tmpl.collect_deterministic",
    "Verif.Tmpl.expands",
    "Verif.Tmpl.only_requested",
    "Verif.Tmpl.spaces_never_found",
    "Verif.Tmpl.Example.invoked",
    "Verif.Tmpl.Example.run",
    "Verif.Tmpl.Example.expanded",
    "Verif.Tmpl.Example.words_joined"
   ],
   "note": "spaces_never_found and words_joined record disagreements"
  },
  {
   "property": "C175",
   "status": "proved",
   "theorems": [
    "Verif.Cmd.targets_accepted",
    "Verif.Cmd.header_owner",
    "Verif.Cmd.target_features",
    "Verif.Cmd.crate_name",
    "Verif.Cmd.order_irrelevant",
    "Verif.Cmd.public_headers_owned",
    "Verif.Cmd.create_iff",
    "Verif.Cmd.Example.run"
   ],
   "note": ""
  },
  {
   "property": "C176",
   "status": "proved",
   "theorems": [
    "Verif.Cmd.file_roundtrip",
    "Verif.Cmd.file_no_newline",
    "Verif.Cmd.expand_append",
    "Verif.Cmd.expand_plain",
    "Verif.Cmd.expand_file",
    "Verif.Cmd.preprocess_items",
    "Verif.Cmd.preprocess_none",
    "Verif.Cmd.empty_last_lost",
    "Verif.Cmd.after_stop_changed",
    "Verif.Cmd.missing_value"
   ],
   "note": "the last three record disagreements"
  },
  {
   "property": "C177",
   "status": "proved",
   "theorems": [
    "Verif.Report.errors_reported",
    "Verif.Report.categories_reported",
    "Verif.Report.items_reported",
    "Verif.Report.items_named",
    "Verif.Report.only_items",
    "Verif.Report.panics_iff",
    "Verif.Report.displayed",
    "Verif.Report.displayed_dynamic",
    "Verif.Report.fatal_taken",
    "Verif.Report.empty_message"
   ],
   "note": "the last records a disagreement; JSON is not modelled"
  },
  {
   "property": "C178",
   "status": "proved",
   "theorems": [
    "Verif.Report.hide_def_id",
    "Verif.Report.hide_hash",
    "Verif.Report.hide_other",
    "Verif.Report.shown_static",
    "Verif.Report.dynamic_not_hidden",
    "Verif.Report.hash_in_hash"
   ],
   "note": "the last two record disagreements"
  },
  {
   "property": "C179",
   "status": "proved",
   "theorems": [
    "Verif.AbiTy.abi_sound",
    "Verif.AbiTy.path_text",
    "Verif.AbiTy.path_accepted",
    "Verif.AbiTy.ref_mismatch",
    "Verif.AbiTy.const_misread"
   ],
   "note": "the last two record disagreements"
  },
  {
   "property": "C180",
   "status": "proved",
   "theorems": [
    "Verif.Pre.default_is_first",
    "Verif.Pre.default_unspecified",
    "Verif.Pre.warnings_exact",
    "Verif.Pre.warnings_ordered"
   ],
   "note": ""
  },
  {
   "property": "C181",
   "status": "proved",
   "theorems": [
    "Verif.Pre.filter_answers",
    "Verif.Pre.selected_exact"
   ],
   "note": "pattern matching and the source manager are parameters"
  },
  {
   "property": "C182",
   "status": "proved",
   "theorems": [
    "Verif.Pre.replaced",
    "Verif.Pre.original_kept",
    "Verif.Pre.others_unchanged",
    "Verif.Pre.copy_unchanged"
   ],
   "note": "the code after the header does not itself write names with the reserved prefix"
  },
  {
   "property": "C183",
   "status": "proved",
   "theorems": [
    "Verif.Doc.keepLine_iff",
    "Verif.Doc.comment_exact",
    "Verif.Doc.trim_spec",
    "Verif.Doc.rust_doc",
    "Verif.Doc.cpp_doc"
   ],
   "note": "the comment text is what clang formats; documentation attributes of Rust are given as strings"
  },
  {
   "property": "C184",
   "status": "proved",
   "theorems": [
    "Verif.Doc.location_text",
    "Verif.Doc.no_offsets",
    "Verif.Doc.name_with_prefix",
    "Verif.Doc.place_injective"
   ],
   "note": "disagreement: importer drops the offsets that the parser of captures expects"
  },
  {
   "property": "C185",
   "status": "proved",
   "theorems": [
    "Verif.Doc.includes_order_free",
    "Verif.Doc.includes_exact",
    "Verif.Doc.fromPath_exact",
    "Verif.Doc.system_read",
    "Verif.Doc.quoted_read",
    "Verif.Doc.plain_read",
    "Verif.Doc.Example.backslash_read"
   ],
   "note": "escapes of literals are a parameter"
  },
  {
   "property": "C186",
   "status": "proved",
   "theorems": [
    "Verif.Annot.read_some_iff",
    "Verif.Annot.read_none_iff",
    "Verif.Annot.order_free",
    "Verif.Annot.flag_exact",
    "Verif.Annot.strings_exact",
    "Verif.Annot.string_exact",
    "Verif.Annot.type_exact",
    "Verif.Annot.bool_exact"
   ],
   "note": "the evaluation of arguments by clang is an input"
  },
  {
   "property": "C187",
   "status": "proved",
   "theorems": [
    "Verif.Fmt.parses_iff",
    "Verif.Fmt.format_eq",
    "Verif.Fmt.format_escape",
    "Verif.Fmt.unmatched_close_iff",
    "Verif.Fmt.unmatched_open_iff",
    "Verif.Fmt.unknown_iff",
    "Verif.Fmt.parse_ends",
    "Verif.Fmt.formats_eq_iff",
    "Verif.Fmt.unambiguous"
   ],
   "note": ""
  },
  {
   "property": "C188",
   "status": "proved",
   "theorems": [
    "Verif.Fwd.compiles_iff",
    "Verif.Fwd.result",
    "Verif.Fwd.back",
    "Verif.Fwd.chain",
    "Verif.Fwd.no_confusion",
    "Verif.Fwd.stays_pinned",
    "Verif.Fwd.pointer_panics_iff",
    "Verif.Fwd.never_panics",
    "Verif.Fwd.vec_compiles_iff",
    "Verif.Fwd.vec_fits",
    "Verif.Fwd.vec_reinterpreted",
    "Verif.Fwd.slice_of_forward"
   ],
   "note": ""
  },
  {
   "property": "C189",
   "status": "proved",
   "theorems": [
    "Verif.Errs.history",
    "Verif.Errs.length_life",
    "Verif.Errs.answers_unique",
    "Verif.Errs.pending_exists",
    "Verif.Errs.pending_unique",
    "Verif.Errs.no_panic",
    "Verif.Errs.drop_panics",
    "Verif.Errs.nothing_lost"
   ],
   "note": ""
  }
 ]
}