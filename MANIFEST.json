{
 "claims": [
  {
   "property": "C01",
   "status": "proved",
   "theorems": [
    "Nnx.C01_partition_first_match",
    "Nnx.C01_partition_exactly_one"
   ],
   "note": ""
  },
  {
   "property": "C02",
   "status": "proved",
   "theorems": [
    "Nnx.C02_misplaced_ellipsis",
    "Nnx.C02_partition_fails_iff",
    "Nnx.C02_filter_total"
   ],
   "note": ""
  },
  {
   "property": "C03",
   "status": "proved",
   "theorems": [
    "Nnx.C03_merge_partition"
   ],
   "note": ""
  },
  {
   "property": "C04",
   "status": "proved",
   "theorems": [
    "Nnx.C04_filter_restricts",
    "Nnx.C04_filter_single"
   ],
   "note": ""
  },
  {
   "property": "C05",
   "status": "proved",
   "theorems": [
    "Nnx.C05_strictly_sorted",
    "Nnx.C05_canonical",
    "Nnx.C05_last_wins",
    "Nnx.C05_insertion_order_irrelevant"
   ],
   "note": "Histories are the inductive predicate Obtainable."
  },
  {
   "property": "C06",
   "status": "proved",
   "theorems": [
    "Nnx.C06_merge_last_wins",
    "Nnx.C06_merge_assoc",
    "Nnx.C06_merge_laws"
   ],
   "note": ""
  },
  {
   "property": "C07",
   "status": "proved",
   "theorems": [
    "Nnx.C07_lookup",
    "Nnx.C07_algebra"
   ],
   "note": ""
  },
  {
   "property": "C08",
   "status": "proved",
   "theorems": [
    "Nnx.C08_unflatten_flatten",
    "Nnx.C08_treeMap",
    "Nnx.C08_treedef"
   ],
   "note": ""
  },
  {
   "property": "C09",
   "status": "proved",
   "theorems": [
    "Nnx.C09_buffers",
    "Nnx.C09_class_filter",
    "Nnx.C09_filter_meaning",
    "Nnx.C09_boolean_algebra",
    "Nnx.C09_leftmost_fault",
    "Nnx.C09_string_filter"
   ],
   "note": ""
  },
  {
   "property": "C10",
   "status": "proved",
   "theorems": [
    "Nnx.C10_get_state_returns",
    "Nnx.C10_budget_irrelevant",
    "Nnx.C10_get_state_entries",
    "Nnx.C10_node_types",
    "Nnx.C10_internal_names"
   ],
   "note": ""
  },
  {
   "property": "C11",
   "status": "proved",
   "theorems": [
    "Nnx.C11_partition_returns",
    "Nnx.C11_partition_merge",
    "Nnx.C11_slash_breaks_merge",
    "Nnx.C11_slash_moves",
    "Nnx.C11_reserved_dropped"
   ],
   "note": "The last three are concrete graphs outside the hypotheses (an attribute name with a slash, a static attribute named _module__...) on which the round trip fails."
  },
  {
   "property": "C12",
   "status": "proved",
   "theorems": [
    "Nnx.C12_clone_fresh",
    "Nnx.C12_clone_independent",
    "Nnx.C12_clone_unaffected"
   ],
   "note": "Static values are opaque: mutating the inside of a static Python object shared by both is not modelled, and Modules inside of such an object are shared (C124)."
  },
  {
   "property": "C13",
   "status": "proved",
   "theorems": [
    "Nnx.C13_filtered_round_trip"
   ],
   "note": ""
  },
  {
   "property": "C14",
   "status": "proved",
   "theorems": [
    "Nnx.C14_addressed_updated",
    "Nnx.C14_frame",
    "Nnx.C14_succeeds",
    "Nnx.C14_succeeds_limit",
    "Nnx.C14_not_atomic",
    "Nnx.C14_alias_conflict",
    "Nnx.C14_overwrites_submodule"
   ],
   "note": "The last three are witnesses of what the code does outside the hypotheses."
  },
  {
   "property": "C15",
   "status": "proved",
   "theorems": [
    "Nnx.C15_own_state",
    "Nnx.C15_repeat",
    "Nnx.C15_conflict_not_idempotent"
   ],
   "note": "C15_conflict_not_idempotent shows the hypothesis on aliases is needed."
  },
  {
   "property": "C16",
   "status": "proved",
   "theorems": [
    "Nnx.C16_kind_preserved",
    "Nnx.C16_mismatch_rejected",
    "Nnx.C16_mismatch_error"
   ],
   "note": ""
  },
  {
   "property": "C17",
   "status": "partial",
   "theorems": [
    "Nnx.C17_pop_state_partial",
    "Nnx.C17_nothing_left_partial",
    "Nnx.C17_returns_only_if_acyclic",
    "Nnx.C17_cycle_never_returns",
    "Nnx.C17_path_filter_misses",
    "Nnx.C10_node_types"
   ],
   "note": "Proved for graphs without reference cycles; the statement is false on cycles (C17_cycle_never_returns, C17_returns_only_if_acyclic) and, for path-dependent filters on shared modules, the nothing-left part is false (C17_path_filter_misses)."
  },
  {
   "property": "C18",
   "status": "proved",
   "theorems": [
    "Nnx.C18_for_each"
   ],
   "note": ""
  },
  {
   "property": "C19",
   "status": "proved",
   "theorems": [
    "Nnx.C19_init",
    "Nnx.C19_only_init_changes_flags",
    "Nnx.C19_nested_clears_early"
   ],
   "note": "C19_nested_clears_early records that the end of a nested init unmarks modules early."
  },
  {
   "property": "C20",
   "status": "proved",
   "theorems": [
    "Nnx.C20_sow_accumulates",
    "Nnx.C20_sow_frame",
    "Nnx.C20_sow_succeeds",
    "Nnx.C20_sow_rejects"
   ],
   "note": ""
  },
  {
   "property": "C21",
   "status": "proved",
   "theorems": [
    "Nnx.C21_assign_refused",
    "Nnx.C21_success_needs_trace",
    "Nnx.C21_update_protects",
    "Nnx.C21_update_refused",
    "Nnx.C21_update_needs_trace",
    "Nnx.C21_creation_trace",
    "Nnx.C21_pop_not_guarded"
   ],
   "note": "C21_pop_not_guarded records that pop_state bypasses the guard."
  },
  {
   "property": "C22",
   "status": "proved",
   "theorems": [
    "Nnx.C22_paths_and_reads",
    "Nnx.C22_write",
    "Nnx.C22_deleted",
    "Nnx.C22_sharding_raises",
    "Nnx.C22_sharding_otherwise"
   ],
   "note": "C22_sharding_raises: the other property of a leaf, sharding, raises AttributeError for every Node container (Disagreement 9)"
  },
  {
   "property": "C23",
   "status": "proved",
   "theorems": [
    "Nnx.C23_equal_defs_merge_equal",
    "Nnx.C23_equal_defs_hash_equal",
    "Nnx.C23_eq_equivalence",
    "Nnx.C23_equal_defs_same_structure",
    "Nnx.C23_index_ignored"
   ],
   "note": "Equality of static values is the equality of the opaque value type (values up to Python ==). C23_index_ignored shows why the definitions must come from modules."
  },
  {
   "property": "C24",
   "status": "proved",
   "theorems": [
    "Nnx.C24_partition_canonical",
    "Nnx.C24_partition_complete",
    "Nnx.C24_clone_same_def"
   ],
   "note": ""
  },
  {
   "property": "C25",
   "status": "partial",
   "theorems": [
    "Nnx.C25_update_state_partial",
    "Nnx.C25_updates_lost"
   ],
   "note": "The statement is false of the code (C25_updates_lost); the partial theorem says exactly what the code computes."
  },
  {
   "property": "C26",
   "status": "proved",
   "theorems": [
    "Nnx.C26_get_state",
    "Nnx.C26_partition",
    "Nnx.C26_filter",
    "Nnx.C26_unpacked",
    "Nnx.C26_pop_state",
    "Nnx.C26_pop_state_succeeds"
   ],
   "note": ""
  },
  {
   "property": "C27",
   "status": "partial",
   "theorems": [
    "Nnx.C27_short_chains_partial",
    "Nnx.C27_only_last_access",
    "Nnx.C27_chain_not_followed",
    "Nnx.C27_accessor"
   ],
   "note": "False for chains longer than one access, and for the name accessor (C27_accessor). Not modelled: names that begin with two underscores and the two fields of the proxy."
  },
  {
   "property": "C28",
   "status": "proved",
   "theorems": [
    "Nnx.C28_module_apply",
    "Nnx.C28_def_apply"
   ],
   "note": "The method body is any function whose effect on the heap is a history of API calls starting from the module it receives."
  },
  {
   "property": "C29",
   "status": "proved",
   "theorems": [
    "Nnx.C29_draws_distinct",
    "Nnx.C29_keys_distinct",
    "Nnx.C29_same_seed_collides",
    "Nnx.C29_merge_twice_collides"
   ],
   "note": "fold_in and the 32-bit hash are parameters: distinctness is of the pairs (base key, string), and of the keys if these two have no collisions. The last two theorems show that both hypotheses on histories are needed."
  },
  {
   "property": "C30",
   "status": "proved",
   "theorems": [
    "Nnx.C30_stream_state",
    "Nnx.C30_key_value",
    "Nnx.C30_streams_independent",
    "Nnx.C30_reproducible"
   ],
   "note": ""
  },
  {
   "property": "C31",
   "status": "proved",
   "theorems": [
    "Nnx.C31_failure_consumes_nothing",
    "Nnx.C31_trace_level",
    "Nnx.C31_errors"
   ],
   "note": ""
  },
  {
   "property": "C32",
   "status": "proved",
   "theorems": [
    "Nnx.C32_new_context",
    "Nnx.C32_partition_merge"
   ],
   "note": ""
  },
  {
   "property": "C33",
   "status": "proved",
   "theorems": [
    "Nnx.C33_rng_filters"
   ],
   "note": ""
  },
  {
   "property": "C34",
   "status": "proved",
   "theorems": [
    "Nnx.C34_ids_unique",
    "Nnx.C34_copy_is_new",
    "Nnx.C34_call_returns"
   ],
   "note": "Each thread step is one atomic read or write; asynchronous exceptions may strike anywhere."
  },
  {
   "property": "C35",
   "status": "proved",
   "theorems": [
    "Nnx.C35_stack_restored",
    "Nnx.C35_inside",
    "Nnx.C35_trace_state",
    "Nnx.C35_thread_local",
    "Nnx.C35_thread_block"
   ],
   "note": ""
  },
  {
   "property": "C36",
   "status": "proved",
   "theorems": [
    "Nnx.C36_wrapping_locks_kind",
    "Nnx.C36_double_wrap"
   ],
   "note": ""
  },
  {
   "property": "C37",
   "status": "proved",
   "theorems": [
    "Nnx.C37_replace",
    "Nnx.C37_replace_by_container"
   ],
   "note": ""
  },
  {
   "property": "C38",
   "status": "proved",
   "theorems": [
    "Nnx.C38_node_roundtrip",
    "Nnx.C38_static_roundtrip",
    "Nnx.C38_copy_eq",
    "Nnx.C38_eq_iff",
    "Nnx.C38_eq_equivalence",
    "Nnx.C38_eq_other"
   ],
   "note": ""
  },
  {
   "property": "C39",
   "status": "proved",
   "theorems": [
    "Nnx.C39_with_metadata",
    "Nnx.C39_nested_not_unwrapped"
   ],
   "note": "C39_nested_not_unwrapped records a limitation of the code."
  },
  {
   "property": "C40",
   "status": "proved",
   "theorems": [
    "Nnx.C40_constructed",
    "Nnx.C40_unset_field",
    "Nnx.C40_children",
    "Nnx.C40_replace_children",
    "Nnx.C40_round_trip",
    "Nnx.C40_structure",
    "Nnx.C40_assignment_order",
    "Nnx.C10_node_types"
   ],
   "note": "The theorems are one level of flattening; JAX recurses into the children. C38 covers containers."
  },
  {
   "property": "C41",
   "status": "proved",
   "theorems": [
    "Nnx.C41_history",
    "Nnx.C41_immutable",
    "Nnx.C41_no_new_fields",
    "Nnx.C41_mutable_assign",
    "Nnx.C41_del_not_blocked",
    "Nnx.C41_del_refused"
   ],
   "note": "The property is about assignment. `del obj.name` is not blocked by the code: C41_del_not_blocked. Direct writes to vars(obj) are not modelled."
  },
  {
   "property": "C42",
   "status": "proved",
   "theorems": [
    "Nnx.C42_non_destructive",
    "Nnx.C42_replace",
    "Nnx.C42_unknown",
    "Nnx.C42_dataclass",
    "Nnx.C42_dataclass_unknown",
    "Nnx.C42_mutable_unknown_attributeError"
   ],
   "note": ""
  },
  {
   "property": "C43",
   "status": "partial",
   "theorems": [
    "Nnx.C43_to_state_dict",
    "Nnx.C43_round_trip_partial",
    "Nnx.C43_boxed_pytree_lost",
    "Nnx.C43_keys_match",
    "Nnx.C43_missing_or_extra",
    "Nnx.C43_restore",
    "Nnx.C43_restore_nested",
    "Nnx.C43_saved_again",
    "Nnx.C10_node_types"
   ],
   "note": "The round trip is false when a container holds a Pytree, dict or tuple (C43_boxed_pytree_lost); proved for all other nested objects. Missing and extra keys, what is restored, and saving again are proved for objects nested to any depth."
  },
  {
   "property": "C44",
   "status": "proved",
   "theorems": [
    "Nnx.C44_total",
    "Nnx.C44_disjoint",
    "Nnx.C44_once",
    "Nnx.C44_none",
    "Nnx.C44_from_rules"
   ],
   "note": ""
  },
  {
   "property": "C45",
   "status": "proved",
   "theorems": [
    "Nnx.C45_applied_unique",
    "Nnx.C45_priority",
    "Nnx.C45_first_free",
    "Nnx.C45_none_pins",
    "Nnx.C45_no_rule"
   ],
   "note": ""
  },
  {
   "property": "C46",
   "status": "partial",
   "theorems": [
    "Nnx.C46_remove_add_partial",
    "Nnx.C46_add_remove_partial",
    "Nnx.C46_remove_add",
    "Nnx.C46_add",
    "Nnx.C46_remove",
    "Nnx.C46_remove_iff",
    "Nnx.C46_remove_error",
    "Nnx.C46_only_sharding",
    "Nnx.C46_no_name",
    "Nnx.C46_short_counterexample",
    "Nnx.C46_negative_counterexample",
    "Nnx.C46_negative_pops_other"
   ],
   "note": "False of the code for negative indices and for shardings shorter than the index (counterexamples proved); C46_remove_add says what happens in general for index >= 0."
  },
  {
   "property": "C47",
   "status": "proved",
   "theorems": [
    "Nnx.C47_block_restores",
    "Nnx.C47_restored",
    "Nnx.C47_inside",
    "Nnx.C47_threads",
    "Nnx.C47_thread_restored"
   ],
   "note": ""
  },
  {
   "property": "C48",
   "status": "proved",
   "theorems": [
    "Nnx.C48_no_rules_or_spec",
    "Nnx.C48_table",
    "Nnx.C48_no_mesh",
    "Nnx.C48_value_kept",
    "Nnx.C48_tree",
    "Nnx.C48_unnamed_raises"
   ],
   "note": "jax's with_sharding_constraint is a constructor recording value, spec and mesh."
  },
  {
   "property": "C49",
   "status": "proved",
   "theorems": [
    "Nnx.C49_same_effect",
    "Nnx.C49_raises",
    "Nnx.C49_static_change_lost",
    "Nnx.C49_deletion_lost",
    "Nnx.C49_new_submodule_raises"
   ],
   "note": "Functions are interaction trees (Prog) over the Module API. The last three theorems show that the restriction to node writes in the property is needed: static changes and deletions are lost, new submodules raise."
  },
  {
   "property": "C50",
   "status": "proved",
   "theorems": [
    "Nnx.C50_stateless"
   ],
   "note": ""
  },
  {
   "property": "C51",
   "status": "proved",
   "theorems": [
    "Nnx.C51_grad",
    "Nnx.C51_stateless",
    "Nnx.C51_raises",
    "Nnx.C51_evaluated_at",
    "Nnx.C51_gradient_paths"
   ],
   "note": "jax.grad itself is a parameter: C51_gradient_paths assumes that it returns an entry for each entry it is given; that the inner function is evaluated as in a direct call is proved."
  },
  {
   "property": "C52",
   "status": "proved",
   "theorems": [
    "Nnx.C52_scan_is_loop",
    "Nnx.C52_raises",
    "Nnx.C52_bad_length",
    "Nnx.C52_bad_filters",
    "Nnx.exScan"
   ],
   "note": "For bodies whose net effect is on nodes (arrays, Variables), lengths of at least 1, and no partition_name in metadata_params. jax.lax.scan is modelled by the loop its documentation gives."
  },
  {
   "property": "C53",
   "status": "partial",
   "theorems": [
    "Nnx.C53_reverse_partial",
    "Nnx.C53_reverse_fresh_partial",
    "Nnx.C53_reverse_new_carry_wrong"
   ],
   "note": "Proved for all bodies that create no variables of the carry collection. False of the code otherwise: the first slice is processed first (C53_reverse_new_carry_wrong)."
  },
  {
   "property": "C54",
   "status": "partial",
   "theorems": [
    "Nnx.C54_scan_is_fresh_loop",
    "Nnx.C54_new_variables_partial",
    "Nnx.C54_new_carry_partial",
    "Nnx.C54_new_broadcast_lost",
    "Nnx.C54_deleted_broadcast_stacked"
   ],
   "note": "Proved for the carry and the axes collections, with the exact loop a scan with a creating body is. False of the code for the broadcast collection, whose difference is taken the wrong way round: its new variables are never in the module afterwards (C54_new_variables_partial, last part)."
  },
  {
   "property": "C55",
   "status": "proved",
   "theorems": [
    "Nnx.C55_split_rngs",
    "Nnx.stepCtx_keys"
   ],
   "note": "The contexts are those that C52_scan_is_loop gives to the iterations. Scanned constructors (scan_init) get the same ones: C80, and C89_scan_contexts."
  },
  {
   "property": "C56",
   "status": "proved",
   "theorems": [
    "Nnx.C56_same_effect",
    "Nnx.C56_raises",
    "Nnx.C56_static_argnums",
    "Nnx.C56_out_of_range"
   ],
   "note": "jax.checkpoint is taken to run the function once on equal arguments. C56_out_of_range records that a negative index below -len(args) hits the prepended arguments."
  },
  {
   "property": "C57",
   "status": "proved",
   "theorems": [
    "Nnx.C57_first_from",
    "Nnx.C57_raises",
    "Nnx.C57_context_flag",
    "Nnx.C57_precedence"
   ],
   "note": "first_from for every argument list; precedence of call argument, attribute and context flag in Dropout and BatchNorm"
  },
  {
   "property": "C58",
   "status": "proved",
   "theorems": [
    "Nnx.C58_identity",
    "Nnx.C58_rate_one",
    "Nnx.C58_mask",
    "Nnx.C58_unspecified",
    "Nnx.C58_no_context",
    "Nnx.C58_no_stream",
    "Nnx.C58_world"
   ],
   "note": "arrays in exact arithmetic; jax.random.bernoulli is a parameter"
  },
  {
   "property": "C59",
   "status": "proved",
   "theorems": [
    "Nnx.C59_running",
    "Nnx.C59_training",
    "Nnx.C59_history",
    "Nnx.C59_range",
    "Nnx.C59_other_features_running",
    "Nnx.C59_other_features_training",
    "Nnx.C59_one_feature_grows",
    "Nnx.C59_one_feature_spoilt"
   ],
   "note": "exact arithmetic over an ordered field, one feature axis; C59_one_feature_grows and C59_one_feature_spoilt show what happens when one of the numbers of features is 1"
  },
  {
   "property": "C60",
   "status": "proved",
   "theorems": [
    "Nnx.C60_stats",
    "Nnx.C60_variance",
    "Nnx.C60_nonneg",
    "Nnx.C60_mean_zero",
    "Nnx.C60_output_variance"
   ],
   "note": "exact arithmetic over an ordered field; rsqrt is a parameter"
  },
  {
   "property": "C61",
   "status": "proved",
   "theorems": [
    "Nnx.C61_canonicalize",
    "Nnx.C61_cover",
    "Nnx.C61_out_of_range",
    "Nnx.C61_out_of_range_call"
   ],
   "note": "C61_out_of_range: BatchNorm does not reject an axis below -rank, and then reduces over all axes"
  },
  {
   "property": "C62",
   "status": "proved",
   "theorems": [
    "Nnx.C62_string",
    "Nnx.C62_pairs",
    "Nnx.C62_rejects",
    "Nnx.C62_permutations",
    "Nnx.C62_axes"
   ],
   "note": ""
  },
  {
   "property": "C63",
   "status": "proved",
   "theorems": [
    "Nnx.C63_causal_length",
    "Nnx.C63_causal",
    "Nnx.C63_causal_rank",
    "Nnx.C63_circular_length",
    "Nnx.C63_circular"
   ],
   "note": "lax.conv_general_dilated and jnp.pad are described in Model/Linear.lean from their documentation; lengths are not kept with input_dilation > 1"
  },
  {
   "property": "C64",
   "status": "proved",
   "theorems": [
    "Nnx.C64_conv",
    "Nnx.C64_batch",
    "Nnx.C64_same_length"
   ],
   "note": "all paddings; inputs with fewer than len(kernel_size)+1 dimensions are not modelled"
  },
  {
   "property": "C65",
   "status": "proved",
   "theorems": [
    "Nnx.C65_uniform",
    "Nnx.C65_one_dtype",
    "Nnx.C65_explicit",
    "Nnx.C65_inexact",
    "Nnx.C65_inferred",
    "Nnx.C65_nothing"
   ],
   "note": "jax.numpy's dtype lattice is a parameter"
  },
  {
   "property": "C66",
   "status": "proved",
   "theorems": [
    "Nnx.C66_call",
    "Nnx.C66_unique"
   ],
   "note": "For every non-empty Sequence whose layers leave the Sequence object itself alone. Calling an empty Sequence is an AttributeError (see C67_empty). What a layer does when called is a parameter."
  },
  {
   "property": "C67",
   "status": "partial",
   "theorems": [
    "Nnx.C67_sequence",
    "Nnx.C67_negative",
    "Nnx.C67_key_name",
    "Nnx.C67_empty",
    "Nnx.C67_dict_partial",
    "Nnx.C67_dict_keys_false",
    "Nnx.C67_dict_missing",
    "Nnx.C67_dict_contains"
   ],
   "note": "False of the code as stated: an empty Sequence has length 1 and a Dict also lists '_module__state' (both proved). What holds is proved: every non-empty Sequence, and every Dict up to that extra key and keys called like Module properties."
  },
  {
   "property": "C68",
   "status": "proved",
   "theorems": [
    "Nnx.C68_step",
    "Nnx.C68_clash",
    "Nnx.C68_optimiser_error",
    "Nnx.C68_history",
    "Nnx.C68_start"
   ],
   "note": "The optimiser (tx.init, tx.update, optax.apply_updates) and step + 1 are parameters."
  },
  {
   "property": "C69",
   "status": "proved",
   "theorems": [
    "Nnx.C69_fields",
    "Nnx.C69_wrong_call",
    "Nnx.C69_module_fields"
   ],
   "note": "init=False fields, and a Module inside a field declared with a container, are not modelled."
  },
  {
   "property": "C70",
   "status": "proved",
   "theorems": [
    "Nnx.C70_repr",
    "Nnx.C70_text",
    "Nnx.C70_stale_seen"
   ],
   "note": "Python's recursion limit is not modelled. When repr raises, the set of seen modules stays until the generator is collected (C70_stale_seen)."
  },
  {
   "property": "C71",
   "status": "proved",
   "theorems": [
    "Nnx.C71_reachable_worlds_well_formed",
    "Nnx.C71_identity_stable",
    "Nnx.C71_ids_unique"
   ],
   "note": ""
  },
  {
   "property": "C72",
   "status": "partial",
   "theorems": [
    "Nnx.C72_unreplaced_fields_partial",
    "Nnx.C42_dataclass_drops_container"
   ],
   "note": "False for dataclasses with a plain field that holds a container (C42_dataclass_drops_container); proved for ordinary classes and for dataclasses whose fields are as declared."
  },
  {
   "property": "C73",
   "status": "proved",
   "theorems": [
    "Nnx.C73_get_partition_spec"
   ],
   "note": "A value of the State that is not a Node is one leaf."
  },
  {
   "property": "C74",
   "status": "proved",
   "theorems": [
    "Nnx.C74_read_as_stored",
    "Nnx.C74_read"
   ],
   "note": "Assumes the container's metadata is the one recorded by the wrapper (C39)."
  },
  {
   "property": "C75",
   "status": "partial",
   "theorems": [
    "Nnx.C75_cache_transparent_partial",
    "Nnx.C75_stale_flags"
   ],
   "note": "False in general: the cache key ignores the initializing flags of submodules (counterexample proved); proved when those flags agree."
  },
  {
   "property": "C76",
   "status": "proved",
   "theorems": [
    "Nnx.C76_layer_norm"
   ],
   "note": "exact arithmetic"
  },
  {
   "property": "C77",
   "status": "proved",
   "theorems": [
    "Nnx.C77_linear",
    "Nnx.C77_mismatch",
    "Nnx.C77_combination"
   ],
   "note": "exact arithmetic, default dot_general"
  },
  {
   "property": "C78",
   "status": "proved",
   "theorems": [
    "Nnx.C78_lookup",
    "Nnx.C78_integer",
    "Nnx.C78_attend",
    "Nnx.C78_round_trip"
   ],
   "note": "exact arithmetic"
  },
  {
   "property": "C79",
   "status": "proved",
   "theorems": [
    "Nnx.C79_scan_named",
    "Nnx.C79_wrong_name"
   ],
   "note": "For bodies that keep the set of variables and their containers (as C52)."
  },
  {
   "property": "C80",
   "status": "proved",
   "theorems": [
    "Nnx.C80_scan_init",
    "Nnx.C80_needs_length",
    "Nnx.C80_must_agree",
    "Nnx.C80_constructor_raises",
    "Nnx.C80_plain"
   ],
   "note": "jax.vmap is described by its meaning (slice i of the output is the function on slice i of the arguments); needs_length includes the case of a context with nothing to split or stack, where jax.vmap has no mapped argument."
  },
  {
   "property": "C81",
   "status": "proved",
   "theorems": [
    "Nnx.C81_scan_init_method",
    "Nnx.C81_partition_name_raises",
    "Nnx.C81_method_raises",
    "Nnx.C81_needs_length",
    "Nnx.C81_must_agree"
   ],
   "note": "The method is any function on worlds. The second theorem is the failure with partition names (finding 12 in DESIGN.md)."
  },
  {
   "property": "C82",
   "status": "proved",
   "theorems": [
    "Nnx.C82_interchangeable",
    "Nnx.C82_merged"
   ],
   "note": ""
  },
  {
   "property": "C83",
   "status": "proved",
   "theorems": [
    "Nnx.C83_scan_of_layers",
    "Nnx.C83_constructed_layers"
   ],
   "note": "Arrays are abstract: the theorem assumes that indexing undoes stacking (ArrayLaws)."
  },
  {
   "property": "C84",
   "status": "proved",
   "theorems": [
    "Nnx.C84_logical_to_mesh",
    "Nnx.C84_logical_to_mesh_sharding"
   ],
   "note": "jax's own checks in NamedSharding (axis not in mesh, axis used twice) are a modelled library assumption"
  },
  {
   "property": "C85",
   "status": "proved",
   "theorems": [
    "Nnx.C85_scan_call",
    "Nnx.C85_reverse",
    "Nnx.C85_bad_out_axes",
    "Nnx.C85_bad_length"
   ],
   "note": "jnp.moveaxis enters through four laws (MoveLaws), shown to hold for matrices; C85_bad_out_axes is for reverse=False"
  },
  {
   "property": "C86",
   "status": "proved",
   "theorems": [
    "Nnx.C86_linear",
    "Nnx.C86_conv",
    "Nnx.C86_conv_int",
    "Nnx.C86_embed",
    "Nnx.C86_batch_norm",
    "Nnx.C86_layer_norm",
    "Nnx.C86_model",
    "Nnx.C86_reproducible",
    "Nnx.C86_history",
    "Nnx.C86_keys_distinct",
    "Nnx.C86_errors"
   ],
   "note": "Initialisers are arbitrary total functions of key and shape; param_dtype is not tracked. feature_group_count=0 (ZeroDivisionError) is outside the model."
  },
  {
   "property": "C87",
   "status": "proved",
   "theorems": [
    "Nnx.C87_linear",
    "Nnx.C87_embed",
    "Nnx.C87_conv",
    "Nnx.C87_batch_norm",
    "Nnx.C87_layer_norm"
   ],
   "note": "Exact arithmetic over an ordered field; composes C86 with C59, C64, C76, C77, C78"
  },
  {
   "property": "C88",
   "status": "proved",
   "theorems": [
    "Nnx.C88_batch_norm",
    "Nnx.C88_layer_norm",
    "Nnx.C88_data_parallel",
    "Nnx.C88_replicas",
    "Nnx.C88_history",
    "Nnx.C88_running",
    "Nnx.C88_all_axes"
   ],
   "note": "The devices run in lock step on inputs of one shape; lax.pmean, jnp.concatenate and jnp.split are written down from their documentation, arithmetic is exact."
  },
  {
   "property": "C89",
   "status": "proved",
   "theorems": [
    "Nnx.C89_draws_distinct",
    "Nnx.C89_repeats",
    "Nnx.C89_keys_distinct",
    "Nnx.C89_scan_contexts",
    "Nnx.C89_unsplit_repeats"
   ],
   "note": "C89_draws_distinct needs no assumption on the key primitives; C89_repeats and C89_keys_distinct assume that fold_in and split have no collisions and that no base key is the result of a split. C89_unsplit_repeats shows that the proviso is needed."
  },
  {
   "property": "C90",
   "status": "proved",
   "theorems": [
    "Nnx.C90_nested",
    "Nnx.C90_removed",
    "Nnx.C90_budget",
    "Nnx.C90_budget_grad"
   ],
   "note": "functions are interaction trees with nested calls (also of scan); jax.jit, jax.checkpoint run the function once on equal arguments, jax.grad is a parameter; effects other than node writes are lost or rejected by stateful transforms (C49)"
  },
  {
   "property": "C91",
   "status": "proved",
   "theorems": [
    "Nnx.C91_scan_of_transformed",
    "Nnx.C91_transformed_scan",
    "Nnx.C90_nested"
   ],
   "note": "the scan uses what is left of the recursion limit; jax.lax.scan is the loop of its documentation; scans of length 0 not modelled"
  },
  {
   "property": "C92",
   "status": "proved",
   "theorems": [
    "Nnx.C92_without_transforms",
    "Nnx.C92_deterministic"
   ],
   "note": "scans without a partition name and of length > 0; the state of the scanned module keeps its paths over the iterations (as in C52/C53); jax.grad is assumed to look at its function only at States of the structure of its argument"
  },
  {
   "property": "C93",
   "status": "proved",
   "theorems": [
    "Nnx.C93_leaves",
    "Nnx.C93_leaf_count",
    "Nnx.C93_round_trip",
    "Nnx.C93_tree_map",
    "Nnx.C93_misfit",
    "Nnx.C93_raises",
    "Nnx.C93_structure",
    "Nnx.C93_compose",
    "Nnx.C93_identity",
    "Nnx.C93_state_map",
    "Nnx.C93_state_raises",
    "Nnx.C93_update",
    "Nnx.C93_bare_arrays"
   ],
   "note": "the recursion and the treatment of None, tuples and dicts are jax's, written down from its documentation; C93_bare_arrays shows that the condition on arrays in C93_structure is needed"
  },
  {
   "property": "C94",
   "status": "proved",
   "theorems": [
    "Nnx.C94_train_step",
    "Nnx.C94_sgd",
    "Nnx.C94_loss_raises",
    "Nnx.C94_misfit_raises"
   ],
   "note": "jax.grad is a parameter with the assumptions GradLaw and, for C94_sgd, GradShape. C94_train_step is the general case, C94_sgd the case in which the loss function leaves the parameters alone."
  },
  {
   "property": "C95",
   "status": "proved",
   "theorems": [
    "Nnx.C95_loop",
    "Nnx.C95_step",
    "Nnx.C95_partition"
   ],
   "note": "jax.grad is a parameter with the assumption GradLaw; jax.jit around the functional step is not modelled (the step is a pure function), except that the Modules are made inside a jax trace."
  },
  {
   "property": "C96",
   "status": "proved",
   "theorems": [
    "Nnx.C96_apply",
    "Nnx.C96_apply_raises",
    "Nnx.C96_step",
    "Nnx.C96_raises",
    "Nnx.C96_functional",
    "Nnx.C96_loop"
   ],
   "note": "The hypotheses on the model are those of C95. The optimiser and jax.grad are parameters; a State in an attribute is encoded as an object with its entries; optax.apply_updates is taken not to raise."
  },
  {
   "property": "C97",
   "status": "partial",
   "theorems": [
    "Nnx.C97_deep_copy_partial",
    "Nnx.C97_deep_copy_independent",
    "Nnx.C97_deep_copy_frozen",
    "Nnx.C97_deep_copy_not_assignable",
    "Nnx.C97_clone_thaws",
    "Nnx.C97_shallow_copy",
    "Nnx.C97_shallow_copy_ignored"
   ],
   "note": "False of the code in two points, both proved: no Module of a deep copy can be assigned to (the trace objects are copied and compared by identity; a clone of the deep copy can be used), and a shallow copy has the id of the original, so that partition and clone of a model holding both ignore it. The rest of the statement is proved. That jax's MainTrace has no __deepcopy__ of its own is read from jax."
  },
  {
   "property": "C98",
   "status": "proved",
   "theorems": [
    "Nnx.C98_merge_loads",
    "Nnx.C98_update_loads",
    "Nnx.C98_update_from",
    "Nnx.C98_update_from_other_type"
   ],
   "note": "assert statements are assumed to be enabled; writing and reading the States (orbax in examples/08_save_load_checkpoints.py) is outside the library and taken to be lossless"
  },
  {
   "property": "C99",
   "status": "proved",
   "theorems": [
    "Nnx.C99_remat_ctx",
    "Nnx.C99_streams",
    "Nnx.C99_other_trace",
    "Nnx.C99_recording",
    "Nnx.C99_fresh_keys",
    "Nnx.C99_jit_raises",
    "Nnx.C99_jit_merges_outside"
   ],
   "note": "jax's rules for arguments of jitted functions (a leaf must be an array, static arguments must be hashable) are external facts written into the model; as for C90 the effects of functions called through remat are node writes; recursion limits are taken to be large enough"
  },
  {
   "property": "C100",
   "status": "proved",
   "theorems": [
    "Nnx.C100_hashable_iff"
   ],
   "note": "which values are hashable is a parameter of the model"
  },
  {
   "property": "C101",
   "status": "proved",
   "theorems": [
    "Nnx.C101_remat_new",
    "Nnx.C101_missing_inner",
    "Nnx.C101_remat_call",
    "Nnx.C101_scan_call",
    "Nnx.C101_scan_layers"
   ],
   "note": "the constructor and the options are static values; as for C90 and C92 the effect of a method that is called through remat is node writes, and scans have no partition name; a chain of accesses after .call keeps only the last one (C27); Contexts are passed as their partitioned form"
  },
  {
   "property": "C102",
   "status": "proved",
   "theorems": [
    "Nnx.C102_pure_step",
    "Nnx.C102_pure_loop",
    "Nnx.C102_pure_call",
    "Nnx.C102_no_states"
   ],
   "note": "Each step runs in any world and in the trace of jax.jit. The functions are unrestricted in what they do to the model; only nnx transforms used inside of them must be able to carry back what they call (Carried, as in C90). jax.jit passing a Pure through flatten/unflatten is taken to be the identity, which C103_round_trip_flat proves for values that are arrays or containers of arrays."
  },
  {
   "property": "C103",
   "status": "proved",
   "theorems": [
    "Nnx.C103_componentwise",
    "Nnx.C103_tree_map",
    "Nnx.C103_misfit",
    "Nnx.C103_too_many_leaves",
    "Nnx.C103_round_trip",
    "Nnx.C103_round_trip_flat"
   ],
   "note": "The function must not return containers (C93 has the weaker condition for trees alone), and it must return arrays for arrays (C93_bare_arrays shows why). Equal Pures: up to the order of dict entries, and the very same Pure when the values are arrays or containers of arrays."
  },
  {
   "property": "C104",
   "status": "proved",
   "theorems": [
    "Nnx.C104_hand_written_init",
    "Nnx.C104_hand_written_scan",
    "Nnx.C104_constructed",
    "Nnx.C104_as_nnx_scan",
    "Nnx.C104_other_variables",
    "Nnx.C104_wrong_length"
   ],
   "note": "The layers have at least one slice; bodies change values of existing variables only (as in C83)."
  },
  {
   "property": "C105",
   "status": "proved",
   "theorems": [
    "Nnx.C105_submodule_state",
    "Nnx.C105_select",
    "Nnx.C105_replace",
    "Nnx.C105_update",
    "Nnx.C105_update_succeeds",
    "Nnx.C105_example_filter",
    "Nnx.C105_shared_submodule"
   ],
   "note": "C105_example_filter: the filter in examples/09_parameter_surgery.py selects the opposite of what its comment says. C105_shared_submodule: why nothing may be shared."
  },
  {
   "property": "C106",
   "status": "proved",
   "theorems": [
    "Nnx.C106_program",
    "Nnx.C106_reads",
    "Nnx.C106_same_state"
   ],
   "note": "what each operation does to the dictionary is in Spec/ModelDict.lean (ModelOp.onDict); exOps_run is a program that meets the hypotheses"
  },
  {
   "property": "C107",
   "status": "proved",
   "theorems": [
    "Nnx.C107_total",
    "Nnx.C107_selects",
    "Nnx.C107_partition",
    "Nnx.C107_noop",
    "Nnx.C107_transfer"
   ],
   "note": ""
  },
  {
   "property": "C108",
   "status": "proved",
   "theorems": [
    "Nnx.C108_without_sows",
    "Nnx.C108_collects",
    "Nnx.C108_same_model",
    "Nnx.C108_rounds"
   ],
   "note": "Spec/Collect.lean says what events, rounds and collected mean"
  },
  {
   "property": "C109",
   "status": "proved",
   "theorems": [
    "Nnx.C109_mean",
    "Nnx.C109_linear",
    "Nnx.C109_rate_one"
   ],
   "note": "Exact arithmetic; finitely many outcomes. That jax.random.bernoulli has this distribution is a hypothesis (Spec/Random.lean)."
  },
  {
   "property": "C110",
   "status": "proved",
   "theorems": [
    "Nnx.C110_hash_fixed",
    "Nnx.C110_keys",
    "Nnx.C110_stores",
    "Nnx.C110_dataclass"
   ],
   "note": "Python's dict is written down in Model/ModuleKeys.lean. That dataclass sets __hash__ to None is documented behaviour of Python's dataclasses."
  },
  {
   "property": "C111",
   "status": "partial",
   "theorems": [
    "Nnx.C111_exclusive_partial",
    "Nnx.C111_text_partial",
    "Nnx.C111_finishes",
    "Nnx.C111_race_omits",
    "Nnx.C111_race_raises",
    "Nnx.C111_stuck",
    "Nnx.C111_race_sticks"
   ],
   "note": "the statement for all schedules is false of the code (C111_race_*); proved for all schedules in which calls do not overlap, and C111_stuck shows for all later schedules that the damage is permanent"
  },
  {
   "property": "C112",
   "status": "partial",
   "theorems": [
    "Nnx.C112_in_turn_partial",
    "Nnx.C112_own_streams",
    "Nnx.C112_distinct_partial",
    "Nnx.C112_key_partial",
    "Nnx.C112_race_same_key",
    "Nnx.C112_race_repeats"
   ],
   "note": "the statement for all schedules is false of the code (C112_race_*); proved for all schedules in which calls on one stream do not overlap"
  },
  {
   "property": "C113",
   "status": "proved",
   "theorems": [
    "Nnx.C113_between",
    "Nnx.C113_repeat",
    "Nnx.C113_conflict"
   ],
   "note": "Interruption after any number of assignments of _update_module; C113_conflict shows why one attribute must not be given two values through alias paths. Contents are compared attribute by attribute; the insertion order of attributes is not part of the statement."
  },
  {
   "property": "C114",
   "status": "proved",
   "theorems": [
    "Nnx.C114_repeat",
    "Nnx.C114_lost",
    "Nnx.C114_not_stopped"
   ],
   "note": "Interruption after any number of deletions of _pop_recursive. C114_not_stopped: without an interruption the interrupted call is popState."
  },
  {
   "property": "C115",
   "status": "proved",
   "theorems": [
    "Nnx.C115_no_interference",
    "Nnx.C115_frame",
    "Nnx.C115_atomic",
    "Nnx.C115_atomic_get",
    "Nnx.C115_atomic_pop",
    "Nnx.C115_atomic_sow",
    "Nnx.C115_atomic_attr",
    "Nnx.C115_update",
    "Nnx.C115_lost_update",
    "Nnx.C115_lost_assignment",
    "Nnx.C115_torn_read"
   ],
   "note": "C115_no_interference: over all schedules of a machine in which get_state, update_state and pop_state go through the Modules one attribute at a time, follow each path one name at a time and make one assignment per step; each thread with traces of its own and within a self-contained set of Modules, the sets pairwise disjoint. C115_frame: Modules of no thread are untouched. C115_atomic, C115_atomic_get, C115_atomic_pop, C115_atomic_sow, C115_update: the steps of a call amount to update_state, get_state, pop_state or sow. C115_lost_update, C115_lost_assignment, C115_torn_read: witnesses that a common Module breaks this."
  },
  {
   "property": "C116",
   "status": "proved",
   "theorems": [
    "Nnx.C116_per_example",
    "Nnx.C116_others",
    "Nnx.C116_training"
   ],
   "note": "C116_per_example: any selection of the examples, any chain. C116_others: an example's output is determined by the example. C116_training: witness that training BatchNorm mixes examples. Exact arithmetic."
  },
  {
   "property": "C117",
   "status": "proved",
   "theorems": [
    "Nnx.C117_layer_norm",
    "Nnx.C117_layer_norm_shift",
    "Nnx.C117_batch_norm"
   ],
   "note": "Exact arithmetic over any ordered field; the scaling statements assume of rsqrt only what 1/sqrt satisfies (shown over the reals)."
  },
  {
   "property": "C118",
   "status": "proved",
   "theorems": [
    "Nnx.C118_combination",
    "Nnx.C118_groups",
    "Nnx.C118_pointwise"
   ],
   "note": "Derived from the entry formula C64_conv for all paddings."
  },
  {
   "property": "C119",
   "status": "proved",
   "theorems": [
    "Nnx.C119_single_writer",
    "Nnx.C119_frozen",
    "Nnx.C119_raises",
    "Nnx.C119_pop_unchecked"
   ],
   "note": "C119_single_writer: all schedules; thread t keeps to its own Modules, the other threads call anything that does not delete attributes. C119_frozen: Modules of no thread. C119_raises: the exception. C119_pop_unchecked: witness that pop_state is not checked. That threads have different traces is a fact about JAX stated in DESIGN.md."
  },
  {
   "property": "C120",
   "status": "proved",
   "theorems": [
    "Nnx.C120_window",
    "Nnx.C120_prefix",
    "Nnx.C120_sliding",
    "Nnx.C120_same_padding"
   ],
   "note": "C120_window: the result at a time depends on no other times than the r before it and itself, for two sequences of any lengths. C120_prefix, C120_sliding: evaluating a prefix or a window. C120_same_padding: witness that 'SAME' padding looks ahead."
  },
  {
   "property": "C121",
   "status": "proved",
   "theorems": [
    "Nnx.C121_as_values",
    "Nnx.C121_snapshot",
    "Nnx.C121_separate",
    "Nnx.C121_in_place",
    "Nnx.C121_new_objects",
    "Nnx.C121_merge_fresh",
    "Nnx.C121_state_aliases",
    "Nnx.C121_popped",
    "Nnx.C121_static_shared"
   ],
   "note": "C121_as_values: every operation on Modules that refer to container objects raises, returns and changes what the model of Model/Module.lean says. C121_snapshot: no operation changes an existing container. C121_separate, C121_in_place: in every reachable world no two attributes hold the same node container, and a write changes at most one attribute. C121_new_objects, C121_merge_fresh: what is stored is new. C121_state_aliases: writing to an entry of get_state changes the Module. C121_popped: writing to a popped container changes no Module. C121_static_shared: a Static is shared by a Module and its clone. Containers inside of other values are values."
  },
  {
   "property": "C122",
   "status": "proved",
   "theorems": [
    "Nnx.C122_add",
    "Nnx.C122_remove",
    "Nnx.C122_no_name",
    "Nnx.C122_remove_add",
    "Nnx.C122_partition_spec",
    "Nnx.C122_state_add",
    "Nnx.C122_state_remove",
    "Nnx.C122_flat"
   ],
   "note": "Trees of any depth. C122_flat: for States of Nodes and leaves these are the functions of C46. Positions are not negative; the negative ones are a counterexample of C46."
  },
  {
   "property": "C123",
   "status": "proved",
   "theorems": [
    "Nnx.C123_start",
    "Nnx.C123_good",
    "Nnx.C123_no_leak",
    "Nnx.C123_clean",
    "Nnx.C123_inside",
    "Nnx.C123_refused",
    "Nnx.C123_after",
    "Nnx.C123_unseen",
    "Nnx.C123_direct_leak",
    "Nnx.C123_empty_leak"
   ],
   "note": "Which trace jax makes dynamic for which of its transformations is an assumption about jax, written down as Tracing.enter. C123_direct_leak and C123_empty_leak are the limits named in the statement."
  },
  {
   "property": "C124",
   "status": "proved",
   "theorems": [
    "Nnx.C124_clone_shares",
    "Nnx.C124_merge_shares",
    "Nnx.C124_calls_miss",
    "Nnx.C124_changes_unseen",
    "Nnx.C124_not_independent"
   ],
   "note": "Which Modules an opaque object holds is an arbitrary function of the object (it is fixed, i.e. the inside of a list is not changed by the calls considered)."
  },
  {
   "property": "C125",
   "status": "proved",
   "theorems": [
    "Nnx.C125_stats",
    "Nnx.C125_layer_norm",
    "Nnx.C125_running",
    "Nnx.C125_training",
    "Nnx.C125_output",
    "Nnx.C125_real_layer_norm",
    "Nnx.C125_real_batch_norm",
    "Nnx.C125_rotation"
   ],
   "note": "dtype is not given and there is no axis_name; an empty sample is excluded for BatchNorm in training (jax gives nan)."
  },
  {
   "property": "C126",
   "status": "proved",
   "theorems": [
    "Nnx.C126_is_node",
    "Nnx.C126_unregistered",
    "Nnx.C126_get_state",
    "Nnx.C126_static_fields",
    "Nnx.C126_register_more",
    "Nnx.C126_round_trip",
    "Nnx.C126_clone",
    "Nnx.C126_update",
    "Nnx.C126_update_succeeds",
    "Nnx.C126_stale_state"
   ],
   "note": "nnx.ContainerMetadata itself is not registered. pop_state and Pytree objects under a changed registry are not covered."
  },
  {
   "property": "C127",
   "status": "proved",
   "theorems": [
    "Nnx.C127_merge",
    "Nnx.C127_clone",
    "Nnx.C127_repeat",
    "Nnx.C127_repeat_clone",
    "Nnx.C127_complete",
    "Nnx.C127_complete_clone",
    "Nnx.C127_raises"
   ],
   "note": "Filling in a new Module (three updates of its vars) is one step; it can only be reached from Modules under construction. The Modules of the stopped attempt are collected before the next."
  },
  {
   "property": "C128",
   "status": "proved",
   "theorems": [
    "Nnx.C128_donated",
    "Nnx.C128_loop",
    "Nnx.C128_raises",
    "Nnx.C128_stateless",
    "Nnx.C128_gone",
    "Nnx.C128_twice",
    "Nnx.C128_clone",
    "Nnx.C128_deleted"
   ],
   "note": "an array is modelled as content and buffer number; what jax.jit does with donated arguments is modelled from its documentation (see jitDonating); the arrays in the returned value are not looked at. C128_deleted, C128_stateless and C128_clone show how a Module or its clone is left with arrays that are gone"
  },
  {
   "property": "C129",
   "status": "proved",
   "theorems": [
    "Nnx.C129_get_state",
    "Nnx.C129_get_module_def",
    "Nnx.C129_depth",
    "Nnx.C129_many_paths",
    "Nnx.C129_ring",
    "Nnx.C129_merge",
    "Nnx.C129_clone",
    "Nnx.C129_clone_diamonds",
    "Nnx.C129_update_state",
    "Nnx.C129_update_row"
   ],
   "note": "Cost is the number of iterations of the loops over attributes (of calls of the recursive assignment, for update_state); the time of sorting, of building paths and of the operations on sets is not counted. RecursionError is modelled as running out of a budget."
  },
  {
   "property": "C130",
   "status": "partial",
   "theorems": [
    "Nnx.C130_nested_partial",
    "Nnx.C130_container",
    "Nnx.C130_state",
    "Nnx.C130_state_nested",
    "Nnx.C130_def",
    "Nnx.C130_def_nested",
    "Nnx.C130_doubled",
    "Nnx.C130_doubled_variable",
    "Nnx.C130_quadratic"
   ],
   "note": "Missing because false of the code: objects held by a Pytree or a container; C130_doubled gives their text and C130_quadratic a family of counterexamples. repr of opaque values is an arbitrary function of the value."
  },
  {
   "property": "C131",
   "status": "partial",
   "theorems": [
    "Nnx.C131_any_schedule",
    "Nnx.C131_library_nodes",
    "Nnx.C131_in_turn_partial",
    "Nnx.C131_registered_between",
    "Nnx.C131_lost",
    "Nnx.C131_partition_loses"
   ],
   "note": "Missing because false of the code: in schedules with overlapping calls a registered type can be lost (C131_lost), and then a partition can lose its values (C131_partition_loses). Reading and assigning the global tuple are one step each. C131_registered_between: get_module_def and get_state each see the registry of one time."
  },
  {
   "property": "C132",
   "status": "partial",
   "theorems": [
    "Nnx.C132_no_ctx",
    "Nnx.C132_as_values",
    "Nnx.C132_frame_partial",
    "Nnx.C132_only_ctx",
    "Nnx.C132_stale"
   ],
   "note": "Missing because false of the code: a layer that returns a dictionary it keeps gets a context written into it, and a later call without ctx passes this context on (C132_stale). Layers with dictionaries as objects are arbitrary functions on the dictionaries of the program; in C132_as_values they return new ones."
  },
  {
   "property": "C133",
   "status": "partial",
   "theorems": [
    "Nnx.C133_identity",
    "Nnx.C133_other_class",
    "Nnx.C133_dict_partial",
    "Nnx.C133_same_contents",
    "Nnx.C133_plain_dict",
    "Nnx.C133_dataclass",
    "Nnx.C133_clone",
    "Nnx.C133_clone_plain"
   ],
   "note": "False of the code as stated: two Dicts with the same items are never equal (C133_same_contents), nor is a Dict equal to a plain dictionary (C133_plain_dict). Everything else in the statement is proved. __eq__ of dict, tuple, Mapping and of dataclasses are written down from Python's documentation (before 3.13)."
  },
  {
   "property": "C134",
   "status": "partial",
   "theorems": [
    "Nnx.C134_read_partial",
    "Nnx.C134_frame",
    "Nnx.C134_property_hides",
    "Nnx.C134_method",
    "Nnx.C134_clone_partial",
    "Nnx.C134_apply_partial",
    "Nnx.C134_method_lost"
   ],
   "note": "False of the code as stated: an attribute called init, is_initializing or apply cannot be read back (C134_property_hides), and one called like a method takes its place, also for the library (C134_method_lost). For all other names the statement is proved."
  },
  {
   "property": "C135",
   "status": "partial",
   "theorems": [
    "Nnx.C135_fixed_partial",
    "Nnx.C135_merge",
    "Nnx.C135_partition",
    "Nnx.C135_no_flags",
    "Nnx.C135_with_flags",
    "Nnx.C135_copy",
    "Nnx.C135_changes"
   ],
   "note": "False of the code when the dictionary given to context is changed later (C135_changes); C135_with_flags says exactly what happens then. Merged Contexts, and Contexts made without flags, keep their flags in every history."
  },
  {
   "property": "C136",
   "status": "proved",
   "theorems": [
    "Nnx.C136_linear",
    "Nnx.C136_conv",
    "Nnx.C136_batch_norm",
    "Nnx.C136_batch_norm_training",
    "Nnx.C136_layer_norm"
   ],
   "note": "Exact arithmetic in a field; the variances assume what 1/sqrt satisfies. The default kernel initialisers (random) are arbitrary functions of key and shape."
  },
  {
   "property": "C137",
   "status": "proved",
   "theorems": [
    "Nnx.C137_marking",
    "Nnx.C137_unmarking",
    "Nnx.C137_repeat",
    "Nnx.C137_state",
    "Nnx.C137_left_marked",
    "Nnx.C137_traced_again"
   ],
   "note": "Interruptions are modelled between the assignments of flags; those during the method are exceptions of the method (C19). The theorems assume that the class of every object of the heap is a subclass of Module, as in the code."
  },
  {
   "property": "C138",
   "status": "proved",
   "theorems": [
    "Nnx.C138_before",
    "Nnx.C138_between",
    "Nnx.C138_torn",
    "Nnx.C138_remat",
    "Nnx.C138_grad",
    "Nnx.C138_before_others",
    "Nnx.C138_history"
   ],
   "note": "Interruptions are modelled between steps of the function (as an interaction tree) and between assignments of the update. While compiled code runs no Module changes, so an interruption there is one before the first assignment."
  },
  {
   "property": "C139",
   "status": "proved",
   "theorems": [
    "Nnx.C139_draws_distinct",
    "Nnx.C139_keys_distinct",
    "Nnx.C139_make",
    "Nnx.C139_partition",
    "Nnx.C139_usable"
   ],
   "note": "The only writes of the two methods are the increments of the counts; the exception arrives before or after one. Interruptions inside of one increment (between the read and the write of the count) have the effect of one before it."
  },
  {
   "property": "C140",
   "status": "proved",
   "theorems": [
    "Nnx.C140_leftover",
    "Nnx.C140_in_time",
    "Nnx.C140_too_late",
    "Nnx.C140_leaks",
    "Nnx.C140_body",
    "Nnx.C140_never_repaired",
    "Nnx.C140_unusable",
    "Nnx.C140_rules",
    "Nnx.C140_rules_repaired"
   ],
   "note": "One interruption, which no handler of the program catches. Interruptions are modelled between steps of the program and of the context managers' bodies, not inside of the code that Python runs to enter and leave a with block."
  }
 ]
}