Verif.Bytes.C01_constructors: propext Classical.choice Quot.sound
Verif.Bytes.C01_inline_slice: propext Classical.choice Quot.sound
Verif.Bytes.C01_from_arc: propext Classical.choice Quot.sound
Verif.Bytes.C02_inline_image: propext Quot.sound
Verif.Bytes.C02_vtable_image: propext Quot.sound
Verif.Bytes.C02_reachable: propext Classical.choice Quot.sound
Verif.Bytes.C03_shrink_to_partial: propext Classical.choice Quot.sound
Verif.Bytes.C03_subsliced_partial: propext Classical.choice Quot.sound
Verif.Bytes.C03_inlined_partial: propext Classical.choice Quot.sound
Verif.Bytes.C03_inlined_exact_partial: propext Classical.choice Quot.sound
Verif.Bytes.C03_fails_valid_range_panics: propext Quot.sound
Verif.Bytes.C03_fails_invalid_range_accepted: propext Quot.sound
Verif.Bytes.C03_fails_inclusive_max: propext Quot.sound
Verif.Bytes.C04_split_at_partial: propext Classical.choice Quot.sound
Verif.Bytes.C04_inlined_exact_partial: propext Classical.choice Quot.sound
Verif.Bytes.C04_fails: propext Quot.sound
Verif.Bytes.C05_clone: propext Classical.choice Quot.sound
Verif.Bytes.C06_memory_safe_partial: propext Classical.choice Quot.sound
Verif.Bytes.C06_counts: propext Classical.choice Quot.sound
Verif.Bytes.C06_leak_free: propext Classical.choice Quot.sound
Verif.Bytes.C06_aborts: propext Classical.choice Quot.sound
Verif.Bytes.C06_not_early: propext Classical.choice Quot.sound
Verif.Bytes.C06_values_partial: propext Classical.choice Quot.sound
Verif.Bytes.C06_fails: propext Quot.sound
Verif.Bytes.C07_upgrade: propext Classical.choice Quot.sound
Verif.Bytes.C08_noalloc_upgrade_partial: propext Classical.choice Quot.sound
Verif.Bytes.C08_fails_borrowed: propext Quot.sound
Verif.Bytes.C08_fails_owned: propext Quot.sound
Verif.Bytes.C09_upgrade_partial: propext Classical.choice Quot.sound
Verif.Bytes.C09_clone_partial: propext Classical.choice Quot.sound
Verif.Bytes.C09_exact_big_endian: propext Quot.sound
Verif.Bytes.C09_fails: propext Quot.sound
Verif.Bytes.C10_try_into_arc: propext Classical.choice Quot.sound
Verif.Bytes.C11_contents_only: propext Classical.choice Quot.sound
Verif.Bytes.C11_total_order: propext Quot.sound
Verif.Bytes.C12_read_partial: propext Classical.choice Quot.sound
Verif.Bytes.C12_long_read: propext Classical.choice Quot.sound
Verif.Bytes.C12_inlined_exact_partial: propext Classical.choice Quot.sound
Verif.Bytes.C12_fails: propext Quot.sound
Verif.Bytes.C13_noalloc_clone: propext Classical.choice Quot.sound
Verif.CharP.C14_empty: propext Classical.choice Quot.sound
Verif.CharP.C14_terminated: propext Classical.choice Quot.sound
Verif.CharP.C14_rejected: propext Quot.sound
Verif.CharP.C14_from_cstr: propext Classical.choice Quot.sound
Verif.CharP.C15_try_from_string: propext Classical.choice Quot.sound
Verif.CharP.C15_new: propext Classical.choice Quot.sound
Verif.CharP.C16_values: propext Classical.choice Quot.sound
Verif.CharP.C16_round_trip: propext Classical.choice Quot.sound
Verif.CharP.C16_clone: propext Classical.choice Quot.sound
Verif.CharP.C16_eq: propext Classical.choice Quot.sound
Verif.CharP.C17_memory_safe: propext Classical.choice Quot.sound
Verif.CharP.C17_ownership: propext Classical.choice Quot.sound
Verif.CharP.C17_leak_free: propext Classical.choice Quot.sound
Verif.CharP.C17_into_vec: propext Classical.choice Quot.sound
Verif.CharP.C18_empty: propext Classical.choice Quot.sound
Verif.CharP.C18_accepted: propext Classical.choice Quot.sound
Verif.CharP.C18_rejected: propext Quot.sound
Verif.CharP.Shared.C19_values: propext Classical.choice Quot.sound
Verif.CharP.Shared.C19_read_back: propext Classical.choice Quot.sound
Verif.CharP.Shared.C19_counts: propext Classical.choice Quot.sound
Verif.CharP.Shared.C19_release: propext Classical.choice Quot.sound
Verif.Layout.C20_never_rejects_partial: propext Classical.choice Quot.sound
Verif.Layout.C20_same_value: propext Classical.choice Quot.sound
Verif.Layout.C20_fails_misaligned_nonNull: propext Quot.sound
Verif.Layout.C20_fails_tagged_unit: propext Quot.sound
Verif.Layout.C20_fails_transparent_phantom_first: propext Quot.sound
Verif.Layout.C21_from_raw: propext Classical.choice Quot.sound
Verif.Layout.C21_unchecked: propext Classical.choice Quot.sound
Verif.Layout.C21_only_values: propext Classical.choice Quot.sound
Verif.Layout.C22_references: propext Classical.choice Quot.sound
Verif.Layout.C22_box: propext Classical.choice Quot.sound
Verif.Layout.C23_aligned_partial: propext Classical.choice Quot.sound
Verif.Layout.C23_fails_null_accepted: propext Classical.choice Quot.sound
Verif.Layout.C24_enum: propext Classical.choice Quot.sound
Verif.Layout.C24_images_exist: propext Quot.sound
Verif.Layout.C25_round_trip: none
Verif.Layout.C25_methods: none
Verif.Layout.C25_layout: propext Quot.sound
Verif.Layout.C25_valid: propext Classical.choice Quot.sound
Verif.Layout.C26_same_layout: propext Quot.sound
Verif.Layout.C26_panics: propext Quot.sound
Verif.Layout.C26_c_layout_agrees: propext Quot.sound
Verif.Owned.C27_round_trip: propext
Verif.Owned.C27_history: propext Classical.choice Quot.sound
Verif.Owned.C27_freed_once: propext Classical.choice Quot.sound
Verif.Owned.C27_same_allocation: propext Quot.sound
Verif.Owned.C28_writes_back: propext Classical.choice Quot.sound
Verif.Owned.C28_any_closure: propext Quot.sound
Verif.Owned.C29_round_trip: none
Verif.Owned.C29_empty: propext Classical.choice Quot.sound
Verif.Owned.C29_independent: propext Classical.choice Quot.sound
Verif.Owned.C29_clone: propext Classical.choice Quot.sound
Verif.Owned.Slice.C30_same_memory: propext
Verif.Owned.Slice.C30_write_through: propext Quot.sound
Verif.Owned.Slice.C30_equality: propext
Verif.Owned.Slice.C30_order: propext Quot.sound
Verif.Owned.Slice.C30_null_is_none: propext Classical.choice Quot.sound
Verif.Dyn.C31_history: propext Classical.choice Quot.sound
Verif.Dyn.C31_counts: propext Classical.choice Quot.sound
Verif.Dyn.C31_released_with_last: propext Classical.choice Quot.sound
Verif.Dyn.C31_call: propext Classical.choice Quot.sound
Verif.Dyn.C31_clone: propext Classical.choice Quot.sound
Verif.Dyn.C31_null_retain: propext
Verif.Dyn.C32_threaded: propext Classical.choice Quot.sound
Verif.Dyn.C32_freed: propext Classical.choice Quot.sound
Verif.Dyn.C32_null: propext
Verif.Dyn.C33_alive: propext Classical.choice Quot.sound
Verif.Dyn.C33_borrowed: propext Classical.choice Quot.sound
Verif.Dyn.C33_leak_free: propext Classical.choice Quot.sound
Verif.Dyn.C33_deep_clone: propext Classical.choice Quot.sound
Verif.Dyn.C33_shared_clone: propext Classical.choice Quot.sound
Verif.Dyn.C34_sound_partial: propext Quot.sound
Verif.Dyn.C34_exact: propext Quot.sound
Verif.Dyn.C34_fails_supertrait: propext Quot.sound
Verif.Dyn.C35_dispatch: propext Classical.choice Quot.sound
Verif.Dyn.C35_arguments: propext Classical.choice Quot.sound
Verif.Fut.C36_dyn_poll: propext
Verif.Fut.C36_into_future: propext Quot.sound
Verif.Fut.C37_spawn: propext Classical.choice Quot.sound
Verif.Fut.C37_spawn_only_output: propext Classical.choice Quot.sound
Verif.Fut.C37_spawn_once: propext Classical.choice Quot.sound
Verif.Fut.C37_spawn_task: propext Classical.choice Quot.sound
Verif.Fut.C37_block_on: propext Quot.sound
Verif.Fut.C37_tokio: propext Classical.choice Quot.sound
Verif.Fut.C37_tokio_failed: propext Classical.choice Quot.sound
Verif.Fut.C38_at_most_once: propext Classical.choice Quot.sound
Verif.Fut.C38_first_call: propext Classical.choice Quot.sound
Verif.Fut.C38_second_call: propext Classical.choice Quot.sound
Verif.Fut.C38_result: propext Classical.choice Quot.sound
Verif.Fut.C38_ok_iff_completed: propext Classical.choice Quot.sound
Verif.Fut.C38_tokio: propext Classical.choice Quot.sound
Verif.Fut.C38_tokio_cancelled: propext Classical.choice Quot.sound
Verif.Headers.C39_once: propext Classical.choice Quot.sound
Verif.Headers.C39_order_partial: propext Classical.choice Quot.sound
Verif.Headers.C39_levels_partial: propext Classical.choice Quot.sound
Verif.Headers.C39_complete_partial: propext Classical.choice Quot.sound
Verif.Headers.C39_fails_recursive: propext Classical.choice Quot.sound
Verif.Headers.C39_fails_isize: propext Classical.choice Quot.sound
Verif.Headers.C39_fails_python_alias: propext Classical.choice Quot.sound
Verif.Headers.C39_fails_fn_named_like_type: propext Classical.choice Quot.sound
Verif.Headers.C39_fails_same_alias: propext Classical.choice Quot.sound
Verif.Headers.C40: propext Classical.choice Quot.sound
Verif.Headers.C40_sorted: propext Classical.choice Quot.sound
Verif.Headers.C40_unstable: propext Classical.choice Quot.sound
Verif.Headers.C41_all_partial: propext Classical.choice Quot.sound
Verif.Headers.C41_functions_partial: propext Classical.choice Quot.sound
Verif.Headers.C41_constants_partial: propext Classical.choice Quot.sound
Verif.Headers.C41_types_partial: propext Classical.choice Quot.sound
Verif.Headers.C41_recursive_types_partial: propext Classical.choice Quot.sound
Verif.Headers.C41_succeeds: propext Classical.choice Quot.sound
Verif.Headers.C41_recursive_succeeds: propext Classical.choice Quot.sound
Verif.Headers.C41_duplicates: propext Classical.choice Quot.sound
Verif.Headers.C41_already_exists: propext Classical.choice Quot.sound
Verif.Headers.C41_fails_stable_duplicates: propext Classical.choice Quot.sound
Verif.Headers.C41_fails_same_name: propext Classical.choice Quot.sound
Verif.Headers.C41_fails_untyped_csharp: propext Classical.choice Quot.sound
Verif.Headers.C42: propext Classical.choice Quot.sound
Verif.Headers.C42_whole: propext Classical.choice Quot.sound
Verif.Headers.C91_text: propext Classical.choice Quot.sound
Verif.Headers.C43_c_partial: propext Classical.choice Quot.sound
Verif.Headers.C43_csharp_partial: propext Classical.choice Quot.sound
Verif.Headers.C43_fails_generic: propext Classical.choice Quot.sound
Verif.Headers.C43_fails_array_parameter: propext Classical.choice Quot.sound
Verif.Headers.C43_fails_nested_fptr: propext Classical.choice Quot.sound
Verif.Headers.C43_fails_generic_alias: propext Classical.choice Quot.sound
Verif.Headers.C43_fails_base_name: propext Classical.choice Quot.sound
Verif.Headers.C44_declares_partial: propext Classical.choice Quot.sound
Verif.Headers.C44_abstract_partial: propext Classical.choice Quot.sound
Verif.Headers.C44_array_field_partial: propext Classical.choice Quot.sound
Verif.Headers.C44_alias_partial: propext Classical.choice Quot.sound
Verif.Headers.C44_fails_ptr_to_fptr: propext Classical.choice Quot.sound
Verif.Headers.C44_fails_ret_fptr: propext Classical.choice Quot.sound
Verif.Headers.C44_fails_alias_fptr: propext Classical.choice Quot.sound
Verif.Headers.C44_fails_python_alias: propext Classical.choice Quot.sound
Verif.Headers.C44_fails_unit_param: propext Classical.choice Quot.sound
Verif.Headers.C45_values: propext Classical.choice Quot.sound
Verif.Headers.C45_ranges: propext Classical.choice Quot.sound
Verif.Headers.C45_partial: propext Classical.choice Quot.sound
Verif.Headers.C45_python_partial: propext Classical.choice Quot.sound
Verif.Headers.C45_python_exact: propext Classical.choice Quot.sound
Verif.Headers.C45_fails_complement: propext Classical.choice Quot.sound
Verif.Headers.C45_fails_shift: propext Classical.choice Quot.sound
Verif.Headers.C45_fails_python: propext Classical.choice Quot.sound
Verif.Names.C46_same_enum_partial: propext Classical.choice Quot.sound
Verif.Names.C46_two_enums_partial: propext Classical.choice Quot.sound
Verif.Names.C46_fails_same_enum: propext Classical.choice Quot.sound
Verif.Names.C46_fails_two_enums: propext Classical.choice Quot.sound
Verif.Headers.C47_c_partial: propext Classical.choice Quot.sound
Verif.Headers.C47_c_leak: propext Classical.choice Quot.sound
Verif.Headers.C47_fails_c: propext Classical.choice Quot.sound
Verif.Headers.C47_csharp_partial: propext Classical.choice Quot.sound
Verif.Headers.C47_fails_csharp: propext Classical.choice Quot.sound
Verif.Headers.C47_python: propext Classical.choice Quot.sound
Verif.Headers.C48_segments: propext Quot.sound
Verif.Headers.C48_exact: propext Classical.choice Quot.sound
Verif.Headers.C48_balanced_exact: propext Classical.choice Quot.sound
Verif.Headers.C48_markup_partial: propext Classical.choice Quot.sound
Verif.Headers.C48_balanced_partial: propext Classical.choice Quot.sound
Verif.Headers.C48_emitted_partial: propext Classical.choice Quot.sound
Verif.Headers.C48_fails_run4: propext Classical.choice Quot.sound
Verif.Headers.C49_c_partial: propext Classical.choice Quot.sound
Verif.Headers.C49_void: propext Classical.choice Quot.sound
Verif.Headers.C49_csharp: propext Classical.choice Quot.sound
Verif.Headers.C49_fails_unit: propext Classical.choice Quot.sound
Verif.Shim.C50_distinct: propext Classical.choice Quot.sound
Verif.Shim.C50_all: propext Classical.choice Quot.sound
Verif.Shim.C50_kept: propext Classical.choice Quot.sound
Verif.Names.C51_pascal_partial: propext Quot.sound
Verif.Names.C51_letters: propext Quot.sound
Verif.Names.C51_no_underscore: propext Quot.sound
Verif.Names.C51_hyphens: propext Quot.sound
Verif.Names.C51_fails_leading: propext Classical.choice Quot.sound
Verif.Names.C51_fails_double: propext Classical.choice Quot.sound
Verif.Names.C52_fragment: propext Classical.choice Quot.sound
Verif.Names.C52_name_partial: propext Classical.choice Quot.sound
Verif.Names.C52_fails_nested_generics: propext Classical.choice Quot.sound
Verif.Names.C52_fails_slice_of_arrays: propext Classical.choice Quot.sound
Verif.Names.C52_fails_dyn: propext Classical.choice Quot.sound
Verif.Shim.C53_no_unwind: propext Classical.choice Quot.sound
Verif.Shim.C53_outcomes: propext Classical.choice Quot.sound
Verif.Shim.C53_panic_aborts: propext Classical.choice Quot.sound
Verif.Shim.C54_call: propext Classical.choice Quot.sound
Verif.Shim.C54_invalid: propext Classical.choice Quot.sound
Verif.Js.C55: propext Classical.choice Quot.sound
Verif.Js.C55_exact: propext Classical.choice Quot.sound
Verif.Js.C56_partial: propext Classical.choice Quot.sound
Verif.Js.C56_numbers: propext Classical.choice Quot.sound
Verif.Js.C56_not_a_number: propext
Verif.Js.C56_wasm: propext Classical.choice Quot.sound
Verif.Js.C56_fails: propext
Verif.Js.C56_fails_wasm: propext
Verif.Js.C56_fails_never_rejects: propext Classical.choice Quot.sound
Verif.Js.C57_null: propext Classical.choice Quot.sound
Verif.Js.C57_mut: propext Classical.choice Quot.sound
Verif.Js.C57_const_partial: propext Classical.choice Quot.sound
Verif.Js.C57_as_mut: propext Classical.choice Quot.sound
Verif.Js.C57_as_const: propext Classical.choice Quot.sound
Verif.Js.C57_incompatible_partial: propext Classical.choice Quot.sound
Verif.Js.C57_not_pointer: propext Classical.choice Quot.sound
Verif.Js.C57_buffer: propext Classical.choice Quot.sound
Verif.Js.C57_fails: propext Classical.choice Quot.sound
Verif.Js.C58_string: propext Classical.choice Quot.sound
Verif.Js.C58_terminated: propext Classical.choice Quot.sound
Verif.Js.C58_inner_nul: propext Classical.choice Quot.sound
Verif.Js.C58_other: propext Classical.choice Quot.sound
Verif.Js.C58_buffer: propext Classical.choice Quot.sound
Verif.Js.C58_buffer_rejected_partial: propext Classical.choice Quot.sound
Verif.Js.C58_fails_empty_buffer: propext Classical.choice Quot.sound
Verif.Js.C59_partial: propext Classical.choice Quot.sound
Verif.Js.C59_fails: propext Classical.choice Quot.sound
Verif.Js.C59_boolean: propext Classical.choice Quot.sound
Verif.Js.C60_allowed: propext Classical.choice Quot.sound
Verif.Js.C60_once: propext Classical.choice Quot.sound
Verif.Js.C60_result: propext Classical.choice Quot.sound
Verif.Js.C60_arguments: propext Classical.choice Quot.sound
Verif.Js.C60_unique: propext Classical.choice Quot.sound
Verif.Js.C60_blocks: propext Classical.choice Quot.sound
Verif.Js.C60_end: propext Classical.choice Quot.sound
Verif.Js.C60_wrapped_partial: propext Classical.choice Quot.sound
Verif.Js.C60_wrapped_value: propext Classical.choice Quot.sound
Verif.Js.C60_progress: propext Classical.choice Quot.sound
Verif.Js.C60_fails_exception: propext Classical.choice Quot.sound
Verif.Js.C61_history: propext Classical.choice Quot.sound
Verif.Js.C61_default: propext Classical.choice Quot.sound
Verif.Js.C61_once: propext Classical.choice Quot.sound
Verif.Js.C61_read_back: propext Classical.choice Quot.sound
Verif.Js.C61_fails_negative: propext Classical.choice Quot.sound
Verif.Headers.C62_params_partial: propext Classical.choice Quot.sound
Verif.Headers.C62_return_partial: propext Classical.choice Quot.sound
Verif.Headers.C62_fails_c_int: propext Classical.choice Quot.sound
Verif.Headers.C62_fails_alias_of_bool: propext Classical.choice Quot.sound
Verif.Headers.C62_fails_ptr_to_fptr: propext Classical.choice Quot.sound
Verif.Headers.C63_c_partial: propext Classical.choice Quot.sound
Verif.Headers.C63_csharp_partial: propext Classical.choice Quot.sound
Verif.Headers.C63_refuses: propext Classical.choice Quot.sound
Verif.Js.C64_partial: propext Classical.choice Quot.sound
Verif.Js.C64_numbers: propext Classical.choice Quot.sound
Verif.Js.C64_size: propext Quot.sound
Verif.Js.C64_wrong_type: propext
Verif.Js.C64_fails: propext
Verif.Js.C64_fails_negative: propext Classical.choice Quot.sound
Verif.Js.C65_partial: propext Classical.choice Quot.sound
Verif.Js.C65_fails_nan: propext
Verif.Js.C66_partial: propext Classical.choice Quot.sound
Verif.Js.C66_call_partial: propext Classical.choice Quot.sound
Verif.Js.C66_all_or_nothing: propext Classical.choice Quot.sound
Verif.Js.C66_enum: propext Classical.choice Quot.sound
Verif.Js.C66_valid: propext Classical.choice Quot.sound
Verif.Js.C66_valid_args: propext Classical.choice Quot.sound
Verif.Js.C66_exact: propext Classical.choice Quot.sound
Verif.Js.C66_fails_const_mut: propext Classical.choice Quot.sound
Verif.Js.C67_string_round_trip: propext Classical.choice Quot.sound
Verif.Js.C67_only_text: propext Classical.choice Quot.sound
Verif.Js.C67_ref_string: propext Classical.choice Quot.sound
Verif.Js.C67_box_string: propext Classical.choice Quot.sound
Verif.Js.C67_box_not_ref: propext Classical.choice Quot.sound
Verif.Js.C67_with_bytes: propext Classical.choice Quot.sound
Verif.Js.C67_with_bytes_other: propext Classical.choice Quot.sound
Verif.Js.C67_ref_bytes: propext Classical.choice Quot.sound
Verif.Js.C67_bytes_round_trip: propext Classical.choice Quot.sound
Verif.Js.C67_box_bytes: propext Classical.choice Quot.sound
Verif.Js.C67_out_bytes: propext Classical.choice Quot.sound
Verif.Js.C67_out_strings: propext Classical.choice Quot.sound
Verif.Js.C68_order: propext Classical.choice Quot.sound
Verif.Js.C68_detached: propext Classical.choice Quot.sound
Verif.Js.C68_bounded: propext Classical.choice Quot.sound
Verif.Js.C68_drained: propext Classical.choice Quot.sound
Verif.BytesVt.C69_defined: propext Classical.choice Quot.sound
Verif.BytesVt.C69_balance: propext Classical.choice Quot.sound
Verif.BytesVt.C69_all_released: propext Classical.choice Quot.sound
Verif.BytesVt.C69_release: propext Classical.choice Quot.sound
Verif.BytesVt.C69_retain: propext Classical.choice Quot.sound
Verif.BytesVt.C69_read: propext Classical.choice Quot.sound
Verif.BytesVt.C69_stable: propext Classical.choice Quot.sound
Verif.BytesVt.C69_given: propext Classical.choice Quot.sound
Verif.BytesVt.C69_made: propext Classical.choice Quot.sound
Verif.BytesVt.C69_aborts: propext Classical.choice Quot.sound
Verif.BytesVt.C69_noalloc: propext Classical.choice Quot.sound
Verif.BytesVt.C69_outcomes: propext Classical.choice Quot.sound
Verif.BytesVt.C69_clone: propext Classical.choice Quot.sound
Verif.BytesVt.C69_shrink: propext Classical.choice Quot.sound
Verif.BytesVt.C69_shrink_refuses: propext Classical.choice Quot.sound
Verif.BytesVt.C69_split: propext Classical.choice Quot.sound
Verif.BytesVt.C69_upgrade: propext Classical.choice Quot.sound
Verif.Bytes.C70_serialize: propext Quot.sound
Verif.Bytes.C70_deserialize_partial: propext Classical.choice Quot.sound
Verif.Bytes.C70_error: propext Quot.sound
Verif.Bytes.C70_no_panic: propext Quot.sound
Verif.Bytes.C70_round_trip_partial: propext Classical.choice Quot.sound
Verif.Bytes.C70_fails_size_hint: propext Quot.sound
Verif.BytesVt.C71_round_trip: propext Classical.choice Quot.sound
Verif.BytesVt.C71_unshrunk: propext Classical.choice Quot.sound
Verif.BytesVt.C71_contents_partial: propext Classical.choice Quot.sound
Verif.BytesVt.C71_fails_shrunk: propext Quot.sound
Verif.Js.C72_worker_partial: propext Classical.choice Quot.sound
Verif.Js.C72_worker: propext Classical.choice Quot.sound
Verif.Js.C72_worker_call: propext Classical.choice Quot.sound
Verif.Js.C72_worker_progress: propext Classical.choice Quot.sound
Verif.Js.C72_async: propext Classical.choice Quot.sound
Verif.Js.C72_async_call: propext Classical.choice Quot.sound
Verif.Js.C72_async_output: propext Classical.choice Quot.sound
Verif.Js.C72_async_progress: propext Classical.choice Quot.sound
Verif.Js.C72_fails_buffer: propext Classical.choice Quot.sound
Verif.Export.C73_parameters: propext Classical.choice Quot.sound
Verif.Export.C73_duplicate: propext Classical.choice Quot.sound
Verif.Export.C73_constants: propext
Verif.Export.C73_names: propext
Verif.Export.C73_items: propext Classical.choice Quot.sound
Verif.Export.C73_function: propext Classical.choice Quot.sound
Verif.Export.C73_async_partial: propext Quot.sound
Verif.Export.C73_fails_async_rename: propext Classical.choice Quot.sound
Verif.Export.C73_fails_async_dropped: propext
Verif.Export.C73_fails_async_abi: propext
Verif.Headers.C74_again: propext Classical.choice Quot.sound
Verif.Headers.C74_linkage: propext Classical.choice Quot.sound
Verif.Headers.C74_twice: propext Classical.choice Quot.sound
Verif.Headers.C74_banner: propext
Verif.Headers.C74_guard: propext Quot.sound
Verif.Derive.C75_layout_partial: propext Classical.choice Quot.sound
Verif.Derive.C75_fails_packed: propext
Verif.Derive.C75_fails_align: propext
Verif.Derive.C75_fails_two_enum_reprs: propext
Verif.Derive.C75_fails_transparent_order: propext
Verif.Derive.C75_fails_opaque_array: propext
Verif.Derive.C76_only_documented_partial: propext Classical.choice Quot.sound
Verif.Derive.C76_rejects: propext Classical.choice Quot.sound
Verif.Derive.C76_accepts_struct_partial: propext Classical.choice Quot.sound
Verif.Derive.C76_accepts_transparent_partial: propext Classical.choice Quot.sound
Verif.Derive.C76_accepts_callback: propext Classical.choice Quot.sound
Verif.Derive.C76_accepts_enum: propext Classical.choice Quot.sound
Verif.Derive.C76_accepts_opaque: propext Classical.choice Quot.sound
Verif.Derive.C76_fails_repr_c_enum: propext
Verif.Derive.C76_fails_tuple_struct: propext Classical.choice Quot.sound
Verif.Derive.C76_fails_private_newtype: propext Quot.sound
Verif.Derive.C76_fails_many_fields: propext Quot.sound
Verif.Derive.C76_fails_legacy_js_enum: propext Quot.sound
Verif.Derive.C76_fails_opaque_array: propext
Verif.Headers.C77_types_partial: propext Classical.choice Quot.sound
Verif.Headers.C77_members_partial: propext Classical.choice Quot.sound
Verif.Headers.C77_functions_partial: propext Classical.choice Quot.sound
Verif.Headers.C77_callbacks_partial: propext Classical.choice Quot.sound
Verif.Headers.C77_places_partial: propext Classical.choice Quot.sound
Verif.Headers.C77_places_unique: propext Classical.choice Quot.sound
Verif.Headers.C77_unique: propext Classical.choice Quot.sound
Verif.Headers.C77_fails_same_name: propext Classical.choice Quot.sound
Verif.DynDerive.C78_accepts_partial: propext Quot.sound
Verif.DynDerive.C78_accepted: propext Quot.sound
Verif.DynDerive.C78_vtable: propext Quot.sound
Verif.DynDerive.C78_filled: propext Quot.sound
Verif.DynDerive.C78_functions: propext Quot.sound
Verif.DynDerive.C78_calls: propext Quot.sound
Verif.DynDerive.C78_names: propext Quot.sound
Verif.DynDerive.C78_conversions_partial: propext Quot.sound
Verif.DynDerive.C78_conversions_sound: propext Quot.sound
Verif.DynDerive.C78_fails_pin_and_mut: propext Quot.sound
Verif.DynDerive.C78_fails_send_only: propext Quot.sound
Verif.DynDerive.C78_fails_sync_only: propext Quot.sound
Verif.DynDerive.C78_fails_pinned_arc: propext
Verif.DynDerive.C78_fails_rc_without_clone: propext Quot.sound
Verif.DynDerive.C78_fails_reserved_name: propext
Verif.DynDerive.C78_fails_duplicate_clone: propext Quot.sound
Verif.DynDerive.C78_fails_retain_type: propext Classical.choice Quot.sound
Verif.Wasm.C79_memory: propext Classical.choice Quot.sound
Verif.Wasm.C79_no_leak: propext Classical.choice Quot.sound
Verif.Wasm.C79_arguments: propext Classical.choice Quot.sound
Verif.Wasm.C79_call: propext Classical.choice Quot.sound
Verif.Wasm.C79_return: propext Classical.choice Quot.sound
Verif.Wasm.C79_callback_arguments: propext Classical.choice Quot.sound
Verif.Wasm.C79_callback_result_partial: propext Classical.choice Quot.sound
Verif.Wasm.C79_fails_returned_buffer: propext Classical.choice Quot.sound
Verif.Wasm.C79_fails_returned_string: propext Classical.choice Quot.sound
Verif.Wasm.C79_fails_returned_argument: propext Classical.choice Quot.sound
Verif.Wasm.C79_fails_unchecked: propext Classical.choice Quot.sound
Verif.Wasm.C79_fails_leak: propext Classical.choice Quot.sound
Verif.Callback.C80_bounds_partial: propext Classical.choice Quot.sound
Verif.Callback.C80_layout_partial: propext Quot.sound
Verif.Callback.C80_accepted_partial: propext Classical.choice Quot.sound
Verif.Callback.C80_fails_inner_elision: propext Quot.sound
Verif.Callback.C80_fails_inner_for: propext Classical.choice Quot.sound
Verif.Callback.C80_fails_reserved: propext
Verif.Callback.C80_fails_generic_lifetime: propext Classical.choice Quot.sound
Verif.JsLife.C81_safe: propext Classical.choice Quot.sound
Verif.JsLife.C81_alive: propext Classical.choice Quot.sound
Verif.JsLife.C81_deleted: propext Classical.choice Quot.sound
Verif.JsLife.C81_no_leak: propext Classical.choice Quot.sound
Verif.JsLife.C81_waits: propext Classical.choice Quot.sound
Verif.JsLife.C81_drains: propext Classical.choice Quot.sound
Verif.JsLife.C81_effects: propext Classical.choice Quot.sound
Verif.JsLife.C81_aborts: propext Classical.choice Quot.sound
Verif.JsLife.C81_in_order: propext Classical.choice Quot.sound
Verif.JsLife.C81_collected: propext Classical.choice Quot.sound
Verif.JsLife.C81_once: propext Classical.choice Quot.sound
Verif.JsLife.C81_return_partial: propext Classical.choice Quot.sound
Verif.JsLife.C81_fails_return: propext Quot.sound
Verif.JsLife.C81_fails_thread: propext Quot.sound
Verif.JsExport.C82_captures: propext Classical.choice Quot.sound
Verif.JsExport.C82_lifetimes: propext Classical.choice Quot.sound
Verif.JsExport.C82_hidden: propext
Verif.JsExport.C82_accepts_partial: propext Classical.choice Quot.sound
Verif.JsExport.C82_fails_fn_pointer: propext Classical.choice Quot.sound
Verif.JsExport.C82_fails_for: propext Quot.sound
Verif.JsExport.C82_fails_worker: propext
Verif.JsExport.C82_same_layout: propext Quot.sound
Verif.JsExport.C82_alias_static: propext Classical.choice Quot.sound
Verif.JsExport.C82_make_static: propext Quot.sound
Verif.JsExport.C82_wasm_partial: propext Quot.sound
Verif.JsExport.C82_wasm_same: propext Quot.sound
Verif.JsExport.C82_fails_wasm: propext
Verif.JsExport.C83_names: propext Quot.sound
Verif.JsExport.C83_refuses: propext Quot.sound
Verif.JsExport.C83_arguments_partial: propext Classical.choice Quot.sound
Verif.JsExport.C83_fails_same_name: propext Classical.choice Quot.sound
Verif.JsExport.C83_exports_partial: propext Quot.sound
Verif.JsExport.C83_fails_duplicate: propext Quot.sound
Verif.JsExport.C83_fails_silent: propext
Verif.JsExport.C83_others: propext Quot.sound
Verif.Waker.C84_safe: propext Classical.choice Quot.sound
Verif.Waker.C84_wakes: propext Classical.choice Quot.sound
Verif.Waker.C84_not_lost: propext Classical.choice Quot.sound
Verif.Waker.C84_context_wake: propext Classical.choice Quot.sound
Verif.Waker.C84_no_leak: propext Classical.choice Quot.sound
Verif.Waker.C84_context_needed: propext
Verif.Opaque.C85_export_partial: propext Quot.sound
Verif.Opaque.C85_accepts: propext Quot.sound
Verif.Opaque.C85_parts: propext Quot.sound
Verif.Opaque.C85_same_layout_partial: propext Classical.choice Quot.sound
Verif.Opaque.C85_behind_pointers: propext Quot.sound
Verif.Opaque.C85_refuses: propext
Verif.Opaque.C85_fails_array: propext Quot.sound
Verif.Opaque.C85_fails_callback: propext
Verif.Headers.C86_compiles_partial: propext Classical.choice Quot.sound
Verif.Headers.C86_fails_opaque_array: propext Classical.choice Quot.sound
Verif.Headers.C86_fails_reserved: propext Classical.choice Quot.sound
Verif.Headers.C86_fails_recursive: propext Classical.choice Quot.sound
Verif.Headers.C86_fails_isize: propext Classical.choice Quot.sound
Verif.Headers.C86_fails_raw: propext Classical.choice Quot.sound
Verif.Headers.Cs.C87_types_partial: propext Classical.choice Quot.sound
Verif.Headers.Cs.C87_members_partial: propext Classical.choice Quot.sound
Verif.Headers.Cs.C87_library: propext Classical.choice Quot.sound
Verif.Headers.Cs.C87_functions_partial: propext Classical.choice Quot.sound
Verif.Headers.Cs.C87_callbacks_partial: propext Classical.choice Quot.sound
Verif.Headers.Cs.C87_compiles_partial: propext Classical.choice Quot.sound
Verif.Headers.Cs.C87_unique: propext Classical.choice Quot.sound
Verif.Headers.Cs.C87_fails_win32: propext Classical.choice Quot.sound
Verif.Headers.Cs.C87_fails_keyword: propext Classical.choice Quot.sound
Verif.Headers.Cs.C87_fails_usize_array: propext Classical.choice Quot.sound
Verif.Headers.Cs.C87_fails_callback: propext Classical.choice Quot.sound
Verif.Headers.Cs.C87_fails_f32: propext Classical.choice Quot.sound
Verif.Headers.Cs.C87_fails_usize: propext Classical.choice Quot.sound
Verif.Headers.Cs.C87_fails_class: propext Classical.choice Quot.sound
Verif.Markers.C88_counterpart: propext Quot.sound
Verif.Markers.C88_hiding: propext Quot.sound
Verif.Markers.C88_threads_partial: propext Quot.sound
Verif.Markers.C88_fails_supertrait: propext
Verif.Markers.C89_variance: propext Classical.choice Quot.sound
Verif.Markers.C89_closures: propext
Verif.Markers.C89_virtual: propext
Verif.Markers.C89_lifetimes: propext
Verif.Markers.C89_counterpart: propext
Verif.Headers.C90_types_partial: propext Classical.choice Quot.sound
Verif.Headers.C90_members_partial: propext Classical.choice Quot.sound
Verif.Headers.C90_functions_partial: propext Classical.choice Quot.sound
Verif.Headers.C90_accepts_partial: propext Classical.choice Quot.sound
Verif.Headers.C90_same_partial: propext Classical.choice Quot.sound
Verif.Headers.C90_bare_partial: propext Classical.choice Quot.sound
Verif.Headers.C90_unique: propext Classical.choice Quot.sound
Verif.Headers.C90_fails_include: propext Classical.choice Quot.sound
Verif.Headers.C90_fails_enum_size: propext Classical.choice Quot.sound
Verif.Headers.C90_fails_ifdef: propext Classical.choice Quot.sound
Verif.Headers.C91_options: propext Classical.choice Quot.sound
Verif.Headers.C91_order: propext Classical.choice Quot.sound
Verif.Headers.C91_library: propext Classical.choice Quot.sound
Verif.Headers.C91_file: propext Classical.choice Quot.sound
Verif.Headers.C91_fails_naming: propext Classical.choice Quot.sound
Verif.Headers.C92_names_partial: propext Classical.choice Quot.sound
Verif.Headers.C92_constants_partial: propext Classical.choice Quot.sound
Verif.Headers.C92_fails_param: propext Classical.choice Quot.sound
Verif.Headers.C92_fails_constants: propext Classical.choice Quot.sound
Verif.Headers.C92_fails_const: propext Classical.choice Quot.sound
Verif.Headers.C92_fails_tag: propext Classical.choice Quot.sound
Verif.Stabby.C93_from_raw: propext Classical.choice Quot.sound
Verif.Stabby.C93_unchecked: propext Classical.choice Quot.sound
Verif.Stabby.C93_never_rejects_partial: propext Classical.choice Quot.sound
Verif.Stabby.C93_same_value: propext Classical.choice Quot.sound
Verif.Stabby.C93_option: propext Classical.choice Quot.sound
Verif.Stabby.C93_upcast: propext Classical.choice Quot.sound
Verif.Stabby.C93_stabbied: propext
Verif.Stabby.C93_fails_slice_ends: propext Quot.sound
Verif.Stabby.C93_fails_slice_no_size: propext Quot.sound
Verif.Poly.C94_int: propext Classical.choice Quot.sound
Verif.Poly.C94_int32: propext Classical.choice Quot.sound
Verif.Poly.C94_int64_partial: propext Classical.choice Quot.sound
Verif.Poly.C94_values: propext Classical.choice Quot.sound
Verif.Poly.C94_created_types: propext Quot.sound
Verif.Poly.C94_created_fresh: propext Classical.choice Quot.sound
Verif.Poly.C94_string_from_js: propext Classical.choice Quot.sound
Verif.Poly.C94_string_lone: propext Classical.choice Quot.sound
Verif.Poly.C94_type: propext Quot.sound
Verif.Poly.C94_try_from_partial: propext Classical.choice Quot.sound
Verif.Poly.C94_is_buffer: propext Quot.sound
Verif.Poly.C94_has_type_partial: propext Quot.sound
Verif.Poly.C94_set_get: propext Classical.choice Quot.sound
Verif.Poly.C94_set_refused: propext Classical.choice Quot.sound
Verif.Poly.C94_array: propext Classical.choice Quot.sound
Verif.Poly.C94_error: propext Classical.choice Quot.sound
Verif.Poly.C94_error_new: propext Classical.choice Quot.sound
Verif.Poly.C94_error_from_object: propext Classical.choice Quot.sound
Verif.Poly.C94_fails_int64: propext
Verif.Poly.C94_fails_string: propext
Verif.Poly.C94_fails_try_from: propext
Verif.Poly.C94_fails_has_type: propext
Verif.Poly.C94_fails_array_length: propext Classical.choice Quot.sound
Verif.Poly.C94_fails_error_back: propext Classical.choice Quot.sound
Verif.Print.C95_literal: propext Quot.sound
Verif.Print.C95_char_p: propext Classical.choice Quot.sound
Verif.Print.C95_char_p_box: propext Classical.choice Quot.sound
Verif.Print.C95_shared_display: propext Classical.choice Quot.sound
Verif.Print.C95_new_panic: propext Classical.choice Quot.sound
Verif.Print.C95_containers_partial: propext Classical.choice Quot.sound
Verif.Print.C95_as_rust_partial: propext Classical.choice Quot.sound
Verif.Print.C95_strings: propext Classical.choice Quot.sound
Verif.Print.C95_slices_partial: propext Classical.choice Quot.sound
Verif.Print.C95_str_ref: propext Classical.choice Quot.sound
Verif.Print.C95_bytes: propext Classical.choice Quot.sound
Verif.Print.C95_bytes_owned_partial: propext Classical.choice Quot.sound
Verif.Print.C95_option: propext Classical.choice Quot.sound
Verif.Print.C95_fails_shared_debug: propext Classical.choice Quot.sound
Verif.Print.C95_fails_boxed_slice: propext Classical.choice Quot.sound
Verif.Print.C95_fails_bytes_owned: propext Classical.choice Quot.sound
Verif.Generics.C96_repr_c: propext Classical.choice Quot.sound
Verif.Generics.C96_layout: propext Classical.choice Quot.sound
Verif.Generics.C96_own_layout: propext Classical.choice Quot.sound
Verif.Generics.C96_ctype: propext Classical.choice Quot.sound
Verif.Generics.C96_projections: propext Classical.choice Quot.sound
Verif.Generics.C96_js: propext Classical.choice Quot.sound
Verif.Generics.C96_js_projections: propext Classical.choice Quot.sound
Verif.Generics.C96_accepted_partial: propext Quot.sound
Verif.Generics.C96_transparent: propext Classical.choice Quot.sound
Verif.Generics.C96_transparent_niche: propext Classical.choice Quot.sound
Verif.Generics.C96_transparent_projections: propext Classical.choice Quot.sound
Verif.Generics.C96_transparent_ctype: propext Classical.choice Quot.sound
Verif.Generics.C96_opaque: propext Classical.choice Quot.sound
Verif.Generics.C96_impls: propext Classical.choice Quot.sound
Verif.Generics.C96_coherent: propext Classical.choice Quot.sound
Verif.Generics.C96_name: propext Classical.choice Quot.sound
Verif.Generics.C96_own_name_partial: propext Classical.choice Quot.sound
Verif.Generics.C96_fails_const_js: propext Quot.sound
Verif.Generics.C96_fails_const_name: propext Classical.choice Quot.sound
Verif.Generics.C96_fails_const_header: propext Classical.choice Quot.sound
Verif.Generics.C96_fails_alias_name: propext Classical.choice Quot.sound
Verif.Generics.C96_fails_transparent_js: propext Classical.choice Quot.sound
Verif.DynGen.C97_functions_partial: propext Classical.choice Quot.sound
Verif.DynGen.C97_functions_all: propext
Verif.DynGen.C97_impls_partial: propext Classical.choice Quot.sound
Verif.DynGen.C97_instances: propext Classical.choice Quot.sound
Verif.DynGen.C97_entries: propext Quot.sound
Verif.DynGen.C97_bounds: propext Quot.sound
Verif.DynGen.C97_demands: propext Classical.choice Quot.sound
Verif.DynGen.C97_transmutes: propext Quot.sound
Verif.DynGen.C97_vtable: propext Classical.choice Quot.sound
Verif.DynGen.C97_accepted_partial: propext Classical.choice Quot.sound
Verif.DynGen.C97_fails_const_first: propext Classical.choice Quot.sound
Verif.DynGen.C97_fails_clone: propext Classical.choice Quot.sound
Verif.DynGen.C97_fails_by_value: propext Classical.choice Quot.sound
Verif.DynGen.C97_fails_unbounded: propext Classical.choice Quot.sound
Verif.DocAttrs.C98_texts: propext Classical.choice Quot.sound
Verif.DocAttrs.C98_refused: propext Classical.choice Quot.sound
Verif.DocAttrs.C98_refused_items: propext Classical.choice Quot.sound
Verif.DocAttrs.C98_struct: propext Classical.choice Quot.sound
Verif.DocAttrs.C98_enum: propext Classical.choice Quot.sound
Verif.DocAttrs.C98_others: propext Classical.choice Quot.sound
Verif.DocAttrs.C98_c_comment: propext Classical.choice Quot.sound
Verif.DocAttrs.C98_none: propext Classical.choice Quot.sound
Verif.DocAttrs.C98_placed: propext Classical.choice Quot.sound
Verif.DocAttrs.C98_placed_field: propext Classical.choice Quot.sound
Verif.DocAttrs.C98_placed_variant: propext Classical.choice Quot.sound
Verif.DocAttrs.C98_placed_cs: propext Classical.choice Quot.sound
Verif.DocAttrs.C98_placed_field_cs: propext Classical.choice Quot.sound
Verif.DocAttrs.C98_placed_variant_cs: propext Classical.choice Quot.sound
Verif.OpaqueBox.C99_safe: propext Quot.sound
Verif.OpaqueBox.C99_once: propext Quot.sound
Verif.OpaqueBox.C99_released: propext Quot.sound
Verif.OpaqueBox.C99_box_drop: propext Quot.sound
Verif.OpaqueBox.C99_owned_release_partial: propext Quot.sound
Verif.OpaqueBox.C99_same: propext Quot.sound
Verif.OpaqueBox.C99_round_trip: propext Quot.sound
Verif.OpaqueBox.C99_new: propext Quot.sound
Verif.OpaqueBox.C99_write: propext Quot.sound
Verif.OpaqueBox.C99_frame: propext Quot.sound
Verif.OpaqueBox.C99_clone: propext Quot.sound
Verif.OpaqueBox.C99_fails_leak: propext
Verif.Libc.C100_types: propext Quot.sound
Verif.Libc.C100_names: propext Quot.sound
