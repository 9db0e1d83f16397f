{
 "claims": [
  {
   "property": "C01",
   "status": "proved",
   "theorems": [
    "Verif.Bytes.C01_constructors",
    "Verif.Bytes.C01_inline_slice",
    "Verif.Bytes.C01_from_arc"
   ],
   "note": "Any word size and byte order, any reachable state. Running out of address space is excluded by the Room hypothesis."
  },
  {
   "property": "C02",
   "status": "proved",
   "theorems": [
    "Verif.Bytes.C02_inline_image",
    "Verif.Bytes.C02_vtable_image",
    "Verif.Bytes.C02_reachable"
   ],
   "note": "Byte-level images, any word size from 2 to 25 bytes, both byte orders."
  },
  {
   "property": "C03",
   "status": "partial",
   "theorems": [
    "Verif.Bytes.C03_shrink_to_partial",
    "Verif.Bytes.C03_subsliced_partial",
    "Verif.Bytes.C03_inlined_partial",
    "Verif.Bytes.C03_inlined_exact_partial",
    "Verif.Bytes.C03_fails_valid_range_panics",
    "Verif.Bytes.C03_fails_invalid_range_accepted",
    "Verif.Bytes.C03_fails_inclusive_max"
   ],
   "note": "Holds for values that are not inlined and bounds below usize::MAX. The code violates it on inlined values (panic on valid ranges, corrupted bytes on some invalid ones) and for ..=usize::MAX in release builds: proved by witnesses."
  },
  {
   "property": "C04",
   "status": "partial",
   "theorems": [
    "Verif.Bytes.C04_split_at_partial",
    "Verif.Bytes.C04_inlined_exact_partial",
    "Verif.Bytes.C04_fails"
   ],
   "note": "Holds except for a panic on inlined values, which is proved by a witness and characterised exactly."
  },
  {
   "property": "C05",
   "status": "proved",
   "theorems": [
    "Verif.Bytes.C05_clone"
   ],
   "note": "Every later history that does not use the clone itself, including ended borrows and panics."
  },
  {
   "property": "C06",
   "status": "partial",
   "theorems": [
    "Verif.Bytes.C06_memory_safe_partial",
    "Verif.Bytes.C06_counts",
    "Verif.Bytes.C06_leak_free",
    "Verif.Bytes.C06_aborts",
    "Verif.Bytes.C06_not_early",
    "Verif.Bytes.C06_values_partial",
    "Verif.Bytes.C06_fails"
   ],
   "note": "All histories except those that call noalloc_upgrade on a borrowing value, for which a use after free is exhibited."
  },
  {
   "property": "C07",
   "status": "proved",
   "theorems": [
    "Verif.Bytes.C07_upgrade"
   ],
   "note": "Includes that the upgraded value does not keep the borrow alive."
  },
  {
   "property": "C08",
   "status": "partial",
   "theorems": [
    "Verif.Bytes.C08_noalloc_upgrade_partial",
    "Verif.Bytes.C08_fails_borrowed",
    "Verif.Bytes.C08_fails_owned"
   ],
   "note": "The condition of the code is inverted: negations proved in both directions; the rest of the claim holds for non-borrowing values."
  },
  {
   "property": "C09",
   "status": "partial",
   "theorems": [
    "Verif.Bytes.C09_upgrade_partial",
    "Verif.Bytes.C09_clone_partial",
    "Verif.Bytes.C09_exact_big_endian",
    "Verif.Bytes.C09_fails"
   ],
   "note": "Exact outside of the lengths between MAX_INLINE_SIZE and size_of::<Bytes>(), which is empty on big-endian; negation proved on 64-bit little-endian."
  },
  {
   "property": "C10",
   "status": "proved",
   "theorems": [
    "Verif.Bytes.C10_try_into_arc"
   ],
   "note": "Without the stabby feature."
  },
  {
   "property": "C11",
   "status": "proved",
   "theorems": [
    "Verif.Bytes.C11_contents_only",
    "Verif.Bytes.C11_total_order"
   ],
   "note": ""
  },
  {
   "property": "C12",
   "status": "partial",
   "theorems": [
    "Verif.Bytes.C12_read_partial",
    "Verif.Bytes.C12_long_read",
    "Verif.Bytes.C12_inlined_exact_partial",
    "Verif.Bytes.C12_fails"
   ],
   "note": "Never wrong bytes for any sequence of reads; never panics while more than MAX_INLINE_SIZE bytes remain; a panic on inlined remainders is exhibited."
  },
  {
   "property": "C13",
   "status": "proved",
   "theorems": [
    "Verif.Bytes.C13_noalloc_clone"
   ],
   "note": ""
  },
  {
   "property": "C14",
   "status": "proved",
   "theorems": [
    "Verif.CharP.C14_empty",
    "Verif.CharP.C14_terminated",
    "Verif.CharP.C14_rejected",
    "Verif.CharP.C14_from_cstr"
   ],
   "note": "Strings are Unicode texts with their UTF-8 encoding; the memory after the string is arbitrary."
  },
  {
   "property": "C15",
   "status": "proved",
   "theorems": [
    "Verif.CharP.C15_try_from_string",
    "Verif.CharP.C15_new"
   ],
   "note": "From any reachable state, any spare capacity."
  },
  {
   "property": "C16",
   "status": "proved",
   "theorems": [
    "Verif.CharP.C16_values",
    "Verif.CharP.C16_round_trip",
    "Verif.CharP.C16_clone",
    "Verif.CharP.C16_eq"
   ],
   "note": "C16_values is a refinement of plain-value semantics over all histories."
  },
  {
   "property": "C17",
   "status": "proved",
   "theorems": [
    "Verif.CharP.C17_memory_safe",
    "Verif.CharP.C17_ownership",
    "Verif.CharP.C17_leak_free",
    "Verif.CharP.C17_into_vec"
   ],
   "note": "Sizes are checked by the model's deallocator; the sentinel is not a heap block."
  },
  {
   "property": "C18",
   "status": "proved",
   "theorems": [
    "Verif.CharP.C18_empty",
    "Verif.CharP.C18_accepted",
    "Verif.CharP.C18_rejected"
   ],
   "note": ""
  },
  {
   "property": "C19",
   "status": "proved",
   "theorems": [
    "Verif.CharP.Shared.C19_values",
    "Verif.CharP.Shared.C19_read_back",
    "Verif.CharP.Shared.C19_counts",
    "Verif.CharP.Shared.C19_release"
   ],
   "note": "Count updates are atomic, so histories are arbitrary interleavings."
  },
  {
   "property": "C20",
   "status": "partial",
   "theorems": [
    "Verif.Layout.C20_never_rejects_partial",
    "Verif.Layout.C20_same_value",
    "Verif.Layout.C20_fails_misaligned_nonNull",
    "Verif.Layout.C20_fails_tagged_unit",
    "Verif.Layout.C20_fails_transparent_phantom_first"
   ],
   "note": "Any target, any nesting. Three kinds of values that the code does reject or panics on are excluded and exhibited by witnesses."
  },
  {
   "property": "C21",
   "status": "proved",
   "theorems": [
    "Verif.Layout.C21_from_raw",
    "Verif.Layout.C21_unchecked",
    "Verif.Layout.C21_only_values"
   ],
   "note": "Exact in both directions for every supported type without Out, pointers included at the level of bit validity."
  },
  {
   "property": "C22",
   "status": "proved",
   "theorems": [
    "Verif.Layout.C22_references",
    "Verif.Layout.C22_box"
   ],
   "note": ""
  },
  {
   "property": "C23",
   "status": "partial",
   "theorems": [
    "Verif.Layout.C23_aligned_partial",
    "Verif.Layout.C23_fails_null_accepted"
   ],
   "note": "The code accepts null: negation proved for every pointee type."
  },
  {
   "property": "C24",
   "status": "proved",
   "theorems": [
    "Verif.Layout.C24_enum",
    "Verif.Layout.C24_images_exist"
   ],
   "note": ""
  },
  {
   "property": "C25",
   "status": "proved",
   "theorems": [
    "Verif.Layout.C25_round_trip",
    "Verif.Layout.C25_methods",
    "Verif.Layout.C25_layout",
    "Verif.Layout.C25_valid"
   ],
   "note": "Closures with effects in any monad."
  },
  {
   "property": "C26",
   "status": "proved",
   "theorems": [
    "Verif.Layout.C26_same_layout",
    "Verif.Layout.C26_panics",
    "Verif.Layout.C26_c_layout_agrees"
   ],
   "note": "Against a declarative layout rule for C structs."
  },
  {
   "property": "C27",
   "status": "proved",
   "theorems": [
    "Verif.Owned.C27_round_trip",
    "Verif.Owned.C27_history",
    "Verif.Owned.C27_freed_once",
    "Verif.Owned.C27_same_allocation"
   ],
   "note": "All programs over Rust and C vectors, strings, boxed slices and boxes; element types with and without size."
  },
  {
   "property": "C28",
   "status": "proved",
   "theorems": [
    "Verif.Owned.C28_writes_back",
    "Verif.Owned.C28_any_closure"
   ],
   "note": "Any list of edits (including swapping with another vector) at any point of any program; any closure whatsoever under the condition that it leaves a valid vector."
  },
  {
   "property": "C29",
   "status": "proved",
   "theorems": [
    "Verif.Owned.C29_round_trip",
    "Verif.Owned.C29_empty",
    "Verif.Owned.C29_independent",
    "Verif.Owned.C29_clone",
    "Verif.Owned.C27_history",
    "Verif.Owned.C27_freed_once"
   ],
   "note": "Cloning is available for repr_c::Vec, String, c_slice::Box and repr_c::Box."
  },
  {
   "property": "C30",
   "status": "proved",
   "theorems": [
    "Verif.Owned.Slice.C30_same_memory",
    "Verif.Owned.Slice.C30_write_through",
    "Verif.Owned.Slice.C30_equality",
    "Verif.Owned.Slice.C30_order",
    "Verif.Owned.Slice.C30_null_is_none"
   ],
   "note": ""
  },
  {
   "property": "C31",
   "status": "proved",
   "theorems": [
    "Verif.Dyn.C31_history",
    "Verif.Dyn.C31_counts",
    "Verif.Dyn.C31_released_with_last",
    "Verif.Dyn.C31_call",
    "Verif.Dyn.C31_clone",
    "Verif.Dyn.C31_null_retain"
   ],
   "note": "All programs, with overlapping calls; closures made by Rust and by foreign code. Count updates are atomic."
  },
  {
   "property": "C32",
   "status": "proved",
   "theorems": [
    "Verif.Dyn.C31_history",
    "Verif.Dyn.C32_threaded",
    "Verif.Dyn.C32_freed",
    "Verif.Dyn.C32_null",
    "Verif.Dyn.C31_released_with_last"
   ],
   "note": "Any number of calls with any arguments."
  },
  {
   "property": "C33",
   "status": "proved",
   "theorems": [
    "Verif.Dyn.C31_history",
    "Verif.Dyn.C31_counts",
    "Verif.Dyn.C31_released_with_last",
    "Verif.Dyn.C33_alive",
    "Verif.Dyn.C33_borrowed",
    "Verif.Dyn.C33_leak_free",
    "Verif.Dyn.C33_deep_clone",
    "Verif.Dyn.C33_shared_clone"
   ],
   "note": "All programs; the borrow checker's rules are part of the model."
  },
  {
   "property": "C34",
   "status": "partial",
   "theorems": [
    "Verif.Dyn.C34_sound_partial",
    "Verif.Dyn.C34_exact",
    "Verif.Dyn.C34_fails_supertrait"
   ],
   "note": "Against Rust's rules for the auto traits of the pointer types. False for traits with the supertraits Send or Sync, such as the library's own FfiFutureExecutor: an Rc becomes a VirtualPtr that is Send and Sync. Witness; proved for all other traits."
  },
  {
   "property": "C35",
   "status": "proved",
   "theorems": [
    "Verif.Dyn.C35_dispatch",
    "Verif.Dyn.C35_arguments"
   ],
   "note": "Arguments are bound by name, as in the generated code."
  },
  {
   "property": "C36",
   "status": "proved",
   "theorems": [
    "Verif.Fut.C36_dyn_poll",
    "Verif.Fut.C36_into_future"
   ],
   "note": "Futures are arbitrary state machines, with arbitrary contexts."
  },
  {
   "property": "C37",
   "status": "proved",
   "theorems": [
    "Verif.Fut.C37_spawn",
    "Verif.Fut.C37_spawn_only_output",
    "Verif.Fut.C37_spawn_once",
    "Verif.Fut.C37_spawn_task",
    "Verif.Fut.C37_block_on",
    "Verif.Fut.C37_tokio",
    "Verif.Fut.C37_tokio_failed"
   ],
   "note": "Any executor: its polls, drops and answers are arbitrary. The oneshot channel of the futures crate is modelled as linearizable."
  },
  {
   "property": "C38",
   "status": "proved",
   "theorems": [
    "Verif.Fut.C38_at_most_once",
    "Verif.Fut.C38_first_call",
    "Verif.Fut.C38_second_call",
    "Verif.Fut.C38_result",
    "Verif.Fut.C38_ok_iff_completed",
    "Verif.Fut.C38_tokio",
    "Verif.Fut.C38_tokio_cancelled"
   ],
   "note": "Any executor; the action's beginning and end are separate events."
  },
  {
   "property": "C39",
   "status": "partial",
   "theorems": [
    "Verif.Headers.C39_once",
    "Verif.Headers.C39_order_partial",
    "Verif.Headers.C39_levels_partial",
    "Verif.Headers.C39_complete_partial",
    "Verif.Headers.C39_fails_recursive",
    "Verif.Headers.C39_fails_isize",
    "Verif.Headers.C39_fails_python_alias",
    "Verif.Headers.C39_fails_fn_named_like_type",
    "Verif.Headers.C39_fails_same_alias"
   ],
   "note": "At most once: every program, every writer. Order: programs without types recursive through pointers (and the other restrictions listed at the theorem); with recursive types, everything is defined, and only types that mention each other can come too late; beyond these it is false of the code: witnesses."
  },
  {
   "property": "C40",
   "status": "proved",
   "theorems": [
    "Verif.Headers.C40",
    "Verif.Headers.C40_sorted",
    "Verif.Headers.C40_unstable"
   ],
   "note": "Same result for every writer; the alphabetical order is that of code points."
  },
  {
   "property": "C41",
   "status": "partial",
   "theorems": [
    "Verif.Headers.C41_all_partial",
    "Verif.Headers.C41_functions_partial",
    "Verif.Headers.C41_constants_partial",
    "Verif.Headers.C41_types_partial",
    "Verif.Headers.C41_recursive_types_partial",
    "Verif.Headers.C41_succeeds",
    "Verif.Headers.C41_recursive_succeeds",
    "Verif.Headers.C41_duplicates",
    "Verif.Headers.C41_already_exists",
    "Verif.Headers.C41_fails_stable_duplicates",
    "Verif.Headers.C41_fails_same_name",
    "Verif.Headers.C41_fails_untyped_csharp"
   ],
   "note": "With stable headers, exports with the same name are dropped without an error, and untyped constants are not declared in C#: witnesses. Otherwise all exports are declared, duplicate functions are refused."
  },
  {
   "property": "C42",
   "status": "proved",
   "theorems": [
    "Verif.Headers.C42",
    "Verif.Headers.C42_whole",
    "Verif.Headers.C91_text"
   ],
   "note": "A writer is any function from the number of a call to success or failure after some characters. The shape of the whole text is C91_text."
  },
  {
   "property": "C43",
   "status": "partial",
   "theorems": [
    "Verif.Headers.C43_c_partial",
    "Verif.Headers.C43_csharp_partial",
    "Verif.Headers.C43_fails_generic",
    "Verif.Headers.C43_fails_array_parameter",
    "Verif.Headers.C43_fails_nested_fptr",
    "Verif.Headers.C43_fails_generic_alias",
    "Verif.Headers.C43_fails_base_name"
   ],
   "note": "All types nested to any depth over plain names, with arrays, pointers, unnested function pointers and generic types at base or declared types. Outside of this the code's names do collide: five witnesses, most of them for all names."
  },
  {
   "property": "C44",
   "status": "partial",
   "theorems": [
    "Verif.Headers.C44_declares_partial",
    "Verif.Headers.C44_abstract_partial",
    "Verif.Headers.C44_array_field_partial",
    "Verif.Headers.C44_alias_partial",
    "Verif.Headers.C44_fails_ptr_to_fptr",
    "Verif.Headers.C44_fails_ret_fptr",
    "Verif.Headers.C44_fails_alias_fptr",
    "Verif.Headers.C44_fails_python_alias",
    "Verif.Headers.C44_fails_unit_param"
   ],
   "note": "All nested types whose function pointers are not pointed to or returned; against a lexer and parser for C declarators. The code's text is ill-formed for the others: witnesses."
  },
  {
   "property": "C45",
   "status": "partial",
   "theorems": [
    "Verif.Headers.C45_values",
    "Verif.Headers.C45_ranges",
    "Verif.Headers.C45_partial",
    "Verif.Headers.C45_python_partial",
    "Verif.Headers.C45_python_exact",
    "Verif.Headers.C45_fails_complement",
    "Verif.Headers.C45_fails_shift",
    "Verif.Headers.C45_fails_python"
   ],
   "note": "C and C#: all enums, literal and implicit discriminants, and typed expressions whose value does not depend on the type at which the header code evaluates them; the emitted text is read back with the enumerator rules of C. cffi: implicit discriminants only; for all enums, the constants are numbered from 0. False otherwise: three witnesses."
  },
  {
   "property": "C46",
   "status": "partial",
   "theorems": [
    "Verif.Names.C46_same_enum_partial",
    "Verif.Names.C46_two_enums_partial",
    "Verif.Names.C46_fails_same_enum",
    "Verif.Names.C46_fails_two_enums"
   ],
   "note": "Proved for variant names without an underscore before a lower-case letter; for two enums exactly up to the concatenation of the names. The rest is false of the code: two witnesses."
  },
  {
   "property": "C47",
   "status": "partial",
   "theorems": [
    "Verif.Headers.C47_c_partial",
    "Verif.Headers.C47_c_leak",
    "Verif.Headers.C47_fails_c",
    "Verif.Headers.C47_csharp_partial",
    "Verif.Headers.C47_fails_csharp",
    "Verif.Headers.C47_python"
   ],
   "note": "All texts, except in C those that contain */ and in C# those of several lines: for these the property is false, witnesses and a general leak theorem."
  },
  {
   "property": "C48",
   "status": "partial",
   "theorems": [
    "Verif.Headers.C48_segments",
    "Verif.Headers.C48_exact",
    "Verif.Headers.C48_balanced_exact",
    "Verif.Headers.C48_markup_partial",
    "Verif.Headers.C48_balanced_partial",
    "Verif.Headers.C48_emitted_partial",
    "Verif.Headers.C48_fails_run4"
   ],
   "note": "All lines without runs of 4, 7, 10, \u2026 backticks; false for a run of 4. C48_exact says what becomes of every line."
  },
  {
   "property": "C49",
   "status": "partial",
   "theorems": [
    "Verif.Headers.C49_c_partial",
    "Verif.Headers.C49_void",
    "Verif.Headers.C49_csharp",
    "Verif.Headers.C49_fails_unit"
   ],
   "note": "All names and parameter lists; C and cffi prototypes are read with the C declarator grammar, C# ones with a separate reader. False for a parameter of type (): witness."
  },
  {
   "property": "C50",
   "status": "proved",
   "theorems": [
    "Verif.Shim.C50_distinct",
    "Verif.Shim.C50_all",
    "Verif.Shim.C50_kept"
   ],
   "note": "All patterns and numbers of parameters."
  },
  {
   "property": "C51",
   "status": "partial",
   "theorems": [
    "Verif.Names.C51_pascal_partial",
    "Verif.Names.C51_letters",
    "Verif.Names.C51_no_underscore",
    "Verif.Names.C51_hyphens",
    "Verif.Names.C51_fails_leading",
    "Verif.Names.C51_fails_double"
   ],
   "note": "False for names with leading or double underscores: witnesses."
  },
  {
   "property": "C52",
   "status": "partial",
   "theorems": [
    "Verif.Names.C52_fragment",
    "Verif.Names.C52_name_partial",
    "Verif.Names.C52_fails_nested_generics",
    "Verif.Names.C52_fails_slice_of_arrays",
    "Verif.Names.C52_fails_dyn"
   ],
   "note": "Identifier fragment whenever it succeeds, for all strings; success for all type names without nested commas. The code panics on the others: witnesses."
  },
  {
   "property": "C53",
   "status": "proved",
   "theorems": [
    "Verif.Shim.C53_no_unwind",
    "Verif.Shim.C53_outcomes",
    "Verif.Shim.C53_panic_aborts"
   ],
   "note": "Relies only on the guard, not on the compiler's own abort at extern boundaries. Vtable functions have no guard and are not covered."
  },
  {
   "property": "C54",
   "status": "proved",
   "theorems": [
    "Verif.Shim.C54_call",
    "Verif.Shim.C54_invalid"
   ],
   "note": "Values are byte images; supported types as in C20."
  },
  {
   "property": "C55",
   "status": "proved",
   "theorems": [
    "Verif.Js.C55",
    "Verif.Js.C55_exact"
   ],
   "note": "All integer types and values, Node.js and wasm. N-API itself is modelled from its documentation."
  },
  {
   "property": "C56",
   "status": "partial",
   "theorems": [
    "Verif.Js.C56_partial",
    "Verif.Js.C56_numbers",
    "Verif.Js.C56_not_a_number",
    "Verif.Js.C56_wasm",
    "Verif.Js.C56_fails",
    "Verif.Js.C56_fails_wasm",
    "Verif.Js.C56_fails_never_rejects"
   ],
   "note": "Proved for numbers in the 32-bit range of the same signedness; beyond it Node.js wraps and wasm saturates before the range test: the property is false, witnesses, and for u32 and i32 no number is ever rejected. C56_numbers says for every number exactly whether it is accepted, and as what."
  },
  {
   "property": "C57",
   "status": "partial",
   "theorems": [
    "Verif.Js.C57_null",
    "Verif.Js.C57_mut",
    "Verif.Js.C57_const_partial",
    "Verif.Js.C57_as_mut",
    "Verif.Js.C57_as_const",
    "Verif.Js.C57_incompatible_partial",
    "Verif.Js.C57_not_pointer",
    "Verif.Js.C57_buffer",
    "Verif.Js.C57_fails"
   ],
   "note": "All addresses and pointee types; which pointers are accepted is characterised exactly. False for const pointers to types that mention a mutable pointer, which are never accepted."
  },
  {
   "property": "C58",
   "status": "partial",
   "theorems": [
    "Verif.Js.C58_string",
    "Verif.Js.C58_terminated",
    "Verif.Js.C58_inner_nul",
    "Verif.Js.C58_other",
    "Verif.Js.C58_buffer",
    "Verif.Js.C58_buffer_rejected_partial",
    "Verif.Js.C58_fails_empty_buffer"
   ],
   "note": "All strings of Unicode scalar values; all buffers but the empty one, which panics when overflow is checked."
  },
  {
   "property": "C59",
   "status": "partial",
   "theorems": [
    "Verif.Js.C59_partial",
    "Verif.Js.C59_fails",
    "Verif.Js.C59_boolean"
   ],
   "note": "Proved below 2^63; above, JavaScript gets a negative number, for every such value."
  },
  {
   "property": "C60",
   "status": "partial",
   "theorems": [
    "Verif.Js.C60_allowed",
    "Verif.Js.C60_once",
    "Verif.Js.C60_result",
    "Verif.Js.C60_arguments",
    "Verif.Js.C60_unique",
    "Verif.Js.C60_blocks",
    "Verif.Js.C60_end",
    "Verif.Js.C60_wrapped_partial",
    "Verif.Js.C60_wrapped_value",
    "Verif.Js.C60_progress",
    "Verif.Js.C60_fails_exception"
   ],
   "note": "All schedules, threads, re-entrant calls and JavaScript behaviours. Exception: a wrapped function of type void that throws on the JavaScript thread lets the native call return normally, on another thread it ends the process: witness. The queue is modelled from N-API's documentation; timeouts may strike at any time."
  },
  {
   "property": "C61",
   "status": "proved",
   "theorems": [
    "Verif.Js.C61_history",
    "Verif.Js.C61_default",
    "Verif.Js.C61_once",
    "Verif.Js.C61_read_back",
    "Verif.Js.C61_fails_negative"
   ],
   "note": "All histories of the two Rust and the two JavaScript functions (OnceCell operations are atomic). Numbers from JavaScript are taken modulo 2^32, also negative ones."
  },
  {
   "property": "C62",
   "status": "partial",
   "theorems": [
    "Verif.Headers.C62_params_partial",
    "Verif.Headers.C62_return_partial",
    "Verif.Headers.C62_fails_c_int",
    "Verif.Headers.C62_fails_alias_of_bool",
    "Verif.Headers.C62_fails_ptr_to_fptr"
   ],
   "note": "All types but c_int, aliases of bool and pointers to callbacks, for which it is false: witnesses. Against a specification of .NET's marshaling rules. That structs with callback fields are managed types is not considered."
  },
  {
   "property": "C63",
   "status": "partial",
   "theorems": [
    "Verif.Headers.C63_c_partial",
    "Verif.Headers.C63_csharp_partial",
    "Verif.Headers.C63_refuses"
   ],
   "note": "The emitted text is read back without its comments; each C member with the C declarator grammar, each C# member with its attribute and .NET's marshaling rules. Types as for C44 and C62, documentation as for C47 (false of the code beyond)."
  },
  {
   "property": "C64",
   "status": "partial",
   "theorems": [
    "Verif.Js.C64_partial",
    "Verif.Js.C64_numbers",
    "Verif.Js.C64_size",
    "Verif.Js.C64_wrong_type",
    "Verif.Js.C64_fails",
    "Verif.Js.C64_fails_negative"
   ],
   "note": "All BigInts (but negative ones for u64 on wasm) and all numbers from -2^63 to 2^63-1; larger ones saturate: witnesses. C64_numbers says for every number exactly whether it is accepted, and as what."
  },
  {
   "property": "C65",
   "status": "partial",
   "theorems": [
    "Verif.Js.C65_partial",
    "Verif.Js.C65_fails_nan"
   ],
   "note": "All numbers but NaN, which is rejected. The rounding of f32 is any function that fixes the single-precision numbers."
  },
  {
   "property": "C66",
   "status": "partial",
   "theorems": [
    "Verif.Js.C66_partial",
    "Verif.Js.C66_call_partial",
    "Verif.Js.C66_all_or_nothing",
    "Verif.Js.C66_enum",
    "Verif.Js.C66_valid",
    "Verif.Js.C66_valid_args",
    "Verif.Js.C66_exact",
    "Verif.Js.C66_fails_const_mut"
   ],
   "note": "All types nested to any depth; NaN and const pointers to types that mention a mutable pointer are missing, for these it is false (C65, C57)."
  },
  {
   "property": "C67",
   "status": "proved",
   "theorems": [
    "Verif.Js.C67_string_round_trip",
    "Verif.Js.C67_only_text",
    "Verif.Js.C67_ref_string",
    "Verif.Js.C67_box_string",
    "Verif.Js.C67_box_not_ref",
    "Verif.Js.C67_with_bytes",
    "Verif.Js.C67_with_bytes_other",
    "Verif.Js.C67_ref_bytes",
    "Verif.Js.C67_bytes_round_trip",
    "Verif.Js.C67_box_bytes",
    "Verif.Js.C67_out_bytes",
    "Verif.Js.C67_out_strings"
   ],
   "note": "Memory is typed: each address holds the contents of an allocation or of a variable. Callbacks are arbitrary."
  },
  {
   "property": "C68",
   "status": "proved",
   "theorems": [
    "Verif.Js.C68_order",
    "Verif.Js.C68_detached",
    "Verif.Js.C68_bounded",
    "Verif.Js.C68_drained"
   ],
   "note": "All schedules; that a call is handled at most once is C60_once. Calls whose arguments have no JavaScript form are given up."
  },
  {
   "property": "C69",
   "status": "proved",
   "theorems": [
    "Verif.BytesVt.C69_defined",
    "Verif.BytesVt.C69_balance",
    "Verif.BytesVt.C69_all_released",
    "Verif.BytesVt.C69_release",
    "Verif.BytesVt.C69_retain",
    "Verif.BytesVt.C69_read",
    "Verif.BytesVt.C69_stable",
    "Verif.BytesVt.C69_given",
    "Verif.BytesVt.C69_made",
    "Verif.BytesVt.C69_aborts",
    "Verif.BytesVt.C69_noalloc",
    "Verif.BytesVt.C69_outcomes",
    "Verif.BytesVt.C69_clone",
    "Verif.BytesVt.C69_shrink",
    "Verif.BytesVt.C69_shrink_refuses",
    "Verif.BytesVt.C69_split",
    "Verif.BytesVt.C69_upgrade"
   ],
   "note": "The functions of the vtables are arbitrary: the calls are recorded, and the memory is reused as soon as the SAFETY contract of from_raw_parts allows. Lifetimes of slices without a release never end in this model (they do in that of C05-C08)."
  },
  {
   "property": "C70",
   "status": "partial",
   "theorems": [
    "Verif.Bytes.C70_serialize",
    "Verif.Bytes.C70_deserialize_partial",
    "Verif.Bytes.C70_error",
    "Verif.Bytes.C70_no_panic",
    "Verif.Bytes.C70_round_trip_partial",
    "Verif.Bytes.C70_fails_size_hint"
   ],
   "note": "A sequence that announces more than isize::MAX elements panics: false of the code. Everything else is proved, as long as there is memory for two copies."
  },
  {
   "property": "C71",
   "status": "partial",
   "theorems": [
    "Verif.BytesVt.C71_round_trip",
    "Verif.BytesVt.C71_unshrunk",
    "Verif.BytesVt.C71_contents_partial",
    "Verif.BytesVt.C71_fails_shrunk"
   ],
   "note": "The length is not compared, so values shrunk at their end are converted too: witness. What is missing for success only on unshrunk values is exactly this."
  },
  {
   "property": "C72",
   "status": "partial",
   "theorems": [
    "Verif.Js.C72_worker_partial",
    "Verif.Js.C72_worker",
    "Verif.Js.C72_worker_call",
    "Verif.Js.C72_worker_progress",
    "Verif.Js.C72_async",
    "Verif.Js.C72_async_call",
    "Verif.Js.C72_async_output",
    "Verif.Js.C72_async_progress",
    "Verif.Js.C72_fails_buffer"
   ],
   "note": "All schedules. Functions that take buffers on a worker see what JavaScript has written meanwhile: witness. Node's worker pool and the runtime of the futures are modelled from their documentation."
  },
  {
   "property": "C73",
   "status": "partial",
   "theorems": [
    "Verif.Export.C73_parameters",
    "Verif.Export.C73_duplicate",
    "Verif.Export.C73_constants",
    "Verif.Export.C73_names",
    "Verif.Export.C73_items",
    "Verif.Export.C73_function",
    "Verif.Export.C73_async_partial",
    "Verif.Export.C73_fails_async_rename",
    "Verif.Export.C73_fails_async_dropped",
    "Verif.Export.C73_fails_async_abi"
   ],
   "note": "All token sequences, functions and features. False of async functions: without JavaScript support the new name is ignored, with it an async function without js is not exported at all, and its ABI is not looked at: witnesses. How syn delimits the executor expression is not modelled."
  },
  {
   "property": "C74",
   "status": "proved",
   "theorems": [
    "Verif.Headers.C74_again",
    "Verif.Headers.C74_linkage",
    "Verif.Headers.C74_twice",
    "Verif.Headers.C74_banner",
    "Verif.Headers.C74_guard"
   ],
   "note": "All headers, against a specification of the C preprocessor (comments, conditionals, define and undef). String literals that contain comment delimiters and line splicing are not considered. Documentation that contains */ is excluded: see C47."
  },
  {
   "property": "C75",
   "status": "partial",
   "theorems": [
    "Verif.Derive.C75_layout_partial",
    "Verif.Derive.C75_fails_packed",
    "Verif.Derive.C75_fails_align",
    "Verif.Derive.C75_fails_two_enum_reprs",
    "Verif.Derive.C75_fails_transparent_order",
    "Verif.Derive.C75_fails_opaque_array"
   ],
   "note": "All definitions with one repr attribute, against the layout rules of the Rust Reference. Further repr attributes are ignored, and the field with data of a transparent struct is assumed to be the first, and arrays of opaque types count as types with a C layout: false of the code, witnesses."
  },
  {
   "property": "C76",
   "status": "partial",
   "theorems": [
    "Verif.Derive.C76_only_documented_partial",
    "Verif.Derive.C76_rejects",
    "Verif.Derive.C76_accepts_struct_partial",
    "Verif.Derive.C76_accepts_transparent_partial",
    "Verif.Derive.C76_accepts_callback",
    "Verif.Derive.C76_accepts_enum",
    "Verif.Derive.C76_accepts_opaque",
    "Verif.Derive.C76_fails_repr_c_enum",
    "Verif.Derive.C76_fails_tuple_struct",
    "Verif.Derive.C76_fails_private_newtype",
    "Verif.Derive.C76_fails_many_fields",
    "Verif.Derive.C76_fails_legacy_js_enum",
    "Verif.Derive.C76_fails_opaque_array"
   ],
   "note": "All definitions. False of the code for repr(C) enums and fields that are arrays of opaque types (accepted), and for repr(C) tuple structs, private transparent newtypes, structs with more than 255 fields and repr(u8, js) enums (rejected): witnesses."
  },
  {
   "property": "C77",
   "status": "partial",
   "theorems": [
    "Verif.Headers.C77_types_partial",
    "Verif.Headers.C77_members_partial",
    "Verif.Headers.C77_functions_partial",
    "Verif.Headers.C77_callbacks_partial",
    "Verif.Headers.C77_places_partial",
    "Verif.Headers.C77_places_unique",
    "Verif.Headers.C77_unique",
    "Verif.Headers.C77_fails_same_name"
   ],
   "note": "All programs in which no two types have the same C name, with well-formed names and texts, and all targets that lay out structs member after member. With two types of the same name the header silently has only the first: witness. Macros are not expanded here (C92 does, and shows that it makes no difference when names of constants are not used otherwise); opaque types have no layout; types without bytes have no counterpart in C."
  },
  {
   "property": "C78",
   "status": "partial",
   "theorems": [
    "Verif.DynDerive.C78_accepts_partial",
    "Verif.DynDerive.C78_accepted",
    "Verif.DynDerive.C78_vtable",
    "Verif.DynDerive.C78_filled",
    "Verif.DynDerive.C78_functions",
    "Verif.DynDerive.C78_calls",
    "Verif.DynDerive.C78_names",
    "Verif.DynDerive.C78_conversions_partial",
    "Verif.DynDerive.C78_conversions_sound",
    "Verif.DynDerive.C78_fails_pin_and_mut",
    "Verif.DynDerive.C78_fails_send_only",
    "Verif.DynDerive.C78_fails_sync_only",
    "Verif.DynDerive.C78_fails_pinned_arc",
    "Verif.DynDerive.C78_fails_rc_without_clone",
    "Verif.DynDerive.C78_fails_reserved_name",
    "Verif.DynDerive.C78_fails_duplicate_clone",
    "Verif.DynDerive.C78_fails_retain_type"
   ],
   "note": "All traits and parameters. The guide disagrees with the code about one marker alone, pinned Rc and Arc, Rc and Arc without Clone, Pin beside &mut self, method names that are also fields of the vtable, and repeated Clone: witnesses."
  },
  {
   "property": "C79",
   "status": "partial",
   "theorems": [
    "Verif.Wasm.C79_memory",
    "Verif.Wasm.C79_no_leak",
    "Verif.Wasm.C79_arguments",
    "Verif.Wasm.C79_call",
    "Verif.Wasm.C79_return",
    "Verif.Wasm.C79_callback_arguments",
    "Verif.Wasm.C79_callback_result_partial",
    "Verif.Wasm.C79_fails_returned_buffer",
    "Verif.Wasm.C79_fails_returned_string",
    "Verif.Wasm.C79_fails_returned_argument",
    "Verif.Wasm.C79_fails_unchecked",
    "Verif.Wasm.C79_fails_leak"
   ],
   "note": "All histories of nested calls. A buffer returned by a JavaScript function is freed before native code gets the pointer; an export that returns its borrowed argument gives JavaScript the address of freed memory; values of unexpected types are cast without a check: an exception then leaks the copies made so far: witnesses. async exports are C72; the polyfill's js_sys functions are an arbitrary parameter."
  },
  {
   "property": "C80",
   "status": "partial",
   "theorems": [
    "Verif.Callback.C80_bounds_partial",
    "Verif.Callback.C80_layout_partial",
    "Verif.Callback.C80_accepted_partial",
    "Verif.Callback.C80_fails_inner_elision",
    "Verif.Callback.C80_fails_inner_for",
    "Verif.Callback.C80_fails_reserved",
    "Verif.Callback.C80_fails_generic_lifetime"
   ],
   "note": "All signatures and all lifetimes. Function pointers inside of parameter types that elide lifetimes or have a for<...>, lifetimes named __elided_n, and newtypes with lifetime parameters are treated wrongly: witnesses."
  },
  {
   "property": "C81",
   "status": "partial",
   "theorems": [
    "Verif.JsLife.C81_safe",
    "Verif.JsLife.C81_alive",
    "Verif.JsLife.C81_deleted",
    "Verif.JsLife.C81_no_leak",
    "Verif.JsLife.C81_waits",
    "Verif.JsLife.C81_drains",
    "Verif.JsLife.C81_effects",
    "Verif.JsLife.C81_aborts",
    "Verif.JsLife.C81_in_order",
    "Verif.JsLife.C81_collected",
    "Verif.JsLife.C81_once",
    "Verif.JsLife.C81_return_partial",
    "Verif.JsLife.C81_fails_return",
    "Verif.JsLife.C81_fails_thread"
   ],
   "note": "All histories that respect Rust's types and the contract of the raw parts. On Node.js a closure cannot be converted back to JavaScript (it panics), and a closure that is dropped, or told to wait, on another thread calls N-API functions there: witnesses."
  },
  {
   "property": "C82",
   "status": "partial",
   "theorems": [
    "Verif.JsExport.C82_captures",
    "Verif.JsExport.C82_lifetimes",
    "Verif.JsExport.C82_hidden",
    "Verif.JsExport.C82_accepts_partial",
    "Verif.JsExport.C82_fails_fn_pointer",
    "Verif.JsExport.C82_fails_for",
    "Verif.JsExport.C82_fails_worker",
    "Verif.JsExport.C82_same_layout",
    "Verif.JsExport.C82_alias_static",
    "Verif.JsExport.C82_make_static",
    "Verif.JsExport.C82_wasm_partial",
    "Verif.JsExport.C82_wasm_same",
    "Verif.JsExport.C82_fails_wasm"
   ],
   "note": "Soundness of captures holds for all types. The acceptance half excludes function pointers and for<\u2026>, which the lifetime rewriting mishandles (witnesses). Exports with js(async_worker) have no such protection: witness."
  },
  {
   "property": "C83",
   "status": "partial",
   "theorems": [
    "Verif.JsExport.C83_names",
    "Verif.JsExport.C83_refuses",
    "Verif.JsExport.C83_arguments_partial",
    "Verif.JsExport.C83_fails_same_name",
    "Verif.JsExport.C83_exports_partial",
    "Verif.JsExport.C83_fails_duplicate",
    "Verif.JsExport.C83_fails_silent",
    "Verif.JsExport.C83_others"
   ],
   "note": "Holds when the exported names are distinct, Node.js refuses no registration, and parameter names are distinct; the code checks none of these (witnesses)."
  },
  {
   "property": "C84",
   "status": "proved",
   "theorems": [
    "Verif.Waker.C84_safe",
    "Verif.Waker.C84_wakes",
    "Verif.Waker.C84_not_lost",
    "Verif.Waker.C84_context_wake",
    "Verif.Waker.C84_no_leak",
    "Verif.Waker.C84_context_needed"
   ],
   "note": "Steps are atomic. Contract of C: a Context is used during its poll only (needed: C84_context_needed; the exported signature says `&'static Context<'static>`), a handle while a reference is owned. The executor's own waker is trusted."
  },
  {
   "property": "C85",
   "status": "partial",
   "theorems": [
    "Verif.Opaque.C85_export_partial",
    "Verif.Opaque.C85_accepts",
    "Verif.Opaque.C85_parts",
    "Verif.Opaque.C85_same_layout_partial",
    "Verif.Opaque.C85_behind_pointers",
    "Verif.Opaque.C85_refuses",
    "Verif.Opaque.C85_fails_array",
    "Verif.Opaque.C85_fails_callback"
   ],
   "note": "Holds for all types without arrays of opaque types; those are accepted and panic at run time (witness for all supported lengths), and callbacks accept opaque types by value (witness)."
  },
  {
   "property": "C86",
   "status": "partial",
   "theorems": [
    "Verif.Headers.C86_compiles_partial",
    "Verif.Headers.C86_fails_opaque_array",
    "Verif.Headers.C86_fails_reserved",
    "Verif.Headers.C86_fails_recursive",
    "Verif.Headers.C86_fails_isize",
    "Verif.Headers.C86_fails_raw"
   ],
   "note": "The emitted text is preprocessed and parsed (C74, C77), and each declaration checked against those in front of it. False of arrays of opaque types, of names that C reserves, of raw identifiers, of types that are recursive through pointers and of isize: witnesses. The names of the standard headers are taken as declared (their includes come first: C39). Clashes of enum constants, tags, members and parameters: C92."
  },
  {
   "property": "C87",
   "status": "partial",
   "theorems": [
    "Verif.Headers.Cs.C87_types_partial",
    "Verif.Headers.Cs.C87_members_partial",
    "Verif.Headers.Cs.C87_library",
    "Verif.Headers.Cs.C87_functions_partial",
    "Verif.Headers.Cs.C87_callbacks_partial",
    "Verif.Headers.Cs.C87_compiles_partial",
    "Verif.Headers.Cs.C87_unique",
    "Verif.Headers.Cs.C87_fails_win32",
    "Verif.Headers.Cs.C87_fails_keyword",
    "Verif.Headers.Cs.C87_fails_usize_array",
    "Verif.Headers.Cs.C87_fails_callback",
    "Verif.Headers.Cs.C87_fails_f32",
    "Verif.Headers.Cs.C87_fails_usize",
    "Verif.Headers.Cs.C87_fails_class"
   ],
   "note": "The emitted text is read back by an independent lexer, preprocessor (#if IOS) and parser of C# declarations; marshaling and compile errors are specified on what was read. False on 32-bit Windows (stdcall), and of names that C# reserves, arrays of usize, pointers to structs with callbacks, f32 and usize constants, and functions named Ffi: witnesses. c_int and wrappers of bool are excluded (C62). The sizes that the header mentions are taken as those of mem::size_of."
  },
  {
   "property": "C88",
   "status": "partial",
   "theorems": [
    "Verif.Markers.C88_counterpart",
    "Verif.Markers.C88_hiding",
    "Verif.Markers.C88_threads_partial",
    "Verif.Markers.C88_fails_supertrait"
   ],
   "note": "Against one rule per function of the safe API. False for traits with the supertraits Send or Sync (witness, with the library's own FfiFutureExecutor: an Rc in a VirtualPtr that is Send and Sync); proved for all other programs. The types of src/js and of stabby are not included."
  },
  {
   "property": "C89",
   "status": "proved",
   "theorems": [
    "Verif.Markers.C89_variance",
    "Verif.Markers.C89_closures",
    "Verif.Markers.C89_virtual",
    "Verif.Markers.C89_lifetimes",
    "Verif.Markers.C89_counterpart"
   ],
   "note": "Subtyping by the rules of Rust, structs by their declared fields. That noalloc_upgrade changes the lifetime of Bytes wrongly is C08."
  },
  {
   "property": "C90",
   "status": "partial",
   "theorems": [
    "Verif.Headers.C90_types_partial",
    "Verif.Headers.C90_members_partial",
    "Verif.Headers.C90_functions_partial",
    "Verif.Headers.C90_accepts_partial",
    "Verif.Headers.C90_same_partial",
    "Verif.Headers.C90_bare_partial",
    "Verif.Headers.C90_unique",
    "Verif.Headers.C90_fails_include",
    "Verif.Headers.C90_fails_enum_size",
    "Verif.Headers.C90_fails_ifdef"
   ],
   "note": "The emitted text is read back by a model of cffi's preprocessing (`#define N ...`, `...`) and the independent parser of C declarations of C77. As it is, cffi rejects the header of every program that exports a function or constant with an integer or bool (C90_fails_include); the positive theorems are for a user who removes the #include lines. Excluded: aliases (C39_fails_python_alias) and enums with an integer of their own (witnesses). Types that cffi knows by itself (int32_t, bool) are taken to be as in C."
  },
  {
   "property": "C91",
   "status": "partial",
   "theorems": [
    "Verif.Headers.C91_options",
    "Verif.Headers.C91_order",
    "Verif.Headers.C91_text",
    "Verif.Headers.C91_library",
    "Verif.Headers.C91_file",
    "Verif.Headers.C91_fails_naming"
   ],
   "note": "Everything except the naming convention, which never has any effect (C91_fails_naming: the code looks it up and drops it). In C91_file nobody else writes to the file meanwhile."
  },
  {
   "property": "C92",
   "status": "partial",
   "theorems": [
    "Verif.Headers.C92_names_partial",
    "Verif.Headers.C92_constants_partial",
    "Verif.Headers.C92_fails_param",
    "Verif.Headers.C92_fails_constants",
    "Verif.Headers.C92_fails_const",
    "Verif.Headers.C92_fails_tag"
   ],
   "note": "The emitted text is preprocessed with replacement of macros, and parsed. Proved when the exported constants and the guard are not used as other names, enum constants do not clash after their renaming, and types have no reserved names; each of these is needed (the four C92_fails_ theorems), as the code checks none of them. For enum constants names in camel case suffice (C92_constants_partial). Further replacement inside replaced text, and macros with parameters, are not modelled."
  },
  {
   "property": "C93",
   "status": "partial",
   "theorems": [
    "Verif.Stabby.C93_from_raw",
    "Verif.Stabby.C93_unchecked",
    "Verif.Stabby.C93_never_rejects_partial",
    "Verif.Stabby.C93_same_value",
    "Verif.Stabby.C93_option",
    "Verif.Stabby.C93_upcast",
    "Verif.Stabby.C93_stabbied",
    "Verif.Stabby.C93_fails_slice_ends",
    "Verif.Stabby.C93_fails_slice_no_size"
   ],
   "note": "stabby is not in the repository: how its types are represented is taken from the layouts that the impls declare, and is an assumption. The check of slices looks at each end on its own (C93_fails_slice_ends), so what it accepts is given exactly with that reading of slices; slices of items without size but with an alignment above 1 may be rejected (C93_fails_slice_no_size). T::is_invalid is a parameter."
  },
  {
   "property": "C94",
   "status": "partial",
   "theorems": [
    "Verif.Poly.C94_int",
    "Verif.Poly.C94_int32",
    "Verif.Poly.C94_int64_partial",
    "Verif.Poly.C94_values",
    "Verif.Poly.C94_created_types",
    "Verif.Poly.C94_created_fresh",
    "Verif.Poly.C94_string_from_js",
    "Verif.Poly.C94_string_lone",
    "Verif.Poly.C94_type",
    "Verif.Poly.C94_try_from_partial",
    "Verif.Poly.C94_is_buffer",
    "Verif.Poly.C94_has_type_partial",
    "Verif.Poly.C94_set_get",
    "Verif.Poly.C94_set_refused",
    "Verif.Poly.C94_array",
    "Verif.Poly.C94_error",
    "Verif.Poly.C94_error_new",
    "Verif.Poly.C94_error_from_object",
    "Verif.Poly.C94_fails_int64",
    "Verif.Poly.C94_fails_string",
    "Verif.Poly.C94_fails_try_from",
    "Verif.Poly.C94_fails_has_type",
    "Verif.Poly.C94_fails_array_length",
    "Verif.Poly.C94_fails_error_back"
   ],
   "note": "wasm-bindgen and js-sys are not in the repository: what their functions do is an assumption, taken from their documentation. Inherited properties, assignments to `__proto__`, to the length of arrays and to typed arrays, and JSON.stringify are parameters; getters, setters and proxies are not modelled. The claim fails for integers above 2^53, lone surrogates, conversions to JsNull, JsUndefined and JsBigint, has_type, lengths of things that are no arrays, and errors that come back (C94_fails_*). BigInts are part of C64."
  },
  {
   "property": "C95",
   "status": "partial",
   "theorems": [
    "Verif.Print.C95_literal",
    "Verif.Print.C95_char_p",
    "Verif.Print.C95_char_p_box",
    "Verif.Print.C95_shared_display",
    "Verif.Print.C95_new_panic",
    "Verif.Print.C95_containers_partial",
    "Verif.Print.C95_as_rust_partial",
    "Verif.Print.C95_strings",
    "Verif.Print.C95_slices_partial",
    "Verif.Print.C95_str_ref",
    "Verif.Print.C95_bytes",
    "Verif.Print.C95_bytes_owned_partial",
    "Verif.Print.C95_option",
    "Verif.Print.C95_fails_shared_debug",
    "Verif.Print.C95_fails_boxed_slice",
    "Verif.Print.C95_fails_bytes_owned"
   ],
   "note": "What core::fmt prints for str, slices, structs and tuples is modelled (Print/Std.lean), with pointers, numbers and the table of printable characters as parameters; `{:x?}`, sign flags and failing writers are not. The claim fails for `{:?}` of boxed slices and of shared C strings, which print addresses, and for `owned` of short borrowing Bytes (C95_fails_*). Closures and raw pointers, which print addresses by design, are not modelled."
  },
  {
   "property": "C96",
   "status": "partial",
   "theorems": [
    "Verif.Generics.C96_repr_c",
    "Verif.Generics.C96_layout",
    "Verif.Generics.C96_own_layout",
    "Verif.Generics.C96_ctype",
    "Verif.Generics.C96_projections",
    "Verif.Generics.C96_js",
    "Verif.Generics.C96_js_projections",
    "Verif.Generics.C96_accepted_partial",
    "Verif.Generics.C96_transparent",
    "Verif.Generics.C96_transparent_niche",
    "Verif.Generics.C96_transparent_projections",
    "Verif.Generics.C96_transparent_ctype",
    "Verif.Generics.C96_opaque",
    "Verif.Generics.C96_impls",
    "Verif.Generics.C96_coherent",
    "Verif.Generics.C96_name",
    "Verif.Generics.C96_own_name_partial",
    "Verif.Generics.C96_fails_const_js",
    "Verif.Generics.C96_fails_const_name",
    "Verif.Generics.C96_fails_const_header",
    "Verif.Generics.C96_fails_alias_name",
    "Verif.Generics.C96_fails_transparent_js"
   ],
   "note": "Types are terms over parameters; lifetimes and constants are arguments like types; which types implement which traits is arbitrary, but for two laws of safer_ffi's own impls. Not modelled: ?Sized and implicit Sized bounds, higher-ranked bounds, attributes of parameters. The claim fails for constant parameters (the JavaScript glue panics in the macro; instances share one name and one definition), for renamed transparent structs (one name and one typedef for all instances) and for their JavaScript glue (C96_fails_*)."
  },
  {
   "property": "C97",
   "status": "partial",
   "theorems": [
    "Verif.DynGen.C97_functions_partial",
    "Verif.DynGen.C97_functions_all",
    "Verif.DynGen.C97_impls_partial",
    "Verif.DynGen.C97_instances",
    "Verif.DynGen.C97_entries",
    "Verif.DynGen.C97_bounds",
    "Verif.DynGen.C97_demands",
    "Verif.DynGen.C97_transmutes",
    "Verif.DynGen.C97_vtable",
    "Verif.DynGen.C97_accepted_partial",
    "Verif.DynGen.C97_fails_const_first",
    "Verif.DynGen.C97_fails_clone",
    "Verif.DynGen.C97_fails_by_value",
    "Verif.DynGen.C97_fails_unbounded"
   ],
   "note": "Parameters, bounds and types as in C96; the rules of Rust for parameters of impls and functions and for transmute are in the specification. Not modelled: Pin, which wraps the pointer types; bodies, which are modelled in Verif.Dyn. The claim fails for constants declared before types, for Clone with any parameter, for values of type parameters, and for type parameters without layouts (C97_fails_*)."
  },
  {
   "property": "C98",
   "status": "proved",
   "theorems": [
    "Verif.DocAttrs.C98_texts",
    "Verif.DocAttrs.C98_refused",
    "Verif.DocAttrs.C98_refused_items",
    "Verif.DocAttrs.C98_struct",
    "Verif.DocAttrs.C98_enum",
    "Verif.DocAttrs.C98_others",
    "Verif.DocAttrs.C98_c_comment",
    "Verif.DocAttrs.C98_none",
    "Verif.DocAttrs.C98_placed",
    "Verif.DocAttrs.C98_placed_field",
    "Verif.DocAttrs.C98_placed_variant",
    "Verif.DocAttrs.C98_placed_cs",
    "Verif.DocAttrs.C98_placed_field_cs",
    "Verif.DocAttrs.C98_placed_variant_cs"
   ],
   "note": "The parser of expressions is a parameter (syn). Not modelled: the legacy macros that repr(C, js) uses with the feature js; newtypes around function pointers, which have no documentation in a header. Texts of several lines in one #[doc = ...] are the subject of C47; C# headers of C48. C98_placed*: where the comments are; headers for Python (cffi) have none."
  },
  {
   "property": "C99",
   "status": "partial",
   "theorems": [
    "Verif.OpaqueBox.C99_safe",
    "Verif.OpaqueBox.C99_once",
    "Verif.OpaqueBox.C99_released",
    "Verif.OpaqueBox.C99_box_drop",
    "Verif.OpaqueBox.C99_owned_release_partial",
    "Verif.OpaqueBox.C99_same",
    "Verif.OpaqueBox.C99_round_trip",
    "Verif.OpaqueBox.C99_new",
    "Verif.OpaqueBox.C99_write",
    "Verif.OpaqueBox.C99_frame",
    "Verif.OpaqueBox.C99_clone",
    "Verif.OpaqueBox.C99_fails_leak"
   ],
   "note": "C99_fails_leak: where the drop of the value panics, drop_in_place_and_dealloc has consumed the pointer and does not free the memory, as a box does. All else is proved. What Rust's own Box does (allocation, freeing in the unwinding) is modelled from its documentation. Not modelled: copies of owned pointers made by unsafe code of the caller."
  },
  {
   "property": "C100",
   "status": "proved",
   "theorems": [
    "Verif.Libc.C100_types",
    "Verif.Libc.C100_names"
   ],
   "note": "Rust's rules for names (glob imports yield to explicit ones, namespaces for types and values, an import that resolves in no namespace is an error) are modelled from the reference."
  }
 ]
}