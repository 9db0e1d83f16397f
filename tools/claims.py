claim("C01", "proved", ns(B, "C01_constructors C01_inline_slice C01_from_arc"), "Any word size and byte order, any reachable state. Running out of address space is excluded by the Room hypothesis.")
claim("C02", "proved", ns(B, "C02_inline_image C02_vtable_image C02_reachable"), "Byte-level images, any word size from 2 to 25 bytes, both byte orders.")
claim("C03", "partial", ns(B, "C03_shrink_to_partial C03_subsliced_partial C03_inlined_partial C03_inlined_exact_partial C03_fails_valid_range_panics C03_fails_invalid_range_accepted C03_fails_inclusive_max"), "Holds for values that are not inlined and bounds below usize::MAX. The code violates it on inlined values (panic on valid ranges, corrupted bytes on some invalid ones) and for ..=usize::MAX in release builds: proved by witnesses.")
claim("C04", "partial", ns(B, "C04_split_at_partial C04_inlined_exact_partial C04_fails"), "Holds except for a panic on inlined values, which is proved by a witness and characterised exactly.")
claim("C05", "proved", ns(B, "C05_clone"), "Every later history that does not use the clone itself, including ended borrows and panics.")
claim("C06", "partial", ns(B, "C06_memory_safe_partial C06_counts C06_leak_free C06_aborts C06_not_early C06_values_partial C06_fails"), "All histories except those that call noalloc_upgrade on a borrowing value, for which a use after free is exhibited.")
claim("C07", "proved", ns(B, "C07_upgrade"), "Includes that the upgraded value does not keep the borrow alive.")
claim("C08", "partial", ns(B, "C08_noalloc_upgrade_partial C08_fails_borrowed C08_fails_owned"), "The condition of the code is inverted: negations proved in both directions; the rest of the claim holds for non-borrowing values.")
claim("C09", "partial", ns(B, "C09_upgrade_partial C09_clone_partial C09_exact_big_endian C09_fails"), "Exact outside of the lengths between MAX_INLINE_SIZE and size_of::<Bytes>(), which is empty on big-endian; negation proved on 64-bit little-endian.")
claim("C10", "proved", ns(B, "C10_try_into_arc"), "Without the stabby feature.")
claim("C11", "proved", ns(B, "C11_contents_only C11_total_order"), "")
claim("C12", "partial", ns(B, "C12_read_partial C12_long_read C12_inlined_exact_partial C12_fails"), "Never wrong bytes for any sequence of reads; never panics while more than MAX_INLINE_SIZE bytes remain; a panic on inlined remainders is exhibited.")
claim("C13", "proved", ns(B, "C13_noalloc_clone"), "")
P = "Verif.CharP."
claim("C14", "proved", ns(P, "C14_empty C14_terminated C14_rejected C14_from_cstr"), "Strings are Unicode texts with their UTF-8 encoding; the memory after the string is arbitrary.")
claim("C15", "proved", ns(P, "C15_try_from_string C15_new"), "From any reachable state, any spare capacity.")
claim("C16", "proved", ns(P, "C16_values C16_round_trip C16_clone C16_eq"), "C16_values is a refinement of plain-value semantics over all histories.")
claim("C17", "proved", ns(P, "C17_memory_safe C17_ownership C17_leak_free C17_into_vec"), "Sizes are checked by the model's deallocator; the sentinel is not a heap block.")
claim("C18", "proved", ns(P, "C18_empty C18_accepted C18_rejected"), "")
claim("C19", "proved", ns(P, "Shared.C19_values Shared.C19_read_back Shared.C19_counts Shared.C19_release"), "Count updates are atomic, so histories are arbitrary interleavings.")
L = "Verif.Layout."
claim("C20", "partial", ns(L, "C20_never_rejects_partial C20_same_value C20_fails_misaligned_nonNull C20_fails_tagged_unit C20_fails_transparent_phantom_first"), "Any target, any nesting. Three kinds of values that the code does reject or panics on are excluded and exhibited by witnesses.")
claim("C21", "proved", ns(L, "C21_from_raw C21_unchecked C21_only_values"), "Exact in both directions for every supported type without Out, pointers included at the level of bit validity.")
claim("C22", "proved", ns(L, "C22_references C22_box"), "")
claim("C23", "partial", ns(L, "C23_aligned_partial C23_fails_null_accepted"), "The code accepts null: negation proved for every pointee type.")
claim("C24", "proved", ns(L, "C24_enum C24_images_exist"), "")
claim("C25", "proved", ns(L, "C25_round_trip C25_methods C25_layout C25_valid"), "Closures with effects in any monad.")
claim("C26", "proved", ns(L, "C26_same_layout C26_panics C26_c_layout_agrees"), "Against a declarative layout rule for C structs.")
O = "Verif.Owned."
claim("C27", "proved", ns(O, "C27_round_trip C27_history C27_freed_once C27_same_allocation"), "All programs over Rust and C vectors, strings, boxed slices and boxes; element types with and without size.")
claim("C28", "proved", ns(O, "C28_writes_back C28_any_closure"), "Any list of edits (including swapping with another vector) at any point of any program; any closure whatsoever under the condition that it leaves a valid vector.")
claim("C29", "proved", ns(O, "C29_round_trip C29_empty C29_independent C29_clone C27_history C27_freed_once"), "Cloning is available for repr_c::Vec, String, c_slice::Box and repr_c::Box.")
claim("C30", "proved", ns(O + "Slice.", "C30_same_memory C30_write_through C30_equality C30_order C30_null_is_none"), "")
D = "Verif.Dyn."
claim("C31", "proved", ns(D, "C31_history C31_counts C31_released_with_last C31_call C31_clone C31_null_retain"), "All programs, with overlapping calls; closures made by Rust and by foreign code. Count updates are atomic.")
claim("C32", "proved", ns(D, "C31_history C32_threaded C32_freed C32_null C31_released_with_last"), "Any number of calls with any arguments.")
claim("C33", "proved", ns(D, "C31_history C31_counts C31_released_with_last C33_alive C33_borrowed C33_leak_free C33_deep_clone C33_shared_clone"), "All programs; the borrow checker's rules are part of the model.")
claim("C34", "partial", ns(D, "C34_sound_partial C34_exact C34_fails_supertrait"), "Against Rust's rules for the auto traits of the pointer types. False for traits with the supertraits Send or Sync, such as the library's own FfiFutureExecutor: an Rc becomes a VirtualPtr that is Send and Sync. Witness; proved for all other traits.")
claim("C35", "proved", ns(D, "C35_dispatch C35_arguments"), "Arguments are bound by name, as in the generated code.")
FU = "Verif.Fut."
claim("C36", "proved", ns(FU, "C36_dyn_poll C36_into_future"), "Futures are arbitrary state machines, with arbitrary contexts.")
claim("C37", "proved", ns(FU, "C37_spawn C37_spawn_only_output C37_spawn_once C37_spawn_task C37_block_on C37_tokio C37_tokio_failed"), "Any executor: its polls, drops and answers are arbitrary. The oneshot channel of the futures crate is modelled as linearizable.")
claim("C38", "proved", ns(FU, "C38_at_most_once C38_first_call C38_second_call C38_result C38_ok_iff_completed C38_tokio C38_tokio_cancelled"), "Any executor; the action's beginning and end are separate events.")
SH = "Verif.Shim."
claim("C50", "proved", ns(SH, "C50_distinct C50_all C50_kept"), "All patterns and numbers of parameters.")
claim("C53", "proved", ns(SH, "C53_no_unwind C53_outcomes C53_panic_aborts"), "Relies only on the guard, not on the compiler's own abort at extern boundaries. Vtable functions have no guard and are not covered.")
claim("C54", "proved", ns(SH, "C54_call C54_invalid"), "Values are byte images; supported types as in C20.")
N = "Verif.Names."
claim("C46", "partial", ns(N, "C46_same_enum_partial C46_two_enums_partial C46_fails_same_enum C46_fails_two_enums"), "Proved for variant names without an underscore before a lower-case letter; for two enums exactly up to the concatenation of the names. The rest is false of the code: two witnesses.")
claim("C51", "partial", ns(N, "C51_pascal_partial C51_letters C51_no_underscore C51_hyphens C51_fails_leading C51_fails_double"), "False for names with leading or double underscores: witnesses.")
claim("C52", "partial", ns(N, "C52_fragment C52_name_partial C52_fails_nested_generics C52_fails_slice_of_arrays C52_fails_dyn"), "Identifier fragment whenever it succeeds, for all strings; success for all type names without nested commas. The code panics on the others: witnesses.")
H = "Verif.Headers."
claim("C47", "partial", ns(H, "C47_c_partial C47_c_leak C47_fails_c C47_csharp_partial C47_fails_csharp C47_python"), "All texts, except in C those that contain */ and in C# those of several lines: for these the property is false, witnesses and a general leak theorem.")
claim("C48", "partial", ns(H, "C48_segments C48_exact C48_balanced_exact C48_markup_partial C48_balanced_partial C48_emitted_partial C48_fails_run4"), "All lines without runs of 4, 7, 10, … backticks; false for a run of 4. C48_exact says what becomes of every line.")
claim("C43", "partial", ns(H, "C43_c_partial C43_csharp_partial C43_fails_generic C43_fails_array_parameter C43_fails_nested_fptr C43_fails_generic_alias C43_fails_base_name"), "All types nested to any depth over plain names, with arrays, pointers, unnested function pointers and generic types at base or declared types. Outside of this the code's names do collide: five witnesses, most of them for all names.")
claim("C44", "partial", ns(H, "C44_declares_partial C44_abstract_partial C44_array_field_partial C44_alias_partial C44_fails_ptr_to_fptr C44_fails_ret_fptr C44_fails_alias_fptr C44_fails_python_alias C44_fails_unit_param"), "All nested types whose function pointers are not pointed to or returned; against a lexer and parser for C declarators. The code's text is ill-formed for the others: witnesses.")
claim("C49", "partial", ns(H, "C49_c_partial C49_void C49_csharp C49_fails_unit"), "All names and parameter lists; C and cffi prototypes are read with the C declarator grammar, C# ones with a separate reader. False for a parameter of type (): witness.")
claim("C45", "partial", ns(H, "C45_values C45_ranges C45_partial C45_python_partial C45_python_exact C45_fails_complement C45_fails_shift C45_fails_python"), "C and C#: all enums, literal and implicit discriminants, and typed expressions whose value does not depend on the type at which the header code evaluates them; the emitted text is read back with the enumerator rules of C. cffi: implicit discriminants only; for all enums, the constants are numbered from 0. False otherwise: three witnesses.")
claim("C39", "partial", ns(H, "C39_once C39_order_partial C39_levels_partial C39_complete_partial C39_fails_recursive C39_fails_isize C39_fails_python_alias C39_fails_fn_named_like_type C39_fails_same_alias"), "At most once: every program, every writer. Order: programs without types recursive through pointers (and the other restrictions listed at the theorem); with recursive types, everything is defined, and only types that mention each other can come too late; beyond these it is false of the code: witnesses.")
claim("C40", "proved", ns(H, "C40 C40_sorted C40_unstable"), "Same result for every writer; the alphabetical order is that of code points.")
claim("C41", "partial", ns(H, "C41_all_partial C41_functions_partial C41_constants_partial C41_types_partial C41_recursive_types_partial C41_succeeds C41_recursive_succeeds C41_duplicates C41_already_exists C41_fails_stable_duplicates C41_fails_same_name C41_fails_untyped_csharp"), "With stable headers, exports with the same name are dropped without an error, and untyped constants are not declared in C#: witnesses. Otherwise all exports are declared, duplicate functions are refused.")
claim("C42", "proved", ns(H, "C42 C42_whole C91_text"), "A writer is any function from the number of a call to success or failure after some characters. The shape of the whole text is C91_text.")
claim("C62", "partial", ns(H, "C62_params_partial C62_return_partial C62_fails_c_int C62_fails_alias_of_bool C62_fails_ptr_to_fptr"), "All types but c_int, aliases of bool and pointers to callbacks, for which it is false: witnesses. Against a specification of .NET's marshaling rules. That structs with callback fields are managed types is not considered.")
claim("C63", "partial", ns(H, "C63_c_partial C63_csharp_partial C63_refuses"), "The emitted text is read back without its comments; each C member with the C declarator grammar, each C# member with its attribute and .NET's marshaling rules. Types as for C44 and C62, documentation as for C47 (false of the code beyond).")
J = "Verif.Js."
claim("C55", "proved", ns(J, "C55 C55_exact"), "All integer types and values, Node.js and wasm. N-API itself is modelled from its documentation.")
claim("C56", "partial", ns(J, "C56_partial C56_numbers C56_not_a_number C56_wasm C56_fails C56_fails_wasm C56_fails_never_rejects"), "Proved for numbers in the 32-bit range of the same signedness; beyond it Node.js wraps and wasm saturates before the range test: the property is false, witnesses, and for u32 and i32 no number is ever rejected. C56_numbers says for every number exactly whether it is accepted, and as what.")
claim("C57", "partial", ns(J, "C57_null C57_mut C57_const_partial C57_as_mut C57_as_const C57_incompatible_partial C57_not_pointer C57_buffer C57_fails"), "All addresses and pointee types; which pointers are accepted is characterised exactly. False for const pointers to types that mention a mutable pointer, which are never accepted.")
claim("C64", "partial", ns(J, "C64_partial C64_numbers C64_size C64_wrong_type C64_fails C64_fails_negative"), "All BigInts (but negative ones for u64 on wasm) and all numbers from -2^63 to 2^63-1; larger ones saturate: witnesses. C64_numbers says for every number exactly whether it is accepted, and as what.")
claim("C65", "partial", ns(J, "C65_partial C65_fails_nan"), "All numbers but NaN, which is rejected. The rounding of f32 is any function that fixes the single-precision numbers.")
claim("C58", "partial", ns(J, "C58_string C58_terminated C58_inner_nul C58_other C58_buffer C58_buffer_rejected_partial C58_fails_empty_buffer"), "All strings of Unicode scalar values; all buffers but the empty one, which panics when overflow is checked.")
claim("C59", "partial", ns(J, "C59_partial C59_fails C59_boolean"), "Proved below 2^63; above, JavaScript gets a negative number, for every such value.")
claim("C66", "partial", ns(J, "C66_partial C66_call_partial C66_all_or_nothing C66_enum C66_valid C66_valid_args C66_exact C66_fails_const_mut"), "All types nested to any depth; NaN and const pointers to types that mention a mutable pointer are missing, for these it is false (C65, C57).")
claim("C67", "proved", ns(J, "C67_string_round_trip C67_only_text C67_ref_string C67_box_string C67_box_not_ref C67_with_bytes C67_with_bytes_other C67_ref_bytes C67_bytes_round_trip C67_box_bytes C67_out_bytes C67_out_strings"), "Memory is typed: each address holds the contents of an allocation or of a variable. Callbacks are arbitrary.")
claim("C60", "partial", ns(J, "C60_allowed C60_once C60_result C60_arguments C60_unique C60_blocks C60_end C60_wrapped_partial C60_wrapped_value C60_progress C60_fails_exception"), "All schedules, threads, re-entrant calls and JavaScript behaviours. Exception: a wrapped function of type void that throws on the JavaScript thread lets the native call return normally, on another thread it ends the process: witness. The queue is modelled from N-API's documentation; timeouts may strike at any time.")
claim("C61", "proved", ns(J, "C61_history C61_default C61_once C61_read_back C61_fails_negative"), "All histories of the two Rust and the two JavaScript functions (OnceCell operations are atomic). Numbers from JavaScript are taken modulo 2^32, also negative ones.")
claim("C68", "proved", ns(J, "C68_order C68_detached C68_bounded C68_drained"), "All schedules; that a call is handled at most once is C60_once. Calls whose arguments have no JavaScript form are given up.")
VT = "Verif.BytesVt."
claim("C69", "proved", ns(VT, "C69_defined C69_balance C69_all_released C69_release C69_retain C69_read C69_stable C69_given C69_made C69_aborts C69_noalloc C69_outcomes C69_clone C69_shrink C69_shrink_refuses C69_split C69_upgrade"), "The functions of the vtables are arbitrary: the calls are recorded, and the memory is reused as soon as the SAFETY contract of from_raw_parts allows. Lifetimes of slices without a release never end in this model (they do in that of C05-C08).")
claim("C70", "partial", ns(B, "C70_serialize C70_deserialize_partial C70_error C70_no_panic C70_round_trip_partial C70_fails_size_hint"), "A sequence that announces more than isize::MAX elements panics: false of the code. Everything else is proved, as long as there is memory for two copies.")
claim("C71", "partial", ns(VT, "C71_round_trip C71_unshrunk C71_contents_partial C71_fails_shrunk"), "The length is not compared, so values shrunk at their end are converted too: witness. What is missing for success only on unshrunk values is exactly this.")
claim("C72", "partial", ns(J, "C72_worker_partial C72_worker C72_worker_call C72_worker_progress C72_async C72_async_call C72_async_output C72_async_progress C72_fails_buffer"), "All schedules. Functions that take buffers on a worker see what JavaScript has written meanwhile: witness. Node's worker pool and the runtime of the futures are modelled from their documentation.")
EX = "Verif.Export."
claim("C73", "partial", ns(EX, "C73_parameters C73_duplicate C73_constants C73_names C73_items C73_function C73_async_partial C73_fails_async_rename C73_fails_async_dropped C73_fails_async_abi"), "All token sequences, functions and features. False of async functions: without JavaScript support the new name is ignored, with it an async function without js is not exported at all, and its ABI is not looked at: witnesses. How syn delimits the executor expression is not modelled.")
claim("C74", "proved", ns(H, "C74_again C74_linkage C74_twice C74_banner C74_guard"), "All headers, against a specification of the C preprocessor (comments, conditionals, define and undef). String literals that contain comment delimiters and line splicing are not considered. Documentation that contains */ is excluded: see C47.")
DR = "Verif.Derive."
claim("C75", "partial", ns(DR, "C75_layout_partial C75_fails_packed C75_fails_align C75_fails_two_enum_reprs C75_fails_transparent_order C75_fails_opaque_array"), "All definitions with one repr attribute, against the layout rules of the Rust Reference. Further repr attributes are ignored, and the field with data of a transparent struct is assumed to be the first, and arrays of opaque types count as types with a C layout: false of the code, witnesses.")
claim("C76", "partial", ns(DR, "C76_only_documented_partial C76_rejects C76_accepts_struct_partial C76_accepts_transparent_partial C76_accepts_callback C76_accepts_enum C76_accepts_opaque C76_fails_repr_c_enum C76_fails_tuple_struct C76_fails_private_newtype C76_fails_many_fields C76_fails_legacy_js_enum C76_fails_opaque_array"), "All definitions. False of the code for repr(C) enums and fields that are arrays of opaque types (accepted), and for repr(C) tuple structs, private transparent newtypes, structs with more than 255 fields and repr(u8, js) enums (rejected): witnesses.")
claim("C77", "partial", ns(H, "C77_types_partial C77_members_partial C77_functions_partial C77_callbacks_partial C77_places_partial C77_places_unique C77_unique C77_fails_same_name"), "All programs in which no two types have the same C name, with well-formed names and texts, and all targets that lay out structs member after member. With two types of the same name the header silently has only the first: witness. Macros are not expanded here (C92 does, and shows that it makes no difference when names of constants are not used otherwise); opaque types have no layout; types without bytes have no counterpart in C.")
DD = "Verif.DynDerive."
claim("C78", "partial", ns(DD, "C78_accepts_partial C78_accepted C78_vtable C78_filled C78_functions C78_calls C78_names C78_conversions_partial C78_conversions_sound C78_fails_pin_and_mut C78_fails_send_only C78_fails_sync_only C78_fails_pinned_arc C78_fails_rc_without_clone C78_fails_reserved_name C78_fails_duplicate_clone C78_fails_retain_type"), "All traits and parameters. The guide disagrees with the code about one marker alone, pinned Rc and Arc, Rc and Arc without Clone, Pin beside &mut self, method names that are also fields of the vtable, and repeated Clone: witnesses.")
WA = "Verif.Wasm."
claim("C79", "partial", ns(WA, "C79_memory C79_no_leak C79_arguments C79_call C79_return C79_callback_arguments C79_callback_result_partial C79_fails_returned_buffer C79_fails_returned_string C79_fails_returned_argument C79_fails_unchecked C79_fails_leak"), "All histories of nested calls. A buffer returned by a JavaScript function is freed before native code gets the pointer; an export that returns its borrowed argument gives JavaScript the address of freed memory; values of unexpected types are cast without a check: an exception then leaks the copies made so far: witnesses. async exports are C72; the polyfill's js_sys functions are an arbitrary parameter.")
CB = "Verif.Callback."
claim("C80", "partial", ns(CB, "C80_bounds_partial C80_layout_partial C80_accepted_partial C80_fails_inner_elision C80_fails_inner_for C80_fails_reserved C80_fails_generic_lifetime"), "All signatures and all lifetimes. Function pointers inside of parameter types that elide lifetimes or have a for<...>, lifetimes named __elided_n, and newtypes with lifetime parameters are treated wrongly: witnesses.")
JL = "Verif.JsLife."
claim("C81", "partial", ns(JL, "C81_safe C81_alive C81_deleted C81_no_leak C81_waits C81_drains C81_effects C81_aborts C81_in_order C81_collected C81_once C81_return_partial C81_fails_return C81_fails_thread"), "All histories that respect Rust's types and the contract of the raw parts. On Node.js a closure cannot be converted back to JavaScript (it panics), and a closure that is dropped, or told to wait, on another thread calls N-API functions there: witnesses.")
JE = "Verif.JsExport."
claim("C82", "partial", ns(JE, "C82_captures C82_lifetimes C82_hidden C82_accepts_partial C82_fails_fn_pointer C82_fails_for C82_fails_worker C82_same_layout C82_alias_static C82_make_static C82_wasm_partial C82_wasm_same C82_fails_wasm"), "Soundness of captures holds for all types. The acceptance half excludes function pointers and for<…>, which the lifetime rewriting mishandles (witnesses). Exports with js(async_worker) have no such protection: witness.")
JE = "Verif.JsExport."
claim("C83", "partial", ns(JE, "C83_names C83_refuses C83_arguments_partial C83_fails_same_name C83_exports_partial C83_fails_duplicate C83_fails_silent C83_others"), "Holds when the exported names are distinct, Node.js refuses no registration, and parameter names are distinct; the code checks none of these (witnesses).")
WK = "Verif.Waker."
claim("C84", "proved", ns(WK, "C84_safe C84_wakes C84_not_lost C84_context_wake C84_no_leak C84_context_needed"), "Steps are atomic. Contract of C: a Context is used during its poll only (needed: C84_context_needed; the exported signature says `&'static Context<'static>`), a handle while a reference is owned. The executor's own waker is trusted.")
OP = "Verif.Opaque."
claim("C85", "partial", ns(OP, "C85_export_partial C85_accepts C85_parts C85_same_layout_partial C85_behind_pointers C85_refuses C85_fails_array C85_fails_callback"), "Holds for all types without arrays of opaque types; those are accepted and panic at run time (witness for all supported lengths), and callbacks accept opaque types by value (witness).")
H = "Verif.Headers."
claim("C86", "partial", ns(H, "C86_compiles_partial C86_fails_opaque_array C86_fails_reserved C86_fails_recursive C86_fails_isize C86_fails_raw"), "The emitted text is preprocessed and parsed (C74, C77), and each declaration checked against those in front of it. False of arrays of opaque types, of names that C reserves, of raw identifiers, of types that are recursive through pointers and of isize: witnesses. The names of the standard headers are taken as declared (their includes come first: C39). Clashes of enum constants, tags, members and parameters: C92.")
H = "Verif.Headers.Cs."
claim("C87", "partial", ns(H, "C87_types_partial C87_members_partial C87_library C87_functions_partial C87_callbacks_partial C87_compiles_partial C87_unique C87_fails_win32 C87_fails_keyword C87_fails_usize_array C87_fails_callback C87_fails_f32 C87_fails_usize C87_fails_class"), "The emitted text is read back by an independent lexer, preprocessor (#if IOS) and parser of C# declarations; marshaling and compile errors are specified on what was read. False on 32-bit Windows (stdcall), and of names that C# reserves, arrays of usize, pointers to structs with callbacks, f32 and usize constants, and functions named Ffi: witnesses. c_int and wrappers of bool are excluded (C62). The sizes that the header mentions are taken as those of mem::size_of.")
MK = "Verif.Markers."
claim("C88", "partial", ns(MK, "C88_counterpart C88_hiding C88_threads_partial C88_fails_supertrait"), "Against one rule per function of the safe API. False for traits with the supertraits Send or Sync (witness, with the library's own FfiFutureExecutor: an Rc in a VirtualPtr that is Send and Sync); proved for all other programs. The types of src/js and of stabby are not included.")
MK = "Verif.Markers."
claim("C89", "proved", ns(MK, "C89_variance C89_closures C89_virtual C89_lifetimes C89_counterpart"), "Subtyping by the rules of Rust, structs by their declared fields. That noalloc_upgrade changes the lifetime of Bytes wrongly is C08.")
H = "Verif.Headers."
claim("C90", "partial", ns(H, "C90_types_partial C90_members_partial C90_functions_partial C90_accepts_partial C90_same_partial C90_bare_partial C90_unique C90_fails_include C90_fails_enum_size C90_fails_ifdef"), "The emitted text is read back by a model of cffi's preprocessing (`#define N ...`, `...`) and the independent parser of C declarations of C77. As it is, cffi rejects the header of every program that exports a function or constant with an integer or bool (C90_fails_include); the positive theorems are for a user who removes the #include lines. Excluded: aliases (C39_fails_python_alias) and enums with an integer of their own (witnesses). Types that cffi knows by itself (int32_t, bool) are taken to be as in C.")
H = "Verif.Headers."
claim("C91", "partial", ns(H, "C91_options C91_order C91_text C91_library C91_file C91_fails_naming"), "Everything except the naming convention, which never has any effect (C91_fails_naming: the code looks it up and drops it). In C91_file nobody else writes to the file meanwhile.")
H = "Verif.Headers."
claim("C92", "partial", ns(H, "C92_names_partial C92_constants_partial C92_fails_param C92_fails_constants C92_fails_const C92_fails_tag"), "The emitted text is preprocessed with replacement of macros, and parsed. Proved when the exported constants and the guard are not used as other names, enum constants do not clash after their renaming, and types have no reserved names; each of these is needed (the four C92_fails_ theorems), as the code checks none of them. For enum constants names in camel case suffice (C92_constants_partial). Further replacement inside replaced text, and macros with parameters, are not modelled.")
SB = "Verif.Stabby."
claim("C93", "partial", ns(SB, "C93_from_raw C93_unchecked C93_never_rejects_partial C93_same_value C93_option C93_upcast C93_stabbied C93_fails_slice_ends C93_fails_slice_no_size"), "stabby is not in the repository: how its types are represented is taken from the layouts that the impls declare, and is an assumption. The check of slices looks at each end on its own (C93_fails_slice_ends), so what it accepts is given exactly with that reading of slices; slices of items without size but with an alignment above 1 may be rejected (C93_fails_slice_no_size). T::is_invalid is a parameter.")
PO = "Verif.Poly."
claim("C94", "partial", ns(PO, "C94_int C94_int32 C94_int64_partial C94_values C94_created_types C94_created_fresh C94_string_from_js C94_string_lone C94_type C94_try_from_partial C94_is_buffer C94_has_type_partial C94_set_get C94_set_refused C94_array C94_error C94_error_new C94_error_from_object C94_fails_int64 C94_fails_string C94_fails_try_from C94_fails_has_type C94_fails_array_length C94_fails_error_back"), "wasm-bindgen and js-sys are not in the repository: what their functions do is an assumption, taken from their documentation. Inherited properties, assignments to `__proto__`, to the length of arrays and to typed arrays, and JSON.stringify are parameters; getters, setters and proxies are not modelled. The claim fails for integers above 2^53, lone surrogates, conversions to JsNull, JsUndefined and JsBigint, has_type, lengths of things that are no arrays, and errors that come back (C94_fails_*). BigInts are part of C64.")
PR = "Verif.Print."
claim("C95", "partial", ns(PR, "C95_literal C95_char_p C95_char_p_box C95_shared_display C95_new_panic C95_containers_partial C95_as_rust_partial C95_strings C95_slices_partial C95_str_ref C95_bytes C95_bytes_owned_partial C95_option C95_fails_shared_debug C95_fails_boxed_slice C95_fails_bytes_owned"), "What core::fmt prints for str, slices, structs and tuples is modelled (Print/Std.lean), with pointers, numbers and the table of printable characters as parameters; `{:x?}`, sign flags and failing writers are not. The claim fails for `{:?}` of boxed slices and of shared C strings, which print addresses, and for `owned` of short borrowing Bytes (C95_fails_*). Closures and raw pointers, which print addresses by design, are not modelled.")
GE = "Verif.Generics."
claim("C96", "partial", ns(GE, "C96_repr_c C96_layout C96_own_layout C96_ctype C96_projections C96_js C96_js_projections C96_accepted_partial C96_transparent C96_transparent_niche C96_transparent_projections C96_transparent_ctype C96_opaque C96_impls C96_coherent C96_name C96_own_name_partial C96_fails_const_js C96_fails_const_name C96_fails_const_header C96_fails_alias_name C96_fails_transparent_js"), "Types are terms over parameters; lifetimes and constants are arguments like types; which types implement which traits is arbitrary, but for two laws of safer_ffi's own impls. Not modelled: ?Sized and implicit Sized bounds, higher-ranked bounds, attributes of parameters. The claim fails for constant parameters (the JavaScript glue panics in the macro; instances share one name and one definition), for renamed transparent structs (one name and one typedef for all instances) and for their JavaScript glue (C96_fails_*).")
DG = "Verif.DynGen."
claim("C97", "partial", ns(DG, "C97_functions_partial C97_functions_all C97_impls_partial C97_instances C97_entries C97_bounds C97_demands C97_transmutes C97_vtable C97_accepted_partial C97_fails_const_first C97_fails_clone C97_fails_by_value C97_fails_unbounded"), "Parameters, bounds and types as in C96; the rules of Rust for parameters of impls and functions and for transmute are in the specification. Not modelled: Pin, which wraps the pointer types; bodies, which are modelled in Verif.Dyn. The claim fails for constants declared before types, for Clone with any parameter, for values of type parameters, and for type parameters without layouts (C97_fails_*).")
DA = "Verif.DocAttrs."
claim("C98", "proved", ns(DA, "C98_texts C98_refused C98_refused_items C98_struct C98_enum C98_others C98_c_comment C98_none C98_placed C98_placed_field C98_placed_variant C98_placed_cs C98_placed_field_cs C98_placed_variant_cs"), "The parser of expressions is a parameter (syn). Not modelled: the legacy macros that repr(C, js) uses with the feature js; newtypes around function pointers, which have no documentation in a header. Texts of several lines in one #[doc = ...] are the subject of C47; C# headers of C48. C98_placed*: where the comments are; headers for Python (cffi) have none.")
OB = "Verif.OpaqueBox."
claim("C99", "partial", ns(OB, "C99_safe C99_once C99_released C99_box_drop C99_owned_release_partial C99_same C99_round_trip C99_new C99_write C99_frame C99_clone C99_fails_leak"), "C99_fails_leak: where the drop of the value panics, drop_in_place_and_dealloc has consumed the pointer and does not free the memory, as a box does. All else is proved. What Rust's own Box does (allocation, freeing in the unwinding) is modelled from its documentation. Not modelled: copies of owned pointers made by unsafe code of the caller.")
LC = "Verif.Libc."
claim("C100", "proved", ns(LC, "C100_types C100_names"), "Rust's rules for names (glob imports yield to explicit ones, namespaces for types and values, an import that resolves in no namespace is an error) are modelled from the reference.")
