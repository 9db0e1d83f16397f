#!/usr/bin/env python3
"""Writes /verif/properties.jsonl from the table below (one property per entry)."""
import json, os
P = []
def p(title, statement, quantifier, why, *anchors):
    P.append(dict(id="C%02d" % (len(P) + 1), title=title, statement=statement,
                  quantifier=quantifier, why_tests_cant=why, anchors=list(anchors)))

# ---------------------------------------------------------------- Bytes
p("Bytes constructors preserve contents",
  "Whatever constructor is used (from_static, from_slice, inline_slice, copied_from_slice, From<Arc<[u8]>>, From<Arc<T>>, From<Box<[u8]>>, From<Vec<u8>>), as_slice() of the new Bytes is the input slice and len() its length; inline_slice returns None exactly when the slice is longer than MAX_INLINE_SIZE.",
  "every byte slice of every length, every constructor, both byte orders and every pointer width",
  "Slices of every length and content, on targets (big-endian, 16/32-bit) that the test machine is not.",
  "src/bytes.rs: Bytes::from_static, from_slice, inline_slice, inline_unchecked, copied_from_slice, From impls, len, as_slice")
p("Inline and out-of-line Bytes are never confused",
  "The in-memory image of a Bytes decides whether it is inlined: an image built by inlining is always read back as inlined with the exact length and data, an image holding a vtable pointer is always read back as out-of-line with the exact fields, and the niche word is never zero in either.",
  "every slice that fits inline, every field value, every even non-null vtable address, both byte orders and every pointer width up to 25 bytes",
  "Depends on the byte-level encoding for all pointer values and on targets that tests do not run on.",
  "src/bytes.rs: MAX_INLINE_SIZE, read_inline_length_byte, is_inlined, vtable, inline_unchecked")
p("shrink_to / subsliced select exactly the requested range",
  "For a range start..end with start <= end <= len(), subsliced(range) yields exactly the bytes start..end of the old contents; for any other range it panics and, for shrink_to, leaves the value unchanged.",
  "every Bytes value (inlined or not), every range made of Included/Excluded/Unbounded bounds",
  "Ranges and contents are unbounded; the behaviour on inlined values depends on the data bytes themselves.",
  "src/bytes.rs: Bytes::shrink_to, Bytes::subsliced")
p("split_at partitions the contents",
  "split_at(index) returns Ok((l, r)) with l = contents[..index] and r = contents[index..] when index <= len(), and Err(self) with the unchanged value otherwise.",
  "every Bytes value and every index",
  "Three branches depending on lengths and on the representation, unbounded contents.",
  "src/bytes.rs: Bytes::split_at")
p("Cloning Bytes preserves contents and independence",
  "clone() yields a Bytes with the same contents that stays readable with these contents after the original, and every other clone, has been dropped, shrunk or converted.",
  "every value and every later history of operations",
  "A property of every later history of operations on shared storage.",
  "src/bytes.rs: Clone for Bytes, noalloc_clone, Drop")
p("Bytes histories are memory safe and leak free",
  "In every history of constructions, clones, sub-slicings, splits, upgrades, reads, drops, and conversions from and to Arc<[u8]>, including operations that panic and unwind: no released storage is ever read, nothing is released twice, every strong count equals the number of live owners, and once all owners are dropped all storage has been released.",
  "every finite sequence of operations, any number of values, any interleaving",
  "Needs all histories of operations including panicking ones; tests only sample.",
  "src/bytes.rs: Drop, Clone, split_at, shrink_to, upgrade, From<Arc<[u8]>>, From<Arc<T>>, From<Box<[u8]>>, TryFrom<Bytes> for Arc<[u8]>")
p("upgrade gives an owned value with the same contents",
  "upgrade() returns a Bytes with the same contents that does not refer to borrowed memory: it stays readable after the borrow it was created from has ended.",
  "every Bytes value, every later history",
  "Quantifies over later histories in which the original borrow ends.",
  "src/bytes.rs: Bytes::upgrade, BytesVt::is_borrowed")
p("noalloc_upgrade only promises 'static for data that is 'static",
  "noalloc_upgrade() returns Ok only with a value that stays readable after the original borrow has ended, and returns the original value in Err when that cannot be proven without allocating.",
  "every Bytes value, every later history",
  "Lifetime soundness over all later histories cannot be observed by running a test.",
  "src/bytes.rs: Bytes::noalloc_upgrade")
p("upgrade_will_allocate / clone_will_allocate predict allocation",
  "upgrade_will_allocate() is true exactly when upgrade() allocates, and clone_will_allocate() exactly when clone() allocates.",
  "every Bytes value of every length and provenance, both byte orders",
  "The prediction must match on every length and backing storage, on each target layout.",
  "src/bytes.rs: upgrade_will_allocate, clone_will_allocate, upgrade, Clone for Bytes")
p("Downcasting Bytes to Arc<[u8]>",
  "TryFrom<Bytes> for Arc<[u8]> succeeds exactly for values backed by an Arc<[u8]> whose view is the whole allocation, gives an Arc with the same contents, and transfers the one strong count owned by the Bytes; otherwise it gives back the value unchanged.",
  "every Bytes value in every reachable state",
  "Reference-count transfer must be right for every sharing history.",
  "src/bytes.rs: TryFrom<Bytes> for Arc<[u8]>")
p("Bytes comparison and hashing depend on contents only",
  "Two Bytes compare (==, <) and hash like their slices, whatever their representations: equal contents compare equal and hash equally, and the order is the lexicographic byte order, which is total.",
  "all pairs and triples of Bytes values of any representation",
  "All pairs of contents and representations.",
  "src/bytes.rs: PartialEq, Eq, PartialOrd, Ord, Hash for Bytes")
p("Reading from Bytes through io::Read yields the contents in order",
  "Calling read with any sequence of buffer sizes never panics, each call returns min(remaining, buffer) bytes, and the concatenation of the reads is a prefix of the contents, the remainder being left in the value.",
  "every contents and every sequence of buffer sizes",
  "All sequences of buffer sizes and contents; behaviour depends on the data bytes.",
  "src/bytes.rs: std::io::Read for Bytes")
p("noalloc_clone never allocates and agrees with clone",
  "noalloc_clone() never allocates; when it returns Some, the result has the same contents and ownership as clone(); when it returns None the value and its storage are unchanged.",
  "every Bytes value",
  "Every representation and sharing state.",
  "src/bytes.rs: Bytes::noalloc_clone")
# ---------------------------------------------------------------- strings
p("char_p::Ref from &str rejects exactly inner NULs",
  "char_p::Ref::try_from(&str) succeeds exactly when the string is empty or its first NUL byte is its last byte, and then reads back (bytes, to_str, to_nul_bytes) as the string without that final NUL.",
  "every string",
  "All strings, including NULs at any position.",
  "src/char_p.rs: TryFrom<&str> for char_p_ref, char_p_ref::bytes, to_bytes, to_str")
p("char_p::Box from String appends one NUL and rejects inner NULs",
  "char_p::Box::try_from(String) fails exactly when some byte other than the last one is NUL, handing the string back; on success the C string it points to is the input (without a trailing NUL) followed by exactly one NUL.",
  "every string",
  "All strings and NUL positions.",
  "src/char_p.rs: TryFrom<String> for char_p_boxed")
p("char_p::Box round-trips through String",
  "Converting a NUL-free String to char_p::Box and back with into_string gives the same string; clone and to_owned give equal strings.",
  "every NUL-free string",
  "All strings.",
  "src/char_p.rs: char_p_boxed::into_string, into_vec, Clone, char_p_ref::to_owned")
p("char_p::Box deallocates exactly what was allocated",
  "Dropping a char_p::Box frees its allocation exactly once with exactly the size it was allocated with, and never frees the static empty-string sentinel; converting it into a Vec or String transfers that allocation without freeing it.",
  "every string and every history of conversions, clones and drops",
  "Allocation sizes are recomputed by scanning for NUL: must agree for every string and history.",
  "src/char_p.rs: Drop for char_p_boxed, into_vec, TryFrom<String>, From<CString>")
p("c!() literals are valid C strings",
  "The compile-time c!() macro accepts exactly the literals without inner NUL and yields a pointer to the literal terminated by exactly one NUL (the empty invocation giving the empty string).",
  "every string literal",
  "All literals.",
  "src/proc_macro/c_str.rs: c_str")
p("Shared C strings keep an exact reference count",
  "A shared C string (Arc<CStr> as one thin pointer) built from a string reads back as that string; over every history of clones and drops its storage is released exactly when the last handle is dropped.",
  "every string and every sequence of clones and drops",
  "All histories.",
  "src/shared_cstr.rs: SharedCStr From impls, Clone, Drop")
# ---------------------------------------------------------------- validity
p("Validity checks never reject a value produced by Rust",
  "For every supported type, the raw representation obtained from a Rust value with into_raw satisfies is_valid, so that from_raw gives it back and from_raw_unchecked does not panic.",
  "every ReprC type (integers, floats, bool, pointers, references, function pointers, arrays, tuples, derived structs and enums, transparent wrappers, Option of niche types, TaggedOption, slices), nested to any depth, and every value of it",
  "Types and values of unbounded nesting.",
  "src/layout/_mod.rs: ReprC::is_valid, from_raw, into_raw", "src/layout/impls.rs", "src/layout/niche.rs", "src/option.rs", "src/proc_macro/derives/repr_c/struct_.rs", "src/proc_macro/derives/repr_c/enum_.rs")
p("from_raw accepts only bit-valid data for types without lifetimes",
  "For types built from integers, floats, bool, field-less enums, function pointers, arrays, structs, Option of function pointers and TaggedOption of these, from_raw(bits) is Some(v) only if bits is the representation of the Rust value v; every other bit pattern gives None.",
  "every such type nested to any depth and every bit pattern",
  "All bit patterns of all types.",
  "src/layout/_mod.rs: from_raw", "src/layout/impls.rs: bool, arrays", "src/proc_macro/derives/repr_c/enum_.rs: is_valid", "src/option.rs: is_valid")
p("References and non-null pointers reject null and misaligned addresses",
  "&T, &mut T, NonNull and Box arguments are accepted only when the address is non-null and a multiple of the alignment of T; Option of these additionally accepts exactly the null pointer; a misaligned non-null pointer is always rejected.",
  "every address and every alignment",
  "All addresses and alignments.",
  "src/layout/impls.rs: NonNull, NonNullRef, NonNullMut, NonNullOwned, &T, &mut T impls", "src/layout/niche.rs")
p("Out references reject null",
  "An Out<T> argument is accepted only when the address is non-null and aligned, as it represents an exclusive reference; Option<Out<T>> additionally accepts null.",
  "every address and every alignment",
  "All addresses and alignments.",
  "src/layout/impls.rs: Out is_valid", "src/layout/niche.rs: Out is_niche")
p("Field-less enum validity is membership in the discriminant set",
  "A derived enum accepts exactly the integers that are the discriminant of one of its variants, where a variant without explicit discriminant has the previous one plus one (0 for the first).",
  "every enum declaration and every integer of its repr type",
  "All enum declarations and all integers.",
  "src/proc_macro/derives/repr_c/enum_.rs: derive, is_valid")
p("TaggedOption agrees with Option",
  "Converting Option<T> to TaggedOption<T> and back is the identity both ways; its in-memory tag is 0 or 1, its payload offset used by is_valid is the C offset of the payload in {bool, T}; map_or_else, and_then, unwrap_or_else and take behave as on Option.",
  "every T (every size and alignment) and every value",
  "All payload types, alignments and values.",
  "src/option.rs")
p("The C struct declared in the header has the layout of the Rust struct",
  "Each non-zero-sized field of a derived repr(C) struct is at the same offset in the emitted C struct, which has the same size and alignment, although zero-sized fields are left out of the emission; emission panics rather than emit a struct for which this would not hold.",
  "every list of fields with any sizes and alignments",
  "All field lists.",
  "src/headers/languages/c.rs: emit_struct", "src/proc_macro/derives/repr_c/struct_.rs", "src/proc_macro/derives/c_type/struct_.rs")
# ---------------------------------------------------------------- owned containers
p("repr_c::Vec round-trips and frees once",
  "Converting a Rust Vec into repr_c::Vec and back preserves contents, capacity and the allocation; over every history of conversions and drops each allocation is freed exactly once with its original capacity.",
  "every Vec and every history of conversions, with_rust_mut calls, drops",
  "All contents and histories.",
  "src/vec.rs: From impls, Drop, with_rust_mut")
p("with_rust_mut always writes the vector back",
  "with_rust_mut(f) leaves in the repr_c::Vec exactly the vector that f left in the Rust Vec, whether f returns or panics; no allocation is lost or freed twice on either path, even if f grows, shrinks or replaces the vector.",
  "every vector and every closure, returning or panicking",
  "Quantifies over every closure and every panic point.",
  "src/vec.rs: Vec::with_rust_mut")
p("Boxed slices and boxed strings round-trip and free once",
  "c_slice::Box, str::Box, repr_c::Box and repr_c::String conversions from and to their Rust counterparts preserve contents and ownership; each allocation is freed exactly once, empty slices included, and clones are independent deep copies.",
  "every contents and every history of conversions, clones and drops",
  "All contents and histories.",
  "src/slice.rs", "src/boxed.rs", "src/string/_mod.rs", "src/string/slice.rs", "src/ptr.rs")
p("Slice views denote the same memory",
  "Converting between &[T], c_slice::Ref, c_slice::Mut, c_slice::Raw and back denotes the same elements in the same order; an Option of a slice received from C is None exactly when its pointer is null, whatever the length field holds; a write through a mutable view is seen by every view of the slice; comparison is the comparison of contents.",
  "every slice",
  "All slices.",
  "src/slice.rs")
# ---------------------------------------------------------------- closures
p("Arc closures are reference counted exactly",
  "For ArcDynFn values: over every history of clones, calls and drops, each call reaches the original closure with the given arguments and returns its result, the environment is released exactly when the last clone is dropped, and cloning a value whose retain is NULL panics without any effect.",
  "every history of clones, calls and drops",
  "All histories.",
  "src/closure/arc.rs")
p("Boxed closures are called and freed safely",
  "For BoxDynFnMut values: each call reaches the closure in order with its mutable state threaded through, the environment is freed exactly once when the value is dropped, and calls or drops of a value whose call or free is NULL panic instead of jumping to NULL.",
  "every history of calls and a final drop",
  "All histories.",
  "src/closure/boxed.rs")
# ---------------------------------------------------------------- dyn traits
p("VirtualPtr histories are memory safe and leak free",
  "For VirtualPtr built from Box, Rc, Arc, & or &mut: over every history of clones, method calls and drops, methods reach the original object, owned objects are released exactly once when the last owning VirtualPtr is dropped, borrowed objects are never released, and Box clones are deep copies.",
  "every history, every source pointer kind",
  "All histories of clones and drops.",
  "src/dyn_traits/_mod.rs", "src/proc_macro/derives/dyn_trait/coercions.rs: release_vptr, retain_vptr, into_raw")
p("VirtualPtr conversions only exist where thread-safety and aliasing allow",
  "A conversion from a pointer kind to VirtualPtr<dyn Trait + Send/Sync markers> is generated only if it is sound: shared pointers never give &mut receivers, non-atomic Rc never gives a Send or Sync value, a clonable VirtualPtr is never made from &mut, and a Send value from & or Arc requires the pointee to be Sync.",
  "every combination of trait receivers, Clone option, Send and Sync markers and pointer kind",
  "Soundness of all generated impls is a compile-time universal statement.",
  "src/proc_macro/derives/dyn_trait/_mod.rs", "src/proc_macro/derives/dyn_trait/coercions.rs: is_eligible")
p("Virtual calls dispatch to the right method with the right arguments",
  "Calling the i-th method of a VirtualPtr invokes the i-th method of the trait implementation of the wrapped object, with the same arguments in the same order, and returns its result.",
  "every trait declaration (any number of methods and arguments) and every object",
  "All declarations.",
  "src/proc_macro/derives/dyn_trait/vtable_entry.rs", "src/proc_macro/derives/dyn_trait/_mod.rs")
# ---------------------------------------------------------------- futures
p("FFI futures deliver the result of the Rust future",
  "Polling a VirtualPtr<dyn FfiFuture> until completion returns Completed exactly when the underlying future is ready; into_future resolves to the output on the first poll where the future is ready and never earlier.",
  "every future, every number of polls",
  "All poll schedules.",
  "src/dyn_traits/futures/_mod.rs")
p("spawn / block_on hand back exactly the future's output",
  "executor.spawn(f).await resolves to f's output if the executor runs the task to completion, and executor.block_on(f) returns f's output or panics if the executor returns before completion; neither can return anything else.",
  "every executor behaviour (any schedule, dropping or completing the task) and every future",
  "All schedules and executors.",
  "src/dyn_traits/futures/executor.rs")
p("spawn_blocking runs its action at most once",
  "spawn_blocking(action) runs the action at most once whatever the executor does; the handle resolves to Ok(result) if and only if the action ran to completion, and to Canceled if the executor dropped it without running it; a second invocation panics instead of running the action again.",
  "every executor behaviour and schedule",
  "All schedules.",
  "src/dyn_traits/futures/executor.rs: spawn_blocking")
# ---------------------------------------------------------------- headers
p("Each type is defined at most once and before its first use",
  "In a generated header, each type name is emitted at most once, and the definition of a type is emitted after the definitions of all types it mentions by value, and before any function using it.",
  "every set of exported items and every (acyclic) type graph",
  "All type graphs and export orders.",
  "src/headers/definer.rs: define_once", "src/layout/_mod.rs: CType::define_self", "src/proc_macro/derives/c_type/struct_.rs: define_self__impl", "src/proc_macro/ffi_export/fn_/mod.rs")
p("Header generation is deterministic",
  "With stable headers (the default) the generated text depends only on the set of exports, not on their link order, provided their names are distinct; definitions are emitted in increasing order of names.",
  "every set of exports and every permutation of it",
  "All permutations of link order.",
  "src/headers/_mod.rs: write_body")
p("Every export appears in the header",
  "Every exported item is declared in the generated header; two functions exported under the same name make generation fail rather than silently drop one.",
  "every multiset of exports, stable or not",
  "All multisets of exports.",
  "src/headers/_mod.rs: write_body", "src/proc_macro/ffi_export/fn_/mod.rs: gen_def")
p("A failing writer makes generation fail",
  "If writing to the output fails at any point, generation stops and returns that error; what was written before is a prefix of the full header, made of the banner, prelude, body and epilogue in this order.",
  "every crash point of the writer",
  "Every point of failure.",
  "src/headers/_mod.rs: generate_with_definer, write_body", "src/headers/definer.rs")
p("Distinct types get distinct names",
  "Two distinct types get distinct C type names (so that defining one never suppresses the other).",
  "all pairs of types",
  "All pairs of types, nested to any depth.",
  "src/layout/impls.rs: short_name impls", "src/proc_macro/derives/c_type/struct_.rs: short_name")
p("C declarators denote the intended types",
  "The text emitted for a variable, field or parameter of a given type, read with the C declarator grammar, declares that name with that type.",
  "every type built from base types, pointers, arrays and function pointers, nested to any depth, and every name",
  "All nested types.",
  "src/layout/impls.rs: c_var / name_wrapping_var", "src/headers/languages/c.rs")
p("Emitted enum constants have the Rust discriminants",
  "Reading the emitted enum with the rules of the target language (C, C#, cffi), each variant constant has the value of the Rust variant.",
  "every enum declaration, each header language",
  "All enum declarations.",
  "src/headers/languages/c.rs: emit_simple_enum", "src/headers/languages/csharp.rs: emit_simple_enum", "src/headers/languages/python.rs: emit_simple_enum")
p("Emitted C enum constants have distinct names",
  "Variants of the same enum, and variants of distinct enums, get distinct constant names in C.",
  "all pairs of (enum name, variant name)",
  "All pairs of identifiers.",
  "src/utils/_mod.rs: screaming_case", "src/headers/languages/c.rs: emit_simple_enum")
p("Doc comments cannot leak into code",
  "Documentation text, whatever it contains, stays inside the comment in the generated header.",
  "every documentation text, each header language",
  "All texts.",
  "src/headers/languages/c.rs: emit_docs", "src/headers/languages/csharp.rs: emit_docs")
p("C# inline code markup is balanced",
  "In C# docs, each single backtick is turned into <c> or </c> alternately starting with <c>, no other character is altered, and a line with an even number of single backticks yields balanced markup.",
  "every documentation line",
  "All lines.",
  "src/headers/languages/csharp.rs: emit_docs")
p("Function prototypes list all parameters in order",
  "The emitted prototype of a function lists exactly its parameters in order, and is (void) in C exactly when it has none.",
  "every function signature",
  "All signatures.",
  "src/headers/languages/c.rs: emit_function", "src/headers/languages/csharp.rs: emit_function")
p("Exported parameter names are pairwise distinct",
  "Whatever patterns are used for parameters (identifiers, wildcards, destructuring patterns), the parameter names of the exported function are pairwise distinct, and identifiers not in the reserved namespace are kept.",
  "every list of parameter patterns binding distinct identifiers",
  "All parameter lists.",
  "src/proc_macro/ffi_export/fn_/mod.rs")
p("Namespace of the C# output",
  "The C# namespace is the lib name in PascalCase: underscores are removed and the following letter is upper-cased.",
  "every crate name",
  "All names.",
  "src/headers/_mod.rs: pascal_cased_lib_name")
p("Names of opaque generic types can always be computed",
  "Computing the unqualified name of any Rust type name succeeds and yields an identifier fragment (letters, digits, underscores).",
  "every Rust type name (nested generics, tuples, arrays, dyn types)",
  "All nested type names.",
  "src/_lib.rs: append_unqualified_name")
# ---------------------------------------------------------------- ffi_export
p("Panics never unwind across the FFI boundary",
  "A call of an exported function either returns the converted result of the Rust function or aborts the process; it never unwinds into the caller, wherever the panic occurs (argument conversion, body, result conversion).",
  "every function, arguments and panic point",
  "All panic points.",
  "src/proc_macro/ffi_export/fn_/mod.rs", "src/_lib.rs: UnwindGuard")
p("Exported functions receive and return the converted values",
  "The exported C function called with the raw representations of Rust values calls the Rust function once with these values and returns the raw representation of its result; with checks enabled, an invalid argument aborts before the body runs.",
  "every function and all arguments",
  "All functions and arguments.",
  "src/proc_macro/ffi_export/fn_/mod.rs", "src/layout/_mod.rs: from_raw_unchecked, into_raw")
# ---------------------------------------------------------------- JS
p("64-bit integers round-trip through JavaScript",
  "Every u64, i64, usize and isize value converted to a JavaScript value and back is unchanged, although JavaScript numbers are doubles.",
  "every 64-bit integer",
  "2^64 values.",
  "src/js/impls.rs: u64, i64 ReprNapi")
p("Small integers reject out-of-range JavaScript numbers",
  "Converting a JavaScript number to u8, u16, u32, i8, i16 or i32 gives the same number if it is in range and an error otherwise; converting back gives the original number.",
  "every number in the range of the N-API conversion",
  "All numbers.",
  "src/js/impls.rs")
p("Pointers round-trip through JavaScript with their type",
  "A raw pointer converted to JavaScript and back as the same pointer type is unchanged; null becomes null; converting to an incompatible pointee type is an error; a mutable pointer may be used where a const pointer is expected but not conversely.",
  "every address and every pointee type, nested pointers included",
  "All types and addresses.",
  "src/js/impls.rs: pointer ReprNapi")
p("JavaScript strings and buffers passed as C strings are NUL-terminated without inner NUL",
  "A string passed through withCString, or a Buffer passed where a char const * is expected, reaches the native side as a C string with the same text, or is rejected when it contains an inner NUL; it never panics.",
  "every string and buffer",
  "All strings.",
  "src/js/ffi_helpers.rs: with_js_string_as_utf8", "src/js/impls.rs")
p("Out-parameters of type u64 reach JavaScript unchanged",
  "withOutU64 returns to JavaScript the u64 value written by the native function.",
  "every u64 value",
  "2^64 values.",
  "src/js/ffi_helpers.rs: with_out_u64")
p("JavaScript callbacks return the value sent by their call",
  "A native call of a waiting callback returns exactly the value produced by that JavaScript invocation, both on the JavaScript thread (direct call) and on another thread (queued); with several threads calling, results are never mixed up; otherwise it panics (timeout or closed channel).",
  "every number of native threads and every schedule",
  "All schedules.",
  "src/js/closures/node_js.rs: call_trampoline, convert_params")
p("The deadlock timeout is set at most once",
  "Over every history of get and set calls: get returns the default (5000 ms) until the first set, and the value of that first set forever after (0 meaning disabled); every later set is rejected with an error and changes nothing.",
  "every sequence of get and set calls",
  "All histories.",
  "src/js/closures/node_js.rs: get_deadlock_timeout, set_deadlock_timeout", "src/js/ffi_helpers.rs")
p("C# declarations pass what Rust expects",
  "For every parameter, returned value and field of a generated C# header, the declared C# type together with its MarshalAs attribute makes .NET pass exactly the machine-level value of the Rust type: same width, same signedness, pointer for pointer, named struct for named struct.",
  "every type built from base types, pointers, arrays, callbacks, aliases and declared types, nested to any depth; every function",
  "Infinitely many types.",
  "src/headers/languages/csharp.rs: emit_function, emit_struct", "src/layout/impls.rs: csharp_marshaler, name", "src/layout/_mod.rs: csharp_marshaler")
p("Struct definitions list the fields",
  "A struct definition in a generated header has exactly one member for each field of the Rust struct that is not zero-sized, in the order of the fields, with the name of the field and the type of the field; generation refuses a struct only if it is zero-sized or has a zero-sized field with an alignment above 1.",
  "every list of fields, every nesting of types, every documentation text, the three header languages",
  "Unbounded lists of fields and nested types.",
  "src/headers/languages/c.rs: emit_struct", "src/headers/languages/csharp.rs: emit_struct", "src/headers/languages/python.rs: emit_struct")
p("JavaScript integers passed as 64-bit integers are exact or rejected",
  "A JavaScript integer, number or BigInt, passed where a u64, i64, usize or isize is expected reaches the native function as exactly that integer if it is in the range of the type, and is rejected otherwise; values of other JavaScript types are rejected.",
  "every JavaScript number and BigInt, on Node.js and on wasm",
  "Unboundedly many BigInts, 2^64 numbers.",
  "src/js/impls.rs: from_napi_value of u64, i64, usize, isize")
p("Floating-point numbers round-trip through JavaScript",
  "Every f64 and every f32 converted to JavaScript and back is the same number (NaN included), and a JavaScript number that is not exactly an f32 is rejected where an f32 is expected.",
  "every f32 and f64, including the infinities and NaN",
  "2^64 values.",
  "src/js/impls.rs: from_napi_value, to_napi_value of f32 and f64")
p("Values and exported calls survive the JavaScript boundary",
  "Every value of a type with a JavaScript form (integers, floats, booleans, pointers, byte arrays, enums, structs nested to any depth) sent to JavaScript and back is unchanged; calling an exported function from JavaScript calls the native function exactly once with exactly the converted arguments and returns its result, or fails without calling it.",
  "every type, every value, every list of parameters, every JavaScript argument",
  "Infinitely many types and values.",
  "src/layout/macros.rs: ReprNapi of structs and enums", "src/proc_macro/ffi_export/fn_/mod.rs", "src/js/impls.rs")
p("JavaScript helpers copy strings and bytes and release owned ones once",
  "The helpers that exchange strings and bytes with native code (withCString, withCBytes, refCStringToString, boxCStringIntoString, refCBytesIntoBuffer, boxCBytesIntoBuffer, withOutBoxCBytes, withOutVecOfPtrs, cStringVecToStringArray) deliver exactly the text or bytes that were given or left by the native function; owned ones are released exactly once, borrowed ones never, and null is null.",
  "every string, byte list, vector of strings and native memory",
  "All contents and lengths.",
  "src/js/ffi_helpers.rs")
p("Queued JavaScript callbacks are made in order, each once",
  "Callbacks that go through the JavaScript event loop (all calls of a detached callback, calls of a waiting callback from other threads) are made in the order of the native calls, each at most once. A call of a detached callback returns immediately; it is dropped exactly when 1024 calls are pending, so that no more than 1024 ever are, and all pending calls are made when the event loop gets to run.",
  "every number of native threads and every schedule",
  "All schedules.",
  "src/js/closures/node_js.rs: call_trampoline, convert_params, queue_size_bound")
p("Storage supplied by the user is retained and released as documented",
  "Bytes::from_raw_parts with any slice, owner, capacity and vtable: retain and release are only called if the vtable has them, with the owner and capacity given; at any time the calls of release that remain to be made are as many as the live values stored with that owner, so release is never called too often, and once all values are gone it has been called once more than retain. The storage is only read, within the slice given, while a call of release is due, and the contents of a value never change although its owner reuses the memory as soon as the contract allows.",
  "every history of calls, every vtable, slice, owner, capacity and allocator, every reuse of memory that the contract allows",
  "All histories and all user vtables.",
  "src/bytes.rs: from_raw_parts, BytesVt, Clone, Drop, noalloc_clone, shrink_to, split_at, upgrade")
p("Bytes survive serialization",
  "Serializing a Bytes hands over exactly its contents, and deserializing gives a value with exactly the bytes that the format hands over, as borrowed bytes, lent bytes, an owned buffer or a sequence of elements of any announced size; it stays valid after the input is gone unless the input is borrowed for its lifetime; the error of an element is returned.",
  "every contents, every way of handing over, every later history",
  "All contents, lengths and later histories.",
  "src/bytes.rs: Serialize, BytesVisitor, Deserialize")
p("Conversion of Bytes back to stabby's ArcSlice",
  "TryFrom<Bytes> for stabby's ArcSlice<u8> succeeds exactly on values that are backed by an ArcSlice<u8> and were not shrunk, and gives back that ArcSlice.",
  "every history that leads to the value",
  "All histories.",
  "src/bytes.rs: TryFrom<Bytes> for stabby::sync::ArcSlice, From<stabby::sync::ArcSlice>")
p("Promises of asynchronous JavaScript exports",
  "A JavaScript call of an asynchronous export (`js(async_worker)`, or an `async fn`) throws if an argument has no conversion, and then nothing is run. Otherwise it gives a promise; the function is called once, with the arguments of the call, whenever a worker is free; and the promise is settled once, after the function or the future has completed, with its result.",
  "every function and future, every JavaScript argument, every schedule of JavaScript, of the workers and of the runtime",
  "Schedules are unbounded: calls overlap, tasks finish in any order, and JavaScript goes on while they wait.",
  "src/js/_mod.rs: JsPromise::spawn, AsyncWorkerTask, from_task_spawned_on_worker_pool", "src/proc_macro/ffi_export/fn_/mod.rs: async_worker", "src/proc_macro/ffi_export/fn_/async_fn.rs: export")
p("The parameters of ffi_export do what they say",
  "The parameters of #[ffi_export] (executor = …, js, js(async_worker), rename = \"…\") are accepted in any order, each at most once, and anything else is a compilation error; a function that is accepted is exported to C, to the headers and to JavaScript under one and the same name, the renamed one if rename is given; functions with another ABI than C's, methods, and async functions without an executor are refused; structs and enums without generics and constants are put in the headers under their own names, and any other item is refused.",
  "every sequence of tokens, every function and every set of features",
  "Token sequences are unbounded, and every combination of parameters, features and kinds of functions counts.",
  "src/proc_macro/ffi_export/fn_/args.rs: Parse", "src/proc_macro/ffi_export/fn_/mod.rs: handle", "src/proc_macro/ffi_export/fn_/async_fn.rs: export", "src/proc_macro/ffi_export/const_.rs: Args")
p("A C header can be included several times, and from C++",
  "A generated C header whose guard, names and texts are well-formed can be included any number of times, anywhere: the preprocessor accepts it and closes every conditional it opens, the first time it defines the guard and gives all the declarations, inside of extern \"C\" { } exactly for C++ compilers, and afterwards, whatever else is included in between, it has no effect as long as the guard stays defined. The default guard is an identifier, and the default banner is a comment.",
  "every program, configuration, state of the preprocessor and value of its conditions; names that are identifiers, documentation without */ (see C47), constants without slashes",
  "All headers and all places of inclusion.",
  "src/headers/_mod.rs: write_banner, write_prelude, write_epilogue, guard, text_after_guard", "src/headers/templates/c/_prelude.h", "src/headers/templates/c/epilogue.h")
p("derive_ReprC gives the C type the layout of the Rust type",
  "If a struct or enum definition with any attributes, fields, generics and parameters is accepted by #[derive_ReprC] and by the compiler, then the C type that it generates has the size, the alignment and the field offsets that the compiler gives the Rust type.",
  "every definition (attributes, representation hints, fields, variants and discriminants), every target",
  "Definitions are unbounded in their attributes, fields and nesting, and rustc's layout rules must be met in each case.",
  "src/proc_macro/derives/_mod.rs: derive_ReprC", "src/proc_macro/derives/repr_c/struct_.rs: derive, derive_transparent", "src/proc_macro/derives/repr_c/enum_.rs: derive, parse_discriminant_type", "src/proc_macro/derives/handle_fptr.rs: try_handle_fptr")
p("derive_ReprC accepts the definitions the guide lists and no others",
  "#[derive_ReprC] accepts #[repr(C)] structs with at least one field, all of types with a C layout; #[repr(transparent)] wrappers; newtypes of extern \"C\" callbacks; field-less enums with a fixed-size integer representation; and any struct or enum with #[repr(opaque)]. Every other definition (unions, definitions without a representation, empty structs, enums with fields, enums without an integer representation) is a compilation error.",
  "every definition, every list of parameters, with and without JavaScript support",
  "Definitions are unbounded.",
  "guide/src/derive-reprc/_.md", "guide/src/derive-reprc/enum.md", "src/proc_macro/derives/_mod.rs: derive_ReprC, feed_to_macro_rules", "src/proc_macro/derives/repr_c/args.rs: Args", "src/proc_macro/derives/repr_c/struct_.rs: derive", "src/proc_macro/derives/repr_c/enum_.rs: derive", "src/layout/macros.rs: ReprC!")
p("C compilers and Rust agree about the types and functions of a C header",
  "A C compiler that reads a generated C header sees a definition of every type that the exports mention, directly, as a field, or behind any number of pointers and callbacks, and a prototype of every exported function. It gives each type the size and the alignment that it has in Rust, with the same scalars at the same offsets, each struct the fields of the Rust struct under their names at the same offsets (but those without bytes), and passes each parameter and result as the Rust function expects it.",
  "every program (types nested to any depth, also recursive through pointers), every target with naturally laid out structs, every state of the compiler's macros",
  "Headers are unbounded, and the agreement is between two compilers that never see each other's input.",
  "src/headers/_mod.rs: Builder::generate, Definer", "src/headers/languages/c.rs: emit_struct, emit_simple_enum, emit_opaque_type, emit_function", "src/headers/languages/mod.rs: HeaderLanguage", "src/layout/_mod.rs: CType::define_self", "src/layout/impls.rs: CType impls", "src/layout/macros.rs: CType!")
p("derive_ReprC(dyn) generates what the guide promises",
  "#[derive_ReprC(dyn)] and #[derive_ReprC(dyn, Clone)] accept the traits that have only methods with the receivers &self, &mut self, or pinned ones of these. The vtable has release_vptr, then retain_vptr iff there is Clone, then one function pointer per method in the order of the trait, of the type of the method's signature; every conversion fills all of them with functions of these types, for the method of the same name. The conversions into VirtualPtr, with or without Send and Sync, are those of the guide's table.",
  "every trait (items, receivers of any type, parameters), every list of parameters of the attribute, every pointer and choice of markers",
  "Traits are unbounded in their methods, and the definitions are generated by a macro from the syntax.",
  "guide/src/dyn_traits/derive_reprc_dyn.md", "guide/src/dyn_traits/virtual_ptr.md", "src/proc_macro/derives/dyn_trait/_mod.rs: try_handle_trait", "src/proc_macro/derives/dyn_trait/args.rs: Args", "src/proc_macro/derives/dyn_trait/receiver_types.rs: ReceiverType", "src/proc_macro/derives/dyn_trait/vtable_entry.rs: vtable_entries, VTableEntry", "src/proc_macro/derives/dyn_trait/coercions.rs: Coercible", "src/dyn_traits/_mod.rs: From for VirtualPtr")
p("On wasm, the arguments of exported functions stay valid during the call and are freed after it",
  "On wasm, whatever exported functions JavaScript calls, and whatever JavaScript functions these call, nested to any depth: an exported function gets the values that JavaScript passes if they have the expected types, or is not called and JavaScript gets the error; the strings and byte slices it gets can be read until it returns; all the memory that a call has allocated is freed when it ends, exactly once, and nothing else is; a JavaScript function gets the arguments of its call, and native code gets its result and can read it.",
  "every history of nested calls, every signature, all values, all addresses",
  "Nesting, signatures and values are unbounded; a use after free in linear memory goes unnoticed.",
  "napi-dispatcher/wasm/src/lib.rs: Env, __push_drop_glue", "napi-dispatcher/wasm/src/values.rs", "napi-dispatcher/wasm/src/utils.rs", "src/js/impls.rs: from_napi_value of raw pointers", "src/layout/macros.rs: from_napi_value of structs", "src/js/closures/wasm.rs: call_trampoline", "src/proc_macro/ffi_export/fn_/mod.rs: #[js_export]")
p("Callback newtypes have a C layout for all lifetimes of their signature",
  "A #[derive_ReprC] #[repr(transparent)] newtype of an extern \"C\" callback implements ReprC exactly if the types of the callback's parameters and of its result do, for all the lifetimes that they elide and all those that the for<...> of the callback declares. Its C layout has the parameters in order, does not depend on any lifetime, and is accepted by the compiler whenever the newtype implements ReprC.",
  "every signature (types nested to any depth, any elided, declared and generic lifetimes), every set of types that implement ReprC",
  "Signatures are unbounded, and lifetimes are universally quantified.",
  "src/proc_macro/derives/handle_fptr.rs: try_handle_fptr, UnelideLifetimes, StripLifetimeParams")
p("JavaScript callbacks live as long as native code holds them, and no longer",
  "Whatever is done, by any threads, with closures made from JavaScript functions (Arc handles, raw parts with retain and release, calls, drops, requests that Node.js wait for them), and whenever the event loop and the garbage collector run: the JavaScript function is alive as long as a handle exists; its reference is deleted exactly once, when the last handle goes, also when the conversion from JavaScript fails half-way; nothing is used after its end; calls that were queued are still made, once and in order, after the closure is gone; Node.js's event loop waits exactly for the closures for which it was last asked to. N-API functions restricted to the JavaScript thread are called on it, and a closure can be given back to JavaScript.",
  "all histories of any length over any number of closures, threads and failures of N-API, with any interleaving of the event loop and the garbage collector",
  "The interleavings of threads, event loop, garbage collector and failing N-API calls are unbounded; a use after free or a leak shows only in some of them.",
  "src/js/closures/node_js.rs: ThreadTiedJsFunction, Closure_, from_napi_value, to_napi_value, make_nodejs_wait_for_this_to_be_dropped, into_raw_parts",
  "src/js/closures/wasm.rs: Closure")
p("Promises of asynchronous exports do not hold borrowed arguments",
  "If `#[ffi_export(js, executor = …)] async fn` compiles, no argument captured by its future borrows from the caller: the promise may outlive the call. Borrowed parameters are still accepted when they are used before the future is made, and parameters that do not borrow may be captured. The types that cross the boundary differ from the written ones in lifetimes only, and are `'static`. On wasm the signatures are left without lifetimes, as `wasm_bindgen` requires.",
  "all parameter types (any nesting of references, paths, trait objects, function types, for<…>), any number of parameters, any set of captured ones",
  "The types are unbounded trees, and a rejected program cannot be a test of the crate; an accepted one that lets a borrow escape is a use after free at run time.",
  "src/proc_macro/ffi_export/fn_/async_fn.rs: export",
  "src/proc_macro/utils/_mod.rs: RemapNonStaticLifetimesTo",
  "src/proc_macro/ffi_export/fn_/mod.rs: export",
  "napi-dispatcher/js_export_common.rs: __make_all_lifetimes_static",
  "napi-dispatcher/wasm/src/proc_macros/mod.rs: replace_lifetimes",
  "src/js/_mod.rs: JsPromise::spawn")
p("The JavaScript module has the annotated functions, under their names",
  "After the module is loaded, its exports are exactly the functions annotated for JavaScript, each under the name given by `js_name`, or else its own; a call binds each parameter to the argument at its position (`undefined` when missing, further ones ignored), runs the body once and gives its answer. Any other attribute, a second name, or a parameter that is not a plain variable is a compile error.",
  "all sets of annotated functions, attributes and parameter lists, all argument lists, all orders in which the linker lists the registered functions",
  "The order of the registry is chosen by the linker, and the functions of the program are unbounded.",
  "src/js/registering.rs: napi_register_module_v1, NapiRegistryEntry",
  "napi-dispatcher/nodejs-derive/src/proc_macros/mod.rs: js_export",
  "napi-dispatcher/js_export_common.rs: Attrs")
p("Wakers handed to foreign futures",
  "A future implemented in C gets, during a poll, a handle that wakes its task. Whatever the order in which the executor polls and drops tasks and C calls, retains and releases handles: each call wakes the task of the poll it was obtained in, also after the poll and after the task is gone; a woken task stays queued until its next poll; nothing is used after its end; each waker and each handle is freed at most once, and exactly once when all references are released.",
  "all histories of spawning, polling, dropping tasks, and of getting, calling, retaining and releasing handles, for any number of tasks and handles",
  "Executors, threads and foreign code interleave in unboundedly many ways, and a lost wake-up or an early free shows in few of them.",
  "src/dyn_traits/futures/executor.rs: ffi_export_future_helpers, rust_future_task_context_wake, rust_future_task_context_get_waker",
  "src/closure/arc.rs: ArcDynFn0")
p("Opaque types stay behind pointers",
  "A type without a C layout (`String`, `Vec<T>`, `Context`, `#[repr(opaque)]` types, …) may be used behind pointers only: a function that takes or returns one by value, itself or within a struct, array or option, is a compile error, as is a callback whose signature does. Hence the C types of an accepted signature have the size and alignment of the Rust types, and no conversion meets an opaque value. Behind a pointer any opaque type is accepted, and only the pointer is checked.",
  "all types of any nesting (structs, transparent structs, arrays of the supported lengths, options, tagged options, pointers), all signatures, all byte images",
  "Types nest without bound, and what does not compile cannot be a test of the crate.",
  "src/layout/_mod.rs: ConcreteReprC, OpaqueKind",
  "src/layout/impls.rs: OpaqueLayout, Opaque, impl_CTypes",
  "src/layout/niche.rs: HasNiche",
  "src/proc_macro/utils/trait_impl_shenanigans.rs: ctype_generics",
  "src/proc_macro/ffi_export/fn_/mod.rs: concrete_c_type",
  "src/utils/_mod.rs: transmute_unchecked")
p("C compilers accept the header",
  "A generated C header compiles: read from top to bottom, every type name is declared before it is mentioned (also behind pointers and in callbacks), nothing is declared twice, members, array items, parameters and results are of complete types, arrays are not empty, and no name is a keyword of C.",
  "all programs (structs, enums, opaque types, arrays, aliases, callbacks, nested to any depth, any number of exports), all writers that do not fail, all compilers (predefined macros)",
  "No test compiles the header of every program; the order of definitions depends on the whole graph of types.",
  "src/headers/definer.rs: Definer, HashSetDefiner",
  "src/headers/languages/c.rs: C",
  "src/headers/languages/mod.rs: HeaderLanguage",
  "src/layout/_mod.rs: CType::define_self",
  "src/layout/impls.rs: impl_CTypes",
  "src/headers/_mod.rs: Builder::generate_with_definer")
p("C# compilers accept the C# header and see what Rust has",
  "A generated C# header compiles, and .NET passes to native code what Rust expects: structs, enums, arrays and callbacks have the size, alignment, offsets and scalars that they have in Rust; every exported function is an extern method under its name, with its parameters in order, with the calling convention of C, and with parameters and result passed as Rust has them; callbacks are delegates of which the same holds.",
  "all programs (structs, enums, opaque types, arrays, aliases, callbacks, nested to any depth, any number of exports), all writers that do not fail, all defined symbols, all targets (sizes of pointers, alignments)",
  "No test compiles the C# header of every program, and marshaling is decided by attributes at run time.",
  "src/headers/languages/csharp.rs: CSharp",
  "src/layout/impls.rs: csharp_ty, csharp_marshaler",
  "src/layout/_mod.rs: CType::csharp_define_self",
  "src/headers/templates/csharp/_prelude.cs",
  "src/headers/_mod.rs: Builder::generate_with_definer")
p("Send and Sync of the FFI types are sound and exact",
  "A thread that receives a value of a Send type, or shares one of a Sync type, never gets through safe code at a value that it must not use: whatever it reaches through boxes, vectors, slices, strings, options, Bytes, closures and VirtualPtrs, and through what these hide, is Send where it owns or exclusively borrows it and Sync where it shares it. And the types with a counterpart in the standard library are Send and Sync exactly when the counterpart is.",
  "all types built from safer_ffi's types, those of the standard library and types of the program with any combination of markers; all sequences of uses",
  "Auto traits and unsafe impls are checked by no test; a data race needs the wrong type and the wrong schedule.",
  "src/boxed.rs: Send, Sync",
  "src/vec.rs: Send, Sync",
  "src/slice.rs: Send, Sync",
  "src/char_p.rs: Send, Sync",
  "src/shared_cstr.rs: Send, Sync",
  "src/bytes.rs: Send, Sync",
  "src/closure: Send, Sync, new",
  "src/dyn_traits/_mod.rs: Send, Sync",
  "src/proc_macro/derives/dyn_trait/_mod.rs: try_handle_trait")
p("Variance and lifetimes of the FFI types are those of what they hold",
  "A value can be used at another type (with other lifetimes) exactly where its counterpart in the standard library could: mutable slices are invariant in the elements, the other pointers covariant, closures contravariant in the parameters and covariant in the result, VirtualPtrs invariant. And a closure, Bytes or VirtualPtr, at whatever type it is used, is usable only as long as what it hides is valid.",
  "all types and lifetimes, with any relation between the lifetimes; all values that a constructor makes",
  "Variance is inferred by the compiler from the fields; a wrong one is seen only in programs that should not compile.",
  "src/ptr.rs: NonNullRef, NonNullMut, NonNullOwned",
  "src/utils/markers.rs: PhantomInvariant",
  "src/slice.rs: slice_mut",
  "src/closure",
  "src/bytes.rs: From",
  "src/proc_macro/derives/dyn_trait/_mod.rs: _invariant")
p("cffi reads the Python header and sees what Rust has",
  "A generated Python header can be passed to cffi's cdef, and cffi then sees what Rust has: every struct, enum and array has the size, alignment, offsets and scalars that it has in Rust, opaque types are known without a size, every exported function is there under its name with its parameters in order and passed as Rust expects them, and the constants that cffi asks the C compiler for are the exported ones. It is what a C compiler reads in the C header of the same program.",
  "all programs (structs, enums, opaque types, arrays, callbacks, nested to any depth, any number of exports), all writers that do not fail, all targets (sizes of pointers, alignments)",
  "No test passes the Python header of every program to cffi, and what it sees depends on how types are nested: the same type is defined differently behind a pointer.",
  "src/headers/languages/python.rs: Python",
  "src/layout/_mod.rs: CType::define_self, LegacyCType",
  "src/layout/impls.rs: c_define_self",
  "src/headers/_mod.rs: Builder::generate_with_definer")
p("The header builder does what its options say",
  "Of each option of the header builder the last value given counts, in whatever order the options are given, and an option that is not given has its documented default: C, a stable header, the banner of safer_ffi, and the guard __RUST_<LIBRARY>__. The header starts with the banner; in C the declarations are between the guard and the text after it and the end of the guard; the declarations themselves depend only on the program, the language and stability. A naming convention changes the names of the generated functions, structs and enums. A file that is given holds exactly the header afterwards, whatever it held before, and no other file changes. The name of the library comes from the environment of Cargo, and if it is needed and missing generation panics.",
  "all programs, all sequences of calls of the options with any arguments, all environments, all earlier contents of files, all writers",
  "The combinations and orders of the options are unbounded, and that an option does not influence the rest of the header is a statement about pairs of runs over all programs.",
  "src/headers/_mod.rs: Builder, with_guard, with_banner, with_text_after_guard, with_language, with_naming_convention, with_stable_header, to_file, generate, guard, text_after_guard, lib_name",
  "src/headers/templates/c/_prelude.h",
  "src/headers/templates/c/epilogue.h")
p("Names in a C header do not clash, and its macros do not change its declarations",
  "A C compiler that replaces macros while it reads a generated header sees the declarations that are written there: neither the include guard nor the exported constants, which are macros, replace a name in a declaration. In these declarations no name has two meanings in one of C's name spaces: types, functions and enum constants are distinct, tags are distinct, and so are the members of each struct and the parameters of each function; and no tag or enum constant is a word that C reserves.",
  "all sets of exports, all reachable types, all compilers with any macros of their own that are not names of the program, all evaluations of conditions, all fuels of the parser",
  "Clashes depend on pairs of names chosen by users, after the renamings of the generator (enum constants, array and generic types); that none arises is a statement about all programs.",
  "src/headers/languages/c.rs: C::emit_simple_enum, C::emit_struct, C::emit_opaque_type, C::emit_function, C::emit_constant",
  "src/headers/_mod.rs: Definer",
  "src/headers/templates/c/_prelude.h")
p("Validity checks of stabby's types",
  "The types of stabby that cross the FFI boundary (boxes, arcs and weak pointers, their slices and strings, Dyn and DynRef, vtables, markers, options of the pointers) have the same size in C as in Rust, and from_raw on any bytes of that size never panics. It gives back every value that into_raw produced, unchanged. It rejects everything that is no value as far as the bytes show: null or misaligned pointers, vtable pointers and functions. A null pointer is None of an optional pointer. A vtable can be read as any vtable it extends. Stabbied<T> is accepted exactly when T does not call the bytes invalid.",
  "all platforms (pointer size, alignments, endianness), all types built from stabby's and the crate's own types in any nesting, all byte strings of the right length",
  "The check runs on whatever bytes foreign code passes, for every instance of the generic types; a wrongly rejected value or a wrongly accepted pointer shows only for particular addresses, alignments and nestings.",
  "src/stabby/boxed_impl.rs: ReprC for Box, BoxedSlice, BoxedStr, AllocSlice",
  "src/stabby/sync_impl.rs: ReprC for Arc, ArcSlice, ArcStr, Weak, WeakSlice, WeakStr",
  "src/stabby/fatptr_impl.rs: ReprC for Dyn, DynRef, VtDrop, VTable, VtSend, VtSync, StableIf, StableLike",
  "src/stabby/_mod.rs: Stabbied")
p("Values and errors of N-API on wasm",
  "On wasm, code written against N-API sees the same values as JavaScript. Numbers, booleans, strings and buffers that native code creates are of that type and read back as what they were made from; a string of JavaScript survives the way through native code. get_type tells what typeof tells, with a type of its own for null, and a conversion from JsUnknown succeeds exactly for the values of the wanted type. A property that was set is got back, other properties and objects stay as they are, and setting is an error if the object refuses. An array that was filled has the length and the elements that were put in. An error arrives in JavaScript with its reason as the message, and comes back as the same error.",
  "all integers, numbers, strings of code points and of UTF-16 code units, byte strings, heaps of objects, property names and arrays of any length",
  "The rounding of integers, the pairing of surrogates and the mixing of names with array indices go wrong only for particular values; a test tries a few.",
  "napi-dispatcher/wasm/src/env.rs: Env::create_*, Env::get_*",
  "napi-dispatcher/wasm/src/values.rs: JsNumber, JsString, JsBuffer, JsObject, JsUnknown",
  "napi-dispatcher/wasm/src/utils.rs: new_type_wrappers",
  "napi-dispatcher/wasm/src/lib.rs: Error, From<Error> for JsValue, From<JsValue> for Error")
p("Values print what they hold",
  "Printing a value shows its contents. With `{:?}`, a string, boxed string, string slice or C string prints as a Rust string literal for its text, on one line, without unprintable characters, so that it can be read back and different texts print differently; with `{}` a string or a C string prints as the text itself. Vectors, slices, boxed slices and boxes print like the Rust values they stand for, with the same options of the formatter, at any point of any program. Bytes prints its contents, whatever the representation, and with `{:#?}` whether the data is owned. A TaggedOption prints as an Option. Equal values print the same.",
  "all texts, contents, element types with their way to print, options of the formatter, histories of the containers and C strings, chains of conversions of slices, and representations of Bytes",
  "A test prints a few values; a text with quotes, line breaks or unusual characters, or a representation that was not tried, may print wrongly.",
  "src/char_p.rs: Debug and Display for char_p_ref and char_p_boxed, InvalidNulTerminator",
  "src/shared_cstr.rs: Debug and Display for SharedCStr",
  "src/string/_mod.rs, src/string/slice.rs: Debug and Display for String, str_boxed, str_ref",
  "src/vec.rs, src/slice.rs, src/boxed.rs: Debug",
  "src/bytes.rs: Debug for Bytes",
  "src/option.rs: TaggedOption")
p("Generic definitions have a C layout for exactly the right instances",
  "#[derive_ReprC] supports generic structs: for every definition that Rust accepts and every choice of arguments, an instance of a #[repr(C)] struct has a C layout if and only if the bounds of the definition hold, each type argument has a C layout and each field has one that is not opaque; of a #[repr(transparent)] struct, if and only if the bounds hold and the first field has one; of a #[repr(opaque)] struct, if and only if the bounds hold. The layout is a struct at the same arguments whose fields are the layouts of the fields at these arguments, and it is a C type, Copy and convertible to JavaScript at the same instances. The generated code only speaks of layouts and conversions that exist, its impls do not overlap, and each instance has its own name and definition in headers.",
  "all generic parameters (lifetimes, types, constants) with bounds, defaults and where clauses; all field types; all arguments; all assignments of traits to types",
  "A test instantiates a definition with a few types. A bound that is dropped, an argument that is passed to the wrong parameter, or a layout that is missing for some argument only shows for the instances concerned.",
  "src/proc_macro/derives/repr_c/struct_.rs: derive, derive_transparent, derive_opaque",
  "src/proc_macro/derives/c_type/struct_.rs: derive, derive_transparent, trivial_impls",
  "src/proc_macro/utils/trait_impl_shenanigans.rs: ctype_generics",
  "src/proc_macro/utils/_mod.rs: MySplit for Generics",
  "src/layout/macros.rs: CType!")
p("dyn traits work with generic parameters",
  "#[derive_ReprC(dyn)] supports traits with generic parameters: for every trait that Rust accepts, each generated impl declares the parameters it uses, each function in a vtable is used with exactly its own parameters and demands nothing that the conversion from the pointer does not, each value is transmuted between types whose sizes Rust knows, and the vtable has a C layout at all arguments that the trait allows. The conversion is to the object of the same arguments, demands that the pointee implements the trait at these arguments and is Send, Sync or (for boxes) Clone if the object is, and the pointer to the object implements the trait at the same arguments.",
  "all traits with lifetime, type and constant parameters in any order that Rust accepts, with bounds, defaults and where clauses; all methods and argument types; all pointers; all arguments; all assignments of traits to types",
  "The tests have one or two traits. Whether the generated items are accepted, and for which instances, depends on the kinds and the order of the parameters, on their bounds and on where they occur; each combination is a different program.",
  "src/proc_macro/derives/dyn_trait/_mod.rs: try_handle_trait, CType",
  "src/proc_macro/derives/dyn_trait/vtable_entry.rs: VTableEntry::type_and_value, VTableEntry::virtual_forwarding",
  "src/proc_macro/derives/dyn_trait/coercions.rs: Coercible::release_vptr, Coercible::retain_vptr, Coercible::as_type",
  "src/dyn_traits/_mod.rs: ReprCTrait")
p("The documentation of an item is that of the header",
  "The documentation that a generated header gives for a function (async or not), constant, struct, field, enum, variant, opaque type or renamed newtype is that of the Rust item: the texts of its #[doc = ...] attributes (so, of its /// comments) in the order in which they are written, whatever other attributes the item has, among them other forms of doc such as #[doc(hidden)]; what the macros add to the Rust documentation is not part of it. The macros refuse an item for its documentation only if a #[doc = ...] is not an expression. In a C header the documentation is one comment with a line for each line, in order, without the white space around it; an item without documentation is said to have none.",
  "all lists of attributes of items, fields and variants; all expressions; all documentation lines; all indentations",
  "The tests have a few items with one or two comments; the claim is about every list of attributes, with documentation before, between and after others, and every text.",
  "src/proc_macro/utils/_mod.rs: extract_docs",
  "src/proc_macro/derives/repr_c/struct_.rs: docs_of, derive, derive_transparent, derive_opaque",
  "src/proc_macro/derives/c_type/struct_.rs: derive, derive_transparent",
  "src/proc_macro/derives/repr_c/enum_.rs: derive",
  "src/proc_macro/ffi_export/fn_/mod.rs: handle",
  "src/proc_macro/ffi_export/const_.rs: handle",
  "src/headers/languages/c.rs: emit_docs")
p("Boxes of opaque values, and owned pointers, release what they own once and as it was made",
  "In every history of boxes that are converted to boxes of Opaque<T>, to repr_c::Box, back, and to pointers that own (NonNullOwned), cast and made boxes again, where the unsafe functions are given the type of the value or one that differs from it by the wrapper Opaque: no memory is freed twice or with another layout than it was allocated with, no value is dropped twice, as one of another type, or used after its drop; each value has one owner; conversions keep the value, its contents and its memory, a clone of a repr_c::Box is a new value with the same contents, what is written through a box is read through it, and no operation on another variable changes that. Where no owned pointer is forgotten or only partly released, a value without an owner was dropped once and its memory is freed, also if its drop panics.",
  "all histories of operations on any number of values of all sizes and alignments; all sets of values whose drop panics",
  "A test runs a few conversions with one type and cannot see a wrong layout or a leak; the claim is about every sequence of conversions, casts and releases, values without size, and panics of every drop.",
  "src/layout/impls.rs: Opaque, From<rust::Box<T>> for rust::Box<Opaque<T>>, From<rust::Box<T>> for Box_<Opaque<T>>",
  "src/boxed.rs: Box_, From<rust::Box<T>>, Box_::into, Drop",
  "src/ptr.rs: NonNullOwned, cast, dealloc, drop_in_place_and_dealloc, drop_in_place")
p("The C types of the module libc are those of the platform, and exist on all platforms",
  "On every platform the crate compiles and safer_ffi::libc has the types c_char, c_int, size_t and uintptr_t; each is the type that the crate libc has by this name on the platform, and a Rust type that stands in (u8, core::ffi::c_int, usize, usize) only where it has none.",
  "all crates libc: every choice of the types and values that it has; all lists of names and types that stand in",
  "A test runs on one platform, with the libc of this platform; the claim is about all, also those on which libc is nearly empty.",
  "src/libc.rs: use_libc_or_else, helper, real_libc, fallback")
out = os.path.join(os.path.dirname(os.path.abspath(__file__)), "..", "properties.jsonl")
with open(out, "w") as f:
    for x in P:
        f.write(json.dumps(x, ensure_ascii=False) + "\n")
for x in P: print(x["id"], x["title"])
