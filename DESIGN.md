# Formal model of `safer_ffi` in Lean 4

Target: getditto/safer_ffi as found in `/repo` (read as text only, never built).
Properties: `properties.jsonl`. Status of each: `MANIFEST.json`. Wrong-program tests: `seeded/LOG.jsonl`.

## 1. Trusted base

* Lean 4.33.0's kernel. No axiom is added; no `sorry`, `admit`, `native_decide`, `bv_decide`.
  Every theorem depends on at most `propext`, `Classical.choice`, `Quot.sound`
  (checked with `#print axioms`, see section 5).
* The correspondence model <-> code. It is established by hand: each model definition cites
  the file and lines it models, and states the simplifications made.
* The semantics of what the code calls but does not define: Rust (moves, drops, unwinding,
  `repr(C)` layout, integer wrap-around), `core`/`alloc` (`Arc`, `Box`, `Vec`, `str`), C/C#
  declaration syntax, N-API. Each of these is modelled explicitly in small definitions,
  which are part of the trusted base.

## 2. Structure of the development

One directory per area under `lean/Verif/`. Each area has

* `Model.lean`  - the code, function by function, each definition citing `/repo` lines;
* `Spec.lean`   - (where the property needs more than standard notions) the small specification
  against which theorems are stated; it does not mention the model's helpers;
* `Lemmas.lean` - proofs about the model;
* `Props.lean`  - the property theorems only, named `C<nn>_...`, each with a non-vacuity `example`.

Where the code violates a property, `Props.lean` has a theorem `C<nn>_fails_...` proving the
negation with a concrete witness, and a `_partial` theorem with the strongest statement that does
hold. These disagreements are listed in section 4.

## 3. Plan per property

| Property | Modelled | Proof |
|---|---|---|
| C01 C02 | `Bytes` as its `5w` raw bytes, word width `w` and byte order being parameters | byte-level encode/decode lemmas |
| C03 C04 C12 | `shrink_to`, `split_at`, `read` on raw bytes + heap; panics are outcomes | case analysis per branch; negations with witnesses for inlined values |
| C05 C06 C07 C08 C10 C13 | a heap with reference counts, a table of live handles with ghost lifetimes, one step function over all operations (panics unwind) | invariant by induction over the list of operations; refinement to a table of plain byte lists |
| C09 | allocation counter of the heap | case analysis; negation for lengths 33..39 (LE, 64-bit) |
| C11 | comparison functions over `as_slice` | order laws of lexicographic order |
| C14-C17 | byte lists with NUL scanning, heap of sized allocations with a static sentinel | induction on lists; invariant over histories |
| C18 | the macro's decision procedure on literals | induction |
| C19 | `Arc<CStr>` heap | invariant over histories |
| C20-C25 | a universe of types with `is_valid` by recursion on types over byte images, against an independent relation "image represents value" | structural induction on types |
| C26 | `repr(C)` layout algorithm, C emission with ZST fields skipped | induction on field lists |
| C27-C30 | heap with sized allocations; conversions as pointer/len/cap moves; `with_rust_mut` with arbitrary (possibly panicking) closure | invariant over histories |
| C31 C32 | closure values as (env, call, release, retain) with NULLable function pointers | invariant over histories |
| C33-C35 | vtables as generated by the macro, per pointer kind; eligibility predicate | invariant over histories; finite case analysis over a Bool cube (a genuine finite table) |
| C36-C38 | poll functions, oneshot channel, executor as an arbitrary sequence of actions | invariants over all executor action lists |
| C39-C42 | definer (set of names), output through a writer that fails at any call, `define_self` of all types (structural; fuel for steps through declared types), `gen_def` of exports, the map of stable headers, banner, prelude and epilogue; the list of items begun is a ghost variable | closure principle over all actions (trace, failing writers, exports); order: an invariant over registered names with a rank for each name; recursive types: levels, and the definitions in progress; termination: the number of names not yet registered; strictly sorted lists with the same members are equal |
| C43 C44 | short names and C declarators of a type universe; a C declarator parser as specification | parse(render) = id; collision witnesses |
| C45 C46 | enum emission; C/C#/cffi enumerator value rules as specification; `screaming_case` | induction on variants |
| C47 C48 | doc emission; a comment scanner as specification | induction on characters |
| C49 C50 C51 C52 | function emission, argument naming, Pascal-casing, `append_unqualified_name` | induction |
| C53 C54 | the generated shim as a program in a small panic/abort semantics | case analysis over all panic points |
| C55-C59 | JS values, doubles (rounding to 53 bits), bigint words, strings | arithmetic; string rewriting lemmas |
| C60 C61 C68 | callback protocol as a transition system with any number of threads; once-cell | invariant over all schedules |
| C64 C65 | the 64-bit and floating-point conversions of C55 | arithmetic |
| C66 C67 | all JavaScript conversions, exported calls, helpers over a typed memory | induction over types; symbolic execution |
| C62 | C# type names and marshaling attributes, against the marshaling rules of .NET for the types in question | induction over types |
| C63 | struct emitters; the text is read back by a member reader over the comment-free text | induction over fields, C44 and C62 for each member |
| C69 C71 | `Bytes` over memory that is a map from addresses; vtables are arbitrary, their calls and the reads are logged; memory is written as soon as the contract allows | invariant over histories: calls of `release` due = live values, for each owner |
| C70 | the serde visitor as calls of the `Bytes` API | C01 and C07 |
| C72 | promises: JavaScript calls, a pool of workers that run tasks in any order, a runtime that polls futures in any order | invariant over schedules: the log of each call is a prefix of the four documented steps |
| C73 | the loop over the parameters of `#[ffi_export]` on token lists, and the decisions of `handle` and `export` | grammar of the documented parameters as an inductive relation; soundness and completeness of the parser by induction |
| C74 | the text of C headers as read by a C preprocessor: comments, conditionals, `#define`, `#undef` | every item stands on lines of its own, by cases; frame lemmas for the conditionals around them |
| C75 | the decisions of `#[derive_ReprC]` (and of its legacy path through `ReprC!`) on abstract definitions; rustc's layout from the Rust Reference, with the hints of all `#[repr]` attributes | inversion of the accepted cases, then the layout lemmas of C20 for each |
| C76 | the same, with the check by rustc of the generated accesses and bounds | inversion of the accepted cases; forward evaluation for each documented form |
| C77 | the text of a header, read by a preprocessor and a parser of C declarations, as an environment of C types; shapes and layouts of C types and of Rust types | reader lemmas per kind of item; a coverage invariant of the definer (everything mentioned is registered, everything registered has an item); induction on the shape, fields without bytes dropped; induction on the expression that selects a part of a value |
| C78 | the macro `derive_ReprC(dyn)` as a function from the syntax of a trait to the vtable, the impls and the conversions it generates; the guide's rules and table as the specification | inversion lemmas for receivers, methods and items; the generated functions are those of the run-time model of C33-C35 |
| C79 | the boundary with JavaScript on wasm as a transition system: nested calls in both directions, the boxes that conversions allocate, the cleanup list of each call; `js_sys` an arbitrary parameter | invariant over histories: the live boxes are those of the calls in progress, disjoint; the conversions agree with those of the other targets (C56-C59, C64) on values of the expected types |
| C80 | the two visitors of callback signatures on syntax trees; lifetimes have meanings, elided ones any | induction over types: instances of the clause = instances of the type as written |
| C81 | references, thread-safe functions and closures as tables; histories of operations, event loop turns and collections, with failing N-API calls | invariant over histories relating the tables to the events |
| C82 | syntax trees of types with their lifetimes, the three rewriting visitors, and Rust's scoping and outlives rules where the rewritten types are put | structural induction over types; a separate inductive definition of borrowing |
| C83 | the attribute parser on tokens, the expansion as a method on argument lists, the registration loop over any order of the registry | parser characterised by a grammar; induction over the registry, permutation-independence |
| C84 | tasks with counted wakers, handles with counted closures that capture a waker, every interleaving of the executor's and C's operations | counting invariant by induction over histories |
| C85 | the bounds of the `ReprC` impls as a recursive predicate on types; the conversions of C20/C21 | inductive definition of holding an opaque value; structural induction over types |
| C86 | the generator and emitter of C39/C77, read back with a preprocessor and C parser | specification of what C demands of a sequence of declarations; order from C39, definitions from C77, induction over aliases |
| C87 | the C# branch of the generator and emitter, read back with a lexer and parser of C# | specification of marshaling and of compile errors; lexing of each emitted item, cover of reachable types, induction over shapes |
| C88 | types with their fields, unsafe impls and constructor bounds; the auto trait rules of Rust | specification of what safe code reaches from a value; invariant over all sequences of uses; counterparts by cases |
| C89 | declared fields of the types, bounds of the constructors | variance computed from the fields and compared with that of the counterparts; monotonicity of outlives |
| C90 | the Python branch of the generator and emitter, read back by cffi's preprocessing and the parser of C declarations | simulation between the Python and the C generator: the items of the one are those of the other; then C77 and C86 |
| C91 | the builder, its options, the environment, and opening a file, on top of the generator of headers | fold over the calls; an action's effect with a writer that does not fail depends only on the names that are defined |
| C92 | on top of C77 and C86: a preprocessor that replaces macros, the name spaces of C | each line of the header is shown to mention only names of the program, so no macro occurs; constants and tags are read back from the tokens item by item |
| C93 | the impls for stabby's types as one recursive check on top of the model of C20-C23 | structural induction on the type; a lemma on structs of two fields |
| C94 | the functions of the polyfill over a heap of JavaScript objects, strings of UTF-16 code units and numbers m * 2^e | round trips: UTF-16 by recursion on pairs of units, rounding by the bits of the number, arrays by induction over the elements with an invariant on the keys |
| C95 | the Debug and Display implementations over the memories of the models of C strings, containers, slices and Bytes, and core::fmt | reading back an escaped text by induction over it; the invariants of the histories give the contents that are read |
| C96 | the generics of the struct and of the impls that the macros generate, from the syntax of the definition; syn's split_for_impl | substitution lemmas; the type that an impl is matched with determines the arguments of all parameters, because the order of the parameters is kept |
| C97 | the parameters that each generated item declares and is used with; the rules of Rust for impls, functions and transmute in the specification; the vtable is given to the model of derive_ReprC (C96) | list lemmas on where the parameter of the pointee is inserted; C96_repr_c for the vtable; converses for the failures, so that the conditions are exact |
| C98 | attributes as paths and tokens; extract_docs; the attributes that each macro hands to it, after adding, removing and rewriting some; the emitters of Headers, for where the comments are | induction on the attributes; filters and additions that keep the documentation attributes do not matter |
| C99 | values on a heap with the layout of their memory and the number of their drops; variables that hold Rust boxes, C boxes or owned pointers; one step for each operation | an invariant of all histories: one owner for each value, owned values are alive and allocated, the type of a box is that of its value but for Opaque |
| C100 | modules as lists of definitions, imports and glob imports; what a path means in each namespace; the modules that the macro makes | induction on the names |

## 4. Disagreements between code and properties

Each entry is a theorem about the model, with a concrete witness or for a whole class of inputs.
Lines are those of `/repo`.

| property | theorem | what the code does |
|---|---|---|
| C03 | `C03_fails_valid_range_panics` | `Bytes::shrink_to` compares the end with the raw `len` field, which holds data bytes when inlined: valid ranges panic |
| C03 | `C03_fails_invalid_range_accepted` | for the same reason, out-of-range bounds of inlined values are accepted and change bytes |
| C03 | `C03_fails_inclusive_max` | `..=usize::MAX` wraps to `..0` in release builds |
| C04 C12 | `C04_fails`, `C12_fails` | consequences: `split_at` and `Read::read` panic on inlined values |
| C06 C08 | `C06_fails`, `C08_fails_borrowed` | the condition of `noalloc_upgrade` is inverted: a borrowed value becomes `'static`; use after free in safe code |
| C08 | `C08_fails_owned` | and `'static` values are refused |
| C09 | `C09_fails` | `clone_will_allocate` (and `upgrade_will_allocate`) is wrong for lengths between the inline capacity and the size of the struct |
| C20 | `C20_fails_misaligned_nonNull` | `NonNull<T>` is refused when misaligned, although it is a legal value |
| C20 | `C20_fails_tagged_unit` | `TaggedOption<()>` panics on the way back |
| C20 | `C20_fails_transparent_phantom_first` | `#[repr(transparent)]` with a `PhantomData` first takes its layout |
| C23 | `C23_fails_null_accepted` | `Out<T>` accepts null |
| C34 C88 | `C34_fails_supertrait`, `C88_fails_supertrait` | `derive_ReprC(dyn)` ignores supertraits: for `trait FfiFutureExecutor : Send + Sync` an `Rc` converts to a `VirtualPtr<dyn FfiFutureExecutor>`, which is `Send`, `Sync` and `Clone`: data race on the count in safe code |
| C39 | `C39_fails_recursive` | types recursive through a pointer are used before their definition |
| C39 | `C39_fails_isize` | C headers use `ssize_t`, which the included headers do not define |
| C39 | `C39_fails_python_alias` | the aliases are not defined in cffi headers |
| C39 | `C39_fails_fn_named_like_type`, `C39_fails_same_alias` | names of functions and types, and of two aliases, share one set |
| C41 | `C41_fails_stable_duplicates`, `C41_fails_same_name` | with `stable_header`, of exports with the same name only one survives, without an error |
| C41 | `C41_fails_untyped_csharp` | untyped constants are not declared in C# |
| C43 | `C43_fails_*` (five) | different types get the same name |
| C44 | `C44_fails_*` (five) | pointers to function pointers, functions that return them, their aliases, and `()` parameters are not legal or not faithful C |
| C45 | `C45_fails_complement`, `C45_fails_shift` | discriminant expressions are evaluated as `i32` in the generator |
| C45 | `C45_fails_python` | discriminants are dropped in cffi headers |
| C46 | `C46_fails_same_enum`, `C46_fails_two_enums` | C constants of different variants have the same name |
| C47 | `C47_fails_c`, `C47_c_leak`, `C47_fails_csharp` | documentation with `*/` (C) or of several lines (C#) leaks out of the comment |
| C48 | `C48_fails_run4` | runs of four backticks are rewritten |
| C49 | `C49_fails_unit` | a `()` parameter makes the prototype ill-formed |
| C51 | `C51_fails_leading`, `C51_fails_double` | underscores survive in the Pascal-cased library name |
| C52 | `C52_fails_*` (three) | the name of nested generics, slices of arrays, trait objects panics |
| C56 | `C56_fails*` (three) | JavaScript numbers wrap (Node.js) or saturate (wasm) before the range test |
| C57 C66 | `C57_fails`, `C66_fails_const_mut` | no object is accepted as a `*const *mut T` |
| C58 | `C58_fails_empty_buffer` | an empty `Buffer` given for a `char const *`: `len - 1` overflows |
| C59 | `C59_fails` | `withOutU64` gives negative numbers from 2^63 on |
| C60 | `C60_fails_exception` | a wrapped JavaScript callback that throws: the native call returns normally on the JavaScript thread, the process aborts on the others |
| C61 | `C61_fails_negative` | `setDeadlockTimeout(-1)` is accepted as 4294967295 ms (its "Expected a positive number" is never reported) |
| C62 | `C62_fails_*` (three) | C# marshaling of `c_int`, aliases of `bool` and pointers to callbacks |
| C64 | `C64_fails` | numbers of 2^63 and more saturate; on wasm negative BigInts become the `u64` 0 |
| C64 | `C64_fails_negative` | on wasm, every negative BigInt above -2^53 is accepted as the `u64` 0 |
| C65 | `C65_fails_nan` | NaN is rejected |
| C70 | `C70_fails_size_hint` | deserializing a sequence that announces more than `isize::MAX` elements panics |
| C71 | `C71_fails_shrunk` | the conversion to stabby's `ArcSlice<u8>` does not compare the length, and succeeds on shrunk values |
| C72 | `C72_fails_buffer` | with `js(async_worker)` a buffer argument is not copied: the function sees what JavaScript writes to it after the call |
| C73 | `C73_fails_async_rename` | `rename` on an `async fn` is ignored when the JavaScript feature is off |
| C73 | `C73_fails_async_dropped` | with the JavaScript feature on, an `async fn` without `js` is accepted and exported nowhere |
| C73 | `C73_fails_async_abi` | with the JavaScript feature on, an `async fn` with `js` may have any ABI |
| C75 | `C75_fails_packed`, `C75_fails_align`, `C75_fails_two_enum_reprs` | only one `#[repr]` attribute is looked at: with another one the C type has the wrong layout |
| C75 | `C75_fails_transparent_order` | a `#[repr(transparent)]` struct has the layout of its first field, even if that field has no data |
| C75, C76 | `C75_fails_opaque_array`, `C76_fails_opaque_array` | fields that are arrays of opaque types are accepted, as arrays always count as types with a C layout; the C struct then has no bytes for them |
| C76 | `C76_fails_repr_c_enum` | `#[repr(C)]` enums are accepted (guide/src/derive-reprc/enum.md says they are refused) |
| C76 | `C76_fails_tuple_struct` | no `#[repr(C)]` tuple struct is accepted: the generated code names fields that do not exist |
| C76 | `C76_fails_private_newtype` | a `#[repr(transparent)]` newtype has to be `pub` |
| C76 | `C76_fails_many_fields` | a struct of more than 255 fields panics in the macro when built with overflow checks |
| C76 | `C76_fails_legacy_js_enum` | `#[repr(u8, js)]` enums are refused with the JavaScript feature only |
| C77 | `C77_fails_same_name` | of two types with the same short name (say, from two modules) the header has only the first, without an error: the C caller passes 4 bytes where Rust expects 8 |
| C78 | `C78_fails_pin_and_mut` | traits with `Pin<…>` and `&mut self` receivers are refused; the guide lists no such condition |
| C78 | `C78_fails_send_only`, `C78_fails_sync_only` | the guide: "`+ Send` and/or `+ Sync` can always be added"; `dyn Send + Trait` has no impls if a method takes `&self`, `dyn Sync + Trait` never |
| C78 | `C78_fails_pinned_arc` | with a pinned receiver the impls are for `Pin<Rc<_>>` and `Pin<Arc<_>>`, but `VirtualPtr` has no `From` impl that uses them |
| C78 | `C78_fails_rc_without_clone` | conversions from `Rc` and `Arc` exist without `Clone`, contrary to the table (harmless) |
| C78 | `C78_fails_reserved_name` | methods called `release_vptr`, `retain_vptr` or `_invariant` give a vtable that does not compile |
| C78 | `C78_fails_duplicate_clone` | the error for a repeated `Clone` is constructed but not returned; commas are optional |
| C78 | `C78_fails_retain_type` | in the guide `retain_vptr` returns a `VirtualPtr`, in the code an erased pointer |
| C79 | `C79_fails_returned_buffer`, `C79_fails_returned_string` | on wasm the copy of a buffer that a callback returns is freed before native code gets the pointer |
| C79 | `C79_fails_returned_argument` | on wasm an export that returns the string it has borrowed gives JavaScript the address of a freed copy |
| C79 | `C79_fails_unchecked`, `C79_fails_leak` | on wasm JavaScript values are cast without a check: `true` passes for a number, or the cast throws and the copies made so far leak |
| C80 | `C80_fails_inner_elision` | lifetimes elided inside of a function pointer that is a parameter are bound outside of it: the bound is about another type |
| C80 | `C80_fails_inner_for` | a function pointer with a `for<…>` as a parameter: the layout declares `for<'static>`, a compilation error |
| C80 | `C80_fails_reserved` | a lifetime called `'__elided_0` is declared twice |
| C80 | `C80_fails_generic_lifetime` | with a lifetime parameter `'a` the layout uses `&'static T` where only `&'a T` is known to have a C layout |
| C81 | `C81_fails_return` | on Node.js the conversion of a closure to JavaScript is `unimplemented!`: it panics (on wasm it works) |
| C81 | `C81_fails_thread` | a closure dropped on another thread deletes its N-API reference there, and one told to wait there references its thread-safe function there; N-API allows this on the JavaScript thread only |
| C82 | `C82_fails_worker` | `#[ffi_export(js(async_worker))]` accepts borrowed parameters, and runs the call on a worker thread after the JavaScript function has returned; the asynchronous form refuses this |
| C82 | `C82_fails_fn_pointer` | the comment in `RemapNonStaticLifetimesTo` says that elided lifetimes in `fn(…)` are left alone; only those in `Fn(…)` are, so an `extern "C" fn(&T)` parameter cannot be captured by the future of an asynchronous export |
| C82 | `C82_fails_for` | parameters with `for<'a>` outside `Fn(…)` do not compile in JavaScript exports: the binder is renamed to `'static` or to a lifetime already in scope |
| C82 | `C82_fails_wasm` | on wasm, `#[js_export]` removes the generic lifetimes of the function but not their uses in `+ 'a` bounds: such functions compile on Node.js only |
| C83 | `C83_fails_duplicate` | two functions exported to JavaScript under one name compile and load; one of them, chosen by link order, silently replaces the other |
| C83 | `C83_fails_silent` | errors of N-API while registering a function are ignored: the module loads without the function |
| C83 | `C83_fails_same_name` | `#[js_export]` turns parameters into `let`s, so two parameters of the same name compile, and the first argument is lost |
| C85 | `C85_fails_array` | `[String; 2]` and other arrays of opaque types are accepted by value: `OPAQUE_KIND` of arrays is `Concrete` whatever the items. The C type has no bytes, and every such call panics |
| C85 | `C85_fails_callback` | `extern "C" fn(String)` and closures with such parameters are accepted: the bounds are `ReprC`, not `ConcreteReprC` |
| C86 | `C86_fails_opaque_array` | `fn f(x: [Opaque; 2])` is accepted and the header has `Opaque_t idx[2];` without a definition of `Opaque_t`: not C |
| C86 | `C86_fails_reserved` | field, parameter and function names such as `register`, `default` or `int` are written as they are: not C |
| C86 | `C86_fails_recursive` | types that are recursive through a pointer are used before they are declared (see C39_fails_recursive) |
| C86 | `C86_fails_isize` | `isize` is written as `ssize_t`, which the included headers do not define (see C39_fails_isize) |
| C86 | `C86_fails_raw` | fields and parameters with raw identifiers: `struct S { r#in: i32 }` becomes `int32_t r#in;`, as `Ident::to_string` keeps the `r#` |
| C87 | `C87_fails_win32` | on 32-bit Windows `[DllImport]` methods are called with stdcall; the library exports `extern "C"` functions (the comment at layout/impls.rs 328-334 on Winapi is mistaken) |
| C87 | `C87_fails_keyword` | parameters, fields and functions such as `out`, `params` or `object` are written as they are: not C# |
| C87 | `C87_fails_usize_array` | `[usize; N]` becomes `fixed UIntPtr arr[N]`: CS1663 |
| C87 | `C87_fails_callback` | a pointer to a struct with a callback field is a pointer to a managed type: CS0208 |
| C87 | `C87_fails_f32` | an `f32` constant becomes `const float X = 1.5;`: CS0664 |
| C87 | `C87_fails_usize` | a `usize` constant becomes `const UIntPtr X = 5;`: not C# before C# 11 |
| C87 | `C87_fails_class` | a function named `Ffi` (or `RustLib`) clashes with the class it is in |
| C90 | `C90_fails_include` | the header has `#include` lines as in C, which cffi's `cdef` rejects ("directives not supported"): every program with an exported integer or `bool` |
| C90 | `C90_fails_enum_size` | a `#[repr(u8)]` enum becomes a C enum of four bytes: `fn f(x: Color)` has one byte in Rust |
| C90 | `C90_fails_ifdef` | behind a pointer such an enum is written as in C, with `#ifdef DOXYGEN`: rejected even without the `#include` lines |
| C91 | `C91_fails_naming` | `with_naming_convention` is documented as setting the "prefix for generated functions, structs & enums"; `write_body` binds it to `_naming_convention` and does not use it: the header is the same for every convention |
| C92 | `C92_fails_param` | a parameter named like an exported constant: the `#define` replaces it and the prototype is no longer C |
| C92 | `C92_fails_constants` | `Foo::BarBaz` and `FooBar::Baz` both become the enum constant `FOO_BAR_BAZ` |
| C92 | `C92_fails_const` | an exported constant named like an enum constant (`FOO_BAR_BAZ`) replaces it in the enum |
| C92 | `C92_fails_tag` | `struct register` becomes `typedef struct register`, with a word that C reserves |
| C93 | `C93_fails_slice_ends` | a `BoxedSlice`, `ArcSlice` or `WeakSlice` whose end is before its start, or not a whole number of items behind it, is accepted |
| C93 | `C93_fails_slice_no_size` | the end of a slice of items without size must be aligned too: if such a slice keeps its length as the distance of its ends in bytes (as stabby does), most lengths are rejected when the alignment of the items is above 1 |
| C94 | `C94_fails_int64` | `create_int64` rounds to a double: `2^53 + 1` is created as `2^53` |
| C94 | `C94_fails_string` | `into_utf8` replaces lone surrogates by U+FFFD without an error |
| C94 | `C94_fails_try_from` | `JsNull::try_from`, `JsUndefined::try_from` and `JsBigint::try_from` succeed for every value |
| C94 | `C94_fails_has_type` | `has_type::<JsNumber>()`, `<JsString>` and `<JsBoolean>` are false for every number, string and boolean: the wrappers define `instanceof` only |
| C94 | `C94_fails_array_length` | `get_array_length` gives a length for every object with a number as `length`, clamped to `u32` |
| C94 | `C94_fails_error_back` | an `Error` that was given to JavaScript and comes back has lost its status, and its reason is the complaint of serde_json |
| C95 | `C95_fails_shared_debug` | `{:?}` of a `SharedCStr` is derived: it prints the address, so equal strings print differently and the text is not shown |
| C95 | `C95_fails_boxed_slice` | `{:?}` of a `c_slice::Box` is derived: it prints address and length instead of the elements, unlike `c_slice::Ref`, `c_slice::Mut` and `repr_c::Vec` |
| C95 | `C95_fails_bytes_owned` | `{:#?}` of a `Bytes` borrowing 33 to 39 bytes (64-bit little-endian) says `owned: true` |
| C96 | `C96_fails_const_js` | a struct with a constant parameter is accepted, but with `js` and the JavaScript feature the macro panics: `unimplemented!("const generics")` |
| C96 | `C96_fails_const_name` | the C name of an instance has the type arguments only: `Buf<3>` and `Buf<4>` are both `Buf_t` |
| C96 | `C96_fails_const_header` | and the header defines the first only: `fn f(a: Buf<3>, b: Buf<4>)` is declared with two structs of three bytes |
| C96 | `C96_fails_alias_name` | a generic `#[repr(transparent)]` struct with `rename` has one name for all instances: `fn f(a: Id<u8>, b: Id<u32>)` is declared with two `uint8_t` |
| C96 | `C96_fails_transparent_js` | the JavaScript impl of a generic `#[repr(transparent)]` struct with `rename` and `js` lacks the bound on its field: it does not compile |
| C97 | `C97_fails_const_first` | `trait Tr<const N : usize, T>` with a method is refused: the function of the method is declared with parameters in the order of the trait and named with types first |
| C97 | `C97_fails_clone` | `#[derive_ReprC(dyn, Clone)]` is refused on every trait with parameters, be it one lifetime: `impl<'__usability> DynClone for dyn Tr<…>` does not declare them |
| C97 | `C97_fails_by_value` | a method that takes or returns a value of a type parameter is refused: `transmute` between `T` and `CLayoutOf<T>` |
| C97 | `C97_fails_unbounded` | a trait with a type parameter is refused unless its bounds give the parameter a C layout, even where it is not used by value |
| C99 | `C99_fails_leak` | `drop_in_place_and_dealloc` (src/ptr.rs 192-199) leaks the memory of a value whose drop panics; the drop of a box frees it |

## 5. Axioms

`AXIOMS.txt` (written by `tools/axioms.py`) lists, for each theorem of `MANIFEST.json`, the axioms it depends on as
printed by `#print axioms`: at most `propext`, `Classical.choice` and `Quot.sound`.

## 6. Scope: what is modelled and what is not

The table lists every Rust file of the library, its macros and its JavaScript back ends. *Lines* are the lines cited by
the comments of the model, out of all lines that are neither blank nor comments (`tools/coverage.py` counts them);
a cited line is one whose behaviour a definition describes, with the simplifications that its comment names. *Not
modelled* gives the line ranges that no definition cites, and what is in them.

| File | Lines | Areas of `lean/Verif` | Not modelled |
| --- | --- | --- | --- |
| `napi-dispatcher/dispatcher.rs` | 0/18 | — | 1-23: choice between the Node.js and wasm crates |
| `napi-dispatcher/js_export_common.rs` | 71/71 | JsExport | — |
| `napi-dispatcher/nodejs-derive/src/lib.rs` | 0/8 | — | 1-9: proc-macro entry point |
| `napi-dispatcher/nodejs-derive/src/proc_macros/mod.rs` | 77/106 | JsExport | 1-30: imports and parsing |
| `napi-dispatcher/wasm/src/env.rs` | 88/92 | Poly | 1-5: signatures |
| `napi-dispatcher/wasm/src/lib.rs` | 103/164 | Poly, Wasm | 3-56, 149-157, 193-200: module wiring, `CallContext` accessors |
| `napi-dispatcher/wasm/src/proc_macros/mod.rs` | 66/113 | JsExport, Wasm | 1-20, 33-62: imports and parsing |
| `napi-dispatcher/wasm/src/utils.rs` | 33/149 | Poly, Wasm | 1-40, 54-70, 97-169: helper macros, forwarding impls |
| `napi-dispatcher/wasm/src/values.rs` | 244/301 | Js, Poly, Wasm | 1-16, 31-42, 87-95, 113-116, 133-143, 325-332: `JsFunction::call`, `JsPromise::__resolve`, `cast` |
| `src/_lib.rs` | 102/429 | Headers, Names, Shim | 1-240, 252-441, 460-582, 671-676: re-exports, `cfg` macros, documentation |
| `src/boxed.rs` | 107/129 | Markers, OpaqueBox, Owned, Print | 127-152: `Debug`, type aliases, `FitForCBox` |
| `src/bytes.rs` | 523/704 | Bytes, BytesVt, Markers, Print | 2-4, 6-12, 42-60, 396-411, 606-646, 671-674, 767-819, 878-916: imports, `Send`/`Sync` impls, `Debug`, the crate's own tests |
| `src/c_char.rs` | 39/76 | Headers, Js | 1-21, 29-51, 90-95: compile-time type checks, `Debug` |
| `src/char_p.rs` | 403/561 | CharP, Js, Markers, Print | 1-7, 34-48, 96-107, 132-138, 161-166, 243-254, 260-263, 287-344, 399-413, 421-432, 450-462, 524-526, 612-619, 621-630, 636-639: `Debug`/`Display`, `Send`/`Sync`, transmutes of `char_p_raw`, documentation |
| `src/closure/arc.rs` | 187/272 | Dyn, Markers, Opaque, Waker | 1-24, 63-66, 229-295: `Send`/`Sync`, `Debug`, aliases per arity (the model has one arity-generic closure) |
| `src/closure/borrowed.rs` | 103/177 | Dyn, Markers | 1-18, 131-195: as arc.rs |
| `src/closure/boxed.rs` | 120/217 | Dyn, Markers, Opaque | 1-31, 58-67, 173-238: as arc.rs |
| `src/closure/mod.rs` | 0/31 | — | 1-86: re-exports |
| `src/dyn_traits/_mod.rs` | 114/200 | Dyn, Markers | 2-60, 170-194, 214-229: trait declarations, raw parts accessors, `Send`/`Sync`, `Debug` |
| `src/dyn_traits/dyn_drop.rs` | 3/32 | Dyn | 1-35, 41-44: `DynDrop`: a trait without methods |
| `src/dyn_traits/futures/_mod.rs` | 39/60 | Fut, Waker | 1-16, 66-70: imports |
| `src/dyn_traits/futures/executor.rs` | 140/204 | Dyn, Fut, Waker | 32-51, 102-115, 136-151, 187-204: trait declaration, tokio's handle (a foreign implementation) |
| `src/dyn_traits/futures/tests.rs` | 0/30 | — | 1-36: tests |
| `src/headers/_mod.rs` | 268/439 | Headers, Names | 1-118, 322-330, 503-522, 555-703: documentation, the helpers of the module `__define_fn__`, which nothing calls (exports call the function of that name, hence `emit_function`, which is modelled) |
| `src/headers/definer.rs` | 35/73 | Headers | 1-61: trait declaration, documentation |
| `src/headers/languages/c.rs` | 227/236 | Headers, Layout | 1-8: imports |
| `src/headers/languages/csharp.rs` | 229/235 | Headers, Layout | 1-8: imports |
| `src/headers/languages/mod.rs` | 137/305 | DocAttrs, Headers | 5-51, 195-311, 363-399: indentation helper, `PhantomCType` forwarding, upcasts |
| `src/headers/languages/python.rs` | 148/151 | Headers, Layout | — |
| `src/js/_mod.rs` | 132/357 | Js, JsExport, Wasm | 1-37, 52-117, 119-206, 253-278, 363-419: traits and blanket impls that forward, `JsPromise` newtype |
| `src/js/closures/common.rs` | 0/9 | — | 1-10: imports |
| `src/js/closures/node_js.rs` | 349/523 | Js, JsLife | 1-11, 55-78, 83-98, 159-185, 221-333, 467-474, 492-508, 578-585, 831-843: `Debug`, `Send`/`Sync`, aliases per arity |
| `src/js/closures/wasm.rs` | 117/182 | JsLife, Wasm | 1-15, 21-32, 50-76, 84-102, 210-213: imports, `Debug`, aliases per arity |
| `src/js/ffi_helpers.rs` | 307/343 | Js | 1-49: a note about the linker |
| `src/js/impls.rs` | 278/349 | Js, Wasm | 16-29, 66-79, 178-182, 210-222, 353-371, 387-394: forwarding impls of transparent newtypes |
| `src/js/registering.rs` | 39/47 | JsExport | 1-21: imports |
| `src/layout/_mod.rs` | 180/369 | Derive, DynGen, Generics, Headers, Layout, Opaque, Stabby | 1-58, 94-116, 222-230, 303-537, 562-827, 899-913, 935-939: documentation, the declarations of `LegacyCType` and `CType`, forwarding |
| `src/layout/impls.rs` | 784/1000 | Derive, DynGen, Generics, Headers, Js, Layout, Opaque, OpaqueBox, Stabby, Wasm | 1-14, 224-243, 441-475, 529-537, 582-588, 649-655, 709-723, 747-786, 792-802, 823-830, 881-913, 958-964, 1114-1129: macro headers, `Debug`, reference casts of `Opaque<T>` |
| `src/layout/macros.rs` | 219/399 | Derive, DocAttrs, Generics, Js, Wasm | 1-95, 228-246, 287-289, 348-463: macro plumbing; the patterns that accept `ReprC!` syntax |
| `src/layout/niche.rs` | 45/76 | Derive, Layout, Opaque, Stabby | 1-7, 29-52: imports, forwarding |
| `src/libc.rs` | 32/52 | Libc | 1-11, 26-33, 63-73: the documentation of the module, macro headers |
| `src/option.rs` | 76/104 | Derive, Layout, Markers, Opaque, Print | 26-28, 113-135: test |
| `src/proc_macro/_mod.rs` | 0/151 | — | 1-175: proc-macro entry points |
| `src/proc_macro/c_str.rs` | 42/43 | CharP | — |
| `src/proc_macro/derives/_mod.rs` | 109/120 | Derive, DocAttrs | 1-16: imports |
| `src/proc_macro/derives/c_type/_mod.rs` | 0/48 | — | 1-55: dispatch; refuses enums and unions |
| `src/proc_macro/derives/c_type/args.rs` | 0/2 | — | — |
| `src/proc_macro/derives/c_type/js.rs` | 0/1 | — | — |
| `src/proc_macro/derives/c_type/struct_.rs` | 266/322 | Derive, DocAttrs, Generics, Headers, Js | 1-53, 71-77: emission of the JavaScript and `Debug` impls |
| `src/proc_macro/derives/dyn_trait/_mod.rs` | 375/416 | Dyn, DynGen, Markers | 1-45: imports |
| `src/proc_macro/derives/dyn_trait/args.rs` | 35/65 | Dyn | 1-34: parsing of keywords |
| `src/proc_macro/derives/dyn_trait/coercions.rs` | 268/277 | Dyn, DynGen, Markers | 3-10: imports |
| `src/proc_macro/derives/dyn_trait/receiver_types.rs` | 145/149 | Dyn | — |
| `src/proc_macro/derives/dyn_trait/vtable_entry.rs` | 262/316 | Dyn, DynGen | 19-32, 86-123, 218-221: token emission of shims (their behaviour is modelled in Dyn, C35) |
| `src/proc_macro/derives/handle_fptr.rs` | 362/380 | Callback, Derive, DocAttrs | 1-8, 406-417: imports, token helper |
| `src/proc_macro/derives/repr_c/_mod.rs` | 44/55 | Derive, DocAttrs | 1-16: imports |
| `src/proc_macro/derives/repr_c/args.rs` | 37/43 | Derive | 1-8: imports |
| `src/proc_macro/derives/repr_c/enum_.rs` | 317/319 | Derive, DocAttrs, Headers, Layout | — |
| `src/proc_macro/derives/repr_c/js.rs` | 0/1 | — | — |
| `src/proc_macro/derives/repr_c/struct_.rs` | 506/508 | Derive, DocAttrs, Generics, Headers, Layout, Opaque, Stabby | — |
| `src/proc_macro/ffi_export/_mod.rs` | 26/34 | DocAttrs, Export | 1-11: dispatch on the kind of item |
| `src/proc_macro/ffi_export/const_.rs` | 92/105 | Export, Headers | 1-16: imports, token emission |
| `src/proc_macro/ffi_export/fn_/args.rs` | 93/100 | Export | 37-42: imports |
| `src/proc_macro/ffi_export/fn_/async_fn.rs` | 261/286 | DocAttrs, Export, Js, JsExport | 1-10, 334-350: imports, token helper |
| `src/proc_macro/ffi_export/fn_/mod.rs` | 353/359 | DocAttrs, Export, Headers, Js, JsExport, Opaque, Shim, Wasm | 1-7: imports |
| `src/proc_macro/ffi_export/static_.rs` | 8/9 | Export | — |
| `src/proc_macro/ffi_export/type_.rs` | 32/33 | Export, Headers | — |
| `src/proc_macro/utils/_mod.rs` | 113/235 | DocAttrs, Generics, JsExport | 1-25, 80-142, 186-210, 240-264: token helpers |
| `src/proc_macro/utils/extension_traits.rs` | 0/99 | — | 1-112: token helpers |
| `src/proc_macro/utils/macros.rs` | 0/413 | Dyn | 1-453: token helpers |
| `src/proc_macro/utils/mb_file_expanded.rs` | 0/60 | — | 1-66: writes expansions to a file for error messages |
| `src/proc_macro/utils/trait_impl_shenanigans.rs` | 33/59 | Derive, Generics, Opaque | 1-28: token helpers |
| `src/ptr.rs` | 110/196 | Dyn, Layout, Markers, OpaqueBox, Owned, Print | 71-84, 98-105, 115-172, 214-222: raw casts, `Send`/`Sync`, `Debug` |
| `src/shared_cstr.rs` | 136/145 | CharP, Markers, Print | 1-7, 9-11: imports, `Debug` |
| `src/slice.rs` | 433/594 | Js, Markers, Owned, Print | 1-15, 59-92, 381-390, 430-456, 551-567, 588-591, 601-620, 641-644, 654-675, 695-698, 708-717, 737-739: raw casts, `Send`/`Sync`, `Debug`, documentation |
| `src/stabby/_mod.rs` | 7/33 | Stabby | 1-44, 55-57: imports, documentation |
| `src/stabby/boxed_impl.rs` | 23/52 | Stabby | 1-5, 7-14, 19-23, 27-32, 39-43, 48-51: imports, impl headers |
| `src/stabby/fatptr_impl.rs` | 56/78 | Stabby | 1-9, 21-25, 31-33, 42-46: imports, impl headers |
| `src/stabby/sync_impl.rs` | 33/78 | Stabby | 1-4, 6-13, 18-22, 26-31, 38-42, 47-52, 57-61, 65-70, 75-79: imports, impl headers |
| `src/string/_mod.rs` | 77/95 | Markers, Owned, Print | 1-13, 93-97, 123-126: `Debug`, forwarding |
| `src/string/slice.rs` | 113/180 | Markers, Owned, Print | 1-4, 41-60, 73-84, 160-182, 194-202: `Debug`/`Display`, forwarding |
| `src/tuple.rs` | 43/131 | Headers, Layout, Stabby | 20-23, 62-153: the tuple structs (instances of the struct model) |
| `src/utils/_mod.rs` | 42/49 | Layout, Names, Stabby | 1-10: imports |
| `src/utils/macros.rs` | 0/245 | — | 1-297: token macros |
| `src/utils/markers.rs` | 7/40 | Markers | 1-12, 21-44: marker types |
| `src/utils/prelude.rs` | 0/56 | — | 1-64: imports |
| `src/vec.rs` | 159/174 | Js, Markers, Owned, Print | 1-5, 182-184, 196-199: imports, `Debug`, `Extend` |

Across all files:

* Parsing of Rust syntax by `syn` and construction of tokens by `quote` are trusted. Macros are modelled by their
  decisions and by the behaviour of the code they emit, starting from a parsed item.
* The instruction-level behaviour of `unsafe` code (provenance, aliasing rules, alignment faults) is not modelled. Memory
  is a set of allocations with numeric addresses and contents, or a table of objects with reference counts.
* The standard library, `napi`, `wasm-bindgen`, `stabby`, `inventory`, tokio and `futures` enter as the contract
  stated in the comment of the definition that stands for them.
* C, C++ and C# compilers enter as the fragments of their type and name rules in `Headers/*Spec.lean`; the JavaScript
  engine as the value model in `Js`, `Wasm` and `JsLife`.
* Out of scope: `Debug` and `Display` output, documentation, examples, tests, build scripts, and the templates of
  `ffi_tests`.
