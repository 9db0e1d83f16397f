#!/usr/bin/env python3
"""Writes section 6 of DESIGN.md: per file, the lines cited by the model and what is in the others."""
import re,os,subprocess
R={
"napi-dispatcher/dispatcher.rs":"choice between the Node.js and wasm crates",
"napi-dispatcher/js_export_common.rs":"",
"napi-dispatcher/nodejs-derive/src/lib.rs":"proc-macro entry point",
"napi-dispatcher/nodejs-derive/src/proc_macros/mod.rs":"imports and parsing",
"napi-dispatcher/wasm/src/env.rs":"signatures",
"napi-dispatcher/wasm/src/lib.rs":"module wiring, `CallContext` accessors",
"napi-dispatcher/wasm/src/proc_macros/mod.rs":"imports and parsing",
"napi-dispatcher/wasm/src/utils.rs":"helper macros, forwarding impls",
"napi-dispatcher/wasm/src/values.rs":"`JsFunction::call`, `JsPromise::__resolve`, `cast`",
"src/_lib.rs":"re-exports, `cfg` macros, documentation",
"src/boxed.rs":"`Debug`, type aliases, `FitForCBox`",
"src/bytes.rs":"imports, `Send`/`Sync` impls, `Debug`, the crate's own tests",
"src/c_char.rs":"compile-time type checks, `Debug`",
"src/char_p.rs":"`Debug`/`Display`, `Send`/`Sync`, transmutes of `char_p_raw`, documentation",
"src/closure/arc.rs":"`Send`/`Sync`, `Debug`, aliases per arity (the model has one arity-generic closure)",
"src/closure/borrowed.rs":"as arc.rs",
"src/closure/boxed.rs":"as arc.rs",
"src/closure/mod.rs":"re-exports",
"src/dyn_traits/_mod.rs":"trait declarations, raw parts accessors, `Send`/`Sync`, `Debug`",
"src/dyn_traits/dyn_drop.rs":"`DynDrop`: a trait without methods",
"src/dyn_traits/futures/_mod.rs":"imports",
"src/dyn_traits/futures/executor.rs":"trait declaration, tokio's handle (a foreign implementation)",
"src/dyn_traits/futures/tests.rs":"tests",
"src/headers/_mod.rs":"documentation, the helpers of the module `__define_fn__`, which nothing calls (exports call the function of that name, hence `emit_function`, which is modelled)",
"src/headers/definer.rs":"trait declaration, documentation",
"src/headers/languages/c.rs":"imports",
"src/headers/languages/csharp.rs":"imports",
"src/headers/languages/mod.rs":"indentation helper, `PhantomCType` forwarding, upcasts",
"src/headers/languages/python.rs":"",
"src/js/_mod.rs":"traits and blanket impls that forward, `JsPromise` newtype",
"src/js/closures/common.rs":"imports",
"src/js/closures/node_js.rs":"`Debug`, `Send`/`Sync`, aliases per arity",
"src/js/closures/wasm.rs":"imports, `Debug`, aliases per arity",
"src/js/ffi_helpers.rs":"a note about the linker",
"src/js/impls.rs":"forwarding impls of transparent newtypes",
"src/js/registering.rs":"imports",
"src/layout/_mod.rs":"documentation, the declarations of `LegacyCType` and `CType`, forwarding",
"src/layout/impls.rs":"macro headers, `Debug`, reference casts of `Opaque<T>`",
"src/layout/macros.rs":"macro plumbing; the patterns that accept `ReprC!` syntax",
"src/layout/niche.rs":"imports, forwarding",
"src/libc.rs":"the documentation of the module, macro headers",
"src/option.rs":"test",
"src/proc_macro/_mod.rs":"proc-macro entry points",
"src/proc_macro/c_str.rs":"",
"src/proc_macro/derives/_mod.rs":"imports",
"src/proc_macro/derives/c_type/_mod.rs":"dispatch; refuses enums and unions",
"src/proc_macro/derives/c_type/struct_.rs":"emission of the JavaScript and `Debug` impls",
"src/proc_macro/derives/dyn_trait/_mod.rs":"imports",
"src/proc_macro/derives/dyn_trait/args.rs":"parsing of keywords",
"src/proc_macro/derives/dyn_trait/coercions.rs":"imports",
"src/proc_macro/derives/dyn_trait/receiver_types.rs":"",
"src/proc_macro/derives/dyn_trait/vtable_entry.rs":"token emission of shims (their behaviour is modelled in Dyn, C35)",
"src/proc_macro/derives/handle_fptr.rs":"imports, token helper",
"src/proc_macro/derives/repr_c/_mod.rs":"imports",
"src/proc_macro/derives/repr_c/args.rs":"imports",
"src/proc_macro/derives/repr_c/enum_.rs":"",
"src/proc_macro/derives/c_type/args.rs":"a re-export","src/proc_macro/derives/c_type/js.rs":"empty","src/proc_macro/derives/repr_c/js.rs":"empty",
"src/proc_macro/derives/repr_c/struct_.rs":"imports",
"src/proc_macro/ffi_export/_mod.rs":"dispatch on the kind of item",
"src/proc_macro/ffi_export/const_.rs":"imports, token emission",
"src/proc_macro/ffi_export/fn_/args.rs":"imports",
"src/proc_macro/ffi_export/fn_/async_fn.rs":"imports, token helper",
"src/proc_macro/ffi_export/fn_/mod.rs":"imports",
"src/proc_macro/ffi_export/static_.rs":"always refuses",
"src/proc_macro/ffi_export/type_.rs":"refuses generics and `where`",
"src/proc_macro/utils/_mod.rs":"token helpers",
"src/proc_macro/utils/extension_traits.rs":"token helpers",
"src/proc_macro/utils/macros.rs":"token helpers",
"src/proc_macro/utils/mb_file_expanded.rs":"writes expansions to a file for error messages",
"src/proc_macro/utils/trait_impl_shenanigans.rs":"token helpers",
"src/ptr.rs":"raw casts, `Send`/`Sync`, `Debug`",
"src/shared_cstr.rs":"imports, `Debug`",
"src/slice.rs":"raw casts, `Send`/`Sync`, `Debug`, documentation",
"src/stabby/_mod.rs":"imports, documentation",
"src/stabby/boxed_impl.rs":"imports, impl headers",
"src/stabby/fatptr_impl.rs":"imports, impl headers",
"src/stabby/sync_impl.rs":"imports, impl headers",
"src/string/_mod.rs":"`Debug`, forwarding",
"src/string/slice.rs":"`Debug`/`Display`, forwarding",
"src/tuple.rs":"the tuple structs (instances of the struct model)",
"src/utils/_mod.rs":"imports",
"src/utils/macros.rs":"token macros",
"src/utils/markers.rs":"marker types",
"src/utils/prelude.rs":"imports",
"src/vec.rs":"imports, `Debug`, `Extend`",
}
areas={}
for d,_,fs in os.walk('/verif/lean/Verif'):
    for f in fs:
        if f.endswith('.lean'):
            t=open(d+'/'+f).read()
            for p in R:
                if re.search(r'(?<![\w/])'+re.escape(p),t) or re.search(r'(?<![\w/])(/repo/)'+re.escape(p),t):
                    areas.setdefault(p,set()).add(os.path.relpath(d,'/verif/lean/Verif'))
out=subprocess.run(['python3','/verif/tools/coverage.py'],capture_output=True,text=True).stdout
rows=[]
for l in out.splitlines():
    m=re.match(r'(\S+)\s+(\d+)/\s*(\d+)\s*(.*)',l)
    p,n,t,miss=m.groups()
    if p not in R:
        print('skip',p); continue
    why=R[p]
    rows.append(f"| `{p}` | {n}/{t} | {', '.join(sorted(areas.get(p,[]))) or '—'} | {miss.replace(' ',', ') or '—'}{': '+why if why and miss else ''} |")
s=open('/verif/DESIGN.md').read()
i=s.index('## 6. ')
s=s[:i]+'''## 6. Scope: what is modelled and what is not

The table lists every Rust file of the library, its macros and its JavaScript back ends. *Lines* are the lines cited by
the comments of the model, out of all lines that are neither blank nor comments (`tools/coverage.py` counts them);
a cited line is one whose behaviour a definition describes, with the simplifications that its comment names. *Not
modelled* gives the line ranges that no definition cites, and what is in them.

| File | Lines | Areas of `lean/Verif` | Not modelled |
| --- | --- | --- | --- |
'''+'\n'.join(rows)+'''

Across all files:

* Parsing of Rust syntax by `syn` and construction of tokens by `quote` are trusted. Macros are modelled by their
  decisions and by the behaviour of the code they emit, starting from a parsed item.
* The instruction-level behaviour of `unsafe` code (provenance, aliasing rules, alignment faults) is not modelled. Memory
  is a set of allocations with numeric addresses and contents, or a table of objects with reference counts.
* The standard library, `napi`, `wasm-bindgen`, `stabby`, `inventory`, tokio and `futures` enter as the contract
  stated in the comment of the definition that stands for them.
* C, C++ and C# compilers enter as the fragments of their type and name rules in `Headers/*Spec.lean`; the JavaScript
  engine as the value model in `Js`, `Wasm` and `JsLife`.
* Out of scope: `Debug` and `Display` output, documentation, examples, tests, build scripts, and the templates of
  `ffi_tests`.
'''
open('/verif/DESIGN.md','w').write(s)
