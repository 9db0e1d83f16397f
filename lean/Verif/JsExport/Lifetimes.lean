/-!
# Lifetimes of the parameters of JavaScript exports: model

The syntax trees of parameter types and the three visitors that rewrite their lifetimes:
`RemapNonStaticLifetimesTo` (/repo/src/proc_macro/utils/_mod.rs), `__make_all_lifetimes_static`
(/repo/napi-dispatcher/js_export_common.rs) and `replace_lifetimes`
(/repo/napi-dispatcher/wasm/src/proc_macros/mod.rs); and the places where the expansions of
`#[ffi_export(js)]` put the rewritten types, with the lifetime rules of Rust that those places check.
-/
namespace Verif.JsExport

/-- A lifetime as written: `'static`, `'a`, `'_`. (`syn::Lifetime`, compared by its identifier in
/repo/src/proc_macro/utils/_mod.rs lines 147-158.) -/
inductive Lt
  | static
  | named (a : String)
  | anon
deriving DecidableEq, Repr

/-- Kinds of syntax nodes that the visitors or the lifetime rules tell apart.
* `angle name hidden`: a path segment with its `<…>` arguments (`PathArguments::AngleBracketed` or `None`);
  `hidden`: the type has lifetime parameters that are not written (`char_p::Ref` for `char_p::Ref<'_>`).
* `paren name`: the `Fn(…) -> …` sugar (`PathArguments::Parenthesized`).
* `fnPtr`: a function pointer type `fn(…) -> …` (`Type::BareFn`).
* `other`: tuples, slices, arrays, raw pointers, `dyn A + 'a`: visited child by child. -/
inductive Kind
  | angle (name : String) (hidden : Bool)
  | paren (name : String)
  | fnPtr
  | other (name : String)
deriving DecidableEq, Repr

/-- The syntax tree of a type (`syn::Type`), reduced to what matters to lifetimes.
* `lt`: a lifetime in an argument list or a bound;
* `ref`: `&'l T` or `&T`;
* `bind`: `for<'a, 'b> …` around a function pointer or a bound. -/
inductive Tree
  | lt (l : Lt)
  | ref (l : Option Lt) (t : Tree)
  | bind (vars : List Lt) (t : Tree)
  | node (k : Kind) (cs : List Tree)
deriving Repr

/-- /repo/src/proc_macro/utils/_mod.rs lines 147-158 (`visit_lifetime_mut`): every lifetime but `'static`. -/
def remapLt (new : Lt) : Lt → Lt
  | .static => .static
  | _ => new

mutual
/-- /repo/src/proc_macro/utils/_mod.rs lines 144-184, `RemapNonStaticLifetimesTo { new_lt_name }`: lifetimes
(lines 147-158), also those of `for<…>` (the default traversal of `syn`), references (lines 160-174: an elided
lifetime becomes the new one), and `Fn(…)` arguments, which are skipped (lines 176-183). `fn(…)` pointers are
`syn`'s `TypeBareFn`, for which the default traversal is kept. -/
def remap (new : Lt) : Tree → Tree
  | .lt l => .lt (remapLt new l)
  | .ref l t => .ref (some (match l with | none => new | some l => remapLt new l)) (remap new t)
  | .bind vars t => .bind (vars.map (remapLt new)) (remap new t)
  | .node k cs =>
    match k with
    | .paren n => .node (.paren n) cs
    | k => .node k (remapAll new cs)
/-- The children, in order. -/
def remapAll (new : Lt) : List Tree → List Tree
  | [] => []
  | t :: ts => remap new t :: remapAll new ts
end

mutual
/-- /repo/napi-dispatcher/js_export_common.rs lines 1-34, `__make_all_lifetimes_static`: every lifetime, everywhere. -/
def makeStatic : Tree → Tree
  | .lt _ => .lt .static
  | .ref _ t => .ref (some .static) (makeStatic t)
  | .bind vars t => .bind (vars.map fun _ => .static) (makeStatic t)
  | .node k cs => .node k (makeStaticAll cs)
/-- The children, in order. -/
def makeStaticAll : List Tree → List Tree
  | [] => []
  | t :: ts => makeStatic t :: makeStaticAll ts
end

/-- `GenericArgument::Lifetime(_)`: /repo/napi-dispatcher/wasm/src/proc_macros/mod.rs lines 97-100. -/
def isLt : Tree → Bool
  | .lt _ => true
  | _ => false

mutual
/-- /repo/napi-dispatcher/wasm/src/proc_macros/mod.rs lines 73-121, the visitor of `replace_lifetimes`: lifetime
arguments of paths are removed (lines 76-108; `Fn(…)` arguments are only visited), and those of references
(lines 110-119). -/
def strip : Tree → Tree
  | .lt l => .lt l
  | .ref _ t => .ref none (strip t)
  | .bind vars t => .bind vars (strip t)
  | .node k cs =>
    match k with
    | .angle n h => .node (.angle n h) ((stripAll cs).filter fun t => !isLt t)
    | k => .node k (stripAll cs)
/-- The children, in order. -/
def stripAll : List Tree → List Tree
  | [] => []
  | t :: ts => strip t :: stripAll ts
end

/-- A signature as `replace_lifetimes` sees it: the generic lifetimes and type parameters, the types. -/
structure Sig where
  lifetimes : List String
  generics : List String
  params : List Tree
deriving Repr

/-- /repo/napi-dispatcher/wasm/src/proc_macros/mod.rs lines 71-138, `replace_lifetimes`: the types are rewritten
(line 121), and the generic lifetimes removed (lines 126-137). -/
def replaceLifetimes (s : Sig) : Sig :=
  { s with lifetimes := [], params := stripAll s.params }

/-! ## Where the types go -/

/-- Places a type is written in, and what an elided lifetime means there: an error in a `type` alias, a fresh
lifetime in the signature of a function, an inferred one in its body. -/
inductive Place
  | alias_
  | signature
  | body
deriving DecidableEq, Repr

/-- Whether a lifetime may be left out at this place. -/
def Place.elides : Place → Bool
  | .alias_ => false
  | _ => true

/-- Named lifetimes of a list. -/
def names : List Lt → List String
  | [] => []
  | .named a :: ls => a :: names ls
  | _ :: ls => names ls

/-- A lifetime in scope: Rust's rule (E0261 for undeclared names, E0106/E0637 for `'_` where it cannot be elided). -/
def Lt.declared (elides : Bool) (Γ : List String) : Lt → Bool
  | .static => true
  | .named a => Γ.contains a
  | .anon => elides

mutual
/-- Rust's lifetime name resolution in a type: `elides`, whether elision is allowed; `Γ`, the declared names. Inside
`Fn(…)` and `fn(…)`, elided lifetimes are those of the callee: allowed. `for<…>` declares new distinct names (E0262
for `'static`, E0403/E0496 for names used already). -/
def resolves (elides : Bool) (Γ : List String) : Tree → Bool
  | .lt l => l.declared elides Γ
  | .ref l t => (match l with | none => elides | some l => l.declared elides Γ) && resolves elides Γ t
  | .bind vars t =>
    vars.all (fun l => match l with | .named a => !Γ.contains a | _ => false)
    && (names vars).eraseDups.length == vars.length
    && resolves elides (names vars ++ Γ) t
  | .node k cs =>
    match k with
    | .angle _ hidden => (!hidden || elides) && resolvesAll elides Γ cs
    | .paren _ => resolvesAll true Γ cs
    | .fnPtr => resolvesAll true Γ cs
    | .other _ => resolvesAll elides Γ cs
/-- All of them. -/
def resolvesAll (elides : Bool) (Γ : List String) : List Tree → Bool
  | [] => true
  | t :: ts => resolves elides Γ t && resolvesAll elides Γ ts
end

/-- A lifetime that outlives everything: `'static`, or one bound by a `for<…>` of the type. -/
def Lt.longLived (bound : List String) : Lt → Bool
  | .static => true
  | .named a => bound.contains a
  | .anon => false

mutual
/-- `T : 'static`, Rust's outlives rule on types: no lifetime occurs but `'static` and those bound inside the type.
`hr`: inside `Fn(…)`/`fn(…)`, where an elided lifetime is bound by the type itself. -/
def outlives (hr : Bool) (bound : List String) : Tree → Bool
  | .lt l => l.longLived bound || (hr && l == .anon)
  | .ref l t => (match l with | none => hr | some l => l.longLived bound || (hr && l == .anon)) && outlives hr bound t
  | .bind vars t => outlives hr (names vars ++ bound) t
  | .node k cs =>
    match k with
    | .angle _ hidden => (!hidden || hr) && outlivesAll hr bound cs
    | .paren _ => outlivesAll true bound cs
    | .fnPtr => outlivesAll true bound cs
    | .other _ => outlivesAll hr bound cs
/-- All of them. -/
def outlivesAll (hr : Bool) (bound : List String) : List Tree → Bool
  | [] => true
  | t :: ts => outlives hr bound t && outlivesAll hr bound ts
end

/-- /repo/src/proc_macro/ffi_export/fn_/async_fn.rs lines 201-204: the lifetime of the `i`-th parameter. -/
def captureLt (i : Nat) : String :=
  "use_stmts_before_ffi_await_to_compute_owned_captures_" ++ toString i

/-- /repo/src/proc_macro/ffi_export/fn_/async_fn.rs line 283: the generic lifetimes of the inner function. -/
def captureLts (n : Nat) : List String := (List.range n).map captureLt

/-- /repo/src/proc_macro/ffi_export/fn_/async_fn.rs lines 195-217: `EachArgTyBounded`. -/
def bounded (i : Nat) (t : Tree) : Tree := remap (.named (captureLt i)) t

/-- The lifetime checks on the `i`-th of `n` parameters of `#[ffi_export(js, executor = …)] async fn`:
* /repo/src/proc_macro/ffi_export/fn_/async_fn.rs lines 189-194 and 268-275: the alias of the remapped type;
* lines 283-288 and 195-217: the signature of the inner function;
* lines 298-311: the type as written, in the body of `__js`, whose generics are dropped by `js_export`
  (/repo/napi-dispatcher/nodejs-derive/src/proc_macros/mod.rs lines 101-106,
  /repo/napi-dispatcher/wasm/src/proc_macros/mod.rs lines 126-137). -/
def asyncParamOk (n i : Nat) (t : Tree) : Bool :=
  resolves Place.alias_.elides [] (remap .static t)
  && resolves Place.signature.elides (captureLts n) (bounded i t)
  && resolves Place.body.elides [] t

/-- The checks on all parameters, from the `i`-th on. -/
def asyncParamsOk (n : Nat) : Nat → List Tree → Bool
  | _, [] => true
  | i, t :: ts => asyncParamOk n i t && asyncParamsOk n (i + 1) ts

/-- Whether the `i`-th parameter may be captured by the future handed to `JsPromise::spawn`, which must be `'static`
(/repo/src/js/_mod.rs line 228; /repo/src/proc_macro/ffi_export/fn_/async_fn.rs lines 290-295). -/
def capturable (i : Nat) (t : Tree) : Bool := outlives false [] (bounded i t)

/-- Whether `#[ffi_export(js, executor = …)] async fn` compiles, as far as lifetimes are concerned, for these parameters
when the future captures the parameters marked in `captured`. -/
def asyncOk (params : List Tree) (captured : List Nat) : Bool :=
  asyncParamsOk params.length 0 params
  && captured.all fun i => match params[i]? with
    | some t => capturable i t
    | none => false

/-- The same for `#[ffi_export(js(async_worker))] fn`, whose call is moved to a worker thread: the aliases of
/repo/src/proc_macro/ffi_export/fn_/mod.rs lines 215-256, the remapped types in the body (lines 272-279) and in
`__assert_send` (line 299). All parameters are captured (lines 293-310), as raw C values. -/
def workerOk (params : List Tree) : Bool :=
  params.all fun t => resolves Place.alias_.elides [] (remap .static t) && resolves Place.body.elides [] (remap .static t)

end Verif.JsExport
