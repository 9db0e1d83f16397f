/-!
# The parameters of `#[ffi_export]`, and what it exports

Model of `src/proc_macro/ffi_export/fn_/args.rs`, of the decisions of `handle` in
`src/proc_macro/ffi_export/fn_/mod.rs` and of `export` in `src/proc_macro/ffi_export/fn_/async_fn.rs`, and of the
parameters of constants (`/repo/src/proc_macro/ffi_export/const_.rs`), and the dispatch on the annotated item. What the exported functions do is modelled in `Verif.Shim` and `Verif.Js`.
-/
namespace Verif.Export

/-- Tokens (proc_macro). Simplification: the expression after `executor =` is one token, `expr`; how `syn`
delimits it is not modelled. `isIdent`: the contents of the string literal are an identifier. -/
inductive Tok
  | ident (s : String)
  | eq
  | comma
  | str (s : String) (isIdent : Bool)
  | paren (ts : List Tok)
  | expr (e : Nat)
  | other

/-- src/proc_macro/ffi_export/fn_/args.rs lines 3-35. `js`: whether `async_worker` was given. -/
structure Args where
  executor : Option Nat := none
  js : Option Bool := none
  rename : Option String := none
  deriving DecidableEq, Repr

/-- `let _: Option<Token![,]> = input.parse()?`, src/proc_macro/ffi_export/fn_/args.rs lines 74, 105. -/
def skipComma : List Tok → List Tok
  | .comma :: ts => ts
  | ts => ts

theorem skipComma_length (ts : List Tok) : (skipComma ts).length ≤ ts.length := by
  cases ts with
  | nil => exact Nat.le_refl _
  | cons t ts => cases t <;> simp [skipComma]

/-- The contents of the parentheses after `js`, src/proc_macro/ffi_export/fn_/args.rs lines 71-77. That they must end there is checked by
`syn`. -/
def parseWorker (ts : List Tok) : Option Bool :=
  match ts with
  | [] => some false
  | .ident s :: rest => if s = "async_worker" ∧ (skipComma rest).isEmpty then some true else none
  | _ => none

/-- One parameter and the rest of the input, src/proc_macro/ffi_export/fn_/args.rs lines 51-104. `none`: a compilation error. -/
def parseOne (ret : Args) : List Tok → Option (Args × List Tok)
  | .ident s :: rest =>
      if s = "executor" then
        if ret.executor.isSome then none
        else match rest with
          | .eq :: .expr e :: rest => some ({ ret with executor := some e }, rest)
          | _ => none
      else if s = "js" then
        if ret.js.isSome then none
        else match rest with
          | .paren ts :: rest => match parseWorker ts with
            | some w => some ({ ret with js := some w }, rest)
            | none => none
          | rest => some ({ ret with js := some false }, rest)
      else if s = "rename" then
        if ret.rename.isSome then none
        else match rest with
          | .eq :: .str name true :: rest => some ({ ret with rename := some name }, rest)
          | _ => none
      else none
  | _ => none

theorem parseOne_length {ret ret' : Args} {ts ts' : List Tok} (h : parseOne ret ts = some (ret', ts')) : ts'.length < ts.length := by
  unfold parseOne at h
  repeat' split at h
  all_goals first
    | (simp only [Option.some.injEq, Prod.mk.injEq] at h; rw [← h.2]; simp; try omega)
    | simp at h

/-- The loop, src/proc_macro/ffi_export/fn_/args.rs lines 50-107. -/
def parseGo (ret : Args) (ts : List Tok) : Option Args :=
  match ts with
  | [] => some ret
  | t :: ts =>
      match h : parseOne ret (t :: ts) with
      | some (ret', rest) => parseGo ret' (skipComma rest)
      | none => none
  termination_by ts.length
  decreasing_by exact Nat.lt_of_le_of_lt (skipComma_length rest) (parseOne_length h)

/-- `impl Parse for Args`, src/proc_macro/ffi_export/fn_/args.rs lines 44-109. -/
def parseArgs (ts : List Tok) : Option Args := parseGo {} ts

/-- The loop of the parameters of a constant, src/proc_macro/ffi_export/const_.rs lines 24-39. `untyped`:
given or not. -/
def parseConstGo (untyped : Bool) : List Tok → Option Bool
  | [] => some untyped
  | .ident s :: .comma :: rest => if s = "untyped" ∧ !untyped then parseConstGo true rest else none
  | .ident s :: rest => if s = "untyped" ∧ !untyped then parseConstGo true rest else none
  | _ :: _ => none

/-- `impl Parse for Args`, src/proc_macro/ffi_export/const_.rs lines 18-42. -/
def parseConst (ts : List Tok) : Option Bool := parseConstGo false ts

/-! ### What is exported -/

/-- Cargo features: src/proc_macro/ffi_export/fn_/mod.rs lines 30, 191, 349. -/
structure Features where
  headers : Bool
  js : Bool
  asyncFn : Bool
  deriving DecidableEq, Repr

/-- An annotated function. `abi`: `extern "…"`, if written with a name (`some none`: `extern` alone).
`awaits`: its body ends with `ffi_await!(…)` (src/proc_macro/ffi_export/fn_/async_fn.rs lines 57-128). -/
structure Fn where
  name : String
  isAsync : Bool
  abi : Option (Option String)
  receiver : Bool
  awaits : Bool
  deriving DecidableEq, Repr

/-- What is called by C and JavaScript. -/
inductive JsKind
  | sync
  /-- `js(async_worker)` -/
  | worker
  /-- an `async fn` -/
  | promise
  deriving DecidableEq, Repr

/-- The items that the macro adds. `c`: the symbol of the exported function; `header`: its name in the headers;
`js`: its name in JavaScript. Simplification: not on wasm, where there are neither symbols nor headers. -/
structure Exports where
  c : Option String := none
  header : Option String := none
  js : Option (String × JsKind) := none
  deriving DecidableEq, Repr

/-- `SUPPORTED_ABIS`, src/proc_macro/ffi_export/fn_/mod.rs lines 9-11. -/
def supportedAbis : List String := ["C"]

/-- src/proc_macro/ffi_export/fn_/mod.rs lines 67-79: an ABI that is not supported. -/
def badAbi : Option (Option String) → Bool
  | some (some abi) => !supportedAbis.contains abi
  | _ => false

/-- `handle` once `async fn`s are dealt with: src/proc_macro/ffi_export/fn_/mod.rs lines 44-418. -/
def handleSync (F : Features) (args : Args) (f : Fn) : Option Exports :=
  -- lines 44-56
  let name := args.rename.getD f.name
  -- lines 67-86
  if badAbi f.abi then none
  -- lines 88-92
  else if f.receiver then none
  else some {
    -- lines 166-170
    c := some name
    -- lines 349-416
    header := if F.headers then some name else none
    -- lines 191-337
    js := if F.js then args.js.map fun worker => (name, if worker then .worker else .sync) else none }

/-- src/proc_macro/ffi_export/fn_/async_fn.rs lines 12-332. -/
def exportAsync (F : Features) (args : Args) (f : Fn) : Option Exports :=
  -- lines 18-34
  if !(args.executor.isSome && f.isAsync) then none
  -- lines 47-129
  else if !f.awaits then none
  -- lines 133-315
  else if F.js then
    match args.js with
    | none => some {}
    -- `unimplemented!("self receivers")`, line 174; `async_worker` is not looked at
    | some _ => if f.receiver then none else some { js := some (args.rename.getD f.name, .promise) }
  -- lines 316-330: `#[ffi_export]` again, without parameters, on a function that is not `async`
  else handleSync F {} { f with isAsync := false }

/-- `handle`, src/proc_macro/ffi_export/fn_/mod.rs lines 21-42. -/
def handle (F : Features) (args : Args) (f : Fn) : Option Exports :=
  if args.executor.isSome || f.isAsync then
    if F.asyncFn then exportAsync F args f else none
  else handleSync F args f

/-- `ffi_export`, src/proc_macro/ffi_export/_mod.rs line 34. -/
def ffiExport (F : Features) (ts : List Tok) (f : Fn) : Option Exports :=
  match parseArgs ts with
  | some args => handle F args f
  | none => none

/-- An annotated item (`syn::Item`). `generics`: it has generic parameters; `where_`: it has a `where` clause. -/
inductive Item
  | struct (name : String) (generics where_ : Bool)
  | enum (name : String) (generics where_ : Bool)
  | fn (f : Fn)
  | const (name : String)
  | static (name : String)
  | other
  deriving DecidableEq, Repr

/-- `type_::handle`, src/proc_macro/ffi_export/type_.rs lines 3-35. `parse::Nothing` accepts no parameters. The name
is that of the type; what the headers then define is the C type (`Verif.Headers`). -/
def handleType (F : Features) (ts : List Tok) (name : String) (generics where_ : Bool) : Option Exports :=
  if !ts.isEmpty then none
  else if generics then none
  else if where_ then none
  else some { header := if F.headers then some name else none }

/-- `const_::handle`, src/proc_macro/ffi_export/const_.rs lines 45-119, with whether the type is left out. -/
def handleConst (F : Features) (ts : List Tok) (name : String) : Option (Exports × Bool) :=
  match parseConst ts with
  | none => none
  | some untyped => some ({ header := if F.headers then some name else none }, F.headers && untyped)

/-- `ffi_export`, src/proc_macro/ffi_export/_mod.rs lines 13-39, with whether the type of a constant is left out.
`static`: `todo!`, a panic of the macro, src/proc_macro/ffi_export/static_.rs lines 3-10. -/
def exportItem (F : Features) (ts : List Tok) : Item → Option (Exports × Bool)
  | .struct name g w => (handleType F ts name g w).map (·, false)
  | .enum name g w => (handleType F ts name g w).map (·, false)
  | .fn f => (ffiExport F ts f).map (·, false)
  | .const name => handleConst F ts name
  | .static _ => none
  | .other => none

end Verif.Export
