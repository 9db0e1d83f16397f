/-!
# JavaScript exports and their registration: model

`#[js_export]` on Node.js (/repo/napi-dispatcher/nodejs-derive/src/proc_macros/mod.rs), its attributes
(/repo/napi-dispatcher/js_export_common.rs) and the registration of the module (/repo/src/js/registering.rs).
-/
namespace Verif.JsExport

/-! ## Attributes -/

/-- Tokens of the attribute: identifiers that are not keywords of Rust, `=`, `,`, and anything else. -/
inductive Tok
  | ident (s : String)
  | eq
  | comma
  | other
deriving DecidableEq, Repr

/-- /repo/napi-dispatcher/js_export_common.rs lines 36-39. -/
structure Attrs where
  jsName : Option String := none
  skipNapiImport : Bool := false
deriving DecidableEq, Repr

/-- /repo/napi-dispatcher/js_export_common.rs line 68: an optional comma. -/
def dropComma : List Tok → List Tok
  | .comma :: ts => ts
  | ts => ts

theorem dropComma_length (ts : List Tok) : (dropComma ts).length ≤ ts.length := by
  unfold dropComma; split <;> simp

/-- /repo/napi-dispatcher/js_export_common.rs lines 41-75, the loop over the attributes; `none` is a compile error. -/
def parseAttrs (a : Attrs) : List Tok → Option Attrs
  | [] => some a
  | .ident "js_name" :: .eq :: .ident n :: ts =>
    -- lines 54-61: `replace`, then the error if there was one already
    if a.jsName.isSome then none else parseAttrs { a with jsName := some n } (dropComma ts)
  | .ident "__skip_napi_import" :: ts =>
    -- lines 62-65
    parseAttrs { a with skipNapiImport := true } (dropComma ts)
  | _ => none
termination_by ts => ts.length
decreasing_by all_goals (have := dropComma_length ts; simp; omega)

/-! ## Functions -/

/-- Patterns of parameters: identifiers, anything else, or a `self` receiver. -/
inductive Pat
  | ident (s : String)
  | other
  | receiver
deriving DecidableEq, Repr

/-- An annotated function: its attributes, name, parameters, and its body as a function of its variables (innermost
binding first). `V`: JavaScript values. Simplification: the types of the parameters do not appear (`ctx.get` does not
check them, see C66 for the conversions). -/
structure Fun (V : Type) where
  attrs : List Tok
  name : String
  params : List Pat
  body : List (String × V) → Except String V

/-- /repo/src/js/registering.rs lines 22-27: a registered method, called with the array of its arguments. -/
structure Entry (V : Type) where
  name : String
  method : List V → Except String V

/-- /repo/napi-dispatcher/nodejs-derive/src/proc_macros/mod.rs lines 41-62: patterns that are refused. -/
def unsupported : Pat → Bool
  | .ident _ => false
  | _ => true

/-- napi-rs' `CallContext::get(i)` in a function declared with enough arguments: the `i`-th argument of the call, `undefined`
when it is missing (Node.js fills the array of arguments; trusted). -/
def ctxGet {V : Type} (undef : V) (args : List V) (i : Nat) : V := args[i]?.getD undef

/-- /repo/napi-dispatcher/nodejs-derive/src/proc_macros/mod.rs lines 65-79: the statements `let x = ctx.get(i)?;` put
before the body, in order. -/
def bindParams {V : Type} (undef : V) (args : List V) : Nat → List Pat → List (String × V) → List (String × V)
  | _, [], env => env
  | i, .ident x :: ps, env => bindParams undef args (i + 1) ps ((x, ctxGet undef args i) :: env)
  | i, _ :: ps, env => bindParams undef args (i + 1) ps env

/-- /repo/napi-dispatcher/nodejs-derive/src/proc_macros/mod.rs lines 32-118: the entry submitted for a function; `none` is a
compile error. -/
def expand {V : Type} (undef : V) (f : Fun V) : Option (Entry V) :=
  match parseAttrs {} f.attrs with
  | none => none
  | some a =>
    if f.params.any unsupported then none
    else some
      { -- lines 85-86, 110
        name := a.jsName.getD f.name
        -- lines 99-106
        method := fun args => f.body (bindParams undef args 0 f.params []) }

/-- All annotated functions of a program. -/
def expandAll {V : Type} (undef : V) : List (Fun V) → Option (List (Entry V))
  | [] => some []
  | f :: fs =>
    match expand undef f, expandAll undef fs with
    | some e, some es => some (e :: es)
    | _, _ => none

/-- The `exports` object: a function of property names. -/
abbrev Exports (V : Type) := String → Option (List V → Except String V)

/-- `exports.create_named_method(name, method)`: sets the property, unless Node.js refuses. -/
def createNamedMethod {V : Type} (refuse : String → Bool) (x : Exports V) (e : Entry V) : Except Unit (Exports V) :=
  if refuse e.name then .error ()
  else .ok fun n => if n = e.name then some e.method else x n

/-- /repo/src/js/registering.rs lines 44-50: the loop over the registry; the result of each registration is dropped
(`let _ =`). -/
def registerAll {V : Type} (refuse : String → Bool) : List (Entry V) → Exports V → Exports V
  | [], x => x
  | e :: es, x => registerAll refuse es (match createNamedMethod refuse x e with | .ok x' => x' | .error () => x)

/-- /repo/src/js/registering.rs lines 33-67, `napi_register_module_v1`: the closure never fails (lines 43-51), so that the
module is always loaded (line 53). `order`: the registry, in the order chosen by the linker. -/
def load {V : Type} (refuse : String → Bool) (order : List (Entry V)) : Option (Exports V) :=
  match (Except.ok (registerAll refuse order fun _ => none) : Except String (Exports V)) with
  | .ok x => some x
  | .error _ => none

end Verif.JsExport
