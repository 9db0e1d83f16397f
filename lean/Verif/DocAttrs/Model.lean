import Verif.Headers.Out
/-!
# Documentation attributes

Which documentation of an item, of its fields and of its variants the macros hand to the header languages:
`extract_docs` of src/proc_macro/utils/_mod.rs, and the ways by which the attributes of an item reach it.
What is written for the documentation is the subject of Headers/Out.lean.

Not modelled: the legacy macros `ReprC!` and `CType!` (src/layout/macros.rs), which `repr(C, js)` uses with the
feature `js`; newtypes around function pointers (src/proc_macro/derives/handle_fptr.rs), which have no
documentation in a header.
-/
namespace Verif.DocAttrs
open Verif.Headers

/-- A token of an attribute. (proc_macro) A group is a single token. src/proc_macro/utils/_mod.rs 232:
`attr.tokens`. -/
inductive Tok
  | punct (c : Char) | word (s : Text) | str (s : Text) | group (s : Text)
  deriving DecidableEq, Repr

/-- The path of an attribute: whether it starts with `::`, and its segments, with whether they have generic
arguments. (syn) src/proc_macro/utils/_mod.rs 218. -/
structure Path where
  leading : Bool
  segments : List (Text × Bool)
  deriving DecidableEq, Repr

/-- `Path::is_ident`. (syn) src/proc_macro/utils/_mod.rs 218-219. -/
def Path.isIdent (p : Path) (s : Text) : Bool := !p.leading && p.segments == [(s, false)]

/-- `#[path tokens]`. (syn) src/proc_macro/utils/_mod.rs 214. -/
structure Attr where
  path : Path
  tokens : List Tok
  deriving DecidableEq, Repr

/-- An expression: its tokens. -/
abbrev Expr := List Tok

/-- The parser of expressions: what it reads, and what is left. A parameter of the model. (syn)
src/proc_macro/utils/_mod.rs 224. -/
abbrev Parse := List Tok → Option (Expr × List Tok)

/-- src/proc_macro/utils/_mod.rs 225: an optional comma. -/
def skipComma : List Tok → List Tok
  | .punct ',' :: ts => ts
  | ts => ts

/-- src/proc_macro/utils/_mod.rs 220-233: the parser of the tokens of a `doc` attribute; `none` for an error.
`Parser::parse2` refuses tokens that are left over. -/
def docExpr (P : Parse) : List Tok → Option (Option Expr)
  | .punct '=' :: ts =>
      match P ts with
      | none => none
      | some (e, rest) => if (skipComma rest).isEmpty then some (some e) else none
  | _ => some none

/-- src/proc_macro/utils/_mod.rs 212-238: `extract_docs`; `none` for an error. -/
def extractDocs (P : Parse) : List Attr → Option (List Expr)
  | [] => some []
  | a :: as =>
      if a.path.isIdent (t "doc") then
        match docExpr P a.tokens with
        | none => none
        | some none => extractDocs P as
        | some (some e) => (extractDocs P as).map (e :: ·)
      else extractDocs P as

/-- `extract_docs` of each. src/proc_macro/derives/c_type/struct_.rs 113-129; repr_c/enum_.rs 139-159. -/
def extractAll (P : Parse) : List (List Attr) → Option (List (List Expr))
  | [] => some []
  | as :: rest =>
      match extractDocs P as with
      | none => none
      | some ds => (extractAll P rest).map (ds :: ·)

/-- src/proc_macro/derives/repr_c/struct_.rs 5-11: `docs_of` -/
def docsOf (attrs : List Attr) : List Attr := attrs.filter fun a => a.path.isIdent (t "doc")

/-- A path that is an identifier. (syn) For example src/proc_macro/derives/repr_c/struct_.rs 92-97. -/
def identPath (s : Text) : Path := ⟨false, [(s, false)]⟩

/-- An attribute `#[name(args)]`. (syn) src/proc_macro/derives/repr_c/struct_.rs 92-97, ffi_export/fn_/mod.rs
61-66. -/
def listAttr (name args : Text) : Attr := ⟨identPath name, [.group args]⟩

/-- src/proc_macro/derives/_mod.rs 102-131: the first `repr` is rewritten, without `js`. What it becomes is a
parameter. -/
def rewriteRepr (args : Text) : List Attr → List Attr
  | [] => []
  | a :: as => if a.path.isIdent (t "repr") then listAttr (t "repr") args :: as else a :: rewriteRepr args as

/-- An item that is annotated with `#[ffi_export]` or `#[derive_ReprC]`, with the attributes of its fields or
variants. src/proc_macro/ffi_export/_mod.rs 14-39; src/proc_macro/derives/repr_c/_mod.rs 18-63. -/
inductive Item
  | fn (isAsync : Bool) (attrs : List Attr)
  | const (attrs : List Attr)
  | struct (attrs : List Attr) (fields : List (List Attr))
  | transparent (renamed : Bool) (attrs : List Attr)
  | opaque (attrs : List Attr)
  | enum (attrs : List Attr) (variants : List (List Attr))

/-- The documentation that a header language receives: of the item, and of its fields or variants.
src/headers/languages/mod.rs 80-165: the parameters and fields `docs`. -/
structure Docs where
  own : List Expr
  members : List (List Expr)
  deriving DecidableEq, Repr

/-- src/proc_macro/ffi_export/fn_/mod.rs 61-66, 359: two lints are added to a function. -/
def fnDocs (P : Parse) (attrs : List Attr) : Option (List Expr) :=
  extractDocs P (attrs ++ [listAttr (t "allow") (t "improper_ctypes_definitions"),
    listAttr (t "forbid") (t "elided_lifetimes_in_paths")])

/-- src/proc_macro/ffi_export/fn_/async_fn.rs 316-331: without the feature `js`, an `async` function becomes an
exported function that has its attributes. -/
def asyncDocs (P : Parse) (attrs : List Attr) : Option (List Expr) := fnDocs P attrs

/-- src/proc_macro/derives/repr_c/struct_.rs 88-130, c_type/struct_.rs 111-145: the layout of a struct, with the
documentation of the struct and of its fields, which is then derived. -/
def structDocs (P : Parse) (attrs : List Attr) (fields : List (List Attr)) : Option Docs :=
  let layout := docsOf attrs ++ [listAttr (t "allow") (t "nonstandard_style"), listAttr (t "repr") (t "C")]
  match extractDocs P layout with
  | none => none
  | some own => (extractAll P (fields.map docsOf)).map fun ms => ⟨own, ms⟩

/-- src/proc_macro/derives/repr_c/struct_.rs 257-297, c_type/struct_.rs 206, 241-249: the layout of a renamed
newtype. -/
def transparentDocs (P : Parse) (attrs : List Attr) : Option (List Expr) :=
  extractDocs P (docsOf attrs ++ [listAttr (t "repr") (t "transparent"), listAttr (t "allow") (t "nonstandard_style")])

/-- src/proc_macro/derives/repr_c/struct_.rs 423-428, 492: the `repr(opaque)` are removed first. -/
def opaqueDocs (P : Parse) (attrs : List Attr) : Option (List Expr) :=
  extractDocs P (attrs.filter fun a => !(a.path.isIdent (t "repr") && a.tokens == [.group (t "opaque")]))

/-- src/proc_macro/derives/repr_c/enum_.rs 117, 150 -/
def enumDocs (P : Parse) (attrs : List Attr) (variants : List (List Attr)) : Option Docs :=
  match extractDocs P attrs with
  | none => none
  | some own => (extractAll P variants).map fun ms => ⟨own, ms⟩

/-- The documentation of an item, as handed to the header language; the inner `none` for an item that has no
definition of its own. `repr` is what becomes of the first `repr`. The functions above. -/
def handed (P : Parse) (repr : Text) : Item → Option (Option Docs)
  | .fn isAsync attrs => (if isAsync then asyncDocs P attrs else fnDocs P attrs).map fun ds => some ⟨ds, []⟩
  | .const attrs => (extractDocs P attrs).map fun ds => some ⟨ds, []⟩
  | .struct attrs fields => (structDocs P (rewriteRepr repr attrs) fields).map some
  | .transparent renamed attrs =>
      if renamed then (transparentDocs P (rewriteRepr repr attrs)).map fun ds => some ⟨ds, []⟩ else some none
  | .opaque attrs => (opaqueDocs P (rewriteRepr repr attrs)).map fun ds => some ⟨ds, []⟩
  | .enum attrs variants => (enumDocs P (rewriteRepr repr attrs) variants).map some

end Verif.DocAttrs
