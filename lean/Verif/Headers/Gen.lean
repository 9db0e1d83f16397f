import Verif.Headers.Emit
/-!
# Header generation

Model of `Builder::generate` and what it drives: the definer (`src/headers/definer.rs`), the
`define_self` methods of all types (`src/layout/{_mod,impls}.rs` and the derives), the exported items
(`src/proc_macro/ffi_export/`) and the order in which they are visited (`src/headers/_mod.rs`).

The header is written through a writer that can fail at any call. All functions return `io::Result<()>`:
an action takes the writer and the state to the new state and perhaps an error.
-/
namespace Verif.Headers
open Text

/-! ### Programs -/

/-- A type declared with a derive: struct (src/proc_macro/derives/c_type/struct_.rs 130-148), enum
(src/proc_macro/derives/repr_c/enum_.rs 60-184) or opaque type (src/proc_macro/derives/repr_c/struct_.rs
440-513). -/
inductive Decl
  | struct (docs : List Text) (size : Nat) (fields : List Field)
  | enum (docs : List Text) (int : Option IntTy) (variants : List Variant)
  | opaque (docs : List Text)

/-- The declared types of a program: their names, their definitions at given generic parameters, and
`mem::size_of` (used for arrays in C# only). Not in the code: the derives' inputs (see `Decl`), and
src/layout/impls.rs 191. -/
structure Prog where
  base : Nat → Text
  decl : Nat → List CTy → Decl
  size : CTy → Nat

/-- An exported function. What src/proc_macro/ffi_export/fn_/mod.rs 387-409 passes on. -/
structure Fn where
  docs : List Text
  name : Text
  args : List Arg
  ret : CTy

/-- An exported constant; `value` is printed with `{:?}`. What src/proc_macro/ffi_export/const_.rs 78-111
passes on. -/
structure Const where
  docs : List Text
  name : Text
  ty : CTy
  untyped : Bool
  value : Text

/-- src/_lib.rs 241-250: `FfiExport`, by what `gen_def` does. -/
inductive Export
  | fn (f : Fn)
  | const (c : Const)
  | type (name : Text) (ty : CTy)

/-- src/_lib.rs 243: `FfiExport::name`; src/proc_macro/ffi_export/fn_/mod.rs 365, /repo/src/proc_macro/ffi_export/const_.rs 77, /repo/src/proc_macro/ffi_export/type_.rs 29. -/
def Export.name : Export → Text
  | .fn f => f.name
  | .const c => c.name
  | .type n _ => n

/-! ### What is written -/

/-- The units of a header. Each is written by one call of an emitter. src/headers/languages/mod.rs 66-148
(the emitters), src/layout/impls.rs 491-501, 840-847, src/headers/_mod.rs 346-387, 425-446. -/
inductive Item
  | intHeaders
  | boolHeader
  | type (lang : Lang) (ty : CTy)
  | func (lang : Lang) (f : Fn)
  | const (lang : Lang) (c : Const)
  | text (s : Text)

/-- The definition of a declared type: the `emit_…` call at the end of `define_self__impl`. The places
cited at `Decl`. -/
def renderDecl (P : Prog) (lang : Lang) (ty : CTy) : Decl → Emitted
  | .struct docs size fs => emitStruct P.base lang docs ty size fs
  | .enum docs int vs => ⟨emitEnum P.base lang docs ty int vs, false⟩
  | .opaque docs => ⟨emitOpaque P.base lang docs ty, false⟩

/-- The definition of a type. Only declared types, arrays, callbacks (in C#) and aliases (in C) have one.
src/layout/impls.rs 115-136, 153-206, 315-364; src/proc_macro/derives/c_type/struct_.rs 235-273; and the
places cited at `Decl`. -/
def renderType (P : Prog) (lang : Lang) : CTy → Emitted
  | .adt i generics => renderDecl P lang (.adt i generics) (P.decl i generics)
  | .array n item =>
      if lang = .csharp then ⟨csArray P.base n item (P.size (.array n item)), false⟩ else ⟨cArray P.base n item, false⟩
  | .fptr ret args => ⟨csDelegate P.base ret args, false⟩
  | .alias rename docs inner => ⟨emitAlias P.base docs (.alias rename docs inner) inner, false⟩
  | _ => ⟨[], false⟩

/-- The writes of an item. src/layout/impls.rs 491-501: the headers for integers; 840-847: for `bool`. -/
def render (P : Prog) : Item → Emitted
  | .intHeaders => ⟨[t!"\n#include <stddef.h>\n#include <stdint.h>\n\n"], false⟩
  | .boolHeader => ⟨[t!"\n#include <stdbool.h>\n\n"], false⟩
  | .type lang ty => renderType P lang ty
  | .func lang f => ⟨emitFunction P.base lang f.docs f.name f.args f.ret, false⟩
  | .const lang c => ⟨emitConstant P.base lang c.docs c.name c.ty c.untyped c.value, false⟩
  | .text s => ⟨[s], false⟩

/-! ### Actions -/

/-- `io`: an error of the writer, by number. `diverge`: the recursion of `define_self` did not end within
the given number of steps through declared types. `alreadyExists`: src/proc_macro/ffi_export/fn_/mod.rs
375-385. `panic`: the panics of `emit_struct`, src/headers/languages/c.rs 140-142, 150-153. -/
inductive Err
  | io (e : Nat) | alreadyExists | panic | diverge
  deriving DecidableEq, Repr

/-- A writer: whether the `k`-th call succeeds, or accepts some characters and then fails. (One call
stands for a `write!`. Simplification: characters, where the writer sees bytes.). The `W : io::Write` of
src/headers/_mod.rs 294. -/
abbrev Sink := Nat → Option (Nat × Nat)

/-- `defined`: the set of the definer. `out`: what the writer accepted. `calls`: how often it was called.
`items` is not in the code: what has been begun to be written, in order. src/headers/definer.rs 80-104:
`HashSetDefiner`. -/
structure St where
  defined : List Text
  out : Text
  calls : Nat
  items : List Item

/-- A function that returns `io::Result<()>`, such as src/headers/_mod.rs 331-332. -/
abbrev Act := Sink → St → St × Option Err

/-- `Ok(())`, for example src/headers/_mod.rs 343. -/
def done : Act := fun _ st => (st, none)

/-- An `Err`, or a panic; the places are cited at `Err`. -/
def fail (e : Err) : Act := fun _ st => (st, some e)

/-- `a?; b`. For example src/headers/_mod.rs 336-342. -/
def andThen (a b : Act) : Act := fun k st =>
  match a k st with
  | (st', none) => b k st'
  | (st', some e) => (st', some e)

infixr:60 " ;; " => andThen

/-- One `write!` with `?`. (std) For example src/headers/languages/mod.rs 340, 362. -/
def write (s : Text) : Act := fun k st =>
  match k st.calls with
  | none => ({ st with out := st.out ++ s, calls := st.calls + 1 }, none)
  | some (j, e) => ({ st with out := st.out ++ s.take j, calls := st.calls + 1 }, some (.io e))

/-- The `write!`s of an emitter one after the other, src/headers/languages/mod.rs 332-341. -/
def writes : List Text → Act
  | [] => done
  | s :: ss => write s ;; writes ss

/-- Notes that the item is begun. Not in the code. -/
def log (it : Item) : Act := fun _ st => ({ st with items := st.items ++ [it] }, none)

/-- An emitter: its writes, then perhaps its panic. A call of one of the emitters cited at `Item`. -/
def emit (P : Prog) (it : Item) : Act :=
  log it ;; writes (render P it).writes ;; (if (render P it).panics then fail .panic else done)

/-- src/headers/definer.rs 62-74, 92-97: `define_once`. The name is inserted before the definition is
written. -/
def defineOnce (name : Text) (body : Act) : Act := fun k st =>
  if name ∈ st.defined then (st, none) else body k { st with defined := name :: st.defined }

/-! ### `define_self` -/

/-- src/layout/_mod.rs 118-136, and the language that the methods of src/layout/impls.rs pass on: for
Python, the types of the crate define themselves as in C. -/
def legacy : Lang → Lang
  | .python => .c
  | lang => lang

mutual
/-- `CType::define_self`; `adt` is what it does for declared types.

* integers: src/layout/impls.rs 488-502, 517-522; `bool`: 837-849, 863-868
* `f32`, `f64`: 562-575; `c_int`: 932-945; `c_char`: src/c_char.rs 70-84; `()`: src/tuple.rs 42-56
* arrays: src/layout/impls.rs 115-136 and for C# 153-206
* function pointers: 288-295 and for C# 315-364
* pointers: 600-604, 620-633, 667-671, 687-691
* aliases: src/proc_macro/derives/c_type/struct_.rs 235-273; only C has type aliases
  (src/headers/languages/c.rs 33-36) -/
def define (P : Prog) (adt : Lang → Nat → List CTy → Act) (lang : Lang) : CTy → Act
  | .int _ => if lang = .csharp then done else defineOnce t!"__int_headers__" (emit P .intHeaders)
  | .bool => if lang = .csharp then done else defineOnce t!"bool" (emit P .boolHeader)
  | .float => done
  | .double => done
  | .cint => done
  | .cchar => done
  | .void => done
  | .array n item =>
      if lang = .csharp then
        define P adt .csharp item ;;
        defineOnce (csName P.base (.array n item)) (emit P (.type .csharp (.array n item)))
      else
        defineOnce (cName P.base (.array n item)) (define P adt .c item ;; emit P (.type .c (.array n item)))
  | .fptr ret args =>
      if lang = .csharp then
        define P adt .csharp ret ;; defineAll P adt .csharp args ;;
        defineOnce (csName P.base (.fptr ret args)) (emit P (.type .csharp (.fptr ret args)))
      else define P adt .c ret ;; defineAll P adt .c args
  | .constPtr to => define P adt (legacy lang) to
  | .mutPtr to => define P adt (legacy lang) to
  | .alias rename docs inner =>
      defineOnce (cName P.base (.alias rename docs inner))
        (define P adt lang inner ;; if lang = .c then emit P (.type .c (.alias rename docs inner)) else done)
  | .adt i generics => adt lang i generics
/-- All of them in order: src/layout/impls.rs 288-295, src/proc_macro/derives/c_type/struct_.rs 138-140,
src/proc_macro/ffi_export/fn_/mod.rs 387-390. -/
def defineAll (P : Prog) (adt : Lang → Nat → List CTy → Act) (lang : Lang) : List CTy → Act
  | [] => done
  | x :: xs => define P adt lang x ;; defineAll P adt lang xs
end

/-- The types that a declared type defines first: those of all fields
(src/proc_macro/derives/c_type/struct_.rs 138-140); the integer of an enum
(src/proc_macro/derives/repr_c/enum_.rs 174), which is `c_int = i32` if none is given (319-337). -/
def parts : Decl → List CTy
  | .struct _ _ fs => fs.map (·.ty)
  | .enum _ int _ => [.int (int.getD .i32)]
  | .opaque _ => []

/-- `define_self` and `define_self__impl` of declared types: src/layout/_mod.rs 60-69,
src/proc_macro/derives/c_type/struct_.rs 133-146, src/proc_macro/derives/repr_c/enum_.rs 169-182,
src/proc_macro/derives/repr_c/struct_.rs 501-512. The number bounds the depth of the recursion. -/
def defineAdt (P : Prog) : Nat → Lang → Nat → List CTy → Act
  | 0, _, _, _ => fail .diverge
  | m + 1, lang, i, generics =>
      defineOnce (name P.base lang (.adt i generics))
        (defineAll P (defineAdt P m) lang (parts (P.decl i generics)) ;; emit P (.type lang (.adt i generics)))

/-- `__define_self__`: src/headers/_mod.rs 533-553. -/
def defineSelf (P : Prog) (m : Nat) (lang : Lang) (ty : CTy) : Act := define P (defineAdt P m) lang ty

/-! ### Exports -/

/-- src/proc_macro/ffi_export/fn_/mod.rs 375-385: insert the name, or fail. -/
def insertFn (name : Text) : Act := fun _ st =>
  if name ∈ st.defined then (st, some .alreadyExists) else ({ st with defined := name :: st.defined }, none)

/-- `gen_def`: src/proc_macro/ffi_export/fn_/mod.rs 367-411, /repo/src/proc_macro/ffi_export/const_.rs 78-111, /repo/src/proc_macro/ffi_export/type_.rs 30. -/
def genDef (P : Prog) (m : Nat) (lang : Lang) : Export → Act
  | .fn f =>
      insertFn f.name ;; defineAll P (defineAdt P m) lang (f.args.map (·.ty)) ;; defineSelf P m lang f.ret ;;
      emit P (.func lang f)
  | .const c => defineSelf P m lang c.ty ;; emit P (.const lang c)
  | .type _ ty => defineSelf P m lang ty

/-- src/headers/_mod.rs 421. -/
def genAll (P : Prog) (m : Nat) (lang : Lang) : List Export → Act
  | [] => done
  | e :: es => genDef P m lang e ;; genAll P m lang es

/-! ### The order of the exports -/

/-- The order of Rust's `str`: by bytes, which is the order by code points. (core) The order of the
`BTreeMap` of src/headers/_mod.rs 407. -/
def ltText : Text → Text → Bool
  | [], [] => false
  | [], _ :: _ => true
  | _ :: _, [] => false
  | a :: as, b :: bs => decide (a.toNat < b.toNat) || (a == b && ltText as bs)

/-- `BTreeMap::insert`, on the sorted list of the entries: the last value wins. (std) src/headers/_mod.rs
407. -/
def insertMap (e : Export) : List Export → List Export
  | [] => [e]
  | x :: xs =>
      if ltText e.name x.name then e :: x :: xs
      else if e.name = x.name then e :: xs
      else x :: insertMap e xs

/-- `collect::<BTreeMap<_, _>>()` by name. src/headers/_mod.rs 403-409. -/
def toMap (es : List Export) : List Export := es.foldl (fun m e => insertMap e m) []

/-- src/headers/_mod.rs 400-420: the exports in the order of the header. `es` is the order of the registry. -/
def ordered (stable : Bool) (es : List Export) : List Export := if stable then toMap es else es.reverse

/-! ### `generate` -/

/-- The configuration: src/headers/_mod.rs 120-189, without the target and `naming_convention`, which is never
read (395-399). `lib`: the name of the library. -/
structure Config where
  lang : Lang
  stable : Bool
  lib : Text
  guard : Option Text
  textAfterGuard : Option Text
  banner : Option Text

/-- src/headers/_mod.rs 346-360: `write_banner` -/
def Config.writeBanner (c : Config) : Text :=
  c.banner.getD (t!"/*! \\file */\n" ++
    t!"/*******************************************\n" ++
    t!" *                                         *\n" ++
    t!" *  File auto-generated by `::safer_ffi`.  *\n" ++
    t!" *                                         *\n" ++
    t!" *  Do not manually edit this file.        *\n" ++
    t!" *                                         *\n" ++
    t!" *******************************************/\n") ++ nl

/-- src/headers/_mod.rs 448-455: `guard` -/
def Config.guardName (c : Config) : Text := c.guard.getD (t!"__RUST_" ++ c.lib.map toAsciiUpper ++ t!"__")

/-- src/headers/_mod.rs 457-464: `text_after_guard` -/
def Config.afterGuard (c : Config) : Text :=
  match c.textAfterGuard with
  | none => []
  | some s => t!"\n\n" ++ s ++ t!"\n"

/-- src/headers/_mod.rs 362-387: `write_prelude`; src/headers/templates/c/_prelude.h,
src/headers/templates/csharp/_prelude.cs. None: nothing is written. -/
def Config.prelude (c : Config) : Option Text :=
  match c.lang with
  | .c => some (t!"#ifndef " ++ c.guardName ++ t!"\n#define " ++ c.guardName ++ c.afterGuard ++
      t!"\n#ifdef __cplusplus\nextern \"C\" {\n#endif\n" ++ nl)
  | .csharp => some (
      t!"#pragma warning disable IDE0044, IDE0049, IDE0055, IDE1006,\n" ++
      t!"#pragma warning disable SA1004, SA1008, SA1023, SA1028,\n" ++
      t!"#pragma warning disable SA1121, SA1134,\n" ++
      t!"#pragma warning disable SA1201,\n" ++
      t!"#pragma warning disable SA1300, SA1306, SA1307, SA1310, SA1313,\n" ++
      t!"#pragma warning disable SA1500, SA1505, SA1507,\n" ++
      t!"#pragma warning disable SA1600, SA1601, SA1604, SA1605, SA1611, SA1615, SA1649,\n\n" ++
      t!"namespace " ++ Verif.Names.pascalCasedLibName c.lib ++ t!" {\nusing System;\nusing System.Runtime.InteropServices;\n\n" ++
      t!"public unsafe partial class Ffi {\n#if IOS\n    private const string RustLib = \"" ++ c.lib ++ t!".framework/" ++ c.lib ++
      t!"\";\n#else\n    private const string RustLib = \"" ++ c.lib ++ t!"\";\n#endif\n}\n" ++ nl)
  | .python => none

/-- src/headers/_mod.rs 425-446: `write_epilogue`; src/headers/templates/c/epilogue.h (where the quotes are
preceded by backslashes), src/headers/templates/csharp/epilogue.cs. -/
def Config.epilogue (c : Config) : Option Text :=
  match c.lang with
  | .c => some (t!"\n#ifdef __cplusplus\n} /* extern \\\"C\\\" */\n#endif\n\n#endif /* " ++ c.guardName ++ t!" */\n")
  | .csharp => some (t!"\n} /* " ++ Verif.Names.pascalCasedLibName c.lib ++ t!" */\n")
  | .python => none

/-- src/headers/_mod.rs 370-386, 429-445: a `write!`, or nothing. -/
def writeText (P : Prog) : Option Text → Act
  | some s => emit P (.text s)
  | none => done

/-- src/headers/_mod.rs 331-344: `generate_with_definer`; 390-422: `write_body`. -/
def generate (P : Prog) (m : Nat) (c : Config) (es : List Export) : Act :=
  emit P (.text c.writeBanner) ;; writeText P c.prelude ;; genAll P m c.lang (ordered c.stable es) ;; writeText P c.epilogue

/-- src/headers/_mod.rs 297-308: `generate`, with an empty set and a fresh writer. -/
def generated (P : Prog) (m : Nat) (c : Config) (es : List Export) (k : Sink) : St × Option Err :=
  generate P m c es k ⟨[], [], 0, []⟩

/-- A writer that never fails. Not in the code: for instance the `Vec<u8>` that users pass to
src/headers/_mod.rs 275. -/
def okSink : Sink := fun _ => none

end Verif.Headers
