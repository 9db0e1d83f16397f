import Verif.Headers.Types
import Verif.Names.Model
/-!
# Emitting definitions

Model of the `emit_…` methods of the three header languages
(`src/headers/languages/{c,csharp,python}.rs`), and of the definitions that arrays and function
pointers write themselves (`src/layout/impls.rs`). An emitter is the list of the texts it hands to
the writer, and whether it panics after these. Feature `c-headers-with-fn-style` (which adds the
comment `/* fn */` in front of function names) is off.
-/
namespace Verif.Headers
open Text

/-- src/headers/languages/mod.rs 150-160: `EnumVariant`. `disc` is the value, printed with `{:?}`. -/
structure Variant where
  docs : List Text
  name : Text
  disc : Option Text

/-- src/headers/languages/mod.rs 162-172: `StructField`, and the size and alignment of its type. -/
structure Field where
  docs : List Text
  name : Text
  ty : CTy
  size : Nat
  align : Nat

/-- src/headers/languages/mod.rs 174-184: `FunctionArg`. -/
structure Arg where
  name : Text
  ty : CTy

/-- What an emitter does: the writes, then perhaps a panic. Not in the code: the effect of a method of
src/headers/languages/mod.rs 66-136. -/
structure Emitted where
  writes : List Text
  panics : Bool

/-- `out!("\n")`, for example src/headers/languages/c.rs 123. -/
abbrev nl : Text := ['\n']

/-- src/headers/languages/c.rs 98, /repo/src/headers/languages/python.rs 42: the name of an enum constant. -/
def constName (short variant : Text) : Text := Verif.Names.screamingCase short variant

/-! ### Enums -/

/-- `{variant} = {value:?},` or `{variant},`. src/headers/languages/c.rs 98-107,
/repo/src/headers/languages/csharp.rs 85-94, /repo/src/headers/languages/python.rs 42-47. -/
def enumLine (name : Text) (disc : Option Text) : Text :=
  match disc with
  | some d => name ++ t!" = " ++ d ++ t!","
  | none => name ++ t!","

/-- src/headers/languages/c.rs 83-93: before the variants. -/
def enumOpen (b : Nat → Text) (ty : CTy) : Option IntTy → List Text
  | some k => outLines 0 [t!"/** \\remark Has the same ABI as `" ++ cName b (.int k) ++ t!"` **/", t!"#ifdef DOXYGEN", t!"typedef",
      t!"#endif", t!"enum " ++ short b ty ++ t!" {"]
  | none => outLines 0 [t!"typedef enum " ++ short b ty ++ t!" {"]

/-- src/headers/languages/c.rs 111-121: after the variants. -/
def enumClose (b : Nat → Text) (ty : CTy) : Option IntTy → List Text
  | some k => outLines 0 [t!"}", t!"#ifndef DOXYGEN", t!"; typedef " ++ cName b (.int k), t!"#endif", cName b ty ++ t!";"]
  | none => outLines 0 [t!"} " ++ cName b ty ++ t!";"]

/-- src/headers/languages/c.rs 62-125: `C::emit_simple_enum` -/
def cEnum (b : Nat → Text) (docs : List Text) (ty : CTy) (int : Option IntTy) (vs : List Variant) : List Text :=
  cDocs 0 docs ++ enumOpen b ty int ++
  (vs.flatMap fun v => cDocs 1 v.docs ++ outLines 1 [enumLine (constName (short b ty) v.name) v.disc]) ++
  enumClose b ty int ++ [nl]

/-- src/headers/languages/csharp.rs 66-68, 75-79: the backing integer. -/
def csBacking (b : Nat → Text) : Option IntTy → Text
  | some k => t!": " ++ csName b (.int k)
  | none => []

/-- src/headers/languages/csharp.rs 53-102: `CSharp::emit_simple_enum` -/
def csEnum (b : Nat → Text) (docs : List Text) (ty : CTy) (int : Option IntTy) (vs : List Variant) : List Text :=
  csDocs 0 docs ++
  outLines 0 [t!"public enum " ++ csName b ty ++ t!" " ++ csBacking b int ++ t!" {"] ++
  (vs.flatMap fun v => csDocs 1 v.docs ++ outLines 1 [enumLine v.name v.disc]) ++
  outLines 0 [t!"}"] ++ [nl]

/-- src/headers/languages/python.rs 22-54: `Python::emit_simple_enum` -/
def pyEnum (b : Nat → Text) (ty : CTy) (vs : List Variant) : List Text :=
  outLines 0 [t!"typedef enum " ++ short b ty ++ t!" {"] ++
  (vs.flatMap fun v => pyDocs 1 v.docs ++ outLines 1 [enumLine (constName (short b ty) v.name) none]) ++
  outLines 0 [t!"} " ++ pyName b ty ++ t!";"] ++ [nl]

/-- src/headers/languages/mod.rs 77-85: `emit_simple_enum`, by language. -/
def emitEnum (b : Nat → Text) : Lang → List Text → CTy → Option IntTy → List Variant → List Text
  | .c, docs, ty, int, vs => cEnum b docs ty int vs
  | .csharp, docs, ty, int, vs => csEnum b docs ty int vs
  | .python, _, ty, _, vs => pyEnum b ty vs

/-! ### Structs -/

/-- The C# attribute of a marshaled type. src/headers/languages/csharp.rs 142-146, 225-227. -/
def marshalAs (m : Text) : Text := t!"[MarshalAs(" ++ m ++ t!")]"

/-- src/headers/languages/csharp.rs 142-146, 224-228: the attribute of a field or parameter. -/
def attrLines (depth : Nat) (ty : CTy) : List Text :=
  match csMarshaler ty with
  | some m => outLines depth [marshalAs m]
  | none => []

/-- One field: src/headers/languages/c.rs 161-164, /repo/src/headers/languages/python.rs 89-92: `{type and name};`;
/repo/src/headers/languages/csharp.rs 142-150: marshaler, `public {type} {name};`. -/
def fieldLines (b : Nat → Text) (lang : Lang) (f : Field) : List Text :=
  match lang with
  | .csharp =>
      attrLines 1 f.ty ++ outLines 1 [t!"public " ++ csName b f.ty ++ t!" " ++ f.name ++ t!";"]
  | lang => outLines 1 [var b lang f.ty f.name ++ t!";"]

/-- The loop over the fields: src/headers/languages/c.rs 146-166, /repo/src/headers/languages/csharp.rs 127-152, /repo/src/headers/languages/python.rs 74-94.
Zero-sized fields are skipped, or panic if their alignment is not 1. -/
def fields (b : Nat → Text) (lang : Lang) : (first : Bool) → List Field → Emitted
  | _, [] => ⟨[], false⟩
  | first, f :: fs =>
      if f.size = 0 then
        if 1 < f.align then ⟨[], true⟩ else fields b lang first fs
      else
        let rest := fields b lang false fs
        ⟨(if first then [] else [nl]) ++ emitDocs lang 1 f.docs ++ fieldLines b lang f ++ rest.writes, rest.panics⟩

/-- The end of a struct, unless its fields panicked. src/headers/languages/c.rs 167-169,
/repo/src/headers/languages/csharp.rs 153-155, /repo/src/headers/languages/python.rs 95-97. -/
def structEnd (last : List Text) (head : List Text) (body : Emitted) : Emitted :=
  if body.panics then ⟨head ++ body.writes, true⟩ else ⟨head ++ body.writes ++ last ++ [nl], false⟩

/-- `emit_struct`: src/headers/languages/c.rs 127-171, /repo/src/headers/languages/csharp.rs 104-157, /repo/src/headers/languages/python.rs 56-99. -/
def emitStruct (b : Nat → Text) (lang : Lang) (docs : List Text) (ty : CTy) (size : Nat) (fs : List Field) : Emitted :=
  if size = 0 then ⟨[], true⟩
  else match lang with
    | .csharp =>
        structEnd (outLines 0 [t!"}"])
          (csDocs 0 docs ++ outLines 0 [t!"[StructLayout(LayoutKind.Sequential, Size = " ++ nat size ++ t!")]",
            t!"public unsafe struct " ++ csName b ty ++ t!" {"])
          (fields b .csharp true fs)
    | lang =>
        structEnd (outLines 0 [t!"} " ++ name b lang ty ++ t!";"])
          (emitDocs lang 0 docs ++ outLines 0 [t!"typedef struct " ++ short b ty ++ t!" {"])
          (fields b lang true fs)

/-! ### Opaque types and aliases -/

/-- `emit_opaque_type`: src/headers/languages/c.rs 173-190, /repo/src/headers/languages/csharp.rs 159-184, /repo/src/headers/languages/python.rs 101-114. -/
def emitOpaque (b : Nat → Text) (lang : Lang) (docs : List Text) (ty : CTy) : List Text :=
  match lang with
  | .c => cDocs 0 docs ++ outLines 0 [t!"typedef struct " ++ short b ty ++ t!" " ++ cName b ty ++ t!";"] ++ [nl]
  | .csharp =>
      csDocs 0 docs ++ outLines 0 [t!"public struct " ++ csName b ty ++ t!" {"] ++
      outLines 1 [t!"#pragma warning disable 0169", t!"private byte OPAQUE;", t!"#pragma warning restore 0169"] ++
      outLines 0 [t!"}"] ++ [nl]
  | .python => outLines 0 [t!"typedef ... " ++ pyName b ty ++ t!";"] ++ [nl]

/-- The typedef of an alias: src/headers/languages/c.rs 52-54. -/
def aliasLine (b : Nat → Text) (self inner : CTy) : Text := t!"typedef " ++ cName b inner ++ t!" " ++ cName b self ++ t!";"

/-- src/headers/languages/c.rs 39-58: `C::emit_type_alias`; the other languages have no aliases. -/
def emitAlias (b : Nat → Text) (docs : List Text) (self inner : CTy) : List Text :=
  cDocs 0 docs ++ outLines 0 [aliasLine b self inner] ++ [nl]

/-! ### Functions and constants -/

/-- The parameters after the opening parenthesis: src/headers/languages/c.rs 217-228, /repo/src/headers/languages/python.rs 132-143. -/
def sigArgs (b : Nat → Text) (lang : Lang) : (first : Bool) → List Arg → Text
  | true, [] => t!"void"
  | false, [] => []
  | first, a :: as =>
      (if first then [] else t!",") ++ (nl ++ indent 1 ++ var b lang a.ty a.name) ++ sigArgs b lang false as

/-- src/headers/languages/c.rs 205-231, /repo/src/headers/languages/python.rs 127-146: the function without its return type. -/
def sig (b : Nat → Text) (lang : Lang) (fname : Text) (args : List Arg) : Text :=
  nl ++ indent 0 ++ fname ++ t!" (" ++ sigArgs b lang true args ++ t!")"

/-- src/headers/languages/csharp.rs 217-232: the parameters. -/
def csArgs (b : Nat → Text) : (first : Bool) → List Arg → List Text
  | _, [] => []
  | first, a :: as =>
      (if first then [] else [t!","]) ++ [nl] ++
      attrLines 2 a.ty ++ [indent 2 ++ csName b a.ty ++ t!" " ++ a.name] ++ csArgs b false as

/-- src/headers/languages/csharp.rs 205-209: the attribute of the returned value. -/
def returnLines (ret : CTy) : List Text :=
  match csMarshaler ret with
  | some m => outLines 1 [t!"[return: MarshalAs(" ++ m ++ t!")]"]
  | none => []

/-- `emit_function`: src/headers/languages/c.rs 192-240, /repo/src/headers/languages/csharp.rs 186-239, /repo/src/headers/languages/python.rs 116-155. -/
def emitFunction (b : Nat → Text) (lang : Lang) (docs : List Text) (fname : Text) (args : List Arg) (ret : CTy) : List Text :=
  match lang with
  | .csharp =>
      outLines 0 [t!"public unsafe partial class Ffi {"] ++
      csDocs 1 docs ++
      returnLines ret ++
      outLines 1 [t!"[DllImport(RustLib, ExactSpelling = true)] public static unsafe extern"] ++
      [indent 1 ++ csName b ret ++ t!" " ++ fname ++ t!" ("] ++
      csArgs b true args ++
      [t!");\n"] ++ outLines 0 [t!"}"] ++ [nl]
  | lang => emitDocs lang 0 docs ++ outLines 0 [var b lang ret (sig b lang fname args) ++ t!";"] ++ [nl]

/-- `emit_constant`: src/headers/languages/c.rs 242-269, /repo/src/headers/languages/csharp.rs 241-271, /repo/src/headers/languages/python.rs 157-176. `value` is
printed with `{:?}`. -/
def emitConstant (b : Nat → Text) (lang : Lang) (docs : List Text) (nm : Text) (ty : CTy) (untyped : Bool) (value : Text) : List Text :=
  match lang with
  | .c =>
      cDocs 0 docs ++
      (if untyped then outLines 0 [t!"#define " ++ nm ++ t!" " ++ value]
       else outLines 0 [t!"#define " ++ nm ++ t!" ((" ++ cName b ty ++ t!") " ++ value ++ t!")"]) ++ [nl]
  | .csharp =>
      if untyped then []
      else
        outLines 0 [t!"public unsafe partial class Ffi {"] ++ csDocs 1 docs ++
        outLines 1 [t!"public const " ++ csName b ty ++ t!" " ++ nm ++ t!" = " ++ value ++ t!";"] ++ outLines 0 [t!"}"] ++ [nl]
  | .python => outLines 0 [t!"#define " ++ nm ++ t!" ..."] ++ [nl]

/-! ### Arrays and function pointers -/

/-- src/layout/impls.rs 123-135: the C struct of an array. -/
def cArray (b : Nat → Text) (n : Nat) (item : CTy) : List Text :=
  [t!"typedef struct {\n    " ++ cVar b item (t!"idx[" ++ nat n ++ t!"]") ++ t!";\n} " ++ cVar b (.array n item) [] ++ t!";\n\n"]

/-- src/layout/impls.rs 161-166: the item types of `fixed` arrays. (The name of `f32` is `f32`, not
`float`: no array of floats is `fixed`.) -/
def isFixed : CTy → Bool
  | .int _ => true
  | _ => false

/-- src/layout/impls.rs 177-191: one field per item. -/
def csItems (b : Nat → Text) (item : CTy) (n : Nat) : Text :=
  (List.range n).flatMap fun i =>
    t!"    " ++ (match csMarshaler item with | some m => t!"[MarshalAs(" ++ m ++ t!")]\n    " | none => []) ++
    t!"public " ++ csName b item ++ t!" _" ++ nat i ++ t!";\n"

/-- src/layout/impls.rs 156-206: the C# struct of an array. `size` is the size of the array. -/
def csArray (b : Nat → Text) (n : Nat) (item : CTy) (size : Nat) : List Text :=
  [t!"[StructLayout(LayoutKind.Sequential, Size = " ++ nat size ++ t!")]\npublic unsafe struct " ++
    cVar b (.array n item) [] ++ t!" {\n" ++
    (if isFixed item then t!"    public fixed " ++ csName b item ++ t!" arr[" ++ nat n ++ t!"];\n" else csItems b item n) ++
    t!"}\n\n"]

/-- The parameters of a delegate: src/layout/impls.rs 339-363; `i` numbers them. -/
def delegateArgs (b : Nat → Text) : Nat → List CTy → Text
  | _, [] => []
  | i, a :: as =>
      (if i = 0 then t!"\n" else t!",\n") ++ t!"        " ++
      (match csMarshaler a with | some m => t!"[MarshalAs(" ++ m ++ t!")]\n        " | none => []) ++
      csName b a ++ t!" _" ++ nat i ++ delegateArgs b (i + 1) as

/-- src/layout/impls.rs 321-364: the C# delegate of a function pointer. -/
def csDelegate (b : Nat → Text) (ret : CTy) (args : List CTy) : List Text :=
  [t!"[UnmanagedFunctionPointer(CallingConvention.Winapi)]\n" ++
    (match csMarshaler ret with | some m => t!"[return: MarshalAs(" ++ m ++ t!")]\n" | none => []) ++
    t!"public unsafe /* static */ delegate\n    " ++ csName b ret ++ t!"\n    " ++ csName b (.fptr ret args) ++ t!" (" ++
    delegateArgs b 0 args ++ t!");\n\n"]

end Verif.Headers
