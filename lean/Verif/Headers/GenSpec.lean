import Verif.Headers.Gen
import Verif.Headers.FnProps
import Verif.Headers.MarshalSpec
/-!
# Specification: what the items of a header define and mention
-/
namespace Verif.Headers
open Text

mutual
/-- The type names that occur in a C type. -/
def CT.names : CT → List Text
  | .name s => [s]
  | .const of => of.names
  | .ptr to => to.names
  | .array _ of => of.names
  | .fn ret params => ret.names ++ paramNames params
def paramNames : List (Option Text × CT) → List Text
  | [] => []
  | (_, x) :: xs => x.names ++ paramNames xs
end

/-- The type names that need no definition: keywords of C. -/
def keywords : List Text := [t!"void", t!"float", t!"double", t!"int", t!"char"]

/-- Those of C#, and those of its namespace `System`. -/
def csKeywords : List Text :=
  [t!"void", t!"float", t!"double", t!"int", t!"bool", t!"byte", t!"sbyte",
   t!"UInt16", t!"UInt32", t!"UInt64", t!"UIntPtr", t!"Int16", t!"Int32", t!"Int64", t!"IntPtr"]

/-- The names that must be defined when a declaration with this type is read. In C and cffi: those in
the C type that it declares (which is what the text says: C44). In C#: the type without its stars. -/
def mentions (b : Nat → Text) : Lang → CTy → List Text
  | .csharp, ty => [pointee (code .code (csName b ty))].filter (· ∉ csKeywords)
  | lang, ty => (ctype b (intended lang ty)).names.filter (· ∉ keywords)

/-- The names that an enum definition mentions: in C, its integer type. -/
def enumMentions : Lang → Option IntTy → List Text
  | .c, some k => [cInt k]
  | _, _ => []

/-- The names that a definition mentions. -/
def declMentions (b : Nat → Text) (lang : Lang) : Decl → List Text
  | .struct _ _ fs => (fs.filter fun f => f.size ≠ 0).flatMap fun f => mentions b lang f.ty
  | .enum _ int _ => enumMentions lang int
  | .opaque _ => []

/-- The names that an item mentions. -/
def uses (P : Prog) : Item → List Text
  | .type lang (.adt i generics) => declMentions P.base lang (P.decl i generics)
  | .type lang (.array _ item) => mentions P.base lang item
  | .type lang (.fptr ret args) => mentions P.base lang ret ++ args.flatMap (mentions P.base lang)
  | .type lang (.alias _ _ inner) => mentions P.base lang inner
  | .func lang f => f.args.flatMap (fun a => mentions P.base lang a.ty) ++ mentions P.base lang f.ret
  | .const lang c => if c.untyped ∨ lang = .python then [] else mentions P.base lang c.ty
  | _ => []

/-- The name of the type that an item defines. -/
def typeName (P : Prog) : Item → Option Text
  | .type _ (.adt i generics) => some (short P.base (.adt i generics) ++ t!"_t")
  | .type _ (.array n item) => some (short P.base (.array n item) ++ t!"_t")
  | .type _ (.fptr ret args) => some (short P.base (.fptr ret args))
  | .type _ (.alias rename _ _) => some (rename ++ t!"_t")
  | _ => none

/-- Type names that `<stddef.h>` and `<stdint.h>` define. (`ssize_t` is not among them.) -/
def intNames : List Text :=
  [t!"size_t", t!"int8_t", t!"int16_t", t!"int32_t", t!"int64_t", t!"uint8_t", t!"uint16_t", t!"uint32_t", t!"uint64_t"]

/-- The type names that are defined once an item has been read. -/
def provides (P : Prog) : Item → List Text
  | .intHeaders => intNames
  | .boolHeader => [t!"bool"]
  | it => (typeName P it).toList

/-- Every item mentions only names that earlier items define. -/
def WellOrdered (P : Prog) (items : List Item) : Prop :=
  ∀ pre it post, items = pre ++ it :: post → ∀ n ∈ uses P it, ∃ it' ∈ pre, n ∈ provides P it'

/-- The name of a type or function that an item declares. -/
def declaredName (P : Prog) : Item → Option Text
  | .func _ f => some f.name
  | it => typeName P it

/-- The export that an item declares, and in which language. -/
def exported : Item → Option (Lang × Export)
  | .func lang f => some (lang, .fn f)
  | .const lang c => some (lang, .const c)
  | _ => none

/-- Whether the export has a declaration of its own. -/
def isValue : Export → Bool
  | .type _ _ => false
  | _ => true

def fnName : Export → Option Text
  | .fn f => some f.name
  | _ => none

/-- The names of the exports are distinct. -/
def DistinctNames (es : List Export) : Prop := ∀ e ∈ es, ∀ e' ∈ es, e.name = e'.name → e = e'

/-- The alphabetical order: lexicographic, by code points. -/
def Before (a b : Text) : Prop := a.map Char.toNat < b.map Char.toNat

def Infix (s out : Text) : Prop := ∃ a z, out = a ++ s ++ z

/-! ### Programs without recursive types

A program in which the names can be ordered such that every definition mentions only smaller ones, also
behind pointers. -/

/-- What a name stands for in a header: a type with a definition, an alias that the language replaces by
what it stands for, or a function. -/
inductive Kind
  | type | alias (lang : Lang) (inner : CTy) | function

/-- An order of the names that definitions are registered under, what each of them stands for, and the
declared types that are used. -/
structure Order where
  rank : Text → Nat
  kind : Text → Kind
  used : Lang → Nat → List CTy → Prop

mutual
/-- The type mentions only names below `bound`. The name of an alias is only registered, not defined,
unless the language is C. (`csWords`: in C#, that the names are words.) -/
def fits (b : Nat → Text) (o : Order) (lang : Lang) (bound : Nat) : CTy → Prop
  | .int k => lang = .csharp ∨ k ≠ .isize ∧ o.rank t!"__int_headers__" < bound ∧ o.kind t!"__int_headers__" = .type
  | .bool => lang = .csharp ∨ o.rank t!"bool" < bound ∧ o.kind t!"bool" = .type
  | .float => True
  | .double => True
  | .cint => True
  | .cchar => True
  | .void => True
  | .array n item =>
      o.rank (short b (.array n item) ++ t!"_t") < bound ∧ o.kind (short b (.array n item) ++ t!"_t") = .type ∧
      (lang = .csharp → csWords b item = true) ∧ fits b o (legacy lang) (o.rank (short b (.array n item) ++ t!"_t")) item
  | .fptr ret args =>
      (lang = .csharp → o.rank (short b (.fptr ret args)) < bound ∧ o.kind (short b (.fptr ret args)) = .type) ∧
      (lang = .csharp → csWords b ret = true) ∧ fits b o (legacy lang) bound ret ∧ fitsAll b o (legacy lang) bound args
  | .constPtr to => fits b o (legacy lang) bound to
  | .mutPtr to => fits b o (legacy lang) bound to
  | .alias rename _ inner =>
      o.rank (rename ++ t!"_t") < bound ∧ o.kind (rename ++ t!"_t") = (if lang = .c then .type else .alias lang inner) ∧
      fits b o lang (o.rank (rename ++ t!"_t")) inner
  | .adt i generics =>
      o.rank (short b (.adt i generics) ++ t!"_t") < bound ∧ o.kind (short b (.adt i generics) ++ t!"_t") = .type ∧
      o.used lang i generics
def fitsAll (b : Nat → Text) (o : Order) (lang : Lang) (bound : Nat) : List CTy → Prop
  | [] => True
  | x :: xs => (lang = .csharp → csWords b x = true) ∧ fits b o lang bound x ∧ fitsAll b o lang bound xs
end

/-- The types that an export mentions. -/
def Export.types : Export → List CTy
  | .fn f => f.args.map (·.ty) ++ [f.ret]
  | .const c => [c.ty]
  | .type _ ty => [ty]

/-- The program and its exports have no recursive types; no function has the name of a type. `bound` is
above all names. -/
structure NonRecursive (P : Prog) (o : Order) (lang : Lang) (bound : Nat) (es : List Export) : Prop where
  decls : ∀ lang i g, o.used lang i g →
    fitsAll P.base o lang (o.rank (short P.base (.adt i g) ++ t!"_t")) (parts (P.decl i g))
  exports : ∀ e ∈ es, fitsAll P.base o lang bound e.types
  functions : ∀ f, .fn f ∈ es → o.kind f.name = .function

end Verif.Headers
