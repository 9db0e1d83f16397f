import Verif.Headers.CsSpec
import Verif.Headers.FnProps
/-!
# Specification: programs whose C# headers are right

What users must see to, in terms of their program.
-/
namespace Verif.Headers.Cs
open Text

/-! ### Names and texts -/

/-- Documentation without characters that end a line, other than at the ends. -/
def DocsFine (docs : List Text) : Prop := ∀ s ∈ docs, ∀ c ∈ trim s, isTerminator c = false

/-- A declared type with texts that cannot end a line or a value early. -/
def DeclFine : Verif.Headers.Decl → Prop
  | .struct docs _ fs => DocsFine docs ∧ ∀ f ∈ fs, DocsFine f.docs ∧ IsWord f.name
  | .enum docs _ vs => DocsFine docs ∧ ∀ v ∈ vs, DocsFine v.docs ∧ IsWord v.name ∧ ∀ d, v.disc = some d → ValueOk d ∧ ',' ∉ d
  | .opaque docs => DocsFine docs

/-- The same of a type. -/
def TypeFine (P : Prog) : CTy → Prop
  | .adt i g => DeclFine (P.decl i g)
  | _ => True

/-- The same of an exported item. -/
def ExportFine : Export → Prop
  | .fn f => DocsFine f.docs ∧ IsWord f.name ∧ ∀ a ∈ f.args, IsWord a.name
  | .const c => DocsFine c.docs ∧ IsWord c.name ∧ ValueOk c.value ∧ ';' ∉ c.value
  | .type _ _ => True

/-- The types that are declared. -/
def isItem : CTy → Bool
  | .adt _ _ => true
  | .array _ _ => true
  | .fptr _ _ => true
  | _ => false

/-- The types that are registered. -/
def isReg : CTy → Bool
  | .alias _ _ _ => true
  | t => isItem t

/-- The name that is registered for a type: its name in C#; for an alias its name in C. -/
def reg (b : Nat → Text) : CTy → Text
  | .alias rn docs t => cName b (.alias rn docs t)
  | t => csName b t

/-- No two registered types have the same name, and no function has the name of one. -/
structure Unambiguous (P : Prog) (es : List Export) : Prop where
  types : ∀ t t', Reach P es t → Reach P es t' → isReg t = true → isReg t' = true → reg P.base t = reg P.base t' → t = t'
  fns : ∀ t f, Reach P es t → isReg t = true → .fn f ∈ es → reg P.base t ≠ f.name

/-- A header for C# with the default banner; the name of the library is a word; fine names and texts. -/
structure Fine (P : Prog) (c : Config) (es : List Export) : Prop where
  lang : c.lang = .csharp
  banner : c.banner = none
  lib : IsWord c.lib
  sorted : c.stable = true → DistinctNames es
  types : ∀ t, Reach P es t → csWords P.base t = true ∧ TypeFine P t
  exports : ∀ e ∈ es, ExportFine e

/-! ### Layouts -/

mutual
/-- Characters are bytes in C#. -/
def _root_.Verif.Headers.Shape.bytes : Shape → Shape
  | .scalar .char => .scalar (.int false 1)
  | .scalar s => .scalar s
  | .array n s => .array n s.bytes
  | .struct ms => .struct (bytesAll ms)
def bytesAll : List Shape → List Shape
  | [] => []
  | s :: ss => s.bytes :: bytesAll ss
end

/-- The sizes of structs and arrays are those of `mem::size_of`. -/
structure Sized (A : Abi) (P : Prog) (es : List Export) : Prop where
  structs : ∀ i g docs size fs s, Reach P es (.adt i g) → P.decl i g = .struct docs size fs → RShape A P (.adt i g) s → size = (s.lay A).1
  arrays : ∀ n t s, Reach P es (.array n t) → RShape A P (.array n t) s → P.size (.array n t) = (s.lay A).1

/-- No `c_int`, and no `#[repr(transparent)]` wrapper of a `bool`: their attributes are wrong (C62). -/
def Marshals (P : Prog) (es : List Export) : Prop := ∀ t, Reach P es t → t ≠ .cint ∧ ∀ rn docs, t ≠ .alias rn docs .bool

/-! ### What compilers accept -/

/-- `()`, or a wrapper of it. -/
def isUnit : CTy → Bool
  | .void => true
  | .alias _ _ t => isUnit t
  | _ => false

/-- No callback is part of a value of the type. -/
inductive Plain (P : Prog) : CTy → Prop
  | int (k) : Plain P (.int k)
  | float : Plain P .float
  | double : Plain P .double
  | bool : Plain P .bool
  | cint : Plain P .cint
  | cchar : Plain P .cchar
  | constPtr {t} : Plain P (.constPtr t)
  | mutPtr {t} : Plain P (.mutPtr t)
  | array {n t} : Plain P t → Plain P (.array n t)
  | alias {rn docs t} : Plain P t → Plain P (.alias rn docs t)
  | enum {i g docs int vs} : P.decl i g = .enum docs int vs → Plain P (.adt i g)
  | opaque {i g docs} : P.decl i g = .opaque docs → Plain P (.adt i g)
  | struct {i g docs size fs} : P.decl i g = .struct docs size fs → (∀ f ∈ fs, f.size ≠ 0 → Plain P f.ty) → Plain P (.adt i g)

/-- `usize` and `isize`. -/
def isWordSized : IntTy → Bool
  | .usize => true
  | .isize => true
  | _ => false

/-- A type that can be used: values of fields, parameters and items are not `()`; names are distinct and no keywords; what
pointers are to has no callbacks; arrays are not of `usize`. -/
def TypeSolid (P : Prog) : CTy → Prop
  | .constPtr t => isUnit t = true ∨ Plain P t
  | .mutPtr t => isUnit t = true ∨ Plain P t
  | .array n t => n ≠ 0 ∧ isUnit t = false ∧ ∀ k, t = .int k → isWordSized k = false
  | .fptr _ args => ∀ a ∈ args, isUnit a = false
  | .adt i g =>
      match P.decl i g with
      | .struct _ _ fs => (fs.map (·.name)).Nodup ∧
          ∀ f ∈ fs, f.size ≠ 0 → f.name ∉ reserved ∧ f.name ≠ csName P.base (.adt i g) ∧ isUnit f.ty = false
      | .enum _ int vs => (vs.map (·.name)).Nodup ∧ (∀ v ∈ vs, v.name ∉ reserved) ∧ ∀ k, int = some k → isWordSized k = false
      | .opaque _ => True
  | _ => True

/-- The integers of a type. -/
def bounds : IntTy → Int × Int
  | .u8 => (0, 255) | .u16 => (0, 65535) | .u32 => (0, 4294967295) | .u64 => (0, 18446744073709551615) | .usize => (0, -1)
  | .i8 => (-128, 127) | .i16 => (-32768, 32767) | .i32 => (-2147483648, 2147483647)
  | .i64 => (-9223372036854775808, 9223372036854775807) | .isize => (0, -1)

/-- A constant that C# can have, and how Rust prints it: an integer (no `usize`), a `bool`, or an `f64`. -/
inductive ConstSolid : CTy → Text → Prop
  | pos {k} {n : Nat} : (n : Int) ≤ (bounds k).2 → ConstSolid (.int k) (nat n)
  | neg {k} {n : Nat} : n ≠ 0 → (bounds k).1 ≤ -(n : Int) → ConstSolid (.int k) ('-' :: nat n)
  | true : ConstSolid .bool t!"true"
  | false : ConstSolid .bool t!"false"
  | double {a b} : isDigits a = true → isDigits b = true → ConstSolid .double (a ++ '.' :: b)

/-- A name for a member of the class `Ffi`. -/
def NameSolid (n : Text) : Prop := n ∉ reserved ∧ n ≠ t!"Ffi" ∧ n ≠ t!"RustLib"

/-- The same of an exported item. -/
def ExportSolid : Export → Prop
  | .fn f => NameSolid f.name ∧ (f.args.map (·.name)).Nodup ∧ ∀ a ∈ f.args, a.name ∉ reserved ∧ isUnit a.ty = false
  | .const c => c.untyped = true ∨ NameSolid c.name ∧ ConstSolid c.ty c.value
  | .type _ _ => True

/-- The same of all exports and the types they mention. The exports have distinct names. -/
structure Solid (P : Prog) (es : List Export) : Prop where
  distinct : (es.map Export.name).Nodup
  types : ∀ t, Reach P es t → TypeSolid P t
  exports : ∀ e ∈ es, ExportSolid e

end Verif.Headers.Cs
