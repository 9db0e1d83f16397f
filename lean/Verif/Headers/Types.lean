import Verif.Headers.Out
/-!
# C types and their names

Model of the types that headers mention (`CType`, `src/layout/`), and of the ways each of them is
written in C, C# and cffi headers.
-/
namespace Verif.Headers
open Text

/-- The integers of src/layout/impls.rs 22-79. -/
inductive IntTy | u8 | u16 | u32 | u64 | usize | i8 | i16 | i32 | i64 | isize
  deriving DecidableEq, Repr

/-- src/layout/impls.rs 22-79: the C name, without `_t`. -/
def IntTy.c : IntTy → Text
  | .u8 => t!"uint8" | .u16 => t!"uint16" | .u32 => t!"uint32" | .u64 => t!"uint64" | .usize => t!"size"
  | .i8 => t!"int8" | .i16 => t!"int16" | .i32 => t!"int32" | .i64 => t!"int64" | .isize => t!"ssize"

/-- src/layout/impls.rs 22-79: the C# name. -/
def IntTy.cs : IntTy → Text
  | .u8 => t!"byte" | .u16 => t!"UInt16" | .u32 => t!"UInt32" | .u64 => t!"UInt64" | .usize => t!"UIntPtr"
  | .i8 => t!"sbyte" | .i16 => t!"Int16" | .i32 => t!"Int32" | .i64 => t!"Int64" | .isize => t!"IntPtr"

/-- The types that implement `CType`.

* `alias rename docs inner`: a `#[repr(transparent)]` struct with a `rename`
  (src/proc_macro/derives/c_type/struct_.rs 178-325).
* `adt i generics`: the `i`-th struct, enum or opaque type of the program, at these generic
  parameters (lifetimes play no role).

Simplification: an alias cannot contain itself through a pointer. -/
inductive CTy
  | int (k : IntTy)
  | float | double | bool | cint | cchar | void
  | array (n : Nat) (item : CTy)
  | fptr (ret : CTy) (args : List CTy)
  | constPtr (to : CTy)
  | mutPtr (to : CTy)
  | alias (rename : Text) (docs : List Text) (inner : CTy)
  | adt (i : Nat) (generics : List CTy)

/-- Decimal digits, as written by `stringify!` and by `{}` of an integer. (core) src/layout/impls.rs 110.
-/
def nat (n : Nat) : Text := (toString n).toList

mutual
/-- `CType::short_name`: src/layout/impls.rs 105-113 (arrays), 278-286 (function pointers), 482-486
(integers), 544-548 (floats), 594-598, 661-665 (pointers), 831-835 (`bool`), 914-918 (`c_int`);
src/c_char.rs 52-56; src/tuple.rs 24-28 (`void`); src/proc_macro/derives/c_type/struct_.rs 91-109
(structs: the name, then each generic parameter), 228-232 (aliases: the rename alone);
src/proc_macro/derives/repr_c/enum_.rs 162-166 (enums, never generic). `b i` is the name or rename of
the `i`-th declared type. -/
def short (b : Nat → Text) : CTy → Text
  | .int k => k.c
  | .float => t!"float"
  | .double => t!"double"
  | .bool => t!"bool"
  | .cint => t!"int"
  | .cchar => t!"char"
  | .void => t!"void"
  | .array n item => short b item ++ t!"_" ++ nat n ++ t!"_array"
  | .fptr ret args => short b ret ++ shorts b args ++ t!"_fptr"
  | .constPtr to => short b to ++ t!"_const_ptr"
  | .mutPtr to => short b to ++ t!"_ptr"
  | .alias rename _ _ => rename
  | .adt i generics => b i ++ shorts b generics
/-- Each name preceded by an underscore. src/proc_macro/derives/c_type/struct_.rs 98-106,
src/layout/impls.rs 281-285. -/
def shorts (b : Nat → Text) : List CTy → Text
  | [] => []
  | x :: xs => t!"_" ++ short b x ++ shorts b xs
end

mutual
/-- `CType::name_wrapping_var(&C, var)`: src/layout/impls.rs 138-150 (arrays), 297-312 (function
pointers), 504-514 (integers), 550-560 (floats), 606-617, 673-684 (pointers), 850-860 (`bool`), 920-930
(`c_int`); src/c_char.rs 58-68; src/tuple.rs 30-40 (`void`); src/layout/_mod.rs 71-85 (the others:
`short_name` and `_t`). -/
def cVar (b : Nat → Text) : CTy → Text → Text
  | .int k, v => k.c ++ t!"_t" ++ sep v ++ v
  | .float, v => t!"float" ++ sep v ++ v
  | .double, v => t!"double" ++ sep v ++ v
  | .bool, v => t!"bool" ++ sep v ++ v
  | .cint, v => t!"int" ++ sep v ++ v
  | .cchar, v => t!"char" ++ sep v ++ v
  | .void, v => t!"void" ++ sep v ++ v
  | .array n item, v => short b (.array n item) ++ t!"_t" ++ sep v ++ v
  | .fptr ret args, v => cVar b ret [] ++ t!" " ++ t!"(*" ++ v ++ t!")(" ++ cArgs b args ++ t!")"
  | .constPtr to, v => cVar b to [] ++ t!" const *" ++ sep v ++ v
  | .mutPtr to, v => cVar b to [] ++ t!" *" ++ sep v ++ v
  | .alias rename _ _, v => rename ++ t!"_t" ++ sep v ++ v
  | .adt i generics, v => short b (.adt i generics) ++ t!"_t" ++ sep v ++ v
/-- src/layout/impls.rs 304-311: the parameters of a function pointer. -/
def cArgs (b : Nat → Text) : List CTy → Text
  | [] => t!"void"
  | x :: xs => cVar b x [] ++ cArgsTail b xs
/-- The others: src/layout/impls.rs 308-311. -/
def cArgsTail (b : Nat → Text) : List CTy → Text
  | [] => []
  | x :: xs => t!", " ++ cVar b x [] ++ cArgsTail b xs
end

/-! ### Equations (faster than the generated ones) -/

theorem short_int (b : Nat → Text) (k : IntTy) : short b (.int k) = k.c := rfl
theorem short_float (b : Nat → Text) : short b .float = t!"float" := rfl
theorem short_double (b : Nat → Text) : short b .double = t!"double" := rfl
theorem short_bool (b : Nat → Text) : short b .bool = t!"bool" := rfl
theorem short_cint (b : Nat → Text) : short b .cint = t!"int" := rfl
theorem short_cchar (b : Nat → Text) : short b .cchar = t!"char" := rfl
theorem short_void (b : Nat → Text) : short b .void = t!"void" := rfl
theorem short_array (b : Nat → Text) (n : Nat) (item : CTy) : short b (.array n item) = short b item ++ t!"_" ++ nat n ++ t!"_array" := rfl
theorem short_fptr (b : Nat → Text) (ret : CTy) (args : List CTy) : short b (.fptr ret args) = short b ret ++ shorts b args ++ t!"_fptr" := rfl
theorem short_constPtr (b : Nat → Text) (to : CTy) : short b (.constPtr to) = short b to ++ t!"_const_ptr" := rfl
theorem short_mutPtr (b : Nat → Text) (to : CTy) : short b (.mutPtr to) = short b to ++ t!"_ptr" := rfl
theorem short_alias (b : Nat → Text) (rename : Text) (docs : List Text) (inner : CTy) : short b (.alias rename docs inner) = rename := rfl
theorem short_adt (b : Nat → Text) (i : Nat) (generics : List CTy) : short b (.adt i generics) = b i ++ shorts b generics := rfl
theorem shorts_nil (b : Nat → Text) : shorts b [] = [] := rfl
theorem shorts_cons (b : Nat → Text) (x : CTy) (xs : List CTy) : shorts b (x :: xs) = t!"_" ++ short b x ++ shorts b xs := rfl
theorem cVar_int (b : Nat → Text) (k : IntTy) (v : Text) : cVar b (.int k) v = k.c ++ t!"_t" ++ sep v ++ v := rfl
theorem cVar_float (b : Nat → Text) (v : Text) : cVar b .float v = t!"float" ++ sep v ++ v := rfl
theorem cVar_double (b : Nat → Text) (v : Text) : cVar b .double v = t!"double" ++ sep v ++ v := rfl
theorem cVar_bool (b : Nat → Text) (v : Text) : cVar b .bool v = t!"bool" ++ sep v ++ v := rfl
theorem cVar_cint (b : Nat → Text) (v : Text) : cVar b .cint v = t!"int" ++ sep v ++ v := rfl
theorem cVar_cchar (b : Nat → Text) (v : Text) : cVar b .cchar v = t!"char" ++ sep v ++ v := rfl
theorem cVar_void (b : Nat → Text) (v : Text) : cVar b .void v = t!"void" ++ sep v ++ v := rfl
theorem cVar_array (b : Nat → Text) (n : Nat) (item : CTy) (v : Text) : cVar b (.array n item) v = short b (.array n item) ++ t!"_t" ++ sep v ++ v := rfl
theorem cVar_fptr (b : Nat → Text) (ret : CTy) (args : List CTy) (v : Text) : cVar b (.fptr ret args) v = cVar b ret [] ++ t!" " ++ t!"(*" ++ v ++ t!")(" ++ cArgs b args ++ t!")" := rfl
theorem cVar_constPtr (b : Nat → Text) (to : CTy) (v : Text) : cVar b (.constPtr to) v = cVar b to [] ++ t!" const *" ++ sep v ++ v := rfl
theorem cVar_mutPtr (b : Nat → Text) (to : CTy) (v : Text) : cVar b (.mutPtr to) v = cVar b to [] ++ t!" *" ++ sep v ++ v := rfl
theorem cVar_alias (b : Nat → Text) (rename : Text) (docs : List Text) (inner : CTy) (v : Text) : cVar b (.alias rename docs inner) v = rename ++ t!"_t" ++ sep v ++ v := rfl
theorem cVar_adt (b : Nat → Text) (i : Nat) (generics : List CTy) (v : Text) : cVar b (.adt i generics) v = short b (.adt i generics) ++ t!"_t" ++ sep v ++ v := rfl
theorem cArgs_nil (b : Nat → Text) : cArgs b [] = t!"void" := rfl
theorem cArgs_cons (b : Nat → Text) (x : CTy) (xs : List CTy) : cArgs b (x :: xs) = cVar b x [] ++ cArgsTail b xs := rfl
theorem cArgsTail_nil (b : Nat → Text) : cArgsTail b [] = [] := rfl
theorem cArgsTail_cons (b : Nat → Text) (x : CTy) (xs : List CTy) :
    cArgsTail b (x :: xs) = t!", " ++ cVar b x [] ++ cArgsTail b xs := rfl

/-- `CType::name(&C)`: src/layout/_mod.rs 71-76, 138-144. -/
def cName (b : Nat → Text) (ty : CTy) : Text := cVar b ty []

/-- `CType::name(&CSharp)`: the `csharp_ty` functions of src/layout/impls.rs (524-528, 577-581, 635-639,
693-697, 367-371, 876-880, 947-951; arrays inherit the C name: src/layout/_mod.rs 555-559),
src/c_char.rs 85-89, src/tuple.rs 57-61; src/layout/_mod.rs 71-76 for declared types;
src/proc_macro/derives/c_type/struct_.rs 275-284 for aliases (C# has none: the name of the inner type). -/
def csName (b : Nat → Text) : CTy → Text
  | .int k => k.cs
  | .float => t!"float"
  | .double => t!"double"
  | .bool => t!"bool"
  | .cint => t!"int"
  | .cchar => t!"byte"
  | .void => t!"void"
  | .array n item => cVar b (.array n item) []
  | .fptr ret args => short b (.fptr ret args)
  | .constPtr to => csName b to ++ t!" /*const*/ *"
  | .mutPtr to => csName b to ++ t!" *"
  | .alias _ _ inner => csName b inner
  | .adt i generics => short b (.adt i generics) ++ t!"_t"

/-- `CType::name(&Python)`: src/layout/_mod.rs 138-166: the types of src/layout/impls.rs are written as
in C, with C names inside; src/proc_macro/derives/c_type/struct_.rs 275-284 for aliases. -/
def pyName (b : Nat → Text) : CTy → Text
  | .alias _ _ inner => pyName b inner
  | ty => cVar b ty []

/-- `CType::name(language)`. src/layout/_mod.rs 71-76, 138-144. -/
def name (b : Nat → Text) : Lang → CTy → Text
  | .c => cName b
  | .csharp => csName b
  | .python => pyName b

/-- `CType::name_wrapping_var(&Python, var)`: src/layout/_mod.rs 78-85 for aliases, 160-163 else. -/
def pyVar (b : Nat → Text) : CTy → Text → Text
  | .alias rn d inner, v => pyName b (.alias rn d inner) ++ sep v ++ v
  | ty, v => cVar b ty v

/-- `CType::name_wrapping_var(language, var)`: src/layout/_mod.rs 78-85, 146-166. -/
def var (b : Nat → Text) : Lang → CTy → Text → Text
  | .c, ty, v => cVar b ty v
  | .csharp, ty, v => csName b ty ++ sep v ++ v
  | .python, ty, v => pyVar b ty v

/-- `CType::csharp_marshaler`: src/layout/_mod.rs 87-93 (none by default, also for aliases),
168-173, 545-551; src/layout/impls.rs 373-379, 870-874, 953-957. -/
def csMarshaler : CTy → Option Text
  | .fptr _ _ => some (t!"UnmanagedType.FunctionPtr")
  | .bool => some (t!"UnmanagedType.U1")
  | .cint => some (t!"UnmanagedType.SysInt")
  | _ => none

end Verif.Headers
