import Verif.Headers.DocsSpec
import Verif.Headers.Enums
/-!
# Specification: what a C# declaration passes to native code

The rules of .NET's interop marshaling for the types that occur in the headers, and the machine-level
shape of the Rust types.
-/
namespace Verif.Headers
open Text

/-- A value as native code sees it. `W` below is the number of bits of a pointer. -/
inductive Native
  | int (bits : Nat) (signed : Bool)
  | float (bits : Nat)
  | ptr
  /-- A struct or an enum, defined elsewhere in the header under this name. -/
  | named (name : Text)
  | nothing
  deriving DecidableEq, Repr

/-- The blittable types of .NET. -/
def blittable (W : Nat) (ty : Text) : Option Native :=
  if ty = t!"byte" then some (.int 8 false) else if ty = t!"sbyte" then some (.int 8 true)
  else if ty = t!"UInt16" then some (.int 16 false) else if ty = t!"Int16" then some (.int 16 true)
  else if ty = t!"UInt32" then some (.int 32 false) else if ty = t!"Int32" then some (.int 32 true)
  else if ty = t!"UInt64" then some (.int 64 false) else if ty = t!"Int64" then some (.int 64 true)
  else if ty = t!"UIntPtr" then some (.int W false) else if ty = t!"IntPtr" then some (.int W true)
  else if ty = t!"int" then some (.int 32 true)
  else if ty = t!"float" then some (.float 32) else if ty = t!"double" then some (.float 64)
  else if ty = t!"void" then some .nothing
  else none

/-- The delegates of a header are the types whose names end in `_fptr`; structs and enums end in `_t`. -/
def isDelegate (ty : Text) : Bool := (t!"_fptr").isSuffixOf ty

/-- A type without its stars. -/
def pointee (ty : Text) : Text := (ty.reverse.dropWhile fun c => c == '*' || isWs c).reverse

/-- How .NET passes a type, given without comments, with this attribute. None: rejected, by the compiler
(pointers to delegates, which are managed types) or at run time (a marshaling attribute that does not
fit the type). A `bool` without attribute is a four-byte `BOOL`; delegates are function pointers with
or without attribute. -/
def unmanaged (W : Nat) (attr : Option Text) (ty : Text) : Option Native :=
  if ty.getLast? = some '*' then
    if attr = none ∧ !isDelegate (pointee ty) then some .ptr else none
  else if ty = t!"bool" then
    if attr = none then some (.int 32 true)
    else if attr = some t!"[MarshalAs(UnmanagedType.U1)]" then some (.int 8 false)
    else none
  else if isDelegate ty then
    if attr = none ∨ attr = some t!"[MarshalAs(UnmanagedType.FunctionPtr)]" then some .ptr else none
  else if attr ≠ none then none
  else match blittable W ty with
    | some n => some n
    | none => some (.named ty)

/-- The Rust type, as the ABI sees it. (`bool` is a byte; `c_char` one byte whose sign does not matter,
since it only stands for itself.) -/
def native (W : Nat) (b : Nat → Text) : CTy → Native
  | .int k => .int (k.bits W) k.signed
  | .float => .float 32
  | .double => .float 64
  | .bool => .int 8 false
  | .cint => .int 32 true
  | .cchar => .int 8 false
  | .void => .nothing
  | .array n item => .named (short b (.array n item) ++ t!"_t")
  | .fptr _ _ => .ptr
  | .constPtr _ => .ptr
  | .mutPtr _ => .ptr
  | .alias _ _ inner => native W b inner
  | .adt i generics => .named (short b (.adt i generics) ++ t!"_t")

end Verif.Headers
