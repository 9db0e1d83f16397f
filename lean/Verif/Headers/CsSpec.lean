import Verif.Headers.AbiSpec
/-!
# Specification: what a C# compiler makes of a header

A reader of the C# declarations that a header can have, what .NET passes to native code for a declared type, and what the
compiler demands of the declarations (C# language specification, ECMA-335, and the documentation of .NET on marshaling).
Independent of the way headers are written.

Not considered: structs that contain themselves by value, the layout of types other than those below, names that begin with digits
(Rust has none), and an enum constant `value__`.
-/
namespace Verif.Headers.Cs
open Text

/-! ### Syntax -/

/-- Types of C#: names and pointers. -/
inductive Ty
  | name (n : Text)
  | ptr (to : Ty)
  deriving DecidableEq, Repr

/-- What stands between the brackets of an attribute. -/
abbrev Attr := List Tok

/-- A field or parameter. -/
structure Var where
  attrs : List Attr
  ty : Ty
  name : Text
  deriving DecidableEq, Repr

/-- A member of a struct or class; `mods` are its modifiers. `fixed`: an array of a fixed size. -/
inductive Member
  | field (mods : List Text) (v : Var)
  | fixed (mods : List Text) (ty : Ty) (name count : Text)
  | const (mods : List Text) (ty : Ty) (name : Text) (value : List Tok)
  | method (attrs : List Attr) (mods : List Text) (ret : Ty) (name : Text) (params : List Var)
  deriving DecidableEq, Repr

/-- A declaration in a namespace. -/
inductive Decl
  | struct (attrs : List Attr) (mods : List Text) (name : Text) (members : List Member)
  | enum (mods : List Text) (name : Text) (base : Option Text) (consts : List Text)
  | delegate (attrs : List Attr) (mods : List Text) (ret : Ty) (name : Text) (params : List Var)
  | cls (mods : List Text) (name : Text) (members : List Member)
  deriving DecidableEq, Repr

/-- A file: one namespace. -/
structure File where
  name : Text
  usings : List (List Tok)
  decls : List Decl
  deriving DecidableEq, Repr

abbrev kPublic : Text := t!"public"
abbrev kPrivate : Text := t!"private"
abbrev kStatic : Text := t!"static"
abbrev kUnsafe : Text := t!"unsafe"
abbrev kExtern : Text := t!"extern"
abbrev kPartial : Text := t!"partial"
abbrev kStruct : Text := t!"struct"
abbrev kEnum : Text := t!"enum"
abbrev kClass : Text := t!"class"
abbrev kDelegate : Text := t!"delegate"
abbrev kConst : Text := t!"const"
abbrev kFixed : Text := t!"fixed"
abbrev kNamespace : Text := t!"namespace"
abbrev kUsing : Text := t!"using"
abbrev kVoid : Text := t!"void"
abbrev kBool : Text := t!"bool"
abbrev kInt : Text := t!"int"

def modifiers : List Text := [kPublic, kPrivate, kStatic, kUnsafe, kExtern, kPartial]

/-! ### Reading -/

/-- Attributes: `[ … ]` as often as they occur. `cur` is the one being read. -/
def readAttrs : (cur : Option Attr) → List Tok → Option (List Attr × List Tok)
  | none, .lb :: ts => readAttrs (some []) ts
  | none, ts => some ([], ts)
  | some a, .rb :: ts => (readAttrs none ts).map fun (as, r) => (a :: as, r)
  | some a, t :: ts => readAttrs (some (a ++ [t])) ts
  | some _, [] => none

/-- Modifiers. -/
def readMods : List Tok → List Text × List Tok
  | .id w :: ts => if w ∈ modifiers then ((w :: (readMods ts).1), (readMods ts).2) else ([], .id w :: ts)
  | ts => ([], ts)

/-- The stars after a type. -/
def readStars (ty : Ty) : List Tok → Ty × List Tok
  | .star :: ts => readStars (.ptr ty) ts
  | ts => (ty, ts)

/-- A type and a name. -/
def readVar : List Tok → Option (Ty × Text × List Tok)
  | .id w :: ts =>
      match readStars (.name w) ts with
      | (ty, .id n :: r) => some (ty, n, r)
      | _ => none
  | _ => none

/-- One or more parameters, up to the closing parenthesis. The number bounds their count. -/
def readParams : Nat → List Tok → Option (List Var × List Tok)
  | 0, _ => none
  | m + 1, ts =>
      match readAttrs none ts with
      | some (as, r) =>
          match readVar r with
          | some (ty, n, .rp :: r) => some ([⟨as, ty, n⟩], r)
          | some (ty, n, .comma :: r) => (readParams m r).map fun (ps, r) => (⟨as, ty, n⟩ :: ps, r)
          | _ => none
      | none => none

/-- After the opening parenthesis, up to the semicolon. -/
def readSig (m : Nat) : List Tok → Option (List Var × List Tok)
  | .rp :: .semi :: r => some ([], r)
  | ts =>
      match readParams m ts with
      | some (ps, .semi :: r) => some (ps, r)
      | _ => none

/-- What stands in front of a token. -/
def readUntil (stop : Tok) : List Tok → Option (List Tok × List Tok)
  | [] => none
  | t :: ts => if t = stop then some ([], ts) else (readUntil stop ts).map fun (a, r) => (t :: a, r)

/-- A member. -/
def readMember (m : Nat) (ts : List Tok) : Option (Member × List Tok) :=
  match readAttrs none ts with
  | none => none
  | some (as, r) =>
      match readMods r with
      | (mods, .id w :: r) =>
          if w = kConst then
            match readVar r with
            | some (ty, n, .bad '=' :: r) => (readUntil .semi r).map fun (v, r) => (.const mods ty n v, r)
            | _ => none
          else if w = kFixed then
            match readVar r with
            | some (ty, n, .lb :: .id k :: .rb :: .semi :: r) => some (.fixed mods ty n k, r)
            | _ => none
          else
            match readVar (.id w :: r) with
            | some (ty, n, .semi :: r) => some (.field mods ⟨as, ty, n⟩, r)
            | some (ty, n, .lp :: r) => (readSig m r).map fun (ps, r) => (.method as mods ty n ps, r)
            | _ => none
      | _ => none

/-- Members up to the closing brace. -/
def readMembers : Nat → List Tok → Option (List Member × List Tok)
  | 0, _ => none
  | _ + 1, .bad '}' :: r => some ([], r)
  | m + 1, ts =>
      match readMember m ts with
      | some (x, r) => (readMembers m r).map fun (xs, r) => (x :: xs, r)
      | none => none

/-- The constants of an enum, each with a comma after it, up to the closing brace. -/
def readConsts : Nat → List Tok → Option (List Text × List Tok)
  | 0, _ => none
  | _ + 1, .bad '}' :: r => some ([], r)
  | m + 1, .id n :: .comma :: r => (readConsts m r).map fun (ns, r) => (n :: ns, r)
  | m + 1, .id n :: .bad '=' :: r =>
      match readUntil .comma r with
      | some (_, r) => (readConsts m r).map fun (ns, r) => (n :: ns, r)
      | none => none
  | _ + 1, _ => none

/-- A declaration. -/
def readDecl (m : Nat) (ts : List Tok) : Option (Decl × List Tok) :=
  match readAttrs none ts with
  | none => none
  | some (as, r) =>
      match readMods r with
      | (mods, .id w :: r) =>
          if w = kStruct then
            match r with
            | .id n :: .bad '{' :: r => (readMembers m r).map fun (ms, r) => (.struct as mods n ms, r)
            | _ => none
          else if w = kClass then
            match r with
            | .id n :: .bad '{' :: r => (readMembers m r).map fun (ms, r) => (.cls mods n ms, r)
            | _ => none
          else if w = kEnum then
            match r with
            | .id n :: .bad '{' :: r => (readConsts m r).map fun (cs, r) => (.enum mods n none cs, r)
            | .id n :: .bad ':' :: .id b :: .bad '{' :: r => (readConsts m r).map fun (cs, r) => (.enum mods n (some b) cs, r)
            | _ => none
          else if w = kDelegate then
            match readVar r with
            | some (ty, n, .lp :: r) => (readSig m r).map fun (ps, r) => (.delegate as mods ty n ps, r)
            | _ => none
          else none
      | _ => none

/-- Declarations up to the closing brace of the namespace, which ends the file. -/
def readDecls : Nat → List Tok → Option (List Decl)
  | 0, _ => none
  | _ + 1, [.bad '}'] => some []
  | m + 1, ts =>
      match readDecl m ts with
      | some (d, r) => (readDecls m r).map (d :: ·)
      | none => none

/-- `using …;` as often as it occurs. -/
def readUsings : Nat → List Tok → Option (List (List Tok) × List Tok)
  | 0, _ => none
  | m + 1, .id w :: ts =>
      if w = kUsing then
        match readUntil .semi ts with
        | some (u, r) => (readUsings m r).map fun (us, r) => (u :: us, r)
        | none => none
      else some ([], .id w :: ts)
  | _ + 1, ts => some ([], ts)

/-- A file. -/
def readFile (m : Nat) : List Tok → Option File
  | .id w :: .id n :: .bad '{' :: r =>
      if w = kNamespace then
        match readUsings m r with
        | some (us, r) => (readDecls m r).map (⟨n, us, ·⟩)
        | none => none
      else none
  | _ => none

/-- A C# compiler that has defined the symbols `defs` reads the header as this file: comments and conditional sections
are removed first, `#pragma` lines are ignored. -/
def ReadsAs (eval : List Text → Text → Bool) (defs : List Text) (header : Text) (f : File) : Prop :=
  ∃ st, (Pp.mk defs [] []).read eval header = some st ∧ st.stack = [] ∧ ∃ k, ∀ m, k ≤ m → readFile m (tokens st.out) = some f

/-! ### Names -/

def Decl.name : Decl → Text
  | .struct _ _ n _ => n
  | .enum _ n _ _ => n
  | .delegate _ _ _ n _ => n
  | .cls _ n _ => n

/-- Types, other than the class for the functions. -/
def Decl.typeName : Decl → Option Text
  | .cls _ _ _ => none
  | d => some d.name

def Member.name : Member → Text
  | .field _ v => v.name
  | .fixed _ _ n _ => n
  | .const _ _ n _ => n
  | .method _ _ _ n _ => n

/-- What a type name stands for. -/
def find (ds : List Decl) (n : Text) : Option Decl := ds.find? fun d => d.typeName = some n

/-- The members of all parts of a class. -/
def classMembers (n : Text) : List Decl → List Member
  | [] => []
  | .cls _ n' ms :: ds => if n' = n then ms ++ classMembers n ds else classMembers n ds
  | _ :: ds => classMembers n ds

/-! ### What .NET passes to native code -/

/-- `MarshalAs(UnmanagedType.…)` -/
def marshal (u : Text) : Attr := [.id t!"MarshalAs", .lp, .id t!"UnmanagedType", .bad '.', .id u, .rp]

/-- `StructLayout(LayoutKind.Sequential, Size = …)` -/
def sequential (size : Nat) : Attr :=
  [.id t!"StructLayout", .lp, .id t!"LayoutKind", .bad '.', .id t!"Sequential", .comma, .id t!"Size", .bad '=', .id (nat size), .rp]

/-- The numbers of C# and of its namespace `System`. -/
def numbers (A : Abi) : List (Text × Scalar) :=
  [(t!"byte", .int false 1), (t!"UInt16", .int false 2), (t!"UInt32", .int false 4), (t!"UInt64", .int false 8),
   (t!"sbyte", .int true 1), (t!"Int16", .int true 2), (t!"Int32", .int true 4), (t!"Int64", .int true 8),
   (t!"UIntPtr", .int false A.word), (t!"IntPtr", .int true A.word), (t!"float", .float 4), (t!"double", .float 8),
   (t!"int", .int true 4)]

/-- The integer of an enum. -/
def enumBase (b : Option Text) : Text := b.getD kInt

mutual
/-- What native code sees of a type with these attributes. A `bool` has 4 bytes unless its attribute says otherwise; a delegate
is passed as a pointer to a function. Structs are laid out member after member; an explicit size pads them if it is more. -/
inductive Native (A : Abi) (ds : List Decl) : List Attr → Ty → Shape → Prop
  | number {n s} : find ds n = none → (numbers A).lookup n = some s → Native A ds [] (.name n) (.scalar s)
  | bool1 : find ds kBool = none → Native A ds [marshal t!"U1"] (.name kBool) (.scalar .bool)
  | bool4 : find ds kBool = none → Native A ds [] (.name kBool) (.scalar (.int true 4))
  | ptr {t} : Native A ds [] (.ptr t) (.scalar .ptr)
  | delegate {as n as' mods ret ps} : find ds n = some (.delegate as' mods ret n ps) → as = [] ∨ as = [marshal t!"FunctionPtr"] →
      Native A ds as (.name n) (.scalar .ptr)
  | enum {n mods b cs s} : find ds n = some (.enum mods n b cs) → (numbers A).lookup (enumBase b) = some s →
      Native A ds [] (.name n) (.scalar s)
  | struct {n size mods ms ss} : find ds n = some (.struct [sequential size] mods n ms) → Natives A ds ms ss →
      size ≤ ((Shape.struct ss).lay A).1 → Native A ds [] (.name n) (.struct ss)
/-- Of the members of a struct. -/
inductive Natives (A : Abi) (ds : List Decl) : List Member → List Shape → Prop
  | nil : Natives A ds [] []
  | field {mods v s ms ss} : Native A ds v.attrs v.ty s → Natives A ds ms ss → Natives A ds (.field mods v :: ms) (s :: ss)
  | fixed {mods ty n k s ms ss} : Native A ds [] ty s → Natives A ds ms ss → Natives A ds (.fixed mods ty n (nat k) :: ms) (.array k s :: ss)
end

/-- `return: MarshalAs(…)`: the attributes of the returned value. -/
def returnAttrs (as : List Attr) : List Attr :=
  as.filterMap fun a => match a with
    | .id w :: .bad c :: r => if w = t!"return" ∧ c = ':' then some r else none
    | _ => none

/-- How functions are called. -/
inductive Conv
  | cdecl | stdcall
  deriving DecidableEq, Repr

/-- What .NET calls `Winapi`: the convention of the platform. It differs from that of C on 32-bit Windows. -/
def winapi (win32 : Bool) : Conv := if win32 then .stdcall else .cdecl

/-- The convention of an imported function: `Winapi`, unless the attribute says otherwise. -/
def importConv (win32 : Bool) (as : List Attr) : Option Conv :=
  if [.id t!"DllImport", .lp, .id t!"RustLib", .comma, .id t!"ExactSpelling", .bad '=', .id t!"true", .rp] ∈ as then some (winapi win32) else none

/-- The convention of a delegate. -/
def delegateConv (win32 : Bool) (as : List Attr) : Option Conv :=
  if [.id t!"UnmanagedFunctionPointer", .lp, .id t!"CallingConvention", .bad '.', .id t!"Winapi", .rp] ∈ as then some (winapi win32) else none

/-! ### What the compiler demands -/

/-- The keywords of C#. -/
def reserved : List Text :=
  [t!"abstract", t!"as", t!"base", t!"bool", t!"break", t!"byte", t!"case", t!"catch", t!"char", t!"checked", t!"class", t!"const",
   t!"continue", t!"decimal", t!"default", t!"delegate", t!"do", t!"double", t!"else", t!"enum", t!"event", t!"explicit", t!"extern",
   t!"false", t!"finally", t!"fixed", t!"float", t!"for", t!"foreach", t!"goto", t!"if", t!"implicit", t!"in", t!"int", t!"interface",
   t!"internal", t!"is", t!"lock", t!"long", t!"namespace", t!"new", t!"null", t!"object", t!"operator", t!"out", t!"override",
   t!"params", t!"private", t!"protected", t!"public", t!"readonly", t!"ref", t!"return", t!"sbyte", t!"sealed", t!"short",
   t!"sizeof", t!"stackalloc", t!"static", t!"string", t!"struct", t!"switch", t!"this", t!"throw", t!"true", t!"try", t!"typeof",
   t!"uint", t!"ulong", t!"unchecked", t!"unsafe", t!"ushort", t!"using", t!"virtual", t!"void", t!"volatile", t!"while"]

/-- The integers, with their bounds. -/
def integers : List (Text × Int × Int) :=
  [(t!"byte", 0, 255), (t!"UInt16", 0, 65535), (t!"UInt32", 0, 4294967295), (t!"UInt64", 0, 18446744073709551615),
   (t!"sbyte", -128, 127), (t!"Int16", -32768, 32767), (t!"Int32", -2147483648, 2147483647),
   (t!"Int64", -9223372036854775808, 9223372036854775807), (t!"int", -2147483648, 2147483647)]

/-- The types of arrays of a fixed size (CS1663). -/
def bufferTypes : List Text := integers.map (·.1) ++ [t!"bool", t!"float", t!"double"]

/-- All types that need no declaration. -/
def builtin : List Text := bufferTypes ++ [t!"UIntPtr", t!"IntPtr"]

/-- Types without references to managed objects (CS0208). Delegates have them. -/
inductive Unmanaged (ds : List Decl) : Ty → Prop
  | builtin {n} : find ds n = none → n ∈ builtin → Unmanaged ds (.name n)
  | ptr {t} : Unmanaged ds (.ptr t)
  | enum {n mods b cs} : find ds n = some (.enum mods n b cs) → Unmanaged ds (.name n)
  | struct {n as mods ms} : find ds n = some (.struct as mods n ms) → (∀ mods' v, .field mods' v ∈ ms → Unmanaged ds v.ty) →
      Unmanaged ds (.name n)

/-- The type of a variable: declared (CS0246), and pointers are to unmanaged types. -/
inductive Usable (ds : List Decl) : Ty → Prop
  | builtin {n} : find ds n = none → n ∈ builtin → Usable ds (.name n)
  | decl {n d} : find ds n = some d → Usable ds (.name n)
  | void : Usable ds (.ptr (.name kVoid))
  | ptr {t} : Usable ds t → Unmanaged ds t → Usable ds (.ptr t)

def Ty.isPtr : Ty → Bool
  | .ptr _ => true
  | .name _ => false

/-- Pointers need an unsafe context (CS0214). -/
def SafeIn (mods : List Text) (t : Ty) : Prop := t.isPtr = true → kUnsafe ∈ mods

/-- Parameters: names differ (CS0100) and are no keywords. -/
structure ParamsOk (ds : List Decl) (mods : List Text) (ps : List Var) : Prop where
  distinct : (ps.map (·.name)).Nodup
  names : ∀ p ∈ ps, p.name ∉ reserved
  types : ∀ p ∈ ps, Usable ds p.ty ∧ SafeIn mods p.ty

/-- A returned value. -/
def ResultOk (ds : List Decl) (mods : List Text) (t : Ty) : Prop := t = .name kVoid ∨ Usable ds t ∧ SafeIn mods t

/-- An integer constant, as it is written. -/
def Writes (z : Int) (v : List Tok) : Prop :=
  (0 ≤ z ∧ v = [.id (nat z.toNat)]) ∨ (z < 0 ∧ v = [.bad '-', .id (nat z.natAbs)])

def isDigits (s : Text) : Bool := !s.isEmpty && s.all fun c => '0' ≤ c && c ≤ '9'

/-- A constant (CS0133, CS0266, CS0283, CS0664). A number with a point is a `double`, and converts to nothing else. -/
inductive ConstOk (ds : List Decl) : Text → List Tok → Prop
  | int {n lo hi z v} : find ds n = none → integers.lookup n = some (lo, hi) → lo ≤ z → z ≤ hi → Writes z v → ConstOk ds n v
  | bool {v} : find ds kBool = none → v = t!"true" ∨ v = t!"false" → ConstOk ds kBool [.id v]
  | double {a b} : find ds t!"double" = none → isDigits a = true → isDigits b = true → ConstOk ds t!"double" [.id a, .bad '.', .id b]
  | string {v} : ConstOk ds t!"string" (.bad '"' :: v ++ [.bad '"'])

/-- A member of the type with this name and these modifiers. It has another name (CS0542). -/
def MemberOk (ds : List Decl) (outer : List Text) (owner : Text) : Member → Prop
  | .field _ v => v.name ∉ reserved ∧ v.name ≠ owner ∧ Usable ds v.ty ∧ SafeIn outer v.ty
  | .fixed _ ty n k => n ∉ reserved ∧ n ≠ owner ∧ kUnsafe ∈ outer ∧ k ≠ t!"0" ∧ ∃ x ∈ bufferTypes, find ds x = none ∧ ty = .name x
  | .const _ ty n v => n ∉ reserved ∧ n ≠ owner ∧ ∃ x, ty = .name x ∧ ConstOk ds x v
  | .method as mods ret n ps => n ∉ reserved ∧ n ≠ owner ∧ kExtern ∈ mods ∧ kStatic ∈ mods ∧ (∃ win32, (importConv win32 as).isSome = true) ∧
      ResultOk ds (mods ++ outer) ret ∧ ParamsOk ds (mods ++ outer) ps

/-- A declaration. -/
def DeclOk (ds : List Decl) : Decl → Prop
  | .struct _ mods n ms => n ∉ reserved ∧ (ms.map Member.name).Nodup ∧ ∀ x ∈ ms, MemberOk ds mods n x
  | .enum _ n b cs => n ∉ reserved ∧ cs.Nodup ∧ (∀ c ∈ cs, c ∉ reserved) ∧ ∃ p ∈ integers, enumBase b = p.1 ∧ find ds p.1 = none
  | .delegate _ mods ret n ps => n ∉ reserved ∧ ResultOk ds mods ret ∧ ParamsOk ds mods ps
  | .cls mods n ms => n ∉ reserved ∧ kPartial ∈ mods ∧ ∀ x ∈ ms, MemberOk ds mods n x

/-- The file compiles: no two types have the same name (CS0101), nor two members of a class (CS0102), and so on. -/
structure Compiles (f : File) : Prop where
  name : f.name ∉ reserved
  decls : ∀ d ∈ f.decls, DeclOk f.decls d
  types : (f.decls.filterMap Decl.typeName).Nodup
  classes : ∀ mods n ms, .cls mods n ms ∈ f.decls → n ∉ f.decls.filterMap Decl.typeName
  members : ∀ n, ((classMembers n f.decls).map Member.name).Nodup

end Verif.Headers.Cs
